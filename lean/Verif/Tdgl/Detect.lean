import Verif.Tdgl.Outside
import Verif.CLine.Detect
/-! C107: which triangles the vortex tracker records. -/
namespace Verif.Tdgl
open Verif.SRM
open Verif.Gen (Box InsideV Inside Shaped)
open Verif.Ctr (IsElem FaceOf)
open Verif.Ser (Sorted)
open Real (pi pi_pos)
open Verif.CLT (vec3)

theorem turns_iff (phi li : Fin 3 → ℝ) : (∃ n : ℤ, Winds phi li n ∧ pi ≤ |2 * pi * n - (li 0 + li 1 + li 2)|) ↔ crossed phi li = true := by
  obtain ⟨n, h1, h2, h3⟩ := C104_contour phi li
  rw [h3]
  constructor
  · rintro ⟨m, hm, h⟩
    rwa [h2 m hm] at h
  · exact fun h => ⟨n, h1, h⟩

/-- (specification) the point recorded for a triangle -/
noncomputable def pointAt (c : Cfg) (series : List Snap) (t : Nat) (e : Elem) (vs : Fin 3 → Vtx) : Pt :=
  point c t e vs fun i => valueAt c series (vs i)

theorem det_iff (c : Cfg) (series : List Snap) (t : Nat) (e : Elem) (he : IsElem 4 2 e) (p : Pt) :
    (tracker c).Det series t e p ↔ ∃ vs, VortexAt c series e vs ∧ p = pointAt c series t e vs := by
  constructor
  · rintro ⟨l, h1, h2, h3⟩
    change test c t e l _ = some p at h3
    obtain ⟨ve, hve, hcell⟩ := he.cell (by omega) (by omega)
    rw [h1] at hve
    cases hve
    have hl := hcell.len
    rcases l with _ | ⟨a, _ | ⟨b, _ | ⟨d, _ | ⟨x, l⟩⟩⟩⟩ <;> simp at hl
    simp only [List.map_cons, List.map_nil, test] at h3
    have hv : (![(tracker c).valueAt series a, (tracker c).valueAt series b, (tracker c).valueAt series d] : Fin 3 → Val) =
        fun i => valueAt c series ((![a, b, d] : Fin 3 → Vtx) i) := by
      funext i; fin_cases i <;> rfl
    rw [hv] at h3
    split at h3
    · rename_i hh
      refine ⟨![a, b, d], ⟨he, h1, ?_, (turns_iff _ _).2 hh⟩, (Option.some.inj h3).symm⟩
      intro i
      fin_cases i
      · exact h2 a (by simp)
      · exact h2 b (by simp)
      · exact h2 d (by simp)
    · cases h3
  · rintro ⟨vs, hp, rfl⟩
    refine ⟨_, hp.verts, ?_, ?_⟩
    · intro v hv
      simp only [List.mem_cons, List.not_mem_nil, or_false] at hv
      rcases hv with rfl | rfl | rfl
      · exact hp.inside 0
      · exact hp.inside 1
      · exact hp.inside 2
    · have ht : (tracker c).test = test c := rfl
      rw [ht]
      simp only [List.map_cons, List.map_nil, test]
      have hv : (![(tracker c).valueAt series (vs 0), (tracker c).valueAt series (vs 1),
          (tracker c).valueAt series (vs 2)] : Fin 3 → Val) = fun i => valueAt c series (vs i) := by
        funext i; fin_cases i <;> rfl
      rw [hv, vec3, if_pos (by exact (turns_iff _ _).1 hp.turns)]
      rfl

/-- C107: after the driver's loop over a series, for every order of the tasks, the tracker has recorded exactly the triangles
crossed by vortices, each with its point; none is missed, whatever its time. -/
theorem C107_detects (c : Cfg) (series : List Snap) (hne : series ≠ [])
    (hc : Shaped c.box series.length) (hcov : ∀ s ∈ series, Covers c s) (ord : Nat → Scope → List Int)
    (ho : ∀ k, Complete c (ord k)) :
    ∃ st, Gen.run (tracker c).prog (Gen.driveOps series ord) Gen.St.init = some st ∧ Sorted st.inter ∧
      st.cur + 1 = series.length ∧
      ∀ e p, (e, p) ∈ st.inter ↔ ∃ (vs : Fin 3 → Vtx) (t : Nat), VortexAt c series e vs ∧ AtTime 4 e.corner t ∧
        p = pointAt c series t e vs := by
  obtain ⟨st, h1, h2, h3, h4⟩ := Gen.vertex_drive (g := tracker c) hc (by show 2 ≤ 3; omega) hne hcov ord ho
  refine ⟨st, h1, h2, h3, fun e p => (h4 e p).trans ?_⟩
  constructor
  · rintro ⟨he, t, hat, hd⟩
    obtain ⟨vs, hp, rfl⟩ := (det_iff c series t e he p).1 hd
    exact ⟨vs, t, hp, hat, rfl⟩
  · rintro ⟨vs, t, hp, hat, rfl⟩
    exact ⟨hp.tri, t, hat, (det_iff c series t e hp.tri _).2 ⟨vs, hp, rfl⟩⟩

/-- every crossed triangle has a time -/
theorem VortexAt.time {c : Cfg} {series : List Snap} {e : Elem} {vs : Fin 3 → Vtx}
    (h : VortexAt c series e vs) : ∃ t : Nat, AtTime 4 e.corner t ∧ t < series.length := by
  have hcell := cell_of_elem (n := 4) (by omega) (k := 2) (by omega) h.tri.dim h.tri.len h.verts
  have : vs 0 = e.corner := by simpa using hcell.head
  rw [← this]
  exact (h.inside 0).time

/-- the keys of the result are the crossed triangles -/
theorem keys_vortex {c : Cfg} {series : List Snap} {inter : List (Elem × Pt)}
    (h : ∀ e p, (e, p) ∈ inter ↔ ∃ (vs : Fin 3 → Vtx) (t : Nat), VortexAt c series e vs ∧ AtTime 4 e.corner t ∧
      p = pointAt c series t e vs) (e : Elem) : e ∈ inter.map Prod.fst ↔ Vortex c series e := by
  constructor
  · intro he
    obtain ⟨⟨e', p⟩, hm, rfl⟩ := List.mem_map.1 he
    obtain ⟨vs, t, hp, -⟩ := (h _ _).1 hm
    exact ⟨vs, hp⟩
  · rintro ⟨vs, hp⟩
    obtain ⟨t, hat, -⟩ := hp.time
    exact List.mem_map.2 ⟨(e, _), (h e _).2 ⟨vs, t, hp, hat, rfl⟩, rfl⟩

end Verif.Tdgl
