import Verif.CLine.Surface
import Verif.CLine.Lines
/-! C97: the surfaces of the critical line tracker. -/
namespace Verif.CLT
open Verif.SRM
open Relation (EqvGen)
open Verif.Gen (Box InsideV Inside Shaped)
open Verif.Ctr (IsElem FaceOf)

variable {S V : Type} [Inhabited V]

/-- C97: in every 4-simplex of the spacetime mesh inside the domain and the series, the pierced triangles are the corners of
one polygon of three, four or five sides, or there are none; every tetrahedron has none or exactly two, which are
consecutive. -/
theorem C97_ring (c : Cfg V) (rd : S → List Int → Option V) (series : List S) (hc : Shaped c.box series.length) (x : Elem)
    (hx : IsElem 4 4 x) (hin : Inside c.box series.length x) : ∃ ts fs, Ring c rd series x ts fs :=
  ring_exists rd series hc hx hin

theorem Patch.distinct {ids : List Nat} {tris : List (Nat × Nat × Nat)} (h : Patch ids tris) (hnd : ids.Nodup)
    {t : Nat × Nat × Nat} (ht : t ∈ tris) : t.1 ≠ t.2.1 ∧ t.1 ≠ t.2.2 ∧ t.2.1 ≠ t.2.2 := by
  rcases h with ⟨-, i, j, k, rfl, rfl⟩ | ⟨-, i, j, k, l, rfl, hp⟩ | ⟨-, i, j, k, l, m, rfl, hp⟩ | ⟨-, rfl⟩
  · simp only [List.mem_singleton] at ht
    subst ht
    simp only [List.nodup_cons, List.mem_cons, List.not_mem_nil, or_false, not_or] at hnd
    simp only
    omega
  · have := hp.mem_iff.1 ht
    simp only [List.nodup_cons, List.mem_cons, List.not_mem_nil, or_false, not_or] at hnd
    simp only [List.mem_cons, List.not_mem_nil, or_false] at this
    rcases this with rfl | rfl | rfl | rfl <;> simp only <;> omega
  · have := hp.mem_iff.1 (List.mem_cons_of_mem _ ht)
    simp only [List.nodup_cons, List.mem_cons, List.not_mem_nil, or_false, not_or] at hnd
    simp only [List.mem_cons, List.not_mem_nil, or_false] at this
    rcases this with rfl | rfl | rfl | rfl | rfl | rfl | rfl | rfl | rfl | rfl <;> simp only <;> omega
  · cases ht

theorem keys_of {c : Cfg V} {rd : S → List Int → Option V} {series : List S} {inter : List (Elem × Pt)} (hs : Ser.Sorted inter)
    (h : ∀ e p, (e, p) ∈ inter ↔ ∃ (vs : Fin 3 → Vtx) (t : Nat), PiercedAt c rd series e vs ∧ AtTime 4 e.corner t ∧
      p = pointAt c rd series t e vs) : Keys c rd series inter :=
  ⟨Trk.sorted_nodup hs, keys_pierced h⟩

theorem surfacePts_get (inter : List (Elem × Pt)) (i : Nat) (q : Surf.FPt Pt) :
    (surfacePts inter)[i]? = some q ↔ ∃ e p, inter[i]? = some (e, p) ∧ q = ⟨i, p.timestep, p.ordinal, p⟩ := by
  unfold surfacePts
  rw [List.getElem?_map, List.getElem?_zipIdx]
  cases h : inter[i]? with
  | none => simp
  | some kv =>
    obtain ⟨e, p⟩ := kv
    simp only [Option.map_some, Option.some.injEq, Prod.mk.injEq, Nat.zero_add]
    constructor
    · rintro rfl
      exact ⟨e, p, ⟨rfl, rfl⟩, rfl⟩
    · rintro ⟨e', p', ⟨rfl, rfl⟩, rfl⟩
      rfl

/-- C97, what holds of the surface: for a series of any length, every order of the tasks of all scans and of the surface step,
the surface is built (nothing overflows); its points are the recorded ones; its triangles have three different corners; they are
the patches of the 4-simplices inside that have pierced triangles, one each, on the points of those; two
points are corners of a common triangle exactly if their triangles of the mesh lie on a common 4-simplex inside; and two
points get the same identifier exactly if they are linked through such 4-simplices.  What is missing: the triangles of
a 4-simplex are not a triangulation of its polygon when it has more than three corners (`C97_quad_closed`). -/
theorem C97_surface_partial (c : Cfg V) (rd : S → List Int → Option V) (series : List S) (hne : series ≠ [])
    (hc : Shaped c.box series.length) (hcov : ∀ s ∈ series, Covers c rd s) (ord : Nat → Scope → List Int)
    (ho : ∀ k, Complete c (ord k)) (perm : List Elem → List Elem) (hperm : ∀ l, (perm l).Perm l) :
    ∃ st s, Gen.run (tracker c rd).prog (Gen.driveOps series ord) Gen.St.init = some st ∧
      surfaces c.box.bounds st.inter perm = some s ∧ s.pts.length = st.inter.length ∧ s.quads = [] ∧ s.pentagons = [] ∧
      (∀ (i : Nat) e p, st.inter[i]? = some (e, p) → ∃ id, s.pts[i]? = some ⟨id, p.timestep, p.ordinal, p⟩) ∧
      (∀ t ∈ s.tris, (t.1 < s.pts.length ∧ t.2.1 < s.pts.length ∧ t.2.2 < s.pts.length) ∧
        t.1 ≠ t.2.1 ∧ t.1 ≠ t.2.2 ∧ t.2.1 ≠ t.2.2) ∧
      (∃ (order : List Elem) (g : Elem → List (Nat × Nat × Nat)), s.tris = order.flatMap g ∧ order.Nodup ∧
        (∀ x, x ∈ order ↔ IsElem 4 4 x ∧ Inside c.box series.length x ∧ ∃ f, Pierced c rd series f ∧ FaceOf 4 f x) ∧
        ∀ x ∈ order, ∃ ids, ids.Nodup ∧ 3 ≤ ids.length ∧ Patch ids (g x) ∧
          ∀ i, i ∈ ids ↔ ∃ f, (st.inter.map Prod.fst)[i]? = some f ∧ FaceOf 4 f x) ∧
      (∀ i j, SameTri s.tris i j ↔ SameCell c series.length st.inter i j) ∧
      ∀ (i j : Nat) (p q : Surf.FPt Pt), s.pts[i]? = some p → s.pts[j]? = some q → (p.id = q.id ↔ EqvGen (SameCell c series.length st.inter) i j) := by
  obtain ⟨st, h1, h2, -, h4⟩ := C96_detects c rd series hne hc hcov ord ho
  have hk := keys_of h2 h4
  obtain ⟨cells, e1, -⟩ := relatedCells_spec hk c.box.bounds
  obtain ⟨g, g1, gnd, g2, g3⟩ := surfaceTris_spec hc hk e1 (hperm cells)
  have hsame := sameTri_iff hc hk g2 g3
  have hpl : (surfacePts st.inter).length = st.inter.length := by simp [surfacePts]
  have hrange : ∀ t ∈ (perm cells).flatMap g, (t.1 < st.inter.length ∧ t.2.1 < st.inter.length ∧ t.2.2 < st.inter.length) ∧
      t.1 ≠ t.2.1 ∧ t.1 ≠ t.2.2 ∧ t.2.1 ≠ t.2.2 := by
    intro t ht
    obtain ⟨x, hx, hxt⟩ := List.mem_flatMap.1 ht
    obtain ⟨ids, hnd, hpat, hids, -, -⟩ := (g3 x hx).patch
    have hlt : ∀ i ∈ ids, i < st.inter.length := by
      intro i hi
      obtain ⟨f, hf, -⟩ := (hids i).1 hi
      by_contra hn
      rw [List.getElem?_eq_none (by rw [List.length_map]; omega)] at hf
      cases hf
    obtain ⟨s1, s2, s3⟩ := hpat.sub hxt
    exact ⟨⟨hlt _ s1, hlt _ s2, hlt _ s3⟩, hpat.distinct hnd hxt⟩
  obtain ⟨s', r1, r2, r3, r4, -, r5⟩ := Surf.C87_surface_partial
    (⟨surfacePts st.inter, (perm cells).flatMap g, [], []⟩ : Surf.Surface Pt) (by
      intro l hl i hi
      simp only [Surf.Surface.cells, List.map_nil, List.append_nil, List.mem_map] at hl
      obtain ⟨t, ht, rfl⟩ := hl
      obtain ⟨⟨a, b, d⟩, -⟩ := hrange t ht
      simp only [Surf.triVs, List.mem_cons, List.not_mem_nil, or_false] at hi
      rcases hi with rfl | rfl | rfl <;> rw [hpl] <;> assumption)
  have hL := r5 rfl
  have hlen : s'.pts.length = st.inter.length := by rw [← hL.same.length_eq, hpl]
  refine ⟨st, s', h1, ?_, hlen, r3, r4, ?_, ?_, ?_, ?_, ?_⟩
  · unfold surfaces
    simp only [e1, g1, r1]
  · intro i e p hip
    have ho : (surfacePts st.inter)[i]? = some ⟨i, p.timestep, p.ordinal, p⟩ := (surfacePts_get _ _ _).2 ⟨e, p, hip, rfl⟩
    have hi : i < s'.pts.length := by
      rw [hlen]
      by_contra hn
      rw [List.getElem?_eq_none (by omega)] at hip
      cases hip
    have hi' : i < (surfacePts st.inter).length := by rw [hpl, ← hlen]; exact hi
    have := (List.forall₂_iff_get.1 hL.same).2 i hi' hi
    rw [List.getElem?_eq_getElem hi'] at ho
    have h' := Option.some.inj ho
    simp only [List.get_eq_getElem] at this
    rw [h'] at this
    exact ⟨_, (List.getElem?_eq_getElem hi).trans (congrArg some this)⟩
  · intro t ht
    rw [r2] at ht
    rw [hlen]
    exact hrange t ht
  · classical
    have hno : ∀ x ∈ perm cells, ¬ Inside c.box series.length x → g x = [] := by
      intro x hx hn
      obtain ⟨ids, hnd, hpat, hids, -, h3⟩ := (g3 x hx).patch
      have := h3 hn
      rcases hpat with ⟨h, -⟩ | ⟨h, -⟩ | ⟨h, -⟩ | ⟨-, h⟩
      · omega
      · omega
      · omega
      · exact h
    refine ⟨(perm cells).filter fun x => decide (Inside c.box series.length x), g, ?_, gnd.filter _, fun x => ?_, fun x hx => ?_⟩
    · rw [r2]
      simp only
      clear g1 g2 g3 hsame hrange r1 r5 gnd r2 r3 r4 hL hlen
      revert hno
      generalize perm cells = L
      intro hno
      induction L with
      | nil => rfl
      | cons a l ih =>
        rw [List.flatMap_cons, ih fun x hx => hno x (List.mem_cons_of_mem _ hx), List.filter_cons]
        by_cases ha : Inside c.box series.length a
        · rw [if_pos (by simpa using ha), List.flatMap_cons]
        · rw [if_neg (by simpa using ha), hno a (by simp) ha, List.nil_append]
    · rw [List.mem_filter, g2, decide_eq_true_eq]
      constructor
      · rintro ⟨⟨a, b, d⟩, e⟩
        exact ⟨a, e, d⟩
      · rintro ⟨a, e, d⟩
        exact ⟨⟨a, inside_valid hc a e, d⟩, e⟩
    · rw [List.mem_filter, decide_eq_true_eq] at hx
      obtain ⟨ids, hnd, hpat, hids, h3, -⟩ := (g3 x hx.1).patch
      refine ⟨ids, hnd, ?_, hpat, hids⟩
      rcases h3 hx.2 with h | h
      · exfalso
        obtain ⟨-, -, f, hf, hfx⟩ := (g2 x).1 hx.1
        have := (hids (num st.inter f)).2 ⟨f, (num_get hk).2 ⟨hf, rfl⟩, hfx⟩
        rw [h] at this
        cases this
      · exact h
  · intro i j
    rw [r2]
    exact hsame i j
  · intro i j p q hp hq
    rw [hL.ids i j p q hp hq]
    have hrel : (fun a b => ∃ l ∈ (⟨surfacePts st.inter, (perm cells).flatMap g, [], []⟩ : Surf.Surface Pt).cells, a ∈ l ∧ b ∈ l) =
        SameCell c series.length st.inter := by
      funext a b
      apply propext
      rw [← hsame]
      simp only [Surf.Surface.cells, List.map_nil, List.append_nil, List.mem_map, SameTri]
      constructor
      · rintro ⟨l, ⟨t, ht, rfl⟩, ha, hb⟩
        exact ⟨t, ht, by simpa [Surf.triVs] using ha, by simpa [Surf.triVs] using hb⟩
      · rintro ⟨t, ht, ha, hb⟩
        exact ⟨_, ⟨t, ht, rfl⟩, by simpa [Surf.triVs] using ha, by simpa [Surf.triVs] using hb⟩
    unfold Surf.Joined
    rw [hrel]

/-- C98: for a single snapshot, whatever the schedule of the scan, the curves follow the pierced triangles through the
tetrahedra of the snapshot's mesh: every pierced triangle is on one curve, once; consecutive ones share a tetrahedron; a
curve closes or ends at the boundary of the domain on both sides; every tetrahedron is passed at most once. -/
theorem C98_lines (c : Cfg V) (rd : S → List Int → Option V) (s : S) (hc : Shaped c.box 1) (hcov : Covers c rd s)
    (ord : Nat → Scope → List Int) (ho : ∀ k, Complete c (ord k)) :
    ∃ st ks, Gen.run (tracker c rd).prog (Gen.driveOps [s] ord) Gen.St.init = some st ∧ st.cur = 0 ∧
      lines st.inter = some ks ∧ FollowsLines c rd s ks := by
  obtain ⟨st, h1, h2, h3, h4⟩ := C96_detects c rd [s] (by simp) hc (by
    intro s' hs'
    rw [List.mem_singleton] at hs'
    subst hs'
    exact hcov) ord ho
  obtain ⟨ks, k1, k2⟩ := lines_follow hc (keys_pierced h4)
  exact ⟨st, ks, h1, by simpa using h3, k1, k2⟩

end Verif.CLT
