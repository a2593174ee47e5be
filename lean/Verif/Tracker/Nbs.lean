import Verif.Tracker.Lemmas
import Verif.Graph.Spec
/-! The neighbor relation of facets. -/
namespace Verif.Trk
open Verif.SRM
variable {d : Nat} {γ : Type}

theorem mem_sideOf {f e : Elem} (hf : Facet d f) : ∃ S, f.sideOf (d + 1) = some S ∧ S.Nodup ∧
    ∀ e, e ∈ S ↔ IsCell d e ∧ FaceOf d f e := by
  obtain ⟨vf, hvf⟩ := vertices_exists hf.type
  obtain ⟨S, h1, h2, h3⟩ := C14_side_of (d + 1) (by omega) f vf d hf.dim (by omega) hf.len hvf
  refine ⟨S, h1, h2, fun e => ?_⟩
  rw [h3]
  constructor
  · rintro ⟨a, b, ve, hve, hd⟩
    exact ⟨⟨b, a, type_lt_of_vertices hve⟩, ve, vf, hve, hvf, hd⟩
  · rintro ⟨a, ve, vf', h4, h5, h6⟩
    rw [hvf] at h5
    cases h5
    exact ⟨a.len, a.dim, ve, h4, h6⟩

theorem mem_sides {e : Elem} (he : IsCell d e) : ∃ S, e.sides (d + 1) = some S ∧ S.Nodup ∧ S.length = d + 2 ∧
    ∀ f, f ∈ S ↔ Facet d f ∧ FaceOf d f e := by
  obtain ⟨ve, hve⟩ := vertices_exists he.type
  obtain ⟨S, h1, h2, h2', h3⟩ := C14_sides (d + 1) (by omega) e ve d he.dim (by omega) he.len hve
  refine ⟨S, h1, h2, h2', fun f => ?_⟩
  rw [h3]
  constructor
  · rintro ⟨a, b, vf, hvf, hd⟩
    exact ⟨⟨b, a, type_lt_of_vertices hvf⟩, ve, vf, hve, hvf, hd⟩
  · rintro ⟨a, ve', vf, h4, h5, h6⟩
    rw [hve] at h4
    cases h4
    exact ⟨a.len, a.dim, vf, h5, h6⟩

/-- neighbors: the facets sharing a cell -/
theorem mem_nbs {f g : Elem} : g ∈ nbs (d + 1) f ↔ Facet d f ∧ Facet d g ∧
    ∃ e, IsCell d e ∧ FaceOf d f e ∧ FaceOf d g e := by
  unfold nbs
  by_cases hf : Facet d f
  · rw [if_pos ⟨hf.len, by rw [hf.dim], hf.type⟩]
    obtain ⟨S, h1, -, h3⟩ := mem_sideOf (e := f) hf
    rw [h1]
    simp only
    rw [mem_toSet, List.mem_flatMap]
    constructor
    · rintro ⟨e, he, hg⟩
      obtain ⟨a, b⟩ := (h3 e).1 he
      obtain ⟨S', s1, -, -, s2⟩ := mem_sides a
      rw [s1] at hg
      obtain ⟨q, r⟩ := (s2 g).1 hg
      exact ⟨hf, q, e, a, b, r⟩
    · rintro ⟨-, hg, e, he, q, r⟩
      refine ⟨e, (h3 e).2 ⟨he, q⟩, ?_⟩
      obtain ⟨S', s1, -, -, s2⟩ := mem_sides he
      rw [s1]
      exact (s2 g).2 ⟨hg, r⟩
  · rw [if_neg (fun h => hf ⟨by omega, h.1, h.2.2⟩)]
    simp [hf]

theorem nbs_symm : Gr.Symm (nbs (d + 1)) := by
  intro f g h
  obtain ⟨a, b, e, h1, h2, h3⟩ := mem_nbs.1 h
  exact mem_nbs.2 ⟨b, a, e, h1, h3, h2⟩

theorem nbs_nodup (f : Elem) : (nbs (d + 1) f).Nodup := by
  unfold nbs
  split
  · split
    · exact List.nodup_nil
    · exact (toSet_sorted _).nodup
  · exact List.nodup_nil

/-! ### tags -/

theorem bounds_len {c : Cfg d γ} (hc : Shaped c) : c.bounds.lb.length = d + 1 ∧ c.bounds.ub.length = d + 1 := by
  simp [Cfg.bounds, hc.dlen.1, hc.dlen.2]

theorem within_inBounds {b : Bounds} : ∀ {v : Vtx}, v.length = b.lb.length → b.lb.length = b.ub.length →
    (within b.lb b.ub v = true ↔ InBounds b v) := by
  obtain ⟨lb, ub⟩ := b
  simp only [InBounds]
  induction lb generalizing ub with
  | nil =>
    intro v h1 h2
    simp [List.eq_nil_of_length_eq_zero h1, within]
  | cons l lb ih =>
    intro v h1 h2
    rcases v with _ | ⟨x, v⟩
    · simp at h1
    rcases ub with _ | ⟨u, ub⟩
    · simp at h2
    simp only [within, Bool.and_eq_true, decide_eq_true_eq]
    rw [ih ub (by simpa using h1) (by simpa using h2)]
    constructor
    · rintro ⟨⟨a, b⟩, -, h⟩
      refine ⟨h1, ?_⟩
      intro i l' u' x' e1 e2 e3
      cases i with
      | zero => simp at e1 e2 e3; omega
      | succ i => exact h i l' u' x' (by simpa using e1) (by simpa using e2) (by simpa using e3)
    · rintro ⟨-, h⟩
      refine ⟨h 0 l u x rfl rfl rfl, by simpa using h1, ?_⟩
      intro i l' u' x' e1 e2 e3
      exact h (i + 1) l' u' x' (by simpa using e1) (by simpa using e2) (by simpa using e3)

theorem elemValid_iff {c : Cfg d γ} (hc : Shaped c) {e : Elem} (he : e.corner.length = d + 1) (hd : e.dim ≤ d + 1) :
    elemValid (d + 1) c.bounds e = true ↔ ∃ vs, e.vertices (d + 1) = some vs ∧ ∀ v ∈ vs, InBounds c.bounds v := by
  unfold elemValid
  obtain ⟨b1, b2⟩ := bounds_len hc
  cases hv : e.vertices (d + 1) with
  | none => simp
  | some vs =>
    have hcell := cell_of_elem (n := d + 1) (by omega) hd rfl he hv
    simp only [List.all_eq_true, Option.some.injEq, exists_eq_left']
    constructor
    · intro h v hvm
      exact (within_inBounds (by rw [b1]; exact (hcell.cube v hvm).1) (by rw [b1, b2])).1 (h v hvm)
    · intro h v hvm
      exact (within_inBounds (by rw [b1]; exact (hcell.cube v hvm).1) (by rw [b1, b2])).2 (h v hvm)

/-- the tag of a detected point gives back its facet -/
theorem elemOf_detect {c : Cfg d γ} (hc : Shaped c) {e : Elem} (he : Facet d e) {f : Int} {t : Nat}
    {rd : Vtx → Option (Fin d → Option Rat)} {cp : CP γ} (h : checkWith c f t rd e = some (some cp)) :
    elemOf c cp = e := by
  have hval : elemValid (d + 1) c.bounds e = true := by
    unfold checkWith at h
    split at h
    · assumption
    · cases h
  have htag : cp.tag = e.toInteger (d + 1) c.bounds := by
    unfold checkWith at h
    rw [if_pos hval] at h
    split at h
    · cases h
    · split at h
      · cases h
      · split at h
        · cases h; rfl
        · cases h
  obtain ⟨b1, b2⟩ := bounds_len hc
  have hdim : e.dim ≤ d + 1 := by rw [he.dim]; omega
  obtain ⟨vs, hvs, hin⟩ := (elemValid_iff hc he.len hdim).1 hval
  have hcell := cell_of_elem (n := d + 1) (by omega) hdim rfl he.len hvs
  have hcorner : InBounds c.bounds e.corner := hin _ (List.mem_of_mem_head? hcell.head)
  obtain ⟨i, h1, -, h3⟩ := C12_from_to (d + 1) (by omega) c.bounds b1 b2 e ⟨hdim, he.type, hcorner⟩
  unfold elemOf
  rw [htag, h1, Int.toNat_natCast]
  rw [he.dim] at h3
  exact h3

end Verif.Trk
