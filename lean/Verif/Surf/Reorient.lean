import Verif.Surf.Discard
import Mathlib.Data.List.Perm.Subperm
/-! C91: reorienting the triangles of a surface. -/
namespace Verif.Surf
variable {δ : Type}

/-- a triangle with its first two vertices exchanged -/
def flipped (t : Tri) : Tri := (t.2.1, t.1, t.2.2)

/-- the same triangles, some of them flipped -/
def Flips (old new : List Tri) : Prop := List.Forall₂ (fun t u => u = t ∨ u = flipped t) old new

theorem Flips.refl (l : List Tri) : Flips l l := by
  induction l with
  | nil => exact .nil
  | cons t l ih => exact .cons (.inl rfl) ih

theorem flipped_flipped (t : Tri) : flipped (flipped t) = t := rfl

theorem Flips.set {old new : List Tri} (h : Flips old new) : ∀ {k : Nat} {b : Tri}, new[k]? = some b → Flips old (new.set k (flipped b)) := by
  induction h with
  | nil => intro k b hb; simp at hb
  | @cons t u ts us htu _ ih =>
    intro k b hb
    cases k with
    | zero =>
      simp only [List.getElem?_cons_zero, Option.some.injEq] at hb
      subst hb
      refine .cons ?_ (by assumption)
      rcases htu with rfl | rfl
      · exact .inr rfl
      · exact .inl (flipped_flipped t)
    | succ k => exact .cons htu (ih (by simpa using hb))

/-- state of the search: `n` triangles, those in `vis` reached, those in `Q` waiting -/
structure RInv (old : List Tri) (st : List Tri × List Nat × List Nat) : Prop where
  flips : Flips old st.1
  nodup : st.2.1.Nodup
  lt : ∀ k ∈ st.2.1, k < old.length
  sub : ∀ k ∈ st.2.2, k ∈ st.2.1
  zero : 0 ∈ st.2.1
  first : st.1[0]? = old[0]?

theorem reorientNb_spec {old : List Tri} {st : List Tri × List Nat × List Nat} (h : RInv old st) {i k : Nat} (hi : i ∈ st.2.1) (hk : k < old.length) :
    ∃ st' a, reorientNb i st k = some st' ∧ RInv old st' ∧ st'.2.1.length = st.2.1.length + a ∧ st'.2.2.length = st.2.2.length + a ∧
      (∀ x ∈ st.2.1, x ∈ st'.2.1) := by
  unfold reorientNb
  by_cases hv : k ∈ st.2.1
  · rw [if_pos hv]
    exact ⟨st, 0, rfl, h, rfl, rfl, fun x hx => hx⟩
  · rw [if_neg hv]
    have hl : st.1.length = old.length := h.flips.length_eq.symm
    have gi := List.getElem?_eq_getElem (l := st.1) (i := i) (by rw [hl]; exact h.lt i hi)
    have gk := List.getElem?_eq_getElem (l := st.1) (i := k) (by rw [hl]; exact hk)
    generalize st.1[i]'(by rw [hl]; exact h.lt i hi) = a at gi
    generalize st.1[k]'(by rw [hl]; exact hk) = b at gk
    rw [gi, gk]
    refine ⟨_, 1, rfl, ⟨?_, ?_, ?_, ?_, ?_, ?_⟩, by simp, by simp, fun x hx => by simp [hx]⟩
    · simp only
      split
      · exact h.flips.set gk
      · exact h.flips
    · exact List.nodup_cons.2 ⟨hv, h.nodup⟩
    · intro x hx
      rcases List.mem_cons.1 hx with rfl | hx
      · exact hk
      · exact h.lt x hx
    · intro x hx
      simp only [List.mem_append, List.mem_singleton] at hx
      rcases hx with hx | rfl
      · exact .tail _ (h.sub x hx)
      · exact .head _
    · exact .tail _ h.zero
    · simp only
      have h0 : k ≠ 0 := by rintro rfl; exact hv h.zero
      split
      · rw [List.getElem?_set_ne h0]; exact h.first
      · exact h.first

theorem foldlM_nb {old : List Tri} {i : Nat} : ∀ (ks : List Nat) {st : List Tri × List Nat × List Nat}, RInv old st → i ∈ st.2.1 →
    (∀ k ∈ ks, k < old.length) →
    ∃ st' a, ks.foldlM (reorientNb i) st = some st' ∧ RInv old st' ∧ st'.2.1.length = st.2.1.length + a ∧ st'.2.2.length = st.2.2.length + a ∧
      (∀ x ∈ st.2.1, x ∈ st'.2.1) := by
  intro ks
  induction ks with
  | nil => intro st h _ _; exact ⟨st, 0, rfl, h, rfl, rfl, fun x hx => hx⟩
  | cons k ks ih =>
    intro st h hi hk
    obtain ⟨st1, a, e1, h1, v1, q1, m1⟩ := reorientNb_spec h hi (hk k (by simp))
    obtain ⟨st2, b, e2, h2, v2, q2, m2⟩ := ih h1 (m1 i hi) fun k h => hk k (by simp [h])
    refine ⟨st2, a + b, by rw [List.foldlM_cons, e1]; exact e2, h2, by omega, by omega, fun x hx => m2 x (m1 x hx)⟩

theorem reorientEdge_spec {old : List Tri} {et : Nat × Nat → List Nat} (het : ∀ e, ∀ k ∈ et e, k < old.length) {i : Nat} {j : Nat} (hj : j < 3)
    {st : List Tri × List Nat × List Nat} (h : RInv old st) (hi : i ∈ st.2.1) :
    ∃ st' a, reorientEdge et i st j = some st' ∧ RInv old st' ∧ st'.2.1.length = st.2.1.length + a ∧ st'.2.2.length = st.2.2.length + a ∧
      (∀ x ∈ st.2.1, x ∈ st'.2.1) := by
  unfold reorientEdge
  have hl : st.1.length = old.length := h.flips.length_eq.symm
  have gi := List.getElem?_eq_getElem (l := st.1) (i := i) (by rw [hl]; exact h.lt i hi)
  rw [gi]
  have hd : ∀ t : Tri, ∃ e, (dirEdges t)[j]? = some e := fun t => ⟨_, List.getElem?_eq_getElem (l := dirEdges t) (i := j) hj⟩
  obtain ⟨e, he⟩ := hd (st.1[i]'(by rw [hl]; exact h.lt i hi))
  simp only [he]
  exact foldlM_nb _ h hi fun k hk => het _ k (List.mem_filter.1 hk).1

theorem reorientLoop_spec {old : List Tri} {et : Nat × Nat → List Nat} (het : ∀ e, ∀ k ∈ et e, k < old.length) :
    ∀ (fuel : Nat) (st : List Tri × List Nat × List Nat), RInv old st → st.2.2.length + old.length ≤ fuel + st.2.1.length →
    ∃ ts, reorientLoop et fuel st = some ts ∧ Flips old ts ∧ ts[0]? = old[0]? := by
  intro fuel
  induction fuel with
  | zero =>
    intro st h hf
    obtain ⟨ts, vis, Q⟩ := st
    cases Q with
    | nil => exact ⟨ts, by simp only [reorientLoop], h.flips, h.first⟩
    | cons i Q =>
      exfalso
      have hv : vis.length ≤ old.length := by
        have : vis.Subperm (List.range old.length) := List.subperm_of_subset h.nodup fun k hk => List.mem_range.2 (h.lt k hk)
        simpa using this.length_le
      simp only [List.length_cons] at hf
      omega
  | succ fuel ih =>
    intro st h hf
    obtain ⟨ts, vis, Q⟩ := st
    cases Q with
    | nil => exact ⟨ts, by simp only [reorientLoop], h.flips, h.first⟩
    | cons i Q =>
      have hi : i ∈ vis := h.sub i (by simp)
      have h0 : RInv old (ts, vis, Q) := ⟨h.flips, h.nodup, h.lt, fun k hk => h.sub k (.tail _ hk), h.zero, h.first⟩
      obtain ⟨s1, a1, e1, h1, v1, q1, m1⟩ := reorientEdge_spec het (i := i) (j := 0) (by omega) h0 hi
      obtain ⟨s2, a2, e2, h2, v2, q2, m2⟩ := reorientEdge_spec het (i := i) (j := 1) (by omega) h1 (m1 i hi)
      obtain ⟨s3, a3, e3, h3, v3, q3, m3⟩ := reorientEdge_spec het (i := i) (j := 2) (by omega) h2 (m2 i (m1 i hi))
      have e : [0, 1, 2].foldlM (reorientEdge et i) (ts, vis, Q) = some s3 := by
        simp only [List.foldlM_cons, List.foldlM_nil, e1, Option.bind_eq_bind, Option.bind_some, e2, e3]
        rfl
      obtain ⟨out, eo, ho⟩ := ih s3 h3 (by
        simp only [List.length_cons] at hf
        simp only at v1 q1
        omega)
      exact ⟨out, by simp only [reorientLoop, e, eo], ho⟩

/-- C91: on a surface with a triangle, `reorient` ends and changes nothing but the order of the first two vertices of some
triangles; the first triangle is unchanged.  Missing: that neighbouring triangles then have consistent orientations (false,
see `C91_breaks_orientation`). -/
theorem C91_reorient_partial (s : Surface δ) (hne : s.tris ≠ []) :
    ∃ s', s.reorient = some s' ∧ s'.pts = s.pts ∧ s'.quads = s.quads ∧ s'.pentagons = s.pentagons ∧
      Flips s.tris s'.tris ∧ s'.tris.head? = s.tris.head? := by
  have hpos : 0 < s.tris.length := List.length_pos_iff.2 hne
  obtain ⟨ts, e, h1, h2⟩ := reorientLoop_spec (old := s.tris) (et := edgeTriangles s.tris) (by
    intro e k hk
    exact List.mem_range.1 (List.mem_filter.1 hk).1) (s.tris.length + 1) (s.tris, [0], [0]) ⟨Flips.refl _, by simp, by
      intro k hk; simp only [List.mem_singleton] at hk; subst hk; exact hpos, by simp, by simp, rfl⟩ (by simp; omega)
  refine ⟨{ s with tris := ts }, by unfold Surface.reorient; rw [e]; rfl, rfl, rfl, rfl, h1, ?_⟩
  simpa only [List.head?_eq_getElem?] using h2

/-- two triangles agree: they do not pass through an edge in the same direction -/
def Agree (t u : Tri) : Prop := ∀ e ∈ dirEdges t, e ∉ dirEdges u

/-- C91 (finding): two triangles that agree are made to disagree. -/
theorem C91_breaks_orientation : ∃ s : Surface Unit, ∃ t u t' u', s.tris = [t, u] ∧ Agree t u ∧
    s.reorient.map Surface.tris = some [t', u'] ∧ ¬ Agree t' u' := by
  refine ⟨⟨[], [(0, 1, 2), (2, 1, 3)], [], []⟩, (0, 1, 2), (2, 1, 3), (0, 1, 2), (1, 2, 3), rfl, ?_, by decide +kernel, ?_⟩
  · intro e he; simp only [dirEdges, List.mem_cons, List.not_mem_nil, or_false] at he ⊢
    rcases he with rfl | rfl | rfl <;> simp
  · intro h
    exact h (1, 2) (by simp [dirEdges]) (by simp [dirEdges])

/-- C91 (finding): two triangles that disagree along an edge that is not at the same place in both stay as they are (the
assertion at the end of `chirality` fails, if enabled). -/
theorem C91_leaves_disagreement : chirality (0, 1, 2) (1, 2, 3) = 0 ∧
    (⟨[], [(0, 1, 2), (1, 2, 3)], [], []⟩ : Surface Unit).reorient.map Surface.tris = some [(0, 1, 2), (1, 2, 3)] ∧
    ¬ Agree (0, 1, 2) (1, 2, 3) := by
  refine ⟨by decide +kernel, by decide +kernel, ?_⟩
  intro h
  exact h (1, 2) (by simp [dirEdges]) (by simp [dirEdges])

/-- C91 (finding): without triangles, `reorient` reads outside the vector of triangles. -/
theorem C91_no_triangles (pts : List (FPt δ)) (quads : List Quad) (pentagons : List Penta) :
    (⟨pts, [], quads, pentagons⟩ : Surface δ).reorient = none := rfl

/-- four triangles around a point -/
example : (⟨[], [(0, 1, 2), (0, 2, 3), (0, 3, 4), (0, 4, 1)], [], []⟩ : Surface Unit).reorient.map Surface.tris ≠ none := by decide +kernel

end Verif.Surf
