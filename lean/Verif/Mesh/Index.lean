import Verif.Mesh.Sides
import Verif.Lattice.Props
import Verif.Parallel.Props
/-! Index arithmetic of elements. -/
namespace Verif.SRM

theorem divRev_eq_decodeRev : ∀ (ps : List Nat) (i : Nat), ps.getLast? = some 1 →
    divRev ps i = decodeRev ps i := by
  intro ps
  induction ps with
  | nil => intro i h; simp at h
  | cons p ps ih =>
    intro i h
    cases ps with
    | nil =>
      simp at h; subst h
      simp [divRev, decodeRev]
    | cons q qs =>
      have : (q :: qs).getLast? = some 1 := by simpa using h
      rw [divRev, decodeRev, ih _ this]

theorem divRev_strides (ss : List Nat) (h : ss ≠ []) (i : Nat) :
    (divRev (strides 1 ss).reverse i).reverse = decode (strides 1 ss) i := by
  unfold decode
  rw [divRev_eq_decodeRev]
  cases ss with
  | nil => exact absurd rfl h
  | cons s ss => simp [strides]

/-- add the lower bound -/
def shiftI (ys : List Nat) (lb : List Int) : List Int :=
  List.zipWith (fun (a : Nat) (l : Int) => (a : Int) + l) ys lb

theorem cornerIndex_shiftI : ∀ (ys : List Nat) (lb : List Int) (ps : List Nat),
    ys.length = lb.length → cornerIndex (shiftI ys lb) lb ps = (dot ys ps : Nat) := by
  intro ys
  induction ys with
  | nil =>
    intro lb ps h
    cases lb with
    | nil => simp [shiftI, cornerIndex, dot]
    | cons => simp at h
  | cons y ys ih =>
    intro lb ps h
    cases lb with
    | nil => simp at h
    | cons l lb =>
      cases ps with
      | nil => simp [shiftI, cornerIndex, dot]
      | cons p ps =>
        have := ih lb ps (by simpa using h)
        unfold shiftI at this
        simp only [shiftI, List.zipWith_cons_cons, cornerIndex, dot, this]
        push_cast
        ring

theorem inBounds_iff : ∀ (lb ub : List Int) (c : Vtx), lb.length = ub.length →
    (InBounds ⟨lb, ub⟩ c ↔ ∃ ys, ValidIdx ys (Bounds.sizes ⟨lb, ub⟩) ∧ c = shiftI ys lb) := by
  intro lb
  induction lb with
  | nil =>
    intro ub c h
    cases ub with
    | nil =>
      constructor
      · rintro ⟨h1, _⟩
        have : c = [] := List.length_eq_zero_iff.1 h1
        subst this
        exact ⟨[], by simp [Bounds.sizes, ValidIdx], by simp [shiftI]⟩
      · rintro ⟨ys, hv, rfl⟩
        refine ⟨by simp [shiftI], ?_⟩
        intro i l u x e; simp at e
    | cons => simp at h
  | cons l lb ih =>
    intro ub c h
    cases ub with
    | nil => simp at h
    | cons u ub =>
      have ih' := fun c => ih ub c (by simpa using h)
      constructor
      · rintro ⟨h1, h2⟩
        cases c with
        | nil => simp at h1
        | cons x c =>
          have hx := h2 0 l u x (by simp) (by simp) (by simp)
          obtain ⟨ys, hv, rfl⟩ := (ih' c).1 ⟨by simpa using h1, fun i l' u' x' e1 e2 e3 =>
            h2 (i + 1) l' u' x' (by simpa using e1) (by simpa using e2) (by simpa using e3)⟩
          refine ⟨(x - l).toNat :: ys, ?_, ?_⟩
          · simp only [Bounds.sizes, List.zipWith_cons_cons, ValidIdx, List.forall₂_cons]
            exact ⟨by omega, hv⟩
          · have : ((x - l).toNat : Int) + l = x := by omega
            simp only [shiftI, List.zipWith_cons_cons, this]
      · rintro ⟨ys, hv, rfl⟩
        cases ys with
        | nil => simp [ValidIdx, Bounds.sizes] at hv
        | cons y ys =>
          simp only [Bounds.sizes, List.zipWith_cons_cons, ValidIdx, List.forall₂_cons] at hv
          obtain ⟨h1, h2⟩ := (ih' (shiftI ys lb)).2 ⟨ys, hv.2, rfl⟩
          simp only [shiftI, List.zipWith_cons_cons]
          refine ⟨by simpa [shiftI] using h1, ?_⟩
          intro i l' u' x' e1 e2 e3
          cases i with
          | zero =>
            simp at e1 e2 e3
            have := hv.1
            omega
          | succ i => exact h2 i l' u' x' (by simpa using e1) (by simpa using e2) (by simpa [shiftI] using e3)

theorem sizes_length {b : Bounds} (h : b.lb.length = b.ub.length) : b.sizes.length = b.lb.length := by
  simp [Bounds.sizes, h]

theorem shiftI_inj_valid {ys : List Nat} {b : Bounds} (hv : ValidIdx ys b.sizes)
    (h : b.lb.length = b.ub.length) : ys.length = b.lb.length := by
  rw [hv.length, sizes_length h]

theorem ntypes_pos {n k : Nat} (hn : 1 ≤ n) (hk : k ≤ n) : 0 < ntypes n k := by
  have hex : ∃ s, Kuhn n k s := by
    refine ⟨(List.range (k + 1)).map (fun i => List.replicate i 1 ++ List.replicate (n - i) 0), ?_, ?_, ?_, ?_⟩
    · simp
    · intro v hv
      simp only [List.mem_map, List.mem_range] at hv
      obtain ⟨i, hi, rfl⟩ := hv
      refine ⟨by simp; omega, ?_⟩
      intro x hx
      simp only [List.mem_append, List.mem_replicate] at hx
      rcases hx with ⟨_, h⟩ | ⟨_, h⟩
      · exact Or.inr h
      · exact Or.inl h
    · rw [List.head?_map]
      simp [List.range_succ_eq_map]
    · rw [List.pairwise_map]
      refine List.pairwise_lt_range.imp_of_mem ?_
      intro i j hi hj hij
      simp only [List.mem_range] at hi hj
      constructor
      · rw [List.forall₂_iff_get]
        refine ⟨by simp; omega, ?_⟩
        intro m h1 h2
        simp only [List.get_eq_getElem, List.getElem_append, List.length_replicate,
          List.getElem_replicate]
        split <;> split <;> omega
      · intro e
        have := congrArg (fun l => l[i]?) e
        simp only [List.getElem?_append, List.length_replicate, List.getElem?_replicate] at this
        rw [if_neg (by omega), if_pos (by omega), if_pos (by omega), if_pos (by omega)] at this
        simp at this
  obtain ⟨s, hs⟩ := hex
  exact List.length_pos_of_mem ((mem_unitSimplices hn hk s).2 hs)

end Verif.SRM
