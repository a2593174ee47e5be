import Mathlib.Order.Defs.LinearOrder
import Mathlib.Data.List.Basic
/-!
`std::set<T>` / the key sequence of `std::map<T,_>` as a list kept in increasing order.
Only the value-level contract of the C++ standard containers is modelled (insertion keeps keys
unique and iteration goes in increasing key order).
-/
namespace Verif

/-- `std::set::insert` / `std::map::insert` on the sequence of keys: sorted, no duplicates. -/
def setInsert {α : Type} [LinearOrder α] (x : α) : List α → List α
  | [] => [x]
  | y :: ys => if x < y then x :: y :: ys else if x = y then y :: ys else y :: setInsert x ys

@[simp] theorem mem_setInsert {α : Type} [LinearOrder α] (x a : α) (l : List α) :
    a ∈ setInsert x l ↔ a = x ∨ a ∈ l := by
  induction l with
  | nil => simp [setInsert]
  | cons y ys ih =>
    unfold setInsert
    split
    · simp
    · split
      · rename_i h; subst h; simp
      · simp only [List.mem_cons, ih]
        tauto

/-- strictly increasing (hence duplicate-free) lists: the shape of every `std::set`. -/
def StrictSorted {α : Type} [LinearOrder α] (l : List α) : Prop := l.Pairwise (· < ·)

theorem StrictSorted.setInsert {α : Type} [LinearOrder α] {x : α} {l : List α}
    (h : StrictSorted l) : StrictSorted (setInsert x l) := by
  induction l with
  | nil => simp [Verif.setInsert, StrictSorted]
  | cons y ys ih =>
    unfold Verif.setInsert
    have h' := h
    unfold StrictSorted at h'
    rw [List.pairwise_cons] at h'
    split
    · rename_i hxy
      unfold StrictSorted
      rw [List.pairwise_cons]
      refine ⟨?_, h⟩
      intro a ha
      rcases List.mem_cons.1 ha with rfl | ha
      · exact hxy
      · exact lt_trans hxy (h'.1 a ha)
    · split
      · exact h
      · rename_i h1 h2
        unfold StrictSorted
        rw [List.pairwise_cons]
        refine ⟨?_, ih h'.2⟩
        intro a ha
        rcases (mem_setInsert _ _ _).1 ha with rfl | ha
        · exact lt_of_le_of_ne (not_lt.1 h1) (fun e => h2 e.symm)
        · exact h'.1 a ha

theorem StrictSorted.nodup {α : Type} [LinearOrder α] {l : List α} (h : StrictSorted l) :
    l.Nodup := by
  unfold StrictSorted at h
  exact h.imp (fun hab => ne_of_lt hab)

/-- `std::set`'s content only depends on which elements it has. -/
theorem StrictSorted.ext {α : Type} [LinearOrder α] {l m : List α}
    (hl : StrictSorted l) (hm : StrictSorted m) (h : ∀ a, a ∈ l ↔ a ∈ m) : l = m := by
  induction l generalizing m with
  | nil =>
    cases m with
    | nil => rfl
    | cons b bs => exact absurd ((h b).2 (List.mem_cons_self ..)) (by simp)
  | cons a as ih =>
    cases m with
    | nil => exact absurd ((h a).1 (List.mem_cons_self ..)) (by simp)
    | cons b bs =>
      have hl' := hl; have hm' := hm
      unfold StrictSorted at hl' hm'
      rw [List.pairwise_cons] at hl' hm'
      have hab : a = b := by
        rcases List.mem_cons.1 ((h a).1 (List.mem_cons_self ..)) with e | e
        · exact e
        · rcases List.mem_cons.1 ((h b).2 (List.mem_cons_self ..)) with e' | e'
          · exact e'.symm
          · exact absurd (lt_trans (hl'.1 b e') (hm'.1 a e)) (lt_irrefl _)
      subst hab
      have : as = bs := by
        apply ih hl'.2 hm'.2
        intro x
        constructor
        · intro hx
          rcases List.mem_cons.1 ((h x).1 (List.mem_cons_of_mem _ hx)) with e | e
          · subst e; exact absurd (hl'.1 _ hx) (lt_irrefl _)
          · exact e
        · intro hx
          rcases List.mem_cons.1 ((h x).2 (List.mem_cons_of_mem _ hx)) with e | e
          · subst e; exact absurd (hm'.1 _ hx) (lt_irrefl _)
          · exact e
      rw [this]

end Verif
