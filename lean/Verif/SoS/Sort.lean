import Verif.SoS.Model
import Mathlib.GroupTheory.Perm.Sign
import Mathlib.Order.Fin.Basic

/-! Bubble sort: the order array is a permutation of parity `nswaps` that sorts the indices. -/

namespace Verif.SoS

theorem swapCells_eq {n : ℕ} {α : Type} (f : Fin n → α) (a b : Fin n) (k : Fin n) :
    swapCells f a b k = f (Equiv.swap a b k) := by
  simp only [swapCells, Equiv.swap_apply_def]
  split
  · rfl
  · split <;> rfl

/-- Loop invariant: `order` is a permutation, `arr` is the input permuted by it, `nswaps` its parity. -/
def BSInv {n : ℕ} (a0 : Fin n → ℤ) (s : BS n) : Prop :=
  ∃ σ : Equiv.Perm (Fin n), (∀ i, s.order i = σ i) ∧ (∀ i, s.arr i = a0 (σ i)) ∧
    (Equiv.Perm.sign σ : ℤ) = (-1) ^ s.nswaps

theorem bsInv_step {n : ℕ} {a0 : Fin n → ℤ} {s : BS n} (h : BSInv a0 s) (j : ℕ) :
    BSInv a0 (bubbleStep s j) := by
  unfold bubbleStep
  split
  · rename_i hj
    split
    · obtain ⟨σ, h1, h2, h3⟩ := h
      refine ⟨σ * Equiv.swap ⟨j, by omega⟩ ⟨j + 1, hj⟩, ?_, ?_, ?_⟩
      · intro i; simp only [swapCells_eq, h1, Equiv.Perm.mul_apply]
      · intro i; simp only [swapCells_eq, h2, Equiv.Perm.mul_apply]
      · rw [Equiv.Perm.sign_mul, Equiv.Perm.sign_swap (by simp [Fin.ext_iff])]
        simp [h3, pow_succ]
    · exact h
  · exact h

theorem bsInv_pass {n : ℕ} {a0 : Fin n → ℤ} {s : BS n} (h : BSInv a0 s) (i : ℕ) :
    BSInv a0 (bubblePass s i) := by
  unfold bubblePass
  generalize List.range (n - i - 1) = l
  induction l generalizing s with
  | nil => exact h
  | cons j l ih => exact ih (bsInv_step h j)

theorem bsInv_sort {n : ℕ} (a0 : Fin n → ℤ) : BSInv a0 (bubbleSort a0) := by
  unfold bubbleSort
  have h0 : BSInv a0 (⟨a0, fun i => i, 0⟩ : BS n) := ⟨1, by simp, by simp, by simp⟩
  revert h0
  generalize (⟨a0, fun i => i, 0⟩ : BS n) = s
  generalize List.range (n - 1) = l
  induction l generalizing s with
  | nil => exact fun h => h
  | cons j l ih => exact fun h => ih _ (bsInv_pass h j)

/-- `arr[m..)` is sorted and dominates everything before it. -/
def Top {n : ℕ} (a : Fin n → ℤ) (m : ℕ) : Prop :=
  ∀ p q : Fin n, p.val ≤ q.val → m ≤ q.val → a p ≤ a q

/-- cell `j` is the maximum of `arr[0..j]`. -/
def MaxAt {n : ℕ} (a : Fin n → ℤ) (j : ℕ) : Prop :=
  ∀ p q : Fin n, p.val ≤ q.val → q.val = j → a p ≤ a q

theorem step_top {n : ℕ} {s : BS n} {m j : ℕ} (hj : j + 1 < m) (ht : Top s.arr m)
    (hm : MaxAt s.arr j) : Top (bubbleStep s j).arr m ∧ MaxAt (bubbleStep s j).arr (j + 1) := by
  unfold bubbleStep
  split
  · rename_i hn
    split
    · rename_i hgt
      have key : ∀ p : Fin n, (p.val = j → swapCells s.arr ⟨j, by omega⟩ ⟨j + 1, hn⟩ p = s.arr ⟨j + 1, hn⟩) ∧
          (p.val = j + 1 → swapCells s.arr ⟨j, by omega⟩ ⟨j + 1, hn⟩ p = s.arr ⟨j, by omega⟩) ∧
          (p.val ≠ j → p.val ≠ j + 1 → swapCells s.arr ⟨j, by omega⟩ ⟨j + 1, hn⟩ p = s.arr p) := by
        intro p
        refine ⟨fun h => ?_, fun h => ?_, fun h h' => ?_⟩
        · simp [swapCells, Fin.ext_iff, h]
        · simp [swapCells, Fin.ext_iff, h]
        · simp [swapCells, Fin.ext_iff, h, h']
      constructor
      · intro p q hpq hq
        show swapCells _ _ _ p ≤ swapCells _ _ _ q
        rw [(key q).2.2 (by omega) (by omega)]
        by_cases h1 : p.val = j
        · rw [(key p).1 h1]; exact ht _ _ (by simp; omega) hq
        · by_cases h2 : p.val = j + 1
          · rw [(key p).2.1 h2]; exact ht _ _ (by simp; omega) hq
          · rw [(key p).2.2 h1 h2]; exact ht _ _ hpq hq
      · intro p q hpq hq
        show swapCells _ _ _ p ≤ swapCells _ _ _ q
        rw [(key q).2.1 hq]
        by_cases h1 : p.val = j
        · rw [(key p).1 h1]; exact le_of_lt hgt
        · by_cases h2 : p.val = j + 1
          · rw [(key p).2.1 h2]
          · rw [(key p).2.2 h1 h2]; exact hm _ _ (by simp; omega) rfl
    · rename_i hle
      refine ⟨ht, ?_⟩
      intro p q hpq hq
      have hqe : q = ⟨j + 1, hn⟩ := Fin.ext hq
      subst hqe
      rcases Nat.lt_or_ge p.val (j + 1) with h | h
      · have := hm p ⟨j, by omega⟩ (by simp; omega) rfl
        omega
      · have : p = ⟨j + 1, hn⟩ := Fin.ext (by simp at hpq ⊢; omega)
        rw [this]
  · exact ⟨ht, fun p q _ hq => absurd q.isLt (by omega)⟩

theorem pass_top {n : ℕ} {s : BS n} {i : ℕ} (hi : i + 1 < n) (ht : Top s.arr (n - i)) :
    Top (bubblePass s i).arr (n - i - 1) := by
  have gen : ∀ k, k ≤ n - i - 1 → Top ((List.range k).foldl bubbleStep s).arr (n - i) ∧
      MaxAt ((List.range k).foldl bubbleStep s).arr k := by
    intro k
    induction k with
    | zero =>
      intro _
      refine ⟨ht, ?_⟩
      intro p q hpq hq
      have : p = q := Fin.ext (by omega)
      rw [this]
    | succ k ih =>
      intro hk
      obtain ⟨h1, h2⟩ := ih (by omega)
      rw [List.range_succ, List.foldl_append]
      exact step_top (by omega) h1 h2
  obtain ⟨h1, h2⟩ := gen (n - i - 1) (le_refl _)
  intro p q hpq hq
  rcases Nat.lt_or_ge q.val (n - i) with h | h
  · exact h2 p q hpq (by omega)
  · exact h1 p q hpq h

theorem sort_sorted {n : ℕ} (a0 : Fin n → ℤ) (p q : Fin n) (h : p.val ≤ q.val) :
    (bubbleSort a0).arr p ≤ (bubbleSort a0).arr q := by
  have gen : ∀ k, k ≤ n - 1 → Top ((List.range k).foldl bubblePass (⟨a0, fun i => i, 0⟩ : BS n)).arr (n - k) := by
    intro k
    induction k with
    | zero => intro _ p q _ hq; exact absurd q.isLt (by omega)
    | succ k ih =>
      intro hk
      rw [List.range_succ, List.foldl_append]
      have := pass_top (i := k) (by omega) (ih (by omega))
      rwa [show n - k - 1 = n - (k + 1) by omega] at this
  have := gen (n - 1) (le_refl _)
  rcases Nat.eq_zero_or_pos q.val with h0 | h0
  · have : p = q := Fin.ext (by omega)
    rw [this]
  · exact this p q h (by omega)

theorem sort_spec {n : ℕ} (v : Fin n → ℤ) (hv : Function.Injective v) :
    ∃ σ : Equiv.Perm (Fin n), (∀ i, (bubbleSort v).order i = σ i) ∧
      (∀ p q : Fin n, p < q → v (σ p) < v (σ q)) ∧
      ((bubbleSort v).nswaps % 2 ≠ 0 → Equiv.Perm.sign σ = -1) ∧
      (¬ (bubbleSort v).nswaps % 2 ≠ 0 → Equiv.Perm.sign σ = 1) := by
  obtain ⟨σ, h1, h2, h3⟩ := bsInv_sort v
  refine ⟨σ, h1, ?_, ?_, ?_⟩
  · intro p q hpq
    have := sort_sorted v p q (le_of_lt hpq)
    rw [h2, h2] at this
    refine lt_of_le_of_ne this ?_
    intro he
    have := σ.injective (hv he)
    subst this
    exact lt_irrefl _ hpq
  · intro h
    rw [Odd.neg_one_pow (Nat.odd_iff.2 (by omega))] at h3
    exact Units.ext h3
  · intro h
    rw [Even.neg_one_pow (Nat.even_iff.2 (by omega))] at h3
    exact Units.ext h3

end Verif.SoS
