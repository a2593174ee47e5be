import Verif.Poly.Model
import Mathlib.Algebra.Polynomial.Derivative
import Mathlib.Algebra.Polynomial.Eval.Degree
import Mathlib.Tactic.Ring
import Mathlib.Tactic.LinearCombination

/-!
# C36: the polynomial routines are polynomial arithmetic

Specification: `poly P m` is the Mathlib polynomial with coefficients `P 0, …, P m`.
-/

namespace Verif.Poly

open Polynomial

variable {T : Type*} [CommRing T]

/-- Specification: the polynomial denoted by the first `m+1` cells of the buffer. -/
noncomputable def poly (P : Buf T) (m : ℕ) : T[X] := ∑ i ∈ Finset.range (m + 1), C (P i) * X ^ i

/-- a loop writing `f i` to cell `i` for `i < k`. -/
theorem foldl_write (f : ℕ → T) (R : Buf T) (k : ℕ) :
    (List.range k).foldl (fun R i => Function.update R i (f i)) R = fun j => if j < k then f j else R j := by
  induction k with
  | zero => simp
  | succ k ih =>
    rw [List.range_succ, List.foldl_append, ih]
    funext j
    simp only [List.foldl_cons, List.foldl_nil, Function.update_apply]
    by_cases h : j = k
    · subst h; simp
    · have : j < k + 1 ↔ j < k := by omega
      simp [h, this]

/-- a loop applying `g` to cell `i` for `i < k`. -/
theorem foldl_modify (g : ℕ → T → T) (R : Buf T) (k : ℕ) :
    (List.range k).foldl (fun R i => Function.update R i (g i (R i))) R = fun j => if j < k then g j (R j) else R j := by
  induction k with
  | zero => simp
  | succ k ih =>
    rw [List.range_succ, List.foldl_append, ih]
    funext j
    simp only [List.foldl_cons, List.foldl_nil, Function.update_apply]
    by_cases h : j = k
    · subst h; simp
    · have : j < k + 1 ↔ j < k := by omega
      simp [h, this]

theorem foldl_sum (f : ℕ → T) (y : T) (k : ℕ) :
    (List.range k).foldl (fun y i => y + f i) y = y + ∑ i ∈ Finset.range k, f i := by
  induction k with
  | zero => simp
  | succ k ih => rw [List.range_succ, List.foldl_append, ih]; simp [Finset.sum_range_succ, add_assoc]

theorem coeff_poly (P : Buf T) (m j : ℕ) : (poly P m).coeff j = if j ≤ m then P j else 0 := by
  unfold poly
  rw [finsetSum_coeff]
  simp only [coeff_C_mul, coeff_X_pow, mul_ite, mul_one, mul_zero]
  rw [Finset.sum_ite_eq]
  simp [Nat.lt_succ_iff]

theorem eval_poly (P : Buf T) (m : ℕ) (x : T) : (poly P m).eval x = ∑ i ∈ Finset.range (m + 1), P i * x ^ i := by
  simp [poly, eval_finsetSum]

/-- C36: `polynomial_evaluate(P, m, x)` is the value of the polynomial at `x`. -/
theorem C36_evaluate (P : Buf T) (m : ℕ) (x : T) : evaluate P m x = (poly P m).eval x := by
  rw [eval_poly]
  match m with
  | 0 => simp [evaluate]
  | 1 => simp [evaluate, fma, Finset.sum_range_succ]; ring
  | 2 => simp [evaluate, fma, Finset.sum_range_succ]; ring
  | 3 => simp [evaluate, fma, Finset.sum_range_succ]; ring
  | m + 4 => rw [evaluate, foldl_sum, zero_add]

/-- C36: addition, for any two degrees; `R` receives `max m n + 1` coefficients and nothing else is written. -/
theorem C36_addition (P Q R : Buf T) (m n : ℕ) :
    poly (addition P m Q n R) (max m n) = poly P m + poly Q n ∧ ∀ j, max m n < j → addition P m Q n R j = R j := by
  unfold addition additionLoop
  split
  · rename_i h
    rw [foldl_write, max_eq_left h]
    refine ⟨?_, fun j hj => by simp [Nat.not_lt.2 hj]⟩
    ext j
    rw [coeff_add, coeff_poly, coeff_poly, coeff_poly]
    by_cases h1 : j ≤ m <;> by_cases h2 : j ≤ n
    · simp [h1, h2, Nat.lt_succ_iff]
    · simp [h1, h2, Nat.lt_succ_iff]
    · omega
    · simp [h1, h2]
  · rename_i h
    rw [foldl_write, max_eq_right (by omega)]
    refine ⟨?_, fun j hj => by simp [Nat.not_lt.2 hj]⟩
    ext j
    rw [coeff_add, coeff_poly, coeff_poly, coeff_poly]
    by_cases h1 : j ≤ m <;> by_cases h2 : j ≤ n
    · simp [h1, h2, Nat.lt_succ_iff, add_comm]
    · omega
    · simp [h1, h2, Nat.lt_succ_iff]
    · simp [h1, h2]

theorem subtractionLoop_eq (P Q R : Buf T) (m n : ℕ) (h : m ≥ n) :
    poly (subtractionLoop P m Q n R) m = poly P m - poly Q n ∧ ∀ j, m < j → subtractionLoop P m Q n R j = R j := by
  unfold subtractionLoop
  rw [foldl_write]
  refine ⟨?_, fun j hj => by simp [Nat.not_lt.2 hj]⟩
  ext j
  rw [coeff_sub, coeff_poly, coeff_poly, coeff_poly]
  by_cases h1 : j ≤ m <;> by_cases h2 : j ≤ n
  · simp [h1, h2, Nat.lt_succ_iff]
  · simp [h1, h2, Nat.lt_succ_iff]
  · omega
  · simp [h1, h2]

/-- C36: subtraction when the first operand has at least the degree of the second.  Full statement: the same for all
`m n`; it is false of the code for `m < n`, see `C36_subtraction_wrong_sign`. -/
theorem C36_subtraction_partial (P Q R : Buf T) (m n : ℕ) (h : m ≥ n) :
    poly (subtraction P m Q n R) (max m n) = poly P m - poly Q n ∧ ∀ j, max m n < j → subtraction P m Q n R j = R j := by
  rw [subtraction, if_pos h, max_eq_left h]; exact subtractionLoop_eq P Q R m n h

/-- C36 (finding): with `m < n` the code swaps the operands, so the result is always `Q - P`. -/
theorem C36_subtraction_wrong_sign (P Q R : Buf T) (m n : ℕ) (h : m < n) :
    poly (subtraction P m Q n R) (max m n) = -(poly P m - poly Q n) := by
  rw [subtraction, if_neg (by omega), max_eq_right (by omega), (subtractionLoop_eq Q P R n m (by omega)).1, neg_sub]

/-- witness: `0 - x` gives `x`. -/
example : evaluate (subtraction (fun _ => (0 : ℤ)) 0 (fun i => if i = 1 then 1 else 0) 1 (fun _ => 7)) 1 5 = 5 := by decide +kernel

/-- C36: in-place addition and subtraction for `m ≥ n` (the documented precondition). -/
theorem C36_in_place (P Q : Buf T) (m n : ℕ) (h : m ≥ n) :
    (poly (additionInPlace P m Q n) m = poly P m + poly Q n ∧ ∀ j, n < j → additionInPlace P m Q n j = P j) ∧
    (poly (subtractionInPlace P m Q n) m = poly P m - poly Q n ∧ ∀ j, n < j → subtractionInPlace P m Q n j = P j) := by
  unfold additionInPlace subtractionInPlace
  rw [foldl_modify (fun i y => y + Q i), foldl_modify (fun i y => y - Q i)]
  refine ⟨⟨?_, fun j hj => by simp [Nat.not_lt.2 hj]⟩, ⟨?_, fun j hj => by simp [Nat.not_lt.2 hj]⟩⟩ <;>
  · ext j
    simp only [coeff_add, coeff_sub, coeff_poly]
    by_cases h1 : j ≤ m <;> by_cases h2 : j ≤ n
    · simp [h1, h2, Nat.lt_succ_iff]
    · simp [h1, h2, Nat.lt_succ_iff]
    · omega
    · simp [h1, h2]

/-- C36: `polynomial_copy`. -/
theorem C36_copy (P Q : Buf T) (m : ℕ) : poly (copy P m Q) m = poly P m ∧ ∀ j, m < j → copy P m Q j = Q j := by
  unfold copy
  rw [foldl_write]
  refine ⟨?_, fun j hj => by simp [Nat.not_lt.2 hj]⟩
  ext j
  rw [coeff_poly, coeff_poly]
  split <;> simp_all [Nat.lt_succ_iff]

/-- C36: scalar multiplication in place. -/
theorem C36_scalar (P : Buf T) (m : ℕ) (s : T) :
    poly (scalarMultiplication P m s) m = C s * poly P m ∧ ∀ j, m < j → scalarMultiplication P m s j = P j := by
  unfold scalarMultiplication
  rw [foldl_modify (fun _ y => y * s)]
  refine ⟨?_, fun j hj => by simp [Nat.not_lt.2 hj]⟩
  ext j
  rw [coeff_C_mul, coeff_poly, coeff_poly]
  split <;> simp_all [Nat.lt_succ_iff, mul_comm]

/-- C36: the derivative has `m` coefficients (degree `m-1`) and is Mathlib's formal derivative. -/
theorem C36_derivative (P R : Buf T) (m : ℕ) (hm : 0 < m) :
    poly (derivative P m R) (m - 1) = Polynomial.derivative (poly P m) ∧ ∀ j, m ≤ j → derivative P m R j = R j := by
  unfold derivative
  rw [foldl_write (fun i => P (i + 1) * ((i + 1 : ℕ) : T))]
  refine ⟨?_, fun j hj => by simp [Nat.not_lt.2 hj]⟩
  ext j
  rw [coeff_derivative, coeff_poly, coeff_poly]
  by_cases h : j < m
  · rw [if_pos (by omega), if_pos (by omega)]
    simp [h]
  · rw [if_neg (by omega), if_neg (by omega), zero_mul]

/-- C36: `polynomial_evaluate_derivative` is the value of the derivative (also for a constant polynomial). -/
theorem C36_evaluate_derivative (P : Buf T) (m : ℕ) (x : T) :
    evaluateDerivative P m x = (Polynomial.derivative (poly P m)).eval x := by
  unfold evaluateDerivative
  rw [foldl_sum (fun i => P (i + 1) * ((i + 1 : ℕ) : T) * x ^ i), zero_add]
  unfold poly
  rw [Polynomial.derivative_sum, eval_finsetSum, Finset.sum_range_succ']
  simp [derivative_X_pow]
  refine Finset.sum_congr rfl fun i _ => ?_
  ring

theorem mul_inner (P Q R : Buf T) (i n : ℕ) (k : ℕ) :
    (List.range k).foldl (fun R j => Function.update R (i + j) (R (i + j) + P i * Q j)) R =
      fun l => if i ≤ l ∧ l < i + k then R l + P i * Q (l - i) else R l := by
  induction k with
  | zero => funext l; simp
  | succ k ih =>
    rw [List.range_succ, List.foldl_append, ih]
    funext l
    simp only [List.foldl_cons, List.foldl_nil, Function.update_apply]
    by_cases h : l = i + k
    · subst h; simp
    · have : (i ≤ l ∧ l < i + (k + 1)) ↔ (i ≤ l ∧ l < i + k) := by omega
      simp [h, this]

theorem mul_outer (P Q R : Buf T) (n k : ℕ) :
    (List.range k).foldl (fun R i =>
      (List.range (n + 1)).foldl (fun R j => Function.update R (i + j) (R (i + j) + P i * Q j)) R) R =
      fun l => R l + ∑ i ∈ Finset.range k, if i ≤ l ∧ l < i + (n + 1) then P i * Q (l - i) else 0 := by
  induction k with
  | zero => funext l; simp
  | succ k ih =>
    rw [List.range_succ (n := k), List.foldl_append, ih]
    funext l
    simp only [List.foldl_cons, List.foldl_nil]
    rw [mul_inner P Q _ k n (n + 1), Finset.sum_range_succ, ← add_assoc]
    show (if k ≤ l ∧ l < k + (n + 1) then _ else _) = _
    by_cases h : k ≤ l ∧ l < k + (n + 1)
    · rw [if_pos h, if_pos (show k ≤ l ∧ l < k + n + 1 by omega), add_assoc]
    · rw [if_neg h, if_neg (show ¬ (k ≤ l ∧ l < k + n + 1) by omega), add_zero]

/-- C36: multiplication; `R` receives `m+n+1` coefficients whatever it contained before, and nothing else is written. -/
theorem C36_multiplication (P Q R : Buf T) (m n : ℕ) :
    poly (multiplication P m Q n R) (m + n) = poly P m * poly Q n ∧
      ∀ j, m + n < j → multiplication P m Q n R j = R j := by
  unfold multiplication
  simp only
  rw [foldl_write (fun _ => 0), mul_outer]
  constructor
  · ext l
    rw [coeff_poly, coeff_mul]
    have e : ∑ x ∈ Finset.antidiagonal l, (poly P m).coeff x.1 * (poly Q n).coeff x.2 =
        ∑ i ∈ Finset.range (l + 1), (poly P m).coeff i * (poly Q n).coeff (l - i) :=
      Finset.Nat.sum_antidiagonal_eq_sum_range_succ (fun i j => (poly P m).coeff i * (poly Q n).coeff j) l
    rw [e]
    simp only [coeff_poly]
    have key : ∑ i ∈ Finset.range (m + 1), (if i ≤ l ∧ l < i + (n + 1) then P i * Q (l - i) else 0) =
        ∑ i ∈ Finset.range (l + 1), (if i ≤ m then P i else 0) * (if l - i ≤ n then Q (l - i) else 0) := by
      have hA : ∑ i ∈ Finset.range (m + 1), (if i ≤ l ∧ l < i + (n + 1) then P i * Q (l - i) else 0) =
          ∑ i ∈ Finset.range (m + 1 + (l + 1)), (if i ≤ m ∧ i ≤ l ∧ l - i ≤ n then P i * Q (l - i) else 0) := by
        rw [← Finset.sum_subset (Finset.range_mono (Nat.le_add_right (m + 1) (l + 1)))]
        · refine Finset.sum_congr rfl fun i hi => ?_
          have : i ≤ m := by simpa [Nat.lt_succ_iff] using hi
          have hc : (i ≤ l ∧ l < i + (n + 1)) ↔ (i ≤ m ∧ i ≤ l ∧ l - i ≤ n) := by omega
          simp [hc]
        · intro i _ hi
          have : ¬ i ≤ m := by simpa [Nat.lt_succ_iff] using hi
          simp [this]
      have hB : ∑ i ∈ Finset.range (l + 1), (if i ≤ m then P i else 0) * (if l - i ≤ n then Q (l - i) else 0) =
          ∑ i ∈ Finset.range (m + 1 + (l + 1)), (if i ≤ m ∧ i ≤ l ∧ l - i ≤ n then P i * Q (l - i) else 0) := by
        rw [← Finset.sum_subset (Finset.range_mono (Nat.le_add_left (l + 1) (m + 1)))]
        · refine Finset.sum_congr rfl fun i hi => ?_
          have : i ≤ l := by simpa [Nat.lt_succ_iff] using hi
          by_cases h1 : i ≤ m <;> by_cases h2 : l - i ≤ n <;> simp [h1, h2, this]
        · intro i _ hi
          have : ¬ i ≤ l := by simpa [Nat.lt_succ_iff] using hi
          simp [this]
      rw [hA, hB]
    by_cases h : l ≤ m + n
    · rw [if_pos h, if_pos (by omega), zero_add, key]
    · rw [if_neg h, ← key]
      symm
      apply Finset.sum_eq_zero
      intro i hi
      have : i ≤ m := by simpa [Nat.lt_succ_iff] using hi
      rw [if_neg (by omega)]
  · intro j hj
    show (if j < m + n + 1 then 0 else R j) + _ = R j
    rw [if_neg (by omega)]
    rw [Finset.sum_eq_zero, add_zero]
    intro i hi
    have : i ≤ m := by simpa [Nat.lt_succ_iff] using hi
    rw [if_neg (by omega)]

/-- C36, as a user sees it: evaluation commutes with the operations. -/
theorem C36_evaluate_ops (P Q R : Buf T) (m n : ℕ) (s x : T) :
    evaluate (addition P m Q n R) (max m n) x = evaluate P m x + evaluate Q n x ∧
    evaluate (multiplication P m Q n R) (m + n) x = evaluate P m x * evaluate Q n x ∧
    evaluate (scalarMultiplication P m s) m x = s * evaluate P m x ∧
    (m ≥ n → evaluate (subtraction P m Q n R) (max m n) x = evaluate P m x - evaluate Q n x) ∧
    (0 < m → evaluate (derivative P m R) (m - 1) x = evaluateDerivative P m x) := by
  simp only [C36_evaluate]
  refine ⟨by rw [(C36_addition P Q R m n).1, eval_add], by rw [(C36_multiplication P Q R m n).1, eval_mul],
    by rw [(C36_scalar P m s).1, eval_mul, eval_C], fun h => by rw [(C36_subtraction_partial P Q R m n h).1, eval_sub],
    fun h => by rw [(C36_derivative P R m h).1, C36_evaluate_derivative]⟩

/-- C36: the zero and constant tests; with epsilon 0 they mean the zero / a constant polynomial. -/
theorem C36_equals_to {T : Type*} [CommRing T] [LinearOrder T] [IsStrictOrderedRing T] (P : Buf T) (m : ℕ) (eps : T) :
    (equalsToZero P m eps = true ↔ ∀ i ≤ m, |P i| ≤ eps) ∧
    (equalsToConstant P m eps = true ↔ ∀ i ≤ m, 1 ≤ i → |P i| ≤ eps) ∧
    (equalsToZero P m 0 = true ↔ poly P m = 0) ∧
    (equalsToConstant P m 0 = true ↔ ∃ c, poly P m = C c) := by
  have h1 : ∀ eps, equalsToZero P m eps = true ↔ ∀ i ≤ m, |P i| ≤ eps := by
    intro eps
    simp [equalsToZero, Nat.lt_succ_iff]
  have h2 : ∀ eps, equalsToConstant P m eps = true ↔ ∀ i ≤ m, 1 ≤ i → |P i| ≤ eps := by
    intro eps
    simp only [equalsToConstant, List.all_eq_true, List.mem_range'_1, Bool.not_eq_true', decide_eq_false_iff_not, not_lt]
    exact ⟨fun h i hi h1 => h i ⟨h1, by omega⟩, fun h i hi => h i (by omega) hi.1⟩
  refine ⟨h1 eps, h2 eps, ?_, ?_⟩
  · rw [h1]
    constructor
    · intro h
      ext i
      rw [coeff_poly, coeff_zero]
      split
      · exact abs_nonpos_iff.1 (h i ‹_›)
      · rfl
    · intro h i hi
      have := congrArg (fun p => p.coeff i) h
      simp only [coeff_poly, coeff_zero, if_pos hi] at this
      simp [this]
  · rw [h2]
    constructor
    · intro h
      refine ⟨P 0, ?_⟩
      ext i
      rw [coeff_poly, coeff_C]
      by_cases h0 : i = 0
      · subst h0; simp
      · rw [if_neg h0]
        split
        · exact abs_nonpos_iff.1 (h i ‹_› (by omega))
        · rfl
    · rintro ⟨c, h⟩ i hi h1
      have := congrArg (fun p => p.coeff i) h
      simp only [coeff_poly, coeff_C, if_pos hi, if_neg (show i ≠ 0 by omega)] at this
      simp [this]

/-! Concrete cases: (1 + 2x + 3x²)(4 + 5x) etc. over the integers. -/

example : (List.range 4).map (multiplication (fun i => ([1, 2, 3] : List ℤ).getD i 9) 2 (fun i => ([4, 5] : List ℤ).getD i 9) 1 (fun _ => 77))
    = [4, 13, 22, 15] := by decide +kernel
example : (List.range 3).map (addition (fun i => ([4, 5] : List ℤ).getD i 9) 1 (fun i => ([1, 2, 3] : List ℤ).getD i 9) 2 (fun _ => 77))
    = [5, 7, 3] := by decide +kernel
example : (List.range 2).map (derivative (fun i => ([1, 2, 3] : List ℤ).getD i 9) 2 (fun _ => 77)) = [2, 6] := by decide +kernel
example : evaluate (fun i => ([1, 2, 3, 4, 5] : List ℤ).getD i 9) 4 2 = 129 := by decide +kernel
example : equalsToConstant (fun i => ([4, 0, 0, 1] : List ℤ).getD i 9) 2 0 = true ∧
    equalsToConstant (fun i => ([4, 0, 0, 1] : List ℤ).getD i 9) 3 0 = false := by decide +kernel

end Verif.Poly
