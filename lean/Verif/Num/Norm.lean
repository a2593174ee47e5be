import Verif.Num.Linear
import Mathlib.Algebra.Order.BigOperators.Group.Finset
import Mathlib.Algebra.Order.BigOperators.Ring.Finset
import Mathlib.Algebra.Order.Group.Abs
import Mathlib.Algebra.Field.Rat
import Mathlib.Algebra.Order.Ring.Rat
/-! # Matrix norms and condition numbers (C80): `numeric/matrix_norm.hh`, `cond.hh`, `matrix_decomposition.hh`

Exact arithmetic over any ordered field.  Specification: the vector norms `Σ|vᵢ|` and `max|vᵢ|` and the induced operator norm
(least `N` with `‖A v‖ ≤ N ‖v‖` for all `v`). -/
namespace Verif.Num
variable {K : Type} [Field K] [LinearOrder K] [IsStrictOrderedRing K]

/-! ## Model -/

/-- `matrix_1norm_real2x2`, include/ftk/numeric/matrix_norm.hh:20-26. -/
def norm1_2 (m : Fin 2 → Fin 2 → K) : K := max (|m 0 0| + |m 1 0|) (|m 0 1| + |m 1 1|)

/-- `matrix_1norm_real3x3`, include/ftk/numeric/matrix_norm.hh:28-38. -/
def norm1_3 (m : Fin 3 → Fin 3 → K) : K :=
  max (max (|m 0 0| + |m 1 0| + |m 2 0|) (|m 0 1| + |m 1 1| + |m 2 1|)) (|m 0 2| + |m 1 2| + |m 2 2|)

/-- `matrix_inf_norm_real2x2`, include/ftk/numeric/matrix_norm.hh:56-62. -/
def normInf_2 (m : Fin 2 → Fin 2 → K) : K := max (|m 0 0| + |m 0 1|) (|m 1 0| + |m 1 1|)

/-- `matrix_frobenius_norm_real2x2`, include/ftk/numeric/matrix_norm.hh:64-69. -/
def frobenius22 (m : Fin 2 → Fin 2 → K) : K := m 0 0 * m 0 0 + m 0 1 * m 0 1 + m 1 0 * m 1 0 + m 1 1 * m 1 1
/-- `matrix_frobenius_norm_real2x3`, include/ftk/numeric/matrix_norm.hh:71-77. -/
def frobenius23 (m : Fin 2 → Fin 3 → K) : K :=
  m 0 0 * m 0 0 + m 0 1 * m 0 1 + m 0 2 * m 0 2 + m 1 0 * m 1 0 + m 1 1 * m 1 1 + m 1 2 * m 1 2
/-- `matrix_frobenius_norm_real3x2`, include/ftk/numeric/matrix_norm.hh:79-86. -/
def frobenius32 (m : Fin 3 → Fin 2 → K) : K :=
  m 0 0 * m 0 0 + m 0 1 * m 0 1 + m 1 0 * m 1 0 + m 1 1 * m 1 1 + m 2 0 * m 2 0 + m 2 1 * m 2 1

/-- `cond_real2x2`, include/ftk/numeric/cond.hh:9-18. -/
def cond2 (A : Fin 2 → Fin 2 → K) : K := norm1_2 (matrixInverse2 A).2 * norm1_2 A
/-- `cond_real3x3`, include/ftk/numeric/cond.hh:20-29. -/
def cond3 (A : Fin 3 → Fin 3 → K) : K := norm1_3 (matrixInverse3 A).2 * norm1_3 A

/-- `matrix_symmetric_decomposition_3x3`, include/ftk/numeric/matrix_decomposition.hh:6-18. -/
def symPart (M : Fin 3 → Fin 3 → K) : Fin 3 → Fin 3 → K :=
  ![![M 0 0, 1 / 2 * (M 0 1 + M 1 0), 1 / 2 * (M 0 2 + M 2 0)],
    ![1 / 2 * (M 1 0 + M 0 1), M 1 1, 1 / 2 * (M 1 2 + M 2 1)],
    ![1 / 2 * (M 2 0 + M 0 2), 1 / 2 * (M 2 1 + M 1 2), M 2 2]]
/-- `matrix_antisymmetric_decomposition_3x3`, include/ftk/numeric/matrix_decomposition.hh:20-32. -/
def antiPart (M : Fin 3 → Fin 3 → K) : Fin 3 → Fin 3 → K :=
  ![![0, 1 / 2 * (M 0 1 - M 1 0), 1 / 2 * (M 0 2 - M 2 0)],
    ![1 / 2 * (M 1 0 - M 0 1), 0, 1 / 2 * (M 1 2 - M 2 1)],
    ![1 / 2 * (M 2 0 - M 0 2), 1 / 2 * (M 2 1 - M 1 2), 0]]

/-! ## Specification -/

/-- sum norm -/
def l1 {n : ℕ} (v : Fin n → K) : K := ∑ i, |v i|

/-- `N` is the operator norm of `A` for the vector norm `nrm` -/
structure IsOpNorm {n : ℕ} (nrm : (Fin n → K) → K) (A : Matrix (Fin n) (Fin n) K) (N : K) : Prop where
  bound : ∀ v, nrm (A.mulVec v) ≤ N * nrm v
  attained : ∃ v, 0 < nrm v ∧ nrm (A.mulVec v) = N * nrm v

/-- maximum norm in two dimensions -/
def linf2 (v : Fin 2 → K) : K := max |v 0| |v 1|

/-! ## Theorems -/

/-- the largest column sum is the operator norm for the sum norm -/
theorem colsum_isOpNorm {n : ℕ} (A : Matrix (Fin n) (Fin n) K) (N : K) (h : ∀ j, ∑ i, |A i j| ≤ N)
    (j : Fin n) (hj : ∑ i, |A i j| = N) : IsOpNorm l1 A N := by
  constructor
  · intro v
    calc l1 (A.mulVec v) ≤ ∑ i, ∑ j, |A i j| * |v j| := by
          refine Finset.sum_le_sum fun i _ => ?_
          refine le_trans (b := ∑ j, |A i j * v j|) ?_ (le_of_eq ?_)
          · exact Finset.abs_sum_le_sum_abs (fun j => A i j * v j) Finset.univ
          exact Finset.sum_congr rfl fun j _ => abs_mul _ _
      _ = ∑ j, (∑ i, |A i j|) * |v j| := by
          rw [Finset.sum_comm]
          exact Finset.sum_congr rfl fun j _ => (Finset.sum_mul _ _ _).symm
      _ ≤ ∑ j, N * |v j| := Finset.sum_le_sum fun j _ => mul_le_mul_of_nonneg_right (h j) (abs_nonneg _)
      _ = N * l1 v := (Finset.mul_sum _ _ _).symm
  · refine ⟨Pi.single j 1, ?_, ?_⟩
    · have : l1 (Pi.single j (1 : K)) = 1 := by
        rw [l1, Finset.sum_eq_single j]
        · simp
        · intro b _ hb; simp [hb]
        · simp
      rw [this]; exact one_pos
    · have : l1 (Pi.single j (1 : K)) = 1 := by
        rw [l1, Finset.sum_eq_single j]
        · simp
        · intro b _ hb; simp [hb]
        · simp
      rw [this, mul_one, ← hj]
      simp [l1]

/-- `matrix_1norm_real2x2` is the operator norm for the sum norm. -/
theorem C80_one_norm2_partial (A : Matrix (Fin 2) (Fin 2) K) : IsOpNorm l1 A (norm1_2 A) := by
  rcases max_choice (|A 0 0| + |A 1 0|) (|A 0 1| + |A 1 1|) with h | h
  · refine colsum_isOpNorm A _ (fun j => ?_) 0 (by simpa [norm1_2] using h.symm)
    fin_cases j <;> simp [norm1_2]
  · refine colsum_isOpNorm A _ (fun j => ?_) 1 (by simpa [norm1_2] using h.symm)
    fin_cases j <;> simp [norm1_2]

/-- `matrix_1norm_real3x3` is the operator norm for the sum norm. -/
theorem C80_one_norm3 (A : Matrix (Fin 3) (Fin 3) K) : IsOpNorm l1 A (norm1_3 A) := by
  have hb : ∀ j, ∑ i, |A i j| ≤ norm1_3 A := by
    intro j
    fin_cases j <;> simp [norm1_3, Fin.sum_univ_three]
  have hj : ∃ j, ∑ i, |A i j| = norm1_3 A := by
    simp only [Fin.sum_univ_three, norm1_3]
    rcases max_choice (max (|A 0 0| + |A 1 0| + |A 2 0|) (|A 0 1| + |A 1 1| + |A 2 1|)) (|A 0 2| + |A 1 2| + |A 2 2|) with h | h
    · rcases max_choice (|A 0 0| + |A 1 0| + |A 2 0|) (|A 0 1| + |A 1 1| + |A 2 1|) with h' | h'
      · exact ⟨0, by rw [h, h']⟩
      · exact ⟨1, by rw [h, h']⟩
    · exact ⟨2, by rw [h]⟩
  obtain ⟨j, hj⟩ := hj
  exact colsum_isOpNorm A _ hb j hj

/-- `matrix_inf_norm_real2x2` is the operator norm for the maximum norm. -/
theorem C80_inf_norm2 (A : Matrix (Fin 2) (Fin 2) K) : IsOpNorm linf2 A (normInf_2 A) := by
  have row : ∀ (a b : K) (v : Fin 2 → K), |a * v 0 + b * v 1| ≤ (|a| + |b|) * linf2 v := by
    intro a b v
    have h0 : |v 0| ≤ linf2 v := le_max_left _ _
    have h1 : |v 1| ≤ linf2 v := le_max_right _ _
    calc |a * v 0 + b * v 1| ≤ |a * v 0| + |b * v 1| := abs_add_le _ _
      _ = |a| * |v 0| + |b| * |v 1| := by rw [abs_mul, abs_mul]
      _ ≤ |a| * linf2 v + |b| * linf2 v :=
        add_le_add (mul_le_mul_of_nonneg_left h0 (abs_nonneg _)) (mul_le_mul_of_nonneg_left h1 (abs_nonneg _))
      _ = _ := by ring
  have hb : ∀ v, linf2 (A.mulVec v) ≤ normInf_2 A * linf2 v := by
    intro v
    have hn : 0 ≤ linf2 v := (abs_nonneg _).trans (le_max_left _ _)
    refine max_le ?_ ?_
    · have := row (A 0 0) (A 0 1) v
      simp only [Matrix.mulVec, dotProduct, Fin.sum_univ_two]
      exact this.trans (mul_le_mul_of_nonneg_right (le_max_left _ _) hn)
    · have := row (A 1 0) (A 1 1) v
      simp only [Matrix.mulVec, dotProduct, Fin.sum_univ_two]
      exact this.trans (mul_le_mul_of_nonneg_right (le_max_right _ _) hn)
  refine ⟨hb, ?_⟩
  -- signs of the row that attains the maximum
  let sg : K → K := fun a => if 0 ≤ a then 1 else -1
  have hsg : ∀ a : K, |sg a| = 1 ∧ a * sg a = |a| := by
    intro a
    by_cases h : 0 ≤ a
    · simp [sg, h, abs_of_nonneg h]
    · simp [sg, h, abs_of_neg (not_le.1 h)]
  have att : ∀ r : Fin 2, normInf_2 A = |A r 0| + |A r 1| → ∃ v, 0 < linf2 v ∧ linf2 (A.mulVec v) = normInf_2 A * linf2 v := by
    intro r hr
    have hv : linf2 ![sg (A r 0), sg (A r 1)] = 1 := by simp [linf2, (hsg _).1]
    refine ⟨![sg (A r 0), sg (A r 1)], by rw [hv]; exact one_pos, le_antisymm (hb _) ?_⟩
    rw [hv, mul_one, hr]
    have e : A.mulVec ![sg (A r 0), sg (A r 1)] r = |A r 0| + |A r 1| := by
      simp only [Matrix.mulVec, dotProduct, Fin.sum_univ_two]
      simp [(hsg _).2]
    have : |A.mulVec ![sg (A r 0), sg (A r 1)] r| ≤ linf2 (A.mulVec ![sg (A r 0), sg (A r 1)]) := by
      fin_cases r
      · exact le_max_left _ _
      · exact le_max_right _ _
    rw [e] at this
    exact (le_abs_self _).trans this
  rcases max_choice (|A 0 0| + |A 0 1|) (|A 1 0| + |A 1 1|) with h | h
  · exact att 0 h
  · exact att 1 h

/-- (specification) `κ` bounds the amplification of relative errors: if `A x = b` and `A x' = b'` then
`‖x' - x‖ ‖b‖ ≤ κ ‖x‖ ‖b' - b‖`; and it is at least 1. -/
structure IsErrorBound {n : ℕ} (A : Matrix (Fin n) (Fin n) K) (κ : K) : Prop where
  one_le : 1 ≤ κ
  bound : ∀ x x' b b' : Fin n → K, A.mulVec x = b → A.mulVec x' = b' → l1 (x' - x) * l1 b ≤ κ * (l1 x * l1 (b' - b))

theorem l1_nonneg {n : ℕ} (v : Fin n → K) : 0 ≤ l1 v := Finset.sum_nonneg fun _ _ => abs_nonneg _

theorem errorBound {n : ℕ} (A B : Matrix (Fin n) (Fin n) K) (N M : K) (hA : IsOpNorm l1 A N) (hB : IsOpNorm l1 B M)
    (hBA : B * A = 1) : IsErrorBound A (M * N) := by
  have hM : 0 ≤ M := by
    obtain ⟨v, h0, h1⟩ := hB.attained
    have := l1_nonneg (B.mulVec v)
    rw [h1] at this
    exact nonneg_of_mul_nonneg_left this h0
  constructor
  · obtain ⟨v, h0, -⟩ := hA.attained
    have h1 : l1 v ≤ M * (N * l1 v) := by
      have h2 := hB.bound (A.mulVec v)
      rw [Matrix.mulVec_mulVec, hBA, Matrix.one_mulVec] at h2
      exact h2.trans (mul_le_mul_of_nonneg_left (hA.bound v) hM)
    have h2 : 1 * l1 v ≤ (M * N) * l1 v := by rw [one_mul, mul_assoc]; exact h1
    exact le_of_mul_le_mul_right h2 h0
  · rintro x x' b b' rfl rfl
    have h1 : l1 (x' - x) ≤ M * l1 (A.mulVec x' - A.mulVec x) := by
      have := hB.bound (A.mulVec x' - A.mulVec x)
      rwa [← Matrix.mulVec_sub, Matrix.mulVec_mulVec, hBA, Matrix.one_mulVec, Matrix.mulVec_sub] at this
    have h2 := hA.bound x
    calc l1 (x' - x) * l1 (A.mulVec x) ≤ (M * l1 (A.mulVec x' - A.mulVec x)) * (N * l1 x) :=
          mul_le_mul h1 h2 (l1_nonneg _) (mul_nonneg hM (l1_nonneg _))
      _ = M * N * (l1 x * l1 (A.mulVec x' - A.mulVec x)) := by ring

/-- `cond_real2x2` of an invertible matrix: at least 1, and it bounds the relative error of the solution of a linear system
in terms of the relative error of the right-hand side. -/
theorem C80_cond2 (A : Matrix (Fin 2) (Fin 2) K) (h : A.det ≠ 0) : IsErrorBound A (cond2 A) :=
  errorBound A (Matrix.of (matrixInverse2 A).2) _ _ (C80_one_norm2_partial A) (C80_one_norm2_partial _) ((C33_inverse2 A).2 h).1

/-- `cond_real3x3`, likewise. -/
theorem C80_cond3 (A : Matrix (Fin 3) (Fin 3) K) (h : A.det ≠ 0) : IsErrorBound A (cond3 A) :=
  errorBound A (Matrix.of (matrixInverse3 A).2) _ _ (C80_one_norm3 A) (C80_one_norm3 _) ((C33_inverse3 A).2 h).1

omit [LinearOrder K] [IsStrictOrderedRing K] in
/-- The "Frobenius norms" are the squares of the Frobenius norm: the sum of the squares of all entries; so they are not
homogeneous. -/
theorem C80_frobenius (A : Fin 2 → Fin 2 → K) (B : Fin 2 → Fin 3 → K) (C : Fin 3 → Fin 2 → K) (c : K) :
    frobenius22 A = ∑ i, ∑ j, A i j ^ 2 ∧ frobenius23 B = ∑ i, ∑ j, B i j ^ 2 ∧ frobenius32 C = ∑ i, ∑ j, C i j ^ 2 ∧
    frobenius22 (fun i j => c * A i j) = c ^ 2 * frobenius22 A := by
  refine ⟨?_, ?_, ?_, ?_⟩ <;> simp [frobenius22, frobenius23, frobenius32, Fin.sum_univ_succ] <;> ring

/-- The two decompositions are the symmetric and the antisymmetric part, uniquely. -/
theorem C80_decomposition (M : Fin 3 → Fin 3 → K) :
    (∀ i j, symPart M i j = symPart M j i) ∧ (∀ i j, antiPart M i j = - antiPart M j i) ∧
    (∀ i j, symPart M i j + antiPart M i j = M i j) ∧
    ∀ S O : Fin 3 → Fin 3 → K, (∀ i j, S i j = S j i) → (∀ i j, O i j = - O j i) → (∀ i j, S i j + O i j = M i j) →
      S = symPart M ∧ O = antiPart M := by
  have hs : ∀ i j, symPart M i j = (M i j + M j i) / 2 := by
    intro i j; fin_cases i <;> fin_cases j <;> simp [symPart] <;> ring
  have ho : ∀ i j, antiPart M i j = (M i j - M j i) / 2 := by
    intro i j; fin_cases i <;> fin_cases j <;> simp [antiPart] <;> ring
  refine ⟨fun i j => by rw [hs, hs]; ring, fun i j => by rw [ho, ho]; ring, fun i j => by rw [hs, ho]; ring, ?_⟩
  intro S O h1 h2 h3
  constructor
  · funext i j
    rw [hs, ← h3 i j, ← h3 j i, h1 j i, h2 j i]; ring
  · funext i j
    rw [ho, ← h3 i j, ← h3 j i, h1 j i, h2 j i]; ring

/-! ## Non-vacuity -/

example : norm1_2 (![![1, -2], ![3, 4]] : Fin 2 → Fin 2 → ℚ) = 6 := by decide +kernel
example : (!![1, -2; 3, 4] : Matrix (Fin 2) (Fin 2) ℚ).det ≠ 0 := by rw [Matrix.det_fin_two]; simp; norm_num
example : cond2 (![![1, -2], ![3, 4]] : Fin 2 → Fin 2 → ℚ) = 21 / 5 := by decide +kernel
end Verif.Num
