import Verif.Num.Gradient
import Mathlib.Analysis.SpecialFunctions.Pow.Real
import Mathlib.Algebra.BigOperators.Field
import Mathlib.LinearAlgebra.Matrix.DotProduct
import Mathlib.LinearAlgebra.Matrix.ToLinearEquiv
/-! # Eigenvectors of real matrices (C82): `solve_eigenvectors2x2`, `solve_eigenvectors3x3`

Exact real arithmetic.  Specification: a unit vector `v` with `A v = λ v`. -/
namespace Verif.Num

/-! ## Model -/

/-- `vector_2norm<n>`, include/ftk/numeric/vector_norm.hh:9-17. -/
noncomputable def vectorNorm {n : ℕ} (v : Fin n → ℝ) : ℝ := Real.sqrt ((List.ofFn v).foldl (fun s x => s + x * x) 0)

/-- `vector_normalization2<n>`, include/ftk/numeric/vector_normalization.hh:8-16; `none`: division by zero. -/
noncomputable def normalize {n : ℕ} (v : Fin n → ℝ) : Option (Fin n → ℝ) :=
  if vectorNorm v = 0 then none else some fun i => v i / vectorNorm v

/-- one iteration of `solve_eigenvectors2x2`, include/ftk/numeric/eigen_solver2.hh:70-85; `none`: a division by zero, the
result is NaN. -/
noncomputable def eigenvector2 (M : Fin 2 → Fin 2 → ℝ) (l : ℝ) : Option (Fin 2 → ℝ) :=
  let a : Fin 2 → ℝ := ![M 0 0 - l - M 0 1, M 1 0 - M 1 1 + l]
  let b : Fin 2 → ℝ := ![-M 0 1, -M 1 1 + l]
  if innerProduct2 a a = 0 then none else
  let x := solveLeastSquare2x1 a b
  normalize ![x, 1 - x]

/-- one iteration of `solve_eigenvectors3x3`, include/ftk/numeric/eigen_solver3.hh:57-78; `none`: a division by zero, the
result is NaN. -/
noncomputable def eigenvector3 (A : Fin 3 → Fin 3 → ℝ) (l : ℝ) : Option (Fin 3 → ℝ) :=
  let M : Fin 3 → Fin 2 → ℝ :=
    ![![A 0 0 - l - A 0 2, A 0 1 - A 0 2], ![A 1 0 - A 1 2, A 1 1 - l - A 1 2], ![A 2 0 - A 2 2 + l, A 2 1 - A 2 2 + l]]
  let b : Fin 3 → ℝ := ![-A 0 2, -A 1 2, -A 2 2 + l]
  if (matrixInverse2 (mat2x3Mat3x2 (transpose3x2 M) M)).1 = 0 then none else
  let x := solveLeastSquare3x2 M b
  normalize ![x 0, x 1, 1 - x 0 - x 1]

/-! ## Specification -/

/-- `v` is an eigenvector of `A` for the eigenvalue `l` -/
def IsEigenvector {n : ℕ} (A : Matrix (Fin n) (Fin n) ℝ) (l : ℝ) (v : Fin n → ℝ) : Prop := v ≠ 0 ∧ A.mulVec v = l • v

/-! ## Theorems -/

theorem vectorNorm_eq {n : ℕ} (v : Fin n → ℝ) : vectorNorm v = Real.sqrt (∑ i, v i ^ 2) := by
  have key : ∀ (L : List ℝ) (s : ℝ), L.foldl (fun s x => s + x * x) s = s + (L.map (· ^ 2)).sum := by
    intro L
    induction L with
    | nil => simp
    | cons x xs ih => intro s; simp only [List.foldl_cons, ih, List.map_cons, List.sum_cons]; ring
  rw [vectorNorm, key, zero_add, List.map_ofFn, List.sum_ofFn]
  rfl

/-- normalising a non-zero vector gives a unit vector in the same direction; the zero vector gives NaN -/
theorem C82_normalize {n : ℕ} (v : Fin n → ℝ) :
    (v = 0 → normalize v = none) ∧
    (v ≠ 0 → ∃ w, ∃ t : ℝ, normalize v = some w ∧ 0 < t ∧ w = t • v ∧ ∑ i, w i ^ 2 = 1) := by
  constructor
  · rintro rfl
    simp [normalize, vectorNorm_eq]
  · intro h
    have hpos : 0 < ∑ i, v i ^ 2 := by
      obtain ⟨i, hi⟩ := Function.ne_iff.1 h
      refine lt_of_lt_of_le ?_ (Finset.single_le_sum (fun j _ => sq_nonneg (v j)) (Finset.mem_univ i))
      have : v i ≠ 0 := hi
      positivity
    have hn : 0 < vectorNorm v := by rw [vectorNorm_eq]; exact Real.sqrt_pos.2 hpos
    refine ⟨fun i => v i / vectorNorm v, (vectorNorm v)⁻¹, ?_, inv_pos.2 hn, ?_, ?_⟩
    · rw [normalize, if_neg hn.ne']
    · funext i; simp [div_eq_inv_mul]
    · have : vectorNorm v ^ 2 = ∑ i, v i ^ 2 := by rw [vectorNorm_eq]; exact Real.sq_sqrt hpos.le
      simp only [div_pow, ← Finset.sum_div]
      rw [← this, div_self (by positivity)]

theorem eigen_smul {n : ℕ} {A : Matrix (Fin n) (Fin n) ℝ} {l : ℝ} {v : Fin n → ℝ} (h : A.mulVec v = l • v) (t : ℝ) :
    A.mulVec (t • v) = l • (t • v) := by rw [Matrix.mulVec_smul, h, smul_comm]

/-- `solve_eigenvectors2x2`: for an eigenvalue of the matrix the result is a unit eigenvector, unless `(1, -1)` is an
eigenvector for it: then the result is NaN. -/
theorem C82_eigenvectors2_partial (M : Matrix (Fin 2) (Fin 2) ℝ) (l : ℝ) (h : ∃ v, IsEigenvector M l v) :
    (¬ IsEigenvector M l ![1, -1] → ∃ v, eigenvector2 M l = some v ∧ IsEigenvector M l v ∧ ∑ i, v i ^ 2 = 1) ∧
    (IsEigenvector M l ![1, -1] → eigenvector2 M l = none) := by
  have hne : (![1, -1] : Fin 2 → ℝ) ≠ 0 := fun h => by simpa using congrFun h 0
  have hiff : IsEigenvector M l ![1, -1] ↔ M 0 0 - l - M 0 1 = 0 ∧ M 1 0 - M 1 1 + l = 0 := by
    constructor
    · rintro ⟨-, h⟩
      have h0 := congrFun h 0
      have h1 := congrFun h 1
      simp [Matrix.mulVec, dotProduct] at h0 h1
      exact ⟨by linarith, by linarith⟩
    · rintro ⟨h0, h1⟩
      refine ⟨hne, ?_⟩
      funext i
      fin_cases i <;> simp [Matrix.mulVec, dotProduct] <;> linarith
  have hz : innerProduct2 ![M 0 0 - l - M 0 1, M 1 0 - M 1 1 + l] ![M 0 0 - l - M 0 1, M 1 0 - M 1 1 + l] = 0 ↔
      IsEigenvector M l ![1, -1] := by
    rw [hiff]
    simp only [innerProduct2, Matrix.cons_val_zero, Matrix.cons_val_one]
    constructor
    · intro h
      exact ⟨by nlinarith [mul_self_nonneg (M 0 0 - l - M 0 1), mul_self_nonneg (M 1 0 - M 1 1 + l)],
        by nlinarith [mul_self_nonneg (M 0 0 - l - M 0 1), mul_self_nonneg (M 1 0 - M 1 1 + l)]⟩
    · rintro ⟨h0, h1⟩; rw [h0, h1]; ring
  constructor
  · intro hn
    unfold eigenvector2
    simp only
    rw [if_neg (fun h => hn (hz.1 h))]
    set a : Fin 2 → ℝ := ![M 0 0 - l - M 0 1, M 1 0 - M 1 1 + l] with ha
    set b : Fin 2 → ℝ := ![-M 0 1, -M 1 1 + l] with hb
    obtain ⟨w, hw0, hw⟩ := h
    have hw1 := congrFun hw 0
    have hw2 := congrFun hw 1
    simp [Matrix.mulVec, dotProduct] at hw1 hw2
    -- coordinate sum
    have hs : w 0 + w 1 ≠ 0 := by
      intro hs
      have h1 : w 1 = -w 0 := by linarith
      rw [h1] at hw1 hw2
      have hw00 : w 0 ≠ 0 := fun h0 => hw0 (by funext i; fin_cases i <;> simp [h1, h0])
      refine hn (hiff.2 ⟨?_, ?_⟩)
      · apply (mul_eq_zero.1 (show w 0 * (M 0 0 - l - M 0 1) = 0 by linarith)).resolve_left hw00
      · apply (mul_eq_zero.1 (show w 0 * (M 1 0 - M 1 1 + l) = 0 by linarith)).resolve_left hw00
    have hx : solveLeastSquare2x1 a b = w 0 / (w 0 + w 1) := by
      by_contra hne'
      have ha0 : a ≠ 0 := by
        intro h0
        apply hn; rw [hiff]
        exact ⟨by simpa [ha] using congrFun h0 0, by simpa [ha] using congrFun h0 1⟩
      have hlt := C33_leastSquare2x1 a b ha0 (w 0 / (w 0 + w 1)) (Ne.symm hne')
      have e0 : a 0 * (w 0 / (w 0 + w 1)) - b 0 = 0 := by
        simp [ha, hb]; field_simp; linear_combination hw1
      have e1 : a 1 * (w 0 / (w 0 + w 1)) - b 1 = 0 := by
        simp [ha, hb]; field_simp; linear_combination hw2
      rw [Fin.sum_univ_two, Fin.sum_univ_two, e0, e1] at hlt
      have := add_nonneg (sq_nonneg (a 0 * solveLeastSquare2x1 a b - b 0)) (sq_nonneg (a 1 * solveLeastSquare2x1 a b - b 1))
      simp at hlt
      linarith
    rw [hx]
    have hvec : (![w 0 / (w 0 + w 1), 1 - w 0 / (w 0 + w 1)] : Fin 2 → ℝ) = (w 0 + w 1)⁻¹ • w := by
      funext i
      fin_cases i
      · simp; field_simp
      · simp; field_simp; ring
    rw [hvec]
    have hv0 : (w 0 + w 1)⁻¹ • w ≠ 0 := smul_ne_zero (inv_ne_zero hs) hw0
    obtain ⟨v, t, h1, h2, h3, h4⟩ := (C82_normalize ((w 0 + w 1)⁻¹ • w)).2 hv0
    refine ⟨v, h1, ⟨?_, ?_⟩, h4⟩
    · rw [h3]; exact smul_ne_zero h2.ne' hv0
    · rw [h3]; exact eigen_smul (eigen_smul hw _) _
  · intro h
    unfold eigenvector2
    simp only
    rw [if_pos (hz.2 h)]

/-- `solve_eigenvectors3x3`: for an eigenvalue of the matrix the result is a unit eigenvector, unless there is an eigenvector
for it with coordinate sum 0: then the result is NaN. -/
theorem C82_eigenvectors3_partial (A : Matrix (Fin 3) (Fin 3) ℝ) (l : ℝ) (h : ∃ v, IsEigenvector A l v) :
    ((∀ v, IsEigenvector A l v → v 0 + v 1 + v 2 ≠ 0) →
      ∃ v, eigenvector3 A l = some v ∧ IsEigenvector A l v ∧ ∑ i, v i ^ 2 = 1) ∧
    ((∃ v, IsEigenvector A l v ∧ v 0 + v 1 + v 2 = 0) → eigenvector3 A l = none) := by
  obtain ⟨M, hM⟩ : ∃ M : Matrix (Fin 3) (Fin 2) ℝ, M = ![![A 0 0 - l - A 0 2, A 0 1 - A 0 2],
    ![A 1 0 - A 1 2, A 1 1 - l - A 1 2], ![A 2 0 - A 2 2 + l, A 2 1 - A 2 2 + l]] := ⟨_, rfl⟩
  -- M y = (A - l) (y0, y1, -y0-y1)
  have hMy : ∀ y : Fin 2 → ℝ, M.mulVec y = A.mulVec ![y 0, y 1, -y 0 - y 1] - l • ![y 0, y 1, -y 0 - y 1] := by
    intro y
    funext i
    fin_cases i <;> simp [hM, Matrix.mulVec, dotProduct, Fin.sum_univ_succ] <;> ring
  have hdet : (matrixInverse2 (mat2x3Mat3x2 (transpose3x2 M) M)).1 = (M.transpose * M).det := by
    have h1 := C33_mat2x3Mat3x2 (Matrix.of (transpose3x2 M)) M
    rw [C33_transpose3x2] at h1
    rw [← h1]
    exact (C33_inverse2 (Matrix.of (mat2x3Mat3x2 (transpose3x2 M) M))).1
  have hker : (M.transpose * M).det = 0 ↔ ∃ y : Fin 2 → ℝ, y ≠ 0 ∧ M.mulVec y = 0 := by
    rw [← Matrix.exists_mulVec_eq_zero_iff]
    constructor
    · rintro ⟨y, hy0, hy⟩
      refine ⟨y, hy0, ?_⟩
      have : dotProduct (M.mulVec y) (M.mulVec y) = 0 := by
        have h1 : dotProduct y ((M.transpose * M).mulVec y) = 0 := by rw [hy, dotProduct_zero]
        rw [← Matrix.mulVec_mulVec, Matrix.dotProduct_mulVec, Matrix.vecMul_transpose] at h1
        exact h1
      exact dotProduct_self_eq_zero.1 this
    · rintro ⟨y, hy0, hy⟩
      exact ⟨y, hy0, by rw [← Matrix.mulVec_mulVec, hy, Matrix.mulVec_zero]⟩
  constructor
  · intro hn
    have hd : (M.transpose * M).det ≠ 0 := by
      rw [Ne, hker]
      rintro ⟨y, hy0, hy⟩
      rw [hMy] at hy
      refine hn ![y 0, y 1, -y 0 - y 1] ⟨?_, sub_eq_zero.1 hy⟩ (by simp)
      intro h0
      apply hy0
      funext i
      fin_cases i
      · simpa using congrFun h0 0
      · simpa using congrFun h0 1
    unfold eigenvector3
    simp only
    rw [← hM, if_neg (by rw [hdet]; exact hd)]
    obtain ⟨w, hw0, hw⟩ := h
    have hs := hn w ⟨hw0, hw⟩
    have hw1 := congrFun hw 0
    have hw2 := congrFun hw 1
    have hw3 := congrFun hw 2
    simp [Matrix.mulVec, dotProduct, Fin.sum_univ_succ] at hw1 hw2 hw3
    have hx : solveLeastSquare3x2 M ![-A 0 2, -A 1 2, -A 2 2 + l] = ![w 0 / (w 0 + w 1 + w 2), w 1 / (w 0 + w 1 + w 2)] := by
      refine ls_exact M _ _ _ (C33_leastSquare3x2 M _ hd _) ?_
      funext i
      fin_cases i
      · simp [hM, Matrix.mulVec, dotProduct]; field_simp; linear_combination hw1
      · simp [hM, Matrix.mulVec, dotProduct]; field_simp; linear_combination hw2
      · simp [hM, Matrix.mulVec, dotProduct]; field_simp; linear_combination hw3
    rw [hx]
    have hvec : (![(![w 0 / (w 0 + w 1 + w 2), w 1 / (w 0 + w 1 + w 2)] : Fin 2 → ℝ) 0,
        (![w 0 / (w 0 + w 1 + w 2), w 1 / (w 0 + w 1 + w 2)] : Fin 2 → ℝ) 1,
        1 - (![w 0 / (w 0 + w 1 + w 2), w 1 / (w 0 + w 1 + w 2)] : Fin 2 → ℝ) 0 -
          (![w 0 / (w 0 + w 1 + w 2), w 1 / (w 0 + w 1 + w 2)] : Fin 2 → ℝ) 1] : Fin 3 → ℝ) = (w 0 + w 1 + w 2)⁻¹ • w := by
      funext i
      fin_cases i
      · simp; field_simp
      · simp; field_simp
      · simp; field_simp; ring
    rw [hvec]
    have hv0 : (w 0 + w 1 + w 2)⁻¹ • w ≠ 0 := smul_ne_zero (inv_ne_zero hs) hw0
    obtain ⟨v, t, h1, h2, h3, h4⟩ := (C82_normalize ((w 0 + w 1 + w 2)⁻¹ • w)).2 hv0
    refine ⟨v, h1, ⟨?_, ?_⟩, h4⟩
    · rw [h3]; exact smul_ne_zero h2.ne' hv0
    · rw [h3]; exact eigen_smul (eigen_smul hw _) _
  · rintro ⟨v, ⟨hv0, hv⟩, hs⟩
    unfold eigenvector3
    simp only
    rw [← hM, if_pos]
    rw [hdet, hker]
    refine ⟨![v 0, v 1], ?_, ?_⟩
    · intro h0
      apply hv0
      have e0 : v 0 = 0 := by simpa using congrFun h0 0
      have e1 : v 1 = 0 := by simpa using congrFun h0 1
      funext i
      fin_cases i <;> simp [e0, e1]
      linarith
    · rw [hMy]
      have : (![(![v 0, v 1] : Fin 2 → ℝ) 0, (![v 0, v 1] : Fin 2 → ℝ) 1, -(![v 0, v 1] : Fin 2 → ℝ) 0 - (![v 0, v 1] : Fin 2 → ℝ) 1] : Fin 3 → ℝ) = v := by
        funext i
        fin_cases i <;> simp
        linarith
      rw [this, hv, sub_self]

/-! ## Non-vacuity -/

/-- `[[2, 1], [1, 2]]` has the eigenvalue 3 with eigenvector `(1, 1)`: found ... -/
example : IsEigenvector !![2, 1; 1, 2] 3 ![1, 1] ∧ ¬ IsEigenvector !![2, 1; 1, 2] 3 ![1, -1] := by
  constructor
  · refine ⟨fun h => by simpa using congrFun h 0, ?_⟩
    funext i; fin_cases i <;> simp [Matrix.mulVec, dotProduct] <;> norm_num
  · rintro ⟨-, h⟩
    have := congrFun h 0
    simp [Matrix.mulVec, dotProduct] at this
    norm_num at this
/-- ... and the eigenvalue 1 with eigenvector `(1, -1)`: NaN. -/
example : IsEigenvector !![2, 1; 1, 2] 1 ![1, -1] := by
  refine ⟨fun h => by simpa using congrFun h 0, ?_⟩
  funext i; fin_cases i <;> simp [Matrix.mulVec, dotProduct] <;> norm_num
end Verif.Num
