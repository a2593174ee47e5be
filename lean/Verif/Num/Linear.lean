import Verif.Num.Model
import Mathlib.LinearAlgebra.Matrix.Determinant.Basic
import Mathlib.LinearAlgebra.Matrix.Adjugate
import Mathlib.LinearAlgebra.Matrix.NonsingularInverse
import Mathlib.LinearAlgebra.Matrix.Charpoly.Coeff
import Mathlib.Algebra.Order.Field.Basic
import Mathlib.Data.Rat.Cast.Order
import Mathlib.Tactic.Ring
import Mathlib.Tactic.FieldSimp
import Mathlib.Tactic.Linarith
import Mathlib.Tactic.LinearCombination
import Mathlib.Tactic.FinCases
import Mathlib.Tactic.NormNum

/-!
# C33 (linear algebra kernels)

Specifications are Mathlib's `Matrix.det`, `Matrix.adjugate`, matrix product and `1`.
-/

namespace Verif.Num

/-- C33: `det2`, `det3`, `det4` are the determinant. -/
theorem C33_det2 {R : Type} [CommRing R] (A : Matrix (Fin 2) (Fin 2) R) : det2 A = A.det := by
  unfold det2; rw [Matrix.det_fin_two]; ring

theorem C33_det3 {R : Type} [CommRing R] (A : Matrix (Fin 3) (Fin 3) R) : det3 A = A.det := by
  unfold det3; rw [Matrix.det_fin_three]; ring

theorem C33_det4 {R : Type} [CommRing R] (A : Matrix (Fin 4) (Fin 4) R) : det4 A = A.det := by
  rw [Matrix.det_succ_row_zero]
  simp [Fin.sum_univ_succ, Matrix.det_fin_three, Fin.succAbove, Matrix.submatrix, det4]
  ring

/-- C33: adjugates. -/
theorem C33_adjugate2 {R : Type} [CommRing R] (A : Matrix (Fin 2) (Fin 2) R) :
    Matrix.of (adjugate2 A) = A.adjugate := by
  rw [Matrix.adjugate_fin_two]; rfl

theorem C33_adjugate3 {R : Type} [CommRing R] (A : Matrix (Fin 3) (Fin 3) R) :
    Matrix.of (adjugate3 A) = A.adjugate := by
  rw [Matrix.adjugate_fin_three]
  ext i j
  fin_cases i <;> fin_cases j <;> simp [adjugate3, det2s] <;> ring

/-- the loop of `matrix_matrix_multiplication` is the matrix product -/
theorem C33_matMul {R : Type} [Ring R] {M K N : ℕ} (A : Matrix (Fin M) (Fin K) R) (B : Matrix (Fin K) (Fin N) R) :
    Matrix.of (matMul A B) = A * B := by
  ext i j
  simp only [Matrix.of_apply, matMul, Matrix.mul_apply]
  rw [← List.foldl_map (f := fun k => A i k * B k j) (g := fun d x => d + x), ← List.sum_eq_foldl,
    ← List.ofFn_eq_map, List.sum_ofFn]

theorem C33_matVec2 {R : Type} [Ring R] (A : Matrix (Fin 2) (Fin 2) R) (b : Fin 2 → R) :
    matVec2 A b = A.mulVec b := by
  funext i
  fin_cases i <;> simp [matVec2, Matrix.mulVec, dotProduct, Fin.sum_univ_succ]

theorem C33_matVec3 {R : Type} [Ring R] (A : Matrix (Fin 3) (Fin 3) R) (b : Fin 3 → R) :
    matVec3 A b = A.mulVec b := by
  funext i
  fin_cases i <;> simp [matVec3, Matrix.mulVec, dotProduct, Fin.sum_univ_succ, add_assoc]

theorem C33_mat2x3Vec3 {R : Type} [Ring R] (A : Matrix (Fin 2) (Fin 3) R) (b : Fin 3 → R) :
    mat2x3Vec3 A b = A.mulVec b := by
  funext i
  fin_cases i <;> simp [mat2x3Vec3, Matrix.mulVec, dotProduct, Fin.sum_univ_succ, add_assoc]

theorem C33_mat2x2Mat2x2 {R : Type} [Ring R] (A B : Matrix (Fin 2) (Fin 2) R) :
    Matrix.of (mat2x2Mat2x2 A B) = A * B := by
  ext i j
  fin_cases i <;> fin_cases j <;> simp [mat2x2Mat2x2, Matrix.mul_apply, Fin.sum_univ_succ]

theorem C33_mat2x2Mat2x3 {R : Type} [Ring R] (A : Matrix (Fin 2) (Fin 2) R) (B : Matrix (Fin 2) (Fin 3) R) :
    Matrix.of (mat2x2Mat2x3 A B) = A * B := by
  ext i j
  fin_cases i <;> fin_cases j <;> simp [mat2x2Mat2x3, Matrix.mul_apply, Fin.sum_univ_succ]

theorem C33_mat2x3Mat3x2 {R : Type} [Ring R] (A : Matrix (Fin 2) (Fin 3) R) (B : Matrix (Fin 3) (Fin 2) R) :
    Matrix.of (mat2x3Mat3x2 A B) = A * B := by
  ext i j
  fin_cases i <;> fin_cases j <;> simp [mat2x3Mat3x2, Matrix.mul_apply, Fin.sum_univ_succ, add_assoc]

theorem C33_transpose3x2 {R : Type} (A : Matrix (Fin 3) (Fin 2) R) : Matrix.of (transpose3x2 A) = A.transpose := by
  ext i j
  fin_cases i <;> fin_cases j <;> rfl

theorem C33_transpose4x3 {R : Type} (A : Matrix (Fin 4) (Fin 3) R) : Matrix.of (transpose4x3 A) = A.transpose := by
  ext i j
  fin_cases i <;> fin_cases j <;> rfl

section field
variable {K : Type} [Field K]

/-- C33: `matrix_inverse2x2` returns the determinant and, when it is non-zero, the inverse. -/
theorem C33_inverse2 (A : Matrix (Fin 2) (Fin 2) K) :
    (matrixInverse2 A).1 = A.det ∧
    (A.det ≠ 0 → Matrix.of (matrixInverse2 A).2 * A = 1 ∧ A * Matrix.of (matrixInverse2 A).2 = 1) := by
  have hd : (matrixInverse2 A).1 = A.det := by rw [Matrix.det_fin_two]; rfl
  refine ⟨hd, fun h => ?_⟩
  have hl : Matrix.of (matrixInverse2 A).2 * A = 1 := by
    have he : Matrix.of (matrixInverse2 A).2 = (1 / A.det) • A.adjugate := by
      rw [← hd, Matrix.adjugate_fin_two]
      ext i j
      fin_cases i <;> fin_cases j <;> simp [matrixInverse2] <;> ring
    rw [he, Matrix.smul_mul, Matrix.adjugate_mul, smul_smul, one_div_mul_cancel h, one_smul]
  exact ⟨hl, mul_eq_one_comm.1 hl⟩

theorem C33_inverse3 (A : Matrix (Fin 3) (Fin 3) K) :
    (matrixInverse3 A).1 = A.det ∧
    (A.det ≠ 0 → Matrix.of (matrixInverse3 A).2 * A = 1 ∧ A * Matrix.of (matrixInverse3 A).2 = 1) := by
  have hd : (matrixInverse3 A).1 = A.det := by
    rw [Matrix.det_fin_three]; simp [matrixInverse3]; ring
  refine ⟨hd, fun h => ?_⟩
  have hl : Matrix.of (matrixInverse3 A).2 * A = 1 := by
    have he : Matrix.of (matrixInverse3 A).2 = (1 / A.det) • A.adjugate := by
      rw [← hd, Matrix.adjugate_fin_three]
      ext i j
      fin_cases i <;> fin_cases j <;> simp [matrixInverse3] <;> ring
    rw [he, Matrix.smul_mul, Matrix.adjugate_mul, smul_smul, one_div_mul_cancel h, one_smul]
  exact ⟨hl, mul_eq_one_comm.1 hl⟩

/-- the 4×4 matrix stored row-major in a flat array -/
def rowMajor4 (m : Fin 16 → K) : Matrix (Fin 4) (Fin 4) K :=
  Matrix.of ![![m 0, m 1, m 2, m 3], ![m 4, m 5, m 6, m 7], ![m 8, m 9, m 10, m 11], ![m 12, m 13, m 14, m 15]]

theorem C33_inverse4 (m : Fin 16 → K) :
    (matrixInverse4 m).1 = (rowMajor4 m).det ∧
    ((rowMajor4 m).det ≠ 0 → rowMajor4 (matrixInverse4 m).2 * rowMajor4 m = 1 ∧
      rowMajor4 m * rowMajor4 (matrixInverse4 m).2 = 1) := by
  have hd : (matrixInverse4 m).1 = (rowMajor4 m).det := by
    rw [← C33_det4]; simp [matrixInverse4, cofactors4, det4, rowMajor4]; ring
  refine ⟨hd, fun h => ?_⟩
  have hl : rowMajor4 (matrixInverse4 m).2 * rowMajor4 m = 1 := by
    have key : rowMajor4 (cofactors4 m) * rowMajor4 m = (matrixInverse4 m).1 • (1 : Matrix (Fin 4) (Fin 4) K) := by
      ext i j
      fin_cases i <;> fin_cases j <;>
        simp [rowMajor4, cofactors4, matrixInverse4, Matrix.mul_apply, Fin.sum_univ_succ] <;> ring
    have hsm : rowMajor4 (matrixInverse4 m).2 = (1 / (matrixInverse4 m).1) • rowMajor4 (cofactors4 m) := by
      ext i j
      fin_cases i <;> fin_cases j <;> simp [rowMajor4, matrixInverse4, mul_comm]
    rw [hsm, Matrix.smul_mul, key, smul_smul, hd, one_div_mul_cancel h, one_smul]
  exact ⟨hl, mul_eq_one_comm.1 hl⟩

/-- C33: the solvers solve, and the solution is the only one. -/
theorem C33_solve2 (A : Matrix (Fin 2) (Fin 2) K) (b : Fin 2 → K) :
    (solveLinear2x2 A b).1 = A.det ∧
    (A.det ≠ 0 → ∀ x, A.mulVec x = b ↔ x = (solveLinear2x2 A b).2) := by
  refine ⟨C33_det2 A, fun h x => ?_⟩
  have hm : A.mulVec (solveLinear2x2 A b).2 = b := by
    have h' : A 0 0 * A 1 1 - A 1 0 * A 0 1 ≠ 0 := by rwa [← C33_det2] at h
    funext i
    fin_cases i
    · show A 0 ⬝ᵥ ![_ / (A 0 0 * A 1 1 - A 1 0 * A 0 1), _ / (A 0 0 * A 1 1 - A 1 0 * A 0 1)] = b 0
      simp only [dotProduct, Fin.sum_univ_two, Matrix.cons_val_zero, Matrix.cons_val_one]
      rw [← mul_div_assoc, ← mul_div_assoc, ← add_div, div_eq_iff h']; ring
    · show A 1 ⬝ᵥ ![_ / (A 0 0 * A 1 1 - A 1 0 * A 0 1), _ / (A 0 0 * A 1 1 - A 1 0 * A 0 1)] = b 1
      simp only [dotProduct, Fin.sum_univ_two, Matrix.cons_val_zero, Matrix.cons_val_one]
      rw [← mul_div_assoc, ← mul_div_assoc, ← add_div, div_eq_iff h']; ring
  constructor
  · intro hx
    have hi := ((C33_inverse2 A).2 h).1
    have := congrArg (Matrix.mulVec (Matrix.of (matrixInverse2 A).2)) (hx.trans hm.symm)
    simpa only [Matrix.mulVec_mulVec, hi, Matrix.one_mulVec] using this
  · rintro rfl; exact hm

theorem C33_solve3 (A : Matrix (Fin 3) (Fin 3) K) (b : Fin 3 → K) :
    (solveLinear3x3 A b).1 = A.det ∧
    (A.det ≠ 0 → ∀ x, A.mulVec x = b ↔ x = (solveLinear3x3 A b).2) := by
  refine ⟨(C33_inverse3 A).1, fun h x => ?_⟩
  obtain ⟨hi, hi'⟩ := (C33_inverse3 A).2 h
  have hs : (solveLinear3x3 A b).2 = (Matrix.of (matrixInverse3 A).2).mulVec b := C33_matVec3 _ _
  rw [hs]
  constructor
  · rintro rfl; rw [Matrix.mulVec_mulVec, hi, Matrix.one_mulVec]
  · rintro rfl; rw [Matrix.mulVec_mulVec, hi', Matrix.one_mulVec]

/-- C33: characteristic polynomials. -/
theorem C33_charPoly2 (A : Matrix (Fin 2) (Fin 2) K) (l : K) :
    charPoly2 A 0 + charPoly2 A 1 * l + charPoly2 A 2 * l ^ 2 = (l • (1 : Matrix (Fin 2) (Fin 2) K) - A).det := by
  rw [Matrix.det_fin_two]
  simp [charPoly2, det2, trace2]
  ring

theorem C33_charPoly2g (A B : Matrix (Fin 2) (Fin 2) K) (l : K) :
    charPoly2g A B 0 + charPoly2g A B 1 * l + charPoly2g A B 2 * l ^ 2 = (A - l • B).det := by
  rw [Matrix.det_fin_two]
  simp [charPoly2g, det2]
  ring

theorem C33_charPoly3 (A : Matrix (Fin 3) (Fin 3) K) (l : K) :
    charPoly3 A 0 + charPoly3 A 1 * l + charPoly3 A 2 * l ^ 2 + charPoly3 A 3 * l ^ 3
      = (l • (1 : Matrix (Fin 3) (Fin 3) K) - A).det := by
  rw [Matrix.det_fin_three]
  simp [charPoly3, det3, trace3]
  ring

theorem C33_charPoly3g (A B : Matrix (Fin 3) (Fin 3) K) (l : K) :
    charPoly3g A B 0 + charPoly3g A B 1 * l + charPoly3g A B 2 * l ^ 2 + charPoly3g A B 3 * l ^ 3
      = (A - l • B).det := by
  rw [Matrix.det_fin_three]
  simp [charPoly3g, det3]
  ring

end field

/-! ## least squares -/

section ls
variable {K : Type} [Field K] [LinearOrder K] [IsStrictOrderedRing K]

/-- squared residual `‖A x - b‖²` -/
def residual {m n : ℕ} (A : Matrix (Fin m) (Fin n) K) (b : Fin m → K) (x : Fin n → K) : K :=
  ∑ i, (A.mulVec x i - b i) ^ 2

omit [LinearOrder K] [IsStrictOrderedRing K] in
theorem normal_expand {m n : ℕ} (A : Matrix (Fin m) (Fin n) K) (b : Fin m → K) (x y : Fin n → K)
    (h : A.transpose.mulVec (A.mulVec x - b) = 0) :
    residual A b y = residual A b x + ∑ i, (A.mulVec (y - x) i) ^ 2 := by
  have hc : ∑ i, A.mulVec (y - x) i * (A.mulVec x i - b i) = 0 := by
    have h1 : dotProduct (A.mulVec (y - x)) (A.mulVec x - b) = 0 := by
      rw [Matrix.mulVec_transpose] at h
      rw [dotProduct_comm, Matrix.dotProduct_mulVec, h, zero_dotProduct]
    simpa [dotProduct] using h1
  unfold residual
  have : ∀ i, (A.mulVec y i - b i) ^ 2 = (A.mulVec x i - b i) ^ 2 + 2 * (A.mulVec (y - x) i * (A.mulVec x i - b i)) + (A.mulVec (y - x) i) ^ 2 := by
    intro i
    rw [Matrix.mulVec_sub]
    simp only [Pi.sub_apply]
    ring
  simp only [this, Finset.sum_add_distrib, ← Finset.mul_sum, hc]
  ring

theorem ls_min {m n : ℕ} (A : Matrix (Fin m) (Fin n) K) (b : Fin m → K) (x : Fin n → K)
    (h : A.transpose.mulVec (A.mulVec x - b) = 0) (hd : (A.transpose * A).det ≠ 0) (y : Fin n → K) (hy : y ≠ x) :
    residual A b x < residual A b y := by
  rw [normal_expand A b x y h]
  have hnn : ∀ i, 0 ≤ (A.mulVec (y - x) i) ^ 2 := fun i => sq_nonneg _
  have : 0 < ∑ i, (A.mulVec (y - x) i) ^ 2 := by
    refine lt_of_le_of_ne (Finset.sum_nonneg fun i _ => hnn i) fun h0 => ?_
    have hz := (Finset.sum_eq_zero_iff_of_nonneg (fun i _ => hnn i)).1 h0.symm
    have hm : A.mulVec (y - x) = 0 := by
      funext i
      have := hz i (Finset.mem_univ i)
      simpa using this
    apply hy
    have h2 : (A.transpose * A).mulVec (y - x) = 0 := by
      rw [← Matrix.mulVec_mulVec, hm, Matrix.mulVec_zero]
    have hu : IsUnit (A.transpose * A).det := isUnit_iff_ne_zero.2 hd
    have h3 := congrArg (Matrix.mulVec (A.transpose * A)⁻¹) h2
    rw [Matrix.mulVec_mulVec, Matrix.nonsing_inv_mul _ hu, Matrix.one_mulVec, Matrix.mulVec_zero] at h3
    exact sub_eq_zero.1 h3
  linarith

omit [LinearOrder K] [IsStrictOrderedRing K] in
theorem normal_of_inv {m n : ℕ} (A : Matrix (Fin m) (Fin n) K) (b : Fin m → K) (I : Matrix (Fin n) (Fin n) K)
    (hI : (A.transpose * A) * I = 1) :
    A.transpose.mulVec (A.mulVec ((I * A.transpose).mulVec b) - b) = 0 := by
  rw [Matrix.mulVec_sub, Matrix.mulVec_mulVec, Matrix.mulVec_mulVec, ← Matrix.mul_assoc, hI, Matrix.one_mul, sub_self]

/-- C33: `solve_least_square3x2` returns the unique minimiser of `‖A x - b‖²` when `AᵀA` is invertible. -/
theorem C33_leastSquare3x2 (A : Matrix (Fin 3) (Fin 2) K) (b : Fin 3 → K) (hd : (A.transpose * A).det ≠ 0)
    (y : Fin 2 → K) (hy : y ≠ solveLeastSquare3x2 A b) :
    residual A b (solveLeastSquare3x2 A b) < residual A b y := by
  refine ls_min A b _ ?_ hd y hy
  have he : solveLeastSquare3x2 A b = (Matrix.of (matrixInverse2 (A.transpose * A)).2 * A.transpose).mulVec b := by
    unfold solveLeastSquare3x2
    rw [← C33_mat2x2Mat2x3, ← C33_mat2x3Mat3x2, ← C33_transpose3x2]
    exact C33_mat2x3Vec3 _ _
  rw [he]
  exact normal_of_inv A b _ ((C33_inverse2 (A.transpose * A)).2 hd).2

/-- C33: each column of `solve_least_square3x2_2` is the least-squares solution for that column of `B`. -/
theorem C33_leastSquare3x2_2 (A : Matrix (Fin 3) (Fin 2) K) (B : Matrix (Fin 3) (Fin 2) K)
    (hd : (A.transpose * A).det ≠ 0) (c : Fin 2) (y : Fin 2 → K)
    (hy : y ≠ fun i => solveLeastSquare3x2_2 A B i c) :
    residual A (fun i => B i c) (fun i => solveLeastSquare3x2_2 A B i c) < residual A (fun i => B i c) y := by
  refine ls_min A _ _ ?_ hd y hy
  have he : (fun i => solveLeastSquare3x2_2 A B i c)
      = (Matrix.of (matrixInverse2 (A.transpose * A)).2 * A.transpose).mulVec (fun i => B i c) := by
    have h1 : Matrix.of (solveLeastSquare3x2_2 A B) = (Matrix.of (matrixInverse2 (A.transpose * A)).2 * A.transpose) * B := by
      rw [← C33_mat2x2Mat2x3, ← C33_transpose3x2, ← C33_mat2x3Mat3x2, ← C33_mat2x3Mat3x2]
      rfl
    funext i
    have := congrFun (congrFun h1 i) c
    simpa [Matrix.mul_apply, Matrix.mulVec, dotProduct] using this
  rw [he]
  exact normal_of_inv A _ _ ((C33_inverse2 (A.transpose * A)).2 hd).2

theorem C33_leastSquare4x3_3 (A : Matrix (Fin 4) (Fin 3) K) (B : Matrix (Fin 4) (Fin 3) K)
    (hd : (A.transpose * A).det ≠ 0) (c : Fin 3) (y : Fin 3 → K)
    (hy : y ≠ fun i => solveLeastSquare4x3_3 A B i c) :
    residual A (fun i => B i c) (fun i => solveLeastSquare4x3_3 A B i c) < residual A (fun i => B i c) y := by
  refine ls_min A _ _ ?_ hd y hy
  have he : (fun i => solveLeastSquare4x3_3 A B i c)
      = (Matrix.of (matrixInverse3 (A.transpose * A)).2 * A.transpose).mulVec (fun i => B i c) := by
    have h1 : Matrix.of (solveLeastSquare4x3_3 A B) = (Matrix.of (matrixInverse3 (A.transpose * A)).2 * A.transpose) * B := by
      rw [← C33_matMul, ← C33_matMul, ← C33_matMul, ← C33_transpose4x3]
      rfl
    funext i
    have := congrFun (congrFun h1 i) c
    simpa [Matrix.mul_apply, Matrix.mulVec, dotProduct] using this
  rw [he]
  exact normal_of_inv A _ _ ((C33_inverse3 (A.transpose * A)).2 hd).2

omit [LinearOrder K] [IsStrictOrderedRing K] in
/-- cross product: orthogonal to both arguments, squared length by Lagrange's identity. -/
theorem C33_cross (a b : Fin 3 → K) :
    innerProduct3 a (crossProduct a b) = 0 ∧ innerProduct3 b (crossProduct a b) = 0 ∧
    innerProduct3 (crossProduct a b) (crossProduct a b)
      = innerProduct3 a a * innerProduct3 b b - innerProduct3 a b ^ 2 := by
  refine ⟨?_, ?_, ?_⟩ <;> simp [innerProduct3, crossProduct] <;> ring

omit [LinearOrder K] [IsStrictOrderedRing K] in
/-- cross product: the scalar triple product is the determinant (this fixes the orientation); the planar
version is the determinant of the two vectors. -/
theorem C33_cross_det (a b c : Fin 3 → K) (p q : Fin 2 → K) :
    innerProduct3 c (crossProduct a b) = (Matrix.of ![c, a, b]).det ∧ crossProduct2 p q = (Matrix.of ![p, q]).det := by
  constructor
  · rw [Matrix.det_fin_three]; simp [innerProduct3, crossProduct]; ring
  · rw [Matrix.det_fin_two]; simp [crossProduct2]

/-- C33: `solve_least_square2x1` / `3x1` return the unique minimiser of `‖a x - b‖²`. -/
theorem C33_leastSquare2x1 (a b : Fin 2 → K) (ha : a ≠ 0) (y : K) (hy : y ≠ solveLeastSquare2x1 a b) :
    ∑ i, (a i * solveLeastSquare2x1 a b - b i) ^ 2 < ∑ i, (a i * y - b i) ^ 2 := by
  have hpos : 0 < innerProduct2 a a := by
    rcases eq_or_ne (a 0) 0 with h | h
    · have h' : a 1 ≠ 0 := fun h' => ha (by funext i; fin_cases i <;> assumption)
      have := mul_self_pos.2 h'
      unfold innerProduct2; nlinarith [mul_self_nonneg (a 0)]
    · have := mul_self_pos.2 h
      unfold innerProduct2; nlinarith [mul_self_nonneg (a 1)]
  have hx : solveLeastSquare2x1 a b * innerProduct2 a a = innerProduct2 a b := by
    unfold solveLeastSquare2x1
    rw [mul_assoc, one_div_mul_cancel hpos.ne', mul_one]
  generalize solveLeastSquare2x1 a b = x at *
  have h2 := mul_pos (pow_pos (mul_self_pos.2 (sub_ne_zero.2 hy)) 1) hpos
  simp only [Fin.sum_univ_two, innerProduct2] at *
  have : (a 0 * y - b 0) ^ 2 + (a 1 * y - b 1) ^ 2 - ((a 0 * x - b 0) ^ 2 + (a 1 * x - b 1) ^ 2)
      = ((y - x) * (y - x)) ^ 1 * (a 0 * a 0 + a 1 * a 1) := by
    linear_combination (2 * (y - x)) * hx
  linarith

theorem C33_leastSquare3x1 (a b : Fin 3 → K) (ha : a ≠ 0) (y : K) (hy : y ≠ solveLeastSquare3x1 a b) :
    ∑ i, (a i * solveLeastSquare3x1 a b - b i) ^ 2 < ∑ i, (a i * y - b i) ^ 2 := by
  have hpos : 0 < innerProduct3 a a := by
    obtain ⟨i, hi⟩ := Function.ne_iff.1 ha
    have := mul_self_pos.2 hi
    unfold innerProduct3
    fin_cases i <;> simp only [Fin.zero_eta, Fin.mk_one, Fin.reduceFinMk] at this <;> nlinarith [mul_self_nonneg (a 0), mul_self_nonneg (a 1), mul_self_nonneg (a 2)]
  have hx : solveLeastSquare3x1 a b * innerProduct3 a a = innerProduct3 a b := by
    unfold solveLeastSquare3x1
    rw [mul_assoc, one_div_mul_cancel hpos.ne', mul_one]
  generalize solveLeastSquare3x1 a b = x at *
  have h2 := mul_pos (pow_pos (mul_self_pos.2 (sub_ne_zero.2 hy)) 1) hpos
  simp only [Fin.sum_univ_three, innerProduct3] at *
  have : (a 0 * y - b 0) ^ 2 + (a 1 * y - b 1) ^ 2 + (a 2 * y - b 2) ^ 2 - ((a 0 * x - b 0) ^ 2 + (a 1 * x - b 1) ^ 2 + (a 2 * x - b 2) ^ 2)
      = ((y - x) * (y - x)) ^ 1 * (a 0 * a 0 + a 1 * a 1 + a 2 * a 2) := by
    linear_combination (2 * (y - x)) * hx
  linarith

/-- Non-vacuity: an invertible system and a full-rank over-determined one. -/
example : Matrix.det (Matrix.of ![![2, 1], ![7, 4]] : Matrix (Fin 2) (Fin 2) ℚ) ≠ 0 ∧
    (solveLinear2x2 ![![2, 1], ![7, 4]] ![(3 : ℚ), 11]).2 = ![1, 1] ∧
    Matrix.det (Matrix.transpose (Matrix.of ![![1, 0], ![1, 1], ![1, 2]] : Matrix (Fin 3) (Fin 2) ℚ) *
      (Matrix.of ![![1, 0], ![1, 1], ![1, 2]] : Matrix (Fin 3) (Fin 2) ℚ)) ≠ 0 ∧
    solveLeastSquare3x2 ![![1, 0], ![1, 1], ![1, 2]] ![(1 : ℚ), 3, 2] = ![3/2, 1/2] := by
  decide +kernel

end ls

end Verif.Num
