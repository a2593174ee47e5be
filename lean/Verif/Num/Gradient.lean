import Verif.Num.Linear
import Mathlib.Algebra.Field.Rat
import Mathlib.Algebra.Order.Ring.Rat
/-! # Gradients on a simplex (C78): `numeric/gradient.hh`

Exact arithmetic over any ordered field.  Specification: the field sampled at the vertices is the affine function
`x ↦ c + g · x` (resp. `x ↦ c + M x`); the answer wanted is `g` (resp. `M`). -/
namespace Verif.Num
variable {K : Type} [Field K]

/-! ## Model -/

/-- the matrix `A` of `gradient_2dsimplex2` and `jacobian_2dsimplex2`: the edges of the triangle,
include/ftk/numeric/gradient.hh:12-16, 54-58. -/
def triEdges (X : Fin 3 → Fin 2 → K) : Fin 3 → Fin 2 → K :=
  ![![X 1 0 - X 0 0, X 1 1 - X 0 1], ![X 2 0 - X 1 0, X 2 1 - X 1 1], ![X 0 0 - X 2 0, X 0 1 - X 2 1]]

/-- `gradient_2dsimplex2`, include/ftk/numeric/gradient.hh:8-20. -/
def gradient2dsimplex2 (X : Fin 3 → Fin 2 → K) (f : Fin 3 → K) : Fin 2 → K :=
  solveLeastSquare3x2 (triEdges X) ![f 1 - f 0, f 2 - f 1, f 0 - f 2]

/-- `gradient_3dsimplex2`, include/ftk/numeric/gradient.hh:22-34, with the returned determinant of `solve_linear3x3`
(which the function ignores); the entry (1,2) of the matrix is `X[2][2] - X[2][2]` in the code. -/
def gradient3dsimplex2 (X : Fin 3 → Fin 3 → K) (f : Fin 3 → K) : K × (Fin 3 → K) :=
  solveLinear3x3 ![![X 1 0 - X 0 0, X 1 1 - X 0 1, X 1 2 - X 0 2],
                   ![X 2 0 - X 1 0, X 2 1 - X 1 1, X 2 2 - X 2 2],
                   ![X 0 0 - X 2 0, X 0 1 - X 2 1, X 0 2 - X 2 2]] ![f 1 - f 0, f 2 - f 1, f 0 - f 2]

/-- `jacobian_2dsimplex2`, include/ftk/numeric/gradient.hh:51-67. -/
def jacobian2dsimplex2 (X f : Fin 3 → Fin 2 → K) : Fin 2 → Fin 2 → K :=
  solveLeastSquare3x2_2 (triEdges X) (triEdges f)

/-- the edge cycle 0-1-2-3-0 of a tetrahedron, include/ftk/numeric/gradient.hh:74-86. -/
def tetEdges (X : Fin 4 → Fin 3 → K) : Fin 4 → Fin 3 → K :=
  ![![X 1 0 - X 0 0, X 1 1 - X 0 1, X 1 2 - X 0 2], ![X 2 0 - X 1 0, X 2 1 - X 1 1, X 2 2 - X 1 2],
    ![X 3 0 - X 2 0, X 3 1 - X 2 1, X 3 2 - X 2 2], ![X 0 0 - X 3 0, X 0 1 - X 3 1, X 0 2 - X 3 2]]

/-- `jacobian_3dsimplex`, include/ftk/numeric/gradient.hh:69-90. -/
def jacobian3dsimplex (X V : Fin 4 → Fin 3 → K) : Fin 3 → Fin 3 → K :=
  solveLeastSquare4x3_3 (tetEdges X) (tetEdges V)

/-! ## Specification -/

/-- the triangle has positive area -/
def Triangle (X : Fin 3 → Fin 2 → K) : Prop :=
  (X 1 0 - X 0 0) * (X 2 1 - X 0 1) - (X 1 1 - X 0 1) * (X 2 0 - X 0 0) ≠ 0

/-- the tetrahedron has positive volume -/
def Tetrahedron (X : Fin 4 → Fin 3 → K) : Prop :=
  Matrix.det (Matrix.of fun i j : Fin 3 => X i.succ j - X 0 j) ≠ 0

variable [LinearOrder K] [IsStrictOrderedRing K]

/-- an exact solution of a least-squares problem is the minimiser -/
theorem ls_exact {m n : ℕ} (A : Matrix (Fin m) (Fin n) K) (b : Fin m → K) (x y : Fin n → K)
    (hmin : y ≠ x → residual A b x < residual A b y) (h : A.mulVec y = b) : x = y := by
  by_contra hne
  have h1 := hmin (Ne.symm hne)
  have h2 : residual A b y = 0 := by simp [residual, h]
  have h3 : 0 ≤ residual A b x := Finset.sum_nonneg fun i _ => sq_nonneg _
  rw [h2] at h1
  exact absurd h1 (not_lt.2 h3)

theorem triEdges_det (X : Fin 3 → Fin 2 → K) (A : Matrix (Fin 3) (Fin 2) K) (hA : A = triEdges X) (hX : Triangle X) :
    (A.transpose * A).det ≠ 0 := by
  have : (A.transpose * A).det =
      3 * ((X 1 0 - X 0 0) * (X 2 1 - X 0 1) - (X 1 1 - X 0 1) * (X 2 0 - X 0 0)) ^ 2 := by
    rw [Matrix.det_fin_two]
    simp only [Matrix.mul_apply, Fin.sum_univ_succ, Matrix.transpose_apply]
    subst hA
    simp [triEdges]
    ring
  rw [this]
  exact mul_ne_zero (by norm_num) (pow_ne_zero _ hX)

theorem tetEdges_det (X : Fin 4 → Fin 3 → K) (A : Matrix (Fin 4) (Fin 3) K) (hA : A = tetEdges X) (hX : Tetrahedron X) :
    (A.transpose * A).det ≠ 0 := by
  have : (A.transpose * A).det =
      4 * (Matrix.det (Matrix.of fun i j : Fin 3 => X i.succ j - X 0 j)) ^ 2 := by
    rw [Matrix.det_fin_three, Matrix.det_fin_three]
    simp only [Matrix.mul_apply, Fin.sum_univ_succ, Matrix.transpose_apply]
    subst hA
    simp [tetEdges]
    ring
  rw [this]
  exact mul_ne_zero (by norm_num) (pow_ne_zero _ hX)

/-! ## Theorems -/

/-- `gradient_2dsimplex2`: the gradient of the affine function with the given values at the three vertices. -/
theorem C78_gradient_2dsimplex2_partial (X : Fin 3 → Fin 2 → K) (hX : Triangle X) (c : K) (g : Fin 2 → K) :
    gradient2dsimplex2 X (fun i => c + ∑ d, g d * X i d) = g := by
  refine ls_exact (triEdges X) _ _ g (C33_leastSquare3x2 _ _ (triEdges_det X _ rfl hX) g) ?_
  funext i
  fin_cases i <;> simp [Matrix.mulVec, dotProduct, triEdges] <;> ring

/-- There is such an affine function, and only one: the statement above determines the result for all values. -/
theorem C78_affine_interpolant (X : Fin 3 → Fin 2 → K) (hX : Triangle X) (f : Fin 3 → K) :
    ∃! cg : K × (Fin 2 → K), ∀ i, f i = cg.1 + ∑ d, cg.2 d * X i d := by
  have hD := hX
  unfold Triangle at hD
  set D := (X 1 0 - X 0 0) * (X 2 1 - X 0 1) - (X 1 1 - X 0 1) * (X 2 0 - X 0 0) with hDd
  obtain ⟨gx, ex⟩ : ∃ gx, gx * D = (f 1 - f 0) * (X 2 1 - X 0 1) - (f 2 - f 0) * (X 1 1 - X 0 1) :=
    ⟨_, div_mul_cancel₀ _ hD⟩
  obtain ⟨gy, ey⟩ : ∃ gy, gy * D = (X 1 0 - X 0 0) * (f 2 - f 0) - (X 2 0 - X 0 0) * (f 1 - f 0) :=
    ⟨_, div_mul_cancel₀ _ hD⟩
  have key1 : f 1 - f 0 = gx * (X 1 0 - X 0 0) + gy * (X 1 1 - X 0 1) := by
    apply mul_right_cancel₀ hD
    linear_combination (-(X 1 0 - X 0 0)) * ex - (X 1 1 - X 0 1) * ey + (f 1 - f 0) * hDd
  have key2 : f 2 - f 0 = gx * (X 2 0 - X 0 0) + gy * (X 2 1 - X 0 1) := by
    apply mul_right_cancel₀ hD
    linear_combination (-(X 2 0 - X 0 0)) * ex - (X 2 1 - X 0 1) * ey + (f 2 - f 0) * hDd
  refine ⟨(f 0 - gx * X 0 0 - gy * X 0 1, ![gx, gy]), fun i => ?_, ?_⟩
  · fin_cases i <;> simp
    · linear_combination key1
    · linear_combination key2
  · rintro ⟨c, g⟩ h
    have hg : g = ![gx, gy] := by
      have e1 := C78_gradient_2dsimplex2_partial X hX c g
      have e2 := C78_gradient_2dsimplex2_partial X hX (f 0 - gx * X 0 0 - gy * X 0 1) ![gx, gy]
      have hf : (fun i => c + ∑ d, g d * X i d) = fun i => (f 0 - gx * X 0 0 - gy * X 0 1) + ∑ d, ![gx, gy] d * X i d := by
        funext i
        rw [← h i]
        fin_cases i <;> simp
        · linear_combination key1
        · linear_combination key2
      rw [hf] at e1
      rw [← e1, e2]
    subst hg
    have h0 := h 0
    simp at h0
    simp only [Prod.mk.injEq, and_true]
    linear_combination -h0

/-- `jacobian_2dsimplex2` returns the **transpose** of the Jacobian: entry `[d][c]` is the derivative of component `c` along
coordinate `d`. -/
theorem C78_jacobian_2dsimplex2 (X : Fin 3 → Fin 2 → K) (hX : Triangle X) (b : Fin 2 → K) (M : Fin 2 → Fin 2 → K) :
    jacobian2dsimplex2 X (fun i c => b c + ∑ d, M c d * X i d) = fun d c => M c d := by
  have key : ∀ c, (fun d => jacobian2dsimplex2 X (fun i c => b c + ∑ d, M c d * X i d) d c) = fun d => M c d := by
    intro c
    refine ls_exact (triEdges X) _ _ (fun d => M c d) (C33_leastSquare3x2_2 _ _ (triEdges_det X _ rfl hX) c (fun d => M c d)) ?_
    funext i
    fin_cases c <;> fin_cases i <;> simp [Matrix.mulVec, dotProduct, triEdges] <;> ring
  funext d c
  exact congrFun (key c) d

/-- `jacobian_3dsimplex`: likewise the transpose of the Jacobian. -/
theorem C78_jacobian_3dsimplex (X : Fin 4 → Fin 3 → K) (hX : Tetrahedron X) (b : Fin 3 → K) (M : Fin 3 → Fin 3 → K) :
    jacobian3dsimplex X (fun i c => b c + ∑ d, M c d * X i d) = fun d c => M c d := by
  have key : ∀ c, (fun d => jacobian3dsimplex X (fun i c => b c + ∑ d, M c d * X i d) d c) = fun d => M c d := by
    intro c
    refine ls_exact (tetEdges X) _ _ (fun d => M c d) (C33_leastSquare4x3_3 _ _ (tetEdges_det X _ rfl hX) c (fun d => M c d)) ?_
    funext i
    fin_cases c <;> fin_cases i <;> simp [Matrix.mulVec, dotProduct, tetEdges, Fin.sum_univ_succ] <;> ring
  funext d c
  exact congrFun (key c) d

omit [LinearOrder K] [IsStrictOrderedRing K] in
/-- `gradient_3dsimplex2`: because of the typo `X[2][2] - X[2][2]` the third component of the "gradient" is 0 whatever the
field, when the second and third vertex have different heights; when they have the same height the system is singular. -/
theorem C78_gradient_3dsimplex2_wrong (X : Fin 3 → Fin 3 → K) (f : Fin 3 → K) :
    (X 1 2 = X 2 2 → (gradient3dsimplex2 X f).1 = 0) ∧
    ((gradient3dsimplex2 X f).1 ≠ 0 → (gradient3dsimplex2 X f).2 2 = 0) := by
  constructor
  · intro h
    simp [gradient3dsimplex2, solveLinear3x3, matrixInverse3]
    rw [h]; ring
  · intro h
    set A : Matrix (Fin 3) (Fin 3) K := ![![X 1 0 - X 0 0, X 1 1 - X 0 1, X 1 2 - X 0 2],
                   ![X 2 0 - X 1 0, X 2 1 - X 1 1, X 2 2 - X 2 2],
                   ![X 0 0 - X 2 0, X 0 1 - X 2 1, X 0 2 - X 2 2]] with hA
    set b : Fin 3 → K := ![f 1 - f 0, f 2 - f 1, f 0 - f 2] with hb
    have hs := C33_solve3 A b
    have hd : A.det ≠ 0 := by rw [← hs.1]; exact h
    have hx : A.mulVec (gradient3dsimplex2 X f).2 = b := (hs.2 hd _).2 rfl
    generalize (gradient3dsimplex2 X f).2 = x at hx ⊢
    have e0 := congrFun hx 0
    have e1 := congrFun hx 1
    have e2 := congrFun hx 2
    simp [hA, hb, Matrix.mulVec, dotProduct, Fin.sum_univ_succ] at e0 e1 e2
    have hz : (X 1 2 - X 2 2) * x 2 = 0 := by linear_combination e0 + e1 + e2
    rcases mul_eq_zero.1 hz with h' | h'
    · exfalso; apply h
      have h'' : X 1 2 = X 2 2 := sub_eq_zero.1 h'
      simp [gradient3dsimplex2, solveLinear3x3, matrixInverse3]
      rw [h'']; ring
    · exact h'

/-! ## Non-vacuity -/

example : Triangle (![![0, 0], ![2, 1], ![1, 3]] : Fin 3 → Fin 2 → ℚ) := by
  unfold Triangle; simp; norm_num
example : Tetrahedron (![![0, 0, 0], ![2, 1, 0], ![1, 3, 0], ![1, 1, 5]] : Fin 4 → Fin 3 → ℚ) := by
  unfold Tetrahedron; rw [Matrix.det_fin_three]; simp; norm_num
/-- the field `x + 2y + 7z` on a triangle with vertices at heights 0, 1, 3: the gradient found has `z`-component 0 -/
example : (gradient3dsimplex2 (![![0, 0, 0], ![1, 0, 1], ![0, 1, 3]] : Fin 3 → Fin 3 → ℚ) ![0, 8, 23]).1 ≠ 0 := by
  simp [gradient3dsimplex2, solveLinear3x3, matrixInverse3]; norm_num
end Verif.Num
