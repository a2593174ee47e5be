import Verif.Cell.Model
import Mathlib.Tactic.Ring
import Mathlib.Tactic.FieldSimp
import Mathlib.Tactic.LinearCombination
import Mathlib.Tactic.NormNum
import Mathlib.Algebra.BigOperators.Fin
import Mathlib.Algebra.Field.Rat

/-!
# Quadratic interpolation on a triangle (C138)
-/

namespace Verif.Cell

open Verif.Num

variable {K : Type} [Field K] [CharZero K]

/-! ### Specification -/

/-- A quadratic polynomial of the plane. -/
def poly2 (a b c d e k : K) (p : Fin 2 → K) : K := a * p 0 * p 0 + b * p 0 * p 1 + c * p 1 * p 1 + d * p 0 + e * p 1 + k

/-- Midpoint. -/
def mid (p q : Fin 2 → K) : Fin 2 → K := ![(p 0 + q 0) / 2, (p 1 + q 1) / 2]

/-- The six nodes: vertices, then the midpoints of 01, 12 and 20. -/
def node (x : Fin 3 → Fin 2 → K) : Fin 6 → Fin 2 → K := ![x 0, x 1, x 2, mid (x 0) (x 1), mid (x 1) (x 2), mid (x 0) (x 2)]

/-- The barycentric coordinates of the nodes. -/
def bnode : Fin 6 → Fin 3 → K := ![![1, 0, 0], ![0, 1, 0], ![0, 0, 1], ![1 / 2, 1 / 2, 0], ![0, 1 / 2, 1 / 2], ![1 / 2, 0, 1 / 2]]

/-! ### Lemmas -/

/-- `L_i(p)`. -/
def lval (x : Fin 3 → Fin 2 → K) (i : Fin 3) (p : Fin 2 → K) : K := coefL x i 0 * p 0 + coefL x i 1 * p 1 + coefL x i 2

theorem lval_sum {x : Fin 3 → Fin 2 → K} (hd : det123 x ≠ 0) (p : Fin 2 → K) : lval x 0 p + lval x 1 p + lval x 2 p = 1 := by
  simp only [lval, coefL, Matrix.cons_val]
  field_simp
  unfold det123
  ring

theorem lval_point {x : Fin 3 → Fin 2 → K} (hd : det123 x ≠ 0) (p : Fin 2 → K) (k : Fin 2) :
    p k = lval x 0 p * x 0 k + lval x 1 p * x 1 k + lval x 2 p * x 2 k := by
  simp only [lval, coefL, Matrix.cons_val]
  field_simp
  fin_cases k <;> simp only [Fin.zero_eta, Fin.mk_one] <;> unfold det123 <;> ring

theorem interp_basis (f : Fin 6 → K) (x : Fin 3 → Fin 2 → K) (p : Fin 2 → K) : quadInterp (quadCoef f x) p =
    lval x 0 p * (2 * lval x 0 p - 1) * f 0 + lval x 1 p * (2 * lval x 1 p - 1) * f 1 + lval x 2 p * (2 * lval x 2 p - 1) * f 2 +
      4 * lval x 0 p * lval x 1 p * f 3 + 4 * lval x 1 p * lval x 2 p * f 4 + 4 * lval x 0 p * lval x 2 p * f 5 := by
  simp only [quadInterp, quadCoef, lval, Matrix.cons_val]
  generalize coefL x = L
  ring

/-! ### C138 -/

/-- C138: the coefficients computed from the values of any quadratic polynomial at the vertices and the midpoints reproduce it everywhere. -/
theorem C138_reproduces (x : Fin 3 → Fin 2 → K) (hd : det123 x ≠ 0) (a b c d e k : K) (p : Fin 2 → K) :
    quadInterp (quadCoef (fun i => poly2 a b c d e k (node x i)) x) p = poly2 a b c d e k p := by
  rw [interp_basis]
  have hs := lval_sum hd p
  have h0 := lval_point hd p 0
  have h1 := lval_point hd p 1
  generalize lval x 0 p = l0 at *
  generalize lval x 1 p = l1 at *
  generalize lval x 2 p = l2 at *
  obtain rfl : l2 = 1 - l0 - l1 := by linear_combination hs
  simp only [poly2, h0, h1, node, mid, Matrix.cons_val]
  ring

/-- C138: they interpolate the six given values. -/
theorem C138_interpolates (x : Fin 3 → Fin 2 → K) (hd : det123 x ≠ 0) (f : Fin 6 → K) (i : Fin 6) :
    quadInterp (quadCoef f x) (node x i) = f i := by
  rw [interp_basis]
  have hn : ∀ j : Fin 3, lval x j (node x i) = bnode i j := by
    intro j
    fin_cases i <;> fin_cases j <;> simp only [lval, coefL, node, bnode, mid, Fin.zero_eta, Fin.mk_one, Fin.reduceFinMk, Matrix.cons_val] <;>
      field_simp <;> unfold det123 <;> ring
  rw [hn, hn, hn]
  fin_cases i <;> simp [bnode] <;> ring

/-- C138: the gradient is the derivative: along every direction the interpolant changes by `t (grad · h)` and a term in `t²`. -/
theorem C138_gradient (f : Fin 6 → K) (x : Fin 3 → Fin 2 → K) (p h : Fin 2 → K) (t : K) :
    quadInterp (quadCoef f x) (fun k => p k + t * h k) = quadInterp (quadCoef f x) p +
      t * (quadGrad (quadCoef f x) p 0 * h 0 + quadGrad (quadCoef f x) p 1 * h 1) + t ^ 2 * (quadInterp (quadCoef f x) h -
        quadInterp (quadCoef f x) 0 - (quadGrad (quadCoef f x) 0 0 * h 0 + quadGrad (quadCoef f x) 0 1 * h 1)) := by
  simp only [quadInterp, quadGrad, quadCoef, Matrix.cons_val, Pi.zero_apply]
  generalize coefL x = L
  ring

/-- The matrix of second derivatives of the interpolant, as the second difference quotients. -/
def IsHessian (g : (Fin 2 → K) → K) (H : Fin 2 → Fin 2 → K) : Prop :=
  ∀ p h k : Fin 2 → K, g (fun i => p i + h i + k i) - g (fun i => p i + h i) - g (fun i => p i + k i) + g p = ∑ i, ∑ j, h i * H i j * k j

/-- C138 (finding): the matrix returned as Hessian has the mixed second derivatives, but its diagonal is half of theirs. -/
theorem C138_hessian (f : Fin 6 → K) (x : Fin 3 → Fin 2 → K) (H : Fin 2 → Fin 2 → K) : IsHessian (quadInterp (quadCoef f x)) H ↔
    quadHess (quadCoef f x) 0 1 = H 0 1 ∧ quadHess (quadCoef f x) 1 0 = H 1 0 ∧
      2 * quadHess (quadCoef f x) 0 0 = H 0 0 ∧ 2 * quadHess (quadCoef f x) 1 1 = H 1 1 := by
  have hsym : quadCoef f x 1 0 = quadCoef f x 0 1 := rfl
  constructor
  · intro hH
    have h00 := hH 0 ![1, 0] ![1, 0]
    have h01 := hH 0 ![1, 0] ![0, 1]
    have h10 := hH 0 ![0, 1] ![1, 0]
    have h11 := hH 0 ![0, 1] ![0, 1]
    simp only [Fin.sum_univ_two, Matrix.cons_val, Pi.zero_apply, quadInterp] at h00 h01 h10 h11
    simp only [quadHess, Matrix.cons_val]
    rw [hsym]
    generalize quadCoef f x = Q at *
    refine ⟨?_, ?_, ?_, ?_⟩
    · linear_combination h01
    · linear_combination h10
    · linear_combination h00
    · linear_combination h11
  · rintro ⟨h01, h10, h00, h11⟩ p h k
    simp only [Fin.sum_univ_two, ← h01, ← h10, ← h00, ← h11, quadHess, Matrix.cons_val, quadInterp]
    rw [hsym]
    generalize quadCoef f x = Q at *
    ring

/-- C138 (finding): so a strict minimum (`x² + 3/2 xy + y²`) is taken for a saddle: the determinant of the returned matrix is negative. -/
theorem C138_hessian_wrong_type : ∃ (f : Fin 6 → ℚ) (x : Fin 3 → Fin 2 → ℚ), det123 x ≠ 0 ∧
    (∀ p, quadInterp (quadCoef f x) p = p 0 ^ 2 + 3 / 2 * p 0 * p 1 + p 1 ^ 2) ∧
    det2 (quadHess (quadCoef f x)) < 0 := by
  refine ⟨fun i => poly2 1 (3 / 2) 1 0 0 0 (node ![![0, 0], ![1, 0], ![0, 1]] i), ![![0, 0], ![1, 0], ![0, 1]], by decide +kernel, ?_, by decide +kernel⟩
  intro p
  rw [C138_reproduces _ (by decide +kernel)]
  unfold poly2
  ring

/-- C138: the barycentric form: `muᵀ Q mu` takes the six values. -/
theorem C138_barycentric (f : Fin 6 → K) (i : Fin 6) : ∑ a, ∑ b, bnode i a * baryCoef f a b * bnode i b = f i := by
  simp only [Fin.sum_univ_three]
  fin_cases i <;> simp [bnode, baryCoef] <;> ring

/-- C138: it agrees with the Cartesian one at every point of the plane. -/
theorem C138_forms_agree (f : Fin 6 → K) (x : Fin 3 → Fin 2 → K) (mu : Fin 3 → K) (hd : det123 x ≠ 0) (hs : mu 0 + mu 1 + mu 2 = 1) :
    quadInterp (quadCoef f x) (fun k => mu 0 * x 0 k + mu 1 * x 1 k + mu 2 * x 2 k) = ∑ a, ∑ b, mu a * baryCoef f a b * mu b := by
  have hl : ∀ j, lval x j (fun k => mu 0 * x 0 k + mu 1 * x 1 k + mu 2 * x 2 k) = mu j := by
    obtain h2 : mu 2 = 1 - mu 0 - mu 1 := by linear_combination hs
    intro j
    fin_cases j <;> simp only [lval, coefL, Fin.zero_eta, Fin.mk_one, Fin.reduceFinMk, Matrix.cons_val, h2] <;> field_simp <;> unfold det123 <;> ring
  rw [interp_basis, hl, hl, hl]
  obtain h2 : mu 2 = 1 - mu 0 - mu 1 := by linear_combination hs
  simp only [Fin.sum_univ_three, baryCoef, Matrix.cons_val, h2]
  ring

/-- C138: the barycentric gradient is the derivative of `muᵀ Q mu`, and the gradients at the vertices are its values there. -/
theorem C138_barycentric_gradient (f : Fin 6 → K) (mu h : Fin 3 → K) (t : K) :
    (∑ a, ∑ b, (mu a + t * h a) * baryCoef f a b * (mu b + t * h b) = ∑ a, ∑ b, mu a * baryCoef f a b * mu b +
      t * ∑ a, baryGrad (baryCoef f) mu a * h a + t ^ 2 * ∑ a, ∑ b, h a * baryCoef f a b * h b) ∧
    ∀ v : Fin 3, baryGradVertices (baryCoef f) v = baryGrad (baryCoef f) (fun j => if j = v then 1 else 0) := by
  constructor
  · simp only [Fin.sum_univ_three, baryGrad, baryCoef, Matrix.cons_val]
    ring
  · intro v
    funext k
    fin_cases v <;> fin_cases k <;> simp [baryGradVertices, baryGrad, baryCoef]

example : det123 (![![0, 0], ![1, 0], ![0, 1]] : Fin 3 → Fin 2 → ℚ) ≠ 0 := by decide +kernel

end Verif.Cell
