import Verif.Num.Det
import Mathlib.Algebra.Field.Defs
import Mathlib.Algebra.Order.Ring.Int
import Mathlib.Algebra.Order.Group.Abs

/-!
# Model of the small linear algebra of `include/ftk/numeric`

`adjugate.hh`, `matrix_inverse.hh`, `matrix_multiplication.hh`, `transpose.hh`, `linear_solver.hh`,
`linear_solver1.hh`, `trace.hh`, `characteristic_polynomial.hh`, `cross_product.hh`,
`inner_product.hh`, `linear_interpolation.hh`, `inverse_linear_interpolation_solver.hh`.

Arithmetic is exact (an arbitrary ring or field); rounding, infinities and NaN are not modelled.
Division by zero follows Lean's convention `a / 0 = 0`; every theorem about a quotient assumes the
divisor is non-zero.  Condition numbers (`cond.hh`) are not modelled.
-/

namespace Verif.Num

variable {R : Type}

/-- `adjugate.hh:8-16`. -/
def adjugate2 [Ring R] (M : Fin 2 → Fin 2 → R) : Fin 2 → Fin 2 → R :=
  ![![M 1 1, - M 0 1], ![- M 1 0, M 0 0]]

/-- `adjugate.hh:18-31`. -/
def adjugate3 [Ring R] (M : Fin 3 → Fin 3 → R) : Fin 3 → Fin 3 → R :=
  ![![det2s (M 1 1) (M 1 2) (M 2 1) (M 2 2), - det2s (M 0 1) (M 0 2) (M 2 1) (M 2 2), det2s (M 0 1) (M 0 2) (M 1 1) (M 1 2)],
    ![- det2s (M 1 0) (M 1 2) (M 2 0) (M 2 2), det2s (M 0 0) (M 0 2) (M 2 0) (M 2 2), - det2s (M 0 0) (M 0 2) (M 1 0) (M 1 2)],
    ![det2s (M 1 0) (M 1 1) (M 2 0) (M 2 1), - det2s (M 0 0) (M 0 1) (M 2 0) (M 2 1), det2s (M 0 0) (M 0 1) (M 1 0) (M 1 1)]]

/-- `matrix_inverse.hh:8-21`: returns (determinant, inverse). -/
def matrixInverse2 [Field R] (m : Fin 2 → Fin 2 → R) : R × (Fin 2 → Fin 2 → R) :=
  let det := m 0 0 * m 1 1 - m 0 1 * m 1 0
  let invdet := 1 / det
  (det, ![![m 1 1 * invdet, - m 0 1 * invdet], ![- m 1 0 * invdet, m 0 0 * invdet]])

/-- `matrix_inverse.hh:23-46`. -/
def matrixInverse3 [Field R] (m : Fin 3 → Fin 3 → R) : R × (Fin 3 → Fin 3 → R) :=
  let inv : Fin 3 → Fin 3 → R :=
    ![![m 1 1 * m 2 2 - m 1 2 * m 2 1, - m 0 1 * m 2 2 + m 0 2 * m 2 1, m 0 1 * m 1 2 - m 0 2 * m 1 1],
      ![- m 1 0 * m 2 2 + m 1 2 * m 2 0, m 0 0 * m 2 2 - m 0 2 * m 2 0, - m 0 0 * m 1 2 + m 0 2 * m 1 0],
      ![m 1 0 * m 2 1 - m 1 1 * m 2 0, - m 0 0 * m 2 1 + m 0 1 * m 2 0, m 0 0 * m 1 1 - m 0 1 * m 1 0]]
  let det := m 0 0 * inv 0 0 + m 0 1 * inv 1 0 + m 0 2 * inv 2 0
  let invdet := 1 / det
  (det, fun i j => inv i j * invdet)

/-- `matrix_inverse.hh:50-81`: the cofactor assignments, in the order of the flat array `inv[0..15]`. -/
def cofactors4 [Ring R] (m : Fin 16 → R) : Fin 16 → R := ![
    m 5*m 10*m 15 - m 5*m 11*m 14 - m 9*m 6*m 15 + m 9*m 7*m 14 + m 13*m 6*m 11 - m 13*m 7*m 10,
    -m 1*m 10*m 15 + m 1*m 11*m 14 + m 9*m 2*m 15 - m 9*m 3*m 14 - m 13*m 2*m 11 + m 13*m 3*m 10,
    m 1*m 6*m 15 - m 1*m 7*m 14 - m 5*m 2*m 15 + m 5*m 3*m 14 + m 13*m 2*m 7 - m 13*m 3*m 6,
    -m 1*m 6*m 11 + m 1*m 7*m 10 + m 5*m 2*m 11 - m 5*m 3*m 10 - m 9*m 2*m 7 + m 9*m 3*m 6,
    -m 4*m 10*m 15 + m 4*m 11*m 14 + m 8*m 6*m 15 - m 8*m 7*m 14 - m 12*m 6*m 11 + m 12*m 7*m 10,
    m 0*m 10*m 15 - m 0*m 11*m 14 - m 8*m 2*m 15 + m 8*m 3*m 14 + m 12*m 2*m 11 - m 12*m 3*m 10,
    -m 0*m 6*m 15 + m 0*m 7*m 14 + m 4*m 2*m 15 - m 4*m 3*m 14 - m 12*m 2*m 7 + m 12*m 3*m 6,
    m 0*m 6*m 11 - m 0*m 7*m 10 - m 4*m 2*m 11 + m 4*m 3*m 10 + m 8*m 2*m 7 - m 8*m 3*m 6,
    m 4*m 9*m 15 - m 4*m 11*m 13 - m 8*m 5*m 15 + m 8*m 7*m 13 + m 12*m 5*m 11 - m 12*m 7*m 9,
    -m 0*m 9*m 15 + m 0*m 11*m 13 + m 8*m 1*m 15 - m 8*m 3*m 13 - m 12*m 1*m 11 + m 12*m 3*m 9,
    m 0*m 5*m 15 - m 0*m 7*m 13 - m 4*m 1*m 15 + m 4*m 3*m 13 + m 12*m 1*m 7 - m 12*m 3*m 5,
    -m 0*m 5*m 11 + m 0*m 7*m 9 + m 4*m 1*m 11 - m 4*m 3*m 9 - m 8*m 1*m 7 + m 8*m 3*m 5,
    -m 4*m 9*m 14 + m 4*m 10*m 13 + m 8*m 5*m 14 - m 8*m 6*m 13 - m 12*m 5*m 10 + m 12*m 6*m 9,
    m 0*m 9*m 14 - m 0*m 10*m 13 - m 8*m 1*m 14 + m 8*m 2*m 13 + m 12*m 1*m 10 - m 12*m 2*m 9,
    -m 0*m 5*m 14 + m 0*m 6*m 13 + m 4*m 1*m 14 - m 4*m 2*m 13 - m 12*m 1*m 6 + m 12*m 2*m 5,
    m 0*m 5*m 10 - m 0*m 6*m 9 - m 4*m 1*m 10 + m 4*m 2*m 9 + m 8*m 1*m 6 - m 8*m 2*m 5]

/-- `matrix_inverse.hh:46-91`, on the flat array `m[16]`. -/
def matrixInverse4 [Field R] (m : Fin 16 → R) : R × (Fin 16 → R) :=
  let inv := cofactors4 m
  let det := m 0 * inv 0 + m 1 * inv 4 + m 2 * inv 8 + m 3 * inv 12
  let invdet := 1 / det
  (det, fun i => inv i * invdet)

/-- `matrix_multiplication.hh:6-18` `matrix_matrix_multiplication<T, M, K, N>`: the dot product is
accumulated from `T(0)` for `k = 0, 1, …`. -/
def matMul [Ring R] {M K N : ℕ} (A : Fin M → Fin K → R) (B : Fin K → Fin N → R) : Fin M → Fin N → R :=
  fun i j => (List.finRange K).foldl (fun dot k => dot + A i k * B k j) 0

/-- `matrix_multiplication.hh:28-34`. -/
def matVec2 [Ring R] (A : Fin 2 → Fin 2 → R) (b : Fin 2 → R) : Fin 2 → R :=
  ![A 0 0 * b 0 + A 0 1 * b 1, A 1 0 * b 0 + A 1 1 * b 1]

/-- `matrix_multiplication.hh:36-42`. -/
def mat2x3Vec3 [Ring R] (A : Fin 2 → Fin 3 → R) (b : Fin 3 → R) : Fin 2 → R :=
  ![A 0 0 * b 0 + A 0 1 * b 1 + A 0 2 * b 2, A 1 0 * b 0 + A 1 1 * b 1 + A 1 2 * b 2]

/-- `matrix_multiplication.hh:53-60`. -/
def matVec3 [Ring R] (A : Fin 3 → Fin 3 → R) (b : Fin 3 → R) : Fin 3 → R :=
  ![A 0 0 * b 0 + A 0 1 * b 1 + A 0 2 * b 2,
    A 1 0 * b 0 + A 1 1 * b 1 + A 1 2 * b 2,
    A 2 0 * b 0 + A 2 1 * b 1 + A 2 2 * b 2]

/-- `matrix_multiplication.hh:62-70`. -/
def mat2x2Mat2x2 [Ring R] (A B : Fin 2 → Fin 2 → R) : Fin 2 → Fin 2 → R :=
  ![![A 0 0 * B 0 0 + A 0 1 * B 1 0, A 0 0 * B 0 1 + A 0 1 * B 1 1],
    ![A 1 0 * B 0 0 + A 1 1 * B 1 0, A 1 0 * B 0 1 + A 1 1 * B 1 1]]

/-- `matrix_multiplication.hh:72-82`. -/
def mat2x2Mat2x3 [Ring R] (A : Fin 2 → Fin 2 → R) (B : Fin 2 → Fin 3 → R) : Fin 2 → Fin 3 → R :=
  ![![A 0 0 * B 0 0 + A 0 1 * B 1 0, A 0 0 * B 0 1 + A 0 1 * B 1 1, A 0 0 * B 0 2 + A 0 1 * B 1 2],
    ![A 1 0 * B 0 0 + A 1 1 * B 1 0, A 1 0 * B 0 1 + A 1 1 * B 1 1, A 1 0 * B 0 2 + A 1 1 * B 1 2]]

/-- `matrix_multiplication.hh:126-134`. -/
def mat2x3Mat3x2 [Ring R] (A : Fin 2 → Fin 3 → R) (B : Fin 3 → Fin 2 → R) : Fin 2 → Fin 2 → R :=
  ![![A 0 0 * B 0 0 + A 0 1 * B 1 0 + A 0 2 * B 2 0, A 0 0 * B 0 1 + A 0 1 * B 1 1 + A 0 2 * B 2 1],
    ![A 1 0 * B 0 0 + A 1 1 * B 1 0 + A 1 2 * B 2 0, A 1 0 * B 0 1 + A 1 1 * B 1 1 + A 1 2 * B 2 1]]

/-- `transpose.hh:90-100`. -/
def transpose3x2 (A : Fin 3 → Fin 2 → R) : Fin 2 → Fin 3 → R :=
  ![![A 0 0, A 1 0, A 2 0], ![A 0 1, A 1 1, A 2 1]]

/-- `transpose.hh:114-133`. -/
def transpose4x3 (A : Fin 4 → Fin 3 → R) : Fin 3 → Fin 4 → R :=
  ![![A 0 0, A 1 0, A 2 0, A 3 0], ![A 0 1, A 1 1, A 2 1, A 3 1], ![A 0 2, A 1 2, A 2 2, A 3 2]]

/-- `linear_solver.hh:12-20`: returns (determinant, x). -/
def solveLinear3x3 [Field R] (A : Fin 3 → Fin 3 → R) (b : Fin 3 → R) : R × (Fin 3 → R) :=
  let r := matrixInverse3 A
  (r.1, matVec3 r.2 b)

/-- `linear_solver.hh:22-34`. -/
def solveLinear2x2 [Field R] (A : Fin 2 → Fin 2 → R) (b : Fin 2 → R) : R × (Fin 2 → R) :=
  let D := det2 A
  let Dx := b 0 * A 1 1 - A 0 1 * b 1
  let Dy := A 0 0 * b 1 - b 0 * A 1 0
  (D, ![Dx / D, Dy / D])

/-- `linear_solver.hh:36-54` (the returned condition number is not modelled). -/
def solveLeastSquare3x2 [Field R] (A : Fin 3 → Fin 2 → R) (b : Fin 3 → R) : Fin 2 → R :=
  let AT := transpose3x2 A
  let ATA := mat2x3Mat3x2 AT A
  let invATA := (matrixInverse2 ATA).2
  let invATAAT := mat2x2Mat2x3 invATA AT
  mat2x3Vec3 invATAAT b

/-- `linear_solver.hh:56-78`. -/
def solveLeastSquare3x2_2 [Field R] (A : Fin 3 → Fin 2 → R) (B : Fin 3 → Fin 2 → R) : Fin 2 → Fin 2 → R :=
  let AT := transpose3x2 A
  let ATA := mat2x3Mat3x2 AT A
  let invATA := (matrixInverse2 ATA).2
  let invATAAT := mat2x2Mat2x3 invATA AT
  mat2x3Mat3x2 invATAAT B

/-- `linear_solver.hh:107-129`. -/
def solveLeastSquare4x3_3 [Field R] (A : Fin 4 → Fin 3 → R) (B : Fin 4 → Fin 3 → R) : Fin 3 → Fin 3 → R :=
  let AT := transpose4x3 A
  let ATA := matMul AT A
  let invATA := (matrixInverse3 ATA).2
  let invATAAT := matMul invATA AT
  matMul invATAAT B

/-- `inner_product.hh:6-16`. -/
def innerProduct2 [Ring R] (A B : Fin 2 → R) : R := A 0 * B 0 + A 1 * B 1
/-- `inner_product3`, include/ftk/numeric/inner_product.hh:6-16. -/
def innerProduct3 [Ring R] (A B : Fin 3 → R) : R := A 0 * B 0 + A 1 * B 1 + A 2 * B 2

/-- `cross_product.hh:8-22`. -/
def crossProduct2 [Ring R] (A B : Fin 2 → R) : R := A 0 * B 1 - A 1 * B 0
/-- `cross_product`, include/ftk/numeric/cross_product.hh:8-22. -/
def crossProduct [Ring R] (A B : Fin 3 → R) : Fin 3 → R :=
  ![A 1 * B 2 - A 2 * B 1, A 2 * B 0 - A 0 * B 2, A 0 * B 1 - A 1 * B 0]

/-- `linear_solver1.hh:61-70`. -/
def solveLeastSquare2x1 [Field R] (a b : Fin 2 → R) : R := innerProduct2 a b * (1 / innerProduct2 a a)

/-- `linear_solver1.hh:72-81`. -/
def solveLeastSquare3x1 [Field R] (a b : Fin 3 → R) : R := innerProduct3 a b * (1 / innerProduct3 a a)

/-- `trace.hh:18-30`. -/
def trace2 [Ring R] (A : Fin 2 → Fin 2 → R) : R := A 0 0 + A 1 1
/-- `trace3`, include/ftk/numeric/trace.hh:18-30. -/
def trace3 [Ring R] (A : Fin 3 → Fin 3 → R) : R := A 0 0 + A 1 1 + A 2 2

/-- `characteristic_polynomial.hh:10-17`: coefficients `P[0..2]`. -/
def charPoly2 [Ring R] (A : Fin 2 → Fin 2 → R) : Fin 3 → R := ![det2 A, - trace2 A, 1]

/-- `characteristic_polynomial.hh:19-26` (and, argument by argument, 28-35). -/
def charPoly2g [Ring R] (A B : Fin 2 → Fin 2 → R) : Fin 3 → R :=
  ![det2 A, -(A 0 0 * B 1 1 - A 1 0 * B 0 1 + B 0 0 * A 1 1 - B 1 0 * A 0 1), det2 B]

/-- `characteristic_polynomial.hh:38-47`. -/
def charPoly3 [Ring R] (A : Fin 3 → Fin 3 → R) : Fin 4 → R :=
  ![- det3 A,
    A 1 1 * A 2 2 + A 0 0 * A 2 2 + A 0 0 * A 1 1 - A 0 1 * A 1 0 - A 1 2 * A 2 1 - A 0 2 * A 2 0,
    - trace3 A, 1]

/-- `characteristic_polynomial.hh:50-70`. -/
def charPoly3g [Ring R] (A B : Fin 3 → Fin 3 → R) : Fin 4 → R :=
  ![det3 A,
    A 1 2 * A 2 1 * B 0 0 - A 1 1 * A 2 2 * B 0 0 - A 1 2 * A 2 0 * B 0 1
      + A 1 0 * A 2 2 * B 0 1 + A 1 1 * A 2 0 * B 0 2 - A 1 0 * A 2 1 * B 0 2
      - A 0 2 * A 2 1 * B 1 0 + A 0 1 * A 2 2 * B 1 0 + A 0 2 * A 2 0 * B 1 1
      - A 0 0 * A 2 2 * B 1 1 - A 0 1 * A 2 0 * B 1 2 + A 0 0 * A 2 1 * B 1 2
      + A 0 2 * A 1 1 * B 2 0 - A 0 1 * A 1 2 * B 2 0 - A 0 2 * A 1 0 * B 2 1
      + A 0 0 * A 1 2 * B 2 1 + A 0 1 * A 1 0 * B 2 2 - A 0 0 * A 1 1 * B 2 2,
    - A 2 2 * B 0 1 * B 1 0 + A 2 1 * B 0 2 * B 1 0 + A 2 2 * B 0 0 * B 1 1
      - A 2 0 * B 0 2 * B 1 1 - A 2 1 * B 0 0 * B 1 2 + A 2 0 * B 0 1 * B 1 2
      + A 1 2 * B 0 1 * B 2 0 - A 1 1 * B 0 2 * B 2 0 - A 0 2 * B 1 1 * B 2 0
      + A 0 1 * B 1 2 * B 2 0 - A 1 2 * B 0 0 * B 2 1 + A 1 0 * B 0 2 * B 2 1
      + A 0 2 * B 1 0 * B 2 1 - A 0 0 * B 1 2 * B 2 1 + A 1 1 * B 0 0 * B 2 2
      - A 1 0 * B 0 1 * B 2 2 - A 0 1 * B 1 0 * B 2 2 + A 0 0 * B 1 1 * B 2 2,
    - det3 B]

/-! ### linear and inverse linear interpolation -/

/-- `linear_interpolation.hh:8-13`. -/
def lerpS1 [Ring R] (v mu : Fin 2 → R) : R := v 0 * mu 0 + v 1 * mu 1

/-- `linear_interpolation.hh:24-31`, the overload with a scalar `mu`. -/
def lerpS1v2 [Ring R] (V : Fin 2 → Fin 2 → R) (mu : R) : Fin 2 → R :=
  ![V 0 0 * mu + V 1 0 * (1 - mu), V 0 1 * mu + V 1 1 * (1 - mu)]

/-- `linear_interpolation.hh:69-74`. -/
def lerpS2v2 [Ring R] (V : Fin 3 → Fin 2 → R) (mu : Fin 3 → R) : Fin 2 → R :=
  ![V 0 0 * mu 0 + V 1 0 * mu 1 + V 2 0 * mu 2, V 0 1 * mu 0 + V 1 1 * mu 1 + V 2 1 * mu 2]

/-- `linear_interpolation.hh:112-119`. -/
def lerpS3v3 [Ring R] (V : Fin 4 → Fin 3 → R) (mu : Fin 4 → R) : Fin 3 → R :=
  ![V 0 0 * mu 0 + V 1 0 * mu 1 + V 2 0 * mu 2 + V 3 0 * mu 3,
    V 0 1 * mu 0 + V 1 1 * mu 1 + V 2 1 * mu 2 + V 3 1 * mu 3,
    V 0 2 * mu 0 + V 1 2 * mu 1 + V 2 2 * mu 2 + V 3 2 * mu 3]

section ordered
variable [Field R] [LinearOrder R]

/-- `inverse_linear_interpolation_solver.hh:11-19`: returns (success, mu). -/
def inverseLerpS1v1 (f : Fin 2 → R) : Bool × (Fin 2 → R) :=
  let mu0 := f 1 / (f 1 - f 0)
  (decide (mu0 ≥ 0 ∧ mu0 < 1), ![mu0, 1 - mu0])

/-- `inverse_linear_interpolation_solver.hh:21-31`. -/
def inverseLerpS1v2 (V : Fin 2 → Fin 2 → R) : Bool × R :=
  let a := ![V 0 0 - V 1 0, V 0 1 - V 1 1]
  let b := ![- V 1 0, - V 1 1]
  let mu := solveLeastSquare2x1 a b
  (decide (mu ≥ 0 ∧ mu < 1), mu)

/-- the range check repeated in `inverse_linear_interpolation_solver.hh:51-53, 79-81`. -/
def inRange (eps x : R) : Bool := decide (x ≥ -eps ∧ x ≤ 1 + eps)

/-- `inverse_linear_interpolation_solver.hh:33-54`. -/
def inverseLerpS2v2 (V : Fin 3 → Fin 2 → R) (eps : R) : Bool × (Fin 3 → R) :=
  let A := ![![V 0 0 - V 2 0, V 1 0 - V 2 0], ![V 0 1 - V 2 1, V 1 1 - V 2 1]]
  let b := ![- V 2 0, - V 2 1]
  let x := (solveLinear2x2 A b).2
  let mu2 := 1 - x 0 - x 1
  (inRange eps (x 0) && inRange eps (x 1) && inRange eps mu2, ![x 0, x 1, mu2])

/-- `inverse_linear_interpolation_solver.hh:56-82`. -/
def inverseLerpS2v3 (V : Fin 3 → Fin 3 → R) (eps : R) : Bool × (Fin 3 → R) :=
  let A := ![![V 0 0 - V 2 0, V 1 0 - V 2 0], ![V 0 1 - V 2 1, V 1 1 - V 2 1], ![V 0 2 - V 2 2, V 1 2 - V 2 2]]
  let b := ![- V 2 0, - V 2 1, - V 2 2]
  let x := solveLeastSquare3x2 A b
  let mu2 := 1 - x 0 - x 1
  (inRange eps (x 0) && inRange eps (x 1) && inRange eps mu2, ![x 0, x 1, mu2])

/-- the range check of `inverse_linear_interpolation_solver.hh:165-168` (strict upper bound). -/
def inRange' (eps x : R) : Bool := decide (x ≥ -eps ∧ x < 1 + eps)

/-- `inverse_linear_interpolation_solver.hh:145-169`. -/
def inverseLerpS3v3 (V : Fin 4 → Fin 3 → R) (eps : R) : Bool × (Fin 4 → R) :=
  let A := ![![V 0 0 - V 3 0, V 1 0 - V 3 0, V 2 0 - V 3 0],
             ![V 0 1 - V 3 1, V 1 1 - V 3 1, V 2 1 - V 3 1],
             ![V 0 2 - V 3 2, V 1 2 - V 3 2, V 2 2 - V 3 2]]
  let b := ![- V 3 0, - V 3 1, - V 3 2]
  let x := (solveLinear3x3 A b).2
  let l3 := 1 - x 0 - x 1 - x 2
  (inRange' eps (x 0) && inRange' eps (x 1) && inRange' eps (x 2) && inRange' eps l3, ![x 0, x 1, x 2, l3])

/-- `clamp.hh:15-20`: `min(max(a, x), b)`. -/
def clamp (x a b : R) : R := min (max a x) b

/-- `clamp.hh:22-37` `clamp_barycentric<n>`.  In exact arithmetic the quotient fails to be a number only
when the sum of the clamped values is zero; the code then writes `1/n` everywhere. -/
def clampBarycentric {n : ℕ} (x : Fin n → R) : Fin n → R :=
  let y := fun i => clamp (x i) 0 1
  let sum := (List.finRange n).foldl (fun s i => s + y i) 0
  if sum = 0 then fun _ => 1 / (n : R) else fun i => y i / sum

end ordered

/-- `linear_solver1.hh:12-17, 33-42` `number_roots_linear1` for `a x = b`. -/
inductive NRoots | none | unique | infinite
  deriving DecidableEq

/-- Number of roots reported by the linear solver, include/ftk/numeric/linear_solver1.hh:33-42. -/
def numberRootsLinear1 (a b : ℤ) : NRoots :=
  if a = 0 then if b = 0 then .infinite else .none else .unique

/-- `check_range` in `inverse_linear_interpolation_solver.hh:121-126`. -/
def checkRange (a b : ℤ) : Bool :=
  if a.sign ≠ b.sign then false else decide (|b| > 0 ∧ |b| < |a|)

/-- `inverse_linear_interpolation_solver.hh:110-143` with `L` an integer type (no overflow). -/
def integerInverseLerpS1v2 (V : Fin 2 → Fin 2 → ℤ) : Bool :=
  let A0 := V 0 0 - V 1 0
  let A1 := V 0 1 - V 1 1
  let B0 := - V 1 0
  let B1 := - V 1 1
  match numberRootsLinear1 A0 B0, numberRootsLinear1 A1 B1 with
  | .none, _ => false
  | _, .none => false
  | .unique, .unique => if A0 * B1 = A1 * B0 then checkRange A0 B0 else false
  | .infinite, .unique => checkRange A1 B1
  | .unique, .infinite => checkRange A0 B0
  | .infinite, .infinite => false

end Verif.Num
