import Verif.Num.Model
import Mathlib.Algebra.Order.Field.Basic
import Mathlib.Tactic.FinCases

/-!
# Model of interpolation and degree on single cells

`include/ftk/numeric/quadratic_interpolation.hh` (below: `qi`), `critical_point_degree.hh` (`deg`) and
`wachspress_interpolation.hh` (`wi`).  Exact arithmetic; square roots are a parameter.
-/

namespace Verif.Cell

open Verif.Num

variable {K : Type} [Field K]

/-! ### Quadratic interpolation -/

/-- `quadratic_interpolation_coefficient_simplex2(f, Q)` (`qi:8-20`). -/
def baryCoef (f : Fin 6 → K) : Fin 3 → Fin 3 → K :=
  let q01 := 2 * f 3 - (f 0 + f 1) / 2
  let q02 := 2 * f 5 - (f 0 + f 2) / 2
  let q12 := 2 * f 4 - (f 1 + f 2) / 2
  ![![f 0, q01, q02], ![q01, f 1, q12], ![q02, q12, f 2]]

/-- `quadratic_interpolation_gradient_simplex2(Q, mu, grad)` (`qi:22-28`). -/
def baryGrad (Q : Fin 3 → Fin 3 → K) (mu : Fin 3 → K) : Fin 3 → K :=
  ![2 * (Q 0 0 * mu 0 + Q 0 1 * mu 1 + Q 0 2 * mu 2), 2 * (Q 1 1 * mu 1 + Q 0 1 * mu 0 + Q 1 2 * mu 2),
    2 * (Q 2 2 * mu 2 + Q 0 2 * mu 0 + Q 1 2 * mu 1)]

/-- `quadratic_interpolation_gradient_simplex2_vertices(Q, grad)` (`qi:30-48`). -/
def baryGradVertices (Q : Fin 3 → Fin 3 → K) : Fin 3 → Fin 3 → K :=
  ![![2 * Q 0 0, 2 * Q 0 1, 2 * Q 0 2], ![2 * Q 1 0, 2 * Q 1 1, 2 * Q 1 2], ![2 * Q 2 0, 2 * Q 2 1, 2 * Q 2 2]]

/-- `det_123` (`qi:63`). -/
def det123 (x : Fin 3 → Fin 2 → K) : K :=
  x 0 0 * x 1 1 + x 1 0 * x 2 1 + x 2 0 * x 0 1 - x 0 0 * x 2 1 - x 1 0 * x 0 1 - x 2 0 * x 1 1

/-- `L1_x, L1_y, L1_c, …` (`qi:64-72`). -/
def coefL (x : Fin 3 → Fin 2 → K) : Fin 3 → Fin 3 → K :=
  let d := det123 x
  ![![(x 1 1 - x 2 1) / d, (x 2 0 - x 1 0) / d, (x 1 0 * x 2 1 - x 2 0 * x 1 1) / d],
    ![(x 2 1 - x 0 1) / d, (x 0 0 - x 2 0) / d, (x 2 0 * x 0 1 - x 0 0 * x 2 1) / d],
    ![(x 0 1 - x 1 1) / d, (x 1 0 - x 0 0) / d, (x 0 0 * x 1 1 - x 1 0 * x 0 1) / d]]

/-- `quadratic_interpolation_coefficients(f, x, Q)` (`qi:55-96`). -/
def quadCoef (f : Fin 6 → K) (x : Fin 3 → Fin 2 → K) : Fin 3 → Fin 3 → K :=
  let L := coefL x
  let q00 := 2 * L 0 0 * L 0 0 * f 0 + 2 * L 1 0 * L 1 0 * f 1 + 2 * L 2 0 * L 2 0 * f 2 +
    4 * L 0 0 * L 1 0 * f 3 + 4 * L 1 0 * L 2 0 * f 4 + 4 * L 0 0 * L 2 0 * f 5
  let q11 := 2 * L 0 1 * L 0 1 * f 0 + 2 * L 1 1 * L 1 1 * f 1 + 2 * L 2 1 * L 2 1 * f 2 +
    4 * L 0 1 * L 1 1 * f 3 + 4 * L 1 1 * L 2 1 * f 4 + 4 * L 0 1 * L 2 1 * f 5
  let q01 := (4 * L 0 0 * L 0 1 * f 0 + 4 * L 1 0 * L 1 1 * f 1 + 4 * L 2 0 * L 2 1 * f 2 +
    4 * (L 0 0 * L 1 1 + L 0 1 * L 1 0) * f 3 + 4 * (L 1 0 * L 2 1 + L 1 1 * L 2 0) * f 4 +
    4 * (L 0 0 * L 2 1 + L 0 1 * L 2 0) * f 5) / 2
  let q02 := ((4 * L 0 0 * L 0 2 - L 0 0) * f 0 + (4 * L 1 0 * L 1 2 - L 1 0) * f 1 + (4 * L 2 0 * L 2 2 - L 2 0) * f 2 +
    4 * (L 0 0 * L 1 2 + L 0 2 * L 1 0) * f 3 + 4 * (L 1 0 * L 2 2 + L 1 2 * L 2 0) * f 4 +
    4 * (L 0 0 * L 2 2 + L 0 2 * L 2 0) * f 5) / 2
  let q12 := ((4 * L 0 1 * L 0 2 - L 0 1) * f 0 + (4 * L 1 1 * L 1 2 - L 1 1) * f 1 + (4 * L 2 1 * L 2 2 - L 2 1) * f 2 +
    4 * (L 0 1 * L 1 2 + L 0 2 * L 1 1) * f 3 + 4 * (L 1 1 * L 2 2 + L 1 2 * L 2 1) * f 4 +
    4 * (L 0 1 * L 2 2 + L 0 2 * L 2 1) * f 5) / 2
  let q22 := (2 * L 0 2 * L 0 2 - L 0 2) * f 0 + (2 * L 1 2 * L 1 2 - L 1 2) * f 1 + (2 * L 2 2 * L 2 2 - L 2 2) * f 2 +
    4 * L 0 2 * L 1 2 * f 3 + 4 * L 1 2 * L 2 2 * f 4 + 4 * L 0 2 * L 2 2 * f 5
  ![![q00, q01, q02], ![q01, q11, q12], ![q02, q12, q22]]

/-- `quadratic_interpolation(Q, x)` (`qi:98-107`). -/
def quadInterp (Q : Fin 3 → Fin 3 → K) (x : Fin 2 → K) : K :=
  Q 0 0 * x 0 * x 0 + 2 * Q 0 1 * x 0 * x 1 + 2 * Q 0 2 * x 0 + Q 1 1 * x 1 * x 1 + 2 * Q 1 2 * x 1 + Q 2 2

/-- `quadratic_interpolation_gradient(Q, x, grad)` (`qi:112-119`), at one vertex. -/
def quadGrad (Q : Fin 3 → Fin 3 → K) (x : Fin 2 → K) : Fin 2 → K :=
  ![2 * Q 0 0 * x 0 + (Q 0 1 + Q 1 0) * x 1 + (Q 0 2 + Q 2 0), (Q 0 1 + Q 1 0) * x 0 + 2 * Q 1 1 * x 1 + (Q 1 2 + Q 2 1)]

/-- `quadratic_interpolation_hessian(Q, H)` (`qi:121-127`). -/
def quadHess (Q : Fin 3 → Fin 3 → K) : Fin 2 → Fin 2 → K := ![![Q 0 0, Q 0 1 + Q 1 0], ![Q 0 1 + Q 1 0, Q 1 1]]

/-! ### Degree -/

variable [LinearOrder K]

/-- `sign(x)` (`sign.hh:8-15`). -/
def sgn (x : K) : Int := (if 0 < x then 1 else 0) - (if x < 0 then 1 else 0)

/-- `cross_product2(V[i], V[j]) / (m_i * m_j) < 0` (`deg:17-24`); a quotient by zero is infinite or not a number: with
`0 / 0` (a zero vector has a zero product) the comparison is false. -/
def negCross (norm : (Fin 2 → K) → K) (a b : Fin 2 → K) : Bool :=
  if norm a * norm b = 0 then false else decide (crossProduct2 a b / (norm a * norm b) < 0)

/-- `critical_point_degree_simplex2(V, X)` (`deg:10-32`). -/
def degree (norm : (Fin 2 → K) → K) (V : Fin 3 → Fin 2 → K) (X : Fin 3 → Fin 2 → K) : Int :=
  let cnt := (if negCross norm (V 0) (V 1) then 1 else 0) + (if negCross norm (V 1) (V 2) then 1 else 0) + (if negCross norm (V 2) (V 0) then 1 else 0)
  let orientation := sgn ((X 1 1 - X 0 1) * (X 2 0 - X 1 0) - (X 2 1 - X 1 1) * (X 1 0 - X 0 0))
  let deg : Int := if (cnt : Nat) ≥ 2 then -1 else 1
  deg * orientation

/-! ### Wachspress weights -/

/-- `triangle_area3` (`wi:10-22`). -/
def area3 (sqrt : K → K) (x0 x1 x2 : Fin 3 → K) : K :=
  let w := crossProduct (fun k => x1 k - x0 k) (fun k => x2 k - x0 k)
  1 / 2 * sqrt (w 0 * w 0 + w 1 * w 1 + w 2 * w 2)

/-- The loop over `j` (`wi:42-49`): the product of the areas except those at vertex `i`. -/
def prodA (n i : Nat) (A : Nat → K) : K :=
  (List.range n).foldl (fun p j => if j = i ∨ j = (i + n - 1) % n then p else p * A j) 1

/-- `omega[i]` before the division (`wi:38-52`). -/
def omega0 (sqrt : K → K) (n : Nat) (X : Nat → Fin 3 → K) (x : Fin 3 → K) (i : Nat) : K :=
  area3 sqrt (X i) (X ((i + n - 1) % n)) (X ((i + 1) % n)) * prodA n i fun j => area3 sqrt (X j) x (X ((j + 1) % n))

/-- `wachspress_weights(nverts, X, x, omega)` (`wi:24-69`): `none` = more than ten vertices, `A` is written outside its
bounds. -/
def wachspress (sqrt : K → K) (n : Nat) (X : Nat → Fin 3 → K) (x : Fin 3 → K) : Option (Nat → K) :=
  if 10 < n then none else
  let s := (List.range n).foldl (fun s i => s + omega0 sqrt n X x i) 0
  some fun i => omega0 sqrt n X x i / s

end Verif.Cell
