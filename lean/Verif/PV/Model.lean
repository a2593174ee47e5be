import Verif.Num.Model
import Verif.Poly.Model

/-!
# Model of the parallel-vectors solvers

`include/ftk/numeric/parallel_vector_solver2.hh` (below: `pv2`) and `parallel_vector_solver3.hh` (below: `pv3`), and
`underdetermined_eigen_solver.hh` (below: `ue`).  Exact arithmetic.  The solvers of quadratic and cubic equations
(C37 and others), the condition number and the Euclidean norm are parameters.  A quotient by zero is infinite or not a
number in the code, so that the range tests that follow reject it: the model skips the root.  Messages are not modelled
(one of them, `pv3:115-116`, calls a function that does not exist, so that `pv3` does not compile as it stands).
-/

namespace Verif.PV

open Verif.Num Verif.Poly

variable {K : Type} [Field K] [LinearOrder K]

/-- `lerp_s1v2` with two weights (`linear_interpolation.hh:17-21`). -/
def lerp1v2 (V : Fin 2 → Fin 2 → K) (mu : Fin 2 → K) : Fin 2 → K :=
  ![V 0 0 * mu 0 + V 1 0 * mu 1, V 0 1 * mu 0 + V 1 1 * mu 1]

/-- `lerp_s1v3` (`linear_interpolation.hh:34-39`). -/
def lerp1v3 (V : Fin 2 → Fin 3 → K) (mu : Fin 2 → K) : Fin 3 → K :=
  ![V 0 0 * mu 0 + V 1 0 * mu 1, V 0 1 * mu 0 + V 1 1 * mu 1, V 0 2 * mu 0 + V 1 2 * mu 1]

/-- `lerp_s2v3` (`linear_interpolation.hh:74-79`). -/
def lerp2v3 (V : Fin 3 → Fin 3 → K) (mu : Fin 3 → K) : Fin 3 → K :=
  ![V 0 0 * mu 0 + V 1 0 * mu 1 + V 2 0 * mu 2, V 0 1 * mu 0 + V 1 1 * mu 1 + V 2 1 * mu 2, V 0 2 * mu 0 + V 1 2 * mu 1 + V 2 2 * mu 2]

/-- The range test `x >= -epsilon && x <= 1+epsilon`. -/
def within (eps x : K) : Bool := decide (-eps ≤ x ∧ x ≤ 1 + eps)

/-! ### An edge in the plane -/

/-- One root of `solve_pv_s1v2` (`pv2:76-110`); `V`, `W` are the transposed inputs. -/
def step1v2 (VV WW : Fin 2 → Fin 2 → K) (eps l : K) : Option (K × (Fin 2 → K)) :=
  let V := fun i j => VV j i
  let W := fun i j => WW j i
  if |l| ≤ eps then none else
  let a : Fin 2 → K := ![(V 0 0 - V 0 1) - l * (W 0 0 - W 0 1), (V 1 0 - V 1 1) - l * (W 1 0 - W 1 1)]
  let b : Fin 2 → K := ![-(V 0 1 - l * W 0 1), -(V 1 1 - l * W 1 1)]
  if innerProduct2 a a = 0 then none else
  let nu0 := solveLeastSquare2x1 a b
  let nu : Fin 2 → K := ![nu0, 1 - nu0]
  if within eps (nu 0) && within eps (nu 1) then
    let c := crossProduct2 (lerp1v2 VV nu) (lerp1v2 WW nu)
    if c > 1 / 100 then none else some (l, nu)
  else none

/-- `solve_pv_s1v2` (`pv2:60-114`): the solutions (λ, μ). -/
def solve1v2 (quadratic : (Fin 3 → K) → List K) (VV WW : Fin 2 → Fin 2 → K) (eps : K) : List (K × (Fin 2 → K)) :=
  (quadratic (charPoly2g (fun i j => VV j i) (fun i j => WW j i))).filterMap (step1v2 VV WW eps)

/-! ### A triangle in space -/

/-- The matrix `M` (`pv3:84-88`); `V`, `W` are the transposed inputs. -/
def matM (V W : Fin 3 → Fin 3 → K) (l : K) : Fin 3 → Fin 2 → K :=
  ![![(V 0 0 - V 0 2) - l * (W 0 0 - W 0 2), (V 0 1 - V 0 2) - l * (W 0 1 - W 0 2)],
    ![(V 1 0 - V 1 2) - l * (W 1 0 - W 1 2), (V 1 1 - V 1 2) - l * (W 1 1 - W 1 2)],
    ![(V 2 0 - V 2 2) - l * (W 2 0 - W 2 2), (V 2 1 - V 2 2) - l * (W 2 1 - W 2 2)]]

/-- The vector `b` (`pv3:89-93`). -/
def vecB (V W : Fin 3 → Fin 3 → K) (l : K) : Fin 3 → K :=
  ![-(V 0 2 - l * W 0 2), -(V 1 2 - l * W 1 2), -(V 2 2 - l * W 2 2)]

/-- One root of `solve_pv_s2v3` (`pv3:81-154`). -/
def step2v3 (cond : (Fin 2 → Fin 2 → K) → K) (norm : (Fin 3 → K) → K) (VV WW : Fin 3 → Fin 3 → K) (eps l : K) : Option (K × (Fin 3 → K)) :=
  let V := fun i j => VV j i
  let W := fun i j => WW j i
  if |l| ≤ eps then none else
  let M := matM V W l
  let b := vecB V W l
  let ATA := mat2x3Mat3x2 (transpose3x2 M) M
  if det2 ATA = 0 then none else
  let x := solveLeastSquare3x2 M b
  let nu : Fin 3 → K := ![x 0, x 1, 1 - x 0 - x 1]
  if within eps (nu 0) && within eps (nu 1) && within eps (nu 2) then
    if cond ATA > 1000000000 then none else
    if norm (crossProduct (lerp2v3 VV nu) (lerp2v3 WW nu)) > 1 / 100 then none else some (l, nu)
  else none

/-- `solve_pv_s2v3` (`pv3:66-163`). -/
def solve2v3 (cubic : (Fin 4 → K) → List K) (cond : (Fin 2 → Fin 2 → K) → K) (norm : (Fin 3 → K) → K) (VV WW : Fin 3 → Fin 3 → K) (eps : K) :
    List (K × (Fin 3 → K)) :=
  (cubic (charPoly3g (fun i j => VV j i) (fun i j => WW j i))).filterMap (step2v3 cond norm VV WW eps)

/-! ### An edge in space -/

/-- A buffer with these two coefficients. -/
def lin (c0 c1 : K) : Buf K := fun i => if i = 0 then c0 else if i = 1 then c1 else 0

/-- `P[i]` (`pv3:171-175`): `V[1][i] - λ W[1][i]`. -/
def edgeP (V W : Fin 2 → Fin 3 → K) (i : Fin 3) : Buf K := lin (V 1 i) (-W 1 i)

/-- `Q[i]` (`pv3:181-185`). -/
def edgeQ (V W : Fin 2 → Fin 3 → K) (i : Fin 3) : Buf K := lin (V 1 i - V 0 i) (W 0 i - W 1 i)

/-- `polynomial_multiplication(P[i], 1, Q[j], 1, E)`, `(P[j], 1, Q[i], 1, F)` and `H = E - F` (`pv3:192-202`). -/
def edgeH (V W : Fin 2 → Fin 3 → K) (i j : Fin 3) : Fin 3 → K :=
  let E := multiplication (edgeP V W i) 1 (edgeQ V W j) 1 0
  let F := multiplication (edgeP V W j) 1 (edgeQ V W i) 1 0
  fun k => subtraction E 2 F 2 0 k

/-- One root of `solve_pv_s1v3` (`pv3:214-236`). -/
def step1v3 (V W : Fin 2 → Fin 3 → K) (eps l : K) : Option (K × (Fin 2 → K)) :=
  if |l| ≤ eps then none else
  let q := evaluate (edgeQ V W 0) 1 l
  if q = 0 then none else
  let nu := evaluate (edgeP V W 0) 1 l / q
  if within eps nu then some (l, ![nu, 1 - nu]) else none

/-- `solve_pv_s1v3` (`pv3:165-241`): `none` = "unlimited" solutions (`INT_MAX`). -/
def solve1v3 (quadratic : (Fin 3 → K) → List K) (frob : (Fin 3 → Fin 2 → K) → K) (norm : (Fin 3 → K) → K) (V W : Fin 2 → Fin 3 → K) (eps : K) :
    Option (List (K × (Fin 2 → K))) :=
  if frob (fun i => ![V 1 i, -W 1 i]) ≤ eps then none else
  let H0 := edgeH V W 1 2
  let H1 := edgeH V W 0 2
  let C := crossProduct H0 H1
  if norm H0 > eps ∧ norm H1 > eps ∧ norm C ≤ eps then some ((quadratic H0).filterMap (step1v3 V W eps))
  else some []

/-! ### The curve of solutions in a cell -/

/-- `A` or `B` for a tetrahedron (`pv3:246-255`). -/
def diff3 (V : Fin 4 → Fin 3 → K) : Fin 3 → Fin 3 → K := fun i j => V j.castSucc i - V 3 i

/-- `rhs[j]` (`pv3:260-263`). -/
def rhs3 (V W : Fin 4 → Fin 3 → K) (j : Fin 3) : Buf K := lin (-V 3 j) (W 3 j)

/-- A buffer with these three coefficients. -/
def quad (p : Fin 3 → K) : Buf K := fun i => if h : i < 3 then p ⟨i, h⟩ else 0

/-- A buffer with these four coefficients. -/
def cub (p : Fin 4 → K) : Buf K := fun i => if h : i < 4 then p ⟨i, h⟩ else 0

/-- `characteristic_polynomial_2x2(a00, a01, a10, a11, b00, b01, b10, b11, P)` (`characteristic_polynomial.hh:28-35`) of the rows `r`, `s` and columns
`c`, `d`. -/
def minor (A B : Fin 3 → Fin 3 → K) (r s c d : Fin 3) : Buf K :=
  quad (charPoly2g ![![A r c, A r d], ![A s c, A s d]] ![![B r c, B r d], ![B s c, B s d]])

/-- `adj` (`pv3:268-283`). -/
def adj3 (A B : Fin 3 → Fin 3 → K) : Fin 3 → Fin 3 → Buf K :=
  let neg := fun P : Buf K => scalarMultiplication P 2 (-1)
  ![![minor A B 1 2 1 2, neg (minor A B 0 2 1 2), minor A B 0 1 1 2],
    ![neg (minor A B 1 2 0 2), minor A B 0 2 0 2, neg (minor A B 0 1 0 2)],
    ![minor A B 1 2 0 1, neg (minor A B 0 2 0 1), minor A B 0 1 0 1]]

/-- `Q` of `characteristic_polynomials_pv_s3v3` (`pv3:266`). -/
def polyQ3 (V W : Fin 4 → Fin 3 → K) : Buf K := cub (charPoly3g (diff3 V) (diff3 W))

/-- `P[i]`, `i < 3` (`pv3:285-293`). -/
def polyP3 (V W : Fin 4 → Fin 3 → K) (i : Fin 3) : Buf K :=
  let adj := adj3 (diff3 V) (diff3 W)
  let p0 := additionInPlace (0 : Buf K) 3 (multiplication (adj i 0) 2 (rhs3 V W 0) 1 0) 3
  let p1 := additionInPlace p0 3 (multiplication (adj i 1) 2 (rhs3 V W 1) 1 0) 3
  additionInPlace p1 3 (multiplication (adj i 2) 2 (rhs3 V W 2) 1 0) 3

/-- `P[3]` (`pv3:295-298`). -/
def polyP3last (V W : Fin 4 → Fin 3 → K) : Buf K := fun i => polyQ3 V W i - polyP3 V W 0 i - polyP3 V W 1 i - polyP3 V W 2 i

/-- `A` or `B` for a triangle in the plane (`pv2:137-144`). -/
def diff2 (V : Fin 3 → Fin 2 → K) : Fin 2 → Fin 2 → K := fun i j => V j.castSucc i - V 2 i

/-- `Q` of `characteristic_polynomials_pv_s2v2` (`pv2:154`). -/
def polyQ2 (V W : Fin 3 → Fin 2 → K) : Buf K := quad (charPoly2g (diff2 V) (diff2 W))

/-- `adj` (`pv2:156-159`). -/
def adj2 (A B : Fin 2 → Fin 2 → K) : Fin 2 → Fin 2 → Buf K :=
  ![![lin (A 1 1) (-B 1 1), lin (-A 0 1) (B 0 1)], ![lin (-A 1 0) (B 1 0), lin (A 0 0) (-B 0 0)]]

/-- `P[i]`, `i < 2` (`pv2:161-169`). -/
def polyP2 (V W : Fin 3 → Fin 2 → K) (i : Fin 2) : Buf K :=
  let adj := adj2 (diff2 V) (diff2 W)
  let p0 := additionInPlace (0 : Buf K) 2 (multiplication (adj i 0) 1 (lin (-V 2 0) (W 2 0)) 1 0) 2
  additionInPlace p0 2 (multiplication (adj i 1) 1 (lin (-V 2 1) (W 2 1)) 1 0) 2

/-- `P[2]` (`pv2:171-173`). -/
def polyP2last (V W : Fin 3 → Fin 2 → K) : Buf K := fun i => polyQ2 V W i - polyP2 V W 0 i - polyP2 V W 1 i

/-- `characteristic_polynomials_pv_s2v2` for a constant field `w` (`pv2:116-132`). -/
def polyPc (V : Fin 3 → Fin 2 → K) (w : Fin 2 → K) : Fin 3 → Buf K :=
  let I := (matrixInverse2 (diff2 V)).2
  let p00 := -(I 0 0 * V 2 0 + I 0 1 * V 2 1)
  let p01 := I 0 0 * w 0 + I 0 1 * w 1
  let p10 := -(I 1 0 * V 2 0 + I 1 1 * V 2 1)
  let p11 := I 1 0 * w 0 + I 1 1 * w 1
  ![lin p00 p01, lin p10 p11, lin (1 - p00 - p10) (-(p01 + p11))]

/-! ### Underdetermined eigenproblem -/

/-- `A_lambda[i][j]` (`ue:19-25`). -/
def aL (A B : Fin 3 → Fin 3 → K) (i j : Fin 3) : Buf K := lin (A i j) (-B i j)

/-- Product of two entries (degree 2). -/
def m2 (P Q : Buf K) : Buf K := multiplication P 1 Q 1 0

/-- Product of three entries (degree 3). -/
def m3 (P Q R : Buf K) : Buf K := multiplication (m2 P Q) 2 R 1 0

/-- `Q` (`ue:32-62`). -/
def ueQ (A B : Fin 3 → Fin 3 → K) : Buf K :=
  let a := aL A B
  let q := additionInPlace (0 : Buf K) 3 (m3 (a 0 0) (a 1 1) (a 2 2)) 3
  let q := subtractionInPlace q 3 (m3 (a 0 0) (a 1 2) (a 2 1)) 3
  let q := additionInPlace q 3 (m3 (a 0 1) (a 1 2) (a 2 0)) 3
  let q := subtractionInPlace q 3 (m3 (a 0 1) (a 1 0) (a 2 2)) 3
  let q := additionInPlace q 3 (m3 (a 0 2) (a 1 0) (a 2 1)) 3
  subtractionInPlace q 3 (m3 (a 0 2) (a 1 1) (a 2 0)) 3

/-- `polynomial_subtraction(tmp, 2, tmp2, 2, ·)` of two products of entries. -/
def s2 (P Q R S : Buf K) : Buf K := subtraction (m2 P Q) 2 (m2 R S) 2 0

/-- `adjugate_A` (`ue:63-99`). -/
def ueAdj (A B : Fin 3 → Fin 3 → K) : Fin 3 → Fin 3 → Buf K :=
  let a := aL A B
  ![![s2 (a 1 1) (a 2 2) (a 2 1) (a 1 2), s2 (a 2 1) (a 0 2) (a 0 1) (a 2 2), s2 (a 0 1) (a 1 2) (a 1 1) (a 0 2)],
    ![s2 (a 2 0) (a 1 2) (a 1 0) (a 2 2), s2 (a 0 0) (a 2 2) (a 2 0) (a 0 2), s2 (a 1 0) (a 0 2) (a 0 0) (a 1 2)],
    ![s2 (a 1 0) (a 2 1) (a 2 0) (a 1 1), s2 (a 2 0) (a 0 1) (a 0 0) (a 2 1), s2 (a 0 0) (a 1 1) (a 1 0) (a 0 1)]]

/-- `P[i]` (`ue:100-110`). -/
def ueP (A : Fin 3 → Fin 3 → K) (a : Fin 3 → K) (B : Fin 3 → Fin 3 → K) (b : Fin 3 → K) (i : Fin 3) : Buf K :=
  let adj := ueAdj A B
  let p0 := additionInPlace (0 : Buf K) 3 (multiplication (adj i 0) 2 (lin (-a 0) (b 0)) 1 0) 3
  let p1 := additionInPlace p0 3 (multiplication (adj i 1) 2 (lin (-a 1) (b 1)) 1 0) 3
  additionInPlace p1 3 (multiplication (adj i 2) 2 (lin (-a 2) (b 2)) 1 0) 3

/-- `poly` (`ue:131-135`): the resultant of the constraint. -/
def uePoly (A : Fin 3 → Fin 3 → K) (a : Fin 3 → K) (B : Fin 3 → Fin 3 → K) (b : Fin 3 → K) : Buf K :=
  subtractionInPlace (multiplication (ueP A a B b 0) 3 (ueP A a B b 1) 3 0) 6 (multiplication (ueP A a B b 2) 3 (ueQ A B) 3 0) 6

/-- `solve_underdetermined_eigen_3x3_with_constrain` (`ue:124-165`): `x0`, `x1` and `λ` for each real root in range; `roots` stands for
`solve_polynomials` followed by the test of the imaginary part.  Where `Q` vanishes the quotients are infinite (and out of range) or, `0 / 0`, not a
number, which `inrange` (`ue:114-122`) takes for in range: the result is then `none`. -/
def ueSolve (roots : Buf K → List K) (A : Fin 3 → Fin 3 → K) (a : Fin 3 → K) (B : Fin 3 → Fin 3 → K) (b : Fin 3 → K) : List (Option (K × K) × K) :=
  let P := uePoly A a B b
  if P 1 = 0 ∧ P 2 = 0 ∧ P 3 = 0 ∧ P 4 = 0 ∧ P 5 = 0 ∧ P 6 = 0 then []
  else (roots P).filterMap fun l =>
    let q := evaluate (ueQ A B) 3 l
    let p0 := evaluate (ueP A a B b 0) 3 l
    let p1 := evaluate (ueP A a B b 1) 3 l
    if q = 0 then
      if p0 = 0 ∧ p1 = 0 ∧ 0 ≤ l ∧ l ≤ 1 then some (none, l) else none
    else
      let x := p0 / q
      let y := p1 / q
      if (0 ≤ x ∧ x ≤ 1) ∧ (0 ≤ y ∧ y ≤ 1) ∧ 0 ≤ l ∧ l ≤ 1 then some (some (x, y), l) else none

/-- `inverse_trilinear_interpolation8_3` (`inverse_trilinear_interpolation_solver.hh:10-47`); `V` by the bits `x y z` of the corner. -/
def inverseTrilinear (roots : Buf K → List K) (V : Fin 8 → Fin 3 → K) : List (Option (K × K) × K) :=
  let cA := fun i => -V 0 i + V 1 i + V 2 i - V 3 i + V 4 i - V 5 i - V 6 i + V 7 i
  let cB := fun i => V 0 i - V 2 i - V 4 i + V 6 i
  let cC := fun i => V 0 i - V 1 i - V 4 i + V 5 i
  let cD := fun i => V 0 i - V 1 i - V 2 i + V 3 i
  let cE := fun i => -V 0 i + V 4 i
  let cF := fun i => -V 0 i + V 2 i
  let cG := fun i => -V 0 i + V 1 i
  let cH := fun i => V 0 i
  ueSolve roots (fun i => ![cE i, cF i, cB i]) cH (fun i => ![-cC i, -cD i, -cA i]) (fun i => -cG i)

/-- `trilinear_interpolation3` (`trilinear_interpolation.hh:8-21`). -/
def trilinear (V : Fin 8 → Fin 3 → K) (al be ga : K) : Fin 3 → K := fun i =>
  let c00 := (1 - ga) * V 0 i + ga * V 1 i
  let c01 := (1 - ga) * V 2 i + ga * V 3 i
  let c10 := (1 - ga) * V 4 i + ga * V 5 i
  let c11 := (1 - ga) * V 6 i + ga * V 7 i
  let c0 := (1 - be) * c00 + be * c01
  let c1 := (1 - be) * c10 + be * c11
  (1 - al) * c0 + al * c1

/-- `inverse_bilinear_interpolation` (`inverse_bilinear_interpolation_solver.hh:12-66`): the zeros found; `sqrt` of a negative number and quotients
by zero give no zero. -/
def inverseBilinear (sqrt : K → K) (u v : Fin 4 → K) : List (K × K) :=
  let A0 := u 0 - u 1 - u 3 + u 2
  let B0 := u 1 - u 0
  let C0 := u 3 - u 0
  let D0 := u 0
  let A1 := v 0 - v 1 - v 3 + v 2
  let B1 := v 1 - v 0
  let C1 := v 3 - v 0
  let D1 := v 0
  let detM1 := A0 * C1 - A1 * C0
  if detM1 = 0 then [] else
  let i0 := C1 / detM1
  let i1 := -C0 / detM1
  let i2 := -A1 / detM1
  let i3 := A0 / detM1
  let Q0 := i0 * -B0 + i1 * -B1
  let Q1 := i0 * -D0 + i1 * -D1
  let Q2 := i2 * -B0 + i3 * -B1
  let Q3 := i2 * -D0 + i3 * -D1
  let trace := Q0 + Q3
  let det := Q0 * Q3 - Q1 * Q2
  let disc := trace * trace / 4 - det
  if disc < 0 ∨ Q2 = 0 then [] else
  [trace / 2 + sqrt disc, trace / 2 - sqrt disc].filterMap fun y =>
    let x := (y - Q3) / Q2
    if 0 ≤ x ∧ x ≤ 1 ∧ 0 ≤ y ∧ y ≤ 1 then some (x, y) else none

/-- Bilinear interpolation of corner values in counter-clockwise order (`bilinear_interpolation.hh:8-15`, one component). -/
def bilinear (u : Fin 4 → K) (al be : K) : K :=
  let al1 := 1 - al
  let be1 := 1 - be
  u 0 * al1 * be1 + u 1 * al * be1 + u 3 * al1 * be + u 2 * al * be

end Verif.PV
