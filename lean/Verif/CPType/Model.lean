import Verif.Roots.Model
import Verif.Num.Model
import Mathlib.Analysis.SpecialFunctions.Pow.Complex

/-!
# Model of `include/ftk/numeric/critical_point_type.hh` and the eigenvalue routines it calls

Over the real (complex) numbers: `sqrt`, `pow`, `acos`, `cos` exact, no rounding.
-/

namespace Verif.CPType

open Verif.Num Verif.Roots

/-- eigen_solver2.hh:18-41 `solve_eigenvalues_symmetric2x2(m00, m10, m11, eig)`. -/
noncomputable def eigSym2 (m00 m10 m11 : ℝ) : ℝ × ℝ :=
  let b := -(m00 + m11)
  let c := m00 * m11 - m10 * m10
  let delta := b * b + -4 * c
  let sq := if delta < 0 then 0 else Real.sqrt delta
  let e0 := 1 / 2 * (-b + sq)
  let e1 := 1 / 2 * (-b - sq)
  if |e0| < |e1| then (e1, e0) else (e0, e1)

/-- sqrt.hh:9-14 `complex_sqrt`: `pow(z, T(1)/T(2))`. -/
noncomputable def complexSqrt (z : ℂ) : ℂ := z ^ ((1 / 2 : ℝ) : ℂ)

/-- quadratic_solver.hh:12-25 `solve_quadratic(P, x)`: the discriminant and the two complex roots. -/
noncomputable def solveQuadraticC (P : Fin 3 → ℝ) : ℝ × ℂ × ℂ :=
  let delta := P 1 * P 1 - 4 * P 2 * P 0
  if delta ≥ 0 then
    (delta, (((-P 1 + Real.sqrt delta) / (2 * P 2) : ℝ) : ℂ), (((-P 1 - Real.sqrt delta) / (2 * P 2) : ℝ) : ℂ))
  else
    (delta, (-(P 1 : ℂ) + complexSqrt delta) / ((2 * P 2 : ℝ) : ℂ), (-(P 1 : ℂ) - complexSqrt delta) / ((2 * P 2 : ℝ) : ℂ))

/-- eigen_solver2.hh:63-70 `solve_eigenvalues2x2(M, complex eig[2])`. -/
noncomputable def eig2 (M : Fin 2 → Fin 2 → ℝ) : ℝ × ℂ × ℂ := solveQuadraticC (charPoly2 M)

/-- eigen_solver3.hh:18-48 `solve_eigenvalues_symmetric3x3(A, x)`; the three roots.  The `else` branch is the
trigonometric formula also used by `solve_cubic_real` (`trigRoot`). -/
noncomputable def eigSym3 (A : Fin 3 → Fin 3 → ℝ) : ℝ × ℝ × ℝ :=
  let b := charPoly3 A 2
  let c := charPoly3 A 1
  let d := charPoly3 A 0
  if cdisc b c d ≥ 0 then
    let r13 := cbrt (cr b c d)
    (-(b / 3) + 2 * r13, -(r13 + b / 3), -(r13 + b / 3))
  else (trigRoot b c d 0, trigRoot b c d 2, trigRoot b c d 4)

/-! The constants of critical_point_type.hh:10-37. -/
/-- critical_point_type.hh:11, 25 -/
def UNKNOWN : ℕ := 0
/-- critical_point_type.hh:12, 26 -/
def DEGENERATE : ℕ := 1
/-- critical_point_type.hh:14, 21, 28, 36 (`REPELLING`, `MINIMUM`) -/
def MINIMUM : ℕ := 2
/-- critical_point_type.hh:15, 29 -/
def SADDLE : ℕ := 4
/-- critical_point_type.hh:13, 20, 27, 35 (`ATTRACTING`, `MAXIMUM`) -/
def MAXIMUM : ℕ := 8
/-- critical_point_type.hh:16 -/
def ATTRACTING_FOCUS : ℕ := 16
/-- critical_point_type.hh:17 -/
def REPELLING_FOCUS : ℕ := 32
/-- critical_point_type.hh:18 -/
def CENTER : ℕ := 64

/-- critical_point_type.hh:39-76 `critical_point_type_2d(J, symmetric)`. -/
noncomputable def type2 (J : Fin 2 → Fin 2 → ℝ) (symmetric : Bool) : ℕ :=
  if symmetric then
    let e := eigSym2 (J 0 0) (J 1 0) (J 1 1)
    if e.1 > 0 ∧ e.2 > 0 then MINIMUM
    else if e.1 < 0 ∧ e.2 < 0 then MAXIMUM
    else if e.1 * e.2 < 0 then SADDLE
    else DEGENERATE
  else
    let e := eig2 J
    if e.1 ≥ 0 then
      if e.2.1.re * e.2.2.re < 0 then SADDLE
      else if e.2.1.re > 0 ∧ e.2.2.re > 0 then MINIMUM
      else if e.2.1.re < 0 ∧ e.2.2.re < 0 then MAXIMUM
      else DEGENERATE
    else
      if e.2.1.re < 0 then ATTRACTING_FOCUS
      else if e.2.1.re > 0 then REPELLING_FOCUS
      else CENTER

/-- critical_point_type.hh:78-99 `critical_point_type_3d(J, symmetric)`. -/
noncomputable def type3 (J : Fin 3 → Fin 3 → ℝ) (symmetric : Bool) : ℕ :=
  if symmetric then
    let e := eigSym3 J
    if e.1 * e.2.1 * e.2.2 = 0 then DEGENERATE
    else if e.1 < 0 ∧ e.2.1 < 0 ∧ e.2.2 < 0 then MAXIMUM
    else if e.1 > 0 ∧ e.2.1 > 0 ∧ e.2.2 > 0 then MINIMUM
    else SADDLE
  else UNKNOWN

/-- symmetric_matrix.hh:8-14 `make_symmetric2x2`. -/
noncomputable def makeSym2 (m : Fin 2 → Fin 2 → ℝ) : Fin 2 → Fin 2 → ℝ :=
  let a := 1 / 2 * (m 0 1 + m 1 0)
  ![![m 0 0, a], ![a, m 1 1]]

/-- symmetric_matrix.hh:16-28 `make_symmetric3x3`. -/
noncomputable def makeSym3 (m : Fin 3 → Fin 3 → ℝ) : Fin 3 → Fin 3 → ℝ :=
  let m01 := 1 / 2 * (m 0 1 + m 1 0)
  let m02 := 1 / 2 * (m 0 2 + m 2 0)
  let m12 := 1 / 2 * (m 1 2 + m 2 1)
  ![![m 0 0, m01, m02], ![m01, m 1 1, m12], ![m02, m12, m 2 2]]

end Verif.CPType
