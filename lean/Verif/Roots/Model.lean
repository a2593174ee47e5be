import Mathlib.Analysis.SpecialFunctions.Pow.Real
import Mathlib.Analysis.SpecialFunctions.Trigonometric.Inverse

/-!
# Model of the real root finders

`include/ftk/numeric/linear_solver1.hh`, `quadratic_solver.hh`, `cubic_solver.hh` over the real numbers: `sqrt`, `pow`,
`acos`, `cos`, `M_PI` are the exact real functions, rounding and the `isnan`/`isinf` tests are not modelled (there are no
such values).  The `epsilon` arguments are kept.

An output array `T x[]` is a list of cells, `none` being a cell that was never written; writing outside the array is
undefined behaviour: the whole call gives `none`.  A `std::map<T,int>` is its total function (`0` = key absent).
-/

namespace Verif.Roots

/-- an output array; `none` = uninitialised cell -/
abbrev Mem := List (Option ℝ)

/-- `x[i] = v`; out of bounds is undefined (`none`). -/
noncomputable def write (x : Mem) (i : ℕ) (v : ℝ) : Option Mem := if i < x.length then some (x.set i (some v)) else none

/-- linear_solver1.hh:19-30 `solve_linear_real1(P, x, epsilon)`: returns the number of roots and the array.
`epsM` is the default argument (the machine epsilon): no caller modelled here passes another one. -/
noncomputable def solveLinear (epsM : ℝ) (P : ℕ → ℝ) (x : Mem) : Option (ℕ × Mem) :=
  if |P 1| < epsM then some (0, x)
  else do
    let x ← write x 0 (-P 0 / P 1)
    some (1, x)

/-- quadratic_solver.hh:63-87 `solve_quadratic_real(P, x, epsilon)`.  The second branch writes `x[n+1]`. -/
noncomputable def solveQuadratic (epsM eps : ℝ) (P : ℕ → ℝ) (x : Mem) : Option (ℕ × Mem) :=
  if |P 2| ≤ eps then solveLinear epsM P x
  else if |P 0| ≤ eps then do
    let (n, x) ← solveLinear epsM (fun i => P (i + 1)) x
    let x ← write x (n + 1) 0
    some (n + 1, x)
  else
    let delta := P 1 * P 1 - 4 * P 2 * P 0
    if delta > 0 then do
      let x ← write x 0 ((-P 1 + Real.sqrt delta) / (2 * P 2))
      let x ← write x 1 ((-P 1 - Real.sqrt delta) / (2 * P 2))
      some (2, x)
    else if delta = 0 then do
      let x ← write x 0 (-P 1 / (2 * P 2))
      some (1, x)
    else some (0, x)

/-- the sign-aware cube root `(s < 0) ? -pow(-s, 1./3) : pow(s, 1./3)` (cubic_solver.hh:88, 90, 96). -/
noncomputable def cbrt (s : ℝ) : ℝ := if s < 0 then -((-s) ^ (1 / 3 : ℝ)) else s ^ (1 / 3 : ℝ)

/-- cubic_solver.hh:80, 151 `q` -/
noncomputable def cq (b c : ℝ) : ℝ := (3 * c - b * b) / 9
/-- cubic_solver.hh:81, 152 `r` -/
noncomputable def cr (b c d : ℝ) : ℝ := (-(27 * d) + b * (9 * c - 2 * (b * b))) / 54
/-- cubic_solver.hh:82, 153 `disc` -/
noncomputable def cdisc (b c d : ℝ) : ℝ := cq b c * cq b c * cq b c + cr b c d * cr b c d

/-- the one real root of the case `disc > 0` (cubic_solver.hh:87-92). -/
noncomputable def oneRoot (b c d : ℝ) : ℝ :=
  let s := cbrt (cr b c d + Real.sqrt (cdisc b c d))
  let t := cbrt (cr b c d - Real.sqrt (cdisc b c d));
  -(b / 3) + s + t

/-- the roots of the case `disc < 0` (cubic_solver.hh:103-109): `k = 0, 1, 2` for the three of them. -/
noncomputable def trigRoot (b c d : ℝ) (k : ℝ) : ℝ :=
  let q := -cq b c
  let dum1 := Real.arccos (cr b c d / Real.sqrt (q * q * q))
  let r13 := 2 * Real.sqrt q;
  -(b / 3) + r13 * Real.cos ((dum1 + k * Real.pi) / 3)

/-- cubic_solver.hh:75-113 `solve_cubic_real(b, c, d, x, epsilon)` (monic). -/
noncomputable def solveCubicMonic (b c d : ℝ) (x : Mem) : Option (ℕ × Mem) :=
  if cdisc b c d > 0 then do
    let x ← write x 0 (oneRoot b c d)
    some (1, x)
  else if cdisc b c d = 0 then do
    let r13 := cbrt (cr b c d)
    let x0 := -(b / 3) + 2 * r13
    let x1 := -(r13 + b / 3)
    let x ← write x 0 x0
    let x ← write x 1 x1
    if x0 = x1 then some (1, x) else some (2, x)
  else do
    let x ← write x 0 (trigRoot b c d 0)
    let x ← write x 1 (trigRoot b c d 2)
    let x ← write x 2 (trigRoot b c d 4)
    some (3, x)

/-- cubic_solver.hh:126-143 `solve_cubic_real(coef, x, epsilon)`. -/
noncomputable def solveCubic (epsM eps : ℝ) (P : ℕ → ℝ) (x : Mem) : Option (ℕ × Mem) :=
  if |P 3| ≤ eps then solveQuadratic epsM eps P x
  else if |P 0| ≤ eps then do
    let (n, x) ← solveQuadratic epsM eps (fun i => P (i + 1)) x
    let x ← write x n 0
    some (n + 1, x)
  else solveCubicMonic (P 2 / P 3) (P 1 / P 3) (P 0 / P 3) x

/-! ### Versions with multiplicities -/

/-- a `std::map<T,int>` -/
abbrev RMap := ℝ → ℕ

/-- `roots[x] += k` -/
noncomputable def addRoot (m : RMap) (x : ℝ) (k : ℕ) : RMap := Function.update m x (m x + k)
/-- `roots[x] = k` -/
noncomputable def setRoot (m : RMap) (x : ℝ) (k : ℕ) : RMap := Function.update m x k

/-- The root written by `solve_linear_real1(P, &x)` when it returns 1 (linear_solver1.hh:19-30). -/
noncomputable def linearRoot (epsM : ℝ) (P : ℕ → ℝ) : Option ℝ :=
  if |P 1| < epsM then none else some (-P 0 / P 1)

/-- quadratic_solver.hh:32-57 `solve_quadratic_real_multiplicity(P, epsilon)`. -/
noncomputable def quadraticMult (epsM eps : ℝ) (P : ℕ → ℝ) : RMap :=
  if |P 2| ≤ eps then
    match linearRoot epsM P with
    | some x => setRoot 0 x 1
    | none => 0
  else if |P 0| ≤ eps then
    let roots := match linearRoot epsM (fun i => P (i + 1)) with
      | some x => setRoot 0 x 1
      | none => 0
    addRoot roots 0 1
  else
    let delta := P 1 * P 1 - 4 * P 2 * P 0
    if delta > 0 then
      addRoot (addRoot 0 ((-P 1 + Real.sqrt delta) / (2 * P 2)) 1) ((-P 1 - Real.sqrt delta) / (2 * P 2)) 1
    else if delta = 0 then setRoot 0 (-P 1 / (2 * P 2)) 2
    else 0

/-- cubic_solver.hh:147-182 `solve_cubic_real_multiplicity(b, c, d)`. -/
noncomputable def cubicMonicMult (b c d : ℝ) : RMap :=
  if cdisc b c d > 0 then addRoot 0 (oneRoot b c d) 1
  else if cdisc b c d = 0 then
    let r13 := cbrt (cr b c d)
    addRoot (addRoot 0 (-(b / 3) + 2 * r13) 1) (-(r13 + b / 3)) 2
  else addRoot (addRoot (addRoot 0 (trigRoot b c d 0) 1) (trigRoot b c d 2) 1) (trigRoot b c d 4) 1

/-- cubic_solver.hh:184-199 `solve_cubic_real_multiplicity(P, epsilon)`. -/
noncomputable def cubicMult (epsM eps : ℝ) (P : ℕ → ℝ) : RMap :=
  if |P 3| ≤ eps then quadraticMult epsM eps P
  else if |P 0| ≤ eps then addRoot (quadraticMult epsM eps (fun i => P (i + 1))) 0 1
  else cubicMonicMult (P 2 / P 3) (P 1 / P 3) (P 0 / P 3)

end Verif.Roots
