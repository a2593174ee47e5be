import Verif.Roots.Props
import Verif.Interval.Props
import Mathlib.Data.EReal.Basic

/-!
# Model of the inequality solvers and of rational-function evaluation

`include/ftk/numeric/linear_inequality_solver.hh`, `cubic_inequality_solver.hh`, `rational_function.hh` and
`basic_interval::sample` (`basic_interval.hh:155-161`), over exact real arithmetic.  Interval endpoints are extended
reals (`⊥`, `⊤` = `-inf`, `inf`).  NaN is `none`.  The quantised solvers for
rational inequalities are in `Verif.RatIneq`.
-/

namespace Verif.Ineq

open Verif.Interval Verif.Roots Verif.Poly

/-- `basic_interval::basic_interval()`: `basic_interval.hh:15, 73-76`, empty, both ends flagged closed. -/
noncomputable def emptyIv : Iv EReal := ⟨⊤, ⊥, false, false⟩

/-- `solve_linear_inequality(a, b)`: `linear_inequality_solver.hh:8-26`; `eps` is the machine epsilon. -/
noncomputable def linearIneq (eps a b : ℝ) : Iv EReal :=
  if |a| < eps then (if b ≥ 0 then emptyIv.setToComplete else emptyIv.setToEmpty)
  else if a > 0 then { emptyIv with lo := ((-b / a : ℝ) : EReal), loOpen := false, hi := ⊤ }
  else { emptyIv with hi := ((-b / a : ℝ) : EReal), hiOpen := false, lo := ⊥ }

/-- `basic_interval::sample`: `basic_interval.hh:155-161`. -/
noncomputable def sample (i : Iv EReal) : ℝ :=
  if i.lo = ⊥ ∧ i.hi = ⊤ then 92372068577507
  else if i.singleton then i.lo.toReal
  else if i.hi = ⊤ then i.lo.toReal + 1000000000
  else if i.lo = ⊥ then i.hi.toReal - 1000000000
  else (i.hi.toReal + i.lo.toReal) / 2

/-- a subinterval `basic_interval<T>(l, u)` of `cubic_inequality_solver.hh:29-39` -/
noncomputable def iv (l u : EReal) : Iv EReal := ⟨l, u, false, false⟩

/-- the subintervals, `cubic_inequality_solver.hh:26-39` (`n_roots` is 1, 2 or 3 here) -/
noncomputable def subs (x : List ℝ) : List (Iv EReal) :=
  match x with
  | [a, b, c] => [iv ⊥ a, iv a b, iv b c, iv c ⊤]
  | [a, b] => [iv ⊥ a, iv a b, iv b ⊤]
  | [a] => [iv ⊥ a, iv a ⊤]
  | _ => []

/-- `solve_cubic_inequality_real(P, epsilon)`: `cubic_inequality_solver.hh:13-50`.  `T x[3]` is uninitialised; reading a
cell the root finder did not write is `none`. -/
noncomputable def cubicIneq (epsM eps : ℝ) (P : ℕ → ℝ) : Option (DI EReal) :=
  match solveCubic epsM eps P [none, none, none] with
  | none => none
  | some (n, x) =>
    if n = 0 then some (if P 0 ≥ 0 then [emptyIv.setToComplete] else [])
    else match (x.take n).mapM id with
      | none => none
      | some xs =>
        some ((subs (xs.mergeSort fun a b => decide (a ≤ b))).foldl
          (fun I i => if evaluate P 3 (sample i) ≥ 0 then djoin I i else I) [])

/-- `evaluate_rational(P, Q, n, x, epsilon)`: `rational_function.hh:8-25`.  The arrays `dPdx[n]`, `dQdx[n]` are filled
completely by `polynomial_derivative`, so their initial contents (here 0) do not matter. -/
noncomputable def evalRational (eps : ℝ) : ℕ → Buf ℝ → Buf ℝ → ℝ → Option ℝ
  | 0, P, Q, x => if |evaluate Q 0 x| < eps then none else some (evaluate P 0 x / evaluate Q 0 x)
  | n + 1, P, Q, x =>
    if |evaluate Q (n + 1) x| < eps then
      if |evaluate P (n + 1) x| < eps then
        evalRational eps n (derivative P (n + 1) fun _ => 0) (derivative Q (n + 1) fun _ => 0) x
      else none
    else some (evaluate P (n + 1) x / evaluate Q (n + 1) x)

/-- `evaluate_rational_infinity(P, Q, n, epsilon)`: `rational_function.hh:27-35`. -/
noncomputable def evalInf (eps : ℝ) : ℕ → Buf ℝ → Buf ℝ → Option ℝ
  | 0, P, Q => if |Q 0| < eps then none else some (P 0 / Q 0)
  | n + 1, P, Q =>
    if |Q (n + 1)| < eps then
      if |P (n + 1)| < eps then evalInf eps n P Q else none
    else some (P (n + 1) / Q (n + 1))

end Verif.Ineq
