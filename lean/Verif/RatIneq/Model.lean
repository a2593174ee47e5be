import Verif.Interval.Props
import Verif.Poly.Model
import Verif.Common.OrdSet
import Mathlib.Algebra.Order.Floor.Ring
import Mathlib.Data.Rat.Floor

/-!
# Model of the quantised solvers of rational inequalities

`include/ftk/numeric/quadratic_rational_inequality_solver.hh:11-104` and
`include/ftk/numeric/cubic_rational_inequality_solver.hh:12-127`.  Scalars are an ordered field (rounding is not
modelled); a `long long` is an unbounded integer, its `min()`/`max()` (= `lower_inf()`/`upper_inf()`) are `⊥`/`⊤` of
`WithBot (WithTop ℤ)`.  The root finders are parameters: their results (roots with multiplicities) are inputs.
Reading an array past its end is `none`.
-/

namespace Verif.RatIneq

open Verif.Interval Verif.Poly

/-- interval ends: `long long` with its two infinities -/
abbrev E := WithBot (WithTop ℤ)

/-- an integer as an interval end -/
def fin (z : ℤ) : E := ((z : WithTop ℤ) : E)

/-- the integer of a finite end (the ends of `T(…)` arithmetic in `sample`; only used on finite ends) -/
def toInt : E → ℤ
  | some (some z) => z
  | _ => 0

section Scalar

variable {K : Type} [Field K] [LinearOrder K] [FloorRing K]

/-- `const long long v = kv.first * T(factor)`: `cubic_rational_inequality_solver.hh:37, 42`, conversion toward zero. -/
def quantize (f r : K) : ℤ := if 0 ≤ r * f then ⌊r * f⌋ else ⌈r * f⌉

/-- `map[v] = m` on a `std::map` (kept as a list of pairs; the order of keys is immaterial here) -/
def assign (v : ℤ) (m : ℕ) : List (ℤ × ℕ) → List (ℤ × ℕ)
  | [] => [(v, m)]
  | (k, n) :: l => if k = v then (k, m) :: l else (k, n) :: assign v m l

/-- the quantised roots of one polynomial, `cubic_rational_inequality_solver.hh:36-45`
(`quadratic_rational_inequality_solver.hh:38-47`): a later root with the same key overwrites the multiplicity. -/
def quantMap (f : K) (roots : List (K × ℕ)) : List (ℤ × ℕ) :=
  roots.foldl (fun q kv => assign (quantize f kv.1) kv.2 q) []

/-- the multiplicity stored for a key, 0 when the key is absent -/
def multOf (q : List (ℤ × ℕ)) (v : ℤ) : ℕ := (q.lookup v).getD 0

/-- the loop `while (p > 0 && q > 0) { p --; q --; }`: `cubic_rational_inequality_solver.hh:64-68` -/
def cancelPair : ℕ → ℕ → ℕ × ℕ
  | p + 1, q + 1 => cancelPair p q
  | p, q => (p, q)

/-- the roots of P after cancellation, `cubic_rational_inequality_solver.hh:62-69` -/
def residP (qp qq : List (ℤ × ℕ)) : List (ℤ × ℕ) := qp.map fun kv => (kv.1, (cancelPair kv.2 (multOf qq kv.1)).1)

/-- the roots of Q after cancellation, `cubic_rational_inequality_solver.hh:62-69` -/
def residQ (qp qq : List (ℤ × ℕ)) : List (ℤ × ℕ) := qq.map fun kv => (kv.1, (cancelPair (multOf qp kv.1) kv.2).2)

/-- keys with a positive multiplicity -/
def live (q : List (ℤ × ℕ)) : List ℤ := (q.filter fun kv => decide (0 < kv.2)).map Prod.fst

/-- `singularities`: `cubic_rational_inequality_solver.hh:60-74` -/
def singularities (qp qq : List (ℤ × ℕ)) : List ℤ := live (residQ qp qq)

/-- `sorted_critical_values`: `cubic_rational_inequality_solver.hh:82-102` -/
def critical (qp qq : List (ℤ × ℕ)) : List E :=
  ((live (residP qp qq) ++ live (residQ qp qq)).map fin ++ [⊥, ⊤]).foldl (fun s v => setInsert v s) []

/-- `basic_interval<long long>::sample`: `basic_interval.hh:155-161`; integer division truncates. -/
def sample (i : Iv E) : ℤ :=
  if i.lo = ⊥ ∧ i.hi = ⊤ then 92372068577507
  else if i.singleton then toInt i.lo
  else if i.hi = ⊤ then toInt i.lo + 1000000000
  else if i.lo = ⊥ then toInt i.hi - 1000000000
  else (toInt i.hi + toInt i.lo).tdiv 2

/-- the interval between two consecutive critical values with its flags, `cubic_rational_inequality_solver.hh:109-113` -/
def piece (sing : List ℤ) (p : E × E) : Iv E :=
  ⟨p.1, p.2, decide (p.1 ∈ sing.map fin), decide (p.2 ∈ sing.map fin)⟩

/-- one iteration of the loop over subintervals, `cubic_rational_inequality_solver.hh:107-123`; `y` is the value of the
rational function at a quantised position, `none` is NaN (for which `y >= T(0)` is false). -/
def pieceStep (sing : List ℤ) (y : ℤ → Option K) (I : DI E) (p : E × E) : DI E :=
  match y (sample (piece sing p)) with
  | some v => if v ≥ 0 then djoin I (piece sing p) else I
  | none => I

/-- the loop over subintervals, `cubic_rational_inequality_solver.hh:106-124` -/
def pieceLoop (sing : List ℤ) (y : ℤ → Option K) (cs : List E) : DI E :=
  (cs.zip cs.tail).foldl (pieceStep sing y) []

/-- `evaluate_rational(P, Q, n, x, epsilon)`: `rational_function.hh:8-25` (the same model as C121 over any ordered
field). -/
def evalRational (eps : K) : ℕ → Buf K → Buf K → K → Option K
  | 0, P, Q, x => if |evaluate Q 0 x| < eps then none else some (evaluate P 0 x / evaluate Q 0 x)
  | n + 1, P, Q, x =>
    if |evaluate Q (n + 1) x| < eps then
      if |evaluate P (n + 1) x| < eps then
        evalRational eps n (derivative P (n + 1) fun _ => 0) (derivative Q (n + 1) fun _ => 0) x
      else none
    else some (evaluate P (n + 1) x / evaluate Q (n + 1) x)

/-- `polynomial_equals_to_zero(P, m, epsilon)`: `polynomial.hh:10-17`, with the reads of `P[i]`, `i = 0..m` explicit -/
def eqZeroFrom (P : List K) (eps : K) : ℕ → ℕ → Option Bool
  | 0, _ => some true
  | k + 1, i =>
    match P[i]? with
    | none => none
    | some c => if |c| > eps then some false else eqZeroFrom P eps k (i + 1)

/-- `polynomial_equals_to_zero(P, m)`: `polynomial.hh:10-17` -/
def eqZero (P : List K) (m : ℕ) (eps : K) : Option Bool := eqZeroFrom P eps (m + 1) 0

/-- the solvers: `dP`, `dQ` are the degrees given to `polynomial_equals_to_zero`, `n` the one given to
`evaluate_rational`; `rp`, `rq` are what the root finder returns.  `cubic_rational_inequality_solver.hh:12-127`. -/
def solve (dP dQ n : ℕ) (eps f : K) (P Q : List K) (rp rq : List (K × ℕ)) : Option (DI E) :=
  match eqZero P dP eps with
  | none => none
  | some true => some [⟨⊥, ⊤, false, false⟩]
  | some false =>
    match eqZero Q dQ eps with
    | none => none
    | some true => some []
    | some false =>
      let qp := quantMap f rp
      let qq := quantMap f rq
      some (pieceLoop (singularities qp qq)
        (fun v => evalRational eps n (fun i => P.getD i 0) (fun i => Q.getD i 0) ((v : K) / f)) (critical qp qq))

/-- `solve_quadratic_rational_inequality_quantized`: `quadratic_rational_inequality_solver.hh:11-104`; the test of the
denominator is called with degree 3 (line 24) on an array of three numbers. -/
def solveQuadratic (eps f : K) (P Q : List K) (rp rq : List (K × ℕ)) : Option (DI E) := solve 2 3 2 eps f P Q rp rq

/-- `solve_cubic_rational_inequality_quantized`: `cubic_rational_inequality_solver.hh:12-127`. -/
def solveCubic (eps f : K) (P Q : List K) (rp rq : List (K × ℕ)) : Option (DI E) := solve 3 3 3 eps f P Q rp rq

end Scalar

end Verif.RatIneq
