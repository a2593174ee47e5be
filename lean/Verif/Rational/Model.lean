import Mathlib.Algebra.Order.Ring.Int

/-!
# Model of `include/ftk/numeric/gcd.hh` and `include/ftk/numeric/rational_number.hh`

`I` is an unbounded integer type (overflow is not modelled).  C++ `/` and `%` truncate: `Int.tdiv`,
`Int.tmod`.  An outcome `none` is undefined behaviour (division by zero) or, for the comparison
operators, a loop that has not ended after `fuel` iterations.
-/

namespace Verif.Rational

/-- `gcd.hh:8-15`, the `while (true)` loop. -/
def gcd (a b : ℤ) : ℤ :=
  if ha : a = 0 then b
  else if hb : b.tmod a = 0 then a
  else gcd (a.tmod (b.tmod a)) (b.tmod a)
termination_by a.natAbs
decreasing_by
  rw [Int.natAbs_tmod]
  have h1 : (b.tmod a).natAbs < a.natAbs := by
    rw [Int.natAbs_tmod]; exact Nat.mod_lt _ (Int.natAbs_pos.2 ha)
  exact lt_trans (Nat.mod_lt _ (Int.natAbs_pos.2 hb)) h1

/-- The members `num`, `den` (`rational_number.hh:158`). -/
structure Rat' where
  num : ℤ
  den : ℤ
  deriving DecidableEq

/-- C++ integer division: undefined for a zero divisor. -/
def cdiv (a b : ℤ) : Option ℤ := if b = 0 then none else some (a.tdiv b)

/-- C++ integer remainder. -/
def cmod (a b : ℤ) : Option ℤ := if b = 0 then none else some (a.tmod b)

/-- `operator+=`, `rational_number.hh:31-39`. -/
def addAssign (x r : Rat') : Option Rat' := do
  let g := gcd x.den r.den
  let den ← cdiv x.den g
  let rg ← cdiv r.den g
  let num := x.num * rg + r.num * den
  let g' := gcd num g
  let num' ← cdiv num g'
  let q ← cdiv r.den g'
  some ⟨num', den * q⟩

/-- `operator-=`, `rational_number.hh:40-48`. -/
def subAssign (x r : Rat') : Option Rat' := do
  let g := gcd x.den r.den
  let den ← cdiv x.den g
  let rg ← cdiv r.den g
  let num := x.num * rg - r.num * den
  let g' := gcd num g
  let num' ← cdiv num g'
  let q ← cdiv r.den g'
  some ⟨num', den * q⟩

/-- `operator*=`, `rational_number.hh:49-55`. -/
def mulAssign (x r : Rat') : Option Rat' := do
  let g1 := gcd x.num r.den
  let g2 := gcd r.num x.den
  let a ← cdiv x.num g1
  let b ← cdiv r.num g2
  let c ← cdiv x.den g2
  let d ← cdiv r.den g1
  some ⟨a * b, c * d⟩

/-- the common tail `if (den < 0) { num = -num; den = -den; }` of the two `/=`. -/
def fixSign (x : Rat') : Rat' := if x.den < 0 then ⟨-x.num, -x.den⟩ else x

/-- `operator/=`, `rational_number.hh:56-71`. -/
def divAssign (x r : Rat') : Option Rat' :=
  if x.num = 0 then some x
  else do
    let g1 := gcd x.num r.num
    let g2 := gcd r.den x.den
    let a ← cdiv x.num g1
    let b ← cdiv r.den g2
    let c ← cdiv x.den g2
    let d ← cdiv r.num g1
    some (fixSign ⟨a * b, c * d⟩)

/-- `operator+=(I)`, `operator-=(I)`, `++`, `--`: `rational_number.hh:74-75, 90-91`. -/
def addInt (x : Rat') (i : ℤ) : Rat' := ⟨x.num + i * x.den, x.den⟩
/-- `operator-=(I)`, include/ftk/numeric/rational_number.hh:75. -/
def subInt (x : Rat') (i : ℤ) : Rat' := ⟨x.num - i * x.den, x.den⟩
/-- `operator++`, include/ftk/numeric/rational_number.hh:90. -/
def incr (x : Rat') : Rat' := ⟨x.num + x.den, x.den⟩
/-- `operator--`, include/ftk/numeric/rational_number.hh:91. -/
def decr (x : Rat') : Rat' := ⟨x.num - x.den, x.den⟩

/-- `operator*=(I)`, `rational_number.hh:76`. -/
def mulInt (x : Rat') (i : ℤ) : Option Rat' := do
  let g := gcd i x.den
  let q ← cdiv i g
  let d ← cdiv x.den g
  some ⟨x.num * q, d⟩

/-- `operator/=(I)`, `rational_number.hh:77-88`. -/
def divInt (x : Rat') (i : ℤ) : Option Rat' :=
  if x.num = 0 then some x
  else do
    let g := gcd x.num i
    let n ← cdiv x.num g
    let q ← cdiv i g
    some (fixSign ⟨n, x.den * q⟩)

/-- free `operator+`, `rational_number.hh:163-167`: copies `b`, then adds `b`. -/
def plus (_a b : Rat') : Option Rat' := addAssign b b

/-- free `operator-`, `rational_number.hh:168-172`: copies `b`, then subtracts `b`. -/
def minus (_a b : Rat') : Option Rat' := subAssign b b

/-- `while (r < 0) { r += d; --q; }`, `rational_number.hh:108-109, 136`. -/
def fixRem (d : ℤ) : ℕ → ℤ → ℤ → Option (ℤ × ℤ)
  | 0, _, _ => none
  | fuel + 1, q, r => if r < 0 then fixRem d fuel (q - 1) (r + d) else some (q, r)

/-- the `for (;;)` loop and the final comparison, `rational_number.hh:111-124`; the first three numbers
are `ts.d, ts.q, ts.r`, the next three `rs.d, rs.q, rs.r` (`n` is only a temporary). -/
def ltLoop : ℕ → ℤ → ℤ → ℤ → ℤ → ℤ → ℤ → Bool → Option Bool
  | 0, _, _, _, _, _, _, _ => none
  | fuel + 1, td, tq, tr, rd, rq, rr, reverse =>
    if tq ≠ rq then some (if reverse then decide (tq > rq) else decide (tq < rq))
    else if tr = 0 ∨ rr = 0 then
      if tr = rr then some false else some (decide (tr ≠ 0) != !reverse)
    else ltLoop fuel tr (td.tdiv tr) (td.tmod tr) rr (rd.tdiv rr) (rd.tmod rr) (!reverse)

/-- `operator<(const rational&)`, `rational_number.hh:101-125`. -/
def lt (fuel : ℕ) (x r : Rat') : Option Bool := do
  let tq ← cdiv x.num x.den
  let tr ← cmod x.num x.den
  let rq ← cdiv r.num r.den
  let rr ← cmod r.num r.den
  let t ← fixRem x.den fuel tq tr
  let u ← fixRem r.den fuel rq rr
  ltLoop fuel x.den t.1 t.2 r.den u.1 u.2 false

/-- `operator==(const rational&)`, `rational_number.hh:126-128`. -/
def eq (x r : Rat') : Bool := x.num == r.num && x.den == r.den

/-- `operator<(I)`, `rational_number.hh:131-135`. -/
def ltInt (fuel : ℕ) (x : Rat') (i : ℤ) : Option Bool := do
  let q ← cdiv x.num x.den
  let r ← cmod x.num x.den
  let t ← fixRem x.den fuel q r
  some (decide (t.1 < i))

/-- `operator==(I)`, `rational_number.hh:139-141`. -/
def eqInt (x : Rat') (i : ℤ) : Bool := x.den == 1 && x.num == i

/-- `operator>(I)`, `rational_number.hh:136-138`. -/
def gtInt (fuel : ℕ) (x : Rat') (i : ℤ) : Option Bool :=
  if eqInt x i then some false else (ltInt fuel x i).map (!·)

/-- `normalize()`, `rational_number.hh:144-158` (private and never called). -/
def normalize (x : Rat') : Option Rat' :=
  if x.num = 0 then some ⟨x.num, 1⟩
  else do
    let g := gcd x.num x.den
    let n ← cdiv x.num g
    let d ← cdiv x.den g
    some (fixSign ⟨n, d⟩)

end Verif.Rational
