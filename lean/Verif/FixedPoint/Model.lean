import Mathlib.Data.Rat.Floor

/-!
# Model of `include/ftk/numeric/fixed_point.hh`

`num` is an unbounded integer (overflow of `I` is not modelled), `factor` is a parameter `F`.  A division by zero is
undefined behaviour (`none`).  Conversion from a floating-point number is modelled on rationals without rounding of the
product: `static_cast<I>(factor * x)` truncates toward zero.
-/

namespace Verif.FixedPoint

/-- fixed_point.hh:8-57 `struct fixed_point`: the only field is `num`. -/
structure FP where
  num : ℤ
deriving DecidableEq, Repr

/-- truncation toward zero, the conversion from a floating-point number to an integer -/
def trunc (q : ℚ) : ℤ := if 0 ≤ q then ⌊q⌋ else ⌈q⌉

/-- fixed_point.hh:10 default constructor -/
def zero : FP := ⟨0⟩
/-- fixed_point.hh:12-14 (and the assignment 17-21) from an integer -/
def ofInt (F : ℤ) (j : ℤ) : FP := ⟨F * j⟩
/-- fixed_point.hh:12-14 (and 17-21) from a floating-point number -/
def ofRat (F : ℤ) (x : ℚ) : FP := ⟨trunc (F * x)⟩

/-- fixed_point.hh:23 `integer()` -/
def integer (x : FP) : ℤ := x.num
/-- fixed_point.hh:24 `to_int()` (the narrowing cast to `int` is not modelled) -/
def toInt (F : ℤ) (x : FP) : Option ℤ := if F = 0 then none else some (x.num.tdiv F)
/-- fixed_point.hh:25-26 `to_float()`, `to_double()` without rounding -/
def toDouble (F : ℤ) (x : FP) : ℚ := x.num / F

/-- fixed_point.hh:28-31 `operator+=`, and `operator+` (60-65) which copies and adds -/
def add (x y : FP) : FP := ⟨x.num + y.num⟩
/-- fixed_point.hh:32-35 `operator-=`, and `operator-` (67-72) -/
def sub (x y : FP) : FP := ⟨x.num - y.num⟩
/-- fixed_point.hh:74-78 unary minus: `fixed_point(0) - a` -/
def neg (F : ℤ) (x : FP) : FP := sub (ofInt F 0) x
/-- fixed_point.hh:36-39 `operator*=`, and `operator*` (80-85) -/
def mul (F : ℤ) (x y : FP) : Option FP := if F = 0 then none else some ⟨(x.num * y.num).tdiv F⟩
/-- fixed_point.hh:40-43 `operator/=`, and `operator/` (87-92): `num = num / x.num / factor` -/
def div (F : ℤ) (x y : FP) : Option FP := if y.num = 0 ∨ F = 0 then none else some ⟨(x.num.tdiv y.num).tdiv F⟩
/-- fixed_point.hh:45 `operator++` -/
def incr (F : ℤ) (x : FP) : FP := ⟨x.num + F⟩
/-- fixed_point.hh:46 `operator--` -/
def decr (F : ℤ) (x : FP) : FP := ⟨x.num - F⟩
/-- fixed_point.hh:48 `operator!` -/
def not (x : FP) : Bool := x.num == 0
/-- fixed_point.hh:50-54 `operator<`, `<=`, `==`, `>`, `>=` -/
def lt (x y : FP) : Bool := decide (x.num < y.num)
@[inherit_doc lt] def le (x y : FP) : Bool := decide (x.num ≤ y.num)
@[inherit_doc lt] def eq (x y : FP) : Bool := decide (x.num = y.num)
@[inherit_doc lt] def gt (x y : FP) : Bool := decide (x.num > y.num)
@[inherit_doc lt] def ge (x y : FP) : Bool := decide (x.num ≥ y.num)

end Verif.FixedPoint
