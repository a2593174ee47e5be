import Mathlib.Algebra.Order.Ring.Abs
import Mathlib.Logic.Function.Basic

/-!
# Model of `include/ftk/numeric/polynomial.hh`

A coefficient buffer `T P[]` is a function `ℕ → T` (the memory at that pointer); a polynomial "of degree m" is the
first `m+1` cells.  A loop is a left fold over the list of its indices, a write is `Function.update`.  Floating point
is replaced by an arbitrary commutative ring (`std::fma(a,b,c)` is `a*b+c`, `std::pow(x,i)` is `x^i`), i.e. rounding is
not modelled.  Output buffers are assumed not to overlap the input buffers.
-/

namespace Verif.Poly

variable {T : Type*}

/-- a buffer of coefficients -/
abbrev Buf (T : Type*) := ℕ → T

/-- polynomial.hh:10-17 `polynomial_equals_to_zero(P, m, epsilon)`: the loop with early `return false`. -/
def equalsToZero [Lattice T] [AddGroup T] [DecidableLT T] (P : Buf T) (m : ℕ) (eps : T) : Bool :=
  (List.range (m + 1)).all fun i => !decide (eps < |P i|)

/-- polynomial.hh:19-26 `polynomial_equals_to_constant`: the same loop from 1 to m. -/
def equalsToConstant [Lattice T] [AddGroup T] [DecidableLT T] (P : Buf T) (m : ℕ) (eps : T) : Bool :=
  (List.range' 1 m).all fun i => !decide (eps < |P i|)

variable [CommRing T]

/-- `std::fma` (rounding not modelled). -/
def fma (a b c : T) : T := a * b + c

/-- polynomial.hh:28-41 `polynomial_evaluate(P, m, x)`; the recursive calls for m = 2, 3 are as in the code. -/
def evaluate (P : Buf T) : ℕ → T → T
  | 0, _ => P 0
  | 1, x => fma (P 1) x (P 0)
  | 2, x => fma (P 2) (x * x) (evaluate P 1 x)
  | 3, x => fma (P 3) (x * x * x) (evaluate P 2 x)
  | m + 4, x => (List.range (m + 4 + 1)).foldl (fun y i => y + P i * x ^ i) 0

/-- polynomial.hh:43-48 `polynomial_derivative(P, m, R)`. -/
def derivative (P : Buf T) (m : ℕ) (R : Buf T) : Buf T :=
  (List.range m).foldl (fun R i => Function.update R i (P (i + 1) * ((i + 1 : ℕ) : T))) R

/-- polynomial.hh:50-57 `polynomial_evaluate_derivative(P, m, x)`. -/
def evaluateDerivative (P : Buf T) (m : ℕ) (x : T) : T :=
  (List.range m).foldl (fun y i => y + P (i + 1) * ((i + 1 : ℕ) : T) * x ^ i) 0

/-- polynomial.hh:59-64 `polynomial_copy(P, m, Q)`. -/
def copy (P : Buf T) (m : ℕ) (Q : Buf T) : Buf T :=
  (List.range (m + 1)).foldl (fun Q i => Function.update Q i (P i)) Q

/-- polynomial.hh:69-72: the loop of `polynomial_addition` for `m >= n`. -/
def additionLoop (P : Buf T) (m : ℕ) (Q : Buf T) (n : ℕ) (R : Buf T) : Buf T :=
  (List.range (m + 1)).foldl (fun R i => Function.update R i (if i ≤ n then P i + Q i else P i)) R

/-- polynomial.hh:66-75 `polynomial_addition(P, m, Q, n, R)`; for `m < n` the code calls itself with swapped operands
(that call takes the loop branch). -/
def addition (P : Buf T) (m : ℕ) (Q : Buf T) (n : ℕ) (R : Buf T) : Buf T :=
  if m ≥ n then additionLoop P m Q n R else additionLoop Q n P m R

/-- polynomial.hh:80-83: the loop of `polynomial_subtraction` for `m >= n`. -/
def subtractionLoop (P : Buf T) (m : ℕ) (Q : Buf T) (n : ℕ) (R : Buf T) : Buf T :=
  (List.range (m + 1)).foldl (fun R i => Function.update R i (if i ≤ n then P i - Q i else P i)) R

/-- polynomial.hh:77-86 `polynomial_subtraction(P, m, Q, n, R)`; for `m < n` the code calls itself with swapped
operands. -/
def subtraction (P : Buf T) (m : ℕ) (Q : Buf T) (n : ℕ) (R : Buf T) : Buf T :=
  if m ≥ n then subtractionLoop P m Q n R else subtractionLoop Q n P m R

/-- polynomial.hh:88-93 `polynomial_addition_in_place(P, m, Q, n)` ("m >= n"). -/
def additionInPlace (P : Buf T) (_m : ℕ) (Q : Buf T) (n : ℕ) : Buf T :=
  (List.range (n + 1)).foldl (fun P i => Function.update P i (P i + Q i)) P

/-- polynomial.hh:95-100 `polynomial_subtraction_in_place(P, m, Q, n)` ("m >= n"). -/
def subtractionInPlace (P : Buf T) (_m : ℕ) (Q : Buf T) (n : ℕ) : Buf T :=
  (List.range (n + 1)).foldl (fun P i => Function.update P i (P i - Q i)) P

/-- polynomial.hh:102-111 `polynomial_multiplication(P, m, Q, n, R)`: clear `R[0..m+n]`, then accumulate. -/
def multiplication (P : Buf T) (m : ℕ) (Q : Buf T) (n : ℕ) (R : Buf T) : Buf T :=
  let R0 := (List.range (m + n + 1)).foldl (fun R i => Function.update R i 0) R
  (List.range (m + 1)).foldl (fun R i =>
    (List.range (n + 1)).foldl (fun R j => Function.update R (i + j) (R (i + j) + P i * Q j)) R) R0

/-- polynomial.hh:113-118 `polynomial_scalar_multiplication(P, m, scalar)` (in place). -/
def scalarMultiplication (P : Buf T) (m : ℕ) (s : T) : Buf T :=
  (List.range (m + 1)).foldl (fun P i => Function.update P i (P i * s)) P

end Verif.Poly
