import Verif.Num.Det
import Mathlib.Logic.Equiv.Basic
import Mathlib.Algebra.Order.Ring.Int

/-!
# Model of `include/ftk/numeric/{sign,swap,sign_det,critical_point_test}.hh`

Coordinates are mathematical integers: the code instantiates these templates with `long long`
(fixed-point coordinates); machine overflow is *not* modelled (see DESIGN.md).  Vertex indices are
mathematical integers (`int` in the code).  C arrays of fixed size `n` are functions `Fin n → _`.
-/

namespace Verif.SoS
open Num (det2 det3 det4)

/-- `sign.hh:10-14`: `(T(0) < x) - (x < T(0))`. -/
def sign (x : ℤ) : ℤ := (if 0 < x then 1 else 0) - (if x < 0 then 1 else 0)

/-- `sign_det.hh:14-21` `robust_smaller(i, j, k, l, pij, pkl)`. -/
def robustSmaller (i j k l pij pkl : ℤ) : Bool :=
  if pij ≠ pkl then decide (pij < pkl)
  else if i ≠ k then decide (i > k)
  else decide (j < l)

/-- The loop `for t … { sigma = …; if (sigma != 0) return sigma; } return 0;` shared by
`robust_sign_det2/3/4` (`sign_det.hh:27-41, 47-88, 94-198`): the list holds the `sigma` of
`t = 0, 1, …`. -/
def firstNonzero : List ℤ → ℤ
  | [] => 0
  | s :: l => if s ≠ 0 then s else firstNonzero l

/-- `sign_det.hh:23-42`. -/
def robustSignDet2 (X : Fin 2 → ℤ) : ℤ :=
  firstNonzero [
    sign (det2 ![![X 0, 1], ![X 1, 1]]),
    1]

/-- `sign_det.hh:44-89`. -/
def robustSignDet3 (X : Fin 3 → Fin 2 → ℤ) : ℤ :=
  firstNonzero [
    sign (det3 ![![X 0 0, X 0 1, 1], ![X 1 0, X 1 1, 1], ![X 2 0, X 2 1, 1]]),
    - sign (det2 ![![X 1 0, 1], ![X 2 0, 1]]),
    sign (det2 ![![X 1 1, 1], ![X 2 1, 1]]),
    sign (det2 ![![X 0 0, 1], ![X 2 0, 1]]),
    1]

/-- `sign_det.hh:91-199`. -/
def robustSignDet4 (X : Fin 4 → Fin 3 → ℤ) : ℤ :=
  firstNonzero [
    sign (det4 ![![X 0 0, X 0 1, X 0 2, 1], ![X 1 0, X 1 1, X 1 2, 1],
                 ![X 2 0, X 2 1, X 2 2, 1], ![X 3 0, X 3 1, X 3 2, 1]]),
    sign (det3 ![![X 1 0, X 1 1, 1], ![X 2 0, X 2 1, 1], ![X 3 0, X 3 1, 1]]),
    - sign (det3 ![![X 1 0, X 1 2, 1], ![X 2 0, X 2 2, 1], ![X 3 0, X 3 2, 1]]),
    sign (det3 ![![X 1 1, X 1 2, 1], ![X 2 1, X 2 2, 1], ![X 3 1, X 3 2, 1]]),
    - sign (det3 ![![X 0 0, X 0 1, 1], ![X 2 0, X 2 1, 1], ![X 3 0, X 3 1, 1]]),
    sign (det2 ![![X 2 0, 1], ![X 3 0, 1]]),
    - sign (det2 ![![X 2 1, 1], ![X 3 1, 1]]),
    sign (det3 ![![X 0 0, X 0 2, 1], ![X 2 0, X 2 2, 1], ![X 3 0, X 3 2, 1]]),
    sign (det2 ![![X 2 2, 1], ![X 3 2, 1]]),
    - sign (det3 ![![X 0 1, X 0 2, 1], ![X 2 1, X 2 2, 1], ![X 3 1, X 3 2, 1]]),
    sign (det3 ![![X 0 0, X 0 1, 1], ![X 1 0, X 1 1, 1], ![X 3 0, X 3 1, 1]]),
    - sign (det2 ![![X 1 0, 1], ![X 3 0, 1]]),
    sign (det2 ![![X 1 1, 1], ![X 3 1, 1]]),
    sign (det2 ![![X 0 0, 1], ![X 3 0, 1]]),
    1]

/-- The three variables of `nswaps_bubble_sort` (`sign_det.hh:202-220`). -/
structure BS (n : ℕ) where
  arr : Fin n → ℤ
  order : Fin n → Fin n
  nswaps : ℕ

/-- `swap.hh:6-11` applied to two cells of an array. -/
def swapCells {n : ℕ} {α : Type} (f : Fin n → α) (a b : Fin n) : Fin n → α :=
  fun k => if k = a then f b else if k = b then f a else f k

/-- Body of the inner loop, `sign_det.hh:212-217`.  The loop bounds keep `j + 1 < n`. -/
def bubbleStep {n : ℕ} (s : BS n) (j : ℕ) : BS n :=
  if h : j + 1 < n then
    if s.arr ⟨j, by omega⟩ > s.arr ⟨j + 1, h⟩ then
      { arr := swapCells s.arr ⟨j, by omega⟩ ⟨j + 1, h⟩
        order := swapCells s.order ⟨j, by omega⟩ ⟨j + 1, h⟩
        nswaps := s.nswaps + 1 }
    else s
  else s

/-- Inner loop `for (j = 0; j < n-i-1; j ++)`, `sign_det.hh:211`. -/
def bubblePass {n : ℕ} (s : BS n) (i : ℕ) : BS n := (List.range (n - i - 1)).foldl bubbleStep s

/-- `nswaps_bubble_sort`, `sign_det.hh:202-220`. -/
def bubbleSort {n : ℕ} (arr : Fin n → ℤ) : BS n :=
  (List.range (n - 1)).foldl bubblePass { arr := arr, order := fun i => i, nswaps := 0 }

/-- `positive1`, `sign_det.hh:222-241`. -/
def positive1 (X1 : Fin 2 → ℤ) (indices1 : Fin 2 → ℤ) : ℤ :=
  let s := bubbleSort indices1
  let d := robustSignDet2 (fun i => X1 (s.order i))
  if s.nswaps % 2 ≠ 0 then -d else d

/-- `positive2`, `sign_det.hh:243-268`. -/
def positive2 (X1 : Fin 3 → Fin 2 → ℤ) (indices1 : Fin 3 → ℤ) : ℤ :=
  let s := bubbleSort indices1
  let d := robustSignDet3 (fun i j => X1 (s.order i) j)
  if s.nswaps % 2 ≠ 0 then -d else d

/-- `positive3`, `sign_det.hh:270-290`. -/
def positive3 (X1 : Fin 4 → Fin 3 → ℤ) (indices1 : Fin 4 → ℤ) : ℤ :=
  let s := bubbleSort indices1
  let d := robustSignDet4 (fun i j => X1 (s.order i) j)
  if s.nswaps % 2 ≠ 0 then -d else d

/-- "`if (i == j) my[j] = new; else my[j] = old[j];`": the replacement loops in
`sign_det.hh:344-352, 369-378, 395-404`. -/
def replace {n : ℕ} {α : Type} (f : Fin n → α) (i : Fin n) (a : α) : Fin n → α :=
  fun j => if i = j then a else f j

/-- `for (i = 0; i < n; i ++) { …; if (s != si) return false; } return true;`. -/
def allLoop {n : ℕ} (ok : Fin n → Bool) : Bool := (List.finRange n).all ok

/-- `robust_point_in_simplex1`, `sign_det.hh:335-359`. -/
def pointInSimplex1 (X : Fin 2 → ℤ) (indices : Fin 2 → ℤ) (x : ℤ) (ix : ℤ) : Bool :=
  let s := positive1 X indices
  allLoop fun i => s == positive1 (replace X i x) (replace indices i ix)

/-- `robust_point_in_simplex2`, `sign_det.hh:361-390`. -/
def pointInSimplex2 (X : Fin 3 → Fin 2 → ℤ) (indices : Fin 3 → ℤ) (x : Fin 2 → ℤ) (ix : ℤ) : Bool :=
  let s := positive2 X indices
  allLoop fun i => s == positive2 (replace X i x) (replace indices i ix)

/-- `robust_point_in_simplex3`, `sign_det.hh:392-416`. -/
def pointInSimplex3 (X : Fin 4 → Fin 3 → ℤ) (indices : Fin 4 → ℤ) (x : Fin 3 → ℤ) (ix : ℤ) : Bool :=
  let s := positive3 X indices
  allLoop fun i => s == positive3 (replace X i x) (replace indices i ix)

/-- `robust_critical_point_in_simplex1`, `critical_point_test.hh:12-18`. -/
def criticalPointInSimplex1 (V : Fin 2 → ℤ) (indices : Fin 2 → ℤ) : Bool :=
  pointInSimplex1 V indices 0 (-1)

/-- `robust_critical_point_in_simplex2`, `critical_point_test.hh:20-26`. -/
def criticalPointInSimplex2 (V : Fin 3 → Fin 2 → ℤ) (indices : Fin 3 → ℤ) : Bool :=
  pointInSimplex2 V indices (fun _ => 0) (-1)

/-- `robust_critical_point_in_simplex3`, `critical_point_test.hh:28-34`. -/
def criticalPointInSimplex3 (V : Fin 4 → Fin 3 → ℤ) (indices : Fin 4 → ℤ) : Bool :=
  pointInSimplex3 V indices (fun _ => 0) (-1)

end Verif.SoS
