import Verif.Ndarray.Model
import Mathlib.Algebra.Field.Basic
/-! Model of the finite-difference operators (include/ftk/ndarray/grad.hh) over the ndarray model.  Elements are taken
from a field (exact arithmetic).  The iterations of the OpenMP loops only write the result; a run is given by the list of
their writes in any order (`sched`).  Arrays with a number of dimensions other than the operator's are not modelled. -/
namespace Verif.Grad
open Verif.ND
variable {K : Type} [Field K]

/-- `i0 + i1*s[1] + …` of the fixed-arity `at(i0, i1, …)` (ndarray.hh:103-117), negative `int`s kept negative. -/
def flat : List Int → List Nat → Int
  | x :: xs, p :: ps => x * p + flat xs ps
  | _, _ => 0

/-- position of `at(i0, i1, …)` in `p` (ndarray.hh:103-117); `none` = outside the data or `s`.  With fewer indices than
dimensions the remaining ones count as 0. -/
def pos (a : Nd K) (idx : List Int) : Option Nat :=
  if idx.length ≤ a.s.length ∧ 0 ≤ flat idx a.s ∧ flat idx a.s < a.p.length then some (flat idx a.s).toNat else none

/-- reading `a(i0, i1, …)` (ndarray.hh:112-117). -/
def rd (a : Nd K) (idx : List Int) : Option K := (pos a idx).bind (a.p[·]?)

/-- `a(i0, i1, …) = v` (ndarray.hh:103-109). -/
def wr (a : Nd K) (idx : List Int) (v : K) : Option (Nd K) := (pos a idx).bind fun k => a.setFlat k v

/-- a write: position and value; the value is `none` if computing it reads outside an array. -/
abbrev W (K : Type) := List Int × Option K

/-- the writes, one after the other -/
def runWrites (ws : List (W K)) (g : Nd K) : Option (Nd K) :=
  ws.foldlM (fun g w => w.2.bind fun v => wr g w.1 v) g

/-- a new array of the given shape: `reshape` value-initialises, that is fills with 0 (ndarray.hh:722-736). -/
def zeros (d : List Nat) : Option (Nd K) :=
  letI : Inhabited K := ⟨0⟩
  ({} : Nd K).reshape d

/-- `for (int i = lo; i < hi; i ++)` -/
def irange (lo hi : Int) : List Int := (List.range (hi - lo).toNat).map fun (n : Nat) => lo + (n : Int)

/-- two nested loops, the first argument innermost -/
def loop2 {α : Type} (is js : List Int) (body : Int → Int → List α) : List α :=
  js.flatMap fun j => is.flatMap fun i => body i j
/-- three nested loops, the first argument innermost -/
def loop3 {α : Type} (is js ks : List Int) (body : Int → Int → Int → List α) : List α :=
  ks.flatMap fun k => loop2 is js fun i j => body i j k
/-- four nested loops, the first argument innermost -/
def loop4 {α : Type} (is js ks ts : List Int) (body : Int → Int → Int → Int → List α) : List α :=
  ts.flatMap fun t => loop3 is js ks fun i j k => body i j k t

/-- `x - y` of two array reads -/
def sub? (x y : Option K) : Option K := x.bind fun a => y.map fun b => a - b
/-- `x + y` of two array reads -/
def add? (x y : Option K) : Option K := x.bind fun a => y.map fun b => a + b
/-- `x * y` of two array reads -/
def mul? (x y : Option K) : Option K := x.bind fun a => y.map fun b => a * b

/-- `std::min(std::max(0, i), D-1)` (grad.hh:18-19, 61-62) -/
def clampI (D : Nat) (i : Int) : Int := min (max 0 i) ((D : Int) - 1)

/-- the body of `gradient2D` (grad.hh:11-30) -/
def gradient2DWrites (a : Nd K) (DW DH : Nat) : List (W K) :=
  let f := fun (i j : Int) => rd a [clampI DW i, clampI DH j]
  loop2 (irange 0 DW) (irange 0 DH) fun i j =>
    [([0, i, j], (sub? (f (i+1) j) (f (i-1) j)).map (· * ((DW : K) - 1))),
     ([1, i, j], (sub? (f i (j+1)) (f i (j-1))).map (· * ((DH : K) - 1)))]

/-- the body of `gradient2Dt` (grad.hh:35-51) -/
def gradient2DtWrites (a : Nd K) (DW DH DT : Nat) : List (W K) :=
  loop3 (irange 1 ((DW : Int) - 1)) (irange 1 ((DH : Int) - 1)) (irange 0 DT) fun i j k =>
    [([0, i, j, k], (sub? (rd a [i+1, j, k]) (rd a [i-1, j, k])).map (1 / 2 * · * ((DW : K) - 1))),
     ([1, i, j, k], (sub? (rd a [i, j+1, k]) (rd a [i, j-1, k])).map (1 / 2 * · * ((DH : K) - 1)))]

/-- the body of `jacobian2D<T, symmetric>` (grad.hh:55-86); `*` binds tighter than `-`. -/
def jacobian2DWrites (symmetric : Bool) (v : Nd K) (DW DH : Nat) : List (W K) :=
  let f := fun (c i j : Int) => rd v [c, clampI DW i, clampI DH j]
  loop2 (irange 0 DW) (irange 0 DH) fun i j =>
    let H00 := sub? (f 0 (i+1) j) ((f 0 (i-1) j).map (· * ((DW : K) - 1)))
    let H01 := sub? (f 0 i (j+1)) ((f 0 i (j-1)).map (· * ((DH : K) - 1)))
    let H10 := sub? (f 1 (i+1) j) ((f 1 (i-1) j).map (· * ((DW : K) - 1)))
    let H11 := sub? (f 1 i (j+1)) ((f 1 i (j-1)).map (· * ((DH : K) - 1)))
    [([0, 0, i, j], H00), ([1, 1, i, j], H11)] ++
      if symmetric then
        [([1, 0, i, j], (add? H01 H10).map (· * (1 / 2))), ([0, 1, i, j], (add? H01 H10).map (· * (1 / 2)))]
      else [([0, 1], H01), ([1, 0], H10)]

/-- the body of `jacobian2Dt` (grad.hh:105-127) -/
def jacobian2DtWrites (v : Nd K) (DW DH DT : Nat) : List (W K) :=
  loop3 (irange 2 ((DW : Int) - 2)) (irange 2 ((DH : Int) - 2)) (irange 0 DT) fun i j k =>
    [([0, 0, i, j, k], (sub? (rd v [0, i+1, j, k]) (rd v [0, i-1, j, k])).map (1 / 2 * · * ((DW : K) - 1))),
     ([0, 1, i, j, k], (sub? (rd v [0, i, j+1, k]) (rd v [0, i, j-1, k])).map (1 / 2 * · * ((DH : K) - 1))),
     ([1, 0, i, j, k], (sub? (rd v [1, i+1, j, k]) (rd v [1, i-1, j, k])).map (1 / 2 * · * ((DW : K) - 1))),
     ([1, 1, i, j, k], (sub? (rd v [1, i, j+1, k]) (rd v [1, i, j-1, k])).map (1 / 2 * · * ((DH : K) - 1)))]

/-- the body of `gradient3D` (grad.hh:131-149) -/
def gradient3DWrites (a : Nd K) (DW DH DD : Nat) : List (W K) :=
  loop3 (irange 1 ((DW : Int) - 1)) (irange 1 ((DH : Int) - 1)) (irange 1 ((DD : Int) - 1)) fun i j k =>
    [([0, i, j, k], (sub? (rd a [i+1, j, k]) (rd a [i-1, j, k])).map (1 / 2 * ·)),
     ([1, i, j, k], (sub? (rd a [i, j+1, k]) (rd a [i, j-1, k])).map (1 / 2 * ·)),
     ([2, i, j, k], (sub? (rd a [i, j, k+1]) (rd a [i, j, k-1])).map (1 / 2 * ·))]

/-- the body of `gradient3Dt` (grad.hh:152-172) -/
def gradient3DtWrites (a : Nd K) (DW DH DD DT : Nat) : List (W K) :=
  loop4 (irange 1 ((DW : Int) - 1)) (irange 1 ((DH : Int) - 1)) (irange 1 ((DD : Int) - 1)) (irange 0 DT) fun i j k t =>
    [([0, i, j, k, t], (sub? (rd a [i+1, j, k, t]) (rd a [i-1, j, k, t])).map (1 / 2 * ·)),
     ([1, i, j, k, t], (sub? (rd a [i, j+1, k, t]) (rd a [i, j-1, k, t])).map (1 / 2 * ·)),
     ([2, i, j, k, t], (sub? (rd a [i, j, k+1, t]) (rd a [i, j, k-1, t])).map (1 / 2 * ·))]

/-- the body of `jacobian3D(V, b)` (grad.hh:176-212) -/
def jacobian3DWrites (v : Nd K) (b : Int) (DW DH DD : Nat) : List (W K) :=
  loop3 (irange b ((DW : Int) - b)) (irange b ((DH : Int) - b)) (irange b ((DD : Int) - b)) fun i j k =>
    [([0, 0, i, j, k], (sub? (rd v [0, i+1, j, k]) (rd v [0, i-1, j, k])).map (1 / 2 * ·)),
     ([0, 1, i, j, k], (sub? (rd v [0, i, j+1, k]) (rd v [0, i, j-1, k])).map (1 / 2 * ·)),
     ([0, 2, i, j, k], (sub? (rd v [0, i, j, k+1]) (rd v [0, i, j, k-1])).map (1 / 2 * ·)),
     ([1, 0, i, j, k], (sub? (rd v [1, i+1, j, k]) (rd v [1, i-1, j, k])).map (1 / 2 * ·)),
     ([1, 1, i, j, k], (sub? (rd v [1, i, j+1, k]) (rd v [1, i, j-1, k])).map (1 / 2 * ·)),
     ([1, 2, i, j, k], (sub? (rd v [1, i, j, k+1]) (rd v [1, i, j, k-1])).map (1 / 2 * ·)),
     ([2, 0, i, j, k], (sub? (rd v [2, i+1, j, k]) (rd v [2, i-1, j, k])).map (1 / 2 * ·)),
     ([2, 1, i, j, k], (sub? (rd v [2, i, j+1, k]) (rd v [2, i, j-1, k])).map (1 / 2 * ·)),
     ([2, 2, i, j, k], (sub? (rd v [2, i, j, k+1]) (rd v [2, i, j, k-1])).map (1 / 2 * ·))]

/-- the body of `jacobian3Dt` (grad.hh:216-253): `k` starts at 0, `J(0, 1, …)` and `J(0, 2, …)` lack the index `t`. -/
def jacobian3DtWrites (v : Nd K) (DW DH DD DT : Nat) : List (W K) :=
  loop4 (irange 2 ((DW : Int) - 2)) (irange 2 ((DH : Int) - 2)) (irange 0 ((DD : Int) - 2)) (irange 0 DT) fun i j k t =>
    [([0, 0, i, j, k, t], (sub? (rd v [0, i+1, j, k, t]) (rd v [0, i-1, j, k, t])).map (1 / 2 * ·)),
     ([0, 1, i, j, k], (sub? (rd v [0, i, j+1, k, t]) (rd v [0, i, j-1, k, t])).map (1 / 2 * ·)),
     ([0, 2, i, j, k], (sub? (rd v [0, i, j, k+1, t]) (rd v [0, i, j, k-1, t])).map (1 / 2 * ·)),
     ([1, 0, i, j, k, t], (sub? (rd v [1, i+1, j, k, t]) (rd v [1, i-1, j, k, t])).map (1 / 2 * ·)),
     ([1, 1, i, j, k, t], (sub? (rd v [1, i, j+1, k, t]) (rd v [1, i, j-1, k, t])).map (1 / 2 * ·)),
     ([1, 2, i, j, k, t], (sub? (rd v [1, i, j, k+1, t]) (rd v [1, i, j, k-1, t])).map (1 / 2 * ·)),
     ([2, 0, i, j, k, t], (sub? (rd v [2, i+1, j, k, t]) (rd v [2, i-1, j, k, t])).map (1 / 2 * ·)),
     ([2, 1, i, j, k, t], (sub? (rd v [2, i, j+1, k, t]) (rd v [2, i, j-1, k, t])).map (1 / 2 * ·)),
     ([2, 2, i, j, k, t], (sub? (rd v [2, i, j, k+1, t]) (rd v [2, i, j, k-1, t])).map (1 / 2 * ·))]

/-- the body of `vorticity3D` (grad.hh:256-271); a dimension 0 (`V.dim(k) - 1` wraps around) is not modelled. -/
def vorticityWrites (v : Nd K) (DW DH DD : Nat) : List (W K) :=
  loop3 (irange 1 ((DW : Int) - 1)) (irange 1 ((DH : Int) - 1)) (irange 1 ((DD : Int) - 1)) fun i j k =>
    [([0, i, j, k], sub? (sub? (rd v [2, i, j+1, k]) (rd v [2, i, j-1, k])) (sub? (rd v [1, i, j, k+1]) (rd v [1, i, j, k-1]))),
     ([1, i, j, k], sub? (sub? (rd v [0, i, j, k+1]) (rd v [0, i, j, k-1])) (sub? (rd v [2, i+1, j, k]) (rd v [2, i-1, j, k]))),
     ([2, i, j, k], sub? (sub? (rd v [1, i+1, j, k]) (rd v [1, i-1, j, k])) (sub? (rd v [0, i, j+1, k]) (rd v [0, i, j-1, k])))]

/-- the body of `cross_product3D` (grad.hh:274-290) -/
def crossWrites (v w : Nd K) (DW DH DD : Nat) : List (W K) :=
  loop3 (irange 1 ((DW : Int) - 1)) (irange 1 ((DH : Int) - 1)) (irange 1 ((DD : Int) - 1)) fun i j k =>
    let V := fun (c : Int) => rd v [c, i, j, k]
    let W := fun (c : Int) => rd w [c, i, j, k]
    [([0, i, j, k], sub? (mul? (V 1) (W 2)) (mul? (V 2) (W 1))),
     ([1, i, j, k], add? ((mul? (V 0) (W 2)).map (-·)) (mul? (V 2) (W 0))),
     ([2, i, j, k], sub? (mul? (V 0) (W 1)) (mul? (V 1) (W 0)))]

/-- the body of `JvT_dot_v` (grad.hh:293-312) -/
def jvtWrites (J v : Nd K) (DW DH DD : Nat) : List (W K) :=
  loop3 (irange 1 ((DW : Int) - 1)) (irange 1 ((DH : Int) - 1)) (irange 1 ((DD : Int) - 1)) fun i j k =>
    (irange 0 3).map fun c => ([c, i, j, k],
      add? (add? (mul? (rd J [0, c, i, j, k]) (rd v [0, i, j, k])) (mul? (rd J [1, c, i, j, k]) (rd v [1, i, j, k])))
        (mul? (rd J [2, c, i, j, k]) (rd v [2, i, j, k])))

/-- the body of `Jv_dot_v` (grad.hh:315-334) -/
def jvWrites (J v : Nd K) (DW DH DD : Nat) : List (W K) :=
  loop3 (irange 1 ((DW : Int) - 1)) (irange 1 ((DH : Int) - 1)) (irange 1 ((DD : Int) - 1)) fun i j k =>
    (irange 0 3).map fun c => ([c, i, j, k],
      add? (add? (mul? (rd J [c, 0, i, j, k]) (rd v [0, i, j, k])) (mul? (rd J [c, 1, i, j, k]) (rd v [1, i, j, k])))
        (mul? (rd J [c, 2, i, j, k]) (rd v [2, i, j, k])))

/-- an operator: allocate the result, then perform the writes `ws` (a schedule of the operator's writes). -/
def runOp (shape : List Nat) (ws : List (W K)) : Option (Nd K) := (zeros shape).bind (runWrites ws)

end Verif.Grad
