import Verif.Grad.Model
import Mathlib.Analysis.SpecialFunctions.Exp
/-! Model of the convolutions (include/ftk/ndarray/conv.hh), over the ndarray model; elements from a field, exact
arithmetic.  The iterations of the OpenMP loops write different elements; a run is given by their writes in any order. -/
namespace Verif.Conv
open Verif.ND Verif.Grad
variable {K : Type} [Field K]

/-- `dimx + padding * 2 - ksizex + 1` in `size_t` (conv.hh:20-21); `none` = it wraps around (the allocation of some `2^64`
elements throws). -/
def outDim (dim ksize padding : Nat) : Option Nat := if ksize ≤ dim + padding * 2 + 1 then some (dim + padding * 2 + 1 - ksize) else none

/-- `if (realx >= 0 && realx < dimx && …) res(x, y) += data(realx, realy) * kernel(kx, ky)` (conv.hh:34-38).  `realx` is
a `size_t`: negative values wrap around to numbers above every dimension, so the test fails as it does here. -/
def tap2 (data kernel : Nd K) (dimx dimy : Nat) (padding : Nat) (x y : Int) (acc : K) (k : Int × Int) : Option K :=
  let realy := y - padding + k.2
  let realx := x - padding + k.1
  if 0 ≤ realx ∧ realx < dimx ∧ 0 ≤ realy ∧ realy < dimy then
    (rd data [realx, realy]).bind fun d => (rd kernel [k.1, k.2]).map fun w => acc + d * w
  else some acc

/-- the value of `res(x, y)` (conv.hh:32-42): it is 0 before. -/
def pixel2 (data kernel : Nd K) (dimx dimy ksizex ksizey padding : Nat) (x y : Int) : Option K :=
  ((loop2 (irange 0 ksizex) (irange 0 ksizey) fun kx ky => [(kx, ky)]).foldlM
    (tap2 data kernel dimx dimy padding x y) 0).map fun r => r / ((ksizey : K) * ksizex)

/-- the writes of `conv2D` (conv.hh:29-44) -/
def conv2DWrites (data kernel : Nd K) (dimx dimy ksizex ksizey padding rx ry : Nat) : List (W K) :=
  loop2 (irange 0 rx) (irange 0 ry) fun x y => [([x, y], pixel2 data kernel dimx dimy ksizex ksizey padding x y)]

/-- the 3-D version of `tap2` (conv.hh:135-142) -/
def tap3 (data kernel : Nd K) (dimx dimy dimz : Nat) (padding : Nat) (x y z : Int) (acc : K) (k : Int × Int × Int) : Option K :=
  let realz := z - padding + k.2.2
  let realy := y - padding + k.2.1
  let realx := x - padding + k.1
  if 0 ≤ realx ∧ realx < dimx ∧ 0 ≤ realy ∧ realy < dimy ∧ 0 ≤ realz ∧ realz < dimz then
    (rd data [realx, realy, realz]).bind fun d => (rd kernel [k.1, k.2.1, k.2.2]).map fun w => acc + d * w
  else some acc

/-- the 3-D version of `pixel2` (conv.hh:131-149) -/
def pixel3 (data kernel : Nd K) (dimx dimy dimz ksizex ksizey ksizez padding : Nat) (x y z : Int) : Option K :=
  ((loop3 (irange 0 ksizex) (irange 0 ksizey) (irange 0 ksizez) fun kx ky kz => [(kx, ky, kz)]).foldlM
    (tap3 data kernel dimx dimy dimz padding x y z) 0).map fun r => r / ((ksizez : K) * ksizey * ksizex)

/-- the writes of `conv3D` (conv.hh:127-152) -/
def conv3DWrites (data kernel : Nd K) (dimx dimy dimz ksizex ksizey ksizez padding rx ry rz : Nat) : List (W K) :=
  loop3 (irange 0 rx) (irange 0 ry) (irange 0 rz) fun x y z =>
    [([x, y, z], pixel3 data kernel dimx dimy dimz ksizex ksizey ksizez padding x y z)]

/-- `gaussian_kernel(sigma, size)` (conv.hh:49-71) -/
noncomputable def gaussian1 (sigma : ℝ) (size : Nat) : List ℝ :=
  let center := ((size : ℝ) - 1) * (1 / 2)
  let s := 2 * sigma * sigma
  let kernel := (List.range size).map fun (i : Nat) => Real.exp (-(((i : ℝ) - center) * ((i : ℝ) - center)) / s)
  let sum := kernel.foldl (· + ·) 0
  kernel.map (· / sum)

/-- `gaussian_kernel2D` before normalisation (conv.hh:79-91): the value written at `(i, j)` -/
noncomputable def gauss2 (sigma : ℝ) (ksizex ksizey : Nat) (i j : Int) : ℝ :=
  let x := (i : ℝ) - ((ksizex : ℝ) - 1) * (1 / 2)
  let y := (j : ℝ) - ((ksizey : ℝ) - 1) * (1 / 2)
  Real.exp (-(x * x + y * y) / (2 * sigma * sigma))

/-- `gaussian_kernel2D` (conv.hh:73-99) -/
noncomputable def gaussian2D (sigma : ℝ) (ksizex ksizey : Nat) : Option (Nd ℝ) :=
  let ws : List (W ℝ) := loop2 (irange 0 ksizex) (irange 0 ksizey) fun i j => [([i, j], some (gauss2 sigma ksizex ksizey i j))]
  let sum := (loop2 (irange 0 ksizex) (irange 0 ksizey) fun i j => [gauss2 sigma ksizex ksizey i j]).foldl (· + ·) 0
  (runOp [ksizex, ksizey] ws).map fun g => g.mapAssign (· / sum)

/-- `conv2D` (conv.hh:11-47), the iterations in the order of the loops -/
def conv2D (data kernel : Nd K) (dimx dimy ksizex ksizey padding : Nat) : Option (Nd K) :=
  (outDim dimx ksizex padding).bind fun rx => (outDim dimy ksizey padding).bind fun ry =>
    runOp [rx, ry] (conv2DWrites data kernel dimx dimy ksizex ksizey padding rx ry)

end Verif.Conv
