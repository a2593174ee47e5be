import Verif.Lattice.Model
import Mathlib.Analysis.SpecialFunctions.Trigonometric.Deriv
import Mathlib.Analysis.SpecialFunctions.ExpDeriv
import Mathlib.Analysis.SpecialFunctions.Sqrt
import Mathlib.Analysis.SpecialFunctions.Trigonometric.Basic
/-! Model of `ndarray/synthetic.hh`: the synthetic data used as ground truth.  Numbers are real (no rounding); an array is the list of
its elements, first index fastest.  Not modelled: `modified_double_gyre` and `synthetic_tornado`. -/
namespace Verif.Synth
open Real
open scoped Real

/-! ### woven -/

/-- `woven_function_2Dt` (synthetic.hh:10-14). -/
noncomputable def woven (x y t : ℝ) : ℝ := cos (x * cos t - y * sin t) * sin (x * sin t + y * cos t)

/-- `woven_grad_x_2Dt` (synthetic.hh:16-20). -/
noncomputable def wovenGradX (x y t : ℝ) : ℝ :=
  (-sin (x * cos t - y * sin t) * cos t) * sin (x * sin t + y * cos t) + cos (x * sin t + y * cos t) * sin t * cos (x * cos t - y * sin t)

/-- `woven_grad_y_2Dt` (synthetic.hh:22-26). -/
noncomputable def wovenGradY (x y t : ℝ) : ℝ :=
  sin t * sin (x * cos t - y * sin t) * sin (x * sin t + y * cos t) + cos (x * sin t + y * cos t) * cos t * cos (x * cos t - y * sin t)

/-- the coordinate `((T(i) / (D-1)) - 0.5) * scaling_factor` (synthetic.hh:38-39). -/
noncomputable def coord (D i : Nat) (s : ℝ) : ℝ := ((i : ℝ) / ((D : ℝ) - 1) - 1 / 2) * s

/-- an array with two indices -/
def array2 {α : Type} (W H : Nat) (f : Nat → Nat → α) : List α := (List.range H).flatMap (fun j => (List.range W).map (fun i => f i j))

/-- `synthetic_woven_2D` (synthetic.hh:28-45). -/
noncomputable def woven2D (DW DH : Nat) (t s : ℝ) : List ℝ := array2 DW DH (fun i j => woven (coord DW i s) (coord DH j s) t)

/-- `synthetic_woven_2D_part` (synthetic.hh:70-88): `DW`, `DH` are the sizes of `ext`, `(a, b)` the start and `(w, h)` the sizes of `core`. -/
noncomputable def woven2DPart (DW DH a b w h : Nat) (t s : ℝ) : List ℝ :=
  array2 w h (fun i j => woven (coord DW (i + a) s) (coord DH (j + b) s) t)

/-- `synthetic_capped_woven_grad_2D` (synthetic.hh:47-66): three components per vertex, zero from the allocation. -/
noncomputable def cappedGrad (DW DH : Nat) (t cap s : ℝ) : List (List ℝ) := array2 DW DH (fun i j =>
  if woven (coord DW i s) (coord DH j s) t < cap then
    [wovenGradX (coord DW i s) (coord DH j s) t, wovenGradY (coord DW i s) (coord DH j s) t, 0]
  else [0, 0, 0])

/-! ### flows -/

/-- `a` of `double_gyre` (synthetic.hh:132). -/
noncomputable def gyreA (ε ω t : ℝ) : ℝ := ε * sin (ω * t)
/-- `b` of `double_gyre` (synthetic.hh:133). -/
noncomputable def gyreB (ε ω t : ℝ) : ℝ := 1 - 2 * ε * sin (ω * t)
/-- `f` of `double_gyre` (synthetic.hh:134). -/
noncomputable def gyreF (ε ω x t : ℝ) : ℝ := gyreA ε ω t * x * x + gyreB ε ω t * x
/-- `dfdx` of `double_gyre` (synthetic.hh:135-138). -/
noncomputable def gyreDf (ε ω x t : ℝ) : ℝ := 2 * gyreA ε ω t * x + gyreB ε ω t
/-- `u` of `double_gyre` (synthetic.hh:139-141). -/
noncomputable def gyreU (x y t A ω ε : ℝ) : ℝ := -π * A * sin (π * gyreF ε ω x t) * cos (π * y)
/-- `v` of `double_gyre` (synthetic.hh:142-144). -/
noncomputable def gyreV (x y t A ω ε : ℝ) : ℝ := π * A * cos (π * gyreF ε ω x t) * sin (π * y) * gyreDf ε ω x t

/-- `synthetic_double_gyre` (synthetic.hh:189-213): the two components at every vertex of the grid over `[0,2]x[0,1]`. -/
noncomputable def gyreGrid (DW DH : Nat) (t A ω ε : ℝ) : List (ℝ × ℝ) := array2 DW DH (fun i j =>
  let x := (i : ℝ) / ((DW : ℝ) - 1) * 2
  let y := (j : ℝ) / ((DH : ℝ) - 1)
  (gyreU x y t A ω ε, gyreV x y t A ω ε))

/-- the velocity of `synthetic_abc_flow` (synthetic.hh:249-251). -/
noncomputable def abc (A B C x y z : ℝ) : ℝ × ℝ × ℝ := (A * sin z + C * cos y, B * sin x + A * cos z, C * sin y + B * cos x)

/-- `synthetic_abc_flow` (synthetic.hh:233-255). -/
noncomputable def abcGrid (DW DH DD : Nat) (A B C : ℝ) : List (ℝ × ℝ × ℝ) :=
  (List.range DD).flatMap (fun (k : Nat) => array2 DW DH (fun i j =>
    abc A B C ((i : ℝ) / ((DW : ℝ) - 1) * 2 * π) ((j : ℝ) / ((DH : ℝ) - 1) * 2 * π) ((k : ℝ) / ((DD : ℝ) - 1) * 2 * π)))

/-! ### scalar functions -/

/-- the bump of `merger_function_2Dt` (synthetic.hh:261). -/
noncomputable def bump (cx cy x y : ℝ) : ℝ := exp (-((x - cx) * (x - cx) + (y - cy) * (y - cy)))

/-- `merger_function_2Dt` (synthetic.hh:258-275). -/
noncomputable def merger (x y t : ℝ) : ℝ :=
  let xp := x * cos t - y * sin t
  let yp := x * sin t + y * cos t
  max (bump (sin (t - π / 2)) (1 / 10000) xp yp) (bump (sin (t + π / 2)) (1 / 10000) xp yp)

/-- the loop over the components in `synthetic_moving_extremum` (synthetic.hh:346-350): `d += pow(xi[j] - xc[j], 2)`, in order. -/
def sqDist {R : Type} [CommRing R] (x c : List R) : R := (x.zip c).foldl (fun d p => d + (p.1 - p.2) ^ 2) 0

/-- the centre (synthetic.hh:338-340) -/
def centre {R : Type} [CommRing R] (x0 dir : List R) (t : R) : List R := (x0.zip dir).map (fun p => p.1 + p.2 * t)

/-- the lattice of an array of a shape (ndarray.hh: get_lattice): it starts at 0. -/
def shapeLattice (shape : List Nat) : Lat.Lattice := { starts := shape.map (fun _ => 0), sizes := shape }

/-- `synthetic_moving_extremum` (synthetic.hh:332-355): element number `i`. -/
def movingExtremum {R : Type} [CommRing R] (shape : List Nat) (x0 dir : List R) (t : R) (i : Nat) : Option R :=
  ((shapeLattice shape).fromInteger i).map (fun xi => sqDist (xi.map (fun (a : Int) => (a : R))) (centre x0 dir t))

/-- `synthetic_moving_ramp` (synthetic.hh:298-313): element number `i`. -/
def movingRamp {R : Type} [CommRing R] (shape : List Nat) (x0 rate t : R) (i : Nat) : Option R :=
  ((shapeLattice shape).fromInteger i).bind (fun xi => xi.head?.map (fun x => ((x : Int) : R) - (x0 + rate * t)))

/-- `synthetic_moving_dual_ramp` (synthetic.hh:315-330): element number `i`. -/
def movingDualRamp {R : Type} [CommRing R] [LinearOrder R] (shape : List Nat) (x0 rate t : R) (i : Nat) : Option R :=
  ((shapeLattice shape).fromInteger i).bind (fun xi => xi.head?.map (fun x => |((x : Int) : R) - x0| - rate * t))

/-- `synthetic_moving_extremum_unstructured` (synthetic.hh:357-380) at one vertex. -/
def extremumAt {R : Type} [CommRing R] (x0 dir : List R) (t : R) (x : List R) : R := sqDist x (centre x0 dir t)

/-- `synthetic_moving_extremum_grad_unstructured` (synthetic.hh:382-402) at one vertex. -/
def extremumGradAt {R : Type} [CommRing R] (x0 dir : List R) (t : R) (x : List R) : List R :=
  (x.zip (centre x0 dir t)).map (fun p => 0 + -(p.1 - p.2))

/-- `synthetic_volcano` (synthetic.hh:404-428): element number `i`. -/
noncomputable def volcano (shape : List Nat) (x0 : List ℝ) (radius : ℝ) (i : Nat) : Option ℝ :=
  ((shapeLattice shape).fromInteger i).map (fun xi => exp (-(sqrt (sqDist (xi.map (fun (a : Int) => (a : ℝ))) x0) - radius) ^ 2))

end Verif.Synth
