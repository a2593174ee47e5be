import Verif.CLine.Model
import Verif.Grad.Model
/-! Model of the trackers derived from the critical line tracker: `filters/sujudi_haimes_tracker_3d_regular.hh`,
`levy_degani_seginer_tracker_3d_regular.hh`, `ridge_valley_tracker_3d_regular.hh`.  They compute a cross product field from
the data pushed, track the zeros of its first two components, and attach scalars to the points.  `float` is exact. -/
namespace Verif.Swirl
open Verif.ND
open Verif.Grad (flat runOp jacobian3DWrites jvWrites crossWrites vorticityWrites gradient3DWrites)
open Verif.Gen (Box)
open Verif.CLT (Cfg)

/-- the arrays of a `field_data_snapshot_t` that the derived trackers use (critical_line_tracker.hh:43-49) -/
structure Snap where
  uv : Nd Rat
  J : Nd Rat := {}
  vorticity : Nd Rat := {}
  scalar : Nd Rat := {}

/-- what is read at one vertex: `uv[idx], uv[idx+1], uv[idx+2]`, `Js[i]`, `vorts[i]`, `scalars[i]` -/
structure Val where
  w : Fin 3 → Rat
  J : Fin 3 → Fin 3 → Rat := fun _ _ => 0
  vort : Fin 3 → Rat := fun _ => 0
  s : Rat := 0

/-- (modelling device) a default value -/
instance : Inhabited Val := ⟨{ w := fun _ => 0 }⟩

/-- `a[a.index(idx) + n]`; `none` = outside the data -/
def rdOff (a : Nd Rat) (idx : List Int) (n : Nat) : Option Rat :=
  if idx.length ≤ a.s.length ∧ 0 ≤ flat idx a.s + n ∧ flat idx a.s + n < a.p.length then a.p[(flat idx a.s + n).toNat]? else none

/-- three consecutive values (sujudi_haimes_tracker_3d_regular.hh:38-43 and critical_line_tracker_3d_regular.hh:415-421,
levy_degani_seginer_tracker_3d_regular.hh:38-46) -/
def rd3 (a : Nd Rat) (idx : List Int) : Option (Fin 3 → Rat) :=
  match rdOff a idx 0, rdOff a idx 1, rdOff a idx 2 with
  | some x, some y, some z => some ![x, y, z]
  | _, _, _ => none

/-- nine consecutive values: `Js[i][j][k] = f.J[idxJ + j*3 + k]` (sujudi_haimes_tracker_3d_regular.hh:45-53) -/
def rd9 (a : Nd Rat) (idx : List Int) : Option (Fin 3 → Fin 3 → Rat) :=
  match rdOff a idx 0, rdOff a idx 1, rdOff a idx 2, rdOff a idx 3, rdOff a idx 4, rdOff a idx 5, rdOff a idx 6, rdOff a idx 7,
    rdOff a idx 8 with
  | some a0, some a1, some a2, some a3, some a4, some a5, some a6, some a7, some a8 =>
    some ![![a0, a1, a2], ![a3, a4, a5], ![a6, a7, a8]]
  | _, _, _, _, _, _, _, _, _ => none

/-- `simplex_values` and `simplex_residue_J` at one vertex (sujudi_haimes_tracker_3d_regular.hh:30-56).  The code reads the
Jacobians for the triangles found only; here they are read for all. -/
def readSH (s : Snap) (idx : List Int) : Option Val :=
  match rd3 s.uv (0 :: idx), rd9 s.J (0 :: 0 :: idx) with
  | some w, some J => some { w := w, J := J }
  | _, _ => none

/-- `simplex_values` and `simplex_residue_vorts` at one vertex (levy_degani_seginer_tracker_3d_regular.hh:30-49) -/
def readLDS (s : Snap) (idx : List Int) : Option Val :=
  match rd3 s.uv (0 :: idx), rd3 s.vorticity (0 :: idx) with
  | some w, some v => some { w := w, vort := v }
  | _, _ => none

/-- the same with `simplex_scalars` (ridge_valley_tracker_3d_regular.hh:29-44) -/
def readRV (s : Snap) (idx : List Int) : Option Val :=
  match readSH s idx, rdOff s.scalar idx 0 with
  | some v, some x => some { v with s := x }
  | _, _ => none

/-- `Jv_dot_v(V)` (grad.hh:314-334) for `V` of shape `3 × DW × DH × DD`; the loops of `jacobian3D` in one of the possible
orders -/
def jvDotV (v : Nd Rat) (DW DH DD : Nat) : Option (Nd Rat) :=
  (runOp [3, 3, DW, DH, DD] (jacobian3DWrites v 1 DW DH DD)).bind fun J => runOp [3, DW, DH, DD] (jvWrites J v DW DH DD)

/-- `jacobian3D(V)` and `cross_product3D(V, Jv_dot_v(V))` (sujudi_haimes_tracker_3d_regular.hh:86-97) -/
def coreSnap (v : Nd Rat) (DW DH DD : Nat) : Option Snap :=
  match runOp [3, 3, DW, DH, DD] (jacobian3DWrites v 2 DW DH DD), jvDotV v DW DH DD with
  | some J, some a => (runOp [3, DW, DH, DD] (crossWrites v a DW DH DD)).map fun uv => { uv := uv, J := J }
  | _, _ => none

/-- `sujudi_haimes_tracker_3d_regular::push_field_data_snapshot` (sujudi_haimes_tracker_3d_regular.hh:86-97); an array that
is not `3 × DW × DH × DD` is not modelled. -/
def snapSH (data : Nd Rat) : Option Snap :=
  match data.dims with
  | [3, DW, DH, DD] => coreSnap data DW DH DD
  | _ => none

/-- `levy_degani_seginer_tracker_3d_regular::push_field_data_snapshot` (levy_degani_seginer_tracker_3d_regular.hh:72-81) -/
def snapLDS (data : Nd Rat) : Option Snap :=
  match data.dims with
  | [3, DW, DH, DD] =>
    match runOp [3, DW, DH, DD] (vorticityWrites data DW DH DD) with
    | some w => (runOp [3, DW, DH, DD] (crossWrites data w DW DH DD)).map fun uv => { uv := uv, vorticity := w }
    | none => none
  | _ => none

/-- `ridge_valley_tracker_3d_regular::push_field_data_snapshot` (ridge_valley_tracker_3d_regular.hh:60-71) -/
def snapRV (data : Nd Rat) : Option Snap :=
  match data.dims with
  | [DW, DH, DD] =>
    match runOp [3, DW, DH, DD] (gradient3DWrites data DW DH DD) with
    | some g => (coreSnap g DW DH DD).map fun s => { s with scalar := data }
    | none => none
  | _ => none

/-- `lerp_s2` (linear_interpolation.hh:51-56) -/
def lerpS2 (v : Fin 3 → Rat) (mu : Fin 3 → Rat) : Rat := v 0 * mu 0 + v 1 * mu 1 + v 2 * mu 2

/-- `lerp_s2m3x3` (linear_interpolation.hh:139-149) -/
def lerpS2m3x3 (V : Fin 3 → Fin 3 → Fin 3 → Rat) (mu : Fin 3 → Rat) : Fin 3 → Fin 3 → Rat :=
  fun j k => 0 + V 0 j k * mu 0 + V 1 j k * mu 1 + V 2 j k * mu 2

/-- `cubic_discriminant` (cubic_solver.hh:11-21) -/
def cubicDiscriminant {R : Type} [Ring R] (P : Fin 4 → R) : R :=
  18 * P 3 * P 2 * P 1 * P 0 - 4 * P 2 * P 2 * P 2 * P 0 + P 2 * P 2 * P 1 * P 1 - 4 * P 3 * P 1 * P 1 * P 1
    - 27 * P 3 * P 3 * P 0 * P 0

/-- the scalars `residue` and `discJ` (sujudi_haimes_tracker_3d_regular.hh:58-84) -/
def extraSH (vals : Fin 3 → Val) (mu : Fin 3 → Rat) : List Rat :=
  [lerpS2 (fun i => (vals i).w 2) mu, cubicDiscriminant (Num.charPoly3 (lerpS2m3x3 (fun i => (vals i).J) mu)) * 10 ^ 10]

/-- the scalars `residue` and `vortmag` (levy_degani_seginer_tracker_3d_regular.hh:51-70).  `vortmag` is the square root of
the second one (`vector_2norm_2`, vector_norm.hh:21-24); the square root is left out here. -/
def extraLDS (vals : Fin 3 → Val) (mu : Fin 3 → Rat) : List Rat :=
  [lerpS2 (fun i => (vals i).w 2) mu, lerpS2 (fun i => (vals i).vort 0) mu * lerpS2 (fun i => (vals i).vort 0) mu +
    lerpS2 (fun i => (vals i).vort 1) mu * lerpS2 (fun i => (vals i).vort 1) mu]

/-- the scalars `residue`, `discJ` and `scalar` (ridge_valley_tracker_3d_regular.hh:46-58) -/
def extraRV (vals : Fin 3 → Val) (mu : Fin 3 → Rat) : List Rat := extraSH vals mu ++ [lerpS2 (fun i => (vals i).s) mu]

/-- a derived tracker: the two channels tested are `uv[idx]` and `uv[idx+1]` (critical_line_tracker_3d_regular.hh:415-421);
`extra` = the scalars set by its `check_simplex` -/
def cfg (b : Box 3) (extra : (Fin 3 → Val) → (Fin 3 → Rat) → List Rat) (degen : (Fin 3 → Fin 2 → Rat) → Fin 3 → Rat) : Cfg Val :=
  { box := b, uv := fun v => ![v.w 0, v.w 1], extra := extra, degen := degen }

end Verif.Swirl
