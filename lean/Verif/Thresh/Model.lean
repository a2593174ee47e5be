import Verif.HK.Model
import Verif.TrackGraph.Model
import Mathlib.Order.Defs.LinearOrder

/-!
# Model of `filters/threshold_tracker.hh`

A snapshot of a scalar field is thresholded, its superthreshold cells are labelled by `hoshen_kopelman_2d` (`HK.hk`), and the
label image is pushed into the connected-component tracker (`TG.CCTracker`). Values are taken from a linear order: NaN is not
modelled.
-/

namespace Verif.Thresh

open Verif.TG

/-- `FTK_COMPARE_*` (threshold_tracker.hh:9-14); `other` is any other integer given as mode. -/
inductive Mode
  | ge | gt | le | lt | other
  deriving DecidableEq

/-- The state: threshold, mode and shape of the last input (threshold_tracker.hh:36-39) and the inherited tracker. -/
structure State (K : Type) where
  thr : K
  mode : Mode
  shape : List Nat
  cc : CCTracker

/-- A new tracker (threshold_tracker.hh:36-37); `zero` is the value 0.0. -/
def State.init {K : Type} (zero : K) : State K := { thr := zero, mode := .ge, shape := [], cc := CCTracker.init }

/-- `set_threshold` (threshold_tracker.hh:44-48). -/
def State.setThreshold {K : Type} (s : State K) (t : K) (m : Mode) : State K := { s with thr := t, mode := m }

/-- The `switch` in the loop of `push_scalar_field_data_snapshot` (threshold_tracker.hh:59-65): the new value of `labels[i]`;
with an unknown mode the zero written by `reshape` stays. -/
def mask {K : Type} [LinearOrder K] (m : Mode) (thr x : K) : Nat :=
  match m with
  | .ge => if x ≥ thr then 1 else 0
  | .gt => if x > thr then 1 else 0
  | .le => if x ≤ thr then 1 else 0
  | .lt => if x < thr then 1 else 0
  | .other => 0

/-- `push_scalar_field_data_snapshot` (threshold_tracker.hh:50-75). The array is its shape and its elements. `none`: the
`assert(false)` for arrays that are not two-dimensional, or an access out of bounds in `hoshen_kopelman_2d`. -/
def State.pushScalar {K : Type} [LinearOrder K] (s : State K) (shape : List Nat) (f : List K) : Option (State K) :=
  match shape with
  | [m, n] =>
    match HK.hk m n (f.map (mask s.mode s.thr)) with
    | none => none
    | some (labels, _) => some { s with shape := [m, n], cc := s.cc.push labels }
  | _ => none

/-- the inherited `advance_timestep` (connected_component_tracker.hh:60-71). -/
def State.advance {K : Type} (s : State K) : Option (State K) :=
  match s.cc.advance with
  | none => none
  | some (c, _) => some { s with cc := c }

/-- `get_last_labeled_array_snapshot` (threshold_tracker.hh:77-83): shape and elements; the elements are copied from the back of
the queue (connected_component_tracker.hh:31), `none` if it is empty; missing elements stay zero (ndarray.hh:420-425). -/
def State.lastLabels {K : Type} (s : State K) : Option (List Nat × List Nat) :=
  match s.cc.snaps.getLast? with
  | none => none
  | some l => some (s.shape, (List.range s.shape.prod).map (fun (i : Nat) => l.getD i 0))

/-- A frame: the threshold and mode in force and the field. -/
structure Frame (K : Type) where
  thr : K
  mode : Mode
  data : List K

/-- For each frame: `set_threshold`, `push_scalar_field_data_snapshot`, `advance_timestep`, as src/cli/ftk.cpp drives it. -/
def run {K : Type} [LinearOrder K] (shape : List Nat) : List (Frame K) → State K → Option (State K)
  | [], s => some s
  | f :: fs, s =>
    match (s.setThreshold f.thr f.mode).pushScalar shape f.data with
    | none => none
    | some s =>
      match s.advance with
      | none => none
      | some s => run shape fs s

end Verif.Thresh
