import Verif.SoS.Model
import Verif.Mesh.Model
import Verif.XMesh.Model

/-!
# Model of the degree computation of the two-dimensional critical point trackers

`set_enable_computing_degrees(true)`: the type field of a critical point is 1 or 2 by its degree, 0 on elements that extend in
time. The vectors are the quantised integers (`vf`, `Vf`).
-/

namespace Verif.Deg

open Verif.SoS

/-- `critical_point_tracker_2d_regular.hh:653-663`. -/
def typeRegular (etype : Nat) (ordinal : Bool) (vf : Fin 3 → Fin 2 → ℤ) (indices : Fin 3 → ℤ) : Nat :=
  if ordinal then
    let deg := positive2 vf indices
    let chi := if etype = 4 then (1 : ℤ) else -1
    if deg * chi = 1 then 1 else 2
  else 0

/-- `get_triangle_chi` of the extruded mesh (`simplicial_unstructured_extruded_2d_mesh.hh:123-132`). -/
def extChi (m : UM.M2) (i : Int) : Option Int := do
  let k ← XM.mod i (XM.n m 2)
  if k < XM.nOrdinal m 2 then m.triangleChi k else some 0

/-- `critical_point_tracker_2d_unstructured.hh:165-176` for element `i`; `V` is the quantised vector of each space-time vertex. -/
def typeUnstructured (m : UM.M2) (V : ℤ → Fin 2 → ℤ) (i : Int) : Option Nat := do
  let s ← XM.getSimplex m 2 i
  let o ← XM.isOrdinal m 2 i
  if o then
    match s.2 with
    | [a, b, c] =>
      let chi ← extChi m i
      some (if positive2 ![V a, V b, V c] ![a, b, c] * chi = 1 then 1 else 2)
    | _ => none
  else some 0

end Verif.Deg
