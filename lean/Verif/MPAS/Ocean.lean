import Verif.MPAS.Model
import Verif.Cell.Model
import Mathlib.Algebra.Field.Rat

/-!
# Model of the particle tracer for MPAS ocean data

`include/ftk/filters/particle_tracer_mpas_ocean.hh` (below: `po`), the path without CUDA.  Exact arithmetic; square root, sine and cosine
are parameters.  `none` = undefined behaviour.
-/

namespace Verif.MPAS

open Verif.Num

variable {K : Type} [Field K] [LinearOrder K]

/-! ### The layer of a point -/

/-- The downward loop (`po:574-586`): the next layer is `layer`, at most `fuel` rounds (there are fewer than `top.length`). -/
def downLoop (top : List K) (z : K) : Nat → Nat → K → Option (Nat × K × K)
  | 0, _, _ => none
  | fuel + 1, layer, upper =>
    match top[layer + 1]? with
    | none => none
    | some lower => if z ≤ upper ∧ z > lower then some (layer, upper, lower) else downLoop top z fuel (layer + 1) lower

/-- The upward loop (`po:587-600`): the next layer is the argument minus one. -/
def upLoop (top : List K) (z : K) : Nat → K → Option (Nat × K × K)
  | 0, _ => none
  | layer + 1, lower =>
    match top[layer]? with
    | none => none
    | some upper => if z ≤ upper ∧ z > lower then some (layer, upper, lower) else upLoop top z layer upper

/-- The search (`po:552-606`): `top` is the list of the tops of the layers at the point, `hint` is `hint[1]`. Found: the layer, `upper` and
`lower`. -/
def layerSearch (top : List K) (z : K) (hint : Int) : Option (Option (Nat × K × K)) :=
  if 0 ≤ hint then do
    let upper ← top[hint.toNat]?
    let lower ← top[hint.toNat + 1]?
    if z > upper then some (upLoop top z hint.toNat upper)
    else if z ≤ lower then some (downLoop top z top.length (hint.toNat + 1) lower)
    else some (some (hint.toNat, upper, lower))
  else some (downLoop top z top.length 1 0)

/-! ### Evaluation -/

/-- `sum += omega[i] * f(verts_i[i])` over the vertices of a cell. -/
def wsum (w : Nat → K) (verts : List Nat) (f : Nat → K) : K :=
  verts.zipIdx.foldl (fun s p => s + w p.2 * f p.1) 0

/-- `eval_v_with_vertical_velocity` (`po:511-668`), called with a hint. `zTop l v` is the top of layer `l` at vertex `v`, `f ch l v` is the
channel `ch` (velocity components, vertical velocity, salinity, temperature). Returned: the new hints, and the values or failure. -/
def evalOcean {ch : Type} (m : Mesh K) (nearest : (Fin 3 → K) → Int) (sqrt : K → K) (radius : K) (nlayers : Nat)
    (zTop : Nat → Nat → K) (f : ch → Nat → Nat → K) (x : Fin 3 → K) (hint : Int × Int) : Option ((Int × Int) × Option (ch → K)) := do
  let c ← m.locateFrom nearest x hint.1
  if c < 0 then some ((c, hint.2), none)
  else do
    let ci ← idx m.nCells c
    let vs ← m.cellVerts ci
    let w ← Cell.wachspress sqrt vs.length (fun j => (vs.getD j (0, 0)).2) x
    let z := sqrt (dot3 x x) - radius
    let r ← layerSearch ((List.range nlayers).map fun l => wsum w (vs.map (·.1)) (zTop l)) z hint.2
    match r with
    | none => some ((c, hint.2), none)
    | some (l, upper, lower) =>
      let alpha := (z - lower) / (upper - lower)
      let beta := 1 - alpha
      some ((c, l), some fun k => alpha * wsum w (vs.map (·.1)) (f k l) + beta * wsum w (vs.map (·.1)) (f k (l + 1)))

/-! ### Seeds -/

/-- `n == 1 ? 0.0 : (b - a) / (n - 1)` (`po:107-109`). -/
def spacing (n : Nat) (a b : K) : K := if n = 1 then 0 else (b - a) / ((n : K) - 1)

/-- A seed: its position and the identifier of its cell. -/
structure Seed (K : Type) where
  x : Fin 3 → K
  tag : Int

/-- The position of seed `(i, j, k)` (`po:112-135`); `lat` and `lon` are `deg2rad` of the angles. -/
def geoPoint (sin cos deg2rad : K → K) (radius lat0 dlat lon0 dlon z0 dz : K) (i j k : Nat) : Fin 3 → K :=
  let lat := deg2rad ((i : K) * dlat + lat0)
  let lon := deg2rad ((j : K) * dlon + lon0)
  let r := radius + ((k : K) * dz + z0)
  ![r * cos lon * cos lat, r * sin lon * cos lat, r * sin lat]

/-- One seed of `initialize_particles_latlonz` (`po:127-151`): located from cell 0, dropped if it is in no cell. -/
def geoSeed (m : Mesh K) (nearest : (Fin 3 → K) → Int) (i2cid : Int → Option Int) (x : Fin 3 → K) : Option (Option (Seed K)) := do
  let c ← m.locateFrom nearest x 0
  let tag ← i2cid c
  some (if 0 ≤ c then some ⟨x, tag⟩ else none)

/-- `initialize_particles_latlonz` (`po:97-156`): the seeds in the order in which they are added (their identifiers are given by `add`). -/
def geoSeeds (m : Mesh K) (nearest : (Fin 3 → K) → Int) (i2cid : Int → Option Int) (sin cos deg2rad : K → K) (radius : K)
    (nlat : Nat) (lat0 lat1 : K) (nlon : Nat) (lon0 lon1 : K) (nz : Nat) (z0 z1 : K) : Option (List (Seed K)) :=
  (((List.range nlat).flatMap fun i => (List.range nlon).flatMap fun j => (List.range nz).map fun k =>
      geoPoint sin cos deg2rad radius lat0 (spacing nlat lat0 lat1) lon0 (spacing nlon lon0 lon1) z0 (spacing nz z0 z1) i j k).mapM
    (geoSeed m nearest i2cid)).map (·.filterMap id)

/-- The loop over the layers of a cell in `initialize_particles_at_grid_points` (`po:180-204`): `x0` is changed in place. `depths`: the
accumulated thicknesses of the layers visited; `R`: the distance of the cell centre. -/
def gridLoop (R : K) : (Fin 3 → K) → List K → List (Fin 3 → K)
  | _, [] => []
  | x0, h :: hs =>
    let x := fun k => x0 k * (R - h) / R
    x :: gridLoop R x hs

/-! ### Numbers of steps -/

/-- `nsteps_per_interval` (`po:230-231`); `dt` is in whole seconds. -/
def stepsPerInterval (stepsPerDay dt : Int) : Int := stepsPerDay * dt.tdiv 86400

/-- `nsteps_per_checkpoint` (`po:233-238`). -/
def stepsPerCheckpoint (stepsPerDay dt days months : Int) : Int :=
  if days ≠ 0 then stepsPerDay * days
  else if months ≠ 0 then stepsPerDay * 30 * months
  else stepsPerInterval stepsPerDay dt

/-- `delta()` (`particle_tracer.hh:50`). -/
def stepLength (stepsPerDay dt : Int) : ℚ := (dt : ℚ) / (stepsPerInterval stepsPerDay dt : ℚ)

end Verif.MPAS
