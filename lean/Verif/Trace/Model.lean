import Verif.Ndarray.Mlerp
import Verif.Mesh.Model
import Mathlib.Data.Fin.Tuple.Basic
/-! Model of the particle tracer on regular grids: `particle_tracer` (include/ftk/filters/particle_tracer.hh),
`particle_tracer_regular` (include/ftk/filters/particle_tracer_regular.hh) and the driver loop of the command line tool
(src/cli/ftk.cpp:643-685).  Exact arithmetic in an ordered field; the integrator is the default RK4. -/
namespace Verif.PT
open Verif.ND (Nd)
variable {K : Type} [Field K] [LinearOrder K] [FloorRing K] {nd : Nat}

/-- `feature_point_t` (features/feature_point.hh:111-117): the position `x`, the time `t` and the velocity `v` the
tracer fills in; `v = none`: copied from uninitialised memory (`double x[10], v[10]`, particle_tracer.hh:149).  The id,
the type and the extra scalars are not modelled. -/
structure Pt (K : Type) (nd : Nat) where
  x : Fin nd → K
  t : K
  v : Option (Fin nd → K)

/-- the local array `double x[10]` (particle_tracer.hh:149-152): the position, then the time. -/
abbrev X (K : Type) (nd : Nat) := Fin (nd + 1) → K

/-- `feature_point_t p; p.x[k] = x[k]; p.v[k] = v[k]; p.t = x[nd_]` (particle_tracer.hh:158-163, 191-198). -/
def mkPt (x : X K nd) (v : Option (X K nd)) : Pt K nd :=
  { x := fun k => x k.castSucc, t := x (Fin.last nd), v := v.map fun v k => v k.castSucc }

/-- `x[k] = last_point.x[k]; x[nd_] = last_point.t` (particle_tracer.hh:150-152). -/
def Pt.toX (p : Pt K nd) : X K nd := Fin.snoc (α := fun _ => K) p.x p.t

/-- `particle_tracer_regular::eval_v` (particle_tracer_regular.hh:53-57): `V[t]->mlerp(x, v)`; `some none`: `false`. -/
def evalV (a : Nd K) (x : X K nd) : Option (Option (List K)) := a.mlerp (List.ofFn x)

/-- `particle_tracer::eval_vt` (particle_tracer.hh:208-239) with `V[0] = a0`, `V[1] = a1?`.  `some none`: returned `false`;
`none`: division by `current_delta_t = 0`, a read of a channel that was never written, or more channels than the buffers
(`v0[10]`, and the `nd+1` velocities of `rk4`) hold. -/
def evalVt (a0 : Nd K) (a1? : Option (Nd K)) (ct dt : K) (x : X K nd) : Option (Option (X K nd)) :=
  match a1? with
  | some a1 =>
    if dt = 0 then none
    else
      let t := (x (Fin.last nd) - ct) / dt
      if t < 0 ∨ 1 < t then some none
      else
        let w0 := 1 - t
        let w1 := t
        match evalV a0 x, evalV a1 x with
        | some b0, some b1 =>
          match b0, b1 with
          | some v0, some v1 =>
            if v0.length < nd ∨ v1.length < nd ∨ 10 < v0.length ∨ 10 < v1.length then none
            else some (some (Fin.snoc (α := fun _ => K) (fun k : Fin nd => w0 * v0.getD k 0 + w1 * v1.getD k 0) 1))
          | _, _ => some none
        | _, _ => none
  | none =>
    match evalV a0 x with
    | none => none
    | some none => some none
    | some (some v) =>
      if v.length < nd ∨ nd + 1 < v.length then none
      else some (some (Fin.snoc (α := fun _ => K) (fun k : Fin nd => v.getD k 0) 1))

/-- `rk4` with the optional output `v0` (numeric/rk4.hh:186-222): the return value, `*pt` and `*v0` afterwards. -/
def rk4v {n : Nat} (f : (Fin n → K) → Option (Option (Fin n → K))) (h : K) (pt : Fin n → K) (v0 : Option (Fin n → K)) :
    Option (Bool × (Fin n → K) × Option (Fin n → K)) :=
  let p0 := pt
  match f pt with
  | none => none
  | some none => some (false, pt, v0)
  | some (some v) =>
    let k1 := fun i => h * v i
    let v0 := some v
    let pt := fun i => p0 i + 1 / 2 * k1 i
    match f pt with
    | none => none
    | some none => some (false, pt, v0)
    | some (some v) =>
      let k2 := fun i => h * v i
      let pt := fun i => p0 i + 1 / 2 * k2 i
      match f pt with
      | none => none
      | some none => some (false, pt, v0)
      | some (some v) =>
        let k3 := fun i => h * v i
        let pt := fun i => p0 i + k3 i
        match f pt with
        | none => none
        | some none => some (false, pt, v0)
        | some (some v) => some (true, fun i => p0 i + (k1 i + 2 * (k2 i + k3 i) + h * v i) / 6, v0)

/-- the parameters (particle_tracer.hh:41-46, 61-67; tracker.hh:38, 69) with their defaults. -/
structure Cfg (K : Type) where
  /-- `nsteps_per_interval` -/
  nsteps : Nat
  /-- `nsteps_per_checkpoint` -/
  ckpt : Nat
  /-- `current_delta_t` -/
  dt : K
  /-- `ntimesteps` -/
  nt : Nat

/-- the defaults (particle_tracer.hh:61-67, tracker.hh:69). -/
def Cfg.default : Cfg K := { nsteps := 128, ckpt := 16, dt := 1, nt := 0 }

/-- `set_nsteps_per_checkpoint(int n) { nsteps_per_checkpoint = 16; }` (particle_tracer.hh:46) -/
def Cfg.setCkpt (c : Cfg K) (_n : Nat) : Cfg K := { c with ckpt := 16 }

/-- the configuration of the command line tool (src/cli/ftk.cpp:656-659). -/
def Cfg.cli (nt nsteps ckpt : Nat) (dt : K) : Cfg K :=
  let c : Cfg K := { Cfg.default with nt := nt }
  let c : Cfg K := { c with nsteps := nsteps }
  let c := c.setCkpt ckpt
  { c with dt := dt }

/-- `delta()` (particle_tracer.hh:53) -/
def Cfg.delta (c : Cfg K) : K := c.dt / (c.nsteps : K)

/-- the loop over the steps of an interval (particle_tracer.hh:156-189): `fuel` steps to go, `k` done; `pts` are the
points pushed to the trajectory. -/
def loop (f : X K nd → Option (Option (X K nd))) (h : K) (ckpt : Nat) :
    Nat → Nat → X K nd → Option (X K nd) → List (Pt K nd) → Option (X K nd × Option (X K nd) × List (Pt K nd))
  | 0, _, x, v, pts => some (x, v, pts)
  | fuel + 1, k, x, v, pts =>
    let pts := if k % ckpt = 0 then pts ++ [mkPt x v] else pts
    match rk4v f h x v with
    | none => none
    | some (false, x, v) => some (x, v, pts)
    | some (true, x, v) => loop f h ckpt fuel (k + 1) x v pts

/-- the task of one trajectory in `update_timestep` (particle_tracer.hh:140-203); `none`: `back()` of an empty trajectory,
or an undefined evaluation. -/
def advanceTraj (f : X K nd → Option (Option (X K nd))) (c : Cfg K) (tr : List (Pt K nd)) : Option (List (Pt K nd)) :=
  match tr.getLast? with
  | none => none
  | some p =>
    match loop f c.delta c.ckpt c.nsteps 0 p.toX none tr with
    | none => none
    | some (x, v, pts) => some (pts ++ [mkPt x v])

/-- the state: `snapshots`, `current_timestep`, `trajectories`. -/
structure St (K : Type) (nd : Nat) where
  snaps : List (Nd K)
  cur : Nat
  trajs : List (List (Pt K nd))

/-- the body of the parallel loop for task `i` (particle_tracer.hh:138-206): it modifies only its own trajectory. -/
def task (f : X K nd → Option (Option (X K nd))) (c : Cfg K) (ts : List (List (Pt K nd))) (i : Nat) :
    Option (List (List (Pt K nd))) :=
  match ts[i]? with
  | none => none
  | some tr => (advanceTraj f c tr).map fun tr => ts.set i tr

/-- `update_timestep` (particle_tracer.hh:117-206) and `prepare_timestep` (:111-115).  `order`: the order in which the
tasks of `parallel_for_container` (object.hh:118-129) are run.  `none`: `snapshots[0]` without snapshots. -/
def update (c : Cfg K) (order : List Nat) (s : St K nd) : Option (St K nd) :=
  match s.snaps with
  | [] => none
  | a0 :: rest =>
    let streamlines := decide (c.nt = 1)
    if streamlines = false ∧ s.snaps.length < 2 then some s
    else (order.foldlM (task (evalVt a0 rest.head? (s.cur : K) c.dt) c) s.trajs).map fun ts => { s with trajs := ts }

/-- `push_field_data_snapshot("vector", a)` (tracker.hh:81-98) -/
def push (a : Nd K) (s : St K nd) : St K nd := { s with snaps := s.snaps ++ [a] }

/-- `advance_timestep` (particle_tracer.hh:75-82) with `pop_field_data_snapshot` (tracker.hh:100-108). -/
def advance (c : Cfg K) (order : List Nat) (s : St K nd) : Option (Bool × St K nd) :=
  (update c order s).map fun s =>
    let s := { s with snaps := s.snaps.tail, cur := s.cur + 1 }
    (decide (0 < s.snaps.length), s)

/-- the stream callback of the command line tool for time step `k` (src/cli/ftk.cpp:674-679); `o1`, `o2`: the orders of
the two possible parallel loops. -/
def onSnapshot (c : Cfg K) (total : Nat) (k : Nat) (a : Nd K) (o1 o2 : List Nat) (s : St K nd) : Option (St K nd) :=
  let s := push a s
  match (if k ≠ 0 then (advance c o1 s).map Prod.snd else some s) with
  | none => none
  | some s => if k + 1 = total then update c o2 s else some s

/-- the callbacks for the remaining snapshots, the next being number `k`. -/
def driveFrom (c : Cfg K) (total : Nat) (orders : Nat → List Nat × List Nat) :
    Nat → List (Nd K) → St K nd → Option (St K nd)
  | _, [], s => some s
  | k, a :: as, s =>
    match onSnapshot c total k a (orders k).1 (orders k).2 s with
    | none => none
    | some s => driveFrom c total orders (k + 1) as s

/-- a run of the command line tool over a series (src/cli/ftk.cpp:643-685) from the seeds `trajs`. -/
def drive (c : Cfg K) (orders : Nat → List Nat × List Nat) (series : List (Nd K)) (trajs : List (List (Pt K nd))) :
    Option (St K nd) :=
  driveFrom c series.length orders 0 series { snaps := [], cur := 0, trajs := trajs }

/-- `initialize_particles(n, buf, stride, has_time)` (particle_tracer.hh:90-109); `none`: a read behind the buffer. -/
def initParticles (n : Nat) (buf : List K) (stride : Nat) (hasTime : Bool) : Option (List (List (Pt K nd))) :=
  (List.range n).mapM fun i =>
    if i * stride + nd + (if hasTime then 1 else 0) ≤ buf.length then
      some [{ x := fun k => buf.getD (i * stride + k) 0
              t := if hasTime then buf.getD (i * stride + nd) 0 else 0
              v := some fun _ => 0 }]
    else none

/-- the seed of the vertex `e` in `initialize_particles_at_grid_points` (particle_tracer_regular.hh:36-45); the strides are
ignored.  At most three coordinates are copied (`nd ≤ 3`: `feature_point_t::x` has three). -/
def seedOf (e : SRM.Elem) : List (Pt K nd) :=
  [{ x := fun k => if (k : Nat) < min 3 (e.corner.length - 1) then ((e.corner.getD k 0 : Int) : K) else 0
     t := 0
     v := some fun _ => 0 }]

/-- `initialize_particles_at_grid_points` (particle_tracer_regular.hh:29-51): `m.element_for_ordinal(0, 0, ..)` over the
space-time lattice `l`, whose tasks are executed in the order `trace`. -/
def seedGrid (l : Lat.Lattice) (trace : List Int) : Option (List (List (Pt K nd))) :=
  (SRM.elementForCalls (nd + 1) 0 (SRM.timeSlab l 0) .ordinal trace).mapM fun e? => e?.map seedOf

end Verif.PT
