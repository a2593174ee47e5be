import Verif.Tracker.Model
import Verif.XMesh.Model
import Verif.Num.Model
import Mathlib.Algebra.Field.Rat
import Mathlib.Algebra.Order.Field.Rat
/-! Model of `filters/critical_point_tracker_2d_unstructured.hh` (below: `u2d`) on the implicitly extruded mesh
`Verif.XM`, CPU execution, one process, without GMP.  The time loop is the one of the base class
`critical_point_tracker.hh`, with the snapshots, points and trajectories of `Verif.Trk`; the elements are triangle ids of
the extruded mesh (`int`, unbounded here).  `double` and `int64_t` are exact and unbounded. -/
namespace Verif.UTrk
open Verif.Ser (lookup mapPut)
open Verif.Trk (Snap CP Traj Op quant nbits dblMax traceOnline traceOffline)
open Verif.SRM (Scope)

/-- the part of `feature_point_t` computed from the data (`u2d:142-158`, `u2d:160-230`): `x[0]`, `x[1]`, `x[2]`, `t` in
`pos`; type and scalars in `extra`. -/
structure Info (γ : Type) where
  pos : Fin 4 → Rat
  extra : γ

/-- configuration: the base mesh, its vertex coordinates (`m2->get_coords`), `enable_streaming_trajectories`, the
computation of type and scalars from the vertices, their vectors and `mu` (`u2d:160-230`), and the two filters on the type
in the lambda (`u2d:246-256`). -/
structure Cfg (γ : Type) where
  m : UM.M2
  coords : Int → Fin 3 → Rat
  streaming : Bool
  extra : List Int → (Fin 3 → Fin 2 → Rat) → (Fin 3 → Rat) → γ
  keep : CP (Info γ) → Bool

variable {γ : Type}

/-- the members of the tracker; `calls` is a ghost variable: the calls of `check_simplex`, with the current timestep. -/
structure St (γ : Type) where
  snaps : List (Snap 2)
  cur : Nat
  res : Rat
  factor : Int
  dcp : List (Int × CP (Info γ))
  trajs : List (Traj (CP (Info γ)))
  calls : List (Int × Nat)

/-- initial state (critical_point_tracker.hh:162-163, tracker.hh) -/
def St.init : St γ := { snaps := [], cur := 0, res := dblMax, factor := 1, dcp := [], trajs := [], calls := [] }

/-- `update_vector_field_scaling_factor` (critical_point_tracker.hh:850-865) -/
def St.rescale (st : St γ) : St γ :=
  let r := st.snaps.foldl (fun r s => min r s.res) st.res
  { st with res := r, factor := 2 ^ nbits r }

/-- the vector at one vertex in `simplex_values` (`u2d:88-99`): snapshot 0 if the vertex has the current time, else
snapshot 1; `none` = no such snapshot or array cell. -/
def readVertex (m : UM.M2) (snaps : List (Snap 2)) (cur : Nat) (v : Int) : Option (Fin 2 → Option Rat) :=
  match XM.flatTime m v, XM.flatId m v with
  | some t, some k =>
    match snaps[if t = (cur : Int) then 0 else 1]? with
    | none => none
    | some s => s.read [k]
  | _, _ => none

/-- `get_coords(i, coords)` (simplicial_unstructured_extruded_2d_mesh.hh:112-121) -/
def coordsOf (c : Cfg γ) (v : Int) : Option (Fin 4 → Rat) :=
  match XM.flatTime c.m v, XM.flatId c.m v with
  | some t, some k => some ![c.coords k 0, c.coords k 1, c.coords k 2, (t : Rat)]
  | _, _ => none

/-- three results, if all are defined -/
def all3 {β : Type} (f : Int → Option β) (v0 v1 v2 : Int) : Option (Fin 3 → β) :=
  match f v0, f v1, f v2 with
  | some a, some b, some c => some ![a, b, c]
  | _, _, _ => none

/-- a vector of two finite numbers -/
def finite2 (x : Fin 2 → Option Rat) : Option (Fin 2 → Rat) :=
  match x 0, x 1 with
  | some a, some b => some ![a, b]
  | _, _ => none

/-- `std::numeric_limits<double>::epsilon()` -/
def eps : Rat := 1 / 2 ^ 52

/-- determinant of the system of `inverse_lerp_s2v2` (inverse_linear_interpolation_solver.hh:38-41) -/
def det (V : Fin 3 → Fin 2 → Rat) : Rat :=
  (V 0 0 - V 2 0) * (V 1 1 - V 2 1) - (V 1 0 - V 2 0) * (V 0 1 - V 2 1)

/-- `mu` of `check_simplex` (`u2d:130-143`); `none` = `return false`, which happens when the determinant is zero, `mu[0]`
then being a division by zero. -/
def mu (V : Fin 3 → Fin 2 → Rat) : Option (Fin 3 → Rat) :=
  if det V = 0 then none
  else
    let r := Num.inverseLerpS2v2 V eps
    if r.1 then some r.2
    else
      let m0 := max (min 1 (r.2 0)) 0
      let m1 := max (min (1 - m0) (r.2 1)) 0
      some ![m0, m1, 1 - m0 - m1]

/-- `lerp_s2v4(X, mu, x)` (linear_interpolation.hh) -/
def lerp4 (X : Fin 3 → Fin 4 → Rat) (w : Fin 3 → Rat) : Fin 4 → Rat :=
  fun j => X 0 j * w 0 + X 1 j * w 1 + X 2 j * w 2

/-- the test on the quantised vectors (`u2d:119-128`) -/
def test (f : Int) (V : Fin 3 → Fin 2 → Rat) (v0 v1 v2 : Int) : Bool :=
  SoS.criticalPointInSimplex2 (fun i j => quant f (V i j)) ![v0, v1, v2]

/-- `check_simplex(i, cp)` (`u2d:110-233`), the vectors being obtained by `rd`.  Outer `none` = undefined (a cell that
does not exist; a vector that is not finite is converted to `int64_t`); inner `none` = `return false`. -/
def checkWith (c : Cfg γ) (f : Int) (cur : Nat) (rd : Int → Option (Fin 2 → Option Rat)) (i : Int) :
    Option (Option (CP (Info γ))) :=
  match XM.getSimplex c.m 2 i, XM.isOrdinal c.m 2 i with
  | some (tid, [v0, v1, v2]), some o =>
    match all3 (fun v => (rd v).bind finite2) v0 v1 v2, all3 (coordsOf c) v0 v1 v2 with
    | some V, some X =>
      if test f V v0 v1 v2 then
        match mu V with
        | none => some none
        | some w => some (some { tag := tid, ordinal := o, timestep := cur,
                                 info := { pos := lerp4 X w, extra := c.extra [v0, v1, v2] V w } })
      else some none
    | _, _ => none
  | _, _ => none

/-- `check_simplex` in the current state -/
def check (c : Cfg γ) (st : St γ) (i : Int) : Option (Option (CP (Info γ))) :=
  checkWith c st.factor st.cur (readVertex c.m st.snaps st.cur) i

/-- the lambda of `update_timestep` (`u2d:241-258`) -/
def visit (c : Cfg γ) (st : St γ) (i : Int) : Option (St γ) :=
  match check c st i with
  | none => none
  | some none => some { st with calls := st.calls ++ [(i, st.cur)] }
  | some (some cp) =>
    some { st with calls := st.calls ++ [(i, st.cur)], dcp := if c.keep cp then mapPut cp.tag cp st.dcp else st.dcp }

/-- visits in the order of the list -/
def visitAll (c : Cfg γ) : List Int → St γ → Option (St γ)
  | [], st => some st
  | i :: is, st =>
    match visit c st i with
    | none => none
    | some st' => visitAll c is st'

/-- the calls of `element_for_ordinal(2, t, f)`, `element_for_interval(2, t, f)`, `parallel_for` executing its tasks in the
order `order` (simplicial_unstructured_extruded_2d_mesh.hh:80-110) -/
def idsOf (m : UM.M2) (sc : Scope) (order : List Int) (t : Nat) : List Int :=
  match sc with
  | .ordinal => order.map fun i => i + t * XM.n m 2
  | _ => order.map fun i => i + XM.nOrdinal m 2 + t * XM.n m 2

/-- the lambda `neighbors` (`u2d:270-277`, `u2d:293-315`): `side_of`, then `sides` of each, in a `std::set` -/
def nbOpt (m : UM.M2) (f : Int) : Option (List Int) :=
  match XM.sideOf m f with
  | none => none
  | some cs =>
    match cs.mapM (XM.sides m) with
    | none => none
    | some ss => some (ss.flatten.foldl (fun acc x => setInsert x acc) [])

/-- `neighbors`, where defined -/
def nb (m : UM.M2) (f : Int) : List Int := (nbOpt m f).getD []

/-- `neighbors` is defined for all of these -/
def nbDefined (m : UM.M2) (l : List Int) : Bool := l.all fun f => (nbOpt m f).isSome

/-- `trace_critical_points_online` (`u2d:265-281`); undefined if `neighbors` is on a point. -/
def grow (c : Cfg γ) (st : St γ) : Option (St γ) :=
  if nbDefined c.m (st.dcp.map Prod.fst) && nbDefined c.m ((st.trajs.flatMap Traj.pts).map CP.tag) then
    match traceOnline (nb c.m) CP.tag st.trajs st.dcp with
    | none => none
    | some ts => some { st with trajs := ts, dcp := [] }
  else none

/-- the two scans of `update_timestep` (`u2d:238-263`) -/
def scans (c : Cfg γ) (ord : Scope → List Int) (st : St γ) : Option (St γ) :=
  match visitAll c (idsOf c.m .ordinal (ord .ordinal) st.cur) st.rescale with
  | none => none
  | some st1 =>
    if st1.snaps.length ≥ 2 then visitAll c (idsOf c.m .interval (ord .interval) st1.cur) st1
    else some st1

/-- `update_timestep` (`u2d:234-283`); `ord sc` is the order in which the tasks of a scan are executed. -/
def update (c : Cfg γ) (ord : Scope → List Int) (st : St γ) : Option (St γ) :=
  match scans c ord st with
  | none => none
  | some st2 => if c.streaming then grow c st2 else some st2

/-- `advance_timestep` (critical_point_tracker.hh:840-848, pop 231-237) -/
def advance (c : Cfg γ) (ord : Scope → List Int) (st : St γ) : Option (St γ) :=
  match update c ord st with
  | none => none
  | some st' => some { st' with snaps := st'.snaps.tail, cur := st'.cur + 1 }

/-- `push_vector_field_snapshot` (critical_point_tracker.hh:222-228) -/
def push (s : Snap 2) (st : St γ) : St γ := { st with snaps := st.snaps ++ [s] }

/-- one call of a user -/
def step (c : Cfg γ) (st : St γ) : Op 2 → Option (St γ)
  | .push s => some (push s st)
  | .advance ord => advance c ord st
  | .update ord => update c ord st

/-- a sequence of calls -/
def run (c : Cfg γ) : List (Op 2) → St γ → Option (St γ)
  | [], st => some st
  | o :: os, st =>
    match step c st o with
    | none => none
    | some st' => run c os st'

/-- `finalize` (`u2d:284-341`), up to statistics and the optional removal of points -/
def finalize (c : Cfg γ) (st : St γ) : Option (List (Traj (CP (Info γ)))) :=
  if c.streaming then some st.trajs
  else if nbDefined c.m (st.dcp.map Prod.fst) then
    match traceOffline (nb c.m) st.dcp with
    | none => none
    | some ts => some (st.trajs ++ ts)
  else none

/-- a whole run of the driver: `push; if (k != 0) advance_timestep(); if (k == DT-1) update_timestep();`, then `finalize`
(json_interface.hh:457-470) -/
def track (c : Cfg γ) (series : List (Snap 2)) (ord : Nat → Scope → List Int) : Option (List (Traj (CP (Info γ)))) :=
  match run c (Trk.driveOps series ord) St.init with
  | none => none
  | some st => finalize c st

end Verif.UTrk
