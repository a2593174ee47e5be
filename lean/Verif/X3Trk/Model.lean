import Verif.X3Mesh.Model
import Verif.CLine.Model
import Verif.Tracker.Spec

/-!
# Model of the trackers on unstructured 3-D meshes

`filters/critical_point_tracker_3d_unstructured.hh` (below: `u3d`) and
`filters/critical_line_tracker_3d_unstructured.hh` (below: `l3d`), on the extruded mesh `Verif.X3`.  CPU execution, one
process, without GMP, `enable_streaming_trajectories` off.  `parallel_for` executes its tasks in an arbitrary order (the
lambda writes under a mutex).  `double`, `float`, `int64_t` and `int` are exact and unbounded.  `none` is undefined
behaviour.
-/

namespace Verif.X3T

open Verif.U3 Verif.X3
open Verif.Ser (mapPut)
open Verif.Trk (Snap CP Traj quant nbits dblMax traceOffline)
open Verif.SRM (Scope)

/-! ## the time loop -/

/-- What a tracker adds to the loop: the dimension `d` of the elements tested; `pre`, the update of the scaling state
at the beginning of `update_timestep`; `rd`, the value of a snapshot at a base vertex (`none` = outside the array, or a
number that cannot be converted); `test`, the rest of `check_simplex` together with the filters of the lambda, from the
scaling state, the timestep, the id, its vertices and their values. -/
structure Prog (σ S V P : Type) where
  m : M3
  d : Nat
  pre : σ → List S → σ
  rd : S → Int → Option V
  test : σ → Nat → Int → List Int → List V → Option P

/-- State: `field_data_snapshots`, `current_timestep`, the scaling state, and the map of the points found. -/
structure St (σ S P : Type) where
  snaps : List S
  cur : Nat
  sig : σ
  found : List (Int × P)

variable {σ S V P : Type}

/-- The state of a new tracker. -/
def St.init (s : σ) : St σ S P := { snaps := [], cur := 0, sig := s, found := [] }

/-- `simplex_values` for one vertex (`u3d:79-84`, `l3d:68-72`): snapshot 0 for a vertex at the current time, else
snapshot 1. -/
def Prog.readVertex (g : Prog σ S V P) (snaps : List S) (cur : Nat) (v : Int) : Option V :=
  match flatTime g.m v, flatId g.m v with
  | some t, some k =>
    match snaps[if t = (cur : Int) then 0 else 1]? with
    | none => none
    | some s => g.rd s k
  | _, _ => none

/-- `check_simplex` (`u3d:101-170`, `l3d:87-165`); the inner `none` is `return false`. -/
def Prog.chk (g : Prog σ S V P) (s : σ) (cur : Nat) (snaps : List S) (i : Int) : Option (Option P) :=
  match getSimplex g.m g.d i with
  | none => none
  | some vs =>
    match Gen.mapAll (g.readVertex snaps cur) vs with
    | none => none
    | some vals => some (g.test s cur i vs vals)

/-- The lambda of `update_timestep` (`u3d:180-194`, `l3d:171-177`). -/
def visit (g : Prog σ S V P) (st : St σ S P) (i : Int) : Option (St σ S P) :=
  match g.chk st.sig st.cur st.snaps i with
  | none => none
  | some none => some st
  | some (some p) => some { st with found := mapPut i p st.found }

/-- Visits in the order of the list. -/
def visitAll (g : Prog σ S V P) : List Int → St σ S P → Option (St σ S P)
  | [], st => some st
  | i :: is, st =>
    match visit g st i with
    | none => none
    | some st' => visitAll g is st'

/-- The order in which `parallel_for` executes the tasks of the two scans. -/
abbrev Order := Scope → List Int

/-- `update_timestep` (`u3d:172-200`, `l3d:167-182`): `order` lists the ids in the order in which they are visited. -/
def update (g : Prog σ S V P) (ord : Order) (st : St σ S P) : Option (St σ S P) :=
  match visitAll g (ord .ordinal) { st with sig := g.pre st.sig st.snaps } with
  | none => none
  | some st1 => if st1.snaps.length ≥ 2 then visitAll g (ord .interval) st1 else some st1

/-- `advance_timestep` (critical_point_tracker.hh:840-848, critical_line_tracker.hh:54-61). -/
def advance (g : Prog σ S V P) (ord : Order) (st : St σ S P) : Option (St σ S P) :=
  match update g ord st with
  | none => none
  | some st' => some { st' with snaps := st'.snaps.tail, cur := st'.cur + 1 }

/-- `push_field_data_snapshot` (critical_point_tracker.hh:203-213, critical_line_tracker.hh:71-87). -/
def push (s : S) (st : St σ S P) : St σ S P := { st with snaps := st.snaps ++ [s] }

/-- Calls of a user. -/
inductive Op (S : Type)
  /-- `push_field_data_snapshot` -/
  | push (s : S)
  /-- `push_vector_field_snapshot`, `push_scalar_field_snapshot` of `u3d:52-53` -/
  | pushField (s : S)
  | advance (ord : Order)
  | update (ord : Order)

/-- One call.  The overridden `push_vector_field_snapshot` and `push_scalar_field_snapshot` do nothing. -/
def step (g : Prog σ S V P) (st : St σ S P) : Op S → Option (St σ S P)
  | .push s => some (push s st)
  | .pushField _ => some st
  | .advance ord => advance g ord st
  | .update ord => update g ord st

/-- A sequence of calls. -/
def run (g : Prog σ S V P) : List (Op S) → St σ S P → Option (St σ S P)
  | [], st => some st
  | o :: os, st =>
    match step g st o with
    | none => none
    | some st' => run g os st'

/-- The calls for a series with `n` snapshots, from number `k` on: `push; if (k != 0) advance_timestep();
if (k == n-1) update_timestep();` (json_interface.hh:457-470; src/cli/ftk.cpp).  `p` is the push that is used. -/
def driveFrom (p : S → Op S) (n k : Nat) (ord : Nat → Order) : List S → List (Op S)
  | [] => []
  | s :: l => p s :: ((if k ≠ 0 then [Op.advance (ord (k - 1))] else []) ++
      (if k + 1 = n then [Op.update (ord k)] else []) ++ driveFrom p n (k + 1) ord l)

/-- The calls for a whole series. -/
def driveOps (p : S → Op S) (series : List S) (ord : Nat → Order) : List (Op S) :=
  driveFrom p series.length 0 ord series

/-! ## critical points -/

/-- The part of `feature_point_t` computed from the data (`u3d:146-166`): `x[0..2]`, `t` in `pos`, the weights `mu`
used for it; type and scalars in `extra`. -/
structure Info (γ : Type) where
  pos : Fin 4 → Rat
  mu : Fin 4 → Rat
  extra : γ

/-- Configuration: the mesh, its vertex coordinates, the computation of type and scalars, the filters on the type
in the lambda. -/
structure Cfg (γ : Type) where
  m : M3
  coords : Int → Fin 3 → Rat
  extra : List Int → (Fin 4 → Fin 3 → Rat) → (Fin 4 → Rat) → γ
  keep : CP (Info γ) → Bool

variable {γ : Type}

/-- `std::numeric_limits<double>::epsilon()` -/
def eps : Rat := 1 / 2 ^ 52

/-- A vector of three finite numbers. -/
def finite3 (x : Fin 3 → Option Rat) : Option (Fin 3 → Rat) :=
  match x 0, x 1, x 2 with
  | some a, some b, some c => some ![a, b, c]
  | _, _, _ => none

/-- `vector(j, k)` (`u3d:90-91`), converted to `int64_t` later (`u3d:119-122`), which is undefined for infinities and
NaN. -/
def readCP (s : Snap 3) (k : Int) : Option (Fin 3 → Rat) := (s.read [k]).bind finite3

/-- `update_vector_field_scaling_factor` (critical_point_tracker.hh:850-865): `vector_field_resolution`; the factor is
`2 ^ nbits`. -/
def rescale (r : Rat) (snaps : List (Snap 3)) : Rat := snaps.foldl (fun r s => min r s.res) r

/-- The test on the quantised vectors (`u3d:118-126`). -/
def hit (f : Int) (V : Fin 4 → Fin 3 → Rat) (v : Fin 4 → Int) : Bool :=
  SoS.criticalPointInSimplex3 (fun i j => quant f (V i j)) v

/-- The determinant of the system of `inverse_lerp_s3v3` (inverse_linear_interpolation_solver.hh:145-157). -/
def det (V : Fin 4 → Fin 3 → Rat) : Rat :=
  Num.det3 ![![V 0 0 - V 3 0, V 1 0 - V 3 0, V 2 0 - V 3 0], ![V 0 1 - V 3 1, V 1 1 - V 3 1, V 2 1 - V 3 1],
    ![V 0 2 - V 3 2, V 1 2 - V 3 2, V 2 2 - V 3 2]]

/-- `mu` of `check_simplex` (`u3d:128-144`); `none` = `return false`: with determinant zero `mu[0]` is a sum of
quotients by zero, i.e. infinite or NaN.  The fourth assignment writes `mu[2]` again instead of `mu[3]`. -/
def mu (V : Fin 4 → Fin 3 → Rat) : Option (Fin 4 → Rat) :=
  if det V = 0 then none
  else
    let r := Num.inverseLerpS3v3 V eps
    if r.1 then some r.2
    else
      let m0 := max (min 1 (r.2 0)) 0
      let m1 := max (min (1 - m0) (r.2 1)) 0
      let m2 := max (min (1 - m1 - m0) (r.2 2)) 0
      let m2 := 1 - m0 - m1 - m2
      some ![m0, m1, m2, r.2 3]

/-- `get_coords(i, coords)` (simplicial_unstructured_extruded_3d_mesh.hh:453-460); only used for vertices whose
snapshot has been read. -/
def coordsOf (m : M3) (coords : Int → Fin 3 → Rat) (v : Int) : Fin 4 → Rat :=
  match flatTime m v, flatId m v with
  | some t, some k => ![coords k 0, coords k 1, coords k 2, (t : Rat)]
  | _, _ => 0

/-- `lerp_s3v4(X, mu, x)` (linear_interpolation.hh) -/
def lerp4 (X : Fin 4 → Fin 4 → Rat) (w : Fin 4 → Rat) : Fin 4 → Rat :=
  fun j => X 0 j * w 0 + X 1 j * w 1 + X 2 j * w 2 + X 3 j * w 3

/-- `check_simplex` from the values on, and the filters of the lambda (`u3d:118-170, :184-191`); `is_ordinal` is
defined for every id that has vertices. -/
def cpTest (c : Cfg γ) (r : Rat) (cur : Nat) (i : Int) : List Int → List (Fin 3 → Rat) → Option (CP (Info γ))
  | [v0, v1, v2, v3], [x0, x1, x2, x3] =>
    if hit (2 ^ nbits r) ![x0, x1, x2, x3] ![v0, v1, v2, v3] then
      match mu ![x0, x1, x2, x3] with
      | none => none
      | some w =>
        let p : CP (Info γ) :=
          { tag := i, ordinal := (isOrdinal c.m 3 i).getD false, timestep := cur,
            info := { pos := lerp4 (fun k => coordsOf c.m c.coords (![v0, v1, v2, v3] k)) w, mu := w,
                      extra := c.extra [v0, v1, v2, v3] ![x0, x1, x2, x3] w } }
        if c.keep p then some p else none
    else none
  | _, _ => none

/-- The critical point tracker. -/
def cpProg (c : Cfg γ) : Prog Rat (Snap 3) (Fin 3 → Rat) (CP (Info γ)) :=
  { m := c.m, d := 3, pre := rescale, rd := readCP, test := cpTest c }

/-- The lambdas `neighbors` (`u3d:206-213, :232-258` with `d = 3`, `l3d:230-239` with `d = 2`): the sides of all
cofaces, in a `std::set`. -/
def nbOpt (m : M3) (d : Nat) (f : Int) : Option (List Int) :=
  match sideOf m d f with
  | none => none
  | some cs =>
    match cs.mapM (sides m (d + 1)) with
    | none => none
    | some ss => some (ss.flatten.foldl (fun acc x => setInsert x acc) [])

/-- `neighbors`, where defined. -/
def nb (m : M3) (d : Nat) (f : Int) : List Int := (nbOpt m d f).getD []

/-- `neighbors` is defined for all of these. -/
def nbDefined (m : M3) (d : Nat) (l : List Int) : Bool := l.all fun f => (nbOpt m d f).isSome

/-- `finalize` (`u3d:221-287`), up to statistics and the optional removal of points. -/
def finalize (c : Cfg γ) (st : St Rat (Snap 3) (CP (Info γ))) : Option (List (Traj (CP (Info γ)))) :=
  if nbDefined c.m 3 (st.found.map Prod.fst) then traceOffline (nb c.m 3) st.found else none

/-- A whole run of the driver and `finalize`; `p` is the push that is used. -/
def track (c : Cfg γ) (p : Snap 3 → Op (Snap 3)) (series : List (Snap 3)) (ord : Nat → Order) :
    Option (List (Traj (CP (Info γ)))) :=
  match run (cpProg c) (driveOps p series ord) (St.init dblMax) with
  | none => none
  | some st => finalize c st

/-! ## critical lines -/

/-- The fields of `feature_point_t` set by `check_simplex` (`l3d:150-162`); the type is not modelled. -/
structure LPt where
  pos : Fin 4 → Rat
  mu : Fin 3 → Rat
  tag : Int
  ordinal : Bool
  timestep : Nat

/-- Configuration: the mesh, its coordinates; `degen` stands for the weights `solve_linear2x2` leaves when it divides
by zero. -/
structure LCfg where
  m : M3
  coords : Int → Fin 3 → Rat
  degen : (Fin 3 → Fin 2 → Rat) → Fin 3 → Rat

/-- `uv(j, k)` (`l3d:80-81`). -/
def readLine (s : CLT.UV) (k : Int) : Option (Fin 2 → Rat) := s.read [k]

/-- `inverse_lerp_s2v2` (its answer is ignored) and `clamp_barycentric<3>` (`l3d:113-115`). -/
def lineMu (c : LCfg) (U : Fin 3 → Fin 2 → Rat) : Fin 3 → Rat :=
  Num.clampBarycentric (if (U 0 0 - U 2 0) * (U 1 1 - U 2 1) - (U 1 0 - U 2 0) * (U 0 1 - U 2 1) = 0 then c.degen U
    else (Num.inverseLerpS2v2 U 0).2)

/-- The test on the quantised values (`l3d:101-111`). -/
def lineHit (U : Fin 3 → Fin 2 → Rat) (v : Fin 3 → Int) : Bool :=
  SoS.criticalPointInSimplex2 (fun i j => CLT.fixed (U i j)) v

/-- `check_simplex` from the values on (`l3d:99-164`). -/
def lineTest (c : LCfg) (_ : Unit) (cur : Nat) (i : Int) : List Int → List (Fin 2 → Rat) → Option LPt
  | [v0, v1, v2], [x0, x1, x2] =>
    if lineHit ![x0, x1, x2] ![v0, v1, v2] then
      let w := lineMu c ![x0, x1, x2]
      let X := fun k => coordsOf c.m c.coords (![v0, v1, v2] k)
      some { pos := fun j => X 0 j * w 0 + X 1 j * w 1 + X 2 j * w 2, mu := w, tag := i,
             ordinal := (isOrdinal c.m 2 i).getD false, timestep := cur }
    else none
  | _, _ => none

/-- The critical line tracker. -/
def lineProg (c : LCfg) : Prog Unit CLT.UV (Fin 2 → Rat) LPt :=
  { m := c.m, d := 2, pre := fun _ _ => (), rd := readLine, test := lineTest c }

/-- `build_vortex_lines` (`l3d:226-262`): the curves, as lists of ids. -/
def lines (m : M3) {P : Type} (found : List (Int × P)) : Option (List (List Int)) :=
  if nbDefined m 2 (found.map Prod.fst) then
    match Gr.extractCC (nb m 2) (found.map Prod.fst) with
    | none => none
    | some cs => (Gen.mapAll (Gr.linearComponents (nb m 2)) cs).map List.flatten
  else none

end Verif.X3T
