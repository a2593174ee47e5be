import Verif.Tracker.TraceModel
import Verif.Mesh.Model
import Verif.SoS.Model
import Mathlib.Algebra.Order.Ring.Rat
import Mathlib.Order.Basic
/-! Model of the regular-grid critical point trackers: `filters/critical_point_tracker.hh`,
`critical_point_tracker_2d_regular.hh`, `critical_point_tracker_3d_regular.hh`, `regular_tracker.hh`
(`d = 2, 3`; the spacetime mesh has dimension `d + 1`), CPU execution (`xl == FTK_XL_NONE`), without
GMP, robust detection.  One process; `int`, `int64_t` and `double` are unbounded and exact. -/
namespace Verif.Trk
open Verif.Ser (lookup mapPut)
open Verif.SRM

/-- key of an element in the order used by `std::map<element_t, _>`; `operator<` compares corner and type
(simplicial_regular_mesh.hh:330-340).  All keys of a tracker have the same `dim`, which is put last. -/
def Elem.key (e : Elem) : List Int ×ₗ (Nat ×ₗ Nat) := toLex (e.corner, toLex (e.type, e.dim))

theorem Elem.key_inj : Function.Injective Elem.key := by
  rintro ⟨c, d, t⟩ ⟨c', d', t'⟩ h
  have h1 := congrArg ofLex h
  simp only [Elem.key, ofLex_toLex, Prod.mk.injEq] at h1
  obtain ⟨rfl, h2⟩ := h1
  have h3 := congrArg ofLex h2
  simp only [ofLex_toLex, Prod.mk.injEq] at h3
  obtain ⟨rfl, rfl⟩ := h3
  rfl

/-- the order of `std::map<element_t, _>` (simplicial_regular_mesh.hh:330-340), see `Elem.key`. -/
instance : LinearOrder Elem := LinearOrder.lift' Elem.key Elem.key_inj

/-- one `field_data_snapshot_t` (critical_point_tracker.hh): the vector field, an ndarray
`vector(j, x, y, …)` with `dims` the spatial dimensions; `none` = NaN or infinite.  `res` is what
`vector.resolution()` returns for it (modelled and characterised in `Verif.ND`). -/
structure Snap (d : Nat) where
  dims : List Nat
  val : List Int → Fin d → Option Rat
  res : Rat

/-- every index is inside the array -/
def inDims : List Nat → List Int → Bool
  | [], [] => true
  | m :: ms, x :: xs => decide (0 ≤ x) && decide (x < m) && inDims ms xs
  | _, _ => false

/-- `vector(j, i0, i1, …)` for all `j` (critical_point_tracker_2d_regular.hh:551-554).  `none` = an index
outside of the array. -/
def Snap.read {d : Nat} (s : Snap d) (idx : List Int) : Option (Fin d → Option Rat) :=
  if inDims s.dims idx then some (s.val idx) else none

/-- `feature_point_t` as filled in by `check_simplex` (critical_point_tracker_2d_regular.hh:634-664):
`tag`, `ordinal`, `timestep`; position, scalars and type are `info`. -/
structure CP (γ : Type) where
  tag : Int
  ordinal : Bool
  timestep : Nat
  info : γ
deriving DecidableEq, Repr

/-- configuration of a tracker: `domain`, `local_domain` (`core`), starts of `local_array_domain`,
`start_timestep`, `end_timestep`, `enable_streaming_trajectories` (regular_tracker.hh:60-75,
tracker.hh), the robust test (critical_point_test.hh), the computation of the remaining data of a point
from the vertices and their values (critical_point_tracker_2d_regular.hh:627-690) and
`filter_critical_point_type`. -/
structure Cfg (d : Nat) (γ : Type) where
  domain : Lat.Lattice
  core : Lat.Lattice
  astart : List Nat
  t0 : Int
  t1 : Int
  streaming : Bool
  test : (Fin (d + 1) → Fin d → Int) → (Fin (d + 1) → Int) → Bool
  detail : List Vtx → List (Fin d → Option Rat) → γ
  keep : CP γ → Bool

variable {d : Nat} {γ : Type}

/-- bounds of the spacetime mesh (regular_tracker.hh:113-122; lattice.hh `lower_bound`, `upper_bound`). -/
def Cfg.bounds (c : Cfg d γ) : Bounds :=
  { lb := c.domain.starts.map (fun (s : Nat) => (s : Int)) ++ [c.t0],
    ub := List.zipWith (fun (s m : Nat) => (s : Int) + m - 1) c.domain.starts c.domain.sizes ++ [c.t1] }

/-- the comparisons `my_vertices[i][j] < m.lb(j) || my_vertices[i][j] > m.ub(j)` for one vertex
(simplicial_regular_mesh.hh:362-364). -/
def within : List Int → List Int → Vtx → Bool
  | l :: ls, u :: us, x :: xs => decide (l ≤ x) && decide (x ≤ u) && within ls us xs
  | _, _, _ => true

/-- `valid(m)` (simplicial_regular_mesh.hh:356-371). -/
def elemValid (n : Nat) (b : Bounds) (e : Elem) : Bool :=
  match e.vertices n with
  | none => false
  | some vs => vs.all (within b.lb b.ub)

/-- state of a tracker: `field_data_snapshots`, `current_timestep`, `vector_field_resolution`,
`vector_field_scaling_factor`, `discrete_critical_points`, `traced_critical_points`.  `calls` is a ghost
variable: the calls of `check_simplex`, with the current timestep. -/
structure St (d : Nat) (γ : Type) where
  snaps : List (Snap d)
  cur : Nat
  res : Rat
  factor : Int
  dcp : List (Elem × CP γ)
  trajs : List (Traj (CP γ))
  calls : List (Elem × Nat)

/-- `std::numeric_limits<double>::max()` -/
def dblMax : Rat := (2 ^ 53 - 1) * 2 ^ 971

/-- initial state (critical_point_tracker.hh:162-163, tracker.hh). -/
def St.init : St d γ :=
  { snaps := [], cur := 0, res := dblMax, factor := 1, dcp := [], trajs := [], calls := [] }

/-- `max(8, min(ceil(log2(1/r)), 21))` (critical_point_tracker.hh:856-857): the least `b` of 8, …, 20 with
`1 ≤ r * 2^b`, else 21. -/
def nbits (r : Rat) : Nat :=
  match (List.range 13).find? (fun i => decide (1 ≤ r * 2 ^ (8 + i))) with
  | some i => 8 + i
  | none => 21

/-- `update_vector_field_scaling_factor` (critical_point_tracker.hh:850-865). -/
def St.rescale (st : St d γ) : St d γ :=
  let r := st.snaps.foldl (fun r s => min r s.res) st.res
  { st with res := r, factor := 2 ^ nbits r }

/-- `(int64_t)(x * vector_field_scaling_factor)` (critical_point_tracker_2d_regular.hh:614): truncation. -/
def quant (f : Int) (x : Rat) : Int := Int.tdiv (x.num * f) x.den

/-- the vector of one vertex in `simplex_vectors` (critical_point_tracker_2d_regular.hh:549-555).
`none` = a snapshot or an array cell that does not exist. -/
def readVertex (c : Cfg d γ) (snaps : List (Snap d)) (cur : Nat) (v : Vtx) : Option (Fin d → Option Rat) :=
  match snaps[if v[d]? = some (cur : Int) then 0 else 1]? with
  | none => none
  | some s => s.read (List.zipWith (fun x (a : Nat) => x - a) (v.take d) c.astart)

/-- `simplex_vectors` (critical_point_tracker_2d_regular.hh:545-556). -/
def readAll (rd : Vtx → Option (Fin d → Option Rat)) : List Vtx → Option (List (Fin d → Option Rat))
  | [] => some []
  | v :: vs =>
    match rd v, readAll rd vs with
    | some x, some xs => some (x :: xs)
    | _, _ => none

/-- no NaN, no infinity among the values (critical_point_tracker_2d_regular.hh:613). -/
def finite (vals : List (Fin d → Option Rat)) : Bool :=
  vals.all fun v => (List.finRange d).all fun j => (v j).isSome

/-- `vf[i][j]` (critical_point_tracker_2d_regular.hh:610-615). -/
def vf (f : Int) (vals : List (Fin d → Option Rat)) : Fin (d + 1) → Fin d → Int :=
  fun i j => quant f (((vals[i.val]?.getD (fun _ => none)) j).getD 0)

/-- `simplex_indices` (regular_tracker.hh:185-191). -/
def vindex (b : Bounds) (vs : List Vtx) : Fin (d + 1) → Int :=
  fun i => cornerIndex (vs.getD i.val []) b.lb b.dimprod

/-- `check_simplex` (critical_point_tracker_2d_regular.hh:588-690, critical_point_tracker_3d_regular.hh:
425-…), the vertex values being obtained by `rd`.  `none` = undefined. -/
def checkWith (c : Cfg d γ) (f : Int) (cur : Nat) (rd : Vtx → Option (Fin d → Option Rat)) (e : Elem) :
    Option (Option (CP γ)) :=
  if elemValid (d + 1) c.bounds e then
    match e.vertices (d + 1) with
    | none => none
    | some vs =>
      match readAll rd vs with
      | none => none
      | some vals =>
        if finite vals && c.test (vf f vals) (vindex c.bounds vs) then
          some (some { tag := e.toInteger (d + 1) c.bounds, ordinal := isOrdinalType (d + 1) e.dim e.type,
                       timestep := cur, info := c.detail vs vals })
        else some none
  else some none

/-- `check_simplex(e, cp)` in the current state. -/
def check (c : Cfg d γ) (st : St d γ) (e : Elem) : Option (Option (CP γ)) :=
  checkWith c st.factor st.cur (readVertex c st.snaps st.cur) e

/-- the lambda `func2` (critical_point_tracker_2d_regular.hh:275-285); 3-D: `func3`, which keeps every
point (critical_point_tracker_3d_regular.hh:165-173). -/
def visit (c : Cfg d γ) (st : St d γ) (e : Elem) : Option (St d γ) :=
  match check c st e with
  | none => none
  | some none => some { st with calls := st.calls ++ [(e, st.cur)] }
  | some (some cp) =>
    some { st with calls := st.calls ++ [(e, st.cur)],
                   dcp := if c.keep cp then mapPut e cp st.dcp else st.dcp }

/-- `local_spacetime_domain` (regular_tracker.hh:196-203). -/
def slab (c : Cfg d γ) (t : Nat) : Lat.Lattice := ⟨c.core.starts ++ [t], c.core.sizes ++ [1]⟩

/-- visits in the order of the list -/
def visitAll (c : Cfg d γ) : List (Option Elem) → St d γ → Option (St d γ)
  | [], st => some st
  | none :: _, _ => none
  | some e :: es, st =>
    match visit c st e with
    | none => none
    | some st' => visitAll c es st'

/-- `element_for(ordinal, d, func)` (regular_tracker.hh:193-210), `parallel_for` executing the tasks in
the order `order` (the lambda holds the mutex while it writes; `check_simplex` only reads). -/
def scan (c : Cfg d γ) (sc : Scope) (order : List Int) (st : St d γ) : Option (St d γ) :=
  visitAll c (elementForCalls (d + 1) d (slab c st.cur) sc order) st

/-- the neighbors of a facet: `side_of`, then `sides` of each, in a `std::set`
(critical_point_tracker_2d_regular.hh:291-299, 184-192).  Only applied to facets of the mesh; anything
else is given no neighbors. -/
def nbs (n : Nat) (f : Elem) : List Elem :=
  if f.corner.length = n ∧ f.dim + 1 = n ∧ f.type < ntypes n f.dim then
    match f.sideOf n with
    | none => []
    | some cs => toSet (cs.flatMap fun e => (e.sides n).getD [])
  else []

/-- `element_t(m, d, tag)` (critical_point_tracker_2d_regular.hh:315-317). -/
def elemOf (c : Cfg d γ) (cp : CP γ) : Elem := fromInteger (d + 1) c.bounds d cp.tag.toNat

/-- `grow()` (critical_point_tracker_2d_regular.hh:287-320): trace, then `discrete_critical_points.clear()`
(critical_point_tracker.hh:633). -/
def grow (c : Cfg d γ) (st : St d γ) : Option (St d γ) :=
  match traceOnline (nbs (d + 1)) (elemOf c) st.trajs st.dcp with
  | none => none
  | some ts => some { st with trajs := ts, dcp := [] }

/-- `update_timestep` (critical_point_tracker_2d_regular.hh:263-330); `ord sc` is the order in which the
tasks of the scan of scope `sc` are executed. -/
def update (c : Cfg d γ) (ord : Scope → List Int) (st : St d γ) : Option (St d γ) :=
  match scan c .ordinal (ord .ordinal) st.rescale with
  | none => none
  | some st1 =>
    if st1.snaps.length ≥ 2 then
      match scan c .interval (ord .interval) st1 with
      | none => none
      | some st2 => if c.streaming then grow c st2 else some st2
    else some st1

/-- `advance_timestep` (critical_point_tracker.hh:840-848, pop 231-237). -/
def advance (c : Cfg d γ) (ord : Scope → List Int) (st : St d γ) : Option (St d γ) :=
  match update c ord st with
  | none => none
  | some st' => some { st' with snaps := st'.snaps.tail, cur := st'.cur + 1 }

/-- `push_vector_field_snapshot` (critical_point_tracker_2d_regular.hh:252-261). -/
def push (s : Snap d) (st : St d γ) : St d γ := { st with snaps := st.snaps ++ [s] }

/-- calls of a user -/
inductive Op (d : Nat)
  | push (s : Snap d)
  | advance (ord : Scope → List Int)
  | update (ord : Scope → List Int)

/-- one call -/
def step (c : Cfg d γ) (st : St d γ) : Op d → Option (St d γ)
  | .push s => some (push s st)
  | .advance ord => advance c ord st
  | .update ord => update c ord st

/-- a sequence of calls -/
def run (c : Cfg d γ) : List (Op d) → St d γ → Option (St d γ)
  | [], st => some st
  | o :: os, st =>
    match step c st o with
    | none => none
    | some st' => run c os st'

/-- the driver's calls for a series: `push; if (k != 0) advance_timestep(); if (k == DT-1)
update_timestep();` for `k = 0, 1, …` (json_interface.hh:459-464, 570-572); the `k`-th call of
`update_timestep` executes its tasks in the order `ord k`. -/
def driveOps (series : List (Snap d)) (ord : Nat → Scope → List Int) : List (Op d) :=
  ((List.range series.length).zip series).flatMap fun ks =>
    Op.push ks.2 :: ((if ks.1 ≠ 0 then [Op.advance (ord (ks.1 - 1))] else []) ++
      if ks.1 + 1 = series.length then [Op.update (ord ks.1)] else [])

/-- `finalize` (critical_point_tracker_2d_regular.hh:141-215) up to statistics and the optional removal
of interval points. -/
def finalize (c : Cfg d γ) (st : St d γ) : Option (List (Traj (CP γ))) :=
  if c.streaming then some st.trajs
  else match traceOffline (nbs (d + 1)) st.dcp with
    | none => none
    | some ts => some (st.trajs ++ ts)

/-- a whole run of the driver (json_interface.hh:459-470). -/
def track (c : Cfg d γ) (series : List (Snap d)) (ord : Nat → Scope → List Int) :
    Option (List (Traj (CP γ))) :=
  match run c (driveOps series ord) St.init with
  | none => none
  | some st => finalize c st

end Verif.Trk
