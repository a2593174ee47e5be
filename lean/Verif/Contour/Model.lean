import Verif.Tracker.Model
import Verif.Num.Model
/-! Model of the contour trackers on regular grids: `filters/contour_tracker.hh`,
`contour_tracker_regular.hh`, `contour_tracker_2d_regular.hh`, `contour_tracker_3d_regular.hh`
(`d = 2, 3`; the spacetime mesh has dimension `d + 1`), CPU execution, one process.  `int`, `long long`
and `double` are unbounded and exact, field values are finite.  `parallel_for` executes its tasks in an
arbitrary order (the lambdas write under a mutex). -/
namespace Verif.Ctr
open Verif.Ser (mapPut)
open Verif.SRM
open Verif.Trk (inDims elemValid quant)

/-- one `field_data_snapshot_t` (contour_tracker.hh:58-61): the scalar field.  The gradient is derived
from it and has the same dimensions (grad.hh). -/
structure Scal where
  dims : List Nat
  val : List Int → Rat

/-- configuration: `domain`, the block scanned (2-D: `m.element_for_ordinal` scans the whole mesh, so
`core = domain`, contour_tracker_2d_regular.hh:227-229; 3-D: `local_domain`, regular_tracker.hh:193-210),
starts of `local_array_domain`, `start_timestep`, `end_timestep`, `threshold`. -/
structure Cfg (d : Nat) where
  domain : Lat.Lattice
  core : Lat.Lattice
  astart : List Nat
  t0 : Int
  t1 : Int
  thr : Rat

variable {d : Nat}

/-- bounds of the spacetime mesh (regular_tracker.hh:113-122). -/
def Cfg.bounds (c : Cfg d) : Bounds :=
  { lb := c.domain.starts.map (fun (s : Nat) => (s : Int)) ++ [c.t0],
    ub := List.zipWith (fun (s m : Nat) => (s : Int) + m - 1) c.domain.starts c.domain.sizes ++ [c.t1] }

/-- the fields of `feature_point_t` set by `check_simplex` (contour_tracker_2d_regular.hh:190-195,
contour_tracker_3d_regular.hh:253-264): `x` = the spatial coordinates followed by `t`; `scalar[0]` (3-D
only); `tag`, `ordinal`, `timestep`.  The gradient `v` is not modelled. -/
structure Pt where
  x : List Rat
  scalar : Rat
  tag : Int
  ordinal : Bool
  timestep : Nat
deriving DecidableEq, Repr

/-- `fi[i] = f[i] * factor` with `factor = 2 << 20`, a conversion `double → long long`
(contour_tracker_2d_regular.hh:172-177, contour_tracker_3d_regular.hh:231-236). -/
def fixed (f : Rat) : Int := quant (2 * 2 ^ 20) f

/-- `simplex_scalars` / `simplex_values` for one vertex (contour_tracker_2d_regular.hh:240-249,
contour_tracker_3d_regular.hh:435-449).  `none` = a snapshot or an array cell that does not exist; in 3-D
the gradient is read too, *at the global coordinates*. -/
def readVertex (c : Cfg d) (snaps : List Scal) (cur : Nat) (v : Vtx) : Option Rat :=
  match snaps[if v[d]? = some (cur : Int) then 0 else 1]? with
  | none => none
  | some s =>
    let idx := List.zipWith (fun (x : Int) (a : Nat) => x - a) (v.take d) c.astart
    if inDims s.dims idx && (d != 3 || inDims s.dims (v.take d)) then some (s.val idx) else none

/-- `simplex_indices` for one vertex (regular_tracker.hh:185-191). -/
def vindex (b : Bounds) (v : Vtx) : Int := cornerIndex v b.lb b.dimprod

/-- the point written by `check_simplex` for the vertices `u`, `v` with values `f` (threshold
subtracted): `inverse_lerp_s1v1` (its answer is ignored), `lerp_s1v3` / `lerp_s1v4`, `lerp_s1`
(contour_tracker_2d_regular.hh:182-195, contour_tracker_3d_regular.hh:241-264). -/
def point (c : Cfg d) (cur : Nat) (e : Elem) (u v : Vtx) (f : Fin 2 → Rat) : Pt :=
  let mu := (Num.inverseLerpS1v1 f).2
  { x := List.zipWith (fun (a b : Int) => (a : Rat) * mu 0 + (b : Rat) * mu 1) u v,
    scalar := Num.lerpS1 f mu + c.thr,
    tag := e.toInteger (d + 1) c.bounds,
    ordinal := isOrdinalType (d + 1) e.dim e.type,
    timestep := cur }

/-- the values at the two vertices, tested and turned into a point
(contour_tracker_2d_regular.hh:166-195, contour_tracker_3d_regular.hh:225-264). -/
def checkVals (c : Cfg d) (cur : Nat) (e : Elem) (u v : Vtx) (a b : Rat) : Option Pt :=
  let f : Fin 2 → Rat := ![a - c.thr, b - c.thr]
  if SoS.criticalPointInSimplex1 (fun i => fixed (f i)) ![vindex c.bounds u, vindex c.bounds v] then
    some (point c cur e u v f)
  else none

/-- `check_simplex` (contour_tracker_2d_regular.hh:160-201, contour_tracker_3d_regular.hh:219-273), the
values being obtained by `rd`.  `none` = undefined. -/
def checkWith (c : Cfg d) (cur : Nat) (rd : Vtx → Option Rat) (e : Elem) : Option (Option Pt) :=
  if elemValid (d + 1) c.bounds e then
    match e.vertices (d + 1) with
    | some [u, v] =>
      match rd u, rd v with
      | some a, some b => some (checkVals c cur e u v a b)
      | _, _ => none
    | _ => none
  else some none

/-- `f` applied to all elements of a list, the results concatenated -/
def collect {α β : Type} (f : α → Option (List β)) : List α → Option (List β)
  | [] => some []
  | x :: xs =>
    match f x, collect f xs with
    | some l, some ls => some (l ++ ls)
    | _, _ => none

/-- the nested loops `for (tri : e.side_of(m)) if (tri.valid(m)) for (tet : tri.side_of(m)) if
(tet.valid(m)) …`, `k` levels (contour_tracker_2d_regular.hh:215-224, `k = 2`;
contour_tracker_3d_regular.hh:282-301, `k = 3`). -/
def up (n : Nat) (b : Bounds) : Nat → Elem → Option (List Elem)
  | 0, e => some [e]
  | k + 1, e =>
    match e.sideOf n with
    | none => none
    | some es => collect (up n b k) (es.filter (elemValid n b))

/-- state of a tracker: `field_data_snapshots`, `current_timestep`, `intersections`, `related_cells`
(contour_tracker.hh:58-61, contour_tracker_regular.hh:22-23). -/
structure St where
  snaps : List Scal
  cur : Nat
  inter : List (Elem × Pt)
  cells : List Elem

/-- initial state, and the state after `reset()` (contour_tracker_regular.hh:36-42). -/
def St.init : St := { snaps := [], cur := 0, inter := [], cells := [] }

/-- `check_simplex(e, p)` in the current state. -/
def check (c : Cfg d) (st : St) (e : Elem) : Option (Option Pt) :=
  checkWith c st.cur (readVertex c st.snaps st.cur) e

/-- the lambda `func` (contour_tracker_2d_regular.hh:207-225, contour_tracker_3d_regular.hh:303-315). -/
def visit (c : Cfg d) (st : St) (e : Elem) : Option St :=
  match check c st e with
  | none => none
  | some none => some st
  | some (some p) =>
    match up (d + 1) c.bounds d e with
    | none => none
    | some cs => some { st with inter := mapPut e p st.inter, cells := cs.foldl (fun acc x => setInsert x acc) st.cells }

/-- visits in the order of the list -/
def visitAll (c : Cfg d) : List (Option Elem) → St → Option St
  | [], st => some st
  | none :: _, _ => none
  | some e :: es, st =>
    match visit c st e with
    | none => none
    | some st' => visitAll c es st'

/-- the lattice scanned at timestep `t` (regular_tracker.hh:196-203, simplicial_regular_mesh.hh:1011-1041). -/
def slab (c : Cfg d) (t : Nat) : Lat.Lattice := ⟨c.core.starts ++ [t], c.core.sizes ++ [1]⟩

/-- `element_for_ordinal(1, func)` / `element_for_interval(1, func)`, tasks in the order `order`. -/
def scan (c : Cfg d) (sc : Scope) (order : List Int) (st : St) : Option St :=
  visitAll c (elementForCalls (d + 1) 1 (slab c st.cur) sc order) st

/-- `update_timestep` (contour_tracker_2d_regular.hh:203-230, contour_tracker_3d_regular.hh:275-424). -/
def update (c : Cfg d) (ord : Scope → List Int) (st : St) : Option St :=
  match scan c .ordinal (ord .ordinal) st with
  | none => none
  | some st1 => if st1.snaps.length ≥ 2 then scan c .interval (ord .interval) st1 else some st1

/-- `advance_timestep` (contour_tracker.hh:91-98; pop 83-89). -/
def advance (c : Cfg d) (ord : Scope → List Int) (st : St) : Option St :=
  match update c ord st with
  | none => none
  | some st' => some { st' with snaps := st'.snaps.tail, cur := st'.cur + 1 }

/-- `push_field_data_snapshot` (contour_tracker.hh:71-81). -/
def push (s : Scal) (st : St) : St := { st with snaps := st.snaps ++ [s] }

/-- calls of a user -/
inductive Op
  | push (s : Scal)
  | advance (ord : Scope → List Int)
  | update (ord : Scope → List Int)

/-- one call -/
def step (c : Cfg d) (st : St) : Op → Option St
  | .push s => some (push s st)
  | .advance ord => advance c ord st
  | .update ord => update c ord st

/-- a sequence of calls -/
def run (c : Cfg d) : List Op → St → Option St
  | [], st => some st
  | o :: os, st =>
    match step c st o with
    | none => none
    | some st' => run c os st'

/-- the calls for a series: `push; if (k != 0) advance_timestep(); if (k == n-1) update_timestep();`
(src/cli/ftk.cpp:293-298). -/
def driveOps (series : List Scal) (ord : Nat → Scope → List Int) : List Op :=
  ((List.range series.length).zip series).flatMap fun ks =>
    Op.push ks.2 :: ((if ks.1 ≠ 0 then [Op.advance (ord (ks.1 - 1))] else []) ++
      if ks.1 + 1 = series.length then [Op.update (ord ks.1)] else [])

/-! ### surfaces and volumes -/

/-- the nested loops `for (tri : e.sides(m)) for (edge : tri.sides(m)) …`, `k` levels
(contour_tracker_2d_regular.hh:101-106, contour_tracker_3d_regular.hh:114-118). -/
def down (n : Nat) : Nat → Elem → Option (List Elem)
  | 0, e => some [e]
  | k + 1, e =>
    match e.sides n with
    | none => none
    | some es => collect (down n k) es

/-- position of the key `e` in the map: `my_intersections[e].tag`, `intersections[e].id`, numbered in the
order of the map (contour_tracker_2d_regular.hh:89-95, contour_tracker_3d_regular.hh:98-102). -/
def idOf (e : Elem) : List (Elem × Pt) → Option Nat
  | [] => none
  | (k, _) :: m => if e = k then some 0 else (idOf e m).map (· + 1)

/-- `unique_edges` of a cell and the ids of those that are intersected, in the order of the set
(contour_tracker_2d_regular.hh:101-110, contour_tracker_3d_regular.hh:114-122). -/
def cutIds (n levels : Nat) (inter : List (Elem × Pt)) (e : Elem) : Option (List Nat) :=
  match down n levels e with
  | none => none
  | some es => some ((toSet es).filterMap fun f => idOf f inter)

/-- the triangles of one cell (contour_tracker_2d_regular.hh:98-119); `none` = more than four ids (the
array `ids[4]` overflows). -/
def trisOf {α : Type} : List α → Option (List (List α))
  | [a, b, c] => some [[a, b, c]]
  | [a, b, c, e] => some [[a, b, c], [b, e, c]]
  | l => if l.length ≤ 4 then some [] else none

/-- the task of `build_surfaces` for one cell (contour_tracker_2d_regular.hh:97-120). -/
def patch2 (inter : List (Elem × Pt)) (e : Elem) : Option (List (List Nat)) :=
  match cutIds 3 2 inter e with
  | none => none
  | some ids => trisOf ids

/-- `feature_surface_t` / `feature_volume_t` (feature_surface.hh, feature_volume.hh): points, and simplices
as lists of point numbers. -/
structure Complex where
  pts : List Pt
  cells : List (List Nat)

/-- the points with their `tag` replaced by their number (contour_tracker_2d_regular.hh:89-95). -/
def renumber : Nat → List (Elem × Pt) → List Pt
  | _, [] => []
  | i, (_, p) :: m => { p with tag := i } :: renumber (i + 1) m

/-- `build_surfaces` (contour_tracker_2d_regular.hh:79-124) up to `relabel`; `order` is the order in which
the tasks of `parallel_for` over `related_cells` take the mutex. -/
def buildSurfaces (inter : List (Elem × Pt)) (order : List Elem) : Option Complex :=
  match collect (patch2 inter) order with
  | none => none
  | some ts => some { pts := renumber 0 inter, cells := ts }

/-- `my_ids` of one side of a cell: edges through valid triangles, valid edges
(contour_tracker_3d_regular.hh:136-148). -/
def sideIds (b : Bounds) (inter : List (Elem × Pt)) (tet : Elem) : Option (List Nat) :=
  match tet.sides 4 with
  | none => none
  | some tris =>
    match collect (fun tri => (tri.sides 4).map fun es => es.filter (elemValid 4 b)) (tris.filter (elemValid 4 b)) with
    | none => none
    | some es => some ((toSet es).filterMap fun f => idOf f inter)

/-- the loop over the sides of a cell with six intersected edges (contour_tracker_3d_regular.hh:132-160):
triangles and quadrilaterals; `none` = an array overflows (`my_ids[4]`, `triangles[2]`,
`quadrilaterals[3]`). -/
def sidePatches (b : Bounds) (inter : List (Elem × Pt)) : List Elem → List (List Nat) → List (List Nat) →
    Option (List (List Nat) × List (List Nat))
  | [], ts, qs => some (ts, qs)
  | tet :: l, ts, qs =>
    match sideIds b inter tet with
    | none => none
    | some ids =>
      if ids.length > 4 then none
      else if ids.length = 3 then
        if ts.length ≥ 2 then none else sidePatches b inter l (ts ++ [ids]) qs
      else if ids.length = 4 then
        if qs.length ≥ 3 then none else sidePatches b inter l ts (qs ++ [ids])
      else sidePatches b inter l ts qs

/-- the staircase triangulation (contour_tracker_3d_regular.hh:162-168), after the assertions
`triangle_count == 2`, `quadrilaterals_count == 3`; `none` = an assertion fails. -/
def staircase {α : Type} : List (List α) × List (List α) → Option (List (List α))
  | ([[a0, a1, a2], [b0, b1, b2]], qs) =>
    if qs.length = 3 then some [[a0, a1, a2, b2], [a0, a1, b1, b2], [a0, b0, b1, b2]] else none
  | _ => none

/-- the task of `build_isovolume` for one cell (contour_tracker_3d_regular.hh:110-170). -/
def patch3 (b : Bounds) (inter : List (Elem × Pt)) (e : Elem) : Option (List (List Nat)) :=
  match cutIds 4 3 inter e with
  | none => none
  | some ids =>
    if ids.length > 6 then none
    else if ids.length = 4 then some [ids]
    else if ids.length = 6 then
      match e.sides 4 with
      | none => none
      | some tets => (sidePatches b inter tets [] []).bind staircase
    else some []

/-- `build_isovolume` (contour_tracker_3d_regular.hh:94-174) up to `relabel`. -/
def buildIsovolume (b : Bounds) (inter : List (Elem × Pt)) (order : List Elem) : Option Complex :=
  match collect (patch3 b inter) order with
  | none => none
  | some ts => some { pts := inter.map Prod.snd, cells := ts }

end Verif.Ctr
