import Verif.Common.OrdSet
import Verif.Serial.Model
import Verif.Surf.Model

/-!
# Model of the filament tracker on XGC data

`filters/xgc_blob_filament_tracker.hh` (below: `xft`) and `filters/xgc_tracker.hh` (below: `xt`), CPU execution, one
process, without TBB and VTK.  The space-time mesh `m4` (or `mr4` with `use_roi`) is a parameter: its queries are total
functions, i.e. the mesh is assumed to answer them.  `parallel_for` executes its tasks in an arbitrary order (the bodies
write under a mutex).  `double`, `int` and `__int128` are exact and unbounded; `none` is undefined behaviour or a failing
`assert`.
-/

namespace Verif.Fil

open Verif.Ser (mapInsert lookup)
open Verif.Surf (Tri FPt Surface)

/-- What the tracker asks of the mesh `m4`: `n(0)`, `n_ordinal(2)`, `n_interval(2)`, `get_simplex(2, ·)`,
`side_of(2, ·)`, `side_of(3, ·)`, `get_simplex(4, ·)`, `sides(4, ·)`, `sides(3, ·)`
(mesh/simplicial_unstructured_extruded_3d_mesh.hh:15-75). -/
structure Mesh where
  n0 : Nat
  no : Nat
  ni : Nat
  tri : Int → List Int
  tets : Int → List Int
  pents : Int → List Int
  cell : Int → List Int
  facets : Int → List Int
  tris : Int → List Int

/-- `m4->n(2)`: triangles per timestep. -/
def Mesh.nd (m : Mesh) : Nat := m.no + m.ni

/-- What the loop uses besides the mesh: `pre`, `update_vector_field_scaling_factor` (critical_point_tracker.hh and
`xft:310`); `rd`, the interpolated values of a snapshot at a vertex of `m3` (`xft:602-605`); `test`, the rest of
`check_simplex` (`xft:382-424`), from the scaling state, the timestep, the id, its vertices and their values. -/
structure Prog (σ S V P : Type) where
  m : Mesh
  ordinalOnly : Bool
  pre : σ → List S → σ
  rd : S → Int → V
  test : σ → Nat → Int → List Int → List V → Option P

/-- State: `field_data_snapshots`, `current_timestep`, the scaling state, `intersections`, `related_cells`, and the
points handed to `build_critical_line` per call. -/
structure St (σ S P : Type) where
  snaps : List S
  cur : Nat
  sig : σ
  found : List (Int × P)
  related : List Int
  lines : List (Nat × List (Int × P))

variable {σ S V P δ : Type}

/-- A new tracker. -/
def St.init (s : σ) : St σ S P := { snaps := [], cur := 0, sig := s, found := [], related := [], lines := [] }

/-- `get_related_penta_cells` (`xft:237-255`). -/
def Mesh.related (m : Mesh) (i : Int) : List Int :=
  (m.tets i).foldl (fun acc t => (m.pents t).foldl (fun acc p => setInsert p acc) acc) []

/-- `simplex_values`, one vertex (`xft:587-605`, without regions of interest): time `verts[k] / m4->n(0)`, vertex
`verts[k] % m3->n(0)`, snapshot 0 if the time is the current timestep, else snapshot 1. -/
def Prog.readVertex (g : Prog σ S V P) (snaps : List S) (cur : Nat) (v : Int) : Option V :=
  (snaps[if v / g.m.n0 = (cur : Int) then 0 else 1]?).map fun s => g.rd s (v % g.m.n0)

/-- `check_simplex` (`xft:369-425`); the inner `none` is `return false`. -/
def Prog.chk (g : Prog σ S V P) (s : σ) (cur : Nat) (snaps : List S) (i : Int) : Option (Option P) :=
  ((g.m.tri i).mapM (g.readVertex snaps cur)).map fun vals => g.test s cur i (g.m.tri i) vals

/-- The lambda `func` of `update_timestep` (`xft:311-325`). -/
def visit (g : Prog σ S V P) (st : St σ S P) (i : Int) : Option (St σ S P) :=
  match g.chk st.sig st.cur st.snaps i with
  | none => none
  | some none => some st
  | some (some p) => some { st with
      found := mapInsert st.found (i, p)
      related := (g.m.related i).foldl (fun acc c => setInsert c acc) st.related }

/-- Visits in the order of the list. -/
def visitAll (g : Prog σ S V P) : List Int → St σ S P → Option (St σ S P)
  | [], st => some st
  | i :: is, st =>
    match visit g st i with
    | none => none
    | some st' => visitAll g is st'

/-- The order in which `parallel_for` executes the loop indices of the two loops. -/
structure Order where
  ordinal : List Nat
  interval : List Nat

/-- The ids of the first loop (`xft:354-357`): without time offset if `ordinal_only`. -/
def firstIds (g : Prog σ S V P) (cur : Nat) (l : List Nat) : List Int :=
  l.map fun (i : Nat) => if g.ordinalOnly then (i : Int) else (i : Int) + cur * g.m.nd

/-- The ids of the second loop (`xft:363`). -/
def secondIds (g : Prog σ S V P) (cur : Nat) (l : List Nat) : List Int :=
  l.map fun (i : Nat) => (i : Int) + g.m.no + cur * g.m.nd

/-- `update_timestep` (`xft:306-366`).  In ordinal mode the points are handed to `build_critical_line` and cleared. -/
def update (g : Prog σ S V P) (ord : Order) (st : St σ S P) : Option (St σ S P) :=
  match visitAll g (firstIds g st.cur ord.ordinal) { st with sig := g.pre st.sig st.snaps } with
  | none => none
  | some st1 =>
    if g.ordinalOnly then some { st1 with lines := st1.lines ++ [(st1.cur, st1.found)], found := [] }
    else if st1.snaps.length ≥ 2 then visitAll g (secondIds g st1.cur ord.interval) st1
    else some st1

/-- `advance_timestep` (`xt:176-182`). -/
def advance (g : Prog σ S V P) (ord : Order) (st : St σ S P) : Option (St σ S P) :=
  match update g ord st with
  | none => none
  | some st' => some { st' with snaps := st'.snaps.tail, cur := st'.cur + 1 }

/-- `push_field_data_snapshot` (`xt:112-166`). -/
def push (s : S) (st : St σ S P) : St σ S P := { st with snaps := st.snaps ++ [s] }

/-- The callback of src/cli/ftk.cpp:470-496 for the snapshots from number `k` on of a series of `n`:
`push; if (k != start) advance_timestep(); if (k == n-1) update_timestep();`. -/
def drive (g : Prog σ S V P) (ord : Nat → Order) (n : Nat) : Nat → List S → St σ S P → Option (St σ S P)
  | _, [], st => some st
  | k, s :: l, st =>
    match (if k ≠ 0 then advance g (ord (k - 1)) (push s st) else some (push s st)) with
    | none => none
    | some st1 =>
      match (if k + 1 = n then update g (ord k) st1 else some st1) with
      | none => none
      | some st2 => drive g ord n (k + 1) l st2

/-! ## surfaces -/

/-- `unique_tris` (`xft:460-463`): the triangles of the facets of a cell, as a set. -/
def Mesh.uniqueTris (m : Mesh) (e : Int) : List Int :=
  ((m.facets e).flatMap m.tris).foldl (fun acc t => setInsert t acc) []

/-- The index of a key in the map: the `id` given by `build_critical_surfaces` (`xft:685-689`). -/
def indexOf (found : List (Int × P)) (k : Int) : Option Nat := found.findIdx? fun kv => decide (kv.1 = k)

/-- `ids[0 … count-1]` (`xft:481-492`). -/
def hits (m : Mesh) (found : List (Int × P)) (e : Int) : List Nat := (m.uniqueTris e).filterMap (indexOf found)

/-- The triangles added for `count` points (`xft:494-518`); other counts add none. -/
def pentaTris : List Nat → List Tri
  | [a, b, c] => [(a, b, c)]
  | [a, b, c, d] => [(a, b, c), (a, b, d), (a, c, d), (b, c, d)]
  | [a, b, c, d, e] =>
    [(a, b, c), (a, b, d), (a, b, e), (a, c, d), (a, c, e), (a, d, e), (b, c, d), (b, c, e), (c, d, e)]
  | _ => []

/-- `check_penta` (`xft:444-519`): nothing if a vertex has a time outside `[0, end_timestep)`; the `assert` on the number
of triangles. -/
def checkPenta (m : Mesh) (endT : Int) (found : List (Int × P)) (e : Int) : Option (List Tri) :=
  if (m.cell e).any (fun v => decide (v.fdiv m.n0 < 0) || decide (v.fdiv m.n0 ≥ endT)) then some []
  else if (m.uniqueTris e).length ≠ 10 then none
  else some (pentaTris (hits m found e))

/-- The cells in the order in which they are checked. -/
def checkAll (m : Mesh) (endT : Int) (found : List (Int × P)) : List Int → Option (List Tri)
  | [] => some []
  | e :: es =>
    match checkPenta m endT found e, checkAll m endT found es with
    | some a, some b => some (a ++ b)
    | _, _ => none

/-- The members of `feature_point_t` used: `tag`, `timestep`, `ordinal`, `scalar[1]`, `scalar[2]`, `v[0]`, `v[1]`, and
the rest. -/
structure Pt (R : Type) where
  tag : Int
  psin : R
  theta : R
  v0 : R
  v1 : R

/-- `build_critical_surfaces` (`xft:681-709`) up to `relabel`; `cells` is the order in which `parallel_for` executes the
related cells. -/
def buildSurfaces (m : Mesh) (endT : Int) (found : List (Int × FPt δ)) (cells : List Int) : Option (Surface δ) :=
  match checkAll m endT found cells with
  | none => none
  | some ts =>
    let pts := found.mapIdx fun (i : Nat) kv => { kv.2 with id := i }
    Surface.relabel { pts := pts, tris := ts, quads := [], pentagons := [] }

/-- `read_intersections_binary` (`xft:841-850`) after `unserializeFromFile`: the related cells from the tags of the
points. -/
def relatedOfArchive (m : Mesh) (tag : P → Int) (found : List (Int × P)) : List Int :=
  found.foldl (fun acc kv => (m.related (tag kv.2)).foldl (fun acc c => setInsert c acc) acc) []

/-! ## the seam of the torus -/

/-- The third coordinate of the vertices of a simplex in the planes `p` (`xft:595-598, 609-623`): `phi` is the plane
number, and if the simplex has vertices in plane 0 and in plane `np-1`, `np` is added in plane 0. -/
def unwrapPhi (np : Nat) (p : List Nat) : List Nat :=
  let b0 := p.any fun x => decide (x = 0)
  let b1 := p.any fun x => decide (x ≠ 0) && decide (x = np - 1)
  if b0 && b1 then p.map fun x => if x = 0 then x + np else x else p

/-! ## velocities -/

/-- `set.insert(tri[k])`. -/
def insertOpt : Option Nat → List Nat → List Nat
  | some x, acc => setInsert x acc
  | none, acc => acc

/-- `neighbors` (`xft:726-735`): entry `i` is the set of the other entries of the triangles containing `i`; an index
outside the vector is undefined. -/
def neighbors (n : Nat) (tris : List Tri) : Option (List (List Nat)) :=
  if tris.any (fun t => (Surf.triVs t).any fun v => decide (n ≤ v)) then none
  else some ((List.range n).map fun i =>
    tris.foldl (fun acc t =>
      (List.range 3).foldl (fun acc j => (List.range 3).foldl (fun acc k =>
        if j ≠ k ∧ (Surf.triVs t)[j]? = some i then insertOpt (Surf.triVs t)[k]? acc else acc) acc) acc) [])

/-- The inner loop (`xft:770-779`): neighbours not visited and allowed are appended to the queue and to `visited`. -/
def enqueue (ok : Nat → Bool) : List Nat → List Nat → List Nat → List Nat × List Nat
  | [], q, vis => (q, vis)
  | j :: js, q, vis =>
    if j ∉ vis ∧ ok j = true then enqueue ok js (q ++ [j]) (vis ++ [j]) else enqueue ok js q vis

/-- The search (`xft:748-780`); the fuel bounds the number of rounds. -/
def bfs (nb : Nat → List Nat) (ok goal : Nat → Bool) : Nat → List Nat → List Nat → Option Nat
  | 0, _, _ => none
  | _ + 1, [], _ => none
  | fuel + 1, c :: q, vis =>
    if goal c then some c
    else
      let r := enqueue ok (nb c) q vis
      bfs nb ok goal fuel r.1 r.2

/-- `post_process_surfaces` (`xft:711-783`) for point `i`: `poloidal` and `plane` are `is_poloidal(2, tag % n(2))` and
`get_poloidal(2, tag % n(2))`. -/
def velocityOf {R : Type} [Sub R] (poloidal : Int → Bool) (plane : Int → Int) (pts : List (FPt (Pt R)))
    (nbs : List (List Nat)) (i : Nat) : Option (FPt (Pt R)) :=
  match pts[i]? with
  | none => none
  | some p =>
    if poloidal p.data.tag && p.ordinal then
      let at_ := fun (j : Nat) => pts[j]?
      let ok := fun (j : Nat) => match at_ j with
        | some q => decide (p.timestep ≤ q.timestep) && decide (q.timestep ≤ p.timestep + 1)
        | none => false
      let goal := fun (j : Nat) => match at_ j with
        | some q => decide (j ≠ i) && q.ordinal && decide (q.timestep = p.timestep + 1) && poloidal q.data.tag &&
            decide (plane q.data.tag = plane p.data.tag)
        | none => false
      match bfs (fun j => nbs.getD j []) ok goal (pts.length + 1) [i] [i] with
      | none => some p
      | some j =>
        match at_ j with
        | none => some p
        | some q => some { p with data := { p.data with v0 := q.data.psin - p.data.psin, v1 := q.data.theta - p.data.theta } }
    else some p

end Verif.Fil
