import Verif.Gen.Vertex
import Verif.Contour.Model
import Verif.Num.Model
import Verif.Graph.Model
import Verif.Surf.Model
/-! Model of the critical line tracker on 3-D regular grids, `filters/critical_line_tracker.hh` and
`critical_line_tracker_3d_regular.hh` (the spacetime mesh has dimension 4, triangles are tested), and of the trackers
derived from it (`sujudi_haimes_tracker_3d_regular.hh`, `levy_degani_seginer_tracker_3d_regular.hh`,
`ridge_valley_tracker_3d_regular.hh`), which add interpolated scalars to the points.  CPU execution, one process.  `float`,
`int` and `long long` are unbounded and exact, field values are finite. -/
namespace Verif.CLT
open Verif.SRM
open Verif.Trk (inDims elemValid quant)
open Verif.Gen (Box VProg)
open Verif.Ctr (collect up down)

/-- one `field_data_snapshot_t` of the base class (critical_line_tracker.hh:37-43): two channels -/
structure UV where
  dims : List Nat
  val : List Int → Fin 2 → Rat

/-- reading the two channels at a position (critical_line_tracker_3d_regular.hh:415-421) -/
def UV.read (s : UV) (idx : List Int) : Option (Fin 2 → Rat) := if inDims s.dims idx then some (s.val idx) else none

/-- the fields of `feature_point_t` set by `check_simplex` (critical_line_tracker_3d_regular.hh:252-263): `x` = the three
coordinates followed by `t`; `mu` is stored in `v`; `scal` are the scalars set by the derived trackers. -/
structure Pt where
  x : List Rat
  mu : Fin 3 → Rat
  scal : List Rat
  tag : Int
  ordinal : Bool
  timestep : Nat

/-- configuration.  `V` is what is read at a vertex, `uv` its first two channels; `extra` gives the scalars of a derived
tracker from the values and the weights; `degen` stands for the weights `solve_linear2x2` leaves when it divides by zero
(after which `clamp_barycentric` still makes them convex). -/
structure Cfg (V : Type) where
  box : Box 3
  uv : V → Fin 2 → Rat
  extra : (Fin 3 → V) → (Fin 3 → Rat) → List Rat
  degen : (Fin 3 → Fin 2 → Rat) → Fin 3 → Rat

variable {V : Type}

/-- `UVf[i][j] = factor * UV[i][j]`, `factor = 2 << 20` (critical_line_tracker_3d_regular.hh:231-237) -/
def fixed (x : Rat) : Int := quant (2 * 2 ^ 20) x

/-- `simplex_indices` for one vertex (regular_tracker.hh:185-191) -/
def vindex (b : Bounds) (v : Vtx) : Int := cornerIndex v b.lb b.dimprod

/-- `inverse_lerp_s2v2` (its answer is ignored) and `clamp_barycentric<3>` (critical_line_tracker_3d_regular.hh:245-247) -/
def weights (c : Cfg V) (U : Fin 3 → Fin 2 → Rat) : Fin 3 → Rat :=
  Num.clampBarycentric (if (U 0 0 - U 2 0) * (U 1 1 - U 2 1) - (U 1 0 - U 2 0) * (U 0 1 - U 2 1) = 0 then c.degen U
    else (Num.inverseLerpS2v2 U 0).2)

/-- `lerp_s2v4` (linear_interpolation.hh) -/
def lerpS2v4 (a b c : Vtx) (mu : Fin 3 → Rat) : List Rat :=
  List.zipWith (fun (x : Rat) (z : Int) => x + z * mu 2)
    (List.zipWith (fun (x y : Int) => (x : Rat) * mu 0 + (y : Rat) * mu 1) a b) c

/-- the robust test on the quantised values (critical_line_tracker_3d_regular.hh:231-243) -/
def hit (c : Cfg V) (vs : Fin 3 → Vtx) (vals : Fin 3 → V) : Bool :=
  SoS.criticalPointInSimplex2 (fun i j => fixed (c.uv (vals i) j)) (fun i => vindex c.box.bounds (vs i))

/-- the point of a triangle (critical_line_tracker_3d_regular.hh:245-263) -/
def point (c : Cfg V) (cur : Nat) (e : Elem) (vs : Fin 3 → Vtx) (vals : Fin 3 → V) : Pt :=
  let mu := weights c fun i => c.uv (vals i)
  { x := lerpS2v4 (vs 0) (vs 1) (vs 2) mu, mu := mu, scal := c.extra vals mu,
    tag := e.toInteger 4 c.box.bounds, ordinal := isOrdinalType 4 e.dim e.type, timestep := cur }

/-- `check_simplex` once the values are known (critical_line_tracker_3d_regular.hh:226-268) -/
def test (c : Cfg V) (cur : Nat) (e : Elem) : List Vtx → List V → Option Pt
  | [a, b, d], [x, y, z] => if hit c ![a, b, d] ![x, y, z] then some (point c cur e ![a, b, d] ![x, y, z]) else none
  | _, _ => none

/-- the tracker: triangles (`k = 2`) of the 4-D mesh; `rd` reads a snapshot -/
def tracker {S : Type} (c : Cfg V) (rd : S → List Int → Option V) : VProg 3 S V Pt :=
  { box := c.box, k := 2, rd := rd, test := test c }

/-! ### surfaces -/

/-- position of the key `e` in the map (`kv.second.id = i ++`, critical_line_tracker_3d_regular.hh:151-155) -/
def idOf {P : Type} (e : Elem) : List (Elem × P) → Option Nat
  | [] => none
  | (k, _) :: m => if e = k then some 0 else (idOf e m).map (· + 1)

/-- `related_cells` (critical_line_tracker_3d_regular.hh:131-147, 163-166): the valid 4-simplices reached from the recorded
triangles through valid tetrahedra.  The map is empty of cells before (`related_cells` is only filled here on the CPU). -/
def relatedCells {P : Type} (b : Bounds) (inter : List (Elem × P)) : Option (List Elem) :=
  (collect (fun kv => up 4 b 2 kv.1) inter).map toSet

/-- `unique_tris` of a cell, and the ids of those that are recorded (critical_line_tracker_3d_regular.hh:169-179) -/
def cellIds {P : Type} (inter : List (Elem × P)) (e : Elem) : Option (List Nat) :=
  (down 4 2 e).map fun es => (toSet es).filterMap fun f => idOf f inter

/-- the triangles added for a cell (critical_line_tracker_3d_regular.hh:181-205); `none` = more than six ids (`ids[6]`
overflows).  Other counts print a message. -/
def polygon : List Nat → Option (List (Nat × Nat × Nat))
  | [a, b, c] => some [(a, b, c)]
  | [a, b, c, d] => some [(a, b, c), (a, b, d), (a, c, d), (b, c, d)]
  | [a, b, c, d, e] => some [(a, b, c), (a, b, d), (a, b, e), (a, c, d), (a, c, e), (a, d, e), (b, c, d), (b, c, e), (c, d, e)]
  | l => if l.length ≤ 6 then some [] else none

/-- the task of `parallel_for` for one cell (critical_line_tracker_3d_regular.hh:168-206) -/
def cellTris {P : Type} (inter : List (Elem × P)) (e : Elem) : Option (List (Nat × Nat × Nat)) :=
  (cellIds inter e).bind polygon

/-- `surfaces.tris` (critical_line_tracker_3d_regular.hh:157-206); `order` is the order in which the tasks take the
mutex -/
def surfaceTris {P : Type} (inter : List (Elem × P)) (order : List Elem) : Option (List (Nat × Nat × Nat)) :=
  collect (cellTris inter) order

/-- `surfaces.pts` before `relabel`: the points in the order of the map, numbered
(critical_line_tracker_3d_regular.hh:151-155) -/
def surfacePts (inter : List (Elem × Pt)) : List (Surf.FPt Pt) :=
  (inter.zipIdx).map fun ki => { id := ki.2, timestep := ki.1.2.timestep, ordinal := ki.1.2.ordinal, data := ki.1.2 }

/-- `build_vortex_surfaces` (critical_line_tracker_3d_regular.hh:147-211), called once; `perm` orders the tasks -/
def surfaces (b : Bounds) (inter : List (Elem × Pt)) (perm : List Elem → List Elem) : Option (Surf.Surface Pt) :=
  match relatedCells b inter with
  | none => none
  | some cells =>
    match surfaceTris inter (perm cells) with
    | none => none
    | some tris => Surf.Surface.relabel { pts := surfacePts inter, tris := tris, quads := [], pentagons := [] }

/-! ### lines -/

/-- the neighbours of a triangle for `build_vortex_lines`: all sides of all tetrahedra it is a side of
(critical_line_tracker_3d_regular.hh:99-108).  Only applied to triangles of the mesh; anything else is given no
neighbours. -/
def nbs (f : Elem) : List Elem :=
  if f.corner.length = 4 ∧ f.dim = 2 ∧ f.type < ntypes 4 f.dim then
    match f.sideOf 4 with
    | none => []
    | some es => toSet (es.flatMap fun e => (e.sides 4).getD [])
  else []

/-- `build_vortex_lines` (critical_line_tracker_3d_regular.hh:95-129): the curves, as lists of elements; the set of the keys
is the sorted list of keys of the map. -/
def lines {P : Type} (inter : List (Elem × P)) : Option (List (List Elem)) :=
  match Gr.extractCC nbs (inter.map Prod.fst) with
  | none => none
  | some cs => (Gen.mapAll (Gr.linearComponents nbs) cs).map List.flatten

end Verif.CLT
