import Verif.Gen.Vertex
import Verif.CLine.Model
import Mathlib.Analysis.SpecialFunctions.Trigonometric.Basic
/-! Model of the tracker of vortices in superconductors, `filters/tdgl_vortex_tracker.hh` and
`tdgl_vortex_tracker_3d_regular.hh`, and of `numeric/fmod.hh`.  CPU execution, one process.  `float` and `double` are the real
numbers (no rounding, no infinities), `M_PI` is π, `int` is unbounded. -/
namespace Verif.Tdgl
open Verif.SRM
open Verif.Trk (inDims)
open Verif.Gen (Box VProg)
open Verif.Ctr (collect)
open Real (pi)

/-- `fmod` of the C library: the remainder with the sign of the dividend (used by fmod.hh) -/
noncomputable def fmod (x y : ℝ) : ℝ := x - y * (if 0 ≤ x / y then (⌊x / y⌋ : ℝ) else (⌈x / y⌉ : ℝ))

/-- `fmod1` (fmod.hh:8-14) -/
noncomputable def fmod1 (x y : ℝ) : ℝ :=
  let z := fmod x y
  if z < 0 then z + y else z

/-- `mod2pi` (fmod.hh:16-22) -/
noncomputable def mod2pi (x : ℝ) : ℝ :=
  let y := fmod x (2 * pi)
  if y < 0 then y + 2 * pi else y

/-- `mod2pi1` (fmod.hh:24-28) -/
noncomputable def mod2pi1 (x : ℝ) : ℝ := mod2pi (x + pi) - pi

/-- the fields of `tdgl_metadata_t` that are used (tdgl_metadata.hh:8-18) -/
structure Meta where
  cell : Fin 3 → ℝ
  origin : Fin 3 → ℝ
  B : Fin 3 → ℝ
  kex : ℝ

/-- one `field_data_snapshot_t` (tdgl_vortex_tracker.hh:41-45).  Simplified: the arrays have one shape; `re` and `im`, which
are read and not used, are left out. -/
structure Snap where
  md : Meta
  dims : List Nat
  rho : List Int → ℝ
  phi : List Int → ℝ

/-- what `simplex_values` reads at a vertex -/
structure Val where
  rho : ℝ
  phi : ℝ
  md : Meta

/-- (modelling device) a default value -/
instance : Inhabited Val := ⟨⟨0, 0, ⟨0, 0, 0, 0⟩⟩⟩

/-- reading the arrays at a position (tdgl_vortex_tracker_3d_regular.hh:385-397) -/
def Snap.read (s : Snap) (idx : List Int) : Option Val := if inDims s.dims idx then some ⟨s.rho idx, s.phi idx, s.md⟩ else none

/-- `X[i][j] = vertices[i][j] * cell_lengths[j] + origins[j]` (tdgl_vortex_tracker_3d_regular.hh:398-399) -/
def coords (m : Meta) (v : Vtx) : Fin 3 → ℝ := fun j => (v.getD j 0 : ℝ) * m.cell j + m.origin j

/-- `magnetic_potential` (tdgl_vortex_tracker_3d_regular.hh:413-424) -/
noncomputable def potential (m : Meta) (X : Fin 3 → ℝ) : Fin 3 → ℝ :=
  if m.B 1 > 0 then ![-m.kex, X 0 * m.B 2, -X 0 * m.B 1] else ![-X 1 * m.B 2 - m.kex, 0, X 1 * m.B 0]

/-- `line_integral` (tdgl_vortex_tracker_3d_regular.hh:406-411) -/
noncomputable def lineIntegral (X0 X1 A0 A1 : Fin 3 → ℝ) : ℝ :=
  1 / 2 * ((A0 0 + A1 0) * (X1 0 - X0 0) + (A0 1 + A1 1) * (X1 1 - X0 1) + (A0 2 + A1 2) * (X1 2 - X0 2))

/-- `li` of the edge from `a` to `b` -/
noncomputable def edgeIntegral (a b : Vtx) (x y : Val) : ℝ :=
  lineIntegral (coords x.md a) (coords y.md b) (potential x.md (coords x.md a)) (potential y.md (coords y.md b))

/-- `delta[i]` (tdgl_vortex_tracker_3d_regular.hh:178-185) -/
noncomputable def delta (phi li : Fin 3 → ℝ) : Fin 3 → ℝ := fun i => mod2pi1 (phi (i + 1) - phi i - li i)

/-- `phase_shift` (tdgl_vortex_tracker_3d_regular.hh:178-185) -/
noncomputable def phaseShift (phi li : Fin 3 → ℝ) : ℝ := 0 - delta phi li 0 - delta phi li 1 - delta phi li 2

/-- the criterion (tdgl_vortex_tracker_3d_regular.hh:187-189) -/
noncomputable def crossed (phi li : Fin 3 → ℝ) : Bool := decide (¬ |phaseShift phi li / (2 * pi)| < 1 / 2)

/-- `phi` after the gauge transformation (tdgl_vortex_tracker_3d_regular.hh:193-196) -/
noncomputable def gauged (phi li : Fin 3 → ℝ) : Fin 3 → ℝ :=
  ![phi 0, phi 0 + delta phi li 0, phi 0 + delta phi li 0 + delta phi li 1]

/-- `psi` (tdgl_vortex_tracker_3d_regular.hh:193-199) -/
noncomputable def psi (rho phi li : Fin 3 → ℝ) : Fin 3 → Fin 2 → ℝ := fun i =>
  ![rho i * Real.cos (gauged phi li i), rho i * Real.sin (gauged phi li i)]

/-- `inverse_lerp_s2v2` (tdgl_vortex_tracker_3d_regular.hh:201-204); its answer is ignored.  `degen` stands for what it leaves
when it divides by zero. -/
noncomputable def weights (degen : (Fin 3 → Fin 2 → ℝ) → Fin 3 → ℝ) (U : Fin 3 → Fin 2 → ℝ) : Fin 3 → ℝ :=
  if (U 0 0 - U 2 0) * (U 1 1 - U 2 1) - (U 1 0 - U 2 0) * (U 0 1 - U 2 1) = 0 then degen U else (Num.inverseLerpS2v2 U 0).2

/-- the fields of `feature_point_t` that are set (tdgl_vortex_tracker_3d_regular.hh:211-219): `x` = the three coordinates
followed by `t` -/
structure Pt where
  x : Fin 4 → ℝ
  tag : Int
  ordinal : Bool
  timestep : Nat

/-- `X[i]` with its time (tdgl_vortex_tracker_3d_regular.hh:398-400) -/
def place (m : Meta) (v : Vtx) : Fin 4 → ℝ := ![coords m v 0, coords m v 1, coords m v 2, (v.getD 3 0 : ℝ)]

/-- `lerp_s2v4` (linear_interpolation.hh:111-117) -/
noncomputable def lerpS2v4 (X : Fin 3 → Fin 4 → ℝ) (mu : Fin 3 → ℝ) : Fin 4 → ℝ := fun j => X 0 j * mu 0 + X 1 j * mu 1 + X 2 j * mu 2

/-- configuration -/
structure Cfg where
  box : Box 3
  degen : (Fin 3 → Fin 2 → ℝ) → Fin 3 → ℝ

/-- the three `li` of a triangle -/
noncomputable def integrals (vs : Fin 3 → Vtx) (vals : Fin 3 → Val) : Fin 3 → ℝ :=
  fun i => edgeIntegral (vs i) (vs (i + 1)) (vals i) (vals (i + 1))

/-- the point of a triangle (tdgl_vortex_tracker_3d_regular.hh:193-219) -/
noncomputable def point (c : Cfg) (cur : Nat) (e : Elem) (vs : Fin 3 → Vtx) (vals : Fin 3 → Val) : Pt :=
  { x := lerpS2v4 (fun i => place (vals i).md (vs i))
      (weights c.degen (psi (fun i => (vals i).rho) (fun i => (vals i).phi) (integrals vs vals))),
    tag := e.toInteger 4 c.box.bounds, ordinal := isOrdinalType 4 e.dim e.type, timestep := cur }

/-- `check_simplex` once the values are known (tdgl_vortex_tracker_3d_regular.hh:166-224) -/
noncomputable def test (c : Cfg) (cur : Nat) (e : Elem) : List Vtx → List Val → Option Pt
  | [a, b, d], [x, y, z] =>
    if crossed (fun i => ((![x, y, z] : Fin 3 → Val) i).phi) (integrals ![a, b, d] ![x, y, z]) then
      some (point c cur e ![a, b, d] ![x, y, z]) else none
  | _, _ => none

/-- the tracker: triangles (`k = 2`) of the 4-D mesh (tdgl_vortex_tracker_3d_regular.hh:226-377, CPU branch) -/
noncomputable def tracker (c : Cfg) : VProg 3 Snap Val Pt := { box := c.box, k := 2, rd := Snap.read, test := test c }

/-- `surfaces.pts` before `relabel`: the points in the order of the map, numbered
(tdgl_vortex_tracker_3d_regular.hh:101-105) -/
def surfacePts (inter : List (Elem × Pt)) : List (Surf.FPt Pt) :=
  (inter.zipIdx).map fun ki => { id := ki.2, timestep := ki.1.2.timestep, ordinal := ki.1.2.ordinal, data := ki.1.2 }

/-- `build_vortex_surfaces` (tdgl_vortex_tracker_3d_regular.hh:97-154), called once; `perm` orders the tasks.  The related
cells, the ids of a cell and its triangles are computed as in the critical line tracker (the same lines of code:
tdgl_vortex_tracker_3d_regular.hh:113-150 = critical_line_tracker_3d_regular.hh:168-206).  Simplified: the code collects
`related_cells` while scanning (lines 233-259); the set is the same. -/
def surfaces (b : Bounds) (inter : List (Elem × Pt)) (perm : List Elem → List Elem) : Option (Surf.Surface Pt) :=
  match CLT.relatedCells b inter with
  | none => none
  | some cells =>
    match CLT.surfaceTris inter (perm cells) with
    | none => none
    | some tris => Surf.Surface.relabel { pts := surfacePts inter, tris := tris, quads := [], pentagons := [] }

end Verif.Tdgl
