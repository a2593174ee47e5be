import Verif.Gen.Model
import Verif.Tracker.Spec
import Verif.Contour.Spec
/-! Trackers whose `check_simplex` rejects elements outside the mesh, reads one value per vertex, and decides from these
values (`critical_line_tracker_3d_regular.hh:218-269, 407-428`). -/
namespace Verif.Gen
open Verif.SRM
open Verif.Trk (elemValid)
variable {d : Nat} {S V P : Type}

/-- boxes and times of a tracker on a regular grid: `domain`, `local_domain` (the block scanned), starts of
`local_array_domain`, `start_timestep`, `end_timestep` -/
structure Box (d : Nat) where
  domain : Lat.Lattice
  core : Lat.Lattice
  astart : List Nat
  t0 : Int
  t1 : Int

/-- bounds of the spacetime mesh (regular_tracker.hh:113-122) -/
def Box.bounds (b : Box d) : Bounds :=
  { lb := b.domain.starts.map (fun (s : Nat) => (s : Int)) ++ [b.t0],
    ub := List.zipWith (fun (s m : Nat) => (s : Int) + m - 1) b.domain.starts b.domain.sizes ++ [b.t1] }

/-- such a tracker: `rd` reads a snapshot at an array position (`none` = out of the array), `test` decides (timestep,
element, vertices, values) -/
structure VProg (d : Nat) (S V P : Type) where
  box : Box d
  k : Nat
  rd : S → List Int → Option V
  test : Nat → Elem → List Vtx → List V → Option P

/-- the array position of a vertex -/
def Box.place (b : Box d) (v : Vtx) : List Int := List.zipWith (fun (x : Int) (a : Nat) => x - a) (v.take d) b.astart

/-- `simplex_values` for one vertex (critical_line_tracker_3d_regular.hh:412-422): snapshot 0 for a vertex at the current
timestep, 1 otherwise.  `none` = a snapshot or an array cell that does not exist. -/
def VProg.readVertex (g : VProg d S V P) (snaps : List S) (cur : Nat) (v : Vtx) : Option V :=
  match snaps[if v[d]? = some (cur : Int) then 0 else 1]? with
  | none => none
  | some s => g.rd s (g.box.place v)

/-- `f` on every element, `none` if one of them fails -/
def mapAll {α β : Type} (f : α → Option β) : List α → Option (List β)
  | [] => some []
  | x :: xs =>
    match f x, mapAll f xs with
    | some y, some ys => some (y :: ys)
    | _, _ => none

/-- `check_simplex` (critical_line_tracker_3d_regular.hh:218-269) -/
def VProg.chk (g : VProg d S V P) (cur : Nat) (snaps : List S) (e : Elem) : Option (Option P) :=
  if elemValid (d + 1) g.box.bounds e then
    match e.vertices (d + 1) with
    | none => none
    | some vs =>
      match mapAll (g.readVertex snaps cur) vs with
      | none => none
      | some vals => some (g.test cur e vs vals)
  else some none

/-- the loop's view of such a tracker -/
def VProg.prog (g : VProg d S V P) : Prog S P := { d := d, k := g.k, core := g.box.core, chk := g.chk }

/-! ### specification -/

/-- `v` lies in the domain, at one of the times `0 … T-1` -/
structure InsideV (b : Box d) (T : Nat) (v : Vtx) : Prop where
  len : v.length = d + 1
  place : Lat.InBox b.domain (v.take d)
  time : ∃ x : Nat, AtTime (d + 1) v x ∧ x < T

/-- all vertices of the element lie in the domain, at the times `0 … T-1` -/
def Inside (b : Box d) (T : Nat) (e : Elem) : Prop :=
  ∃ vs, e.vertices (d + 1) = some vs ∧ ∀ v ∈ vs, InsideV b T v

/-- the value of the series at a spacetime vertex: snapshot number `time`, at the vertex's place (relative to the start of
the array) -/
def VProg.valueAt [Inhabited V] (g : VProg d S V P) (series : List S) (v : Vtx) : V :=
  ((series[(v.getD d 0).toNat]?).bind fun s => g.rd s (g.box.place v)).getD default

/-- the element lies inside, and the values of the series at its vertices pass the test, giving `p` -/
def VProg.Det [Inhabited V] (g : VProg d S V P) (series : List S) (t : Nat) (e : Elem) (p : P) : Prop :=
  ∃ vs, e.vertices (d + 1) = some vs ∧ (∀ v ∈ vs, InsideV g.box series.length v) ∧
    g.test t e vs (vs.map (g.valueAt series)) = some p

/-- the boxes have `d` dimensions, there is one process, times start at 0 and the series fits -/
structure Shaped (b : Box d) (T : Nat) : Prop where
  pos : 1 ≤ d
  dlen : b.domain.starts.length = d ∧ b.domain.sizes.length = d
  core : b.core = b.domain
  alen : b.astart.length = d
  start : b.t0 = 0
  stop : (T : Int) ≤ b.t1 + 1

/-- the array has a cell for every place of the domain -/
def VProg.Covers (g : VProg d S V P) (s : S) : Prop :=
  ∀ p : List Int, Lat.InBox g.box.domain p →
    (g.rd s (List.zipWith (fun (x : Int) (a : Nat) => x - a) p g.box.astart)).isSome = true

end Verif.Gen
