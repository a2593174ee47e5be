import Verif.Tracker.Model
import Verif.Mesh.Spec
import Verif.Lattice.Spec
/-! Specification for the trackers: what a series of snapshots says about a facet of the spacetime mesh. -/
namespace Verif.Trk
open Verif.SRM
variable {d : Nat} {γ : Type}

/-- a facet of the spacetime mesh: dimension `d` in `d + 1` dimensions, existing type -/
structure Facet (d : Nat) (e : Elem) : Prop where
  dim : e.dim = d
  len : e.corner.length = d + 1
  type : e.type < ntypes (d + 1) e.dim

/-- a cell of the spacetime mesh: dimension `d + 1` -/
structure IsCell (d : Nat) (e : Elem) : Prop where
  dim : e.dim = d + 1
  len : e.corner.length = d + 1
  type : e.type < ntypes (d + 1) e.dim

/-- `f` is a face of the cell `e`: its vertices are those of `e` without one -/
def FaceOf (d : Nat) (f e : Elem) : Prop :=
  ∃ ve vf, e.vertices (d + 1) = some ve ∧ f.vertices (d + 1) = some vf ∧ DropsOne ve vf

/-- the spatial part of the corner lies in the tracker's core block -/
def InCore (c : Cfg d γ) (e : Elem) : Prop := Lat.InBox c.core (e.corner.take d)

/-- the facet's vertices all lie at times `0 … T-1`; `t` is the earliest of them -/
def Spans (d : Nat) (T : Nat) (e : Elem) (t : Nat) : Prop :=
  AtTime (d + 1) e.corner t ∧ ∃ vs, e.vertices (d + 1) = some vs ∧
    ∀ v ∈ vs, ∃ x : Nat, AtTime (d + 1) v x ∧ x < T

/-- the value of the series at a spacetime vertex: snapshot number `time`, read at the vertex's place;
`none` if there is no such snapshot or place. -/
def absRead (c : Cfg d γ) (series : List (Snap d)) (v : Vtx) : Option (Fin d → Option Rat) :=
  match v[d]? with
  | none => none
  | some t =>
    if t < 0 then none
    else match series[t.toNat]? with
      | none => none
      | some s => s.read (List.zipWith (fun x (a : Nat) => x - a) (v.take d) c.astart)

/-- the smallest resolution of the snapshots `P` -/
def minRes (P : List (Snap d)) : Rat := P.foldl (fun r s => min r s.res) dblMax

/-- the scaling factor used when the snapshots `P` have been pushed -/
def scale (P : List (Snap d)) : Int := 2 ^ nbits (minRes P)

/-- the critical point of facet `e` (earliest time `t`) according to the series, with scaling factor `f` -/
def detect (c : Cfg d γ) (series : List (Snap d)) (f : Int) (t : Nat) (e : Elem) : Option (CP γ) :=
  match checkWith c f t (absRead c series) e with
  | some (some cp) => if c.keep cp then some cp else none
  | _ => none

/-- the facets with earliest time `t`, spatial corner in the core -/
structure Own (c : Cfg d γ) (t : Nat) (e : Elem) : Prop where
  facet : Facet d e
  time : AtTime (d + 1) e.corner t
  core : InCore c e

/-- number of tasks of a scan -/
def ntasks (c : Cfg d γ) (sc : Scope) : Nat := c.core.sizes.prod * (scopeTypes (d + 1) d sc).length

/-- `order` executes every task of the scans exactly once (what `parallel_for` guarantees, C07) -/
def Complete (c : Cfg d γ) (ord : Scope → List Int) : Prop :=
  ∀ sc, (ord sc).Perm ((List.range (ntasks c sc)).map Int.ofNat)

/-- the boxes have `d` dimensions -/
structure Shaped (c : Cfg d γ) : Prop where
  pos : 1 ≤ d
  dlen : c.domain.starts.length = d ∧ c.domain.sizes.length = d
  clen : c.core.starts.length = d ∧ c.core.sizes.length = d
  alen : c.astart.length = d

/-- the snapshot's array covers the core and, as far as the domain goes, the next layer above it (the
trackers ask for two ghost layers, regular_tracker.hh:128-140; arrays that are not partial cover the whole
domain) -/
structure Covers (c : Cfg d γ) (s : Snap d) : Prop where
  len : s.dims.length = d
  lo : ∀ (i a st : Nat), c.astart[i]? = some a → c.core.starts[i]? = some st → a ≤ st
  hi : ∀ (i a st m k cs cm : Nat), c.astart[i]? = some a → c.domain.starts[i]? = some st →
    c.domain.sizes[i]? = some m → s.dims[i]? = some k → c.core.starts[i]? = some cs →
    c.core.sizes[i]? = some cm → min (cs + cm + 1) (st + m) ≤ a + k

/-! ## inside the spacetime box, and the facets the series punctures -/

/-- `v` lies in the domain, at one of the times `0 … T-1` -/
structure InsideV (c : Cfg d γ) (T : Nat) (v : Vtx) : Prop where
  len : v.length = d + 1
  place : Lat.InBox c.domain (v.take d)
  time : ∃ x : Nat, AtTime (d + 1) v x ∧ x < T

/-- all vertices of the element lie in the domain, at the times `0 … T-1` -/
def Inside (c : Cfg d γ) (T : Nat) (e : Elem) : Prop :=
  ∃ vs, e.vertices (d + 1) = some vs ∧ ∀ v ∈ vs, InsideV c T v

/-- the facet `f` lies inside, and the tracker's test says yes on the values of the series at its vertices
(each multiplied by `F` and truncated) -/
def Punctured (c : Cfg d γ) (series : List (Snap d)) (F : Int) (f : Elem) : Prop :=
  Facet d f ∧ Inside c series.length f ∧ ∃ vs vals, f.vertices (d + 1) = some vs ∧
    readAll (absRead c series) vs = some vals ∧ c.test (vf F vals) (vindex c.bounds vs) = true

/-- the property of the robust tests proved as C32: of the `d + 2` faces of a simplex, none or two are
punctured, whatever the values, the vertex indices being distinct and not negative -/
def ZeroOrTwo {d : Nat} (test : (Fin (d + 1) → Fin d → Int) → (Fin (d + 1) → Int) → Bool) : Prop :=
  ∀ (V : Fin (d + 2) → Fin d → Int) (v : Fin (d + 2) → Int), Function.Injective v → (∀ i, 0 ≤ v i) →
    (∀ k, test (fun i => V (Fin.succAbove k i)) (fun i => v (Fin.succAbove k i)) = false) ∨
    ∃ a b, a ≠ b ∧ ∀ k, test (fun i => V (Fin.succAbove k i)) (fun i => v (Fin.succAbove k i)) = true ↔ k = a ∨ k = b

/-- every value of the snapshot is a finite number -/
def AllFinite (s : Snap d) : Prop := ∀ idx, inDims s.dims idx = true → ∀ j, (s.val idx j).isSome = true

/-- `f` and `g` are faces of one cell that lies inside -/
def ShareCell (c : Cfg d γ) (T : Nat) (f g : Elem) : Prop :=
  ∃ e, IsCell d e ∧ Inside c T e ∧ FaceOf d f e ∧ FaceOf d g e

/-- `f` is a face of a cell that sticks out of the box -/
def AtBoundary (c : Cfg d γ) (T : Nat) (f : Elem) : Prop :=
  ∃ e, IsCell d e ∧ FaceOf d f e ∧ ¬ Inside c T e

end Verif.Trk
