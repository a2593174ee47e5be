import Verif.UTrk.Model
import Verif.XMesh.Spec
import Verif.Tracker.Curves
import Verif.Tracker.Loop
/-! Specification for the unstructured 2-D tracker: what a series of snapshots says about a triangle of the extruded
mesh.  `n0` is the number of vertices of the base mesh; a vertex of the extruded mesh is (`below n0 v`, `time n0 v`). -/
namespace Verif.UTrk
open Verif.Trk (Snap CP Traj Op scale)
open Verif.XM (below time)
open Verif.SRM (Scope)
variable {γ : Type}

/-- the triangle `e` of the extruded mesh has its earliest vertices at time `t`, and all at times `0 … T-1` -/
def Spans (n0 : Nat) (m : UM.M2) (T : Nat) (e : Int) (t : Nat) : Prop :=
  0 ≤ e ∧ ∃ v l, XM.getSimplex m 2 e = some (e, v :: l) ∧ time n0 v = t ∧ (∀ u ∈ v :: l, (t : Int) ≤ time n0 u) ∧
    ∀ u ∈ v :: l, time n0 u < T

/-- the value of the series at a vertex: snapshot number `time`, read at the vertex below -/
def absRead (n0 : Nat) (series : List (Snap 2)) (v : Int) : Option (Fin 2 → Option Rat) :=
  if time n0 v < 0 then none
  else match series[(time n0 v).toNat]? with
    | none => none
    | some s => s.read [below n0 v]

/-- the critical point of triangle `e` (earliest time `t`) according to the series, with scaling factor `f` -/
def detect (c : Cfg γ) (n0 : Nat) (series : List (Snap 2)) (f : Int) (t : Nat) (e : Int) : Option (CP (Info γ)) :=
  match checkWith c f t (absRead n0 series) e with
  | some (some cp) => if c.keep cp then some cp else none
  | _ => none

/-- the triangles with earliest time `t` -/
def Own (m : UM.M2) (t : Nat) (e : Int) : Prop := 0 ≤ e ∧ e / XM.n m 2 = t

/-- the points found at timesteps before `T`, the scaling factor at timestep `t` being computed from the first `k t`
snapshots -/
def Found (c : Cfg γ) (n0 : Nat) (P : List (Snap 2)) (k : Nat → Nat) (T : Nat) (e : Int) (cp : CP (Info γ)) : Prop :=
  ∃ t < T, Own c.m t e ∧ detect c n0 P (scale (P.take (k t))) t e = some cp

/-- `ord` executes every task of the two scans exactly once (what `parallel_for` guarantees, C07) -/
def Complete (m : UM.M2) (ord : Scope → List Int) : Prop :=
  (ord .ordinal).Perm ((List.range (XM.nOrdinal m 2).toNat).map Int.ofNat) ∧
  (ord .interval).Perm ((List.range (XM.nInterval m 2).toNat).map Int.ofNat)

/-- every call executes all its tasks -/
def AllComplete (m : UM.M2) (os : List (Op 2)) : Prop :=
  ∀ o ∈ os, match o with
    | .push _ => True
    | .advance ord => Complete m ord
    | .update ord => Complete m ord

/-- the snapshot has one vector of finite numbers per vertex -/
structure Covers (n0 : Nat) (s : Snap 2) : Prop where
  dims : s.dims = [n0]
  finite : Trk.AllFinite s

/-- the vertices of triangle `e` and the vectors that the series gives them -/
def Data (n0 : Nat) (m : UM.M2) (series : List (Snap 2)) (e : Int) (v : Fin 3 → Int) (V : Fin 3 → Fin 2 → Rat) : Prop :=
  XM.getSimplex m 2 e = some (e, [v 0, v 1, v 2]) ∧ ∀ i, absRead n0 series (v i) = some fun j => some (V i j)

/-- position of a vertex of the extruded mesh -/
def place (c : Cfg γ) (n0 : Nat) (v : Int) : Fin 4 → Rat :=
  ![c.coords (below n0 v) 0, c.coords (below n0 v) 1, c.coords (below n0 v) 2, (time n0 v : Rat)]

/-- the vectors, quantised with factor `f`, pass the robust test (C31, C32): the vector field is zero in the triangle -/
def Hit (f : Int) (v : Fin 3 → Int) (V : Fin 3 → Fin 2 → Rat) : Prop :=
  SoS.criticalPointInSimplex2 (fun i j => Trk.quant f (V i j)) v = true

/-- triangle `e` is punctured -/
def Punctured (n0 : Nat) (m : UM.M2) (series : List (Snap 2)) (f : Int) (e : Int) : Prop :=
  0 ≤ e ∧ ∃ v V, Data n0 m series e v V ∧ Hit f v V

/-- the vectors at the vertices are affinely dependent -/
def Degenerate (V : Fin 3 → Fin 2 → Rat) : Prop :=
  (V 0 0 - V 2 0) * (V 1 1 - V 2 1) = (V 1 0 - V 2 0) * (V 0 1 - V 2 1)

/-- triangle `f` is a face of tetrahedron `e` -/
def FaceOf (m : UM.M2) (f e : Int) : Prop :=
  ∃ vs ws, XM.getSimplex m 2 f = some (f, vs) ∧ XM.getSimplex m 3 e = some (e, ws) ∧ ∀ v ∈ vs, v ∈ ws

/-- `e` is a tetrahedron of the extruded mesh with all vertices at times `0 … T-1` -/
def Inside (n0 : Nat) (m : UM.M2) (T : Nat) (e : Int) : Prop :=
  0 ≤ e ∧ ∃ ws, XM.getSimplex m 3 e = some (e, ws) ∧ ∀ v ∈ ws, 0 ≤ time n0 v ∧ time n0 v < T

/-- `f` and `g` are faces of a common inside tetrahedron -/
def ShareTet (n0 : Nat) (m : UM.M2) (T : Nat) (f g : Int) : Prop := ∃ e, Inside n0 m T e ∧ FaceOf m f e ∧ FaceOf m g e

/-- `f` is a face of at most one inside tetrahedron: it is on the boundary of the extruded mesh -/
def AtBoundary (n0 : Nat) (m : UM.M2) (T : Nat) (f : Int) : Prop :=
  ∀ e e', Inside n0 m T e → Inside n0 m T e' → FaceOf m f e → FaceOf m f e' → e = e'

/-- the curves of triangles behind the trajectories -/
def curvesOf (trs : List (Traj (CP (Info γ)))) : List (List Int) := trs.map fun t => t.pts.map CP.tag

/-- what C94 says of the trajectories `trs` -/
structure Follows (n0 : Nat) (m : UM.M2) (series : List (Snap 2)) (F : Int) (trs : List (Traj (CP (Info γ)))) : Prop where
  /-- every punctured triangle is on exactly one curve, exactly once, and nothing else is -/
  once : (curvesOf trs).flatten.Nodup
  all : ∀ f, f ∈ (curvesOf trs).flatten ↔ Punctured n0 m series F f
  /-- consecutive triangles of a curve are faces of a common inside tetrahedron -/
  step : ∀ k ∈ curvesOf trs, k ≠ [] ∧ List.IsChain (ShareTet n0 m series.length) k
  /-- a curve closes, or both its ends are at the boundary -/
  ends : ∀ k ∈ curvesOf trs, ∀ a z, k.head? = some a → k.getLast? = some z →
    (3 ≤ k.length ∧ ShareTet n0 m series.length z a) ∨
      (AtBoundary n0 m series.length a ∧ AtBoundary n0 m series.length z)
  /-- every inside tetrahedron is passed by no curve, or by one curve, which enters it by one face and leaves it by
  another -/
  tet : ∀ e, Inside n0 m series.length e →
    (∀ f, Punctured n0 m series F f → ¬ FaceOf m f e) ∨
    ∃ f g, f ≠ g ∧ (∀ h, (Punctured n0 m series F h ∧ FaceOf m h e) ↔ h = f ∨ h = g) ∧
      ∃ k ∈ curvesOf trs, Trk.NextTo k f g
  /-- the loop flag of a trajectory of three or more points tells whether it closes -/
  loop : ∀ t ∈ trs, 3 ≤ t.pts.length → (t.loop = true ↔ ∃ a z, (t.pts.map CP.tag).head? = some a ∧
    (t.pts.map CP.tag).getLast? = some z ∧ ShareTet n0 m series.length z a)

end Verif.UTrk
