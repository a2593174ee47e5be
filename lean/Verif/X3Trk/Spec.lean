import Verif.X3Trk.Model
import Verif.X3Mesh.Spec
import Verif.Tracker.Curves

/-!
# Specification for the trackers on unstructured 3-D meshes

What a series of snapshots says about a simplex of the extruded mesh.  `n0` is the number of vertices of the base mesh;
a vertex of the extruded mesh is (`below n0 v`, `time n0 v`).
-/

namespace Verif.X3T

open Verif.U3 Verif.X3
open Verif.Trk (Snap CP Traj quant nbits scale)
open Verif.SRM (Scope)

variable {σ S V P γ : Type}

/-- The value of the series at a vertex: snapshot number `time`, read at the vertex below. -/
def valueAt (g : Prog σ S V P) (n0 : Nat) (series : List S) (v : Int) : Option V :=
  if time n0 v < 0 then none
  else match series[(time n0 v).toNat]? with
    | none => none
    | some s => g.rd s (below n0 v)

/-- `vs` are the vertices of element `e`, the earliest of them at time `t`. -/
def Starts (g : Prog σ S V P) (n0 : Nat) (e : Int) (t : Nat) (vs : List Int) : Prop :=
  0 ≤ e ∧ getSimplex g.m g.d e = some vs ∧ (∀ u ∈ vs, (t : Int) ≤ time n0 u) ∧ ∃ u ∈ vs, time n0 u = t

/-- What the series `Q` says about element `e` with earliest time `t`, the scaling state being `s`: the values at its
vertices, each from the snapshot of the vertex's own time, pass the test with the result `p`. -/
def Says (g : Prog σ S V P) (n0 : Nat) (Q : List S) (s : σ) (t : Nat) (e : Int) (p : P) : Prop :=
  ∃ vs vals, Starts g n0 e t vs ∧ Gen.mapAll (valueAt g n0 Q) vs = some vals ∧ g.test s t e vs vals = some p

/-- The snapshots pushed by a sequence of calls. -/
def pushes : List (Op S) → List S
  | [] => []
  | .push s :: os => s :: pushes os
  | _ :: os => pushes os

/-- For each `advance_timestep`, the number of snapshots pushed before, `n` of them before the first call. -/
def seen : Nat → List (Op S) → List Nat
  | _, [] => []
  | n, .push _ :: os => seen (n + 1) os
  | n, .advance _ :: os => n :: seen n os
  | n, _ :: os => seen n os

/-- Pushes and advances in any order, as long as each advance finds two snapshots, `k` being there at the beginning. -/
def Ahead : Nat → List (Op S) → Prop
  | _, [] => True
  | k, .push _ :: os => Ahead (k + 1) os
  | k, .advance _ :: os => 2 ≤ k ∧ Ahead (k - 1) os
  | _, _ :: _ => False

/-- `ord` visits every element of the two scans at time `t` exactly once (what `parallel_for` guarantees, C07). -/
def Complete (m : M3) (d : Nat) (t : Nat) (ord : Order) : Prop :=
  (ord .ordinal).Perm (ordinalIds m d t) ∧ (ord .interval).Perm (intervalIds m d t)

/-- Every call executes all its tasks, the current time being `t` at the beginning. -/
def AllComplete (m : M3) (d : Nat) : Nat → List (Op S) → Prop
  | _, [] => True
  | t, .advance ord :: os => Complete m d t ord ∧ AllComplete m d (t + 1) os
  | t, .update ord :: os => Complete m d t ord ∧ AllComplete m d t os
  | t, _ :: os => AllComplete m d t os

/-- The snapshot has a value at every base vertex. -/
def Covers (g : Prog σ S V P) (n0 : Nat) (s : S) : Prop := ∀ k : Int, 0 ≤ k → k < n0 → (g.rd s k).isSome = true

/-- `sg Q` is the scaling state after `update_timestep` when the snapshots `Q` have been pushed, however many of them
were there at earlier updates, and of however many dropped since. -/
def Scales (g : Prog σ S V P) (sg : List S → σ) : Prop :=
  ∀ Q j c, c ≤ j → j ≤ Q.length → g.pre (sg (Q.take j)) (Q.drop c) = sg Q

/-! ## critical points -/

/-- The vector of the series at a vertex (entries that are not finite are `none`): snapshot number `time`, at the vertex
below. -/
def vecAt (n0 : Nat) (series : List (Snap 3)) (v : Int) : Option (Fin 3 → Option Rat) :=
  if time n0 v < 0 then none
  else match series[(time n0 v).toNat]? with
    | none => none
    | some s => s.read [below n0 v]

/-- The snapshot has one vector of finite numbers per vertex. -/
structure VecField (n0 : Nat) (s : Snap 3) : Prop where
  dims : s.dims = [n0]
  finite : Trk.AllFinite s

/-- The vertices of tetrahedron `e` and the vectors that the series gives them. -/
def Data (n0 : Nat) (m : M3) (series : List (Snap 3)) (e : Int) (v : Fin 4 → Int) (V : Fin 4 → Fin 3 → Rat) : Prop :=
  getSimplex m 3 e = some [v 0, v 1, v 2, v 3] ∧ ∀ i, vecAt n0 series (v i) = some fun j => some (V i j)

/-- The earliest of the vertices is at time `t`. -/
def Earliest (n0 : Nat) {k : Nat} (v : Fin k → Int) (t : Nat) : Prop := (∀ i, (t : Int) ≤ time n0 (v i)) ∧ ∃ i, time n0 (v i) = t

/-- Position of a vertex of the extruded mesh. -/
def place (coords : Int → Fin 3 → Rat) (n0 : Nat) (v : Int) : Fin 4 → Rat :=
  ![coords (below n0 v) 0, coords (below n0 v) 1, coords (below n0 v) 2, (time n0 v : Rat)]

/-- The vectors, quantised with factor `f`, pass the robust test (C31, C32): the vector field is zero in the
tetrahedron. -/
def Hit (f : Int) (v : Fin 4 → Int) (V : Fin 4 → Fin 3 → Rat) : Prop :=
  SoS.criticalPointInSimplex3 (fun i j => quant f (V i j)) v = true

/-- Tetrahedron `e` is punctured. -/
def Punctured (n0 : Nat) (m : M3) (series : List (Snap 3)) (f : Int) (e : Int) : Prop :=
  0 ≤ e ∧ ∃ v V, Data n0 m series e v V ∧ Hit f v V

/-- The vectors at the vertices are affinely dependent. -/
def Degenerate (V : Fin 4 → Fin 3 → Rat) : Prop :=
  ∃ w : Fin 4 → Rat, w ≠ 0 ∧ w 0 + w 1 + w 2 + w 3 = 0 ∧ ∀ j, V 0 j * w 0 + V 1 j * w 1 + V 2 j * w 2 + V 3 j * w 3 = 0

/-- `ws` is a simplex of dimension `d` of the extruded mesh with all vertices at times `0 … T-1`. -/
def Inside (n0 : Nat) (ts : List Tet) (d T : Nat) (ws : List Int) : Prop :=
  ws.length = d + 1 ∧ Simplex n0 ts ws ∧ ∀ v ∈ ws, 0 ≤ time n0 v ∧ time n0 v < T

/-- Element `f` (of dimension `d`) is a face of the simplex `ws`. -/
def FaceOf (m : M3) (d : Nat) (f : Int) (ws : List Int) : Prop := ∃ vs, getSimplex m d f = some vs ∧ ∀ v ∈ vs, v ∈ ws

/-- `f` and `g`, of dimension `d`, are faces of a common inside simplex of dimension `d + 1`. -/
def Share (n0 : Nat) (ts : List Tet) (m : M3) (d T : Nat) (f g : Int) : Prop :=
  ∃ ws, Inside n0 ts (d + 1) T ws ∧ FaceOf m d f ws ∧ FaceOf m d g ws

/-- `f`, of dimension `d`, is a face of at most one inside simplex of dimension `d + 1`: it is on the boundary. -/
def AtBoundary (n0 : Nat) (ts : List Tet) (m : M3) (d T : Nat) (f : Int) : Prop :=
  ∀ ws ws', Inside n0 ts (d + 1) T ws → Inside n0 ts (d + 1) T ws' → FaceOf m d f ws → FaceOf m d f ws' → ws = ws'

/-- The curves of tetrahedra behind the trajectories. -/
def curvesOf (trs : List (Traj (CP (Info γ)))) : List (List Int) := trs.map fun t => t.pts.map CP.tag

/-- No triangle of the base mesh is in more than two tetrahedra. -/
def Manifold (ts : List Tet) : Prop :=
  ∀ s ∈ ts, ∀ t ∈ ts, ∀ u ∈ ts, ∀ a b c, a < b → b < c → (∀ x ∈ [s, t, u], OnTet a x ∧ OnTet b x ∧ OnTet c x) →
    s = t ∨ t = u ∨ s = u

/-- What C128 says of the trajectories `trs`. -/
structure Follows (n0 : Nat) (ts : List Tet) (m : M3) (series : List (Snap 3)) (F : Int) (trs : List (Traj (CP (Info γ)))) : Prop where
  /-- every punctured tetrahedron is on exactly one curve, exactly once, and nothing else is -/
  once : (curvesOf trs).flatten.Nodup
  all : ∀ f, f ∈ (curvesOf trs).flatten ↔ Punctured n0 m series F f
  /-- consecutive tetrahedra of a curve are faces of a common inside pentachoron -/
  step : ∀ k ∈ curvesOf trs, k ≠ [] ∧ List.IsChain (Share n0 ts m 3 series.length) k
  /-- a curve closes, or both its ends are at the boundary -/
  ends : ∀ k ∈ curvesOf trs, ∀ a z, k.head? = some a → k.getLast? = some z →
    (3 ≤ k.length ∧ Share n0 ts m 3 series.length z a) ∨
      (AtBoundary n0 ts m 3 series.length a ∧ AtBoundary n0 ts m 3 series.length z)
  /-- every inside pentachoron is passed by no curve, or by one curve, which enters it by one face and leaves it by
  another -/
  cell : ∀ ws, Inside n0 ts 4 series.length ws →
    (∀ f, Punctured n0 m series F f → ¬ FaceOf m 3 f ws) ∨
    ∃ f g, f ≠ g ∧ (∀ h, (Punctured n0 m series F h ∧ FaceOf m 3 h ws) ↔ h = f ∨ h = g) ∧
      ∃ k ∈ curvesOf trs, Trk.NextTo k f g
  /-- the loop flag of a trajectory of three or more points tells whether it closes -/
  loop : ∀ t ∈ trs, 3 ≤ t.pts.length → (t.loop = true ↔ ∃ a z, (t.pts.map CP.tag).head? = some a ∧
    (t.pts.map CP.tag).getLast? = some z ∧ Share n0 ts m 3 series.length z a)

/-! ## critical lines -/

/-- The 2-vector of the series at a vertex: snapshot number `time`, at the vertex below. -/
def uvAt (n0 : Nat) (series : List CLT.UV) (v : Int) : Option (Fin 2 → Rat) :=
  if time n0 v < 0 then none
  else match series[(time n0 v).toNat]? with
    | none => none
    | some s => s.read [below n0 v]

/-- The vertices of triangle `e` and the 2-vectors that the series gives them. -/
def LData (n0 : Nat) (m : M3) (series : List CLT.UV) (e : Int) (v : Fin 3 → Int) (U : Fin 3 → Fin 2 → Rat) : Prop :=
  getSimplex m 2 e = some [v 0, v 1, v 2] ∧ ∀ i, uvAt n0 series (v i) = some (U i)

/-- The 2-vectors, quantised with factor 2²¹, pass the robust test (C31, C32): both components are zero somewhere in the
triangle. -/
def LHit (v : Fin 3 → Int) (U : Fin 3 → Fin 2 → Rat) : Prop :=
  SoS.criticalPointInSimplex2 (fun i j => quant (2 ^ 21) (U i j)) v = true

/-- The critical line passes through triangle `e`. -/
def Pierced (n0 : Nat) (m : M3) (series : List CLT.UV) (e : Int) : Prop := 0 ≤ e ∧ ∃ v U, LData n0 m series e v U ∧ LHit v U

/-- Every value is a multiple of 2⁻²¹. -/
def LDyadic (s : CLT.UV) : Prop := ∀ idx j, ∃ z : Int, s.val idx j * 2 ^ 21 = z

/-- What C130 says of the curves `ks` (lists of triangles) for a single snapshot. -/
structure FollowsLines (n0 : Nat) (ts : List Tet) (m : M3) (s : CLT.UV) (ks : List (List Int)) : Prop where
  /-- every pierced triangle is on exactly one curve, exactly once, and nothing else is -/
  once : ks.flatten.Nodup
  all : ∀ f, f ∈ ks.flatten ↔ Pierced n0 m [s] f
  /-- consecutive triangles of a curve are faces of a common tetrahedron of the mesh -/
  step : ∀ k ∈ ks, k ≠ [] ∧ List.IsChain (Share n0 ts m 2 1) k
  /-- a curve closes, or both its ends are at the boundary of the mesh -/
  ends : ∀ k ∈ ks, ∀ a z, k.head? = some a → k.getLast? = some z →
    (3 ≤ k.length ∧ Share n0 ts m 2 1 z a) ∨ (AtBoundary n0 ts m 2 1 a ∧ AtBoundary n0 ts m 2 1 z)
  /-- every tetrahedron of the mesh is passed by no curve, or by one curve, which enters it by one face and leaves it by
  another -/
  cell : ∀ ws, Inside n0 ts 3 1 ws →
    (∀ f, Pierced n0 m [s] f → ¬ FaceOf m 2 f ws) ∨
    ∃ f g, f ≠ g ∧ (∀ h, (Pierced n0 m [s] h ∧ FaceOf m 2 h ws) ↔ h = f ∨ h = g) ∧ ∃ k ∈ ks, Trk.NextTo k f g

end Verif.X3T
