import Verif.Contour.Model
import Verif.Tracker.Spec
/-! Specification for the contour trackers: what a series of scalar snapshots says about the edges of the
spacetime mesh. -/
namespace Verif.Ctr
open Verif.SRM
variable {d : Nat}

/-- `e` is an element of dimension `k` of the (unbounded) mesh of dimension `n` -/
structure IsElem (n k : Nat) (e : Elem) : Prop where
  dim : e.dim = k
  len : e.corner.length = n
  type : e.type < ntypes n e.dim

/-- `f` is a face (of any dimension) of `e`: its vertices are among those of `e` -/
def FaceOf (n : Nat) (f e : Elem) : Prop :=
  ∃ vf ve, f.vertices n = some vf ∧ e.vertices n = some ve ∧ ∀ v ∈ vf, v ∈ ve

/-- `v` lies in the domain, at one of the times `0 … T-1` -/
structure InsideV (c : Cfg d) (T : Nat) (v : Vtx) : Prop where
  len : v.length = d + 1
  place : Lat.InBox c.domain (v.take d)
  time : ∃ x : Nat, AtTime (d + 1) v x ∧ x < T

/-- all vertices of the element lie in the domain, at the times `0 … T-1` -/
def Inside (c : Cfg d) (T : Nat) (e : Elem) : Prop :=
  ∃ vs, e.vertices (d + 1) = some vs ∧ ∀ v ∈ vs, InsideV c T v

/-- the value of the series at a spacetime vertex: snapshot number `time`, at the vertex's place (relative
to the start of the array); 0 where there is no such snapshot. -/
def valueAt (c : Cfg d) (series : List Scal) (v : Vtx) : Rat :=
  match series[(v.getD d 0).toNat]? with
  | none => 0
  | some s => s.val (List.zipWith (fun (x : Int) (a : Nat) => x - a) (v.take d) c.astart)

/-- the value exceeds the threshold by at least the precision of the trackers, `2⁻²¹` -/
def Above (c : Cfg d) (series : List Scal) (v : Vtx) : Prop := c.thr + 1 / 2 ^ 21 ≤ valueAt c series v

/-- the edge `e`, with vertices `u` and `v`, lies inside, and exactly one of its vertices is above the
threshold -/
structure CutAt (c : Cfg d) (series : List Scal) (e : Elem) (u v : Vtx) : Prop where
  edge : IsElem (d + 1) 1 e
  verts : e.vertices (d + 1) = some [u, v]
  left : InsideV c series.length u
  right : InsideV c series.length v
  cut : Above c series u ↔ ¬ Above c series v

/-- `e` is an edge inside that the contour cuts -/
def Cut (c : Cfg d) (series : List Scal) (e : Elem) : Prop := ∃ u v, CutAt c series e u v

/-- the boxes have `d` dimensions, there is one process, times start at 0 and the series fits -/
structure Shaped (c : Cfg d) (T : Nat) : Prop where
  pos : 1 ≤ d
  dlen : c.domain.starts.length = d ∧ c.domain.sizes.length = d
  core : c.core = c.domain
  alen : c.astart.length = d
  start : c.t0 = 0
  stop : (T : Int) ≤ c.t1 + 1

/-- the array has a cell for every place of the domain; in 3-D, where the gradient is read at global
coordinates, also without subtracting the start of the array -/
def Covers (c : Cfg d) (s : Scal) : Prop :=
  ∀ p : List Int, Lat.InBox c.domain p →
    Trk.inDims s.dims (List.zipWith (fun (x : Int) (a : Nat) => x - a) p c.astart) = true ∧
    (d = 3 → Trk.inDims s.dims p = true)

/-- number of tasks of a scan over the edges -/
def ntasks (c : Cfg d) (sc : Scope) : Nat := c.core.sizes.prod * (scopeTypes (d + 1) 1 sc).length

/-- every task of the scans is executed exactly once (C07) -/
def Complete (c : Cfg d) (ord : Scope → List Int) : Prop :=
  ∀ sc, (ord sc).Perm ((List.range (ntasks c sc)).map Int.ofNat)

/-- the point at parameter `mu` of the segment from `u` to `v` -/
def onSegment (u v : Vtx) (mu : Rat) : List Rat :=
  List.zipWith (fun (a b : Int) => (1 - mu) * (a : Rat) + mu * (b : Rat)) u v

/-- point number `i` lies on the edge with ends `u`, `v` -/
def OnEdge (inter : List (Elem × Pt)) (u v : Vtx) (i : Nat) : Prop :=
  ∃ e p, inter[i]? = some (e, p) ∧ IsElem 4 1 e ∧ (e.vertices 4 = some [u, v] ∨ e.vertices 4 = some [v, u])

/-- the tetrahedra `ts` decompose the part of the contour in the 4-D simplex `x`: nothing if all five vertices
are on one side; one tetrahedron, with a point on each edge at `i`, if vertex `i` is alone on its side; else the
prism over the two vertices `p`, `q` of one side (points on the edges to `k0 < k1 < k2`) is cut along a staircase -/
def Decomposed (c : Cfg 3) (series : List Scal) (inter : List (Elem × Pt)) (x : Elem) (ts : List (List Nat)) : Prop :=
  ∃ (v : Fin 5 → Vtx) (no : Fin 5 → Fin 5 → Nat), x.vertices 4 = some (List.ofFn v) ∧
    (∀ a b, (Above c series (v a) ↔ ¬ Above c series (v b)) → OnEdge inter (v a) (v b) (no a b)) ∧
    (((∀ a b, Above c series (v a) ↔ Above c series (v b)) ∧ ts = []) ∨
     (∃ i, (∀ j, j ≠ i → (Above c series (v j) ↔ ¬ Above c series (v i))) ∧
        ts = [((List.finRange 5).filter fun j => decide (j ≠ i)).map (no i)]) ∨
     ∃ p q k0 k1 k2 : Fin 5, p ≠ q ∧ k0 < k1 ∧ k1 < k2 ∧ (Above c series (v p) ↔ Above c series (v q)) ∧
        (∀ k, k = k0 ∨ k = k1 ∨ k = k2 → (Above c series (v k) ↔ ¬ Above c series (v p))) ∧
        ts = [[no p k0, no p k1, no p k2, no q k2], [no p k0, no p k1, no q k1, no q k2],
          [no p k0, no q k0, no q k1, no q k2]])

end Verif.Ctr
