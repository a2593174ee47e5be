import Verif.Quad.Model
/-! Specification for the point locator: triangles as convex hulls. -/
namespace Verif.Quad

/-- `a, b, c` are barycentric coordinates of `x`: non-negative, of sum 1, and `x = a p1 + b p2 + c p3`. -/
def IsBary (x : P2) (t : Tri) (m : Rat × Rat × Rat) : Prop :=
  0 ≤ m.1 ∧ 0 ≤ m.2.1 ∧ 0 ≤ m.2.2 ∧ m.1 + m.2.1 + m.2.2 = 1 ∧
  x.1 = m.1 * t.p1.1 + m.2.1 * t.p2.1 + m.2.2 * t.p3.1 ∧ x.2 = m.1 * t.p1.2 + m.2.1 * t.p2.2 + m.2.2 * t.p3.2

/-- `x` is a point of the closed triangle `t`. -/
def InTri (x : P2) (t : Tri) : Prop := ∃ m, IsBary x t m

/-- the vertices are not on one line: twice the signed area is not 0 -/
def Nondeg (t : Tri) : Prop :=
  (t.p2.1 - t.p1.1) * (t.p3.2 - t.p1.2) - (t.p2.2 - t.p1.2) * (t.p3.1 - t.p1.1) ≠ 0

/-- centre of gravity -/
def centroid (t : Tri) : P2 := ((t.p1.1 + t.p2.1 + t.p3.1) / 3, (t.p1.2 + t.p2.2 + t.p3.2) / 3)

/-- some vertex is further right, and some vertex is further up, than `x`. -/
def NotMax (x : P2) (t : Tri) : Prop :=
  (x.1 < t.p1.1 ∨ x.1 < t.p2.1 ∨ x.1 < t.p3.1) ∧ (x.2 < t.p1.2 ∨ x.2 < t.p2.2 ∨ x.2 < t.p3.2)

/-- A mesh the locator is meant for: the triangles are given by existing vertices, none is degenerate, no two have the same
centre of gravity (two triangles without common interior points never have). -/
structure Mesh (verts : List P2) (conn : List (Nat × Nat × Nat)) (tris : List Tri) : Prop where
  resolved : resolve verts conn = some tris
  nondeg : ∀ t ∈ tris, Nondeg t
  centroids : tris.Pairwise fun s t => centroid s ≠ centroid t

/-- the ids of the triangles in the leaves of the tree, from left to right -/
def QTree.ids : QTree → List Nat
  | .nil => []
  | .leaf _ e => [e.id]
  | .node _ a b c d => a.ids ++ b.ids ++ c.ids ++ d.ids

end Verif.Quad
