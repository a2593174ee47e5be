import Verif.Mesh.Model
/-! Specification: the simplices of Kuhn's triangulation. -/
namespace Verif.SRM

/-- componentwise strictly below: `u ≤ v` in every coordinate and `u ≠ v` -/
def VLt (u v : Vtx) : Prop := List.Forall₂ (· ≤ ·) u v ∧ u ≠ v

/-- a vertex of the unit `n`-cube -/
def Cube (n : Nat) (v : Vtx) : Prop := v.length = n ∧ ∀ x ∈ v, x = 0 ∨ x = 1

/-- a `k`-simplex of Kuhn's triangulation attached to the origin: `k+1` vertices of the unit cube,
the first the origin, each componentwise strictly above the one before. -/
structure Kuhn (n k : Nat) (s : Simplex) : Prop where
  len : s.length = k + 1
  cube : ∀ v ∈ s, Cube n v
  head : s.head? = some (List.replicate n 0)
  chain : s.Pairwise VLt

/-- the lattice points `f`'s vertex list is `e`'s with exactly one vertex left out -/
def DropsOne (e f : Simplex) : Prop := ∃ i, i < e.length ∧ f = e.eraseIdx i

/-- the corner lies within the bounds: `lb[i] ≤ c[i] ≤ ub[i]` in every dimension -/
def InBounds (b : Bounds) (c : Vtx) : Prop :=
  c.length = b.lb.length ∧ ∀ (i : Nat) (l u x : Int), b.lb[i]? = some l → b.ub[i]? = some u →
    c[i]? = some x → l ≤ x ∧ x ≤ u

/-- `e` is an element of the mesh with bounds `b`: existing dimension and type, corner within bounds -/
structure Valid (n : Nat) (b : Bounds) (e : Elem) : Prop where
  dim : e.dim ≤ n
  type : e.type < ntypes n e.dim
  corner : InBounds b e.corner

/-- the last coordinate (time) of a vertex is `t` -/
def AtTime (n : Nat) (v : Vtx) (t : Int) : Prop := v[n - 1]? = some t

end Verif.SRM
