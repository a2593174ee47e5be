import Verif.U3Mesh.Model

/-!
# What a tetrahedral mesh is

Stated on the input list of tetrahedra alone, without any of the tables the code builds.
-/

namespace Verif.U3

/-- `v` is a corner of the tetrahedron. -/
def OnTet (v : Int) (t : Tet) : Prop := v = t.1 ∨ v = t.2.1 ∨ v = t.2.2.1 ∨ v = t.2.2.2

/-- A legal input: `n0` vertices, each tetrahedron has four different corners, all of them existing
vertices, and no two tetrahedra have the same corners.  Any number of tetrahedra may share a face. -/
structure Valid (n0 : Nat) (ts : List Tet) : Prop where
  range : ∀ t ∈ ts, ∀ v, OnTet v t → 0 ≤ v ∧ v < n0
  distinct : ∀ t ∈ ts, [t.1, t.2.1, t.2.2.1, t.2.2.2].Nodup
  nodup : ∀ (i j : Nat) (s t : Tet), ts[i]? = some s → ts[j]? = some t → (∀ v, OnTet v s ↔ OnTet v t) → i = j

/-- `c` is a cell of dimension `d` of the mesh, its corners in increasing order: `d + 1` different
corners of one of the tetrahedra. -/
structure IsCell (ts : List Tet) (d : Nat) (c : List Int) : Prop where
  len : c.length = d + 1
  incr : c.Pairwise (· < ·)
  on : ∃ t ∈ ts, ∀ v ∈ c, OnTet v t

/-- Order of the ids: `c` comes before `c'` when it is smaller at the first place they differ. -/
def Before (c c' : List Int) : Prop :=
  ∃ p a b q q', c = p ++ a :: q ∧ c' = p ++ b :: q' ∧ a < b

end Verif.U3
