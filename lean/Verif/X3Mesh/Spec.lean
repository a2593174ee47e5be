import Verif.U3Mesh.Spec
import Verif.X3Mesh.Model

/-!
# What the extruded 4-D mesh is

A space-time vertex is an integer `v`: base vertex `v mod n0` at time `⌊v / n0⌋`.  The extruded mesh
is the product of the base mesh with the time line, cut in the standard way: its simplices are the
chains of the product order (base vertex, time) that stay within one time interval and lie over one
base simplex.  Stated without any id, type or table of the code.
-/

namespace Verif.X3

open Verif.U3

/-- The base vertex below space-time vertex `v`. -/
def below (n0 : Nat) (v : Int) : Int := v % n0

/-- The time of space-time vertex `v`. -/
def time (n0 : Nat) (v : Int) : Int := v / n0

/-- `vs`, in this order, are the vertices of a simplex of the extruded mesh. -/
structure Simplex (n0 : Nat) (ts : List Tet) (vs : List Int) : Prop where
  /-- a chain of the product order, no vertex twice -/
  chain : vs.Pairwise (fun u v => u ≠ v ∧ below n0 u ≤ below n0 v ∧ time n0 u ≤ time n0 v)
  /-- within one time interval -/
  thin : ∀ u ∈ vs, ∀ v ∈ vs, time n0 v ≤ time n0 u + 1
  /-- over one vertex, or over (a face of) one base tetrahedron -/
  base : (∀ u ∈ vs, ∀ v ∈ vs, below n0 u = below n0 v) ∨ ∃ t ∈ ts, ∀ v ∈ vs, OnTet (below n0 v) t

/-- An id the code decodes correctly: `mod` is wrong exactly at the negative multiples. -/
def Good (m : M3) (d : Nat) (k : Int) : Prop := 0 ≤ k ∨ ¬ n m d ∣ k

/-- A numbering of the pentachora (4-simplices) of the extruded mesh by their ids, with which the
code's `get_simplex`, `sides` and `side_of` agree. -/
structure Numbering (n0 : Nat) (ts : List Tet) (m : M3) (P : Int → List Int) : Prop where
  /-- every id is a pentachoron that starts in the interval the id says -/
  simplex : ∀ k, (P k).length = 5 ∧ Simplex n0 ts (P k) ∧ ∃ v l, P k = v :: l ∧ time n0 v = k / n m 4
  /-- every pentachoron has an id -/
  every : ∀ vs, vs.length = 5 → Simplex n0 ts vs → ∃ k, P k = vs
  /-- and only one -/
  one : ∀ k k', P k = P k' → k = k'
  /-- `get_simplex` returns it, except for the pentachora with the lowest corner at both times -/
  get : ∀ k, Good m 4 k → simplexType m 4 k ≠ some 3 → getSimplex m 4 k = some (P k)
  /-- `sides(4, k)` are its five facets -/
  sides : ∀ k, 0 ≤ k → ∃ S, X3.sides m 4 k = some S ∧ S.Pairwise (· < ·) ∧ S.length = 5 ∧
    ∀ x, x ∈ S ↔ 0 ≤ x ∧ ∃ ws, getSimplex m 3 x = some ws ∧ ∀ w ∈ ws, w ∈ P k
  /-- `side_of(3, x)` are the pentachora of which `x` is a facet -/
  sideOf : ∀ x ws, 0 ≤ x → getSimplex m 3 x = some ws → ∃ S, X3.sideOf m 3 x = some S ∧ S.Pairwise (· < ·) ∧ S ≠ [] ∧
    ∀ k, k ∈ S ↔ ∀ w ∈ ws, w ∈ P k

end Verif.X3
