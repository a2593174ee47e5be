import Verif.UMesh.Model
import Mathlib.GroupTheory.Perm.Sign

/-!
# What a triangle mesh is

Stated on the input triangle list alone, without any of the arrays the code builds.
-/

namespace Verif.UM

/-- `v` is a corner of the triangle. -/
def OnTri (v : Int) (t : Tri) : Prop := v = t.1 ∨ v = t.2.1 ∨ v = t.2.2

/-- The two triangles have the same corners (in any order). -/
def SameTri (s t : Tri) : Prop := ∀ v, OnTri v s ↔ OnTri v t

/-- A legal input: `n0` vertices, each triangle has three different corners, all of them existing
vertices, no triangle occurs twice, and no three triangles share a pair of corners. -/
structure Valid (n0 : Nat) (ts : List Tri) : Prop where
  range : ∀ t ∈ ts, ∀ v, OnTri v t → 0 ≤ v ∧ v < n0
  distinct : ∀ t ∈ ts, t.1 ≠ t.2.1 ∧ t.1 ≠ t.2.2 ∧ t.2.1 ≠ t.2.2
  nodup : ∀ (i j : Nat) (s t : Tri), ts[i]? = some s → ts[j]? = some t → SameTri s t → i = j
  manifold : ∀ (i j k : Nat) (r s t : Tri) (u v : Int), i < j → j < k → ts[i]? = some r →
    ts[j]? = some s → ts[k]? = some t → u ≠ v →
    ¬ (OnTri u r ∧ OnTri v r ∧ OnTri u s ∧ OnTri v s ∧ OnTri u t ∧ OnTri v t)

/-- `u` and `v` are joined by an edge of the mesh. -/
def Joined (ts : List Tri) (u v : Int) : Prop := u ≠ v ∧ ∃ t ∈ ts, OnTri u t ∧ OnTri v t

/-- `order` is an iteration order: it only rearranges the entries. -/
def IsOrder (order : List (Edge × Int) → List (Edge × Int)) : Prop := ∀ l, (order l).Perm l

/-- The corners of a triangle as a function. -/
def corner (t : Tri) : Fin 3 → Int := ![t.1, t.2.1, t.2.2]

end Verif.UM
