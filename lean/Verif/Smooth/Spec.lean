import Verif.UMesh.Spec
import Mathlib.Algebra.BigOperators.Ring.Finset
import Mathlib.Algebra.Field.Basic
/-! # What gradients of a field on a triangle mesh are

Stated on the vertex positions `x`, the values `f` and the input triangle list, without the arrays the code builds. -/
namespace Verif.Smooth
open Verif.UM
variable {K : Type} [Field K]

/-- The triangle has positive area. -/
def Area (x : Int → Fin 2 → K) (t : Tri) : Prop :=
  (x t.2.1 0 - x t.1 0) * (x t.2.2 1 - x t.1 1) - (x t.2.1 1 - x t.1 1) * (x t.2.2 0 - x t.1 0) ≠ 0

/-- `g` is the gradient of the affine function that agrees with `f` at the corners of `t`. -/
def IsGrad (x : Int → Fin 2 → K) (f : Int → K) (t : Tri) (g : Fin 2 → K) : Prop :=
  ∃ c : K, ∀ v, OnTri v t → f v = c + (g 0 * x v 0 + g 1 * x v 1)

open Classical in
/-- The numbers of the triangles at vertex `v`. -/
noncomputable def star (ts : List Tri) (v : Int) : Finset Nat :=
  (Finset.range ts.length).filter fun j => ∃ t, ts[j]? = some t ∧ OnTri v t

end Verif.Smooth
