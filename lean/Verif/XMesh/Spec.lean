import Verif.UMesh.Spec
import Verif.XMesh.Model

/-!
# What the extruded mesh is

A space-time vertex is an integer `v`: base vertex `v mod n0` at time `⌊v / n0⌋`.  The extruded mesh
is the product of the base triangulation with the time line, cut in the standard way: its simplices
are the chains of the product order (base vertex, time) that stay within one time interval and lie
over one base simplex.  Stated without any id, type or table of the code.
-/

namespace Verif.XM

open Verif.UM

/-- The base vertex below space-time vertex `v`. -/
def below (n0 : Nat) (v : Int) : Int := v % n0

/-- The time of space-time vertex `v`. -/
def time (n0 : Nat) (v : Int) : Int := v / n0

/-- `vs`, in this order, are the vertices of a simplex of the extruded mesh. -/
structure Simplex (n0 : Nat) (ts : List Tri) (vs : List Int) : Prop where
  /-- a chain of the product order, no vertex twice -/
  chain : vs.Pairwise (fun u v => u ≠ v ∧ below n0 u ≤ below n0 v ∧ time n0 u ≤ time n0 v)
  /-- within one time interval -/
  thin : ∀ u ∈ vs, ∀ v ∈ vs, time n0 v ≤ time n0 u + 1
  /-- over one vertex, or over (a face of) one base triangle -/
  base : (∀ u ∈ vs, ∀ v ∈ vs, below n0 u = below n0 v) ∨ ∃ t ∈ ts, ∀ v ∈ vs, OnTri (below n0 v) t

/-- An id the code decodes correctly: `mod` is wrong exactly at the negative multiples. -/
def Good (m : M2) (d : Nat) (k : Int) : Prop := 0 ≤ k ∨ ¬ n m d ∣ k

end Verif.XM
