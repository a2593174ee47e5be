import Verif.XGC.Model
import Verif.XMesh.Spec

/-!
# What the torus mesh is

A vertex is an integer `v` in `0 … n0·np-1`: base vertex `v mod n0` in plane `⌊v / n0⌋`.  The simplices are those of the
infinite stack of planes (`XM.Simplex`), planes being counted modulo `np`.
-/

namespace Verif.XGC

open Verif.UM Verif.XM

/-- Vertex `v` of the infinite stack, on the torus. -/
def wrap (n0 np v : Int) : Int := v % (n0 * np)

/-- The plane of a vertex. -/
def plane (n0 : Nat) (v : Int) : Int := v / n0

/-- `vs`, in any order, are the vertices of a simplex of the torus. -/
def OnTorus (n0 : Nat) (ts : List Tri) (np : Int) (vs : List Int) : Prop :=
  ∃ us, Simplex n0 ts us ∧ vs.Perm (us.map (wrap n0 np))

/-- `v` is a vertex of the torus. -/
def IsVertex (n0 : Nat) (np v : Int) : Prop := 0 ≤ v ∧ v < n0 * np

end Verif.XGC
