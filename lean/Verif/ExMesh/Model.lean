import Verif.U3Mesh.Model
import Verif.XMesh.Model
/-!
# The explicit extruded mesh

Model of `include/ftk/mesh/simplicial_unstructured_extruded_2d_mesh_explicit.hh` (`exp` below) on top of the model `U3.M3` of
the tetrahedral mesh of one period.  Ids are mathematical integers.  `none` = an access outside an array, a division by zero
or a failed assertion.  The 2D mesh only enters through its number of vertices.
-/
namespace Verif.ExM
open Verif.U3

/-- The members of the mesh -/
structure Ex where
  /-- `m2->n(0)` -/
  n2 : Nat
  /-- `m3` -/
  m3 : M3
  /-- `m3_ordinal_triangles` -/
  ordT : List Nat
  /-- `m3_interval_triangles` -/
  intT : List Nat
  /-- `m3_ordinal_edges` -/
  ordE : List Nat
  /-- `m3_interval_edges` -/
  intE : List Nat

/-- The loop over the triangles, and that over the edges, in `initialize` (`exp:189-205`, `exp:208-222`) from cell `i` on:
(ordinal, interval). -/
def scan (n0 : Nat) : Nat → List Cell → List Nat × List Nat
  | _, [] => ([], [])
  | i, c :: cs =>
    let r := scan n0 (i + 1) cs
    let allUpper := c.all fun v => ¬ (v < n0)
    let allLower := c.all fun v => v < n0
    if allLower then (i :: r.1, r.2)
    else if ¬ allUpper then (r.1, i :: r.2)
    else r

/-- `initialize` (`exp:183-226`) -/
def mk (n0 : Nat) (m3 : M3) : Ex :=
  ⟨n0, m3, (scan n0 0 m3.tris).1, (scan n0 0 m3.tris).2, (scan n0 0 m3.edges).1, (scan n0 0 m3.edges).2⟩

/-- The ordinal cells of dimension `d` -/
def Ex.ord (m : Ex) (d : Nat) : List Nat := if d = 2 then m.ordT else m.ordE

/-- The interval cells of dimension `d` -/
def Ex.int (m : Ex) (d : Nat) : List Nat := if d = 2 then m.intT else m.intE

/-- `n` (`exp:45-57`); the difference is assumed not negative. -/
def Ex.n (m : Ex) (d : Nat) : Int :=
  if d = 3 then (m.m3.n 3 : Int)
  else if d = 2 ∨ d = 1 then ((m.ord d).length + (m.int d).length : Nat)
  else (m.m3.n d : Int) - m.n2

/-- The id in `m3` of the cell `i` of the period (`exp:87-98`) -/
def Ex.idOf (m : Ex) (d : Nat) (i : Int) : Option Int :=
  if d = 3 then some i
  else if d = 2 ∨ d = 1 then
    if i < (m.ord d).length then (UM.read (m.ord d) i).map fun (x : Nat) => (x : Int)
    else (UM.read (m.int d) (i - (m.ord d).length)).map fun (x : Nat) => (x : Int)
  else none

/-- `get_simplex` (`exp:80-106`) -/
def Ex.get (m : Ex) (d : Nat) (k : Int) : Option Cell := do
  let i ← XM.mod k (m.n d)
  let t := k.fdiv (m.n d)
  let j ← m.idOf d i
  let c ← m.m3.get d j
  some (c.map fun (v : Int) => v + t * m.n 0)

/-- `normalize` (`exp:152-180`): the loops run over the first `d` of the `d + 1` vertices. -/
def Ex.normalize (m : Ex) (d : Nat) (k : Int) : Option Int :=
  if d = 0 ∨ d = 3 then some k
  else do
    let i ← XM.mod k (m.n d)
    let t := k.fdiv (m.n d)
    let c ← m.m3.get d i
    if (c.take d).all fun v => ¬ (v < m.m3.n 0) then do
      let r ← m.m3.find d (((c.take d).map fun (v : Int) => v - (m.m3.n 0 : Int)) ++ c.drop d)
      let j ← r
      some (j + t * m.n d)
    else some k

/-- The inner part of the loops in `sides` and `side_of`: normalise and insert (`exp:116-117`, `exp:129-130`) -/
def Ex.gather (m : Ex) (d : Nat) (off : Int) : List Int → List Int → Option (List Int)
  | [], acc => some acc
  | s :: ss, acc => do
    let x ← m.normalize d (s + off)
    m.gather d off ss (setInsert x acc)

/-- `sides` (`exp:109-120`) -/
def Ex.sides (m : Ex) (d : Nat) (k : Int) : Option (List Int) := do
  let i ← XM.mod k (m.n d)
  let t := k.fdiv (m.n d)
  m.gather d (t * m.n d) (m.m3.sides d i) []

/-- `!pure` (`exp:135-140`): one of the first `d` vertices is not below `m3->n(0)` -/
def Ex.notPure (m : Ex) (d : Nat) (i : Int) : Option Bool :=
  if d = 0 then some false
  else (m.m3.get d i).map fun c => (c.take d).any fun v => ¬ (v < m.m3.n 0)

/-- `side_of` (`exp:123-149`) -/
def Ex.sideOf (m : Ex) (d : Nat) (k : Int) : Option (List Int) := do
  let i ← XM.mod k (m.n d)
  let t := k.fdiv (m.n d)
  let s ← m.m3.sideOf d i
  let r ← m.gather (d + 1) (t * m.n d) s []
  let np ← m.notPure d i
  if np then do
    let s' ← m.m3.sideOf d (i + m.n d)
    m.gather (d + 1) ((t - 1) * m.n d) s' r
  else some r

end Verif.ExM
