import Verif.U3Mesh.Props
import Verif.XGC.Lemmas
/-!
# Field-following XGC mesh

Model of `include/ftk/mesh/simplicial_xgc_3dff_mesh.hh` (`ff` below).  The unit mesh `um` between two poloidal planes is a
tetrahedral mesh `U3.M3` on the vertices `0 .. n0-1` of the first and `n0 .. 2 n0 - 1` of the second plane; `none` for the
pointer is `nullptr`.  Integers are unbounded and simplex numbers are not negative.  The outer `none` is undefined behaviour
(null pointer, division by zero, access outside an array).
-/
namespace Verif.FF
open Verif.U3

/-- A field-following mesh -/
structure Mesh where
  /-- `m2->n(0)` -/
  n0 : Nat
  /-- `np()`, the number of planes -/
  np : Nat
  /-- `um` (`ff:30`) -/
  um : Option M3

/-- `n(d)` (`ff:48-53`) -/
def Mesh.n (m : Mesh) (d : Nat) : Option Nat :=
  if d = 0 then some (m.n0 * m.np)
  else if d = 3 then m.um.map fun u => u.n 3 * m.np
  else some 0

/-- `get_simplex(d, i, verts)` (`ff:55-72`): the content of `verts` afterwards.  (The arithmetic is unsigned in the code; here
`Int` with values that are never negative.) -/
def Mesh.get (m : Mesh) (d i : Nat) (verts : List Int) : Option (List Int) :=
  if d = 3 then
    match m.um with
    | none => none
    | some u =>
      if u.n 3 = 0 then none
      else match u.get 3 ((i % u.n 3 : Nat) : Int) with
        | none => none
        | some c =>
          if m.n0 * m.np = 0 then none
          else some (XGC.sort (c.map fun (v : Int) =>
            (((i / u.n 3 : Nat) : Int) * (m.n0 : Int) + v) % ((m.n0 * m.np : Nat) : Int)))
  else some verts

/-- `find_simplex(d, v, i)` (`ff:27`) -/
def Mesh.find (_ : Mesh) (_ : Nat) (_ : List Int) : Option Nat := none

/-- `initialize_ff_mesh(filename)` (`ff:35-46`); `file` is the mesh in the file if the file exists.  `initialize_ff_mesh()`
(`ff:17`) does nothing; `write_ff_mesh` (`ff:20`) dereferences `um`. -/
def Mesh.init (m : Mesh) (file : Option M3) : Option Mesh :=
  match file with
  | some u => some { m with um := some u }
  | none => match m.um with
    | none => none
    | some _ => some m

end Verif.FF
