import Verif.XMesh.Model
import Mathlib.Data.List.Sort

/-!
# Model of the periodic 3-D mesh of poloidal planes

`include/ftk/mesh/simplicial_xgc_3d_mesh.hh` (below: `xgc`): the extrusion `m3` of a 2-D triangulation `m2`
(`Verif.XM`) closed to a torus of `np` planes.  `I = int` is unbounded.  `none` is undefined behaviour, a failed
`assert` or an endless loop.
-/

namespace Verif.XGC

open Verif.UM Verif.XM

/-- The mesh: `m2`, and the numbers of planes (`xgc:133-135`). -/
structure G where
  m : M2
  nphi : Int
  iphi : Int
  vphi : Int

/-- `np()` (`xgc:22`), for a product that is not negative. -/
def G.np (g : G) : Int := g.nphi * g.iphi * g.vphi

/-- `n(d)` (`xgc:193-198`). -/
def G.n (g : G) (d : Nat) : Int := XM.n g.m d * g.np

/-- `while (i < 0) i += n(d);` (`xgc:252`), at most `fuel` times; `none` = the loop does not end (each round adds at
least one when `n(d)` is positive, and never ends otherwise). -/
def up (N : Int) : Nat → Int → Option Int
  | 0, i => if 0 ≤ i then some i else none
  | fuel + 1, i => if 0 ≤ i then some i else up N fuel (i + N)

/-- `transform(d, i)` (`xgc:249-254`). -/
def G.transform (g : G) (d : Nat) (i : Int) : Option Int := (up (g.n d) (-i).toNat i).bind fun j => rem j (g.n d)

/-- `transform` of all (`xgc:207-208`, :224). -/
def G.transforms (g : G) (d : Nat) : List Int → Option (List Int)
  | [] => some []
  | v :: vs => do
    let w ← g.transform d v
    let ws ← g.transforms d vs
    some (w :: ws)

/-- `std::sort` of integers. -/
def sort (l : List Int) : List Int := l.insertionSort (· ≤ ·)

/-- A `std::set` of integers with these inserted. -/
def toSet (l : List Int) : List Int := l.foldl (fun s x => setInsert x s) []

/-- `get_simplex(d, i, verts)` (`xgc:201-210`). -/
def G.getSimplex (g : G) (d : Nat) (i : Int) : Option (List Int) := do
  let j ← g.transform d i
  let r ← XM.getSimplex g.m d j
  let vs ← g.transforms 0 r.2
  some (sort vs)

/-- `t[i] = v[i] / m2->n(0)` for all (`xgc:225`): the same unsigned division as `flat_vertex_time`. -/
def G.planes (g : G) : List Int → Option (List Int)
  | [] => some []
  | v :: vs => do
    let t ← flatTime g.m v
    let ts ← g.planes vs
    some (t :: ts)

/-- The loop `xgc:231-233`, for `crossed`. -/
def lift (N : Int) : List Int → List Int → List Int
  | v :: vs, t :: ts => (if t = 0 then v + N else v) :: lift N vs ts
  | _, _ => []

/-- `find_simplex(d, v, i)` (`xgc:213-246`), `v` holding `d + 1` vertices: the id (`assert(succ)`). -/
def G.findSimplex (g : G) (d : Nat) (v : List Int) : Option Int := do
  let vs ← g.transforms 0 v
  let ts ← g.planes v
  let crossed := ts.any (fun t => t = 0) && ts.any (fun t => t = g.np - 1)
  let ws := if crossed then lift (g.n 0) vs ts else vs
  match ← XM.findSimplex g.m d (sort ws) with
  | none => none
  | some k => g.transform d k

/-- `sides(3, i)` (`xgc:257-264`). -/
def G.sides (g : G) (i : Int) : Option (List Int) := do
  let e ← g.transform 3 i
  let S ← XM.sides g.m e
  let R ← g.transforms 2 S
  some (toSet R)

/-- `side_of(2, i)` (`xgc:267-276`). -/
def G.sideOf (g : G) (i : Int) : Option (List Int) := do
  let f ← g.transform 2 i
  let S ← XM.sideOf g.m f
  let R ← g.transforms 3 S
  some (toSet R)

/-- `get_vertex_edge_vertex(i)` (`xgc:279-285`). -/
def G.vertexEdgeVertex (g : G) (i : Int) : Option (List Int) := do
  let S ← XM.vertexEdgeVertex g.m i
  let R ← g.transforms 0 S
  some (toSet R)

/-- `get_poloidal(d, i)` (`xgc:44`): `i / m3->n(d)`, for `i` not negative. -/
def G.getPoloidal (g : G) (d : Nat) (i : Int) : Option Int := if XM.n g.m d = 0 then none else some (i.tdiv (XM.n g.m d))

/-- `is_poloidal(d, i)` (`xgc:33`). -/
def G.isPoloidal (g : G) (d : Nat) (i : Int) : Option Bool := XM.isOrdinal g.m d i

/-- `is_actual_poloidal(d, i)` (`xgc:34-42`). -/
def G.isActualPoloidal (g : G) (d : Nat) (i : Int) : Option Bool := do
  if ← XM.isOrdinal g.m d i then
    match ← g.getSimplex d i with
    | [] => none
    | v :: _ => do
      let t ← flatTime g.m v
      let r ← rem t g.vphi
      some (r = 0)
  else some false

end Verif.XGC
