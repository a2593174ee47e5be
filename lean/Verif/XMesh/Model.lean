import Verif.UMesh.Model

/-!
# Model of the implicit space-time extrusion of an unstructured 2-D mesh

`include/ftk/mesh/simplicial_unstructured_extruded_2d_mesh.hh` (below: `ext`) and
`include/ftk/mesh/simplicial_unstructured_extruded_2d_mesh_implicit.hh` (below: `imp`), for the
whole mesh (`part = false`) and `I = int`, on top of the model `M2` of the base mesh.  Ids are
mathematical integers (no overflow), except that `flat_vertex_time` is modelled with the unsigned
division the code performs.  `floor(double(k) / n)` is the exact floor: for 32-bit `k` and `n` the
rounding of the quotient cannot reach the next integer.  `none` is undefined behaviour or a failed
`assert`.
-/

namespace Verif.XM

open Verif.UM

/-- `v % m` of C++ (truncating); division by zero is undefined. -/
def rem (v m : Int) : Option Int := if m = 0 then none else some (v.tmod m)

/-- `mod(v, m)` (`ext:63-69`): `v % m`, plus `m` whenever `v` is negative. -/
def mod (v m : Int) : Option Int :=
  if m = 0 then none else some (if v < 0 then v.tmod m + m else v.tmod m)

/-- `n(d)` (`imp:124-138`). -/
def n (m : M2) (d : Nat) : Int :=
  match d with
  | 0 => m.n 0
  | 1 => m.n 1 * 2 + m.n 0
  | 2 => m.n 2 + m.n 2 * 2 + m.n 1 * 2
  | 3 => 3 * m.n 2
  | _ => 0

/-- `n_ordinal(d)` (`ext:14`). -/
def nOrdinal (m : M2) (d : Nat) : Int := m.n d

/-- `n_interval(d)` (`imp:140-147`). -/
def nInterval (m : M2) (d : Nat) : Int :=
  match d with
  | 1 => m.n 1 + m.n 0
  | 2 => m.n 2 * 2 + m.n 1 * 2
  | 3 => m.n 2 * 3
  | _ => 0

/-- `is_ordinal(d, i)` (`ext:17-20`). -/
def isOrdinal (m : M2) (d : Nat) (i : Int) : Option Bool := do
  let k ← mod i (n m d)
  some (k < nOrdinal m d)

/-- The ids passed to the callback by `element_for_ordinal(d, t, f)` (`ext:80-93`); the order in
which threads call `f` is not modelled here (see C06 for `parallel_for`). -/
def ordinalIds (m : M2) (d : Nat) (t : Int) : List Int :=
  (List.range (nOrdinal m d).toNat).map (fun (i : Nat) => (i : Int) + t * n m d)

/-- The ids passed to the callback by `element_for_interval(d, t, f)` (`ext:95-110`). -/
def intervalIds (m : M2) (d : Nat) (t : Int) : List Int :=
  (List.range (nInterval m d).toNat).map (fun (i : Nat) => (i : Int) + nOrdinal m d + t * n m d)

/-- `flat_vertex_id(i)` (`ext:22`). -/
def flatId (m : M2) (i : Int) : Option Int := mod i (m.n 0)

/-- `flat_vertex_time(i)` (`ext:23`): `i / m2->n(0)` where `n(0)` is a `size_t`, so a negative `i` is
first converted to `2^64 + i`; the quotient is converted back to `int`. -/
def flatTime (m : M2) (i : Int) : Option Int :=
  if m.n 0 = 0 then none
  else some (if 0 ≤ i then i / (m.n 0) else ((2 ^ 64 + i) / (m.n 0)).bmod (2 ^ 32))

/-- `simplex_type(d, k)` (`imp:579-607`). -/
def simplexType (m : M2) (d : Nat) (k : Int) : Option Int := do
  let i ← mod k (n m d)
  match d with
  | 0 => some 0
  | 1 => some (if i < m.n 1 then 0 else if i < 2 * m.n 1 then 1 else 2)
  | 2 => some (if i < m.n 2 then 0 else if i < 2 * m.n 2 then 1 else if i < 3 * m.n 2 then 2
      else if i < 3 * m.n 2 + m.n 1 then 3 else 4)
  | 3 => if m.n 2 = 0 then none else some (i / m.n 2)
  | _ => none

/-- `get_simplex(1, k, verts)` without the offset (`imp:184-206`): the id and the vertices of the
edge with index `i` and type `type` in its interval. -/
def edgeAt (m : M2) (i type : Int) : Option (Int × List Int) :=
  if type < 2 then do
    let r ← rem i (m.n 1)
    let e ← m.getEdge r
    if type = 0 then some (r, [e.1, e.2])
    else some (r + m.n 1, [e.1, e.2 + m.n 0])
  else some (i, [i - 2 * m.n 1, i - 2 * m.n 1 + m.n 0])

/-- `get_simplex(2, k, verts)` without the offset (`imp:207-255`). -/
def triAt (m : M2) (i type : Int) : Option (Int × List Int) :=
  if type < 3 then do
    let r ← rem i (m.n 2)
    let t ← m.getTriangle r
    if type = 0 then some (r, [t.1, t.2.1, t.2.2])
    else if type = 1 then some (r + m.n 2, [t.1, t.2.1, t.2.2 + m.n 0])
    else some (r + 2 * m.n 2, [t.1, t.2.1 + m.n 0, t.2.2 + m.n 0])
  else do
    let r ← rem (i - 3 * m.n 2) (m.n 1)
    let e ← m.getEdge r
    if type = 3 then some (r + 3 * m.n 2, [e.1, e.2, e.2 + m.n 0])
    else some (r + 3 * m.n 2 + m.n 1, [e.1, e.1 + m.n 0, e.2 + m.n 0])

/-- `get_simplex(3, k, verts)` without the offset (`imp:256-289`). -/
def tetAt (m : M2) (i type : Int) : Option (Int × List Int) := do
  let r ← rem i (m.n 2)
  let t ← m.getTriangle r
  if type = 0 then some (r, [t.1, t.2.1, t.2.2, t.2.2 + m.n 0])
  else if type = 1 then some (r + m.n 2, [t.1, t.2.1, t.2.1 + m.n 0, t.2.2 + m.n 0])
  else if type = 2 then some (r + 2 * m.n 2, [t.1, t.1 + m.n 0, t.2.1 + m.n 0, t.2.2 + m.n 0])
  else none

/-- The `switch` over `d` of `get_simplex` (`imp:180-289`). -/
def simplexAt (m : M2) (d : Nat) (i type : Int) : Option (Int × List Int) :=
  match d with
  | 0 => some (i, [i])
  | 1 => edgeAt m i type
  | 2 => triAt m i type
  | 3 => tetAt m i type
  | _ => none

/-- `get_simplex(d, k, verts)` (`imp:172-294`): the returned id and the `d + 1` vertices. -/
def getSimplex (m : M2) (d : Nat) (k : Int) : Option (Int × List Int) := do
  let i ← mod k (n m d)
  let t := k.fdiv (n m d)
  let type ← simplexType m d i
  let r ← simplexAt m d i type
  some (r.1 + t * n m d, r.2.map (· + t * n m 0))

/-- `bool found = m2->find_triangle(ot, otid); assert(found);` -/
def mustTri (m : M2) (t : Tri) : Option Int := (m.findTriangle t).bind id

/-- `bool found = m2->find_edge(oe, oeid); assert(found);` -/
def mustEdge (m : M2) (e : Edge) : Option Int := (m.findEdge e).bind id

/-- A `std::set` with these four insertions. -/
def set4 (a b c d : Int) : List Int := setInsert d (setInsert c (setInsert b (setInsert a [])))

/-- The branches of `sides(3, k)` (`imp:330-414`): `v` are the vertices, `t` the time. -/
def sidesAt (m : M2) (type t : Int) (v0 v1 v2 v3 : Int) : Option (List Int) :=
  let n2 : Int := m.n 2
  if type = 0 then do
    let ot ← mustTri m (v0, v1, v2)
    let e1 ← mustEdge m (v1, v2)
    let e2 ← mustEdge m (v0, v2)
    some (set4 (ot + t * n m 2) (ot + t * n m 2 + n2) (e1 + n2 * 3 + t * n m 2) (e2 + n2 * 3 + t * n m 2))
  else if type = 1 then do
    let w3 ← mod v3 (m.n 0)
    let ot ← mustTri m (v0, v1, w3)
    let e1 ← mustEdge m (v0, v1)
    let e2 ← mustEdge m (v1, w3)
    some (set4 (ot + n2 + t * n m 2) (ot + n2 * 2 + t * n m 2) (e1 + n2 * 3 + t * n m 2)
      (e2 + n2 * 3 + m.n 1 + t * n m 2))
  else if type = 2 then do
    let w2 ← mod v2 (m.n 0)
    let w3 ← mod v3 (m.n 0)
    let ot ← mustTri m (v0, w2, w3)
    let e1 ← mustEdge m (v0, w2)
    let e2 ← mustEdge m (v0, w3)
    some (set4 (ot + (t + 1) * n m 2) (ot + n2 * 2 + t * n m 2) (e1 + n2 * 3 + m.n 1 + t * n m 2)
      (e2 + n2 * 3 + m.n 1 + t * n m 2))
  else some []

/-- `sides(3, k)` (`imp:318-418`); the vertices are read at index `i`, i.e. at time 0. -/
def sides (m : M2) (k : Int) : Option (List Int) := do
  let i ← mod k (n m 3)
  let t := k.fdiv (n m 3)
  let r ← getSimplex m 3 i
  if m.n 2 = 0 then none
  else match r.2 with
    | [v0, v1, v2, v3] => sidesAt m (i / m.n 2) t v0 v1 v2 v3
    | _ => none

/-- One step of the loop `imp:472-474`. -/
def posStep (ve : Edge) (pos c : Int) : Int :=
  if c < ve.1 then 0 else if ve.1 < c ∧ c < ve.2 then 1 else if ve.2 < c then 2 else pos

/-- `pos` after the loop `imp:470-475`. -/
def posOf (ve : Edge) (vc : Tri) : Int := posStep ve (posStep ve (posStep ve (-1) vc.1) vc.2.1) vc.2.2

/-- The loop `imp:465-493` over the base triangles of an edge. -/
def edgeSides (m : M2) (lower : Bool) (t : Int) (ve : Edge) : List Int → List Int → Option (List Int)
  | [], acc => some acc
  | tri :: l, acc => do
    let vc ← m.getTriangle tri
    let pos := posOf ve vc
    if pos = -1 then none
    else
      let id := if lower then (if pos = 2 then tri + m.n 2 + t * n m 3 else tri + t * n m 3)
        else (if pos = 0 then tri + m.n 2 + t * n m 3 else tri + 2 * m.n 2 + t * n m 3)
      edgeSides m lower t ve l (setInsert id acc)

/-- `side_of(2, k)` before the check (`imp:423-494`). -/
def sideOfRaw (m : M2) (k : Int) : Option (List Int) := do
  let i ← mod k (n m 2)
  let t := k.fdiv (n m 2)
  let r ← getSimplex m 2 k
  match r.2 with
  | [v0, v1, v2] =>
    let w0 ← mod v0 (m.n 0)
    let w1 ← mod v1 (m.n 0)
    let w2 ← mod v2 (m.n 0)
    if i < 3 * m.n 2 then do
      let ot ← mustTri m (w0, w1, w2)
      if i < m.n 2 then
        some (setInsert (ot + t * n m 3) (setInsert (ot + 2 * m.n 2 + (t - 1) * n m 3) []))
      else if i < 2 * m.n 2 then
        some (setInsert (ot + m.n 2 + t * n m 3) (setInsert (ot + t * n m 3) []))
      else
        some (setInsert (ot + 2 * m.n 2 + t * n m 3) (setInsert (ot + m.n 2 + t * n m 3) []))
    else do
      let e ← mustEdge m (w0, w2)
      let S ← m.sideOf1 e
      edgeSides m (i < 3 * m.n 2 + m.n 1) t (w0, w2) S []
  | _ => none

/-- The check `imp:533-557`: every tetrahedron found must have `k` among its sides, else
`assert(false)`. -/
def checkSides (m : M2) (k : Int) : List Int → Option Unit
  | [] => some ()
  | tet :: l => do
    let s ← sides m tet
    if k ∈ s then checkSides m k l else none

/-- `side_of(2, k)` (`imp:420-561`). -/
def sideOf (m : M2) (k : Int) : Option (List Int) := do
  let r ← sideOfRaw m k
  checkSides m k r
  some r

/-- `get_vertex_edge_vertex(i)` (`imp:609-623`). -/
def vertexEdgeVertex (m : M2) (i : Int) : Option (List Int) := do
  let k ← flatId m i
  let t ← flatTime m i
  let vs ← m.vertexEdgeVertex k
  let s := vs.foldl (fun s v0 => setInsert (t * m.n 0 + v0) s) []
  some (setInsert ((t - 1) * m.n 0 + k) (setInsert ((t + 1) * m.n 0 + k) s))

/-- Flat ids and times of the given vertices (`imp:628-637`). -/
def flats (m : M2) : List Int → Option (List (Int × Int))
  | [] => some []
  | v :: vs => do
    let f ← flatId m v
    let t ← flatTime m v
    let r ← flats m vs
    some ((f, t) :: r)

/-- `vset` in increasing order (`imp:636, :646-649`). -/
def vset (l : List (Int × Int)) : List Int := l.foldl (fun s p => setInsert p.1 s) []

/-- Type decision shared by the tetrahedra and prism triangles (`imp:653-665, :671-677`): the base
id, plus 0, 1 or 2 blocks; other times are a failed `assert`. -/
def addType (id n2 a b : Int) : Option Int :=
  if a = 0 ∧ b = 0 then some id
  else if a = 0 ∧ b = 1 then some (id + n2)
  else if a = 1 ∧ b = 1 then some (id + 2 * n2)
  else none

/-- `find_simplex(3, v, id)` (`imp:651-667`); `some none` is `return false`. -/
def find3 (m : M2) (l : List (Int × Int)) : Option (Option Int) :=
  match l, vset l with
  | [p0, p1, p2, p3], a :: b :: c :: _ => do
    let mint := min p0.2 (min p1.2 (min p2.2 p3.2))
    match ← m.findTriangle (a, b, c) with
    | none => some none
    | some id => do
      let id ← addType id (m.n 2) (p1.2 - mint) (p2.2 - mint)
      some (some (id + mint * n m 3))
  | _, _ => none

/-- `find_simplex(2, v, id)` (`imp:668-687`). -/
def find2 (m : M2) (l : List (Int × Int)) : Option (Option Int) :=
  match l, vset l with
  | [p0, p1, p2], [a, b, c] => do
    let mint := min p0.2 (min p1.2 p2.2)
    match ← m.findTriangle (a, b, c) with
    | none => some none
    | some id => do
      let id ← addType id (m.n 2) (p1.2 - mint) (p2.2 - mint)
      some (some (id + mint * n m 2))
  | [p0, p1, p2], [a, b] => do
    let mint := min p0.2 (min p1.2 p2.2)
    match ← m.findEdge (a, b) with
    | none => some none
    | some id =>
      if p1.2 - mint = 0 then some (some (id + 3 * m.n 2 + mint * n m 2))
      else if p1.2 - mint = 1 then some (some (id + 3 * m.n 2 + m.n 1 + mint * n m 2))
      else none
  | _, _ => none

/-- `find_simplex(1, v, id)` (`imp:688-702`). -/
def find1 (m : M2) (l : List (Int × Int)) : Option (Option Int) :=
  match l, vset l with
  | [p0, p1], [a, b] => do
    let mint := min p0.2 p1.2
    match ← m.findEdge (a, b) with
    | none => some none
    | some id =>
      if p1.2 - mint = 0 then some (some (id + mint * n m 1))
      else if p1.2 - mint = 1 then some (some (id + m.n 1 + mint * n m 1))
      else none
  | [p0, p1], [a] => some (some (a + m.n 1 * 2 + min p0.2 p1.2 * n m 1))
  | _, _ => none

/-- `find_simplex(d, v, id)` (`imp:625-704`), `v` holding `d + 1` vertices; for `d = 0` (and `d > 3`)
the code returns `false`. -/
def findSimplex (m : M2) (d : Nat) (v : List Int) : Option (Option Int) := do
  let l ← flats m v
  match d with
  | 1 => find1 m l
  | 2 => find2 m l
  | 3 => find3 m l
  | _ => some none

end Verif.XM
