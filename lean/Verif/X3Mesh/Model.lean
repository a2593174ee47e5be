import Verif.U3Mesh.Model
import Verif.XMesh.Model

/-!
# Model of the space-time extrusion of an unstructured 3-D mesh

`include/ftk/mesh/simplicial_unstructured_extruded_3d_mesh.hh` (below: `x3`) with `I = int`, on top of
the model `M3` of the base mesh.  Ids are mathematical integers (no overflow); `floor(double(k) / n)`
is the exact floor (for 32-bit `k` and `n` the rounding of the quotient cannot reach the next
integer).  `none` is undefined behaviour or a failed `assert`.  `mod` and `%` are those of the 2-D
extrusion (`XM.mod`, `XM.rem`; `x3:67-72` has the same text).  The long `if`/`switch` chains of the
code are written as tables, one entry per branch, in the order of the code.
-/

namespace Verif.X3

open Verif.U3
open Verif.XM (mod rem)

/-- Vertex `j` of a base simplex, at the lower time. -/
abbrev lo (j : Nat) : Nat × Int := (j, 0)

/-- Vertex `j` of a base simplex, at the upper time (`+ m->n(0)`). -/
abbrev up (j : Nat) : Nat × Int := (j, 1)

/-- The vertices a `switch` case writes, from the base simplex `c`. -/
def vertsOf (m : M3) (c : Cell) (pat : List (Nat × Int)) : List Int :=
  pat.map (fun p => c.getD p.1 0 + p.2 * m.n 0)

/-- `n(d)` (`x3:208-221`). -/
def n (m : M3) (d : Nat) : Int :=
  match d with
  | 0 => m.n 0
  | 1 => 2 * m.n 1 + m.n 0
  | 2 => 3 * m.n 2 + 2 * m.n 1
  | 3 => 4 * m.n 3 + 3 * m.n 2
  | 4 => 4 * m.n 3
  | _ => 0

/-- `n_ordinal(d)` (`x3:13`). -/
def nOrdinal (m : M3) (d : Nat) : Int := if d = 4 then m.n 3 * 4 else m.n d

/-- `n_interval(d)` (`x3:224-231`). -/
def nInterval (m : M3) (d : Nat) : Int :=
  match d with
  | 1 => m.n 1 + m.n 0
  | 2 => 2 * m.n 2 + 2 * m.n 1
  | 3 => 3 * m.n 3 + 3 * m.n 2
  | 4 => 4 * m.n 3
  | _ => 0

/-- `is_ordinal(d, i)` (`x3:16-19`). -/
def isOrdinal (m : M3) (d : Nat) (i : Int) : Option Bool := do
  let k ← mod i (n m d)
  some (k < nOrdinal m d)

/-- The ids passed to the callback by `element_for_ordinal(d, t, f)` (`x3:243-251`); the order in which
threads call `f` is not modelled here (see C06 for `parallel_for`). -/
def ordinalIds (m : M3) (d : Nat) (t : Int) : List Int :=
  (List.range (nOrdinal m d).toNat).map (fun (i : Nat) => (i : Int) + t * n m d)

/-- The ids passed to the callback by `element_for_interval(d, t, f)` (`x3:254-267`). -/
def intervalIds (m : M3) (d : Nat) (t : Int) : List Int :=
  (List.range (nInterval m d).toNat).map (fun (i : Nat) => (i : Int) + nOrdinal m d + t * n m d)

/-- `flat_vertex_id(i)` (`x3:21`). -/
def flatId (m : M3) (i : Int) : Option Int := mod i (m.n 0)

/-- `flat_vertex_time(i)` (`x3:22`): a true floor (unlike the 2-D mesh). -/
def flatTime (m : M3) (i : Int) : Option Int := if m.n 0 = 0 then none else some (i.fdiv (m.n 0))

/-- The type of the simplex with index `i` in its interval (`x3:1270-1297`). -/
def typeOf (m : M3) (d : Nat) (i : Int) : Option Int :=
  match d with
  | 0 => some 0
  | 1 => some (if i < m.n 1 then 0 else if i < 2 * m.n 1 then 1 else 2)
  | 2 => some (if i < m.n 2 then 0 else if i < 2 * m.n 2 then 1 else if i < 3 * m.n 2 then 2
      else if i < 3 * m.n 2 + m.n 1 then 3 else 4)
  | 3 => some (if i < m.n 3 then 0 else if i < 2 * m.n 3 then 1 else if i < 3 * m.n 3 then 2
      else if i < 4 * m.n 3 then 3 else if i < 4 * m.n 3 + m.n 2 then 4
      else if i < 4 * m.n 3 + 2 * m.n 2 then 5 else 6)
  | 4 => if m.n 3 = 0 then none else some (i / m.n 3)
  | _ => none

/-- `simplex_type(d, k)` (`x3:1266-1302`). -/
def simplexType (m : M3) (d : Nat) (k : Int) : Option Int := do
  let i ← mod k (n m d)
  typeOf m d i

/-- `x3:284-292`, the edges over a base edge. -/
def edgePat (type : Int) : Option (List (Nat × Int)) :=
  match type with
  | 0 => some [lo 0, lo 1]
  | 1 => some [lo 0, up 1]
  | _ => none

/-- `x3:302-340`, the triangles over a base triangle and over a base edge. -/
def triPat (type : Int) : Option (List (Nat × Int)) :=
  match type with
  | 0 => some [lo 0, lo 1, lo 2]
  | 1 => some [lo 0, lo 1, up 2]
  | 2 => some [lo 0, up 1, up 2]
  | 3 => some [lo 0, lo 1, up 1]
  | 4 => some [lo 0, up 0, up 1]
  | _ => none

/-- `x3:346-405`, the tetrahedra over a base tetrahedron and over a base triangle. -/
def tetPat (type : Int) : Option (List (Nat × Int)) :=
  match type with
  | 0 => some [lo 0, lo 1, lo 2, lo 3]
  | 1 => some [lo 0, lo 1, lo 2, up 3]
  | 2 => some [lo 0, lo 1, up 2, up 3]
  | 3 => some [lo 0, up 1, up 2, up 3]
  | 4 => some [lo 0, lo 1, lo 2, up 2]
  | 5 => some [lo 0, lo 1, up 1, up 2]
  | 6 => some [lo 0, up 0, up 1, up 2]
  | _ => none

/-- `x3:411-446`, the pentachora over a base tetrahedron.  The last case of the code writes `tet[1]'`
twice and never `tet[0]'`. -/
def pentPat (type : Int) : Option (List (Nat × Int)) :=
  match type with
  | 0 => some [lo 0, lo 1, lo 2, lo 3, up 3]
  | 1 => some [lo 0, lo 1, lo 2, up 2, up 3]
  | 2 => some [lo 0, lo 1, up 1, up 2, up 3]
  | 3 => some [lo 0, up 1, up 1, up 2, up 3]
  | _ => none

/-- The body of `get_simplex` for the simplex with index `i` in its interval (`x3:277-447`). -/
def simplexAt (m : M3) (d : Nat) (i type : Int) : Option (List Int) :=
  match d with
  | 0 => some [i]
  | 1 =>
    if type < 2 then do
      let r ← rem i (m.n 1)
      let c ← m.get 1 r
      let p ← edgePat type
      some (vertsOf m c p)
    else some [i - 2 * m.n 1, i - 2 * m.n 1 + m.n 0]
  | 2 =>
    if type < 3 then do
      let r ← rem i (m.n 2)
      let c ← m.get 2 r
      let p ← triPat type
      some (vertsOf m c p)
    else do
      let r ← rem (i - 3 * m.n 2) (m.n 1)
      let c ← m.get 1 r
      let p ← triPat type
      some (vertsOf m c p)
  | 3 =>
    if type < 4 then do
      let r ← rem i (m.n 3)
      let c ← m.get 3 r
      let p ← tetPat type
      some (vertsOf m c p)
    else do
      let r ← rem (i - 4 * m.n 3) (m.n 2)
      let c ← m.get 2 r
      let p ← tetPat type
      some (vertsOf m c p)
  | 4 => do
    let r ← rem i (m.n 3)
    let c ← m.get 3 r
    let p ← pentPat type
    some (vertsOf m c p)
  | _ => none

/-- `get_simplex(d, k, verts)` (`x3:270-451`): the `d + 1` vertices. -/
def getSimplex (m : M3) (d : Nat) (k : Int) : Option (List Int) := do
  let i ← mod k (n m d)
  let t := k.fdiv (n m d)
  let type ← simplexType m d i
  let vs ← simplexAt m d i type
  some (vs.map (· + t * n m 0))

/-! ## `sides` -/

/-- The offset of the ids of a type within their interval: `0`, `m->n(3)`, …, `4*m->n(3) + 2*m->n(2)`. -/
def off (m : M3) (d : Nat) (type : Nat) : Int :=
  match d with
  | 2 => match type with
    | 0 => 0
    | 1 => m.n 2
    | 2 => 2 * m.n 2
    | 3 => 3 * m.n 2
    | _ => 3 * m.n 2 + m.n 1
  | 3 => match type with
    | 0 => 0
    | 1 => m.n 3
    | 2 => 2 * m.n 3
    | 3 => 3 * m.n 3
    | 4 => 4 * m.n 3
    | 5 => 4 * m.n 3 + m.n 2
    | _ => 4 * m.n 3 + 2 * m.n 2
  | _ => type * m.n 3

/-- One block of `sides`: `const I ot[] = {…}; bool found = m->find_simplex(d, ot, otid); assert(found);`
followed by `results.insert(otid + (t + dt) * n(e) + offset(type))` for each of `adds`. -/
structure Look where
  /-- dimension of the base simplex looked for -/
  d : Nat
  /-- which of the vertices, and whether they go through `mod(·, m->n(0))` -/
  vs : List (Nat × Bool)
  /-- types and time shifts of the ids inserted -/
  adds : List (Nat × Int)
deriving DecidableEq, Repr

/-- `v[j]` -/
abbrev w (j : Nat) : Nat × Bool := (j, false)

/-- `mod(v[j], m->n(0))` -/
abbrev wm (j : Nat) : Nat × Bool := (j, true)

/-- The branches of `sides(4, ·)` (`x3:473-617`). -/
def sides4 (type : Int) : List Look :=
  match type with
  | 0 => [⟨3, [w 0, w 1, w 2, w 3], [(0, 0), (1, 0)]⟩, ⟨2, [w 0, w 1, w 3], [(4, 0)]⟩,
      ⟨2, [w 0, w 2, w 3], [(4, 0)]⟩, ⟨2, [w 1, w 2, w 3], [(4, 0)]⟩]
  | 1 => [⟨2, [w 0, w 1, w 2], [(4, 0)]⟩, ⟨3, [w 0, w 1, w 2, wm 4], [(1, 0), (2, 0)]⟩,
      ⟨2, [w 0, w 2, wm 4], [(5, 0)]⟩, ⟨2, [w 1, w 2, wm 4], [(5, 0)]⟩]
  | 2 => [⟨2, [w 0, w 1, wm 3], [(5, 0)]⟩, ⟨2, [w 0, w 1, wm 4], [(5, 0)]⟩,
      ⟨3, [w 0, w 1, wm 3, wm 4], [(2, 0), (3, 0)]⟩, ⟨2, [w 1, wm 3, wm 4], [(6, 0)]⟩]
  | 3 => [⟨2, [w 0, wm 2, wm 3], [(6, 0)]⟩, ⟨2, [w 0, wm 2, wm 4], [(6, 0)]⟩,
      ⟨2, [w 0, wm 3, wm 4], [(6, 0)]⟩, ⟨3, [w 0, wm 2, wm 3, wm 4], [(3, 0), (0, 1)]⟩]
  | _ => []

/-- The branches of `sides(3, ·)` (`x3:620-823`); all vertices have gone through `mod` (`:619`). -/
def sides3 (type : Int) : List Look :=
  match type with
  | 0 => [⟨3, [wm 0, wm 1, wm 2, wm 3], []⟩, ⟨2, [wm 0, wm 1, wm 2], [(0, 0)]⟩, ⟨2, [wm 0, wm 1, wm 3], [(0, 0)]⟩,
      ⟨2, [wm 0, wm 2, wm 3], [(0, 0)]⟩, ⟨2, [wm 1, wm 2, wm 3], [(0, 0)]⟩]
  | 1 => [⟨3, [wm 0, wm 1, wm 2, wm 3], []⟩, ⟨2, [wm 0, wm 1, wm 2], [(0, 0)]⟩, ⟨2, [wm 0, wm 1, wm 3], [(1, 0)]⟩,
      ⟨2, [wm 0, wm 2, wm 3], [(1, 0)]⟩, ⟨2, [wm 1, wm 2, wm 3], [(1, 0)]⟩]
  | 2 => [⟨3, [wm 0, wm 1, wm 2, wm 3], []⟩, ⟨2, [wm 0, wm 1, wm 2], [(1, 0)]⟩, ⟨2, [wm 0, wm 1, wm 3], [(1, 0)]⟩,
      ⟨2, [wm 0, wm 2, wm 3], [(2, 0)]⟩, ⟨2, [wm 1, wm 2, wm 3], [(2, 0)]⟩]
  | 3 => [⟨3, [wm 0, wm 1, wm 2, wm 3], []⟩, ⟨2, [wm 0, wm 1, wm 2], [(2, 0)]⟩, ⟨2, [wm 0, wm 1, wm 3], [(2, 0)]⟩,
      ⟨2, [wm 0, wm 2, wm 3], [(2, 0)]⟩, ⟨2, [wm 1, wm 2, wm 3], [(0, 1)]⟩]
  | 4 => [⟨2, [wm 0, wm 1, wm 2], [(0, 0), (1, 0)]⟩, ⟨1, [wm 0, wm 2], [(3, 0)]⟩, ⟨1, [wm 1, wm 2], [(3, 0)]⟩]
  | 5 => [⟨2, [wm 0, wm 1, wm 3], [(1, 0), (2, 0)]⟩, ⟨1, [wm 0, wm 1], [(3, 0)]⟩, ⟨1, [wm 1, wm 3], [(4, 0)]⟩]
  | _ => [⟨2, [wm 0, wm 2, wm 3], [(2, 0), (0, 1)]⟩, ⟨1, [wm 0, wm 2], [(4, 0)]⟩, ⟨1, [wm 0, wm 3], [(4, 0)]⟩]

/-- `{v[j], mod(v[j], m->n(0)), …}`. -/
def lookVerts (m : M3) (v : List Int) : List (Nat × Bool) → Option (List Int)
  | [] => some []
  | p :: l => do
    let x ← v[p.1]?
    let y ← if p.2 then mod x (m.n 0) else some x
    let r ← lookVerts m v l
    some (y :: r)

/-- `bool found = m->find_simplex(d, c, id); assert(found);` -/
def must (m : M3) (d : Nat) (c : Cell) : Option Int := (m.find d c).bind id

/-- `results.insert(id + (t + dt) * n(e) + offset)` for each of the types. -/
def addTypes (m : M3) (e : Nat) (t id : Int) : List (Nat × Int) → List Int → List Int
  | [], acc => acc
  | a :: l, acc => addTypes m e t id l (setInsert (id + (t + a.2) * n m e + off m e a.1) acc)

/-- The blocks of one branch. -/
def runLooks (m : M3) (e : Nat) (t : Int) (v : List Int) : List Look → List Int → Option (List Int)
  | [], acc => some acc
  | L :: l, acc => do
    let c ← lookVerts m v L.vs
    let id ← must m L.d c
    runLooks m e t v l (addTypes m e t id L.adds acc)

/-- `sides(d, k)` (`x3:463-828`); the vertices are read at index `i`, i.e. at time 0.  Other dimensions
than 3 and 4 give the empty set. -/
def sides (m : M3) (d : Nat) (k : Int) : Option (List Int) := do
  let i ← mod k (n m d)
  let t := k.fdiv (n m d)
  let v ← getSimplex m d i
  match d with
  | 4 => do
    let type ← typeOf m 4 i
    runLooks m 3 t v (sides4 type) []
  | 3 => do
    let type ← typeOf m 3 i
    runLooks m 2 t v (sides3 type) []
  | _ => some []

/-! ## `side_of` -/

/-- `position12`, `position23` (`x3:840-867`): the place of the first vertex of `big` that is not in
`small`; if there is none, a failed `assert`. -/
def position (small big : Cell) : Option Nat :=
  match big with
  | [] => none
  | x :: l => if x ∈ small then (position small l).map (· + 1) else some 0

/-- What `side_of` inserts for a base coface with its extra vertex at a given place. -/
inductive Add where
  /-- `otetid + (t + dt) * n(e) + offset(type)` -/
  | self (type : Nat) (dt : Int)
  /-- `find_simplex(2, {tet[j0], tet[j1], tet[j2]}, otriid)`, then `otriid + (t + dt) * n(e) + offset(type)` -/
  | face (js : List Nat) (type : Nat) (dt : Int)
deriving DecidableEq, Repr

/-- One insertion. -/
def addOne (m : M3) (e : Nat) (t id : Int) (c : Cell) (acc : List Int) : Add → Option (List Int)
  | .self type dt => some (setInsert (id + (t + dt) * n m e + off m e type) acc)
  | .face js type dt => do
    let f ← must m 2 (pick c js)
    some (setInsert (f + (t + dt) * n m e + off m e type) acc)

/-- The insertions of one branch. -/
def addAll (m : M3) (e : Nat) (t id : Int) (c : Cell) : List Add → List Int → Option (List Int)
  | [], acc => some acc
  | a :: l, acc => do
    let acc ← addOne m e t id c acc a
    addAll m e t id c l acc

/-- The loops `for (otetid : m->side_of(2, otid))` and `for (otriid : m->side_of(1, oeid))`: `b` is the
dimension of the base cofaces, `f` the branch taken for each place of the extra vertex. -/
def cofaceLoop (m : M3) (b e : Nat) (t : Int) (small : Cell) (f : Nat → List Add) :
    List Int → List Int → Option (List Int)
  | [], acc => some acc
  | x :: l, acc => do
    let c ← m.get b x
    let pos ← position small c
    let acc ← addAll m e t x c (f pos) acc
    cofaceLoop m b e t small f l acc

/-- `side_of(3, ·)` for the tetrahedra over a base triangle (`x3:910-1000`): the type of the pentachoron
for each place. -/
def up4 (type : Int) (pos : Nat) : List Add :=
  match type with
  | 4 => if pos = 3 then [.self 1 0] else [.self 0 0]
  | 5 => if pos = 0 ∨ pos = 1 then [.self 1 0] else [.self 2 0]
  | _ => if pos = 0 then [.self 2 0] else [.self 3 0]

/-- `side_of(2, ·)` for the triangles over a base triangle (`x3:1008-1216`). -/
def up3 (type : Int) (pos : Nat) : List Add :=
  match type with
  | 0 => match pos with
    | 0 => [.self 0 0, .self 3 (-1)]
    | 1 => [.self 0 0, .face [0, 2, 3] 4 0]
    | 2 => [.self 0 0, .face [0, 1, 3] 4 0]
    | _ => [.self 0 0, .face [0, 1, 2] 4 0, .self 1 0, .face [0, 1, 2] 6 (-1)]
  | 1 => match pos with
    | 0 => [.self 1 0, .face [1, 2, 3] 5 0]
    | 1 => [.self 1 0, .face [0, 2, 3] 5 0]
    | 2 => [.face [0, 1, 3] 5 0, .face [0, 1, 3] 4 0]
    | _ => [.face [0, 1, 2] 4 0, .face [0, 1, 2] 5 0]
  | _ => match pos with
    | 0 => [.self 2 0, .face [1, 2, 3] 6 0, .face [1, 2, 3] 5 0]
    | 1 => [.self 2 0, .self 3 0, .face [0, 2, 3] 5 0]
    | 2 => [.face [0, 1, 3] 5 0, .face [0, 1, 3] 6 0, .self 3 0]
    | _ => [.face [0, 1, 2] 6 0, .face [0, 1, 2] 5 0, .self 3 0]

/-- `side_of(2, ·)` for the triangles over a base edge (`x3:1217-1259`). -/
def upE (type : Int) (pos : Nat) : List Add :=
  match type with
  | 3 => if pos = 2 then [.self 5 0] else [.self 4 0]
  | _ => if pos = 0 then [.self 5 0] else [.self 6 0]

/-- `mod(v[j], m->n(0))` for all vertices (`x3:871, :1005`). -/
def mods (m : M3) : List Int → Option (List Int)
  | [] => some []
  | x :: l => do
    let y ← mod x (m.n 0)
    let r ← mods m l
    some (y :: r)

/-- `side_of(3, k)` from the type on (`x3:870-1001`); `v0` are the vertices after `mod`. -/
def sideOf3 (m : M3) (t type : Int) (v0 : List Int) : Option (List Int) :=
  if type < 4 then do
    let id ← must m 3 v0
    some (addTypes m 4 t id (match type with
      | 0 => [(0, 0), (3, -1)]
      | 1 => [(0, 0), (1, 0)]
      | 2 => [(1, 0), (2, 0)]
      | _ => [(2, 0), (3, 0)]) [])
  else do
    let vt := pick v0 (match type with
      | 4 => [0, 1, 2]
      | 5 => [0, 1, 3]
      | _ => [0, 2, 3])
    let id ← must m 2 vt
    let S ← m.sideOf 2 id
    cofaceLoop m 3 4 t vt (up4 type) S []

/-- `side_of(2, k)` from the type on (`x3:1002-1260`). -/
def sideOf2 (m : M3) (t type : Int) (v0 : List Int) : Option (List Int) :=
  if type < 3 then do
    let id ← must m 2 v0
    let S ← m.sideOf 2 id
    cofaceLoop m 3 3 t v0 (up3 type) S []
  else do
    let ve := pick v0 (match type with
      | 3 => [0, 1]
      | _ => [0, 2])
    let id ← must m 1 ve
    let S ← m.sideOf 1 id
    cofaceLoop m 2 3 t ve (upE type) S []

/-- `side_of(d, k)` (`x3:831-1263`). -/
def sideOf (m : M3) (d : Nat) (k : Int) : Option (List Int) := do
  let i ← mod k (n m d)
  let t := k.fdiv (n m d)
  let v ← getSimplex m d i
  match d with
  | 3 => do
    let v0 ← mods m v
    let type ← typeOf m 3 i
    sideOf3 m t type v0
  | 2 => do
    let v0 ← mods m v
    let type ← typeOf m 2 i
    sideOf2 m t type v0
  | _ => some []

end Verif.X3
