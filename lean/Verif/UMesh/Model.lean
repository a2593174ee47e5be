import Verif.Common.OrdSet
import Verif.SoS.Model
import Mathlib.Data.Prod.Lex

/-!
# Model of `include/ftk/mesh/simplicial_unstructured_2d_mesh.hh` (connectivity part)

Vertex, edge and triangle ids are the code's `I = int`, taken as mathematical integers (no
overflow).  An `ndarray` of shape `{3, n}` of vertex ids is a list of triples; the arrays
`edges`, `edges_side_of` and `triangle_edges` are kept flat, exactly as `ndarray` stores them
(`(j, i)` lives at `j + 2*i` resp. `j + 3*i`), because the code can run off the end of a column.
`none` is undefined behaviour (an access outside an array).  Coordinates play no role here.
-/

namespace Verif.UM

/-- The three vertex ids of a triangle, `triangles(0..2, i)`. -/
abbrev Tri := Int × Int × Int

/-- The two vertex ids of an edge, a key of `edge_id_map`. -/
abbrev Edge := Int × Int

/-- `std::map::find` / `tbb::concurrent_hash_map::find` on the list of entries. -/
def find {K : Type} [DecidableEq K] (m : List (K × Int)) (k : K) : Option Int :=
  match m with
  | [] => none
  | (k', v) :: m => if k' = k then some v else find m k

/-- `std::map::insert({k, v})` (also the TBB map): an existing entry is kept. -/
def insertNew {K : Type} [DecidableEq K] (m : List (K × Int)) (k : K) (v : Int) : List (K × Int) :=
  match find m k with
  | some _ => m
  | none => m ++ [(k, v)]

/-- `a[i] = x` on a flat array; outside the array: undefined. -/
def write (a : List Int) (i : Int) (x : Int) : Option (List Int) :=
  if 0 ≤ i ∧ i < a.length then some (a.set i.toNat x) else none

/-- `a[i]` on a flat array; outside the array: undefined. -/
def read {α : Type} (a : List α) (i : Int) : Option α :=
  if 0 ≤ i then a[i.toNat]? else none

/-- `a[i].insert(x)` on a `std::vector<std::set<I>>`; outside the vector: undefined. -/
def addAt (a : List (List Int)) (i : Int) (x : Int) : Option (List (List Int)) :=
  if 0 ≤ i ∧ i < a.length then some (a.modify i.toNat (setInsert x)) else none

/-- The members of `simplicial_unstructured_2d_mesh` that describe connectivity
(`simplicial_unstructured_2d_mesh.hh:163-185`). -/
structure M2 where
  /-- `vertex_coords.dim(1)` -/
  n0 : Nat
  /-- `triangles` -/
  tris : List Tri
  /-- `triangles_chi` -/
  chi : List Bool
  /-- `triangle_id_map` -/
  triMap : List (Tri × Int)
  /-- `vertex_triangles` -/
  vtris : List (List Int)
  /-- `edge_id_map` -/
  edgeMap : List (Edge × Int)
  /-- `triangle_edges`, flat `{3, n(2)}` -/
  triEdges : List Int
  /-- `edges`, flat `{2, n(1)}` -/
  edges : List Int
  /-- `edges_side_of`, flat `{2, n(1)}` -/
  sideOf : List Int
  /-- `vertex_side_of` -/
  vside : List (List Int)
  /-- `vertex_edge_vertex` -/
  vev : List (List Int)
  /-- `triangle_edge_triangles` -/
  tet : List (List Int)
deriving DecidableEq, Repr

/-! ## `build_triangles` (`:372-399`) -/

/-- The loop state of `build_triangles`. -/
structure TS where
  tris : List Tri
  chi : List Bool
  triMap : List (Tri × Int)
  vtris : List (List Int)

/-- `nswaps_bubble_sort<3>(v, order)` (`:383`, `sign_det.hh:202-220`): the sorted vertices. -/
def sort3 (t : Tri) : Tri :=
  let s := SoS.bubbleSort (n := 3) ![t.1, t.2.1, t.2.2]
  (s.arr 0, s.arr 1, s.arr 2)

/-- `:386-387`: odd number of swaps. -/
def chi3 (t : Tri) : Bool := (SoS.bubbleSort (n := 3) ![t.1, t.2.1, t.2.2]).nswaps % 2 ≠ 0

/-- One iteration of the loop of `build_triangles` (`:378-398`).  The triangle `i` is rewritten in
place; since no iteration reads another triangle, the new array is grown at its end. -/
def triStep (s : TS) (i : Nat) (t : Tri) : Option TS := do
  let v := sort3 t
  let vt ← addAt s.vtris v.1 i
  let vt ← addAt vt v.2.1 i
  let vt ← addAt vt v.2.2 i
  some { tris := s.tris ++ [v]
         chi := s.chi ++ [chi3 t]
         triMap := insertNew s.triMap v i
         vtris := vt }

/-- The loop of `build_triangles` from triangle `i` on. -/
def triLoop (s : TS) (i : Nat) : List Tri → Option TS
  | [] => some s
  | t :: ts => do
    let s ← triStep s i t
    triLoop s (i + 1) ts

/-! ## `build_edges` (`:401-500`) -/

/-- The loop state of the first half of `build_edges`: `edge_id_map`, `map_edges_side_of` (whose
keys are `0 … edge_count-1`, so a list of sets; `edge_count` is its length), `triangle_edges`. -/
structure ES where
  edgeMap : List (Edge × Int)
  side : List (List Int)
  triEdges : List Int

/-- `:409` `if (v0 > v1) swap`. -/
def sort2 (v0 v1 : Int) : Edge := if v0 > v1 then (v1, v0) else (v0, v1)

/-- `:410-426`: the id of the edge, new if it is not in the map; the new map, the new
`map_edges_side_of` (`operator[]` creates the entry at `:428`) and the id. -/
def edgeId (s : ES) (e : Edge) : List (Edge × Int) × List (List Int) × Int :=
  match find s.edgeMap e with
  | none => (s.edgeMap ++ [(e, (s.side.length : Int))], s.side ++ [[]], (s.side.length : Int))
  | some id => (s.edgeMap, s.side, id)

/-- The lambda `add_edge(tid, k, v0, v1)` (`:408-436`). -/
def addEdge (s : ES) (tid : Nat) (k : Nat) (v0 v1 : Int) : Option ES := do
  let r := edgeId s (sort2 v0 v1)
  let side ← addAt r.2.1 r.2.2 tid
  let te ← write s.triEdges (k + 3 * tid) r.2.2
  some { edgeMap := r.1, side := side, triEdges := te }

/-- The loop `:440-444`, from triangle `i` on. -/
def edgeLoop (s : ES) (i : Nat) : List Tri → Option ES
  | [] => some s
  | t :: ts => do
    let s ← addEdge s i 0 t.1 t.2.1
    let s ← addEdge s i 1 t.2.1 t.2.2
    let s ← addEdge s i 2 t.2.2 t.1
    edgeLoop s (i + 1) ts

/-- `:453-456` `int j = 0; for (tid : …) edges_side_of(j++, e) = tid;` -/
def writeSides (a : List Int) (e : Int) (j : Nat) : List Int → Option (List Int)
  | [] => some a
  | tid :: l => do
    let a ← write a (j + 2 * e) tid
    writeSides a e (j + 1) l

/-- The loop `:449-457` over `edge_id_map`. -/
def fillEdges (side : List (List Int)) : List (Edge × Int) → List Int → List Int →
    Option (List Int × List Int)
  | [], ed, so => some (ed, so)
  | kv :: l, ed, so => do
    let ed ← write ed (0 + 2 * kv.2) kv.1.1
    let ed ← write ed (1 + 2 * kv.2) kv.1.2
    let tids ← read side kv.2
    let so ← writeSides so kv.2 0 tids
    fillEdges side l ed so

/-- The loop `:478-486` over `edge_id_map`. -/
def fillVerts : List (Edge × Int) → List (List Int) → List (List Int) →
    Option (List (List Int) × List (List Int))
  | [], vs, vv => some (vs, vv)
  | kv :: l, vs, vv => do
    let vs ← addAt vs kv.1.1 kv.2
    let vs ← addAt vs kv.1.2 kv.2
    let vv ← addAt vv kv.1.1 kv.1.2
    let vv ← addAt vv kv.1.2 kv.1.1
    fillVerts l vs vv

/-- The loop `:490-498`: `for (i = 0; i < n(2); i ++)` reads `edges_side_of(·, i)`. -/
def fillTet (so : List Int) : List Nat → List (List Int) → Option (List (List Int))
  | [], tt => some tt
  | i :: l, tt => do
    let t0 ← read so (0 + 2 * (i : Int))
    let t1 ← read so (1 + 2 * (i : Int))
    let tt ← if 0 ≤ t0 ∧ 0 ≤ t1 then do
        let tt ← addAt tt t0 t1
        addAt tt t1 t0
      else some tt
    fillTet so l tt

/-- The constructor from arrays (`:59-62`): `build_triangles(); build_edges();` (with one process,
`build_partition` returns at once, `:1018`).  `order` is the iteration order of `edge_id_map`: by
key for `std::map`, unspecified for the TBB map. -/
def build (order : List (Edge × Int) → List (Edge × Int)) (n0 : Nat) (ts : List Tri) : Option M2 := do
  let s ← triLoop { tris := [], chi := [], triMap := [], vtris := List.replicate n0 [] } 0 ts
  let e ← edgeLoop { edgeMap := [], side := [], triEdges := List.replicate (3 * s.tris.length) 0 } 0 s.tris
  let n1 := e.edgeMap.length
  let (ed, so) ← fillEdges e.side (order e.edgeMap) (List.replicate (2 * n1) 0) (List.replicate (2 * n1) (-1))
  let (vs, vv) ← fillVerts (order e.edgeMap) (List.replicate n0 []) (List.replicate n0 [])
  let tt ← fillTet so (List.range s.tris.length) (List.replicate s.tris.length [])
  some { n0 := n0, tris := s.tris, chi := s.chi, triMap := s.triMap, vtris := s.vtris
         edgeMap := e.edgeMap, triEdges := e.triEdges, edges := ed, sideOf := so
         vside := vs, vev := vv, tet := tt }

/-! ## Access -/

namespace M2

/-- `n(d)` (`:275-290`) for the whole mesh. -/
def n (m : M2) (d : Nat) : Nat :=
  match d with
  | 0 => m.n0
  | 1 => m.edges.length / 2
  | 2 => m.tris.length
  | _ => 0

/-- `get_triangle` (`:924-939`). -/
def getTriangle (m : M2) (i : Int) : Option Tri := read m.tris i

/-- `get_edge` (`:942-955`). -/
def getEdge (m : M2) (i : Int) : Option Edge := do
  let a ← read m.edges (2 * i)
  let b ← read m.edges (2 * i + 1)
  some (a, b)

/-- `find_edge` (`:312-340`); the asserts on the stored edge are modelled: a failing one is
`none`, an absent edge is `some none`. -/
def findEdge (m : M2) (v : Edge) : Option (Option Int) :=
  let v := sort2 v.1 v.2
  match find m.edgeMap v with
  | none => some none
  | some i => do
    let a ← read m.edges (0 + 2 * i)
    let b ← read m.edges (1 + 2 * i)
    if a = v.1 ∧ b = v.2 then some (some i) else none

/-- `find_triangle` (`:342-370`), with its asserts as in `findEdge`.  `std::sort` of three cells
is the same permutation as the bubble sort. -/
def findTriangle (m : M2) (v : Tri) : Option (Option Int) :=
  let v := sort3 v
  match find m.triMap v with
  | none => some none
  | some i => do
    let t ← read m.tris i
    if t = v then some (some i) else none

/-- `sides(2, i)` (`:730-743`). -/
def sides2 (m : M2) (i : Int) : Option (List Int) := do
  let a ← read m.triEdges (0 + 3 * i)
  let b ← read m.triEdges (1 + 3 * i)
  let c ← read m.triEdges (2 + 3 * i)
  some (setInsert c (setInsert b (setInsert a [])))

/-- `sides(1, i)` (`:733-736`). -/
def sides1 (m : M2) (i : Int) : Option (List Int) := do
  let a ← read m.edges (0 + 2 * i)
  let b ← read m.edges (1 + 2 * i)
  some (setInsert b (setInsert a []))

/-- `side_of(0, i)` (`:748-749`). -/
def sideOf0 (m : M2) (i : Int) : Option (List Int) := read m.vside i

/-- `side_of(1, i)` (`:750-755`). -/
def sideOf1 (m : M2) (i : Int) : Option (List Int) := do
  let a ← read m.sideOf (0 + 2 * i)
  let b ← read m.sideOf (1 + 2 * i)
  let r := if 0 ≤ a then setInsert a [] else []
  some (if 0 ≤ b then setInsert b r else r)

/-- `get_vertex_edge_vertex` (`:145`). -/
def vertexEdgeVertex (m : M2) (i : Int) : Option (List Int) := read m.vev i

/-- `get_vertex_triangles()[i]` (`:143`). -/
def vertexTriangles (m : M2) (i : Int) : Option (List Int) := read m.vtris i

/-- `get_triangle_chi` (`:147`). -/
def triangleChi (m : M2) (i : Int) : Option Int := do
  let b ← read m.chi i
  some (if b then -1 else 1)

end M2

end Verif.UM
