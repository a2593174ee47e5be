import Verif.UMesh.Model

/-!
# Model of `include/ftk/mesh/simplicial_unstructured_3d_mesh.hh` (connectivity part; below: `m3`)

Ids and vertices are the code's `I = int`, taken as mathematical integers (no overflow).  The tuples
the code uses for tetrahedra, triangles and edges are lists of 4, 3 and 2 vertices (`Cell`); tuples
compare lexicographically.  A `std::map` is the list of its entries in key order.  `none` is undefined
behaviour (an access outside a vector) or a failed `assert`.  Coordinates play no role here, only
their number.  `reorder` is `false`, its only value in the code base.
-/

namespace Verif.U3

open Verif.UM (read find fillVerts)

/-- The vertices of one input tetrahedron. -/
abbrev Tet := Int × Int × Int × Int

/-- The vertices of a tetrahedron, triangle or edge of the mesh, in the order stored. -/
abbrev Cell := List Int

/-- `operator<` of tuples of equal length: lexicographic. -/
def lexLt : Cell → Cell → Bool
  | a :: as, b :: bs => if a < b then true else if b < a then false else lexLt as bs
  | _, _ => false

/-- `map[k].insert(x)` on a `std::map<tuple, std::set<I>>`. -/
def addKey (k : Cell) (x : Int) : List (Cell × List Int) → List (Cell × List Int)
  | [] => [(k, [x])]
  | (k', S) :: m =>
    if k = k' then (k', setInsert x S) :: m
    else if lexLt k k' then (k, [x]) :: (k', S) :: m
    else (k', S) :: addKey k x m

/-- `map[k] = x` on a `std::map<tuple, int>`: an existing entry is overwritten.  (Kept in order of
first insertion; nothing depends on the order except `build_edges`, where it is the key order.) -/
def assign (k : Cell) (x : Int) : List (Cell × Int) → List (Cell × Int)
  | [] => [(k, x)]
  | (k', y) :: m => if k = k' then (k', x) :: m else (k', y) :: assign k x m

/-- `for (i = 0; i < cells.size(); i ++) map[cells[i]] = i;` (`m3:142-145, :193-195, :255-257`) from
`i` on. -/
def idMap (i : Nat) : List Cell → List (Cell × Int) → List (Cell × Int)
  | [], m => m
  | c :: l, m => idMap (i + 1) l (assign c i m)

/-- `nswaps_bubble_sort<4>(v, order)` (`m3:126`, `sign_det.hh:202-220`): the sorted vertices. -/
def sort4 (t : Tet) : Cell :=
  let s := SoS.bubbleSort (n := 4) ![t.1, t.2.1, t.2.2.1, t.2.2.2]
  [s.arr 0, s.arr 1, s.arr 2, s.arr 3]

/-- `std::get<j>(c)` for the listed `j`. -/
def pick (c : Cell) (js : List Nat) : Cell := js.map (fun j => c.getD j 0)

/-- The four calls of `add_triangle` (`m3:176-179`). -/
def triOf : List (List Nat) := [[0, 1, 2], [0, 1, 3], [0, 2, 3], [1, 2, 3]]

/-- The three calls of `add_edge` (`m3:239-241`). -/
def edgeOf : List (List Nat) := [[0, 1], [0, 2], [1, 2]]

/-- The calls of `add_triangle`/`add_edge` for one cell. -/
def addCell (i : Nat) (c : Cell) : List (List Nat) → List (Cell × List Int) → List (Cell × List Int)
  | [], m => m
  | js :: tbl, m => addCell i c tbl (addKey (pick c js) i m)

/-- The loops `m3:170-180` (with `triOf`) and `m3:234-242` (with `edgeOf`), from cell `i` on. -/
def addCells (tbl : List (List Nat)) (i : Nat) : List Cell → List (Cell × List Int) → List (Cell × List Int)
  | [], m => m
  | c :: l, m => addCells tbl (i + 1) l (addCell i c tbl m)

/-- The members that describe connectivity (`m3:74-96`). -/
structure M3 where
  /-- `vertex_coords.dim(1)` -/
  n0 : Nat
  /-- `tetrahedra` -/
  tets : List Cell
  /-- `tetrahedron_id_map` -/
  tetMap : List (Cell × Int)
  /-- `triangles` -/
  tris : List Cell
  /-- `triangle_side_of` -/
  triSide : List (List Int)
  /-- `triangle_id_map` -/
  triMap : List (Cell × Int)
  /-- `edges` -/
  edges : List Cell
  /-- `edges_side_of` -/
  edgeSide : List (List Int)
  /-- `edge_id_map` -/
  edgeMap : List (Cell × Int)
  /-- `vertex_side_of` -/
  vside : List (List Int)
  /-- `vertex_edge_vertex` -/
  vev : List (List Int)
deriving DecidableEq, Repr

/-- The constructor from coordinates and tetrahedra (`m3:103-116`): it stores the tetrahedra as given
and calls nothing else. -/
def construct (n0 : Nat) (ts : List Tet) : M3 :=
  { n0 := n0, tets := ts.map (fun t => [t.1, t.2.1, t.2.2.1, t.2.2.2]), tetMap := []
    tris := [], triSide := [], triMap := [], edges := [], edgeSide := [], edgeMap := []
    vside := [], vev := [] }

/-- `from_vtu` (`m3:333-367`) on the tetrahedral cells `ts` of a grid with `n0` points, i.e.
`initialize()` = `build_tetrahedra(); build_triangles(); build_edges();` (`m3:119-285, :305-309`). -/
def build (n0 : Nat) (ts : List Tet) : Option M3 := do
  let tets := ts.map sort4
  let triM := addCells triOf 0 tets []
  let tris := triM.map (fun e => e.1)
  let edgeM := addCells edgeOf 0 tris []
  let edges := edgeM.map (fun e => e.1)
  let edgeMap := idMap 0 edges []
  let (vs, vv) ← fillVerts (edgeMap.map (fun e => ((e.1.getD 0 0, e.1.getD 1 0), e.2)))
    (List.replicate n0 []) (List.replicate n0 [])
  some { n0 := n0, tets := tets, tetMap := idMap 0 tets []
         tris := tris, triSide := triM.map (fun e => e.2), triMap := idMap 0 tris []
         edges := edges, edgeSide := edgeM.map (fun e => e.2), edgeMap := edgeMap, vside := vs, vev := vv }

/-- `n(d)` (`m3:288-302`). -/
def M3.n (m : M3) (d : Nat) : Nat :=
  match d with
  | 0 => m.n0
  | 1 => m.edges.length
  | 2 => m.tris.length
  | 3 => m.tets.length
  | _ => 0

/-- `get_simplex(d, i, v)` (`m3:432-476`); for other `d` nothing is written. -/
def M3.get (m : M3) (d : Nat) (i : Int) : Option Cell :=
  match d with
  | 1 => read m.edges i
  | 2 => read m.tris i
  | 3 => read m.tets i
  | _ => none

/-- `find_simplex(d, v, i)` (`m3:440-446, :487-533`); `some none` is `return false`.  `find_tetrahedron`
asserts that the tetrahedron found is the one asked for. -/
def M3.find (m : M3) (d : Nat) (v : Cell) : Option (Option Int) :=
  match d with
  | 1 => some (UM.find m.edgeMap v)
  | 2 => some (UM.find m.triMap v)
  | 3 => match UM.find m.tetMap v with
    | none => some none
    | some i => if read m.tets i = some v then some (some i) else none
  | _ => some none

/-- `side_of(d, i)` (`m3:546-556`). -/
def M3.sideOf (m : M3) (d : Nat) (i : Int) : Option (List Int) :=
  match d with
  | 0 => read m.vside i
  | 1 => read m.edgeSide i
  | 2 => read m.triSide i
  | _ => some []

/-- `sides(d, i)` (`m3:58`): not implemented. -/
def M3.sides (_ : M3) (_ : Nat) (_ : Int) : List Int := []

end Verif.U3
