import Verif.UMesh.Props
import Verif.U3Mesh.Props
/-!
# Meshes in VTU files

Model of `from_vtu`, `to_vtu` of `include/ftk/mesh/simplicial_unstructured_2d_mesh.hh` (`m2` below) and
`simplicial_unstructured_3d_mesh.hh` (`m3`) on the meshes `UM.M2` and `U3.M3`, with one process.  A file is what the VTK readers and
writers pass on: the points and the cells.  `rnd` is the rounding of a coordinate to the type of `vtkPoints` (single precision unless
asked for otherwise, and the code does not ask).  `none` is an access outside an array.
-/
namespace Verif.Vtu

/-- A `vtkUnstructuredGrid` -/
structure Grid (K : Type) where
  /-- The points -/
  points : List (K × K × K)
  /-- The cells: type and point ids -/
  cells : List (Nat × List Int)

/-- `VTK_TRIANGLE` -/
def vtkTriangle : Nat := 5

/-- `VTK_TETRA` -/
def vtkTetra : Nat := 10

/-- The triangles found by the loop `m2:789-797` -/
def trianglesOf : List (Nat × List Int) → List UM.Tri
  | [] => []
  | (ty, ids) :: cs =>
    if ty = vtkTriangle then (ids.getD 0 0, ids.getD 1 0, ids.getD 2 0) :: trianglesOf cs else trianglesOf cs

/-- The tetrahedra found by the loop `m3:338-353` -/
def tetsOf : List (Nat × List Int) → List U3.Tet
  | [] => []
  | (ty, ids) :: cs =>
    if ty = vtkTetra then (ids.getD 0 0, ids.getD 1 0, ids.getD 2 0, ids.getD 3 0) :: tetsOf cs else tetsOf cs

/-- `from_vtu` on a new mesh (`m3:333-367`) -/
def fromVtu3 {K : Type} (g : Grid K) : Option (U3.M3 × List (K × K × K)) :=
  match U3.build g.points.length (tetsOf g.cells) with
  | none => none
  | some m => some (m, g.points)

/-- `to_vtu` (`m3:370-400`) -/
def toVtu3 {K : Type} (rnd : K → K) (m : U3.M3) (xyz : List (K × K × K)) : Option (Grid K) :=
  match (List.range (m.n 0)).mapM (fun (i : Nat) => (UM.read xyz i).map fun p => (rnd p.1, rnd p.2.1, rnd p.2.2)),
      (List.range (m.n 3)).mapM (fun (i : Nat) => (m.get 3 i).map fun c => (vtkTetra, c)) with
  | some ps, some cs => some ⟨ps, cs⟩
  | _, _ => none

/-- `from_vtu` on a new mesh (`m2:784-818`); `order` is the iteration order of the edge map. -/
def fromVtu2 {K : Type} (order : List (UM.Edge × Int) → List (UM.Edge × Int)) (g : Grid K) :
    Option (UM.M2 × List (K × K × K)) :=
  match UM.build order g.points.length (trianglesOf g.cells) with
  | none => none
  | some m => some (m, g.points)

/-- `to_vtu` (`m2:820-842`); `xyz` are the results of `get_coords` (`m2:957-969`), the third one 0 in a plane mesh. -/
def toVtu2 {K : Type} (rnd : K → K) (m : UM.M2) (xyz : List (K × K × K)) : Option (Grid K) :=
  match (List.range (m.n 0)).mapM (fun (i : Nat) => (UM.read xyz i).map fun p => (rnd p.1, rnd p.2.1, rnd p.2.2)),
      (List.range (m.n 2)).mapM (fun (i : Nat) => (UM.read m.tris i).map fun t => (vtkTriangle, [t.1, t.2.1, t.2.2])) with
  | some ps, some cs => some ⟨ps, cs⟩
  | _, _ => none

/-- `std::vector::resize(n)` -/
def resize {α : Type} (n : Nat) (d : α) (l : List α) : List α := l.take n ++ List.replicate (n - l.length) d

/-- `from_vtu` on a mesh `old` that was in use (`m3:333-367` and `initialize`): the three maps are not cleared, the two vectors of
sets are resized (`m3:270-284`). -/
def refill3 (old : U3.M3) (n0 : Nat) (ts : List U3.Tet) : Option U3.M3 :=
  let tets := ts.map U3.sort4
  let triM := U3.addCells U3.triOf 0 tets []
  let tris := triM.map (fun e => e.1)
  let edgeM := U3.addCells U3.edgeOf 0 tris []
  let edges := edgeM.map (fun e => e.1)
  let edgeMap := U3.idMap 0 edges old.edgeMap
  match UM.fillVerts (edgeMap.map (fun e => ((e.1.getD 0 0, e.1.getD 1 0), e.2))) (resize n0 [] old.vside)
      (resize n0 [] old.vev) with
  | none => none
  | some r =>
    some { n0 := n0, tets := tets, tetMap := U3.idMap 0 tets old.tetMap
           tris := tris, triSide := triM.map (fun e => e.2), triMap := U3.idMap 0 tris old.triMap
           edges := edges, edgeSide := edgeM.map (fun e => e.2), edgeMap := edgeMap, vside := r.1, vev := r.2 }

/-- `from_vtu` on a mesh that was in use -/
def reread3 {K : Type} (old : U3.M3) (g : Grid K) : Option U3.M3 := refill3 old g.points.length (tetsOf g.cells)

end Verif.Vtu
