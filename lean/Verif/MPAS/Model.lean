import Verif.Num.Model
import Mathlib.Algebra.Order.Field.Basic

/-!
# Model of the MPAS ocean mesh

`include/ftk/numeric/mpas.hh` (below: `mp`) and `include/ftk/mesh/mpas_mesh.hh` (below: `mm`).  Exact arithmetic without NaN as input.
`none` = undefined behaviour (an access out of bounds).
-/

namespace Verif.MPAS

open Verif.Num

variable {K : Type} [Field K] [LinearOrder K]

/-- `vector_dot_product3` (`vector_dot_product.hh`). -/
def dot3 (a b : Fin 3 → K) : K := a 0 * b 0 + a 1 * b 1 + a 2 * b 2

/-- `vector_dist_2norm2<3>`. -/
def dist2 (a b : Fin 3 → K) : K := (a 0 - b 0) * (a 0 - b 0) + (a 1 - b 1) * (a 1 - b 1) + (a 2 - b 2) * (a 2 - b 2)

/-! ### Point in cell -/

/-- `point_in_mpas_cell` (`mp:13-28`). -/
def pointInCell (X : List (Fin 3 → K)) (x : Fin 3 → K) : Bool :=
  if X = [] then false
  else (List.range X.length).all fun i => !decide (dot3 (crossProduct (X.getD i 0) (X.getD ((i + 1) % X.length) 0)) x < 0)

/-! ### Layers -/

/-- The loop of `locate_mpas_layer_brute_force` (`mp:42-46`): `k` more layers, the next one `i`. -/
def bruteLoop (zTop : List K) (z : K) : Nat → Nat → Option Int
  | 0, _ => some (-1)
  | k + 1, i => do
    let a ← zTop[i]?
    if z ≤ a then
      let b ← zTop[i + 1]?
      if z > b then some i else bruteLoop zTop z k (i + 1)
    else bruteLoop zTop z k (i + 1)

/-- `locate_mpas_layer_brute_force` (`mp:32-47`). -/
def bruteForce (zTop : List K) (z : K) : Option Int := bruteLoop zTop z zTop.length 0

/-- The loop of `locate_mpas_layer_bisection` (`mp:65-76`), at most `fuel` rounds; the outer `none`: still running. -/
def bisectLoop (zTop : List K) (z : K) : Nat → Nat → Nat → Option (Option Int)
  | 0, _, _ => none
  | fuel + 1, i0, i1 =>
    match zTop[i0]? with
    | none => some none
    | some a =>
      let found : Option Bool := if z ≤ a then (zTop[i0 + 1]?).map fun b => decide (z > b) else some false
      match found with
      | none => some none
      | some true => some (some i0)
      | some false =>
        let ic := (i0 + i1) / 2
        match zTop[ic]? with
        | none => some none
        | some c => if z - c ≤ 0 then bisectLoop zTop z fuel ic i1 else bisectLoop zTop z fuel i0 ic

/-- `locate_mpas_layer_bisection` (`mp:51-79`). -/
def bisection (fuel : Nat) (zTop : List K) (z : K) : Option (Option Int) :=
  match zTop[0]?, zTop[zTop.length - 1]? with
  | some a, some b => if z > a ∨ z ≤ b then some (some (-1)) else bisectLoop zTop z fuel 0 (zTop.length - 1)
  | _, _ => some none

/-! ### Identifiers -/

/-- The assignments `map[ids[i]] = i` in order (`mm:356-362`). -/
def idMap (ids : List Int) : Int → Option Nat :=
  ids.zipIdx.foldl (fun (m : Int → Option Nat) p k => if k = p.1 then some p.2 else m k) fun _ => none

/-- `ids[i] == i + 1` for all `i` (`mm:359`). -/
def isSimple (ids : List Int) : Bool := ids.zipIdx.all fun p => decide (p.1 = (p.2 : Int) + 1)

/-- `simple_idmap` after `read_netcdf` (`mm:353-386`). -/
def simpleIdmap (cells edges verts : List Int) : Bool := isSimple cells && isSimple edges && isSimple verts

/-- `cid2i`, `eid2i`, `vid2i` (`mm:46-71`) for the list of identifiers of that kind. -/
def id2i (simple : Bool) (ids : List Int) (id : Int) : Int :=
  if simple then id - 1 else match idMap ids id with | some i => i | none => -1

/-- `i2cid`, `i2vid` (`mm:73-74`). -/
def i2id (simple : Bool) (ids : List Int) (i : Int) : Option Int :=
  if simple then some (i + 1) else if i < 0 then none else ids[i.toNat]?

/-! ### The mesh -/

/-- The arrays of the mesh (`mm:84-107`); first index `j` the position in the list of a cell or vertex. -/
structure Mesh (K : Type) where
  nCells : Nat
  nVerts : Nat
  maxEdges : Nat
  cid2i : Int → Int
  vid2i : Int → Int
  nEdgesOnCell : Nat → Nat
  cellsOnCell : Nat → Nat → Int
  verticesOnCell : Nat → Nat → Int
  cellsOnVertex : Fin 3 → Nat → Int
  xyzCells : Nat → Fin 3 → K
  xyzVertices : Nat → Fin 3 → K

/-- The index of an element of an array with `n` entries. -/
def idx (n : Nat) (i : Int) : Option Nat := if 0 ≤ i ∧ i < n then some i.toNat else none

/-- `verts_i_on_cell_i` and `verts_i_coords` into the buffers of ten vertices (`mm:213-236`, `mm:530-536`). -/
def Mesh.cellVerts (m : Mesh K) (c : Nat) : Option (List (Nat × (Fin 3 → K))) :=
  if m.nEdgesOnCell c ≤ 10 ∧ m.nEdgesOnCell c ≤ m.maxEdges then
    (List.range (m.nEdgesOnCell c)).mapM fun j => (idx m.nVerts (m.vid2i (m.verticesOnCell j c))).map fun v => (v, m.xyzVertices v)
  else none

/-- `point_in_cell_i` (`mm:527-539`). -/
def Mesh.pointInCellI (m : Mesh K) (c : Int) (x : Fin 3 → K) : Option Bool := do
  let c ← idx m.nCells c
  let X ← m.cellVerts c
  some (pointInCell (X.map (·.2)) x)

/-- `locate_cell_i(x)` (`mm:541-549`); `nearest` is the search in the k-d tree (C49). -/
def Mesh.locate (m : Mesh K) (nearest : (Fin 3 → K) → Int) (x : Fin 3 → K) : Option Int := do
  let b ← m.pointInCellI (nearest x) x
  some (if b then nearest x else -1)

/-- The loop over the neighbours (`mm:564-579`): the best cell so far and its distance; `k` more, the next one `i`. -/
def Mesh.bestLoop (m : Mesh K) (x : Fin 3 → K) (prev : Nat) : Nat → Nat → Nat × K → Option (Nat × K)
  | 0, _, b => some b
  | k + 1, i, b =>
    if i < m.maxEdges then
      let c := m.cid2i (m.cellsOnCell i prev)
      if c < 0 then m.bestLoop x prev k (i + 1) b
      else do
        let c ← idx m.nCells c
        let d := dist2 (m.xyzCells c) x
        m.bestLoop x prev k (i + 1) (if d < b.2 then (c, d) else b)
    else none

/-- `locate_cell_i(x, prev_cell_i)` (`mm:551-600`). -/
def Mesh.locateFrom (m : Mesh K) (nearest : (Fin 3 → K) → Int) (x : Fin 3 → K) (prev : Int) : Option Int :=
  if prev < 0 then m.locate nearest x
  else do
    let p ← idx m.nCells prev
    let best ← m.bestLoop x p (m.nEdgesOnCell p) 0 (p, dist2 (m.xyzCells p) x)
    let b ← m.pointInCellI best.1 x
    if b then some (best.1 : Int) else m.locate nearest x

/-! ### From cells to vertices -/

/-- `initialize_c2v_interpolants` for vertex `v` (`mm:128-160`): the weights, `none` on the boundary. The outer `none`: a cell index
beyond the array. -/
def Mesh.c2vWeights (m : Mesh K) (eps : K) (v : Nat) : Option (Option (Fin 3 → K)) :=
  let c := fun j => m.cid2i (m.cellsOnVertex j v)
  if c 0 < 0 then some none else do
    let c0 ← idx m.nCells (c 0)
    if c 1 < 0 then some none else do
      let c1 ← idx m.nCells (c 1)
      if c 2 < 0 then some none else do
        let c2 ← idx m.nCells (c 2)
        let X : Fin 3 → Fin 3 → K := ![m.xyzCells c0, m.xyzCells c1, m.xyzCells c2]
        some (some (inverseLerpS2v3 (fun i k => X i k - m.xyzVertices v k) eps).2)

/-- A value that may be NaN. -/
inductive Val (K : Type)
  | num (x : K)
  | nan
  deriving DecidableEq

/-- The body of the loops of `interpolate_c2v` (`mm:175-211`) for vertex `v`, for one variable and layer: `f c` is the value at cell `c`,
`huge` is the constant `-1e33`. -/
def Mesh.interpolateC2v (m : Mesh K) (eps huge : K) (f : Nat → K) (v : Nat) : Option (Val K) := do
  let w ← m.c2vWeights eps v
  match w with
  | none => some (.num 0)
  | some w => do
    let c0 ← idx m.nCells (m.cid2i (m.cellsOnVertex 0 v))
    let c1 ← idx m.nCells (m.cid2i (m.cellsOnVertex 1 v))
    let c2 ← idx m.nCells (m.cid2i (m.cellsOnVertex 2 v))
    if f c0 < huge ∨ f c1 < huge ∨ f c2 < huge then some .nan
    else some (.num (0 + w 0 * f c0 + w 1 * f c1 + w 2 * f c2))

/-- `accRestingThickness` of a cell (`mm:451-456`); the second argument is the sum so far, the flag `j == 0`. -/
def accLoop : Bool → K → List K → List K
  | _, _, [] => []
  | true, _, _ :: r => 0 :: accLoop false 0 r
  | false, s, h :: r => (s + h) :: accLoop false (s + h) r

/-- `accRestingThickness(·, i)` from `restingThickness(·, i)`. -/
def accThickness (h : List K) : List K := accLoop true 0 h

end Verif.MPAS
