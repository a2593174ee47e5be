import Verif.Common.OrdSet
import Verif.Lattice.Model
import Verif.Parallel.Model
import Mathlib.Data.List.Lex
import Mathlib.Data.List.Sort
import Mathlib.Data.Prod.Lex
import Mathlib.Data.Int.Order.Basic
/-! Model of `mesh/simplicial_regular_mesh.hh`. `int`/`size_t` are unbounded. -/
namespace Verif.SRM

/-- A lattice vertex: its integer coordinates (simplicial_regular_mesh.hh uses `std::vector<int>`). -/
abbrev Vtx := List Int
/-- A simplex as the list of its vertices, as returned by `simplicial_regular_mesh_element::vertices`. -/
abbrev Simplex := List Vtx

/-! ### unit simplices -/

/-- `vertex.insert(vertex.begin()+i, 0)` for every vertex, then the all-one vertex
(simplicial_regular_mesh.hh:637-650). -/
def lift (n i : Nat) (s : Simplex) : Simplex :=
  s.map (fun v => v.insertIdx i 0) ++ [List.replicate n 1]

/-- `subdivide_unit_cube(n)` (simplicial_regular_mesh.hh:620-656).  The code recurses for ever for
`n = 0`; every theorem assumes `1 ≤ n`. -/
def subdivide : Nat → List Simplex
  | 0 => []
  | 1 => [[[0], [1]]]
  | n + 2 => (List.range (n + 2)).flatMap (fun i => (subdivide (n + 1)).map (lift (n + 2) i))

/-- "every coordinate on the i-th dimension is 1" (simplicial_regular_mesh.hh:669-675); the test in
the code is `== 0`. -/
def allOne (s : Simplex) (i : Nat) : Bool := s.all (fun v => v[i]? != some 0)

/-- `reduce_unit_simplex` (simplicial_regular_mesh.hh:659-689): reduced simplex and offset.  The loop
over the dimensions only reads and writes coordinate `i` in round `i`, so the rounds are independent. -/
def reduce (nd : Nat) (s : Simplex) : Simplex × Vtx :=
  (s.map (fun v => v.mapIdx (fun i x => if allOne s i then 0 else x)),
   (List.range nd).map (fun i => if allOne s i then 1 else 0))

/-- all permutations -/
def insertAll {α : Type} (x : α) : List α → List (List α)
  | [] => [[x]]
  | y :: ys => (x :: y :: ys) :: (insertAll x ys).map (y :: ·)
/-- All permutations of a list (the paths through the unit cube of `subdivide_unit_cube`). -/
def perms {α : Type} : List α → List (List α)
  | [] => [[]]
  | x :: xs => (perms xs).flatMap (insertAll x)

/-- The sequences visited by `do ... while (std::next_permutation(s.begin(), s.end()))`: by the
standard, the permutations of `s` that are not lexicographically below `s` (order of visits not
modelled, all uses collect into a set). -/
def permsFrom (s : Simplex) : List Simplex := (perms s).filter (fun p => decide (s ≤ p))

/-- `std::sort` (the sorted rearrangement; unique because the order is total). -/
def sort (s : Simplex) : Simplex := s.insertionSort (· ≤ ·)

/-- `std::set` filled by successive `insert`s, read in iteration order. -/
def toSet {α : Type} [LinearOrder α] (l : List α) : List α := l.foldl (fun acc x => setInsert x acc) []

/-- `enumerate_unit_simplices(n, n - j)` (simplicial_regular_mesh.hh:691-720). -/
def enumAux (n : Nat) : Nat → List Simplex
  | 0 => toSet ((subdivide n).map sort)
  | j + 1 => toSet ((enumAux n j).flatMap (fun h => (permsFrom h).map (fun p =>
      sort (reduce n (p.take (h.length - 1))).1)))

/-- `enumerate_unit_simplices(n, k)` = `unit_simplices[k]` of an `n`-dimensional mesh
(simplicial_regular_mesh.hh:691-720, 894-896). -/
def unitSimplices (n k : Nat) : List Simplex := if k ≤ n then enumAux n (n - k) else []

/-- `ntypes(d)` (simplicial_regular_mesh.hh:610-618, 896). -/
def ntypes (n k : Nat) : Nat := (unitSimplices n k).length

/-! ### sides and side_of tables -/

/-- `corner[j] + unit_vertices[i][j]` -/
def translate (c v : Vtx) : Vtx := List.zipWith (· + ·) c v

/-- `enumerate_unit_simplex_sides(k, type)` (simplicial_regular_mesh.hh:770-808); `none` = type out of
range. -/
def unitSides (n k t : Nat) : Option (List (Nat × Vtx)) :=
  if k = 0 then some []
  else match (unitSimplices n k)[t]? with
    | none => none
    | some s => some ((toSet ((permsFrom s).flatMap (fun p =>
        let r := reduce n (p.take (s.length - 1))
        ((List.range (ntypes n (k - 1))).filter
          (fun t' => (unitSimplices n (k - 1))[t']? == some (sort r.1))).map
            (fun t' => toLex (t', r.2))))).map ofLex)

/-- `std::includes` on two ranges (the standard's algorithm). -/
def includes : Simplex → Simplex → Bool
  | _, [] => true
  | [], _ :: _ => false
  | a :: as, b :: bs =>
    if b < a then false else if a < b then includes as (b :: bs) else includes as bs

/-- `corner[i]++; while (corner[i] > 1) { corner[i] = -1; corner[++i]++; }` started at `i = 0`
(simplicial_regular_mesh.hh:752-757). -/
def incCorner : Vtx → Vtx
  | [] => []
  | c :: cs => if c + 1 > 1 then -1 :: incCorner cs else (c + 1) :: cs

/-- the visits `(type, corner)` of the scan `while (1)` (simplicial_regular_mesh.hh:737-762) over the
`(k+1)`-simplices around the origin, with `nt` types; at most `fuel` steps. -/
def scan (nt : Nat) : Nat → Nat → Vtx → List (Nat × Vtx)
  | 0, _, _ => []
  | fuel + 1, t, corner =>
    (t, corner) ::
      (if t + 1 = nt ∧ corner.all (fun c => c == 1) then []
       else if t + 1 = nt then scan nt fuel 0 (incCorner corner)
       else scan nt fuel (t + 1) corner)

/-- `enumerate_unit_simplex_side_of(k, type)` (simplicial_regular_mesh.hh:722-768).  `none` = type out
of range.  The scan is given the `3^n * ntypes` steps it takes. -/
def unitSideOf (n k t : Nat) : Option (List (Nat × Vtx)) :=
  if k = n then some []
  else match (unitSimplices n k)[t]? with
    | none => none
    | some s =>
      let mine := s.map (translate (List.replicate n 0))
      some ((toSet (((scan (ntypes n (k + 1)) (3 ^ n * ntypes n (k + 1)) 0 (List.replicate n (-1))).filter
        (fun tc => match (unitSimplices n (k + 1))[tc.1]? with
          | none => false
          | some s' => includes (s'.map (translate tc.2)) mine)).map toLex)).map ofLex)

/-! ### elements -/

/-- `simplicial_regular_mesh_element` (simplicial_regular_mesh.hh:46-100). -/
structure Elem where
  corner : Vtx
  dim : Nat
  type : Nat
deriving DecidableEq, Repr

/-- `vertices(m)` (simplicial_regular_mesh.hh:376-389). -/
def Elem.vertices (n : Nat) (e : Elem) : Option Simplex :=
  match (unitSimplices n e.dim)[e.type]? with
  | none => none
  | some s => some (s.map (translate e.corner))

/-- `sides(m)` (simplicial_regular_mesh.hh:572-586). -/
def Elem.sides (n : Nat) (e : Elem) : Option (List Elem) :=
  match unitSides n e.dim e.type with
  | none => none
  | some l => some (l.map (fun s => { corner := translate e.corner s.2, dim := e.dim - 1, type := s.1 }))

/-- `side_of(m)` (simplicial_regular_mesh.hh:588-602). -/
def Elem.sideOf (n : Nat) (e : Elem) : Option (List Elem) :=
  match unitSideOf n e.dim e.type with
  | none => none
  | some l => some (l.map (fun s => { corner := translate e.corner s.2, dim := e.dim + 1, type := s.1 }))

/-- `operator<` (simplicial_regular_mesh.hh:330-340); `dim` is not compared. -/
def Elem.lt (a b : Elem) : Bool :=
  if a.corner = b.corner then decide (a.type < b.type) else decide (a.corner < b.corner)

/-- `operator==` (simplicial_regular_mesh.hh:354-357). -/
def Elem.eq (a b : Elem) : Bool := decide (a.dim = b.dim ∧ a.type = b.type ∧ a.corner = b.corner)

/-! ### ordinal and interval types -/

/-- sum of the last coordinates of the vertices (simplicial_regular_mesh.hh:820-824) -/
def timeSum (n : Nat) (s : Simplex) : Int := (s.map (fun v => v.getD (n - 1) 0)).sum

/-- `is_unit_simplex_type_ordinal[d][t]` (simplicial_regular_mesh.hh:810-846). -/
def isOrdinalType (n d t : Nat) : Bool :=
  if d = 0 then t == 0
  else match (unitSimplices n d)[t]? with
    | none => false
    | some s => timeSum n s == 0

/-- `ELEMENT_SCOPE_ALL / ORDINAL / INTERVAL`, include/ftk/mesh/simplicial_regular_mesh.hh. -/
inductive Scope | all | ordinal | interval
deriving DecidableEq, Repr

/-- the table of types of a scope: `unit_ordinal_simplex_types[d]`, `unit_interval_simplex_types[d]`,
or all types (simplicial_regular_mesh.hh:810-846, 474-479). -/
def scopeTypes (n d : Nat) : Scope → List Nat
  | .all => List.range (ntypes n d)
  | .ordinal => if d = 0 then [0] else (List.range (ntypes n d)).filter (isOrdinalType n d)
  | .interval => if d = 0 then [] else (List.range (ntypes n d)).filter (fun t => !isOrdinalType n d t)

/-! ### indices -/

/-- bounds of a mesh (`set_lb_ub`, simplicial_regular_mesh.hh:919-937). -/
structure Bounds where
  lb : List Int
  ub : List Int

/-- `sizes()` (simplicial_regular_mesh.hh:949-956); sizes of an empty range are taken as 0. -/
def Bounds.sizes (b : Bounds) : List Nat := List.zipWith (fun l u => (u - l + 1).toNat) b.lb b.ub

/-- `dimprod_[0..nd-1]` (simplicial_regular_mesh.hh:933-936). -/
def Bounds.dimprod (b : Bounds) : List Nat := strides 1 b.sizes

/-- `sum (corner[i]-lb[i]) * dimprod_[i]` -/
def cornerIndex : List Int → List Int → List Nat → Int
  | x :: xs, s :: ss, p :: ps => (x - s) * p + cornerIndex xs ss ps
  | _, _, _ => 0

/-- `to_integer(m)` (simplicial_regular_mesh.hh:488-495). -/
def Elem.toInteger (n : Nat) (b : Bounds) (e : Elem) : Int :=
  cornerIndex e.corner b.lb b.dimprod * ntypes n e.dim + e.type

/-- the division loop of `from_integer` (simplicial_regular_mesh.hh:503-506), strides in reverse. -/
def divRev : List Nat → Nat → List Nat
  | [], _ => []
  | p :: ps, i => (i / p) :: divRev ps (i - (i / p) * p)

/-- `from_integer(m, index)` for dimension `d` (simplicial_regular_mesh.hh:497-509). -/
def fromInteger (n : Nat) (b : Bounds) (d index : Nat) : Elem :=
  { type := index % ntypes n d, dim := d,
    corner := List.zipWith (fun (a : Nat) (l : Int) => (a : Int) + l)
      (divRev b.dimprod.reverse (index / ntypes n d)).reverse b.lb }

/-- `from_work_index` (simplicial_regular_mesh.hh:473-486); `none` = undefined. -/
def fromWorkIndex (n d i : Nat) (l : Lat.Lattice) (sc : Scope) : Option Elem :=
  let nt := (scopeTypes n d sc).length
  match (scopeTypes n d sc)[i % nt]?, l.fromInteger (i / nt) with
  | some t, some c => some { corner := c, dim := d, type := t }
  | _, _ => none

/-- `to_work_index` (simplicial_regular_mesh.hh:467-471): the type is not encoded. -/
def Elem.toWorkIndex (n : Nat) (e : Elem) (l : Lat.Lattice) (sc : Scope) : Option Int :=
  match l.toInteger e.corner with
  | none => none
  | some i => some (i * (scopeTypes n e.dim sc).length)

/-- `ntasks = l.n() * ntypes(d, scope)` (simplicial_regular_mesh.hh:1055). -/
def elementForTasks (n d : Nat) (l : Lat.Lattice) (sc : Scope) : Option Nat :=
  match l.n with
  | none => none
  | some k => some (k * (scopeTypes n d sc).length)

/-- the elements `element_for(d, l, scope, f)` passes to `f`, in the order of the calls, when
`parallel_for` has executed the tasks in `trace` (simplicial_regular_mesh.hh:1043-1058). -/
def elementForCalls (n d : Nat) (l : Lat.Lattice) (sc : Scope) (trace : List Int) : List (Option Elem) :=
  trace.map (fun j => if j < 0 then none else fromWorkIndex n d j.toNat l sc)

/-- sub-lattice of `element_for_ordinal(d, t)` / `element_for_interval(d, t, _)`
(simplicial_regular_mesh.hh:1011-1041): the last dimension is `[t, t+1)`. -/
def timeSlab (l : Lat.Lattice) (t : Nat) : Lat.Lattice :=
  { starts := l.starts.set (l.nd - 1) t, sizes := l.sizes.set (l.nd - 1) 1 }

end Verif.SRM
