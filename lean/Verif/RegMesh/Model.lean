import Mathlib.Data.Nat.Basic
import Mathlib.Data.List.Basic
/-! Model of the hypercube mesh (include/ftk/mesh/regular_mesh.hh).  An element is the list of its axes, each with
`coords[i]` and `subspace[i]`; `int` is unbounded. -/
namespace Verif.RM

/-- `regular_mesh_element` (regular_mesh.hh:14-108): `coords[i]`, `subspace[i]` for `i = 0, …, N-1`. -/
abbrev Elem := List (Int × Bool)

/-- `dim` (regular_mesh.hh:58) -/
def dim (e : Elem) : Nat := (e.map Prod.snd).count true

/-- `n_sides` (regular_mesh.hh:59) -/
def nSides (e : Elem) : Nat := 2 * dim e

/-- `sides` (regular_mesh.hh:62-77), the loop over the axes -/
def sides : Elem → List Elem
  | [] => []
  | (c, s) :: r => (if s then [(c, false) :: r, (c + 1, false) :: r] else []) ++ (sides r).map ((c, s) :: ·)

/-- `side_of` (regular_mesh.hh:79-94), the loop over the axes -/
def sideOf : Elem → List Elem
  | [] => []
  | (c, s) :: r => (if !s then [(c, true) :: r, (c - 1, true) :: r] else []) ++ (sideOf r).map ((c, s) :: ·)

/-- `element_types[k]` (regular_mesh.hh:159-170): the masks with `k` ones in the order of `std::prev_permutation`, that is
in decreasing lexicographic order, from `1…10…0`. -/
def types : Nat → Nat → List (List Bool)
  | 0, 0 => [[]]
  | 0, _ + 1 => []
  | N + 1, 0 => (types N 0).map (false :: ·)
  | N + 1, k + 1 => (types N k).map (true :: ·) ++ (types N (k + 1)).map (false :: ·)

/-- `while (coords[rez_i] >= rez[rez_i] - 1) { coords[rez_i] = 0; rez_i ++; } coords[rez_i] ++;` (regular_mesh.hh:45-50);
`none` = past the end of the arrays. -/
def carry : List Int → List Int → Option (List Int)
  | c :: cs, m :: ms => if c ≥ m - 1 then (carry cs ms).map (0 :: ·) else some ((c + 1) :: cs)
  | _, _ => none

/-- `operator++` (regular_mesh.hh:33-56).  `none` = past the end of the arrays, or a dimension without type. -/
def next (rez : List Int) (e : Elem) : Option Elem :=
  let ts := types e.length (dim e)
  let i := ts.idxOf (e.map Prod.snd)
  if i + 1 < ts.length then (ts[i + 1]?).map ((e.map Prod.fst).zip ·)
  else
    match carry (e.map Prod.fst) rez, ts[0]? with
    | some cs, some t => some (cs.zip t)
    | _, _ => none

/-- `begin(dim)` (regular_mesh.hh:125-127) -/
def begin_ (rez : List Int) (d : Nat) : Option Elem :=
  (types rez.length d)[0]?.map ((List.replicate rez.length (0 : Int)).zip ·)

/-- `end(dim)` (regular_mesh.hh:129-131, `rezm1` 138-144) -/
def end_ (rez : List Int) (d : Nat) : Option Elem :=
  (types rez.length d).getLast?.map ((rez.map (· - 1)).zip ·)

end Verif.RM
