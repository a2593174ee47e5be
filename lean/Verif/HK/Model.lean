/-! Model of `algorithms/hoshen_kopelman.hh`: `hoshen_kopelman_2d`.

`matrix` is the flat data of an `m x n` ndarray (`matrix(i,j)` is entry `i + m*j`), labels are natural
numbers (no overflow).  An access of the `labels` / `new_labels` vectors out of bounds is undefined
behaviour: outcome `none`.  The matrix accesses are `matrix(i,j)`, `matrix(i-1,j)` (`i ≠ 0`) and
`matrix(i,j-1)` (`j ≠ 0`) with `i < m`, `j < n`, hence in bounds. -/
namespace Verif.HK

/-- `make_set` (hoshen_kopelman.hh:17-21): new `labels` and the returned label. -/
def makeSet (L : List Nat) : Option (List Nat × Nat) :=
  match L[0]? with
  | none => none
  | some c => if c + 1 < L.length then some ((L.set 0 (c + 1)).set (c + 1) (c + 1), c + 1) else none

/-- first loop of `find` (hoshen_kopelman.hh:24-26). -/
def chase : Nat → List Nat → Nat → Option Nat
  | fuel, L, y =>
    match L[y]? with
    | none => none
    | some p => if p = y then some y else
      match fuel with
      | 0 => none
      | fuel + 1 => chase fuel L p

/-- second loop of `find` (hoshen_kopelman.hh:27-31). -/
def compress : Nat → List Nat → Nat → Nat → Option (List Nat)
  | fuel, L, x, y =>
    match L[x]? with
    | none => none
    | some z => if z = x then some L else
      match fuel with
      | 0 => none
      | fuel + 1 => compress fuel (L.set x y) z y

/-- `find` (hoshen_kopelman.hh:23-33). -/
def find (L : List Nat) (x : Nat) : Option (List Nat × Nat) :=
  match chase L.length L x with
  | none => none
  | some y =>
    match compress L.length L x y with
    | none => none
    | some L' => some (L', y)

/-- `unite` (hoshen_kopelman.hh:35-37): `labels[find(x)] = find(y)`, right side first (C++17). -/
def unite (L : List Nat) (x y : Nat) : Option (List Nat × Nat) :=
  match find L y with
  | none => none
  | some (L1, ry) =>
    match find L1 x with
    | none => none
    | some (L2, rx) => if rx < L2.length then some (L2.set rx ry, ry) else none

/-- body of the first pass at cell `(i,j)` (hoshen_kopelman.hh:42-56). -/
def firstCell (m : Nat) (i j : Nat) (M L : List Nat) : Option (List Nat × List Nat) :=
  if M.getD (i + m * j) 0 ≠ 0 then
    let left := if i = 0 then 0 else M.getD (i - 1 + m * j) 0
    let up := if j = 0 then 0 else M.getD (i + m * (j - 1)) 0
    match (if left ≠ 0 then 1 else 0) + (if up ≠ 0 then 1 else 0) with
    | 0 => match makeSet L with
      | none => none
      | some (L', l) => some (M.set (i + m * j) l, L')
    | 1 => some (M.set (i + m * j) (max up left), L)
    | _ => match unite L up left with
      | none => none
      | some (L', l) => some (M.set (i + m * j) l, L')
  else some (M, L)

/-- loop order: `for j, for i` (hoshen_kopelman.hh:40-41, 62-63). -/
def cells (m n : Nat) : List (Nat × Nat) := (List.range n).flatMap (fun j => (List.range m).map (fun i => (i, j)))

/-- first pass (hoshen_kopelman.hh:39-58). -/
def firstPass (m : Nat) : List (Nat × Nat) → List Nat → List Nat → Option (List Nat × List Nat)
  | [], M, L => some (M, L)
  | (i, j) :: cs, M, L =>
    match firstCell m i j M L with
    | none => none
    | some (M', L') => firstPass m cs M' L'

/-- body of the second pass (hoshen_kopelman.hh:64-71) on `(matrix, labels, new_labels)`. -/
def secondCell (m : Nat) (i j : Nat) (M L N : List Nat) : Option (List Nat × List Nat × List Nat) :=
  if M.getD (i + m * j) 0 ≠ 0 then
    match find L (M.getD (i + m * j) 0) with
    | none => none
    | some (L', x) =>
      match N[x]?, N[0]? with
      | some v, some c =>
        let N' := if v = 0 then (N.set 0 (c + 1)).set x (c + 1) else N
        match N'[x]? with
        | none => none
        | some w => some (M.set (i + m * j) w, L', N')
      | _, _ => none
  else some (M, L, N)

/-- second pass (hoshen_kopelman.hh:61-73). -/
def secondPass (m : Nat) : List (Nat × Nat) → List Nat → List Nat → List Nat → Option (List Nat × List Nat × List Nat)
  | [], M, L, N => some (M, L, N)
  | (i, j) :: cs, M, L, N =>
    match secondCell m i j M L N with
    | none => none
    | some (M', L', N') => secondPass m cs M' L' N'

/-- `hoshen_kopelman_2d` (hoshen_kopelman.hh:9-76) on a 2-dimensional array: matrix and count. -/
def hk (m n : Nat) (A : List Nat) : Option (List Nat × Nat) :=
  let L := List.replicate (m * n / 2) 0
  match firstPass m (cells m n) A L with
  | none => none
  | some (M, L) =>
    match secondPass m (cells m n) M L (List.replicate L.length 0) with
    | none => none
    | some (M', _, N) =>
      match N[0]? with
      | none => none
      | some c => some (M', c)

end Verif.HK
