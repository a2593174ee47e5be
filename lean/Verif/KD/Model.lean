import Mathlib.Algebra.Order.Ring.Defs
import Mathlib.Data.List.Perm.Basic
/-! Model of the kd-tree (include/ftk/basic/kd.hh).  Points are functions from the axis to the coordinate, of which the
first `n` axes are used.  Exact arithmetic. -/
namespace Verif.KD
variable {F : Type} [CommRing F] [LinearOrder F]

/-- Any implementation of `std::nth_element(first, first + k, last, comp)` with `comp(i, j) = key(i) < key(j)`: a permutation
with nothing before position `k` greater, and nothing from `k` on smaller, than the element at `k` ([alg.nth.element]). -/
structure NthElement (F : Type) [LinearOrder F] where
  run : (key : Nat → F) → List Nat → Nat → List Nat
  perm : ∀ key l k, (run key l k).Perm l
  before : ∀ key l k (hk : k < l.length) a, a ∈ (run key l k).take k →
    key a ≤ key ((run key l k)[k]'(by rw [(perm key l k).length_eq]; exact hk))
  after : ∀ key l k (hk : k < l.length) a, a ∈ (run key l k).drop k →
    key ((run key l k)[k]'(by rw [(perm key l k).length_eq]; exact hk)) ≤ key a

/-- `kd_node_t` (kd.hh:11-18) with its subtree; `nil` is the null pointer. -/
inductive Tree where
  | nil
  | node (id : Nat) (left right : Tree)

/-- `dist2` (kd.hh:91-100) -/
def dist2 (n : Nat) (x y : Nat → F) : F := (List.range n).foldl (fun d k => d + (x k - y k) * (x k - y k)) 0

/-- `build_recursive` (kd.hh:120-157) on the range of `ids` it is given; `pts` is the point of an id.  `node->id =
ids[offset + size/2]` of an empty range is out of bounds: `none`. -/
def build (N : NthElement F) (n : Nat) (pts : Nat → Nat → F) (maxLevel level : Nat) (ids : List Nat) : Option Tree :=
  let r := N.run (fun i => pts i (level % n)) ids (ids.length / 2)
  match r[ids.length / 2]? with
  | none => none
  | some id =>
    if h : level < maxLevel ∧ ids.length > 1 then
      match build N n pts maxLevel (level + 1) (r.take (ids.length / 2)),
            build N n pts maxLevel (level + 1) (r.drop (ids.length / 2)) with
      | some a, some b => some (.node id a b)
      | _, _ => none
    else some (.node id .nil .nil)
termination_by ids.length
decreasing_by
  · simp only [List.length_take, (N.perm _ _ _).length_eq]; omega
  · simp only [List.length_drop, (N.perm _ _ _).length_eq]; omega

/-- `closest` (kd.hh:208-222): `d1 < d2 ? node1 : node2`, nulls aside. -/
def closest (n : Nat) (pts : Nat → Nat → F) (x : Nat → F) (a b : Option Nat) : Option Nat :=
  match a, b with
  | none, b => b
  | a, none => a
  | some i, some j => if dist2 n x (pts i) < dist2 n x (pts j) then some i else some j

/-- `find_nearest_recursive` (kd.hh:273-312); nodes are represented by their ids. -/
def findNearest (n : Nat) (pts : Nat → Nat → F) (x : Nat → F) : Tree → Nat → Option Nat
  | .nil, _ => none
  | .node id left right, depth =>
    let axis := depth % n
    let toLeft := decide (x axis < pts id axis)
    let next := if toLeft then findNearest n pts x left (depth + 1) else findNearest n pts x right (depth + 1)
    let best := closest n pts x next (some id)
    let d2 := dist2 n x (pts (best.getD 0))
    let dp := x axis - pts id axis
    if d2 ≥ dp * dp then
      closest n pts x (if toLeft then findNearest n pts x right (depth + 1) else findNearest n pts x left (depth + 1)) best
    else best

/-- `build` then `find_nearest` (kd.hh:80-88, 187-194) on the points `pts 0, ..., pts (np-1)`. -/
def nearest (N : NthElement F) (n : Nat) (pts : Nat → Nat → F) (np maxLevel : Nat) (x : Nat → F) : Option Nat :=
  (build N n pts maxLevel 0 (List.range np)).bind fun t => findNearest n pts x t 0

/-- `find_nearest_naive` (kd.hh:196-206); `big` is `std::numeric_limits<F>::max()`. -/
def nearestNaive (n : Nat) (pts : Nat → Nat → F) (np : Nat) (big : F) (x : Nat → F) : Nat :=
  ((List.range np).foldl (fun (s : Nat × F) i =>
    if s.2 > dist2 n x (pts i) then (i, dist2 n x (pts i)) else s) (0, big)).1

end Verif.KD
