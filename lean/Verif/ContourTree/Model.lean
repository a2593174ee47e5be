import Verif.Common.OrdSet
import Mathlib.Algebra.Order.Group.Int
import Mathlib.Algebra.Order.Ring.Int
/-! Model of `contour_tree` (include/ftk/basic/contour_tree.hh) with ids of type `Int`.  A `std::map<Id, std::set<Id>>` is a
function to optional sorted lists.  Dereferencing `begin()` of an empty set is `none`. -/
namespace Verif.CT

/-- members of `contour_tree` (contour_tree.hh:111-112) -/
structure Tree where
  nodes : List Int := []
  upper : Int → Option (List Int) := fun _ => none
  lower : Int → Option (List Int) := fun _ => none

/-- assigning one entry of a map -/
def put (m : Int → Option (List Int)) (k : Int) (v : Option (List Int)) : Int → Option (List Int) :=
  fun j => if j = k then v else m j

/-- `m[k].insert(v)` (`operator[]` creates an empty set) -/
def linkInsert (m : Int → Option (List Int)) (k v : Int) : Int → Option (List Int) :=
  put m k (some (setInsert v ((m k).getD [])))

/-- `m[k].erase(v)` (`operator[]` creates an empty set) -/
def linkErase (m : Int → Option (List Int)) (k v : Int) : Int → Option (List Int) :=
  put m k (some (((m k).getD []).filter (· ≠ v)))

/-- `add_node` (contour_tree.hh:12) -/
def Tree.addNode (t : Tree) (i : Int) : Tree := { t with nodes := setInsert i t.nodes }

/-- `add_arc` (contour_tree.hh:15-18) -/
def Tree.addArc (t : Tree) (lo hi : Int) : Tree :=
  { t with upper := linkInsert t.upper lo hi, lower := linkInsert t.lower hi lo }

/-- `upper_degree` (contour_tree.hh:45-49) -/
def Tree.upperDegree (t : Tree) (i : Int) : Nat := ((t.upper i).getD []).length

/-- `lower_degree` (contour_tree.hh:51-55) -/
def Tree.lowerDegree (t : Tree) (i : Int) : Nat := ((t.lower i).getD []).length

/-- `upper_node` (contour_tree.hh:57-61) -/
def Tree.upperNode (t : Tree) (i : Int) : Option Int :=
  match t.upper i with
  | none => some (-1)
  | some l => l.head?

/-- `lower_node` (contour_tree.hh:63-67) -/
def Tree.lowerNode (t : Tree) (i : Int) : Option Int :=
  match t.lower i with
  | none => some (-1)
  | some l => l.head?

/-- the tail of `reduce_node` (contour_tree.hh:35-37) -/
def Tree.drop (t : Tree) (i : Int) : Tree :=
  { nodes := t.nodes.filter (· ≠ i), upper := put t.upper i none, lower := put t.lower i none }

/-- `reduce_node` (contour_tree.hh:20-39): the return value and the tree afterwards. -/
def Tree.reduceNode (t : Tree) (i : Int) : Option (Bool × Tree) :=
  let ud := t.upperDegree i
  let ld := t.lowerDegree i
  if ud > 1 ∨ ld > 1 then some (false, t)
  else if ud = 1 ∧ ld = 0 then
    (t.upperNode i).map fun hi => (true, { t with lower := linkErase t.lower hi i }.drop i)
  else if ud = 0 ∧ ld = 1 then
    (t.lowerNode i).map fun lo => (true, { t with upper := linkErase t.upper lo i }.drop i)
  else
    (t.upperNode i).bind fun hi => (t.lowerNode i).map fun lo =>
      let low := linkErase t.lower hi i
      let upp := linkErase t.upper lo i
      (true, { t with lower := linkInsert low hi lo, upper := linkInsert upp lo hi }.drop i)

/-- `reduce` (contour_tree.hh:98-109) -/
def Tree.reduce (t : Tree) : Option Tree :=
  (t.nodes.filter fun i => t.upperDegree i = 1 ∧ t.lowerDegree i = 1).foldlM
    (fun t i => (t.reduceNode i).map (·.2)) t

/-- `is_leaf` (contour_tree.hh:41-43) -/
def Tree.isLeaf (t : Tree) (i : Int) : Bool := t.upperDegree i + t.lowerDegree i = 1

/-- the calls of the interface -/
inductive Op where
  | addNode (i : Int)
  | addArc (lo hi : Int)
  | reduceNode (i : Int)
  | reduce

/-- one call -/
def Tree.step (t : Tree) : Op → Option Tree
  | .addNode i => some (t.addNode i)
  | .addArc lo hi => some (t.addArc lo hi)
  | .reduceNode i => (t.reduceNode i).map (·.2)
  | .reduce => t.reduce

end Verif.CT
