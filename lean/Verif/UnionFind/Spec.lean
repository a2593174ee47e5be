import Verif.UnionFind.Model
import Mathlib.Logic.Relation
/-!
Specification of the union-find API, independent of the implementation: what was added, which
pairs were united, and the equivalence closure (`Relation.EqvGen`) of the united pairs.
-/
namespace Verif.UF
open Relation

/-- The elements added by a history. -/
def added {α : Type} : List (Op α) → List α
  | [] => []
  | .add i :: h => i :: added h
  | _ :: h => added h

/-- `a` and `b` were passed to `unite` in this order. -/
def United {α : Type} (h : List (Op α)) (a b : α) : Prop := Op.unite a b ∈ h

/-- The API's contract: every call other than `add` mentions only elements added before
(`seen` are the elements added so far). -/
def ValidFrom {α : Type} (seen : List α) : List (Op α) → Prop
  | [] => True
  | .add i :: h => ValidFrom (i :: seen) h
  | .unite i j :: h => i ∈ seen ∧ j ∈ seen ∧ ValidFrom seen h
  | .find i :: h => i ∈ seen ∧ ValidFrom seen h
  | .sameSet i j :: h => i ∈ seen ∧ j ∈ seen ∧ ValidFrom seen h

/-- connected by a chain of united pairs -/
def Connected {α : Type} (h : List (Op α)) : α → α → Prop := EqvGen (United h)

/-- pairs united in a `simple_union_find` history -/
def SUnited (h : List SOp) (a b : Nat) : Prop := SOp.unite a b ∈ h
/-- contract of `simple_union_find`: indices below the size -/
def SValid (n : Nat) (h : List SOp) : Prop := ∀ o ∈ h, match o with
  | .unite i j => i < n ∧ j < n
  | .find i => i < n
  | .sameSet i j => i < n ∧ j < n
/-- (specification) the equivalence generated by the unions of history `h` (`simple_union_find`). -/
def SConnected (h : List SOp) : Nat → Nat → Prop := EqvGen (SUnited h)

/-- pairs united in a `duf` history -/
def DUnited {α : Type} (h : List (DOp α)) (a b : α) : Prop := DOp.unite a b ∈ h
/-- (specification) the equivalence generated by the unions of history `h` (`duf`). -/
def DConnected {α : Type} (h : List (DOp α)) : α → α → Prop := EqvGen (DUnited h)
/-- elements mentioned in a `duf` history -/
def DMentioned {α : Type} (h : List (DOp α)) (x : α) : Prop :=
  DOp.find x ∈ h ∨ ∃ y, DOp.unite x y ∈ h ∨ DOp.unite y x ∈ h

/-- `l` is `m` cut into non-empty blocks (`get_sets`): `sets` is a partition of the elements `D`
into the classes of `R`. -/
structure IsPartition {α : Type} (D : α → Prop) (R : α → α → Prop) (sets : List (List α)) :
    Prop where
  nonempty : ∀ s ∈ sets, s ≠ []
  only : ∀ s ∈ sets, ∀ x ∈ s, D x
  cover : ∀ x, D x → ∃ s ∈ sets, x ∈ s
  classes : ∀ s ∈ sets, ∀ x ∈ s, ∀ y, D y → (y ∈ s ↔ R x y)
  disjoint : sets.Pairwise (fun s t => ∀ x, x ∈ s → x ∉ t)
  nodup : ∀ s ∈ sets, s.Nodup

end Verif.UF

namespace Verif.UF
/-- The pairs the threads were asked to unite. -/
def PairsOf {α : Type} (us : List (α × α)) (a b : α) : Prop := (a, b) ∈ us

/-- The next step of thread `t` does not overwrite a link: if it is the locked write, the slot it
writes (the larger of the two representatives) is still a root. -/
def FreshWrite {α : Type} [LinearOrder α] (c : Conc α) (t : Nat) : Prop :=
  ∀ ri rj, c.pcs[t]? = some (.found2 ri rj) → ri ≠ rj →
    c.duf.par (max ri rj) = some (max ri rj)

/-- Every write of the schedule is fresh in that sense. -/
def FreshRun {α : Type} [LinearOrder α] (c : Conc α) : List Nat → Prop
  | [] => True
  | t :: ts => FreshWrite c t ∧ ∀ c', c.step t = some c' → FreshRun c' ts
end Verif.UF
