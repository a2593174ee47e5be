import Verif.Graph.Model
import Verif.UnionFind.Spec
/-! Specification of reachability and connectivity in a graph given by a neighbor function. -/
namespace Verif.Gr
open Relation

/-- `x` is reached from `seed` along neighbors that all satisfy the criterion -/
def Reach {α : Type} (nb : α → List α) (crit : α → Bool) (seed x : α) : Prop :=
  ReflTransGen (fun a b => b ∈ nb a ∧ crit b = true) seed x

/-- linked by a path (in either direction) of neighbors inside `q` -/
def Linked {α : Type} (nb : α → List α) (q : List α) : α → α → Prop :=
  EqvGen (fun a b => a ∈ q ∧ b ∈ q ∧ b ∈ nb a)

/-- the neighbor relation is symmetric -/
def Symm {α : Type} (nb : α → List α) : Prop := ∀ a b, b ∈ nb a → a ∈ nb b

end Verif.Gr
