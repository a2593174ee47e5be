import Mathlib.Algebra.Order.Monoid.Defs
import Mathlib.Data.List.Chain
/-! Paths and their weights. -/
namespace Verif.Dij
variable {α T : Type}

/-- `p` is a path from `a` to `b`. -/
def IsPath (nb : α → List α) (p : List α) (a b : α) : Prop :=
  p.head? = some a ∧ p.getLast? = some b ∧ List.IsChain (fun x y => y ∈ nb x) p

/-- total weight of a path -/
def weight [AddCommMonoid T] (w : α → α → T) : List α → T
  | a :: b :: l => w a b + weight w (b :: l)
  | _ => 0

end Verif.Dij
