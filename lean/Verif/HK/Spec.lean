import Mathlib.Logic.Relation
/-! Specification of 2-D labelling, independent of the algorithm. -/
namespace Verif.HK
open Relation

/-- cell `(i,j)` of the `m x n` image `A` is in range and non-zero -/
def Fg (m n : Nat) (A : List Nat) (c : Nat × Nat) : Prop :=
  c.1 < m ∧ c.2 < n ∧ ∃ v, A[c.1 + m * c.2]? = some v ∧ v ≠ 0

/-- the two cells are 4-neighbors -/
def Adj (c d : Nat × Nat) : Prop :=
  (c.2 = d.2 ∧ (c.1 + 1 = d.1 ∨ d.1 + 1 = c.1)) ∨ (c.1 = d.1 ∧ (c.2 + 1 = d.2 ∨ d.2 + 1 = c.2))

/-- 4-connected through non-zero cells -/
def Conn (m n : Nat) (A : List Nat) : Nat × Nat → Nat × Nat → Prop :=
  EqvGen (fun c d => Fg m n A c ∧ Fg m n A d ∧ Adj c d)

/-- non-zero cells without non-zero left (`i-1`) or upper (`j-1`) neighbor, counted in the loop order -/
def cornerCount (m n : Nat) (A : List Nat) : Nat :=
  ((List.range n).flatMap (fun j => (List.range m).map (fun i => (i, j)))).countP (fun c =>
    A.getD (c.1 + m * c.2) 0 ≠ 0 && (c.1 == 0 || A.getD (c.1 - 1 + m * c.2) 0 == 0) &&
      (c.2 == 0 || A.getD (c.1 + m * (c.2 - 1)) 0 == 0))

end Verif.HK
