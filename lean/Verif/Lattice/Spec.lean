import Verif.Lattice.Model
import Mathlib.Data.Nat.Prime.Defs
/-! Specification: points of a lattice, tilings. -/
namespace Verif.Lat

/-- as many starts as sizes, at least one dimension -/
def Lattice.Wf (l : Lattice) : Prop := l.starts.length = l.sizes.length ∧ 0 < l.sizes.length

/-- all sizes are positive -/
def Lattice.Pos (l : Lattice) : Prop := ∀ s ∈ l.sizes, 0 < s

/-- `x` is a point of the lattice: in every dimension `start ≤ x < start + size`. -/
def InBox (l : Lattice) (x : List Int) : Prop :=
  x.length = l.sizes.length ∧ ∀ (d : Nat) (s n : Nat) (v : Int), l.starts[d]? = some s →
    l.sizes[d]? = some n → x[d]? = some v → (s : Int) ≤ v ∧ v < s + n

/-- `cores` tile `l`: non-empty boxes of the same dimension, inside `l`, covering `l`, disjoint. -/
structure Tiles (l : Lattice) (cores : List Lattice) : Prop where
  wf : ∀ c ∈ cores, c.starts.length = l.starts.length ∧ c.sizes.length = l.sizes.length
  pos : ∀ c ∈ cores, c.Pos
  inside : ∀ c ∈ cores, ∀ x, InBox c x → InBox l x
  cover : ∀ x, InBox l x → ∃ c ∈ cores, InBox c x
  disjoint : cores.Pairwise (fun c c' => ∀ x, InBox c x → ¬ InBox c' x)

end Verif.Lat
