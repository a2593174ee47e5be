import Verif.Trace.Model
/-! Specification for C111–C117, independent of the model's helpers. -/
namespace Verif.PT
open Verif.ND
variable {K : Type} [Field K] [LinearOrder K] [IsStrictOrderedRing K] [FloorRing K] {nd : Nat}

/-- (specification) `a` is a velocity field on the grid `ds`: one component dimension with at least `nd` (and at most 10)
channels, `nd` spatial dimensions. -/
structure Usable (nd : Nat) (ds : List Nat) (a : Nd K) : Prop where
  ok : Interpolable a
  comp : a.ncd = 1
  grid : ds.length = nd
  chans : ∃ c, a.dims = c :: ds ∧ nd ≤ c ∧ c ≤ 10

/-- (specification) `p` is inside the grid `ds` (below the last grid position of every dimension). -/
def InGrid (ds : List Nat) (p : Fin nd → K) : Prop := Inside (List.ofFn p) ds

/-- (specification) component `k` of the velocity at `p`: the multilinear interpolant of the grid values. -/
def velAt (a : Nd K) (p : Fin nd → K) (k : Fin nd) : K :=
  multilinear (List.ofFn p) fun c => (a.get ((k : Nat) :: c)).getD 0

/-- (specification) `a` stores the velocity `w` at every grid point. -/
def Uniform (ds : List Nat) (a : Nd K) (w : Fin nd → K) : Prop :=
  ∀ (k : Fin nd) (n : List Nat), ValidIdx n ds → a.get ((k : Nat) :: n) = some (w k)

/-- (specification) `a` samples the affine velocity `b + A p` at the grid points. -/
def AffineField (ds : List Nat) (a : Nd K) (A : Fin nd → Fin nd → K) (b : Fin nd → K) : Prop :=
  ∀ (k : Fin nd) (n : List Nat), ValidIdx n ds →
    a.get ((k : Nat) :: n) = some (affine (b k) (List.ofFn (A k)) (n.map fun i : Nat => (i : K)))

/-- (specification) one parallel loop runs every one of `n` tasks exactly once, in any order. -/
def Fair (n : Nat) (orders : Nat → List Nat × List Nat) : Prop :=
  ∀ k, (orders k).1.Perm (List.range n) ∧ (orders k).2.Perm (List.range n)

/-- (specification) the number of checkpoints of an interval: steps `0, 16, 32, ..` below `n`. -/
def nck (n : Nat) : Nat := (n + 15) / 16

/-- (specification) the trajectory through the intervals `i, i+1, ..` of a series, one particle on its own. -/
def through (c : Cfg K) : Nat → List (Nd K) → List (Pt K nd) → Option (List (Pt K nd))
  | i, a0 :: a1 :: as, tr =>
    match advanceTraj (evalVt a0 (some a1) (i : K) c.dt) c tr with
    | none => none
    | some tr => through c (i + 1) (a1 :: as) tr
  | _, _, tr => some tr

end Verif.PT
