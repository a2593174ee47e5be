import Verif.XBlob.Model
import Mathlib.Logic.Relation

/-!
# What the labels of blobs mean
-/

namespace Verif.XBlob

open Relation Verif.XGC

variable {K : Type} [Field K] [LinearOrder K]

/-- The snapshots of a history, in the order they were pushed: the one at position `t` is time step `t`. -/
def frames : List (Op K) → List (List K)
  | [] => []
  | .push s :: os => s :: frames os
  | .advance :: os => frames os

/-- How often the tracker was advanced. -/
def advances : List (Op K) → Nat
  | [] => 0
  | .push _ :: os => advances os
  | .advance :: os => advances os + 1

/-- When the tracker advanced from time step `t`, the snapshot of time step `t + 1` was there. -/
def Joined (H : List (Op K)) (t : Nat) : Prop :=
  ∃ pre suf, H = pre ++ Op.advance :: suf ∧ advances pre = t ∧ t + 2 ≤ (frames pre).length

/-- The history never advances without a snapshot. -/
def Fed (H : List (Op K)) : Prop :=
  ∀ pre suf, H = pre ++ Op.advance :: suf → advances pre < (frames pre).length

/-- A vertex of space-time: time step and vertex of the mesh. -/
abbrev Node := Nat × Int

/-- The vertex is one of the mesh and the field there is at least the threshold. -/
def Bright (g : G) (ls : List (List (Lerp K))) (thr : K) (H : List (Op K)) (p : Node) : Prop :=
  0 ≤ p.2 ∧ p.2 < g.n 0 ∧ ∃ s x, (frames H)[p.1]? = some s ∧ interpolate g ls s p.2 = some x ∧ thr ≤ x

/-- The mesh lists `j` among the neighbours of `i`. -/
def Near (g : G) (i j : Int) : Prop := ∃ S, g.vertexEdgeVertex i = some S ∧ j ∈ S

/-- Two bright vertices that touch: neighbours in a time step that was processed, or the same vertex in two time steps
that were processed together. -/
def Touch (g : G) (ls : List (List (Lerp K))) (thr : K) (H : List (Op K)) (p q : Node) : Prop :=
  Bright g ls thr H p ∧ Bright g ls thr H q ∧
    ((q.1 = p.1 ∧ p.1 < advances H ∧ Near g p.2 q.2) ∨ (q.1 = p.1 + 1 ∧ q.2 = p.2 ∧ Joined H p.1))

/-- The same blob. -/
def SameBlob (g : G) (ls : List (List (Lerp K))) (thr : K) (H : List (Op K)) : Node → Node → Prop :=
  EqvGen (Touch g ls thr H)

/-- The vertex touches another one (or is touched). -/
def Tied (g : G) (ls : List (List (Lerp K))) (thr : K) (H : List (Op K)) (p : Node) : Prop :=
  ∃ q, Touch g ls thr H p q ∨ Touch g ls thr H q p

end Verif.XBlob
