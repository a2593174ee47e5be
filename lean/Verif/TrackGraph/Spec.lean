import Verif.TrackGraph.Model
import Mathlib.Logic.Relation
/-! What a history of `add_node` / `add_edge` calls means. -/
namespace Verif.TG
open Relation
variable {T L : Type}

/-- `(t,l)` was added, as a node or as the end of an edge. -/
def Present (ops : List (Op T L)) (n : Node T L) : Prop :=
  Op.node (time n) (label n) ∈ ops ∨
  (∃ m : Node T L, Op.edge (time n) (label n) (time m) (label m) ∈ ops) ∨
  (∃ m : Node T L, Op.edge (time m) (label m) (time n) (label n) ∈ ops)

/-- an edge `a → b` was added. -/
def Edge (ops : List (Op T L)) (a b : Node T L) : Prop :=
  Op.edge (time a) (label a) (time b) (label b) ∈ ops

/-- the edge `a → b` is the only one leaving `a`, or the only one entering `b`. -/
def SimpleEdge (ops : List (Op T L)) (a b : Node T L) : Prop :=
  Edge ops a b ∧ ((∀ b', Edge ops a b' → b' = b) ∨ (∀ a', Edge ops a' b → a' = a))

/-- same track: a chain of simple edges, in either direction. -/
def SameTrack (ops : List (Op T L)) : Node T L → Node T L → Prop := EqvGen (SimpleEdge ops)

/-- connected by edges from time `t0` to time `t1`. -/
def IntervalLinked (ops : List (Op T L)) (t0 t1 : T) : Node T L → Node T L → Prop :=
  EqvGen (fun a b => Edge ops a b ∧ time a = t0 ∧ time b = t1)

/-- all edges go forward in time. -/
def Forward [LT T] (ops : List (Op T L)) : Prop :=
  ∀ t0 l0 t1 l1, Op.edge t0 l0 t1 l1 ∈ ops → t0 < t1

end Verif.TG

namespace Verif.TG
open Relation
variable {T L : Type}

/-- node `n` takes part in event `e` of the interval `(t0, t1)`. -/
def InEvent (e : Event T L) (t0 t1 : T) (n : Node T L) : Prop :=
  (time n = t0 ∧ label n ∈ e.lhs) ∨ (time n = t1 ∧ label n ∈ e.rhs)

/-- `n` simply continues: it is one of two nodes `a` (at `t0`), `b` (at `t1`) joined by an edge and
linked to nothing else in the interval. -/
def Continues (ops : List (Op T L)) (t0 t1 : T) (n : Node T L) : Prop :=
  ∃ a b, time a = t0 ∧ time b = t1 ∧ Edge ops a b ∧ (n = a ∨ n = b) ∧
    ∀ m, IntervalLinked ops t0 t1 n m → m = a ∨ m = b

/-- `evs` is a correct list of events of the interval `(t0, t1)`. -/
structure EventsFor (ops : List (Op T L)) (t0 t1 : T) (evs : List (Event T L)) : Prop where
  /-- each event is tagged with the interval and is a real event -/
  real : ∀ e ∈ evs, e.interval = (t0, t1) ∧ e.type ≠ EventType.none
  /-- each event is a whole connected group of features present at `t0` or `t1` -/
  group : ∀ e ∈ evs, ∃ n, Present ops n ∧ (time n = t0 ∨ time n = t1) ∧ ∀ m, InEvent e t0 t1 m ↔
    Present ops m ∧ (time m = t0 ∨ time m = t1) ∧ IntervalLinked ops t0 t1 n m
  /-- a feature is in some event iff it does not simply continue -/
  complete : ∀ n, Present ops n → (time n = t0 ∨ time n = t1) →
    ((∃ e ∈ evs, InEvent e t0 t1 n) ↔ ¬ Continues ops t0 t1 n)
  /-- no feature is in two events -/
  once : evs.Pairwise (fun e e' => ∀ n, InEvent e t0 t1 n → ¬ InEvent e' t0 t1 n)
  /-- features are listed without repetition -/
  nodup : ∀ e ∈ evs, e.lhs.Nodup ∧ e.rhs.Nodup

end Verif.TG
