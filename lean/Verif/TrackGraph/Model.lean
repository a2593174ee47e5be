import Verif.Graph.Model
import Mathlib.Data.Prod.Lex
/-! Model of `tracking_graph/tracking_graph.hh`, `tracking_graph/event.hh` and
`filters/connected_component_tracker.hh`.  `std::map<K, std::set<V>>` read with `operator[]` is a
function with default `[]`; sets are strictly increasing lists.  A node is `std::pair<time, label>`
with the lexicographic order of `std::pair`.  The mutex is not modelled (calls are one at a time). -/
namespace Verif.TG
open Verif.Gr

/-- `std::pair<TimeIndexType, LabelIdType>` (tracking_graph.hh:42). -/
abbrev Node (T L : Type) := T ×ₗ L

/-- `std::make_pair(t, l)` -/
def node {T L : Type} (t : T) (l : L) : Node T L := toLex (t, l)
/-- `n.first` -/
def time {T L : Type} (n : Node T L) : T := (ofLex n).1
/-- `n.second` -/
def label {T L : Type} (n : Node T L) : L := (ofLex n).2

/-! ### event.hh -/

/-- event.hh:10-18 -/
inductive EventType
  | none | birth | death | merge | split | recombination | compound
deriving DecidableEq

/-- `Event` (event.hh:20-23). -/
structure Event (T L : Type) where
  interval : T × T
  lhs : List L
  rhs : List L
deriving DecidableEq

/-- `Event::type` (event.hh:25-41), test by test. -/
def Event.type {T L : Type} (e : Event T L) : EventType :=
  if e.lhs.length = 1 ∧ e.rhs.length = 1 then .none
  else if e.lhs.length = 0 ∧ e.rhs.length = 1 then .birth
  else if e.lhs.length = 1 ∧ e.rhs.length = 0 then .death
  else if e.lhs.length = 1 ∧ e.rhs.length = 2 then .split
  else if e.lhs.length = 2 ∧ e.rhs.length = 1 then .merge
  else if e.lhs.length = 2 ∧ e.rhs.length = 2 then .recombination
  else .compound

/-! ### tracking_graph.hh -/

/-- the members (tracking_graph.hh:44-50): keys of `nodes`, `nodes[t]`, `left_links[n]`,
`right_links[n]`, `nodeToGlobalLabelMap`, `events[t]`.  `globalLabelToNodeMap` is private and never
read; it is left out. -/
structure Graph (T L : Type) where
  times : List T
  nodes : T → List (Node T L)
  left : Node T L → List (Node T L)
  right : Node T L → List (Node T L)
  glob : Node T L → Option Nat
  events : T → List (Event T L)

/-- constructor (tracking_graph.hh:71-75). -/
def Graph.init {T L : Type} : Graph T L :=
  { times := [], nodes := fun _ => [], left := fun _ => [], right := fun _ => []
    glob := fun _ => none, events := fun _ => [] }

variable {T L : Type} [LinearOrder T] [LinearOrder L]

/-- `m[k].insert(v)` on a map of sets. -/
def insAt {K V : Type} [DecidableEq K] [LinearOrder V] (m : K → List V) (k : K) (v : V) : K → List V :=
  fun x => if x = k then setInsert v (m x) else m x

/-- `add_node` (tracking_graph.hh:113-118). -/
def Graph.addNode (g : Graph T L) (t : T) (l : L) : Graph T L :=
  { g with times := setInsert t g.times, nodes := insAt g.nodes t (node t l) }

/-- `add_edge` (tracking_graph.hh:120-133). -/
def Graph.addEdge (g : Graph T L) (t0 : T) (l0 : L) (t1 : T) (l1 : L) : Graph T L :=
  { g with times := setInsert t1 (setInsert t0 g.times)
           nodes := insAt (insAt g.nodes t0 (node t0 l0)) t1 (node t1 l1)
           left := insAt g.left (node t1 l1) (node t0 l0)
           right := insAt g.right (node t0 l0) (node t1 l1) }

/-- `has_global_label` (tracking_graph.hh:77-81). -/
def Graph.hasGlobalLabel (g : Graph T L) (t : T) (l : L) : Bool := (g.glob (node t l)).isSome

/-- `get_global_label` (tracking_graph.hh:83-91); the `GlobalLabelIdType(-1)` of a missing node is
`none`. -/
def Graph.getGlobalLabel (g : Graph T L) (t : T) (l : L) : Option Nat := g.glob (node t l)

/-- the neighbor function of `relabel` (tracking_graph.hh:144-151). -/
def Graph.simpleNbs (g : Graph T L) (n : Node T L) : List (Node T L) :=
  let s0 := if (g.left n).length = 1 then (g.left n).foldl (fun acc x => setInsert x acc) [] else []
  if (g.right n).length = 1 then (g.right n).foldl (fun acc x => setInsert x acc) s0 else s0

/-- `allNodes` (tracking_graph.hh:138-141). -/
def Graph.allNodes (g : Graph T L) : List (Node T L) :=
  g.times.foldl (fun acc t => (g.nodes t).foldl (fun acc x => setInsert x acc) acc) []

/-- the labelling loop (tracking_graph.hh:158-165): `c` labels have been handed out. -/
def assignLabels {N : Type} [DecidableEq N] : Nat → List (List N) → (N → Option Nat) → N → Option Nat
  | _, [], m => m
  | c, comp :: comps, m =>
    assignLabels (c + 1) comps (comp.foldl (fun m x => UF.put m x (c + 1)) m)

/-- `relabel` (tracking_graph.hh:135-166). -/
def Graph.relabel (g : Graph T L) : Option (Graph T L) :=
  match extractCC g.simpleNbs g.allNodes with
  | none => none
  | some comps => some { g with glob := assignLabels 0 comps (fun _ => none) }

/-- the neighbor function of `detect_events` (tracking_graph.hh:185-188). -/
def Graph.intervalNbs (g : Graph T L) (t0 : T) (n : Node T L) : List (Node T L) :=
  if time n = t0 then g.right n else g.left n

/-- `intervalNodes` (tracking_graph.hh:181-183). -/
def Graph.intervalNodes (g : Graph T L) (t0 t1 : T) : List (Node T L) :=
  (g.nodes t1).foldl (fun acc x => setInsert x acc) ((g.nodes t0).foldl (fun acc x => setInsert x acc) [])

/-- the event made of a component (tracking_graph.hh:194-199). -/
def mkEvent (t0 t1 : T) (comp : List (Node T L)) : Event T L :=
  { interval := (t0, t1)
    lhs := (comp.filter (fun n => decide (time n = t0))).foldl (fun acc n => setInsert (label n) acc) []
    rhs := (comp.filter (fun n => decide (time n ≠ t0))).foldl (fun acc n => setInsert (label n) acc) [] }

/-- `detect_events(t0, t1)` (tracking_graph.hh:178-206).  `nodes[t0]`, `nodes[t1]` create the keys. -/
def Graph.detectEvents2 (g : Graph T L) (t0 t1 : T) : Option (Graph T L) :=
  match extractCC (g.intervalNbs t0) (g.intervalNodes t0 t1) with
  | none => none
  | some comps => some { g with
      times := setInsert t1 (setInsert t0 g.times)
      events := fun t => if t = t0 then g.events t ++ (comps.filter (fun c => decide (c.length ≠ 2))).map (mkEvent t0 t1)
                         else g.events t }

/-- the loop of `detect_events()` over consecutive entries of `timesteps`
(tracking_graph.hh:208-219; fewer than two timesteps: nothing). -/
def detectLoop : List T → Graph T L → Option (Graph T L)
  | t0 :: t1 :: ts, g =>
    match g.detectEvents2 t0 t1 with
    | none => none
    | some g' => detectLoop (t1 :: ts) g'
  | _, g => some g

/-- `detect_events()`; `get_timesteps()` (tracking_graph.hh:168-176) is `times`. -/
def Graph.detectEvents (g : Graph T L) : Option (Graph T L) := detectLoop g.times g

/-- the mutating calls used to build a graph. -/
inductive Op (T L : Type)
  | node (t : T) (l : L)
  | edge (t0 : T) (l0 : L) (t1 : T) (l1 : L)

/-- one call -/
def Graph.step (g : Graph T L) : Op T L → Graph T L
  | .node t l => g.addNode t l
  | .edge t0 l0 t1 l1 => g.addEdge t0 l0 t1 l1

/-- a history of calls -/
def Graph.build (ops : List (Op T L)) : Graph T L := ops.foldl Graph.step Graph.init

/-! ### connected_component_tracker.hh (times are `size_t`; a wrapped `current_timestep-1` is the
outcome `none`) -/

/-- members (connected_component_tracker.hh:32-34). -/
structure CCTracker where
  tg : Graph Nat Nat
  snaps : List (List Nat)
  cur : Nat

/-- initial state -/
def CCTracker.init : CCTracker := { tg := Graph.init, snaps := [], cur := 0 }

/-- the loop of `update_timestep` (connected_component_tracker.hh:53-57); `labels1[i]` beyond its end
is `none`. -/
def addOverlaps (cur : Nat) : List Nat → List Nat → Graph Nat Nat → Option (Graph Nat Nat)
  | [], _, g => some g
  | a :: as, bs, g =>
    if a ≠ 0 then
      match bs with
      | [] => none
      | b :: bs =>
        if b ≠ 0 then
          if cur = 0 then none else addOverlaps cur as bs (g.addEdge (cur - 1) a cur b)
        else addOverlaps cur as bs g
    else addOverlaps cur as bs.tail g

/-- `update_timestep` (connected_component_tracker.hh:45-58). -/
def CCTracker.updateTimestep (s : CCTracker) : Option CCTracker :=
  match s.snaps with
  | l0 :: l1 :: _ => (addOverlaps s.cur l0 l1 s.tg).map (fun g => { s with tg := g })
  | _ => some s

/-- `advance_timestep` (connected_component_tracker.hh:60-71). -/
def CCTracker.advance (s : CCTracker) : Option (CCTracker × Bool) :=
  match s.updateTimestep with
  | none => none
  | some s =>
    let s := { s with cur := s.cur + 1 }
    let s := if s.snaps.length > 1 then { s with snaps := s.snaps.tail } else s
    some (s, decide (s.snaps.length > 0))

/-- `push_labeled_data_snapshot` (connected_component_tracker.hh:73-77). -/
def CCTracker.push (s : CCTracker) (labels : List Nat) : CCTracker := { s with snaps := s.snaps ++ [labels] }

/-- `push; advance` for each frame, the way `ftk` drives the tracker (src/cli/ftk.cpp:321-325). -/
def CCTracker.drive : List (List Nat) → CCTracker → Option CCTracker
  | [], s => some s
  | f :: fs, s =>
    match (s.push f).advance with
    | none => none
    | some (s', _) => CCTracker.drive fs s'

end Verif.TG
