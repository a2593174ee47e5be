import Verif.Tracker.Model
/-! The time loop shared by the trackers on regular grids that record one point per element: a `std::map` of results, a
scan over the ordinal elements of the current timestep, and one over the interval elements if there are two snapshots.
(`critical_line_tracker_3d_regular.hh:291-306, 396-400`; the trackers derived from it inherit the loop.)  CPU execution, one
process; `parallel_for` executes its tasks in an arbitrary order (the lambda writes under a mutex). -/
namespace Verif.Gen
open Verif.Ser (mapPut)
open Verif.SRM
variable {S P : Type}

/-- what a tracker adds to the loop: spatial dimension `d`, dimension `k` of the elements tested, the block scanned
(`local_domain`, regular_tracker.hh:193-210), and `check_simplex` (timestep, snapshots, element; outer `none` = undefined). -/
structure Prog (S P : Type) where
  d : Nat
  k : Nat
  core : Lat.Lattice
  chk : Nat → List S → Elem → Option (Option P)

/-- state: `field_data_snapshots`, `current_timestep`, `intersections` (critical_line_tracker.hh:43-50,
critical_line_tracker_3d_regular.hh:58) -/
structure St (S P : Type) where
  snaps : List S
  cur : Nat
  inter : List (Elem × P)

/-- initial state, and the state after `reset()` (critical_line_tracker_3d_regular.hh:206-214) -/
def St.init : St S P := { snaps := [], cur := 0, inter := [] }

/-- the lambda `func` (critical_line_tracker_3d_regular.hh:279-291) -/
def visit (g : Prog S P) (st : St S P) (e : Elem) : Option (St S P) :=
  match g.chk st.cur st.snaps e with
  | none => none
  | some none => some st
  | some (some p) => some { st with inter := mapPut e p st.inter }

/-- visits in the order of the list -/
def visitAll (g : Prog S P) : List (Option Elem) → St S P → Option (St S P)
  | [], st => some st
  | none :: _, _ => none
  | some e :: es, st =>
    match visit g st e with
    | none => none
    | some st' => visitAll g es st'

/-- the lattice scanned at timestep `t` (regular_tracker.hh:196-203) -/
def slab (g : Prog S P) (t : Nat) : Lat.Lattice := ⟨g.core.starts ++ [t], g.core.sizes ++ [1]⟩

/-- `element_for_ordinal(k, func)` / `element_for_interval(k, func)`, tasks in the order `order` -/
def scan (g : Prog S P) (sc : Scope) (order : List Int) (st : St S P) : Option (St S P) :=
  visitAll g (elementForCalls (g.d + 1) g.k (slab g st.cur) sc order) st

/-- `update_timestep` (critical_line_tracker_3d_regular.hh:271-405) -/
def update (g : Prog S P) (ord : Scope → List Int) (st : St S P) : Option (St S P) :=
  match scan g .ordinal (ord .ordinal) st with
  | none => none
  | some st1 => if st1.snaps.length ≥ 2 then scan g .interval (ord .interval) st1 else some st1

/-- `advance_timestep` (critical_line_tracker.hh:54-69) -/
def advance (g : Prog S P) (ord : Scope → List Int) (st : St S P) : Option (St S P) :=
  match update g ord st with
  | none => none
  | some st' => some { st' with snaps := st'.snaps.tail, cur := st'.cur + 1 }

/-- `push_field_data_snapshot` (critical_line_tracker.hh:71-87) -/
def push (s : S) (st : St S P) : St S P := { st with snaps := st.snaps ++ [s] }

/-- calls of a user -/
inductive Op (S : Type)
  | push (s : S)
  | advance (ord : Scope → List Int)
  | update (ord : Scope → List Int)

/-- one call -/
def step (g : Prog S P) (st : St S P) : Op S → Option (St S P)
  | .push s => some (push s st)
  | .advance ord => advance g ord st
  | .update ord => update g ord st

/-- a sequence of calls -/
def run (g : Prog S P) : List (Op S) → St S P → Option (St S P)
  | [], st => some st
  | o :: os, st =>
    match step g st o with
    | none => none
    | some st' => run g os st'

/-- the calls for a series: `push; if (k != 0) advance_timestep(); if (k == n-1) update_timestep();`
(json_interface.hh:479-572, src/cli/ftk.cpp) -/
def driveOps (series : List S) (ord : Nat → Scope → List Int) : List (Op S) :=
  ((List.range series.length).zip series).flatMap fun ks =>
    Op.push ks.2 :: ((if ks.1 ≠ 0 then [Op.advance (ord (ks.1 - 1))] else []) ++
      if ks.1 + 1 = series.length then [Op.update (ord ks.1)] else [])

end Verif.Gen
