import Mathlib.Data.List.Basic

/-!
# Model of `ndarray_stream::start` with `"async"` set (ndarray/stream.hh:1620-1666)

A reader thread and the calling thread share `array`, `current_timestep` and `all_done` under one mutex and one condition
variable. Steps are the maximal blocks between synchronisation operations. Reading a file and the user's callback take one step
each. `spurious` is a wake-up of the condition variable without notification, which the C++ standard allows.
-/

namespace Verif.NdS

/-- Where the reader is (stream.hh:1627-1651). -/
inductive Prod
  /-- before `request_timestep_*(i)` -/
  | read (i : Nat)
  /-- has `array1`, wants the mutex -/
  | want (i : Nat)
  /-- holds the mutex -/
  | hold (i : Nat)
  /-- left the loop -/
  | done
  deriving DecidableEq

/-- Where the consumer is (stream.hh:1654-1664). -/
inductive Cons
  /-- before `unique_lock lock(mtx)` -/
  | start
  /-- holds the mutex, at `while (!all_done)` -/
  | check
  /-- in `cond.wait`, asleep, mutex released -/
  | wait
  /-- awake, in `cond.wait`, wants the mutex back -/
  | woken
  /-- holds the mutex, at `modified_callback` -/
  | call
  /-- left the block, mutex released -/
  | out
  deriving DecidableEq

/-- The shared state; `cur = none`: `current_timestep` was never written. `calls`: the arguments of `modified_callback`. -/
structure St (A : Type) where
  prod : Prod
  cons : Cons
  cur : Option (Nat × A)
  allDone : Bool
  calls : List (Option (Nat × A))

/-- What the scheduler runs next. -/
inductive Lab
  | prod | cons | spurious
  deriving DecidableEq

/-- The consumer holds the mutex. -/
def Cons.holds : Cons → Bool
  | .check => true
  | .call => true
  | _ => false

/-- The reader holds the mutex. -/
def Prod.holds : Prod → Bool
  | .hold _ => true
  | _ => false

/-- The head of the loop `for (i = 0; i < nt; i ++)` (stream.hh:1628). -/
def loopHead (nt i : Nat) : Prod := if i < nt then .read i else .done

/-- The start of the block: the thread is created (stream.hh:1620-1627). -/
def init (A : Type) (nt : Nat) : St A := { prod := loopHead nt 0, cons := .start, cur := none, allDone := false, calls := [] }

/-- One step; `none` if the thread cannot run. `frames i` is what `request_timestep_*(i)` returns, `empty` is `ndarray::empty`. -/
def step {A : Type} (nt : Nat) (frames : Nat → A) (empty : A → Bool) (s : St A) : Lab → Option (St A)
  | .prod =>
    match s.prod with
    | .read i => some { s with prod := .want i }
    | .want i => if s.cons.holds then none else some { s with prod := .hold i }
    | .hold i =>
      some { s with
        prod := loopHead nt (i + 1)
        cur := some (i, frames i)
        allDone := s.allDone || (i == nt - 1 || empty (frames i))
        cons := if s.cons = .wait then .woken else s.cons }
    | .done => none
  | .cons =>
    match s.cons with
    | .start => if s.prod.holds then none else some { s with cons := .check }
    | .check => some { s with cons := if s.allDone then .out else .wait }
    | .wait => none
    | .woken => if s.prod.holds then none else some { s with cons := .call }
    | .call => some { s with calls := s.calls ++ [s.cur], cons := .check }
    | .out => none
  | .spurious => if s.cons = .wait then some { s with cons := .woken } else none

/-- Running a schedule. -/
def exec {A : Type} (nt : Nat) (frames : Nat → A) (empty : A → Bool) : List Lab → St A → Option (St A)
  | [], s => some s
  | l :: ls, s =>
    match step nt frames empty s l with
    | none => none
    | some s => exec nt frames empty ls s

/-- `start()` can return: the consumer is out and the reader can be joined (stream.hh:1666). -/
def St.final {A : Type} (s : St A) : Bool := decide (s.cons = .out ∧ s.prod = .done)

end Verif.NdS
