/-! Model of `utils/async_ptr.hh`: a reference-counted pointer.  Access to released memory and a second release are the outcome `none`. -/
namespace Verif.APtr

/-- an `async_ptr` (async_ptr.hh:64-66): the object, if any, and the counter. -/
structure Handle where
  p : Option Nat
  c : Nat
deriving DecidableEq, Repr

/-- handles (`none` once destroyed), counters (`none` once deleted) and objects (alive or not) in the order of their creation; every
constructor that allocates consumes one number for the counter and for the object, also if there is no object. -/
structure State where
  hs : List (Option Handle)
  ctrs : List (Option Nat)
  objs : List Bool
deriving DecidableEq, Repr

/-- nothing allocated -/
def State.init : State := ⟨[], [], []⟩

/-- `unsigned int` has 32 bits -/
def wrap : Nat := 2 ^ 32

/-- `__sync_fetch_and_add(count, 1)` (async_ptr.hh:13, 18, 24). -/
def inc (s : State) (c : Nat) : Option State := match s.ctrs[c]? with
  | some (some n) => some { s with ctrs := s.ctrs.set c (some ((n + 1) % wrap)) }
  | _ => none

/-- `clear` (async_ptr.hh:55-61) for one thread: decrement, test, delete the object and the counter. -/
def clear (s : State) (h : Handle) : Option State := match s.ctrs[h.c]? with
  | some (some n) =>
    let n' := (n + (wrap - 1)) % wrap
    if n' = 0 then
      match h.p with
      | none => some { s with ctrs := s.ctrs.set h.c none }
      | some o => match s.objs[o]? with
        | some true => some { s with ctrs := s.ctrs.set h.c none, objs := s.objs.set o false }
        | _ => none
    else some { s with ctrs := s.ctrs.set h.c (some n') }
  | _ => none

/-- operations of the interface; handles are named by their number -/
inductive Op
  | default
  | make
  | makeNull
  | copy (i : Nat)
  | assign (i j : Nat)
  | destroy (i : Nat)
  | swap (i j : Nat)
  | reset (i : Nat)
deriving DecidableEq, Repr

/-- the constructor from a new object (async_ptr.hh:10) -/
def State.alloc (s : State) : State × Handle :=
  ({ s with ctrs := s.ctrs ++ [some 1], objs := s.objs ++ [true] }, ⟨some s.objs.length, s.ctrs.length⟩)

/-- one operation (async_ptr.hh:9-52); a handle that does not exist is not a valid argument (`none`). -/
def State.step (s : State) : Op → Option State
  | .default => some { hs := s.hs ++ [some ⟨none, s.ctrs.length⟩], ctrs := s.ctrs ++ [some 0], objs := s.objs ++ [false] }
  | .make => some { s.alloc.1 with hs := s.hs ++ [some s.alloc.2] }
  | .makeNull => some { hs := s.hs ++ [some ⟨none, s.ctrs.length⟩], ctrs := s.ctrs ++ [some 1], objs := s.objs ++ [false] }
  | .copy i => match s.hs[i]? with
    | some (some h) => match (if h.p = none then some s else inc s h.c) with
      | some s' => some { s' with hs := s'.hs ++ [some h] }
      | none => none
    | _ => none
  | .assign i j => match s.hs[i]?, s.hs[j]? with
    | some (some _), some (some h) => match (if h.p = none then some s else inc s h.c) with
      | some s' => some { s' with hs := s'.hs.set i (some h) }
      | none => none
    | _, _ => none
  | .destroy i => match s.hs[i]? with
    | some (some h) => match clear s h with
      | some s' => some { s' with hs := s'.hs.set i none }
      | none => none
    | _ => none
  | .swap i j => match s.hs[i]?, s.hs[j]? with
    | some (some a), some (some b) => some { s with hs := (s.hs.set i (some b)).set j (some a) }
    | _, _ => none
  | .reset i => match s.hs[i]? with
    | some (some h) => match clear s.alloc.1 h with
      | some s' => some { s' with hs := s'.hs.set i (some s.alloc.2) }
      | none => none
    | _ => none

/-- a history -/
def run : List Op → State → Option State
  | [], s => some s
  | op :: ops, s => match s.step op with
    | some s' => run ops s'
    | none => none

/-! ### destruction by several threads (async_ptr.hh:55-61) -/

/-- what a thread that destroys its handle does next -/
inductive Pc
  | dec
  | test
  | done
deriving DecidableEq, Repr

/-- one object and its counter (`none` once deleted), shared by threads -/
structure Shared where
  ctr : Option Nat
  alive : Bool
  pcs : List Pc
deriving DecidableEq, Repr

/-- thread `i` does its next step: the atomic decrement, or the test `*count == 0` with both deletions. -/
def Shared.step (s : Shared) (i : Nat) : Option Shared := match s.pcs[i]? with
  | some .dec => match s.ctr with
    | some n => some { s with ctr := some ((n + (wrap - 1)) % wrap), pcs := s.pcs.set i .test }
    | none => none
  | some .test => match s.ctr with
    | some 0 => if s.alive then some { ctr := none, alive := false, pcs := s.pcs.set i .done } else none
    | some _ => some { s with pcs := s.pcs.set i .done }
    | none => none
  | _ => some s

/-- a schedule -/
def Shared.run : List Nat → Shared → Option Shared
  | [], s => some s
  | i :: is, s => match s.step i with
    | some s' => Shared.run is s'
    | none => none

/-- `n` threads, each about to destroy its own handle of one object -/
def Shared.start (n : Nat) : Shared := { ctr := some n, alive := true, pcs := List.replicate n .dec }

end Verif.APtr
