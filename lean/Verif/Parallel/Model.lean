import Mathlib.Data.List.Basic
import Mathlib.Data.Int.Order.Basic
/-! Model of `object::parallel_for` (object.hh:61-105, the default pthread backend). -/
namespace Verif.Par

/-- Each thread's loop variable `j`, and the calls `f(j)` made so far, oldest first. -/
structure PF where
  next : List Int
  trace : List Int

/-- `nthreads = std::min(ntasks, nthreads)` (object.hh:67). -/
def clip (ntasks nthreads : Int) : Int := min ntasks nthreads

/-- Thread start: the main thread's `j = 0` and worker `i`'s `j = i` for `1 ≤ i < nthreads`
(object.hh:70-79).  The main thread exists even if `nthreads ≤ 0`. -/
def PF.init (ntasks nthreads : Int) : PF :=
  { next := 0 :: (List.range ((clip ntasks nthreads).toNat - 1)).map (fun (i : Nat) => Int.ofNat i + 1)
    trace := [] }

/-- Thread `t` executes one iteration `f(j); j += nthreads` if `j < ntasks` (object.hh:73-74,
79-80); otherwise its loop has ended and nothing happens. -/
def PF.step (ntasks nthreads : Int) (s : PF) (t : Nat) : PF :=
  match s.next[t]? with
  | none => s
  | some j =>
    if j < ntasks then
      { next := s.next.set t (j + clip ntasks nthreads), trace := s.trace ++ [j] }
    else s

/-- All loops ended: the condition under which the joins (object.hh:82) and the call return. -/
def PF.Finished (ntasks : Int) (s : PF) : Prop := ∀ j ∈ s.next, ¬ j < ntasks

/-- A schedule: which thread runs next. -/
def PF.run (ntasks nthreads : Int) (s : PF) (sched : List Nat) : PF :=
  sched.foldl (PF.step ntasks nthreads) s

/-- The tasks a container overload calls `f` on: `parallel_for(set.size(), [&](int i){f(vector[i]);})`
(object.hh:107-129); an index outside the vector would be undefined (`none`). -/
def containerCalls {β : Type} (v : List β) (s : PF) : List (Option β) :=
  s.trace.map (fun j => if j < 0 then none else v[j.toNat]?)

end Verif.Par
