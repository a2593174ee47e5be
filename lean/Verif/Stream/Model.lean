import Mathlib.Algebra.Ring.Defs
import Mathlib.Algebra.BigOperators.Group.List.Basic
/-! Model of `streaming_filter` (include/ftk/filters/streaming_filter.hh) with a callback set.  Data are elements of a
semiring (for ndarrays: every element of the array, `operator+=` and scaling being element-wise, C68); `T result` starts as
zero.  Access outside the deque and `pop_front` of an empty deque are `none`. -/
namespace Verif.Stream

/-- members of `streaming_filter` (streaming_filter.hh:30-41); `out` is the sequence of callback calls. -/
structure Filter (K : Type) where
  kernel : List K
  data : List K := []
  cursor : Int := 0
  finishing : Bool := false
  fetched : Nat := 0
  out : List (Nat × K) := []

variable {K : Type} [Semiring K]

/-- `half_kernel_size` (streaming_filter.hh:24) -/
def Filter.half (s : Filter K) : Nat := (s.kernel.length + 1) / 2

/-- `ready` (streaming_filter.hh:30) -/
def Filter.ready (s : Filter K) : Bool := s.half ≤ s.data.length

/-- the index `j` of `get` (streaming_filter.hh:78-82) -/
def Filter.pick (s : Filter K) (i : Nat) : Int :=
  if s.finishing then min ((s.data.length : Int) - 1) i else max 0 (i + s.cursor - s.half + 1)

/-- `get` (streaming_filter.hh:70-92): the result, and the members it changes. -/
def Filter.get (s : Filter K) : Option (K × Filter K) :=
  ((List.range s.kernel.length).foldlM (fun (acc : K) i =>
    if 0 ≤ s.pick i then (s.data[(s.pick i).toNat]?).map fun x => acc + s.kernel.getD i 0 * x else none) 0).map fun r =>
    (r, { s with cursor := if s.finishing then s.cursor - 1 else s.cursor + 1, fetched := s.fetched + 1 })

/-- `callback(n_fetched_timesteps, get())` (streaming_filter.hh:64, 101): the order in which the two arguments are
evaluated is unspecified; `rtl` says that `get()` comes first. -/
def Filter.fetch (rtl : Bool) (s : Filter K) : Option (Filter K) :=
  s.get.map fun r => { r.2 with out := r.2.out ++ [(if rtl then r.2.fetched else s.fetched, r.1)] }

/-- `push` (streaming_filter.hh:51-66) -/
def Filter.push (rtl : Bool) (s : Filter K) (d : K) : Option (Filter K) :=
  let s := { s with data := s.data ++ [d] }
  let s := if s.data.length > s.kernel.length then { s with data := s.data.tail, cursor := s.cursor - 1 } else s
  if s.ready then s.fetch rtl else some s

/-- the loop of `finish` (streaming_filter.hh:98-105) -/
def Filter.finishLoop (rtl : Bool) (s : Filter K) : Option (Filter K) :=
  match h : s.data with
  | [] => none
  | _ :: rest =>
    let s1 := { s with data := rest }
    if s1.ready then
      match s1.get with
      | none => none
      | some r =>
        let s2 : Filter K := { s1 with cursor := r.2.cursor, fetched := r.2.fetched,
                                       out := s1.out ++ [(if rtl then r.2.fetched else s1.fetched, r.1)] }
        finishLoop rtl s2
    else some s1
termination_by s.data.length
decreasing_by simp [s1, s2, h]

/-- `finish` (streaming_filter.hh:95-106) -/
def Filter.finish (rtl : Bool) (s : Filter K) : Option (Filter K) := { s with finishing := true }.finishLoop rtl

/-- a whole run: set the kernel, push the series, finish; the callback calls made. -/
def run (rtl : Bool) (kernel series : List K) : Option (List (Nat × K)) :=
  (series.foldlM (fun (s : Filter K) (d : K) => s.push rtl d) { kernel := kernel }).bind fun s =>
    (s.finish rtl).map (·.out)

end Verif.Stream
