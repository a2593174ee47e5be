import Mathlib.Order.BoundedOrder.Basic
import Mathlib.Order.Lattice

/-!
# Model of `numeric/basic_interval.hh` and `numeric/disjoint_intervals.hh`

The endpoint type `T` is any linear order; `⊥` is `lower_inf()` and `⊤` is `upper_inf()` (`-inf`/`inf`, or
`min()`/`max()` for an integer type).  NaN endpoints are not modelled.
-/

namespace Verif.Interval

variable {T : Type} [LinearOrder T] [BoundedOrder T]

/-- The members, `basic_interval.hh:243-245`. -/
structure Iv (T : Type) where
  lo : T
  hi : T
  loOpen : Bool := false
  hiOpen : Bool := false
  deriving DecidableEq

/-- `lower_bounded` … `upper_unbounded` and `lower_open`/`upper_open`, `basic_interval.hh:95-120`. -/
def Iv.lowerOpen (i : Iv T) : Bool := if i.lo = ⊥ then true else i.loOpen
/-- `upper_open`: include/ftk/numeric/basic_interval.hh:95-120, the flag is forced to open at +infinity. -/
def Iv.upperOpen (i : Iv T) : Bool := if i.hi = ⊤ then true else i.hiOpen

/-- `set_to_empty`, `basic_interval.hh:73-76` (flags unchanged). -/
def Iv.setToEmpty (i : Iv T) : Iv T := { i with lo := ⊤, hi := ⊥ }

/-- `set_to_complete`, `basic_interval.hh:78-81`. -/
def Iv.setToComplete (i : Iv T) : Iv T := { i with lo := ⊥, hi := ⊤ }

/-- `empty`, `basic_interval.hh:135-140`. -/
def Iv.empty (i : Iv T) : Bool :=
  if i.lo > i.hi then true
  else if i.lo = i.hi ∧ (i.lowerOpen ∨ i.upperOpen) then true
  else false

/-- `singleton`, `basic_interval.hh:143-145`. -/
def Iv.singleton (i : Iv T) : Bool := decide (i.lo = i.hi) && !i.lowerOpen && !i.upperOpen

/-- `contains`, `basic_interval.hh:147-153`. -/
def Iv.contains (i : Iv T) (x : T) : Bool :=
  if i.singleton then decide (x = i.lo)
  else if x = i.lo ∧ !i.lowerOpen then true
  else if x = i.hi ∧ !i.upperOpen then true
  else decide (x > i.lo ∧ x < i.hi)

/-- `overlaps`, `basic_interval.hh:163-168`. -/
def Iv.overlaps (s i : Iv T) : Bool :=
  if s.lo > i.hi ∨ s.hi < i.lo then false
  else if s.hi = i.lo ∧ (s.upperOpen ∨ i.lowerOpen) then false
  else if s.lo = i.hi ∧ (s.lowerOpen ∨ i.upperOpen) then false
  else true

/-- member `join`, `basic_interval.hh:170-179`: returns (success, new `*this`). -/
def Iv.join (s i : Iv T) : Bool × Iv T :=
  if s.lo > i.hi ∨ s.hi < i.lo then (false, s)
  else if s.hi = i.lo ∧ s.upperOpen ∧ i.lowerOpen then (false, s)
  else if s.lo = i.hi ∧ s.lowerOpen ∧ i.upperOpen then (false, s)
  else (true, { s with lo := min s.lo i.lo, hi := max s.hi i.hi })

/-- the lower half of `intersect`, `basic_interval.hh:183-190`. -/
def Iv.cutLower (s i : Iv T) : Iv T :=
  if s.lo = i.lo then (if i.lowerOpen then { s with loOpen := true } else s)
  else if s.lo < i.lo then { s with lo := i.lo, loOpen := i.lowerOpen }
  else s

/-- the upper half, `basic_interval.hh:192-199`. -/
def Iv.cutUpper (s i : Iv T) : Iv T :=
  if s.hi = i.hi then (if i.upperOpen then { s with hiOpen := true } else s)
  else if s.hi > i.hi then { s with hi := i.hi, hiOpen := i.upperOpen }
  else s

/-- member `intersect`, `basic_interval.hh:181-203`. -/
def Iv.intersect (s i : Iv T) : Iv T :=
  if s.overlaps i then (s.cutLower i).cutUpper i else s.setToEmpty

/-! ### disjoint_intervals: a `std::set` ordered by `lower()` only -/

/-- `disjoint_intervals`: the `std::set` of intervals, listed in its iteration order. -/
abbrev DI (T : Type) := List (Iv T)

/-- `std::set::insert` with `operator<` of `basic_interval.hh:236-240`: an element with the same lower
bound keeps the new one out. -/
def insertLo (i : Iv T) : DI T → DI T
  | [] => [i]
  | k :: l => if i.lo < k.lo then i :: k :: l else if k.lo < i.lo then k :: insertLo i l else k :: l

/-- the scan of `join(const basic_interval&)`, `disjoint_intervals.hh:95-104`: absorb and erase what overlaps. -/
def joinScan (ii : Iv T) : DI T → Iv T × DI T
  | [] => (ii, [])
  | j :: l =>
    if j.overlaps ii then joinScan (ii.join j).2 l
    else let r := joinScan ii l; (r.1, j :: r.2)

/-- `join(const basic_interval&)`, `disjoint_intervals.hh:89-110`. -/
def djoin (d : DI T) (i : Iv T) : DI T :=
  if i.empty then d
  else let r := joinScan i d; insertLo r.1 r.2

/-- `intersect(const basic_interval&)`, `disjoint_intervals.hh:116-124`. -/
def dintersect (d : DI T) (i : Iv T) : DI T := d.foldl (fun I j => djoin I (i.intersect j)) []

/-- inner loop of `intersect(const disjoint_intervals&)`, `disjoint_intervals.hh:130-135`. -/
def dinner (J : DI T) (I : DI T) (i : Iv T) : DI T := J.foldl (fun I j => djoin I (i.intersect j)) I

/-- `intersect(const disjoint_intervals&)`, `disjoint_intervals.hh:126-137`. -/
def dintersectD (d J : DI T) : DI T := d.foldl (dinner J) []

/-- `contains`, `overlaps`: `disjoint_intervals.hh:73-83`. -/
def dcontains (d : DI T) (x : T) : Bool := d.any fun i => i.contains x
/-- `disjoint_intervals::overlaps(const basic_interval&)`: some stored interval overlaps `i`. -/
def doverlaps (d : DI T) (i : Iv T) : Bool := d.any fun j => j.overlaps i

/-- the public mutators: `join(l,u)`, `intersect(l,u)`, `intersect(J)`, `set_to_empty`, `set_to_complete`
(`disjoint_intervals.hh:43-53, 85-87, 112-114`). -/
inductive Op (T : Type) where
  | join (l u : T)
  | cut (l u : T)
  | cutAll (ops : List (Op T))
  | clear
  | complete

mutual
/-- one call -/
def step (d : DI T) : Op T → DI T
  | .join l u => djoin d ⟨l, u, false, false⟩
  | .cut l u => dintersect d ⟨l, u, false, false⟩
  | .cutAll ops => dintersectD d (run [] ops)
  | .clear => []
  | .complete => [⟨⊥, ⊤, false, false⟩]
/-- a history of calls; the argument of `intersect(J)` is built by a history of its own -/
def run (d : DI T) : List (Op T) → DI T
  | [] => d
  | o :: ops => run (step d o) ops
end

end Verif.Interval
