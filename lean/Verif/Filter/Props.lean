import Verif.Filter.Model
import Verif.Str.Props
import Verif.XStr.Props

/-!
# C208: execution settings of a filter
-/

namespace Verif.Filter

open Verif.Str Verif.XStr

/-- (specification) the text of a list of device numbers given by their decimal digits: comma-separated numerals -/
def idText (ds : List (List Nat)) : Str := join (ds.map fun l => l.map digitChar)

/-- a numeral: at least one digit, all digits below 10, a value that fits in an `int` -/
def Numeral (l : List Nat) : Prop := l ≠ [] ∧ (∀ d ∈ l, d < 10) ∧ val l ≤ 2147483647

theorem stoiInt_numeral {l : List Nat} (h : Numeral l) : stoiInt (l.map digitChar) = some (val l : Int) := by
  unfold stoiInt
  rw [stoi_digits l h.2.1 h.1]
  dsimp only
  rw [if_pos ⟨by omega, by have := h.2.2; omega⟩]

theorem digitChar_ne_comma {d : Nat} (h : d < 10) : digitChar d ≠ ',' := by
  have : ∀ d, d < 10 → digitChar d ≠ ',' := by decide +kernel
  exact this d h

theorem parseIds_numerals : ∀ ds : List (List Nat), (∀ l ∈ ds, Numeral l) →
    parseIds (ds.map fun l => l.map digitChar) = some (ds.map fun l => (val l : Int))
  | [], _ => rfl
  | l :: ds, h => by
    have ih := parseIds_numerals ds fun m hm => h m (List.mem_cons_of_mem _ hm)
    rw [List.map_cons, show parseIds ((l.map digitChar) :: ds.map fun l => l.map digitChar) =
      (match stoiInt (l.map digitChar), parseIds (ds.map fun l => l.map digitChar) with
        | some v, some vs => some (v :: vs)
        | _, _ => none) from rfl, stoiInt_numeral (h l List.mem_cons_self), ih]
    rfl

/-- C208: a comma-separated list of numerals selects exactly these devices, in this order, and changes nothing else; the
empty text changes nothing. -/
theorem C208_devices (s : Settings) (ds : List (List Nat)) (h : ∀ l ∈ ds, Numeral l) :
    setDeviceIds s (idText ds) = some (if ds = [] then s else { s with devices := ds.map fun l => (val l : Int) }) := by
  cases ds with
  | nil => rfl
  | cons l ds =>
    rw [if_neg (by simp)]
    have hne : ∀ m ∈ l :: ds, m.map digitChar ≠ [] := fun m hm e => (h m hm).1 (by simpa using e)
    have hcomma : ∀ q ∈ l.map digitChar :: ds.map (fun m => m.map digitChar), ',' ∉ q := by
      intro q hq
      rw [← List.map_cons (f := fun m : List Nat => m.map digitChar)] at hq
      obtain ⟨m, hm, rfl⟩ := List.mem_map.1 hq
      intro hc
      obtain ⟨d, hd, e⟩ := List.mem_map.1 hc
      exact digitChar_ne_comma ((h m hm).2.1 d hd) e
    have hsplit : split (idText (l :: ds)) = (l :: ds).map fun m => m.map digitChar := by
      unfold idText
      rw [List.map_cons]
      refine C171_split _ _ hcomma (Or.inr ?_)
      intro e
      have hm := List.getLast_mem (l := l.map digitChar :: ds.map (fun m => m.map digitChar)) (by simp)
      rw [e, ← List.map_cons (f := fun m : List Nat => m.map digitChar)] at hm
      obtain ⟨m, hm, e'⟩ := List.mem_map.1 hm
      exact hne m hm e'
    have htext : idText (l :: ds) ≠ [] := by
      intro e
      rw [e] at hsplit
      rw [show split [] = [[]] from rfl, List.map_cons] at hsplit
      exact hne l List.mem_cons_self (List.cons.inj hsplit).1.symm
    unfold setDeviceIds
    rw [if_neg htext, hsplit, parseIds_numerals _ h]

theorem parseIds_none : ∀ ps : List Str, parseIds ps = none ↔ ∃ p ∈ ps, stoiInt p = none
  | [] => by simp [parseIds]
  | p :: ps => by
    have ih := parseIds_none ps
    rw [show parseIds (p :: ps) = (match stoiInt p, parseIds ps with
      | some v, some vs => some (v :: vs)
      | _, _ => none) from rfl]
    rcases h1 : stoiInt p with _ | v
    · simp [h1]
    · rcases h2 : parseIds ps with _ | vs
      · rw [h2] at ih
        obtain ⟨q, hq, h⟩ := ih.1 rfl
        simp only [true_iff]
        exact ⟨q, List.mem_cons_of_mem _ hq, h⟩
      · rw [h2] at ih
        simp only [List.mem_cons, exists_eq_or_imp, h1]
        simpa using ih

/-- C208: the call throws exactly when the text is not empty and some piece between commas does not begin with a number that fits
in an `int`; the settings are then unchanged (the members are assigned after the loop). -/
theorem C208_throws (s : Settings) (ids : Str) :
    setDeviceIds s ids = none ↔ ids ≠ [] ∧ ∃ p ∈ split ids, stoiInt p = none := by
  unfold setDeviceIds
  by_cases h : ids = []
  · rw [if_pos h]
    simp [h]
  · rw [if_neg h, ← parseIds_none]
    rcases parseIds (split ids) with _ | l <;> simp [h]

/-- C208: the names select the named backend and accelerator, every other name (upper case included) the default, and
neither touches the other settings. -/
theorem C208_names (s : Settings) (n : Str) :
    (useThreadBackend s n).backend = (if n = "openmp".toList then .openmp else if n = "tbb".toList then .tbb else .pthread) ∧
    { useThreadBackend s n with backend := s.backend } = s ∧
    (useAccelerator s n).xl = (if n = "cuda".toList then .cuda else if n = "sycl".toList then .sycl else .none) ∧
    { useAccelerator s n with xl := s.xl } = s := by
  unfold useThreadBackend useAccelerator
  refine ⟨?_, ?_, ?_, ?_⟩ <;> split <;> (try rfl) <;> split <;> rfl

/-- C208: a new filter has at least one thread, as `parallel_for` (C07) needs, exactly when there are several processes or
the number of hardware threads is known; `hardware_concurrency()` is 0 when it is not, and then `nthreads` is 0. -/
theorem C208_threads (commSize hardware : Int) :
    (1 ≤ (create commSize hardware).nthreads ↔ 1 < commSize ∨ 1 ≤ hardware) ∧ (create 1 0).nthreads = 0 := by
  refine ⟨?_, rfl⟩
  unfold create defaultNthreads
  dsimp only
  split <;> omega

/-- Non-vacuity of C208. -/
example : Numeral [1, 2] ∧ idText [[0], [1, 2], [3]] = "0,12,3".toList ∧
    setDeviceIds {} "0,12,3".toList = some { devices := [0, 12, 3] } ∧ setDeviceIds {} "1,,2".toList = none ∧
    setDeviceIds {} "99999999999".toList = none ∧ (useThreadBackend {} "tbb".toList).backend = .tbb ∧
    (useAccelerator {} "CUDA".toList).xl = .none := by
  refine ⟨⟨by simp, by decide, by decide⟩, ?_⟩
  decide +kernel

end Verif.Filter
