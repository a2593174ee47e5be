import Verif.Parallel.Model
import Mathlib.Data.List.Perm.Basic
import Mathlib.Data.List.Nodup
import Mathlib.Data.List.Range
import Mathlib.Data.List.Perm.Subperm
import Mathlib.Tactic.Ring
import Mathlib.Tactic.Linarith
/-! # Property C07: parallel_for -/
namespace Verif.Par

/-- loop invariant with `N` tasks and `T` threads: `m t` = number of tasks thread `t` has run -/
structure Inv (N T : Nat) (s : PF) (m : Nat → Nat) : Prop where
  next : ∀ t, s.next[t]? = if t < T then some ((t + m t * T : Nat) : Int) else none
  mem : ∀ k, k ∈ s.trace ↔ ∃ t i, t < T ∧ i < m t ∧ k = ((t + i * T : Nat) : Int)
  lt : ∀ k ∈ s.trace, k < N
  nodup : s.trace.Nodup

theorem clip_eq {N R : Nat} (hR : 0 < R) : clip (N : Int) (R : Int) = ((min N R : Nat) : Int) := by
  unfold clip; omega

theorem Inv.init {N R : Nat} (hN : 0 < N) (hR : 0 < R) :
    Inv N (min N R) (PF.init N R) (fun _ => 0) := by
  refine ⟨?_, ?_, ?_, by simp [PF.init]⟩
  · intro t
    have hT : 0 < min N R := by omega
    unfold PF.init
    rw [clip_eq hR]
    cases t with
    | zero => simp [hN, hR]
    | succ t =>
      simp only [List.getElem?_cons_succ, List.getElem?_map, Int.toNat_natCast]
      by_cases h : t + 1 < min N R
      · rw [if_pos h, List.getElem?_range (by omega)]
        simp
      · rw [if_neg h, List.getElem?_eq_none (by simp; omega)]
        rfl
  · intro k; simp [PF.init]
  · intro k; simp [PF.init]

theorem unique_split {T t i t' i' : Nat} (ht : t < T) (ht' : t' < T) (h : t + i * T = t' + i' * T) :
    t = t' ∧ i = i' := by
  have h1 : (t + i * T) % T = t := by rw [Nat.add_mul_mod_self_right, Nat.mod_eq_of_lt ht]
  have h2 : (t' + i' * T) % T = t' := by rw [Nat.add_mul_mod_self_right, Nat.mod_eq_of_lt ht']
  have h3 : t = t' := by rw [← h1, ← h2, h]
  subst h3
  refine ⟨rfl, ?_⟩
  have : i * T = i' * T := by omega
  exact Nat.eq_of_mul_eq_mul_right (by omega) this

theorem Inv.step {N R : Nat} (hR : 0 < R) {s : PF} {m : Nat → Nat}
    (h : Inv N (min N R) s m) (t : Nat) :
    ∃ m', Inv N (min N R) (PF.step N R s t) m' := by
  unfold PF.step
  have hn := h.next t
  by_cases ht : t < min N R
  · rw [if_pos ht] at hn
    rw [hn]
    simp only []
    by_cases hj : ((t + m t * min N R : Nat) : Int) < (N : Int)
    · rw [if_pos hj]
      refine ⟨fun u => if u = t then m t + 1 else m u, ?_, ?_, ?_, ?_⟩
      · intro u
        rw [clip_eq hR]
        by_cases hut : u = t
        · subst hut
          rw [if_pos ht]
          have hlen : u < s.next.length := by
            by_contra hc
            rw [List.getElem?_eq_none (by omega)] at hn
            cases hn
          simp only [List.getElem?_set_self hlen, if_true]
          congr 1
          push_cast
          ring
        · simp only [List.getElem?_set_ne (Ne.symm hut), if_neg hut]
          exact h.next u
      · intro k
        simp only [List.mem_append, List.mem_singleton, h.mem]
        constructor
        · rintro (⟨u, i, hu, hi, rfl⟩ | rfl)
          · refine ⟨u, i, hu, ?_, rfl⟩
            by_cases hut : u = t
            · subst hut; simp; omega
            · simp [hut]; exact hi
          · exact ⟨t, m t, ht, by simp, rfl⟩
        · rintro ⟨u, i, hu, hi, rfl⟩
          by_cases hut : u = t
          · subst hut
            simp at hi
            rcases Nat.lt_or_eq_of_le (Nat.lt_succ_iff.1 hi) with hi' | hi'
            · exact .inl ⟨u, i, hu, hi', rfl⟩
            · subst hi'; exact .inr rfl
          · simp [hut] at hi
            exact .inl ⟨u, i, hu, hi, rfl⟩
      · intro k hk
        rcases List.mem_append.1 hk with hk | hk
        · exact h.lt k hk
        · rw [List.mem_singleton.1 hk]; exact hj
      · rw [List.nodup_append]
        refine ⟨h.nodup, by simp, ?_⟩
        intro a ha b hb hab
        rw [List.mem_singleton.1 hb] at hab
        subst hab
        obtain ⟨u, i, hu, hi, he⟩ := (h.mem _).1 ha
        have he' : t + m t * min N R = u + i * min N R := by exact_mod_cast he
        obtain ⟨rfl, rfl⟩ := unique_split ht hu he'
        omega
    · rw [if_neg hj]
      exact ⟨m, h⟩
  · rw [if_neg ht] at hn
    rw [hn]
    exact ⟨m, h⟩

theorem Inv.run {N R : Nat} (hR : 0 < R) (sched : List Nat) : ∀ {s : PF} {m : Nat → Nat},
    Inv N (min N R) s m → ∃ m', Inv N (min N R) (PF.run N R s sched) m' := by
  induction sched with
  | nil => intro s m h; exact ⟨m, h⟩
  | cons t ts ih =>
    intro s m h
    obtain ⟨m', h'⟩ := h.step hR t
    exact ih h'

theorem run_no_task {ntasks nthreads : Int} (h : ntasks ≤ 0) (sched : List Nat) :
    PF.run ntasks nthreads (PF.init ntasks nthreads) sched = PF.init ntasks nthreads := by
  induction sched with
  | nil => rfl
  | cons t ts ih =>
    have : PF.step ntasks nthreads (PF.init ntasks nthreads) t = PF.init ntasks nthreads := by
      unfold PF.step
      cases hg : (PF.init ntasks nthreads).next[t]? with
      | none => rfl
      | some j =>
        simp only []
        have hj : 0 ≤ j := by
          have := List.mem_of_getElem? hg
          simp only [PF.init, List.mem_cons, List.mem_map, List.mem_range] at this
          rcases this with rfl | ⟨i, _, rfl⟩
          · omega
          · have : (0 : Int) ≤ Int.ofNat i := Int.natCast_nonneg i
            omega
        rw [if_neg (by omega)]
    show PF.run ntasks nthreads (PF.step ntasks nthreads _ t) ts = _
    rw [this]; exact ih

/-- **C07 (safety).** At every moment of every schedule with at least one thread, `f` has been
called at most once on each task and only on tasks `0 ≤ i < ntasks`. -/
theorem C07_parallel_for_at_most_once (ntasks nthreads : Int) (hn : 1 ≤ nthreads)
    (sched : List Nat) :
    (PF.run ntasks nthreads (PF.init ntasks nthreads) sched).trace.Nodup ∧
    ∀ i ∈ (PF.run ntasks nthreads (PF.init ntasks nthreads) sched).trace, 0 ≤ i ∧ i < ntasks := by
  by_cases hpos : 0 < ntasks
  · obtain ⟨N, rfl⟩ : ∃ N : Nat, ntasks = N := ⟨ntasks.toNat, by omega⟩
    obtain ⟨R, rfl⟩ : ∃ R : Nat, nthreads = R := ⟨nthreads.toNat, by omega⟩
    obtain ⟨m, h⟩ := (Inv.init (N := N) (R := R) (by omega) (by omega)).run (by omega) sched
    refine ⟨h.nodup, fun i hi => ⟨?_, h.lt i hi⟩⟩
    obtain ⟨t, i', _, _, rfl⟩ := (h.mem i).1 hi
    omega
  · rw [run_no_task (by omega)]
    simp [PF.init]

/-- **C07.** When `parallel_for(ntasks, f)` with at least one thread returns (every thread's loop
has ended), under whatever schedule, `f` has been called exactly once on each of `0..ntasks-1`:
the calls are a permutation of the tasks. -/
theorem C07_parallel_for_exactly_once (ntasks nthreads : Int) (hn : 1 ≤ nthreads)
    (sched : List Nat)
    (hfin : (PF.run ntasks nthreads (PF.init ntasks nthreads) sched).Finished ntasks) :
    (PF.run ntasks nthreads (PF.init ntasks nthreads) sched).trace.Perm
      ((List.range ntasks.toNat).map Int.ofNat) := by
  obtain ⟨hnd, hlt⟩ := C07_parallel_for_at_most_once ntasks nthreads hn sched
  rw [List.perm_ext_iff_of_nodup hnd
    (List.nodup_range.map (fun a b h => Int.ofNat.inj h))]
  intro k
  simp only [List.mem_map, List.mem_range]
  constructor
  · intro hk
    have := hlt k hk
    exact ⟨k.toNat, by omega, Int.toNat_of_nonneg this.1⟩
  · rintro ⟨i, hi, rfl⟩
    obtain ⟨N, rfl⟩ : ∃ N : Nat, ntasks = N := ⟨ntasks.toNat, by omega⟩
    obtain ⟨R, rfl⟩ : ∃ R : Nat, nthreads = R := ⟨nthreads.toNat, by omega⟩
    have hiN : i < N := by simpa using hi
    obtain ⟨m, h⟩ := (Inv.init (N := N) (R := R) (by omega) (by omega)).run (by omega) sched
    have hT : 0 < min N R := by omega
    rw [h.mem]
    refine ⟨i % min N R, i / min N R, Nat.mod_lt _ hT, ?_, ?_⟩
    · by_contra hc
      have hge : m (i % min N R) ≤ i / min N R := not_lt.1 hc
      have hnx := h.next (i % min N R)
      rw [if_pos (Nat.mod_lt _ hT)] at hnx
      have := hfin _ (List.mem_of_getElem? hnx)
      have h1 : i % min N R + m (i % min N R) * min N R ≤ i := by
        calc i % min N R + m (i % min N R) * min N R
            ≤ i % min N R + i / min N R * min N R := by
              have := Nat.mul_le_mul_right (min N R) hge; omega
          _ = i := by rw [Nat.mul_comm]; exact Nat.mod_add_div i (min N R)
      apply this
      have : i % min N R + m (i % min N R) * min N R < N := by omega
      exact_mod_cast this
    · have := Nat.mod_add_div i (min N R)
      rw [Nat.mul_comm] at this
      rw [this]
      rfl

/-- A finished schedule exists and a concrete interleaving shows the hypotheses are met:
5 tasks, 2 threads, run out of order. -/
example : (PF.run 5 2 (PF.init 5 2) [1, 0, 0, 1, 0]).Finished 5 ∧
    (PF.run 5 2 (PF.init 5 2) [1, 0, 0, 1, 0]).trace = [1, 0, 2, 3, 4] := by
  constructor
  · intro j hj
    have : (PF.run 5 2 (PF.init 5 2) [1, 0, 0, 1, 0]).next = [6, 5] := by decide
    rw [this] at hj
    simp at hj
    omega
  · decide

theorem run_progress {ntasks nthreads : Int} (h0 : 0 < ntasks) (hn : 1 ≤ nthreads)
    (t : Nat) (sched : List Nat) : ∀ (s : PF) (j : Int), s.next[t]? = some j →
      ∃ j', (PF.run ntasks nthreads s sched).next[t]? = some j' ∧
        min ntasks (j + sched.count t) ≤ j' := by
  induction sched with
  | nil => intro s j hj; exact ⟨j, hj, by simp⟩
  | cons u us ih =>
    intro s j hj
    have hlen : t < s.next.length := by
      by_contra hc
      rw [List.getElem?_eq_none (by omega)] at hj
      cases hj
    have hcl : 1 ≤ clip ntasks nthreads := by unfold clip; omega
    by_cases hut : u = t
    · subst hut
      by_cases hlt : j < ntasks
      · have hs : (PF.step ntasks nthreads s u).next[u]? = some (j + clip ntasks nthreads) := by
          unfold PF.step
          rw [hj]
          simp only [if_pos hlt]
          rw [List.getElem?_set_self hlen]
        obtain ⟨j', e, hle⟩ := ih _ _ hs
        refine ⟨j', e, ?_⟩
        rw [List.count_cons_self]
        push_cast
        omega
      · have hs : PF.step ntasks nthreads s u = s := by
          unfold PF.step
          rw [hj]
          simp only [if_neg hlt]
        obtain ⟨j', e, hle⟩ := ih s j hj
        refine ⟨j', ?_, by omega⟩
        show (PF.run ntasks nthreads (PF.step ntasks nthreads s u) us).next[u]? = some j'
        rw [hs]; exact e
    · have hs : (PF.step ntasks nthreads s u).next[t]? = some j := by
        unfold PF.step
        cases hg : s.next[u]? with
        | none => exact hj
        | some k =>
          simp only []
          split
          · simp only [List.getElem?_set_ne hut]; exact hj
          · exact hj
      obtain ⟨j', e, hle⟩ := ih _ _ hs
      refine ⟨j', e, ?_⟩
      rw [List.count_cons_of_ne hut]
      exact hle

/-- **C07 (termination).** Every schedule that gives each of the started threads at least `ntasks`
turns finishes. -/
theorem C07_parallel_for_terminates (ntasks nthreads : Int) (hn : 1 ≤ nthreads)
    (sched : List Nat)
    (hfair : ∀ t : Nat, (t : Int) < max 1 (clip ntasks nthreads) → ntasks ≤ sched.count t) :
    (PF.run ntasks nthreads (PF.init ntasks nthreads) sched).Finished ntasks := by
  by_cases h0 : 0 < ntasks
  · obtain ⟨N, rfl⟩ : ∃ N : Nat, ntasks = N := ⟨ntasks.toNat, by omega⟩
    obtain ⟨R, rfl⟩ : ∃ R : Nat, nthreads = R := ⟨nthreads.toNat, by omega⟩
    obtain ⟨m, h⟩ := (Inv.init (N := N) (R := R) (by omega) (by omega)).run (by omega) sched
    intro j hj
    obtain ⟨t, ht⟩ := List.mem_iff_getElem?.1 hj
    have htT : t < min N R := by
      by_contra hc
      have := h.next t
      rw [if_neg hc, ht] at this
      cases this
    have hinit := (Inv.init (N := N) (R := R) (by omega) (by omega)).next t
    rw [if_pos htT] at hinit
    obtain ⟨j', e, hle⟩ := run_progress h0 hn t sched _ _ hinit
    rw [ht] at e
    cases Option.some.inj e
    have := hfair t (by rw [clip_eq (by omega)]; omega)
    omega
  · rw [run_no_task (by omega)]
    intro j hj
    simp only [PF.init, List.mem_cons, List.mem_map, List.mem_range] at hj
    rcases hj with rfl | ⟨i, _, rfl⟩
    · omega
    · have : (0 : Int) ≤ Int.ofNat i := Int.natCast_nonneg i
      omega

example : ∀ t : Nat, (t : Int) < max 1 (clip 2 2) → (2 : Int) ≤ [0, 1, 1, 0].count t := by
  intro t ht
  have : t < 2 := by have : clip 2 2 = 2 := rfl; omega
  have : t = 0 ∨ t = 1 := by omega
  rcases this with rfl | rfl <;> decide

/-- **C07 (container overloads).** The overload over a container calls `f` on each stored element
exactly once per position and never indexes outside the copied vector. -/
theorem C07_container_exactly_once {β : Type} (v : List β) (nthreads : Int) (hn : 1 ≤ nthreads)
    (sched : List Nat)
    (hfin : (PF.run v.length nthreads (PF.init v.length nthreads) sched).Finished v.length) :
    (containerCalls v (PF.run v.length nthreads (PF.init v.length nthreads) sched)).Perm
      (v.map some) := by
  have h := C07_parallel_for_exactly_once v.length nthreads hn sched hfin
  refine (h.map _).trans ?_
  rw [List.map_map]
  apply List.Perm.of_eq
  apply List.ext_getElem?
  intro i
  simp only [List.getElem?_map, Int.toNat_natCast]
  by_cases hi : i < v.length
  · rw [List.getElem?_range hi, List.getElem?_eq_getElem hi]
    simp [hi]
  · rw [List.getElem?_eq_none (by simp; omega), List.getElem?_eq_none (by omega)]
    rfl

example : containerCalls ["a", "b", "c"] (PF.run 3 2 (PF.init 3 2) [1, 0, 0]) =
    [some "b", some "a", some "c"] := by decide

/-- **C07 (excluded input).** With `nthreads = 0` (what `hardware_concurrency()` may legally return)
and at least one task, the main loop never advances: after any number of its turns it has called
`f(0)` that many times. -/
theorem C07_zero_threads_never_finishes (ntasks : Int) (h : 0 < ntasks) (k : Nat) :
    (PF.run ntasks 0 (PF.init ntasks 0) (List.replicate k 0)).trace = List.replicate k 0 ∧
    ¬ (PF.run ntasks 0 (PF.init ntasks 0) (List.replicate k 0)).Finished ntasks := by
  have hc : clip ntasks 0 = 0 := by unfold clip; omega
  have hinit : PF.init ntasks 0 = { next := [0], trace := [] } := by
    simp [PF.init, hc]
  have key : ∀ (k : Nat) (tr : List Int), PF.run ntasks 0 { next := [0], trace := tr }
      (List.replicate k 0) = { next := [0], trace := tr ++ List.replicate k 0 } := by
    intro k
    induction k with
    | zero => intro tr; simp [PF.run]
    | succ k ih =>
      intro tr
      have hs : PF.step ntasks 0 { next := [0], trace := tr } 0 =
          { next := [0], trace := tr ++ [0] } := by
        simp [PF.step, h, hc]
      show PF.run ntasks 0 (PF.step ntasks 0 { next := [0], trace := tr } 0) (List.replicate k 0) = _
      rw [hs, ih]
      simp [List.replicate_succ]
  rw [hinit, key]
  refine ⟨by simp, ?_⟩
  intro hf
  exact hf 0 (by simp) h

end Verif.Par
