import Verif.Stream.Model
import Mathlib.Data.List.GetD
import Mathlib.Algebra.BigOperators.Ring.List
import Mathlib.Tactic.Ring
/-! C44: the streaming filter computes the convolution of the whole series, with its ends clamped. -/
namespace Verif.Stream
variable {K : Type} [Semiring K]

/-- (specification) the convolution of `series` at time `t` with `kernel`, centred, the series extended by its first and
last values -/
def conv (kernel series : List K) (t : Nat) : K :=
  ((List.range kernel.length).map fun i =>
    kernel.getD i 0 * series.getD (min (t + i - (kernel.length - 1) / 2) (series.length - 1)) 0).sum

theorem foldlM_sum (f : Nat → Option K) (g : Nat → K) (l : List Nat) (a : K) (h : ∀ i ∈ l, f i = some (g i)) :
    l.foldlM (fun acc i => (f i).map fun x => acc + x) a = some (a + (l.map g).sum) := by
  induction l generalizing a with
  | nil => simp
  | cons i l ih =>
    rw [List.foldlM_cons, h i (by simp)]
    simp only [Option.map_some, Option.bind_eq_bind, Option.bind_some]
    rw [ih _ (fun j hj => h j (by simp [hj]))]
    simp [add_assoc]

/-- `get` when every index is inside the deque -/
theorem get_eq (s : Filter K) (p : Nat → Nat) (h : ∀ i < s.kernel.length, s.pick i = p i ∧ p i < s.data.length) :
    s.get = some (((List.range s.kernel.length).map fun i => s.kernel.getD i 0 * s.data.getD (p i) 0).sum,
      { s with cursor := if s.finishing then s.cursor - 1 else s.cursor + 1, fetched := s.fetched + 1 }) := by
  unfold Filter.get
  have e : ∀ l : List Nat, (∀ i ∈ l, i < s.kernel.length) → ∀ a : K, l.foldlM (fun (acc : K) i =>
      if 0 ≤ s.pick i then (s.data[(s.pick i).toNat]?).map fun x => acc + s.kernel.getD i 0 * x else none) a =
      some (a + (l.map fun i => s.kernel.getD i 0 * s.data.getD (p i) 0).sum) := by
    intro l
    induction l with
    | nil => intro _ a; simp
    | cons i l ih =>
      intro hl a
      obtain ⟨h1, h2⟩ := h i (hl i (by simp))
      rw [List.foldlM_cons, h1, if_pos (by omega)]
      have : ((p i : Int)).toNat = p i := by omega
      rw [this, List.getElem?_eq_getElem h2]
      simp only [Option.map_some, Option.bind_eq_bind, Option.bind_some]
      rw [ih (fun j hj => hl j (by simp [hj]))]
      simp only [List.map_cons, List.sum_cons, add_assoc, List.getD_eq_getElem _ _ h2]
  rw [e _ (by simp)]
  simp

/-- (proof device) the state after pushing the first `m` values -/
structure After (rtl : Bool) (kernel series : List K) (h m : Nat) (s : Filter K) : Prop where
  ker : s.kernel = kernel
  dat : s.data = (series.take m).drop (m - kernel.length)
  cur : s.cursor = ((min m kernel.length + 1 - h : Nat) : Int)
  fin : s.finishing = false
  fet : s.fetched = m + 1 - h
  out : s.out = (List.range (m + 1 - h)).map fun t => ((if rtl then t + 1 else t), conv kernel series t)

theorem push_step (rtl : Bool) (kernel series : List K) (h m : Nat) (hK : kernel.length = 2 * h - 1) (hh : 1 ≤ h)
    (s : Filter K) (hs : After rtl kernel series h m s) (hm : m < series.length) :
    ∃ s', s.push rtl (series.getD m 0) = some s' ∧ After rtl kernel series h (m + 1) s' := by
  obtain ⟨c1, c2, c3, c4, c5, c6⟩ := hs
  have hget : (series.take m) ++ [series.getD m 0] = series.take (m + 1) := by
    rw [List.take_add_one]; simp [hm]
  have hd2 : s.data ++ [series.getD m 0] = (series.take (m + 1)).drop (m - kernel.length) := by
    rw [c2, ← hget, List.drop_append_of_le_length (by simp; omega)]
  have hlen2 : (s.data ++ [series.getD m 0]).length = m + 1 - (m - kernel.length) := by
    rw [hd2]; simp; omega
  -- the state after the possible pop_front
  generalize hs1 : (if (s.data ++ [series.getD m 0]).length > s.kernel.length then
      { s with data := (s.data ++ [series.getD m 0]).tail, cursor := s.cursor - 1 } else
      { s with data := s.data ++ [series.getD m 0] }) = s1
  have hpush : s.push rtl (series.getD m 0) = if s1.ready then s1.fetch rtl else some s1 := by
    rw [← hs1]
    unfold Filter.push
    rfl
  have hs1' : s1.kernel = kernel ∧ s1.data = (series.take (m + 1)).drop (m + 1 - kernel.length) ∧
      s1.cursor = ((min (m + 1) kernel.length - h : Nat) : Int) ∧ s1.finishing = false ∧ s1.fetched = m + 1 - h ∧
      s1.out = s.out := by
    rw [← hs1]
    by_cases hgt : (s.data ++ [series.getD m 0]).length > s.kernel.length
    · rw [if_pos hgt]
      rw [hlen2, c1] at hgt
      refine ⟨c1, ?_, ?_, c4, c5, rfl⟩
      · simp only
        rw [hd2, List.tail_drop]
        congr 1; omega
      · simp only [c3]; omega
    · rw [if_neg hgt]
      rw [hlen2, c1] at hgt
      refine ⟨c1, ?_, ?_, c4, c5, rfl⟩
      · simp only
        rw [hd2]
        congr 1; omega
      · simp only [c3]; omega
  obtain ⟨d1, d2, d3, d4, d5, d6⟩ := hs1'
  have hdl : s1.data.length = min (m + 1) kernel.length := by rw [d2]; simp; omega
  have hhalf : s1.half = h := by unfold Filter.half; rw [d1, hK]; omega
  rw [hpush]
  by_cases hr : h ≤ m + 1
  · have hready : s1.ready = true := by
      unfold Filter.ready; rw [hhalf, hdl]; simp; omega
    rw [if_pos hready]
    have hg := get_eq s1 (fun i => (i + (min (m + 1) kernel.length - h) + 1 - h : Nat)) (by
      intro i hi
      rw [d1] at hi
      refine ⟨?_, by rw [hdl]; omega⟩
      unfold Filter.pick
      rw [d4, d3, hhalf]
      simp only [Bool.false_eq_true, if_false]
      omega)
    unfold Filter.fetch
    rw [hg]
    refine ⟨_, rfl, d1, d2, ?_, d4, ?_, ?_⟩
    · simp only [Option.map_some, d4, d3, Bool.false_eq_true, if_false]; omega
    · simp only [d5]; omega
    · simp only [d6, c6, d5]
      rw [show m + 1 + 1 - h = (m + 1 - h) + 1 by omega, List.range_succ, List.map_append]
      congr 1
      simp only [List.map_cons, List.map_nil, List.cons.injEq, Prod.mk.injEq, and_true, true_and]
      unfold conv
      rw [d1]
      congr 1
      apply List.map_congr_left
      intro i hi
      have hi : i < kernel.length := by simpa using hi
      congr 1
      rw [d2]
      simp only [List.getD_eq_getElem?_getD, List.getElem?_drop]
      rw [List.getElem?_take_of_lt (by omega)]
      congr 2
      omega
  · have hready : ¬ (s1.ready = true) := by
      unfold Filter.ready; rw [hhalf, hdl]; simp; omega
    rw [if_neg hready]
    refine ⟨_, rfl, d1, d2, ?_, d4, ?_, ?_⟩
    · rw [d3]; omega
    · rw [d5]; omega
    · rw [d6, c6, show m + 1 + 1 - h = m + 1 - h by omega]

theorem push_all (rtl : Bool) (kernel series : List K) (h : Nat) (hK : kernel.length = 2 * h - 1) (hh : 1 ≤ h)
    (m : Nat) (hm : m ≤ series.length) :
    ∃ s, (series.take m).foldlM (fun (s : Filter K) (d : K) => s.push rtl d) { kernel := kernel } = some s ∧
      After rtl kernel series h m s := by
  induction m with
  | zero =>
    refine ⟨_, rfl, rfl, by simp, ?_, rfl, ?_, ?_⟩
    · simp; omega
    · simp; omega
    · simp; omega
  | succ m ih =>
    obtain ⟨s, h1, h2⟩ := ih (by omega)
    obtain ⟨s', h3, h4⟩ := push_step rtl kernel series h m hK hh s h2 (by omega)
    refine ⟨s', ?_, h4⟩
    have : series.take (m + 1) = series.take m ++ [series.getD m 0] := by
      rw [List.take_add_one]; simp [show m < series.length by omega]
    rw [this, List.foldlM_append, h1]
    simp only [Option.bind_eq_bind, Option.bind_some, List.foldlM_cons, h3, List.foldlM_nil]
    rfl

theorem finish_loop (rtl : Bool) (kernel series : List K) (h : Nat) (hK : kernel.length = 2 * h - 1) (hh : 1 ≤ h)
    (hN : kernel.length ≤ series.length) (n : Nat) (s : Filter K) (hn : h ≤ n + 1) (hnK : n < kernel.length)
    (hk : s.kernel = kernel) (hd : s.data = series.drop (series.length - (n + 1))) (hf : s.finishing = true)
    (hfe : s.fetched = series.length + h - 1 - n)
    (ho : s.out = (List.range (series.length + h - 1 - n)).map fun t => ((if rtl then t + 1 else t), conv kernel series t)) :
    ∃ s', s.finishLoop rtl = some s' ∧
      s'.out = (List.range series.length).map fun t => ((if rtl then t + 1 else t), conv kernel series t) := by
  induction n generalizing s with
  | zero =>
    have hh1 : h = 1 := by omega
    subst hh1
    rw [Filter.finishLoop]
    split
    · rename_i he
      have := congrArg List.length (hd.symm.trans he)
      simp at this; omega
    · rename_i a rest he
      have hl := congrArg List.length (hd.symm.trans he)
      simp at hl
      have : ¬ (({ s with data := rest } : Filter K).ready = true) := by
        unfold Filter.ready Filter.half
        simp only [hk, hK, decide_eq_true_eq]
        omega
      simp only
      rw [if_neg this]
      refine ⟨_, rfl, ?_⟩
      simp only
      rw [ho]
      rfl
  | succ n ih =>
    rw [Filter.finishLoop]
    split
    · rename_i he
      have := congrArg List.length (hd.symm.trans he)
      simp at this; omega
    · rename_i a rest he
      have hrest : rest = series.drop (series.length - (n + 1)) := by
        have : rest = s.data.tail := by rw [he]; rfl
        rw [this, hd, List.tail_drop]
        congr 1; omega
      have hrl : rest.length = n + 1 := by rw [hrest]; simp; omega
      have hhalf : ({ s with data := rest } : Filter K).half = h := by unfold Filter.half; rw [hk, hK]; omega
      simp only
      by_cases hr : h ≤ n + 1
      · have hready : ({ s with data := rest } : Filter K).ready = true := by
          unfold Filter.ready; rw [hhalf]; simp [hrl]; omega
        rw [if_pos hready]
        have hg := get_eq ({ s with data := rest } : Filter K) (fun i => min n i) (by
          intro i hi
          refine ⟨?_, by simp only [hrl]; omega⟩
          unfold Filter.pick
          simp only [hf, if_true, hrl]
          omega)
        rw [hg]
        simp only
        refine ih _ hr (by omega) hk hrest hf ?_ ?_
        · simp only [hfe]; omega
        · simp only [ho]
          rw [show series.length + h - 1 - n = (series.length + h - 1 - (n + 1)) + 1 by omega, List.range_succ,
            List.map_append]
          congr 1
          simp only [List.map_cons, List.map_nil, List.cons.injEq, Prod.mk.injEq, and_true, hfe]
          refine ⟨?_, ?_⟩
          · first | rfl | trivial | (split <;> omega)
          · unfold conv
            rw [hk]
            congr 1
            apply List.map_congr_left
            intro i hi
            have hi : i < kernel.length := by simpa using hi
            congr 1
            rw [hrest]
            simp only [List.getD_eq_getElem?_getD, List.getElem?_drop]
            congr 2
            omega
      · have hnr : ¬ (({ s with data := rest } : Filter K).ready = true) := by
          unfold Filter.ready; rw [hhalf]; simp [hrl]; omega
        rw [if_neg hnr]
        refine ⟨_, rfl, ?_⟩
        simp only [ho]
        congr 2; omega

/-- **C44 (series at least as long as the kernel).** Pushing the whole series and finishing calls back exactly once per
timestep, in order, with the convolution of the whole series with clamped ends.  The timestep reported is the number of
the timestep when the compiler evaluates call arguments left to right, one more when right to left (`rtl`).  Missing:
series shorter than the kernel, where it is false (`C44_short_series`). -/
theorem C44_streaming_partial (rtl : Bool) (kernel series : List K) (hodd : kernel.length % 2 = 1)
    (hlen : kernel.length ≤ series.length) :
    run rtl kernel series =
      some ((List.range series.length).map fun t => ((if rtl then t + 1 else t), conv kernel series t)) := by
  have hK : kernel.length = 2 * ((kernel.length + 1) / 2) - 1 := by omega
  have hh : 1 ≤ (kernel.length + 1) / 2 := by omega
  generalize (kernel.length + 1) / 2 = h at hK hh
  obtain ⟨s, h1, h2⟩ := push_all rtl kernel series h hK hh series.length (le_refl _)
  rw [List.take_length] at h1
  unfold run
  rw [h1, Option.bind_some]
  obtain ⟨c1, c2, c3, c4, c5, c6⟩ := h2
  obtain ⟨s', g1, g2⟩ := finish_loop rtl kernel series h hK hh hlen (kernel.length - 1)
    ({ s with finishing := true } : Filter K) (by omega) (by omega) c1 (by
      simp only [c2, List.take_length]; congr 1; omega) rfl (by simp only [c5]; omega) (by
      simp only [c6]; congr 2; omega)
  unfold Filter.finish
  rw [g1, Option.map_some, g2]

/-- **C44 (online part, any length).** Whatever the length of the series, the callbacks made while pushing are those of the
first timesteps, each as soon as half a kernel of later values is known. -/
theorem C44_online (rtl : Bool) (kernel series : List K) (hodd : kernel.length % 2 = 1) :
    (series.foldlM (fun (s : Filter K) (d : K) => s.push rtl d) { kernel := kernel }).map (·.out) =
      some ((List.range (series.length + 1 - (kernel.length + 1) / 2)).map fun t =>
        ((if rtl then t + 1 else t), conv kernel series t)) := by
  have hK : kernel.length = 2 * ((kernel.length + 1) / 2) - 1 := by omega
  have hh : 1 ≤ (kernel.length + 1) / 2 := by omega
  generalize (kernel.length + 1) / 2 = h at hK hh
  obtain ⟨s, h1, h2⟩ := push_all rtl kernel series h hK hh series.length (le_refl _)
  rw [List.take_length] at h1
  rw [h1, Option.map_some, h2.out]

/-- **C44 (false for short series).** A kernel of 5 and a series of 4: only three values are delivered instead of four, and
the one delivered for timestep 2 is that of timestep 3. -/
theorem C44_short_series : ∃ (kernel series : List Nat), kernel.length = 5 ∧ series.length = 4 ∧
    run false kernel series = some [(0, 113), (1, 1112), (2, 3110)] ∧
    (List.range 4).map (conv kernel series) = [113, 1112, 2111, 3110] :=
  ⟨[1, 1, 1, 1, 1], [1, 10, 100, 1000], by decide, by decide, by decide +kernel, by decide +kernel⟩

/-- **C44 (finding).** `finish` on a filter to which nothing was pushed pops from an empty deque. -/
theorem C44_finish_empty (rtl : Bool) (kernel : List K) : run rtl kernel [] = none := by
  unfold run
  simp only [List.foldlM_nil, Option.pure_def, Option.bind_some]
  unfold Filter.finish
  rw [Filter.finishLoop]
  split
  · rfl
  · rename_i h; simp at h

/-- The hypotheses of `C44_streaming_partial` are met, and the result is what one expects. -/
example : run false [1, 2, 1] [1, 10, 100, 1000] = some [(0, 13), (1, 121), (2, 1210), (3, 3100)] := by decide +kernel

end Verif.Stream
