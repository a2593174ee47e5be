import Verif.Trace.Times
/-! # C112, C113, C115: a whole series -/
namespace Verif.PT
open Verif.ND
variable {K : Type} [Field K] [LinearOrder K] [IsStrictOrderedRing K] [FloorRing K] {nd : Nat}

/-- (specification) the times recorded over `N` intervals of length 1 from time step `i`. -/
def seriesTimes (n : Nat) : Nat → Nat → List K
  | _, 0 => []
  | i, N + 1 => intervalTimes n (i : K) 1 ++ seriesTimes n (i + 1) N

/-- a particle outside the grid stays where it is through the rest of the series. -/
theorem through_stuck {ds : List Nat} (c : Cfg K) (hn : 0 < c.nsteps) (hdt : c.dt ≠ 0) (series : List (Nd K)) :
    ∀ (i : Nat) (tr : List (Pt K nd)) (p : Pt K nd), (∀ a ∈ series, Usable nd ds a) → tr.getLast? = some p →
      ¬ InGrid ds p.x → through c i series tr = some (tr ++ List.replicate (2 * (series.length - 1)) ⟨p.x, p.t, none⟩) := by
  induction series with
  | nil => intro i tr p _ _ _; simp [through]
  | cons a0 as ih =>
    intro i tr p hu hl hp
    cases as with
    | nil => simp [through]
    | cons a1 as =>
      rw [through, C113_stuck_outside (hu a0 (by simp)) (hu a1 (by simp)) c hn hdt _ tr p hl hp]
      simp only
      rw [ih (i + 1) _ ⟨p.x, p.t, none⟩ (fun a ha => hu a (by simp [ha])) (by simp) hp]
      simp only [List.length_cons, List.append_assoc]
      congr 2

/-- **C112 (series).** With `delta_t = 1`, a particle that is at the beginning of interval `i` is carried through all the
following intervals; whatever the field, the run is defined and only appends points.  Either the recorded times are exactly
the checkpoints and the ends of all intervals, or the particle ends outside the grid. -/
theorem C112_series {ds : List Nat} (c : Cfg K) (hck : c.ckpt = 16) (hn : 0 < c.nsteps) (hdt : c.dt = 1)
    (series : List (Nd K)) (hu : ∀ a ∈ series, Usable nd ds a) (i : Nat) (tr : List (Pt K nd)) (p : Pt K nd)
    (hl : tr.getLast? = some p) (hp : p.t = i) :
    ∃ new : List (Pt K nd), ∃ q : Pt K nd, through c i series tr = some (tr ++ new) ∧ (tr ++ new).getLast? = some q ∧
      2 * (series.length - 1) ≤ new.length ∧
      (new.map Pt.t = seriesTimes c.nsteps i (series.length - 1) ∨ ¬ InGrid ds q.x) := by
  induction series generalizing i tr p with
  | nil => exact ⟨[], p, by simp [through], by simpa using hl, by simp, Or.inl rfl⟩
  | cons a0 as ih =>
    cases as with
    | nil => exact ⟨[], p, by simp [through], by simpa using hl, by simp, Or.inl rfl⟩
    | cons a1 as =>
      obtain ⟨new, q, e, hq, hlen, _, hcase⟩ := C112_interval (hu a0 (by simp)) (hu a1 (by simp)) c hck hn
        (by rw [hdt]; exact one_pos) (i : K) tr p hl hp
      have hne : new ≠ [] := fun h => by rw [h] at hlen; simp at hlen
      have hlq : (tr ++ new).getLast? = some q := by rw [List.getLast?_append_of_ne_nil _ hne, hq]
      rw [through, e]
      simp only
      by_cases hin : InGrid ds q.x
      · have ht : new.map Pt.t = intervalTimes c.nsteps (i : K) c.dt := by
          rcases hcase with h | h
          · exact h
          · exact absurd hin h.1
        have hqt : q.t = (i + 1 : Nat) := by
          have h2 : (new.map Pt.t).getLast? = some q.t := by rw [List.getLast?_map, hq]; rfl
          rw [ht] at h2
          unfold intervalTimes at h2
          rw [List.getLast?_append_of_ne_nil _ (by simp), hdt] at h2
          simp only [List.getLast?_singleton, Option.some.injEq] at h2
          rw [← h2]
          push_cast
          ring
        obtain ⟨new', q', e', hq', hlen', hcase'⟩ := ih (fun a ha => hu a (by simp [ha])) (i + 1) (tr ++ new) q hlq hqt
        refine ⟨new ++ new', q', by rw [e', List.append_assoc], by rw [← List.append_assoc]; exact hq', ?_, ?_⟩
        · simp only [List.length_cons, List.length_append] at hlen' ⊢
          omega
        · rcases hcase' with h | h
          · left
            rw [List.map_append, ht, h, hdt]
            rfl
          · exact Or.inr h
      · have := through_stuck (ds := ds) c hn (by rw [hdt]; exact one_ne_zero) (a1 :: as) (i + 1) (tr ++ new) q
          (fun a ha => hu a (by simp [ha])) hlq hin
        refine ⟨new ++ List.replicate (2 * (as.length + 1 - 1)) ⟨q.x, q.t, none⟩, ⟨q.x, q.t, ?_⟩, ?_, ?_, ?_, Or.inr hin⟩
        · exact if as.length = 0 then q.v else none
        · rw [this, List.append_assoc]
          rfl
        · rw [← List.append_assoc]
          by_cases h0 : as.length = 0
          · rw [h0]
            simp only [if_true, Nat.zero_add, Nat.sub_self, Nat.mul_zero, List.replicate_zero, List.append_nil]
            exact hlq
          · rw [if_neg h0, List.getLast?_append_of_ne_nil _ (by simp [h0])]
            rw [List.getLast?_replicate, if_neg (by omega)]
        · simp only [List.length_cons, List.length_append, List.length_replicate]
          omega

theorem intervalTimes_sorted (n : Nat) (ct dt : K) (hdt : 0 < dt) :
    (intervalTimes n ct dt).Pairwise (· ≤ ·) ∧ ∀ t ∈ intervalTimes n ct dt, ct ≤ t ∧ t ≤ ct + dt := by
  have key : ∀ j ∈ List.range (nck n), (0 : K) ≤ (16 * j : Nat) * (dt / n) ∧ ((16 * j : Nat) : K) * (dt / n) ≤ dt := by
    intro j hj
    have hj' : 16 * j < n := by have := List.mem_range.1 hj; unfold nck at this; omega
    have hn : (0 : K) < n := by
      have : 0 < n := by omega
      exact_mod_cast this
    have hd : 0 < dt / (n : K) := div_pos hdt hn
    refine ⟨mul_nonneg (Nat.cast_nonneg _) hd.le, ?_⟩
    have h1 : ((16 * j : Nat) : K) ≤ n := by exact_mod_cast hj'.le
    calc ((16 * j : Nat) : K) * (dt / n) ≤ n * (dt / n) := mul_le_mul_of_nonneg_right h1 hd.le
      _ = dt := by field_simp
  constructor
  · unfold intervalTimes
    rw [List.pairwise_append]
    refine ⟨?_, by simp, ?_⟩
    · rw [List.pairwise_map]
      refine List.Pairwise.imp_of_mem ?_ (List.pairwise_lt_range (n := nck n))
      intro a b ha hb hab
      have hn : (0 : K) ≤ dt / n := div_nonneg hdt.le (Nat.cast_nonneg _)
      have h1 : ((16 * a : Nat) : K) ≤ ((16 * b : Nat) : K) := by
        have : 16 * a ≤ 16 * b := by omega
        exact_mod_cast this
      have := mul_le_mul_of_nonneg_right h1 hn
      linarith
    · intro a ha b hb
      obtain ⟨j, hj, rfl⟩ := List.mem_map.1 ha
      obtain rfl := List.mem_singleton.1 hb
      have := (key j hj).2
      linarith
  · intro t ht
    unfold intervalTimes at ht
    rcases List.mem_append.1 ht with h | h
    · obtain ⟨j, hj, rfl⟩ := List.mem_map.1 h
      have := key j hj
      constructor <;> linarith [this.1, this.2]
    · obtain rfl := List.mem_singleton.1 h
      constructor <;> linarith

/-- **C113 (complete or outside).** With `delta_t = 1`, a particle seeded at time 0 whose last recorded position is inside
the grid has been carried through the whole series: its last time is the last time step, it has a point at the start, at
every 16th step and at the end of every interval, and no other. -/
theorem C113_complete_or_outside_partial {ds : List Nat} (c : Cfg K) (hck : c.ckpt = 16) (hn : 0 < c.nsteps) (hdt : c.dt = 1)
    (series : List (Nd K)) (hs : 2 ≤ series.length) (hu : ∀ a ∈ series, Usable nd ds a) (p : Pt K nd) (hp : p.t = 0) :
    ∃ tr q, through c 0 series [p] = some tr ∧ tr.getLast? = some q ∧
      (InGrid ds q.x → q.t = ((series.length - 1 : Nat) : K) ∧ tr.length = 1 + (series.length - 1) * (nck c.nsteps + 1) ∧
        tr.map Pt.t = 0 :: seriesTimes c.nsteps 0 (series.length - 1)) := by
  obtain ⟨new, q, e, hq, _, hcase⟩ := C112_series c hck hn hdt series hu 0 [p] p rfl (by simpa using hp)
  refine ⟨_, q, e, hq, fun hin => ?_⟩
  have ht : new.map Pt.t = seriesTimes c.nsteps 0 (series.length - 1) := by
    rcases hcase with h | h
    · exact h
    · exact absurd hin h
  have hlen : ∀ (N i : Nat), (seriesTimes (K := K) c.nsteps i N).length = N * (nck c.nsteps + 1) := by
    intro N
    induction N with
    | zero => intro i; simp [seriesTimes]
    | succ N ih =>
      intro i
      simp only [seriesTimes, List.length_append, ih, intervalTimes, List.length_map, List.length_range, List.length_singleton]
      ring
  have hlast : ∀ (N i : Nat), (seriesTimes (K := K) c.nsteps i (N + 1)).getLast? = some ((i + N + 1 : Nat) : K) := by
    intro N
    induction N with
    | zero =>
      intro i
      simp [seriesTimes, intervalTimes]
    | succ N ih =>
      intro i
      rw [seriesTimes, List.getLast?_append_of_ne_nil, ih (i + 1)]
      · congr 2
        omega
      · intro h
        have := congrArg List.length h
        rw [hlen] at this
        simp at this
  obtain ⟨N, hN⟩ : ∃ N, series.length - 1 = N + 1 := ⟨series.length - 2, by omega⟩
  refine ⟨?_, ?_, ?_⟩
  · have h1 := hlast N 0
    have hne : new ≠ [] := fun h => by
      rw [h, hN] at ht
      rw [← ht] at h1
      simp at h1
    have h2 : (new.map Pt.t).getLast? = some q.t := by
      rw [List.getLast?_map]
      rw [List.getLast?_append_of_ne_nil _ hne] at hq
      rw [hq]
      rfl
    rw [ht, hN, h1] at h2
    rw [hN, ← Option.some.inj h2]
    congr 1
    omega
  · rw [List.length_append, ← List.length_map (f := Pt.t) (as := new), ht, hlen]
    rfl
  · rw [List.map_append, ht, List.map_cons, hp]
    rfl

/-- **C112 (times).** The recorded times of a complete trajectory never decrease and stay between the first and the last
time step. -/
theorem C112_times_sorted (n N : Nat) (i : Nat) :
    (seriesTimes (K := K) n i N).Pairwise (· ≤ ·) ∧
      ∀ t ∈ seriesTimes (K := K) n i N, (i : K) ≤ t ∧ t ≤ ((i + N : Nat) : K) := by
  induction N generalizing i with
  | zero => simp [seriesTimes]
  | succ N ih =>
    obtain ⟨s1, b1⟩ := intervalTimes_sorted n (i : K) 1 one_pos
    obtain ⟨s2, b2⟩ := ih (i + 1)
    rw [seriesTimes, List.pairwise_append]
    refine ⟨⟨s1, s2, fun a ha b hb => ?_⟩, fun t ht => ?_⟩
    · have h1 := (b1 a ha).2
      have h2 := (b2 b hb).1
      push_cast at h2
      linarith
    · have hN : (0 : K) ≤ N := Nat.cast_nonneg _
      rcases List.mem_append.1 ht with h | h
      · have := b1 t h
        push_cast
        constructor <;> linarith [this.1, this.2]
      · have := b2 t h
        push_cast at this ⊢
        constructor <;> linarith [this.1, this.2]

/-- a particle whose time is before interval `i` stays where it is for the rest of the series. -/
theorem through_late {ds : List Nat} (c : Cfg K) (hn : 0 < c.nsteps) (hdt : 0 < c.dt) (series : List (Nd K)) :
    ∀ (i : Nat) (tr : List (Pt K nd)) (p : Pt K nd), (∀ a ∈ series, Usable nd ds a) → tr.getLast? = some p →
      p.t < i → through c i series tr = some (tr ++ List.replicate (2 * (series.length - 1)) ⟨p.x, p.t, none⟩) := by
  induction series with
  | nil => intro i tr p _ _ _; simp [through]
  | cons a0 as ih =>
    intro i tr p hu hl hp
    cases as with
    | nil => simp [through]
    | cons a1 as =>
      rw [through, stuck_time (hu a0 (by simp)) (hu a1 (by simp)) c hn hdt _ tr p hl hp]
      simp only
      have hp' : p.t < ((i + 1 : Nat) : K) := by push_cast; linarith
      rw [ih (i + 1) _ ⟨p.x, p.t, none⟩ (fun a ha => hu a (by simp [ha])) (by simp) hp']
      simp only [List.length_cons, List.append_assoc]
      congr 2

/-- **C115 (a violation).** With `set_delta_t(d)`, `0 < d < 1`, particles move in the first interval only: for the rest of
the series every particle is frozen, wherever it is and whatever the field, and recorded twice per interval. -/
theorem C115_small_delta_t {ds : List Nat} (c : Cfg K) (hck : c.ckpt = 16) (hn : 0 < c.nsteps) (hdt : 0 < c.dt)
    (hdt1 : c.dt < 1) (a0 a1 : Nd K) (series : List (Nd K)) (hu : ∀ a ∈ a0 :: a1 :: series, Usable nd ds a) (p : Pt K nd)
    (hp : p.t = 0) :
    ∃ tr q, advanceTraj (evalVt a0 (some a1) 0 c.dt) c [p] = some tr ∧ tr.getLast? = some q ∧
      through c 0 (a0 :: a1 :: series) [p] = some (tr ++ List.replicate (2 * series.length) ⟨q.x, q.t, none⟩) := by
  obtain ⟨new, q, e, hq, hlen, _, hcase⟩ := C112_interval (hu a0 (by simp)) (hu a1 (by simp)) c hck hn hdt 0 [p] p rfl hp
  have hne : new ≠ [] := fun h => by rw [h] at hlen; simp at hlen
  have hlq : ([p] ++ new).getLast? = some q := by rw [List.getLast?_append_of_ne_nil _ hne, hq]
  have hqt : q.t ≤ c.dt := by
    rcases hcase with h | ⟨_, _, h, _⟩
    · have hm : q.t ∈ new.map Pt.t := List.mem_map.2 ⟨q, List.mem_of_getLast? hq, rfl⟩
      rw [h] at hm
      have := ((intervalTimes_sorted c.nsteps 0 c.dt hdt).2 _ hm).2
      linarith
    · linarith
  refine ⟨_, q, e, hlq, ?_⟩
  rw [through]
  simp only [Nat.cast_zero, e]
  rw [through_late (ds := ds) c hn hdt (a1 :: series) (0 + 1) _ q (fun a ha => hu a (by simp [ha])) hlq (by
    push_cast
    linarith)]
  rfl

end Verif.PT
