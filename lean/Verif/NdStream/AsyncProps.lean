import Verif.NdStream.Async
import Mathlib.Tactic.Common

/-!
# C147: asynchronous reading
-/

namespace Verif.NdS

variable {A : Type} {nt : Nat} {frames : Nat → A} {empty : A → Bool}

/-- The call of the callback for frame `i`. -/
def frameCall (frames : Nat → A) (i : Nat) : Option (Nat × A) := some (i, frames i)

/-- number of frames published so far -/
def Prod.published (nt : Nat) : Prod → Nat
  | .read i => i
  | .want i => i
  | .hold i => i
  | .done => nt

theorem published_head (i : Nat) (h : i ≤ nt) : (loopHead nt i).published nt = i := by
  unfold loopHead
  split
  · rfl
  · simp only [Prod.published]; omega

/-- the consumer has seen everything that was published -/
def Cons.idle : Cons → Bool
  | .woken => false
  | .call => false
  | _ => true

/-- The invariant of runs without spurious wake-ups; `idx` are the frames delivered. -/
structure Inv (nt : Nat) (frames : Nat → A) (empty : A → Bool) (s : St A) (idx : List Nat) : Prop where
  calls : s.calls = idx.map (frameCall frames)
  incr : idx.Pairwise (· < ·)
  lt : ∀ i ∈ idx, i < s.prod.published nt
  pub : s.prod.published nt ≤ nt
  cur : ∀ n, s.prod.published nt = n + 1 → s.cur = frameCall frames n
  cur0 : s.prod.published nt = 0 → s.cur = none
  fresh : s.cons.idle = false → 0 < s.prod.published nt ∧ ∀ i ∈ idx, i + 1 < s.prod.published nt
  bound : ∀ i, s.prod = .read i ∨ s.prod = .want i ∨ s.prod = .hold i → i < nt
  excl : ¬ (s.cons.holds = true ∧ s.prod.holds = true)
  done : s.allDone = true ↔ (∃ i, i < s.prod.published nt ∧ (i = nt - 1 ∨ empty (frames i) = true))
  start : s.cons = .start → idx = []
  out : s.cons = .out → s.allDone = true
  waiting : s.cons = .wait → s.allDone = false
  seen : idx ≠ [] ∨ s.cons = .start ∨ s.cons = .check ∨ s.cons = .wait ∨ s.cons = .woken ∨ s.cons = .call ∨ s.cons = .out
  last : s.cons = .check ∨ s.cons = .out → idx ≠ [] → idx.getLast? = some (s.prod.published nt - 1) ∨ s.cons = .out

theorem inv_init : Inv nt frames empty (init A nt) [] := by
  have hp : (loopHead nt 0).published nt = 0 := published_head 0 (by omega)
  constructor <;> simp [init, hp, Cons.idle, Cons.holds]
  unfold loopHead
  rintro i
  split <;> simp <;> omega

theorem inv_prod {s t : St A} {idx : List Nat} (I : Inv nt frames empty s idx) (h : step nt frames empty s .prod = some t) :
    Inv nt frames empty t idx := by
  obtain ⟨p, c, cur, ad, calls⟩ := s
  cases p with
  | read i =>
    simp only [step, Option.some.injEq] at h
    subst h
    have hb := I.bound i (Or.inl rfl)
    exact ⟨I.calls, I.incr, I.lt, I.pub, I.cur, I.cur0, I.fresh, by simp; omega, by simp [Prod.holds], I.done, I.start, I.out, I.waiting, I.seen, I.last⟩
  | want i =>
    simp only [step] at h
    split at h
    · cases h
    · rename_i hc
      simp only [Option.some.injEq] at h
      subst h
      have hb := I.bound i (Or.inr (Or.inl rfl))
      exact ⟨I.calls, I.incr, I.lt, I.pub, I.cur, I.cur0, I.fresh, by simp; omega, by simp only [not_and]; intro h; exact absurd h hc, I.done, I.start, I.out, I.waiting, I.seen, I.last⟩
  | hold i =>
    simp only [step, Option.some.injEq] at h
    subst h
    have hb := I.bound i (Or.inr (Or.inr rfl))
    have hpub : (loopHead nt (i + 1)).published nt = i + 1 := published_head (i + 1) (by omega)
    have hex : c.holds = false := by
      have := I.excl
      simpa [Prod.holds] using this
    have hlt : ∀ k ∈ idx, k < i := I.lt
    refine ⟨I.calls, I.incr, ?_, ?_, ?_, ?_, ?_, ?_, ?_, ?_, ?_, ?_, ?_, ?_, ?_⟩
    · intro k hk
      rw [hpub]
      have := hlt k hk
      omega
    · show (loopHead nt (i + 1)).published nt ≤ nt
      omega
    · intro n hn
      rw [hpub] at hn
      obtain rfl : n = i := by omega
      rfl
    · intro hn
      rw [hpub] at hn
      omega
    · intro _
      refine ⟨by show 0 < (loopHead nt (i + 1)).published nt; omega, ?_⟩
      intro k hk
      show k + 1 < (loopHead nt (i + 1)).published nt
      have := hlt k hk
      omega
    · intro k hk
      simp only [loopHead] at hk
      split at hk
      · simp at hk; omega
      · simp at hk
    · rintro ⟨-, h2⟩
      simp only [loopHead] at h2
      split at h2 <;> simp [Prod.holds] at h2
    · simp only [hpub, Bool.or_eq_true, beq_iff_eq]
      have hd := I.done
      simp only [Prod.published] at hd
      constructor
      · rintro (h | h)
        · obtain ⟨k, h1, h2⟩ := hd.1 h
          exact ⟨k, by omega, h2⟩
        · exact ⟨i, by omega, h⟩
      · rintro ⟨k, h1, h2⟩
        rcases Nat.lt_or_ge k i with h3 | h3
        · exact Or.inl (hd.2 ⟨k, h3, h2⟩)
        · obtain rfl : k = i := by omega
          exact Or.inr h2
    · intro h
      have h : (if c = .wait then Cons.woken else c) = .start := h
      split at h
      · cases h
      · exact I.start h
    · intro h
      have h : (if c = .wait then Cons.woken else c) = .out := h
      split at h
      · cases h
      · have h2 : ad = true := I.out h
        simp [h2]
    · intro h
      have h : (if c = .wait then Cons.woken else c) = .wait := h
      split at h
      · cases h
      · rename_i hne; exact absurd h hne
    · right
      show (if c = .wait then Cons.woken else c) = .start ∨ _
      cases c <;> simp
    · intro h hne
      have h : (if c = .wait then Cons.woken else c) = .check ∨ (if c = .wait then Cons.woken else c) = .out := h
      rcases h with h | h
      · split at h
        · cases h
        · rw [h] at hex
          simp [Cons.holds] at hex
      · exact Or.inr h
  | done => simp [step] at h

theorem inv_cons {s t : St A} {idx : List Nat} (I : Inv nt frames empty s idx) (h : step nt frames empty s .cons = some t) :
    ∃ idx', Inv nt frames empty t idx' := by
  obtain ⟨p, c, cur, ad, calls⟩ := s
  cases c with
  | start =>
    simp only [step] at h
    split at h
    · cases h
    · rename_i hp
      simp only [Option.some.injEq] at h
      subst h
      have h0 := I.start rfl
      subst h0
      exact ⟨[], I.calls, I.incr, I.lt, I.pub, I.cur, I.cur0, by simp [Cons.idle], I.bound, by simp only [not_and]; intro _; exact hp, I.done, by simp, by simp, by simp, by simp, by simp⟩
  | check =>
    simp only [step, Option.some.injEq] at h
    subst h
    refine ⟨idx, I.calls, I.incr, I.lt, I.pub, I.cur, I.cur0, ?_, I.bound, ?_, I.done, ?_, ?_, ?_, ?_, ?_⟩
    · cases ad <;> simp [Cons.idle]
    · cases ad <;> simp [Cons.holds]
    · cases ad <;> simp
    · cases ad <;> simp
    · cases ad <;> simp
    · right; cases ad <;> simp
    · intro _ _
      cases ad with
      | false => simp_all
      | true => exact Or.inr rfl
  | wait => simp [step] at h
  | woken =>
    simp only [step] at h
    split at h
    · cases h
    · rename_i hp
      simp only [Option.some.injEq] at h
      subst h
      exact ⟨idx, I.calls, I.incr, I.lt, I.pub, I.cur, I.cur0, fun _ => I.fresh rfl, I.bound, by simp only [not_and]; intro _; exact hp, I.done, by simp, by simp, by simp, by simp, by simp⟩
  | call =>
    simp only [step, Option.some.injEq] at h
    subst h
    obtain ⟨hpos, hfr⟩ := I.fresh rfl
    have hcur := I.cur (p.published nt - 1) (by show p.published nt = _; dsimp only at hpos; omega)
    dsimp only at hpos hfr hcur
    refine ⟨idx ++ [p.published nt - 1], ?_, ?_, ?_, I.pub, I.cur, I.cur0, by simp [Cons.idle], I.bound, ?_, I.done, by simp, by simp, by simp, by simp, ?_⟩
    · rw [List.map_append, ← I.calls, hcur]
      rfl
    · rw [List.pairwise_append]
      refine ⟨I.incr, by simp, ?_⟩
      intro a ha b hb
      rw [List.mem_singleton] at hb
      have := hfr a ha
      omega
    · intro i hi
      rcases List.mem_append.1 hi with h | h
      · exact I.lt i h
      · rw [List.mem_singleton] at h
        show i < p.published nt
        omega
    · have := I.excl
      simpa [Cons.holds] using this
    · intro _ _
      left
      simp
  | out => simp [step] at h

theorem exec_inv : ∀ (sched : List Lab) (s : St A) (idx : List Nat), Lab.spurious ∉ sched → Inv nt frames empty s idx → ∀ t,
    exec nt frames empty sched s = some t → ∃ idx', Inv nt frames empty t idx' := by
  intro sched
  induction sched with
  | nil =>
    intro s idx _ I t h
    simp only [exec, Option.some.injEq] at h
    exact ⟨idx, h ▸ I⟩
  | cons l ls ih =>
    intro s idx hs I t h
    simp only [exec] at h
    cases hst : step nt frames empty s l with
    | none => rw [hst] at h; cases h
    | some s' =>
      rw [hst] at h
      have hls : Lab.spurious ∉ ls := fun hm => hs (List.mem_cons_of_mem _ hm)
      cases l with
      | prod => exact ih s' idx hls (inv_prod I hst) t h
      | cons =>
        obtain ⟨idx', I'⟩ := inv_cons I hst
        exact ih s' idx' hls I' t h
      | spurious => exact absurd List.mem_cons_self hs

/-- C147: whatever the schedule (without spurious wake-ups), the frames handed to the callback are frames of the series with
their own time steps, in increasing order, each at most once. -/
theorem C147_order {sched : List Lab} (hs : Lab.spurious ∉ sched) {t : St A} (h : exec nt frames empty sched (init A nt) = some t) :
    ∃ idx : List Nat, t.calls = idx.map (fun i => some (i, frames i)) ∧ idx.Pairwise (· < ·) ∧ ∀ i ∈ idx, i < nt := by
  obtain ⟨idx, I⟩ := exec_inv sched _ [] hs inv_init t h
  exact ⟨idx, I.calls, I.incr, fun i hi => Nat.lt_of_lt_of_le (I.lt i hi) I.pub⟩

/-- C147: for at least one time step there is no deadlock: as long as `start` has not returned, a thread can run. -/
theorem C147_no_deadlock (hnt : 0 < nt) {sched : List Lab} (hs : Lab.spurious ∉ sched) {t : St A} (h : exec nt frames empty sched (init A nt) = some t) :
    t.final = true ∨ (step nt frames empty t .prod).isSome = true ∨ (step nt frames empty t .cons).isSome = true := by
  obtain ⟨idx, I⟩ := exec_inv sched _ [] hs inv_init t h
  obtain ⟨p, c, cur, ad, calls⟩ := t
  cases p with
  | read i => right; left; simp [step]
  | hold i => right; left; simp [step]
  | want i =>
    cases c with
    | check => right; right; simp [step]
    | call => right; right; simp [step]
    | start => right; left; simp [step, Cons.holds]
    | wait => right; left; simp [step, Cons.holds]
    | woken => right; left; simp [step, Cons.holds]
    | out => right; left; simp [step, Cons.holds]
  | done =>
    cases c with
    | start => right; right; simp [step, Prod.holds]
    | check => right; right; simp [step]
    | woken => right; right; simp [step, Prod.holds]
    | call => right; right; simp [step]
    | out => left; simp [St.final]
    | wait =>
      exfalso
      have h1 := I.waiting rfl
      have h2 := I.done.2 ⟨nt - 1, by show nt - 1 < nt; omega, Or.inl rfl⟩
      dsimp only at h1 h2
      rw [h1] at h2
      cases h2

/-- steps the reader has yet to make -/
def Prod.left (nt : Nat) : Prod → Nat
  | .read i => 3 * (nt - i)
  | .want i => 3 * (nt - i) - 1
  | .hold i => 3 * (nt - i) - 2
  | .done => 0

/-- steps the consumer can make before it sleeps or leaves -/
def Cons.left : Cons → Nat
  | .start => 2
  | .check => 1
  | .wait => 0
  | .woken => 3
  | .call => 2
  | .out => 0

/-- a bound on the steps left -/
def measure (nt : Nat) (s : St A) : Nat := s.prod.left nt + 3 * (nt - s.prod.published nt) + s.cons.left

theorem measure_step {s t : St A} {l : Lab} (hl : l ≠ .spurious) (hb : ∀ i, s.prod = .read i ∨ s.prod = .want i ∨ s.prod = .hold i → i < nt)
    (h : step nt frames empty s l = some t) : measure nt t < measure nt s := by
  obtain ⟨p, c, cur, ad, calls⟩ := s
  cases l with
  | spurious => exact absurd rfl hl
  | cons =>
    cases c <;> simp only [step] at h
    · split at h
      · cases h
      · simp only [Option.some.injEq] at h; subst h; simp [measure, Cons.left]
    · simp only [Option.some.injEq] at h; subst h; cases ad <;> simp [measure, Cons.left]
    · cases h
    · split at h
      · cases h
      · simp only [Option.some.injEq] at h; subst h; simp [measure, Cons.left]
    · simp only [Option.some.injEq] at h; subst h; simp [measure, Cons.left]
    · cases h
  | prod =>
    cases p with
    | read i =>
      have := hb i (Or.inl rfl)
      simp only [step, Option.some.injEq] at h; subst h
      simp only [measure, Prod.left, Prod.published]; omega
    | want i =>
      have := hb i (Or.inr (Or.inl rfl))
      simp only [step] at h
      split at h
      · cases h
      · simp only [Option.some.injEq] at h; subst h
        simp only [measure, Prod.left, Prod.published]; omega
    | hold i =>
      have := hb i (Or.inr (Or.inr rfl))
      simp only [step, Option.some.injEq] at h; subst h
      have hp : (loopHead nt (i + 1)).published nt = i + 1 := published_head (i + 1) (by omega)
      have hq : (loopHead nt (i + 1)).left nt = 3 * (nt - (i + 1)) := by
        unfold loopHead
        split
        · rfl
        · simp only [Prod.left]; omega
      have hc : (if c = .wait then Cons.woken else c).left ≤ c.left + 3 := by cases c <;> simp [Cons.left]
      show (loopHead nt (i + 1)).left nt + 3 * (nt - (loopHead nt (i + 1)).published nt) + (if c = .wait then Cons.woken else c).left
        < (3 * (nt - i) - 2) + 3 * (nt - i) + c.left
      rw [hp, hq]
      omega
    | done => simp [step] at h

/-- C147: every run ends: at most `6 nt + 2` steps are possible. -/
theorem C147_terminates {sched : List Lab} (hs : Lab.spurious ∉ sched) {t : St A} (h : exec nt frames empty sched (init A nt) = some t) :
    sched.length ≤ 6 * nt + 2 := by
  have key : ∀ (sched : List Lab) (s : St A) (idx : List Nat), Lab.spurious ∉ sched → Inv nt frames empty s idx → ∀ t,
      exec nt frames empty sched s = some t → sched.length + measure nt t ≤ measure nt s := by
    intro sched
    induction sched with
    | nil =>
      intro s idx _ _ t h
      simp only [exec, Option.some.injEq] at h
      subst h
      simp
    | cons l ls ih =>
      intro s idx hs I t h
      simp only [exec] at h
      cases hst : step nt frames empty s l with
      | none => rw [hst] at h; cases h
      | some s' =>
        rw [hst] at h
        have hls : Lab.spurious ∉ ls := fun hm => hs (List.mem_cons_of_mem _ hm)
        have hl : l ≠ .spurious := by rintro rfl; exact hs List.mem_cons_self
        have hm := measure_step hl I.bound hst
        have : ∃ idx', Inv nt frames empty s' idx' := by
          cases l with
          | prod => exact ⟨idx, inv_prod I hst⟩
          | cons => exact inv_cons I hst
          | spurious => exact absurd rfl hl
        obtain ⟨idx', I'⟩ := this
        have := ih s' idx' hls I' t h
        simp only [List.length_cons]
        omega
  have := key sched _ [] hs inv_init t h
  have h0 : measure nt (init A nt) ≤ 6 * nt + 2 := by
    have hp : (loopHead nt 0).published nt = 0 := published_head 0 (by omega)
    have hq : (loopHead nt 0).left nt ≤ 3 * nt := by
      unfold loopHead
      split
      · simp [Prod.left]
      · simp [Prod.left]
    simp only [measure, init, hp, Cons.left]
    omega
  omega

/-- The run so far published every frame while the consumer was asleep: the consumer was always faster than the reader. -/
def Prompt (nt : Nat) (frames : Nat → A) (empty : A → Bool) : List Lab → St A → Prop
  | [], _ => True
  | l :: ls, s => (l = .prod → (∃ i, s.prod = .hold i) → s.cons = .wait) ∧
      ∀ s', step nt frames empty s l = some s' → Prompt nt frames empty ls s'

/-- C147 (what is missing from the full statement: frames are lost when the reader is faster, see `C147_nothing_delivered`): if every frame is
published while the consumer is waiting, then every frame is delivered, in order, by the time `start` returns. -/
theorem C147_all_delivered_partial {sched : List Lab} (hs : Lab.spurious ∉ sched)
    (hp : Prompt nt frames empty sched (init A nt)) {t : St A} (h : exec nt frames empty sched (init A nt) = some t) (hf : t.final = true) :
    t.calls = (List.range nt).map (fun i => some (i, frames i)) := by
  -- delivered so far
  let Del : St A → Prop := fun s => s.calls = (List.range (s.prod.published nt - if s.cons.idle then 0 else 1)).map (frameCall frames)
  have key : ∀ (sched : List Lab) (s : St A) (idx : List Nat), Lab.spurious ∉ sched → Inv nt frames empty s idx → Del s →
      Prompt nt frames empty sched s → ∀ t, exec nt frames empty sched s = some t → Del t := by
    intro sched
    induction sched with
    | nil =>
      intro s idx _ _ D _ t h
      simp only [exec, Option.some.injEq] at h
      exact h ▸ D
    | cons l ls ih =>
      intro s idx hs I D P t h
      simp only [exec] at h
      cases hst : step nt frames empty s l with
      | none => rw [hst] at h; cases h
      | some s' =>
        rw [hst] at h
        have hls : Lab.spurious ∉ ls := fun hm => hs (List.mem_cons_of_mem _ hm)
        have P' := P.2 s' hst
        cases l with
        | prod =>
          refine ih s' idx hls (inv_prod I hst) ?_ P' t h
          obtain ⟨p, c, cur, ad, calls⟩ := s
          cases p with
          | read i => simp only [step, Option.some.injEq] at hst; subst hst; exact D
          | want i =>
            simp only [step] at hst
            split at hst
            · cases hst
            · simp only [Option.some.injEq] at hst; subst hst; exact D
          | hold i =>
            have hc : c = .wait := P.1 rfl ⟨i, rfl⟩
            subst hc
            have hb := I.bound i (Or.inr (Or.inr rfl))
            simp only [step, Option.some.injEq] at hst
            subst hst
            have hpub : (loopHead nt (i + 1)).published nt = i + 1 := published_head (i + 1) (by omega)
            show calls = _
            have D' : calls = (List.range i).map (frameCall frames) := D
            simpa [hpub, Cons.idle] using D'
          | done => simp [step] at hst
        | cons =>
          obtain ⟨idx', I'⟩ := inv_cons I hst
          refine ih s' idx' hls I' ?_ P' t h
          obtain ⟨p, c, cur, ad, calls⟩ := s
          have D' : calls = (List.range (p.published nt - if c.idle then 0 else 1)).map (frameCall frames) := D
          cases c with
          | start =>
            simp only [step] at hst
            split at hst
            · cases hst
            · simp only [Option.some.injEq] at hst; subst hst; exact D'
          | check =>
            simp only [step, Option.some.injEq] at hst; subst hst
            show calls = _
            cases ad <;> simpa [Cons.idle] using D'
          | wait => simp [step] at hst
          | woken =>
            simp only [step] at hst
            split at hst
            · cases hst
            · simp only [Option.some.injEq] at hst; subst hst; exact D'
          | call =>
            simp only [step, Option.some.injEq] at hst; subst hst
            obtain ⟨hpos, -⟩ := I.fresh rfl
            dsimp only at hpos
            have hcur := I.cur (p.published nt - 1) (by show p.published nt = _; omega)
            show calls ++ [cur] = (List.range (p.published nt - 0)).map (frameCall frames)
            dsimp only at hcur
            rw [D', hcur]
            simp only [Cons.idle, Bool.false_eq_true, if_false, Nat.sub_zero]
            obtain ⟨n, hn⟩ : ∃ n, p.published nt = n + 1 := ⟨p.published nt - 1, by omega⟩
            rw [hn, List.range_succ, List.map_append]
            rfl
          | out => simp [step] at hst
        | spurious => exact absurd List.mem_cons_self hs
  have D := key sched _ [] hs inv_init (by
    show [] = _
    have hp : (loopHead nt 0).published nt = 0 := published_head 0 (by omega)
    simp [init, hp]) hp t h
  simp only [St.final, decide_eq_true_eq] at hf
  have D' : t.calls = (List.range (t.prod.published nt - if t.cons.idle then 0 else 1)).map (frameCall frames) := D
  rw [hf.1, hf.2] at D'
  have D2 : t.calls = (List.range nt).map (frameCall frames) := by simpa [Prod.published, Cons.idle] using D'
  exact D2

/-- The schedule in which the reader runs to its end before the consumer starts. -/
def readerFirst (nt : Nat) : List Lab := List.replicate (3 * nt) .prod ++ [.cons, .cons]

/-- C147 (finding): for every number of time steps there is a schedule in which no frame at all is delivered. -/
theorem C147_nothing_delivered (hnt : 0 < nt) : ∃ t, exec nt frames empty (readerFirst nt) (init A nt) = some t ∧ t.final = true ∧ t.calls = [] := by
  have happ : ∀ (a b : List Lab) (s : St A), exec nt frames empty (a ++ b) s = (exec nt frames empty a s).bind (exec nt frames empty b) := by
    intro a
    induction a with
    | nil => intro b s; rfl
    | cons l ls ih =>
      intro b s
      simp only [List.cons_append, exec]
      cases step nt frames empty s l with
      | none => rfl
      | some s' => exact ih b s'
  have key : ∀ k, k ≤ nt → ∃ cur ad, exec nt frames empty (List.replicate (3 * k) .prod) (init A nt) =
      some { prod := loopHead nt k, cons := .start, cur := cur, allDone := ad, calls := [] } ∧ (k = nt → 0 < nt → ad = true) := by
    intro k
    induction k with
    | zero => intro _; exact ⟨none, false, rfl, by omega⟩
    | succ k ih =>
      intro hk
      obtain ⟨cur, ad, h, -⟩ := ih (by omega)
      refine ⟨some (k, frames k), ad || (k == nt - 1 || empty (frames k)), ?_, ?_⟩
      · rw [show 3 * (k + 1) = 3 * k + 3 from by omega, List.replicate_add, happ, h]
        have hl : loopHead nt k = .read k := by unfold loopHead; rw [if_pos (by omega)]
        simp [exec, step, hl, List.replicate, Cons.holds]
      · intro h1 _
        have : (k == nt - 1) = true := by simp; omega
        simp [this]
  obtain ⟨cur, ad, h, had⟩ := key nt (Nat.le_refl _)
  have had := had rfl hnt
  subst had
  refine ⟨{ prod := .done, cons := .out, cur := cur, allDone := true, calls := [] }, ?_, rfl, rfl⟩
  unfold readerFirst
  rw [happ, h]
  have hl : loopHead nt nt = .done := by unfold loopHead; rw [if_neg (by omega)]
  simp [exec, step, hl, Prod.holds]

/-- C147 (finding): with no time steps the consumer waits for ever. -/
theorem C147_zero_steps_hang : ∃ t, exec 0 frames empty [.cons, .cons] (init A 0) = some t ∧ t.final = false ∧
    step 0 frames empty t .prod = none ∧ step 0 frames empty t .cons = none :=
  ⟨{ prod := .done, cons := .wait, cur := none, allDone := false, calls := [] }, rfl, rfl, rfl, rfl⟩

/-- C147 (finding): a spurious wake-up before the first frame calls the callback with an uninitialised time step; one after a
frame delivers it twice. -/
theorem C147_spurious : (exec 2 frames empty [.cons, .cons, .spurious, .cons, .cons] (init A 2)).map (·.calls) = some [none] ∧
    ∀ h : empty (frames 0) = false, (exec 2 frames empty [.cons, .cons, .prod, .prod, .prod, .cons, .cons, .cons, .spurious, .cons, .cons] (init A 2)).map (·.calls) =
      some [some (0, frames 0), some (0, frames 0)] := by
  refine ⟨rfl, fun h => ?_⟩
  simp [exec, step, init, loopHead, Cons.holds, Prod.holds, h]

/-- C147 (finding): a frame is lost when the reader publishes the next one before the woken consumer gets the mutex. -/
theorem C147_frame_lost (h : empty (frames 0) = false) : ∃ t, exec 2 frames empty
    [.cons, .cons, .prod, .prod, .prod, .prod, .prod, .prod, .cons, .cons, .cons] (init A 2) = some t ∧ t.final = true ∧ t.calls = [some (1, frames 1)] := by
  refine ⟨{ prod := .done, cons := .out, cur := some (1, frames 1), allDone := true, calls := [some (1, frames 1)] }, ?_, rfl, rfl⟩
  simp [exec, step, init, loopHead, Cons.holds, Prod.holds, h]

/-- A prompt run of two frames that ends. -/
def promptRun : List Lab := [.cons, .cons, .prod, .prod, .prod, .cons, .cons, .cons, .prod, .prod, .prod, .cons, .cons, .cons]

example : (exec 2 (fun i => i + 10) (fun _ => false) promptRun (init Nat 2)).map (fun t => (t.final, t.calls)) =
    some (true, [some (0, 10), some (1, 11)]) := by decide

example : Prompt 2 (fun i => i + 10) (fun _ => false) promptRun (init Nat 2) := by
  simp [Prompt, promptRun, step, init, loopHead, Cons.holds, Prod.holds]

end Verif.NdS
