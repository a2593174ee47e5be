import Verif.Trace.Lemmas
/-! # C111: the driver integrates every interval once, every particle on its own -/
namespace Verif.PT
open Verif.ND
variable {K : Type} [Field K] [LinearOrder K] [FloorRing K] {nd : Nat}

theorem mapM_some {α β : Type} (f : α → Option β) (l : List α) (l' : List β) :
    l.mapM f = some l' ↔ List.Forall₂ (fun a b => f a = some b) l l' := by
  induction l generalizing l' with
  | nil =>
    rw [List.mapM_nil]
    cases l' <;> simp
  | cons a l ih =>
    rw [List.mapM_cons]
    cases ha : f a with
    | none =>
      constructor
      · intro h; simp at h
      · intro h; cases h with | cons h _ => rw [ha] at h; simp at h
    | some b =>
      cases hl : l.mapM f with
      | none =>
        constructor
        · intro h; simp at h
        · intro h
          cases h with
          | cons _ h => rw [(ih _).2 h] at hl; simp at hl
      | some bs =>
        constructor
        · intro h
          have : b :: bs = l' := by simpa using h
          subst this
          exact .cons ha ((ih _).1 hl)
        · intro h
          cases h with
          | @cons _ b' _ l' h1 h2 =>
            rw [ha] at h1
            rw [(ih _).2 h2] at hl
            simp at h1 hl
            simp [h1, hl]

theorem mapM_none {α β : Type} (f : α → Option β) (l : List α) : l.mapM f = none ↔ ∃ a ∈ l, f a = none := by
  induction l with
  | nil => simp [List.mapM_nil]
  | cons a l ih =>
    rw [List.mapM_cons]
    cases ha : f a with
    | none => simp [ha]
    | some b =>
      cases hl : l.mapM f with
      | none => simpa [ha] using ih.1 hl
      | some bs =>
        simp only [Option.pure_def, Option.bind_eq_bind, Option.bind_some, reduceCtorEq, List.mem_cons, exists_eq_or_imp, ha,
          false_or, false_iff]
        intro h
        rw [ih.2 h] at hl
        simp at hl

theorem mapM_bind {α β γ : Type} (f : α → Option β) (g : β → Option γ) (l : List α) :
    (l.mapM fun a => (f a).bind g) = (l.mapM f).bind fun l => l.mapM g := by
  cases h : l.mapM f with
  | none =>
    obtain ⟨a, ha, hf⟩ := (mapM_none f l).1 h
    rw [Option.bind_none]
    exact (mapM_none _ l).2 ⟨a, ha, by rw [hf]; rfl⟩
  | some l' =>
    rw [Option.bind_some]
    have h2 := (mapM_some f l l').1 h
    clear h
    induction h2 with
    | nil => rfl
    | cons h1 _ ih => rw [List.mapM_cons, List.mapM_cons, ih, h1]; rfl

/-- the parallel loop, in any order, is the trajectory-wise integration. -/
theorem fold_task (f : X K nd → Option (Option (X K nd))) (c : Cfg K) (ts : List (List (Pt K nd))) (order : List Nat)
    (ho : order.Perm (List.range ts.length)) : order.foldlM (task f c) ts = ts.mapM (advanceTraj f c) := by
  have key : ∀ (order : List Nat) (ts : List (List (Pt K nd))), order.Nodup → (∀ i ∈ order, i < ts.length) →
      ((∀ i ∈ order, (ts[i]?.bind (advanceTraj f c)).isSome) →
        ∃ ts', order.foldlM (task f c) ts = some ts' ∧ ts'.length = ts.length ∧
          ∀ i, ts'[i]? = if i ∈ order then ts[i]?.bind (advanceTraj f c) else ts[i]?) ∧
      ((∃ i ∈ order, ts[i]?.bind (advanceTraj f c) = none) → order.foldlM (task f c) ts = none) := by
    intro order
    induction order with
    | nil => exact fun ts _ _ => ⟨fun _ => ⟨ts, rfl, rfl, by simp⟩, by simp⟩
    | cons i order ih =>
      intro ts hnd hlt
      have hi := hlt i (by simp)
      obtain ⟨tr, htr⟩ : ∃ tr, ts[i]? = some tr := ⟨_, List.getElem?_eq_getElem hi⟩
      rw [List.nodup_cons] at hnd
      rw [List.foldlM_cons]
      unfold task
      rw [htr]
      simp only
      cases ha : advanceTraj f c tr with
      | none =>
        refine ⟨fun h => ?_, fun _ => rfl⟩
        have := h i (by simp)
        rw [htr, Option.bind_some, ha] at this
        simp at this
      | some tr' =>
        have ih' := ih (ts.set i tr') hnd.2 (fun j hj => by rw [List.length_set]; exact hlt j (by simp [hj]))
        have hget : ∀ j ∈ order, (ts.set i tr')[j]? = ts[j]? := fun j hj => by
          have hij : i ≠ j := fun h => hnd.1 (by rw [h]; exact hj)
          exact List.getElem?_set_ne hij
        constructor
        · intro h
          obtain ⟨ts', h1, h2, h3⟩ := ih'.1 (fun j hj => by rw [hget j hj]; exact h j (by simp [hj]))
          refine ⟨ts', h1, by rw [h2, List.length_set], fun j => ?_⟩
          rw [h3 j]
          by_cases hj : j ∈ order
          · rw [if_pos hj, if_pos (by simp [hj]), hget j hj]
          · rw [if_neg hj]
            by_cases hji : j = i
            · subst hji
              rw [if_pos (by simp), htr, Option.bind_some, ha, List.getElem?_set_self hi]
            · rw [if_neg (by simp [hji, hj]), List.getElem?_set_ne (fun h => hji h.symm)]
        · rintro ⟨j, hj, hn⟩
          refine ih'.2 ⟨j, ?_, ?_⟩
          · rcases List.mem_cons.1 hj with rfl | hj
            · rw [htr, Option.bind_some, ha] at hn; simp at hn
            · exact hj
          · rcases List.mem_cons.1 hj with rfl | hj
            · rw [htr, Option.bind_some, ha] at hn; simp at hn
            · rw [hget j hj]; exact hn
  have hnd : order.Nodup := ho.nodup_iff.2 List.nodup_range
  have hmem : ∀ i, i ∈ order ↔ i < ts.length := fun i => by rw [ho.mem_iff, List.mem_range]
  obtain ⟨k1, k2⟩ := key order ts hnd (fun i hi => (hmem i).1 hi)
  cases hm : ts.mapM (advanceTraj f c) with
  | none =>
    obtain ⟨tr, htr, hn⟩ := (mapM_none _ ts).1 hm
    obtain ⟨i, hi⟩ := List.mem_iff_getElem?.1 htr
    exact k2 ⟨i, (hmem i).2 (List.getElem?_eq_some_iff.1 hi).1, by rw [hi, Option.bind_some, hn]⟩
  | some ts'' =>
    have h2 := (mapM_some _ ts ts'').1 hm
    have h3 := (List.forall₂_iff_get.1 h2)
    obtain ⟨ts', e1, e2, e3⟩ := k1 (fun i hi => by
      have hi' := (hmem i).1 hi
      have := h3.2 i hi' (h3.1 ▸ hi')
      rw [List.getElem?_eq_getElem hi', Option.bind_some]
      rw [List.get_eq_getElem] at this
      rw [this]
      rfl)
    rw [e1]
    congr 1
    refine List.ext_getElem? fun i => ?_
    rw [e3 i]
    by_cases hi : i < ts.length
    · rw [if_pos ((hmem i).2 hi), List.getElem?_eq_getElem hi, Option.bind_some]
      have := h3.2 i hi (h3.1 ▸ hi)
      rw [List.get_eq_getElem, List.get_eq_getElem] at this
      rw [this, List.getElem?_eq_getElem]
    · rw [if_neg (fun h => hi ((hmem i).1 h)), List.getElem?_eq_none (by omega), List.getElem?_eq_none (by rw [← h3.1]; omega)]

theorem mapM_length {α β : Type} {f : α → Option β} {l : List α} {l' : List β} (h : l.mapM f = some l') :
    l'.length = l.length := ((mapM_some f l l').1 h).length_eq.symm

theorem drive_aux (c : Cfg K) (hnt : c.nt ≠ 1) (total : Nat) (orders : Nat → List Nat × List Nat) (as : List (Nd K)) :
    ∀ (i : Nat) (a0 : Nd K) (ts : List (List (Pt K nd))), Fair ts.length orders →
      driveFrom c total orders (i + 1) as { snaps := [a0], cur := i, trajs := ts } =
        (ts.mapM (through c i (a0 :: as))).map fun ts =>
          { snaps := [(a0 :: as).getLast (by simp)], cur := i + as.length, trajs := ts } := by
  induction as with
  | nil =>
    intro i a0 ts _
    have : ts.mapM (through c i [a0]) = some ts := (mapM_some _ _ _).2 (List.forall₂_same.2 fun _ _ => rfl)
    rw [this]
    rfl
  | cons a1 as ih =>
    intro i a0 ts hfair
    rw [driveFrom, onSnapshot]
    have hup : ∀ o : List Nat, ∀ s : St K nd, s.snaps = [a1] → update c o s = some s := by
      intro o s hs
      unfold update
      rw [hs]
      simp [hnt]
    have hup2 : update c (orders (i + 1)).1 (push a1 { snaps := [a0], cur := i, trajs := ts }) =
        (ts.mapM (advanceTraj (evalVt a0 (some a1) (i : K) c.dt) c)).map fun ts =>
          { snaps := [a0, a1], cur := i, trajs := ts } := by
      unfold update push
      simp only [List.cons_append, List.nil_append, List.length_cons, List.length_nil, List.head?_cons]
      rw [if_neg (by simp), fold_task _ c ts _ (hfair (i + 1)).1]
    have hth : (fun tr => through c i (a0 :: a1 :: as) tr) = fun tr : List (Pt K nd) =>
        (advanceTraj (evalVt a0 (some a1) (i : K) c.dt) c tr).bind (through c (i + 1) (a1 :: as)) := by
      funext tr
      rw [through]
      cases advanceTraj (evalVt a0 (some a1) (i : K) c.dt) c tr <;> rfl
    rw [show through c i (a0 :: a1 :: as) = (fun tr : List (Pt K nd) => through c i (a0 :: a1 :: as) tr) from rfl, hth, mapM_bind]
    simp only [ne_eq, Nat.add_eq_zero_iff, one_ne_zero, and_false, not_false_eq_true, if_true, advance, hup2]
    cases hm : ts.mapM (advanceTraj (evalVt a0 (some a1) (i : K) c.dt) c) with
    | none => simp
    | some ts' =>
      simp only [Option.map_some, List.tail_cons, Option.bind_some]
      have hif : (if i + 1 + 1 = total then update c (orders (i + 1)).2 { snaps := [a1], cur := i + 1, trajs := ts' }
          else some ({ snaps := [a1], cur := i + 1, trajs := ts' } : St K nd)) =
          some { snaps := [a1], cur := i + 1, trajs := ts' } := by
        split
        · exact hup _ _ rfl
        · rfl
      rw [hif]
      simp only
      rw [ih (i + 1) a1 ts' (by rw [mapM_length hm]; exact hfair)]
      simp only [List.length_cons, List.getLast_cons_cons, show i + 1 + as.length = i + (as.length + 1) by omega]

/-- **C111 (series).** For a series of at least two snapshots and any execution order of the parallel loops, the command
line tool integrates every particle through the intervals `0, 1, ..` of the series, interval `i` once, between snapshots
`i` and `i+1` and from time `i`, and each particle on its own. -/
theorem C111_series (c : Cfg K) (hnt : c.nt ≠ 1) (orders : Nat → List Nat × List Nat) (series : List (Nd K))
    (hs : 2 ≤ series.length) (seeds : List (List (Pt K nd))) (hfair : Fair seeds.length orders) :
    (drive c orders series seeds).map St.trajs = seeds.mapM (through c 0 series) := by
  obtain ⟨a0, as, rfl⟩ : ∃ a0 as, series = a0 :: as := by
    cases series with
    | nil => simp at hs
    | cons a as => exact ⟨a, as, rfl⟩
  have hlen : 1 ≤ as.length := by simpa using hs
  unfold drive
  rw [driveFrom, onSnapshot]
  simp only [ne_eq, not_true, if_false, push, List.nil_append, List.length_cons]
  rw [if_neg (by omega)]
  simp only
  rw [drive_aux c hnt _ orders as 0 a0 seeds hfair]
  cases seeds.mapM (through c 0 (a0 :: as)) <;> rfl

/-- **C111 (one snapshot).** With a single snapshot and `set_ntimesteps(1)` every particle is integrated once in the steady
field. -/
theorem C111_single (c : Cfg K) (hnt : c.nt = 1) (orders : Nat → List Nat × List Nat) (a : Nd K)
    (seeds : List (List (Pt K nd))) (hfair : Fair seeds.length orders) :
    (drive c orders [a] seeds).map St.trajs = seeds.mapM (advanceTraj (evalVt a none 0 c.dt) c) := by
  unfold drive
  rw [driveFrom, onSnapshot]
  simp only [ne_eq, not_true, if_false, push, List.nil_append, List.length_cons, List.length_nil, if_true]
  unfold update
  simp only [List.head?_nil, List.length_cons, List.length_nil, hnt]
  rw [if_neg (by simp), fold_task _ c seeds _ (hfair 0).2]
  simp only [Nat.cast_zero]
  cases seeds.mapM (advanceTraj (evalVt a none (0 : K) c.dt) c) <;> rfl

/-- **C111 (schedules).** The result does not depend on the order in which the threads run the particles. -/
theorem C111_schedule (c : Cfg K) (hnt : c.nt ≠ 1) (o o' : Nat → List Nat × List Nat) (series : List (Nd K))
    (hs : 2 ≤ series.length) (seeds : List (List (Pt K nd))) (hf : Fair seeds.length o) (hf' : Fair seeds.length o') :
    (drive c o series seeds).map St.trajs = (drive c o' series seeds).map St.trajs := by
  rw [C111_series c hnt o series hs seeds hf, C111_series c hnt o' series hs seeds hf']

/-- **C111 (checkpoints).** The command line tool's checkpoint interval is ignored: it is always 16 steps. -/
theorem C111_checkpoint_ignored (nt nsteps k : Nat) (dt : K) :
    (Cfg.cli nt nsteps k dt).ckpt = 16 ∧ (Cfg.cli nt nsteps k dt).nsteps = nsteps ∧ (Cfg.cli nt nsteps k dt).dt = dt ∧
      (Cfg.cli nt nsteps k dt).nt = nt := ⟨rfl, rfl, rfl, rfl⟩

end Verif.PT
