import Verif.Trace.Run
/-! # C112, C113: what a trajectory records -/
namespace Verif.PT
open Verif.ND
variable {K : Type} [Field K] [LinearOrder K] [IsStrictOrderedRing K] [FloorRing K] {nd : Nat}

/-- the velocity of time is 1. -/
def Clock (f : X K nd → Option (Option (X K nd))) : Prop := ∀ x v, f x = some (some v) → v (Fin.last nd) = 1

theorem clock_evalVt (a0 : Nd K) (a1? : Option (Nd K)) (ct dt : K) : Clock (nd := nd) (evalVt a0 a1? ct dt) := by
  intro x v h
  unfold evalVt at h
  cases a1? with
  | some a1 =>
    simp only at h
    split at h
    · simp at h
    split at h
    · simp at h
    split at h
    · split at h
      · split at h
        · simp at h
        · obtain rfl := Option.some.inj (Option.some.inj h)
          simp
      · simp at h
    · simp at h
  | none =>
    simp only at h
    split at h
    · simp at h
    · simp at h
    · split at h
      · simp at h
      · obtain rfl := Option.some.inj (Option.some.inj h)
        simp

omit [FloorRing K] in
/-- a successful step advances the time by `h`. -/
theorem rk4v_time {f : X K nd → Option (Option (X K nd))} (hc : Clock f) (h : K) (p q : X K nd) (v0 v1 : Option (X K nd))
    (hs : rk4v f h p v0 = some (true, q, v1)) : q (Fin.last nd) = p (Fin.last nd) + h := by
  unfold rk4v at hs
  simp only at hs
  split at hs
  · simp at hs
  · simp at hs
  · rename_i w1 e1
    split at hs
    · simp at hs
    · simp at hs
    · rename_i w2 e2
      split at hs
      · simp at hs
      · simp at hs
      · rename_i w3 e3
        split at hs
        · simp at hs
        · simp at hs
        · rename_i w4 e4
          have := (Prod.mk.inj (Prod.mk.inj (Option.some.inj hs)).2).1
          rw [← this]
          simp only [hc _ _ e1, hc _ _ e2, hc _ _ e3, hc _ _ e4]
          ring

omit [FloorRing K] in
/-- a failed step leaves the point at the stage whose evaluation failed. -/
theorem rk4v_fail {f : X K nd → Option (Option (X K nd))} (hc : Clock f) (h : K) (h0 : 0 ≤ h) (p q : X K nd)
    (v0 v1 : Option (X K nd)) (hs : rk4v f h p v0 = some (false, q, v1)) :
    f q = some none ∧ ∃ s, 0 ≤ s ∧ s ≤ h ∧ q (Fin.last nd) = p (Fin.last nd) + s := by
  unfold rk4v at hs
  simp only at hs
  split at hs
  · simp at hs
  · rename_i e1
    have := (Prod.mk.inj (Prod.mk.inj (Option.some.inj hs)).2).1
    rw [← this]
    exact ⟨e1, 0, le_refl _, h0, by ring⟩
  · rename_i w1 e1
    split at hs
    · simp at hs
    · rename_i e2
      have := (Prod.mk.inj (Prod.mk.inj (Option.some.inj hs)).2).1
      rw [← this]
      refine ⟨e2, h / 2, by linarith, by linarith, ?_⟩
      simp only [hc _ _ e1]
      ring
    · rename_i w2 e2
      split at hs
      · simp at hs
      · rename_i e3
        have := (Prod.mk.inj (Prod.mk.inj (Option.some.inj hs)).2).1
        rw [← this]
        refine ⟨e3, h / 2, by linarith, by linarith, ?_⟩
        simp only [hc _ _ e2]
        ring
      · rename_i w3 e3
        split at hs
        · simp at hs
        · rename_i e4
          have := (Prod.mk.inj (Prod.mk.inj (Option.some.inj hs)).2).1
          rw [← this]
          refine ⟨e4, h, h0, le_refl _, ?_⟩
          simp only [hc _ _ e3]
          ring
        · simp at hs

omit [FloorRing K] in
theorem path_time {f : X K nd → Option (Option (X K nd))} (hc : Clock f) (h : K) (y u : Nat → X K nd) (n : Nat)
    (hp : Path f h y u n) (k : Nat) (hk : k ≤ n) : y k (Fin.last nd) = y 0 (Fin.last nd) + k * h := by
  induction k with
  | zero => simp
  | succ k ih =>
    rw [rk4v_time hc h _ _ none _ (hp k (by omega) none), ih (by omega)]
    push_cast
    ring

omit [LinearOrder K] [IsStrictOrderedRing K] [FloorRing K] in
theorem path_mono {f : X K nd → Option (Option (X K nd))} {h : K} {y u : Nat → X K nd} {n m : Nat}
    (hp : Path f h y u n) (hm : m ≤ n) : Path f h y u m := fun k hk => hp k (by omega)

/-- an interval of a particle that starts at its beginning: either all steps are made, or the particle is recorded at a
place outside the grid. -/
theorem interval_cases {ds : List Nat} {a0 a1 : Nd K} (h0 : Usable nd ds a0) (h1 : Usable nd ds a1) (c : Cfg K)
    (hdt : 0 < c.dt) (ct : K) (tr : List (Pt K nd)) (p : Pt K nd) (hl : tr.getLast? = some p) (hp : p.t = ct) :
    ∃ y u : Nat → X K nd, y 0 = p.toX ∧
      ((Path (evalVt a0 (some a1) ct c.dt) c.delta y u c.nsteps ∧
        advanceTraj (evalVt a0 (some a1) ct c.dt) c tr =
          some (tr ++ ckPts y u c.ckpt 0 c.nsteps ++ [mkPt (y c.nsteps) (vel u c.nsteps)])) ∨
       ∃ m < c.nsteps, Path (evalVt a0 (some a1) ct c.dt) c.delta y u m ∧ ∃ q : Pt K nd,
        advanceTraj (evalVt a0 (some a1) ct c.dt) c tr = some (tr ++ ckPts y u c.ckpt 0 (m + 1) ++ [q]) ∧
        ¬ InGrid ds q.x ∧ ct + m * c.delta ≤ q.t ∧ q.t ≤ ct + (m + 1 : Nat) * c.delta) := by
  have hcl := clock_evalVt (nd := nd) a0 (some a1) ct c.dt
  obtain ⟨y, u, hy, hpath | ⟨m, hm, hpath, x', v', hf⟩⟩ := path_or_fail (evalVt a0 (some a1) ct c.dt)
    (evalVt_total h0 h1 ct c.dt hdt.ne') c.delta c.nsteps p.toX
  · exact ⟨y, u, hy, Or.inl ⟨hpath, advance_path _ c y u hpath tr p hl hy⟩⟩
  · have hn : (0 : K) < c.nsteps := by
      have : 0 < c.nsteps := by omega
      exact_mod_cast this
    have hd : 0 < c.delta := div_pos hdt hn
    obtain ⟨e, s, s0, s1, es⟩ := rk4v_fail hcl c.delta hd.le _ _ _ _ hf
    have ht : y m (Fin.last nd) = ct + m * c.delta := by
      rw [path_time hcl c.delta y u m hpath m (le_refl _), hy, ← hp]
      simp [Pt.toX]
    refine ⟨y, u, hy, Or.inr ⟨m, hm, hpath, mkPt x' v', advance_fail _ c y u m hm hpath x' v' hf tr p hl hy, ?_, ?_, ?_⟩⟩
    · rcases evalVt_spec h0 h1 ct c.dt hdt.ne' x' _ rfl with ⟨_, _, _, h⟩ | ⟨hno, _⟩
      · rw [e] at h
        simp at h
      · intro hin
        refine hno ⟨?_, ?_, hin⟩
        · rw [es, ht]
          apply div_nonneg _ hdt.le
          have : (0 : K) ≤ m * c.delta := mul_nonneg (Nat.cast_nonneg _) hd.le
          linarith
        · rw [es, ht, div_le_one hdt]
          have hmn : ((m + 1 : Nat) : K) ≤ c.nsteps := by exact_mod_cast hm
          have := mul_le_mul_of_nonneg_right hmn hd.le
          have hdn : (c.nsteps : K) * c.delta = c.dt := by
            unfold Cfg.delta
            field_simp
          push_cast at this
          linarith
    · show _ ≤ x' (Fin.last nd)
      rw [es, ht]
      linarith
    · show x' (Fin.last nd) ≤ _
      rw [es, ht]
      push_cast
      linarith

omit [LinearOrder K] [IsStrictOrderedRing K] [FloorRing K] in
/-- a particle whose first evaluation fails is recorded twice more, at its place and time. -/
theorem advance_stuck (f : X K nd → Option (Option (X K nd))) (c : Cfg K) (hn : 0 < c.nsteps)
    (tr : List (Pt K nd)) (p : Pt K nd) (hl : tr.getLast? = some p) (hf : f p.toX = some none) :
    advanceTraj f c tr = some (tr ++ [⟨p.x, p.t, none⟩, ⟨p.x, p.t, none⟩]) := by
  have h : rk4v f c.delta p.toX none = some (false, p.toX, none) := by
    unfold rk4v
    rw [hf]
  have hm : mkPt p.toX none = (⟨p.x, p.t, none⟩ : Pt K nd) := by
    unfold mkPt Pt.toX
    simp
  have := advance_fail f c (fun _ => p.toX) (fun _ => p.toX) 0 hn (fun k hk => absurd hk (by omega)) p.toX none h tr p hl rfl
  rw [this]
  simp [ckPts, vel, hm]

/-- **C113 (outside).** A particle recorded outside the grid never moves again: every later interval records it twice more at
the same place and time. -/
theorem C113_stuck_outside {ds : List Nat} {a0 a1 : Nd K} (h0 : Usable nd ds a0) (h1 : Usable nd ds a1) (c : Cfg K)
    (hn : 0 < c.nsteps) (hdt : c.dt ≠ 0) (ct : K) (tr : List (Pt K nd)) (p : Pt K nd) (hl : tr.getLast? = some p)
    (hp : ¬ InGrid ds p.x) :
    advanceTraj (evalVt a0 (some a1) ct c.dt) c tr = some (tr ++ [⟨p.x, p.t, none⟩, ⟨p.x, p.t, none⟩]) := by
  apply advance_stuck _ c hn tr p hl
  have hx : pos p.toX = p.x := by
    funext k
    simp [pos, Pt.toX]
  rcases evalVt_spec h0 h1 ct c.dt hdt p.toX _ rfl with ⟨_, _, h, _⟩ | ⟨_, h⟩
  · rw [hx] at h
    exact absurd h hp
  · exact h

/-- a particle outside its time window does not move. -/
theorem stuck_time {ds : List Nat} {a0 a1 : Nd K} (h0 : Usable nd ds a0) (h1 : Usable nd ds a1) (c : Cfg K)
    (hn : 0 < c.nsteps) (hdt : 0 < c.dt) (ct : K) (tr : List (Pt K nd)) (p : Pt K nd) (hl : tr.getLast? = some p)
    (hp : p.t < ct) :
    advanceTraj (evalVt a0 (some a1) ct c.dt) c tr = some (tr ++ [⟨p.x, p.t, none⟩, ⟨p.x, p.t, none⟩]) := by
  apply advance_stuck _ c hn tr p hl
  rcases evalVt_spec h0 h1 ct c.dt hdt.ne' p.toX _ rfl with ⟨h, _, _, _⟩ | ⟨_, h⟩
  · have : (p.toX (Fin.last nd) - ct) / c.dt < 0 := by
      apply div_neg_of_neg_of_pos _ hdt
      simp [Pt.toX, hp]
    exact absurd h (not_le.2 this)
  · exact h

/-- (specification) the times recorded in one interval from `ct`: a checkpoint every 16 steps, then the end. -/
def intervalTimes (n : Nat) (ct dt : K) : List K :=
  (List.range (nck n)).map (fun j => ct + (16 * j : Nat) * (dt / n)) ++ [ct + dt]

theorem filter_16 (n : Nat) : (List.range' 0 n).filter (fun j => j % 16 = 0) = (List.range (nck n)).map fun j => 16 * j := by
  induction n with
  | zero => rfl
  | succ n ih =>
    rw [List.range'_concat, List.filter_append, ih]
    by_cases h : n % 16 = 0
    · have e : nck (n + 1) = nck n + 1 := by unfold nck; omega
      have e2 : 16 * nck n = n := by unfold nck; omega
      rw [e, List.range_succ, List.map_append]
      simp [h, e2]
    · have e : nck (n + 1) = nck n := by unfold nck; omega
      rw [e]
      simp [h]

theorem ck_times {f : X K nd → Option (Option (X K nd))} (hc : Clock f) (h : K) (y u : Nat → X K nd) (n : Nat)
    (hp : Path f h y u n) : (ckPts y u 16 0 n).map Pt.t =
      (List.range (nck n)).map fun j => y 0 (Fin.last nd) + (16 * j : Nat) * h := by
  unfold ckPts
  rw [filter_16, List.map_map, List.map_map]
  apply List.map_congr_left
  intro j hj
  have hj' := List.mem_range.1 hj
  exact path_time hc h y u n hp (16 * j) (by unfold nck at hj'; omega)

/-- **C112 (one interval).** An interval started at its beginning either appends the checkpoints at steps `0, 16, 32, ..`
and the end of the interval, with exactly these times, or ends outside the grid. -/
theorem C112_interval {ds : List Nat} {a0 a1 : Nd K} (h0 : Usable nd ds a0) (h1 : Usable nd ds a1) (c : Cfg K)
    (hck : c.ckpt = 16) (hn : 0 < c.nsteps) (hdt : 0 < c.dt) (ct : K) (tr : List (Pt K nd)) (p : Pt K nd)
    (hl : tr.getLast? = some p) (hp : p.t = ct) :
    ∃ new : List (Pt K nd), ∃ q : Pt K nd, advanceTraj (evalVt a0 (some a1) ct c.dt) c tr = some (tr ++ new) ∧
      new.getLast? = some q ∧ 2 ≤ new.length ∧ (∃ r ∈ new.head?, r.x = p.x ∧ r.t = p.t) ∧
      (new.map Pt.t = intervalTimes c.nsteps ct c.dt ∨
        ¬ InGrid ds q.x ∧ ct ≤ q.t ∧ q.t ≤ ct + c.dt ∧
          ∃ m ≤ nck c.nsteps, new.map Pt.t = (List.range m).map (fun j => ct + (16 * j : Nat) * (c.dt / c.nsteps)) ++ [q.t]
            ∧ ∀ j < m, ct + (16 * j : Nat) * (c.dt / c.nsteps) ≤ q.t) := by
  have hcl := clock_evalVt (nd := nd) a0 (some a1) ct c.dt
  have hnK : (0 : K) < c.nsteps := by exact_mod_cast hn
  have hd : 0 < c.delta := div_pos hdt hnK
  have hdn : (c.nsteps : K) * c.delta = c.dt := by
    unfold Cfg.delta
    field_simp
  have hhead : ∀ (y u : Nat → X K nd) (m : Nat), y 0 = p.toX → ∃ l, ckPts y u c.ckpt 0 (m + 1) = ⟨p.x, p.t, none⟩ :: l := by
    intro y u m hy
    rw [ckPts_succ, hck, if_pos rfl, hy]
    refine ⟨ckPts y u 16 1 m, ?_⟩
    unfold mkPt Pt.toX vel
    simp
  obtain ⟨y, u, hy, ⟨hpath, e⟩ | ⟨m, hm, hpath, q, e, hq, t1, t2⟩⟩ := interval_cases h0 h1 c hdt ct tr p hl hp
  · have hy0 : y 0 (Fin.last nd) = ct := by rw [hy, ← hp]; simp [Pt.toX]
    refine ⟨ckPts y u c.ckpt 0 c.nsteps ++ [mkPt (y c.nsteps) (vel u c.nsteps)], mkPt (y c.nsteps) (vel u c.nsteps),
      by rw [e, List.append_assoc], by simp, ?_, ?_, Or.inl ?_⟩
    · obtain ⟨n, hn'⟩ : ∃ n, c.nsteps = n + 1 := ⟨c.nsteps - 1, by omega⟩
      obtain ⟨l, hl'⟩ := hhead y u n hy
      rw [hn', hl']
      simp
    · obtain ⟨n, hn'⟩ : ∃ n, c.nsteps = n + 1 := ⟨c.nsteps - 1, by omega⟩
      obtain ⟨l, hl'⟩ := hhead y u n hy
      rw [hn', hl']
      exact ⟨_, rfl, rfl, rfl⟩
    · rw [List.map_append, hck, ck_times hcl c.delta y u c.nsteps hpath, hy0]
      unfold intervalTimes
      congr 1
      simp only [List.map_cons, List.map_nil]
      congr 1
      show y c.nsteps (Fin.last nd) = _
      rw [path_time hcl c.delta y u c.nsteps hpath c.nsteps (le_refl _), hy0, hdn]
  · have hy0 : y 0 (Fin.last nd) = ct := by rw [hy, ← hp]; simp [Pt.toX]
    obtain ⟨l, hl'⟩ := hhead y u m hy
    refine ⟨ckPts y u c.ckpt 0 (m + 1) ++ [q], q, by rw [e, List.append_assoc], by simp, by rw [hl']; simp,
      by rw [hl']; exact ⟨_, rfl, rfl, rfl⟩, Or.inr ⟨hq, ?_, ?_, nck (m + 1), ?_, ?_, ?_⟩⟩
    · have : (0 : K) ≤ m * c.delta := mul_nonneg (Nat.cast_nonneg _) hd.le
      linarith
    · have hmn : ((m + 1 : Nat) : K) ≤ c.nsteps := by exact_mod_cast hm
      have := mul_le_mul_of_nonneg_right hmn hd.le
      linarith
    · unfold nck; omega
    · rw [List.map_append, hck]
      congr 1
      unfold ckPts
      rw [filter_16, List.map_map, List.map_map]
      apply List.map_congr_left
      intro j hj
      have hj' := List.mem_range.1 hj
      have := path_time hcl c.delta y u m hpath (16 * j) (by unfold nck at hj'; omega)
      rw [hy0] at this
      exact this
    · intro j hj
      refine le_trans ?_ t1
      have hjm : ((16 * j : Nat) : K) ≤ m := by
        have : 16 * j ≤ m := by unfold nck at hj; omega
        exact_mod_cast this
      have := mul_le_mul_of_nonneg_right hjm hd.le
      show ct + ((16 * j : Nat) : K) * c.delta ≤ _
      linarith

end Verif.PT
