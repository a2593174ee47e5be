import Verif.Trace.Spec
import Verif.Ode.Model
import Mathlib.Data.List.Range
import Mathlib.Tactic.FieldSimp
/-! Lemmas about the particle tracer. -/
namespace Verif.PT
open Verif.ND
variable {K : Type} [Field K] [LinearOrder K] [IsStrictOrderedRing K] [FloorRing K] {nd : Nat}

omit [LinearOrder K] [IsStrictOrderedRing K] [FloorRing K] in
/-- `rk4` with a callback that is always defined is the step of C75; `v0` receives the velocity at the start. -/
theorem rk4v_eq {n : Nat} (f : (Fin n → K) → Option (Option (Fin n → K))) (g : Ode.Vel K n) (hf : ∀ x, f x = some (g x))
    (h : K) (p : Fin n → K) (v0 : Option (Fin n → K)) :
    rk4v f h p v0 = some ((Ode.rk4 g h p).1, (Ode.rk4 g h p).2, (g p).elim v0 some) := by
  unfold rk4v Ode.rk4
  simp only [hf]
  cases h1 : g p with
  | none => rfl
  | some v1 =>
    simp only
    generalize (fun i => p i + 1 / 2 * (h * v1 i)) = p2
    cases h2 : g p2 with
    | none => rfl
    | some v2 =>
      simp only
      generalize (fun i => p i + 1 / 2 * (h * v2 i)) = p3
      cases h3 : g p3 with
      | none => rfl
      | some v3 =>
        simp only
        cases h4 : g (fun i => p i + h * v3 i) with
        | none => rfl
        | some v4 => rfl

/-- the velocity a point recorded at step `j` carries: none at the start of an interval. -/
def vel {α : Type} (u : Nat → α) : Nat → Option α
  | 0 => none
  | j + 1 => some (u j)

/-- `n` successful steps. -/
def Path (f : X K nd → Option (Option (X K nd))) (h : K) (y u : Nat → X K nd) (n : Nat) : Prop :=
  ∀ k < n, ∀ v0, rk4v f h (y k) v0 = some (true, y (k + 1), some (u k))

/-- the checkpoints among the steps `k, .., k+n-1`. -/
def ckPts (y u : Nat → X K nd) (ck k n : Nat) : List (Pt K nd) :=
  ((List.range' k n).filter fun j => j % ck = 0).map fun j => mkPt (y j) (vel u j)

omit [LinearOrder K] [IsStrictOrderedRing K] [FloorRing K] in
theorem ckPts_succ (y u : Nat → X K nd) (ck k n : Nat) :
    ckPts y u ck k (n + 1) = (if k % ck = 0 then [mkPt (y k) (vel u k)] else []) ++ ckPts y u ck (k + 1) n := by
  unfold ckPts
  rw [List.range'_succ, List.filter_cons]
  by_cases h : k % ck = 0 <;> simp [h]

omit [LinearOrder K] [IsStrictOrderedRing K] [FloorRing K] in
theorem loop_path (f : X K nd → Option (Option (X K nd))) (h : K) (ck : Nat) (y u : Nat → X K nd) (n m k : Nat)
    (hp : Path f h y u n) (hkm : k + m ≤ n) (r : Nat) (pts : List (Pt K nd)) :
    loop f h ck (m + r) k (y k) (vel u k) pts =
      loop f h ck r (k + m) (y (k + m)) (vel u (k + m)) (pts ++ ckPts y u ck k m) := by
  induction m generalizing k pts with
  | zero => simp [ckPts]
  | succ m ih =>
    have e : m + 1 + r = (m + r) + 1 := by omega
    rw [e, loop, hp k (by omega)]
    simp only
    have := ih (k + 1) (by omega) (if k % ck = 0 then pts ++ [mkPt (y k) (vel u k)] else pts)
    rw [show vel u (k + 1) = some (u k) from rfl] at this
    rw [this, ckPts_succ, show k + 1 + m = k + (m + 1) by omega]
    split <;> simp

omit [LinearOrder K] [IsStrictOrderedRing K] [FloorRing K] in
/-- an interval without failure. -/
theorem advance_path (f : X K nd → Option (Option (X K nd))) (c : Cfg K) (y u : Nat → X K nd)
    (hp : Path f c.delta y u c.nsteps) (tr : List (Pt K nd)) (p : Pt K nd) (hl : tr.getLast? = some p) (h0 : y 0 = p.toX) :
    advanceTraj f c tr = some (tr ++ ckPts y u c.ckpt 0 c.nsteps ++ [mkPt (y c.nsteps) (vel u c.nsteps)]) := by
  unfold advanceTraj
  rw [hl]
  simp only
  have := loop_path f c.delta c.ckpt y u c.nsteps c.nsteps 0 hp (by omega) 0 tr
  rw [h0] at this
  simp only [Nat.add_zero, Nat.zero_add] at this
  rw [show vel u 0 = none from rfl] at this
  rw [this, loop]

omit [LinearOrder K] [IsStrictOrderedRing K] [FloorRing K] in
/-- an interval with a failure in step `m`. -/
theorem advance_fail (f : X K nd → Option (Option (X K nd))) (c : Cfg K) (y u : Nat → X K nd) (m : Nat) (hm : m < c.nsteps)
    (hp : Path f c.delta y u m) (x' : X K nd) (v' : Option (X K nd))
    (hf : rk4v f c.delta (y m) (vel u m) = some (false, x', v'))
    (tr : List (Pt K nd)) (p : Pt K nd) (hl : tr.getLast? = some p) (h0 : y 0 = p.toX) :
    advanceTraj f c tr = some (tr ++ ckPts y u c.ckpt 0 (m + 1) ++ [mkPt x' v']) := by
  unfold advanceTraj
  rw [hl]
  simp only
  obtain ⟨r, hr⟩ : ∃ r, c.nsteps = m + (r + 1) := ⟨c.nsteps - m - 1, by omega⟩
  have := loop_path f c.delta c.ckpt y u m m 0 hp (by omega) (r + 1) tr
  rw [h0] at this
  simp only [Nat.zero_add] at this
  rw [show vel u 0 = none from rfl] at this
  rw [hr, this, loop, hf]
  simp only
  have e : ckPts y u c.ckpt 0 (m + 1) = ckPts y u c.ckpt 0 m ++ (if m % c.ckpt = 0 then [mkPt (y m) (vel u m)] else []) := by
    unfold ckPts
    rw [List.range'_concat, List.filter_append, List.map_append]
    congr 1
    by_cases h : m % c.ckpt = 0 <;> simp [h]
  rw [e]
  split <;> simp

omit [LinearOrder K] [IsStrictOrderedRing K] [FloorRing K] in
/-- a step does not look at the old velocity. -/
theorem rk4v_v0 {n : Nat} (f : (Fin n → K) → Option (Option (Fin n → K))) (h : K) (p q : Fin n → K)
    (v0 v1 : Option (Fin n → K)) (hs : rk4v f h p v0 = some (true, q, v1)) :
    ∃ u, v1 = some u ∧ f p = some (some u) ∧ ∀ w0, rk4v f h p w0 = some (true, q, some u) := by
  unfold rk4v at hs ⊢
  cases h1 : f p with
  | none => simp [h1] at hs
  | some o1 =>
    cases o1 with
    | none => simp [h1] at hs
    | some w =>
      simp only [h1] at hs ⊢
      refine ⟨w, ?_, rfl, fun _ => ?_⟩
      · split at hs <;> try simp at hs
        split at hs <;> try simp at hs
        split at hs <;> try simp at hs
        exact hs.2.symm
      · have : v1 = some w := by
          split at hs <;> try simp at hs
          split at hs <;> try simp at hs
          split at hs <;> try simp at hs
          exact hs.2.symm
        subst this
        exact hs

omit [LinearOrder K] [IsStrictOrderedRing K] [FloorRing K] in
theorem rk4v_total {n : Nat} (f : (Fin n → K) → Option (Option (Fin n → K))) (hf : ∀ x, ∃ r, f x = some r)
    (h : K) (p : Fin n → K) (v0 : Option (Fin n → K)) : ∃ b q v1, rk4v f h p v0 = some (b, q, v1) := by
  choose g hg using hf
  exact ⟨_, _, _, rk4v_eq f g hg h p v0⟩

omit [LinearOrder K] [IsStrictOrderedRing K] [FloorRing K] in
/-- With an evaluation that is always defined, the steps either all succeed or one fails. -/
theorem path_or_fail (f : X K nd → Option (Option (X K nd))) (hf : ∀ x, ∃ r, f x = some r) (h : K) (n : Nat) (x : X K nd) :
    ∃ y u : Nat → X K nd, y 0 = x ∧ (Path f h y u n ∨
      ∃ m < n, Path f h y u m ∧ ∃ x' v', rk4v f h (y m) (vel u m) = some (false, x', v')) := by
  induction n with
  | zero => exact ⟨fun _ => x, fun _ => x, rfl, Or.inl (fun k hk => absurd hk (by omega))⟩
  | succ n ih =>
    obtain ⟨y, u, h0, hp | ⟨m, hm, hp, x', v', hfail⟩⟩ := ih
    · obtain ⟨b, q, v1, hb⟩ := rk4v_total f hf h (y n) (vel u n)
      cases b with
      | false => exact ⟨y, u, h0, Or.inr ⟨n, by omega, hp, q, v1, hb⟩⟩
      | true =>
        obtain ⟨w, rfl, _, hw⟩ := rk4v_v0 f h _ _ _ _ hb
        refine ⟨fun k => if k ≤ n then y k else q, fun k => if k < n then u k else w, by simp [h0], Or.inl ?_⟩
        intro k hk v0
        by_cases hkn : k < n
        · simp only [if_pos (show k ≤ n by omega), if_pos (show k + 1 ≤ n by omega), if_pos hkn]
          exact hp k hkn v0
        · obtain rfl : k = n := by omega
          simp only [le_refl, if_true, if_neg (show ¬ k + 1 ≤ k by omega), if_neg (show ¬ k < k by omega)]
          exact hw v0
    · exact ⟨y, u, h0, Or.inr ⟨m, by omega, hp, x', v', hfail⟩⟩

/-! ### interpolation -/

theorem mlerp_take (a : Nd K) (x : List K) (hx : a.nd - a.ncd ≤ x.length) :
    a.mlerp x = a.mlerp (x.take (a.nd - a.ncd)) := by
  unfold Nd.mlerp
  simp only [List.length_take, List.take_take, Nat.min_self]
  have : (x.length < a.nd - a.ncd) = (min (a.nd - a.ncd) x.length < a.nd - a.ncd) := by
    apply propext; omega
  simp only [this]

omit [LinearOrder K] [IsStrictOrderedRing K] [FloorRing K] in
theorem ofFn_take (x : X K nd) : (List.ofFn x).take nd = List.ofFn fun k : Fin nd => x k.castSucc := by
  rw [List.ofFn_succ_last, List.take_left' (by simp)]

theorem Usable.sp {ds : List Nat} {a : Nd K} (h : Usable nd ds a) : a.nd - a.ncd = nd ∧ spatial a = ds := by
  obtain ⟨c, hc, _, _⟩ := h.chans
  refine ⟨?_, by simp [spatial, h.comp, hc]⟩
  unfold Nd.nd
  rw [hc, h.comp]
  simp [h.grid]

/-- the position part of `x`. -/
def pos (x : X K nd) : Fin nd → K := fun k => x k.castSucc

/-- outside the grid `eval_v` returns `false`. -/
theorem evalV_out {ds : List Nat} {a : Nd K} (h : Usable nd ds a) (x : X K nd) (hx : ¬ InGrid ds (pos x)) :
    evalV a x = some none := by
  obtain ⟨h1, h2⟩ := h.sp
  unfold evalV
  rw [mlerp_take a _ (by rw [h1]; simp), h1, ofFn_take]
  refine (C43_out_of_bound a h.ok _ (by simp [h1])).2.2 ?_
  rw [h2]
  exact hx

/-- inside the grid `eval_v` is the multilinear interpolant. -/
theorem evalV_in {ds : List Nat} {a : Nd K} (h : Usable nd ds a) (x : X K nd) (hx : InGrid ds (pos x)) :
    ∃ v, evalV a x = some (some v) ∧ nd ≤ v.length ∧ v.length ≤ 10 ∧ ∀ k : Fin nd, v.getD k 0 = velAt a (pos x) k := by
  obtain ⟨h1, h2⟩ := h.sp
  unfold evalV
  obtain ⟨c, hc, hc1, hc2⟩ := h.chans
  have hch : channels a = (List.range c).map fun k => [k] := by
    unfold channels
    rw [h.comp, hc]
    rfl
  refine ⟨(channels a).map fun ch => multilinear (List.ofFn (pos x)) fun n => (a.get (ch ++ n)).getD 0, ?_, ?_, ?_, ?_⟩
  · rw [mlerp_take a _ (by rw [h1]; simp), h1, ofFn_take]
    exact C43_value a h.ok _ (by rw [h2]; exact hx)
  · simpa [hch] using hc1
  · simpa [hch] using hc2
  · intro k
    rw [hch]
    have hk : (k : Nat) < c := by have := k.isLt; omega
    simp [List.getD, hk]
    rfl

/-- (specification) the velocity between two snapshots: linear in time. -/
def between (a0 a1 : Nd K) (τ : K) (p : Fin nd → K) : Fin nd → K :=
  fun k => (1 - τ) * velAt a0 p k + τ * velAt a1 p k

/-- the velocity of a space-time point, as `rk4` gets it. -/
def fieldAt (a0 a1 : Nd K) (ct dt : K) (x : X K nd) : X K nd :=
  Fin.snoc (α := fun _ => K) (between a0 a1 ((x (Fin.last nd) - ct) / dt) (pos x)) 1

theorem evalVt_spec {ds : List Nat} {a0 a1 : Nd K} (h0 : Usable nd ds a0) (h1 : Usable nd ds a1) (ct dt : K) (hdt : dt ≠ 0)
    (x : X K nd) (τ : K) (hτ : τ = (x (Fin.last nd) - ct) / dt) :
    (0 ≤ τ ∧ τ ≤ 1 ∧ InGrid ds (pos x) ∧ evalVt a0 (some a1) ct dt x = some (some (fieldAt a0 a1 ct dt x))) ∨
    (¬ (0 ≤ τ ∧ τ ≤ 1 ∧ InGrid ds (pos x)) ∧ evalVt a0 (some a1) ct dt x = some none) := by
  unfold evalVt
  simp only [if_neg hdt, ← hτ]
  by_cases ht : τ < 0 ∨ 1 < τ
  · right
    rw [if_pos ht]
    refine ⟨fun h => ?_, rfl⟩
    rcases ht with ht | ht
    · exact absurd h.1 (not_le.2 ht)
    · exact absurd h.2.1 (not_le.2 ht)
  · rw [if_neg ht]
    push Not at ht
    by_cases hx : InGrid ds (pos x)
    · left
      obtain ⟨v0, e0, l0, m0, g0⟩ := evalV_in h0 x hx
      obtain ⟨v1, e1, l1, m1, g1⟩ := evalV_in h1 x hx
      refine ⟨ht.1, ht.2, hx, ?_⟩
      rw [e0, e1]
      simp only
      rw [if_neg (by omega)]
      unfold fieldAt between
      rw [← hτ]
      simp only [g0, g1]
    · right
      refine ⟨fun h => hx h.2.2, ?_⟩
      rw [evalV_out h0 x hx, evalV_out h1 x hx]

theorem evalVt_total {ds : List Nat} {a0 a1 : Nd K} (h0 : Usable nd ds a0) (h1 : Usable nd ds a1) (ct dt : K) (hdt : dt ≠ 0)
    (x : X K nd) : ∃ r, evalVt a0 (some a1) ct dt x = some r := by
  rcases evalVt_spec h0 h1 ct dt hdt x _ rfl with ⟨_, _, _, h⟩ | ⟨_, h⟩ <;> exact ⟨_, h⟩

omit [LinearOrder K] [IsStrictOrderedRing K] [FloorRing K] in
theorem toX_mkPt (x : X K nd) (v : Option (X K nd)) : (mkPt x v).toX = x := by
  unfold Pt.toX mkPt
  funext i
  refine Fin.lastCases ?_ (fun k => ?_) i
  · simp
  · simp

end Verif.PT
