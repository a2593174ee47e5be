import Verif.Trace.Series
import Mathlib.LinearAlgebra.Matrix.ToLin
import Mathlib.Tactic.LinearCombination
import Mathlib.Tactic.Positivity
/-! # C114, C116, C117: exact motions -/
namespace Verif.PT
open Verif.ND
variable {K : Type} [Field K] [LinearOrder K] [IsStrictOrderedRing K] [FloorRing K] {nd : Nat}

theorem inside_nonneg {x : List K} {ds : List Nat} (h : Inside x ds) : ∀ t ∈ x, 0 ≤ t := by
  induction h with
  | nil => simp
  | cons hab _ ih =>
    intro t ht
    rcases List.mem_cons.1 ht with rfl | ht
    · exact hab.1
    · exact ih t ht

theorem corner_in {x : List K} {ds c : List Nat} (h : Inside x ds) (hc : IsCorner x c) : ValidIdx c ds := by
  induction h generalizing c with
  | nil => cases hc; exact List.Forall₂.nil
  | @cons x d xs ds hxd _ ih =>
    cases hc with
    | @cons _ c0 _ cs h1 h2 =>
      refine List.Forall₂.cons ?_ (ih h2)
      have hx0 : (0 : ℤ) ≤ ⌊x⌋ := Int.floor_nonneg.2 hxd.1
      have h4 : ((⌊x⌋ + 1 : ℤ) : K) < ((d : ℤ) : K) := by
        push_cast
        have := Int.floor_le x
        linarith [hxd.2]
      have h5 : ⌊x⌋ + 1 < (d : ℤ) := Int.cast_lt.1 h4
      rcases h1 with rfl | rfl <;> omega

theorem velAt_affine {ds : List Nat} {a : Nd K} {A : Fin nd → Fin nd → K} {b : Fin nd → K} (ha : AffineField ds a A b)
    (p : Fin nd → K) (hp : InGrid ds p) (k : Fin nd) : velAt a p k = b k + ∑ j, A k j * p j := by
  unfold velAt
  rw [multilinear_affine (List.ofFn p) (inside_nonneg hp) (b k) (List.ofFn (A k))]
  · unfold affine
    congr 1
    have : List.zipWith (· * ·) (List.ofFn (A k)) (List.ofFn p) = List.ofFn fun j => A k j * p j := by
      apply List.ext_getElem
      · simp
      · intro i h1 h2
        simp
    rw [this, List.sum_ofFn]
  · intro c hc
    rw [ha k c (corner_in hp hc)]
    rfl

theorem velAt_uniform {ds : List Nat} {a : Nd K} {w : Fin nd → K} (ha : Uniform ds a w) (p : Fin nd → K)
    (hp : InGrid ds p) (k : Fin nd) : velAt a p k = w k := by
  have h : AffineField ds a (fun _ _ => 0) w := by
    intro k n hn
    rw [ha k n hn]
    congr 1
    unfold affine
    have : (List.zipWith (· * ·) (List.ofFn fun _ : Fin nd => (0 : K)) (n.map fun i : Nat => (i : K))).sum = 0 := by
      apply List.sum_eq_zero
      intro x hx
      obtain ⟨i, hi, rfl⟩ := List.getElem_of_mem hx
      simp
    rw [this, add_zero]
  rw [velAt_affine h p hp k]
  simp

omit [LinearOrder K] [IsStrictOrderedRing K] [FloorRing K] in
theorem rk4v_ok {n : Nat} (f : (Fin n → K) → Option (Option (Fin n → K))) (h : K) (p v1 v2 v3 v4 : Fin n → K)
    (v0 : Option (Fin n → K)) (e1 : f p = some (some v1)) (e2 : f (fun i => p i + 1 / 2 * (h * v1 i)) = some (some v2))
    (e3 : f (fun i => p i + 1 / 2 * (h * v2 i)) = some (some v3)) (e4 : f (fun i => p i + h * v3 i) = some (some v4)) :
    rk4v f h p v0 = some (true, fun i => p i + (h * v1 i + 2 * (h * v2 i + h * v3 i) + h * v4 i) / 6, some v1) := by
  unfold rk4v
  simp only [e1, e2, e3, e4]

omit [LinearOrder K] [IsStrictOrderedRing K] [FloorRing K] in
theorem rk4v_inv {n : Nat} (f : (Fin n → K) → Option (Option (Fin n → K))) (h : K) (p q : Fin n → K)
    (v0 v' : Option (Fin n → K)) (hs : rk4v f h p v0 = some (true, q, v')) :
    ∃ v1 v2 v3 v4, f p = some (some v1) ∧ f (fun i => p i + 1 / 2 * (h * v1 i)) = some (some v2) ∧
      f (fun i => p i + 1 / 2 * (h * v2 i)) = some (some v3) ∧ f (fun i => p i + h * v3 i) = some (some v4) ∧
      q = fun i => p i + (h * v1 i + 2 * (h * v2 i + h * v3 i) + h * v4 i) / 6 := by
  unfold rk4v at hs
  simp only at hs
  split at hs
  · simp at hs
  · simp at hs
  · rename_i w1 e1
    split at hs
    · simp at hs
    · simp at hs
    · rename_i w2 e2
      split at hs
      · simp at hs
      · simp at hs
      · rename_i w3 e3
        split at hs
        · simp at hs
        · simp at hs
        · rename_i w4 e4
          exact ⟨w1, w2, w3, w4, e1, e2, e3, e4, (Prod.mk.inj (Prod.mk.inj (Option.some.inj hs)).2).1.symm⟩

/-! ### uniform velocities -/

/-- (specification) the exact position at the fraction `τ` of an interval of length `dt` that a particle starts at `P`, when
the velocity is the same everywhere and goes linearly from `w0` to `w1`. -/
def exactPos (P w0 w1 : Fin nd → K) (dt τ : K) : Fin nd → K := fun i => P i + dt * (τ * w0 i + τ ^ 2 / 2 * (w1 i - w0 i))

/-- (specification) the velocity at the fraction `τ`. -/
def exactVel (w0 w1 : Fin nd → K) (τ : K) : Fin nd → K := fun i => (1 - τ) * w0 i + τ * w1 i

theorem uniform_eval {ds : List Nat} {a0 a1 : Nd K} (h0 : Usable nd ds a0) (h1 : Usable nd ds a1) {w0 w1 : Fin nd → K}
    (u0 : Uniform ds a0 w0) (u1 : Uniform ds a1 w1) (ct dt : K) (hdt : dt ≠ 0) (x : X K nd) (σ : K)
    (hσ : x (Fin.last nd) - ct = σ * dt) (hs0 : 0 ≤ σ) (hs1 : σ ≤ 1) (hx : InGrid ds (pos x)) :
    evalVt a0 (some a1) ct dt x = some (some (Fin.snoc (α := fun _ => K) (exactVel w0 w1 σ) 1)) := by
  have e : σ = (x (Fin.last nd) - ct) / dt := by rw [hσ]; field_simp
  rcases evalVt_spec h0 h1 ct dt hdt x σ e with ⟨_, _, _, h⟩ | ⟨h, _⟩
  · rw [h]
    unfold fieldAt between
    rw [← e]
    congr 2
    congr 1
    funext k
    rw [velAt_uniform u0 _ hx, velAt_uniform u1 _ hx]
    rfl
  · exact absurd ⟨hs0, hs1, hx⟩ h

omit [FloorRing K] in
theorem vel_bound {w0 w1 M σ : K} (hs0 : 0 ≤ σ) (hs1 : σ ≤ 1) (h0 : |w0| ≤ M) (h1 : |w1| ≤ M) :
    |(1 - σ) * w0 + σ * w1| ≤ M := by
  have a0 := abs_le.1 h0
  have a1 := abs_le.1 h1
  have b : 0 ≤ 1 - σ := by linarith
  rw [abs_le]
  constructor
  · have := mul_le_mul_of_nonneg_left a0.1 b
    have := mul_le_mul_of_nonneg_left a1.1 hs0
    linarith
  · have := mul_le_mul_of_nonneg_left a0.2 b
    have := mul_le_mul_of_nonneg_left a1.2 hs0
    linarith

omit [FloorRing K] in
theorem pos_bound {w0 w1 M τ : K} (hs0 : 0 ≤ τ) (hs1 : τ ≤ 1) (h0 : |w0| ≤ M) (h1 : |w1| ≤ M) :
    |τ * w0 + τ ^ 2 / 2 * (w1 - w0)| ≤ τ * M := by
  have e : τ * w0 + τ ^ 2 / 2 * (w1 - w0) = τ * ((1 - τ / 2) * w0 + τ / 2 * w1) := by ring
  rw [e, abs_mul, abs_of_nonneg hs0]
  exact mul_le_mul_of_nonneg_left (vel_bound (by linarith) (by linarith) h0 h1) hs0

/-- the steps of an interval in uniform velocities are exact. -/
theorem uniform_path {ds : List Nat} {a0 a1 : Nd K} (h0 : Usable nd ds a0) (h1 : Usable nd ds a1) {w0 w1 : Fin nd → K}
    (u0 : Uniform ds a0 w0) (u1 : Uniform ds a1 w1) (c : Cfg K) (hn : 0 < c.nsteps) (hdt : 0 < c.dt) (ct : K)
    (P M : Fin nd → K) (hw0 : ∀ i, |w0 i| ≤ M i) (hw1 : ∀ i, |w1 i| ≤ M i)
    (hbox : ∀ q : Fin nd → K, (∀ i, |q i - P i| ≤ c.dt * M i) → InGrid ds q) :
    Path (evalVt a0 (some a1) ct c.dt) c.delta
      (fun k => Fin.snoc (α := fun _ => K) (exactPos P w0 w1 c.dt (k / c.nsteps)) (ct + k * c.delta))
      (fun k => Fin.snoc (α := fun _ => K) (exactVel w0 w1 (k / c.nsteps)) 1) c.nsteps := by
  intro k hk v0
  have hnK : (0 : K) < c.nsteps := by exact_mod_cast hn
  have hd : 0 < c.delta := div_pos hdt hnK
  have hdn : c.delta = c.dt / c.nsteps := rfl
  have hkn : (k : K) + 1 ≤ c.nsteps := by exact_mod_cast hk
  have hk0 : (0 : K) ≤ k := Nat.cast_nonneg _
  have hτ0 : (0 : K) ≤ k / c.nsteps := div_nonneg hk0 hnK.le
  have hτ1 : (k : K) / c.nsteps ≤ 1 := by rw [div_le_one hnK]; linarith
  have key : ∀ (x : X K nd) (s σ σ' : K), 0 ≤ s → s ≤ c.delta → 0 ≤ σ → σ ≤ 1 → 0 ≤ σ' → σ' ≤ 1 →
      (∀ i : Fin nd, x i.castSucc = exactPos P w0 w1 c.dt (k / c.nsteps) i + s * exactVel w0 w1 σ i) →
      x (Fin.last nd) - ct = σ' * c.dt →
      evalVt a0 (some a1) ct c.dt x = some (some (Fin.snoc (α := fun _ => K) (exactVel w0 w1 σ') 1)) := by
    intro x s σ σ' s0 s1 a b a' b' hx ht
    refine uniform_eval h0 h1 u0 u1 ct c.dt hdt.ne' x σ' ht a' b' (hbox _ fun i => ?_)
    show |x i.castSucc - P i| ≤ _
    rw [hx i]
    have e : exactPos P w0 w1 c.dt (k / c.nsteps) i + s * exactVel w0 w1 σ i - P i =
        c.dt * ((k / c.nsteps) * w0 i + ((k : K) / c.nsteps) ^ 2 / 2 * (w1 i - w0 i)) + s * exactVel w0 w1 σ i := by
      unfold exactPos; ring
    rw [e]
    refine le_trans (abs_add_le _ _) ?_
    rw [abs_mul, abs_mul, abs_of_nonneg hdt.le, abs_of_nonneg s0]
    have b1 := mul_le_mul_of_nonneg_left (pos_bound hτ0 hτ1 (hw0 i) (hw1 i)) hdt.le
    have b2 := mul_le_mul_of_nonneg_left (vel_bound a b (hw0 i) (hw1 i)) s0
    have hM : 0 ≤ M i := le_trans (abs_nonneg _) (hw0 i)
    have b3 := mul_le_mul_of_nonneg_right s1 hM
    have b4 : c.dt * ((k : K) / c.nsteps * M i) + c.delta * M i ≤ c.dt * M i := by
      have e : c.dt * ((k : K) / c.nsteps * M i) + c.delta * M i = c.dt * (((k : K) + 1) / c.nsteps) * M i := by
        rw [hdn]; field_simp
      rw [e]
      apply mul_le_mul_of_nonneg_right _ hM
      have : ((k : K) + 1) / c.nsteps ≤ 1 := by rw [div_le_one hnK]; exact hkn
      calc c.dt * (((k : K) + 1) / c.nsteps) ≤ c.dt * 1 := mul_le_mul_of_nonneg_left this hdt.le
        _ = c.dt := mul_one _
    have b5 : |exactVel w0 w1 σ i| = |(1 - σ) * w0 i + σ * w1 i| := rfl
    rw [b5]
    linarith
  have hσ2 : (k + 1 / 2 : K) / c.nsteps ≤ 1 := by rw [div_le_one hnK]; linarith
  have hσ20 : (0 : K) ≤ (k + 1 / 2 : K) / c.nsteps := div_nonneg (by linarith) hnK.le
  have hσ4 : (k + 1 : K) / c.nsteps ≤ 1 := by rw [div_le_one hnK]; linarith
  have hσ40 : (0 : K) ≤ (k + 1 : K) / c.nsteps := div_nonneg (by linarith) hnK.le
  rw [rk4v_ok (evalVt a0 (some a1) ct c.dt) c.delta _ _ (Fin.snoc (α := fun _ => K) (exactVel w0 w1 ((k + 1 / 2 : K) / c.nsteps)) 1)
    (Fin.snoc (α := fun _ => K) (exactVel w0 w1 ((k + 1 / 2 : K) / c.nsteps)) 1)
    (Fin.snoc (α := fun _ => K) (exactVel w0 w1 ((k + 1 : K) / c.nsteps)) 1) v0
    (key _ 0 0 (k / c.nsteps) (le_refl _) hd.le (le_refl _) zero_le_one hτ0 hτ1 (fun i => by simp) (by
      simp only [Fin.snoc_last]; rw [hdn]; field_simp; ring))
    (key _ (c.delta / 2) (k / c.nsteps) ((k + 1 / 2 : K) / c.nsteps) (by linarith) (by linarith) hτ0 hτ1 hσ20 hσ2
      (fun i => by simp only [Fin.snoc_castSucc]; ring)
      (by simp only [Fin.snoc_last]; rw [hdn]; field_simp; ring))
    (key _ (c.delta / 2) ((k + 1 / 2 : K) / c.nsteps) ((k + 1 / 2 : K) / c.nsteps) (by linarith) (by linarith) hσ20 hσ2 hσ20 hσ2
      (fun i => by simp only [Fin.snoc_castSucc]; ring)
      (by simp only [Fin.snoc_last]; rw [hdn]; field_simp; ring))
    (key _ c.delta ((k + 1 / 2 : K) / c.nsteps) ((k + 1 : K) / c.nsteps) hd.le (le_refl _) hσ20 hσ2 hσ40 hσ4
      (fun i => by simp only [Fin.snoc_castSucc])
      (by simp only [Fin.snoc_last]; rw [hdn]; field_simp; ring))]
  congr 3
  funext i
  refine Fin.lastCases ?_ (fun i => ?_) i
  · simp only [Fin.snoc_last]
    push_cast
    ring
  · simp only [Fin.snoc_castSucc, exactPos, exactVel, hdn]
    push_cast
    field_simp
    ring

/-- **C114 (one interval).** When the velocity is the same everywhere at both snapshots and the particle has room, the
recorded points are on the exact path: at every checkpoint and at the end, the position is that of the solution of
`x' = w(t)`, whatever the number of steps. -/
theorem C114_interval {ds : List Nat} {a0 a1 : Nd K} (h0 : Usable nd ds a0) (h1 : Usable nd ds a1) {w0 w1 : Fin nd → K}
    (u0 : Uniform ds a0 w0) (u1 : Uniform ds a1 w1) (c : Cfg K) (hck : c.ckpt = 16) (hn : 0 < c.nsteps) (hdt : 0 < c.dt)
    (ct : K) (M : Fin nd → K) (hw0 : ∀ i, |w0 i| ≤ M i) (hw1 : ∀ i, |w1 i| ≤ M i)
    (tr : List (Pt K nd)) (p : Pt K nd) (hl : tr.getLast? = some p) (hp : p.t = ct)
    (hbox : ∀ q : Fin nd → K, (∀ i, |q i - p.x i| ≤ c.dt * M i) → InGrid ds q) :
    ∃ new : List (Pt K nd), advanceTraj (evalVt a0 (some a1) ct c.dt) c tr = some (tr ++ new) ∧
      new.map (fun r => (r.x, r.t)) =
        (List.range (nck c.nsteps)).map (fun j => (exactPos p.x w0 w1 c.dt ((16 * j : Nat) / c.nsteps),
          ct + (16 * j : Nat) * (c.dt / c.nsteps))) ++ [(exactPos p.x w0 w1 c.dt 1, ct + c.dt)] ∧
      new.map Pt.v = (List.range (nck c.nsteps)).map (fun j => if j = 0 then none else
          some (exactVel w0 w1 ((16 * j - 1 : Nat) / c.nsteps))) ++ [some (exactVel w0 w1 ((c.nsteps - 1 : Nat) / c.nsteps))] := by
  have hnK : (0 : K) < c.nsteps := by exact_mod_cast hn
  have hpath := uniform_path h0 h1 u0 u1 c hn hdt ct p.x M hw0 hw1 hbox
  have hadv := advance_path _ c _ _ hpath tr p hl (by
    unfold Pt.toX exactPos
    simp [hp])
  rw [List.append_assoc] at hadv
  refine ⟨_, hadv, ?_, ?_⟩
  · rw [List.map_append]
    congr 1
    · unfold ckPts
      rw [hck, filter_16, List.map_map, List.map_map]
      apply List.map_congr_left
      intro j _
      simp only [Function.comp, mkPt, Fin.snoc_castSucc, Fin.snoc_last]
      rfl
    · simp only [List.map_cons, List.map_nil, mkPt, Fin.snoc_castSucc, Fin.snoc_last]
      rw [div_self hnK.ne']
      congr 2
      unfold Cfg.delta
      field_simp
  · rw [List.map_append]
    congr 1
    · unfold ckPts
      rw [hck, filter_16, List.map_map, List.map_map]
      apply List.map_congr_left
      intro j _
      simp only [Function.comp, mkPt]
      cases j with
      | zero => rfl
      | succ j =>
        rw [if_neg (by omega), show 16 * (j + 1) = (16 * j + 15) + 1 by omega]
        simp [vel]
    · obtain ⟨m, hm⟩ : ∃ m, c.nsteps = m + 1 := ⟨c.nsteps - 1, by omega⟩
      simp only [List.map_cons, List.map_nil, mkPt]
      rw [hm]
      simp [vel]

/-- (specification) the exact displacement over a series of uniform velocities interpolated linearly in time: the trapezoidal
sum. -/
def trapezoid : List (Fin nd → K) → Fin nd → K
  | w0 :: w1 :: ws, i => (w0 i + w1 i) / 2 + trapezoid (w1 :: ws) i
  | _, _ => 0

/-- **C114 (series).** Through a series of uniform velocities with room to move, the particle ends at the exact position at
the last time step, whatever the number of steps per interval. -/
theorem C114_series {ds : List Nat} (c : Cfg K) (hck : c.ckpt = 16) (hn : 0 < c.nsteps) (hdt : c.dt = 1) (M : Fin nd → K)
    (series : List (Nd K)) (ws : List (Fin nd → K)) (hu : ∀ a ∈ series, Usable nd ds a)
    (hw : List.Forall₂ (Uniform ds) series ws) (hM : ∀ w ∈ ws, ∀ i, |w i| ≤ M i)
    (i : Nat) (tr : List (Pt K nd)) (p : Pt K nd) (hl : tr.getLast? = some p) (hp : p.t = i)
    (hbox : ∀ q : Fin nd → K, (∀ j, |q j - p.x j| ≤ ((series.length - 1 : Nat) : K) * M j) → InGrid ds q) :
    ∃ tr' q, through c i series tr = some tr' ∧ tr'.getLast? = some q ∧ (∀ j, q.x j = p.x j + trapezoid ws j) ∧
      q.t = ((i + (series.length - 1) : Nat) : K) := by
  induction hw generalizing i tr p with
  | nil => exact ⟨tr, p, by simp [through], hl, by simp [trapezoid], by simp [hp]⟩
  | @cons a0 w0 as ws' hw0 hrest ih =>
    cases hrest with
    | nil => exact ⟨tr, p, by simp [through], hl, by simp [trapezoid], by simp [hp]⟩
    | @cons a1 w1 as ws hw1 hrest =>
      have hb0 := hM w0 (by simp)
      have hb1 := hM w1 (by simp)
      have hM0 : ∀ j, 0 ≤ M j := fun j => le_trans (abs_nonneg _) (hb0 j)
      obtain ⟨new, e, hx, _⟩ := C114_interval (hu a0 (by simp)) (hu a1 (by simp)) hw0 hw1 c hck hn (by rw [hdt]; exact one_pos)
        (i : K) M hb0 hb1 tr p hl hp (fun q hq => hbox q fun j => by
          refine le_trans (hq j) ?_
          rw [hdt]
          apply mul_le_mul_of_nonneg_right _ (hM0 j)
          have : 1 ≤ (a0 :: a1 :: as).length - 1 := by simp
          exact_mod_cast this)
      have hne : new ≠ [] := fun h => by rw [h] at hx; simp at hx
      obtain ⟨q, hq⟩ : ∃ q, new.getLast? = some q := ⟨_, List.getLast?_eq_some_getLast hne⟩
      have hlq : (tr ++ new).getLast? = some q := by rw [List.getLast?_append_of_ne_nil _ hne, hq]
      have hqx : (q.x, q.t) = (exactPos p.x w0 w1 c.dt 1, (i : K) + c.dt) := by
        have h2 : (new.map fun r => (r.x, r.t)).getLast? = some (q.x, q.t) := by rw [List.getLast?_map, hq]; rfl
        rw [hx, List.getLast?_append_of_ne_nil _ (by simp)] at h2
        simp only [List.getLast?_singleton, Option.some.injEq] at h2
        exact h2.symm
      have hq1 : ∀ j, q.x j = p.x j + (w0 j + w1 j) / 2 := by
        intro j
        rw [(Prod.mk.inj hqx).1, hdt]
        unfold exactPos
        ring
      have hq2 : q.t = ((i + 1 : Nat) : K) := by
        rw [(Prod.mk.inj hqx).2, hdt]
        push_cast
        ring
      obtain ⟨tr', q', e', hl', hx', ht'⟩ := ih (fun a ha => hu a (by simp [ha])) (fun w hw => hM w (by simp [hw])) (i + 1)
        (tr ++ new) q hlq hq2 (fun r hr => hbox r fun j => by
          have h1 := hr j
          have h2 : |q.x j - p.x j| ≤ M j := by
            rw [hq1 j, add_sub_cancel_left]
            have := vel_bound (σ := 1 / 2) (by norm_num) (by norm_num) (hb0 j) (hb1 j)
            have e : (1 - 1 / 2) * w0 j + 1 / 2 * w1 j = (w0 j + w1 j) / 2 := by ring
            rwa [e] at this
          have e : r j - p.x j = (r j - q.x j) + (q.x j - p.x j) := by ring
          rw [e]
          refine le_trans (abs_add_le _ _) ?_
          have e2 : (((a0 :: a1 :: as).length - 1 : Nat) : K) * M j = (((a1 :: as).length - 1 : Nat) : K) * M j + M j := by
            simp only [List.length_cons, Nat.add_sub_cancel]
            push_cast
            ring
          rw [e2]
          linarith)
      refine ⟨tr', q', ?_, hl', fun j => ?_, ?_⟩
      · rw [through, e]
        exact e'
      · rw [hx' j, hq1 j]
        simp only [trapezoid]
        ring
      · rw [ht']
        simp only [List.length_cons]
        congr 1
        omega

/-! ### a steady affine velocity -/

/-- (specification) the Taylor polynomial of degree 4 in `h` of the exact solution of `x' = A x + b` from `p`. -/
def taylor (A : Fin nd → Fin nd → K) (b : Fin nd → K) (h : K) (p : Fin nd → K) : Fin nd → K :=
  let B := Matrix.of A
  let g := b + B.mulVec p
  p + h • g + (h ^ 2 / 2) • B.mulVec g + (h ^ 3 / 6) • B.mulVec (B.mulVec g) +
    (h ^ 4 / 24) • B.mulVec (B.mulVec (B.mulVec g))

theorem affine_eval {ds : List Nat} {a0 a1 : Nd K} (h0 : Usable nd ds a0) (h1 : Usable nd ds a1)
    {A : Fin nd → Fin nd → K} {b : Fin nd → K} (u0 : AffineField ds a0 A b) (u1 : AffineField ds a1 A b)
    (ct dt : K) (hdt : dt ≠ 0) (x v : X K nd) (hv : evalVt a0 (some a1) ct dt x = some (some v)) :
    v = Fin.snoc (α := fun _ => K) (b + (Matrix.of A).mulVec (pos x)) 1 := by
  rcases evalVt_spec h0 h1 ct dt hdt x _ rfl with ⟨_, _, hx, h⟩ | ⟨_, h⟩
  · rw [h] at hv
    obtain rfl := Option.some.inj (Option.some.inj hv)
    unfold fieldAt between
    congr 1
    funext k
    rw [velAt_affine u0 _ hx, velAt_affine u1 _ hx]
    simp only [Pi.add_apply, Matrix.mulVec, dotProduct, Matrix.of_apply]
    ring
  · rw [h] at hv
    simp at hv

omit [FloorRing K] in
theorem taylor_step (A : Fin nd → Fin nd → K) (b : Fin nd → K) (h : K) (p v1 v2 v3 v4 : Fin nd → K)
    (e1 : v1 = b + (Matrix.of A).mulVec p) (e2 : v2 = b + (Matrix.of A).mulVec (p + (h / 2) • v1))
    (e3 : v3 = b + (Matrix.of A).mulVec (p + (h / 2) • v2)) (e4 : v4 = b + (Matrix.of A).mulVec (p + h • v3)) :
    (fun i => p i + (h * v1 i + 2 * (h * v2 i + h * v3 i) + h * v4 i) / 6) = taylor A b h p := by
  unfold taylor
  simp only
  rw [← e1]
  have f2 : v2 = v1 + (h / 2) • (Matrix.of A).mulVec v1 := by
    rw [e2, Matrix.mulVec_add, Matrix.mulVec_smul, ← add_assoc, ← e1]
  have f3 : v3 = v1 + (h / 2) • (Matrix.of A).mulVec v2 := by
    rw [e3, Matrix.mulVec_add, Matrix.mulVec_smul, ← add_assoc, ← e1]
  have f4 : v4 = v1 + h • (Matrix.of A).mulVec v3 := by
    rw [e4, Matrix.mulVec_add, Matrix.mulVec_smul, ← add_assoc, ← e1]
  rw [f4, f3, f2]
  simp only [Matrix.mulVec_add, Matrix.mulVec_smul]
  funext i
  simp only [Pi.add_apply, Pi.smul_apply, smul_eq_mul]
  field_simp
  ring

/-- in a steady affine field every successful step is the Taylor step. -/
theorem affine_step {ds : List Nat} {a0 a1 : Nd K} (h0 : Usable nd ds a0) (h1 : Usable nd ds a1)
    {A : Fin nd → Fin nd → K} {b : Fin nd → K} (u0 : AffineField ds a0 A b) (u1 : AffineField ds a1 A b)
    (ct dt h : K) (hdt : dt ≠ 0) (p q : X K nd) (v0 v' : Option (X K nd))
    (hs : rk4v (evalVt a0 (some a1) ct dt) h p v0 = some (true, q, v')) : pos q = taylor A b h (pos p) := by
  obtain ⟨v1, v2, v3, v4, e1, e2, e3, e4, rfl⟩ := rk4v_inv _ h p q v0 v' hs
  have f1 := affine_eval h0 h1 u0 u1 ct dt hdt _ _ e1
  have f2 := affine_eval h0 h1 u0 u1 ct dt hdt _ _ e2
  have f3 := affine_eval h0 h1 u0 u1 ct dt hdt _ _ e3
  have f4 := affine_eval h0 h1 u0 u1 ct dt hdt _ _ e4
  have g : ∀ v : X K nd, ∀ w : Fin nd → K, v = Fin.snoc (α := fun _ => K) w 1 → pos v = w := by
    intro v w hv
    funext k
    rw [hv]
    simp [pos]
  refine taylor_step A b h (pos p) (pos v1) (pos v2) (pos v3) (pos v4) (g _ _ f1) ?_ ?_ ?_
  · rw [g _ _ f2]
    congr 2
    funext k
    simp only [pos, Pi.add_apply, Pi.smul_apply, smul_eq_mul]
    ring
  · rw [g _ _ f3]
    congr 2
    funext k
    simp only [pos, Pi.add_apply, Pi.smul_apply, smul_eq_mul]
    ring
  · rw [g _ _ f4]
    congr 2

/-- **C116 (series).** In a steady affine velocity field `A x + b` every step is the Taylor polynomial of degree 4 of the
exact solution: a particle seeded at time `i` that ends inside the grid ends, at the last time step, at the `n`-fold step for
each interval. -/
theorem C116_affine {ds : List Nat} (c : Cfg K) (hck : c.ckpt = 16) (hn : 0 < c.nsteps) (hdt : c.dt = 1)
    (A : Fin nd → Fin nd → K) (b : Fin nd → K) (series : List (Nd K))
    (hu : ∀ a ∈ series, Usable nd ds a ∧ AffineField ds a A b)
    (i : Nat) (tr : List (Pt K nd)) (p : Pt K nd) (hl : tr.getLast? = some p) (hp : p.t = i) :
    ∃ tr' q, through c i series tr = some tr' ∧ tr'.getLast? = some q ∧
      (InGrid ds q.x → q.x = (taylor A b (1 / (c.nsteps : K)))^[c.nsteps * (series.length - 1)] p.x ∧
        q.t = ((i + (series.length - 1) : Nat) : K)) := by
  induction series generalizing i tr p with
  | nil => exact ⟨tr, p, by simp [through], hl, fun _ => ⟨by simp, by simp [hp]⟩⟩
  | cons a0 as ih =>
    cases as with
    | nil => exact ⟨tr, p, by simp [through], hl, fun _ => ⟨by simp, by simp [hp]⟩⟩
    | cons a1 as =>
      have hd0 : 0 < c.dt := by rw [hdt]; exact one_pos
      have hnK : (0 : K) < c.nsteps := by exact_mod_cast hn
      have hdl : c.delta = 1 / (c.nsteps : K) := by unfold Cfg.delta; rw [hdt]
      obtain ⟨y, u, hy, ⟨hpath, e⟩ | ⟨m, hm, hpath, q, e, hq, _, _⟩⟩ :=
        interval_cases (hu a0 (by simp)).1 (hu a1 (by simp)).1 c hd0 (i : K) tr p hl hp
      · have hx : ∀ k ≤ c.nsteps, pos (y k) = (taylor A b (1 / (c.nsteps : K)))^[k] p.x := by
          intro k
          induction k with
          | zero =>
            intro _
            rw [hy]
            funext j
            simp [pos, Pt.toX]
          | succ k ih' =>
            intro hk
            rw [Function.iterate_succ_apply', ← ih' (by omega), ← hdl]
            exact affine_step (hu a0 (by simp)).1 (hu a1 (by simp)).1 (hu a0 (by simp)).2 (hu a1 (by simp)).2 (i : K) c.dt _ hd0.ne'
              _ _ none _ (hpath k (by omega) none)
        have ht : (mkPt (y c.nsteps) (vel u c.nsteps)).t = ((i + 1 : Nat) : K) := by
          show y c.nsteps (Fin.last nd) = _
          rw [path_time (clock_evalVt _ _ _ _) _ y u _ hpath _ (le_refl _), hy, hdl]
          simp only [Pt.toX, Fin.snoc_last, hp]
          push_cast
          field_simp
        obtain ⟨tr', q, e', hl', hfin⟩ := ih (fun a ha => hu a (by simp [ha])) (i + 1)
          (tr ++ ckPts y u c.ckpt 0 c.nsteps ++ [mkPt (y c.nsteps) (vel u c.nsteps)]) _ (by simp) ht
        refine ⟨tr', q, ?_, hl', fun hin => ?_⟩
        · rw [through, e]
          exact e'
        · obtain ⟨f1, f2⟩ := hfin hin
          refine ⟨?_, ?_⟩
          · rw [f1]
            show _ = (taylor A b (1 / (c.nsteps : K)))^[c.nsteps * ((a0 :: a1 :: as).length - 1)] p.x
            have e3 : (mkPt (y c.nsteps) (vel u c.nsteps)).x = (taylor A b (1 / (c.nsteps : K)))^[c.nsteps] p.x := hx _ (le_refl _)
            rw [e3, ← Function.iterate_add_apply]
            congr 1
          · rw [f2]
            simp only [List.length_cons]
            congr 1
            omega
      · have hlq : (tr ++ ckPts y u c.ckpt 0 (m + 1) ++ [q]).getLast? = some q := by simp
        have hst := through_stuck (ds := ds) c hn hd0.ne' (a1 :: as) (i + 1) _ q (fun a ha => (hu a (by simp [ha])).1) hlq hq
        obtain ⟨r, hr1, hr2⟩ : ∃ r : Pt K nd, (tr ++ ckPts y u c.ckpt 0 (m + 1) ++ [q] ++
            List.replicate (2 * ((a1 :: as).length - 1)) (⟨q.x, q.t, none⟩ : Pt K nd)).getLast? = some r ∧ r.x = q.x := by
          by_cases h0 : as.length = 0
          · refine ⟨q, ?_, rfl⟩
            simp only [List.length_cons, h0, Nat.zero_add, Nat.sub_self, Nat.mul_zero, List.replicate_zero, List.append_nil]
            exact hlq
          · refine ⟨⟨q.x, q.t, none⟩, ?_, rfl⟩
            rw [List.getLast?_append_of_ne_nil _ (by simpa using h0), List.getLast?_replicate, if_neg (by simpa using h0)]
        refine ⟨_, r, ?_, hr1, fun hin => ?_⟩
        · rw [through, e]
          exact hst
        · rw [hr2] at hin
          exact absurd hin hq

end Verif.PT
