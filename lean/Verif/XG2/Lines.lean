import Verif.XG2.Model
import Verif.Ode.Props
import Verif.UMesh.Spec
import Mathlib.Algebra.Order.Archimedean.Basic
import Mathlib.Algebra.Order.Floor.Ring
import Mathlib.Data.Rat.Floor
import Mathlib.Tactic.Linarith
/-! # Field lines on the poloidal mesh (C175) -/
namespace Verif.XG2
open Verif.UM

variable {K : Type} [Field K]

/-- C175: outside the mesh `eval_b` reports failure and gives the zero vector. -/
theorem C175_eval_outside (loc : (Fin 3 → K) → Option (Int × (Fin 3 → K))) (tri : Int → Tri) (B : Int → Fin 3 → K)
    (x : Fin 3 → K) (h : loc x = none) : evalB loc tri B x = (false, fun _ => 0) := by simp [evalB, h]

/-- C175: at a point with barycentric coordinates `mu` in triangle `tid` the field is the affine interpolant of the values at
the corners: any field that is affine in position is reproduced exactly. -/
theorem C175_eval_affine (loc : (Fin 3 → K) → Option (Int × (Fin 3 → K))) (tri : Int → Tri) (B : Int → Fin 3 → K)
    (pos : Int → Fin 2 → K) (x : Fin 3 → K) (tid : Int) (mu : Fin 3 → K) (h : loc x = some (tid, mu)) (hm : mu 0 + mu 1 + mu 2 = 1)
    (hx : ∀ d : Fin 2, ![x 0, x 1] d = pos (tri tid).1 d * mu 0 + pos (tri tid).2.1 d * mu 1 + pos (tri tid).2.2 d * mu 2)
    (c : Fin 3 → K) (G : Fin 3 → Fin 2 → K) (hB : ∀ v, OnTri v (tri tid) → ∀ j, B v j = c j + (G j 0 * pos v 0 + G j 1 * pos v 1)) :
    evalB loc tri B x = (true, fun j => c j + (G j 0 * x 0 + G j 1 * x 1)) := by
  unfold evalB
  rw [h]
  simp only [Prod.mk.injEq, true_and]
  funext j
  have h0 := hx 0
  have h1 := hx 1
  simp only [Matrix.cons_val_zero, Matrix.cons_val_one] at h0 h1
  rw [hB _ (Or.inl rfl), hB _ (Or.inr (Or.inl rfl)), hB _ (Or.inr (Or.inr rfl))]
  linear_combination c j * hm - G j 0 * h0 - G j 1 * h1

/-- C175: at a mesh vertex `eval_b` is the value stored there. -/
theorem C175_eval_vertex (loc : (Fin 3 → K) → Option (Int × (Fin 3 → K))) (tri : Int → Tri) (B : Int → Fin 3 → K)
    (x : Fin 3 → K) (tid : Int) (h : loc x = some (tid, ![1, 0, 0]) ) : evalB loc tri B x = (true, B (tri tid).1) ∧
    (∀ y, loc y = some (tid, ![0, 1, 0]) → evalB loc tri B y = (true, B (tri tid).2.1)) ∧
    ∀ y, loc y = some (tid, ![0, 0, 1]) → evalB loc tri B y = (true, B (tri tid).2.2) := by
  refine ⟨by simp [evalB, h], fun y hy => by simp [evalB, hy], fun y hy => by simp [evalB, hy]⟩

theorem rk4_comp2 [CharZero K] (v : Ode.Vel K 3) (s : K) (hv : ∀ p w, v p = some w → w 2 = s) (delta : K) (p q : Fin 3 → K)
    (h : Ode.rk4 v delta p = (true, q)) : q 2 = p 2 + delta * s := by
  obtain ⟨k1, k2, k3, k4, h1, h2, h3, h4, rfl⟩ := Ode.C75_success v delta p q h
  have e1 := hv _ _ h1
  have e2 := hv _ _ h2
  have e3 := hv _ _ h3
  have e4 := hv _ _ h4
  simp only [Pi.add_apply, Pi.smul_apply, smul_eq_mul, e1, e2, e3, e4]
  field_simp
  ring

theorem steps_comp2 [CharZero K] (v : Ode.Vel K 3) (s : K) (hv : ∀ p w, v p = some w → w 2 = s) (delta : K) : ∀ (n : Nat) (p q : Fin 3 → K),
    steps v delta n p = (true, q) → q 2 = p 2 + n * (delta * s) := by
  intro n
  induction n with
  | zero =>
    intro p q h
    simp only [steps, Prod.mk.injEq, true_and] at h
    simp [h]
  | succ n ih =>
    intro p q h
    unfold steps at h
    rcases e : Ode.rk4 v delta p with ⟨b, r⟩
    rw [e] at h
    cases b
    · simp at h
    · have := ih r q h
      rw [this, rk4_comp2 v s hv delta p r e]
      push_cast
      ring

theorem slope_comp2 (ev : (Fin 3 → K) → Bool × (Fin 3 → K)) (p w : Fin 3 → K) (h : slope ev p = some w) : w 2 = 1 := by
  unfold slope at h
  rcases e : ev p with ⟨b, B⟩
  rw [e] at h
  cases b
  · simp at h
  · obtain rfl := Option.some.inj h; rfl

/-- C175: `magnetic_map` that succeeds with a positive number of steps has arrived at the requested angle exactly. -/
theorem C175_reaches_angle [CharZero K] (ev : (Fin 3 → K) → Bool × (Fin 3 → K)) (p q : Fin 3 → K) (phiEnd : K) (n : Int)
    (hn : 0 < n) (h : magneticMap ev p phiEnd n = (true, q)) : q 2 = phiEnd := by
  obtain ⟨k, rfl⟩ := Int.eq_ofNat_of_zero_le (by omega : 0 ≤ n)
  unfold magneticMap at h
  rw [if_neg (by omega)] at h
  have := steps_comp2 (slope ev) 1 (slope_comp2 ev) _ _ _ _ h
  rw [this]
  have hk : (k : K) ≠ 0 := by exact_mod_cast (by omega : k ≠ 0)
  simp only [Int.toNat_natCast, Int.cast_natCast]
  field_simp
  ring

/-- With zero or a negative number of steps the point is not moved, and success is reported. -/
theorem C175_no_steps (ev : (Fin 3 → K) → Bool × (Fin 3 → K)) (p : Fin 3 → K) (phiEnd : K) (n : Int) (hn : n ≤ 0) :
    magneticMap ev p phiEnd n = (true, p) := by
  unfold magneticMap
  split
  · rfl
  · rw [show n.toNat = 0 by omega]; rfl

/-- A start outside the mesh is reported as failure, and the point is left alone. -/
theorem C175_outside_fails (ev : (Fin 3 → K) → Bool × (Fin 3 → K)) (p : Fin 3 → K) (phiEnd : K) (n : Int) (hn : 0 < n)
    (h : (ev p).1 = false) : magneticMap ev p phiEnd n = (false, p) := by
  obtain ⟨k, rfl⟩ : ∃ k : Nat, n = (k + 1 : Nat) := ⟨n.toNat - 1, by omega⟩
  unfold magneticMap
  rw [if_neg (by omega)]
  simp only [Int.toNat_natCast, steps]
  rw [Ode.C75_first_failure]
  unfold slope
  rcases e : ev p with ⟨b, B⟩
  rw [e] at h
  simp only at h
  subst h
  rfl

theorem steps_constant [CharZero K] (v : Ode.Vel K 3) (w : Fin 3 → K) (hv : ∀ p, v p = some w) (delta : K) : ∀ (n : Nat) (p : Fin 3 → K),
    steps v delta n p = (true, fun c => p c + n * (delta * w c)) := by
  intro n
  induction n with
  | zero => intro p; simp [steps]
  | succ n ih =>
    intro p
    have h := Ode.C75_constant w delta p
    have hv' : v = fun _ => some w := funext hv
    have h' : Ode.rk4 v delta p = (true, p + delta • w) := by rw [hv', h]
    unfold steps
    rw [h']
    dsimp only
    rw [ih]
    simp only [Prod.mk.injEq, true_and]
    funext c
    simp only [Pi.add_apply, Pi.smul_apply, smul_eq_mul]
    push_cast
    ring

/-- C175: along a field whose lines have constant slopes `(a, b)` per unit of angle the map is exact for any number of steps;
in particular a purely toroidal field (`a = b = 0`) leaves `R` and `Z` alone. -/
theorem C175_constant_slope [CharZero K] (ev : (Fin 3 → K) → Bool × (Fin 3 → K)) (a b : K)
    (hev : ∀ p, (ev p).1 = true ∧ p 0 * (ev p).2 0 / (ev p).2 2 = a ∧ p 0 * (ev p).2 1 / (ev p).2 2 = b)
    (p : Fin 3 → K) (phiEnd : K) (n : Nat) (hn : 0 < n) :
    magneticMap ev p phiEnd n = (true, ![p 0 + (phiEnd - p 2) * a, p 1 + (phiEnd - p 2) * b, phiEnd]) := by
  have hv : ∀ q, slope ev q = some ![a, b, 1] := by
    intro q
    obtain ⟨h1, h2, h3⟩ := hev q
    unfold slope
    rcases e : ev q with ⟨c, B⟩
    rw [e] at h1 h2 h3
    simp only at h1 h2 h3
    subst h1
    simp only [h2, h3]
  have hk : (n : K) ≠ 0 := by exact_mod_cast (by omega : n ≠ 0)
  unfold magneticMap
  rw [if_neg (by omega), steps_constant _ _ hv]
  simp only [Int.toNat_natCast, Int.cast_natCast, Prod.mk.injEq, true_and]
  funext c
  fin_cases c
  · show p 0 + n * ((phiEnd - p 2) / n * a) = p 0 + (phiEnd - p 2) * a
    field_simp
  · show p 1 + n * ((phiEnd - p 2) / n * b) = p 1 + (phiEnd - p 2) * b
    field_simp
  · show p 2 + n * ((phiEnd - p 2) / n * 1) = phiEnd
    field_simp
    ring

/-- a purely toroidal field `(0, 0, 1)` -/
example : magneticMap (K := ℚ) (fun _ => (true, ![0, 0, 1])) ![2, 1, 0] 3 100 = (true, ![2, 1, 3]) := by
  have := C175_constant_slope (K := ℚ) (fun _ => (true, ![0, 0, 1])) 0 0 (by intro p; simp) ![2, 1, 0] 3 100 (by omega)
  simpa using this

/-! ## The analytic equilibrium -/

/-- C175: the map of the analytic equilibrium: the third component, whose velocity `eval_L` never sets, ends at
`phi_0 + (phi_end - phi_0) * junk`, where `junk` is what the uninitialised buffer contains; it arrives at `phi_end` only if the
buffer happens to contain 1 (or there is nothing to do). -/
theorem C175_eq_angle [CharZero K] (b : K → K → Fin 3 → K) (junk : K) (p q : Fin 3 → K) (phiEnd : K) (n : Nat) (hn : 0 < n)
    (h : eqMap b junk p phiEnd n = (true, q)) :
    q 2 = p 2 + (phiEnd - p 2) * junk ∧ (q 2 = phiEnd ↔ junk = 1 ∨ phiEnd = p 2) := by
  unfold eqMap at h
  have := steps_comp2 _ junk (fun p w hw => by obtain rfl := Option.some.inj hw; rfl) _ _ _ _ h
  have hk : (n : K) ≠ 0 := by exact_mod_cast (by omega : n ≠ 0)
  have e : q 2 = p 2 + (phiEnd - p 2) * junk := by
    rw [this]
    field_simp
  refine ⟨e, ?_⟩
  rw [e]
  constructor
  · intro h
    have : (phiEnd - p 2) * (junk - 1) = 0 := by linear_combination h
    rcases mul_eq_zero.1 this with h | h
    · right; exact sub_eq_zero.1 h
    · left; exact sub_eq_zero.1 h
  · rintro (h | h)
    · rw [h]; ring
    · rw [h]; ring

/-- … but `R` and `Z` do not depend on that value: the equilibrium is axisymmetric.  (Partial: the angle, above.) -/
theorem C175_eq_plane_partial (b : K → K → Fin 3 → K) (junk junk' : K) (p : Fin 3 → K) (phiEnd : K) (n : Nat) :
    (eqMap b junk p phiEnd n).2 0 = (eqMap b junk' p phiEnd n).2 0 ∧
    (eqMap b junk p phiEnd n).2 1 = (eqMap b junk' p phiEnd n).2 1 ∧ (eqMap b junk p phiEnd n).1 = true := by
  unfold eqMap
  generalize (phiEnd - p 2) / (n : K) = delta
  have key : ∀ (n : Nat) (p p' : Fin 3 → K), p 0 = p' 0 → p 1 = p' 1 →
      (steps (fun q => some ![q 0 * b (q 0) (q 1) 0 / b (q 0) (q 1) 2, q 0 * b (q 0) (q 1) 1 / b (q 0) (q 1) 2, junk]) delta n p).2 0 =
      (steps (fun q => some ![q 0 * b (q 0) (q 1) 0 / b (q 0) (q 1) 2, q 0 * b (q 0) (q 1) 1 / b (q 0) (q 1) 2, junk']) delta n p').2 0 ∧
      (steps (fun q => some ![q 0 * b (q 0) (q 1) 0 / b (q 0) (q 1) 2, q 0 * b (q 0) (q 1) 1 / b (q 0) (q 1) 2, junk]) delta n p).2 1 =
      (steps (fun q => some ![q 0 * b (q 0) (q 1) 0 / b (q 0) (q 1) 2, q 0 * b (q 0) (q 1) 1 / b (q 0) (q 1) 2, junk']) delta n p').2 1 ∧
      (steps (fun q => some ![q 0 * b (q 0) (q 1) 0 / b (q 0) (q 1) 2, q 0 * b (q 0) (q 1) 1 / b (q 0) (q 1) 2, junk]) delta n p).1 = true := by
    intro n
    induction n with
    | zero => intro p p' h0 h1; simp [steps, h0, h1]
    | succ n ih =>
      intro p p' h0 h1
      simp only [steps, Ode.rk4]
      apply ih
      · simp [h0, h1]
      · simp [h0, h1]
  exact key n p p rfl rfl

/-! ## The perturbed field -/

section total
variable [LinearOrder K] [IsStrictOrderedRing K] [FloorRing K]

theorem mod2pi_id {twoPi phi : K} (h : 0 < twoPi) (h0 : 0 ≤ phi) (h1 : phi < twoPi) : mod2pi twoPi phi = phi := by
  have hq : 0 ≤ phi / twoPi := div_nonneg h0 h.le
  have hf : ⌊phi / twoPi⌋ = 0 := by
    rw [Int.floor_eq_iff]
    exact ⟨by simpa using hq, by rw [div_lt_iff₀ h]; simpa using h1⟩
  unfold mod2pi
  simp only [hq, if_true, hf, Int.cast_zero, zero_mul, sub_zero, not_lt.2 h0, if_false]

/-- C175: any angle, negative or above `2π`, is brought into `[0, 2π)` by whole turns. -/
theorem C175_mod2pi {twoPi : K} (h : 0 < twoPi) (phi : K) :
    0 ≤ mod2pi twoPi phi ∧ mod2pi twoPi phi < twoPi ∧ ∃ k : Int, mod2pi twoPi phi = phi + (k : K) * twoPi := by
  have hphi : phi = phi / twoPi * twoPi := by field_simp
  unfold mod2pi
  dsimp only
  generalize hq : phi / twoPi = q at *
  rcases le_or_gt 0 q with h0 | h0
  · simp only [h0, if_true]
    have h1 := Int.floor_le q
    have h2 := Int.lt_floor_add_one q
    have e1 : 0 ≤ phi - (⌊q⌋ : K) * twoPi := by rw [hphi, ← sub_mul]; exact mul_nonneg (by linarith) h.le
    have e2 : phi - (⌊q⌋ : K) * twoPi < twoPi := by
      rw [hphi, ← sub_mul]
      calc (q - ⌊q⌋) * twoPi < 1 * twoPi := mul_lt_mul_of_pos_right (by linarith) h
        _ = twoPi := one_mul _
    rw [if_neg (not_lt.2 e1)]
    exact ⟨e1, e2, -⌊q⌋, by push_cast; ring⟩
  · simp only [not_le.2 h0, if_false]
    have h1 := Int.le_ceil q
    have h2 := Int.ceil_lt_add_one q
    have e1 : phi - (⌈q⌉ : K) * twoPi ≤ 0 := by rw [hphi, ← sub_mul]; exact mul_nonpos_of_nonpos_of_nonneg (by linarith) h.le
    have e2 : -twoPi < phi - (⌈q⌉ : K) * twoPi := by
      rw [hphi, ← sub_mul]
      calc -twoPi = (-1) * twoPi := by ring
        _ < (q - ⌈q⌉) * twoPi := mul_lt_mul_of_pos_right (by linarith) h
    split
    · rename_i hy
      exact ⟨by linarith, by linarith, 1 - ⌈q⌉, by push_cast; ring⟩
    · rename_i hy
      exact ⟨not_lt.1 hy, by linarith, -⌈q⌉, by push_cast; ring⟩

/-- C175: `eval_total_B` at an angle outside `[0, 2π)` uses the planes and weights of the angle inside it that is whole turns
away; with `C175_mod2pi` the theorems below apply to any angle. -/
theorem C175_total_any_angle {twoPi : K} (h : 0 < twoPi) (phi : K) (np : Int) :
    planes twoPi phi np = planes twoPi (mod2pi twoPi phi) np := by
  obtain ⟨h0, h1, -⟩ := C175_mod2pi h phi
  unfold planes
  rw [mod2pi_id h h0 h1]

/-- C175: for an angle in `[0, 2π)` and `np ≥ 1` planes `eval_total_B` uses plane `i0` with
`i0 · 2π/np ≤ φ < (i0 + 1) · 2π/np` and the next one (cyclically), with weights `alpha`, `beta` that sum to 1, `beta` being the
fraction of the interval; the first trace goes to the angle of plane `i0`, and the second to the angle of plane `i0 + 1`
**provided that this is not plane 0**.  Missing: the last interval, see below. -/
theorem C175_total_planes_partial (twoPi phi : K) (np : Int) (h : 0 < twoPi) (h0 : 0 ≤ phi) (h1 : phi < twoPi) (hn : 0 < np) :
    let P := planes twoPi phi np
    0 ≤ P.i0 ∧ P.i0 < np ∧ (P.i0 : K) * twoPi / np ≤ phi ∧ phi < ((P.i0 : K) + 1) * twoPi / np ∧
    P.i1 = (if P.i0 + 1 = np then 0 else P.i0 + 1) ∧ P.alpha + P.beta = 1 ∧ 0 ≤ P.beta ∧ P.beta < 1 ∧
    phi = P.alpha * ((P.i0 : K) * twoPi / np) + P.beta * (((P.i0 : K) + 1) * twoPi / np) ∧
    P.end0 = (P.i0 : K) * twoPi / np ∧ (P.i0 + 1 < np → P.end1 = ((P.i0 : K) + 1) * twoPi / np) ∧
    0 ≤ P.n0 ∧ P.n0 < 512 ∧ 0 ≤ P.n1 ∧ P.n1 ≤ 512 := by
  have hnp : (0 : K) < np := by exact_mod_cast hn
  intro P
  have hm := mod2pi_id h h0 h1
  let q := phi / twoPi * np
  have hq0 : 0 ≤ q := mul_nonneg (div_nonneg h0 h.le) hnp.le
  have hq1 : q < np := by
    have : phi / twoPi < 1 := by rw [div_lt_one h]; exact h1
    calc q = phi / twoPi * np := rfl
      _ < 1 * np := mul_lt_mul_of_pos_right this hnp
      _ = np := one_mul _
  have hf0 : 0 ≤ ⌊q⌋ := Int.floor_nonneg.2 hq0
  have hf1 : ⌊q⌋ < np := by
    have := Int.floor_le q
    exact_mod_cast (this.trans_lt hq1)
  have hi0 : P.i0 = ⌊q⌋ := by
    show (⌊mod2pi twoPi phi / twoPi * np⌋).tmod np = _
    rw [hm, Int.tmod_eq_emod_of_nonneg hf0, Int.emod_eq_of_lt hf0 hf1]
  have hi1 : P.i1 = (P.i0 + 1).tmod np := rfl
  have hb : P.beta = q - (P.i0 : K) := by
    show mod2pi twoPi phi / twoPi * np - (P.i0 : K) = _
    rw [hm]
  have ha : P.alpha = 1 - P.beta := rfl
  have hb0 : 0 ≤ P.beta := by rw [hb, hi0]; linarith [Int.floor_le q]
  have hb1 : P.beta < 1 := by rw [hb, hi0]; linarith [Int.lt_floor_add_one q]
  have hphi : phi = q * twoPi / np := by
    show phi = phi / twoPi * np * twoPi / np
    field_simp
  have hn0 : P.n0 = ⌊P.beta * 512⌋ := rfl
  have hn1 : P.n1 = ⌊P.alpha * 512⌋ := rfl
  have hstep : P.i1 = (if P.i0 + 1 = np then 0 else P.i0 + 1) := by
    rw [hi1, Int.tmod_eq_emod_of_nonneg (by omega)]
    split
    · rename_i e; rw [e, Int.emod_self]
    · exact Int.emod_eq_of_lt (by omega) (by omega)
  refine ⟨by omega, by omega, ?_, ?_, hstep, by rw [ha]; ring, hb0, hb1, ?_, rfl, ?_, ?_, ?_, ?_, ?_⟩
  · rw [hphi]
    apply div_le_div_of_nonneg_right _ hnp.le
    exact mul_le_mul_of_nonneg_right (by linarith) h.le
  · rw [hphi]
    apply div_lt_div_of_pos_right _ hnp
    exact mul_lt_mul_of_pos_right (by linarith) h
  · rw [ha, hb, hphi]
    field_simp
    ring
  · intro hlt
    show (P.i1 : K) * twoPi / np = _
    rw [hstep, if_neg (by omega)]
    push_cast
    ring
  · rw [hn0]; exact Int.floor_nonneg.2 (by linarith)
  · rw [hn0, Int.floor_lt]; push_cast; linarith
  · rw [hn1]; exact Int.floor_nonneg.2 (by linarith)
  · rw [hn1]
    have : ((⌊P.alpha * 512⌋ : Int) : K) ≤ 512 := (Int.floor_le _).trans (by linarith)
    exact_mod_cast this

/-- In the last interval, between plane `np - 1` and plane 0 at `2π`, the second trace goes to the angle **0** instead of `2π`:
backwards through the whole angle `φ` instead of forwards through `2π - φ`. -/
theorem C175_total_seam (twoPi phi : K) (np : Int) (h : 0 < twoPi) (h1 : phi < twoPi) (hn : 0 < np)
    (hs : ((np : K) - 1) * twoPi / np ≤ phi) (h0 : 0 ≤ phi) :
    (planes twoPi phi np).i0 = np - 1 ∧ (planes twoPi phi np).end1 = 0 ∧
    (planes twoPi phi np).end1 - phi = (twoPi - phi) - twoPi ∧ 0 < twoPi - phi := by
  have hnp : (0 : K) < np := by exact_mod_cast hn
  obtain ⟨a1, a2, a3, a4, a5, -, -, -, -, -, -, -⟩ := C175_total_planes_partial twoPi phi np h h0 h1 hn
  have hi : (planes twoPi phi np).i0 = np - 1 := by
    by_contra hne
    have hle : (planes twoPi phi np).i0 + 1 ≤ np - 1 := by omega
    have : ((planes twoPi phi np).i0 : K) + 1 ≤ np - 1 := by exact_mod_cast hle
    have : (((planes twoPi phi np).i0 : K) + 1) * twoPi / np ≤ ((np : K) - 1) * twoPi / np :=
      div_le_div_of_nonneg_right (mul_le_mul_of_nonneg_right this h.le) hnp.le
    linarith
  have he : (planes twoPi phi np).end1 = 0 := by
    show ((planes twoPi phi np).i1 : K) * twoPi / np = 0
    rw [a5, if_pos (by omega)]; simp
  exact ⟨hi, he, by rw [he]; ring, by linarith⟩

/-- Concrete instance (with `2π` replaced by 8): 4 planes, angle 7 lies between plane 3 (at 6) and plane 0 (at 8). -/
example : (planes (8 : ℚ) 7 4).i0 = 3 ∧ (planes (8 : ℚ) 7 4).end1 = 0 :=
  have := C175_total_seam (8 : ℚ) 7 4 (by norm_num) (by norm_num) (by norm_num) (by norm_num) (by norm_num)
  ⟨this.1, this.2.1⟩

omit [IsStrictOrderedRing K] [FloorRing K] in
/-- C175: for a located point `derive_nextnode` answers the corner with the largest barycentric coordinate. -/
theorem C175_nextnode (t : Tri) (mu : Fin 3 → K) : ∃ k : Fin 3, (∀ l, mu l ≤ mu k) ∧
    maxCorner t mu = ![t.1, t.2.1, t.2.2] k := by
  unfold maxCorner
  by_cases h0 : mu 0 ≥ mu 1 ∧ mu 0 ≥ mu 2
  · exact ⟨0, by intro l; fin_cases l <;> simp [h0.1, h0.2], by rw [if_pos h0]; rfl⟩
  rw [if_neg h0]
  by_cases h1 : mu 1 ≥ mu 0 ∧ mu 1 ≥ mu 2
  · exact ⟨1, by intro l; fin_cases l <;> simp [h1.1, h1.2], by rw [if_pos h1]; rfl⟩
  rw [if_neg h1]
  have h2 : mu 2 ≥ mu 0 ∧ mu 2 ≥ mu 1 := by
    rcases le_total (mu 0) (mu 1) with a | a <;> rcases le_total (mu 0) (mu 2) with b | b <;>
      rcases le_total (mu 1) (mu 2) with c | c
    · exact ⟨b, c⟩
    · exact absurd ⟨a, c⟩ h1
    · exact absurd ⟨a, b.trans a⟩ h1
    · exact absurd ⟨a, c⟩ h1
    · exact ⟨b, c⟩
    · exact ⟨b, a.trans b⟩
    · exact absurd ⟨a, b⟩ h0
    · exact absurd ⟨a, b⟩ h0
  exact ⟨2, by intro l; fin_cases l <;> simp [h2.1, h2.2], by rw [if_pos h2]; rfl⟩

end total

/-! ## Nearest vertex -/

theorem nearestLoop_spec {D : Type} [LinearOrder D] (dist : Nat → D) : ∀ (l : List Nat) (md : D) (im : Nat),
    md = dist im → ∃ k, Smooth.nearestLoop dist l (some (md, im)) = some (dist k, k) ∧ (k = im ∨ k ∈ l) ∧
      dist k ≤ dist im ∧ (∀ j ∈ l, dist k ≤ dist j) ∧ (k ≠ im → dist k < dist im) := by
  intro l
  induction l with
  | nil => intro md im h; subst h; exact ⟨im, rfl, Or.inl rfl, le_refl _, by simp, by simp⟩
  | cons i l ih =>
    intro md im h
    subst h
    unfold Smooth.nearestLoop
    by_cases hd : dist im > dist i
    · rw [if_pos hd]
      obtain ⟨k, k1, k2, k3, k4, k5⟩ := ih (dist i) i rfl
      refine ⟨k, k1, Or.inr ?_, (k3.trans hd.le), ?_, fun _ => lt_of_le_of_lt k3 hd⟩
      · rcases k2 with rfl | h
        · simp
        · simp [h]
      · intro j hj
        rcases List.mem_cons.1 hj with rfl | hj
        · exact k3
        · exact k4 j hj
    · rw [if_neg hd]
      obtain ⟨k, k1, k2, k3, k4, k5⟩ := ih (dist im) im rfl
      refine ⟨k, k1, ?_, k3, ?_, k5⟩
      · rcases k2 with h | h
        · exact Or.inl h
        · exact Or.inr (by simp [h])
      · intro j hj
        rcases List.mem_cons.1 hj with rfl | hj
        · exact k3.trans (not_lt.1 hd)
        · exact k4 j hj

/-- C175: `nearest` answers a vertex at the smallest distance; a mesh without vertices has no answer (the code returns an
uninitialised number). -/
theorem C175_nearest {D : Type} [LinearOrder D] (n : Nat) (dist : Nat → D) :
    (n = 0 → Smooth.nearest n dist = none) ∧
    (0 < n → ∃ k < n, Smooth.nearest n dist = some k ∧ ∀ j < n, dist k ≤ dist j) := by
  constructor
  · rintro rfl; rfl
  · intro hn
    obtain ⟨m, rfl⟩ : ∃ m, n = m + 1 := ⟨n - 1, by omega⟩
    unfold Smooth.nearest
    rw [List.range_succ_eq_map]
    simp only [Smooth.nearestLoop]
    obtain ⟨k, k1, k2, k3, k4, -⟩ := nearestLoop_spec dist ((List.range m).map Nat.succ) (dist 0) 0 rfl
    refine ⟨k, ?_, by rw [k1]; rfl, ?_⟩
    · rcases k2 with rfl | h
      · omega
      · simp only [List.mem_map, List.mem_range] at h
        obtain ⟨a, ha, rfl⟩ := h
        omega
    · intro j hj
      rcases j with _ | j
      · exact k3
      · exact k4 _ (List.mem_map.2 ⟨j, List.mem_range.2 (by omega), rfl⟩)

example : Smooth.nearest 3 (fun i => [5, 2, 2].getD i 0) = some 1 := by decide

end Verif.XG2
