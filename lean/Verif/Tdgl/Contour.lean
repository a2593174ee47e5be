import Verif.Tdgl.Spec
import Mathlib.Tactic.Linarith
import Mathlib.Tactic.FieldSimp
import Mathlib.Tactic.FinCases
/-! The contour test. -/
namespace Verif.Tdgl
open Real (pi pi_pos)

theorem fmod_range (x : ℝ) {y : ℝ} (hy : 0 < y) : |fmod x y| < y ∧ ∃ k : ℤ, x = fmod x y + y * k := by
  unfold fmod
  have e : x = y * (x / y) := by field_simp
  split
  · refine ⟨?_, ⌊x / y⌋, by ring⟩
    have h1 := Int.floor_le (x / y)
    have h2 := Int.lt_floor_add_one (x / y)
    have : x - y * (⌊x / y⌋ : ℝ) = y * (x / y - ⌊x / y⌋) := by rw [mul_sub, ← e]
    rw [this, abs_of_nonneg (mul_nonneg hy.le (by linarith))]
    calc y * (x / y - ⌊x / y⌋) < y * 1 := by apply mul_lt_mul_of_pos_left _ hy; linarith
      _ = y := mul_one y
  · refine ⟨?_, ⌈x / y⌉, by ring⟩
    have h1 := Int.le_ceil (x / y)
    have h2 := Int.ceil_lt_add_one (x / y)
    have : x - y * (⌈x / y⌉ : ℝ) = -(y * (⌈x / y⌉ - x / y)) := by rw [mul_sub, ← e]; ring
    rw [this, abs_neg, abs_of_nonneg (mul_nonneg hy.le (by linarith))]
    calc y * (⌈x / y⌉ - x / y) < y * 1 := by apply mul_lt_mul_of_pos_left _ hy; linarith
      _ = y := mul_one y

/-- `fmod1` is the remainder in `[0, y)` -/
theorem fmod1_range (x : ℝ) {y : ℝ} (hy : 0 < y) : 0 ≤ fmod1 x y ∧ fmod1 x y < y ∧ ∃ k : ℤ, x = fmod1 x y + y * k := by
  obtain ⟨h1, k, hk⟩ := fmod_range x hy
  rw [abs_lt] at h1
  unfold fmod1
  simp only
  split
  · rename_i h
    exact ⟨by linarith, by linarith, k - 1, by push_cast; linarith⟩
  · rename_i h
    exact ⟨by linarith, by linarith, k, hk⟩

theorem mod2pi_eq (x : ℝ) : mod2pi x = fmod1 x (2 * pi) := rfl

theorem mod2pi1_angle (x : ℝ) : IsAngle x (mod2pi1 x) := by
  obtain ⟨h1, h2, k, hk⟩ := fmod1_range (x + pi) (y := 2 * pi) (by linarith [pi_pos])
  unfold mod2pi1
  rw [mod2pi_eq]
  exact ⟨by linarith, by linarith, k, by linarith⟩

theorem turn_unique {a b : ℝ} {k : ℤ} (h : |a - b| < 2 * pi) (e : a = b + 2 * pi * k) : k = 0 := by
  have hp := pi_pos
  have e' : a - b = 2 * pi * k := by linarith
  rw [e', abs_mul, abs_of_pos (by linarith : (0 : ℝ) < 2 * pi)] at h
  have : |(k : ℝ)| < 1 := by
    by_contra hn
    push Not at hn
    nlinarith
  have h2 : |k| < 1 := by exact_mod_cast this
  exact Int.abs_lt_one_iff.1 h2

theorem IsAngle.unique {x a b : ℝ} (ha : IsAngle x a) (hb : IsAngle x b) : a = b := by
  obtain ⟨a1, a2, k, hk⟩ := ha
  obtain ⟨b1, b2, l, hl⟩ := hb
  have e : a = b + 2 * pi * ((l - k : ℤ) : ℝ) := by push_cast; linarith
  have := turn_unique (by rw [abs_lt]; constructor <;> linarith) e
  rw [this] at e
  simpa using e

theorem mod2pi1_eq {x d : ℝ} (h : IsAngle x d) : mod2pi1 x = d := (mod2pi1_angle x).unique h

/-- the angle of the reversed edge -/
theorem IsAngle.neg {x d : ℝ} (h : IsAngle x d) (hd : d ≠ -pi) : IsAngle (-x) (-d) := by
  obtain ⟨a1, a2, k, hk⟩ := h
  refine ⟨by linarith, ?_, -k, by push_cast; linarith⟩
  have : -pi < d := lt_of_le_of_ne a1 (Ne.symm hd)
  linarith

theorem winds_delta (phi li : Fin 3 → ℝ) : ∃ n : ℤ, delta phi li 0 + delta phi li 1 + delta phi li 2 = 2 * pi * n - (li 0 + li 1 + li 2) := by
  obtain ⟨-, -, k0, h0⟩ := mod2pi1_angle (phi (0 + 1) - phi 0 - li 0)
  obtain ⟨-, -, k1, h1⟩ := mod2pi1_angle (phi (1 + 1) - phi 1 - li 1)
  obtain ⟨-, -, k2, h2⟩ := mod2pi1_angle (phi (2 + 1) - phi 2 - li 2)
  refine ⟨-(k0 + k1 + k2), ?_⟩
  have e0 : (0 + 1 : Fin 3) = 1 := rfl
  have e1 : (1 + 1 : Fin 3) = 2 := rfl
  have e2 : (2 + 1 : Fin 3) = 0 := rfl
  unfold delta
  rw [e0] at h0 ⊢
  rw [e1] at h1 ⊢
  rw [e2] at h2 ⊢
  push_cast
  linarith

theorem winds_iff (phi li : Fin 3 → ℝ) (n : ℤ) :
    Winds phi li n ↔ delta phi li 0 + delta phi li 1 + delta phi li 2 = 2 * pi * n - (li 0 + li 1 + li 2) := by
  constructor
  · rintro ⟨d, h1, h2⟩
    have : delta phi li = d := funext fun i => mod2pi1_eq (h1 i)
    rw [this]
    exact h2
  · intro h
    exact ⟨delta phi li, fun i => mod2pi1_angle _, h⟩

theorem crossed_iff (phi li : Fin 3 → ℝ) :
    crossed phi li = true ↔ pi ≤ |delta phi li 0 + delta phi li 1 + delta phi li 2| := by
  have hp := pi_pos
  unfold crossed phaseShift
  rw [decide_eq_true_eq, not_lt]
  have e : (0 - delta phi li 0 - delta phi li 1 - delta phi li 2) / (2 * pi) =
      -((delta phi li 0 + delta phi li 1 + delta phi li 2) / (2 * pi)) := by ring
  rw [e, abs_neg, abs_div, abs_of_pos (by linarith : (0 : ℝ) < 2 * pi), le_div_iff₀ (by linarith)]
  have : 1 / 2 * (2 * pi) = pi := by ring
  rw [this]

/-- C104: every triangle has exactly one winding number, and it is found crossed exactly if the winding number, less the
circulation of the potential in turns, is at least one half in absolute value. -/
theorem C104_contour (phi li : Fin 3 → ℝ) : ∃ n : ℤ, Winds phi li n ∧ (∀ m, Winds phi li m → m = n) ∧
    (crossed phi li = true ↔ pi ≤ |2 * pi * n - (li 0 + li 1 + li 2)|) := by
  obtain ⟨n, hn⟩ := winds_delta phi li
  refine ⟨n, (winds_iff _ _ _).2 hn, ?_, by rw [crossed_iff, hn]⟩
  intro m hm
  have h := (winds_iff _ _ _).1 hm
  rw [hn] at h
  have hp := pi_pos
  have : (2 * pi) * ((n : ℝ) - m) = 0 := by linarith
  rcases mul_eq_zero.1 this with h | h
  · linarith
  · have : (m : ℝ) = n := by linarith
    exact_mod_cast this

/-- C104: if the circulation of the potential around the triangle is less than half a turn, the triangle is found crossed
exactly if the winding number of the phase is not zero; it is then 1 or -1. -/
theorem C104_winding (phi li : Fin 3 → ℝ) (hF : |li 0 + li 1 + li 2| < pi) (n : ℤ) (hn : Winds phi li n) :
    (crossed phi li = true ↔ n ≠ 0) ∧ |n| ≤ 1 := by
  have hp := pi_pos
  have h := (winds_iff _ _ _).1 hn
  have hd : ∀ i, -pi ≤ delta phi li i ∧ delta phi li i < pi := fun i => ⟨(mod2pi1_angle _).1, (mod2pi1_angle _).2.1⟩
  rw [abs_lt] at hF
  have d0 := hd 0
  have d1 := hd 1
  have d2 := hd 2
  have hle : |n| ≤ 1 := by
    have h1 : (n : ℝ) < 2 := by
      by_contra hc
      push Not at hc
      nlinarith
    have h2 : (-2 : ℝ) < n := by
      by_contra hc
      push Not at hc
      nlinarith
    have h1' : n < 2 := by exact_mod_cast h1
    have h2' : -2 < n := by exact_mod_cast h2
    rw [abs_le]
    omega
  refine ⟨?_, hle⟩
  rw [crossed_iff, h]
  constructor
  · rintro hc rfl
    simp only [Int.cast_zero, mul_zero, zero_sub, abs_neg] at hc
    have := abs_lt.2 hF
    linarith
  · intro hne
    rw [abs_le] at hle
    have : n = 1 ∨ n = -1 := by omega
    rcases this with rfl | rfl
    · apply le_abs.2
      left
      push_cast
      linarith
    · apply le_abs.2
      right
      push_cast
      linarith

/-- C106: phases are defined up to full turns: adding any number of turns at every vertex changes neither the answer nor
the weights of the point. -/
theorem C106_branches (rho phi li : Fin 3 → ℝ) (k : Fin 3 → ℤ) :
    crossed (fun i => phi i + 2 * pi * k i) li = crossed phi li ∧
      psi rho (fun i => phi i + 2 * pi * k i) li = psi rho phi li := by
  have hd : delta (fun i => phi i + 2 * pi * k i) li = delta phi li := by
    funext i
    refine mod2pi1_eq ?_
    obtain ⟨a, b, l, hl⟩ := mod2pi1_angle (phi (i + 1) - phi i - li i)
    refine ⟨a, b, l + k (i + 1) - k i, ?_⟩
    push_cast
    unfold delta
    linarith
  constructor
  · unfold crossed phaseShift
    rw [hd]
  · have hg : ∀ i, gauged (fun i => phi i + 2 * pi * k i) li i = gauged phi li i + k 0 * (2 * pi) := by
      intro i
      unfold gauged
      rw [hd]
      fin_cases i <;> simp <;> ring
    funext i
    unfold psi
    rw [hg, Real.cos_add_int_mul_two_pi, Real.sin_add_int_mul_two_pi]

/-- C106: gauge invariance: adding any function `chi` to the phases and its differences to the line integrals does not change
the answer, and only rotates the values from which the point is computed. -/
theorem C106_gauge (rho phi li chi : Fin 3 → ℝ) :
    crossed (fun i => phi i + chi i) (fun i => li i + (chi (i + 1) - chi i)) = crossed phi li ∧
      ∀ i, psi rho (fun i => phi i + chi i) (fun i => li i + (chi (i + 1) - chi i)) i =
        ![Real.cos (chi 0) * psi rho phi li i 0 - Real.sin (chi 0) * psi rho phi li i 1,
          Real.sin (chi 0) * psi rho phi li i 0 + Real.cos (chi 0) * psi rho phi li i 1] := by
  have hd : delta (fun i => phi i + chi i) (fun i => li i + (chi (i + 1) - chi i)) = delta phi li := by
    funext i
    unfold delta
    congr 1
    ring
  constructor
  · unfold crossed phaseShift
    rw [hd]
  · have hg : ∀ i, gauged (fun i => phi i + chi i) (fun i => li i + (chi (i + 1) - chi i)) i = chi 0 + gauged phi li i := by
      intro i
      unfold gauged
      rw [hd]
      fin_cases i <;> simp <;> ring
    intro i
    funext j
    unfold psi
    rw [hg]
    fin_cases j
    · simp only [Fin.zero_eta, Matrix.cons_val_zero, Real.cos_add]
      simp
      ring
    · simp only [Fin.mk_one, Real.sin_add]
      simp
      ring

end Verif.Tdgl
