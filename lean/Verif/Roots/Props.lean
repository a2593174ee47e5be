import Verif.Roots.Model
import Verif.Poly.Props
import Mathlib.Algebra.Polynomial.Roots
import Mathlib.Tactic.Linarith
import Mathlib.Tactic.FieldSimp

/-!
# C67: the quadratic and cubic solvers return exactly the real roots

Specification: the real roots of the Mathlib polynomial `poly P m` (coefficients `P 0 … P m`), with Mathlib's
`rootMultiplicity`.
-/

namespace Verif.Roots

open Polynomial Verif.Poly

/-! ### Elementary facts -/

theorem cbrt_cube (s : ℝ) : cbrt s ^ 3 = s := by
  have h : ∀ s : ℝ, 0 ≤ s → (s ^ (1 / 3 : ℝ)) ^ 3 = s := by
    intro s hs
    rw [← Real.rpow_natCast, ← Real.rpow_mul hs]
    norm_num
  unfold cbrt
  split
  · rw [Odd.neg_pow (by decide), h _ (by linarith)]; ring
  · exact h s (by linarith)

theorem cube_inj {x y : ℝ} (h : x ^ 3 = y ^ 3) : x = y :=
  (Odd.strictMono_pow (by decide : Odd 3)).injective h

/-- the depressed form: `x³ + b x² + c x + d = y³ + 3 q y - 2 r` with `y = x + b/3`. -/
theorem depressed (b c d x : ℝ) :
    x ^ 3 + b * x ^ 2 + c * x + d = (x + b / 3) ^ 3 + 3 * cq b c * (x + b / 3) - 2 * cr b c d := by
  unfold cq cr; ring

/-- the three numbers are the roots of the monic cubic (Vieta). -/
def Roots3 (b c d x0 x1 x2 : ℝ) : Prop :=
  x0 + x1 + x2 = -b ∧ x0 * x1 + x0 * x2 + x1 * x2 = c ∧ x0 * x1 * x2 = -d

theorem Roots3.factor {b c d x0 x1 x2 : ℝ} (h : Roots3 b c d x0 x1 x2) (x : ℝ) :
    x ^ 3 + b * x ^ 2 + c * x + d = (x - x0) * (x - x1) * (x - x2) := by
  obtain ⟨h1, h2, h3⟩ := h
  have hb : b = -(x0 + x1 + x2) := by linarith
  have hd : d = -(x0 * x1 * x2) := by linarith
  rw [hb, ← h2, hd]; ring

theorem roots3_disc {b c d x0 x1 x2 : ℝ} (h : Roots3 b c d x0 x1 x2) :
    cdisc b c d = -((x0 - x1) * (x0 - x2) * (x1 - x2)) ^ 2 / 108 := by
  obtain ⟨h1, h2, h3⟩ := h
  have hb : b = -(x0 + x1 + x2) := by linarith
  have hd : d = -(x0 * x1 * x2) := by linarith
  unfold cdisc cq cr
  rw [hb, ← h2, hd]; ring

/-- from roots of the depressed cubic. -/
theorem roots3_of_depressed {b c d y0 y1 y2 : ℝ} (h1 : y0 + y1 + y2 = 0) (h2 : y0 * y1 + y0 * y2 + y1 * y2 = 3 * cq b c)
    (h3 : y0 * y1 * y2 = 2 * cr b c d) : Roots3 b c d (-(b / 3) + y0) (-(b / 3) + y1) (-(b / 3) + y2) := by
  refine ⟨by linarith, ?_, ?_⟩
  · have : (-(b / 3) + y0) * (-(b / 3) + y1) + (-(b / 3) + y0) * (-(b / 3) + y2) + (-(b / 3) + y1) * (-(b / 3) + y2)
        = b ^ 2 / 3 - 2 * (b / 3) * (y0 + y1 + y2) + (y0 * y1 + y0 * y2 + y1 * y2) := by ring
    rw [this, h1, h2]; unfold cq; ring
  · have : (-(b / 3) + y0) * (-(b / 3) + y1) * (-(b / 3) + y2)
        = -(b / 3) ^ 3 + (b / 3) ^ 2 * (y0 + y1 + y2) - (b / 3) * (y0 * y1 + y0 * y2 + y1 * y2) + y0 * y1 * y2 := by ring
    rw [this, h1, h2, h3]; unfold cq cr; ring

/-- `disc = 0`: the double-root formula. -/
theorem double_roots {b c d : ℝ} (h : cdisc b c d = 0) :
    Roots3 b c d (-(b / 3) + 2 * cbrt (cr b c d)) (-(cbrt (cr b c d) + b / 3)) (-(cbrt (cr b c d) + b / 3)) := by
  have hr := cbrt_cube (cr b c d)
  generalize hρ : cbrt (cr b c d) = ρ at *
  have hq : cq b c = -ρ ^ 2 := by
    apply cube_inj
    unfold cdisc at h
    rw [← hr] at h
    nlinarith
  have := roots3_of_depressed (b := b) (c := c) (d := d) (y0 := 2 * ρ) (y1 := -ρ) (y2 := -ρ) (by ring) (by rw [hq]; ring)
    (by rw [← hr]; ring)
  have e : -(ρ + b / 3) = -(b / 3) + -ρ := by ring
  rw [e]; exact this

theorem neg_q_pos {b c d : ℝ} (h : cdisc b c d < 0) : 0 < -cq b c := by
  by_contra hq
  have hq : 0 ≤ cq b c := by linarith
  have : 0 ≤ cdisc b c d := by
    unfold cdisc
    have := mul_nonneg (mul_nonneg hq hq) hq
    have := mul_self_nonneg (cr b c d)
    linarith
  linarith

/-- `disc < 0`: the trigonometric formula. -/
theorem trig_roots {b c d : ℝ} (h : cdisc b c d < 0) :
    Roots3 b c d (trigRoot b c d 0) (trigRoot b c d 2) (trigRoot b c d 4) := by
  have hq := neg_q_pos h
  set Q := -cq b c with hQ
  have hQ3 : 0 < Q * Q * Q := mul_pos (mul_pos hq hq) hq
  set S := Real.sqrt Q with hS
  have hSQ : S ^ 2 = Q := Real.sq_sqrt hq.le
  have hSpos : 0 < S := Real.sqrt_pos.2 hq
  have hS3 : Real.sqrt (Q * Q * Q) = S ^ 3 := by
    rw [show Q * Q * Q = (S ^ 3) ^ 2 by rw [← hSQ]; ring]
    exact Real.sqrt_sq (by positivity)
  have hle : (cr b c d / S ^ 3) ^ 2 ≤ 1 := by
    rw [div_pow, div_le_one (by positivity)]
    have : (S ^ 3) ^ 2 = Q * Q * Q := by rw [← hSQ]; ring
    rw [this]
    unfold cdisc at h
    have : Q * Q * Q = -(cq b c * cq b c * cq b c) := by rw [hQ]; ring
    rw [this]; nlinarith
  have habs : |cr b c d / S ^ 3| ≤ 1 := sq_le_one_iff_abs_le_one _ |>.1 hle
  obtain ⟨l1, l2⟩ := abs_le.1 habs
  set θ := Real.arccos (cr b c d / S ^ 3) with hθ
  have hcos : Real.cos θ = cr b c d / S ^ 3 := Real.cos_arccos l1 l2
  have hrS : cr b c d = S ^ 3 * Real.cos θ := by rw [hcos]; field_simp
  -- the three cosines
  set u := Real.cos (θ / 3) with hu
  set v := Real.sin (θ / 3) with hv
  have huv : u ^ 2 + v ^ 2 = 1 := Real.cos_sq_add_sin_sq _
  have h3u : Real.cos θ = 4 * u ^ 3 - 3 * u := by
    rw [hu, ← Real.cos_three_mul]; congr 1; ring
  have hs3 : Real.sqrt 3 ^ 2 = 3 := Real.sq_sqrt (by norm_num)
  have c1 : Real.cos ((θ + 2 * Real.pi) / 3) = -u / 2 - Real.sqrt 3 / 2 * v := by
    rw [show (θ + 2 * Real.pi) / 3 = θ / 3 + (Real.pi - Real.pi / 3) by ring, Real.cos_add, Real.cos_pi_sub, Real.sin_pi_sub,
      Real.cos_pi_div_three, Real.sin_pi_div_three]
    ring
  have c2 : Real.cos ((θ + 4 * Real.pi) / 3) = -u / 2 + Real.sqrt 3 / 2 * v := by
    rw [show (θ + 4 * Real.pi) / 3 = θ / 3 + (Real.pi + Real.pi / 3) by ring, Real.cos_add]
    rw [show Real.pi + Real.pi / 3 = Real.pi / 3 + Real.pi by ring, Real.cos_add_pi, Real.sin_add_pi,
      Real.cos_pi_div_three, Real.sin_pi_div_three]
    ring
  have c0 : Real.cos ((θ + 0 * Real.pi) / 3) = u := by rw [hu]; congr 1; ring
  unfold trigRoot
  simp only
  rw [← hQ, hS3, ← hθ, ← hS, c0, c1, c2]
  set s3 := Real.sqrt 3
  have hqS : cq b c = -S ^ 2 := by rw [hSQ, hQ]; ring
  apply roots3_of_depressed
  · ring
  · rw [hqS]
    have : 2 * S * u * (2 * S * (-u / 2 - s3 / 2 * v)) + 2 * S * u * (2 * S * (-u / 2 + s3 / 2 * v)) +
        2 * S * (-u / 2 - s3 / 2 * v) * (2 * S * (-u / 2 + s3 / 2 * v)) = S ^ 2 * (-3 * u ^ 2 - s3 ^ 2 * v ^ 2) := by ring
    rw [this, hs3]
    linear_combination (-3 * S ^ 2) * huv
  · rw [hrS, h3u]
    have : 2 * S * u * (2 * S * (-u / 2 - s3 / 2 * v)) * (2 * S * (-u / 2 + s3 / 2 * v)) =
        2 * S ^ 3 * (u ^ 3 - s3 ^ 2 * (u * v ^ 2)) := by ring
    rw [this, hs3]
    linear_combination (-6 * S ^ 3 * u) * huv

/-- `disc > 0`: one root, and the remaining quadratic factor is positive. -/
theorem one_root {b c d : ℝ} (h : 0 < cdisc b c d) :
    ∃ u v : ℝ, (∀ x, x ^ 3 + b * x ^ 2 + c * x + d = (x - oneRoot b c d) * (x ^ 2 + u * x + v)) ∧
      u ^ 2 - 4 * v < 0 := by
  set S := Real.sqrt (cdisc b c d) with hS
  have hS2 : S ^ 2 = cdisc b c d := Real.sq_sqrt h.le
  have hSpos : 0 < S := Real.sqrt_pos.2 h
  have hs := cbrt_cube (cr b c d + S)
  have ht := cbrt_cube (cr b c d - S)
  have hroot : oneRoot b c d = -(b / 3) + cbrt (cr b c d + S) + cbrt (cr b c d - S) := rfl
  rw [hroot]
  generalize cbrt (cr b c d + S) = s at *
  generalize cbrt (cr b c d - S) = t at *
  have hst : s * t = -cq b c := by
    apply cube_inj
    rw [mul_pow, hs, ht]
    have : (cr b c d + S) * (cr b c d - S) = cr b c d * cr b c d - S ^ 2 := by ring
    rw [this, hS2]; unfold cdisc; ring
  have hr : 2 * cr b c d = s ^ 3 + t ^ 3 := by rw [hs, ht]; ring
  have hne : s ≠ t := by
    intro e; rw [e, ht] at hs; linarith
  have hq : cq b c = -(s * t) := by linarith
  -- y² + (s+t) y + s² - st + t², y = x + b/3
  refine ⟨2 * (b / 3) + (s + t), (b / 3) ^ 2 + (s + t) * (b / 3) + (s ^ 2 - s * t + t ^ 2), ?_, ?_⟩
  · intro x
    rw [depressed, hq, hr]; ring
  · have : (2 * (b / 3) + (s + t)) ^ 2 - 4 * ((b / 3) ^ 2 + (s + t) * (b / 3) + (s ^ 2 - s * t + t ^ 2)) = -3 * (s - t) ^ 2 := by ring
    rw [this]
    have : 0 < (s - t) ^ 2 := by
      have : s - t ≠ 0 := sub_ne_zero.2 hne
      positivity
    linarith

theorem quad_pos {u v : ℝ} (h : u ^ 2 - 4 * v < 0) (x : ℝ) : x ^ 2 + u * x + v ≠ 0 := by
  intro e
  nlinarith [sq_nonneg (2 * x + u)]

/-! ### Multiplicities -/

theorem poly_ext {p q : ℝ[X]} (h : ∀ x, p.eval x = q.eval x) : p = q := Polynomial.funext h

theorem rm_ind (x a : ℝ) : rootMultiplicity x (X - C a) = if x = a then 1 else 0 := by
  classical
  rw [rootMultiplicity_X_sub_C]

theorem rm_C_mul {a : ℝ} (ha : a ≠ 0) {p : ℝ[X]} (hp : p ≠ 0) (x : ℝ) : rootMultiplicity x (C a * p) = rootMultiplicity x p := by
  rw [rootMultiplicity_mul (mul_ne_zero (by simpa using ha) hp), rootMultiplicity_C, zero_add]

theorem rm3 {p : ℝ[X]} {a x0 x1 x2 : ℝ} (ha : a ≠ 0) (h : ∀ x, p.eval x = a * ((x - x0) * (x - x1) * (x - x2))) (x : ℝ) :
    rootMultiplicity x p = (if x = x0 then 1 else 0) + (if x = x1 then 1 else 0) + (if x = x2 then 1 else 0) := by
  have hp : p = C a * ((X - C x0) * (X - C x1) * (X - C x2)) := poly_ext fun x => by rw [h]; simp
  have n0 := X_sub_C_ne_zero x0
  have n1 := X_sub_C_ne_zero x1
  have n2 := X_sub_C_ne_zero x2
  rw [hp, rm_C_mul ha (mul_ne_zero (mul_ne_zero n0 n1) n2), rootMultiplicity_mul (mul_ne_zero (mul_ne_zero n0 n1) n2),
    rootMultiplicity_mul (mul_ne_zero n0 n1), rm_ind, rm_ind, rm_ind]

theorem rm2 {p : ℝ[X]} {a x0 x1 : ℝ} (ha : a ≠ 0) (h : ∀ x, p.eval x = a * ((x - x0) * (x - x1))) (x : ℝ) :
    rootMultiplicity x p = (if x = x0 then 1 else 0) + (if x = x1 then 1 else 0) := by
  have hp : p = C a * ((X - C x0) * (X - C x1)) := poly_ext fun x => by rw [h]; simp
  have n0 := X_sub_C_ne_zero x0
  have n1 := X_sub_C_ne_zero x1
  rw [hp, rm_C_mul ha (mul_ne_zero n0 n1), rootMultiplicity_mul (mul_ne_zero n0 n1), rm_ind, rm_ind]

theorem rm1 {p : ℝ[X]} {a x0 : ℝ} (ha : a ≠ 0) (h : ∀ x, p.eval x = a * (x - x0)) (x : ℝ) :
    rootMultiplicity x p = (if x = x0 then 1 else 0) := by
  have hp : p = C a * (X - C x0) := poly_ext fun x => by rw [h]; simp
  rw [hp, rm_C_mul ha (X_sub_C_ne_zero x0), rm_ind]

theorem rm0 {p : ℝ[X]} (h : ∀ x, p.eval x ≠ 0) (x : ℝ) : rootMultiplicity x p = 0 :=
  rootMultiplicity_eq_zero (h x)

theorem rm12 {p : ℝ[X]} {a x0 u v : ℝ} (ha : a ≠ 0) (h : ∀ x, p.eval x = a * ((x - x0) * (x ^ 2 + u * x + v)))
    (hd : u ^ 2 - 4 * v < 0) (x : ℝ) : rootMultiplicity x p = (if x = x0 then 1 else 0) := by
  have hp : p = C a * ((X - C x0) * (X ^ 2 + C u * X + C v)) := poly_ext fun x => by rw [h]; simp
  have n0 := X_sub_C_ne_zero x0
  have n1 : (X ^ 2 + C u * X + C v : ℝ[X]) ≠ 0 := by
    intro e
    have := congrArg (fun p => p.eval x) e
    simp at this
    exact quad_pos hd x this
  rw [hp, rm_C_mul ha (mul_ne_zero n0 n1), rootMultiplicity_mul (mul_ne_zero n0 n1), rm_ind, rm0 (p := X ^ 2 + C u * X + C v) (fun y => by simpa using quad_pos hd y), add_zero]

theorem eval2 (P : ℕ → ℝ) (x : ℝ) : (poly P 2).eval x = P 0 + P 1 * x + P 2 * x ^ 2 := by
  rw [eval_poly]; simp [Finset.sum_range_succ]
theorem eval3 (P : ℕ → ℝ) (x : ℝ) : (poly P 3).eval x = P 0 + P 1 * x + P 2 * x ^ 2 + P 3 * x ^ 3 := by
  rw [eval_poly]; simp [Finset.sum_range_succ]
theorem eval1 (P : ℕ → ℝ) (x : ℝ) : (poly P 1).eval x = P 0 + P 1 * x := by
  rw [eval_poly]; simp [Finset.sum_range_succ]

theorem addRoot_apply (m : RMap) (x y : ℝ) (k : ℕ) : addRoot m x k y = m y + if y = x then k else 0 := by
  unfold addRoot; rw [Function.update_apply]
  split
  · subst_vars; rfl
  · rfl

theorem setRoot_zero (x y : ℝ) (k : ℕ) : setRoot 0 x k y = if y = x then k else 0 := by
  unfold setRoot; rw [Function.update_apply]; rfl

/-- the monic solver with multiplicities, times a leading coefficient `a`. -/
theorem cubicMonicMult_eq {p : ℝ[X]} {a b c d : ℝ} (ha : a ≠ 0) (hp : ∀ x, p.eval x = a * (x ^ 3 + b * x ^ 2 + c * x + d)) (x : ℝ) :
    cubicMonicMult b c d x = rootMultiplicity x p := by
  unfold cubicMonicMult
  split
  · rename_i h
    obtain ⟨u, v, h1, h2⟩ := one_root h
    rw [rm12 ha (fun x => by rw [hp, h1]) h2, addRoot_apply]; simp
  · split
    · rename_i h
      rw [rm3 ha (fun x => by rw [hp, (double_roots h).factor]), addRoot_apply, addRoot_apply]
      simp only [Pi.zero_apply, zero_add, add_assoc]
      split <;> split <;> rfl
    · rename_i h1 h2
      have h : cdisc b c d < 0 := lt_of_le_of_ne (not_lt.1 h1) h2
      rw [rm3 ha (fun x => by rw [hp, (trig_roots h).factor]), addRoot_apply, addRoot_apply, addRoot_apply]
      simp

/-- Coefficient `a` is "not tiny": it is zero, or it exceeds both tolerances. -/
def NotTiny (epsM eps a : ℝ) : Prop := a = 0 ∨ (eps < |a| ∧ epsM ≤ |a|)

theorem quad_delta_pos {P : ℕ → ℝ} (h2 : P 2 ≠ 0) (hd : 0 < P 1 * P 1 - 4 * P 2 * P 0) (x : ℝ) :
    P 0 + P 1 * x + P 2 * x ^ 2 = P 2 * ((x - (-P 1 + Real.sqrt (P 1 * P 1 - 4 * P 2 * P 0)) / (2 * P 2)) *
      (x - (-P 1 - Real.sqrt (P 1 * P 1 - 4 * P 2 * P 0)) / (2 * P 2))) := by
  have hs := Real.sq_sqrt hd.le
  generalize Real.sqrt (P 1 * P 1 - 4 * P 2 * P 0) = s at *
  field_simp
  linear_combination hs

theorem quad_delta_zero {P : ℕ → ℝ} (h2 : P 2 ≠ 0) (hd : P 1 * P 1 - 4 * P 2 * P 0 = 0) (x : ℝ) :
    P 0 + P 1 * x + P 2 * x ^ 2 = P 2 * ((x - -P 1 / (2 * P 2)) * (x - -P 1 / (2 * P 2))) := by
  field_simp
  linear_combination (-1 : ℝ) * hd

theorem quad_delta_neg {P : ℕ → ℝ} (hd : P 1 * P 1 - 4 * P 2 * P 0 < 0) (x : ℝ) :
    P 0 + P 1 * x + P 2 * x ^ 2 ≠ 0 := by
  intro e
  have : (2 * P 2 * x + P 1) ^ 2 = P 1 * P 1 - 4 * P 2 * P 0 := by linear_combination 4 * P 2 * e
  nlinarith [sq_nonneg (2 * P 2 * x + P 1)]

theorem notTiny_le {epsM eps a : ℝ} (heps : 0 ≤ eps) (h : NotTiny epsM eps a) : |a| ≤ eps ↔ a = 0 := by
  rcases h with h | h
  · simp [h, heps]
  · have : a ≠ 0 := by intro e; subst e; simp at h; linarith
    simp [this]; exact h.1

theorem notTiny_lt {epsM eps a : ℝ} (heps : 0 < epsM) (h : NotTiny epsM eps a) : |a| < epsM ↔ a = 0 := by
  rcases h with h | h
  · simp [h, heps]
  · have : a ≠ 0 := by intro e; subst e; simp at h; linarith
    simp [this]; exact h.2

/-- C67: `solve_quadratic_real_multiplicity` returns every real root with its multiplicity and nothing else, for every
polynomial of degree at most 2, including lower degrees, that is not the zero polynomial. -/
theorem C67_quadratic_multiplicity (epsM eps : ℝ) (hM : 0 < epsM) (he : 0 ≤ eps) (P : ℕ → ℝ) (hP : ∀ i, NotTiny epsM eps (P i))
    (hne : poly P 2 ≠ 0) (x : ℝ) : quadraticMult epsM eps P x = rootMultiplicity x (poly P 2) := by
  unfold quadraticMult linearRoot
  simp only [notTiny_le he (hP _), notTiny_lt hM (hP _)]
  by_cases h2 : P 2 = 0
  · rw [if_pos h2]
    by_cases h1 : P 1 = 0
    · rw [if_pos h1]
      have h0 : P 0 ≠ 0 := by
        intro h0
        apply hne; apply poly_ext; intro x; rw [eval2, h0, h1, h2]; simp
      rw [rm0]; · rfl
      intro y; rw [eval2, h1, h2]; simpa using h0
    · rw [if_neg h1, rm1 (a := P 1) (x0 := -P 0 / P 1) h1]
      · exact setRoot_zero _ _ _
      intro y; rw [eval2, h2]; field_simp; ring
  · rw [if_neg h2]
    by_cases h0 : P 0 = 0
    · rw [if_pos h0]
      simp only [show (0 : ℕ) + 1 = 1 from rfl, show (1 : ℕ) + 1 = 2 from rfl, if_neg h2]
      rw [rm2 (a := P 2) (x0 := -P 1 / P 2) (x1 := 0) h2, addRoot_apply, setRoot_zero]
      intro y; rw [eval2, h0]; field_simp; ring
    · rw [if_neg h0]
      split
      · rename_i hd
        rw [rm2 h2 (fun y => by rw [eval2, quad_delta_pos h2 hd]), addRoot_apply, addRoot_apply]; simp
      · split
        · rename_i hd
          rw [rm2 h2 (fun y => by rw [eval2, quad_delta_zero h2 hd]), setRoot_zero]
          split <;> rfl
        · rename_i h1 h2'
          rw [rm0]; · rfl
          intro y; rw [eval2]; exact quad_delta_neg (lt_of_le_of_ne (not_lt.1 h1) h2') y

/-- C67: `solve_cubic_real_multiplicity` returns every real root with its multiplicity and nothing else, for every
polynomial of degree at most 3, including lower degrees, that is not the zero polynomial. -/
theorem C67_cubic_multiplicity (epsM eps : ℝ) (hM : 0 < epsM) (he : 0 ≤ eps) (P : ℕ → ℝ) (hP : ∀ i, NotTiny epsM eps (P i))
    (hne : poly P 3 ≠ 0) (x : ℝ) : cubicMult epsM eps P x = rootMultiplicity x (poly P 3) := by
  unfold cubicMult
  simp only [notTiny_le he (hP _)]
  by_cases h3 : P 3 = 0
  · have e : poly P 3 = poly P 2 := poly_ext fun y => by rw [eval3, eval2, h3]; ring
    rw [if_pos h3, e]
    exact C67_quadratic_multiplicity epsM eps hM he P hP (e ▸ hne) x
  · rw [if_neg h3]
    by_cases h0 : P 0 = 0
    · have e : poly P 3 = (X - C 0) * poly (fun i => P (i + 1)) 2 := poly_ext fun y => by
        rw [eval_mul, eval3, eval2, h0]; simp; ring
      have hn : poly (fun i => P (i + 1)) 2 ≠ 0 := fun h => hne (by rw [e, h, mul_zero])
      rw [if_pos h0, addRoot_apply, C67_quadratic_multiplicity epsM eps hM he (fun i => P (i + 1)) (fun i => hP _) hn, e,
        rootMultiplicity_mul (e ▸ hne), rm_ind, add_comm]
    · rw [if_neg h0]
      exact cubicMonicMult_eq h3 (fun y => by rw [eval3]; field_simp; ring) x

/-! ### The array versions -/

/-- The first `n` cells of the array hold exactly the real roots of `p`, without repetition. -/
def Holds (p : ℝ[X]) (n : ℕ) (x : Mem) : Prop :=
  ∃ l : List ℝ, x.take n = l.map some ∧ l.length = n ∧ l.Nodup ∧ ∀ y, y ∈ l ↔ p.IsRoot y

theorem write3 (a0 a1 a2 : Option ℝ) (v : ℝ) :
    write [a0, a1, a2] 0 v = some [some v, a1, a2] ∧ write [a0, a1, a2] 1 v = some [a0, some v, a2] ∧
    write [a0, a1, a2] 2 v = some [a0, a1, some v] := by
  simp [write]
theorem write2 (a0 a1 : Option ℝ) (v : ℝ) :
    write [a0, a1] 0 v = some [some v, a1] ∧ write [a0, a1] 1 v = some [a0, some v] ∧ write [a0, a1] 2 v = none := by
  simp [write]

/-- reading the distinct roots off a multiplicity formula -/
theorem isRoot_iff {p : ℝ[X]} (hp : p ≠ 0) (x : ℝ) : p.IsRoot x ↔ rootMultiplicity x p ≠ 0 := by
  rw [← Nat.pos_iff_ne_zero, rootMultiplicity_pos hp]

/-- C67: the quadratic solver with a two-cell output array, when it does not take the defective branch (non-zero leading
coefficient and zero constant coefficient): it returns exactly the distinct real roots.
Full statement: the same without `hbad`; false of the code, see `C67_quadratic_out_of_bounds`. -/
theorem C67_quadratic_partial (epsM eps : ℝ) (hM : 0 < epsM) (he : 0 ≤ eps) (P : ℕ → ℝ) (hP : ∀ i, NotTiny epsM eps (P i))
    (hne : poly P 2 ≠ 0) (hbad : ¬ (P 2 ≠ 0 ∧ P 0 = 0)) (rest : Mem) (a0 a1 : Option ℝ) :
    ∃ n x, solveQuadratic epsM eps P (a0 :: a1 :: rest) = some (n, x) ∧ n ≤ 2 ∧ x.length = rest.length + 2 ∧ Holds (poly P 2) n x := by
  have hw0 : ∀ (a0 : Option ℝ) l v, write (a0 :: l) 0 v = some (some v :: l) := by intro a0 l v; simp [write]
  have hw1 : ∀ (a0 a1 : Option ℝ) l v, write (a0 :: a1 :: l) 1 v = some (a0 :: some v :: l) := by intro a0 a1 l v; simp [write]
  unfold solveQuadratic solveLinear
  simp only [notTiny_le he (hP _), notTiny_lt hM (hP _)]
  by_cases h2 : P 2 = 0
  · rw [if_pos h2]
    by_cases h1 : P 1 = 0
    · rw [if_pos h1]
      have h0 : P 0 ≠ 0 := by
        intro h0
        apply hne; apply poly_ext; intro x; rw [eval2, h0, h1, h2]; simp
      refine ⟨0, _, rfl, by omega, rfl, [], by simp, rfl, List.nodup_nil, fun y => ?_⟩
      simp only [List.not_mem_nil, false_iff, IsRoot, eval2, h1, h2]; simpa using h0
    · rw [if_neg h1, hw0]
      refine ⟨1, _, rfl, by omega, rfl, [-P 0 / P 1], by simp, rfl, by simp, fun y => ?_⟩
      simp only [List.mem_singleton, IsRoot, eval2, h2]
      rw [eq_div_iff h1]
      constructor
      · intro h; linear_combination h
      · intro h; linear_combination h
  · have h0 : P 0 ≠ 0 := fun h => hbad ⟨h2, h⟩
    rw [if_neg h2, if_neg h0]
    split
    · rename_i hd
      simp only [hw0, hw1, Option.bind_eq_bind, Option.bind_some]
      refine ⟨2, _, rfl, by omega, rfl, [(-P 1 + Real.sqrt (P 1 * P 1 - 4 * P 2 * P 0)) / (2 * P 2),
        (-P 1 - Real.sqrt (P 1 * P 1 - 4 * P 2 * P 0)) / (2 * P 2)], by simp, rfl, ?_, fun y => ?_⟩
      · simp only [List.nodup_cons, List.mem_singleton, List.not_mem_nil, not_false_iff, List.nodup_nil, and_true]
        intro e
        have hs := Real.sqrt_pos.2 hd
        rw [div_left_inj' (mul_ne_zero two_ne_zero h2)] at e
        linarith
      · rw [IsRoot, eval2, quad_delta_pos h2 hd, mul_eq_zero, mul_eq_zero, sub_eq_zero, sub_eq_zero]
        simp [h2]
    · split
      · rename_i hd
        simp only [hw0, Option.bind_eq_bind, Option.bind_some]
        refine ⟨1, _, rfl, by omega, rfl, [-P 1 / (2 * P 2)], by simp, rfl, by simp, fun y => ?_⟩
        rw [IsRoot, eval2, quad_delta_zero h2 hd, mul_eq_zero, mul_eq_zero, sub_eq_zero]
        simp [h2]
      · rename_i h1 h2'
        refine ⟨0, _, rfl, by omega, rfl, [], by simp, rfl, List.nodup_nil, fun y => ?_⟩
        simp only [List.not_mem_nil, false_iff, IsRoot, eval2]
        exact quad_delta_neg (lt_of_le_of_ne (not_lt.1 h1) h2') y

/-- C67 (finding): with a non-zero leading and a zero constant coefficient the quadratic solver always writes `x[2]`: out of
bounds for the documented two-cell array; with a larger array it returns 2 and leaves `x[1]` unwritten. -/
theorem C67_quadratic_out_of_bounds (epsM eps : ℝ) (hM : 0 < epsM) (he : 0 ≤ eps) (P : ℕ → ℝ) (hP : ∀ i, NotTiny epsM eps (P i))
    (h2 : P 2 ≠ 0) (h0 : P 0 = 0) (a0 a1 a2 : Option ℝ) :
    solveQuadratic epsM eps P [a0, a1] = none ∧
    solveQuadratic epsM eps P [a0, a1, a2] = some (2, [some (-P 1 / P 2), a1, some 0]) := by
  unfold solveQuadratic solveLinear
  simp only [notTiny_le he (hP _), notTiny_lt hM (hP _), if_neg h2, if_pos h0, show (0 : ℕ) + 1 = 1 from rfl,
    show (1 : ℕ) + 1 = 2 from rfl]
  constructor <;> simp [write]

/-- The cubic solver for non-zero leading and constant coefficients. -/
theorem solveCubicMonic_holds {p : ℝ[X]} {a b c d : ℝ} (ha : a ≠ 0) (hp : ∀ x, p.eval x = a * (x ^ 3 + b * x ^ 2 + c * x + d))
    (a0 a1 a2 : Option ℝ) :
    ∃ n x, solveCubicMonic b c d [a0, a1, a2] = some (n, x) ∧ n ≤ 3 ∧ Holds p n x := by
  unfold solveCubicMonic
  split
  · rename_i h
    obtain ⟨u, v, h1, h2⟩ := one_root h
    simp only [(write3 _ _ _ _).1, Option.bind_eq_bind, Option.bind_some]
    refine ⟨1, _, rfl, by omega, [oneRoot b c d], by simp, rfl, by simp, fun y => ?_⟩
    rw [IsRoot, hp, h1]
    simp [ha, quad_pos h2 y, sub_eq_zero]
  · split
    · rename_i h
      have hf := (double_roots h).factor
      simp only [(write3 _ _ _ _).1, (write3 _ _ _ _).2.1, Option.bind_eq_bind, Option.bind_some]
      split
      · rename_i e
        refine ⟨1, _, rfl, by omega, [-(b / 3) + 2 * cbrt (cr b c d)], by simp, rfl, by simp, fun y => ?_⟩
        rw [IsRoot, hp, hf, ← e]
        simp [ha, sub_eq_zero]
      · rename_i e
        refine ⟨2, _, rfl, by omega, [-(b / 3) + 2 * cbrt (cr b c d), -(cbrt (cr b c d) + b / 3)], by simp, rfl, by simpa using e, fun y => ?_⟩
        rw [IsRoot, hp, hf, mul_eq_zero, mul_eq_zero, mul_eq_zero, sub_eq_zero, sub_eq_zero]
        simp only [ha, List.mem_cons, List.not_mem_nil, or_false, false_or]
        tauto
    · rename_i h1 h2
      have h : cdisc b c d < 0 := lt_of_le_of_ne (not_lt.1 h1) h2
      have hr := trig_roots h
      simp only [(write3 _ _ _ _).1, (write3 _ _ _ _).2.1, (write3 _ _ _ _).2.2, Option.bind_eq_bind, Option.bind_some]
      refine ⟨3, _, rfl, by omega, [trigRoot b c d 0, trigRoot b c d 2, trigRoot b c d 4], by simp, rfl, ?_, fun y => ?_⟩
      · have hdd := roots3_disc hr
        simp only [List.nodup_cons, List.mem_cons, List.not_mem_nil, or_false, not_or, not_false_iff, List.nodup_nil, and_true]
        refine ⟨⟨?_, ?_⟩, ?_⟩ <;>
        · intro e
          rw [e] at hdd
          simp at hdd
          exact h2 hdd
      · rw [IsRoot, hp, hr.factor, mul_eq_zero, mul_eq_zero, mul_eq_zero, sub_eq_zero, sub_eq_zero, sub_eq_zero]
        simp only [ha, List.mem_cons, List.not_mem_nil, or_false, false_or]
        tauto

/-- C67: the cubic solver with a three-cell output array returns exactly the distinct real roots, for every non-zero
polynomial of degree at most 3, unless it falls into the defective branch of the quadratic solver: leading quadratic
coefficient non-zero and constant coefficient zero there.
Full statement: the same without `hbad`; false of the code, see `C67_cubic_uninitialised`. -/
theorem C67_cubic_partial (epsM eps : ℝ) (hM : 0 < epsM) (he : 0 ≤ eps) (P : ℕ → ℝ) (hP : ∀ i, NotTiny epsM eps (P i))
    (hne : poly P 3 ≠ 0) (hbad : ¬ (P 3 = 0 ∧ P 2 ≠ 0 ∧ P 0 = 0) ∧ ¬ (P 3 ≠ 0 ∧ P 0 = 0 ∧ P 1 = 0)) (a0 a1 a2 : Option ℝ) :
    ∃ n x, solveCubic epsM eps P [a0, a1, a2] = some (n, x) ∧ n ≤ 3 ∧ Holds (poly P 3) n x := by
  unfold solveCubic
  simp only [notTiny_le he (hP _)]
  by_cases h3 : P 3 = 0
  · have e : poly P 3 = poly P 2 := poly_ext fun y => by rw [eval3, eval2, h3]; ring
    rw [if_pos h3, e]
    obtain ⟨n, x, h1, h2, _, h4⟩ := C67_quadratic_partial epsM eps hM he P hP (e ▸ hne) (fun h => hbad.1 ⟨h3, h⟩) [a2] a0 a1
    exact ⟨n, x, h1, by omega, h4⟩
  · rw [if_neg h3]
    by_cases h0 : P 0 = 0
    · have e : ∀ y, (poly P 3).eval y = y * (poly (fun i => P (i + 1)) 2).eval y := fun y => by
        rw [eval3, eval2, h0]; ring
      have hn : poly (fun i => P (i + 1)) 2 ≠ 0 := fun h => hne (poly_ext fun y => by rw [e, h]; simp)
      have h1 : P 1 ≠ 0 := fun h => hbad.2 ⟨h3, h0, h⟩
      rw [if_pos h0]
      obtain ⟨n, x, g1, g2, g3, l, l1, l2, l3, l4⟩ := C67_quadratic_partial epsM eps hM he (fun i => P (i + 1)) (fun i => hP _) hn
        (fun h => h1 h.2) [a2] a0 a1
      have hw : write x n 0 = some (x.set n (some 0)) := by
        unfold write; rw [if_pos (by rw [g3]; simp; omega)]
      simp only [g1, hw, Option.bind_eq_bind, Option.bind_some]
      refine ⟨n + 1, _, rfl, by omega, l ++ [0], ?_, by simp [l2], ?_, fun y => ?_⟩
      · have hnl : n < x.length := by rw [g3]; simp; omega
        rw [List.map_append, ← l1]
        simp only [List.map_cons, List.map_nil]
        rw [List.take_set, List.take_add_one]
        rw [List.getElem?_eq_getElem hnl]
        simp only [Option.toList_some]
        rw [List.set_append_right _ _ (by simp)]
        simp [Nat.min_eq_left hnl.le]
      · rw [List.nodup_append]
        refine ⟨l3, by simp, ?_⟩
        intro a ha b hb
        simp only [List.mem_singleton] at hb
        subst hb
        intro h; subst h
        have := (l4 0).1 ha
        simp only [IsRoot, eval2] at this
        simp at this
        exact h1 this
      · simp only [List.mem_append, List.mem_singleton, l4, IsRoot, e, mul_eq_zero]
        tauto
    · rw [if_neg h0]
      exact solveCubicMonic_holds h3 (fun y => by rw [eval3]; field_simp; ring) a0 a1 a2

/-- C67 (finding): for `x³ + p x²` the cubic solver claims three roots but the second one is whatever was in the array. -/
theorem C67_cubic_uninitialised (epsM eps : ℝ) (hM : 0 < epsM) (he : 0 ≤ eps) (P : ℕ → ℝ) (hP : ∀ i, NotTiny epsM eps (P i))
    (h3 : P 3 ≠ 0) (h0 : P 0 = 0) (h1 : P 1 = 0) (a0 a1 a2 : Option ℝ) :
    solveCubic epsM eps P [a0, a1, a2] = some (3, [some (-P 2 / P 3), a1, some 0]) := by
  unfold solveCubic
  simp only [notTiny_le he (hP _), if_neg h3, if_pos h0]
  have := (C67_quadratic_out_of_bounds epsM eps hM he (fun i => P (i + 1)) (fun i => hP _) h3 h1 a0 a1 a2).2
  simp only [this, Option.bind_eq_bind, Option.bind_some]
  simp [write]

/-! Concrete cases meeting the hypotheses. -/

theorem notTiny_int (k : ℤ) : NotTiny (1 / 2) (1 / 2) (k : ℝ) := by
  by_cases h : k = 0
  · left; simp [h]
  · right
    have h1 : (1 : ℝ) ≤ |(k : ℝ)| := by
      rw [← Int.cast_abs]; exact_mod_cast Int.one_le_abs h
    constructor <;> linarith

/-- `(x-1)(x-2)(x-3) = x³ - 6x² + 11x - 6` meets the hypotheses, so the solver returns 1, 2 and 3 each once. -/
example : ∀ y : ℝ, cubicMult (1 / 2) (1 / 2) (fun i => ((([-6, 11, -6, 1] : List ℤ).getD i 0 : ℤ) : ℝ)) y =
    (if y = 1 then 1 else 0) + (if y = 2 then 1 else 0) + (if y = 3 then 1 else 0) := by
  intro y
  have hev : ∀ x : ℝ, (poly (fun i => ((([-6, 11, -6, 1] : List ℤ).getD i 0 : ℤ) : ℝ)) 3).eval x = 1 * ((x - 1) * (x - 2) * (x - 3)) := by
    intro x; rw [eval3]; simp; ring
  rw [C67_cubic_multiplicity (1 / 2) (1 / 2) (by norm_num) (by norm_num) _ (fun i => notTiny_int _) ?_, rm3 one_ne_zero hev]
  intro h
  have := hev 0
  rw [h] at this
  norm_num at this

end Verif.Roots
