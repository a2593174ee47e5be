import Verif.Roots.Props
import Verif.CPType.Model
import Mathlib.Analysis.SpecialFunctions.Pow.Real
import Mathlib.Analysis.SpecialFunctions.Pow.Complex
import Mathlib.Tactic.LinearCombination
/-! # The complex polynomial solvers (C81): `quadratic_solver.hh`, `cubic_solver.hh`, `quartic_solver.hh`

Exact complex arithmetic with the principal powers.  Specification: the numbers returned are all the complex roots with
multiplicity, i.e. the polynomial is the product of the linear factors. -/
namespace Verif.Roots
open Verif.CPType

/-! ## Model -/

/-- `solve_cubic(b, c, d, x)`, include/ftk/numeric/cubic_solver.hh:26-73: the returned discriminant and the three roots. -/
noncomputable def solveCubicC (b c d : ℝ) : ℝ × ℂ × ℂ × ℂ :=
  if cdisc b c d > 0 then
    let s := cbrt (cr b c d + Real.sqrt (cdisc b c d))
    let t := cbrt (cr b c d - Real.sqrt (cdisc b c d))
    let re := -(b / 3 + (s + t) / 2)
    let im := Real.sqrt 3 * (-t + s) / 2
    (cdisc b c d, ((-(b / 3) + s + t : ℝ) : ℂ), ⟨re, im⟩, ⟨re, -im⟩)
  else if cdisc b c d = 0 then
    let r13 := cbrt (cr b c d)
    (cdisc b c d, ((-(b / 3) + 2 * r13 : ℝ) : ℂ), ((-(r13 + b / 3) : ℝ) : ℂ), ((-(r13 + b / 3) : ℝ) : ℂ))
  else (cdisc b c d, (trigRoot b c d 0 : ℂ), (trigRoot b c d 2 : ℂ), (trigRoot b c d 4 : ℂ))

/-- `complex_sqrt`, include/ftk/numeric/sqrt.hh:11-14 -/
noncomputable def csqrt (z : ℂ) : ℂ := complexSqrt z
/-- `complex_cbrt`, include/ftk/numeric/cbrt.hh:11-14 -/
noncomputable def ccbrt (z : ℂ) : ℂ := z ^ ((1 : ℂ) / 3)

/-- `quartic_solve`, include/ftk/numeric/quartic_solver.hh:13-33.  `none`: a division by zero, the roots are NaN. -/
noncomputable def quarticSolve (b_ c_ d_ e_ : ℝ) : Option (ℂ × ℂ × ℂ × ℂ) :=
  let b : ℂ := b_
  let c : ℂ := c_
  let d : ℂ := d_
  let e : ℂ := e_
  let Q1 := c * c - 3 * b * d + 12 * e
  let Q2 := 2 * c * c * c - 9 * b * c * d + 27 * d * d + 27 * b * b * e - 72 * c * e
  let Q3 := 8 * b * c - 16 * d - 2 * b * b * b
  let Q4 := 3 * b * b - 8 * c
  let Q5 := ccbrt (Q2 / 2 + csqrt (Q2 * Q2 / 4 - Q1 * Q1 * Q1))
  if Q5 = 0 then none else
  let Q6 := (Q1 / Q5 + Q5) / 3
  let Q7 := 2 * csqrt (Q4 / 12 + Q6)
  if Q7 = 0 then none else
  some ((-b - Q7 - csqrt (4 * Q4 / 6 - 4 * Q6 - Q3 / Q7)) / 4,
    (-b - Q7 + csqrt (4 * Q4 / 6 - 4 * Q6 - Q3 / Q7)) / 4,
    (-b + Q7 - csqrt (4 * Q4 / 6 - 4 * Q6 + Q3 / Q7)) / 4,
    (-b + Q7 + csqrt (4 * Q4 / 6 - 4 * Q6 + Q3 / Q7)) / 4)

/-! ## Lemmas -/

theorem csqrt_sq (z : ℂ) : csqrt z ^ 2 = z := by
  rw [csqrt, complexSqrt, show (((1 / 2 : ℝ)) : ℂ) = ((2 : ℕ) : ℂ)⁻¹ by push_cast; ring]
  exact Complex.cpow_nat_inv_pow z (n := 2) (by norm_num)

theorem ccbrt_cube (z : ℂ) : ccbrt z ^ 3 = z := by
  rw [ccbrt, one_div]
  exact_mod_cast Complex.cpow_nat_inv_pow z (n := 3) (by norm_num)

/-! ## Theorems -/

/-- `solve_quadratic`: both complex roots, with multiplicity. -/
theorem C81_quadratic (P : Fin 3 → ℝ) (h : P 2 ≠ 0) (x : ℂ) :
    (P 0 + P 1 * x + P 2 * x ^ 2 : ℂ) = P 2 * ((x - (solveQuadraticC P).2.1) * (x - (solveQuadraticC P).2.2)) ∧
    (solveQuadraticC P).1 = P 1 ^ 2 - 4 * P 2 * P 0 := by
  have hd : (2 * (P 2 : ℂ)) ≠ 0 := mul_ne_zero two_ne_zero (by exact_mod_cast h)
  have key : ∀ w : ℂ, w ^ 2 = ((P 1 * P 1 - 4 * P 2 * P 0 : ℝ) : ℂ) →
      (P 0 + P 1 * x + P 2 * x ^ 2 : ℂ) = P 2 * ((x - (-(P 1 : ℂ) + w) / (2 * P 2)) * (x - (-(P 1 : ℂ) - w) / (2 * P 2))) := by
    intro w hw
    push_cast at hw
    have hp : (P 2 : ℂ) ≠ 0 := by exact_mod_cast h
    field_simp
    linear_combination hw
  unfold solveQuadraticC
  by_cases hdl : P 1 * P 1 - 4 * P 2 * P 0 ≥ 0
  · simp only [if_pos hdl]
    refine ⟨?_, by ring⟩
    rw [key (Real.sqrt (P 1 * P 1 - 4 * P 2 * P 0) : ℂ) (by exact_mod_cast Real.sq_sqrt hdl)]
    push_cast; rfl
  · simp only [if_neg hdl]
    refine ⟨?_, by ring⟩
    rw [key _ (csqrt_sq _)]
    simp only [csqrt]
    push_cast; rfl

/-- `solve_cubic`: the three complex roots, with multiplicity; the first is real, and the sign of the returned number says
whether all are. -/
theorem C81_cubic (b c d : ℝ) :
    (∀ x : ℂ, x ^ 3 + b * x ^ 2 + c * x + d =
      (x - (solveCubicC b c d).2.1) * (x - (solveCubicC b c d).2.2.1) * (x - (solveCubicC b c d).2.2.2)) ∧
    (solveCubicC b c d).2.1.im = 0 ∧
    ((solveCubicC b c d).1 ≤ 0 ↔ (solveCubicC b c d).2.2.1.im = 0 ∧ (solveCubicC b c d).2.2.2.im = 0) := by
  have real3 : ∀ x0 x1 x2 : ℝ, Roots3 b c d x0 x1 x2 → ∀ x : ℂ, x ^ 3 + b * x ^ 2 + c * x + d =
      (x - (x0 : ℂ)) * (x - (x1 : ℂ)) * (x - (x2 : ℂ)) := by
    rintro x0 x1 x2 ⟨h1, h2, h3⟩ x
    have hb : b = -(x0 + x1 + x2) := by linarith
    have hd : d = -(x0 * x1 * x2) := by linarith
    rw [hb, ← h2, hd]; push_cast; ring
  unfold solveCubicC
  rcases lt_trichotomy (cdisc b c d) 0 with h | h | h
  · rw [if_neg (not_lt.2 h.le), if_neg h.ne]
    exact ⟨real3 _ _ _ (trig_roots h), by simp, by simp [h.le]⟩
  · rw [if_neg (by rw [h]; exact lt_irrefl _), if_pos h]
    refine ⟨?_, Complex.ofReal_im _, ⟨fun _ => ⟨Complex.ofReal_im _, Complex.ofReal_im _⟩, fun _ => h.le⟩⟩
    exact real3 _ _ _ (double_roots h)
  · rw [if_pos h]
    have hS2 : Real.sqrt (cdisc b c d) ^ 2 = cdisc b c d := Real.sq_sqrt h.le
    have hSpos : 0 < Real.sqrt (cdisc b c d) := Real.sqrt_pos.2 h
    have hs := cbrt_cube (cr b c d + Real.sqrt (cdisc b c d))
    have ht := cbrt_cube (cr b c d - Real.sqrt (cdisc b c d))
    generalize hS : Real.sqrt (cdisc b c d) = S at *
    simp only
    generalize cbrt (cr b c d + S) = s at *
    generalize cbrt (cr b c d - S) = t at *
    have hst : s * t = -cq b c := by
      apply cube_inj
      rw [mul_pow, hs, ht]
      have : (cr b c d + S) * (cr b c d - S) = cr b c d * cr b c d - S ^ 2 := by ring
      rw [this, hS2]; unfold cdisc; ring
    have hr : 2 * cr b c d = s ^ 3 + t ^ 3 := by rw [hs, ht]; ring
    have hne : s - t ≠ 0 := by
      intro e; have e' : s = t := sub_eq_zero.1 e
      rw [e', ht] at hs; linarith
    have h3 : Real.sqrt 3 ^ 2 = 3 := Real.sq_sqrt (by norm_num)
    have h3p : Real.sqrt 3 ≠ 0 := by intro e; rw [e] at h3; norm_num at h3
    refine ⟨fun x => ?_, Complex.ofReal_im _, ⟨fun hle => absurd hle (not_le.2 h), fun hc => ?_⟩⟩
    · have hc : c = b ^ 2 / 3 - 3 * (s * t) := by unfold cq at hst; linarith
      have hd : d = (-54 * cr b c d + b * (9 * c - 2 * (b * b))) / 27 := by unfold cr; ring
      have hd' : d = b ^ 3 / 27 - b * (s * t) - (s ^ 3 + t ^ 3) := by rw [hd, ← hr, hc]; ring
      have e1 : (⟨-(b / 3 + (s + t) / 2), Real.sqrt 3 * (-t + s) / 2⟩ : ℂ) =
          -((b : ℂ) / 3 + (s + t) / 2) + (Real.sqrt 3 * (-t + s) / 2) * Complex.I := by
        apply Complex.ext <;> simp
      have e2 : (⟨-(b / 3 + (s + t) / 2), -(Real.sqrt 3 * (-t + s) / 2)⟩ : ℂ) =
          -((b : ℂ) / 3 + (s + t) / 2) - (Real.sqrt 3 * (-t + s) / 2) * Complex.I := by
        apply Complex.ext <;> simp
      have h3c : (Real.sqrt 3 : ℂ) ^ 2 = 3 := by exact_mod_cast h3
      have hI := Complex.I_sq
      have e3 : (x - (-((b : ℂ) / 3 + (s + t) / 2) + (Real.sqrt 3 * (-t + s) / 2) * Complex.I)) *
          (x - (-((b : ℂ) / 3 + (s + t) / 2) - (Real.sqrt 3 * (-t + s) / 2) * Complex.I)) =
          (x + b / 3 + (s + t) / 2) ^ 2 + 3 * (s - t) ^ 2 / 4 := by
        linear_combination (-(Real.sqrt 3 : ℂ) ^ 2 * (s - t) ^ 2 / 4) * hI + ((s - t) ^ 2 / 4 : ℂ) * h3c
      rw [e1, e2, mul_assoc, e3, hd']
      rw [hc]
      push_cast
      ring
    · exfalso
      have := hc.1
      simp only [div_eq_zero_iff, mul_eq_zero] at this
      rcases this with (h' | h') | h'
      · exact h3p h'
      · apply hne; linarith
      · norm_num at h'

/-- `quartic_solve`: whenever the roots are numbers at all, they are the four complex roots, with multiplicity. -/
theorem C81_quartic_partial (b c d e : ℝ) (r0 r1 r2 r3 : ℂ) (h : quarticSolve b c d e = some (r0, r1, r2, r3)) (x : ℂ) :
    x ^ 4 + b * x ^ 3 + c * x ^ 2 + d * x + e = (x - r0) * (x - r1) * (x - r2) * (x - r3) := by
  unfold quarticSolve at h
  simp only at h
  split at h
  · cases h
  rename_i h5
  split at h
  · cases h
  rename_i h7
  injection h with h
  simp only [Prod.mk.injEq] at h
  obtain ⟨e0, e1, e2, e3⟩ := h
  generalize hb : (b : ℂ) = B at *
  generalize hc : (c : ℂ) = C at *
  generalize hd : (d : ℂ) = D at *
  generalize he : (e : ℂ) = E at *
  set Q1 := C * C - 3 * B * D + 12 * E with hQ1
  set Q2 := 2 * C * C * C - 9 * B * C * D + 27 * D * D + 27 * B * B * E - 72 * C * E with hQ2
  set Q3 := 8 * B * C - 16 * D - 2 * B * B * B with hQ3
  set Q4 := 3 * B * B - 8 * C with hQ4
  have hS := csqrt_sq (Q2 * Q2 / 4 - Q1 * Q1 * Q1)
  generalize csqrt (Q2 * Q2 / 4 - Q1 * Q1 * Q1) = S at *
  have h5c := ccbrt_cube (Q2 / 2 + S)
  generalize ccbrt (Q2 / 2 + S) = Q5 at *
  -- the resolvent
  have hres : 27 * ((Q1 / Q5 + Q5) / 3) ^ 3 - 9 * Q1 * ((Q1 / Q5 + Q5) / 3) = Q2 := by
    have h1 : (Q1 / Q5) * Q5 = Q1 := div_mul_cancel₀ _ h5
    generalize Q1 / Q5 = w at *
    have hw : w ^ 3 + Q5 ^ 3 = Q2 := by
      have h53 : Q5 ^ 3 ≠ 0 := pow_ne_zero _ h5
      apply mul_right_cancel₀ h53
      have : w ^ 3 * Q5 ^ 3 = Q1 ^ 3 := by rw [← mul_pow, h1]
      rw [h5c] at this ⊢
      linear_combination this + hS
    linear_combination hw + (3 * (w + Q5)) * h1
  generalize (Q1 / Q5 + Q5) / 3 = Q6 at *
  have hs := csqrt_sq (Q4 / 12 + Q6)
  generalize csqrt (Q4 / 12 + Q6) = s at *
  have hs0 : s ≠ 0 := fun h => h7 (by rw [h, mul_zero])
  have hbeta : Q3 / (2 * s) * (2 * s) = Q3 := div_mul_cancel₀ _ h7
  generalize Q3 / (2 * s) = β at *
  have hu := csqrt_sq (4 * Q4 / 6 - 4 * Q6 - β)
  have hv := csqrt_sq (4 * Q4 / 6 - 4 * Q6 + β)
  generalize csqrt (4 * Q4 / 6 - 4 * Q6 - β) = u at *
  generalize csqrt (4 * Q4 / 6 - 4 * Q6 + β) = v at *
  rw [← e0, ← e1, ← e2, ← e3]
  -- constant coefficient of the depressed quartic
  have hk : (s ^ 2 / 4 - u ^ 2 / 16) * (s ^ 2 / 4 - v ^ 2 / 16) =
      E - B * D / 4 + B ^ 2 * C / 16 - 3 * B ^ 4 / 256 := by
    rw [hu, hv]
    have h2 : s ^ 2 ≠ 0 := pow_ne_zero _ hs0
    apply mul_right_cancel₀ h2
    have hb2 : β ^ 2 * (4 * s ^ 2) = Q3 ^ 2 := by rw [← hbeta]; ring
    rw [hs] at hb2 ⊢
    have : Q6 ^ 3 = (Q2 + 9 * Q1 * Q6) / 27 := by linear_combination hres / 27
    linear_combination (-1 / 1024 : ℂ) * hb2 + (1 / 4 : ℂ) * this
  have hl : s * (u ^ 2 - v ^ 2) / 16 = -Q3 / 16 := by rw [hu, hv]; linear_combination (-1 / 16 : ℂ) * hbeta
  have hq : -s ^ 2 / 2 - (u ^ 2 + v ^ 2) / 16 = -Q4 / 8 := by rw [hu, hv, hs]; ring
  have hx : (x - (-B - 2 * s - u) / 4) * (x - (-B - 2 * s + u) / 4) * (x - (-B + 2 * s - v) / 4) * (x - (-B + 2 * s + v) / 4) =
      (x + B / 4) ^ 4 + (-s ^ 2 / 2 - (u ^ 2 + v ^ 2) / 16) * (x + B / 4) ^ 2 + (s * (u ^ 2 - v ^ 2) / 16) * (x + B / 4) +
        (s ^ 2 / 4 - u ^ 2 / 16) * (s ^ 2 / 4 - v ^ 2 / 16) := by ring
  rw [hx, hk, hl, hq]
  simp only [hQ3, hQ4]
  ring

theorem csqrt_real {x : ℝ} (h : 0 ≤ x) : csqrt x = (Real.sqrt x : ℂ) := by
  rw [csqrt, complexSqrt, Real.sqrt_eq_rpow, Complex.ofReal_cpow h]

/-- For `x⁴ - 3x² - 3/4`, which has two real and two imaginary roots, all different, the roots returned are NaN. -/
theorem C81_quartic_nan : quarticSolve 0 (-3) 0 (-3 / 4) = none := by
  unfold quarticSolve
  simp only
  rw [if_pos]
  have h1 : ((2 * ((-3 : ℝ) : ℂ) * ((-3 : ℝ) : ℂ) * ((-3 : ℝ) : ℂ) - 9 * ((0 : ℝ) : ℂ) * ((-3 : ℝ) : ℂ) * ((0 : ℝ) : ℂ) +
      27 * ((0 : ℝ) : ℂ) * ((0 : ℝ) : ℂ) + 27 * ((0 : ℝ) : ℂ) * ((0 : ℝ) : ℂ) * ((-3 / 4 : ℝ) : ℂ) -
      72 * ((-3 : ℝ) : ℂ) * ((-3 / 4 : ℝ) : ℂ)) : ℂ) = -216 := by push_cast; ring
  have h2 : ((-3 : ℝ) : ℂ) * ((-3 : ℝ) : ℂ) - 3 * ((0 : ℝ) : ℂ) * ((0 : ℝ) : ℂ) + 12 * ((-3 / 4 : ℝ) : ℂ) = 0 := by
    push_cast; ring
  rw [h1, h2]
  have h3 : (-216 * -216 / 4 - 0 * 0 * 0 : ℂ) = ((11664 : ℝ) : ℂ) := by push_cast; norm_num
  rw [h3, csqrt_real (by norm_num)]
  have h4 : Real.sqrt 11664 = 108 := by
    rw [show (11664 : ℝ) = 108 ^ 2 by norm_num]; exact Real.sqrt_sq (by norm_num)
  rw [h4]
  have h5 : (-216 / 2 + ((108 : ℝ) : ℂ)) = 0 := by push_cast; norm_num
  rw [h5, ccbrt, Complex.zero_cpow (by norm_num)]

/-- Nor are the four roots of `x⁴ - 1` found: `Q7 = 0`. -/
theorem C81_quartic_unit_roots_nan : quarticSolve 0 0 0 (-1) = none := by
  unfold quarticSolve
  simp only
  have e1 : ((0 : ℝ) : ℂ) * ((0 : ℝ) : ℂ) - 3 * ((0 : ℝ) : ℂ) * ((0 : ℝ) : ℂ) + 12 * ((-1 : ℝ) : ℂ) = -12 := by push_cast; ring
  have e2 : (2 * ((0 : ℝ) : ℂ) * ((0 : ℝ) : ℂ) * ((0 : ℝ) : ℂ) - 9 * ((0 : ℝ) : ℂ) * ((0 : ℝ) : ℂ) * ((0 : ℝ) : ℂ) +
      27 * ((0 : ℝ) : ℂ) * ((0 : ℝ) : ℂ) + 27 * ((0 : ℝ) : ℂ) * ((0 : ℝ) : ℂ) * ((-1 : ℝ) : ℂ) -
      72 * ((0 : ℝ) : ℂ) * ((-1 : ℝ) : ℂ)) = 0 := by push_cast; ring
  have e3 : (3 * ((0 : ℝ) : ℂ) * ((0 : ℝ) : ℂ) - 8 * ((0 : ℝ) : ℂ)) = 0 := by push_cast; ring
  rw [e1, e2, e3]
  have e4 : (0 * 0 / 4 - (-12) * (-12) * (-12) : ℂ) = ((1728 : ℝ) : ℂ) := by push_cast; norm_num
  rw [e4, csqrt_real (by norm_num)]
  have hp : 0 ≤ Real.sqrt 1728 := Real.sqrt_nonneg _
  have e5 : (0 / 2 + (Real.sqrt 1728 : ℂ)) = (Real.sqrt 1728 : ℂ) := by simp
  rw [e5]
  have e6 : ccbrt (Real.sqrt 1728 : ℂ) = (Real.sqrt 12 : ℂ) := by
    have h1 : Real.sqrt 1728 = Real.sqrt 12 ^ 3 := by
      rw [show (1728 : ℝ) = 12 ^ 2 * 12 by norm_num, Real.sqrt_mul (by norm_num), Real.sqrt_sq (by norm_num), pow_succ,
        Real.sq_sqrt (by norm_num)]
    rw [ccbrt, h1, show (1 : ℂ) / 3 = (((3 : ℕ) : ℝ)⁻¹ : ℝ) by push_cast; ring, ← Complex.ofReal_cpow (by positivity),
      Real.pow_rpow_inv_natCast (Real.sqrt_nonneg _) (by norm_num)]
  rw [e6]
  have h12 : (Real.sqrt 12 : ℂ) ^ 2 = 12 := by exact_mod_cast Real.sq_sqrt (by norm_num : (0 : ℝ) ≤ 12)
  have h0 : (Real.sqrt 12 : ℂ) ≠ 0 := by intro h; rw [h] at h12; norm_num at h12
  rw [if_neg h0, if_pos]
  have e7 : (0 / 12 + (-12 / (Real.sqrt 12 : ℂ) + Real.sqrt 12) / 3 : ℂ) = 0 := by
    field_simp
    linear_combination 12 * h12
  rw [e7]
  simp [csqrt, complexSqrt]

/-! ## Non-vacuity -/

/-- `x⁴ + x`: the solver returns numbers, so `C81_quartic_partial` applies. -/
example : ∃ r, quarticSolve 0 0 1 0 = some r := by
  unfold quarticSolve
  simp only
  have e1 : ((0 : ℝ) : ℂ) * ((0 : ℝ) : ℂ) - 3 * ((0 : ℝ) : ℂ) * ((1 : ℝ) : ℂ) + 12 * ((0 : ℝ) : ℂ) = 0 := by push_cast; ring
  have e2 : (2 * ((0 : ℝ) : ℂ) * ((0 : ℝ) : ℂ) * ((0 : ℝ) : ℂ) - 9 * ((0 : ℝ) : ℂ) * ((0 : ℝ) : ℂ) * ((1 : ℝ) : ℂ) +
      27 * ((1 : ℝ) : ℂ) * ((1 : ℝ) : ℂ) + 27 * ((0 : ℝ) : ℂ) * ((0 : ℝ) : ℂ) * ((0 : ℝ) : ℂ) -
      72 * ((0 : ℝ) : ℂ) * ((0 : ℝ) : ℂ)) = 27 := by push_cast; ring
  have e3 : (3 * ((0 : ℝ) : ℂ) * ((0 : ℝ) : ℂ) - 8 * ((0 : ℝ) : ℂ)) = 0 := by push_cast; ring
  rw [e1, e2, e3]
  have e4 : (27 * 27 / 4 - 0 * 0 * 0 : ℂ) = (((27 / 2) ^ 2 : ℝ) : ℂ) := by push_cast; norm_num
  rw [e4, csqrt_real (by norm_num), Real.sqrt_sq (by norm_num)]
  have e5 : (27 / 2 + ((27 / 2 : ℝ) : ℂ)) = 27 := by push_cast; norm_num
  rw [e5]
  have h5 := ccbrt_cube 27
  generalize ccbrt 27 = w at *
  have hw : w ≠ 0 := by rintro rfl; norm_num at h5
  rw [if_neg hw, if_neg]
  · exact ⟨_, rfl⟩
  · intro h
    have h7 := csqrt_sq (0 / 12 + (0 / w + w) / 3)
    have h8 : csqrt (0 / 12 + (0 / w + w) / 3) = 0 := by simpa using h
    rw [h8] at h7
    apply hw
    have : (0 : ℂ) = w / 3 := by simpa using h7
    linear_combination -3 * this
/-- `x² + 1` meets the hypothesis of `C81_quadratic` and takes the complex branch -/
example : (![1, 0, 1] : Fin 3 → ℝ) 2 ≠ 0 := by simp
end Verif.Roots
