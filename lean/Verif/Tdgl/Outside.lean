import Verif.Tdgl.Flux
/-! C109, converse and counterexample. -/
namespace Verif.Tdgl
open Verif.SRM
open Real (pi pi_pos)

/-- C109: conversely, if the potential does not circulate around the triangle, the amplitudes are positive and no phase
difference is exactly half a turn, a triangle in whose interior the interpolated order parameter (transported to the first vertex
by the potential) vanishes is found crossed. -/
theorem C109_found (rho phi li : Fin 3 → ℝ) (hrho : ∀ i, 0 < rho i) (hF : li 0 + li 1 + li 2 = 0) (hT : ¬ Tie phi li)
    (mu : Fin 3 → ℝ) (hmu : ∀ i, 0 < mu i)
    (hre : mu 0 * (rho 0 * Real.cos (phi 0)) + mu 1 * (rho 1 * Real.cos (phi 1 - li 0)) +
      mu 2 * (rho 2 * Real.cos (phi 2 - (li 0 + li 1))) = 0)
    (him : mu 0 * (rho 0 * Real.sin (phi 0)) + mu 1 * (rho 1 * Real.sin (phi 1 - li 0)) +
      mu 2 * (rho 2 * Real.sin (phi 2 - (li 0 + li 1))) = 0) : crossed phi li = true := by
  have hp := pi_pos
  obtain ⟨x0, x1, x2⟩ := psi_cross rho phi li hF
  have hz : ∀ j, mu 0 * psi rho phi li 0 j + mu 1 * psi rho phi li 1 j + mu 2 * psi rho phi li 2 j = 0 := by
    intro j
    simp only [psi_eq]
    fin_cases j
    · simpa [along] using hre
    · simpa [along] using him
  have z0 := hz 0
  have z1 := hz 1
  -- the cross products are proportional to the weights
  have p1 : mu 1 * cross2 (psi rho phi li 0) (psi rho phi li 1) = mu 2 * cross2 (psi rho phi li 2) (psi rho phi li 0) := by
    unfold cross2
    linear_combination psi rho phi li 0 0 * z1 - psi rho phi li 0 1 * z0
  have p2 : mu 2 * cross2 (psi rho phi li 1) (psi rho phi li 2) = mu 0 * cross2 (psi rho phi li 0) (psi rho phi li 1) := by
    unfold cross2
    linear_combination psi rho phi li 1 0 * z1 - psi rho phi li 1 1 * z0
  rw [x0, x2] at p1
  rw [x0, x1] at p2
  have r0 := hrho 0
  have r1 := hrho 1
  have r2 := hrho 2
  have m0 := hmu 0
  have m1 := hmu 1
  have m2 := hmu 2
  have hd : ∀ i, -pi ≤ delta phi li i ∧ delta phi li i < pi := fun i => ⟨(mod2pi1_angle _).1, (mod2pi1_angle _).2.1⟩
  have hne := delta_tie hT
  have hgt : ∀ i, -pi < delta phi li i := fun i => lt_of_le_of_ne (hd i).1 (Ne.symm (hne i))
  obtain ⟨n, hn⟩ := winds_delta phi li
  rw [hF] at hn
  rw [crossed_iff, hn]
  -- the sign of the sine is the sign of the angle
  have sgn : ∀ i, (0 < Real.sin (delta phi li i) → 0 < delta phi li i) ∧ (Real.sin (delta phi li i) < 0 → delta phi li i < 0) ∧
      (Real.sin (delta phi li i) = 0 → delta phi li i = 0) := by
    intro i
    refine ⟨fun h => ?_, fun h => ?_, fun h => ?_⟩
    · by_contra hc
      push Not at hc
      have := Real.sin_nonpos_of_nonpos_of_neg_pi_le hc (hd i).1
      linarith
    · by_contra hc
      push Not at hc
      have := Real.sin_nonneg_of_nonneg_of_le_pi hc (hd i).2.le
      linarith
    · exact (Real.sin_eq_zero_iff_of_lt_of_lt (hgt i) (hd i).2).1 h
  have d0 := hd 0
  have d1 := hd 1
  have d2 := hd 2
  have g0 := hgt 0
  have g1 := hgt 1
  have g2 := hgt 2
  rcases lt_trichotomy (Real.sin (delta phi li 0)) 0 with h | h | h
  · have s2 : Real.sin (delta phi li 2) < 0 := by
      by_contra hc
      push Not at hc
      have a : mu 1 * (rho 0 * rho 1 * Real.sin (delta phi li 0)) < 0 :=
        mul_neg_of_pos_of_neg m1 (mul_neg_of_pos_of_neg (mul_pos r0 r1) h)
      have b : 0 ≤ mu 2 * (rho 2 * rho 0 * Real.sin (delta phi li 2)) :=
        mul_nonneg m2.le (mul_nonneg (mul_pos r2 r0).le hc)
      linarith
    have s1 : Real.sin (delta phi li 1) < 0 := by
      by_contra hc
      push Not at hc
      have a : mu 0 * (rho 0 * rho 1 * Real.sin (delta phi li 0)) < 0 :=
        mul_neg_of_pos_of_neg m0 (mul_neg_of_pos_of_neg (mul_pos r0 r1) h)
      have b : 0 ≤ mu 2 * (rho 1 * rho 2 * Real.sin (delta phi li 1)) :=
        mul_nonneg m2.le (mul_nonneg (mul_pos r1 r2).le hc)
      linarith
    have a0 := (sgn 0).2.1 h
    have a1 := (sgn 1).2.1 s1
    have a2 := (sgn 2).2.1 s2
    have h1 : (n : ℝ) < 0 := by
      by_contra hc
      push Not at hc
      have := mul_nonneg (by linarith : (0 : ℝ) ≤ 2 * pi) hc
      linarith
    have h2 : n ≤ -1 := by
      have : n < 0 := by exact_mod_cast h1
      omega
    have h3 : (n : ℝ) ≤ -1 := by exact_mod_cast h2
    refine le_abs.2 (.inr ?_)
    have := mul_le_mul_of_nonneg_left h3 (by linarith : (0 : ℝ) ≤ 2 * pi)
    linarith
  · exfalso
    have s2 : Real.sin (delta phi li 2) = 0 := by
      rw [h, mul_zero, mul_zero] at p1
      exact (mul_eq_zero.1 ((mul_eq_zero.1 p1.symm).resolve_left (ne_of_gt m2))).resolve_left (ne_of_gt (mul_pos r2 r0))
    have s1 : Real.sin (delta phi li 1) = 0 := by
      rw [h, mul_zero, mul_zero] at p2
      exact (mul_eq_zero.1 ((mul_eq_zero.1 p2).resolve_left (ne_of_gt m2))).resolve_left (ne_of_gt (mul_pos r1 r2))
    have a0 := (sgn 0).2.2 h
    have a1 := (sgn 1).2.2 s1
    -- all three values point the same way
    have e : ∀ i, gauged phi li i = phi 0 := by
      intro i
      unfold gauged
      rw [a0, a1]
      fin_cases i <;> simp
    have e' : ∀ i, psi rho phi li i = ![rho i * Real.cos (phi 0), rho i * Real.sin (phi 0)] := by
      intro i
      unfold psi
      rw [e]
    rw [e', e', e'] at z0 z1
    simp only [Matrix.cons_val_zero, Matrix.cons_val_one] at z0 z1
    have k : 0 < mu 0 * rho 0 + mu 1 * rho 1 + mu 2 * rho 2 := by positivity
    have c0 : (mu 0 * rho 0 + mu 1 * rho 1 + mu 2 * rho 2) * Real.cos (phi 0) = 0 := by linarith
    have c1 : (mu 0 * rho 0 + mu 1 * rho 1 + mu 2 * rho 2) * Real.sin (phi 0) = 0 := by linarith
    have c0' := (mul_eq_zero.1 c0).resolve_left (ne_of_gt k)
    have c1' := (mul_eq_zero.1 c1).resolve_left (ne_of_gt k)
    have := Real.sin_sq_add_cos_sq (phi 0)
    rw [c0', c1'] at this
    norm_num at this
  · have s2 : 0 < Real.sin (delta phi li 2) := by
      by_contra hc
      push Not at hc
      have a : 0 < mu 1 * (rho 0 * rho 1 * Real.sin (delta phi li 0)) := mul_pos m1 (mul_pos (mul_pos r0 r1) h)
      have b : mu 2 * (rho 2 * rho 0 * Real.sin (delta phi li 2)) ≤ 0 :=
        mul_nonpos_of_nonneg_of_nonpos m2.le (mul_nonpos_of_nonneg_of_nonpos (mul_pos r2 r0).le hc)
      linarith
    have s1 : 0 < Real.sin (delta phi li 1) := by
      by_contra hc
      push Not at hc
      have a : 0 < mu 0 * (rho 0 * rho 1 * Real.sin (delta phi li 0)) := mul_pos m0 (mul_pos (mul_pos r0 r1) h)
      have b : mu 2 * (rho 1 * rho 2 * Real.sin (delta phi li 1)) ≤ 0 :=
        mul_nonpos_of_nonneg_of_nonpos m2.le (mul_nonpos_of_nonneg_of_nonpos (mul_pos r1 r2).le hc)
      linarith
    have a0 := (sgn 0).1 h
    have a1 := (sgn 1).1 s1
    have a2 := (sgn 2).1 s2
    have h1 : 0 < (n : ℝ) := by
      by_contra hc
      push Not at hc
      have := mul_nonpos_of_nonneg_of_nonpos (by linarith : (0 : ℝ) ≤ 2 * pi) hc
      linarith
    have h2 : 1 ≤ n := by
      have : 0 < n := by exact_mod_cast h1
      omega
    have h3 : (1 : ℝ) ≤ n := by exact_mod_cast h2
    refine le_abs.2 (.inl ?_)
    have := mul_le_mul_of_nonneg_left h3 (by linarith : (0 : ℝ) ≤ 2 * pi)
    linarith

/-- the triangle of `C109_outside` -/
def xy : Fin 3 → Vtx := ![[0, 0, 0, 0], [1, 0, 0, 0], [1, 1, 0, 0]]

/-- the values of `C109_outside` -/
noncomputable def outVals : Fin 3 → Val := ![sample (4 * pi / 3) 0, sample (4 * pi / 3) (pi / 3), sample (4 * pi / 3) (2 * pi / 3)]

/-- C109, a violation: with a field the point of a crossed triangle can lie outside the triangle: here at the fourth corner of
the square. -/
theorem C109_outside (c : Cfg) (cur : Nat) (e : Elem) : crossed (fun i => (outVals i).phi) (integrals xy outVals) = true ∧
    |integrals xy outVals 0 + integrals xy outVals 1 + integrals xy outVals 2| < pi ∧
    ¬ Tie (fun i => (outVals i).phi) (integrals xy outVals) ∧ (∀ i, 0 < (outVals i).rho) ∧
    (point c cur e xy outVals).x = ![0, 1, 0, 0] := by
  have hp := pi_pos
  have i0 : integrals xy outVals 0 = 0 := by
    show edgeIntegral _ _ (sample _ _) (sample _ _) = 0
    rw [sample_integral]; simp [xy]
  have i1 : integrals xy outVals 1 = 0 := by
    show edgeIntegral _ _ (sample _ _) (sample _ _) = 0
    rw [sample_integral]; simp [xy]
  have i2 : integrals xy outVals 2 = 2 * pi / 3 := by
    show edgeIntegral _ _ (sample _ _) (sample _ _) = _
    rw [sample_integral]; simp [xy]; ring
  have P0 : (outVals 0).phi = 0 := rfl
  have P1 : (outVals 1).phi = pi / 3 := rfl
  have P2 : (outVals 2).phi = 2 * pi / 3 := rfl
  have h0 : IsAngle ((outVals 1).phi - (outVals 0).phi - integrals xy outVals 0) (pi / 3) :=
    ⟨by linarith, by linarith, 0, by rw [P0, P1, i0]; simp⟩
  have h1 : IsAngle ((outVals 2).phi - (outVals 1).phi - integrals xy outVals 1) (pi / 3) :=
    ⟨by linarith, by linarith, 0, by rw [P2, P1, i1]; simp; ring⟩
  have h2 : IsAngle ((outVals 0).phi - (outVals 2).phi - integrals xy outVals 2) (2 * pi / 3) :=
    ⟨by linarith, by linarith, -1, by rw [P2, P0, i2]; push_cast; ring⟩
  have hpsi : ∀ i, psi (fun i => (outVals i).rho) (fun i => (outVals i).phi) (integrals xy outVals) i =
      ![Real.cos ((outVals i).phi), Real.sin ((outVals i).phi)] := by
    intro i
    rw [psi_eq]
    have : along (integrals xy outVals) i = 0 := by
      unfold along
      rw [i0, i1]
      fin_cases i <;> simp
    have hr : (outVals i).rho = 1 := by fin_cases i <;> rfl
    simp only [this, hr, sub_zero, one_mul]
  have c1 : Real.cos (pi / 3) = 1 / 2 := Real.cos_pi_div_three
  have s1 : Real.sin (pi / 3) = Real.sqrt 3 / 2 := Real.sin_pi_div_three
  have e2 : 2 * pi / 3 = pi - pi / 3 := by ring
  have c2 : Real.cos (2 * pi / 3) = -(1 / 2) := by rw [e2, Real.cos_pi_sub, c1]
  have s2 : Real.sin (2 * pi / 3) = Real.sqrt 3 / 2 := by rw [e2, Real.sin_pi_sub, s1]
  have hs : (0 : ℝ) < Real.sqrt 3 := Real.sqrt_pos.2 (by norm_num)
  have hss : Real.sqrt 3 * Real.sqrt 3 = 3 := Real.mul_self_sqrt (by norm_num)
  have hw : (![1, -1, 1] : Fin 3 → ℝ) = weights c.degen (psi (fun i => (outVals i).rho) (fun i => (outVals i).phi) (integrals xy outVals)) := by
    refine (weights_of ?_ _).1 ⟨?_, ?_⟩
    · simp only [hpsi, P0, P1, P2, c1, s1, c2, s2, cross2, Real.cos_zero, Real.sin_zero]
      simp
      nlinarith
    · simp
    · intro j
      simp only [hpsi, P0, P1, P2, c1, s1, c2, s2, Real.cos_zero, Real.sin_zero]
      fin_cases j <;> simp
      norm_num
  refine ⟨?_, ?_, ?_, ?_, ?_⟩
  · rw [crossed_of _ _ _ h0 h1 h2]
    refine le_abs.2 (.inl ?_)
    linarith
  · rw [i0, i1, i2, abs_lt]
    constructor <;> linarith
  · exact not_tie_of h0 h1 h2 (by linarith) (by linarith) (by linarith)
  · intro i; fin_cases i <;> exact one_pos
  · funext j
    simp only [point, lerpS2v4, ← hw]
    have hm : ∀ i, (outVals i).md = unitMeta ![0, 0, 4 * pi / 3] := by intro i; fin_cases i <;> rfl
    simp only [hm]
    fin_cases j <;> simp [place, coords, unitMeta, xy]

end Verif.Tdgl
