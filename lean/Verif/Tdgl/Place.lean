import Verif.Tdgl.Contour
import Verif.Num.Lerp
/-! Where the point of a crossed triangle is, and the circulation of the potential. -/
namespace Verif.Tdgl
open Verif.SRM
open Real (pi pi_pos)

/-- cross product in the plane -/
def cross2 (a b : Fin 2 → ℝ) : ℝ := a 0 * b 1 - a 1 * b 0

theorem weights_of {degen : (Fin 3 → Fin 2 → ℝ) → Fin 3 → ℝ} {U : Fin 3 → Fin 2 → ℝ}
    (hd : cross2 (U 0) (U 1) + cross2 (U 1) (U 2) + cross2 (U 2) (U 0) ≠ 0) (mu : Fin 3 → ℝ) :
    (mu 0 + mu 1 + mu 2 = 1 ∧ ∀ j, mu 0 * U 0 j + mu 1 * U 1 j + mu 2 * U 2 j = 0) ↔ mu = weights degen U := by
  have e : (U 0 0 - U 2 0) * (U 1 1 - U 2 1) - (U 1 0 - U 2 0) * (U 0 1 - U 2 1) =
      cross2 (U 0) (U 1) + cross2 (U 1) (U 2) + cross2 (U 2) (U 0) := by
    unfold cross2; ring
  unfold weights
  rw [if_neg (by rw [e]; exact hd), ← Num.C54_s2v2 U 0 (by
    have : (Num.edges2 U).det = (U 0 0 - U 2 0) * (U 1 1 - U 2 1) - (U 1 0 - U 2 0) * (U 0 1 - U 2 1) := by
      simp [Num.edges2, Matrix.det_fin_two]
    rw [this, e]
    exact hd)]
  refine and_congr Iff.rfl ?_
  rw [funext_iff]
  refine forall_congr' fun j => ?_
  unfold Num.lerpS2v2
  simp only [Pi.zero_apply]
  fin_cases j
  · simp only [Fin.zero_eta, Matrix.cons_val_zero]
    constructor <;> intro h <;> linarith
  · simp only [Fin.mk_one, Matrix.cons_val_one, Matrix.cons_val_zero]
    constructor <;> intro h <;> linarith

/-- the line integrals from the first vertex, along the edges -/
def along (li : Fin 3 → ℝ) : Fin 3 → ℝ := ![0, li 0, li 0 + li 1]

theorem gauged_turn (phi li : Fin 3 → ℝ) (i : Fin 3) : ∃ k : ℤ, gauged phi li i = phi i - along li i + k * (2 * pi) := by
  obtain ⟨-, -, k0, h0⟩ := mod2pi1_angle (phi 1 - phi 0 - li 0)
  obtain ⟨-, -, k1, h1⟩ := mod2pi1_angle (phi 2 - phi 1 - li 1)
  have e0 : delta phi li 0 = mod2pi1 (phi 1 - phi 0 - li 0) := rfl
  have e1 : delta phi li 1 = mod2pi1 (phi 2 - phi 1 - li 1) := rfl
  unfold gauged along
  rw [e0, e1]
  fin_cases i
  · exact ⟨0, by simp⟩
  · refine ⟨-k0, ?_⟩
    simp only [Fin.mk_one, Matrix.cons_val_one, Matrix.cons_val_zero]
    push_cast
    linarith
  · refine ⟨-(k0 + k1), ?_⟩
    simp only [Fin.reduceFinMk, Matrix.cons_val]
    push_cast
    linarith

theorem psi_eq (rho phi li : Fin 3 → ℝ) (i : Fin 3) :
    psi rho phi li i = ![rho i * Real.cos (phi i - along li i), rho i * Real.sin (phi i - along li i)] := by
  obtain ⟨k, hk⟩ := gauged_turn phi li i
  unfold psi
  rw [hk, Real.cos_add_int_mul_two_pi, Real.sin_add_int_mul_two_pi]

theorem psi_cross (rho phi li : Fin 3 → ℝ) (hF : li 0 + li 1 + li 2 = 0) :
    cross2 (psi rho phi li 0) (psi rho phi li 1) = rho 0 * rho 1 * Real.sin (delta phi li 0) ∧
    cross2 (psi rho phi li 1) (psi rho phi li 2) = rho 1 * rho 2 * Real.sin (delta phi li 1) ∧
    cross2 (psi rho phi li 2) (psi rho phi li 0) = rho 2 * rho 0 * Real.sin (delta phi li 2) := by
  have hsin : ∀ x : ℝ, Real.sin (mod2pi1 x) = Real.sin x := by
    intro x
    obtain ⟨-, -, k, hk⟩ := mod2pi1_angle x
    have : Real.sin x = Real.sin (mod2pi1 x + k * (2 * pi)) := by
      congr 1
      linarith
    rw [this, Real.sin_add_int_mul_two_pi]
  have key : ∀ a b x y : ℝ, cross2 ![a * Real.cos x, a * Real.sin x] ![b * Real.cos y, b * Real.sin y] = a * b * Real.sin (y - x) := by
    intro a b x y
    rw [Real.sin_sub]
    simp [cross2]
    ring
  rw [psi_eq, psi_eq, psi_eq, key, key, key]
  unfold delta
  rw [hsin, hsin, hsin]
  have e0 : (0 + 1 : Fin 3) = 1 := rfl
  have e1 : (1 + 1 : Fin 3) = 2 := rfl
  have e2 : (2 + 1 : Fin 3) = 0 := rfl
  rw [e0, e1, e2]
  refine ⟨?_, ?_, ?_⟩
  · congr 2
    simp [along]
    ring
  · congr 2
    simp [along]
    ring
  · congr 2
    simp [along]
    linarith

/-- three cross products of the same sign -/
theorem mu_of_cross {degen : (Fin 3 → Fin 2 → ℝ) → Fin 3 → ℝ} {U : Fin 3 → Fin 2 → ℝ}
    (h : (0 < cross2 (U 0) (U 1) ∧ 0 < cross2 (U 1) (U 2) ∧ 0 < cross2 (U 2) (U 0)) ∨
      (cross2 (U 0) (U 1) < 0 ∧ cross2 (U 1) (U 2) < 0 ∧ cross2 (U 2) (U 0) < 0)) :
    (∀ i, 0 < weights degen U i) ∧ weights degen U 0 + weights degen U 1 + weights degen U 2 = 1 ∧
      ∀ j, weights degen U 0 * U 0 j + weights degen U 1 * U 1 j + weights degen U 2 * U 2 j = 0 := by
  have hd : cross2 (U 0) (U 1) + cross2 (U 1) (U 2) + cross2 (U 2) (U 0) ≠ 0 := by
    rcases h with ⟨a, b, c⟩ | ⟨a, b, c⟩
    · exact ne_of_gt (by linarith)
    · exact ne_of_lt (by linarith)
  have hw := (weights_of (degen := degen) hd ![cross2 (U 1) (U 2) / (cross2 (U 0) (U 1) + cross2 (U 1) (U 2) + cross2 (U 2) (U 0)),
    cross2 (U 2) (U 0) / (cross2 (U 0) (U 1) + cross2 (U 1) (U 2) + cross2 (U 2) (U 0)),
    cross2 (U 0) (U 1) / (cross2 (U 0) (U 1) + cross2 (U 1) (U 2) + cross2 (U 2) (U 0))]).1 ⟨by
      simp only [Matrix.cons_val_zero, Matrix.cons_val_one, Matrix.cons_val]
      field_simp
      ring, by
      intro j
      simp only [Matrix.cons_val_zero, Matrix.cons_val_one, Matrix.cons_val]
      have : cross2 (U 1) (U 2) * U 0 j + cross2 (U 2) (U 0) * U 1 j + cross2 (U 0) (U 1) * U 2 j = 0 := by
        unfold cross2
        fin_cases j <;> simp only [Fin.zero_eta, Fin.mk_one] <;> ring
      rw [div_mul_eq_mul_div, div_mul_eq_mul_div, div_mul_eq_mul_div, ← add_div, ← add_div, this, zero_div]⟩
  refine ⟨?_, ((weights_of hd _).2 rfl).1, ((weights_of hd _).2 rfl).2⟩
  rw [← hw]
  intro i
  rcases h with ⟨a, b, c⟩ | ⟨a, b, c⟩
  · fin_cases i <;> exact div_pos (by assumption) (by linarith)
  · fin_cases i <;> exact div_pos_of_neg_of_neg (by assumption) (by linarith)

theorem delta_tie {phi li : Fin 3 → ℝ} (h : ¬ Tie phi li) (i : Fin 3) : delta phi li i ≠ -pi := by
  intro hd
  apply h
  obtain ⟨-, -, k, hk⟩ := mod2pi1_angle (phi (i + 1) - phi i - li i)
  refine ⟨i, k - 1, ?_⟩
  unfold delta at hd
  rw [hd] at hk
  push_cast
  linarith

/-- the signs of the angles of a crossed triangle around which the potential does not circulate -/
theorem signs {phi li : Fin 3 → ℝ} (hF : li 0 + li 1 + li 2 = 0) (hc : crossed phi li = true) :
    (∀ i, 0 < delta phi li i ∧ delta phi li i < pi) ∨ (∀ i, -pi ≤ delta phi li i ∧ delta phi li i ≤ 0) := by
  have hp := pi_pos
  obtain ⟨n, hn⟩ := winds_delta phi li
  have hw := C104_winding phi li (by rw [hF, abs_zero]; exact hp) n ((winds_iff _ _ _).2 hn)
  have hne := hw.1.1 hc
  have hd : ∀ i, -pi ≤ delta phi li i ∧ delta phi li i < pi := fun i => ⟨(mod2pi1_angle _).1, (mod2pi1_angle _).2.1⟩
  have d0 := hd 0
  have d1 := hd 1
  have d2 := hd 2
  rw [hF] at hn
  have hle := abs_le.1 hw.2
  have : n = 1 ∨ n = -1 := by omega
  rcases this with rfl | rfl
  · left
    push_cast at hn
    intro i
    fin_cases i <;> constructor <;> simp only [Fin.zero_eta, Fin.mk_one, Fin.reduceFinMk] <;> linarith
  · right
    push_cast at hn
    intro i
    fin_cases i <;> constructor <;> simp only [Fin.zero_eta, Fin.mk_one, Fin.reduceFinMk] <;> linarith

/-- C109, what holds of the place of the point: if the potential does not circulate around the triangle, the amplitudes are
positive and no phase difference is exactly half a turn, the point of a crossed triangle lies in its interior, at the
zero of the interpolated order parameter (transported to the first vertex by the potential).  What is missing: with a
circulation the point may be outside (`C109_outside`). -/
theorem C109_located_partial (c : Cfg) (cur : Nat) (e : Elem) (vs : Fin 3 → Vtx) (vals : Fin 3 → Val)
    (hrho : ∀ i, 0 < (vals i).rho) (hF : integrals vs vals 0 + integrals vs vals 1 + integrals vs vals 2 = 0)
    (hT : ¬ Tie (fun i => (vals i).phi) (integrals vs vals))
    (hc : crossed (fun i => (vals i).phi) (integrals vs vals) = true) :
    ∃ mu : Fin 3 → ℝ, (∀ i, 0 < mu i) ∧ mu 0 + mu 1 + mu 2 = 1 ∧
      (∀ j, (point c cur e vs vals).x j =
        mu 0 * vertexPos (vals 0).md (vs 0) j + mu 1 * vertexPos (vals 1).md (vs 1) j + mu 2 * vertexPos (vals 2).md (vs 2) j) ∧
      mu 0 * ((vals 0).rho * Real.cos (vals 0).phi) + mu 1 * ((vals 1).rho * Real.cos ((vals 1).phi - integrals vs vals 0)) +
        mu 2 * ((vals 2).rho * Real.cos ((vals 2).phi - (integrals vs vals 0 + integrals vs vals 1))) = 0 ∧
      mu 0 * ((vals 0).rho * Real.sin (vals 0).phi) + mu 1 * ((vals 1).rho * Real.sin ((vals 1).phi - integrals vs vals 0)) +
        mu 2 * ((vals 2).rho * Real.sin ((vals 2).phi - (integrals vs vals 0 + integrals vs vals 1))) = 0 := by
  obtain ⟨x0, x1, x2⟩ := psi_cross (fun i => (vals i).rho) (fun i => (vals i).phi) (integrals vs vals) hF
  have r01 := mul_pos (hrho 0) (hrho 1)
  have r12 := mul_pos (hrho 1) (hrho 2)
  have r20 := mul_pos (hrho 2) (hrho 0)
  obtain ⟨m1, m2, m3⟩ := mu_of_cross (degen := c.degen)
    (U := psi (fun i => (vals i).rho) (fun i => (vals i).phi) (integrals vs vals)) (by
      rw [x0, x1, x2]
      rcases signs hF hc with h | h
      · left
        have s := fun i => Real.sin_pos_of_pos_of_lt_pi (h i).1 (h i).2
        exact ⟨mul_pos r01 (s 0), mul_pos r12 (s 1), mul_pos r20 (s 2)⟩
      · right
        have hlt : ∀ i, -pi < delta (fun i => (vals i).phi) (integrals vs vals) i :=
          fun i => lt_of_le_of_ne (h i).1 (Ne.symm (delta_tie hT i))
        have hneg : ∀ i, delta (fun i => (vals i).phi) (integrals vs vals) i < 0 := by
          obtain ⟨n, hn⟩ := winds_delta (fun i => (vals i).phi) (integrals vs vals)
          have hw := C104_winding _ _ (by rw [hF, abs_zero]; exact pi_pos) n ((winds_iff _ _ _).2 hn)
          have hne := hw.1.1 hc
          rw [hF] at hn
          have l0 := hlt 0
          have l1 := hlt 1
          have l2 := hlt 2
          have h0 := (h 0).2
          have h1 := (h 1).2
          have h2 := (h 2).2
          have hp := pi_pos
          have : n = -1 := by
            have hle := abs_le.1 hw.2
            have : n = 1 ∨ n = -1 := by omega
            rcases this with rfl | rfl
            · push_cast at hn
              linarith
            · rfl
          subst this
          push_cast at hn
          intro i
          fin_cases i <;> simp only [Fin.zero_eta, Fin.mk_one, Fin.reduceFinMk] <;> linarith
        have s := fun i => Real.sin_neg_of_neg_of_neg_pi_lt (hneg i) (hlt i)
        exact ⟨mul_neg_of_pos_of_neg r01 (s 0), mul_neg_of_pos_of_neg r12 (s 1), mul_neg_of_pos_of_neg r20 (s 2)⟩)
  refine ⟨_, m1, m2, ?_, ?_, ?_⟩
  · intro j
    have eg : ∀ m v, vertexPos m v = place m v := fun m v => by
      unfold vertexPos place gridPos coords
      simp only [add_comm, mul_comm]
    simp only [point, lerpS2v4, eg]
    ring
  · have := m3 0
    simp only [psi_eq] at this
    simpa [along] using this
  · have := m3 1
    simp only [psi_eq] at this
    simpa [along] using this

end Verif.Tdgl
