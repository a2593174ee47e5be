import Verif.CPType.Model
import Verif.Roots.Props
import Verif.Num.Linear
import Mathlib.Analysis.Matrix.PosDef
import Mathlib.LinearAlgebra.Matrix.ToLinearEquiv

/-!
# C37: classification of critical points

Specification for scalar fields (symmetric Jacobian = Hessian): the sign behaviour of the quadratic form `vᵀ J v`.
Specification for vector fields: the complex eigenvalues of the Jacobian.
-/

namespace Verif.CPType

open Verif.Num Verif.Roots Verif.Poly

/-! ### Specification -/

/-- the quadratic form `vᵀ J v` -/
def form {n : ℕ} (J : Fin n → Fin n → ℝ) (v : Fin n → ℝ) : ℝ := ∑ i, ∑ j, v i * J i j * v j

/-- `z` is an eigenvalue of the real matrix `J`: there is a non-zero complex eigenvector. -/
def IsEig {n : ℕ} (J : Fin n → Fin n → ℝ) (z : ℂ) : Prop :=
  ∃ v : Fin n → ℂ, v ≠ 0 ∧ ∀ i, ∑ j, (J i j : ℂ) * v j = z * v i

/-! ### Symmetric, two dimensions -/

theorem form2 (J : Fin 2 → Fin 2 → ℝ) (v : Fin 2 → ℝ) :
    form J v = J 0 0 * v 0 ^ 2 + (J 0 1 + J 1 0) * v 0 * v 1 + J 1 1 * v 1 ^ 2 := by
  simp [form, Fin.sum_univ_two]; ring

theorem delta_nonneg (a b d : ℝ) : 0 ≤ (-(a + d)) * (-(a + d)) + -4 * (a * d - b * b) := by
  nlinarith [sq_nonneg (a - d), sq_nonneg b]

/-- C37: the two numbers computed for a symmetric matrix are its eigenvalues: sum = trace, product = determinant, the one of
larger modulus first. -/
theorem C37_eigenvalues_sym2 (a b d : ℝ) :
    (eigSym2 a b d).1 + (eigSym2 a b d).2 = a + d ∧ (eigSym2 a b d).1 * (eigSym2 a b d).2 = a * d - b * b ∧
    |(eigSym2 a b d).2| ≤ |(eigSym2 a b d).1| ∧
    ∀ x : ℝ, (x - (eigSym2 a b d).1) * (x - (eigSym2 a b d).2) = (x • (1 : Matrix (Fin 2) (Fin 2) ℝ) - !![a, b; b, d]).det := by
  have hd := delta_nonneg a b d
  have hs := Real.sq_sqrt hd
  have key : (eigSym2 a b d).1 + (eigSym2 a b d).2 = a + d ∧ (eigSym2 a b d).1 * (eigSym2 a b d).2 = a * d - b * b ∧
    |(eigSym2 a b d).2| ≤ |(eigSym2 a b d).1| := by
    unfold eigSym2
    simp only [if_neg (not_lt.2 hd)]
    generalize Real.sqrt ((-(a + d)) * (-(a + d)) + -4 * (a * d - b * b)) = s at *
    split
    · rename_i h
      exact ⟨by ring, by linear_combination (-1 / 4 : ℝ) * hs, h.le⟩
    · rename_i h
      exact ⟨by ring, by linear_combination (-1 / 4 : ℝ) * hs, not_lt.1 h⟩
  refine ⟨key.1, key.2.1, key.2.2, fun x => ?_⟩
  obtain ⟨h1, h2, -⟩ := key
  rw [Matrix.det_fin_two]
  simp
  linear_combination (-x) * h1 + h2

/-- facts about the signs of two reals with given sum and product -/
theorem type2_sym_eq (J : Fin 2 → Fin 2 → ℝ) :
    let a := J 0 0; let b := J 1 0; let d := J 1 1
    type2 J true = if 0 < a * d - b * b then (if 0 < a + d then MINIMUM else MAXIMUM)
      else if a * d - b * b < 0 then SADDLE else DEGENERATE := by
  intro a b d
  obtain ⟨h1, h2, -⟩ := C37_eigenvalues_sym2 a b d
  unfold type2
  simp only [if_true]
  change (if (eigSym2 a b d).1 > 0 ∧ (eigSym2 a b d).2 > 0 then MINIMUM
    else if (eigSym2 a b d).1 < 0 ∧ (eigSym2 a b d).2 < 0 then MAXIMUM
    else if (eigSym2 a b d).1 * (eigSym2 a b d).2 < 0 then SADDLE else DEGENERATE) = _
  rw [← h1, ← h2]
  generalize (eigSym2 a b d).1 = x
  generalize (eigSym2 a b d).2 = y
  rcases lt_trichotomy x 0 with hx | hx | hx <;> rcases lt_trichotomy y 0 with hy | hy | hy
  · have p := mul_pos_of_neg_of_neg hx hy
    rw [if_neg (by intro h; linarith [h.1]), if_pos ⟨hx, hy⟩, if_pos p, if_neg (by linarith)]
  · subst hy; simp [hx.le]
  · have p := mul_neg_of_neg_of_pos hx hy
    rw [if_neg (by intro h; linarith [h.1]), if_neg (by intro h; linarith [h.2]), if_pos p, if_neg (by linarith)]
  · subst hx; simp
  · subst hx; simp
  · subst hx; simp
  · have p := mul_neg_of_pos_of_neg hx hy
    rw [if_neg (by intro h; linarith [h.2]), if_neg (by intro h; linarith [h.1]), if_pos p, if_neg (by linarith)]
  · subst hy; simp
  · have p := mul_pos hx hy
    rw [if_pos ⟨hx, hy⟩, if_pos p, if_pos (by linarith)]

theorem vec2_ne {v : Fin 2 → ℝ} (h : v ≠ 0) : v 0 ≠ 0 ∨ v 1 ≠ 0 := by
  by_contra hc
  push Not at hc
  apply h; funext i; fin_cases i
  · exact hc.1
  · exact hc.2

/-- C37: in two dimensions with a symmetric Jacobian (Hessian), the type is MINIMUM exactly when the quadratic form is positive
definite, MAXIMUM exactly when it is negative definite, DEGENERATE exactly when the Hessian is singular, SADDLE exactly when
it is regular and the form takes both signs; no other value is returned. -/
theorem C37_type2_symmetric (J : Fin 2 → Fin 2 → ℝ) (hJ : J 0 1 = J 1 0) :
    (type2 J true = MINIMUM ↔ ∀ v, v ≠ 0 → 0 < form J v) ∧
    (type2 J true = MAXIMUM ↔ ∀ v, v ≠ 0 → form J v < 0) ∧
    (type2 J true = SADDLE ↔ (∃ v, 0 < form J v) ∧ ∃ v, form J v < 0) ∧
    (type2 J true = DEGENERATE ↔ (Matrix.of J).det = 0) ∧
    (type2 J true = MINIMUM ∨ type2 J true = MAXIMUM ∨ type2 J true = SADDLE ∨ type2 J true = DEGENERATE) := by
  have he := type2_sym_eq J
  simp only at he
  have hdet : (Matrix.of J).det = J 0 0 * J 1 1 - J 1 0 * J 1 0 := by
    rw [Matrix.det_fin_two]; simp [hJ]
  have hf : ∀ v, form J v = J 0 0 * v 0 ^ 2 + 2 * J 1 0 * v 0 * v 1 + J 1 1 * v 1 ^ 2 := by
    intro v; rw [form2, hJ]; ring
  generalize hA : J 0 0 = a at *
  generalize hB : J 1 0 = b at *
  generalize hD : J 1 1 = d at *
  -- test vectors
  have t1 : form J ![1, 0] = a := by rw [hf]; simp
  have t2 : form J ![0, 1] = d := by rw [hf]; simp
  have t3 : form J ![b, -a] = a * (a * d - b * b) := by rw [hf]; simp; ring
  have t4 : form J ![d, -b] = d * (a * d - b * b) := by rw [hf]; simp; ring
  have n1 : (![1, 0] : Fin 2 → ℝ) ≠ 0 := by intro h; have := congrFun h 0; simp at this
  have n2 : (![0, 1] : Fin 2 → ℝ) ≠ 0 := by intro h; have := congrFun h 1; simp at this
  -- positive / negative definiteness
  have ident : ∀ v : Fin 2 → ℝ, a * form J v = (a * v 0 + b * v 1) ^ 2 + (a * d - b * b) * v 1 ^ 2 := by
    intro v; rw [hf]; ring
  have ident2 : ∀ v : Fin 2 → ℝ, v ≠ 0 → 0 < a * d - b * b → 0 < a * form J v := by
    intro v hv hpos
    rw [ident]
    by_cases h1 : v 1 = 0
    · have h0 : v 0 ≠ 0 := by rcases vec2_ne hv with h | h; exact h; exact absurd h1 h
      have ha : a ≠ 0 := by
        intro h; rw [h] at hpos; nlinarith [sq_nonneg b]
      rw [h1]
      have : 0 < (a * v 0) ^ 2 := by positivity
      simpa using this
    · have : 0 < v 1 ^ 2 := by positivity
      have := mul_pos hpos this
      nlinarith [sq_nonneg (a * v 0 + b * v 1)]
  have hposdef : 0 < a * d - b * b → 0 < a + d → ∀ v, v ≠ 0 → 0 < form J v := by
    intro hpos hs v hv
    have ha : 0 < a := by
      by_contra h
      have hadpos : 0 < a * d := by nlinarith [sq_nonneg b]
      have : d < 0 := by
        by_contra hd
        have : a * d ≤ 0 := mul_nonpos_of_nonpos_of_nonneg (not_lt.1 h) (not_lt.1 hd)
        linarith
      linarith [not_lt.1 h]
    exact (pos_iff_pos_of_mul_pos (ident2 v hv hpos)).1 ha
  have hnegdef : 0 < a * d - b * b → ¬ 0 < a + d → ∀ v, v ≠ 0 → form J v < 0 := by
    intro hpos hs v hv
    have hadpos : 0 < a * d := by nlinarith [sq_nonneg b]
    have ha : a < 0 := by
      by_contra h
      have h := not_lt.1 h
      have : 0 < d := by
        by_contra hd
        have : a * d ≤ 0 := mul_nonpos_of_nonneg_of_nonpos h (not_lt.1 hd)
        linarith
      have ha : 0 < a := by
        rcases h.lt_or_eq with h | h
        · exact h
        · rw [← h] at hadpos; simp at hadpos
      linarith
    have := ident2 v hv hpos
    exact (neg_iff_neg_of_mul_pos this).1 ha
  have hsad : a * d - b * b < 0 → (∃ v, 0 < form J v) ∧ ∃ v, form J v < 0 := by
    intro hneg
    rcases lt_trichotomy a 0 with ha | ha | ha
    · exact ⟨⟨_, by rw [t3]; exact mul_pos_of_neg_of_neg ha hneg⟩, ⟨_, by rw [t1]; exact ha⟩⟩
    · -- a = 0, so b ≠ 0
      have hb : b ≠ 0 := by intro h; rw [ha, h] at hneg; simp at hneg
      have t5 : ∀ t, form J ![t, 1] = 2 * b * t + d := by intro t; rw [hf, ha]; simp
      refine ⟨⟨![(1 - d) / (2 * b), 1], ?_⟩, ⟨![(-1 - d) / (2 * b), 1], ?_⟩⟩
      · rw [t5, mul_div_cancel₀ _ (mul_ne_zero two_ne_zero hb)]; linarith
      · rw [t5, mul_div_cancel₀ _ (mul_ne_zero two_ne_zero hb)]; linarith
    · exact ⟨⟨_, by rw [t1]; exact ha⟩, ⟨_, by rw [t3]; exact mul_neg_of_pos_of_neg ha hneg⟩⟩
  have hdeg : a * d - b * b = 0 → ∃ v, v ≠ 0 ∧ form J v = 0 := by
    intro h0
    by_cases ha : a = 0
    · exact ⟨_, n1, by rw [t1]; exact ha⟩
    · refine ⟨![b, -a], ?_, by rw [t3, h0, mul_zero]⟩
      intro h; have := congrFun h 1; simp at this; exact ha this
  have hdeg2 : a * d - b * b = 0 → ¬ ((∃ v, 0 < form J v) ∧ ∃ v, form J v < 0) := by
    rintro h0 ⟨⟨v, hv⟩, ⟨w, hw⟩⟩
    by_cases ha : a = 0
    · have hb : b = 0 := by rw [ha] at h0; simpa using h0
      rw [hf, ha, hb] at hv hw
      simp at hv hw
      have p1 : 0 < d := by
        by_contra h; have := mul_nonpos_of_nonpos_of_nonneg (not_lt.1 h) (sq_nonneg (v 1)); linarith
      have := mul_nonneg p1.le (sq_nonneg (w 1)); linarith
    · have iv := ident v
      have iw := ident w
      rw [h0] at iv iw
      simp only [zero_mul, add_zero] at iv iw
      have q1 : 0 ≤ a * form J v := by rw [iv]; positivity
      have q2 : 0 ≤ a * form J w := by rw [iw]; positivity
      rcases lt_or_gt_of_ne ha with h | h
      · have := mul_neg_of_neg_of_pos h hv; linarith
      · have := mul_neg_of_pos_of_neg h hw; linarith
  rw [he, hdet]
  have c : MINIMUM ≠ MAXIMUM ∧ MINIMUM ≠ SADDLE ∧ MINIMUM ≠ DEGENERATE ∧ MAXIMUM ≠ SADDLE ∧ MAXIMUM ≠ DEGENERATE ∧ SADDLE ≠ DEGENERATE := by decide
  obtain ⟨c1, c2, c3, c4, c5, c6⟩ := c
  by_cases hp : 0 < a * d - b * b
  · by_cases hs : 0 < a + d
    · have H := hposdef hp hs
      have H0 : ∀ v, 0 ≤ form J v := fun v => by
        by_cases hv : v = 0
        · rw [hf, hv]; simp
        · exact (H v hv).le
      simp only [if_pos hp, if_pos hs, true_iff, c1, c2, c3, false_iff, true_or, and_true]
      refine ⟨H, fun h => ?_, fun h => ?_, hp.ne'⟩
      · have := H _ n1; have := h _ n1; linarith
      · obtain ⟨w, hw⟩ := h.2; linarith [H0 w]
    · have H := hnegdef hp hs
      have H0 : ∀ v, form J v ≤ 0 := fun v => by
        by_cases hv : v = 0
        · rw [hf, hv]; simp
        · exact (H v hv).le
      simp only [if_pos hp, if_neg hs, true_iff, c1.symm, c4, c5, false_iff, true_or, or_true, and_true]
      refine ⟨fun h => ?_, H, fun h => ?_, hp.ne'⟩
      · have := H _ n1; have := h _ n1; linarith
      · obtain ⟨w, hw⟩ := h.1; linarith [H0 w]
  · by_cases hn : a * d - b * b < 0
    · obtain ⟨⟨v, hv⟩, ⟨w, hw⟩⟩ := hsad hn
      have z : form J 0 = 0 := by rw [hf]; simp
      have nv : v ≠ 0 := by intro h; rw [h, z] at hv; exact lt_irrefl _ hv
      have nw : w ≠ 0 := by intro h; rw [h, z] at hw; exact lt_irrefl _ hw
      simp only [if_neg hp, if_pos hn, true_iff, c2.symm, c4.symm, c6, false_iff, true_or, or_true, and_true]
      refine ⟨fun h => ?_, fun h => ?_, ⟨⟨v, hv⟩, ⟨w, hw⟩⟩, hn.ne⟩
      · have := h _ nw; linarith
      · have := h _ nv; linarith
    · have h0 : a * d - b * b = 0 := le_antisymm (not_lt.1 hp) (not_lt.1 hn)
      obtain ⟨v, nv, hv⟩ := hdeg h0
      simp only [if_neg hp, if_neg hn, true_iff, c3.symm, c5.symm, c6.symm, false_iff, or_true, and_true]
      refine ⟨fun h => ?_, fun h => ?_, hdeg2 h0, h0⟩
      · have := h _ nv; linarith
      · have := h _ nv; linarith

/-! ### General Jacobian, two dimensions -/

theorem isEig2_iff (J : Fin 2 → Fin 2 → ℝ) (z : ℂ) :
    IsEig J z ↔ z ^ 2 + -((trace2 J : ℝ) : ℂ) * z + ((det2 J : ℝ) : ℂ) = 0 := by
  have h := Matrix.exists_mulVec_eq_zero_iff (M := Matrix.of fun i j => (J i j : ℂ) - if i = j then z else 0)
  have e : (∃ v, v ≠ 0 ∧ (Matrix.of fun i j => (J i j : ℂ) - if i = j then z else 0).mulVec v = 0) ↔ IsEig J z := by
    refine exists_congr fun v => and_congr_right fun _ => ?_
    rw [funext_iff]
    refine forall_congr' fun i => ?_
    simp only [Matrix.mulVec, dotProduct, Matrix.of_apply, sub_mul, Finset.sum_sub_distrib, ite_mul, zero_mul,
      Finset.sum_ite_eq, Finset.mem_univ, if_true, Pi.zero_apply, sub_eq_zero]
  rw [← e, h, Matrix.det_fin_two]
  simp only [Matrix.of_apply, trace2, det2]
  constructor
  · intro h; push_cast; simp at h; linear_combination h
  · intro h; push_cast at h; simp; linear_combination h

theorem complexSqrt_sq (z : ℂ) : complexSqrt z ^ 2 = z := by
  unfold complexSqrt
  rw [← Complex.cpow_nat_mul]
  norm_num

/-- C37: the two complex numbers computed for a 2x2 matrix are exactly its eigenvalues. -/
theorem C37_eigenvalues2 (J : Fin 2 → Fin 2 → ℝ) (z : ℂ) : IsEig J z ↔ z = (eig2 J).2.1 ∨ z = (eig2 J).2.2 := by
  rw [isEig2_iff]
  unfold eig2 solveQuadraticC
  have p0 : charPoly2 J 0 = det2 J := rfl
  have p1 : charPoly2 J 1 = -trace2 J := rfl
  have p2 : charPoly2 J 2 = 1 := rfl
  simp only [p0, p1, p2]
  generalize trace2 J = t
  generalize det2 J = d
  split
  · rename_i h
    simp only
    have hs := Real.sq_sqrt h
    generalize Real.sqrt (-t * -t - 4 * 1 * d) = s at *
    rw [← sub_eq_zero (a := z), ← sub_eq_zero (a := z) (b := ((_ : ℝ) : ℂ)), ← mul_eq_zero]
    have hs' : (s : ℂ) ^ 2 = -t * -t - 4 * 1 * d := by exact_mod_cast hs
    push_cast
    constructor
    · intro e; linear_combination e + (-1 / 4 : ℂ) * hs'
    · intro e; linear_combination e + (1 / 4 : ℂ) * hs'
  · rename_i h
    simp only
    have hs' := complexSqrt_sq ((-t * -t - 4 * 1 * d : ℝ) : ℂ)
    generalize complexSqrt ((-t * -t - 4 * 1 * d : ℝ) : ℂ) = s at *
    rw [← sub_eq_zero (a := z), ← sub_eq_zero (a := z) (b := (_ - s) / _), ← mul_eq_zero]
    push_cast at *
    constructor
    · intro e; linear_combination e + (-1 / 4 : ℂ) * hs'
    · intro e; linear_combination e + (1 / 4 : ℂ) * hs'

/-- real and imaginary parts of the computed eigenvalues -/
theorem eig2_parts (J : Fin 2 → Fin 2 → ℝ) :
    ((eig2 J).1 ≥ 0 → (eig2 J).2.1.im = 0 ∧ (eig2 J).2.2.im = 0) ∧
    (¬ (eig2 J).1 ≥ 0 → (eig2 J).2.1.im ≠ 0 ∧ (eig2 J).2.2.im ≠ 0 ∧ (eig2 J).2.1.re = (eig2 J).2.2.re) := by
  unfold eig2 solveQuadraticC
  have p0 : charPoly2 J 0 = det2 J := rfl
  have p1 : charPoly2 J 1 = -trace2 J := rfl
  have p2 : charPoly2 J 2 = 1 := rfl
  simp only [p0, p1, p2]
  generalize trace2 J = t
  generalize det2 J = d
  split
  · rename_i h
    refine ⟨fun _ => ⟨Complex.ofReal_im _, Complex.ofReal_im _⟩, fun h' => absurd h h'⟩
  · rename_i h
    refine ⟨fun h' => absurd h' h, fun _ => ?_⟩
    simp only
    have hs' := complexSqrt_sq ((-t * -t - 4 * 1 * d : ℝ) : ℂ)
    have hneg : -t * -t - 4 * 1 * d < 0 := not_le.1 h
    generalize complexSqrt ((-t * -t - 4 * 1 * d : ℝ) : ℂ) = s at *
    have hre := congrArg Complex.re hs'
    have him := congrArg Complex.im hs'
    rw [sq, Complex.mul_re, Complex.ofReal_re] at hre
    rw [sq, Complex.mul_im, Complex.ofReal_im] at him
    have h0 : s.re * s.im = 0 := by linarith
    have hi : s.im ≠ 0 := by
      intro hi; rw [hi] at hre; simp only [mul_zero, sub_zero] at hre; nlinarith [mul_self_nonneg s.re]
    have hr : s.re = 0 := by
      rcases mul_eq_zero.1 h0 with h | h
      · exact h
      · exact absurd h hi
    have e2 : ((2 * 1 : ℝ) : ℂ) = ((2 : ℝ) : ℂ) := by norm_num
    rw [e2]
    refine ⟨?_, ?_, ?_⟩
    · rw [Complex.div_ofReal_im]; simp [hi]
    · rw [Complex.div_ofReal_im]; simp [hi]
    · rw [Complex.div_ofReal_re, Complex.div_ofReal_re]; simp [hr]

/-- C37: in two dimensions with a general Jacobian the type is decided by the complex eigenvalues exactly as the names say.
`MINIMUM` = repelling node, `MAXIMUM` = attracting node.  Exactly one of the seven values is returned. -/
theorem C37_type2_general (J : Fin 2 → Fin 2 → ℝ) :
    (type2 J false = SADDLE ↔ ∃ a b : ℝ, a < 0 ∧ 0 < b ∧ IsEig J a ∧ IsEig J b) ∧
    (type2 J false = MINIMUM ↔ ∀ z, IsEig J z → z.im = 0 ∧ 0 < z.re) ∧
    (type2 J false = MAXIMUM ↔ ∀ z, IsEig J z → z.im = 0 ∧ z.re < 0) ∧
    (type2 J false = DEGENERATE ↔ IsEig J 0) ∧
    (type2 J false = ATTRACTING_FOCUS ↔ ∀ z, IsEig J z → z.im ≠ 0 ∧ z.re < 0) ∧
    (type2 J false = REPELLING_FOCUS ↔ ∀ z, IsEig J z → z.im ≠ 0 ∧ 0 < z.re) ∧
    (type2 J false = CENTER ↔ ∀ z, IsEig J z → z.im ≠ 0 ∧ z.re = 0) ∧
    (type2 J false ∈ [SADDLE, MINIMUM, MAXIMUM, DEGENERATE, ATTRACTING_FOCUS, REPELLING_FOCUS, CENTER]) := by
  have heig := C37_eigenvalues2 J
  obtain ⟨hreal, hcplx⟩ := eig2_parts J
  have ht : type2 J false = if (eig2 J).1 ≥ 0 then
      if (eig2 J).2.1.re * (eig2 J).2.2.re < 0 then SADDLE
      else if (eig2 J).2.1.re > 0 ∧ (eig2 J).2.2.re > 0 then MINIMUM
      else if (eig2 J).2.1.re < 0 ∧ (eig2 J).2.2.re < 0 then MAXIMUM
      else DEGENERATE
    else
      if (eig2 J).2.1.re < 0 then ATTRACTING_FOCUS
      else if (eig2 J).2.1.re > 0 then REPELLING_FOCUS
      else CENTER := rfl
  rw [ht]
  have H : ∀ Q : ℂ → Prop, (∀ z, IsEig J z → Q z) ↔ Q (eig2 J).2.1 ∧ Q (eig2 J).2.2 := by
    intro Q
    constructor
    · exact fun h => ⟨h _ ((heig _).2 (Or.inl rfl)), h _ ((heig _).2 (Or.inr rfl))⟩
    · rintro ⟨h1, h2⟩ z hz
      rcases (heig z).1 hz with h | h
      · rw [h]; exact h1
      · rw [h]; exact h2
  have hR : ∀ r : ℝ, IsEig J r ↔ (((eig2 J).2.1.im = 0 ∧ r = (eig2 J).2.1.re) ∨ ((eig2 J).2.2.im = 0 ∧ r = (eig2 J).2.2.re)) := by
    intro r
    rw [heig, Complex.ext_iff, Complex.ext_iff]
    simp only [Complex.ofReal_re, Complex.ofReal_im]
    constructor
    · rintro (h | h)
      · exact Or.inl ⟨h.2.symm, h.1⟩
      · exact Or.inr ⟨h.2.symm, h.1⟩
    · rintro (h | h)
      · exact Or.inl ⟨h.2, h.1.symm⟩
      · exact Or.inr ⟨h.2, h.1.symm⟩
  have h0 : IsEig J 0 ↔ IsEig J ((0 : ℝ) : ℂ) := by norm_num
  simp only [H, h0, hR]
  generalize (eig2 J).1 = δ at *
  generalize (eig2 J).2.1 = z0 at *
  generalize (eig2 J).2.2 = z1 at *
  clear H hR h0 heig ht
  by_cases hδ : δ ≥ 0
  · obtain ⟨i0, i1⟩ := hreal hδ
    simp only [if_pos hδ, i0, i1, true_and, ne_eq, not_true, false_and]
    generalize z0.re = x
    generalize z1.re = y
    have hS : (∃ a b : ℝ, a < 0 ∧ 0 < b ∧ (a = x ∨ a = y) ∧ (b = x ∨ b = y)) ↔ (x < 0 ∧ 0 < y) ∨ (y < 0 ∧ 0 < x) := by
      constructor
      · rintro ⟨a, b, ha, hb, h1, h2⟩
        rcases h1 with h1 | h1 <;> rcases h2 with h2 | h2 <;> rw [h1] at ha <;> rw [h2] at hb
        · linarith
        · exact Or.inl ⟨ha, hb⟩
        · exact Or.inr ⟨ha, hb⟩
        · linarith
      · rintro (⟨h1, h2⟩ | ⟨h1, h2⟩)
        · exact ⟨x, y, h1, h2, Or.inl rfl, Or.inr rfl⟩
        · exact ⟨y, x, h1, h2, Or.inr rfl, Or.inl rfl⟩
    rw [hS]
    clear hS
    rcases lt_trichotomy x 0 with hx | hx | hx <;> rcases lt_trichotomy y 0 with hy | hy | hy
    · have p := mul_pos_of_neg_of_neg hx hy
      simp [SADDLE, MINIMUM, MAXIMUM, DEGENERATE, ATTRACTING_FOCUS, REPELLING_FOCUS, CENTER, hx, hy, not_lt.2 p.le, not_lt.2 hx.le,
        not_lt.2 hy.le, hx.ne', hy.ne']
    · simp [SADDLE, MINIMUM, MAXIMUM, DEGENERATE, ATTRACTING_FOCUS, REPELLING_FOCUS, CENTER, hy]
    · have p := mul_neg_of_neg_of_pos hx hy
      simp [SADDLE, MINIMUM, MAXIMUM, DEGENERATE, ATTRACTING_FOCUS, REPELLING_FOCUS, CENTER, hx, hy, p, not_lt.2 hx.le,
        not_lt.2 hy.le, hx.ne', hy.ne]
    · simp [SADDLE, MINIMUM, MAXIMUM, DEGENERATE, ATTRACTING_FOCUS, REPELLING_FOCUS, CENTER, hx]
    · simp [SADDLE, MINIMUM, MAXIMUM, DEGENERATE, ATTRACTING_FOCUS, REPELLING_FOCUS, CENTER, hx]
    · simp [SADDLE, MINIMUM, MAXIMUM, DEGENERATE, ATTRACTING_FOCUS, REPELLING_FOCUS, CENTER, hx]
    · have p := mul_neg_of_pos_of_neg hx hy
      simp [SADDLE, MINIMUM, MAXIMUM, DEGENERATE, ATTRACTING_FOCUS, REPELLING_FOCUS, CENTER, hx, hy, p, not_lt.2 hx.le,
        not_lt.2 hy.le, hx.ne, hy.ne']
    · simp [SADDLE, MINIMUM, MAXIMUM, DEGENERATE, ATTRACTING_FOCUS, REPELLING_FOCUS, CENTER, hy]
    · have p := mul_pos hx hy
      simp [SADDLE, MINIMUM, MAXIMUM, DEGENERATE, ATTRACTING_FOCUS, REPELLING_FOCUS, CENTER, hx, hy, not_lt.2 p.le, not_lt.2 hx.le,
        not_lt.2 hy.le, hx.ne, hy.ne]
  · obtain ⟨i0, i1, hre⟩ := hcplx hδ
    simp only [if_neg hδ, i0, i1, hre, ne_eq, not_false_iff, true_and, false_and, and_self, or_self, and_false, exists_false]
    generalize z1.re = x
    rcases lt_trichotomy x 0 with hx | hx | hx
    · simp [SADDLE, MINIMUM, MAXIMUM, DEGENERATE, ATTRACTING_FOCUS, REPELLING_FOCUS, CENTER, hx, hx.le, hx.ne]
    · simp [SADDLE, MINIMUM, MAXIMUM, DEGENERATE, ATTRACTING_FOCUS, REPELLING_FOCUS, CENTER, hx]
    · simp [SADDLE, MINIMUM, MAXIMUM, DEGENERATE, ATTRACTING_FOCUS, REPELLING_FOCUS, CENTER, hx, not_lt.2 hx.le, hx.ne']

/-! ### Symmetric, three dimensions -/

open Matrix in
/-- C37: for a symmetric 3x3 matrix the three computed numbers are the eigenvalues with multiplicity. -/
theorem C37_eigenvalues_sym3 (A : Fin 3 → Fin 3 → ℝ) (hA : ∀ i j, A i j = A j i) (x : ℝ) :
    (x - (eigSym3 A).1) * (x - (eigSym3 A).2.1) * (x - (eigSym3 A).2.2) = (x • (1 : Matrix (Fin 3) (Fin 3) ℝ) - Matrix.of A).det := by
  have hH : (Matrix.of A).IsHermitian := by
    ext i j; simp [Matrix.conjTranspose_apply, hA i j]
  rw [← C33_charPoly3]
  change _ = charPoly3 A 0 + charPoly3 A 1 * x + charPoly3 A 2 * x ^ 2 + 1 * x ^ 3
  have hall : ∀ y, charPoly3 A 0 + charPoly3 A 1 * y + charPoly3 A 2 * y ^ 2 + 1 * y ^ 3 =
      (y - hH.eigenvalues 0) * (y - hH.eigenvalues 1) * (y - hH.eigenvalues 2) := by
    intro y
    have h1 := C33_charPoly3 (Matrix.of A) y
    have h2 : ((Matrix.of A).charpoly).eval y = (y - hH.eigenvalues 0) * (y - hH.eigenvalues 1) * (y - hH.eigenvalues 2) := by
      rw [hH.charpoly_eq, Polynomial.eval_prod, Fin.prod_univ_three]; simp
    rw [← h2, Matrix.eval_charpoly]
    change charPoly3 A 0 + charPoly3 A 1 * y + charPoly3 A 2 * y ^ 2 + 1 * y ^ 3 = _ at h1
    rw [h1]; congr 1; ext i j; simp [Matrix.scalar_apply, Matrix.smul_apply, Matrix.one_apply, Matrix.diagonal_apply]
  generalize hH.eigenvalues 0 = e0 at hall
  generalize hH.eigenvalues 1 = e1 at hall
  generalize hH.eigenvalues 2 = e2 at hall
  have hr : Roots3 (charPoly3 A 2) (charPoly3 A 1) (charPoly3 A 0) e0 e1 e2 := by
    have a0 := hall 0
    have a1 := hall 1
    have a2 := hall (-1)
    refine ⟨?_, ?_, ?_⟩ <;> linarith
  unfold eigSym3
  simp only
  generalize charPoly3 A 2 = b at *
  generalize charPoly3 A 1 = c at *
  generalize charPoly3 A 0 = d at *
  have hle : cdisc b c d ≤ 0 := by rw [roots3_disc hr]; nlinarith [sq_nonneg ((e0 - e1) * (e0 - e2) * (e1 - e2))]
  split
  · rename_i h
    have := (double_roots (le_antisymm hle h)).factor x
    simp only; linarith
  · rename_i h
    have := (trig_roots (not_le.1 h)).factor x
    simp only; linarith

theorem form_eq {n : ℕ} (A : Fin n → Fin n → ℝ) (v : Fin n → ℝ) : form A v = v ⬝ᵥ (Matrix.of A).mulVec v := by
  simp only [form, Matrix.mulVec, dotProduct, Matrix.of_apply, Finset.mul_sum, mul_assoc]

theorem form_smul {n : ℕ} (A : Fin n → Fin n → ℝ) (v : Fin n → ℝ) (x : ℝ) (h : (Matrix.of A).mulVec v = x • v) :
    form A v = x * (v ⬝ᵥ v) := by
  rw [form_eq, h, dotProduct_smul, smul_eq_mul]

theorem dot_pos {n : ℕ} {v : Fin n → ℝ} (h : v ≠ 0) : 0 < v ⬝ᵥ v := by
  obtain ⟨i, hi⟩ := Function.ne_iff.1 h
  refine Finset.sum_pos' (fun j _ => mul_self_nonneg _) ⟨i, Finset.mem_univ _, ?_⟩
  exact mul_self_pos.2 hi

theorem eigvec_of_root {n : ℕ} (A : Fin n → Fin n → ℝ) (x : ℝ) (h : (x • (1 : Matrix (Fin n) (Fin n) ℝ) - Matrix.of A).det = 0) :
    ∃ v, v ≠ 0 ∧ form A v = x * (v ⬝ᵥ v) := by
  obtain ⟨v, hv, e⟩ := Matrix.exists_mulVec_eq_zero_iff.2 h
  refine ⟨v, hv, form_smul A v x ?_⟩
  rw [Matrix.sub_mulVec, Matrix.smul_mulVec, Matrix.one_mulVec, sub_eq_zero] at e
  exact e.symm

theorem posdef_iff_roots {n : ℕ} (A : Fin n → Fin n → ℝ) (hA : ∀ i j, A i j = A j i) :
    (∀ v, v ≠ 0 → 0 < form A v) ↔ ∀ x : ℝ, (x • (1 : Matrix (Fin n) (Fin n) ℝ) - Matrix.of A).det = 0 → 0 < x := by
  have hH : (Matrix.of A).IsHermitian := by
    ext i j; simp [Matrix.conjTranspose_apply, hA i j]
  constructor
  · intro h x hx
    obtain ⟨v, hv, e⟩ := eigvec_of_root A x hx
    have h1 := h v hv
    rw [e] at h1
    exact (pos_iff_pos_of_mul_pos h1).2 (dot_pos hv)
  · intro h v hv
    have hpd : (Matrix.of A).PosDef := by
      rw [hH.posDef_iff_eigenvalues_pos]
      intro i
      apply h
      have : (Matrix.of A).charpoly.eval (hH.eigenvalues i) = 0 := by
        rw [hH.charpoly_eq, Polynomial.eval_prod]
        exact Finset.prod_eq_zero (Finset.mem_univ i) (by simp)
      rw [Matrix.eval_charpoly] at this
      rw [← this]; congr 1; ext i j
      simp [Matrix.scalar_apply, Matrix.smul_apply, Matrix.one_apply, Matrix.diagonal_apply]
    rw [form_eq]
    have := hpd.dotProduct_mulVec_pos hv
    simpa using this

/-- C37: in three dimensions with a symmetric Jacobian, the type is MINIMUM exactly when the quadratic form is positive definite,
MAXIMUM exactly when it is negative definite, DEGENERATE exactly when the matrix is singular, SADDLE exactly when it is regular
and the form takes both signs; no other value is returned. -/
theorem C37_type3_symmetric (A : Fin 3 → Fin 3 → ℝ) (hA : ∀ i j, A i j = A j i) :
    (type3 A true = MINIMUM ↔ ∀ v, v ≠ 0 → 0 < form A v) ∧
    (type3 A true = MAXIMUM ↔ ∀ v, v ≠ 0 → form A v < 0) ∧
    (type3 A true = SADDLE ↔ (Matrix.of A).det ≠ 0 ∧ (∃ v, 0 < form A v) ∧ ∃ v, form A v < 0) ∧
    (type3 A true = DEGENERATE ↔ (Matrix.of A).det = 0) ∧
    (type3 A true = MINIMUM ∨ type3 A true = MAXIMUM ∨ type3 A true = SADDLE ∨ type3 A true = DEGENERATE) := by
  have hx := C37_eigenvalues_sym3 A hA
  have ht : type3 A true = if (eigSym3 A).1 * (eigSym3 A).2.1 * (eigSym3 A).2.2 = 0 then DEGENERATE
    else if (eigSym3 A).1 < 0 ∧ (eigSym3 A).2.1 < 0 ∧ (eigSym3 A).2.2 < 0 then MAXIMUM
    else if (eigSym3 A).1 > 0 ∧ (eigSym3 A).2.1 > 0 ∧ (eigSym3 A).2.2 > 0 then MINIMUM
    else SADDLE := rfl
  rw [ht]
  generalize (eigSym3 A).1 = x0 at *
  generalize (eigSym3 A).2.1 = x1 at *
  generalize (eigSym3 A).2.2 = x2 at *
  have hdet : (Matrix.of A).det = x0 * x1 * x2 := by
    have := hx 0
    simp only [zero_smul, zero_sub, Matrix.det_neg] at this
    simp at this
    linarith
  have hroot : ∀ x : ℝ, (x • (1 : Matrix (Fin 3) (Fin 3) ℝ) - Matrix.of A).det = 0 ↔ x = x0 ∨ x = x1 ∨ x = x2 := by
    intro x
    rw [← hx, mul_eq_zero, mul_eq_zero, sub_eq_zero, sub_eq_zero, sub_eq_zero, or_assoc]
  have hmin : (∀ v, v ≠ 0 → 0 < form A v) ↔ 0 < x0 ∧ 0 < x1 ∧ 0 < x2 := by
    rw [posdef_iff_roots A hA]
    simp only [hroot]
    constructor
    · intro h; exact ⟨h _ (by simp), h _ (by simp), h _ (by simp)⟩
    · rintro ⟨h0, h1, h2⟩ x (rfl | rfl | rfl) <;> assumption
  have hmax : (∀ v, v ≠ 0 → form A v < 0) ↔ x0 < 0 ∧ x1 < 0 ∧ x2 < 0 := by
    have e : ∀ v, form (fun i j => -A i j) v = -form A v := by
      intro v; simp [form, Finset.sum_neg_distrib]
    have h1 := posdef_iff_roots (fun i j => -A i j) (fun i j => by rw [hA])
    simp only [e, neg_pos] at h1
    rw [h1]
    have hr : ∀ x : ℝ, (x • (1 : Matrix (Fin 3) (Fin 3) ℝ) - Matrix.of (fun i j => -A i j)).det = 0 ↔ -x = x0 ∨ -x = x1 ∨ -x = x2 := by
      intro x
      rw [← hroot]
      have : (x • (1 : Matrix (Fin 3) (Fin 3) ℝ) - Matrix.of (fun i j => -A i j)) = -((-x) • (1 : Matrix (Fin 3) (Fin 3) ℝ) - Matrix.of A) := by
        ext i j; simp [Matrix.smul_apply, Matrix.one_apply]; ring
      rw [this, Matrix.det_neg]
      simp
    simp only [hr]
    constructor
    · intro h
      have a := h (-x0) (by simp); have b := h (-x1) (by simp); have c := h (-x2) (by simp)
      exact ⟨by linarith, by linarith, by linarith⟩
    · rintro ⟨h0, h1, h2⟩ x (h | h | h) <;> linarith
  have hpos : ∀ x, (x = x0 ∨ x = x1 ∨ x = x2) → 0 < x → ∃ v, 0 < form A v := by
    intro x hx' h
    obtain ⟨v, hv, e⟩ := eigvec_of_root A x ((hroot x).2 hx')
    exact ⟨v, by rw [e]; exact mul_pos h (dot_pos hv)⟩
  have hneg : ∀ x, (x = x0 ∨ x = x1 ∨ x = x2) → x < 0 → ∃ v, form A v < 0 := by
    intro x hx' h
    obtain ⟨v, hv, e⟩ := eigvec_of_root A x ((hroot x).2 hx')
    exact ⟨v, by rw [e]; exact mul_neg_of_neg_of_pos h (dot_pos hv)⟩
  rw [hmin, hmax, hdet]
  have z : form A 0 = 0 := by simp [form]
  have nz : (fun _ => 1 : Fin 3 → ℝ) ≠ 0 := by intro h; have := congrFun h 0; simp at this
  have c : MINIMUM ≠ MAXIMUM ∧ MINIMUM ≠ SADDLE ∧ MINIMUM ≠ DEGENERATE ∧ MAXIMUM ≠ SADDLE ∧ MAXIMUM ≠ DEGENERATE ∧ SADDLE ≠ DEGENERATE := by decide
  obtain ⟨c1, c2, c3, c4, c5, c6⟩ := c
  by_cases hd : x0 * x1 * x2 = 0
  · have n0 : ¬ (0 < x0 ∧ 0 < x1 ∧ 0 < x2) := by rintro ⟨a, b, c⟩; have := mul_pos (mul_pos a b) c; linarith
    have n1 : ¬ (x0 < 0 ∧ x1 < 0 ∧ x2 < 0) := by
      rintro ⟨a, b, c⟩; have := mul_neg_of_pos_of_neg (mul_pos_of_neg_of_neg a b) c; linarith
    simp [hd, n0, n1, c3.symm, c5.symm, c6.symm]
  · have d0 : x0 ≠ 0 := by rintro rfl; simp at hd
    have d1 : x1 ≠ 0 := by rintro rfl; simp at hd
    have d2 : x2 ≠ 0 := by rintro rfl; simp at hd
    by_cases h1 : x0 < 0 ∧ x1 < 0 ∧ x2 < 0
    · have n0 : ¬ (0 < x0 ∧ 0 < x1 ∧ 0 < x2) := by rintro ⟨a, b, c⟩; linarith [h1.1]
      have hall := hmax.2 h1
      have nn : ¬ ∃ v, 0 < form A v := by
        rintro ⟨v, hv⟩
        by_cases hv0 : v = 0
        · rw [hv0, z] at hv; exact lt_irrefl _ hv
        · linarith [hall v hv0]
      rw [if_neg hd, if_pos h1]
      simp [hd, h1, n0, nn, c1.symm, c4, c5, not_lt.2 h1.1.le]
    · by_cases h2 : 0 < x0 ∧ 0 < x1 ∧ 0 < x2
      · have hall := hmin.2 h2
        have nn : ¬ ∃ v, form A v < 0 := by
          rintro ⟨v, hv⟩
          by_cases hv0 : v = 0
          · rw [hv0, z] at hv; exact lt_irrefl _ hv
          · linarith [hall v hv0]
        rw [if_neg hd, if_neg h1, if_pos h2]
        simp only [hd, h1, h2, nn, c1, c2, c3, true_iff, false_iff, and_false, not_false_iff, and_true, true_and, true_or]
      · have ep : ∃ v, 0 < form A v := by
          by_contra hc
          apply h1
          refine ⟨?_, ?_, ?_⟩
          · rcases lt_or_gt_of_ne d0 with h | h
            · exact h
            · exact absurd (hpos x0 (by simp) h) hc
          · rcases lt_or_gt_of_ne d1 with h | h
            · exact h
            · exact absurd (hpos x1 (by simp) h) hc
          · rcases lt_or_gt_of_ne d2 with h | h
            · exact h
            · exact absurd (hpos x2 (by simp) h) hc
        have en : ∃ v, form A v < 0 := by
          by_contra hc
          apply h2
          refine ⟨?_, ?_, ?_⟩
          · rcases lt_or_gt_of_ne d0 with h | h
            · exact absurd (hneg x0 (by simp) h) hc
            · exact h
          · rcases lt_or_gt_of_ne d1 with h | h
            · exact absurd (hneg x1 (by simp) h) hc
            · exact h
          · rcases lt_or_gt_of_ne d2 with h | h
            · exact absurd (hneg x2 (by simp) h) hc
            · exact h
        rw [if_neg hd, if_neg h1, if_neg h2]
        simp only [hd, h1, h2, ep, en, c2.symm, c4.symm, c6, iff_false, ne_eq, not_false_iff, and_true, true_or, or_true]

/-- C37: `make_symmetric` produces a symmetric matrix with the same quadratic form, so after it the symmetric classification
speaks about the given Jacobian, whatever it was. -/
theorem C37_make_symmetric (m : Fin 2 → Fin 2 → ℝ) (n : Fin 3 → Fin 3 → ℝ) :
    (makeSym2 m 0 1 = makeSym2 m 1 0 ∧ ∀ v, form (makeSym2 m) v = form m v) ∧
    ((∀ i j, makeSym3 n i j = makeSym3 n j i) ∧ ∀ v, form (makeSym3 n) v = form n v) := by
  refine ⟨⟨rfl, fun v => ?_⟩, ⟨fun i j => ?_, fun v => ?_⟩⟩
  · rw [form2, form2]; simp only [makeSym2, Matrix.cons_val_zero, Matrix.cons_val_one, Matrix.cons_val_fin_one]; ring
  · fin_cases i <;> fin_cases j <;> rfl
  · simp [form, Fin.sum_univ_three, makeSym3]; ring

/-- C37 (finding): with a general Jacobian the three-dimensional classification is not implemented. -/
theorem C37_type3_general_unknown (A : Fin 3 → Fin 3 → ℝ) : type3 A false = UNKNOWN := rfl

/-! Concrete cases: a saddle, a rotation (center), a minimum in 3-D. -/

example : type2 ![![1, 2], ![2, 1]] true = SADDLE := by
  rw [(C37_type2_symmetric _ rfl).2.2.1]
  refine ⟨⟨![1, 0], ?_⟩, ⟨![1, -1], ?_⟩⟩ <;> rw [form2] <;> norm_num

example : type2 ![![0, 1], ![-1, 0]] false = CENTER := by
  rw [(C37_type2_general _).2.2.2.2.2.2.1]
  intro z hz
  rw [isEig2_iff] at hz
  simp [trace2, det2] at hz
  have hre := congrArg Complex.re hz
  have him := congrArg Complex.im hz
  simp [sq] at hre him
  have : z.re * z.im = 0 := by linarith
  have hi : z.im ≠ 0 := by
    intro h; rw [h] at hre; nlinarith [mul_self_nonneg z.re]
  exact ⟨hi, by rcases mul_eq_zero.1 this with h | h; exact h; exact absurd h hi⟩

example : type3 ![![2, 1, 0], ![1, 2, 0], ![0, 0, 1]] true = MINIMUM := by
  rw [(C37_type3_symmetric _ (by intro i j; fin_cases i <;> fin_cases j <;> rfl)).1]
  intro v hv
  simp [form, Fin.sum_univ_three]
  obtain ⟨i, hi⟩ := Function.ne_iff.1 hv
  have p : 0 < v i * v i := mul_self_pos.2 hi
  have q := mul_self_nonneg (v 0 + v 1)
  have a0 := mul_self_nonneg (v 0)
  have a1 := mul_self_nonneg (v 1)
  have a2 := mul_self_nonneg (v 2)
  fin_cases i <;> simp only [Fin.zero_eta, Fin.mk_one, Fin.reduceFinMk] at p <;> nlinarith

end Verif.CPType
