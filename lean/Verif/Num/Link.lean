import Verif.Num.Lerp

/-!
# C54: the robust test and the numeric solver agree

The trackers first call the integer test `robust_critical_point_in_simplexN` and then compute the
position with `inverse_lerp_sNvN`.  On the same integer vectors (exact arithmetic) the two agree, except
that the robust test resolves degenerate positions.
-/

namespace Verif.Num

open Verif.SoS

/-- the same vectors, as rationals -/
def castV {m n : ℕ} (V : Fin m → Fin n → ℤ) : Fin m → Fin n → ℚ := fun i j => ((V i j : ℤ) : ℚ)

theorem orientZ2 (V : Fin 3 → Fin 2 → ℤ) : orientZ V =
    V 0 0 * V 1 1 - V 0 1 * V 1 0 + V 1 0 * V 2 1 - V 1 1 * V 2 0 + V 2 0 * V 0 1 - V 2 1 * V 0 0 := by
  unfold orientZ
  rw [Matrix.det_fin_three]
  simp [Fin.snoc]
  ring

theorem edges2_det (V : Fin 3 → Fin 2 → ℤ) : (edges2 (castV V)).det = ((orientZ V : ℤ) : ℚ) := by
  rw [orientZ2, Matrix.det_fin_two]
  simp [edges2, castV]
  ring

/-- barycentric weights times the orientation = orientation with one vertex moved to the origin -/
theorem weights2 (V : Fin 3 → Fin 2 → ℤ) (eps : ℚ) (h : orientZ V ≠ 0) (i : Fin 3) :
    (inverseLerpS2v2 (castV V) eps).2 i = ((orientZ (replace V i fun _ => 0) : ℤ) : ℚ) / ((orientZ V : ℤ) : ℚ) := by
  have hq : ((orientZ V : ℤ) : ℚ) ≠ 0 := by exact_mod_cast h
  have := (C54_s2v2 (castV V) eps (by rw [edges2_det]; exact hq)
    (fun i => ((orientZ (replace V i fun _ => 0) : ℤ) : ℚ) / ((orientZ V : ℤ) : ℚ))).1 ?_
  · exact (congrFun this i).symm
  constructor
  · rw [← add_div, ← add_div, div_eq_iff hq]
    simp only [orientZ2, replace]
    simp
    ring
  · funext j
    fin_cases j
    · simp only [lerpS2v2, Fin.zero_eta, Matrix.cons_val_zero, Pi.zero_apply]
      rw [← mul_div_assoc, ← mul_div_assoc, ← mul_div_assoc, ← add_div, ← add_div, div_eq_iff hq]
      simp only [orientZ2, replace, castV]
      simp
      ring
    · simp only [lerpS2v2, Fin.mk_one, Matrix.cons_val, Pi.zero_apply]
      rw [← mul_div_assoc, ← mul_div_assoc, ← mul_div_assoc, ← add_div, ← add_div, div_eq_iff hq]
      simp only [orientZ2, replace, castV]
      simp
      ring

theorem sign_mul_nonneg {a b : ℤ} (hb : b ≠ 0) (h : a ≠ 0 → a.sign = b.sign) : 0 ≤ ((a : ℤ) : ℚ) / ((b : ℤ) : ℚ) := by
  rcases eq_or_ne a 0 with h0 | h0
  · simp [h0]
  · have := h h0
    rcases lt_or_gt_of_ne hb with hb' | hb'
    · rw [Int.sign_eq_neg_one_of_neg hb', Int.sign_eq_neg_one_iff_neg] at this
      exact div_nonneg_of_nonpos (by exact_mod_cast this.le) (by exact_mod_cast hb'.le)
    · rw [Int.sign_eq_one_of_pos hb', Int.sign_eq_one_iff_pos] at this
      exact div_nonneg (by exact_mod_cast this.le) (by exact_mod_cast hb'.le)

theorem sign_of_div_pos {a b : ℤ} (h : 0 < ((a : ℤ) : ℚ) / ((b : ℤ) : ℚ)) : a ≠ 0 ∧ a.sign = b.sign := by
  rcases div_pos_iff.1 h with ⟨h1, h2⟩ | ⟨h1, h2⟩
  · have h1' : 0 < a := by exact_mod_cast h1
    have h2' : 0 < b := by exact_mod_cast h2
    exact ⟨h1'.ne', by rw [Int.sign_eq_one_of_pos h1', Int.sign_eq_one_of_pos h2']⟩
  · have h1' : a < 0 := by exact_mod_cast h1
    have h2' : b < 0 := by exact_mod_cast h2
    exact ⟨h1'.ne, by rw [Int.sign_eq_neg_one_of_neg h1', Int.sign_eq_neg_one_of_neg h2']⟩

/-- C54: a non-degenerate triangle reported by the robust test gets weights in `[0, 1]`, and the solver
reports success for every `eps ≥ 0`; conversely a triangle with strictly positive weights is reported. -/
theorem C54_robust_then_solve2 (V : Fin 3 → Fin 2 → ℤ) (v : Fin 3 → ℤ) (hv : Function.Injective v)
    (hm : ∀ i, v i ≠ -1) (hd : (edges2 (castV V)).det ≠ 0) (eps : ℚ) (heps : 0 ≤ eps) :
    (criticalPointInSimplex2 V v = true → (∀ i, 0 ≤ (inverseLerpS2v2 (castV V) eps).2 i ∧ (inverseLerpS2v2 (castV V) eps).2 i ≤ 1)
      ∧ (inverseLerpS2v2 (castV V) eps).1 = true) ∧
    ((∀ i, 0 < (inverseLerpS2v2 (castV V) eps).2 i) → criticalPointInSimplex2 V v = true) := by
  have hne : orientZ V ≠ 0 := by
    rw [edges2_det] at hd; exact_mod_cast hd
  have hall : criticalPointInSimplex2 V v = true ↔
      ∀ i, positive2 V v = positive2 (replace V i fun _ => 0) (replace v i (-1)) := by
    unfold criticalPointInSimplex2 pointInSimplex2
    rw [allLoop_iff]; simp
  have hs := C30_exact2 V v hv hne
  constructor
  · intro h
    have hnn : ∀ i, 0 ≤ (inverseLerpS2v2 (castV V) eps).2 i := by
      intro i
      rw [weights2 V eps hne]
      refine sign_mul_nonneg hne fun h0 => ?_
      rw [← hs, hall.1 h i, C30_exact2 _ _ (replace_inj hv hm i) h0]
    have hsum := ((C54_s2v2 (castV V) eps hd _).2 rfl).1
    have h1 : ∀ i, (inverseLerpS2v2 (castV V) eps).2 i ≤ 1 := by
      intro i
      have a := hnn 0; have b := hnn 1; have c := hnn 2
      fin_cases i <;> simp only [Fin.zero_eta, Fin.mk_one, Fin.reduceFinMk] <;> linarith
    refine ⟨fun i => ⟨hnn i, h1 i⟩, (C54_s2v2_success _ _).2 fun i => ?_⟩
    have := hnn i; have := h1 i
    constructor <;> linarith
  · intro h
    rw [hall]
    intro i
    have hi := h i
    rw [weights2 V eps hne] at hi
    obtain ⟨h0, h1⟩ := sign_of_div_pos hi
    rw [C30_exact2 _ _ (replace_inj hv hm i) h0, hs, h1]

theorem orientZ3 (V : Fin 4 → Fin 3 → ℤ) : orientZ V = (edges3 V).det := by
  unfold orientZ
  rw [Matrix.det_succ_row_zero, Matrix.det_fin_three]
  simp [Fin.sum_univ_succ, Matrix.det_fin_three, Fin.snoc, Matrix.submatrix, Fin.succAbove, edges3]
  have h2 : ∀ h : (2 : Fin 4) ≠ Fin.last 3, Fin.castPred 2 h = (2 : Fin 3) := fun _ => rfl
  simp only [h2]
  ring

theorem edges3_det (V : Fin 4 → Fin 3 → ℤ) : (edges3 (castV V)).det = ((orientZ V : ℤ) : ℚ) := by
  rw [orientZ3, Matrix.det_fin_three, Matrix.det_fin_three]
  simp [edges3, castV]

theorem weights3 (V : Fin 4 → Fin 3 → ℤ) (eps : ℚ) (h : orientZ V ≠ 0) (i : Fin 4) :
    (inverseLerpS3v3 (castV V) eps).2 i = ((orientZ (replace V i fun _ => 0) : ℤ) : ℚ) / ((orientZ V : ℤ) : ℚ) := by
  have hq : ((orientZ V : ℤ) : ℚ) ≠ 0 := by exact_mod_cast h
  have := (C54_s3v3 (castV V) eps (by rw [edges3_det]; exact hq)
    (fun i => ((orientZ (replace V i fun _ => 0) : ℤ) : ℚ) / ((orientZ V : ℤ) : ℚ))).1 ?_
  · exact (congrFun this i).symm
  constructor
  · rw [← add_div, ← add_div, ← add_div, div_eq_iff hq]
    simp only [orientZ3, replace, edges3, Matrix.det_fin_three]
    simp
    ring
  · funext j
    fin_cases j
    all_goals
      simp only [lerpS3v3, Fin.zero_eta, Fin.mk_one, Fin.reduceFinMk, Matrix.cons_val, Pi.zero_apply]
      rw [← mul_div_assoc, ← mul_div_assoc, ← mul_div_assoc, ← mul_div_assoc, ← add_div, ← add_div, ← add_div, div_eq_iff hq]
      simp only [orientZ3, replace, edges3, Matrix.det_fin_three, castV]
      simp
      ring

/-- C54: the same for tetrahedra; the solver's upper bound is strict, so success needs `eps > 0`. -/
theorem C54_robust_then_solve3 (V : Fin 4 → Fin 3 → ℤ) (v : Fin 4 → ℤ) (hv : Function.Injective v)
    (hm : ∀ i, v i ≠ -1) (hd : (edges3 (castV V)).det ≠ 0) (eps : ℚ) (heps : 0 < eps) :
    (criticalPointInSimplex3 V v = true → (∀ i, 0 ≤ (inverseLerpS3v3 (castV V) eps).2 i ∧ (inverseLerpS3v3 (castV V) eps).2 i ≤ 1)
      ∧ (inverseLerpS3v3 (castV V) eps).1 = true) ∧
    ((∀ i, 0 < (inverseLerpS3v3 (castV V) eps).2 i) → criticalPointInSimplex3 V v = true) := by
  have hne : orientZ V ≠ 0 := by
    rw [edges3_det] at hd; exact_mod_cast hd
  have hall : criticalPointInSimplex3 V v = true ↔
      ∀ i, positive3 V v = positive3 (replace V i fun _ => 0) (replace v i (-1)) := by
    unfold criticalPointInSimplex3 pointInSimplex3
    rw [allLoop_iff]; simp
  have hs := C30_exact3 V v hv hne
  constructor
  · intro h
    have hnn : ∀ i, 0 ≤ (inverseLerpS3v3 (castV V) eps).2 i := by
      intro i
      rw [weights3 V eps hne]
      refine sign_mul_nonneg hne fun h0 => ?_
      rw [← hs, hall.1 h i, C30_exact3 _ _ (replace_inj hv hm i) h0]
    have hsum := ((C54_s3v3 (castV V) eps hd _).2 rfl).1
    have h1 : ∀ i, (inverseLerpS3v3 (castV V) eps).2 i ≤ 1 := by
      intro i
      have a := hnn 0; have b := hnn 1; have c := hnn 2; have d := hnn 3
      fin_cases i <;> simp only [Fin.zero_eta, Fin.mk_one, Fin.reduceFinMk] <;> linarith
    refine ⟨fun i => ⟨hnn i, h1 i⟩, (C54_s3v3_success _ _).2 fun i => ?_⟩
    have := hnn i; have := h1 i
    constructor <;> linarith
  · intro h
    rw [hall]
    intro i
    have hi := h i
    rw [weights3 V eps hne] at hi
    obtain ⟨h0, h1⟩ := sign_of_div_pos hi
    rw [C30_exact3 _ _ (replace_inj hv hm i) h0, hs, h1]

/-- Non-vacuity: concrete simplices that are reported, with their weights. -/
example : Matrix.det (edges2 (castV ![![-2, -1], ![3, -1], ![0, 2]])) ≠ 0 ∧
    criticalPointInSimplex2 ![![-2, -1], ![3, -1], ![0, 2]] ![4, 9, 7] = true ∧
    (inverseLerpS2v2 (castV ![![-2, -1], ![3, -1], ![0, 2]]) 0).2 = ![2/5, 4/15, 1/3] ∧
    Matrix.det (edges3 (castV ![![-1, -1, -1], ![3, -1, -1], ![0, 3, -1], ![0, 0, 3]])) ≠ 0 ∧
    criticalPointInSimplex3 ![![-1, -1, -1], ![3, -1, -1], ![0, 3, -1], ![0, 0, 3]] ![4, 9, 7, 1] = true := by decide +kernel

end Verif.Num
