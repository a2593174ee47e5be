import Verif.Num.Link
import Verif.SoS.Degenerate
/-! # C95: after a positive answer of the robust test, the solver called next succeeds (exact arithmetic) -/
namespace Verif.Num
open Verif.SoS

/-- all affine weights of the zero are the ones that are not negative -/
theorem weights_nonneg {d : ℕ} {X : Fin (d + 1) → Fin d → ℤ} (hne : orientZ X ≠ 0) (hs : Solvable X fun _ => 0)
    {w : Fin (d + 1) → ℝ} (h1 : ∑ i, w i = 1) (h2 : ∀ j, ∑ i, w i * (X i j : ℝ) = 0) : ∀ i, 0 ≤ w i := by
  have hne' : Spec.orient (fun i j => (X i j : ℝ)) ≠ 0 := by rw [← orientZ_cast]; exact_mod_cast hne
  obtain ⟨w', ⟨h0, h1', h2'⟩, -⟩ := hs
  have : w = w' := by
    refine comb_inj hne' ?_
    funext j
    refine Fin.lastCases ?_ (fun j => ?_) j
    · simp only [comb, hom_last, mul_one]; rw [h1, h1']
    · simp only [comb, hom_cast]; rw [h2, h2']
  rw [this]
  exact h0

/-- C95 — triangle: if the robust test says yes, the solver on the same vectors succeeds, for every `eps ≥ 0`; its weights
are in `[0, 1]`, add up to 1, and interpolate the vectors to zero. -/
theorem C95_solve2 (V : Fin 3 → Fin 2 → ℤ) (v : Fin 3 → ℤ) (hv : Function.Injective v) (h0 : ∀ i, 0 ≤ v i)
    (h : criticalPointInSimplex2 V v = true) (eps : ℚ) (heps : 0 ≤ eps) :
    (inverseLerpS2v2 (castV V) eps).1 = true ∧
    (∀ i, 0 ≤ (inverseLerpS2v2 (castV V) eps).2 i ∧ (inverseLerpS2v2 (castV V) eps).2 i ≤ 1) ∧
    ∑ i, (inverseLerpS2v2 (castV V) eps).2 i = 1 ∧ ∀ j, ∑ i, (inverseLerpS2v2 (castV V) eps).2 i * castV V i j = 0 := by
  obtain ⟨hne, -⟩ := C95_hit2 V v hv h0 h
  have hd : (edges2 (castV V)).det ≠ 0 := by rw [edges2_det]; exact_mod_cast hne
  obtain ⟨h1, h2⟩ := (C54_robust_then_solve2 V v hv (fun i => by have := h0 i; omega) hd eps heps).1 h
  obtain ⟨h3, h4⟩ := (C54_s2v2 (castV V) eps hd _).2 rfl
  refine ⟨h2, h1, by rw [Fin.sum_univ_three]; exact h3, fun j => ?_⟩
  have := congrFun h4 j
  rw [Fin.sum_univ_three]
  fin_cases j <;> simp [lerpS2v2] at this ⊢ <;> linarith

/-- C95 — tetrahedron: here success needs `eps > 0`, since the solver compares with a strict `< 1 + eps`. -/
theorem C95_solve3 (V : Fin 4 → Fin 3 → ℤ) (v : Fin 4 → ℤ) (hv : Function.Injective v) (h0 : ∀ i, 0 ≤ v i)
    (h : criticalPointInSimplex3 V v = true) (eps : ℚ) (heps : 0 < eps) :
    (inverseLerpS3v3 (castV V) eps).1 = true ∧
    (∀ i, 0 ≤ (inverseLerpS3v3 (castV V) eps).2 i ∧ (inverseLerpS3v3 (castV V) eps).2 i ≤ 1) ∧
    ∑ i, (inverseLerpS3v3 (castV V) eps).2 i = 1 ∧ ∀ j, ∑ i, (inverseLerpS3v3 (castV V) eps).2 i * castV V i j = 0 := by
  obtain ⟨hne, hs⟩ := C95_hit3 V v hv h0 h
  have hd : (edges3 (castV V)).det ≠ 0 := by rw [edges3_det]; exact_mod_cast hne
  obtain ⟨h3, h4⟩ := (C54_s3v3 (castV V) eps hd _).2 rfl
  generalize hw : (inverseLerpS3v3 (castV V) eps).2 = w at h3 h4
  have hsum : ∑ i, w i = 1 := by rw [Fin.sum_univ_four]; exact h3
  have hz : ∀ j, ∑ i, w i * castV V i j = 0 := by
    intro j
    have := congrFun h4 j
    rw [Fin.sum_univ_four]
    fin_cases j <;> simp [lerpS3v3] at this ⊢ <;> linarith
  have hnn : ∀ i, 0 ≤ w i := by
    intro i
    have := weights_nonneg hne hs (w := fun i => ((w i : ℚ) : ℝ)) (by exact_mod_cast hsum) (fun j => by
      have := hz j
      unfold castV at this
      exact_mod_cast this) i
    exact_mod_cast this
  have hle : ∀ i, w i ≤ 1 := by
    intro i
    rw [← hsum]
    exact Finset.single_le_sum (fun i _ => hnn i) (Finset.mem_univ i)
  refine ⟨?_, fun i => ⟨hnn i, hle i⟩, hsum, hz⟩
  rw [C54_s3v3_success, hw]
  intro i
  have := hnn i
  have := hle i
  constructor <;> linarith

/-- Non-vacuity of C95: zero in the interior. -/
example : criticalPointInSimplex3 ![![3, 1, 1], ![-1, 2, 0], ![0, -4, 1], ![0, 0, -3]] ![5, 1, 0, 9] = true := by decide +kernel

end Verif.Num
