import Verif.SoS.Limit
import Mathlib.LinearAlgebra.Matrix.NonsingularInverse
import Mathlib.LinearAlgebra.Matrix.ToLinearEquiv
import Mathlib.LinearAlgebra.Dimension.Constructions
import Mathlib.LinearAlgebra.FiniteDimensional.Lemmas
import Mathlib.LinearAlgebra.Matrix.ToLin
import Mathlib.Data.Finset.Max
import Mathlib.Tactic.Positivity

/-! Exact geometry of simplices in `ℝ^d` in general position (any `d`). -/

namespace Verif.SoS
open Spec

/-- the row `(p, 1)` -/
noncomputable def hom {d : ℕ} (p : Fin d → ℝ) : Fin (d + 1) → ℝ := Fin.snoc p 1

theorem hom_cast {d : ℕ} (p : Fin d → ℝ) (j : Fin d) : hom p j.castSucc = p j := by simp [hom]
theorem hom_last {d : ℕ} (p : Fin d → ℝ) : hom p (Fin.last d) = 1 := by simp [hom]

/-- (specification) homogeneous coordinates of the points, one per row. -/
noncomputable def mat {d : ℕ} (P : Fin (d + 1) → Fin d → ℝ) : Matrix (Fin (d + 1)) (Fin (d + 1)) ℝ :=
  Matrix.of fun i => hom (P i)

theorem orient_eq {d : ℕ} (P : Fin (d + 1) → Fin d → ℝ) : orient P = (mat P).det := rfl

/-- (specification) the combination of homogeneous points with weights `w`. -/
noncomputable def comb {n d : ℕ} (w : Fin n → ℝ) (P : Fin n → Fin d → ℝ) : Fin (d + 1) → ℝ :=
  fun j => ∑ i, w i * hom (P i) j

theorem comb_eq {d : ℕ} (w : Fin (d + 1) → ℝ) (P : Fin (d + 1) → Fin d → ℝ) :
    comb w P = Matrix.vecMul w (mat P) := by
  funext j
  simp [comb, Matrix.vecMul, dotProduct, mat]

theorem inside_iff {d : ℕ} (P : Fin (d + 1) → Fin d → ℝ) (p : Fin d → ℝ) :
    Inside P p ↔ ∃ w : Fin (d + 1) → ℝ, (∀ i, 0 < w i) ∧ comb w P = hom p := by
  constructor
  · rintro ⟨w, h0, h1, h2⟩
    refine ⟨w, h0, ?_⟩
    funext j
    refine Fin.lastCases ?_ (fun j => ?_) j
    · simp only [comb, hom_last, mul_one]; exact h1
    · simp only [comb, hom_cast]; exact h2 j
  · rintro ⟨w, h0, h1⟩
    refine ⟨w, h0, ?_, fun j => ?_⟩
    · have := congrFun h1 (Fin.last d)
      simpa only [comb, hom_last, mul_one] using this
    · have := congrFun h1 j.castSucc
      simpa only [comb, hom_cast] using this

theorem comb_inj {d : ℕ} {P : Fin (d + 1) → Fin d → ℝ} (h : orient P ≠ 0) {w w' : Fin (d + 1) → ℝ}
    (he : comb w P = comb w' P) : w = w' := by
  rw [comb_eq, comb_eq] at he
  have : Matrix.vecMul (w - w') (mat P) = 0 := by rw [Matrix.sub_vecMul, he, sub_self]
  exact sub_eq_zero.1 (Matrix.eq_zero_of_vecMul_eq_zero h this)

theorem comb_surj {d : ℕ} {P : Fin (d + 1) → Fin d → ℝ} (h : orient P ≠ 0) (b : Fin (d + 1) → ℝ) :
    ∃ w : Fin (d + 1) → ℝ, comb w P = b := by
  refine ⟨Matrix.vecMul b (mat P)⁻¹, ?_⟩
  rw [comb_eq, Matrix.vecMul_vecMul, Matrix.nonsing_inv_mul (mat P) (isUnit_iff_ne_zero.2 h), Matrix.vecMul_one]

/-- Cramer: replacing vertex `i` by the combination multiplies the orientation by `w i`. -/
theorem orient_replace {d : ℕ} {P : Fin (d + 1) → Fin d → ℝ} {w : Fin (d + 1) → ℝ} {p : Fin d → ℝ}
    (h : comb w P = hom p) (i : Fin (d + 1)) : orient (replace P i p) = w i * orient P := by
  have hm : mat (replace P i p) = (mat P).updateRow i (hom p) := by
    ext a b
    by_cases hab : i = a
    · subst hab; simp [mat, replace]
    · simp [mat, replace, hab, Matrix.updateRow_ne (Ne.symm hab)]
  rw [orient_eq, orient_eq, hm, ← h, comb_eq, ← Matrix.cramer_transpose_apply,
    ← Matrix.mulVec_transpose, Matrix.cramer_eq_adjugate_mulVec, Matrix.mulVec_mulVec,
    Matrix.adjugate_mul, Matrix.det_transpose, Matrix.smul_mulVec, Matrix.one_mulVec]
  simp [mul_comm]

theorem inside_iff_orient {d : ℕ} {P : Fin (d + 1) → Fin d → ℝ} (h : orient P ≠ 0) (p : Fin d → ℝ) :
    Inside P p ↔ ∀ i, 0 < orient P * orient (replace P i p) := by
  have hsq : 0 < orient P * orient P := by
    rcases lt_or_gt_of_ne h with h | h
    · exact mul_pos_of_neg_of_neg h h
    · exact mul_pos h h
  rw [inside_iff]
  constructor
  · rintro ⟨w, h0, h1⟩ i
    rw [orient_replace h1 i]
    have := mul_pos (h0 i) hsq
    linarith [this, mul_left_comm (orient P) (w i) (orient P)]
  · intro hi
    obtain ⟨w, hw⟩ := comb_surj h (hom p)
    refine ⟨w, fun i => ?_, hw⟩
    have := hi i
    rw [orient_replace hw i, mul_left_comm] at this
    by_contra hc
    have := mul_nonpos_of_nonpos_of_nonneg (not_lt.1 hc) hsq.le
    linarith

/-- Face `k` of a list of `n+1` points: all points but the `k`-th. -/
def face {n : ℕ} {α : Type} (Y : Fin (n + 1) → α) (k : Fin (n + 1)) : Fin n → α := fun i => Y (k.succAbove i)

theorem comb_face {n d : ℕ} (w : Fin (n + 1) → ℝ) (Y : Fin (n + 1) → Fin d → ℝ) (k : Fin (n + 1))
    (h : w k = 0) : comb w Y = comb (face w k) (face Y k) := by
  funext j
  simp only [comb]
  rw [Fin.sum_univ_succAbove _ k, h, zero_mul, zero_add]
  rfl

/-- one-dimensional core: half-lines `z_j (t - t_j) > 0` with distinct end points. -/
theorem halflines {n : ℕ} (z t : Fin n → ℝ) (hz : ∀ i, z i ≠ 0) (ht : Function.Injective t)
    (hpos : ∃ i, 0 < z i) (hneg : ∃ i, z i < 0) (S : Finset (Fin n))
    (hS : ∀ k, k ∈ S ↔ ∀ j, j ≠ k → 0 < z j * (t k - t j)) : S.card = 0 ∨ S.card = 2 := by
  classical
  obtain ⟨a, ha⟩ := hpos
  obtain ⟨b, hb⟩ := hneg
  obtain ⟨A, hA, hA'⟩ := Finset.exists_max_image (Finset.univ.filter fun i => 0 < z i) t ⟨a, by simp [ha]⟩
  obtain ⟨B, hB, hB'⟩ := Finset.exists_min_image (Finset.univ.filter fun i => z i < 0) t ⟨b, by simp [hb]⟩
  simp only [Finset.mem_filter, Finset.mem_univ, true_and] at hA hB hA' hB'
  have hAB : A ≠ B := by rintro rfl; linarith
  have hsub : ∀ k ∈ S, k = A ∨ k = B := by
    intro k hk
    rw [hS] at hk
    rcases lt_or_gt_of_ne (hz k) with h | h
    · right
      by_contra hne
      have h1 := hk B (Ne.symm hne)
      have h2 := hB' k h
      have := mul_nonpos_of_nonpos_of_nonneg hB.le (sub_nonneg.2 h2)
      linarith
    · left
      by_contra hne
      have h1 := hk A (Ne.symm hne)
      have h2 := hA' k h
      have := mul_nonpos_of_nonneg_of_nonpos hA.le (sub_nonpos.2 h2)
      linarith
  by_cases hlt : t A < t B
  · right
    have : S = {A, B} := by
      ext k
      simp only [Finset.mem_insert, Finset.mem_singleton]
      refine ⟨hsub k, ?_⟩
      rintro (rfl | rfl)
      · rw [hS]
        intro j hj
        rcases lt_or_gt_of_ne (hz j) with h | h
        · have := hB' j h
          exact mul_pos_of_neg_of_neg h (by linarith)
        · have h1 := hA' j h
          have : t j ≠ t k := fun he => hj (ht he)
          exact mul_pos h (sub_pos.2 (lt_of_le_of_ne h1 this))
      · rw [hS]
        intro j hj
        rcases lt_or_gt_of_ne (hz j) with h | h
        · have h1 := hB' j h
          have : t k ≠ t j := fun he => hj (ht he.symm)
          exact mul_pos_of_neg_of_neg h (sub_neg.2 (lt_of_le_of_ne h1 this))
        · have := hA' j h
          exact mul_pos h (by linarith)
    rw [this, Finset.card_pair hAB]
  · left
    rw [Finset.card_eq_zero, Finset.eq_empty_iff_forall_notMem]
    intro k hk
    have hk' := hk
    rw [hS] at hk'
    rcases hsub k hk with rfl | rfl
    · have := hk' B (Ne.symm hAB)
      have := mul_nonpos_of_nonpos_of_nonneg hB.le (sub_nonneg.2 (not_lt.1 hlt))
      linarith
    · have := hk' A hAB
      have := mul_nonpos_of_nonneg_of_nonpos hA.le (sub_nonpos.2 (not_lt.1 hlt))
      linarith

/-- a non-trivial affine dependence of `d+2` points of `ℝ^d` -/
theorem exists_dep {d : ℕ} (Y : Fin (d + 2) → Fin d → ℝ) : ∃ z : Fin (d + 2) → ℝ, z ≠ 0 ∧ comb z Y = 0 := by
  let M : Matrix (Fin (d + 2)) (Fin (d + 1)) ℝ := Matrix.of fun i => hom (Y i)
  have hk : LinearMap.ker (Matrix.vecMulLinear M) ≠ ⊥ := by
    apply LinearMap.ker_ne_bot_of_finrank_lt
    simp
  obtain ⟨z, hz, hne⟩ := Submodule.exists_mem_ne_zero_of_ne_bot hk
  refine ⟨z, hne, ?_⟩
  have : Matrix.vecMul z M = 0 := by simpa using hz
  funext j
  have := congrFun this j
  simpa [comb, Matrix.vecMul, dotProduct, M] using this

theorem comb_add_smul {n d : ℕ} (w z : Fin n → ℝ) (t : ℝ) (Y : Fin n → Fin d → ℝ) :
    comb (fun i => w i + t * z i) Y = fun j => comb w Y j + t * comb z Y j := by
  funext j
  simp only [comb, add_mul, Finset.sum_add_distrib, Finset.mul_sum, mul_assoc]

/-- **General position, any dimension**: of the `d+2` facets of `d+2` points, a point lies in none or
in exactly two. -/
theorem faces_zero_or_two {d : ℕ} (Y : Fin (d + 2) → Fin d → ℝ) (p : Fin d → ℝ)
    (hf : ∀ k, orient (face Y k) ≠ 0) (hp : ∀ k i, orient (replace (face Y k) i p) ≠ 0)
    (S : Finset (Fin (d + 2))) (hS : ∀ k, k ∈ S ↔ Inside (face Y k) p) : S.card = 0 ∨ S.card = 2 := by
  obtain ⟨z, hz0, hz⟩ := exists_dep Y
  have hzk : ∀ k, z k ≠ 0 := by
    intro k hk
    apply hz0
    rw [comb_face z Y k hk] at hz
    have h0 : comb (fun _ => 0) (face Y k) = 0 := by funext j; simp [comb]
    have := comb_inj (hf k) (hz.trans h0.symm)
    funext i
    by_cases hi : i = k
    · rw [hi, hk]; rfl
    · obtain ⟨j, hj⟩ := Fin.exists_succAbove_eq hi
      rw [← hj]
      exact congrFun this j
  obtain ⟨u, hu⟩ := comb_surj (hf 0) (hom p)
  let w : Fin (d + 2) → ℝ := Fin.cons 0 u
  have hw : comb w Y = hom p := by
    rw [comb_face w Y 0 rfl, ← hu]
    congr 1
  let t : Fin (d + 2) → ℝ := fun k => - w k / z k
  let W : Fin (d + 2) → Fin (d + 2) → ℝ := fun k i => w i + t k * z i
  have hWc : ∀ k, comb (W k) Y = hom p := by
    intro k
    show comb (fun i => w i + t k * z i) Y = _
    rw [comb_add_smul, hz, hw]
    funext j; simp
  have hWk : ∀ k, W k k = 0 := by
    intro k
    show w k + - w k / z k * z k = 0
    rw [div_mul_cancel₀ _ (hzk k)]; ring
  have hWe : ∀ k i, W k i = z i * (t k - t i) := by
    intro k i
    show w i + t k * z i = z i * (t k - - w i / z i)
    have := hzk i
    field_simp
    ring
  have ht : Function.Injective t := by
    intro a b hab
    by_contra hne
    have h0 : W a b = 0 := by rw [hWe, hab]; ring
    obtain ⟨i, hi⟩ := Fin.exists_succAbove_eq (Ne.symm hne)
    have hc := (comb_face (W a) Y a (hWk a)).symm.trans (hWc a)
    have := orient_replace hc i
    apply hp a i
    rw [this]
    simp only [face, hi, h0, zero_mul]
  have hsum : ∑ i, z i = 0 := by
    have := congrFun hz (Fin.last d)
    simpa only [comb, hom_last, mul_one, Pi.zero_apply] using this
  have hpos : ∃ i, 0 < z i := by
    by_contra hc
    have hle : ∀ i, z i ≤ 0 := fun i => not_lt.1 fun h => hc ⟨i, h⟩
    have := (Finset.sum_eq_zero_iff_of_nonpos (fun i _ => hle i)).1 hsum 0 (Finset.mem_univ _)
    exact hzk 0 this
  have hneg : ∃ i, z i < 0 := by
    by_contra hc
    have hle : ∀ i, 0 ≤ z i := fun i => not_lt.1 fun h => hc ⟨i, h⟩
    have := (Finset.sum_eq_zero_iff_of_nonneg (fun i _ => hle i)).1 hsum 0 (Finset.mem_univ _)
    exact hzk 0 this
  refine halflines z t hzk ht hpos hneg S fun k => ?_
  rw [hS, inside_iff]
  have hc := (comb_face (W k) Y k (hWk k)).symm.trans (hWc k)
  constructor
  · rintro ⟨w', h0, h1⟩ j hj
    have := comb_inj (hf k) (h1.trans hc.symm)
    obtain ⟨i, hi⟩ := Fin.exists_succAbove_eq hj
    rw [← hWe, ← hi]
    have h2 := h0 i
    rw [this] at h2
    exact h2
  · intro h
    refine ⟨face (W k) k, fun i => ?_, hc⟩
    show 0 < W k (k.succAbove i)
    rw [hWe]
    exact h _ (Fin.succAbove_ne k i)

end Verif.SoS
