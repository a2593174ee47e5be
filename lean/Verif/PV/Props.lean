import Verif.PV.Model
import Verif.Num.Linear
import Verif.Poly.Props
import Mathlib.LinearAlgebra.Matrix.ToLinearEquiv

/-!
# Parallel vectors (C139, C140, C141)
-/

namespace Verif.PV

open Verif.Num Verif.Poly Matrix

variable {K : Type} [Field K] [LinearOrder K] [IsStrictOrderedRing K]

/-! ### Specification -/

/-- At the point with barycentric coordinates `mu` the interpolated vectors satisfy `v = l w`. -/
def ParallelAt {n d : ℕ} (V W : Fin n → Fin d → K) (l : K) (mu : Fin n → K) : Prop :=
  ∑ i, mu i = 1 ∧ ∀ k, ∑ i, mu i * V i k = l * ∑ i, mu i * W i k

/-- The point lies in the cell, up to the tolerance. -/
def Inside {n : ℕ} (eps : K) (mu : Fin n → K) : Prop := ∀ i, -eps ≤ mu i ∧ mu i ≤ 1 + eps

/-! ### Lemmas -/

theorem within_iff {eps x : K} : within eps x = true ↔ -eps ≤ x ∧ x ≤ 1 + eps := by simp [within]

theorem ls_exact (A : Matrix (Fin 3) (Fin 2) K) (b : Fin 3 → K) (hd : (A.transpose * A).det ≠ 0) (y : Fin 2 → K) (hy : A.mulVec y = b) :
    solveLeastSquare3x2 A b = y := by
  by_contra hne
  have h := C33_leastSquare3x2 A b hd y (Ne.symm hne)
  have h0 : residual A b y = 0 := by unfold residual; simp [hy]
  have h1 : 0 ≤ residual A b (solveLeastSquare3x2 A b) := by
    unfold residual; exact Finset.sum_nonneg fun i _ => sq_nonneg _
  linarith

theorem det_ata (M : Fin 3 → Fin 2 → K) : det2 (mat2x3Mat3x2 (transpose3x2 M) M) = ((Matrix.of M).transpose * Matrix.of M).det := by
  rw [Matrix.det_fin_two]
  simp [det2, mat2x3Mat3x2, transpose3x2, Matrix.mul_apply, Fin.sum_univ_three]
  ring

theorem matM_eq (V W : Fin 3 → Fin 3 → K) (l : K) (k : Fin 3) :
    matM (fun i j => V j i) (fun i j => W j i) l k 0 = (V 0 k - l * W 0 k) - (V 2 k - l * W 2 k) ∧
    matM (fun i j => V j i) (fun i j => W j i) l k 1 = (V 1 k - l * W 1 k) - (V 2 k - l * W 2 k) ∧
    vecB (fun i j => V j i) (fun i j => W j i) l k = -(V 2 k - l * W 2 k) := by
  fin_cases k <;> simp [matM, vecB] <;> constructor <;> ring

theorem consistent_iff (V W : Fin 3 → Fin 3 → K) (l : K) (y : Fin 2 → K) :
    (Matrix.of (matM (fun i j => V j i) (fun i j => W j i) l)).mulVec y = vecB (fun i j => V j i) (fun i j => W j i) l ↔
      ParallelAt V W l ![y 0, y 1, 1 - y 0 - y 1] := by
  unfold ParallelAt
  rw [funext_iff]
  simp only [Fin.sum_univ_three, Matrix.cons_val_zero, Matrix.cons_val_one, Matrix.cons_val, Matrix.mulVec, dotProduct, Fin.sum_univ_two,
    Matrix.of_apply]
  constructor
  · intro h
    refine ⟨by ring, fun k => ?_⟩
    obtain ⟨a, b, c⟩ := matM_eq V W l k
    have := h k
    rw [a, b, c] at this
    linear_combination this
  · rintro ⟨-, h⟩ k
    obtain ⟨a, b, c⟩ := matM_eq V W l k
    rw [a, b, c]
    linear_combination h k

theorem lerp2v3_eq (V : Fin 3 → Fin 3 → K) (mu : Fin 3 → K) (k : Fin 3) : lerp2v3 V mu k = ∑ i, mu i * V i k := by
  rw [Fin.sum_univ_three]
  fin_cases k <;> simp [lerp2v3] <;> ring

theorem cross_zero {v w : Fin 3 → K} {l : K} (h : ∀ k, v k = l * w k) : crossProduct v w = 0 := by
  funext k
  fin_cases k <;> simp [crossProduct, h] <;> ring

/-! ## C139: triangles in space and edges in the plane -/

/-- C139: every solution reported for a triangle is one: there the fields are parallel with the reported factor, and the point is in the triangle up
to the tolerance. -/
theorem C139_triangle_sound {cubic : (Fin 4 → K) → List K} (hc : ∀ P l, l ∈ cubic P → P 0 + P 1 * l + P 2 * l ^ 2 + P 3 * l ^ 3 = 0)
    (cond : (Fin 2 → Fin 2 → K) → K) (norm : (Fin 3 → K) → K) (V W : Fin 3 → Fin 3 → K) (eps l : K) (mu : Fin 3 → K)
    (h : (l, mu) ∈ solve2v3 cubic cond norm V W eps) : ParallelAt V W l mu ∧ Inside eps mu ∧ eps < |l| := by
  unfold solve2v3 at h
  rw [List.mem_filterMap] at h
  obtain ⟨l', hl, h⟩ := h
  unfold step2v3 at h
  dsimp only at h
  split_ifs at h with h1 h2 h3 h4 h5
  simp only [Option.some.injEq, Prod.mk.injEq] at h
  obtain ⟨rfl, rfl⟩ := h
  rw [det_ata] at h2
  have hdet : (Matrix.of (fun i j => V j i) - l' • Matrix.of (fun i j => W j i)).det = 0 := by
    rw [← C33_charPoly3g]; exact hc _ _ hl
  obtain ⟨n, hn0, hn⟩ := Matrix.exists_mulVec_eq_zero_iff.2 hdet
  have hk : ∀ k, n 0 * (V 0 k - l' * W 0 k) + n 1 * (V 1 k - l' * W 1 k) + n 2 * (V 2 k - l' * W 2 k) = 0 := by
    intro k
    have := congrFun hn k
    simp only [Matrix.mulVec, dotProduct, Fin.sum_univ_three, Matrix.sub_apply, Matrix.smul_apply, Matrix.of_apply, smul_eq_mul, Pi.zero_apply] at this
    linear_combination this
  have hs : n 0 + n 1 + n 2 ≠ 0 := by
    intro hs
    have hm : (Matrix.of (matM (fun i j => V j i) (fun i j => W j i) l')).mulVec ![n 0, n 1] = 0 := by
      funext k
      obtain ⟨a, b, -⟩ := matM_eq V W l' k
      simp only [Matrix.mulVec, dotProduct, Fin.sum_univ_two, Matrix.of_apply, a, b, Matrix.cons_val_zero, Matrix.cons_val_one, Pi.zero_apply]
      linear_combination hk k - (V 2 k - l' * W 2 k) * hs
    have h2' : ((Matrix.of (matM (fun i j => V j i) (fun i j => W j i) l')).transpose * Matrix.of (matM (fun i j => V j i) (fun i j => W j i) l')).mulVec
        ![n 0, n 1] = 0 := by
      rw [← Matrix.mulVec_mulVec, hm, Matrix.mulVec_zero]
    have hz : (![n 0, n 1] : Fin 2 → K) = 0 := by
      by_contra hne
      exact h2 (Matrix.exists_mulVec_eq_zero_iff.1 ⟨_, hne, h2'⟩)
    have e0 : n 0 = 0 := by simpa using congrFun hz 0
    have e1 : n 1 = 0 := by simpa using congrFun hz 1
    apply hn0
    funext i
    fin_cases i
    · exact e0
    · exact e1
    · simpa [e0, e1] using hs
  have hy : (Matrix.of (matM (fun i j => V j i) (fun i j => W j i) l')).mulVec ![n 0 / (n 0 + n 1 + n 2), n 1 / (n 0 + n 1 + n 2)] =
      vecB (fun i j => V j i) (fun i j => W j i) l' := by
    funext k
    obtain ⟨a, b, c⟩ := matM_eq V W l' k
    simp only [Matrix.mulVec, dotProduct, Fin.sum_univ_two, Matrix.of_apply, a, b, c, Matrix.cons_val_zero, Matrix.cons_val_one]
    field_simp
    linear_combination hk k
  have hx := ls_exact _ _ h2 _ hy
  simp only [Bool.and_eq_true, within_iff] at h3
  refine ⟨?_, ?_, not_le.1 h1⟩
  · rw [← consistent_iff]
    rw [← hx] at hy
    exact hy
  · intro i
    fin_cases i
    · exact h3.1.1
    · exact h3.1.2
    · exact h3.2

/-- C139: every point of a triangle where the fields are parallel with a factor that is not (nearly) zero is reported, provided that the solver of cubic
equations returns the factor, that the point is the only one with this factor (rank of the system) and that the condition number is not
larger than 10⁹. -/
theorem C139_triangle_complete {cubic : (Fin 4 → K) → List K} (cond : (Fin 2 → Fin 2 → K) → K) (norm : (Fin 3 → K) → K) (hn : norm 0 ≤ 1 / 100)
    (V W : Fin 3 → Fin 3 → K) (eps l : K) (mu : Fin 3 → K) (hp : ParallelAt V W l mu) (hi : Inside eps mu) (hl : eps < |l|)
    (hroot : l ∈ cubic (charPoly3g (fun i j => V j i) (fun i j => W j i)))
    (hrank : ∀ x : Fin 3 → K, ∑ i, x i = 0 → (∀ k, ∑ i, x i * V i k = l * ∑ i, x i * W i k) → x = 0)
    (hcond : cond (mat2x3Mat3x2 (transpose3x2 (matM (fun i j => V j i) (fun i j => W j i) l)) (matM (fun i j => V j i) (fun i j => W j i) l)) ≤ 1000000000) : (l, mu) ∈ solve2v3 cubic cond norm V W eps := by
  unfold solve2v3
  rw [List.mem_filterMap]
  refine ⟨l, hroot, ?_⟩
  have hd : ((Matrix.of (matM (fun i j => V j i) (fun i j => W j i) l)).transpose * Matrix.of (matM (fun i j => V j i) (fun i j => W j i) l)).det ≠ 0 := by
    intro h0
    obtain ⟨x, hx, h⟩ := Matrix.exists_mulVec_eq_zero_iff.2 h0
    have hz : (Matrix.of (matM (fun i j => V j i) (fun i j => W j i) l)).mulVec x = 0 := by
      rw [← Matrix.mulVec_mulVec] at h
      have h2 := congrArg (dotProduct x) h
      rw [dotProduct_zero, Matrix.dotProduct_mulVec, Matrix.vecMul_transpose] at h2
      have hnn : ∀ k, 0 ≤ (Matrix.of (matM (fun i j => V j i) (fun i j => W j i) l)).mulVec x k * (Matrix.of (matM (fun i j => V j i) (fun i j => W j i) l)).mulVec x k :=
        fun k => mul_self_nonneg _
      have h3 := (Finset.sum_eq_zero_iff_of_nonneg (fun k _ => hnn k)).1 h2
      funext k
      exact mul_self_eq_zero.1 (h3 k (Finset.mem_univ k))
    have := hrank ![x 0, x 1, -x 0 - x 1] (by simp [Fin.sum_univ_three]) (by
      intro k
      obtain ⟨a, b, -⟩ := matM_eq V W l k
      have := congrFun hz k
      simp only [Matrix.mulVec, dotProduct, Fin.sum_univ_two, Matrix.of_apply, a, b, Pi.zero_apply] at this
      simp only [Fin.sum_univ_three, Matrix.cons_val_zero, Matrix.cons_val_one, Matrix.cons_val]
      linear_combination this)
    apply hx
    funext i
    fin_cases i
    · simpa using congrFun this 0
    · simpa using congrFun this 1
  have hmu : mu = ![mu 0, mu 1, 1 - mu 0 - mu 1] := by
    have := hp.1
    rw [Fin.sum_univ_three] at this
    funext i
    fin_cases i
    · rfl
    · rfl
    · simp; linear_combination this
  have hy : solveLeastSquare3x2 (Matrix.of (matM (fun i j => V j i) (fun i j => W j i) l)) (vecB (fun i j => V j i) (fun i j => W j i) l) = ![mu 0, mu 1] := by
    apply ls_exact _ _ hd
    rw [consistent_iff]
    simpa [← hmu] using hp
  have hy' : solveLeastSquare3x2 (matM (fun i j => V j i) (fun i j => W j i) l) (vecB (fun i j => V j i) (fun i j => W j i) l) = ![mu 0, mu 1] := hy
  unfold step2v3
  dsimp only
  have e0 : (![mu 0, mu 1] : Fin 2 → K) 0 = mu 0 := rfl
  have e1 : (![mu 0, mu 1] : Fin 2 → K) 1 = mu 1 := rfl
  rw [if_neg (not_le.2 hl), det_ata, if_neg hd, hy', e0, e1, ← hmu]
  have hw : (within eps (mu 0) && within eps (mu 1) && within eps (mu 2)) = true := by
    simp only [Bool.and_eq_true, within_iff]
    exact ⟨⟨hi 0, hi 1⟩, hi 2⟩
  rw [if_pos hw, if_neg (not_lt.2 hcond), cross_zero (l := l), if_neg (not_lt.2 hn)]
  intro k
  rw [lerp2v3_eq, lerp2v3_eq]
  exact hp.2 k

theorem lerp1v2_eq (V : Fin 2 → Fin 2 → K) (mu : Fin 2 → K) (k : Fin 2) : lerp1v2 V mu k = ∑ i, mu i * V i k := by
  rw [Fin.sum_univ_two]
  fin_cases k <;> simp [lerp1v2] <;> ring

theorem inner_self_zero {a : Fin 2 → K} (h : innerProduct2 a a = 0) : a 0 = 0 ∧ a 1 = 0 := by
  unfold innerProduct2 at h
  constructor <;> nlinarith [mul_self_nonneg (a 0), mul_self_nonneg (a 1)]

/-- C139: every solution reported for an edge in the plane is one. -/
theorem C139_edge_sound {quadratic : (Fin 3 → K) → List K} (hq : ∀ P l, l ∈ quadratic P → P 0 + P 1 * l + P 2 * l ^ 2 = 0)
    (V W : Fin 2 → Fin 2 → K) (eps l : K) (mu : Fin 2 → K) (h : (l, mu) ∈ solve1v2 quadratic V W eps) :
    ParallelAt V W l mu ∧ Inside eps mu ∧ eps < |l| := by
  unfold solve1v2 at h
  rw [List.mem_filterMap] at h
  obtain ⟨l', hl, h⟩ := h
  unfold step1v2 at h
  dsimp only at h
  split_ifs at h with h1 h2 h3 h4
  simp only [Option.some.injEq, Prod.mk.injEq] at h
  obtain ⟨rfl, rfl⟩ := h
  have hdet := hq _ _ hl
  simp only [charPoly2g, det2, Matrix.cons_val_zero, Matrix.cons_val_one, Matrix.cons_val] at hdet
  simp only [Bool.and_eq_true, within_iff] at h3
  have hne := h2
  simp only [innerProduct2, Matrix.cons_val_zero, Matrix.cons_val_one] at hne
  refine ⟨⟨by simp [Fin.sum_univ_two], ?_⟩, ?_, not_le.1 h1⟩
  · intro k
    simp only [Fin.sum_univ_two, solveLeastSquare2x1, innerProduct2, Matrix.cons_val_zero, Matrix.cons_val_one]
    generalize hN : (V 0 0 - V 1 0 - l' * (W 0 0 - W 1 0)) * (V 0 0 - V 1 0 - l' * (W 0 0 - W 1 0)) +
      (V 0 1 - V 1 1 - l' * (W 0 1 - W 1 1)) * (V 0 1 - V 1 1 - l' * (W 0 1 - W 1 1)) = N at *
    field_simp
    fin_cases k
    · simp only [Fin.zero_eta]
      rw [← hN]
      linear_combination (-(V 0 1 - V 1 1 - l' * (W 0 1 - W 1 1))) * hdet
    · simp only [Fin.mk_one]
      rw [← hN]
      linear_combination ((V 0 0 - V 1 0 - l' * (W 0 0 - W 1 0))) * hdet
  · intro i
    fin_cases i
    · exact h3.1
    · exact h3.2

/-- C139: every point of an edge in the plane where the fields are parallel with a factor that is not (nearly) zero is reported, provided that the solver
of quadratic equations returns the factor and that the point is the only one of the line with this factor. -/
theorem C139_edge_complete {quadratic : (Fin 3 → K) → List K} (V W : Fin 2 → Fin 2 → K) (eps l : K) (mu : Fin 2 → K)
    (hp : ParallelAt V W l mu) (hi : Inside eps mu) (hl : eps < |l|) (hroot : l ∈ quadratic (charPoly2g (fun i j => V j i) (fun i j => W j i)))
    (hrank : ∃ k, V 0 k - V 1 k ≠ l * (W 0 k - W 1 k)) : (l, mu) ∈ solve1v2 quadratic V W eps := by
  unfold solve1v2
  rw [List.mem_filterMap]
  refine ⟨l, hroot, ?_⟩
  obtain ⟨hs, hk⟩ := hp
  have hsum := hs
  rw [Fin.sum_univ_two] at hsum
  have h1 : mu 1 = 1 - mu 0 := by linear_combination hsum
  have k0 := hk 0
  have k1 := hk 1
  simp only [Fin.sum_univ_two, h1] at k0 k1
  unfold step1v2
  dsimp only
  have hne : innerProduct2 (![(V 0 0 - V 1 0) - l * (W 0 0 - W 1 0), (V 0 1 - V 1 1) - l * (W 0 1 - W 1 1)] : Fin 2 → K)
      ![(V 0 0 - V 1 0) - l * (W 0 0 - W 1 0), (V 0 1 - V 1 1) - l * (W 0 1 - W 1 1)] ≠ 0 := by
    intro h0
    obtain ⟨a, b⟩ := inner_self_zero h0
    simp only [Matrix.cons_val_zero, Matrix.cons_val_one] at a b
    obtain ⟨k, hk'⟩ := hrank
    fin_cases k
    · exact hk' (sub_eq_zero.1 a)
    · exact hk' (sub_eq_zero.1 b)
  have hx : solveLeastSquare2x1 (![(V 0 0 - V 1 0) - l * (W 0 0 - W 1 0), (V 0 1 - V 1 1) - l * (W 0 1 - W 1 1)] : Fin 2 → K)
      ![-(V 1 0 - l * W 1 0), -(V 1 1 - l * W 1 1)] = mu 0 := by
    unfold solveLeastSquare2x1
    have e : innerProduct2 (![(V 0 0 - V 1 0) - l * (W 0 0 - W 1 0), (V 0 1 - V 1 1) - l * (W 0 1 - W 1 1)] : Fin 2 → K)
      ![-(V 1 0 - l * W 1 0), -(V 1 1 - l * W 1 1)] = mu 0 * innerProduct2 (![(V 0 0 - V 1 0) - l * (W 0 0 - W 1 0), (V 0 1 - V 1 1) - l * (W 0 1 - W 1 1)] : Fin 2 → K)
      ![(V 0 0 - V 1 0) - l * (W 0 0 - W 1 0), (V 0 1 - V 1 1) - l * (W 0 1 - W 1 1)] := by
      simp only [innerProduct2, Matrix.cons_val_zero, Matrix.cons_val_one]
      linear_combination (-((V 0 0 - V 1 0) - l * (W 0 0 - W 1 0))) * k0 + (-((V 0 1 - V 1 1) - l * (W 0 1 - W 1 1))) * k1
    rw [e, mul_assoc, mul_one_div, div_self hne, mul_one]
  rw [if_neg (not_le.2 hl), if_neg hne, hx]
  have hmu : (![mu 0, 1 - mu 0] : Fin 2 → K) = mu := by
    funext i
    fin_cases i
    · rfl
    · simp [h1]
  rw [hmu]
  have hw : (within eps (mu 0) && within eps (mu 1)) = true := by
    simp only [Bool.and_eq_true, within_iff]
    exact ⟨hi 0, hi 1⟩
  have hc : crossProduct2 (lerp1v2 V mu) (lerp1v2 W mu) = 0 := by
    unfold crossProduct2
    rw [lerp1v2_eq, lerp1v2_eq, lerp1v2_eq, lerp1v2_eq, hk 0, hk 1]; ring
  rw [if_pos hw, hc, if_neg]
  simp

end Verif.PV
