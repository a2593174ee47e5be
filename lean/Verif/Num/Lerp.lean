import Verif.Num.Linear
import Verif.SoS.Props

/-!
# C54: linear interpolation and its inverse; clamping of barycentric coordinates

`K` is any ordered field (exact arithmetic).
-/

namespace Verif.Num

variable {K : Type} [Field K] [LinearOrder K] [IsStrictOrderedRing K]

omit [IsStrictOrderedRing K] in
/-- C54 (s1v1): weights sum to one and interpolate the two values to zero. -/
theorem C54_s1v1 (f : Fin 2 → K) (hne : f 0 ≠ f 1) :
    (inverseLerpS1v1 f).2 0 + (inverseLerpS1v1 f).2 1 = 1 ∧ lerpS1 f (inverseLerpS1v1 f).2 = 0 := by
  have h : f 1 - f 0 ≠ 0 := sub_ne_zero.2 (Ne.symm hne)
  constructor
  · simp [inverseLerpS1v1]
  · simp only [inverseLerpS1v1, lerpS1, Matrix.cons_val_zero, Matrix.cons_val_one]
    field_simp
    ring

/-- C54 (s1v1): success iff the values change sign strictly, or the second value is zero — so on a chain of
segments each crossing (also at a vertex) is reported by exactly one of the segments it belongs to. -/
theorem C54_s1v1_success (f : Fin 2 → K) (hne : f 0 ≠ f 1) :
    (inverseLerpS1v1 f).1 = true ↔ f 1 = 0 ∨ f 0 * f 1 < 0 := by
  simp only [inverseLerpS1v1, decide_eq_true_eq]
  generalize f 0 = a at *
  generalize f 1 = b at *
  rcases lt_trichotomy (b - a) 0 with h | h | h
  · rw [ge_iff_le, le_div_iff_of_neg h, div_lt_iff_of_neg h]
    constructor
    · rintro ⟨h1, h2⟩
      rcases eq_or_lt_of_le (show b ≤ 0 by linarith) with h3 | h3
      · exact Or.inl h3
      · exact Or.inr (mul_neg_of_pos_of_neg (by linarith) h3)
    · rintro (h1 | h1)
      · subst h1; exact ⟨by linarith, by linarith⟩
      · rcases mul_neg_iff.1 h1 with ⟨h2, h3⟩ | ⟨h2, h3⟩
        · exact ⟨by linarith, by linarith⟩
        · linarith
  · exact absurd (sub_eq_zero.1 h).symm hne
  · rw [ge_iff_le, le_div_iff₀ h, div_lt_iff₀ h]
    constructor
    · rintro ⟨h1, h2⟩
      rcases eq_or_lt_of_le (show 0 ≤ b by linarith) with h3 | h3
      · exact Or.inl h3.symm
      · exact Or.inr (mul_neg_of_neg_of_pos (by linarith) h3)
    · rintro (h1 | h1)
      · subst h1; exact ⟨by linarith, by linarith⟩
      · rcases mul_neg_iff.1 h1 with ⟨h2, h3⟩ | ⟨h2, h3⟩
        · linarith
        · exact ⟨by linarith, by linarith⟩

/-- Non-vacuity. -/
example : (inverseLerpS1v1 ![(-1 : ℚ), 3]).1 = true ∧ (inverseLerpS1v1 ![(-1 : ℚ), 3]).2 = ![3/4, 1/4] ∧
    (inverseLerpS1v1 ![(0 : ℚ), 3]).1 = false ∧ (inverseLerpS1v1 ![(3 : ℚ), 0]).1 = true := by decide +kernel

/-- the matrix of edge vectors used by s2v2 -/
def edges2 {K : Type} [Ring K] (V : Fin 3 → Fin 2 → K) : Matrix (Fin 2) (Fin 2) K :=
  Matrix.of ![![V 0 0 - V 2 0, V 1 0 - V 2 0], ![V 0 1 - V 2 1, V 1 1 - V 2 1]]

/-- (proof device) the matrix of edge vectors of a tetrahedron of 3-vectors. -/
def edges3 {K : Type} [Ring K] (V : Fin 4 → Fin 3 → K) : Matrix (Fin 3) (Fin 3) K :=
  Matrix.of ![![V 0 0 - V 3 0, V 1 0 - V 3 0, V 2 0 - V 3 0],
             ![V 0 1 - V 3 1, V 1 1 - V 3 1, V 2 1 - V 3 1],
             ![V 0 2 - V 3 2, V 1 2 - V 3 2, V 2 2 - V 3 2]]

omit [IsStrictOrderedRing K] in
/-- C54 (s2v2): for a non-degenerate triangle the returned weights are *the* weights that sum to one and
interpolate the vertex vectors to zero. -/
theorem C54_s2v2 (V : Fin 3 → Fin 2 → K) (eps : K) (hd : (edges2 V).det ≠ 0) (mu : Fin 3 → K) :
    (mu 0 + mu 1 + mu 2 = 1 ∧ lerpS2v2 V mu = 0) ↔ mu = (inverseLerpS2v2 V eps).2 := by
  have hs := (C33_solve2 (edges2 V) ![- V 2 0, - V 2 1]).2 hd
  have hx : (inverseLerpS2v2 V eps).2 = ![(solveLinear2x2 (edges2 V) ![- V 2 0, - V 2 1]).2 0,
      (solveLinear2x2 (edges2 V) ![- V 2 0, - V 2 1]).2 1,
      1 - (solveLinear2x2 (edges2 V) ![- V 2 0, - V 2 1]).2 0 - (solveLinear2x2 (edges2 V) ![- V 2 0, - V 2 1]).2 1] := rfl
  rw [hx]
  have key : ∀ mu : Fin 3 → K, mu 0 + mu 1 + mu 2 = 1 →
      (lerpS2v2 V mu = 0 ↔ (edges2 V).mulVec ![mu 0, mu 1] = ![- V 2 0, - V 2 1]) := by
    intro mu h1
    have h2 : mu 2 = 1 - mu 0 - mu 1 := by rw [← h1]; ring
    constructor
    · intro h
      have e0 := congrFun h 0
      have e1 := congrFun h 1
      simp [lerpS2v2, h2] at e0 e1
      funext i
      fin_cases i
      · simp [edges2, Matrix.mulVec, dotProduct, Fin.sum_univ_succ]; linear_combination e0
      · simp [edges2, Matrix.mulVec, dotProduct, Fin.sum_univ_succ]; linear_combination e1
    · intro h
      have e0 := congrFun h 0
      have e1 := congrFun h 1
      simp [edges2, Matrix.mulVec, dotProduct, Fin.sum_univ_succ] at e0 e1
      funext i
      fin_cases i
      · simp [lerpS2v2, h2]; linear_combination e0
      · simp [lerpS2v2, h2]; linear_combination e1
  generalize hX : (solveLinear2x2 (edges2 V) ![- V 2 0, - V 2 1]).2 = X at *
  constructor
  · rintro ⟨h1, h2⟩
    have h3 := (hs _).1 ((key mu h1).1 h2)
    have e0 : mu 0 = X 0 := congrFun h3 0
    have e1 : mu 1 = X 1 := congrFun h3 1
    funext i
    fin_cases i
    · exact e0
    · exact e1
    · show mu 2 = 1 - X 0 - X 1
      rw [← e0, ← e1, ← h1]; ring
  · rintro rfl
    have h1 : (![X 0, X 1, 1 - X 0 - X 1] : Fin 3 → K) 0 + (![X 0, X 1, 1 - X 0 - X 1] : Fin 3 → K) 1
        + (![X 0, X 1, 1 - X 0 - X 1] : Fin 3 → K) 2 = 1 := by
      show X 0 + X 1 + (1 - X 0 - X 1) = 1; ring
    refine ⟨h1, (key _ h1).2 ((hs _).2 ?_)⟩
    funext i
    fin_cases i <;> rfl

/-- C54 (s2v2): success iff all three weights lie in `[-eps, 1+eps]`. -/
theorem C54_s2v2_success (V : Fin 3 → Fin 2 → K) (eps : K) :
    (inverseLerpS2v2 V eps).1 = true ↔ ∀ i, -eps ≤ (inverseLerpS2v2 V eps).2 i ∧ (inverseLerpS2v2 V eps).2 i ≤ 1 + eps := by
  simp only [inverseLerpS2v2, inRange, Bool.and_eq_true, decide_eq_true_eq, ge_iff_le]
  rw [Fin.forall_fin_succ, Fin.forall_fin_two]
  simp only [Matrix.cons_val_zero]
  exact and_assoc

omit [IsStrictOrderedRing K] in
/-- C54 (s3v3). -/
theorem C54_s3v3 (V : Fin 4 → Fin 3 → K) (eps : K) (hd : (edges3 V).det ≠ 0) (mu : Fin 4 → K) :
    (mu 0 + mu 1 + mu 2 + mu 3 = 1 ∧ lerpS3v3 V mu = 0) ↔ mu = (inverseLerpS3v3 V eps).2 := by
  have hs := (C33_solve3 (edges3 V) ![- V 3 0, - V 3 1, - V 3 2]).2 hd
  have hx : (inverseLerpS3v3 V eps).2 = ![(solveLinear3x3 (edges3 V) ![- V 3 0, - V 3 1, - V 3 2]).2 0,
      (solveLinear3x3 (edges3 V) ![- V 3 0, - V 3 1, - V 3 2]).2 1,
      (solveLinear3x3 (edges3 V) ![- V 3 0, - V 3 1, - V 3 2]).2 2,
      1 - (solveLinear3x3 (edges3 V) ![- V 3 0, - V 3 1, - V 3 2]).2 0 - (solveLinear3x3 (edges3 V) ![- V 3 0, - V 3 1, - V 3 2]).2 1
        - (solveLinear3x3 (edges3 V) ![- V 3 0, - V 3 1, - V 3 2]).2 2] := rfl
  rw [hx]
  have key : ∀ mu : Fin 4 → K, mu 0 + mu 1 + mu 2 + mu 3 = 1 →
      (lerpS3v3 V mu = 0 ↔ (edges3 V).mulVec ![mu 0, mu 1, mu 2] = ![- V 3 0, - V 3 1, - V 3 2]) := by
    intro mu h1
    have h2 : mu 3 = 1 - mu 0 - mu 1 - mu 2 := by rw [← h1]; ring
    constructor
    · intro h
      have e0 := congrFun h 0
      have e1 := congrFun h 1
      have e2 := congrFun h 2
      simp [lerpS3v3, h2] at e0 e1 e2
      funext i
      fin_cases i
      · simp [edges3, Matrix.mulVec, dotProduct, Fin.sum_univ_succ]; linear_combination e0
      · simp [edges3, Matrix.mulVec, dotProduct, Fin.sum_univ_succ]; linear_combination e1
      · simp [edges3, Matrix.mulVec, dotProduct, Fin.sum_univ_succ]; linear_combination e2
    · intro h
      have e0 := congrFun h 0
      have e1 := congrFun h 1
      have e2 := congrFun h 2
      simp [edges3, Matrix.mulVec, dotProduct, Fin.sum_univ_succ] at e0 e1 e2
      funext i
      fin_cases i
      · simp [lerpS3v3, h2]; linear_combination e0
      · simp [lerpS3v3, h2]; linear_combination e1
      · simp [lerpS3v3, h2]; linear_combination e2
  generalize hX : (solveLinear3x3 (edges3 V) ![- V 3 0, - V 3 1, - V 3 2]).2 = X at *
  constructor
  · rintro ⟨h1, h2⟩
    have h3 := (hs _).1 ((key mu h1).1 h2)
    have e0 : mu 0 = X 0 := congrFun h3 0
    have e1 : mu 1 = X 1 := congrFun h3 1
    have e2 : mu 2 = X 2 := congrFun h3 2
    funext i
    fin_cases i
    · exact e0
    · exact e1
    · exact e2
    · show mu 3 = 1 - X 0 - X 1 - X 2
      rw [← e0, ← e1, ← e2, ← h1]; ring
  · rintro rfl
    have h1 : (![X 0, X 1, X 2, 1 - X 0 - X 1 - X 2] : Fin 4 → K) 0 + (![X 0, X 1, X 2, 1 - X 0 - X 1 - X 2] : Fin 4 → K) 1
        + (![X 0, X 1, X 2, 1 - X 0 - X 1 - X 2] : Fin 4 → K) 2 + (![X 0, X 1, X 2, 1 - X 0 - X 1 - X 2] : Fin 4 → K) 3 = 1 := by
      show X 0 + X 1 + X 2 + (1 - X 0 - X 1 - X 2) = 1; ring
    refine ⟨h1, (key _ h1).2 ((hs _).2 ?_)⟩
    funext i
    fin_cases i <;> rfl

/-- C54 (s3v3): success iff all four weights lie in `[-eps, 1+eps)` — the upper bound is strict here. -/
theorem C54_s3v3_success (V : Fin 4 → Fin 3 → K) (eps : K) :
    (inverseLerpS3v3 V eps).1 = true ↔ ∀ i, -eps ≤ (inverseLerpS3v3 V eps).2 i ∧ (inverseLerpS3v3 V eps).2 i < 1 + eps := by
  simp only [inverseLerpS3v3, inRange', Bool.and_eq_true, decide_eq_true_eq, ge_iff_le]
  rw [Fin.forall_fin_succ, Fin.forall_fin_succ, Fin.forall_fin_two]
  simp only [Matrix.cons_val_zero]
  constructor
  · rintro ⟨⟨⟨a, b⟩, c⟩, d⟩; exact ⟨a, b, c, d⟩
  · rintro ⟨a, b, c, d⟩; exact ⟨⟨⟨a, b⟩, c⟩, d⟩

/-- C54, sharpness: with `eps = 0` a zero exactly at a vertex is accepted by s2v2 and rejected by s3v3. -/
theorem C54_vertex_zero :
    (inverseLerpS2v2 ![![0, 0], ![1, 0], ![0, (1 : ℚ)]] 0).1 = true ∧
    (inverseLerpS3v3 ![![0, 0, 0], ![1, 0, 0], ![0, 1, 0], ![0, 0, (1 : ℚ)]] 0).1 = false := by decide +kernel

/-- Non-vacuity of the determinant hypotheses. -/
example : Matrix.det (edges2 ![![-1, 0], ![1, 0], ![0, (5 : ℚ)]]) ≠ 0 ∧
    (inverseLerpS2v2 ![![-1, 0], ![1, 0], ![0, (5 : ℚ)]] 0) = (true, ![1/2, 1/2, 0]) ∧
    Matrix.det (edges3 ![![-1, 0, 0], ![1, 0, 0], ![0, 1, 0], ![0, 0, (1 : ℚ)]]) ≠ 0 := by decide +kernel

/-- C54 (s1v2): the returned parameter minimises the length of the interpolated vector. -/
theorem C54_s1v2_least_squares (V : Fin 2 → Fin 2 → K) (hne : V 0 ≠ V 1) (m : K) :
    (lerpS1v2 V (inverseLerpS1v2 V).2 0) ^ 2 + (lerpS1v2 V (inverseLerpS1v2 V).2 1) ^ 2
      ≤ (lerpS1v2 V m 0) ^ 2 + (lerpS1v2 V m 1) ^ 2 := by
  have hpos : 0 < (V 0 0 - V 1 0) * (V 0 0 - V 1 0) + (V 0 1 - V 1 1) * (V 0 1 - V 1 1) := by
    rcases eq_or_ne (V 0 0) (V 1 0) with h | h
    · have h' : V 0 1 ≠ V 1 1 := fun h' => hne (by funext i; fin_cases i <;> assumption)
      have := mul_self_pos.2 (sub_ne_zero.2 h')
      nlinarith [mul_self_nonneg (V 0 0 - V 1 0)]
    · have := mul_self_pos.2 (sub_ne_zero.2 h)
      nlinarith [mul_self_nonneg (V 0 1 - V 1 1)]
  have hx : (inverseLerpS1v2 V).2 * ((V 0 0 - V 1 0) * (V 0 0 - V 1 0) + (V 0 1 - V 1 1) * (V 0 1 - V 1 1))
      = -((V 0 0 - V 1 0) * V 1 0 + (V 0 1 - V 1 1) * V 1 1) := by
    simp only [inverseLerpS1v2, solveLeastSquare2x1, innerProduct2, Matrix.cons_val_zero, Matrix.cons_val_one]
    rw [mul_assoc, one_div_mul_cancel (ne_of_gt hpos)]
    ring
  generalize (inverseLerpS1v2 V).2 = x at *
  simp only [lerpS1v2, Matrix.cons_val_zero, Matrix.cons_val_one]
  have : (V 0 0 * m + V 1 0 * (1 - m)) ^ 2 + (V 0 1 * m + V 1 1 * (1 - m)) ^ 2
      - ((V 0 0 * x + V 1 0 * (1 - x)) ^ 2 + (V 0 1 * x + V 1 1 * (1 - x)) ^ 2)
      = (m - x) ^ 2 * ((V 0 0 - V 1 0) * (V 0 0 - V 1 0) + (V 0 1 - V 1 1) * (V 0 1 - V 1 1)) := by
    linear_combination (2 * (m - x)) * hx
  have h2 := mul_nonneg (sq_nonneg (m - x)) hpos.le
  linarith

/-- edge vectors used by s2v3 -/
def edges23 {K : Type} [Ring K] (V : Fin 3 → Fin 3 → K) : Matrix (Fin 3) (Fin 2) K :=
  Matrix.of ![![V 0 0 - V 2 0, V 1 0 - V 2 0], ![V 0 1 - V 2 1, V 1 1 - V 2 1], ![V 0 2 - V 2 2, V 1 2 - V 2 2]]

/-- C54 (s2v3): for a non-degenerate triangle of vectors in space the weights sum to one and are the only
such weights that minimise the length of the interpolated vector; success is the range check. -/
theorem C54_s2v3 (V : Fin 3 → Fin 3 → K) (eps : K) (hd : ((edges23 V).transpose * edges23 V).det ≠ 0) :
    let mu := (inverseLerpS2v3 V eps).2
    mu 0 + mu 1 + mu 2 = 1 ∧
    (∀ w : Fin 3 → K, w 0 + w 1 + w 2 = 1 → w ≠ mu →
      ∑ j, (V 0 j * mu 0 + V 1 j * mu 1 + V 2 j * mu 2) ^ 2 < ∑ j, (V 0 j * w 0 + V 1 j * w 1 + V 2 j * w 2) ^ 2) ∧
    ((inverseLerpS2v3 V eps).1 = true ↔ ∀ i, -eps ≤ mu i ∧ mu i ≤ 1 + eps) := by
  have hx : (inverseLerpS2v3 V eps).2 = ![(solveLeastSquare3x2 (edges23 V) ![- V 2 0, - V 2 1, - V 2 2]) 0,
      (solveLeastSquare3x2 (edges23 V) ![- V 2 0, - V 2 1, - V 2 2]) 1,
      1 - (solveLeastSquare3x2 (edges23 V) ![- V 2 0, - V 2 1, - V 2 2]) 0 - (solveLeastSquare3x2 (edges23 V) ![- V 2 0, - V 2 1, - V 2 2]) 1] := rfl
  have hs : (inverseLerpS2v3 V eps).1 = (inRange eps ((inverseLerpS2v3 V eps).2 0) && inRange eps ((inverseLerpS2v3 V eps).2 1)
    && inRange eps ((inverseLerpS2v3 V eps).2 2)) := rfl
  have hm := C33_leastSquare3x2 (edges23 V) ![- V 2 0, - V 2 1, - V 2 2] hd
  have hres : ∀ w : Fin 3 → K, w 0 + w 1 + w 2 = 1 →
      residual (edges23 V) ![- V 2 0, - V 2 1, - V 2 2] ![w 0, w 1] = ∑ j, (V 0 j * w 0 + V 1 j * w 1 + V 2 j * w 2) ^ 2 := by
    intro w h1
    have h2 : w 2 = 1 - w 0 - w 1 := by rw [← h1]; ring
    unfold residual
    rw [h2, Fin.sum_univ_three, Fin.sum_univ_three]
    simp [edges23, Matrix.mulVec, dotProduct]
    ring
  have hsum : (inverseLerpS2v3 V eps).2 0 + (inverseLerpS2v3 V eps).2 1 + (inverseLerpS2v3 V eps).2 2 = 1 := by
    rw [hx]; simp
  refine ⟨hsum, ?_, ?_⟩
  · intro w hw hne
    rw [← hres w hw, ← hres _ hsum]
    have hv : ![(inverseLerpS2v3 V eps).2 0, (inverseLerpS2v3 V eps).2 1] = solveLeastSquare3x2 (edges23 V) ![- V 2 0, - V 2 1, - V 2 2] := by
      funext i; fin_cases i <;> rfl
    rw [hv]
    refine hm _ fun h => hne ?_
    rw [← hv] at h
    have e0 : w 0 = (inverseLerpS2v3 V eps).2 0 := congrFun h 0
    have e1 : w 1 = (inverseLerpS2v3 V eps).2 1 := congrFun h 1
    funext i
    fin_cases i
    · exact e0
    · exact e1
    · simp only [Fin.reduceFinMk]
      linear_combination hw - hsum - e0 - e1
  · simp only [hs, inRange, Bool.and_eq_true, decide_eq_true_eq, ge_iff_le]
    rw [Fin.forall_fin_succ, Fin.forall_fin_two]
    exact and_assoc

/-- Non-vacuity. -/
example : Matrix.det (Matrix.transpose (edges23 ![![-1, 0, 1], ![1, 0, 1], ![0, (3 : ℚ), 1]]) *
    edges23 ![![-1, 0, 1], ![1, 0, 1], ![0, (3 : ℚ), 1]]) ≠ 0 ∧
    inverseLerpS2v3 ![![-1, 0, 1], ![1, 0, 1], ![0, (3 : ℚ), 1]] 0 = (true, ![1/2, 1/2, 0]) := by decide +kernel

/-- C54 (s1v2) finding: success does not mean that the field vanishes on the segment; the residual is not
checked. -/
theorem C54_s1v2_false_positive : ∃ V : Fin 2 → Fin 2 → ℚ, (inverseLerpS1v2 V).1 = true ∧
    ∀ m : ℚ, lerpS1v2 V m ≠ 0 := by
  refine ⟨![![1, 1], ![-1, 1]], by decide +kernel, fun m h => ?_⟩
  have := congrFun h 1
  simp [lerpS1v2] at this

/-- C54 (integer s1v2): the exact integer test answers yes iff some point strictly inside the segment is
interpolated to zero — unless both end points carry the zero vector, which it rejects. -/
theorem C54_integer_s1v2 (V : Fin 2 → Fin 2 → ℤ) :
    integerInverseLerpS1v2 V = true ↔
      (∃ m : ℚ, 0 < m ∧ m < 1 ∧ lerpS1v2 (fun i j => ((V i j : ℤ) : ℚ)) m = 0) ∧ ¬ (V 0 = 0 ∧ V 1 = 0) := by
  have hl : ∀ m : ℚ, lerpS1v2 (fun i j => ((V i j : ℤ) : ℚ)) m = 0 ↔
      ((V 0 0 - V 1 0 : ℤ) : ℚ) * m = ((- V 1 0 : ℤ) : ℚ) ∧ ((V 0 1 - V 1 1 : ℤ) : ℚ) * m = ((- V 1 1 : ℤ) : ℚ) := by
    intro m
    constructor
    · intro h
      have e0 := congrFun h 0
      have e1 := congrFun h 1
      simp [lerpS1v2] at e0 e1
      push_cast
      exact ⟨by linear_combination e0, by linear_combination e1⟩
    · rintro ⟨h0, h1⟩
      push_cast at h0 h1
      funext i
      fin_cases i
      · simp [lerpS1v2]; linear_combination h0
      · simp [lerpS1v2]; linear_combination h1
  have hz : (V 0 = 0 ∧ V 1 = 0) ↔ (V 0 0 - V 1 0 = 0 ∧ - V 1 0 = 0) ∧ (V 0 1 - V 1 1 = 0 ∧ - V 1 1 = 0) := by
    constructor
    · rintro ⟨h0, h1⟩; simp [h0, h1]
    · rintro ⟨⟨a, b⟩, c, d⟩
      refine ⟨?_, ?_⟩ <;> funext i <;> fin_cases i <;> simp <;> omega
  have hr : ∀ a b : ℤ, a ≠ 0 → (checkRange a b = true ↔ 0 < ((b : ℚ) / a) ∧ ((b : ℚ) / a) < 1) := by
    intro a b ha
    rcases lt_or_gt_of_ne ha with h | h
    · have hq : (a : ℚ) < 0 := by exact_mod_cast h
      rw [lt_div_iff_of_neg hq, div_lt_iff_of_neg hq]
      unfold checkRange
      rw [Int.sign_eq_neg_one_of_neg h, abs_of_neg h]
      rcases lt_trichotomy b 0 with hb | hb | hb
      · rw [Int.sign_eq_neg_one_of_neg hb, abs_of_neg hb]
        simp only [ne_eq, not_true_eq_false, if_false, decide_eq_true_eq, zero_mul, one_mul]
        constructor
        · rintro ⟨_, h2⟩; exact ⟨by exact_mod_cast hb, by exact_mod_cast (show a < b by omega)⟩
        · rintro ⟨_, h2⟩
          have : a < b := by exact_mod_cast h2
          omega
      · subst hb; simp
      · rw [Int.sign_eq_one_of_pos hb]
        have : ¬ ((b : ℚ) < 0) := by
          have : (0 : ℚ) < b := by exact_mod_cast hb
          linarith
        simp [this]
    · have hq : (0 : ℚ) < a := by exact_mod_cast h
      rw [lt_div_iff₀ hq, div_lt_iff₀ hq]
      unfold checkRange
      rw [Int.sign_eq_one_of_pos h, abs_of_pos h]
      rcases lt_trichotomy b 0 with hb | hb | hb
      · rw [Int.sign_eq_neg_one_of_neg hb]
        have : ¬ ((0 : ℚ) < b) := by
          have : (b : ℚ) < 0 := by exact_mod_cast hb
          linarith
        simp [this]
      · subst hb; simp
      · rw [Int.sign_eq_one_of_pos hb, abs_of_pos hb]
        simp only [ne_eq, not_true_eq_false, if_false, decide_eq_true_eq, zero_mul, one_mul]
        constructor
        · rintro ⟨_, h2⟩; exact ⟨by exact_mod_cast hb, by exact_mod_cast h2⟩
        · rintro ⟨h1, h2⟩
          exact ⟨by exact_mod_cast h1, by exact_mod_cast h2⟩
  simp only [hl, hz]
  unfold integerInverseLerpS1v2
  simp only
  generalize V 0 0 - V 1 0 = A0
  generalize V 0 1 - V 1 1 = A1
  generalize - V 1 0 = B0
  generalize - V 1 1 = B1
  have hE : ∀ a b : ℤ, a ≠ 0 → (checkRange a b = true ↔ ∃ m : ℚ, 0 < m ∧ m < 1 ∧ (a : ℚ) * m = b) := by
    intro a b ha
    have ha' : (a : ℚ) ≠ 0 := by exact_mod_cast ha
    rw [hr a b ha]
    constructor
    · rintro ⟨h1, h2⟩; exact ⟨_, h1, h2, mul_div_cancel₀ _ ha'⟩
    · rintro ⟨m, h1, h2, h3⟩
      rw [← h3, mul_div_cancel_left₀ _ ha']; exact ⟨h1, h2⟩
  unfold numberRootsLinear1
  by_cases hA0 : A0 = 0
  · subst hA0
    by_cases hB0 : B0 = 0
    · subst hB0
      by_cases hA1 : A1 = 0
      · subst hA1
        by_cases hB1 : B1 = 0
        · subst hB1; simp
        · have : ((B1 : ℤ) : ℚ) ≠ 0 := by exact_mod_cast hB1
          simp [hB1, this.symm]
      · simp [hA1, hE A1 B1 hA1]
    · have : ((B0 : ℤ) : ℚ) ≠ 0 := by exact_mod_cast hB0
      simp [hB0, this.symm]
  · by_cases hA1 : A1 = 0
    · subst hA1
      by_cases hB1 : B1 = 0
      · subst hB1
        simp [hA0, hE A0 B0 hA0]
      · have : ((B1 : ℤ) : ℚ) ≠ 0 := by exact_mod_cast hB1
        simp [hA0, hB1, this.symm]
    · simp only [hA0, hA1, if_false, false_and, not_false_eq_true, and_true]
      have ha0 : (A0 : ℚ) ≠ 0 := by exact_mod_cast hA0
      have ha1 : (A1 : ℚ) ≠ 0 := by exact_mod_cast hA1
      split
      · rename_i h
        have hq : (A0 : ℚ) * B1 = A1 * B0 := by exact_mod_cast h
        rw [hE A0 B0 hA0]
        constructor
        · rintro ⟨m, h1, h2, h3⟩
          refine ⟨m, h1, h2, h3, mul_left_cancel₀ ha0 ?_⟩
          rw [hq, ← h3]; ring
        · rintro ⟨m, h1, h2, h3, _⟩; exact ⟨m, h1, h2, h3⟩
      · rename_i h
        simp only [Bool.false_eq_true, false_iff]
        rintro ⟨m, h1, h2, h3, h4⟩
        apply h
        have : (A0 : ℚ) * B1 = A1 * B0 := by rw [← h3, ← h4]; ring
        exact_mod_cast this

/-- Non-vacuity, and the sharpness of the strict bounds: interior crossing accepted, end-point zero rejected. -/
example : integerInverseLerpS1v2 ![![1, 2], ![-1, -2]] = true ∧ integerInverseLerpS1v2 ![![1, 2], ![0, 0]] = false ∧
    integerInverseLerpS1v2 ![![1, 2], ![-1, -3]] = false ∧ integerInverseLerpS1v2 ![![0, 3], ![0, -2]] = true := by
  decide +kernel

/-! ### clamping -/

/-- `clamp` stays in the interval and is the identity on it. -/
theorem C54_clamp (x a b : K) (hab : a ≤ b) :
    a ≤ clamp x a b ∧ clamp x a b ≤ b ∧ (a ≤ x → x ≤ b → clamp x a b = x) ∧
    (x < a → clamp x a b = a) ∧ (b < x → clamp x a b = b) := by
  unfold clamp
  refine ⟨le_min (le_max_left _ _) hab, min_le_right _ _, fun h1 h2 => by rw [max_eq_right h1, min_eq_left h2],
    fun h => by rw [max_eq_left h.le, min_eq_left hab], fun h => ?_⟩
  rw [max_eq_right (hab.trans h.le), min_eq_right h.le]

theorem foldl_finRange_sum {n : ℕ} (y : Fin n → K) : (List.finRange n).foldl (fun s i => s + y i) 0 = ∑ i, y i := by
  rw [Fin.sum_univ_def, List.sum_eq_foldl, List.foldl_map]

/-- C54 (clamp_barycentric): for a positive number of weights the results are non-negative, at most one, sum
to one, and weights that were already valid barycentric coordinates are returned unchanged. -/
theorem C54_clampBarycentric {n : ℕ} (hn : 0 < n) (x : Fin n → K) :
    (∀ i, 0 ≤ clampBarycentric x i ∧ clampBarycentric x i ≤ 1) ∧ ∑ i, clampBarycentric x i = 1 ∧
    ((∀ i, 0 ≤ x i) → ∑ i, x i = 1 → clampBarycentric x = x) := by
  have hy : ∀ i, 0 ≤ clamp (x i) 0 1 := fun i => (C54_clamp (x i) 0 1 zero_le_one).1
  have hsum : 0 ≤ ∑ i, clamp (x i) 0 1 := Finset.sum_nonneg fun i _ => hy i
  have hn' : (n : K) ≠ 0 := by exact_mod_cast hn.ne'
  have h0 : (∀ i, 0 ≤ clampBarycentric x i) ∧ ∑ i, clampBarycentric x i = 1 := by
    unfold clampBarycentric
    simp only [foldl_finRange_sum]
    split
    · refine ⟨fun i => by positivity, ?_⟩
      simp [hn']
    · rename_i h
      exact ⟨fun i => div_nonneg (hy i) hsum, by simp only [div_eq_mul_inv]; rw [← Finset.sum_mul, mul_inv_cancel₀ h]⟩
  refine ⟨fun i => ⟨h0.1 i, ?_⟩, h0.2, ?_⟩
  · rw [← h0.2]
    exact Finset.single_le_sum (fun j _ => h0.1 j) (Finset.mem_univ i)
  · intro h1 h2
    have hle : ∀ i, x i ≤ 1 := fun i => by
      rw [← h2]; exact Finset.single_le_sum (fun j _ => h1 j) (Finset.mem_univ i)
    have hc : (fun i => clamp (x i) 0 1) = x := by
      funext i; exact (C54_clamp (x i) 0 1 zero_le_one).2.2.1 (h1 i) (hle i)
    unfold clampBarycentric
    simp only [foldl_finRange_sum]
    have hc' := congrFun hc
    simp only [hc', h2, if_neg one_ne_zero, div_one]

/-- Non-vacuity, including the degenerate all-non-positive case. -/
example : clampBarycentric ![(-1 : ℚ), 3, 1/2] = ![0, 2/3, 1/3] ∧ clampBarycentric ![(-1 : ℚ), 0, -2] = ![1/3, 1/3, 1/3] := by
  decide +kernel

end Verif.Num
