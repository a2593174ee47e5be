import Verif.PV.Props

/-!
# The curve of parallel vectors in a cell (C141)
-/

namespace Verif.PV

open Verif.Num Verif.Poly Matrix

variable {K : Type} [Field K]

/-! ### Evaluation of the buffers -/

theorem ev_lin (a b x : K) : evaluate (lin a b) 1 x = a + b * x := by simp [evaluate, lin, fma]; ring

theorem ev_quad (p : Fin 3 → K) (x : K) : evaluate (quad p) 2 x = p 0 + p 1 * x + p 2 * x ^ 2 := by
  simp [evaluate, quad, fma]; ring

theorem ev_cub (p : Fin 4 → K) (x : K) : evaluate (cub p) 3 x = p 0 + p 1 * x + p 2 * x ^ 2 + p 3 * x ^ 3 := by
  simp [evaluate, cub, fma]; ring

theorem ev_mul11 (P Q R : Buf K) (x : K) : evaluate (multiplication P 1 Q 1 R) 2 x = evaluate P 1 x * evaluate Q 1 x :=
  (C36_evaluate_ops P Q R 1 1 0 x).2.1

theorem ev_mul21 (P Q R : Buf K) (x : K) : evaluate (multiplication P 2 Q 1 R) 3 x = evaluate P 2 x * evaluate Q 1 x :=
  (C36_evaluate_ops P Q R 2 1 0 x).2.1

theorem ev_mul33 (P Q R : Buf K) (x : K) : evaluate (multiplication P 3 Q 3 R) 6 x = evaluate P 3 x * evaluate Q 3 x :=
  (C36_evaluate_ops P Q R 3 3 0 x).2.1

theorem ev_scalar (P : Buf K) (m : ℕ) (s x : K) : evaluate (scalarMultiplication P m s) m x = s * evaluate P m x :=
  (C36_evaluate_ops P P P m m s x).2.2.1

theorem ev_sub (P Q R : Buf K) (m : ℕ) (x : K) : evaluate (subtraction P m Q m R) m x = evaluate P m x - evaluate Q m x := by
  have := (C36_evaluate_ops P Q R m m 0 x).2.2.2.1 le_rfl
  rwa [max_self] at this

theorem ev_addin (P Q : Buf K) (m : ℕ) (x : K) : evaluate (additionInPlace P m Q m) m x = evaluate P m x + evaluate Q m x := by
  rw [C36_evaluate, (C36_in_place P Q m m le_rfl).1.1, Polynomial.eval_add, ← C36_evaluate, ← C36_evaluate]

theorem ev_subin (P Q : Buf K) (m : ℕ) (x : K) : evaluate (subtractionInPlace P m Q m) m x = evaluate P m x - evaluate Q m x := by
  rw [C36_evaluate, (C36_in_place P Q m m le_rfl).2.1, Polynomial.eval_sub, ← C36_evaluate, ← C36_evaluate]

theorem ev_zero (m : ℕ) (x : K) : evaluate (0 : Buf K) m x = 0 := by
  rw [C36_evaluate, eval_poly]; simp

/-! ### Tetrahedra -/

/-- The matrix of the linear system at `l`. -/
def mAt (V W : Fin 4 → Fin 3 → K) (l : K) (i j : Fin 3) : K := diff3 V i j - l * diff3 W i j

/-- Its right-hand side. -/
def rAt (V W : Fin 4 → Fin 3 → K) (l : K) (i : Fin 3) : K := -V 3 i + W 3 i * l

theorem ev_minor (A B : Fin 3 → Fin 3 → K) (r s c d : Fin 3) (l : K) : evaluate (minor A B r s c d) 2 l =
    (A r c - l * B r c) * (A s d - l * B s d) - (A r d - l * B r d) * (A s c - l * B s c) := by
  rw [minor, ev_quad]
  simp [charPoly2g, det2]; ring

theorem ev_Q3 (V W : Fin 4 → Fin 3 → K) (l : K) : evaluate (polyQ3 V W) 3 l = (Matrix.of (mAt V W l)).det := by
  rw [polyQ3, ev_cub]
  have := C33_charPoly3g (Matrix.of (diff3 V)) (Matrix.of (diff3 W)) l
  refine Eq.trans this (congrArg Matrix.det ?_)
  ext i j
  simp [mAt]

theorem ev_P3 (V W : Fin 4 → Fin 3 → K) (i : Fin 3) (l : K) :
    evaluate (polyP3 V W i) 3 l = ((Matrix.of (mAt V W l)).adjugate).mulVec (rAt V W l) i := by
  unfold polyP3
  simp only [ev_addin, ev_zero, ev_mul21, zero_add]
  simp only [Matrix.mulVec, dotProduct, Fin.sum_univ_three, rhs3, ev_lin, rAt, Matrix.adjugate_fin_three]
  fin_cases i <;> simp only [adj3, ev_minor, ev_scalar, mAt, Fin.zero_eta, Fin.mk_one, Fin.reduceFinMk, Matrix.cons_val, Matrix.of_apply] <;> ring

theorem ev_P3last (V W : Fin 4 → Fin 3 → K) (l : K) : evaluate (polyP3last V W) 3 l =
    evaluate (polyQ3 V W) 3 l - evaluate (polyP3 V W 0) 3 l - evaluate (polyP3 V W 1) 3 l - evaluate (polyP3 V W 2) 3 l := by
  simp only [evaluate, polyP3last, fma]; ring

/-- The four quotients `P[i](l) / Q(l)`. -/
def point3 (V W : Fin 4 → Fin 3 → K) (l : K) : Fin 4 → K :=
  fun i => (if h : i.val < 3 then evaluate (polyP3 V W ⟨i.val, h⟩) 3 l else evaluate (polyP3last V W) 3 l) / evaluate (polyQ3 V W) 3 l

theorem parallel3_iff (V W : Fin 4 → Fin 3 → K) (l : K) (mu : Fin 4 → K) : ParallelAt V W l mu ↔
    mu 3 = 1 - mu 0 - mu 1 - mu 2 ∧ (Matrix.of (mAt V W l)).mulVec ![mu 0, mu 1, mu 2] = rAt V W l := by
  unfold ParallelAt
  rw [funext_iff, Fin.sum_univ_four]
  have hk : mu 3 = 1 - mu 0 - mu 1 - mu 2 → ∀ k, (∑ i, mu i * V i k = l * ∑ i, mu i * W i k ↔
      (Matrix.of (mAt V W l)).mulVec ![mu 0, mu 1, mu 2] k = rAt V W l k) := by
    intro h k
    simp only [Fin.sum_univ_four, Matrix.mulVec, dotProduct, Fin.sum_univ_three, Matrix.of_apply, mAt, rAt, diff3, Matrix.cons_val, h]
    simp only [show (Fin.castSucc 0 : Fin 4) = 0 from rfl, show (Fin.castSucc 1 : Fin 4) = 1 from rfl, show (Fin.castSucc 2 : Fin 4) = 2 from rfl]
    constructor <;> intro e <;> linear_combination e
  constructor
  · rintro ⟨a, b⟩
    have h : mu 3 = 1 - mu 0 - mu 1 - mu 2 := by linear_combination a
    exact ⟨h, fun k => (hk h k).1 (b k)⟩
  · rintro ⟨h, b⟩
    exact ⟨by rw [h]; ring, fun k => (hk h k).2 (b k)⟩

/-- C141: where the characteristic polynomial `Q` does not vanish, the four quotients `P[i](λ)/Q(λ)` are the barycentric coordinates of the one point
(of the affine hull) of the tetrahedron's interpolants where `v = λw`. -/
theorem C141_tetrahedron (V W : Fin 4 → Fin 3 → K) (l : K) (h : evaluate (polyQ3 V W) 3 l ≠ 0) (mu : Fin 4 → K) :
    ParallelAt V W l mu ↔ mu = point3 V W l := by
  rw [parallel3_iff]
  have hQ := h
  rw [ev_Q3] at h
  have hP : ∀ i : Fin 3, evaluate (polyP3 V W i) 3 l = (Matrix.of (mAt V W l)).det * ((Matrix.of (mAt V W l))⁻¹).mulVec (rAt V W l) i := by
    intro i
    rw [ev_P3, Matrix.inv_def, Ring.inverse_eq_inv', Matrix.smul_mulVec, Pi.smul_apply, smul_eq_mul, mul_inv_cancel_left₀ h]
  have hp : ∀ i : Fin 3, point3 V W l i.castSucc = ((Matrix.of (mAt V W l))⁻¹).mulVec (rAt V W l) i := by
    intro i
    have hi : (Fin.castSucc i).val < 3 := i.isLt
    simp only [point3, dif_pos hi]
    rw [show (⟨(Fin.castSucc i).val, hi⟩ : Fin 3) = i from rfl, hP, ev_Q3, mul_div_cancel_left₀ _ h]
  have hl : point3 V W l 3 = 1 - point3 V W l 0 - point3 V W l 1 - point3 V W l 2 := by
    have e0 : point3 V W l 0 = evaluate (polyP3 V W 0) 3 l / evaluate (polyQ3 V W) 3 l := rfl
    have e1 : point3 V W l 1 = evaluate (polyP3 V W 1) 3 l / evaluate (polyQ3 V W) 3 l := rfl
    have e2 : point3 V W l 2 = evaluate (polyP3 V W 2) 3 l / evaluate (polyQ3 V W) 3 l := rfl
    have e3 : point3 V W l 3 = evaluate (polyP3last V W) 3 l / evaluate (polyQ3 V W) 3 l := rfl
    rw [e0, e1, e2, e3, ev_P3last]
    field_simp
  have hu : IsUnit (Matrix.of (mAt V W l)).det := isUnit_iff_ne_zero.2 h
  constructor
  · rintro ⟨a, b⟩
    have hx : (![mu 0, mu 1, mu 2] : Fin 3 → K) = ((Matrix.of (mAt V W l))⁻¹).mulVec (rAt V W l) := by
      rw [← b, Matrix.mulVec_mulVec, Matrix.nonsing_inv_mul _ hu, Matrix.one_mulVec]
    have e0 : mu 0 = point3 V W l 0 := by rw [show (0 : Fin 4) = Fin.castSucc (0 : Fin 3) from rfl, hp 0, ← hx]; rfl
    have e1 : mu 1 = point3 V W l 1 := by rw [show (1 : Fin 4) = Fin.castSucc (1 : Fin 3) from rfl, hp 1, ← hx]; rfl
    have e2 : mu 2 = point3 V W l 2 := by rw [show (2 : Fin 4) = Fin.castSucc (2 : Fin 3) from rfl, hp 2, ← hx]; rfl
    funext i
    fin_cases i
    · exact e0
    · exact e1
    · exact e2
    · show mu 3 = point3 V W l 3
      rw [a, hl, e0, e1, e2]
  · rintro rfl
    refine ⟨hl, ?_⟩
    have : (![point3 V W l 0, point3 V W l 1, point3 V W l 2] : Fin 3 → K) = ((Matrix.of (mAt V W l))⁻¹).mulVec (rAt V W l) := by
      funext i
      rw [← hp i]
      fin_cases i <;> rfl
    rw [this, Matrix.mulVec_mulVec, Matrix.mul_nonsing_inv _ hu, Matrix.one_mulVec]

/-- C141: where `Q` vanishes there is no such point, or there are many. -/
theorem C141_tetrahedron_degenerate (V W : Fin 4 → Fin 3 → K) (l : K) : (∃! mu, ParallelAt V W l mu) ↔ evaluate (polyQ3 V W) 3 l ≠ 0 := by
  constructor
  · rintro ⟨mu, hmu, hu⟩ h0
    rw [ev_Q3] at h0
    obtain ⟨y, hy, h⟩ := Matrix.exists_mulVec_eq_zero_iff.2 h0
    have h2 : ParallelAt V W l ![mu 0 + y 0, mu 1 + y 1, mu 2 + y 2, 1 - (mu 0 + y 0) - (mu 1 + y 1) - (mu 2 + y 2)] := by
      rw [parallel3_iff] at hmu ⊢
      refine ⟨rfl, ?_⟩
      rw [← hmu.2, ← add_zero ((Matrix.of (mAt V W l)).mulVec ![mu 0, mu 1, mu 2]), ← h, ← Matrix.mulVec_add]
      congr 1
      funext i
      fin_cases i <;> rfl
    have := hu _ h2
    apply hy
    funext i
    fin_cases i
    · have := congrFun this 0; simpa using this
    · have := congrFun this 1; simpa using this
    · have := congrFun this 2; simpa using this
  · intro h
    exact ⟨point3 V W l, (C141_tetrahedron V W l h _).2 rfl, fun y hy => (C141_tetrahedron V W l h y).1 hy⟩

/-! ### Triangles in the plane -/

/-- The three quotients `P[i](l) / Q(l)`. -/
def point2 (V W : Fin 3 → Fin 2 → K) (l : K) : Fin 3 → K :=
  ![evaluate (polyP2 V W 0) 2 l / evaluate (polyQ2 V W) 2 l, evaluate (polyP2 V W 1) 2 l / evaluate (polyQ2 V W) 2 l,
    evaluate (polyP2last V W) 2 l / evaluate (polyQ2 V W) 2 l]

theorem ev_Q2 (V W : Fin 3 → Fin 2 → K) (l : K) : evaluate (polyQ2 V W) 2 l =
    (V 0 0 - V 2 0 - l * (W 0 0 - W 2 0)) * (V 1 1 - V 2 1 - l * (W 1 1 - W 2 1)) -
    (V 1 0 - V 2 0 - l * (W 1 0 - W 2 0)) * (V 0 1 - V 2 1 - l * (W 0 1 - W 2 1)) := by
  rw [polyQ2, ev_quad]
  simp [charPoly2g, det2, diff2]; ring

theorem ev_P20 (V W : Fin 3 → Fin 2 → K) (l : K) : evaluate (polyP2 V W 0) 2 l =
    (V 1 1 - V 2 1 - l * (W 1 1 - W 2 1)) * (-V 2 0 + l * W 2 0) - (V 1 0 - V 2 0 - l * (W 1 0 - W 2 0)) * (-V 2 1 + l * W 2 1) := by
  unfold polyP2
  simp only [ev_addin, ev_zero, ev_mul11, zero_add, adj2, diff2, ev_lin, Matrix.cons_val]
  simp only [show (Fin.castSucc 0 : Fin 3) = 0 from rfl, show (Fin.castSucc 1 : Fin 3) = 1 from rfl]
  ring

theorem ev_P21 (V W : Fin 3 → Fin 2 → K) (l : K) : evaluate (polyP2 V W 1) 2 l =
    -(V 0 1 - V 2 1 - l * (W 0 1 - W 2 1)) * (-V 2 0 + l * W 2 0) + (V 0 0 - V 2 0 - l * (W 0 0 - W 2 0)) * (-V 2 1 + l * W 2 1) := by
  unfold polyP2
  simp only [ev_addin, ev_zero, ev_mul11, zero_add, adj2, diff2, ev_lin, Matrix.cons_val]
  simp only [show (Fin.castSucc 0 : Fin 3) = 0 from rfl, show (Fin.castSucc 1 : Fin 3) = 1 from rfl]
  ring

theorem ev_P2last (V W : Fin 3 → Fin 2 → K) (l : K) : evaluate (polyP2last V W) 2 l =
    evaluate (polyQ2 V W) 2 l - evaluate (polyP2 V W 0) 2 l - evaluate (polyP2 V W 1) 2 l := by
  simp only [evaluate, polyP2last, fma]; ring

/-- C141: the same for a triangle in the plane. -/
theorem C141_triangle (V W : Fin 3 → Fin 2 → K) (l : K) (h : evaluate (polyQ2 V W) 2 l ≠ 0) (mu : Fin 3 → K) :
    ParallelAt V W l mu ↔ mu = point2 V W l := by
  have hQ := ev_Q2 V W l
  have hP := ev_P20 V W l
  have hR := ev_P21 V W l
  have hL := ev_P2last V W l
  unfold ParallelAt
  generalize hq : evaluate (polyQ2 V W) 2 l = Q at *
  generalize h0 : evaluate (polyP2 V W 0) 2 l = p at *
  generalize h1 : evaluate (polyP2 V W 1) 2 l = r at *
  generalize h2 : evaluate (polyP2last V W) 2 l = s at *
  have e0 : point2 V W l 0 = p / Q := by rw [← h0, ← hq]; rfl
  have e1 : point2 V W l 1 = r / Q := by rw [← h1, ← hq]; rfl
  have e2 : point2 V W l 2 = s / Q := by rw [← h2, ← hq]; rfl
  simp only [Fin.sum_univ_three]
  constructor
  · rintro ⟨a, b⟩
    have k0 := b 0
    have k1 := b 1
    have m2 : mu 2 = 1 - mu 0 - mu 1 := by linear_combination a
    rw [m2] at k0 k1
    have f0 : mu 0 = p / Q := by
      rw [eq_div_iff h, hP, hQ]
      linear_combination (V 1 1 - V 2 1 - l * (W 1 1 - W 2 1)) * k0 - (V 1 0 - V 2 0 - l * (W 1 0 - W 2 0)) * k1
    have f1 : mu 1 = r / Q := by
      rw [eq_div_iff h, hR, hQ]
      linear_combination -(V 0 1 - V 2 1 - l * (W 0 1 - W 2 1)) * k0 + (V 0 0 - V 2 0 - l * (W 0 0 - W 2 0)) * k1
    funext i
    fin_cases i
    · exact f0.trans e0.symm
    · exact f1.trans e1.symm
    · show mu 2 = point2 V W l 2
      rw [m2, e2, f0, f1, hL]
      field_simp
  · rintro rfl
    rw [e0, e1, e2, hL]
    refine ⟨by field_simp; ring, fun k => ?_⟩
    field_simp
    rw [hP, hR, hQ]
    fin_cases k <;> simp <;> ring

/-- C141: and with a constant second field: the coordinates are linear in `λ`. -/
theorem C141_constant (V : Fin 3 → Fin 2 → K) (w : Fin 2 → K) (l : K)
    (h : (V 0 0 - V 2 0) * (V 1 1 - V 2 1) - (V 1 0 - V 2 0) * (V 0 1 - V 2 1) ≠ 0) (mu : Fin 3 → K) :
    ParallelAt V (fun _ => w) l mu ↔ mu = fun i => evaluate (polyPc V w i) 1 l := by
  have hd : diff2 V 0 0 * diff2 V 1 1 - diff2 V 0 1 * diff2 V 1 0 = (V 0 0 - V 2 0) * (V 1 1 - V 2 1) - (V 1 0 - V 2 0) * (V 0 1 - V 2 1) := by
    simp [diff2]
  generalize hD : (V 0 0 - V 2 0) * (V 1 1 - V 2 1) - (V 1 0 - V 2 0) * (V 0 1 - V 2 1) = D at *
  have e0 : evaluate (polyPc V w 0) 1 l = ((V 1 1 - V 2 1) * (-V 2 0 + l * w 0) - (V 1 0 - V 2 0) * (-V 2 1 + l * w 1)) / D := by
    simp only [polyPc, ev_lin, Matrix.cons_val, matrixInverse2, hd]
    simp only [diff2, show (Fin.castSucc 0 : Fin 3) = 0 from rfl, show (Fin.castSucc 1 : Fin 3) = 1 from rfl]
    field_simp
    ring
  have e1 : evaluate (polyPc V w 1) 1 l = (-(V 0 1 - V 2 1) * (-V 2 0 + l * w 0) + (V 0 0 - V 2 0) * (-V 2 1 + l * w 1)) / D := by
    simp only [polyPc, ev_lin, Matrix.cons_val, matrixInverse2, hd]
    simp only [diff2, show (Fin.castSucc 0 : Fin 3) = 0 from rfl, show (Fin.castSucc 1 : Fin 3) = 1 from rfl]
    field_simp
    ring
  have e2 : evaluate (polyPc V w 2) 1 l = 1 - evaluate (polyPc V w 0) 1 l - evaluate (polyPc V w 1) 1 l := by
    simp only [polyPc, ev_lin, Matrix.cons_val]
    ring
  unfold ParallelAt
  simp only [Fin.sum_univ_three]
  constructor
  · rintro ⟨a, b⟩
    have k0 := b 0
    have k1 := b 1
    have m2 : mu 2 = 1 - mu 0 - mu 1 := by linear_combination a
    rw [m2] at k0 k1
    have f0 : mu 0 = evaluate (polyPc V w 0) 1 l := by
      rw [e0, eq_div_iff h, ← hD]
      linear_combination (V 1 1 - V 2 1) * k0 - (V 1 0 - V 2 0) * k1
    have f1 : mu 1 = evaluate (polyPc V w 1) 1 l := by
      rw [e1, eq_div_iff h, ← hD]
      linear_combination -(V 0 1 - V 2 1) * k0 + (V 0 0 - V 2 0) * k1
    funext i
    fin_cases i
    · exact f0
    · exact f1
    · show mu 2 = evaluate (polyPc V w 2) 1 l
      rw [m2, e2, f0, f1]
  · rintro rfl
    simp only [e2]
    refine ⟨by ring, fun k => ?_⟩
    rw [e0, e1]
    field_simp
    rw [← hD]
    fin_cases k <;> simp <;> ring

end Verif.PV
