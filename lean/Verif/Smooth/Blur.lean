import Verif.Smooth.Kernel
import Mathlib.Analysis.Calculus.Deriv.Pow
import Mathlib.Analysis.Calculus.Deriv.Mul
import Mathlib.Analysis.Calculus.Deriv.Add
import Mathlib.Tactic.Positivity
/-! # Smoothed scalar, gradient and Jacobian (C179) -/
namespace Verif.Smooth
open Verif.UM

section sums
variable {K : Type} [Field K] {n0 : Nat}

/-- The three outputs as sums over the kernel entries `(k, w)` of vertex `i`, added to what was there before. -/
def sumsOf (x : Int → Fin 2 → K) (f : Int → K) (sigma : K) (p : Fin 2 → K) (row : List (Int × K)) (a : Sums K) : Sums K :=
  { s := a.s + (row.map fun kw => f kw.1 * kw.2).sum
    g := fun c => a.g c - (row.map fun kw => f kw.1 * kw.2 * ((x kw.1 c - p c) / (sigma * sigma))).sum
    j := fun c e => a.j c e + (row.map fun kw => f kw.1 * kw.2 *
      ((x kw.1 c - p c) * (x kw.1 e - p e) / (sigma * sigma * (sigma * sigma)) - if c = e then 1 / (sigma * sigma) else 0)).sum }

theorem add_eq (x : Int → Fin 2 → K) (f : Int → K) (sigma : K) (p : Fin 2 → K) (k : Int) (w : K) (a : Sums K) :
    a.add sigma (f k) w (fun c => x k c - p c) = sumsOf x f sigma p [(k, w)] a := by
  unfold Sums.add sumsOf
  simp only [Sums.mk.injEq, List.map_cons, List.map_nil, List.sum_cons, List.sum_nil, add_zero, true_and]
  constructor
  · funext c
    fin_cases c <;> simp <;> ring
  · funext c e
    fin_cases c <;> fin_cases e <;> simp <;> ring

theorem sumsOf_cons (x : Int → Fin 2 → K) (f : Int → K) (sigma : K) (p : Fin 2 → K) (kw : Int × K) (l : List (Int × K))
    (a : Sums K) : sumsOf x f sigma p l (sumsOf x f sigma p [kw] a) = sumsOf x f sigma p (kw :: l) a := by
  unfold sumsOf
  simp only [Sums.mk.injEq, List.map_cons, List.map_nil, List.sum_cons, List.sum_nil, add_zero]
  refine ⟨by ring, ?_, ?_⟩
  · funext c; ring
  · funext c e; ring

theorem row_eq (x : Int → Fin 2 → K) (f : Int → K) (sigma : K) (p : Fin 2 → K) : ∀ (l : List (Int × K)) (a : Sums K),
    (∀ kw ∈ l, 0 ≤ kw.1 ∧ kw.1 < (n0 : Int)) →
    Sums.row (field n0 x) (field n0 f) sigma p l a = some (sumsOf x f sigma p l a) := by
  intro l
  induction l with
  | nil => intro a _; simp [Sums.row, sumsOf]
  | cons kw l ih =>
    intro a h
    obtain ⟨k, w⟩ := kw
    have hk := h (k, w) (by simp)
    rw [Sums.row, read_field x hk.1 hk.2, Option.bind_eq_bind, Option.bind_some, read_field f hk.1 hk.2,
      Option.bind_eq_bind, Option.bind_some, ih _ fun kw hkw => h kw (by simp [hkw]), add_eq, sumsOf_cons]

/-- C179: `smooth_scalar_gradient_jacobian` for any kernel whose vertex numbers exist: every output is the weighted sum over
the kernel entries of the vertex, **added to what the output arrays contained before** (`reshape` does not clear them). -/
theorem C179_sums (x : Int → Fin 2 → K) (f : Int → K) (sigma : K) (kernel : List (List (Int × K))) (old : Nat → Sums K)
    (hlen : kernel.length = n0) (hk : ∀ row ∈ kernel, ∀ kw ∈ row, 0 ≤ kw.1 ∧ kw.1 < (n0 : Int)) :
    ∃ r, smooth (field n0 x) kernel sigma (field n0 f) old = some r ∧ r.length = n0 ∧
      ∀ (i : Nat) (row : List (Int × K)), kernel[i]? = some row → r[i]? = some (sumsOf x f sigma (x i) row (old i)) := by
  refine ⟨(List.range n0).map fun (i : Nat) => sumsOf x f sigma (x i) (kernel[i]?.getD []) (old i), ?_, by simp, ?_⟩
  · unfold smooth
    rw [hlen]
    apply MPAS.mapM_some
    intro i hi
    have hi := List.mem_range.1 hi
    have hr : kernel[i]? = some kernel[i] := List.getElem?_eq_getElem (by omega)
    rw [hr, Option.bind_eq_bind, Option.bind_some, Option.getD_some]
    have hmem : kernel[i] ∈ kernel := List.getElem_mem _
    rcases h : kernel[i] with _ | ⟨kw, l⟩
    · simp [sumsOf]
    · rw [h] at hmem
      simp only [read_field x (show (0 : Int) ≤ i by omega) (show (i : Int) < n0 by omega), Option.bind_eq_bind,
        Option.bind_some]
      exact row_eq x f sigma (x i) (kw :: l) (old i) (hk _ hmem)
  · intro i row hrow
    have hi : i < n0 := by rw [← hlen]; exact (List.getElem?_eq_some_iff.1 hrow).1
    simp [hi, hrow]

/-- `smooth_scalar` is the same weighted sum, from zero. -/
theorem C179_smooth_scalar (f : Int → K) (kernel : List (List (Int × K)))
    (hk : ∀ row ∈ kernel, ∀ kw ∈ row, 0 ≤ kw.1 ∧ kw.1 < (n0 : Int)) :
    smoothScalar kernel (field n0 f) = some (kernel.map fun row => (row.map fun kw => f kw.1 * kw.2).sum) := by
  have key : ∀ (l : List (Int × K)) (a : K), (∀ kw ∈ l, 0 ≤ kw.1 ∧ kw.1 < (n0 : Int)) →
      l.foldlM (fun acc kw => (read (field n0 f) kw.1).map fun fk => acc + fk * kw.2) a =
        some (a + (l.map fun kw => f kw.1 * kw.2).sum) := by
    intro l
    induction l with
    | nil => intro a _; simp
    | cons kw l ih =>
      intro a h
      have hk := h kw (by simp)
      rw [List.foldlM_cons, read_field f hk.1 hk.2, Option.map_some, Option.bind_eq_bind, Option.bind_some,
        ih _ fun kw hkw => h kw (by simp [hkw])]
      simp [add_assoc]
  unfold smoothScalar
  rw [MPAS.mapM_some _ (fun (i : Nat) => ((kernel[i]?.getD []).map fun kw => f kw.1 * kw.2).sum)]
  · congr 1
    apply List.ext_getElem?
    intro i
    by_cases hi : i < kernel.length
    · simp [hi]
    · rw [List.getElem?_eq_none (by simp; omega), List.getElem?_eq_none (by simp; omega)]
  · intro i hi
    have hi := List.mem_range.1 hi
    rw [List.getElem?_eq_getElem hi, Option.bind_eq_bind, Option.bind_some, key _ _ (hk _ (List.getElem_mem _))]
    simp

end sums

/-! ## What the sums are -/

/-- The smoothed field: the sum of Gaussians centred at the vertices `ks`, weighted by the values. -/
noncomputable def blur (sigma : ℝ) (x : Int → Fin 2 → ℝ) (f : Int → ℝ) (ks : List Int) (p : Fin 2 → ℝ) : ℝ :=
  (ks.map fun k => f k * gauss sigma p (x k)).sum

/-- `G` is the partial derivative of `F` along axis `c`, at every point. -/
def IsPartial (F G : (Fin 2 → ℝ) → ℝ) (c : Fin 2) : Prop :=
  ∀ p, HasDerivAt (fun t => F (Function.update p c t)) (G p) (p c)

theorem gauss_partial {sigma : ℝ} (hs : sigma ≠ 0) (q : Fin 2 → ℝ) (c : Fin 2) :
    IsPartial (fun p => gauss sigma p q) (fun p => gauss sigma p q * ((q c - p c) / (sigma * sigma))) c := by
  intro p
  have hb : ∀ b : ℝ, HasDerivAt (fun t : ℝ => (t - q c) ^ 2 + b) (2 * (p c - q c)) (p c) := by
    intro b
    have := (((hasDerivAt_id (p c)).sub_const (q c)).pow 2).add_const b
    simpa using this
  have h2 : ∀ b : ℝ, HasDerivAt (fun t : ℝ => Real.exp (-((t - q c) ^ 2 + b) / (2 * sigma ^ 2)) /
      (sigma * Real.sqrt (2 * Real.pi)))
      (Real.exp (-((p c - q c) ^ 2 + b) / (2 * sigma ^ 2)) * (-(2 * (p c - q c)) / (2 * sigma ^ 2)) /
        (sigma * Real.sqrt (2 * Real.pi))) (p c) := fun b =>
    ((((hb b).neg).div_const (2 * sigma ^ 2)).exp).div_const _
  have e : -(2 * (p c - q c)) / (2 * sigma ^ 2) = (q c - p c) / (sigma * sigma) := by
    rw [show -(2 * (p c - q c)) = 2 * (q c - p c) by ring, mul_div_mul_left _ _ (by norm_num : (2 : ℝ) ≠ 0), sq]
  fin_cases c
  · have := h2 ((p 1 - q 1) ^ 2)
    simp only [Fin.zero_eta] at *
    rw [e] at this
    convert this using 1
    · funext t; simp [gauss]
    · simp only [gauss]; ring
  · have := h2 ((p 0 - q 0) ^ 2)
    simp only [Fin.mk_one] at *
    rw [e] at this
    convert this using 1
    · funext t; simp [gauss, add_comm]
    · simp only [gauss]; ring_nf

theorem dgauss_partial {sigma : ℝ} (hs : sigma ≠ 0) (q : Fin 2 → ℝ) (c e : Fin 2) :
    IsPartial (fun p => gauss sigma p q * ((q c - p c) / (sigma * sigma)))
      (fun p => gauss sigma p q * ((q c - p c) * (q e - p e) / (sigma * sigma * (sigma * sigma)) -
        if c = e then 1 / (sigma * sigma) else 0)) e := by
  intro p
  have h1 := gauss_partial hs q e p
  have h2 : HasDerivAt (fun t => (q c - Function.update p e t c) / (sigma * sigma)) (if c = e then -1 / (sigma * sigma) else 0)
      (p e) := by
    by_cases h : c = e
    · subst h
      simp only [Function.update_self, if_true]
      simpa using ((hasDerivAt_id (p c)).const_sub (q c)).div_const (sigma * sigma)
    · simp only [Function.update_of_ne h, h, if_false]
      exact hasDerivAt_const _ _
  have h3 := h1.mul h2
  simp only [Function.update_eq_self] at h3
  refine HasDerivAt.congr_deriv h3 ?_
  by_cases h : c = e
  · subst h; simp only [if_true]; field_simp; ring
  · simp only [h, if_false]; field_simp; ring

theorem list_partial {α : Type} (F G : α → (Fin 2 → ℝ) → ℝ) (c : Fin 2) (h : ∀ a, IsPartial (F a) (G a) c) (l : List α) :
    IsPartial (fun p => (l.map fun a => F a p).sum) (fun p => (l.map fun a => G a p).sum) c := by
  intro p
  induction l with
  | nil => simpa using hasDerivAt_const _ _
  | cons a l ih =>
    simp only [List.map_cons, List.sum_cons]
    exact (h a p).add ih

theorem const_partial (k : ℝ) {F G : (Fin 2 → ℝ) → ℝ} {c : Fin 2} (h : IsPartial F G c) :
    IsPartial (fun p => k * F p) (fun p => k * G p) c := fun p => (h p).const_mul k

/-- C179: with fresh output arrays and the kernel of `build_smoothing_kernel`: the scalar is the smoothed field at the vertex
and the Jacobian is its Hessian there, but the gradient is the **negative** of its gradient.  Missing: the sign. -/
theorem C179_derivatives_partial (x : Int → Fin 2 → ℝ) (f : Int → ℝ) (sigma : ℝ) (hs : sigma ≠ 0) (i : Nat)
    (row : List (Int × ℝ)) (hw : ∀ kw ∈ row, kw.2 = gauss sigma (x i) (x kw.1)) :
    ∃ (D : Fin 2 → (Fin 2 → ℝ) → ℝ) (H : Fin 2 → Fin 2 → (Fin 2 → ℝ) → ℝ),
      (∀ c, IsPartial (blur sigma x f (row.map Prod.fst)) (D c) c) ∧ (∀ c e, IsPartial (D c) (H c e) e) ∧
      (sumsOf x f sigma (x i) row ⟨0, fun _ => 0, fun _ _ => 0⟩).s = blur sigma x f (row.map Prod.fst) (x i) ∧
      (∀ c, (sumsOf x f sigma (x i) row ⟨0, fun _ => 0, fun _ _ => 0⟩).g c = - D c (x i)) ∧
      (∀ c e, (sumsOf x f sigma (x i) row ⟨0, fun _ => 0, fun _ _ => 0⟩).j c e = H c e (x i)) := by
  refine ⟨fun c p => ((row.map Prod.fst).map fun k => f k * (gauss sigma p (x k) * ((x k c - p c) / (sigma * sigma)))).sum,
    fun c e p => ((row.map Prod.fst).map fun k => f k * (gauss sigma p (x k) *
      ((x k c - p c) * (x k e - p e) / (sigma * sigma * (sigma * sigma)) - if c = e then 1 / (sigma * sigma) else 0))).sum,
    fun c => list_partial _ _ c (fun k => const_partial _ (gauss_partial hs (x k) c)) _,
    fun c e => list_partial _ _ e (fun k => const_partial _ (dgauss_partial hs (x k) c e)) _, ?_, fun c => ?_, fun c e => ?_⟩
  · simp only [sumsOf, blur, List.map_map, Function.comp_def, zero_add]
    congr 1
    apply List.map_congr_left
    intro kw hk
    rw [hw kw hk]
  · simp only [sumsOf, List.map_map, Function.comp_def, zero_sub]
    congr 2
    apply List.map_congr_left
    intro kw hk
    rw [hw kw hk, mul_assoc]
  · simp only [sumsOf, List.map_map, Function.comp_def, zero_add]
    congr 1
    apply List.map_congr_left
    intro kw hk
    rw [hw kw hk, mul_assoc]

/-- The full property (the gradient output is the gradient of the smoothed field) fails: a field with the single value 1 at a
vertex to the right increases to the right, and the output is negative. -/
theorem C179_gradient_sign_wrong : ∃ (x : Int → Fin 2 → ℝ) (f : Int → ℝ) (D : ℝ), 0 < D ∧
    HasDerivAt (fun t => blur 1 x f [0, 1] (Function.update (x 0) 0 t)) D (x 0 0) ∧
    (sumsOf x f 1 (x 0) [(0, gauss 1 (x 0) (x 0)), (1, gauss 1 (x 0) (x 1))] ⟨0, fun _ => 0, fun _ _ => 0⟩).g 0 = -D := by
  have hg : 0 < gauss 1 ![0, 0] ![1, 0] := by
    unfold gauss
    positivity
  let x : Int → Fin 2 → ℝ := fun v => if v = 1 then ![1, 0] else ![0, 0]
  let f : Int → ℝ := fun v => if v = 1 then 1 else 0
  obtain ⟨D, H, h1, -, -, h4, -⟩ := C179_derivatives_partial x f 1 (by norm_num) 0
    [(0, gauss 1 (x 0) (x 0)), (1, gauss 1 (x 0) (x 1))] (by simp)
  refine ⟨x, f, D 0 (x 0), ?_, h1 0 (x 0), ?_⟩
  · have h := h4 0
    have e : D 0 (x 0) = gauss 1 ![0, 0] ![1, 0] := by
      have := neg_eq_iff_eq_neg.2 h.symm.symm
      have h' : D 0 (x (0 : Nat)) = -(sumsOf x f 1 (x (0 : Nat)) [(0, gauss 1 (x 0) (x 0)), (1, gauss 1 (x 0) (x 1))]
        ⟨0, fun _ => 0, fun _ _ => 0⟩).g 0 := by rw [h]; ring
      have h0 : x ((0 : Nat) : Int) = x 0 := rfl
      rw [h0] at h'
      rw [h']
      simp [sumsOf, x, f]
    rw [e]; exact hg
  · exact h4 0

/-- The weights are not normalised: a vertex alone in its disc gets its value divided by `σ √(2π)`, so a constant field is not
kept. -/
theorem C179_not_normalised : ∃ (x : Int → Fin 2 → ℝ),
    smoothScalar [[(0, gauss 1 (x 0) (x 0))]] (field 1 fun _ => (1 : ℝ)) = some [1 / Real.sqrt (2 * Real.pi)] ∧
    1 / Real.sqrt (2 * Real.pi) ≠ 1 := by
  refine ⟨fun _ => ![0, 0], ?_, ?_⟩
  · rw [C179_smooth_scalar _ _ (by simp)]
    simp [gauss]
  · have : (1 : ℝ) < Real.sqrt (2 * Real.pi) := by
      rw [show (1 : ℝ) = Real.sqrt 1 by simp]
      apply Real.sqrt_lt_sqrt (by norm_num)
      have := Real.two_le_pi
      linarith
    intro h
    rw [div_eq_one_iff_eq (by positivity)] at h
    linarith

/-- Concrete rational instance: two vertices, weights 1/2. -/
example : smooth (field 2 fun v => ![(v : ℚ), 0]) [[(0, 1/2), (1, 1/2)], []] 1 (field 2 fun v => (v : ℚ) + 1)
    (fun _ => ⟨0, fun _ => 0, fun _ _ => 0⟩) = some [sumsOf (fun v => ![(v : ℚ), 0]) (fun v => (v : ℚ) + 1) 1 ![0, 0]
      [(0, 1/2), (1, 1/2)] ⟨0, fun _ => 0, fun _ _ => 0⟩, ⟨0, fun _ => 0, fun _ _ => 0⟩] := by
  obtain ⟨r, h1, h2, h3⟩ := C179_sums (n0 := 2) (fun v => ![(v : ℚ), 0]) (fun v => (v : ℚ) + 1) 1
    [[(0, 1/2), (1, 1/2)], []] (fun _ => ⟨0, fun _ => 0, fun _ _ => 0⟩) rfl
    (by simp only [List.mem_cons, List.not_mem_nil, or_false]; rintro row (rfl | rfl) kw hkw <;> simp at hkw <;> rcases hkw with rfl | rfl <;> simp)
  rw [h1]
  congr 1
  apply List.ext_getElem?
  intro i
  rcases i with _ | _ | i
  · rw [h3 0 _ rfl]; simp
  · rw [h3 1 _ rfl]; simp [sumsOf]
  · rw [List.getElem?_eq_none (by omega), List.getElem?_eq_none (by simp)]

end Verif.Smooth
