import Verif.Ineq.Model
import Mathlib.Analysis.Calculus.LHopital
import Mathlib.Analysis.Polynomial.Basic
import Mathlib.Analysis.Calculus.Deriv.Polynomial

/-!
# C121: the value of a rational function at a point and at infinity is its limit there

Specification: Mathlib's limits of `p(y) / q(y)` for the polynomials `p`, `q` with the given coefficients.  The tests
against `epsilon` are taken to be exact: a tested quantity is zero or at least `epsilon` (`Sharp`).
-/

namespace Verif.Ineq

open Polynomial Verif.Poly Filter Topology

/-- a quantity the `epsilon` test classifies correctly -/
def Sharp (eps a : ℝ) : Prop := a = 0 ∨ eps ≤ |a|

theorem Sharp.lt {eps a : ℝ} (he : 0 < eps) (h : Sharp eps a) : |a| < eps ↔ a = 0 := by
  rcases h with h | h
  · simp [h, he]
  · constructor
    · intro g; linarith
    · intro g; simpa [g] using he

/-- the values of `p` and all its derivatives at `x` are classified correctly -/
def SharpAt (eps : ℝ) (p : ℝ[X]) (x : ℝ) : Prop := ∀ k, Sharp eps ((Polynomial.derivative^[k] p).eval x)

theorem poly_derivative (P : Buf ℝ) (n : ℕ) :
    poly (Verif.Poly.derivative P (n + 1) fun _ => 0) n = Polynomial.derivative (poly P (n + 1)) :=
  (C36_derivative P (fun _ => 0) (n + 1) (by omega)).1

theorem SharpAt.derivative {eps : ℝ} {p : ℝ[X]} {x : ℝ} (h : SharpAt eps p x) : SharpAt eps (Polynomial.derivative p) x := by
  intro k
  have := h (k + 1)
  rwa [Function.iterate_succ_apply] at this

theorem poly_zero_eval (P : Buf ℝ) (x : ℝ) : (poly P 0).eval x = P 0 := by
  simp [eval_poly]

/-- a polynomial with a zero somewhere and zero derivative is zero -/
theorem derivative_ne_zero {p : ℝ[X]} {x : ℝ} (hp : p ≠ 0) (hx : p.eval x = 0) : Polynomial.derivative p ≠ 0 := by
  intro h
  obtain ⟨a, rfl⟩ : ∃ a, p = C a := ⟨_, Polynomial.eq_C_of_derivative_eq_zero h⟩
  simp at hx
  exact hp (by simp [hx])

theorem eventually_ne {p : ℝ[X]} (hp : p ≠ 0) (x : ℝ) : ∀ᶠ y in 𝓝[≠] x, p.eval y ≠ 0 := by
  have hf : (p.rootSet ℝ).Finite := p.rootSet_finite ℝ
  have : ∀ᶠ y in 𝓝[≠] x, y ∉ (p.rootSet ℝ) \ {x} := by
    have hc : IsClosed ((p.rootSet ℝ) \ {x}) := (hf.subset Set.diff_subset).isClosed
    exact nhdsWithin_le_nhds (hc.isOpen_compl.mem_nhds (show x ∈ ((p.rootSet ℝ) \ {x})ᶜ by simp))
  filter_upwards [this, self_mem_nhdsWithin] with y hy hyx h0
  refine hy ⟨?_, hyx⟩
  rw [mem_rootSet]
  exact ⟨hp, by simpa using h0⟩

theorem cts (p : ℝ[X]) (x : ℝ) : Tendsto (fun y => p.eval y) (𝓝 x) (𝓝 (p.eval x)) :=
  (Polynomial.differentiable p).continuous.tendsto x

theorem rational_limit {eps : ℝ} (he : 0 < eps) : ∀ (n : ℕ) (P Q : Buf ℝ) (x v : ℝ), SharpAt eps (poly P n) x →
    SharpAt eps (poly Q n) x → poly Q n ≠ 0 → evalRational eps n P Q x = some v →
    Tendsto (fun y => (poly P n).eval y / (poly Q n).eval y) (𝓝[≠] x) (𝓝 v) := by
  have cont : ∀ (p q : ℝ[X]) (x : ℝ), q.eval x ≠ 0 →
      Tendsto (fun y => p.eval y / q.eval y) (𝓝[≠] x) (𝓝 (p.eval x / q.eval x)) := by
    intro p q x hq
    exact ((cts p x).div (cts q x) hq).mono_left nhdsWithin_le_nhds
  intro n
  induction n with
  | zero =>
    intro P Q x v hP hQ hne h
    unfold evalRational at h
    simp only [C36_evaluate] at h
    by_cases hq : |(poly Q 0).eval x| < eps
    · rw [if_pos hq] at h; exact absurd h (by simp)
    · rw [if_neg hq] at h
      obtain rfl := Option.some.inj h
      exact cont _ _ _ fun h0 => hq (by simpa [h0] using he)
  | succ n ih =>
    intro P Q x v hP hQ hne h
    unfold evalRational at h
    simp only [C36_evaluate] at h
    have hQ0 := hQ 0
    have hP0 := hP 0
    simp only [Function.iterate_zero, id] at hQ0 hP0
    by_cases hq : |(poly Q (n + 1)).eval x| < eps
    · rw [if_pos hq] at h
      have hq0 := (hQ0.lt he).1 hq
      by_cases hp : |(poly P (n + 1)).eval x| < eps
      · rw [if_pos hp] at h
        have hp0 := (hP0.lt he).1 hp
        have hd := derivative_ne_zero hne hq0
        have := ih _ _ x v (by rw [poly_derivative]; exact hP.derivative) (by rw [poly_derivative]; exact hQ.derivative)
          (by rw [poly_derivative]; exact hd) h
        rw [poly_derivative, poly_derivative] at this
        refine HasDerivAt.lhopital_zero_nhdsNE (f' := fun y => (Polynomial.derivative (poly P (n + 1))).eval y)
          (g' := fun y => (Polynomial.derivative (poly Q (n + 1))).eval y) ?_ ?_ (eventually_ne hd x) ?_ ?_ this
        · exact Eventually.of_forall fun y => Polynomial.hasDerivAt _ y
        · exact Eventually.of_forall fun y => Polynomial.hasDerivAt _ y
        · rw [← hp0]; exact (cts _ x).mono_left nhdsWithin_le_nhds
        · rw [← hq0]; exact (cts _ x).mono_left nhdsWithin_le_nhds
      · rw [if_neg hp] at h; exact absurd h (by simp)
    · rw [if_neg hq] at h
      obtain rfl := Option.some.inj h
      exact cont _ _ _ fun h0 => hq (by simpa [h0] using he)

/-- when the value is NaN, the reciprocal has value 0 -/
theorem rational_swap {eps : ℝ} (he : 0 < eps) : ∀ (n : ℕ) (P Q : Buf ℝ) (x : ℝ), SharpAt eps (poly P n) x →
    SharpAt eps (poly Q n) x → poly Q n ≠ 0 → evalRational eps n P Q x = none →
    evalRational eps n Q P x = some 0 ∧ poly P n ≠ 0 := by
  intro n
  induction n with
  | zero =>
    intro P Q x hP hQ hne h
    unfold evalRational at h
    simp only [C36_evaluate] at h
    have hQ0 := hQ 0
    simp only [Function.iterate_zero, id] at hQ0
    by_cases hq : |(poly Q 0).eval x| < eps
    · have hq0 := (hQ0.lt he).1 hq
      exfalso
      apply hne
      rw [poly_zero_eval] at hq0
      ext j
      rw [coeff_poly]
      split
      · rename_i hj; obtain rfl : j = 0 := by omega
        simp [hq0]
      · simp
    · rw [if_neg hq] at h; exact absurd h (by simp)
  | succ n ih =>
    intro P Q x hP hQ hne h
    unfold evalRational at h ⊢
    simp only [C36_evaluate] at h ⊢
    have hQ0 := hQ 0
    have hP0 := hP 0
    simp only [Function.iterate_zero, id] at hQ0 hP0
    by_cases hq : |(poly Q (n + 1)).eval x| < eps
    · have hq0 := (hQ0.lt he).1 hq
      rw [if_pos hq] at h
      by_cases hp : |(poly P (n + 1)).eval x| < eps
      · rw [if_pos hp] at h
        have hd := derivative_ne_zero hne hq0
        obtain ⟨h1, h2⟩ := ih _ _ x (by rw [poly_derivative]; exact hP.derivative)
          (by rw [poly_derivative]; exact hQ.derivative) (by rw [poly_derivative]; exact hd) h
        rw [if_pos hp, if_pos hq]
        refine ⟨h1, fun h0 => h2 ?_⟩
        rw [poly_derivative, h0]; simp
      · rw [if_neg hp, hq0]
        exact ⟨by simp, fun h0 => hp (by simpa [h0] using he)⟩
    · rw [if_neg hq] at h; exact absurd h (by simp)

/-- C121: at any point `x`, `evaluate_rational` returns `v` exactly when `P/Q` tends to `v` at `x` (through points other
than `x`): a removable singularity is resolved by the derivatives and a pole gives NaN. -/
theorem C121_evaluate_rational (eps : ℝ) (he : 0 < eps) (n : ℕ) (P Q : Buf ℝ) (x v : ℝ)
    (hP : SharpAt eps (poly P n) x) (hQ : SharpAt eps (poly Q n) x) (hne : poly Q n ≠ 0) :
    evalRational eps n P Q x = some v ↔
      Tendsto (fun y => (poly P n).eval y / (poly Q n).eval y) (𝓝[≠] x) (𝓝 v) := by
  refine ⟨rational_limit he n P Q x v hP hQ hne, fun ht => ?_⟩
  cases h : evalRational eps n P Q x with
  | some w =>
    have := tendsto_nhds_unique ht (rational_limit he n P Q x w hP hQ hne h)
    rw [this]
  | none =>
    exfalso
    obtain ⟨h1, h2⟩ := rational_swap he n P Q x hP hQ hne h
    have h3 := rational_limit he n Q P x 0 hQ hP h2 h1
    have h4 := ht.mul h3
    have h5 : (fun y => (poly P n).eval y / (poly Q n).eval y * ((poly Q n).eval y / (poly P n).eval y)) =ᶠ[𝓝[≠] x] fun _ => 1 := by
      filter_upwards [eventually_ne hne x, eventually_ne h2 x] with y hy hz
      field_simp
    have h6 := tendsto_nhds_unique h4 ((tendsto_const_nhds).congr' h5.symm)
    simp at h6

/-! ### At infinity -/

/-- C121: with a zero denominator polynomial (and any numerator) the result is NaN -/
theorem C121_zero_denominator (eps : ℝ) (he : 0 < eps) (n : ℕ) (P Q : Buf ℝ) (x : ℝ) (hQ : poly Q n = 0) :
    evalRational eps n P Q x = none := by
  induction n generalizing P Q with
  | zero =>
    unfold evalRational
    simp only [C36_evaluate, hQ]
    simp [he]
  | succ n ih =>
    unfold evalRational
    simp only [C36_evaluate, hQ]
    simp only [eval_zero, abs_zero, he, if_true]
    split
    · exact ih _ _ (by rw [poly_derivative, hQ]; simp)
    · rfl

theorem inf_limit {n : ℕ} (P Q : Buf ℝ) (hQ : Q n ≠ 0) :
    Tendsto (fun y => (poly P n).eval y / (poly Q n).eval y) atTop (𝓝 (P n / Q n)) := by
  have hd : ∀ R : Buf ℝ, R n ≠ 0 → (poly R n).degree = n := by
    intro R hR
    apply le_antisymm
    · refine Polynomial.degree_le_iff_coeff_zero _ _ |>.2 fun m hm => ?_
      rw [coeff_poly, if_neg (by have := Nat.cast_lt.1 hm; omega)]
    · exact le_degree_of_ne_zero (by rw [coeff_poly, if_pos le_rfl]; exact hR)
  have hl : ∀ R : Buf ℝ, R n ≠ 0 → (poly R n).leadingCoeff = R n := by
    intro R hR
    rw [leadingCoeff, natDegree_eq_of_degree_eq_some (hd R hR), coeff_poly, if_pos le_rfl]
  by_cases hP : P n = 0
  · rw [hP, zero_div]
    apply Polynomial.div_tendsto_zero_of_degree_lt
    rw [hd Q hQ, Polynomial.degree_lt_iff_coeff_zero]
    intro m hm
    rw [coeff_poly]
    split
    · obtain rfl : m = n := by omega
      exact hP
    · rfl
  · have := Polynomial.div_tendsto_leadingCoeff_div_of_degree_eq (poly P n) (poly Q n) (by rw [hd P hP, hd Q hQ])
    rwa [hl P hP, hl Q hQ] at this

theorem poly_drop {P : Buf ℝ} {n : ℕ} (h : P (n + 1) = 0) : poly P (n + 1) = poly P n := by
  ext j
  rw [coeff_poly, coeff_poly]
  by_cases h1 : j ≤ n
  · rw [if_pos h1, if_pos (by omega)]
  · rw [if_neg h1]
    split
    · obtain rfl : j = n + 1 := by omega
      exact h
    · rfl

theorem inf_some {eps : ℝ} (he : 0 < eps) : ∀ (n : ℕ) (P Q : Buf ℝ) (v : ℝ), (∀ i, Sharp eps (P i)) → (∀ i, Sharp eps (Q i)) →
    evalInf eps n P Q = some v → Tendsto (fun y => (poly P n).eval y / (poly Q n).eval y) atTop (𝓝 v) := by
  intro n
  induction n with
  | zero =>
    intro P Q v hP hQ h
    unfold evalInf at h
    simp only [(hQ _).lt he] at h
    by_cases hq : Q 0 = 0
    · rw [if_pos hq] at h; exact absurd h (by simp)
    · rw [if_neg hq] at h
      obtain rfl := Option.some.inj h
      exact inf_limit P Q hq
  | succ n ih =>
    intro P Q v hP hQ h
    unfold evalInf at h
    simp only [(hQ _).lt he, (hP _).lt he] at h
    by_cases hq : Q (n + 1) = 0
    · rw [if_pos hq] at h
      by_cases hp : P (n + 1) = 0
      · rw [if_pos hp] at h
        rw [poly_drop hp, poly_drop hq]
        exact ih P Q v hP hQ h
      · rw [if_neg hp] at h; exact absurd h (by simp)
    · rw [if_neg hq] at h
      obtain rfl := Option.some.inj h
      exact inf_limit P Q hq

theorem inf_swap {eps : ℝ} (he : 0 < eps) : ∀ (n : ℕ) (P Q : Buf ℝ), (∀ i, Sharp eps (P i)) → (∀ i, Sharp eps (Q i)) →
    poly Q n ≠ 0 → evalInf eps n P Q = none → evalInf eps n Q P = some 0 ∧ poly P n ≠ 0 := by
  intro n
  induction n with
  | zero =>
    intro P Q hP hQ hne h
    unfold evalInf at h
    simp only [(hQ _).lt he] at h
    by_cases hq : Q 0 = 0
    · exfalso
      apply hne
      ext j
      rw [coeff_poly]
      split
      · rename_i hj; obtain rfl : j = 0 := by omega
        simp [hq]
      · simp
    · rw [if_neg hq] at h; exact absurd h (by simp)
  | succ n ih =>
    intro P Q hP hQ hne h
    unfold evalInf at h ⊢
    simp only [(hQ _).lt he, (hP _).lt he] at h ⊢
    by_cases hq : Q (n + 1) = 0
    · rw [if_pos hq] at h
      by_cases hp : P (n + 1) = 0
      · rw [if_pos hp] at h
        rw [if_pos hp, if_pos hq, poly_drop hp]
        exact ih P Q hP hQ (by rwa [← poly_drop hq]) h
      · rw [if_neg hp, hq]
        refine ⟨by simp, fun h0 => hp ?_⟩
        have := coeff_poly P (n + 1) (n + 1)
        rw [h0, if_pos le_rfl] at this
        simpa using this.symm
    · rw [if_neg hq] at h; exact absurd h (by simp)

theorem eventually_ne_top {p : ℝ[X]} (hp : p ≠ 0) : ∀ᶠ y in atTop, p.eval y ≠ 0 := by
  have hf : (p.rootSet ℝ).Finite := p.rootSet_finite ℝ
  obtain ⟨b, hb⟩ := hf.bddAbove
  filter_upwards [eventually_gt_atTop b] with y hy h0
  have : y ∈ p.rootSet ℝ := by rw [mem_rootSet]; exact ⟨hp, by simpa using h0⟩
  exact absurd (hb this) (not_le.2 hy)

/-- C121: `evaluate_rational_infinity` returns `v` exactly when `P(y)/Q(y)` tends to `v` as `y` grows. -/
theorem C121_evaluate_rational_infinity (eps : ℝ) (he : 0 < eps) (n : ℕ) (P Q : Buf ℝ) (v : ℝ)
    (hP : ∀ i, Sharp eps (P i)) (hQ : ∀ i, Sharp eps (Q i)) (hne : poly Q n ≠ 0) :
    evalInf eps n P Q = some v ↔ Tendsto (fun y => (poly P n).eval y / (poly Q n).eval y) atTop (𝓝 v) := by
  refine ⟨inf_some he n P Q v hP hQ, fun ht => ?_⟩
  cases h : evalInf eps n P Q with
  | some w => rw [tendsto_nhds_unique ht (inf_some he n P Q w hP hQ h)]
  | none =>
    exfalso
    obtain ⟨h1, h2⟩ := inf_swap he n P Q hP hQ hne h
    have h4 := ht.mul (inf_some he n Q P 0 hQ hP h1)
    have h5 : (fun y => (poly P n).eval y / (poly Q n).eval y * ((poly Q n).eval y / (poly P n).eval y)) =ᶠ[atTop] fun _ => 1 := by
      filter_upwards [eventually_ne_top hne, eventually_ne_top h2] with y hy hz
      field_simp
    have h6 := tendsto_nhds_unique h4 ((tendsto_const_nhds).congr' h5.symm)
    simp at h6

/-! ### Concrete case: `(x² - 1) / (x - 1)` at 1, and at infinity of `(2x² + 1) / (x² - 3)` -/

theorem sharp_int (k : ℤ) : Sharp (1 / 2) (k : ℝ) := by
  by_cases h : k = 0
  · left; simp [h]
  · right
    have h1 : (1 : ℝ) ≤ |(k : ℝ)| := by rw [← Int.cast_abs]; exact_mod_cast Int.one_le_abs h
    linarith

theorem sharpAt_int (a : List ℤ) (n : ℕ) (x : ℤ) :
    SharpAt (1 / 2) (poly (fun i => ((a.getD i 0 : ℤ) : ℝ)) n) x := by
  intro k
  have e : poly (fun i => ((a.getD i 0 : ℤ) : ℝ)) n = (poly (fun i => a.getD i 0) n).map (Int.castRingHom ℝ) := by
    ext j; rw [coeff_map, coeff_poly, coeff_poly]; split <;> simp
  rw [e, Polynomial.iterate_derivative_map]
  have : ((x : ℤ) : ℝ) = Int.castRingHom ℝ x := by simp
  rw [this, Polynomial.eval_map_apply]
  exact sharp_int _

example : evalRational (1 / 2) 2 (fun i => ((([-1, 0, 1] : List ℤ).getD i 0 : ℤ) : ℝ))
    (fun i => ((([-1, 1, 0] : List ℤ).getD i 0 : ℤ) : ℝ)) (1 : ℤ) = some 2 := by
  have hq : poly (fun i => ((([-1, 1, 0] : List ℤ).getD i 0 : ℤ) : ℝ)) 2 ≠ 0 := by
    intro h
    have := coeff_poly (fun i => ((([-1, 1, 0] : List ℤ).getD i 0 : ℤ) : ℝ)) 2 0
    rw [h] at this
    norm_num at this
  rw [C121_evaluate_rational (1 / 2) (by norm_num) 2 _ _ _ 2 (sharpAt_int _ _ _) (sharpAt_int _ _ _) hq]
  have : Tendsto (fun y : ℝ => y + 1) (𝓝[≠] (1 : ℝ)) (𝓝 (1 + 1)) :=
    ((continuous_id.add continuous_const).tendsto 1).mono_left nhdsWithin_le_nhds
  norm_num at this
  refine Tendsto.congr' ?_ (by simpa using this)
  filter_upwards [self_mem_nhdsWithin] with y hy
  have hy' : y - 1 ≠ 0 := sub_ne_zero.2 (by simpa using hy)
  rw [Roots.eval2, Roots.eval2]
  simp only [List.getD_cons_zero, List.getD_cons_succ]
  push_cast
  rw [eq_div_iff (by intro h; apply hy'; linarith)]
  ring

example : evalInf (1 / 2) 2 (fun i => ((([1, 0, 2] : List ℤ).getD i 0 : ℤ) : ℝ))
    (fun i => ((([-3, 0, 1] : List ℤ).getD i 0 : ℤ) : ℝ)) = some 2 := by
  simp [evalInf]
  norm_num

end Verif.Ineq
