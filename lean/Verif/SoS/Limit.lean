import Verif.SoS.Model
import Verif.SoS.Spec
import Mathlib.Topology.Instances.Real.Lemmas
import Mathlib.Tactic.FieldSimp
import Mathlib.Tactic.Linarith
import Mathlib.Tactic.Ring
import Mathlib.Tactic.LinearCombination
import Mathlib.Tactic.FinCases

/-! Signs of sparse polynomials near `0+`, and expansion of the perturbed determinants. -/

namespace Verif.SoS
open Spec
open Num (det2 det3 det4)

theorem small_mono {P Q : ℝ → Prop} (h : ∀ ε, 0 < ε → P ε → Q ε) (hp : Small P) : Small Q := by
  obtain ⟨e, h0, h1⟩ := hp
  exact ⟨e, h0, fun ε ha hb => h ε ha (h1 ε ha hb)⟩

theorem small_and {P Q : ℝ → Prop} (hp : Small P) (hq : Small Q) : Small (fun ε => P ε ∧ Q ε) := by
  obtain ⟨e, h0, h1⟩ := hp
  obtain ⟨e', h0', h1'⟩ := hq
  exact ⟨min e e', lt_min h0 h0', fun ε ha hb =>
    ⟨h1 ε ha (lt_of_lt_of_le hb (min_le_left _ _)), h1' ε ha (lt_of_lt_of_le hb (min_le_right _ _))⟩⟩

theorem small_exists {P : ℝ → Prop} (hp : Small P) : ∃ ε, 0 < ε ∧ P ε := by
  obtain ⟨e, h0, h1⟩ := hp
  exact ⟨e / 2, by linarith, h1 _ (by linarith) (by linarith)⟩

theorem small_const {P : Prop} (h : P) : Small (fun _ => P) := ⟨1, one_pos, fun _ _ _ => h⟩

theorem small_all {ι : Type} [Fintype ι] {P : ι → ℝ → Prop} (h : ∀ i, Small (P i)) :
    Small (fun ε => ∀ i, P i ε) := by
  classical
  have gen : ∀ s : Finset ι, Small (fun ε => ∀ i ∈ s, P i ε) := by
    intro s
    induction s using Finset.induction_on with
    | empty => exact small_mono (fun _ _ _ => by simp) (small_const trivial)
    | insert a s _ ih =>
      refine small_mono ?_ (small_and (h a) ih)
      rintro ε _ ⟨h1, h2⟩ i hi
      rcases Finset.mem_insert.1 hi with rfl | hi
      · exact h1
      · exact h2 i hi
  exact small_mono (fun ε _ h i => h i (Finset.mem_univ i)) (gen Finset.univ)

theorem small_pos_of_cont {g : ℝ → ℝ} (hg : Continuous g) (h : 0 < g 0) : Small (fun ε => 0 < g ε) := by
  obtain ⟨δ, hδ, H⟩ := Metric.continuous_iff.1 hg 0 (g 0) h
  refine ⟨δ, hδ, fun ε h0 h1 => ?_⟩
  have := H ε (by rw [Real.dist_eq]; simpa [abs_of_pos h0] using h1)
  rw [Real.dist_eq] at this
  have := (abs_lt.1 this).1
  linarith

theorem isSign_unique {s t : ℤ} {r : ℝ} (h : IsSign s r) (h' : IsSign t r) : s = t := by
  rcases h with ⟨rfl, h⟩ | ⟨rfl, h⟩ <;> rcases h' with ⟨rfl, h'⟩ | ⟨rfl, h'⟩
  · rfl
  · linarith
  · linarith
  · rfl

theorem isSign_mul_pos {s : ℤ} {a b : ℝ} (h : IsSign s a) (hb : 0 < b) : IsSign s (b * a) := by
  rcases h with ⟨rfl, h⟩ | ⟨rfl, h⟩
  · exact Or.inl ⟨rfl, mul_pos hb h⟩
  · exact Or.inr ⟨rfl, mul_neg_of_pos_of_neg hb h⟩

theorem isSign_neg {s : ℤ} {a : ℝ} (h : IsSign s a) : IsSign (-s) (-a) := by
  rcases h with ⟨rfl, h⟩ | ⟨rfl, h⟩
  · exact Or.inr ⟨rfl, by linarith⟩
  · exact Or.inl ⟨rfl, by linarith⟩

theorem isSign_ne_zero {s : ℤ} {a : ℝ} (h : IsSign s a) : s ≠ 0 := by
  rcases h with ⟨rfl, _⟩ | ⟨rfl, _⟩ <;> decide

theorem isSign_iff_eq {s t : ℤ} {a b : ℝ} (h : IsSign s a) (h' : IsSign t b) : s = t ↔ 0 < a * b := by
  rcases h with ⟨rfl, h⟩ | ⟨rfl, h⟩ <;> rcases h' with ⟨rfl, h'⟩ | ⟨rfl, h'⟩
  · simp [mul_pos h h']
  · have := mul_neg_of_pos_of_neg h h'
    constructor
    · intro h; exact absurd h (by decide)
    · intro h; linarith
  · have := mul_neg_of_neg_of_pos h h'
    constructor
    · intro h; exact absurd h (by decide)
    · intro h; linarith
  · simp [mul_pos_of_neg_of_neg h h']

theorem small_isSign_cont {g : ℝ → ℝ} (hg : Continuous g) {s : ℤ} (h : IsSign s (g 0)) :
    Small (fun ε => IsSign s (g ε)) := by
  rcases h with ⟨rfl, h⟩ | ⟨rfl, h⟩
  · exact small_mono (fun _ _ h => Or.inl ⟨rfl, h⟩) (small_pos_of_cont hg h)
  · have := small_pos_of_cont (g := fun x => - g x) hg.neg (by simpa using h)
    exact small_mono (fun _ _ h => Or.inr ⟨rfl, by linarith⟩) this

/-- `∑ c·ε^n` over the list. -/
noncomputable def spSum : List (ℝ × ℕ) → ℝ → ℝ
  | [], _ => 0
  | c :: L, ε => c.1 * ε ^ c.2 + spSum L ε

/-- exponents increase strictly and stay below `N`. -/
def Incr : List (ℝ × ℕ) → ℕ → ℕ → Prop
  | [], n, N => n ≤ N
  | c :: L, n, N => n ≤ c.2 ∧ Incr L (c.2 + 1) N

/-- the first non-zero coefficient has sign `s`. -/
def Lead (s : ℤ) : List (ℝ × ℕ) → Prop
  | [] => False
  | c :: L => IsSign s c.1 ∨ (c.1 = 0 ∧ Lead s L)

theorem factor : ∀ (L : List (ℝ × ℕ)) (n N : ℕ) (Q : ℝ → ℝ), Continuous Q → Incr L n N →
    ∃ R : ℝ → ℝ, Continuous R ∧ ∀ ε, spSum L ε + ε ^ N * Q ε = ε ^ n * R ε := by
  intro L
  induction L with
  | nil =>
    intro n N Q hQ h
    refine ⟨fun ε => ε ^ (N - n) * Q ε, by fun_prop, fun ε => ?_⟩
    simp only [spSum, zero_add]
    rw [← mul_assoc, ← pow_add, Nat.add_sub_cancel' h]
  | cons c L ih =>
    intro n N Q hQ h
    obtain ⟨R, hR, h'⟩ := ih (c.2 + 1) N Q hQ h.2
    refine ⟨fun ε => ε ^ (c.2 - n) * (c.1 + ε * R ε), by fun_prop, fun ε => ?_⟩
    simp only [spSum]
    rw [add_assoc, h', ← mul_assoc (ε ^ n), ← pow_add, Nat.add_sub_cancel' h.1]
    ring

theorem lead_sign : ∀ (L : List (ℝ × ℕ)) (n N : ℕ) (Q : ℝ → ℝ) (s : ℤ), Continuous Q → Incr L n N →
    Lead s L → Small (fun ε => IsSign s (spSum L ε + ε ^ N * Q ε)) := by
  intro L
  induction L with
  | nil => intro n N Q s _ _ h; exact h.elim
  | cons c L ih =>
    intro n N Q s hQ hi hl
    rcases hl with h | ⟨h0, h⟩
    · obtain ⟨R, hR, h'⟩ := factor L (c.2 + 1) N Q hQ hi.2
      have hc : Continuous (fun ε => c.1 + ε * R ε) := by fun_prop
      refine small_mono ?_ (small_isSign_cont hc (s := s) (by simpa using h))
      intro ε he hs
      simp only [spSum]
      rw [add_assoc, h', show c.1 * ε ^ c.2 + ε ^ (c.2 + 1) * R ε = ε ^ c.2 * (c.1 + ε * R ε) by ring]
      exact isSign_mul_pos hs (pow_pos he _)
    · refine small_mono ?_ (ih (c.2 + 1) N Q s hQ hi.2 h)
      intro ε _ hs
      simpa only [spSum, h0, zero_mul, zero_add] using hs

theorem sign_zero {a : ℤ} (h : sign a = 0) : a = 0 := by
  unfold sign at h
  split at h <;> split at h <;> omega

theorem sign_isSign {a : ℤ} (h : sign a ≠ 0) : IsSign (sign a) (a : ℝ) := by
  unfold sign at h ⊢
  by_cases h1 : 0 < a
  · refine Or.inl ⟨?_, by exact_mod_cast h1⟩
    rw [if_pos h1, if_neg (by omega)]; rfl
  · by_cases h2 : a < 0
    · refine Or.inr ⟨?_, by exact_mod_cast h2⟩
      rw [if_neg h1, if_pos h2]; rfl
    · rw [if_neg h1, if_neg h2] at h; exact absurd rfl h

theorem lead_cons {a : ℤ} {c : ℝ} {n : ℕ} {rest : List ℤ} {L : List (ℝ × ℕ)} (hc : c = (a : ℝ))
    (h : a = 0 → Lead (firstNonzero rest) L) : Lead (firstNonzero (sign a :: rest)) ((c, n) :: L) := by
  unfold firstNonzero
  split
  · rename_i hs
    left
    show IsSign _ c
    rw [hc]; exact sign_isSign hs
  · rename_i hs
    have := sign_zero (not_not.1 hs)
    exact Or.inr ⟨by simp [hc, this], h this⟩

theorem lead_cons_neg {a : ℤ} {c : ℝ} {n : ℕ} {rest : List ℤ} {L : List (ℝ × ℕ)} (hc : c = -(a : ℝ))
    (h : a = 0 → Lead (firstNonzero rest) L) : Lead (firstNonzero (-sign a :: rest)) ((c, n) :: L) := by
  unfold firstNonzero
  split
  · rename_i hs
    left
    show IsSign _ c
    rw [hc]; exact isSign_neg (sign_isSign (fun h => hs (by rw [h]; rfl)))
  · rename_i hs
    have := sign_zero (a := a) (by have := not_not.1 hs; omega)
    exact Or.inr ⟨by simp [hc, this], h this⟩

theorem lead_zero {c : ℝ} {n : ℕ} {s : ℤ} {L : List (ℝ × ℕ)} (hc : c = 0)
    (h : Lead s L) : Lead s ((c, n) :: L) := Or.inr ⟨hc, h⟩

theorem lead_one {n : ℕ} : Lead (firstNonzero [1]) [((1 : ℝ), n)] := Or.inl (Or.inl ⟨rfl, one_pos⟩)

theorem orient1 (P : Fin 2 → Fin 1 → ℝ) : orient P = P 0 0 - P 1 0 := by
  unfold orient
  rw [Matrix.det_succ_row_zero]
  simp [Fin.sum_univ_succ, Fin.snoc, Fin.succAbove, Matrix.det_unique, Matrix.submatrix]
  ring

theorem orient2 (P : Fin 3 → Fin 2 → ℝ) : orient P =
    P 0 0 * (P 1 1 - P 2 1) - P 0 1 * (P 1 0 - P 2 0) + (P 1 0 * P 2 1 - P 1 1 * P 2 0) := by
  unfold orient
  rw [Matrix.det_fin_three]
  simp [Fin.snoc]
  ring

theorem orient3 (P : Fin 4 → Fin 3 → ℝ) : orient P =
    P 0 0 * (P 1 1 * (P 2 2 - P 3 2) - P 1 2 * (P 2 1 - P 3 1) + (P 2 1 * P 3 2 - P 2 2 * P 3 1))
    - P 0 1 * (P 1 0 * (P 2 2 - P 3 2) - P 1 2 * (P 2 0 - P 3 0) + (P 2 0 * P 3 2 - P 2 2 * P 3 0))
    + P 0 2 * (P 1 0 * (P 2 1 - P 3 1) - P 1 1 * (P 2 0 - P 3 0) + (P 2 0 * P 3 1 - P 2 1 * P 3 0))
    - (P 1 0 * (P 2 1 * P 3 2 - P 2 2 * P 3 1) - P 1 1 * (P 2 0 * P 3 2 - P 2 2 * P 3 0)
       + P 1 2 * (P 2 0 * P 3 1 - P 2 1 * P 3 0)) := by
  unfold orient
  rw [Matrix.det_succ_row_zero]
  have h2 : ∀ h, Fin.castPred (2 : Fin 4) h = (2 : Fin 3) := fun _ => rfl
  simp [Fin.sum_univ_succ, Matrix.det_fin_three, Fin.snoc, Fin.succAbove, Matrix.submatrix, h2]
  ring

/-- exponents of the perturbation of vertex `v`, `d = 2` -/
theorem exps {d : ℕ} {lo v w : ℤ} (h : lo ≤ v) (hvw : v < w) :
    2 ^ d * 2 ^ (d * (v - lo).toNat) ≤ 2 ^ (d * (w - lo).toNat) := by
  rw [← pow_add]
  refine Nat.pow_le_pow_right (by norm_num) ?_
  have : (v - lo).toNat + 1 ≤ (w - lo).toNat := by omega
  calc d + d * (v - lo).toNat = d * ((v - lo).toNat + 1) := by ring
    _ ≤ _ := Nat.mul_le_mul_left _ this

theorem simplex1_eq (lo : ℤ) (v : Fin 2 → ℤ) (X : Fin 2 → Fin 1 → ℤ) (ε : ℝ) (i : Fin 2) :
    simplex lo v X ε i 0 = X i 0 + ε ^ (2 ^ ((v i - lo).toNat)) := by
  simp [simplex, pt]

theorem simplex2_eq0 (lo : ℤ) (v : Fin 3 → ℤ) (X : Fin 3 → Fin 2 → ℤ) (ε : ℝ) (i : Fin 3) :
    simplex lo v X ε i 0 = X i 0 + ε ^ (2 * 2 ^ (2 * (v i - lo).toNat)) := by
  simp [simplex, pt, pow_succ, mul_comm]

theorem simplex2_eq1 (lo : ℤ) (v : Fin 3 → ℤ) (X : Fin 3 → Fin 2 → ℤ) (ε : ℝ) (i : Fin 3) :
    simplex lo v X ε i 1 = X i 1 + ε ^ (2 ^ (2 * (v i - lo).toNat)) := by
  simp [simplex, pt]

theorem simplex3_eq0 (lo : ℤ) (v : Fin 4 → ℤ) (X : Fin 4 → Fin 3 → ℤ) (ε : ℝ) (i : Fin 4) :
    simplex lo v X ε i 0 = X i 0 + ε ^ (4 * 2 ^ (3 * (v i - lo).toNat)) := by
  simp [simplex, pt, pow_add, mul_comm]

theorem simplex3_eq1 (lo : ℤ) (v : Fin 4 → ℤ) (X : Fin 4 → Fin 3 → ℤ) (ε : ℝ) (i : Fin 4) :
    simplex lo v X ε i 1 = X i 1 + ε ^ (2 * 2 ^ (3 * (v i - lo).toNat)) := by
  simp [simplex, pt, pow_succ, mul_comm]

theorem simplex3_eq2 (lo : ℤ) (v : Fin 4 → ℤ) (X : Fin 4 → Fin 3 → ℤ) (ε : ℝ) (i : Fin 4) :
    simplex lo v X ε i 2 = X i 2 + ε ^ (2 ^ (3 * (v i - lo).toNat)) := by
  simp [simplex, pt]

theorem isSign_congr {s : ℤ} {a b : ℝ} (h : a = b) (hs : IsSign s a) : IsSign s b := h ▸ hs

theorem sorted1 (lo : ℤ) (v : Fin 2 → ℤ) (X : Fin 2 → Fin 1 → ℤ) (hlo : ∀ i, lo ≤ v i)
    (h01 : v 0 < v 1) :
    Small (fun ε => IsSign (robustSignDet2 (fun i => X i 0)) (orient (simplex lo v X ε))) := by
  have h1 := exps (d := 1) (hlo 0) h01
  simp only [one_mul] at h1
  have hp : 0 < 2 ^ (v 0 - lo).toNat := by positivity
  simp only [orient1, simplex1_eq]
  revert h1 hp
  generalize 2 ^ (v 0 - lo).toNat = p
  generalize 2 ^ (v 1 - lo).toNat = q
  intro h1 hp
  have := lead_sign [(((X 0 0 : ℤ) : ℝ) - X 1 0, 0), (1, p)] 0 q (fun _ => -1) (robustSignDet2 fun i => X i 0)
    (by fun_prop) (by simp [Incr]; omega) ?_
  · refine small_mono ?_ this
    intro ε _ hs
    refine isSign_congr ?_ hs
    simp only [spSum]
    ring
  · unfold robustSignDet2
    refine lead_cons (by simp [det2]) fun _ => ?_
    exact lead_one

theorem sorted2 (lo : ℤ) (v : Fin 3 → ℤ) (X : Fin 3 → Fin 2 → ℤ) (hlo : ∀ i, lo ≤ v i)
    (h01 : v 0 < v 1) (h12 : v 1 < v 2) :
    Small (fun ε => IsSign (robustSignDet3 X) (orient (simplex lo v X ε))) := by
  have h1 := exps (d := 2) (hlo 0) h01
  have h2 := exps (d := 2) (hlo 1) h12
  have hp : 0 < 2 ^ (2 * (v 0 - lo).toNat) := by positivity
  simp only [orient2, simplex2_eq0, simplex2_eq1]
  revert h1 h2 hp
  generalize 2 ^ (2 * (v 0 - lo).toNat) = p
  generalize 2 ^ (2 * (v 1 - lo).toNat) = q
  generalize 2 ^ (2 * (v 2 - lo).toNat) = r
  intro h1 h2 hp
  norm_num at h1 h2
  obtain ⟨k, hk⟩ : ∃ k, 2 * q = (q + 2 * p + 1) + k := ⟨2 * q - (q + 2 * p + 1), by omega⟩
  obtain ⟨l, hl⟩ : ∃ l, r = (q + 2 * p + 1) + l := ⟨r - (q + 2 * p + 1), by omega⟩
  generalize ha0 : ((X 0 0 : ℤ) : ℝ) = a0
  generalize ha1 : ((X 0 1 : ℤ) : ℝ) = a1
  generalize hb0 : ((X 1 0 : ℤ) : ℝ) = b0
  generalize hb1 : ((X 1 1 : ℤ) : ℝ) = b1
  generalize hc0 : ((X 2 0 : ℤ) : ℝ) = c0
  generalize hc1 : ((X 2 1 : ℤ) : ℝ) = c1
  have := lead_sign [(a0 * (b1 - c1) - a1 * (b0 - c0) + (b0 * c1 - b1 * c0), 0),
      (-(b0 - c0), p), (b1 - c1, 2 * p), (a0 - c0, q), (1, q + 2 * p)] 0 (q + 2 * p + 1)
    (fun ε => ε ^ k * (-(a1 + ε ^ p - c1))
      + ε ^ l * ((b0 + ε ^ (2 * q)) - (a0 + ε ^ (2 * p)))
      + ε ^ l * ε ^ r * ((a1 + ε ^ p) - (b1 + ε ^ q))) (robustSignDet3 X)
    (by fun_prop) (by simp [Incr]; omega) ?_
  · refine small_mono ?_ this
    intro ε _ hs
    refine isSign_congr ?_ hs
    have e1 : ε ^ (2 * q) = ε ^ (q + 2 * p + 1) * ε ^ k := by rw [hk, pow_add]
    have e2 : ε ^ r = ε ^ (q + 2 * p + 1) * ε ^ l := by rw [hl, pow_add]
    have e3 : ε ^ (2 * r) = ε ^ (q + 2 * p + 1) * (ε ^ l * ε ^ r) := by
      rw [← mul_assoc, ← e2, two_mul, pow_add]
    have e4 : ε ^ (q + 2 * p) = ε ^ q * ε ^ (2 * p) := by rw [pow_add]
    simp only [spSum]
    rw [mul_add (ε ^ (q + 2 * p + 1)), mul_add (ε ^ (q + 2 * p + 1)), ← mul_assoc (ε ^ (q + 2 * p + 1)) (ε ^ k),
      ← mul_assoc (ε ^ (q + 2 * p + 1)) (ε ^ l), ← mul_assoc (ε ^ (q + 2 * p + 1)) (ε ^ l * ε ^ r),
      ← e1, ← e2, ← e3, e4]
    generalize ε ^ p = x1
    generalize ε ^ (2 * p) = x0
    generalize ε ^ q = y1
    generalize ε ^ (2 * q) = y0
    generalize ε ^ r = z1
    generalize ε ^ (2 * r) = z0
    ring
  · subst ha0 ha1 hb0 hb1 hc0 hc1
    unfold robustSignDet3
    refine lead_cons ?_ fun _ => ?_
    · simp [det3]
    refine lead_cons_neg (by simp [det2]) fun _ => ?_
    refine lead_cons (by simp [det2]) fun _ => ?_
    refine lead_cons (by simp [det2]) fun _ => ?_
    exact lead_one

/-- coefficients (exponent, value) of the perturbed 4×4 determinant up to the first constant one -/
def D3 (a0 a1 b0 b1 c0 c1 : ℝ) : ℝ := a0 * (b1 - c1) - a1 * (b0 - c0) + (b0 * c1 - b1 * c0)

theorem sorted3 (lo : ℤ) (v : Fin 4 → ℤ) (X : Fin 4 → Fin 3 → ℤ) (hlo : ∀ i, lo ≤ v i)
    (h01 : v 0 < v 1) (h12 : v 1 < v 2) (h23 : v 2 < v 3) :
    Small (fun ε => IsSign (robustSignDet4 X) (orient (simplex lo v X ε))) := by
  have h1 := exps (d := 3) (hlo 0) h01
  have h2 := exps (d := 3) (hlo 1) h12
  have h3 := exps (d := 3) (hlo 2) h23
  have hp : 0 < 2 ^ (3 * (v 0 - lo).toNat) := by positivity
  simp only [orient3, simplex3_eq0, simplex3_eq1, simplex3_eq2]
  revert h1 h2 h3 hp
  generalize 2 ^ (3 * (v 0 - lo).toNat) = p
  generalize 2 ^ (3 * (v 1 - lo).toNat) = q
  generalize 2 ^ (3 * (v 2 - lo).toNat) = r
  generalize 2 ^ (3 * (v 3 - lo).toNat) = s
  intro h1 h2 h3 hp
  norm_num at h1 h2 h3
  obtain ⟨N, hN⟩ : ∃ N, N = r + 2 * q + 4 * p + 1 := ⟨_, rfl⟩
  obtain ⟨k, hk⟩ : ∃ k, r + 4 * q = N + k := ⟨r + 4 * q - N, by omega⟩
  obtain ⟨l, hl⟩ : ∃ l, 2 * r = N + l := ⟨2 * r - N, by omega⟩
  obtain ⟨m, hm⟩ : ∃ m, s = N + m := ⟨s - N, by omega⟩
  generalize ha0 : ((X 0 0 : ℤ) : ℝ) = a0
  generalize ha1 : ((X 0 1 : ℤ) : ℝ) = a1
  generalize ha2 : ((X 0 2 : ℤ) : ℝ) = a2
  generalize hb0 : ((X 1 0 : ℤ) : ℝ) = b0
  generalize hb1 : ((X 1 1 : ℤ) : ℝ) = b1
  generalize hb2 : ((X 1 2 : ℤ) : ℝ) = b2
  generalize hc0 : ((X 2 0 : ℤ) : ℝ) = c0
  generalize hc1 : ((X 2 1 : ℤ) : ℝ) = c1
  generalize hc2 : ((X 2 2 : ℤ) : ℝ) = c2
  generalize hd0 : ((X 3 0 : ℤ) : ℝ) = d0
  generalize hd1 : ((X 3 1 : ℤ) : ℝ) = d1
  generalize hd2 : ((X 3 2 : ℤ) : ℝ) = d2
  have := lead_sign
    [(a0 * (b1 * (c2 - d2) - b2 * (c1 - d1) + (c1 * d2 - c2 * d1))
      - a1 * (b0 * (c2 - d2) - b2 * (c0 - d0) + (c0 * d2 - c2 * d0))
      + a2 * (b0 * (c1 - d1) - b1 * (c0 - d0) + (c0 * d1 - c1 * d0))
      - (b0 * (c1 * d2 - c2 * d1) - b1 * (c0 * d2 - c2 * d0) + b2 * (c0 * d1 - c1 * d0)), 0),
     (D3 b0 b1 c0 c1 d0 d1, p), (-D3 b0 b2 c0 c2 d0 d2, 2 * p), (D3 b1 b2 c1 c2 d1 d2, 4 * p),
     (-D3 a0 a1 c0 c1 d0 d1, q), (c0 - d0, q + 2 * p), (-(c1 - d1), q + 4 * p),
     (D3 a0 a2 c0 c2 d0 d2, 2 * q), (-(c0 - d0), 2 * q + p), (c2 - d2, 2 * q + 4 * p),
     (-D3 a1 a2 c1 c2 d1 d2, 4 * q), (c1 - d1, 4 * q + p), (-(c2 - d2), 4 * q + 2 * p),
     (D3 a0 a1 b0 b1 d0 d1, r), (-(b0 - d0), r + 2 * p), (b1 - d1, r + 4 * p),
     (a0 - d0, r + 2 * q), (1, r + 2 * q + 4 * p)] 0 N
    (fun ε => ε ^ k * (-(a1 + ε ^ (2 * p) - d1))
      + ε ^ l * (- D3 (a0 + ε ^ (4 * p)) (a2 + ε ^ p) (b0 + ε ^ (4 * q)) (b2 + ε ^ q) d0 d2)
      + (ε ^ l * ε ^ (2 * r)) * (D3 (a1 + ε ^ (2 * p)) (a2 + ε ^ p) (b1 + ε ^ (2 * q)) (b2 + ε ^ q) d1 d2)
      + ε ^ m * (- D3 (a0 + ε ^ (4 * p)) (a1 + ε ^ (2 * p)) (b0 + ε ^ (4 * q)) (b1 + ε ^ (2 * q))
          (c0 + ε ^ (4 * r)) (c1 + ε ^ (2 * r)))
      + (ε ^ m * ε ^ s) * (D3 (a0 + ε ^ (4 * p)) (a2 + ε ^ p) (b0 + ε ^ (4 * q)) (b2 + ε ^ q)
          (c0 + ε ^ (4 * r)) (c2 + ε ^ r))
      + (ε ^ m * ε ^ (3 * s)) * (- D3 (a1 + ε ^ (2 * p)) (a2 + ε ^ p) (b1 + ε ^ (2 * q)) (b2 + ε ^ q)
          (c1 + ε ^ (2 * r)) (c2 + ε ^ r)))
    (robustSignDet4 X)
    (by unfold D3; fun_prop) (by simp [Incr]; omega) ?_
  · refine small_mono ?_ this
    intro ε _ hs
    refine isSign_congr ?_ hs
    have e1 : ε ^ N * ε ^ k = ε ^ r * ε ^ (4 * q) := by rw [← pow_add, ← pow_add, hk]
    have e2 : ε ^ N * ε ^ l = ε ^ (2 * r) := by rw [← pow_add, hl]
    have e3 : ε ^ N * (ε ^ l * ε ^ (2 * r)) = ε ^ (4 * r) := by
      rw [← mul_assoc, e2, ← pow_add]; congr 1; ring
    have e4 : ε ^ N * ε ^ m = ε ^ s := by rw [← pow_add, hm]
    have e5 : ε ^ N * (ε ^ m * ε ^ s) = ε ^ (2 * s) := by
      rw [← mul_assoc, e4, ← pow_add]; congr 1; ring
    have e6 : ε ^ N * (ε ^ m * ε ^ (3 * s)) = ε ^ (4 * s) := by
      rw [← mul_assoc, e4, ← pow_add]; congr 1; ring
    simp only [spSum]
    simp only [mul_add (ε ^ N)]
    rw [← mul_assoc (ε ^ N) (ε ^ k), ← mul_assoc (ε ^ N) (ε ^ l), ← mul_assoc (ε ^ N) (ε ^ l * ε ^ (2 * r)),
      ← mul_assoc (ε ^ N) (ε ^ m), ← mul_assoc (ε ^ N) (ε ^ m * ε ^ s), ← mul_assoc (ε ^ N) (ε ^ m * ε ^ (3 * s)),
      e1, e2, e3, e4, e5, e6]
    simp only [pow_add]
    generalize ε ^ p = x2
    generalize ε ^ (2 * p) = x1
    generalize ε ^ (4 * p) = x0
    generalize ε ^ q = y2
    generalize ε ^ (2 * q) = y1
    generalize ε ^ (4 * q) = y0
    generalize ε ^ r = z2
    generalize ε ^ (2 * r) = z1
    generalize ε ^ (4 * r) = z0
    generalize ε ^ s = w2
    generalize ε ^ (2 * s) = w1
    generalize ε ^ (4 * s) = w0
    unfold D3
    ring
  · subst ha0 ha1 ha2 hb0 hb1 hb2 hc0 hc1 hc2 hd0 hd1 hd2
    have z2 : ∀ {x y : ℤ}, det2 ![![x, 1], ![y, 1]] = 0 → (x : ℝ) - y = 0 := by
      intro x y h
      simp [det2] at h
      have : x = y := by omega
      simp [this]
    unfold robustSignDet4
    refine lead_cons (by simp [det4]) fun _ => ?_
    refine lead_cons (by simp [det3, D3]) fun _ => ?_
    refine lead_cons_neg (by simp [det3, D3]) fun _ => ?_
    refine lead_cons (by simp [det3, D3]) fun _ => ?_
    refine lead_cons_neg (by simp [det3, D3]) fun _ => ?_
    refine lead_cons (by simp [det2]) fun h5 => ?_
    refine lead_cons_neg (by simp [det2]) fun h6 => ?_
    refine lead_cons (by simp [det3, D3]) fun _ => ?_
    refine lead_zero (by rw [z2 h5, neg_zero]) ?_
    refine lead_cons (by simp [det2]) fun h8 => ?_
    refine lead_cons_neg (by simp [det3, D3]) fun _ => ?_
    refine lead_zero (z2 h6) ?_
    refine lead_zero (by rw [z2 h8, neg_zero]) ?_
    refine lead_cons (by simp [det3, D3]) fun _ => ?_
    refine lead_cons_neg (by simp [det2]) fun _ => ?_
    refine lead_cons (by simp [det2]) fun _ => ?_
    refine lead_cons (by simp [det2]) fun _ => ?_
    exact lead_one

end Verif.SoS
