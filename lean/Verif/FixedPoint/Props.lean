import Verif.FixedPoint.Model
import Mathlib.Tactic.Ring
import Mathlib.Tactic.Linarith
import Mathlib.Tactic.FieldSimp
import Mathlib.Algebra.Order.Field.Basic

/-!
# C53: fixed-point arithmetic

The value of a fixed-point number is `num / factor`.
-/

namespace Verif.FixedPoint

/-- Specification: the rational number denoted. -/
def val (F : ℤ) (x : FP) : ℚ := (x.num : ℚ) / F

/-- Specification: `a` is `q` rounded toward zero to a multiple of `1/F`. -/
def RoundedTowardZero (F : ℤ) (a q : ℚ) : Prop := |a| ≤ |q| ∧ |q| - |a| < 1 / F ∧ 0 ≤ a * q

theorem trunc_spec (q : ℚ) : |(trunc q : ℚ)| ≤ |q| ∧ |q| - |(trunc q : ℚ)| < 1 ∧ 0 ≤ (trunc q : ℚ) * q := by
  unfold trunc
  split
  · rename_i h
    have h1 := Int.floor_le q
    have h2 := Int.lt_floor_add_one q
    have h3 : (0 : ℚ) ≤ (⌊q⌋ : ℚ) := by exact_mod_cast Int.floor_nonneg.2 h
    rw [abs_of_nonneg h3, abs_of_nonneg h]
    exact ⟨h1, by linarith, mul_nonneg h3 h⟩
  · rename_i h
    have h := not_le.1 h
    have h1 := Int.le_ceil q
    have h2 := Int.ceil_lt_add_one q
    have h3 : (⌈q⌉ : ℚ) ≤ 0 := by
      have : ⌈q⌉ ≤ 0 := Int.ceil_le.2 (by simpa using h.le)
      exact_mod_cast this
    rw [abs_of_nonpos h3, abs_of_neg h]
    exact ⟨by linarith, by linarith, mul_nonneg_of_nonpos_of_nonpos h3 h.le⟩

theorem tdiv_eq_trunc (a b : ℤ) (hb : b ≠ 0) : a.tdiv b = trunc ((a : ℚ) / b) := by
  have key : ∀ a b : ℤ, 0 ≤ a → 0 < b → a.tdiv b = ⌊(a : ℚ) / b⌋ := by
    intro a b ha hb
    rw [Int.tdiv_eq_ediv_of_nonneg ha]
    have := Rat.floor_intCast_div_natCast a b.toNat
    have hb' : ((b.toNat : ℕ) : ℤ) = b := Int.toNat_of_nonneg hb.le
    have hq : ((b.toNat : ℕ) : ℚ) = (b : ℚ) := by exact_mod_cast congrArg (Int.cast : ℤ → ℚ) hb'
    rw [hq, hb'] at this
    exact this.symm
  unfold trunc
  rcases lt_or_gt_of_ne hb with hb | hb <;> rcases le_total 0 a with ha | ha
  · -- a ≥ 0, b < 0
    have e : (a : ℚ) / b = -((a : ℚ) / ((-b : ℤ) : ℚ)) := by push_cast; rw [div_neg, neg_neg]
    have k := key a (-b) ha (by omega)
    rw [e]
    by_cases h0 : a = 0
    · subst h0; simp
    · have : 0 < (a : ℚ) / ((-b : ℤ) : ℚ) := div_pos (by exact_mod_cast (by omega : 0 < a)) (by exact_mod_cast (by omega : 0 < -b))
      rw [if_neg (by linarith), Int.ceil_neg, ← k, Int.tdiv_neg, neg_neg]
  · have e : (a : ℚ) / b = ((-a : ℤ) : ℚ) / ((-b : ℤ) : ℚ) := by push_cast; rw [neg_div_neg_eq]
    have k := key (-a) (-b) (by omega) (by omega)
    rw [e, if_pos (div_nonneg (by exact_mod_cast (by omega : 0 ≤ -a)) (by exact_mod_cast (by omega : 0 ≤ -b))), ← k, Int.tdiv_neg, Int.neg_tdiv, neg_neg]
  · rw [if_pos (div_nonneg (by exact_mod_cast ha) (by exact_mod_cast hb.le))]
    exact key a b ha hb
  · have e : (a : ℚ) / b = -(((-a : ℤ) : ℚ) / (b : ℚ)) := by push_cast; rw [neg_div, neg_neg]
    have k := key (-a) b (by omega) hb
    rw [e]
    by_cases h0 : a = 0
    · subst h0; simp
    · have : 0 < ((-a : ℤ) : ℚ) / (b : ℚ) := div_pos (by exact_mod_cast (by omega : 0 < -a)) (by exact_mod_cast hb)
      rw [if_neg (by linarith), Int.ceil_neg, ← k, Int.neg_tdiv, neg_neg]

theorem rounded_of_trunc {F : ℤ} (hF : 0 < F) (q : ℚ) : RoundedTowardZero F ((trunc (F * q) : ℚ) / F) q := by
  have hq : (0 : ℚ) < F := by exact_mod_cast hF
  obtain ⟨h1, h2, h3⟩ := trunc_spec (F * q)
  rw [abs_mul, abs_of_pos hq] at h1 h2
  generalize (trunc (F * q) : ℚ) = t at *
  refine ⟨?_, ?_, ?_⟩
  · rw [abs_div, abs_of_pos hq, div_le_iff₀ hq]; linarith
  · rw [abs_div, abs_of_pos hq, lt_div_iff₀ hq, sub_mul, div_mul_cancel₀ _ hq.ne']; linarith
  · rw [div_mul_eq_mul_div]
    apply div_nonneg _ hq.le
    have : t * (F * q) = F * (t * q) := by ring
    rw [this] at h3
    exact nonneg_of_mul_nonneg_right h3 hq

/-- C53: conversions.  Integers are exact; other numbers are rounded toward zero to a multiple of `1/F`; `to_int` is the
integer part toward zero and inverts the conversion of integers. -/
theorem C53_conversion (F : ℤ) (hF : 0 < F) :
    (∀ j, val F (ofInt F j) = j) ∧ (∀ q, RoundedTowardZero F (val F (ofRat F q)) q) ∧
    (∀ x, ∃ i, toInt F x = some i ∧ RoundedTowardZero 1 i (val F x)) ∧ (∀ j, toInt F (ofInt F j) = some j) ∧
    (∀ x, toDouble F x = val F x) ∧ (∀ x, ofRat F (toDouble F x) = x) ∧ val F zero = 0 := by
  have hq : (F : ℚ) ≠ 0 := by exact_mod_cast hF.ne'
  refine ⟨fun j => ?_, fun q => rounded_of_trunc hF q, fun x => ?_, fun j => ?_, fun x => rfl, fun x => ?_, by simp [val, zero]⟩
  · unfold val ofInt; push_cast; field_simp
  · refine ⟨x.num.tdiv F, by simp [toInt, hF.ne'], ?_⟩
    have := rounded_of_trunc (F := 1) one_pos (val F x)
    rw [tdiv_eq_trunc _ _ hF.ne']
    simpa [val] using this
  · simp only [toInt, ofInt, if_neg hF.ne']
    rw [Int.mul_tdiv_cancel_left _ hF.ne']
  · unfold ofRat toDouble
    rw [mul_div_cancel₀ _ hq]
    unfold trunc
    simp

/-- C53: addition, subtraction, negation, increment and decrement are exact. -/
theorem C53_exact (F : ℤ) (hF : 0 < F) (x y : FP) :
    val F (add x y) = val F x + val F y ∧ val F (sub x y) = val F x - val F y ∧ val F (neg F x) = -val F x ∧
    val F (incr F x) = val F x + 1 ∧ val F (decr F x) = val F x - 1 := by
  have hq : (F : ℚ) ≠ 0 := by exact_mod_cast hF.ne'
  refine ⟨?_, ?_, ?_, ?_, ?_⟩
  · unfold val add; push_cast; rw [add_div]
  · unfold val sub; push_cast; rw [sub_div]
  · unfold val neg sub ofInt; push_cast; rw [mul_zero, zero_sub, neg_div]
  · unfold val incr; push_cast; rw [add_div, div_self hq]
  · unfold val decr; push_cast; rw [sub_div, div_self hq]

/-- C53: multiplication is the exact product rounded toward zero to a multiple of `1/F`. -/
theorem C53_mul (F : ℤ) (hF : 0 < F) (x y : FP) : ∃ z, mul F x y = some z ∧ RoundedTowardZero F (val F z) (val F x * val F y) := by
  have hq : (F : ℚ) ≠ 0 := by exact_mod_cast hF.ne'
  refine ⟨_, by rw [mul, if_neg hF.ne'], ?_⟩
  have := rounded_of_trunc hF (val F x * val F y)
  have e : (F : ℚ) * (val F x * val F y) = ((x.num * y.num : ℤ) : ℚ) / F := by
    unfold val; push_cast; field_simp
  rw [e, ← tdiv_eq_trunc _ _ hF.ne'] at this
  exact this

/-- C53: comparisons and `!` agree with the values. -/
theorem C53_compare (F : ℤ) (hF : 0 < F) (x y : FP) :
    (lt x y = true ↔ val F x < val F y) ∧ (le x y = true ↔ val F x ≤ val F y) ∧ (eq x y = true ↔ val F x = val F y) ∧
    (gt x y = true ↔ val F x > val F y) ∧ (ge x y = true ↔ val F x ≥ val F y) ∧ (not x = true ↔ val F x = 0) := by
  have hq : (0 : ℚ) < F := by exact_mod_cast hF
  unfold val
  refine ⟨?_, ?_, ?_, ?_, ?_, ?_⟩
  · rw [div_lt_div_iff_of_pos_right hq]; simp [lt]
  · rw [div_le_div_iff_of_pos_right hq]; simp [le]
  · rw [div_left_inj' hq.ne']; simp [eq]
  · rw [gt_iff_lt, div_lt_div_iff_of_pos_right hq]; simp [gt]
  · rw [ge_iff_le, div_le_div_iff_of_pos_right hq]; simp [ge]
  · rw [div_eq_zero_iff]; simp [not, hq.ne']

/-- C53 (finding): division divides by the factor instead of multiplying: the quotient of any non-zero number by itself is 0
instead of 1, and in general the result is the quotient rounded to an integer, divided by `F` once more and rounded: at most
`val x / val y / F²` in absolute value. -/
theorem C53_div_wrong (F : ℤ) (hF : 1 < F) (x y : FP) (hy : y.num ≠ 0) :
    div F y y = some zero ∧ ∃ z, div F x y = some z ∧ |val F z| ≤ |val F x / val F y| / (F * F) := by
  have hq : (0 : ℚ) < F := by exact_mod_cast (by omega : 0 < F)
  constructor
  · rw [div, if_neg (by omega), Int.tdiv_self hy]
    have : (1 : ℤ).tdiv F = 0 := by
      rw [Int.tdiv_eq_ediv_of_nonneg (by omega)]; exact Int.ediv_eq_zero_of_lt (by omega) hF
    rw [this]; rfl
  · refine ⟨_, by rw [div, if_neg (by omega)], ?_⟩
    have h1 := (trunc_spec (((x.num.tdiv y.num : ℤ) : ℚ) / F)).1
    rw [← tdiv_eq_trunc _ _ (by omega)] at h1
    have h2 := (trunc_spec ((x.num : ℚ) / y.num)).1
    rw [← tdiv_eq_trunc _ _ hy] at h2
    have e : val F x / val F y = (x.num : ℚ) / y.num := by
      unfold val
      have : (y.num : ℚ) ≠ 0 := by exact_mod_cast hy
      field_simp
    rw [e]
    unfold val
    rw [abs_div, abs_of_pos hq]
    rw [abs_div, abs_of_pos hq] at h1
    rw [div_le_iff₀ hq]
    have : |(x.num : ℚ) / y.num| / (F * F) * F = |(x.num : ℚ) / y.num| / F := by field_simp
    rw [this]
    exact h1.trans (div_le_div_of_nonneg_right h2 hq.le)

/-! Concrete cases with factor 256. -/
example : mul 256 (ofRat 256 (3 / 2)) (ofInt 256 (-5)) = some (ofRat 256 (-15 / 2)) := by decide +kernel
example : toInt 256 (ofRat 256 (-7 / 2)) = some (-3) := by decide +kernel
example : div 256 (ofInt 256 6) (ofInt 256 3) = some zero := by decide +kernel

end Verif.FixedPoint
