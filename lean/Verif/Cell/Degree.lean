import Verif.Cell.Model
import Mathlib.Tactic.Ring
import Mathlib.Tactic.FieldSimp
import Mathlib.Tactic.LinearCombination
import Mathlib.Tactic.Linarith
import Mathlib.Tactic.NormNum
import Mathlib.Tactic.Positivity
import Mathlib.Algebra.BigOperators.Fin
import Mathlib.Algebra.Order.Ring.Rat
import Mathlib.Algebra.Order.Field.Rat
import Mathlib.Algebra.Field.Rat

/-!
# Degree of a critical point in a triangle (C143)
-/

namespace Verif.Cell

open Verif.Num

variable {K : Type} [Field K] [LinearOrder K] [IsStrictOrderedRing K]

/-! ### Lemmas -/

theorem sgn_pos {x : K} (h : 0 < x) : sgn x = 1 := by simp [sgn, h, not_lt.2 h.le]

theorem sgn_neg {x : K} (h : x < 0) : sgn x = -1 := by simp [sgn, h, not_lt.2 h.le]

theorem sgn_zero : sgn (0 : K) = 0 := by simp [sgn]

theorem sgn_mul (x y : K) : sgn (x * y) = sgn x * sgn y := by
  rcases lt_trichotomy x 0 with hx | rfl | hx <;> rcases lt_trichotomy y 0 with hy | rfl | hy
  · rw [sgn_pos (mul_pos_of_neg_of_neg hx hy), sgn_neg hx, sgn_neg hy]; rfl
  · simp [sgn_zero]
  · rw [sgn_neg (mul_neg_of_neg_of_pos hx hy), sgn_neg hx, sgn_pos hy]; rfl
  · simp [sgn_zero]
  · simp [sgn_zero]
  · simp [sgn_zero]
  · rw [sgn_neg (mul_neg_of_pos_of_neg hx hy), sgn_pos hx, sgn_neg hy]; rfl
  · simp [sgn_zero]
  · rw [sgn_pos (mul_pos hx hy), sgn_pos hx, sgn_pos hy]; rfl

theorem negCross_iff {norm : (Fin 2 → K) → K} (hn : ∀ v, v ≠ 0 → 0 < norm v) {a b : Fin 2 → K} (ha : a ≠ 0) (hb : b ≠ 0) :
    negCross norm a b = true ↔ crossProduct2 a b < 0 := by
  have h : 0 < norm a * norm b := mul_pos (hn a ha) (hn b hb)
  unfold negCross
  rw [if_neg h.ne', decide_eq_true_eq]
  rw [div_lt_iff₀ h, zero_mul]

theorem degree_aux {norm : (Fin 2 → K) → K} (hn : ∀ v, v ≠ 0 → 0 < norm v) (V X : Fin 3 → Fin 2 → K) (mu : Fin 3 → K) (J : Fin 2 → Fin 2 → K)
    (hs : mu 0 + mu 1 + mu 2 = 1) (hmu : ∀ i, 0 ≤ mu i) (hz : ∀ k, mu 0 * V 0 k + mu 1 * V 1 k + mu 2 * V 2 k = 0) (hV : ∀ i, V i ≠ 0)
    (hJ : ∀ i j k, J k 0 * (X i 0 - X j 0) + J k 1 * (X i 1 - X j 1) = V i k - V j k) (hd : J 0 0 * J 1 1 - J 0 1 * J 1 0 ≠ 0) :
    degree norm V X = -sgn (J 0 0 * J 1 1 - J 0 1 * J 1 0) * (sgn ((X 1 0 - X 0 0) * (X 2 1 - X 0 1) - (X 1 1 - X 0 1) * (X 2 0 - X 0 0))) ^ 2 := by
  have z0 := hz 0
  have z1 := hz 1
  obtain h2 : mu 2 = 1 - mu 0 - mu 1 := by linear_combination hs
  rw [h2] at z0 z1
  set o := (X 1 0 - X 0 0) * (X 2 1 - X 0 1) - (X 1 1 - X 0 1) * (X 2 0 - X 0 0) with ho
  set D := J 0 0 * J 1 1 - J 0 1 * J 1 0 with hD
  have hd' : crossProduct2 (V 0) (V 1) + crossProduct2 (V 1) (V 2) + crossProduct2 (V 2) (V 0) = D * o := by
    have a := hJ 1 0 0
    have b := hJ 1 0 1
    have c := hJ 2 0 0
    have e := hJ 2 0 1
    have key : (V 1 0 - V 0 0) * (V 2 1 - V 0 1) - (V 1 1 - V 0 1) * (V 2 0 - V 0 0) = D * o := by
      rw [← a, ← b, ← c, ← e, hD, ho]; ring
    rw [← key]
    unfold crossProduct2
    ring
  have c01 : crossProduct2 (V 0) (V 1) = mu 2 * (D * o) := by
    rw [← hd', h2]; unfold crossProduct2; linear_combination (V 0 0 - V 1 0) * z1 - (V 0 1 - V 1 1) * z0
  have c12 : crossProduct2 (V 1) (V 2) = mu 0 * (D * o) := by
    rw [← hd']; unfold crossProduct2; linear_combination (V 1 0 - V 2 0) * z1 - (V 1 1 - V 2 1) * z0
  have c20 : crossProduct2 (V 2) (V 0) = mu 1 * (D * o) := by
    rw [← hd']; unfold crossProduct2; linear_combination (V 2 0 - V 0 0) * z1 - (V 2 1 - V 0 1) * z0
  -- at most one weight vanishes
  have hm : ∀ i j k : Fin 3, mu i = 0 → mu j = 0 → mu i + mu j + mu k = 1 → (∀ l, mu i * V i l + mu j * V j l + mu k * V k l = 0) → False := by
    intro i j k hi hj hk hl
    apply hV k
    funext l
    have := hl l
    rw [hi, hj] at this hk
    have : mu k = 1 := by linarith
    simp_all
  have m01 : mu 0 = 0 → mu 1 = 0 → False := fun a b => hm 0 1 2 a b hs hz
  have m02 : mu 0 = 0 → mu 2 = 0 → False := fun a b => hm 0 2 1 a b (by linarith) (fun l => by linear_combination hz l)
  have m12 : mu 1 = 0 → mu 2 = 0 → False := fun a b => hm 1 2 0 a b (by linarith) (fun l => by linear_combination hz l)
  unfold degree
  dsimp only
  have horient : (X 1 1 - X 0 1) * (X 2 0 - X 1 0) - (X 2 1 - X 1 1) * (X 1 0 - X 0 0) = -1 * o := by rw [ho]; ring
  rw [horient, sgn_mul, sgn_neg (by norm_num : (-1 : K) < 0)]
  simp only [negCross_iff hn (hV 0) (hV 1), negCross_iff hn (hV 1) (hV 2), negCross_iff hn (hV 2) (hV 0), c01, c12, c20]
  have hpos : 0 ≤ D * o → ∀ i, ¬ mu i * (D * o) < 0 := fun h i => not_lt.2 (mul_nonneg (hmu i) h)
  have hneg : D * o < 0 → ∀ i, (mu i * (D * o) < 0 ↔ mu i ≠ 0) := by
    intro h i
    constructor
    · rintro h1 h2
      rw [h2, zero_mul] at h1
      exact lt_irrefl _ h1
    · intro h1
      exact mul_neg_of_pos_of_neg (lt_of_le_of_ne (hmu i) (Ne.symm h1)) h
  rcases lt_trichotomy (D * o) 0 with h | h | h
  · simp only [hneg h]
    have hcnt : (2 : Nat) ≤ (if mu 2 ≠ 0 then 1 else 0) + (if mu 0 ≠ 0 then 1 else 0) + (if mu 1 ≠ 0 then 1 else 0) := by
      by_cases a : mu 0 = 0 <;> by_cases b : mu 1 = 0 <;> by_cases c : mu 2 = 0 <;> simp [a, b, c]
      · exact m01 a b
      · exact m01 a b
      · exact m02 a c
      · exact m12 b c
    rw [if_pos hcnt]
    have : sgn D * sgn o = -1 := by rw [← sgn_mul, sgn_neg h]
    rcases lt_trichotomy D 0 with hD0 | hD0 | hD0
    · rw [sgn_neg hD0] at this ⊢
      have : sgn o = 1 := by omega
      rw [this]; rfl
    · rw [hD0, zero_mul] at h; exact absurd h (lt_irrefl _)
    · rw [sgn_pos hD0] at this ⊢
      have : sgn o = -1 := by omega
      rw [this]; rfl
  · rcases mul_eq_zero.1 h with h' | h'
    · exact absurd h' hd
    · rw [h', sgn_zero]; simp
  · simp only [hpos h.le]
    simp only [if_false]
    rw [if_neg (by decide)]
    have : sgn D * sgn o = 1 := by rw [← sgn_mul, sgn_pos h]
    rcases lt_trichotomy D 0 with hD0 | hD0 | hD0
    · rw [sgn_neg hD0] at this ⊢
      have : sgn o = -1 := by omega
      rw [this]; rfl
    · rw [hD0, zero_mul] at h; exact absurd h (lt_irrefl _)
    · rw [sgn_pos hD0] at this ⊢
      have : sgn o = 1 := by omega
      rw [this]; rfl

/-- C143: the number returned for a triangle (not degenerate) with a zero of the interpolant (`mu`, inside or on an edge) is minus the index of the zero:
minus the sign of the determinant of the Jacobian `J` of the interpolant. -/
theorem C143_degree {norm : (Fin 2 → K) → K} (hn : ∀ v, v ≠ 0 → 0 < norm v) (V X : Fin 3 → Fin 2 → K) (mu : Fin 3 → K) (J : Fin 2 → Fin 2 → K)
    (hs : mu 0 + mu 1 + mu 2 = 1) (hmu : ∀ i, 0 ≤ mu i) (hz : ∀ k, mu 0 * V 0 k + mu 1 * V 1 k + mu 2 * V 2 k = 0) (hV : ∀ i, V i ≠ 0)
    (hX : (X 1 0 - X 0 0) * (X 2 1 - X 0 1) - (X 1 1 - X 0 1) * (X 2 0 - X 0 0) ≠ 0)
    (hJ : ∀ i j k, J k 0 * (X i 0 - X j 0) + J k 1 * (X i 1 - X j 1) = V i k - V j k) (hd : J 0 0 * J 1 1 - J 0 1 * J 1 0 ≠ 0) :
    degree norm V X = -sgn (J 0 0 * J 1 1 - J 0 1 * J 1 0) := by
  rw [degree_aux hn V X mu J hs hmu hz hV hJ hd]
  rcases lt_or_gt_of_ne hX with h | h
  · rw [sgn_neg h]; ring
  · rw [sgn_pos h]; ring

/-- C143 (finding): if the field vanishes at a vertex, the number does not depend on the field at all. -/
theorem C143_vertex {norm : (Fin 2 → K) → K} (hn : norm 0 = 0) (V X : Fin 3 → Fin 2 → K) (i : Fin 3) (hV : V i = 0) :
    degree norm V X = -sgn ((X 1 0 - X 0 0) * (X 2 1 - X 0 1) - (X 1 1 - X 0 1) * (X 2 0 - X 0 0)) := by
  have hl : ∀ b, negCross norm 0 b = false := by intro b; simp [negCross, hn]
  have hr : ∀ a, negCross norm a 0 = false := by intro a; simp [negCross, hn]
  unfold degree
  dsimp only
  have horient : (X 1 1 - X 0 1) * (X 2 0 - X 1 0) - (X 2 1 - X 1 1) * (X 1 0 - X 0 0) =
    -1 * ((X 1 0 - X 0 0) * (X 2 1 - X 0 1) - (X 1 1 - X 0 1) * (X 2 0 - X 0 0)) := by ring
  rw [horient, sgn_mul, sgn_neg (by norm_num : (-1 : K) < 0), if_neg]
  · ring
  · fin_cases i
    · simp only [Fin.zero_eta] at hV
      rw [hV, hl, hr]
      simp only [Bool.false_eq_true, if_false]
      split <;> omega
    · simp only [Fin.mk_one] at hV
      rw [hV, hl, hr]
      simp only [Bool.false_eq_true, if_false]
      split <;> omega
    · simp only [Fin.reduceFinMk] at hV
      rw [hV, hl, hr]
      simp only [Bool.false_eq_true, if_false]
      split <;> omega

/-- A source (index 1) in the middle of a triangle gets −1, a saddle (index −1) gets 1. -/
example : degree (fun v => |v 0| + |v 1|) (![![-1, -1], ![2, -1], ![-1, 2]] : Fin 3 → Fin 2 → ℚ) ![![-1, -1], ![2, -1], ![-1, 2]] = -1 ∧
    degree (fun v => |v 0| + |v 1|) (![![-1, 1], ![2, 1], ![-1, -2]] : Fin 3 → Fin 2 → ℚ) ![![-1, -1], ![2, -1], ![-1, 2]] = 1 := by
  decide +kernel

end Verif.Cell
