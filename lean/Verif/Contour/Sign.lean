import Verif.Contour.Model
import Verif.SoS.Props
import Mathlib.Algebra.Order.Field.Rat
import Mathlib.Algebra.Order.Field.Basic
import Mathlib.Data.Rat.Floor
import Mathlib.Tactic.Linarith
import Mathlib.Tactic.Ring
/-! The robust test on an edge is a comparison of the sides of its two vertices. -/
namespace Verif.Ctr
open Verif.SoS

theorem bubble2 (v : Fin 2 → ℤ) : bubbleSort v =
    if v 0 > v 1 then { arr := swapCells v 0 1, order := swapCells (fun i => i) 0 1, nswaps := 1 }
    else { arr := v, order := fun i => i, nswaps := 0 } := by
  unfold bubbleSort bubblePass bubbleStep
  simp only [List.range, List.range.loop, List.foldl_cons, List.foldl_nil]
  rfl

theorem bubble2_le {v : Fin 2 → ℤ} (h : v 0 < v 1) : bubbleSort v = { arr := v, order := fun i => i, nswaps := 0 } := by
  rw [bubble2]; exact if_neg (by omega)

theorem bubble2_gt {v : Fin 2 → ℤ} (h : v 1 < v 0) :
    bubbleSort v = { arr := swapCells v 0 1, order := swapCells (fun i => i) 0 1, nswaps := 1 } := by
  rw [bubble2]; exact if_pos (by omega)

theorem positive1_lt {X v : Fin 2 → ℤ} (h : v 0 < v 1) : positive1 X v = robustSignDet2 X := by
  unfold positive1
  rw [bubble2_le h]
  simp

theorem positive1_gt {X v : Fin 2 → ℤ} (h : v 1 < v 0) : positive1 X v = - robustSignDet2 ![X 1, X 0] := by
  unfold positive1
  rw [bubble2_gt h]
  have : (fun i => X (swapCells (fun i => i) 0 1 i)) = ![X 1, X 0] := by
    funext i; fin_cases i <;> rfl
  simp only [this]
  simp

theorem det2_eq (a b : ℤ) : robustSignDet2 ![a, b] = if b ≤ a then 1 else -1 := by
  unfold robustSignDet2 firstNonzero firstNonzero firstNonzero sign
  simp only [Num.det2, Matrix.cons_val_zero, Matrix.cons_val_one]
  by_cases h : b ≤ a
  · rcases eq_or_lt_of_le h with h' | h'
    · subst h'; simp
    · have h2 : ¬ (a < b) := by omega
      simp [h', h2, h]
  · have h2 : ¬ b < a := by omega
    have h3 : a < b := by omega
    simp [h, h2, h3]

/-- on an edge with different vertex numbers, the robust test says yes iff exactly one of the two values is
positive -/
theorem simplex1_iff (x y i j : ℤ) (hi : 0 ≤ i) (hj : 0 ≤ j) (hij : i ≠ j) :
    criticalPointInSimplex1 ![x, y] ![i, j] = true ↔ (0 < x ↔ ¬ 0 < y) := by
  unfold criticalPointInSimplex1 pointInSimplex1 allLoop
  have r0 : replace (![i, j] : Fin 2 → ℤ) 0 (-1) = ![-1, j] := by funext k; fin_cases k <;> rfl
  have r1 : replace (![i, j] : Fin 2 → ℤ) 1 (-1) = ![i, -1] := by funext k; fin_cases k <;> rfl
  have s0 : replace (![x, y] : Fin 2 → ℤ) 0 0 = ![0, y] := by funext k; fin_cases k <;> rfl
  have s1 : replace (![x, y] : Fin 2 → ℤ) 1 0 = ![x, 0] := by funext k; fin_cases k <;> rfl
  have p0 : positive1 ![0, y] ![-1, j] = if y ≤ 0 then 1 else -1 := by
    rw [positive1_lt (by simp; omega), det2_eq]
  have p1 : positive1 ![x, 0] ![i, -1] = - if x ≤ 0 then 1 else -1 := by
    rw [positive1_gt (by simp; omega)]
    simp only [Matrix.cons_val_one, Matrix.cons_val_zero]
    rw [det2_eq]
  have hl : (List.finRange 2) = [0, 1] := rfl
  simp only [hl, List.all_cons, List.all_nil, Bool.and_true, Bool.and_eq_true, beq_iff_eq, r0, r1, s0, s1, p0, p1]
  rcases lt_or_gt_of_ne hij with h | h
  · rw [positive1_lt (by simpa using h), det2_eq]
    split <;> split <;> split <;> simp <;> omega
  · rw [positive1_gt (by simpa using h)]
    simp only [Matrix.cons_val_one, Matrix.cons_val_zero]
    rw [det2_eq]
    split <;> split <;> split <;> simp <;> omega

/-- the fixed-point value is positive iff the value is at least `2⁻²¹` -/
theorem fixed_pos (f : Rat) : 0 < fixed f ↔ 1 / 2 ^ 21 ≤ f := by
  unfold fixed Trk.quant
  have hd : (0 : Int) < f.den := by exact_mod_cast f.den_pos
  have hf : f = f.num / f.den := (Rat.num_div_den f).symm
  have h1 : (1 / 2 ^ 21 ≤ f) ↔ ((f.den : Int) ≤ f.num * (2 * 2 ^ 20)) := by
    conv_lhs => rw [hf]
    have : (0 : Rat) < f.den := by exact_mod_cast f.den_pos
    rw [div_le_div_iff₀ (by norm_num) this]
    constructor
    · intro h
      have h' : ((f.den : Int) : Rat) ≤ ((f.num * (2 * 2 ^ 20) : Int) : Rat) := by push_cast; linarith
      exact_mod_cast h'
    · intro h
      have h' : ((f.den : Int) : Rat) ≤ ((f.num * (2 * 2 ^ 20) : Int) : Rat) := by exact_mod_cast h
      push_cast at h'
      linarith
  rw [h1]
  rcases le_or_gt 0 (f.num * (2 * 2 ^ 20)) with h | h
  · rw [Int.tdiv_eq_ediv_of_nonneg h]
    constructor
    · intro hp
      by_contra hc
      rw [Int.ediv_eq_zero_of_lt h (by omega)] at hp
      exact absurd hp (lt_irrefl _)
    · intro hle
      exact (Int.lt_iff_add_one_le).2 ((Int.le_ediv_iff_mul_le hd).2 (by omega))
  · constructor
    · intro hp
      have : Int.tdiv (f.num * (2 * 2 ^ 20)) f.den ≤ 0 := by
        have e : f.num * (2 * 2 ^ 20) = -(-(f.num * (2 * 2 ^ 20))) := by ring
        rw [e, Int.neg_tdiv]
        have := Int.tdiv_nonneg (a := -(f.num * (2 * 2 ^ 20))) (b := f.den) (by omega) (by omega)
        omega
      omega
    · intro hle; omega

end Verif.Ctr
