import Verif.SoS.Props
import Mathlib.Tactic.Ring
/-! The robust tests do not change when all vectors are multiplied by a positive integer. -/
namespace Verif.SoS
open Num (det2 det3 det4)

theorem sign_mul (m x : ℤ) (hm : 0 < m) : sign (m * x) = sign x := by
  unfold sign
  have h1 : (0 < m * x) ↔ 0 < x := by
    constructor
    · intro h
      by_contra hx
      have := mul_nonpos_of_nonneg_of_nonpos hm.le (not_lt.1 hx)
      omega
    · intro h; exact mul_pos hm h
  have h2 : (m * x < 0) ↔ x < 0 := by
    constructor
    · intro h
      by_contra hx
      have := mul_nonneg hm.le (not_lt.1 hx)
      omega
    · intro h; exact mul_neg_of_pos_of_neg hm h
  simp only [h1, h2]

theorem sign_det2 (m a b : ℤ) (hm : 0 < m) :
    sign (det2 ![![m * a, 1], ![m * b, 1]]) = sign (det2 ![![a, 1], ![b, 1]]) := by
  rw [← sign_mul m (det2 ![![a, 1], ![b, 1]]) hm]
  congr 1
  simp [det2]
  ring

theorem sign_det3 (m a b a' b' a'' b'' : ℤ) (hm : 0 < m) :
    sign (det3 ![![m * a, m * b, 1], ![m * a', m * b', 1], ![m * a'', m * b'', 1]]) =
      sign (det3 ![![a, b, 1], ![a', b', 1], ![a'', b'', 1]]) := by
  rw [← sign_mul (m * m) (det3 ![![a, b, 1], ![a', b', 1], ![a'', b'', 1]]) (mul_pos hm hm)]
  congr 1
  simp [det3]
  ring

theorem sign_det4 (m : ℤ) (X : Fin 4 → Fin 3 → ℤ) (hm : 0 < m) :
    sign (det4 ![![m * X 0 0, m * X 0 1, m * X 0 2, 1], ![m * X 1 0, m * X 1 1, m * X 1 2, 1],
                 ![m * X 2 0, m * X 2 1, m * X 2 2, 1], ![m * X 3 0, m * X 3 1, m * X 3 2, 1]]) =
      sign (det4 ![![X 0 0, X 0 1, X 0 2, 1], ![X 1 0, X 1 1, X 1 2, 1],
                 ![X 2 0, X 2 1, X 2 2, 1], ![X 3 0, X 3 1, X 3 2, 1]]) := by
  rw [← sign_mul (m * m * m) (det4 ![![X 0 0, X 0 1, X 0 2, 1], ![X 1 0, X 1 1, X 1 2, 1],
                 ![X 2 0, X 2 1, X 2 2, 1], ![X 3 0, X 3 1, X 3 2, 1]]) (mul_pos (mul_pos hm hm) hm)]
  congr 1
  simp [det4]
  ring

theorem replace_scale {n k : ℕ} (m : ℤ) (V : Fin n → Fin k → ℤ) (i : Fin n) :
    replace (fun i j => m * V i j) i (fun _ => 0) = fun a j => m * (replace V i (fun _ => 0)) a j := by
  funext a j
  unfold replace
  split <;> simp

/-- the 2-D test is unchanged -/
theorem scale2 (m : ℤ) (hm : 0 < m) (V : Fin 3 → Fin 2 → ℤ) (v : Fin 3 → ℤ) :
    criticalPointInSimplex2 (fun i j => m * V i j) v = criticalPointInSimplex2 V v := by
  have h : ∀ (X : Fin 3 → Fin 2 → ℤ) (w : Fin 3 → ℤ), positive2 (fun i j => m * X i j) w = positive2 X w := by
    intro X w
    unfold positive2 robustSignDet3
    simp only [sign_det2 m _ _ hm, sign_det3 m _ _ _ _ _ _ hm]
  unfold criticalPointInSimplex2 pointInSimplex2
  simp only [h, replace_scale]

/-- the 3-D test is unchanged -/
theorem scale3 (m : ℤ) (hm : 0 < m) (V : Fin 4 → Fin 3 → ℤ) (v : Fin 4 → ℤ) :
    criticalPointInSimplex3 (fun i j => m * V i j) v = criticalPointInSimplex3 V v := by
  have h : ∀ (X : Fin 4 → Fin 3 → ℤ) (w : Fin 4 → ℤ), positive3 (fun i j => m * X i j) w = positive3 X w := by
    intro X w
    unfold positive3 robustSignDet4
    have h4 := sign_det4 m (fun i j => X ((bubbleSort w).order i) j) hm
    simp only [sign_det2 m _ _ hm, sign_det3 m _ _ _ _ _ _ hm, h4]
  unfold criticalPointInSimplex3 pointInSimplex3
  simp only [h, replace_scale]

end Verif.SoS
