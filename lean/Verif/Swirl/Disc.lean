import Verif.Swirl.Model
import Verif.Num.Linear
import Mathlib.Analysis.Complex.Polynomial.Basic
import Mathlib.LinearAlgebra.Matrix.Determinant.Basic
import Mathlib.Tactic.LinearCombination
/-! The discriminant of the characteristic polynomial and complex eigenvalues. -/
namespace Verif.Swirl

/-- the discriminant of `x³ + b x² + c x + d` -/
def disc (b c d : ℝ) : ℝ := 18 * b * c * d - 4 * b ^ 3 * d + b ^ 2 * c ^ 2 - 4 * c ^ 3 - 27 * d ^ 2

theorem disc_neg_iff (b c d : ℝ) :
    disc b c d < 0 ↔ ∃ z : ℂ, z.im ≠ 0 ∧ z ^ 3 + b * z ^ 2 + c * z + d = 0 := by
  constructor
  · intro h
    -- a complex root
    obtain ⟨z, hz⟩ : ∃ z : ℂ, z ^ 3 + b * z ^ 2 + c * z + d = 0 := by
      have hp : (Polynomial.X ^ 3 + Polynomial.C (b : ℂ) * Polynomial.X ^ 2 + Polynomial.C (c : ℂ) * Polynomial.X +
          Polynomial.C (d : ℂ)).degree ≠ 0 := by
        have : (Polynomial.X ^ 3 + Polynomial.C (b : ℂ) * Polynomial.X ^ 2 + Polynomial.C (c : ℂ) * Polynomial.X +
          Polynomial.C (d : ℂ)).degree = 3 := by
          compute_degree!
        rw [this]
        decide
      obtain ⟨z, hz⟩ := IsAlgClosed.exists_root _ hp
      refine ⟨z, ?_⟩
      simpa [Polynomial.IsRoot] using hz
    by_cases hi : z.im = 0
    · have hr : (z.re) ^ 3 + b * z.re ^ 2 + c * z.re + d = 0 := by
        have hzr : z = (z.re : ℂ) := Complex.ext rfl (by simpa using hi)
        rw [hzr] at hz
        exact_mod_cast hz
      set r := z.re
      -- the other factor `x² + (b + r) x + (c + r (b + r))` has negative discriminant
      set D := (b + r) ^ 2 - 4 * (c + r * (b + r)) with hD
      have hfac : disc b c d = D * (3 * r ^ 2 + 2 * b * r + c) ^ 2 := by
        have hd : d = -(r ^ 3 + b * r ^ 2 + c * r) := by linarith
        unfold disc
        rw [hD, hd]
        ring
      have hDneg : D < 0 := by
        by_contra hn
        push Not at hn
        have : 0 ≤ disc b c d := by rw [hfac]; exact mul_nonneg hn (sq_nonneg _)
        linarith
      have hs : Real.sqrt (-D) ^ 2 = -D := Real.sq_sqrt (by linarith)
      refine ⟨⟨-(b + r) / 2, Real.sqrt (-D) / 2⟩, ?_, ?_⟩
      · have : 0 < Real.sqrt (-D) := Real.sqrt_pos.2 (by linarith)
        simp only
        positivity
      · set w : ℂ := ⟨-(b + r) / 2, Real.sqrt (-D) / 2⟩ with hw
        have hq : w ^ 2 + (b + r) * w + (c + r * (b + r)) = 0 := by
          apply Complex.ext
          · simp [hw, pow_two, Complex.mul_re]
            nlinarith [hs]
          · simp [hw, pow_two, Complex.mul_im]
            ring
        have hr' : (r : ℂ) ^ 3 + b * (r : ℂ) ^ 2 + c * r + d = 0 := by exact_mod_cast hr
        linear_combination (w - r) * hq + hr'
    · exact ⟨z, hi, hz⟩
  · rintro ⟨z, hi, hz⟩
    set x := z.re
    set y := z.im
    have hre : x ^ 3 - 3 * x * y ^ 2 + b * (x ^ 2 - y ^ 2) + c * x + d = 0 := by
      have := congrArg Complex.re hz
      simp [pow_succ, Complex.mul_re, Complex.mul_im] at this
      simp only [x, y]
      linarith
    have him : y * (3 * x ^ 2 - y ^ 2 + 2 * b * x + c) = 0 := by
      have := congrArg Complex.im hz
      simp [pow_succ, Complex.mul_re, Complex.mul_im] at this
      simp only [x, y]
      linarith
    have hc : c = y ^ 2 - 3 * x ^ 2 - 2 * b * x := by
      rcases mul_eq_zero.1 him with h | h
      · exact absurd h hi
      · linarith
    have hd : d = -(x ^ 3 - 3 * x * y ^ 2 + b * (x ^ 2 - y ^ 2) + c * x) := by linarith
    have : disc b c d = -(4 * y ^ 2 * ((3 * x + b) ^ 2 + y ^ 2) ^ 2) := by
      unfold disc
      rw [hd, hc]
      ring
    rw [this]
    have hy : 0 < y ^ 2 := by positivity
    have : 0 < (3 * x + b) ^ 2 + y ^ 2 := by positivity
    have : 0 < 4 * y ^ 2 * ((3 * x + b) ^ 2 + y ^ 2) ^ 2 := by positivity
    linarith

theorem disc_cast (A : Fin 3 → Fin 3 → Rat) : ((cubicDiscriminant (Num.charPoly3 A) : Rat) : ℝ) =
    disc ((Num.charPoly3 A 2 : Rat) : ℝ) ((Num.charPoly3 A 1 : Rat) : ℝ) ((Num.charPoly3 A 0 : Rat) : ℝ) := by
  have h3 : Num.charPoly3 A 3 = 1 := rfl
  unfold cubicDiscriminant disc
  rw [h3]
  push_cast
  ring

/-- C100: the discriminant of the characteristic polynomial is negative exactly if the matrix has an eigenvalue that is not
real. -/
theorem disc_eigenvalue (A : Fin 3 → Fin 3 → Rat) : cubicDiscriminant (Num.charPoly3 A) < 0 ↔
    ∃ z : ℂ, z.im ≠ 0 ∧ (z • (1 : Matrix (Fin 3) (Fin 3) ℂ) - Matrix.of fun i j => (A i j : ℂ)).det = 0 := by
  have h1 : cubicDiscriminant (Num.charPoly3 A) < 0 ↔ ((cubicDiscriminant (Num.charPoly3 A) : Rat) : ℝ) < 0 := by
    exact_mod_cast Iff.rfl
  rw [h1, disc_cast, disc_neg_iff]
  refine exists_congr fun z => and_congr_right fun _ => ?_
  have := Num.C33_charPoly3 (K := ℂ) (Matrix.of fun i j => (A i j : ℂ)) z
  rw [← this]
  have e : ∀ i, Num.charPoly3 (Matrix.of fun i j => (A i j : ℂ)) i = (((Num.charPoly3 A i : Rat) : ℝ) : ℂ) := by
    intro i
    fin_cases i <;> simp [Num.charPoly3, Num.det3, Num.trace3]
  rw [e 0, e 1, e 2, e 3]
  have h3 : Num.charPoly3 A 3 = 1 := rfl
  rw [h3]
  constructor <;> intro h <;> (push_cast at h ⊢; linear_combination h)

theorem charPoly3_transpose {R : Type} [CommRing R] (A : Fin 3 → Fin 3 → R) : Num.charPoly3 (fun i j => A j i) = Num.charPoly3 A := by
  funext i
  fin_cases i <;> simp [Num.charPoly3, Num.det3, Num.trace3] <;> ring

end Verif.Swirl
