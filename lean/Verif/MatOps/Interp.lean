import Mathlib.Algebra.Order.Field.Basic
import Mathlib.Data.Fin.VecNotation
import Mathlib.Data.Rat.Defs
import Mathlib.Tactic.Ring
import Mathlib.Tactic.FinCases
import Mathlib.Tactic.Linarith
import Mathlib.Tactic.Positivity
import Mathlib.Tactic.NormNum
/-!
# Bilinear and trilinear interpolation (C200)

Model of `include/ftk/numeric/bilinear_interpolation.hh` (`bi`) and `trilinear_interpolation.hh` (`tri`) in exact arithmetic.
-/
namespace Verif.MatOps

section model
variable {K : Type} [Field K]

/-- `bilinear_interpolation3(V[12], alpha, beta, v)` (`bi:6-13`) -/
def biFlat (V : Fin 12 → K) (al be : K) : Fin 3 → K :=
  let al1 := 1 - al
  let be1 := 1 - be
  ![V 0 * al1 * be1 + V 1 * al * be1 + V 3 * al1 * be + V 2 * al * be,
    V 4 * al1 * be1 + V 5 * al * be1 + V 7 * al1 * be + V 6 * al * be,
    V 8 * al1 * be1 + V 9 * al * be1 + V 11 * al1 * be + V 10 * al * be]

/-- `bilinear_interpolation3(V[4][3], alpha, beta, v)` (`bi:15-22`) -/
def bi (V : Fin 4 → Fin 3 → K) (al be : K) : Fin 3 → K :=
  let al1 := 1 - al
  let be1 := 1 - be
  ![V 0 0 * al1 * be1 + V 1 0 * al * be1 + V 3 0 * al1 * be + V 2 0 * al * be,
    V 0 1 * al1 * be1 + V 1 1 * al * be1 + V 3 1 * al1 * be + V 2 1 * al * be,
    V 0 2 * al1 * be1 + V 1 2 * al * be1 + V 3 2 * al1 * be + V 2 2 * al * be]

/-- `bilinear_interpolation3_location(X[12], alpha, beta, x)` (`bi:24-41`) -/
def biLocFlat (X : Fin 12 → K) (al be : K) : Fin 3 → K :=
  let a0 := (1 - al) * X 0 + al * X 1
  let a1 := (1 - al) * X 4 + al * X 5
  let a2 := (1 - al) * X 8 + al * X 9
  let b0 := (1 - al) * X 3 + al * X 2
  let b1 := (1 - al) * X 7 + al * X 6
  let b2 := (1 - al) * X 11 + al * X 10
  ![(1 - be) * a0 + be * b0, (1 - be) * a1 + be * b1, (1 - be) * a2 + be * b2]

/-- `bilinear_interpolation3_location(X[4][3], alpha, beta, x)` (`bi:43-60`) -/
def biLoc (X : Fin 4 → Fin 3 → K) (al be : K) : Fin 3 → K :=
  let a0 := (1 - al) * X 0 0 + al * X 1 0
  let a1 := (1 - al) * X 0 1 + al * X 1 1
  let a2 := (1 - al) * X 0 2 + al * X 1 2
  let b0 := (1 - al) * X 3 0 + al * X 2 0
  let b1 := (1 - al) * X 3 1 + al * X 2 1
  let b2 := (1 - al) * X 3 2 + al * X 2 2
  ![(1 - be) * a0 + be * b0, (1 - be) * a1 + be * b1, (1 - be) * a2 + be * b2]

/-- `trilinear_interpolation3(V[8][3], alpha, beta, gamma, result)` (`tri:6-19`) -/
def tri (V : Fin 8 → Fin 3 → K) (al be ga : K) : Fin 3 → K := fun i =>
  let c00 := (1 - ga) * V 0 i + ga * V 1 i
  let c01 := (1 - ga) * V 2 i + ga * V 3 i
  let c10 := (1 - ga) * V 4 i + ga * V 5 i
  let c11 := (1 - ga) * V 6 i + ga * V 7 i
  let c0 := (1 - be) * c00 + be * c01
  let c1 := (1 - be) * c10 + be * c11
  (1 - al) * c0 + al * c1

end model

/-! ## Specification -/

/-- The corners of the unit square, counter-clockwise -/
def corner2 : Fin 4 → Bool × Bool := ![(false, false), (true, false), (true, true), (false, true)]

/-- The corners of the unit cube: the bits of the number, the first axis being the highest bit -/
def corner3 : Fin 8 → Bool × Bool × Bool :=
  ![(false, false, false), (false, false, true), (false, true, false), (false, true, true),
    (true, false, false), (true, false, true), (true, true, false), (true, true, true)]

/-- `true` is 1 -/
def bit {K : Type} [Field K] (b : Bool) : K := if b = true then 1 else 0

variable {K : Type} [Field K]

/-- C200: the four bilinear interpolations are the same function (the flat array holds the four values of the first component, then
those of the second, then those of the third). -/
theorem C200_versions (V : Fin 4 → Fin 3 → K) (W : Fin 12 → K) (al be : K)
    (hW : ∀ (c : Fin 3) (k : Fin 4), W ⟨c * 4 + k, by omega⟩ = V k c) :
    biFlat W al be = bi V al be ∧ biLoc V al be = bi V al be ∧ biLocFlat W al be = bi V al be := by
  have h : ∀ (c : Fin 3) (k : Fin 4) (n : Fin 12), n.val = c * 4 + k → W n = V k c := fun c k n hn => by
    rw [← hW c k]; congr 1; exact Fin.ext hn
  have e0 := h 0 0 0 rfl
  have e1 := h 0 1 1 rfl
  have e2 := h 0 2 2 rfl
  have e3 := h 0 3 3 rfl
  have e4 := h 1 0 4 rfl
  have e5 := h 1 1 5 rfl
  have e6 := h 1 2 6 rfl
  have e7 := h 1 3 7 rfl
  have e8 := h 2 0 8 rfl
  have e9 := h 2 1 9 rfl
  have e10 := h 2 2 10 rfl
  have e11 := h 2 3 11 rfl
  refine ⟨?_, ?_, ?_⟩
  · funext c
    fin_cases c <;> simp [biFlat, bi, e0, e1, e2, e3, e4, e5, e6, e7, e8, e9, e10, e11]
  · funext c
    fin_cases c <;> simp [biLoc, bi] <;> ring
  · funext c
    fin_cases c <;> simp [biLocFlat, bi, e0, e1, e2, e3, e4, e5, e6, e7, e8, e9, e10, e11] <;> ring

/-- C200: bilinear interpolation gives the corner values at the corners and is exact for fields `p + q x + r y + s x y`, in particular
for affine ones; it is the only function of the form `p + q x + r y + s x y` with these corner values. -/
theorem C200_bilinear :
    (∀ (V : Fin 4 → Fin 3 → K) k, bi V (bit (corner2 k).1) (bit (corner2 k).2) = V k) ∧
    (∀ (p q r s : Fin 3 → K) (V : Fin 4 → Fin 3 → K),
      (∀ k c, V k c = p c + q c * bit (corner2 k).1 + r c * bit (corner2 k).2 + s c * bit (corner2 k).1 * bit (corner2 k).2) →
      ∀ al be c, bi V al be c = p c + q c * al + r c * be + s c * al * be) := by
  constructor
  · intro V k
    funext c
    fin_cases k <;> fin_cases c <;> simp [bi, bit, corner2]
  · intro p q r s V hV al be c
    fin_cases c <;> simp [bi, hV, bit, corner2] <;> ring

/-- C200: trilinear interpolation gives the corner values at the corners and is exact for fields linear in each coordinate. -/
theorem C200_trilinear :
    (∀ (V : Fin 8 → Fin 3 → K) k, tri V (bit (corner3 k).1) (bit (corner3 k).2.1) (bit (corner3 k).2.2) = V k) ∧
    (∀ (p : Fin 8 → Fin 3 → K) (V : Fin 8 → Fin 3 → K),
      (∀ k c, V k c = p 0 c + p 1 c * bit (corner3 k).1 + p 2 c * bit (corner3 k).2.1 + p 3 c * bit (corner3 k).2.2 +
        p 4 c * bit (corner3 k).1 * bit (corner3 k).2.1 + p 5 c * bit (corner3 k).1 * bit (corner3 k).2.2 +
        p 6 c * bit (corner3 k).2.1 * bit (corner3 k).2.2 +
        p 7 c * bit (corner3 k).1 * bit (corner3 k).2.1 * bit (corner3 k).2.2) →
      ∀ x y z c, tri V x y z c = p 0 c + p 1 c * x + p 2 c * y + p 3 c * z + p 4 c * x * y + p 5 c * x * z + p 6 c * y * z +
        p 7 c * x * y * z) := by
  constructor
  · intro V k
    funext c
    fin_cases k <;> simp [tri, bit, corner3]
  · intro p V hV x y z c
    simp [tri, hV, bit, corner3]
    ring

section ordered
variable [LinearOrder K] [IsStrictOrderedRing K]

theorem lerp_mem {lo hi a b t : K} (ht : 0 ≤ t) (ht1 : t ≤ 1) (ha : lo ≤ a ∧ a ≤ hi) (hb : lo ≤ b ∧ b ≤ hi) :
    lo ≤ (1 - t) * a + t * b ∧ (1 - t) * a + t * b ≤ hi := by
  constructor <;> nlinarith [ha.1, ha.2, hb.1, hb.2, mul_nonneg ht (sub_nonneg.2 hb.1), mul_nonneg ht (sub_nonneg.2 hb.2),
    mul_nonneg (sub_nonneg.2 ht1) (sub_nonneg.2 ha.1), mul_nonneg (sub_nonneg.2 ht1) (sub_nonneg.2 ha.2)]

/-- C200: inside the cell the interpolated values stay between the bounds of the corner values. -/
theorem C200_bounds (lo hi : K) :
    (∀ (V : Fin 4 → Fin 3 → K) c, (∀ k, lo ≤ V k c ∧ V k c ≤ hi) → ∀ al be, 0 ≤ al → al ≤ 1 → 0 ≤ be → be ≤ 1 →
      lo ≤ bi V al be c ∧ bi V al be c ≤ hi) ∧
    (∀ (V : Fin 8 → Fin 3 → K) c, (∀ k, lo ≤ V k c ∧ V k c ≤ hi) → ∀ al be ga, 0 ≤ al → al ≤ 1 → 0 ≤ be → be ≤ 1 →
      0 ≤ ga → ga ≤ 1 → lo ≤ tri V al be ga c ∧ tri V al be ga c ≤ hi) := by
  constructor
  · intro V c h al be a0 a1 b0 b1
    have e : bi V al be c = (1 - be) * ((1 - al) * V 0 c + al * V 1 c) + be * ((1 - al) * V 3 c + al * V 2 c) := by
      fin_cases c <;> simp [bi] <;> ring
    rw [e]
    exact lerp_mem b0 b1 (lerp_mem a0 a1 (h 0) (h 1)) (lerp_mem a0 a1 (h 3) (h 2))
  · intro V c h al be ga a0 a1 b0 b1 g0 g1
    exact lerp_mem a0 a1
      (lerp_mem b0 b1 (lerp_mem g0 g1 (h 0) (h 1)) (lerp_mem g0 g1 (h 2) (h 3)))
      (lerp_mem b0 b1 (lerp_mem g0 g1 (h 4) (h 5)) (lerp_mem g0 g1 (h 6) (h 7)))

end ordered

/-- Concrete case: the field `(x, y, x y)` at (1/2, 1/3) -/
example : bi ![![0, 0, 0], ![1, 0, 0], ![1, 1, 1], ![0, 1, 0]] (1/2 : ℚ) (1/3) = ![1/2, 1/3, 1/6] := by
  funext c
  fin_cases c <;> simp [bi] <;> norm_num

end Verif.MatOps
