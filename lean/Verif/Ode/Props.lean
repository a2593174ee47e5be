import Verif.Ode.Model
import Mathlib.LinearAlgebra.Matrix.ToLin
import Mathlib.Tactic.FinCases
import Mathlib.Tactic.FieldSimp
import Mathlib.Tactic.LinearCombination
import Mathlib.Tactic.Positivity
import Mathlib.Algebra.Polynomial.Eval.Degree
import Mathlib.Algebra.Polynomial.Derivative
/-! # C75, C76: particle-tracing steps -/
namespace Verif.Ode
open Polynomial

section rk4
variable {K : Type} [Field K] [CharZero K] {n : Nat}

/-- On a linear system `x' = A x` one step is the Taylor polynomial of degree 4 of the exact solution
`exp(hA) x`: the method has order 4. -/
theorem C75_linear (A : Matrix (Fin n) (Fin n) K) (h : K) (p : Fin n → K) :
    rk4 (fun x => some (A.mulVec x)) h p = (true,
      p + h • A.mulVec p + (h ^ 2 / 2) • A.mulVec (A.mulVec p) + (h ^ 3 / 6) • A.mulVec (A.mulVec (A.mulVec p)) +
        (h ^ 4 / 24) • A.mulVec (A.mulVec (A.mulVec (A.mulVec p)))) := by
  have e : ∀ (c : K) (p q : Fin n → K), (fun i => p i + c * q i) = p + c • q := fun _ _ _ => rfl
  have e1 : ∀ (p q : Fin n → K), (fun i => p i + q i) = p + q := fun _ _ => rfl
  have e2 : ∀ (c : K) (q : Fin n → K), (fun i => c * q i) = c • q := fun _ _ => rfl
  simp only [rk4, e, e1, e2, Matrix.mulVec_add, Matrix.mulVec_smul]
  refine Prod.ext rfl ?_
  funext i
  simp only [Pi.add_apply, Pi.smul_apply, smul_eq_mul]
  field_simp
  ring

/-- A constant field is followed exactly. -/
theorem C75_constant (v : Fin n → K) (h : K) (p : Fin n → K) :
    rk4 (fun _ => some v) h p = (true, p + h • v) := by
  refine Prod.ext rfl ?_
  funext i
  simp only [rk4, Pi.add_apply, Pi.smul_apply, smul_eq_mul]
  ring

/-- Quadrature: for `t' = 1, x' = F'(t)` with a polynomial `F` of degree at most 4 the step is exact. -/
theorem C75_quadrature (F : K[X]) (hF : F.natDegree ≤ 4) (h t x : K) :
    rk4 (n := 2) (fun p => some ![1, F.derivative.eval (p 0)]) h ![t, x] =
      (true, ![t + h, x + (F.eval (t + h) - F.eval t)]) := by
  obtain ⟨c0, c1, c2, c3, c4, rfl⟩ : ∃ c0 c1 c2 c3 c4 : K, F = C c0 + C c1 * X + C c2 * X ^ 2 + C c3 * X ^ 3 + C c4 * X ^ 4 := by
    refine ⟨F.coeff 0, F.coeff 1, F.coeff 2, F.coeff 3, F.coeff 4, ?_⟩
    conv_lhs => rw [F.as_sum_range' 5 (by omega)]
    simp only [Finset.sum_range_succ, Finset.sum_range_zero, ← C_mul_X_pow_eq_monomial]
    ring
  refine Prod.ext rfl ?_
  funext i
  fin_cases i
  · simp [rk4]; ring
  · simp [rk4]
    field_simp
    ring

omit [CharZero K] in
/-- If the velocity is undefined at the point itself, it is left alone and failure is reported; success is reported exactly
when all four velocities are defined. -/
theorem C75_first_failure (f : Vel K n) (h : K) (p : Fin n → K) (hp : f p = none) : rk4 f h p = (false, p) := by
  simp only [rk4, hp]

omit [CharZero K] in
theorem C75_success (f : Vel K n) (h : K) (p q : Fin n → K) (hq : rk4 f h p = (true, q)) :
    ∃ k1 k2 k3 k4 : Fin n → K, f p = some k1 ∧ f (p + (h / 2) • k1) = some k2 ∧ f (p + (h / 2) • k2) = some k3 ∧
      f (p + h • k3) = some k4 ∧ q = p + (h / 6) • (k1 + (2 : K) • k2 + (2 : K) • k3 + k4) := by
  simp only [rk4] at hq
  have e : ∀ v : Fin n → K, (fun i => p i + 1 / 2 * (h * v i)) = p + (h / 2) • v := by
    intro v; funext i; simp only [Pi.add_apply, Pi.smul_apply, smul_eq_mul]; ring
  have e' : ∀ v : Fin n → K, (fun i => p i + h * v i) = p + h • v := fun v => rfl
  simp only [e, e'] at hq
  rcases h1 : f p with _ | k1
  · simp [h1] at hq
  rcases h2 : f (p + (h / 2) • k1) with _ | k2
  · simp [h1, h2] at hq
  rcases h3 : f (p + (h / 2) • k2) with _ | k3
  · simp [h1, h2, h3] at hq
  rcases h4 : f (p + h • k3) with _ | k4
  · simp [h1, h2, h3, h4] at hq
  simp only [h1, h2, h3, h4, Prod.mk.injEq, true_and] at hq
  refine ⟨k1, k2, k3, k4, rfl, h2, h3, h4, ?_⟩
  rw [← hq]
  funext i
  simp only [Pi.add_apply, Pi.smul_apply, smul_eq_mul]
  ring

/-- A step that fails later leaves the particle at an intermediate position: here `x' = 1` for `x < 1`, undefined beyond;
from `0` with `h = 2` failure is reported and the particle has moved to `1`. -/
theorem C75_late_failure_moves_point :
    rk4 (K := ℚ) (n := 1) (fun p => if p 0 < 1 then some ![1] else none) 2 ![0] = (false, ![1]) := by
  have h1 : (fun i : Fin 1 => (![0] : Fin 1 → ℚ) i + 1 / 2 * (2 * (![1] : Fin 1 → ℚ) i)) = ![1] := by
    funext i; fin_cases i; norm_num
  simp [rk4]
  funext i; fin_cases i; norm_num

/-- a rotation field, over the rationals: one step from `(1, 0)` with `h = 1` -/
example : (rk4 (fun x => some ((!![0, -1; 1, 0] : Matrix (Fin 2) (Fin 2) ℚ).mulVec x)) 1 ![1, 0]).2 0 = 13 / 24 := by
  simp only [rk4, Matrix.mulVec, dotProduct, Fin.sum_univ_two, Matrix.of_apply, Matrix.cons_val_zero, Matrix.cons_val_one]
  norm_num
example : ((X : ℚ[X]) ^ 4).natDegree ≤ 4 := by simp

end rk4

/-! ## rotations -/

theorem norm3_sq (v : Fin 3 → ℝ) : norm3 v ^ 2 = v 0 ^ 2 + v 1 ^ 2 + v 2 ^ 2 := by
  rw [norm3, Real.sq_sqrt (by have h0 := mul_self_nonneg (v 0); have h1 := mul_self_nonneg (v 1); have h2 := mul_self_nonneg (v 2); linarith)]; ring

theorem norm3_nonneg (v : Fin 3 → ℝ) : 0 ≤ norm3 v := Real.sqrt_nonneg _

theorem norm3_eq {v : Fin 3 → ℝ} {r : ℝ} (hr : 0 ≤ r) (h : v 0 ^ 2 + v 1 ^ 2 + v 2 ^ 2 = r ^ 2) : norm3 v = r := by
  have := norm3_sq v
  rw [h] at this
  exact (sq_eq_sq₀ (norm3_nonneg v) hr).1 this

theorem norm3_eq_zero (v : Fin 3 → ℝ) : norm3 v = 0 ↔ v = 0 := by
  constructor
  · intro h
    have h2 := norm3_sq v
    rw [h] at h2
    have a0 := sq_nonneg (v 0)
    have a1 := sq_nonneg (v 1)
    have a2 := sq_nonneg (v 2)
    funext i
    fin_cases i
    · exact pow_eq_zero_iff (two_ne_zero) |>.1 (by linarith : v 0 ^ 2 = 0)
    · exact pow_eq_zero_iff (two_ne_zero) |>.1 (by linarith : v 1 ^ 2 = 0)
    · exact pow_eq_zero_iff (two_ne_zero) |>.1 (by linarith : v 2 ^ 2 = 0)
  · rintro rfl; simp [norm3]

/-- the code's rotation, for a unit axis: Rodrigues' formula -/
theorem rot_unit (u x : Fin 3 → ℝ) (θ : ℝ) (hu : u 0 ^ 2 + u 1 ^ 2 + u 2 ^ 2 = 1) :
    let c := Real.cos (θ / 2)
    let s := Real.sin (θ / 2)
    let q : Fin 4 → ℝ := ![c, s * u 0, s * u 1, s * u 2]
    let invq : Fin 4 → ℝ := ![q 0, -q 1, -q 2, -q 3]
    let q2 := quatmul (quatmul q ![0, x 0, x 1, x 2]) invq
    (![q2 1, q2 2, q2 3] : Fin 3 → ℝ) = fun i => Real.cos θ * x i + Real.sin θ * Num.crossProduct u x i +
      (1 - Real.cos θ) * Num.innerProduct3 u x * u i := by
  intro c s q invq q2
  have hθ : θ = 2 * (θ / 2) := by ring
  have hcs : s ^ 2 + c ^ 2 = 1 := Real.sin_sq_add_cos_sq _
  have hc : Real.cos θ = 1 - 2 * s ^ 2 := by
    rw [hθ, Real.cos_two_mul]
    have : Real.cos (θ / 2) ^ 2 = 1 - s ^ 2 := by linear_combination hcs
    rw [this]; ring
  have hs : Real.sin θ = 2 * s * c := by rw [hθ, Real.sin_two_mul]
  have hcc : c ^ 2 = 1 - s ^ 2 := by linear_combination hcs
  funext i
  rw [hc, hs]
  fin_cases i
  · simp only [q2, invq, q, quatmul, Num.crossProduct, Num.innerProduct3, Matrix.cons_val, Fin.zero_eta]
    linear_combination x 0 * hcc - s ^ 2 * x 0 * hu
  · simp only [q2, invq, q, quatmul, Num.crossProduct, Num.innerProduct3, Matrix.cons_val, Fin.mk_one]
    linear_combination x 1 * hcc - s ^ 2 * x 1 * hu
  · simp only [q2, invq, q, quatmul, Num.crossProduct, Num.innerProduct3, Matrix.cons_val, Fin.reduceFinMk]
    linear_combination x 2 * hcc - s ^ 2 * x 2 * hu

/-- `axis_rotate_vector` is the rotation about the axis by the angle (Rodrigues' formula, right-handed). -/
theorem C76_rodrigues (a x : Fin 3 → ℝ) (θ : ℝ) (ha : a ≠ 0) : ∃ u : Fin 3 → ℝ,
    (∀ i, a i = norm3 a * u i) ∧ norm3 u = 1 ∧
    axisRotate a θ x = some fun i => Real.cos θ * x i + Real.sin θ * Num.crossProduct u x i +
      (1 - Real.cos θ) * Num.innerProduct3 u x * u i := by
  have hn : norm3 a ≠ 0 := fun h => ha ((norm3_eq_zero a).1 h)
  have hsq := norm3_sq a
  have hu : (a 0 / norm3 a) ^ 2 + (a 1 / norm3 a) ^ 2 + (a 2 / norm3 a) ^ 2 = 1 := by
    rw [div_pow, div_pow, div_pow, ← add_div, ← add_div, ← hsq, div_self (pow_ne_zero 2 hn)]
  refine ⟨fun i => a i / norm3 a, fun i => by field_simp, norm3_eq zero_le_one (by simpa using hu), ?_⟩
  have := rot_unit (fun i => a i / norm3 a) x θ hu
  simp only at this
  rw [axisRotate, normalize3, if_neg hn]
  simp only
  rw [this]

/-- it keeps lengths, -/
theorem C76_keeps_norm (a x : Fin 3 → ℝ) (θ : ℝ) (ha : a ≠ 0) : ∃ y, axisRotate a θ x = some y ∧ norm3 y = norm3 x := by
  obtain ⟨u, _, hu, hy⟩ := C76_rodrigues a x θ ha
  refine ⟨_, hy, norm3_eq (norm3_nonneg x) ?_⟩
  have hu2 := norm3_sq u
  rw [hu] at hu2
  rw [norm3_sq]
  have hcs := Real.sin_sq_add_cos_sq θ
  set c := Real.cos θ
  set s := Real.sin θ
  simp only [Num.crossProduct, Num.innerProduct3, Matrix.cons_val]
  have hu0 : u 0 ^ 2 = 1 - u 1 ^ 2 - u 2 ^ 2 := by linear_combination -hu2
  linear_combination (exp := 1) (x 0 ^ 2 + x 1 ^ 2 + x 2 ^ 2 - (u 0 * x 0 + u 1 * x 1 + u 2 * x 2) ^ 2) * hcs +
    (s ^ 2 * (-(x 0 ^ 2 + x 1 ^ 2 + x 2 ^ 2)) - (1 - c) ^ 2 * (u 0 * x 0 + u 1 * x 1 + u 2 * x 2) ^ 2) * hu2

/-- fixes the axis, -/
theorem C76_fixes_axis (a : Fin 3 → ℝ) (θ : ℝ) (ha : a ≠ 0) : axisRotate a θ a = some a := by
  obtain ⟨u, hau, hu, hy⟩ := C76_rodrigues a a θ ha
  rw [hy]
  have hu2 := norm3_sq u
  rw [hu] at hu2
  congr 1
  funext i
  have h0 := hau 0
  have h1 := hau 1
  have h2 := hau 2
  generalize norm3 a = r at h0 h1 h2
  have e : Num.innerProduct3 u a = r := by
    rw [Num.innerProduct3, h0, h1, h2]; linear_combination -r * hu2
  rw [e]
  fin_cases i
  · simp only [Num.crossProduct, Matrix.cons_val, Fin.zero_eta, h0, h1, h2]; ring
  · simp only [Num.crossProduct, Matrix.cons_val, Fin.mk_one, h0, h1, h2]; ring
  · simp only [Num.crossProduct, Matrix.cons_val, Fin.reduceFinMk, h0, h1, h2]; ring

/-- and is undefined (NaN) for a zero axis. -/
theorem C76_zero_axis (x : Fin 3 → ℝ) (θ : ℝ) : axisRotate 0 θ x = none := by
  rw [axisRotate, normalize3, if_pos ((norm3_eq_zero 0).2 rfl)]

/-- the vectors are orthogonal -/
def Orth (x v : Fin 3 → ℝ) : Prop := x 0 * v 0 + x 1 * v 1 + x 2 * v 2 = 0

/-- Lagrange's identity -/
theorem norm3_cross (x v : Fin 3 → ℝ) (h : Orth x v) : norm3 (Num.crossProduct x v) = norm3 x * norm3 v := by
  refine norm3_eq (mul_nonneg (norm3_nonneg x) (norm3_nonneg v)) ?_
  rw [mul_pow, norm3_sq, norm3_sq]
  simp only [Num.crossProduct, Matrix.cons_val]
  rw [Orth] at h
  linear_combination (-(x 0 * v 0 + x 1 * v 1 + x 2 * v 2)) * h

/-- `angular_stepping` with a tangential velocity moves along the great circle in the direction of the velocity, by an
arc of length `h |v|`, and stays on the sphere. -/
theorem C76_angular_step (x v : Fin 3 → ℝ) (h : ℝ) (hx : x ≠ 0) (hv : v ≠ 0) (ho : Orth x v) :
    ∃ y, angularStep x v h = some y ∧ norm3 y = norm3 x ∧
      y = fun i => Real.cos (h * norm3 v / norm3 x) * x i + Real.sin (h * norm3 v / norm3 x) * (norm3 x / norm3 v) * v i := by
  have hR : norm3 x ≠ 0 := fun h => hx ((norm3_eq_zero x).1 h)
  have hV : norm3 v ≠ 0 := fun h => hv ((norm3_eq_zero v).1 h)
  have hA := norm3_cross x v ho
  have hA0 : Num.crossProduct x v ≠ 0 := by
    intro h0
    rw [(norm3_eq_zero _).2 h0] at hA
    exact mul_ne_zero hR hV hA.symm
  obtain ⟨u, hau, hu, hy⟩ := C76_rodrigues (Num.crossProduct x v) x (h * (norm3 v / norm3 x)) hA0
  obtain ⟨y', hy', hn⟩ := C76_keeps_norm (Num.crossProduct x v) x (h * (norm3 v / norm3 x)) hA0
  refine ⟨y', hy', hn, ?_⟩
  rw [hy] at hy'
  rw [← Option.some.inj hy']
  rw [hA] at hau
  have hP : norm3 x * norm3 v ≠ 0 := mul_ne_zero hR hV
  have hx2 := norm3_sq x
  have hv2 := norm3_sq v
  have e : ∀ i, u i = Num.crossProduct x v i / (norm3 x * norm3 v) := fun i => by
    rw [eq_div_iff hP, hau i]; ring
  have hin : Num.innerProduct3 u x = 0 := by
    rw [Num.innerProduct3, e 0, e 1, e 2]
    simp only [Num.crossProduct, Matrix.cons_val]
    field_simp
    ring
  have hcr : ∀ i, Num.crossProduct u x i = norm3 x / norm3 v * v i := by
    intro i
    rw [Orth] at ho
    have key : Num.crossProduct (Num.crossProduct x v) x i = norm3 x ^ 2 * v i := by
      rw [hx2]
      fin_cases i
      · simp only [Num.crossProduct, Matrix.cons_val, Fin.zero_eta]; linear_combination (-x 0) * ho
      · simp only [Num.crossProduct, Matrix.cons_val, Fin.mk_one]; linear_combination (-x 1) * ho
      · simp only [Num.crossProduct, Matrix.cons_val, Fin.reduceFinMk]; linear_combination (-x 2) * ho
    have lin : Num.crossProduct u x i = Num.crossProduct (Num.crossProduct x v) x i / (norm3 x * norm3 v) := by
      fin_cases i
      · simp only [Num.crossProduct, Matrix.cons_val, Fin.zero_eta, e]; field_simp
      · simp only [Num.crossProduct, Matrix.cons_val, Fin.mk_one, e]; field_simp
      · simp only [Num.crossProduct, Matrix.cons_val, Fin.reduceFinMk, e]; field_simp
    rw [lin, key]
    field_simp
  funext i
  rw [hin, hcr i, mul_zero, zero_mul, add_zero, mul_div_assoc]
  ring

/-- With zero velocity `angular_stepping` yields NaN instead of leaving the particle where it is. -/
theorem C76_zero_velocity (x : Fin 3 → ℝ) (h : ℝ) : angularStep x 0 h = none := by
  have : Num.crossProduct x 0 = 0 := by
    funext i; fin_cases i <;> simp [Num.crossProduct]
  rw [angularStep, this]
  exact C76_zero_axis _ _

/-- `angular_and_vertical_stepping` ends at radius `|R + v[4] h|`. -/
theorem C76_vertical_step (x v : Fin 3 → ℝ) (vv h : ℝ) (hc : Num.crossProduct x v ≠ 0) :
    ∃ y, angularVerticalStep x v vv h = some y ∧ norm3 y = |norm3 x + vv * h| := by
  have hx : norm3 x ≠ 0 := by
    intro h0
    apply hc
    rw [(norm3_eq_zero x).1 h0]
    funext i; fin_cases i <;> simp [Num.crossProduct]
  obtain ⟨y, hy, hn⟩ := C76_keeps_norm (Num.crossProduct x v) x (h * (norm3 v / norm3 x)) hc
  refine ⟨fun i => y i * (norm3 x + vv * h) / norm3 x, by simp only [angularVerticalStep, hy], ?_⟩
  refine norm3_eq (abs_nonneg _) ?_
  have hy2 := norm3_sq y
  rw [hn] at hy2
  rw [sq_abs]
  field_simp
  linear_combination (-(norm3 x + vv * h) ^ 2) * hy2

/-- With a tangential velocity, `angular_and_vertical_stepping` moves along the great circle as `angular_stepping` does,
scales the position by `(R + v[4] h) / R`, and advances the time by `h v[3]`. -/
theorem C76_vertical_step_exact (x : Fin 4 → ℝ) (v : Fin 5 → ℝ) (h : ℝ) (hx : ![x 0, x 1, x 2] ≠ 0)
    (hv : ![v 0, v 1, v 2] ≠ 0) (ho : Orth ![x 0, x 1, x 2] ![v 0, v 1, v 2]) :
    ∃ y, avStep4 x v h = some y ∧ y 3 = x 3 + h * v 3 ∧
      let R := norm3 ![x 0, x 1, x 2]
      let V := norm3 ![v 0, v 1, v 2]
      ∀ i : Fin 3, (![y 0, y 1, y 2] : Fin 3 → ℝ) i = (R + v 4 * h) / R *
        (Real.cos (h * V / R) * (![x 0, x 1, x 2] : Fin 3 → ℝ) i +
          Real.sin (h * V / R) * (R / V) * (![v 0, v 1, v 2] : Fin 3 → ℝ) i) := by
  obtain ⟨y, hy, _, he⟩ := C76_angular_step ![x 0, x 1, x 2] ![v 0, v 1, v 2] h hx hv ho
  rw [angularStep] at hy
  refine ⟨_, by simp only [avStep4, angularVerticalStep, hy]; rfl, by simp, fun i => ?_⟩
  have hi := congrFun he i
  rw [← hi]
  fin_cases i <;> simp <;> ring

/-- `spherical_stepping` stays on the sphere. -/
theorem C76_spherical_step (x v : Fin 3 → ℝ) (h : ℝ) (hne : (fun k => x k + h * v k) ≠ 0) :
    ∃ y, sphericalStep x v h = some y ∧ norm3 y = norm3 x ∧ ∃ r : ℝ, 0 ≤ r ∧ ∀ k, y k = r * (x k + h * v k) := by
  have hn : norm3 (fun k => x k + h * v k) ≠ 0 := fun h0 => hne ((norm3_eq_zero _).1 h0)
  refine ⟨_, if_neg hn, norm3_eq (norm3_nonneg x) ?_, norm3 x / norm3 (fun k => x k + h * v k),
    div_nonneg (norm3_nonneg _) (norm3_nonneg _), fun k => by ring⟩
  have h2 := norm3_sq (fun k => x k + h * v k)
  generalize norm3 (fun k => x k + h * v k) = N at *
  field_simp
  linear_combination (-(norm3 x ^ 2)) * h2

/-- The fourth-order spherical step: on success the radius has changed by `h` times the weighted mean of the four vertical
velocities, and the time by `h` times that of the fourth channel; on failure the particle has not moved. -/
theorem C76_spherical_rk4 (f : (Fin 4 → ℝ) → Option (Fin 5 → ℝ)) (h : ℝ) (x y : Fin 4 → ℝ) (ok : Bool)
    (hy : sphericalRk4 f h x = some (ok, y)) :
    (ok = false → y = x) ∧
    (ok = true → ∃ (p2 p3 p4 : Fin 4 → ℝ) (k1 k2 k3 k4 : Fin 5 → ℝ),
      f x = some k1 ∧ f p2 = some k2 ∧ f p3 = some k3 ∧ f p4 = some k4 ∧
      avStep4 x k1 (h / 2) = some p2 ∧ avStep4 x k2 (h / 2) = some p3 ∧ avStep4 x k3 h = some p4 ∧
      avStep4 x (fun i => (k1 i + 2 * k2 i + 2 * k3 i + k4 i) / 6) h = some y ∧
      norm3 ![y 0, y 1, y 2] = |norm3 ![x 0, x 1, x 2] + (k1 4 + 2 * k2 4 + 2 * k3 4 + k4 4) / 6 * h| ∧
      y 3 = x 3 + h * ((k1 3 + 2 * k2 3 + 2 * k3 3 + k4 3) / 6)) := by
  rw [sphericalRk4] at hy
  rcases h1 : f x with _ | k1
  · simp only [h1, Option.some.injEq, Prod.mk.injEq] at hy
    obtain ⟨rfl, rfl⟩ := hy
    exact ⟨fun _ => rfl, by simp⟩
  simp only [h1] at hy
  rcases h2 : avStep4 x k1 (h / 2) with _ | p2
  · simp [h2] at hy
  simp only [h2] at hy
  rcases h3 : f p2 with _ | k2
  · simp only [h3, Option.some.injEq, Prod.mk.injEq] at hy
    obtain ⟨rfl, rfl⟩ := hy
    exact ⟨fun _ => rfl, by simp⟩
  simp only [h3] at hy
  rcases h4 : avStep4 x k2 (h / 2) with _ | p3
  · simp [h4] at hy
  simp only [h4] at hy
  rcases h5 : f p3 with _ | k3
  · simp only [h5, Option.some.injEq, Prod.mk.injEq] at hy
    obtain ⟨rfl, rfl⟩ := hy
    exact ⟨fun _ => rfl, by simp⟩
  simp only [h5] at hy
  rcases h6 : avStep4 x k3 h with _ | p4
  · simp [h6] at hy
  simp only [h6] at hy
  rcases h7 : f p4 with _ | k4
  · simp only [h7, Option.some.injEq, Prod.mk.injEq] at hy
    obtain ⟨rfl, rfl⟩ := hy
    exact ⟨fun _ => rfl, by simp⟩
  simp only [h7] at hy
  rcases h8 : avStep4 x (fun i => (k1 i + 2 * k2 i + 2 * k3 i + k4 i) / 6) h with _ | z
  · simp [h8] at hy
  simp only [h8, Option.some.injEq, Prod.mk.injEq] at hy
  obtain ⟨rfl, rfl⟩ := hy
  refine ⟨by simp, fun _ => ⟨p2, p3, p4, k1, k2, k3, k4, rfl, h3, h5, h7, h2, h4, h6, h8, ?_, ?_⟩⟩
  · rw [avStep4] at h8
    obtain ⟨w, hw, rfl⟩ := Option.map_eq_some_iff.1 h8
    have hc : Num.crossProduct ![x 0, x 1, x 2] ![(k1 0 + 2 * k2 0 + 2 * k3 0 + k4 0) / 6,
        (k1 1 + 2 * k2 1 + 2 * k3 1 + k4 1) / 6, (k1 2 + 2 * k2 2 + 2 * k3 2 + k4 2) / 6] ≠ 0 := by
      intro h0
      simp only [angularVerticalStep, h0, C76_zero_axis] at hw
      cases hw
    obtain ⟨w', hw', hn⟩ := C76_vertical_step _ _ ((k1 4 + 2 * k2 4 + 2 * k3 4 + k4 4) / 6) h hc
    rw [hw'] at hw
    cases hw
    rw [← hn]
    congr 1
    funext i; fin_cases i <;> rfl
  · rw [avStep4] at h8
    obtain ⟨w, hw, rfl⟩ := Option.map_eq_some_iff.1 h8
    simp

/-- the hypotheses are met by a point of the sphere of radius 2 and a tangential velocity -/
example : (![2, 0, 0] : Fin 3 → ℝ) ≠ 0 ∧ (![0, 3, 0] : Fin 3 → ℝ) ≠ 0 ∧ Orth ![2, 0, 0] ![0, 3, 0] := by
  refine ⟨fun h => by simpa using congrFun h 0, fun h => by simpa using congrFun h 1, by simp [Orth]⟩
example : Num.crossProduct (![2, 0, 0] : Fin 3 → ℝ) ![0, 3, 0] ≠ 0 :=
  fun h => by simpa [Num.crossProduct] using congrFun h 2

end Verif.Ode
