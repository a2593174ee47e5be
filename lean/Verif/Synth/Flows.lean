import Verif.Synth.Model
import Mathlib.Tactic.Linarith
import Mathlib.Tactic.LinearCombination
import Mathlib.Tactic.FieldSimp
/-! C164 - C166: woven data and flows.  Statements use derivatives of Mathlib. -/
namespace Verif.Synth
open Real
open scoped Real

theorem array2_getElem {α : Type} (W H : Nat) (f : Nat → Nat → α) :
    (array2 W H f).length = W * H ∧ ∀ i j, i < W → j < H → (array2 W H f)[i + j * W]? = some (f i j) := by
  unfold array2
  induction H with
  | zero => simp
  | succ H ih =>
    rw [List.range_succ, List.flatMap_append]
    have hl := ih.1
    refine ⟨?_, ?_⟩
    · rw [List.length_append, hl]; simp [Nat.mul_succ]
    · intro i j hi hj
      by_cases h : j < H
      · rw [List.getElem?_append_left, ih.2 i j hi h]
        rw [hl]
        calc i + j * W < W + j * W := by omega
          _ = (j + 1) * W := by rw [Nat.add_mul]; omega
          _ ≤ H * W := Nat.mul_le_mul_right _ h
          _ = W * H := Nat.mul_comm _ _
      · have : j = H := by omega
        subst this
        rw [List.getElem?_append_right (by rw [hl, Nat.mul_comm]; omega), hl, Nat.mul_comm W j, Nat.add_sub_cancel]
        simp [hi]

/-- C164.  The gradient functions are the partial derivatives of the woven function. -/
theorem C164_gradient (x y t : ℝ) :
    HasDerivAt (fun x => woven x y t) (wovenGradX x y t) x ∧ HasDerivAt (fun y => woven x y t) (wovenGradY x y t) y := by
  constructor
  · unfold woven wovenGradX
    have h1 : HasDerivAt (fun x : ℝ => x * cos t - y * sin t) (1 * cos t) x := ((hasDerivAt_id x).mul_const (cos t)).sub_const _
    have h2 : HasDerivAt (fun x : ℝ => x * sin t + y * cos t) (1 * sin t) x := ((hasDerivAt_id x).mul_const (sin t)).add_const _
    refine (h1.cos.mul h2.sin).congr_deriv ?_
    ring
  · unfold woven wovenGradY
    have h1 : HasDerivAt (fun y : ℝ => x * cos t - y * sin t) (-(1 * sin t)) y := ((hasDerivAt_id y).mul_const (sin t)).const_sub _
    have h2 : HasDerivAt (fun y : ℝ => x * sin t + y * cos t) (1 * cos t) y := ((hasDerivAt_id y).mul_const (cos t)).const_add _
    refine (h1.cos.mul h2.sin).congr_deriv ?_
    ring

/-- C164.  The woven data rotate rigidly about the origin: value and critical points at time `t` are those at time 0 at the rotated place;
they repeat with period `2π`. -/
theorem C164_rotation (x y t : ℝ) :
    woven x y t = woven (x * cos t - y * sin t) (x * sin t + y * cos t) 0 ∧
    (wovenGradX x y t = 0 ∧ wovenGradY x y t = 0 ↔
      wovenGradX (x * cos t - y * sin t) (x * sin t + y * cos t) 0 = 0 ∧ wovenGradY (x * cos t - y * sin t) (x * sin t + y * cos t) 0 = 0) ∧
    woven x y (t + 2 * π) = woven x y t := by
  refine ⟨by simp [woven], ?_, by simp [woven, cos_add_two_pi, sin_add_two_pi]⟩
  have hs := sin_sq_add_cos_sq t
  simp only [wovenGradX, wovenGradY, cos_zero, sin_zero, mul_one, mul_zero, sub_zero, zero_add, add_zero, zero_mul]
  generalize x * cos t - y * sin t = u
  generalize x * sin t + y * cos t = v
  constructor
  · rintro ⟨h1, h2⟩
    exact ⟨by linear_combination cos t * h1 - sin t * h2 + sin u * sin v * hs, by linear_combination sin t * h1 + cos t * h2 - cos v * cos u * hs⟩
  · rintro ⟨h1, h2⟩
    exact ⟨by linear_combination cos t * h1 + sin t * h2, by linear_combination -sin t * h1 + cos t * h2⟩

/-- the critical points of the woven data at time 0: extrema where `x` is a multiple of π and `y` is π/2 off one, saddles the other way
round -/
theorem C164_critical_points (x y : ℝ) :
    (wovenGradX x y 0 = 0 ∧ wovenGradY x y 0 = 0 ↔ (sin x = 0 ∧ cos y = 0) ∨ (cos x = 0 ∧ sin y = 0)) := by
  simp only [wovenGradX, wovenGradY, cos_zero, sin_zero, mul_one, mul_zero, sub_zero, zero_add, add_zero, zero_mul]
  have hx := sin_sq_add_cos_sq x
  have hy := sin_sq_add_cos_sq y
  constructor
  · rintro ⟨h1, h2⟩
    rcases mul_eq_zero.1 h1 with h1 | h1
    · rcases mul_eq_zero.1 h2 with h2 | h2
      · exact Or.inl ⟨neg_eq_zero.1 h1, h2⟩
      · rw [neg_eq_zero.1 h1, h2] at hx; norm_num at hx
    · rcases mul_eq_zero.1 h2 with h2 | h2
      · rw [h1, h2] at hy; norm_num at hy
      · exact Or.inr ⟨h2, h1⟩
  · rintro (⟨h1, h2⟩ | ⟨h1, h2⟩) <;> simp [h1, h2]

/-- C164.  A part of the data is the restriction of the whole: vertex `(i, j)` of a part that starts at `(a, b)` has the value of vertex
`(i + a, j + b)`. -/
theorem C164_part (DW DH a b w h : Nat) (t s : ℝ) (hw : a + w ≤ DW) (hh : b + h ≤ DH) :
    (woven2D DW DH t s).length = DW * DH ∧ (woven2DPart DW DH a b w h t s).length = w * h ∧
    ∀ i j, i < w → j < h →
      ∃ v, (woven2DPart DW DH a b w h t s)[i + j * w]? = some v ∧ (woven2D DW DH t s)[(i + a) + (j + b) * DW]? = some v := by
  obtain ⟨l1, e1⟩ := array2_getElem DW DH (fun i j => woven (coord DW i s) (coord DH j s) t)
  obtain ⟨l2, e2⟩ := array2_getElem w h (fun i j => woven (coord DW (i + a) s) (coord DH (j + b) s) t)
  exact ⟨l1, l2, fun i j hi hj => ⟨_, e2 i j hi hj, e1 (i + a) (j + b) (by omega) (by omega)⟩⟩

example : 3 + 4 ≤ 10 ∧ 2 + 5 ≤ 10 := by decide

/-- C164.  The grid spans `[-s/2, s/2]` with equal distances, and the value at a vertex is the woven function there. -/
theorem C164_grid (DW DH : Nat) (hW : 2 ≤ DW) (t s : ℝ) :
    coord DW 0 s = -(s / 2) ∧ coord DW (DW - 1) s = s / 2 ∧ (∀ i, coord DW (i + 1) s - coord DW i s = s / ((DW : ℝ) - 1)) ∧
    ∀ i j, i < DW → j < DH → (woven2D DW DH t s)[i + j * DW]? = some (woven (coord DW i s) (coord DH j s) t) := by
  have h2 : (2 : ℝ) ≤ DW := by exact_mod_cast hW
  have hne : (DW : ℝ) - 1 ≠ 0 := by linarith
  refine ⟨?_, ?_, ?_, (array2_getElem DW DH _).2⟩
  · unfold coord; simp; ring
  · unfold coord; rw [Nat.cast_sub (by omega), Nat.cast_one, div_self hne]; ring
  · intro i; unfold coord; push_cast; field_simp; ring

/-- C164.  The capped gradient: at a vertex whose value is below the cap the gradient, elsewhere zero; the third component is zero. -/
theorem C164_capped (DW DH : Nat) (t cap s : ℝ) (i j : Nat) (hi : i < DW) (hj : j < DH) :
    ∃ g, (cappedGrad DW DH t cap s)[i + j * DW]? = some g ∧ g.length = 3 ∧ g[2]? = some 0 ∧
      (woven (coord DW i s) (coord DH j s) t < cap →
        ∃ gx gy, g[0]? = some gx ∧ g[1]? = some gy ∧ HasDerivAt (fun x => woven x (coord DH j s) t) gx (coord DW i s) ∧
          HasDerivAt (fun y => woven (coord DW i s) y t) gy (coord DH j s)) ∧
      (cap ≤ woven (coord DW i s) (coord DH j s) t → g[0]? = some 0 ∧ g[1]? = some 0) := by
  have := (array2_getElem DW DH (fun i j =>
    if woven (coord DW i s) (coord DH j s) t < cap then
      [wovenGradX (coord DW i s) (coord DH j s) t, wovenGradY (coord DW i s) (coord DH j s) t, 0]
    else [0, 0, 0])).2 i j hi hj
  refine ⟨_, this, ?_⟩
  obtain ⟨g1, g2⟩ := C164_gradient (coord DW i s) (coord DH j s) t
  by_cases hc : woven (coord DW i s) (coord DH j s) t < cap
  · rw [if_pos hc]
    exact ⟨rfl, rfl, fun _ => ⟨_, _, rfl, rfl, g1, g2⟩, fun h => absurd hc (not_lt.2 h)⟩
  · rw [if_neg hc]
    exact ⟨rfl, rfl, fun h => absurd h hc, fun _ => ⟨rfl, rfl⟩⟩

/-! ### C165: double gyre -/

theorem gyreF_deriv (ε ω x t : ℝ) : HasDerivAt (fun x => gyreF ε ω x t) (gyreDf ε ω x t) x := by
  unfold gyreF gyreDf
  have h : HasDerivAt (fun x : ℝ => gyreA ε ω t * x * x + gyreB ε ω t * x)
      ((gyreA ε ω t * 1) * x + (gyreA ε ω t * x) * 1 + gyreB ε ω t * 1) x :=
    (((hasDerivAt_id x).const_mul (gyreA ε ω t)).mul (hasDerivAt_id x)).add ((hasDerivAt_id x).const_mul _)
  exact h.congr_deriv (by ring)

/-- C165.  The double gyre has a stream function `ψ = A sin(π f) sin(π y)`: `u = -∂ψ/∂y`, `v = ∂ψ/∂x` at every place and time. -/
theorem C165_stream_function (x y t A ω ε : ℝ) :
    HasDerivAt (fun y => A * sin (π * gyreF ε ω x t) * sin (π * y)) (-gyreU x y t A ω ε) y ∧
    HasDerivAt (fun x => A * sin (π * gyreF ε ω x t) * sin (π * y)) (gyreV x y t A ω ε) x := by
  constructor
  · have h : HasDerivAt (fun y : ℝ => π * y) (π * 1) y := (hasDerivAt_id y).const_mul π
    refine (h.sin.const_mul (A * sin (π * gyreF ε ω x t))).congr_deriv ?_
    unfold gyreU; ring
  · have h := (gyreF_deriv ε ω x t).const_mul π
    refine ((h.sin.const_mul A).mul_const (sin (π * y))).congr_deriv ?_
    unfold gyreV; ring

/-- C165.  The flow is free of divergence. -/
theorem C165_divergence (x y t A ω ε : ℝ) :
    ∃ ux vy, HasDerivAt (fun x => gyreU x y t A ω ε) ux x ∧ HasDerivAt (fun y => gyreV x y t A ω ε) vy y ∧ ux + vy = 0 := by
  have h := (gyreF_deriv ε ω x t).const_mul π
  have hy : HasDerivAt (fun y : ℝ => π * y) (π * 1) y := (hasDerivAt_id y).const_mul π
  refine ⟨_, _, (h.sin.const_mul (-π * A)).mul_const (cos (π * y)), (hy.sin.const_mul (π * A * cos (π * gyreF ε ω x t))).mul_const _, ?_⟩
  ring

/-- C165.  Nothing leaves the domain `[0,2]x[0,1]`, at no time; the flow has period `2π/ω`. -/
theorem C165_boundary (x y t A ω ε : ℝ) :
    gyreU 0 y t A ω ε = 0 ∧ gyreU 2 y t A ω ε = 0 ∧ gyreV x 0 t A ω ε = 0 ∧ gyreV x 1 t A ω ε = 0 ∧
    (ω ≠ 0 → gyreU x y (t + 2 * π / ω) A ω ε = gyreU x y t A ω ε ∧ gyreV x y (t + 2 * π / ω) A ω ε = gyreV x y t A ω ε) := by
  refine ⟨by simp [gyreU, gyreF], ?_, by simp [gyreV], by simp [gyreV], ?_⟩
  · have : gyreF ε ω 2 t = 2 := by unfold gyreF gyreA gyreB; ring
    unfold gyreU
    rw [this, mul_comm π 2, sin_two_pi]; ring
  · intro hω
    have e : ω * (t + 2 * π / ω) = ω * t + 2 * π := by field_simp
    have : sin (ω * (t + 2 * π / ω)) = sin (ω * t) := by rw [e, sin_add_two_pi]
    unfold gyreU gyreV gyreF gyreDf gyreA gyreB
    rw [this]
    exact ⟨rfl, rfl⟩

/-- C165.  On the grid: no flow across the left, right, lower and upper vertices. -/
theorem C165_grid (DW DH : Nat) (hW : 2 ≤ DW) (hH : 2 ≤ DH) (t A ω ε : ℝ) :
    (∀ i j, i < DW → j < DH → (gyreGrid DW DH t A ω ε)[i + j * DW]? =
      some (gyreU ((i : ℝ) / ((DW : ℝ) - 1) * 2) ((j : ℝ) / ((DH : ℝ) - 1)) t A ω ε,
        gyreV ((i : ℝ) / ((DW : ℝ) - 1) * 2) ((j : ℝ) / ((DH : ℝ) - 1)) t A ω ε)) ∧
    (∀ i j, i < DW → j < DH → ∀ uv, (gyreGrid DW DH t A ω ε)[i + j * DW]? = some uv →
      (i = 0 ∨ i + 1 = DW → uv.1 = 0) ∧ (j = 0 ∨ j + 1 = DH → uv.2 = 0)) := by
  have hg := (array2_getElem DW DH (fun i j => (gyreU ((i : ℝ) / ((DW : ℝ) - 1) * 2) ((j : ℝ) / ((DH : ℝ) - 1)) t A ω ε,
        gyreV ((i : ℝ) / ((DW : ℝ) - 1) * 2) ((j : ℝ) / ((DH : ℝ) - 1)) t A ω ε))).2
  refine ⟨hg, ?_⟩
  intro i j hi hj uv huv
  obtain rfl := Option.some.inj ((hg i j hi hj).symm.trans huv)
  have hne : ∀ D : Nat, 2 ≤ D → (D : ℝ) - 1 ≠ 0 := by
    intro D hD
    have : (2 : ℝ) ≤ D := by exact_mod_cast hD
    linarith
  constructor
  · rintro (rfl | h)
    · simp only [Nat.cast_zero, zero_div, zero_mul]; exact (C165_boundary 0 _ t A ω ε).1
    · have : (i : ℝ) = (DW : ℝ) - 1 := by rw [← h]; push_cast; ring
      simp only [this, div_self (hne DW hW), one_mul]; exact (C165_boundary 0 _ t A ω ε).2.1
  · rintro (rfl | h)
    · simp only [Nat.cast_zero, zero_div]; exact (C165_boundary _ 0 t A ω ε).2.2.1
    · have : (j : ℝ) = (DH : ℝ) - 1 := by rw [← h]; push_cast; ring
      simp only [this, div_self (hne DH hH)]; exact (C165_boundary _ 0 t A ω ε).2.2.2.1

/-- the flow is not trivial -/
example : gyreU (1 / 2) 0 0 1 1 0 = -π := by
  have : π * (1 / 2) = π / 2 := by ring
  simp only [gyreU, gyreF, gyreA, gyreB, mul_zero, sin_zero, sub_zero, zero_mul, zero_add, one_mul, mul_one, cos_zero, this, sin_pi_div_two]

/-! ### C166: ABC flow -/

/-- C166.  The ABC flow is free of divergence and a Beltrami flow: its curl is the velocity itself. -/
theorem C166_abc (A B C x y z : ℝ) :
    ∃ uy uz vx vz wx wy,
      HasDerivAt (fun x => (abc A B C x y z).1) 0 x ∧ HasDerivAt (fun y => (abc A B C x y z).1) uy y ∧ HasDerivAt (fun z => (abc A B C x y z).1) uz z ∧
      HasDerivAt (fun x => (abc A B C x y z).2.1) vx x ∧ HasDerivAt (fun y => (abc A B C x y z).2.1) 0 y ∧ HasDerivAt (fun z => (abc A B C x y z).2.1) vz z ∧
      HasDerivAt (fun x => (abc A B C x y z).2.2) wx x ∧ HasDerivAt (fun y => (abc A B C x y z).2.2) wy y ∧ HasDerivAt (fun z => (abc A B C x y z).2.2) 0 z ∧
      wy - vz = (abc A B C x y z).1 ∧ uz - wx = (abc A B C x y z).2.1 ∧ vx - uy = (abc A B C x y z).2.2 := by
  unfold abc
  refine ⟨C * -sin y, A * cos z, B * cos x, A * -sin z, B * -sin x, C * cos y, hasDerivAt_const _ _,
    ((hasDerivAt_cos y).const_mul C).const_add _, ((hasDerivAt_sin z).const_mul A).add_const _,
    ((hasDerivAt_sin x).const_mul B).add_const _, hasDerivAt_const _ _, ((hasDerivAt_cos z).const_mul A).const_add _,
    ((hasDerivAt_cos x).const_mul B).const_add _, ((hasDerivAt_sin y).const_mul C).add_const _, hasDerivAt_const _ _, ?_, ?_, ?_⟩ <;> ring

/-- C166.  Vertex `(i, j, k)` has the velocity at its place in the cube `[0, 2π]³`, and opposite sides of the cube have the same
velocities. -/
theorem C166_grid (DW DH DD : Nat) (A B C : ℝ) :
    (abcGrid DW DH DD A B C).length = DW * DH * DD ∧
    (∀ i j k, i < DW → j < DH → k < DD → (abcGrid DW DH DD A B C)[i + j * DW + k * (DW * DH)]? =
      some (abc A B C ((i : ℝ) / ((DW : ℝ) - 1) * 2 * π) ((j : ℝ) / ((DH : ℝ) - 1) * 2 * π) ((k : ℝ) / ((DD : ℝ) - 1) * 2 * π))) ∧
    ∀ x y z, abc A B C (2 * π) y z = abc A B C 0 y z ∧ abc A B C x (2 * π) z = abc A B C x 0 z ∧ abc A B C x y (2 * π) = abc A B C x y 0 := by
  have hlen : ∀ k : Nat, (array2 DW DH (fun i j =>
    abc A B C ((i : ℝ) / ((DW : ℝ) - 1) * 2 * π) ((j : ℝ) / ((DH : ℝ) - 1) * 2 * π) ((k : ℝ) / ((DD : ℝ) - 1) * 2 * π))).length = DW * DH :=
    fun k => (array2_getElem DW DH _).1
  have key : ∀ (DD' k : Nat) (g : Nat → List (ℝ × ℝ × ℝ)) (n : Nat), (∀ k, (g k).length = n) →
      ((List.range DD').flatMap g).length = n * DD' ∧ (k < DD' → ∀ m, m < n → ((List.range DD').flatMap g)[m + k * n]? = (g k)[m]?) := by
    intro DD' k g n hg
    induction DD' with
    | zero => simp
    | succ D ih =>
      rw [List.range_succ, List.flatMap_append]
      refine ⟨by rw [List.length_append, ih.1]; simp [hg, Nat.mul_succ], ?_⟩
      intro hk m hm
      by_cases h : k < D
      · rw [List.getElem?_append_left, ih.2 h m hm]
        rw [ih.1]
        calc m + k * n < n + k * n := by omega
          _ = (k + 1) * n := by rw [Nat.add_mul]; omega
          _ ≤ D * n := Nat.mul_le_mul_right _ h
          _ = n * D := Nat.mul_comm _ _
      · have : k = D := by omega
        subst this
        rw [List.getElem?_append_right (by rw [ih.1, Nat.mul_comm]; omega), ih.1, Nat.mul_comm n k, Nat.add_sub_cancel]
        simp
  have hbound : ∀ i j, i < DW → j < DH → i + j * DW < DW * DH := by
    intro i j hi hj
    calc i + j * DW < DW + j * DW := by omega
      _ = (j + 1) * DW := by rw [Nat.add_mul]; omega
      _ ≤ DH * DW := Nat.mul_le_mul_right _ hj
      _ = DW * DH := Nat.mul_comm _ _
  refine ⟨(key DD 0 _ _ hlen).1, ?_, ?_⟩
  · intro i j k hi hj hk
    unfold abcGrid
    rw [(key DD k _ _ hlen).2 hk _ (hbound i j hi hj), (array2_getElem DW DH _).2 i j hi hj]
  · intro x y z; simp [abc]

end Verif.Synth
