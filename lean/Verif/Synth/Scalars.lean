import Verif.Synth.Model
import Verif.Lattice.Props
import Mathlib.Data.List.GetD
import Mathlib.Algebra.Order.Field.Basic
import Mathlib.Algebra.Order.Ring.Rat
import Mathlib.Algebra.Field.Rat
import Mathlib.Algebra.Order.Field.Rat
import Mathlib.Tactic.Linarith
import Mathlib.Tactic.LinearCombination
import Mathlib.Tactic.Positivity
/-! C167, C168: moving extremum, ramps, volcano and merger. -/
namespace Verif.Synth
open Real
open scoped Real

section ring
variable {R : Type} [CommRing R]

theorem sqDist_foldl (l : List (R × R)) (a : R) : l.foldl (fun d p => d + (p.1 - p.2) ^ 2) a = a + (l.map (fun p => (p.1 - p.2) ^ 2)).sum := by
  induction l generalizing a with
  | nil => simp
  | cons p l ih => rw [List.foldl_cons, ih, List.map_cons, List.sum_cons]; ring

theorem sqDist_nil (c : List R) : sqDist [] c = 0 := by simp [sqDist]

theorem sqDist_cons (x : R) (xs : List R) (c : R) (cs : List R) : sqDist (x :: xs) (c :: cs) = (x - c) ^ 2 + sqDist xs cs := by
  unfold sqDist
  rw [sqDist_foldl, sqDist_foldl]; simp

theorem centre_length (x0 dir : List R) (t : R) (h : dir.length = x0.length) : (centre x0 dir t).length = x0.length := by
  simp [centre, h]

end ring

section ord
variable {R : Type} [Field R] [LinearOrder R] [IsStrictOrderedRing R]

theorem sqDist_nonneg : ∀ (x c : List R), 0 ≤ sqDist x c := by
  intro x
  induction x with
  | nil => intro c; rw [sqDist_nil]
  | cons a x ih =>
    intro c
    cases c with
    | nil => simp [sqDist]
    | cons b c => rw [sqDist_cons]; have := ih c; positivity

theorem sqDist_zero : ∀ (x c : List R), x.length = c.length → (sqDist x c = 0 ↔ x = c) := by
  intro x
  induction x with
  | nil => intro c h; cases c with
    | nil => simp [sqDist]
    | cons b c => simp at h
  | cons a x ih =>
    intro c h
    cases c with
    | nil => simp at h
    | cons b c =>
      rw [sqDist_cons]
      have h1 := sqDist_nonneg x c
      have h2 := sq_nonneg (a - b)
      have hl : x.length = c.length := by simpa using h
      constructor
      · intro e
        have e1 : (a - b) ^ 2 = 0 := by linarith
        have e2 : sqDist x c = 0 := by linarith
        rw [(ih c hl).1 e2, sub_eq_zero.1 (pow_eq_zero_iff (two_ne_zero) |>.1 e1)]
      · intro e
        obtain ⟨rfl, rfl⟩ := List.cons.inj e
        rw [(ih x rfl).2 rfl]; ring

theorem int_near {R : Type} [Field R] [LinearOrder R] [IsStrictOrderedRing R] (v w : Int) (c : R) (h : |(v : R) - c| < 1 / 2) (hne : w ≠ v) :
    ((v : R) - c) ^ 2 < ((w : R) - c) ^ 2 := by
  obtain ⟨h1, h2⟩ := abs_lt.1 h
  rcases Int.lt_or_gt_of_ne hne with hlt | hgt
  · have : (w : R) + 1 ≤ v := by exact_mod_cast hlt
    nlinarith
  · have : (v : R) + 1 ≤ w := by exact_mod_cast hgt
    nlinarith

theorem int_near_le (v w : Int) (c : R) (h : |(v : R) - c| < 1 / 2) : ((v : R) - c) ^ 2 ≤ ((w : R) - c) ^ 2 := by
  by_cases hne : w = v
  · rw [hne]
  · exact (int_near v w c h hne).le

theorem nearest_le : ∀ (v w : List Int) (c : List R), v.length = c.length → w.length = c.length →
    List.Forall₂ (fun (a : Int) (b : R) => |(a : R) - b| < 1 / 2) v c →
    sqDist (v.map (fun (a : Int) => (a : R))) c ≤ sqDist (w.map (fun (a : Int) => (a : R))) c ∧
    (w ≠ v → sqDist (v.map (fun (a : Int) => (a : R))) c < sqDist (w.map (fun (a : Int) => (a : R))) c) := by
  intro v w c hv hw h
  induction h generalizing w with
  | nil =>
    have : w = [] := by simpa using hw
    subst this
    simp [sqDist]
  | @cons a b v c hab hh ih =>
    cases w with
    | nil => simp at hw
    | cons w0 w =>
      simp only [List.map_cons, sqDist_cons]
      obtain ⟨i1, i2⟩ := ih w (by simpa using hv) (by simpa using hw)
      have hle := int_near_le a w0 b hab
      refine ⟨by linarith, ?_⟩
      intro hne
      by_cases h0 : w0 = a
      · subst h0
        have := i2 (fun e => hne (by rw [e]))
        linarith
      · have := int_near a w0 b hab h0
        linarith

theorem fromInteger_some (shape : List Nat) (hs : shape ≠ []) (i : Nat) (hi : i < shape.prod) :
    ∃ x, (shapeLattice shape).fromInteger i = some x ∧ Lat.InBox (shapeLattice shape) x := by
  obtain ⟨x, h1, h2, _⟩ := (Lat.C08_lattice_index_bijection (shapeLattice shape)
    ⟨by simp [shapeLattice], by simpa [shapeLattice] using List.length_pos_iff.2 hs⟩).2.2 i hi
  exact ⟨x, h1, h2⟩

theorem inBox_length {shape : List Nat} {x : List Int} (h : Lat.InBox (shapeLattice shape) x) : x.length = shape.length := by
  have := h.1
  simpa [Lat.Lattice.nd, shapeLattice] using this

/-- C167.  Every element of the moving extremum is the squared distance of its vertex (the element's indices) from the centre
`x0 + dir t`: it is never negative, and 0 exactly at the centre. -/
theorem C167_distance (shape : List Nat) (hs : shape ≠ []) (x0 dir : List R) (h0 : x0.length = shape.length) (hd : dir.length = shape.length)
    (t : R) (i : Nat) (hi : i < shape.prod) :
    ∃ x d, (shapeLattice shape).fromInteger i = some x ∧ x.length = shape.length ∧ movingExtremum shape x0 dir t i = some d ∧
      d = ((List.range shape.length).map (fun j => (((x.getD j 0 : Int) : R) - (x0.getD j 0 + dir.getD j 0 * t)) ^ 2)).sum ∧
      0 ≤ d ∧ (d = 0 ↔ x.map (fun (a : Int) => (a : R)) = centre x0 dir t) := by
  obtain ⟨x, h1, h2⟩ := fromInteger_some shape hs i hi
  have hx := inBox_length h2
  have hc : (centre x0 dir t).length = shape.length := by rw [centre_length _ _ _ (by omega), h0]
  refine ⟨x, sqDist (x.map (fun (a : Int) => (a : R))) (centre x0 dir t), h1, hx, by unfold movingExtremum; rw [h1]; rfl, ?_, sqDist_nonneg _ _,
    sqDist_zero _ _ (by rw [List.length_map, hx, hc])⟩
  unfold sqDist
  rw [sqDist_foldl, zero_add]
  congr 1
  apply List.ext_getElem
  · simp [hx, hc]
  · intro k k1 k2
    have hk : k < shape.length := by simpa using k2
    simp only [List.getElem_map, List.getElem_zip, List.getElem_range, centre]
    rw [List.getD_eq_getElem _ _ (by omega), List.getD_eq_getElem _ _ (by omega), List.getD_eq_getElem _ _ (by omega)]

/-- C167.  If a vertex is less than half a cell from the centre in every direction, then its value is strictly below the value at every
other vertex: the tracked minimum is where it should be. -/
theorem C167_minimum_partial (shape : List Nat) (x0 dir : List R) (h0 : x0.length = shape.length) (hd : dir.length = shape.length)
    (t : R) (i k : Nat) (v w : List Int) (hv : (shapeLattice shape).fromInteger i = some v) (hw : (shapeLattice shape).fromInteger k = some w)
    (hvl : v.length = shape.length) (hwl : w.length = shape.length) (hne : w ≠ v)
    (hnear : List.Forall₂ (fun (a : Int) (b : R) => |(a : R) - b| < 1 / 2) v (centre x0 dir t)) :
    ∃ a b, movingExtremum shape x0 dir t i = some a ∧ movingExtremum shape x0 dir t k = some b ∧ a < b := by
  have hc : (centre x0 dir t).length = shape.length := by rw [centre_length _ _ _ (by omega), h0]
  refine ⟨_, _, by unfold movingExtremum; rw [hv]; rfl, by unfold movingExtremum; rw [hw]; rfl, ?_⟩
  exact (nearest_le v w _ (by omega) (by omega) hnear).2 hne

/-- the centre moves with constant velocity `dir` -/
theorem C167_motion (x0 dir : List R) (t dt : R) : centre (centre x0 dir t) dir dt = centre x0 dir (t + dt) := by
  unfold centre
  induction x0 generalizing dir with
  | nil => simp
  | cons a x0 ih =>
    cases dir with
    | nil => simp
    | cons b dir =>
      simp only [List.zip_cons_cons, List.map_cons, ih, List.cons.injEq, and_true]
      ring

/-- the extremum of the command line defaults, at `(10, 10)` in a 21x21 grid, after five steps -/
example : (shapeLattice [21, 21]).fromInteger 220 = some [10, 10] ∧ centre [(10 : ℚ), 10] [1/10, 1/10] 4 = [104/10, 104/10] ∧
    movingExtremum [21, 21] [(10 : ℚ), 10] [1/10, 1/10] 4 220 = some (8/25) := by decide +kernel

/-- C167, a part that fails: the "gradient" of the moving extremum on an unstructured mesh is minus half of the gradient of the moving
extremum on the same mesh, so that the minimum looks like a maximum. -/
theorem C167_gradient_wrong (x0 dir : List ℝ) (t : ℝ) (x : List ℝ) (hl : x.length = (centre x0 dir t).length) (j : Nat) (hj : j < x.length) :
    ∃ g, (extremumGradAt x0 dir t x)[j]? = some g ∧
      HasDerivAt (fun y => extremumAt x0 dir t (x.set j y)) (-2 * g) (x.getD j 0) := by
  unfold extremumGradAt extremumAt
  generalize centre x0 dir t = c at *
  have hjc : j < c.length := by omega
  refine ⟨-(x[j] - c[j]), ?_, ?_⟩
  · rw [List.getElem?_map, List.getElem?_eq_getElem (by simp; omega)]
    simp
  · have key : ∀ (x c : List ℝ) (j : Nat) (hj : j < x.length) (hjc : j < c.length),
        HasDerivAt (fun y => sqDist (x.set j y) c) (2 * (x[j] - c[j])) (x[j]) := by
      intro x
      induction x with
      | nil => intro c j hj; simp at hj
      | cons a x ih =>
        intro c j hj hjc
        cases c with
        | nil => simp at hjc
        | cons b c =>
          cases j with
          | zero =>
            simp only [List.set_cons_zero, sqDist_cons, List.getElem_cons_zero]
            have h : HasDerivAt (fun y : ℝ => y - b) 1 a := (hasDerivAt_id a).sub_const b
            exact ((h.pow 2).add_const _).congr_deriv (by simp)
          | succ j =>
            simp only [List.set_cons_succ, sqDist_cons, List.getElem_cons_succ]
            exact (ih c j (by simpa using hj) (by simpa using hjc)).const_add _
    rw [List.getD_eq_getElem _ _ hj]
    exact (key x c j hj hjc).congr_deriv (by ring)

example : extremumGradAt [(0 : ℚ), 0] [0, 0] 0 [1, 2] = [-1, -2] ∧ extremumAt [(0 : ℚ), 0] [0, 0] 0 [1, 2] = 5 := by decide +kernel

/-! ### C168 -/

/-- C168.  The ramp: every vertex has the signed distance of its first index from the plane `x0 + rate t`, so the zero level is that
plane.  The dual ramp: the zero level is the two planes at the distance `rate t` from `x0`, nothing for negative `rate t`. -/
theorem C168_ramps (shape : List Nat) (hs : shape ≠ []) (x0 rate t : R) (i : Nat) (hi : i < shape.prod) :
    ∃ (x : Int) (xs : List Int), (shapeLattice shape).fromInteger i = some (x :: xs) ∧
      (∃ a, movingRamp shape x0 rate t i = some a ∧ a = (x : R) - (x0 + rate * t) ∧
        (a = 0 ↔ (x : R) = x0 + rate * t) ∧ (a < 0 ↔ (x : R) < x0 + rate * t)) ∧
      (∃ b, movingDualRamp shape x0 rate t i = some b ∧
        (b = 0 ↔ 0 ≤ rate * t ∧ ((x : R) = x0 + rate * t ∨ (x : R) = x0 - rate * t)) ∧
        (b < 0 ↔ x0 - rate * t < (x : R) ∧ (x : R) < x0 + rate * t)) := by
  obtain ⟨y, h1, h2⟩ := fromInteger_some shape hs i hi
  have hy := inBox_length h2
  cases y with
  | nil => exact absurd (List.length_eq_zero_iff.1 hy.symm) hs
  | cons x xs =>
    refine ⟨x, xs, h1, ⟨_, by unfold movingRamp; rw [h1]; rfl, rfl, ?_, ?_⟩, ⟨_, by unfold movingDualRamp; rw [h1]; rfl, ?_, ?_⟩⟩
    · exact sub_eq_zero
    · exact sub_neg
    · rw [sub_eq_zero]
      constructor
      · intro e
        refine ⟨by rw [← e]; exact abs_nonneg _, ?_⟩
        rcases abs_choice ((x : R) - x0) with h | h
        · left; rw [h] at e; linarith
        · right; rw [h] at e; linarith
      · rintro ⟨h, e | e⟩
        · rw [e, show x0 + rate * t - x0 = rate * t by ring, abs_of_nonneg h]
        · rw [e, show x0 - rate * t - x0 = -(rate * t) by ring, abs_neg, abs_of_nonneg h]
    · rw [sub_neg, abs_lt]
      constructor
      · rintro ⟨a, b⟩; constructor <;> linarith
      · rintro ⟨a, b⟩; constructor <;> linarith

example : movingRamp [5, 4, 3] (2 : ℚ) 1 1 3 = some 0 ∧ movingDualRamp [5, 4, 3] (2 : ℚ) 1 1 1 = some 0 ∧
    movingDualRamp [5, 4, 3] (2 : ℚ) 1 1 2 = some (-1) := by decide +kernel

/-- C168.  The volcano: values are positive and at most 1, and 1 exactly at vertices whose distance from `x0` is the radius (its square
the squared radius). -/
theorem C168_volcano (shape : List Nat) (hs : shape ≠ []) (x0 : List ℝ) (r : ℝ) (hr : 0 ≤ r) (i : Nat) (hi : i < shape.prod) :
    ∃ x v, (shapeLattice shape).fromInteger i = some x ∧ volcano shape x0 r i = some v ∧ 0 < v ∧ v ≤ 1 ∧
      (v = 1 ↔ sqDist (x.map (fun (a : Int) => (a : ℝ))) x0 = r ^ 2) := by
  obtain ⟨x, h1, h2⟩ := fromInteger_some shape hs i hi
  refine ⟨x, _, h1, by unfold volcano; rw [h1]; rfl, exp_pos _, ?_, ?_⟩
  · rw [exp_le_one_iff]
    have := sq_nonneg (sqrt (sqDist (x.map (fun (a : Int) => (a : ℝ))) x0) - r)
    linarith
  · rw [exp_eq_one_iff, neg_eq_zero, pow_eq_zero_iff two_ne_zero, sub_eq_zero, sqrt_eq_iff_mul_self_eq (sqDist_nonneg _ _) hr, eq_comm, pow_two]
    constructor <;> exact fun h => h.symm

theorem bump_le (cx cy x y : ℝ) : 0 < bump cx cy x y ∧ bump cx cy x y ≤ 1 ∧ (bump cx cy x y = 1 ↔ x = cx ∧ y = cy) := by
  unfold bump
  refine ⟨exp_pos _, ?_, ?_⟩
  · rw [exp_le_one_iff]; nlinarith [mul_self_nonneg (x - cx), mul_self_nonneg (y - cy)]
  · rw [exp_eq_one_iff, neg_eq_zero]
    constructor
    · intro h
      have h1 : (x - cx) * (x - cx) = 0 := by nlinarith [mul_self_nonneg (x - cx), mul_self_nonneg (y - cy)]
      have h2 : (y - cy) * (y - cy) = 0 := by nlinarith [mul_self_nonneg (x - cx), mul_self_nonneg (y - cy)]
      exact ⟨sub_eq_zero.1 (mul_self_eq_zero.1 h1), sub_eq_zero.1 (mul_self_eq_zero.1 h2)⟩
    · rintro ⟨rfl, rfl⟩; ring

/-- C168.  The merger: values are positive and at most 1, and 1 exactly at the places that a rotation by `t` brings to one of the
centres `(∓cos t, 1/10000)`; the two centres merge exactly when `cos t = 0`. -/
theorem C168_merger (x y t : ℝ) :
    0 < merger x y t ∧ merger x y t ≤ 1 ∧
    (merger x y t = 1 ↔ (x * cos t - y * sin t = -cos t ∨ x * cos t - y * sin t = cos t) ∧ x * sin t + y * cos t = 1 / 10000) ∧
    ((-cos t, (1 : ℝ) / 10000) = (cos t, 1 / 10000) ↔ cos t = 0) := by
  have e0 : sin (t - π / 2) = -cos t := by rw [sin_sub_pi_div_two]
  have e1 : sin (t + π / 2) = cos t := by rw [sin_add_pi_div_two]
  unfold merger
  dsimp only
  rw [e0, e1]
  generalize x * cos t - y * sin t = u
  generalize x * sin t + y * cos t = w
  obtain ⟨a1, a2, a3⟩ := bump_le (-cos t) (1 / 10000) u w
  obtain ⟨b1, b2, b3⟩ := bump_le (cos t) (1 / 10000) u w
  refine ⟨lt_max_of_lt_left a1, max_le a2 b2, ?_, ?_⟩
  · constructor
    · intro h
      rcases max_choice (bump (-cos t) (1 / 10000) u w) (bump (cos t) (1 / 10000) u w) with e | e
      · rw [e] at h; exact ⟨Or.inl (a3.1 h).1, (a3.1 h).2⟩
      · rw [e] at h; exact ⟨Or.inr (b3.1 h).1, (b3.1 h).2⟩
    · rintro ⟨h | h, hw⟩
      · rw [a3.2 ⟨h, hw⟩]; exact max_eq_left b2
      · rw [b3.2 ⟨h, hw⟩]; exact max_eq_right a2
  · simp only [Prod.mk.injEq, and_true]
    constructor
    · intro h; linarith
    · intro h; rw [h]; simp

end ord
end Verif.Synth
