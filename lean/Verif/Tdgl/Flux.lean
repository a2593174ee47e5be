import Verif.Tdgl.Conserve
/-! C105: the circulation of the potential around a triangle and the flux of the magnetic field. -/
namespace Verif.Tdgl
open Verif.SRM
open Real (pi)

/-- (specification) twice the oriented area vector of the triangle `P`, `Q`, `R` -/
def area2 (P Q R : Fin 3 → ℝ) : Fin 3 → ℝ := fun j => match j with
  | 0 => (Q 1 - P 1) * (R 2 - P 2) - (Q 2 - P 2) * (R 1 - P 1)
  | 1 => (Q 2 - P 2) * (R 0 - P 0) - (Q 0 - P 0) * (R 2 - P 2)
  | 2 => (Q 0 - P 0) * (R 1 - P 1) - (Q 1 - P 1) * (R 0 - P 0)

/-- (specification) the flux of a constant field `B` through the triangle `P`, `Q`, `R` -/
noncomputable def flux (B P Q R : Fin 3 → ℝ) : ℝ :=
  (B 0 * area2 P Q R 0 + B 1 * area2 P Q R 1 + B 2 * area2 P Q R 2) / 2

/-- C105: the exact circulation of the potential around a triangle read from one snapshot: the flux of the field without its
first component if the second is positive, and without its second component otherwise. -/
theorem C105_circulation (m : Meta) (vs : Fin 3 → Vtx) (vals : Fin 3 → Val) (hm : ∀ i, (vals i).md = m) :
    integrals vs vals 0 + integrals vs vals 1 + integrals vs vals 2 =
      flux (if 0 < m.B 1 then ![0, m.B 1, m.B 2] else ![m.B 0, 0, m.B 2])
        (gridPos m (vs 0)) (gridPos m (vs 1)) (gridPos m (vs 2)) := by
  have eg : ∀ v, gridPos m v = coords m v := fun v => by
    funext j
    unfold gridPos coords
    ring
  simp only [eg]
  have e1 : (1 : Fin 3) + 1 = 2 := rfl
  have e2 : (2 : Fin 3) + 1 = 0 := rfl
  by_cases h : 0 < m.B 1
  · simp only [integrals, edgeIntegral, lineIntegral, potential, hm, gt_iff_lt, h, if_true, zero_add, e1, e2, flux, area2]
    simp
    ring
  · simp only [integrals, edgeIntegral, lineIntegral, potential, hm, gt_iff_lt, h, if_false, zero_add, e1, e2, flux, area2]
    simp
    ring

/-- C105, what holds of the flux: the circulation is the flux of the field if the second component is 0, or if it is positive
and the first is 0.  What is missing: in the other cases a component is lost (`C105_flux_lost`). -/
theorem C105_flux_partial (m : Meta) (vs : Fin 3 → Vtx) (vals : Fin 3 → Val) (hm : ∀ i, (vals i).md = m)
    (hB : m.B 1 = 0 ∨ (0 < m.B 1 ∧ m.B 0 = 0)) :
    integrals vs vals 0 + integrals vs vals 1 + integrals vs vals 2 =
      flux m.B (gridPos m (vs 0)) (gridPos m (vs 1)) (gridPos m (vs 2)) := by
  rw [C105_circulation m vs vals hm]
  rcases hB with h | ⟨h, h0⟩
  · rw [if_neg (by rw [h]; exact lt_irrefl _)]
    simp [flux, h]
  · rw [if_pos h]
    simp [flux, h0]

/-- C105: whatever the time steps the vertices are read from, the gauge of `kex` does not matter to the circulation of a
triangle read from one snapshot. -/
theorem C105_kex (m : Meta) (k : ℝ) (vs : Fin 3 → Vtx) (vals : Fin 3 → Val) (hm : ∀ i, (vals i).md = m) :
    integrals vs vals 0 + integrals vs vals 1 + integrals vs vals 2 =
      integrals vs (fun i => { vals i with md := { m with kex := k } }) 0 +
      integrals vs (fun i => { vals i with md := { m with kex := k } }) 1 +
      integrals vs (fun i => { vals i with md := { m with kex := k } }) 2 := by
  rw [C105_circulation m vs vals hm, C105_circulation { m with kex := k } vs _ (fun i => rfl)]
  rfl

/-- a triangle in the plane of the first and third axes -/
def xz : Fin 3 → Vtx := ![[0, 0, 0, 0], [1, 0, 0, 0], [1, 0, 1, 0]]

/-- C105, a violation: a field along the negative second axis has a flux through the triangle, and the potential that is used
does not circulate around it. -/
theorem C105_flux_lost : let m := unitMeta ![0, -1, 0]
    let vals : Fin 3 → Val := fun _ => ⟨1, 0, m⟩
    integrals xz vals 0 + integrals xz vals 1 + integrals xz vals 2 = 0 ∧
      flux m.B (gridPos m (xz 0)) (gridPos m (xz 1)) (gridPos m (xz 2)) = 1 / 2 := by
  intro m vals
  constructor
  · rw [C105_circulation m xz vals (fun _ => rfl)]
    have : ¬ (0 : ℝ) < m.B 1 := by
      simp only [m, unitMeta]
      norm_num
    rw [if_neg this]
    simp [flux, m, unitMeta]
  · simp [flux, area2, m, unitMeta, gridPos, coords, xz]

/-- C105, another violation: with a positive second component the first one is lost. -/
theorem C105_flux_lost_first : let m := unitMeta ![1, 1, 0]
    let vals : Fin 3 → Val := fun _ => ⟨1, 0, m⟩
    let yz : Fin 3 → Vtx := ![[0, 0, 0, 0], [0, 1, 0, 0], [0, 1, 1, 0]]
    integrals yz vals 0 + integrals yz vals 1 + integrals yz vals 2 = 0 ∧
      flux m.B (gridPos m (yz 0)) (gridPos m (yz 1)) (gridPos m (yz 2)) = 1 / 2 := by
  intro m vals yz
  constructor
  · rw [C105_circulation m yz vals (fun _ => rfl)]
    have : (0 : ℝ) < m.B 1 := by
      simp [m, unitMeta]
    rw [if_pos this]
    simp [flux, area2, m, unitMeta, yz, gridPos, coords]
  · simp [flux, area2, m, unitMeta, gridPos, coords, yz]

/-- the hypotheses of C105 are met: a field along the third axis and a triangle of the first two axes -/
example : let m := unitMeta ![0, 0, 3]
    integrals ![[0, 0, 0, 0], [1, 0, 0, 0], [1, 1, 0, 0]] (fun _ => ⟨1, 0, m⟩) 0 +
    integrals ![[0, 0, 0, 0], [1, 0, 0, 0], [1, 1, 0, 0]] (fun _ => ⟨1, 0, m⟩) 1 +
    integrals ![[0, 0, 0, 0], [1, 0, 0, 0], [1, 1, 0, 0]] (fun _ => ⟨1, 0, m⟩) 2 = 3 / 2 := by
  intro m
  rw [C105_flux_partial m _ _ (fun _ => rfl) (Or.inl (by simp [m, unitMeta]))]
  simp [flux, area2, m, unitMeta, gridPos, coords]

/-- C106: the place of the point is gauge invariant: if the three values from which it is computed are not on a line, the weights
of the vertices are the same in every gauge. -/
theorem C106_place (degen : (Fin 3 → Fin 2 → ℝ) → Fin 3 → ℝ) (rho phi li chi : Fin 3 → ℝ)
    (hd : cross2 (psi rho phi li 0) (psi rho phi li 1) + cross2 (psi rho phi li 1) (psi rho phi li 2) +
      cross2 (psi rho phi li 2) (psi rho phi li 0) ≠ 0) :
    weights degen (psi rho (fun i => phi i + chi i) (fun i => li i + (chi (i + 1) - chi i))) = weights degen (psi rho phi li) := by
  have h := (C106_gauge rho phi li chi).2
  obtain ⟨h1, h2⟩ := (weights_of (degen := degen) hd _).2 rfl
  have hcs := Real.sin_sq_add_cos_sq (chi 0)
  have hc : ∀ a b : Fin 2 → ℝ, cross2 ![Real.cos (chi 0) * a 0 - Real.sin (chi 0) * a 1, Real.sin (chi 0) * a 0 + Real.cos (chi 0) * a 1]
      ![Real.cos (chi 0) * b 0 - Real.sin (chi 0) * b 1, Real.sin (chi 0) * b 0 + Real.cos (chi 0) * b 1] = cross2 a b := by
    intro a b
    unfold cross2
    simp only [Matrix.cons_val_zero, Matrix.cons_val_one]
    linear_combination (a 0 * b 1 - a 1 * b 0) * hcs
  refine ((weights_of ?_ _).1 ⟨h1, fun j => ?_⟩).symm
  · rw [h, h, h, hc, hc, hc]
    exact hd
  · rw [h, h, h]
    have z0 := h2 0
    have z1 := h2 1
    fin_cases j
    · simp only [Fin.zero_eta, Matrix.cons_val_zero]
      linear_combination Real.cos (chi 0) * z0 - Real.sin (chi 0) * z1
    · simp only [Fin.mk_one, Matrix.cons_val_one, Matrix.cons_val_zero]
      linear_combination Real.sin (chi 0) * z0 + Real.cos (chi 0) * z1

end Verif.Tdgl
