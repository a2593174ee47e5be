import Verif.MPAS.Locate
import Verif.Num.Lerp

/-!
# C153: from values at cells to values at vertices
-/

namespace Verif.MPAS

open Verif.Num

variable {K : Type} [Field K] [LinearOrder K] [IsStrictOrderedRing K]

/-- (specification) the three cells around vertex `v`. -/
def Mesh.around (m : Mesh K) (v : Nat) (j : Fin 3) : Int := m.cid2i (m.cellsOnVertex j v)

omit [LinearOrder K] [IsStrictOrderedRing K] in
theorem gram_det (X : Fin 3 → Fin 3 → K) (P : Fin 3 → K) :
    ((edges23 fun i k => X i k - P k).transpose * edges23 fun i k => X i k - P k).det =
      ∑ k, crossProduct (fun k => X 0 k - X 2 k) (fun k => X 1 k - X 2 k) k ^ 2 := by
  rw [Matrix.det_fin_two]
  simp only [Matrix.mul_apply, Matrix.transpose_apply, Fin.sum_univ_three, edges23, crossProduct, Matrix.of_apply, Matrix.cons_val]
  ring

/-- (specification) the three centres are not on a line. -/
def NotOnLine (X : Fin 3 → Fin 3 → K) : Prop := ∃ k, crossProduct (fun k => X 0 k - X 2 k) (fun k => X 1 k - X 2 k) k ≠ 0

theorem gram_ne (X : Fin 3 → Fin 3 → K) (P : Fin 3 → K) (h : NotOnLine X) :
    ((edges23 fun i k => X i k - P k).transpose * edges23 fun i k => X i k - P k).det ≠ 0 := by
  rw [gram_det]
  obtain ⟨k, hk⟩ := h
  have : 0 < ∑ k, crossProduct (fun k => X 0 k - X 2 k) (fun k => X 1 k - X 2 k) k ^ 2 :=
    Finset.sum_pos' (fun i _ => sq_nonneg _) ⟨k, Finset.mem_univ _, by positivity⟩
  exact this.ne'

omit [IsStrictOrderedRing K] in
/-- C153: a vertex at the boundary (one of its three cells is unknown) gets the value 0. -/
theorem C153_boundary (m : Mesh K) (eps huge : K) (f : Nat → K) (v : Nat) (hlt : ∀ j, m.around v j < m.nCells) (h : ∃ j, m.around v j < 0) :
    m.interpolateC2v eps huge f v = some (.num 0) := by
  have : m.c2vWeights eps v = some none := by
    unfold Mesh.c2vWeights
    by_cases h0 : m.cid2i (m.cellsOnVertex 0 v) < 0
    · simp only [h0, if_true]
    have e0 := idx_of (not_lt.1 h0) (hlt 0)
    by_cases h1 : m.cid2i (m.cellsOnVertex 1 v) < 0
    · simp only [h0, if_false, e0, h1, if_true, Option.bind_eq_bind, Option.bind_some]
    have e1 := idx_of (not_lt.1 h1) (hlt 1)
    by_cases h2 : m.cid2i (m.cellsOnVertex 2 v) < 0
    · simp only [h0, if_false, e0, h1, e1, h2, if_true, Option.bind_eq_bind, Option.bind_some]
    exfalso
    obtain ⟨j, hj⟩ := h
    unfold Mesh.around at hj
    fin_cases j
    · exact h0 hj
    · exact h1 hj
    · exact h2 hj
  unfold Mesh.interpolateC2v
  rw [this]; rfl

omit [IsStrictOrderedRing K] in
theorem c2vWeights_eq (m : Mesh K) (eps : K) (v : Nat) (hlt : ∀ j, m.around v j < m.nCells) (h : ∀ j, 0 ≤ m.around v j) :
    m.c2vWeights eps v = some (some (inverseLerpS2v3 (fun i k => m.xyzCells (m.around v i).toNat k - m.xyzVertices v k) eps).2) := by
  have e : ∀ j, idx m.nCells (m.cid2i (m.cellsOnVertex j v)) = some (m.around v j).toNat := fun j => idx_of (h j) (hlt j)
  have e' : ∀ j, ¬ m.cid2i (m.cellsOnVertex j v) < 0 := fun j => not_lt.2 (h j)
  unfold Mesh.c2vWeights
  simp only [e', if_false, e, Option.bind_eq_bind, Option.bind_some]
  congr 4
  funext i k
  fin_cases i <;> rfl

omit [IsStrictOrderedRing K] in
/-- C153: if the value of one of the cells of an inner vertex is below the limit, the value of the vertex is NaN. -/
theorem C153_invalid (m : Mesh K) (eps huge : K) (f : Nat → K) (v : Nat) (hlt : ∀ j, m.around v j < m.nCells) (h : ∀ j, 0 ≤ m.around v j)
    (hf : ∃ j, f (m.around v j).toNat < huge) : m.interpolateC2v eps huge f v = some .nan := by
  have e : ∀ j, idx m.nCells (m.cid2i (m.cellsOnVertex j v)) = some (m.around v j).toNat := fun j => idx_of (h j) (hlt j)
  unfold Mesh.interpolateC2v
  simp only [c2vWeights_eq m eps v hlt h, e, Option.bind_eq_bind, Option.bind_some]
  rw [if_pos]
  obtain ⟨j, hj⟩ := hf
  fin_cases j
  · exact Or.inl hj
  · exact Or.inr (Or.inl hj)
  · exact Or.inr (Or.inr hj)

/-- C153: otherwise the value of an inner vertex is a combination of the values of its three cells with weights that sum to one and do not
depend on the values; the weights are those of the point of the plane of the three centres that is nearest to the vertex. -/
theorem C153_value (m : Mesh K) (eps huge : K) (v : Nat) (hlt : ∀ j, m.around v j < m.nCells) (h : ∀ j, 0 ≤ m.around v j)
    (hX : NotOnLine fun i => m.xyzCells (m.around v i).toNat) :
    ∃ w : Fin 3 → K, w 0 + w 1 + w 2 = 1 ∧
      (∀ f : Nat → K, (∀ j, huge ≤ f (m.around v j).toNat) →
        m.interpolateC2v eps huge f v = some (.num (∑ j, w j * f (m.around v j).toNat))) ∧
      ∀ u : Fin 3 → K, u 0 + u 1 + u 2 = 1 →
        dist2 (fun k => ∑ j, w j * m.xyzCells (m.around v j).toNat k) (m.xyzVertices v) ≤
          dist2 (fun k => ∑ j, u j * m.xyzCells (m.around v j).toNat k) (m.xyzVertices v) ∧
        (dist2 (fun k => ∑ j, u j * m.xyzCells (m.around v j).toNat k) (m.xyzVertices v) =
          dist2 (fun k => ∑ j, w j * m.xyzCells (m.around v j).toNat k) (m.xyzVertices v) → u = w) := by
  have e : ∀ j, idx m.nCells (m.cid2i (m.cellsOnVertex j v)) = some (m.around v j).toNat := fun j => idx_of (h j) (hlt j)
  obtain ⟨h1, h2, -⟩ := C54_s2v3 (fun i k => m.xyzCells (m.around v i).toNat k - m.xyzVertices v k) eps (gram_ne _ _ hX)
  refine ⟨_, h1, ?_, ?_⟩
  · intro f hf
    unfold Mesh.interpolateC2v
    simp only [c2vWeights_eq m eps v hlt h, e, Option.bind_eq_bind, Option.bind_some]
    rw [if_neg (by
      rintro (g | g | g)
      · exact absurd (hf 0) (not_le.2 g)
      · exact absurd (hf 1) (not_le.2 g)
      · exact absurd (hf 2) (not_le.2 g))]
    rw [Fin.sum_univ_three, zero_add]
  · intro u hu
    set w := (inverseLerpS2v3 (fun i k => m.xyzCells (m.around v i).toNat k - m.xyzVertices v k) eps).2 with hw
    have key : ∀ s : Fin 3 → K, s 0 + s 1 + s 2 = 1 →
        dist2 (fun k => ∑ j, s j * m.xyzCells (m.around v j).toNat k) (m.xyzVertices v) =
        ∑ j, ((m.xyzCells (m.around v 0).toNat j - m.xyzVertices v j) * s 0 + (m.xyzCells (m.around v 1).toNat j - m.xyzVertices v j) * s 1 +
          (m.xyzCells (m.around v 2).toNat j - m.xyzVertices v j) * s 2) ^ 2 := by
      intro s hs
      have e3 : s 2 = 1 - s 0 - s 1 := by linear_combination hs
      simp only [dist2, Fin.sum_univ_three, e3]
      ring
    rw [key w h1, key u hu]
    by_cases huw : u = w
    · subst huw; exact ⟨le_refl _, fun _ => rfl⟩
    · have := h2 u hu huw
      exact ⟨this.le, fun he => absurd he this.ne'⟩

/-- C153: constant fields are reproduced. -/
theorem C153_constant (m : Mesh K) (eps huge c : K) (hc : huge ≤ c) (v : Nat) (hlt : ∀ j, m.around v j < m.nCells) (h : ∀ j, 0 ≤ m.around v j)
    (hX : NotOnLine fun i => m.xyzCells (m.around v i).toNat) :
    m.interpolateC2v eps huge (fun _ => c) v = some (.num c) := by
  obtain ⟨w, h1, h2, -⟩ := C153_value m eps huge v hlt h hX
  rw [h2 _ (fun _ => hc), Fin.sum_univ_three]
  congr 2
  linear_combination c * h1

/-- C153: affine fields are reproduced at vertices in the plane of the three centres. -/
theorem C153_affine (m : Mesh K) (eps huge a : K) (b : Fin 3 → K) (v : Nat) (hlt : ∀ j, m.around v j < m.nCells) (h : ∀ j, 0 ≤ m.around v j)
    (hX : NotOnLine fun i => m.xyzCells (m.around v i).toNat) (t : Fin 3 → K) (ht : t 0 + t 1 + t 2 = 1)
    (hP : ∀ k, m.xyzVertices v k = ∑ j, t j * m.xyzCells (m.around v j).toNat k)
    (hf : ∀ j, huge ≤ a + ∑ k, b k * m.xyzCells (m.around v j).toNat k) :
    m.interpolateC2v eps huge (fun c => a + ∑ k, b k * m.xyzCells c k) v = some (.num (a + ∑ k, b k * m.xyzVertices v k)) := by
  obtain ⟨w, h1, h2, h3⟩ := C153_value m eps huge v hlt h hX
  have hz : dist2 (fun k => ∑ j, t j * m.xyzCells (m.around v j).toNat k) (m.xyzVertices v) = 0 := by
    simp only [dist2, hP, sub_self, mul_zero, add_zero]
  have htw : t = w := by
    obtain ⟨g1, g2⟩ := h3 t ht
    apply g2
    apply le_antisymm
    · rw [hz]
      simp only [dist2]
      exact add_nonneg (add_nonneg (mul_self_nonneg _) (mul_self_nonneg _)) (mul_self_nonneg _)
    · exact g1
  rw [h2 _ hf]
  subst htw
  congr 2
  simp only [Fin.sum_univ_three] at *
  simp only [hP]
  linear_combination a * h1

/-! ### A vertex between three cells -/

/-- Three cells around vertex 0, two of them around vertex 1. -/
def threeCells : Mesh ℚ where
  nCells := 3
  nVerts := 2
  maxEdges := 6
  cid2i := fun i => i - 1
  vid2i := fun i => i - 1
  nEdgesOnCell := fun _ => 0
  cellsOnCell := fun _ _ => 0
  verticesOnCell := fun _ _ => 0
  cellsOnVertex := fun j v => if v = 0 then (j : Int) + 1 else (j : Int)
  xyzCells := fun c => ([![0, 0, 1], ![3, 0, 1], ![0, 3, 1]] : List (Fin 3 → ℚ)).getD c 0
  xyzVertices := fun v => ([![1, 1, 1], ![-1, 0, 1]] : List (Fin 3 → ℚ)).getD v 0

example : threeCells.interpolateC2v 0 (-1000) (fun c => ([3, 6, 12] : List ℚ).getD c 0) 0 = some (.num 7) ∧
    threeCells.interpolateC2v 0 (-1000) (fun c => ([3, 6, 12] : List ℚ).getD c 0) 1 = some (.num 0) ∧
    threeCells.interpolateC2v 0 (-1000) (fun c => ([3, -2000, 12] : List ℚ).getD c 0) 0 = some .nan := by decide +kernel
/-- The vertex meets the hypotheses. -/
example : (∀ j, threeCells.around 0 j < threeCells.nCells) ∧ (∀ j, 0 ≤ threeCells.around 0 j) ∧
    (NotOnLine fun i => threeCells.xyzCells (threeCells.around 0 i).toNat) := by
  refine ⟨by decide +kernel, by decide +kernel, 2, by decide +kernel⟩

end Verif.MPAS
