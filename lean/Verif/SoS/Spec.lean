import Mathlib.Data.Real.Basic
import Mathlib.LinearAlgebra.Matrix.Determinant.Basic
import Mathlib.Algebra.BigOperators.Fin

/-!
# Specification for simulation of simplicity (Edelsbrunner & Mücke)

Nothing here mentions the model.  A point `x : Fin d → ℤ` that carries the vertex index `v` is
moved to `pt lo v x ε`, coordinate `j` by `ε ^ 2 ^ (d * (v - lo) + (d - 1 - j))`; `lo` is any lower
bound of the indices in use.  One perturbation moves *all* vertices at once.
-/

namespace Verif.SoS.Spec

/-- "for all sufficiently small positive `ε`". -/
def Small (P : ℝ → Prop) : Prop := ∃ ε₀ > 0, ∀ ε : ℝ, 0 < ε → ε < ε₀ → P ε

/-- The perturbed position of vertex number `v`. -/
noncomputable def pt {d : ℕ} (lo v : ℤ) (x : Fin d → ℤ) (ε : ℝ) : Fin d → ℝ :=
  fun j => (x j : ℝ) + ε ^ 2 ^ (d * (v - lo).toNat + (d - 1 - (j : ℕ)))

/-- Orientation of `d+1` points of `ℝ^d`: the determinant of the matrix of rows `(p, 1)`. -/
noncomputable def orient {d : ℕ} (P : Fin (d + 1) → Fin d → ℝ) : ℝ :=
  Matrix.det (Matrix.of fun i => (Fin.snoc (P i) 1 : Fin (d + 1) → ℝ))

/-- The perturbed simplex with vertices `X` numbered `v`. -/
noncomputable def simplex {d : ℕ} (lo : ℤ) (v : Fin (d + 1) → ℤ) (X : Fin (d + 1) → Fin d → ℤ) (ε : ℝ) :
    Fin (d + 1) → Fin d → ℝ := fun i => pt lo (v i) (X i) ε

/-- `p` lies strictly inside the simplex `P`: positive barycentric coordinates. -/
def Inside {d : ℕ} (P : Fin (d + 1) → Fin d → ℝ) (p : Fin d → ℝ) : Prop :=
  ∃ w : Fin (d + 1) → ℝ, (∀ i, 0 < w i) ∧ ∑ i, w i = 1 ∧ ∀ j, ∑ i, w i * P i j = p j

/-- `s` is the sign (`-1`, `1`, never `0`) of the real number `r`. -/
def IsSign (s : ℤ) (r : ℝ) : Prop := (s = 1 ∧ 0 < r) ∨ (s = -1 ∧ r < 0)

end Verif.SoS.Spec
