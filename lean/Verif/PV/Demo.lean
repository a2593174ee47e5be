import Verif.PV.Zeros

/-!
# Concrete cells
-/

namespace Verif.PV

open Verif.Num Verif.Poly

/-- A vector field on a triangle, parallel to `triW` with factor 2 at one point. -/
def triV : Fin 3 → Fin 3 → ℚ := ![![1, 0, 2], ![1, 0, 2], ![0, 1, 0]]

/-- The second field. -/
def triW : Fin 3 → Fin 3 → ℚ := ![![1, 0, 0], ![0, 1, 0], ![0, 0, 1]]

theorem tri_parallel : ParallelAt triV triW 2 ![1 / 4, 1 / 4, 1 / 2] := by
  refine ⟨by simp [Fin.sum_univ_three]; norm_num, fun k => ?_⟩
  fin_cases k <;> simp [Fin.sum_univ_three, triV, triW] <;> norm_num

/-- C139: a triangle that meets the hypotheses; the roots are 0, 2 and −1. -/
example : (2, ![1 / 4, 1 / 4, 1 / 2]) ∈ solve2v3 (fun _ => [0, 2, -1]) (fun _ => 1) norm1 triV triW (1 / 1000) := by
  refine C139_triangle_complete _ _ (by decide +kernel) _ _ _ _ _ tri_parallel ?_ (by norm_num [abs_of_pos]) (by simp) ?_ (by norm_num)
  · intro i
    fin_cases i <;> simp <;> norm_num
  · intro x hs hk
    have k0 := hk 0
    have k1 := hk 1
    have k2 := hk 2
    simp [Fin.sum_univ_three, triV, triW] at hs k0 k1 k2
    funext i
    fin_cases i <;> simp <;> linarith

/-- The three roots are those of the characteristic polynomial. -/
example : ∀ l ∈ [(0 : ℚ), 2, -1], charPoly3g (fun i j => triV j i) (fun i j => triW j i) 0 + charPoly3g (fun i j => triV j i) (fun i j => triW j i) 1 * l +
    charPoly3g (fun i j => triV j i) (fun i j => triW j i) 2 * l ^ 2 + charPoly3g (fun i j => triV j i) (fun i j => triW j i) 3 * l ^ 3 = 0 := by
  decide +kernel

/-- C139: an edge: `v = 3w` in the middle. -/
example : (3, ![1 / 2, 1 / 2]) ∈ solve1v2 (fun _ => [3]) (![![1, 2], ![5, 4]] : Fin 2 → Fin 2 → ℚ) ![![1, 0], ![1, 2]] (1 / 1000) := by
  refine C139_edge_complete _ _ _ _ _ ⟨by simp [Fin.sum_univ_two]; norm_num, fun k => ?_⟩ ?_ (by norm_num [abs_of_pos]) (by simp) ⟨0, by simp; norm_num⟩
  · fin_cases k <;> simp [Fin.sum_univ_two] <;> norm_num
  · intro i
    fin_cases i <;> simp <;> norm_num

/-- C140: an edge where the solver does work: the first two components vary alike; `v = w` in the middle, and 1 is the only root. -/
example : edgeH (![![1, 1, 1], ![1, 1, 2]] : Fin 2 → Fin 3 → ℚ) ![![0, 0, 0], ![2, 2, 3]] 1 2 = ![1, -1, 0] ∧
    solve1v3 (fun _ => [1]) (fun _ => 1) norm1 (![![1, 1, 1], ![1, 1, 2]] : Fin 2 → Fin 3 → ℚ) ![![0, 0, 0], ![2, 2, 3]] 0 = some [(1, ![1 / 2, 1 / 2])] := by
  decide +kernel

/-- C141: a tetrahedron, and the point where `v = 2w`. -/
example : evaluate (polyQ3 (![![1, 0, 0], ![0, 1, 0], ![0, 0, 1], ![1, 1, 2]] : Fin 4 → Fin 3 → ℚ) ![![0, 0, 0], ![0, 0, 0], ![0, 0, 0], ![1, 0, 1]]) 3 2 ≠ 0 := by
  decide +kernel

end Verif.PV
