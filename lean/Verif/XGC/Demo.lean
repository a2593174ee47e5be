import Verif.XGC.InterpProps
import Mathlib.Data.Rat.Defs
import Mathlib.Algebra.Order.Ring.Rat
import Mathlib.Algebra.Order.Field.Rat
import Mathlib.Algebra.Field.Rat

/-!
# Cases that meet the hypotheses of C131–C135, and the cases in which the properties fail
-/

namespace Verif.XGC

open Verif.UM Verif.XM

/-- The square of C69 (`Verif.XM`) as a torus of `p` actual planes and no virtual ones. -/
def torus (p : Int) : G := ⟨squareMesh, p, 1, 1⟩

/-- Three planes: the hypotheses of C131 and C132 hold; a tetrahedron that crosses from the last plane to the first is
found from its vertices in any order; ids are periodic; it has four sides, one shared with the tetrahedron of plane 0 below
it. -/
example : Valid 5 square ∧ IsOrder (fun l : List (Edge × Int) => l) ∧ build (fun l => l) 5 square = some (torus 3).m ∧
    3 ≤ (torus 3).np ∧ 0 < XM.n (torus 3).m 3 ∧ (torus 3).n 3 = 18 ∧
    (torus 3).getSimplex 3 16 = some [0, 1, 2, 10] ∧ (torus 3).getSimplex 3 (-2) = some [0, 1, 2, 10] ∧
    (torus 3).findSimplex 3 [10, 2, 0, 1] = some 16 ∧ (torus 3).findSimplex 3 [2, 10, 1, 0] = some 16 ∧
    (torus 3).sides 16 = some [0, 36, 43, 45] ∧ (torus 3).sideOf 0 = some [0, 16] ∧ (torus 3).sideOf 48 = some [0, 16] ∧
    (torus 3).getPoloidal 3 16 = some 2 ∧ (torus 3).isPoloidal 2 32 = some true ∧ (torus 3).isPoloidal 3 16 = some false := by
  refine ⟨square_valid, isOrder_id, squareMesh_built, by decide, by decide, by decide, ?_⟩
  decide +kernel

/-- A simplex of the torus: the vertices of tetrahedron 16 above. -/
example : OnTorus 5 square 3 [0, 1, 2, 10] := by
  refine ⟨[10, 15, 16, 17], ⟨by decide, by decide, Or.inr ⟨(1, 0, 2), by decide, ?_⟩⟩, ?_⟩
  · intro v hv
    simp at hv
    rcases hv with rfl | rfl | rfl | rfl <;> simp [OnTri, below]
  · decide

/-- C131 (violated with two planes): every plane is both the one after and the one before the other, so `find_simplex`
moves all vertices of plane 0 up and returns the id of another tetrahedron; and edges between the two planes have two
ids. -/
theorem C131_two_planes : (torus 2).getSimplex 3 0 = some [0, 1, 2, 7] ∧ (torus 2).findSimplex 3 [0, 1, 2, 7] = some 10 ∧
    (torus 2).getSimplex 3 10 = some [0, 1, 2, 5] ∧
    (torus 2).getSimplex 1 10 = some [0, 5] ∧ (torus 2).getSimplex 1 25 = some [0, 5] ∧ (torus 2).n 1 = 30 := by decide +kernel

/-- C131 (violated with one plane): simplices meet a vertex twice. -/
theorem C131_one_plane : (torus 1).getSimplex 3 0 = some [0, 1, 2, 2] := by decide +kernel

/-- C131 (violated): `find_simplex` of a vertex aborts. -/
theorem C131_find_vertex : (torus 3).getSimplex 0 3 = some [3] ∧ (torus 3).findSimplex 0 [3] = none := by decide +kernel

/-- C132 (violated): the diagonal edges are missing: vertices 1 and 7 are joined, but 7 is not listed. -/
theorem C132_neighbours_incomplete : (torus 3).vertexEdgeVertex 1 = some [0, 2, 3, 6, 11] ∧ (torus 3).getSimplex 1 6 = some [1, 7] := by
  decide +kernel

/-- C131: triangle 17 lies in plane 1, which is virtual if there is one virtual plane after each actual one. -/
example : (⟨squareMesh, 3, 1, 2⟩ : G).isActualPoloidal 2 17 = some false ∧ (⟨squareMesh, 3, 1, 2⟩ : G).isActualPoloidal 2 33 = some true ∧
    (⟨squareMesh, 3, 1, 2⟩ : G).isActualPoloidal 2 34 = some false := by decide +kernel

/-- The square with two actual planes and one virtual plane after each. -/
def wedge : G := ⟨squareMesh, 2, 1, 2⟩

/-- Interpolants for it: triangle (0, 1, 2) before and (1, 2, 3) after, for every vertex. -/
def wedgeLerp : List (List (Lerp Rat)) :=
  [[], List.replicate 5 ⟨(0, 1, 2), (1/2, 1/4, 1/4), (1, 2, 3), (1/4, 1/4, 1/2)⟩]

/-- The field with value `10 q + v` at vertex `v` of plane `q`. -/
def wedgeField : List Rat := [0, 1, 2, 3, 4, 10, 11, 12, 13, 14]

theorem wedge_ready : Ready wedge wedgeLerp := by
  intro r v r0 r1 v0 v1
  have h1 : r = 1 := by simp only [wedge] at r1; omega
  have h2 : wedge.m.n 0 = 5 := rfl
  subst h1
  refine ⟨List.replicate 5 ⟨(0, 1, 2), (1/2, 1/4, 1/4), (1, 2, 3), (1/4, 1/4, 1/2)⟩, ⟨(0, 1, 2), (1/2, 1/4, 1/4), (1, 2, 3), (1/4, 1/4, 1/2)⟩,
    rfl, ?_, by rw [h2]; simp [InPlane], by rw [h2]; simp [InPlane], by norm_num [Unit3], by norm_num [Unit3]⟩
  unfold at?
  rw [if_neg (by omega), List.getElem?_replicate, if_pos (by omega)]

theorem wedge_holds : Holds (wedge.m.n 0) wedge.nphi wedgeField (fun q v => 10 * (q : Rat) + v) := by
  intro q v q0 q1 v0 v1
  have h2 : ((wedge.m.n 0 : Nat) : Int) = 5 := rfl
  rw [h2] at v1 ⊢
  have h3 : wedge.nphi = 2 := rfl
  rw [h3] at q1
  have hq : q = 0 ∨ q = 1 := by omega
  have hv : v = 0 ∨ v = 1 ∨ v = 2 ∨ v = 3 ∨ v = 4 := by omega
  rcases hq with rfl | rfl <;> rcases hv with rfl | rfl | rfl | rfl | rfl <;> simp [at?, wedgeField] <;> norm_num

/-- C134: vertex 3 of the virtual plane between plane 1 and plane 0 (the last plane of the torus), the actual plane 1, and
the whole array. -/
example : interpolate wedge wedgeLerp wedgeField (3 + (1 * 2 + 1) * 5) = some (1/2 * (1/2 * 10 + 1/4 * 11 + 1/4 * 12) + 1/2 * (1/4 * 1 + 1/4 * 2 + 1/2 * 3)) ∧
    interpolate wedge wedgeLerp wedgeField (3 + (1 * 2 + 0) * 5) = some 13 ∧
    (interpolateArray wedge wedgeLerp wedgeField).map List.length = some 20 := by decide +kernel

/-- C134: with `iphi = 2` the first vertex of the second wedge is read outside the field. -/
example : interpolate (⟨squareMesh, 2, 2, 2⟩ : G) wedgeLerp wedgeField 20 = none ∧ (⟨squareMesh, 2, 2, 2⟩ : G).n 0 = 40 := by decide +kernel

/-- C134: an environment that meets the hypotheses of `C134_initialize`, with a point that is located and one that is not. -/
example : ∃ E : Env Rat, (∀ x tid mu, E.locate x = some (tid, mu) → (∃ t, squareMesh.getTriangle tid = some t) ∧ Unit3 mu) ∧
    (∀ x, 0 ≤ E.nearest x ∧ E.nearest x < (squareMesh.n 0 : Int)) ∧ E.locate (0, 0) = some (1, (1/2, 1/4, 1/4)) ∧ E.locate (5, 5) = none := by
  refine ⟨⟨fun i => (i, i), fun x _ _ => x, fun x => if x.1 < 1 then some (1, (1/2, 1/4, 1/4)) else none, fun _ => 3⟩, ?_, ?_, ?_, ?_⟩
  · intro x tid mu h
    dsimp only at h
    split at h
    · simp only [Option.some.injEq, Prod.mk.injEq] at h
      obtain ⟨rfl, rfl⟩ := h
      exact ⟨⟨(1, 2, 3), rfl⟩, by norm_num [Unit3]⟩
    · simp at h
  · intro x
    exact ⟨(by decide : (0 : Int) ≤ 3), (by decide : (3 : Int) < (5 : Nat))⟩
  · norm_num
  · norm_num

/-- C135: a profile, a potential on two planes, and its turbulence: mean zero. -/
example : interp1 [0, 1, 3] [2, 4, 8] (2 : Rat) = some 6 ∧ interp1 [0, 1, 3] [2, 4, 8] (1 : Rat) = some 4 ∧
    interp1 [0, 1, 3] [2, 4, 8] (-1 : Rat) = some 2 ∧ interp1 [0, 1, 3] [2, 4, 8] (7 : Rat) = some 8 ∧
    interp1 [0, 2] (([3, 6].zip [3, 6]).map fun t => 2 * (t.1 + t.2) / 3) (1 : Rat) = some 6 ∧
    turbulence 5 2 wedgeField [0, 2] [3, 6] [3, 6] [1, 1, 1, 1, 1] 0 3 = some ((3 - 8) / 6 : Rat) ∧
    turbulence 5 2 wedgeField [0, 2] [3, 6] [3, 6] [1, 1, 1, 1, 1] 1 3 = some ((13 - 8) / 6 : Rat) := by decide +kernel

/-- C133: points and cells of the slices. -/
example : (slicePoints wedge (fun i => ((i : Rat), 7)) (fun p => ((p : Rat), 2)))[3 + 2 * 5]? = some (6, 6, 7) ∧
    (sliceCells wedge)[1 + 2 * 2]? = some (11, 12, 13) ∧ wedge.getSimplex 2 (1 + 2 * 16) = some [11, 12, 13] := by decide +kernel

/-- C133: what a buffer of four values would hold: the plane number is in the fourth, the third is 0. -/
example : extCoords squareMesh (fun i => ((i : Rat), 7)) 4 13 = some [3, 7, 0, 2] := by decide +kernel

end Verif.XGC
