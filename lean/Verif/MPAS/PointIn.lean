import Verif.MPAS.Model
import Mathlib.Tactic.Linarith
import Mathlib.Data.List.GetD
import Mathlib.Tactic.NormNum
import Mathlib.Tactic.Ring
import Mathlib.Tactic.LinearCombination
import Mathlib.Algebra.Order.Ring.Rat
import Mathlib.Algebra.Order.Field.Rat

/-!
# C150: the test whether a point is in a cell of the sphere
-/

namespace Verif.MPAS

open Verif.Num

variable {K : Type} [Field K] [LinearOrder K]

/-- (specification) the determinant of three vectors: positive for a right-handed triple. -/
def det (a b c : Fin 3 → K) : K :=
  a 0 * (b 1 * c 2 - b 2 * c 1) - a 1 * (b 0 * c 2 - b 2 * c 0) + a 2 * (b 0 * c 1 - b 1 * c 0)

/-- (specification) the sides of a closed polygon: from every vertex to the next one, from the last to the first. -/
def Sides (X : List (Fin 3 → K)) (p q : Fin 3 → K) : Prop :=
  ∃ i, X[i]? = some p ∧ X[if i + 1 = X.length then 0 else i + 1]? = some q

theorem dot_cross (a b c : Fin 3 → K) : dot3 (crossProduct a b) c = det a b c := by
  simp only [dot3, crossProduct, det, Matrix.cons_val]; ring

/-- C150: the test succeeds exactly if the cell has vertices and the point is on the inner side (or on the plane) of the plane through the
origin and each side. -/
theorem C150_spec (X : List (Fin 3 → K)) (x : Fin 3 → K) :
    pointInCell X x = true ↔ X ≠ [] ∧ ∀ p q, Sides X p q → 0 ≤ det p q x := by
  unfold pointInCell
  by_cases h : X = []
  · simp [h]
  · rw [if_neg h, List.all_eq_true]
    have hl : 0 < X.length := List.length_pos_iff.2 h
    constructor
    · intro hx
      refine ⟨h, ?_⟩
      rintro p q ⟨i, h1, h2⟩
      obtain ⟨hi, rfl⟩ := List.getElem?_eq_some_iff.1 h1
      have := hx i (List.mem_range.2 hi)
      rw [Bool.not_eq_true', decide_eq_false_iff_not, not_lt, dot_cross] at this
      have e2 : X.getD ((i + 1) % X.length) 0 = q := by
        rw [List.getD_eq_getElem?_getD]
        split_ifs at h2 with hc
        · rw [hc, Nat.mod_self, h2]; rfl
        · rw [Nat.mod_eq_of_lt (by omega), h2]; rfl
      rw [e2, List.getD_eq_getElem _ _ hi] at this
      exact this
    · rintro ⟨-, hx⟩ i hi
      rw [List.mem_range] at hi
      rw [Bool.not_eq_true', decide_eq_false_iff_not, not_lt, dot_cross]
      apply hx
      refine ⟨i, ?_, ?_⟩
      · rw [List.getD_eq_getElem _ _ hi]; exact List.getElem?_eq_getElem hi
      · have hm : (if i + 1 = X.length then 0 else i + 1) = (i + 1) % X.length := by
          split_ifs with hc
          · rw [hc, Nat.mod_self]
          · rw [Nat.mod_eq_of_lt (by omega)]
        rw [hm, List.getD_eq_getElem _ _ (Nat.mod_lt _ hl)]
        exact List.getElem?_eq_getElem _

/-- (specification) a convex cell whose vertices are in counterclockwise order seen from outside: every vertex is on the inner side of every
side. -/
def ConvexCell (X : List (Fin 3 → K)) : Prop := ∀ p q, Sides X p q → ∀ v ∈ X, 0 ≤ det p q v

variable [IsStrictOrderedRing K]

/-- C150: the cell is a cone: the answer depends on the direction of the point only. -/
theorem C150_radial (X : List (Fin 3 → K)) (x : Fin 3 → K) (c : K) (hc : 0 < c) :
    pointInCell X (fun k => c * x k) = pointInCell X x := by
  have e : ∀ p q : Fin 3 → K, det p q (fun k => c * x k) = c * det p q x := by
    intro p q; simp only [det]; ring
  rw [Bool.eq_iff_iff, C150_spec, C150_spec]
  constructor
  · rintro ⟨h, hx⟩
    refine ⟨h, fun p q hs => ?_⟩
    have := hx p q hs
    rw [e] at this
    exact nonneg_of_mul_nonneg_right this hc
  · rintro ⟨h, hx⟩
    refine ⟨h, fun p q hs => ?_⟩
    rw [e]
    exact mul_nonneg hc.le (hx p q hs)

/-- C150: the cell is convex: with two points it contains every point between them. -/
theorem C150_convex (X : List (Fin 3 → K)) (x y : Fin 3 → K) (a b : K) (ha : 0 ≤ a) (hb : 0 ≤ b)
    (hx : pointInCell X x = true) (hy : pointInCell X y = true) : pointInCell X (fun k => a * x k + b * y k) = true := by
  rw [C150_spec] at *
  refine ⟨hx.1, fun p q hs => ?_⟩
  have e : det p q (fun k => a * x k + b * y k) = a * det p q x + b * det p q y := by simp only [det]; ring
  rw [e]
  exact add_nonneg (mul_nonneg ha (hx.2 p q hs)) (mul_nonneg hb (hy.2 p q hs))

omit [IsStrictOrderedRing K] in
/-- C150: the vertices of a convex cell are in it. -/
theorem C150_vertices (X : List (Fin 3 → K)) (h : ConvexCell X) (v : Fin 3 → K) (hv : v ∈ X) : pointInCell X v = true := by
  rw [C150_spec]
  exact ⟨(by rintro rfl; cases hv), fun p q hs => h p q hs v hv⟩

/-- C150: every combination of the vertices of a convex cell with weights that are not negative is in it. -/
theorem C150_hull (X : List (Fin 3 → K)) (h : ConvexCell X) (hne : X ≠ []) (w : Nat → K) (hw : ∀ i, 0 ≤ w i) :
    pointInCell X (fun k => ((List.range X.length).map fun i => w i * X.getD i 0 k).sum) = true := by
  rw [C150_spec]
  refine ⟨hne, fun p q hs => ?_⟩
  have e : ∀ l : List Nat, (∀ i ∈ l, i < X.length) → 0 ≤ det p q (fun k => (l.map fun i => w i * X.getD i 0 k).sum) := by
    intro l
    induction l with
    | nil => intro _; simp [det]
    | cons i l ih =>
      intro hl
      have e1 : det p q (fun k => ((i :: l).map fun i => w i * X.getD i 0 k).sum) =
          w i * det p q (X.getD i 0) + det p q (fun k => (l.map fun i => w i * X.getD i 0 k).sum) := by
        simp only [List.map_cons, List.sum_cons, det]; ring
      rw [e1]
      have hi := hl i (List.mem_cons_self ..)
      refine add_nonneg (mul_nonneg (hw i) (h p q hs _ ?_)) (ih fun j hj => hl j (List.mem_cons_of_mem _ hj))
      rw [List.getD_eq_getElem _ _ hi]
      exact List.getElem_mem hi
  exact e _ (fun i hi => List.mem_range.1 hi)

/-- C150: two cells that run along a common side in opposite directions have no point in common off the plane of that side. -/
theorem C150_neighbours (X Y : List (Fin 3 → K)) (p q : Fin 3 → K) (hX : Sides X p q) (hY : Sides Y q p) (x : Fin 3 → K)
    (h1 : pointInCell X x = true) (h2 : pointInCell Y x = true) : det p q x = 0 := by
  have a := (C150_spec X x).1 h1 |>.2 p q hX
  have b := (C150_spec Y x).1 h2 |>.2 q p hY
  have e : det q p x = - det p q x := by simp only [det]; ring
  linarith

/-- C150: with the vertices in clockwise order the test rejects every interior point of the cell. -/
theorem C150_clockwise (X : List (Fin 3 → K)) (x : Fin 3 → K) (p q : Fin 3 → K) (hs : Sides X p q) (h : det p q x < 0) :
    pointInCell X x = false := by
  rw [Bool.eq_false_iff, Ne, C150_spec]
  rintro ⟨-, hx⟩
  exact absurd (hx p q hs) (not_le.2 h)

omit [IsStrictOrderedRing K] in
/-- C150: no point is in a cell without vertices. -/
theorem C150_empty (x : Fin 3 → K) : pointInCell [] x = false := rfl

/-- A square cell around the direction of the third axis. -/
def squareCell : List (Fin 3 → ℚ) := [![1, 1, 1], ![-1, 1, 1], ![-1, -1, 1], ![1, -1, 1]]

example : pointInCell squareCell ![1 / 3, 1 / 2, 7] = true ∧ pointInCell squareCell ![1, 0, 1 / 2] = false ∧
    pointInCell squareCell.reverse ![1 / 3, 1 / 2, 7] = false := by decide +kernel
/-- The square cell meets the hypotheses. -/
example : ConvexCell squareCell := by
  rintro p q ⟨i, h1, h2⟩
  have hi : i < 4 := (List.getElem?_eq_some_iff.1 h1).1
  have : i = 0 ∨ i = 1 ∨ i = 2 ∨ i = 3 := by omega
  rcases this with rfl | rfl | rfl | rfl <;>
  · simp only [squareCell, List.getElem?_cons_zero, List.getElem?_cons_succ, List.length_cons, List.length_nil] at h1 h2
    norm_num at h1 h2
    subst h1 h2
    decide +kernel
example : Sides squareCell ![1, 1, 1] ![-1, 1, 1] := ⟨0, rfl, rfl⟩

end Verif.MPAS
