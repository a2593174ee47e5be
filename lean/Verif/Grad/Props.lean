import Verif.Grad.Lemmas
import Mathlib.Tactic.Ring
import Mathlib.Tactic.FieldSimp
import Mathlib.Tactic.Linarith
import Mathlib.Tactic.LinearCombination
import Mathlib.Algebra.Ring.CharZero
import Mathlib.Algebra.Order.Ring.Rat
import Mathlib.Algebra.Field.Rat
/-! # Finite-difference operators (C77)

For every operator: whatever the order in which the iterations write, the result is defined (no access outside the arrays)
and every entry is the stated difference quotient. -/
namespace Verif.Grad
open Verif.ND
variable {K : Type} [Field K]

/-- (specification) the 2-D scalar field `s` is stored in `a` -/
structure Holds2 (a : Nd K) (DW DH : Nat) (s : Int → Int → K) : Prop where
  read : ∀ i j : Int, 0 ≤ i → i < DW → 0 ≤ j → j < DH → rd a [i, j] = some (s i j)

/-- (specification) the 3-D field `s` (or 2-D with components or time) is stored in `a` -/
structure Holds3 (a : Nd K) (D0 D1 D2 : Nat) (s : Int → Int → Int → K) : Prop where
  read : ∀ i j k : Int, 0 ≤ i → i < D0 → 0 ≤ j → j < D1 → 0 ≤ k → k < D2 → rd a [i, j, k] = some (s i j k)

/-- (specification) the 4-D field `s` is stored in `a` -/
structure Holds4 (a : Nd K) (D0 D1 D2 D3 : Nat) (s : Int → Int → Int → Int → K) : Prop where
  read : ∀ i j k l : Int, 0 ≤ i → i < D0 → 0 ≤ j → j < D1 → 0 ≤ k → k < D2 → 0 ≤ l → l < D3 →
    rd a [i, j, k, l] = some (s i j k l)

/-- (specification) central difference quotient at distance 1 -/
def central (f : Int → K) (t : Int) : K := (f (t + 1) - f (t - 1)) / 2

/-- The central difference quotient is the derivative for polynomials of degree at most two. -/
theorem central_quadratic [CharZero K] (c0 c1 c2 : K) (t : Int) :
    central (fun u : Int => c0 + c1 * u + c2 * (u : K) ^ 2) t = c1 + 2 * c2 * t := by
  have h2 : (2 : K) ≠ 0 := two_ne_zero
  simp only [central]
  push_cast
  field_simp
  ring

/-- Every well-shaped array stores a field (so the hypotheses `Holds…` are no restriction). -/
theorem holds2_exists (a : Nd K) (h : Shaped a) (DW DH : Nat) (hd : a.dims = [DW, DH]) : ∃ s, Holds2 a DW DH s := by
  refine ⟨fun i j => (rd a [i, j]).getD 0, ⟨fun i j h0 h1 h2 h3 => ?_⟩⟩
  have hv : Valid [i, j] a.dims := by rw [hd]; exact .cons ⟨h0, h1⟩ (.cons ⟨h2, h3⟩ .nil)
  have := (C38_read_write a h _ hv.toNat.1 0).1
  obtain ⟨x, hx⟩ := this
  rw [rd_valid h hv, hx]; rfl

theorem holds3_exists (a : Nd K) (h : Shaped a) (D0 D1 D2 : Nat) (hd : a.dims = [D0, D1, D2]) :
    ∃ s, Holds3 a D0 D1 D2 s := by
  refine ⟨fun i j k => (rd a [i, j, k]).getD 0, ⟨fun i j k h0 h1 h2 h3 h4 h5 => ?_⟩⟩
  have hv : Valid [i, j, k] a.dims := by rw [hd]; exact .cons ⟨h0, h1⟩ (.cons ⟨h2, h3⟩ (.cons ⟨h4, h5⟩ .nil))
  obtain ⟨x, hx⟩ := (C38_read_write a h _ hv.toNat.1 0).1
  rw [rd_valid h hv, hx]; rfl

theorem holds4_exists (a : Nd K) (h : Shaped a) (D0 D1 D2 D3 : Nat) (hd : a.dims = [D0, D1, D2, D3]) :
    ∃ s, Holds4 a D0 D1 D2 D3 s := by
  refine ⟨fun i j k l => (rd a [i, j, k, l]).getD 0, ⟨fun i j k l h0 h1 h2 h3 h4 h5 h6 h7 => ?_⟩⟩
  have hv : Valid [i, j, k, l] a.dims := by
    rw [hd]; exact .cons ⟨h0, h1⟩ (.cons ⟨h2, h3⟩ (.cons ⟨h4, h5⟩ (.cons ⟨h6, h7⟩ .nil)))
  obtain ⟨x, hx⟩ := (C38_read_write a h _ hv.toNat.1 0).1
  rw [rd_valid h hv, hx]; rfl

theorem valid3 {i j k : Int} {a b c : Nat} (h : (0 ≤ i ∧ i < a) ∧ (0 ≤ j ∧ j < b) ∧ 0 ≤ k ∧ k < c) :
    Valid [i, j, k] [a, b, c] := .cons h.1 (.cons h.2.1 (.cons h.2.2 .nil))
theorem valid4 {i j k l : Int} {a b c d : Nat} (h : (0 ≤ i ∧ i < a) ∧ (0 ≤ j ∧ j < b) ∧ (0 ≤ k ∧ k < c) ∧ 0 ≤ l ∧ l < d) :
    Valid [i, j, k, l] [a, b, c, d] := .cons h.1 (valid3 h.2)
theorem valid5 {i j k l m : Int} {a b c d e : Nat}
    (h : (0 ≤ i ∧ i < a) ∧ (0 ≤ j ∧ j < b) ∧ (0 ≤ k ∧ k < c) ∧ (0 ≤ l ∧ l < d) ∧ 0 ≤ m ∧ m < e) :
    Valid [i, j, k, l, m] [a, b, c, d, e] := .cons h.1 (valid4 h.2)

/-! ## 3-D scalar fields -/

/-- `gradient3D`: the central difference quotients, in units of the grid spacing; 0 on the boundary. -/
theorem C77_gradient3D (a : Nd K) (DW DH DD : Nat) (s : Int → Int → Int → K) (ha : Holds3 a DW DH DD s)
    (ws : List (W K)) (hp : ws.Perm (gradient3DWrites a DW DH DD)) :
    ∃ g, runOp [3, DW, DH, DD] ws = some g ∧ g.dims = [3, DW, DH, DD] ∧
      ∀ i j k : Int, 0 ≤ i → i < DW → 0 ≤ j → j < DH → 0 ≤ k → k < DD →
        if 1 ≤ i ∧ i < DW - 1 ∧ 1 ≤ j ∧ j < DH - 1 ∧ 1 ≤ k ∧ k < DD - 1 then
          rd g [0, i, j, k] = some (central (s · j k) i) ∧ rd g [1, i, j, k] = some (central (s i · k) j) ∧
          rd g [2, i, j, k] = some (central (s i j ·) k)
        else ∀ c : Int, 0 ≤ c → c < 3 → rd g [c, i, j, k] = some 0 := by
  have rdS := ha.read
  obtain ⟨r, r0, _, r2, _, r5, r6⟩ := runOp_spec [3, DW, DH, DD] (by simp) (fun
      | [c, i, j, k] => if c = 0 then central (s · j k) i else if c = 1 then central (s i · k) j else central (s i j ·) k
      | _ => 0) (gradient3DWrites a DW DH DD) ws hp (by
    intro w hw
    rw [gradient3DWrites, mem_loop3] at hw
    obtain ⟨i, j, k, hi, hj, hk, hw⟩ := hw
    rw [mem_irange] at hi hj hk
    simp only [List.mem_cons, List.not_mem_nil, or_false] at hw
    rcases hw with rfl | rfl | rfl
    · refine ⟨valid4 (by omega), ?_⟩
      rw [rdS _ _ _ (by omega) (by omega) (by omega) (by omega) (by omega) (by omega),
        rdS _ _ _ (by omega) (by omega) (by omega) (by omega) (by omega) (by omega)]
      simp [sub?, central, -mul_eq_mul_right_iff]; ring
    · refine ⟨valid4 (by omega), ?_⟩
      rw [rdS _ _ _ (by omega) (by omega) (by omega) (by omega) (by omega) (by omega),
        rdS _ _ _ (by omega) (by omega) (by omega) (by omega) (by omega) (by omega)]
      simp [sub?, central, -mul_eq_mul_right_iff]; ring
    · refine ⟨valid4 (by omega), ?_⟩
      rw [rdS _ _ _ (by omega) (by omega) (by omega) (by omega) (by omega) (by omega),
        rdS _ _ _ (by omega) (by omega) (by omega) (by omega) (by omega) (by omega)]
      simp [sub?, central, -mul_eq_mul_right_iff]; ring)
  refine ⟨r, r0, r2, fun i j k h0 h1 h2 h3 h4 h5 => ?_⟩
  split
  · rename_i hin
    have hm : ∀ w, w ∈ _ → w ∈ gradient3DWrites a DW DH DD := fun w hw => mem_loop3.2
      ⟨i, j, k, mem_irange.2 ⟨by omega, by omega⟩, mem_irange.2 ⟨by omega, by omega⟩, mem_irange.2 ⟨by omega, by omega⟩, hw⟩
    exact ⟨by simpa using r5 _ (hm _ (.head _)), by simpa using r5 _ (hm _ (.tail _ (.head _))),
      by simpa using r5 _ (hm _ (.tail _ (.tail _ (.head _))))⟩
  · rename_i hin
    intro c hc0 hc1
    refine r6 _ (valid4 (by omega)) fun w hw he => hin ?_
    obtain ⟨i', j', k', hi, hj, hk, hw⟩ := mem_loop3.1 hw
    rw [mem_irange] at hi hj hk
    simp only [List.mem_cons, List.not_mem_nil, or_false] at hw
    rcases hw with rfl | rfl | rfl <;> (simp only [List.cons.injEq] at he; omega)

/-- Therefore `gradient3D` is exact in the interior for every polynomial of total degree at most two. -/
theorem C77_gradient3D_exact_partial [CharZero K] (a : Nd K) (DW DH DD : Nat) (c bx by_ bz qxx qyy qzz qxy qxz qyz : K)
    (ha : Holds3 a DW DH DD fun i j k => c + bx * i + by_ * j + bz * k + qxx * (i : K) ^ 2 + qyy * (j : K) ^ 2 +
      qzz * (k : K) ^ 2 + qxy * i * j + qxz * i * k + qyz * j * k)
    (ws : List (W K)) (hp : ws.Perm (gradient3DWrites a DW DH DD)) :
    ∃ g, runOp [3, DW, DH, DD] ws = some g ∧ ∀ i j k : Int, 1 ≤ i → i < DW - 1 → 1 ≤ j → j < DH - 1 → 1 ≤ k → k < DD - 1 →
      rd g [0, i, j, k] = some (bx + 2 * qxx * i + qxy * j + qxz * k) ∧
      rd g [1, i, j, k] = some (by_ + 2 * qyy * j + qxy * i + qyz * k) ∧
      rd g [2, i, j, k] = some (bz + 2 * qzz * k + qxz * i + qyz * j) := by
  obtain ⟨g, h0, _, h⟩ := C77_gradient3D a DW DH DD _ ha ws hp
  refine ⟨g, h0, fun i j k h1 h2 h3 h4 h5 h6 => ?_⟩
  have := h i j k (by omega) (by omega) (by omega) (by omega) (by omega) (by omega)
  rw [if_pos ⟨h1, h2, h3, h4, h5, h6⟩] at this
  obtain ⟨e0, e1, e2⟩ := this
  have two : (2 : K) ≠ 0 := two_ne_zero
  refine ⟨?_, ?_, ?_⟩
  · rw [e0]; congr 1; simp only [central]; push_cast; field_simp; ring
  · rw [e1]; congr 1; simp only [central]; push_cast; field_simp; ring
  · rw [e2]; congr 1; simp only [central]; push_cast; field_simp; ring

/-- `gradient3Dt`: the same for every timestep. -/
theorem C77_gradient3Dt (a : Nd K) (DW DH DD DT : Nat) (s : Int → Int → Int → Int → K) (ha : Holds4 a DW DH DD DT s)
    (ws : List (W K)) (hp : ws.Perm (gradient3DtWrites a DW DH DD DT)) :
    ∃ g, runOp [3, DW, DH, DD, DT] ws = some g ∧ g.dims = [3, DW, DH, DD, DT] ∧
      ∀ i j k t : Int, 0 ≤ i → i < DW → 0 ≤ j → j < DH → 0 ≤ k → k < DD → 0 ≤ t → t < DT →
        if 1 ≤ i ∧ i < DW - 1 ∧ 1 ≤ j ∧ j < DH - 1 ∧ 1 ≤ k ∧ k < DD - 1 then
          rd g [0, i, j, k, t] = some (central (s · j k t) i) ∧ rd g [1, i, j, k, t] = some (central (s i · k t) j) ∧
          rd g [2, i, j, k, t] = some (central (s i j · t) k)
        else ∀ c : Int, 0 ≤ c → c < 3 → rd g [c, i, j, k, t] = some 0 := by
  have rdS := ha.read
  obtain ⟨r, r0, _, r2, _, r5, r6⟩ := runOp_spec [3, DW, DH, DD, DT] (by simp) (fun
      | [c, i, j, k, t] => if c = 0 then central (s · j k t) i else if c = 1 then central (s i · k t) j else
          central (s i j · t) k
      | _ => 0) (gradient3DtWrites a DW DH DD DT) ws hp (by
    intro w hw
    rw [gradient3DtWrites, mem_loop4] at hw
    obtain ⟨i, j, k, t, hi, hj, hk, ht, hw⟩ := hw
    rw [mem_irange] at hi hj hk ht
    simp only [List.mem_cons, List.not_mem_nil, or_false] at hw
    rcases hw with rfl | rfl | rfl
    · refine ⟨valid5 (by omega), ?_⟩
      rw [rdS _ _ _ _ (by omega) (by omega) (by omega) (by omega) (by omega) (by omega) (by omega) (by omega), rdS _ _ _ _ (by omega) (by omega) (by omega) (by omega) (by omega) (by omega) (by omega) (by omega)]
      simp [sub?, central, -mul_eq_mul_right_iff]; ring
    · refine ⟨valid5 (by omega), ?_⟩
      rw [rdS _ _ _ _ (by omega) (by omega) (by omega) (by omega) (by omega) (by omega) (by omega) (by omega), rdS _ _ _ _ (by omega) (by omega) (by omega) (by omega) (by omega) (by omega) (by omega) (by omega)]
      simp [sub?, central, -mul_eq_mul_right_iff]; ring
    · refine ⟨valid5 (by omega), ?_⟩
      rw [rdS _ _ _ _ (by omega) (by omega) (by omega) (by omega) (by omega) (by omega) (by omega) (by omega), rdS _ _ _ _ (by omega) (by omega) (by omega) (by omega) (by omega) (by omega) (by omega) (by omega)]
      simp [sub?, central, -mul_eq_mul_right_iff]; ring)
  refine ⟨r, r0, r2, fun i j k t h0 h1 h2 h3 h4 h5 h6 h7 => ?_⟩
  split
  · rename_i hin
    have hm : ∀ w, w ∈ _ → w ∈ gradient3DtWrites a DW DH DD DT := fun w hw => mem_loop4.2
      ⟨i, j, k, t, mem_irange.2 ⟨by omega, by omega⟩, mem_irange.2 ⟨by omega, by omega⟩,
        mem_irange.2 ⟨by omega, by omega⟩, mem_irange.2 ⟨by omega, by omega⟩, hw⟩
    exact ⟨by simpa using r5 _ (hm _ (.head _)), by simpa using r5 _ (hm _ (.tail _ (.head _))),
      by simpa using r5 _ (hm _ (.tail _ (.tail _ (.head _))))⟩
  · rename_i hin
    intro c hc0 hc1
    refine r6 _ (valid5 (by omega)) fun w hw he => hin ?_
    obtain ⟨i', j', k', t', hi, hj, hk, ht, hw⟩ := mem_loop4.1 hw
    rw [mem_irange] at hi hj hk ht
    simp only [List.mem_cons, List.not_mem_nil, or_false] at hw
    rcases hw with rfl | rfl | rfl <;> (simp only [List.cons.injEq] at he; omega)

/-! ## 2-D scalar fields -/

/-- `gradient2Dt`: central difference quotients in units of the unit square (times `DW-1`, `DH-1`); 0 on the boundary. -/
theorem C77_gradient2Dt (a : Nd K) (DW DH DT : Nat) (s : Int → Int → Int → K) (ha : Holds3 a DW DH DT s)
    (ws : List (W K)) (hp : ws.Perm (gradient2DtWrites a DW DH DT)) :
    ∃ g, runOp [2, DW, DH, DT] ws = some g ∧ g.dims = [2, DW, DH, DT] ∧
      ∀ i j k : Int, 0 ≤ i → i < DW → 0 ≤ j → j < DH → 0 ≤ k → k < DT →
        if 1 ≤ i ∧ i < DW - 1 ∧ 1 ≤ j ∧ j < DH - 1 then
          rd g [0, i, j, k] = some (central (s · j k) i * (DW - 1)) ∧
          rd g [1, i, j, k] = some (central (s i · k) j * (DH - 1))
        else ∀ c : Int, 0 ≤ c → c < 2 → rd g [c, i, j, k] = some 0 := by
  have rdS := ha.read
  obtain ⟨r, r0, _, r2, _, r5, r6⟩ := runOp_spec [2, DW, DH, DT] (by simp) (fun
      | [c, i, j, k] => if c = 0 then central (s · j k) i * ((DW : K) - 1) else central (s i · k) j * ((DH : K) - 1)
      | _ => 0) (gradient2DtWrites a DW DH DT) ws hp (by
    intro w hw
    rw [gradient2DtWrites, mem_loop3] at hw
    obtain ⟨i, j, k, hi, hj, hk, hw⟩ := hw
    rw [mem_irange] at hi hj hk
    simp only [List.mem_cons, List.not_mem_nil, or_false] at hw
    rcases hw with rfl | rfl
    · refine ⟨valid4 (by omega), ?_⟩
      rw [rdS _ _ _ (by omega) (by omega) (by omega) (by omega) (by omega) (by omega), rdS _ _ _ (by omega) (by omega) (by omega) (by omega) (by omega) (by omega)]
      simp [sub?, central, -mul_eq_mul_right_iff]; ring
    · refine ⟨valid4 (by omega), ?_⟩
      rw [rdS _ _ _ (by omega) (by omega) (by omega) (by omega) (by omega) (by omega), rdS _ _ _ (by omega) (by omega) (by omega) (by omega) (by omega) (by omega)]
      simp [sub?, central, -mul_eq_mul_right_iff]; ring)
  refine ⟨r, r0, r2, fun i j k h0 h1 h2 h3 h4 h5 => ?_⟩
  split
  · rename_i hin
    have hm : ∀ w, w ∈ _ → w ∈ gradient2DtWrites a DW DH DT := fun w hw => mem_loop3.2
      ⟨i, j, k, mem_irange.2 ⟨by omega, by omega⟩, mem_irange.2 ⟨by omega, by omega⟩, mem_irange.2 ⟨by omega, by omega⟩, hw⟩
    exact ⟨by simpa using r5 _ (hm _ (.head _)), by simpa using r5 _ (hm _ (.tail _ (.head _)))⟩
  · rename_i hin
    intro c hc0 hc1
    refine r6 _ (valid4 (by omega)) fun w hw he => hin ?_
    obtain ⟨i', j', k', hi, hj, hk, hw⟩ := mem_loop3.1 hw
    rw [mem_irange] at hi hj hk
    simp only [List.mem_cons, List.not_mem_nil, or_false] at hw
    rcases hw with rfl | rfl <;> (simp only [List.cons.injEq] at he; omega)

/-- `gradient2D`: the difference of the two neighbours, clamped to the grid, times `DW-1`, `DH-1` (without the factor
1/2). -/
theorem C77_gradient2D (a : Nd K) (DW DH : Nat) (s : Int → Int → K) (ha : Holds2 a DW DH s)
    (ws : List (W K)) (hp : ws.Perm (gradient2DWrites a DW DH)) :
    ∃ g, runOp [2, DW, DH] ws = some g ∧ g.dims = [2, DW, DH] ∧
      ∀ i j : Int, 0 ≤ i → i < DW → 0 ≤ j → j < DH →
        rd g [0, i, j] = some ((s (min (i + 1) (DW - 1)) j - s (max (i - 1) 0) j) * (DW - 1)) ∧
        rd g [1, i, j] = some ((s i (min (j + 1) (DH - 1)) - s i (max (j - 1) 0)) * (DH - 1)) := by
  have rdS := ha.read
  obtain ⟨r, r0, _, r2, _, r5, _⟩ := runOp_spec [2, DW, DH] (by simp) (fun
      | [c, i, j] => if c = 0 then (s (min (i + 1) (DW - 1)) j - s (max (i - 1) 0) j) * ((DW : K) - 1)
          else (s i (min (j + 1) (DH - 1)) - s i (max (j - 1) 0)) * ((DH : K) - 1)
      | _ => 0) (gradient2DWrites a DW DH) ws hp (by
    intro w hw
    rw [gradient2DWrites, mem_loop2] at hw
    obtain ⟨i, j, hi, hj, hw⟩ := hw
    rw [mem_irange] at hi hj
    have ei : clampI DW i = i := by unfold clampI; omega
    have ej : clampI DH j = j := by unfold clampI; omega
    have ei1 : clampI DW (i + 1) = min (i + 1) (DW - 1) := by unfold clampI; omega
    have ei2 : clampI DW (i - 1) = max (i - 1) 0 := by unfold clampI; omega
    have ej1 : clampI DH (j + 1) = min (j + 1) (DH - 1) := by unfold clampI; omega
    have ej2 : clampI DH (j - 1) = max (j - 1) 0 := by unfold clampI; omega
    simp only [List.mem_cons, List.not_mem_nil, or_false, ei, ej, ei1, ei2, ej1, ej2] at hw
    rcases hw with rfl | rfl
    · refine ⟨valid3 (by omega), ?_⟩
      rw [rdS _ _ (by omega) (by omega) (by omega) (by omega), rdS _ _ (by omega) (by omega) (by omega) (by omega)]
      simp [sub?]
    · refine ⟨valid3 (by omega), ?_⟩
      rw [rdS _ _ (by omega) (by omega) (by omega) (by omega), rdS _ _ (by omega) (by omega) (by omega) (by omega)]
      simp [sub?])
  refine ⟨r, r0, r2, fun i j h0 h1 h2 h3 => ?_⟩
  have hm : ∀ w, w ∈ _ → w ∈ gradient2DWrites a DW DH := fun w hw => mem_loop2.2
    ⟨i, j, mem_irange.2 ⟨by omega, by omega⟩, mem_irange.2 ⟨by omega, by omega⟩, hw⟩
  exact ⟨by simpa using r5 _ (hm _ (.head _)), by simpa using r5 _ (hm _ (.tail _ (.head _)))⟩

/-- For an affine field on the unit square this is twice the gradient in the interior, and the gradient on the boundary:
`gradient2D` is not a multiple of the gradient. -/
theorem C77_gradient2D_affine (a : Nd K) (DW DH : Nat) (c bx by_ : K)
    (ha : Holds2 a DW DH fun i j => c + bx * i + by_ * j)
    (ws : List (W K)) (hp : ws.Perm (gradient2DWrites a DW DH)) (hW : 2 ≤ DW) :
    ∃ g, runOp [2, DW, DH] ws = some g ∧ ∀ i j : Int, 0 ≤ i → i < DW → 0 ≤ j → j < DH →
      rd g [0, i, j] = some (if 1 ≤ i ∧ i < DW - 1 then 2 * (bx * (DW - 1)) else bx * (DW - 1)) := by
  obtain ⟨g, h0, _, h⟩ := C77_gradient2D a DW DH _ ha ws hp
  refine ⟨g, h0, fun i j h1 h2 h3 h4 => ?_⟩
  rw [(h i j h1 h2 h3 h4).1]
  congr 1
  split
  · rw [min_eq_left (by omega), max_eq_left (by omega)]; push_cast; ring
  · rename_i hb
    rcases Int.lt_or_le i 1 with hi | hi
    · have : i = 0 := by omega
      subst this
      rw [min_eq_left (by omega), max_eq_right (by omega)]; push_cast; ring
    · have hi : i = DW - 1 := by omega
      rw [min_eq_right (by omega), max_eq_left (by omega), hi]; push_cast; ring

/-! ## vector fields -/

/-- `jacobian2Dt`: central difference quotients times `DW-1`, `DH-1`; 0 in a boundary layer of width two. -/
theorem C77_jacobian2Dt (v : Nd K) (DW DH DT : Nat) (u : Int → Int → Int → Int → K) (hv : Holds4 v 2 DW DH DT u)
    (ws : List (W K)) (hp : ws.Perm (jacobian2DtWrites v DW DH DT)) :
    ∃ g, runOp [2, 2, DW, DH, DT] ws = some g ∧ g.dims = [2, 2, DW, DH, DT] ∧
      ∀ c i j k : Int, 0 ≤ c → c < 2 → 0 ≤ i → i < DW → 0 ≤ j → j < DH → 0 ≤ k → k < DT →
        if 2 ≤ i ∧ i < DW - 2 ∧ 2 ≤ j ∧ j < DH - 2 then
          rd g [c, 0, i, j, k] = some (central (u c · j k) i * (DW - 1)) ∧
          rd g [c, 1, i, j, k] = some (central (u c i · k) j * (DH - 1))
        else ∀ d : Int, 0 ≤ d → d < 2 → rd g [c, d, i, j, k] = some 0 := by
  have rdS := hv.read
  obtain ⟨r, r0, _, r2, _, r5, r6⟩ := runOp_spec [2, 2, DW, DH, DT] (by simp) (fun
      | [c, d, i, j, k] => if d = 0 then central (u c · j k) i * ((DW : K) - 1) else central (u c i · k) j * ((DH : K) - 1)
      | _ => 0) (jacobian2DtWrites v DW DH DT) ws hp (by
    intro w hw
    rw [jacobian2DtWrites, mem_loop3] at hw
    obtain ⟨i, j, k, hi, hj, hk, hw⟩ := hw
    rw [mem_irange] at hi hj hk
    simp only [List.mem_cons, List.not_mem_nil, or_false] at hw
    rcases hw with rfl | rfl | rfl | rfl
    · refine ⟨valid5 (by omega), ?_⟩
      rw [rdS _ _ _ _ (by omega) (by omega) (by omega) (by omega) (by omega) (by omega) (by omega) (by omega), rdS _ _ _ _ (by omega) (by omega) (by omega) (by omega) (by omega) (by omega) (by omega) (by omega)]
      simp [sub?, central, -mul_eq_mul_right_iff]; ring
    · refine ⟨valid5 (by omega), ?_⟩
      rw [rdS _ _ _ _ (by omega) (by omega) (by omega) (by omega) (by omega) (by omega) (by omega) (by omega), rdS _ _ _ _ (by omega) (by omega) (by omega) (by omega) (by omega) (by omega) (by omega) (by omega)]
      simp [sub?, central, -mul_eq_mul_right_iff]; ring
    · refine ⟨valid5 (by omega), ?_⟩
      rw [rdS _ _ _ _ (by omega) (by omega) (by omega) (by omega) (by omega) (by omega) (by omega) (by omega), rdS _ _ _ _ (by omega) (by omega) (by omega) (by omega) (by omega) (by omega) (by omega) (by omega)]
      simp [sub?, central, -mul_eq_mul_right_iff]; ring
    · refine ⟨valid5 (by omega), ?_⟩
      rw [rdS _ _ _ _ (by omega) (by omega) (by omega) (by omega) (by omega) (by omega) (by omega) (by omega), rdS _ _ _ _ (by omega) (by omega) (by omega) (by omega) (by omega) (by omega) (by omega) (by omega)]
      simp [sub?, central, -mul_eq_mul_right_iff]; ring)
  refine ⟨r, r0, r2, fun c i j k hc0 hc1 h0 h1 h2 h3 h4 h5 => ?_⟩
  split
  · rename_i hin
    have hm : ∀ w, w ∈ _ → w ∈ jacobian2DtWrites v DW DH DT := fun w hw => mem_loop3.2
      ⟨i, j, k, mem_irange.2 ⟨by omega, by omega⟩, mem_irange.2 ⟨by omega, by omega⟩, mem_irange.2 ⟨by omega, by omega⟩, hw⟩
    rcases (by omega : c = 0 ∨ c = 1) with rfl | rfl
    · exact ⟨by simpa using r5 _ (hm _ (.head _)), by simpa using r5 _ (hm _ (.tail _ (.head _)))⟩
    · exact ⟨by simpa using r5 _ (hm _ (.tail _ (.tail _ (.head _)))),
        by simpa using r5 _ (hm _ (.tail _ (.tail _ (.tail _ (.head _)))))⟩
  · rename_i hin
    intro d hd0 hd1
    refine r6 _ (valid5 (by omega)) fun w hw he => hin ?_
    obtain ⟨i', j', k', hi, hj, hk, hw⟩ := mem_loop3.1 hw
    rw [mem_irange] at hi hj hk
    simp only [List.mem_cons, List.not_mem_nil, or_false] at hw
    rcases hw with rfl | rfl | rfl | rfl <;> (simp only [List.cons.injEq] at he; omega)

/-- `jacobian3D(V, b)`, `b ≥ 1`: central difference quotients; 0 in a boundary layer of width `b`. -/
theorem C77_jacobian3D (v : Nd K) (b : Int) (hb : 1 ≤ b) (DW DH DD : Nat) (u : Int → Int → Int → Int → K)
    (hv : Holds4 v 3 DW DH DD u) (ws : List (W K)) (hp : ws.Perm (jacobian3DWrites v b DW DH DD)) :
    ∃ g, runOp [3, 3, DW, DH, DD] ws = some g ∧ g.dims = [3, 3, DW, DH, DD] ∧
      ∀ c i j k : Int, 0 ≤ c → c < 3 → 0 ≤ i → i < DW → 0 ≤ j → j < DH → 0 ≤ k → k < DD →
        if b ≤ i ∧ i < DW - b ∧ b ≤ j ∧ j < DH - b ∧ b ≤ k ∧ k < DD - b then
          rd g [c, 0, i, j, k] = some (central (u c · j k) i) ∧ rd g [c, 1, i, j, k] = some (central (u c i · k) j) ∧
          rd g [c, 2, i, j, k] = some (central (u c i j ·) k)
        else ∀ d : Int, 0 ≤ d → d < 3 → rd g [c, d, i, j, k] = some 0 := by
  have rdS := hv.read
  obtain ⟨r, r0, _, r2, _, r5, r6⟩ := runOp_spec [3, 3, DW, DH, DD] (by simp) (fun
      | [c, d, i, j, k] => if d = 0 then central (u c · j k) i else if d = 1 then central (u c i · k) j else
          central (u c i j ·) k
      | _ => 0) (jacobian3DWrites v b DW DH DD) ws hp (by
    intro w hw
    rw [jacobian3DWrites, mem_loop3] at hw
    obtain ⟨i, j, k, hi, hj, hk, hw⟩ := hw
    rw [mem_irange] at hi hj hk
    simp only [List.mem_cons, List.not_mem_nil, or_false] at hw
    rcases hw with rfl | rfl | rfl | rfl | rfl | rfl | rfl | rfl | rfl
    · refine ⟨valid5 (by omega), ?_⟩
      rw [rdS _ _ _ _ (by omega) (by omega) (by omega) (by omega) (by omega) (by omega) (by omega) (by omega), rdS _ _ _ _ (by omega) (by omega) (by omega) (by omega) (by omega) (by omega) (by omega) (by omega)]
      simp [sub?, central, -mul_eq_mul_right_iff]; ring
    · refine ⟨valid5 (by omega), ?_⟩
      rw [rdS _ _ _ _ (by omega) (by omega) (by omega) (by omega) (by omega) (by omega) (by omega) (by omega), rdS _ _ _ _ (by omega) (by omega) (by omega) (by omega) (by omega) (by omega) (by omega) (by omega)]
      simp [sub?, central, -mul_eq_mul_right_iff]; ring
    · refine ⟨valid5 (by omega), ?_⟩
      rw [rdS _ _ _ _ (by omega) (by omega) (by omega) (by omega) (by omega) (by omega) (by omega) (by omega), rdS _ _ _ _ (by omega) (by omega) (by omega) (by omega) (by omega) (by omega) (by omega) (by omega)]
      simp [sub?, central, -mul_eq_mul_right_iff]; ring
    · refine ⟨valid5 (by omega), ?_⟩
      rw [rdS _ _ _ _ (by omega) (by omega) (by omega) (by omega) (by omega) (by omega) (by omega) (by omega), rdS _ _ _ _ (by omega) (by omega) (by omega) (by omega) (by omega) (by omega) (by omega) (by omega)]
      simp [sub?, central, -mul_eq_mul_right_iff]; ring
    · refine ⟨valid5 (by omega), ?_⟩
      rw [rdS _ _ _ _ (by omega) (by omega) (by omega) (by omega) (by omega) (by omega) (by omega) (by omega), rdS _ _ _ _ (by omega) (by omega) (by omega) (by omega) (by omega) (by omega) (by omega) (by omega)]
      simp [sub?, central, -mul_eq_mul_right_iff]; ring
    · refine ⟨valid5 (by omega), ?_⟩
      rw [rdS _ _ _ _ (by omega) (by omega) (by omega) (by omega) (by omega) (by omega) (by omega) (by omega), rdS _ _ _ _ (by omega) (by omega) (by omega) (by omega) (by omega) (by omega) (by omega) (by omega)]
      simp [sub?, central, -mul_eq_mul_right_iff]; ring
    · refine ⟨valid5 (by omega), ?_⟩
      rw [rdS _ _ _ _ (by omega) (by omega) (by omega) (by omega) (by omega) (by omega) (by omega) (by omega), rdS _ _ _ _ (by omega) (by omega) (by omega) (by omega) (by omega) (by omega) (by omega) (by omega)]
      simp [sub?, central, -mul_eq_mul_right_iff]; ring
    · refine ⟨valid5 (by omega), ?_⟩
      rw [rdS _ _ _ _ (by omega) (by omega) (by omega) (by omega) (by omega) (by omega) (by omega) (by omega), rdS _ _ _ _ (by omega) (by omega) (by omega) (by omega) (by omega) (by omega) (by omega) (by omega)]
      simp [sub?, central, -mul_eq_mul_right_iff]; ring
    · refine ⟨valid5 (by omega), ?_⟩
      rw [rdS _ _ _ _ (by omega) (by omega) (by omega) (by omega) (by omega) (by omega) (by omega) (by omega), rdS _ _ _ _ (by omega) (by omega) (by omega) (by omega) (by omega) (by omega) (by omega) (by omega)]
      simp [sub?, central, -mul_eq_mul_right_iff]; ring)
  refine ⟨r, r0, r2, fun c i j k hc0 hc1 h0 h1 h2 h3 h4 h5 => ?_⟩
  split
  · rename_i hin
    have hm : ∀ w, w ∈ _ → w ∈ jacobian3DWrites v b DW DH DD := fun w hw => mem_loop3.2
      ⟨i, j, k, mem_irange.2 ⟨by omega, by omega⟩, mem_irange.2 ⟨by omega, by omega⟩, mem_irange.2 ⟨by omega, by omega⟩, hw⟩
    rcases (by omega : c = 0 ∨ c = 1 ∨ c = 2) with rfl | rfl | rfl
    · exact ⟨by simpa using r5 _ (hm _ (.head _)), by simpa using r5 _ (hm _ (.tail _ (.head _))), by simpa using r5 _ (hm _ (.tail _ (.tail _ (.head _))))⟩
    · exact ⟨by simpa using r5 _ (hm _ (.tail _ (.tail _ (.tail _ (.head _))))), by simpa using r5 _ (hm _ (.tail _ (.tail _ (.tail _ (.tail _ (.head _)))))), by simpa using r5 _ (hm _ (.tail _ (.tail _ (.tail _ (.tail _ (.tail _ (.head _)))))))⟩
    · exact ⟨by simpa using r5 _ (hm _ (.tail _ (.tail _ (.tail _ (.tail _ (.tail _ (.tail _ (.head _)))))))), by simpa using r5 _ (hm _ (.tail _ (.tail _ (.tail _ (.tail _ (.tail _ (.tail _ (.tail _ (.head _))))))))), by simpa using r5 _ (hm _ (.tail _ (.tail _ (.tail _ (.tail _ (.tail _ (.tail _ (.tail _ (.tail _ (.head _))))))))))⟩
  · rename_i hin
    intro d hd0 hd1
    refine r6 _ (valid5 (by omega)) fun w hw he => hin ?_
    obtain ⟨i', j', k', hi, hj, hk, hw⟩ := mem_loop3.1 hw
    rw [mem_irange] at hi hj hk
    simp only [List.mem_cons, List.not_mem_nil, or_false] at hw
    rcases hw with rfl | rfl | rfl | rfl | rfl | rfl | rfl | rfl | rfl <;> (simp only [List.cons.injEq] at he; omega)

/-- `vorticity3D`: twice the curl of the central difference quotients (the factor 1/2 is missing); 0 on the boundary. -/
theorem C77_vorticity3D [CharZero K] (v : Nd K) (DW DH DD : Nat) (u : Int → Int → Int → Int → K)
    (hv : Holds4 v 3 DW DH DD u) (ws : List (W K)) (hp : ws.Perm (vorticityWrites v DW DH DD)) :
    ∃ g, runOp [3, DW, DH, DD] ws = some g ∧ g.dims = [3, DW, DH, DD] ∧
      ∀ i j k : Int, 0 ≤ i → i < DW → 0 ≤ j → j < DH → 0 ≤ k → k < DD →
        if 1 ≤ i ∧ i < DW - 1 ∧ 1 ≤ j ∧ j < DH - 1 ∧ 1 ≤ k ∧ k < DD - 1 then
          rd g [0, i, j, k] = some (2 * (central (u 2 i · k) j - central (u 1 i j ·) k)) ∧
          rd g [1, i, j, k] = some (2 * (central (u 0 i j ·) k - central (u 2 · j k) i)) ∧
          rd g [2, i, j, k] = some (2 * (central (u 1 · j k) i - central (u 0 i · k) j))
        else ∀ c : Int, 0 ≤ c → c < 3 → rd g [c, i, j, k] = some 0 := by
  have rdS := hv.read
  have two : (2 : K) ≠ 0 := two_ne_zero
  obtain ⟨r, r0, _, r2, _, r5, r6⟩ := runOp_spec [3, DW, DH, DD] (by simp) (fun
      | [c, i, j, k] => if c = 0 then 2 * (central (u 2 i · k) j - central (u 1 i j ·) k)
          else if c = 1 then 2 * (central (u 0 i j ·) k - central (u 2 · j k) i)
          else 2 * (central (u 1 · j k) i - central (u 0 i · k) j)
      | _ => 0) (vorticityWrites v DW DH DD) ws hp (by
    intro w hw
    rw [vorticityWrites, mem_loop3] at hw
    obtain ⟨i, j, k, hi, hj, hk, hw⟩ := hw
    rw [mem_irange] at hi hj hk
    simp only [List.mem_cons, List.not_mem_nil, or_false] at hw
    rcases hw with rfl | rfl | rfl
    · refine ⟨valid4 (by omega), ?_⟩
      rw [rdS _ _ _ _ (by omega) (by omega) (by omega) (by omega) (by omega) (by omega) (by omega) (by omega), rdS _ _ _ _ (by omega) (by omega) (by omega) (by omega) (by omega) (by omega) (by omega) (by omega)]
      rw [rdS _ _ _ _ (by omega) (by omega) (by omega) (by omega) (by omega) (by omega) (by omega) (by omega), rdS _ _ _ _ (by omega) (by omega) (by omega) (by omega) (by omega) (by omega) (by omega) (by omega)]
      simp [sub?, central]; field_simp
    · refine ⟨valid4 (by omega), ?_⟩
      rw [rdS _ _ _ _ (by omega) (by omega) (by omega) (by omega) (by omega) (by omega) (by omega) (by omega), rdS _ _ _ _ (by omega) (by omega) (by omega) (by omega) (by omega) (by omega) (by omega) (by omega)]
      rw [rdS _ _ _ _ (by omega) (by omega) (by omega) (by omega) (by omega) (by omega) (by omega) (by omega), rdS _ _ _ _ (by omega) (by omega) (by omega) (by omega) (by omega) (by omega) (by omega) (by omega)]
      simp [sub?, central]; field_simp
    · refine ⟨valid4 (by omega), ?_⟩
      rw [rdS _ _ _ _ (by omega) (by omega) (by omega) (by omega) (by omega) (by omega) (by omega) (by omega), rdS _ _ _ _ (by omega) (by omega) (by omega) (by omega) (by omega) (by omega) (by omega) (by omega)]
      rw [rdS _ _ _ _ (by omega) (by omega) (by omega) (by omega) (by omega) (by omega) (by omega) (by omega), rdS _ _ _ _ (by omega) (by omega) (by omega) (by omega) (by omega) (by omega) (by omega) (by omega)]
      simp [sub?, central]; field_simp)
  refine ⟨r, r0, r2, fun i j k h0 h1 h2 h3 h4 h5 => ?_⟩
  split
  · rename_i hin
    have hm : ∀ w, w ∈ _ → w ∈ vorticityWrites v DW DH DD := fun w hw => mem_loop3.2
      ⟨i, j, k, mem_irange.2 ⟨by omega, by omega⟩, mem_irange.2 ⟨by omega, by omega⟩, mem_irange.2 ⟨by omega, by omega⟩, hw⟩
    exact ⟨by simpa using r5 _ (hm _ (.head _)), by simpa using r5 _ (hm _ (.tail _ (.head _))),
      by simpa using r5 _ (hm _ (.tail _ (.tail _ (.head _))))⟩
  · rename_i hin
    intro c hc0 hc1
    refine r6 _ (valid4 (by omega)) fun w hw he => hin ?_
    obtain ⟨i', j', k', hi, hj, hk, hw⟩ := mem_loop3.1 hw
    rw [mem_irange] at hi hj hk
    simp only [List.mem_cons, List.not_mem_nil, or_false] at hw
    rcases hw with rfl | rfl | rfl <;> (simp only [List.cons.injEq] at he; omega)

/-- `cross_product3D`: the cross product at every interior grid point; 0 on the boundary. -/
theorem C77_cross_product3D (v w : Nd K) (DW DH DD : Nat) (u z : Int → Int → Int → Int → K)
    (hv : Holds4 v 3 DW DH DD u) (hw : Holds4 w 3 DW DH DD z) (ws : List (W K)) (hp : ws.Perm (crossWrites v w DW DH DD)) :
    ∃ g, runOp [3, DW, DH, DD] ws = some g ∧ g.dims = [3, DW, DH, DD] ∧
      ∀ i j k : Int, 0 ≤ i → i < DW → 0 ≤ j → j < DH → 0 ≤ k → k < DD →
        if 1 ≤ i ∧ i < DW - 1 ∧ 1 ≤ j ∧ j < DH - 1 ∧ 1 ≤ k ∧ k < DD - 1 then
          rd g [0, i, j, k] = some (u 1 i j k * z 2 i j k - u 2 i j k * z 1 i j k) ∧
          rd g [1, i, j, k] = some (u 2 i j k * z 0 i j k - u 0 i j k * z 2 i j k) ∧
          rd g [2, i, j, k] = some (u 0 i j k * z 1 i j k - u 1 i j k * z 0 i j k)
        else ∀ c : Int, 0 ≤ c → c < 3 → rd g [c, i, j, k] = some 0 := by
  have rdV := hv.read
  have rdW := hw.read
  obtain ⟨r, r0, _, r2, _, r5, r6⟩ := runOp_spec [3, DW, DH, DD] (by simp) (fun
      | [c, i, j, k] => if c = 0 then u 1 i j k * z 2 i j k - u 2 i j k * z 1 i j k
          else if c = 1 then u 2 i j k * z 0 i j k - u 0 i j k * z 2 i j k
          else u 0 i j k * z 1 i j k - u 1 i j k * z 0 i j k
      | _ => 0) (crossWrites v w DW DH DD) ws hp (by
    intro w hw
    rw [crossWrites, mem_loop3] at hw
    obtain ⟨i, j, k, hi, hj, hk, hw⟩ := hw
    rw [mem_irange] at hi hj hk
    simp only [List.mem_cons, List.not_mem_nil, or_false] at hw
    rcases hw with rfl | rfl | rfl
    · refine ⟨valid4 (by omega), ?_⟩
      rw [rdV _ _ _ _ (by omega) (by omega) (by omega) (by omega) (by omega) (by omega) (by omega) (by omega), rdV _ _ _ _ (by omega) (by omega) (by omega) (by omega) (by omega) (by omega) (by omega) (by omega)]
      rw [rdW _ _ _ _ (by omega) (by omega) (by omega) (by omega) (by omega) (by omega) (by omega) (by omega), rdW _ _ _ _ (by omega) (by omega) (by omega) (by omega) (by omega) (by omega) (by omega) (by omega)]
      simp [sub?, add?, mul?]
    · refine ⟨valid4 (by omega), ?_⟩
      rw [rdV _ _ _ _ (by omega) (by omega) (by omega) (by omega) (by omega) (by omega) (by omega) (by omega), rdV _ _ _ _ (by omega) (by omega) (by omega) (by omega) (by omega) (by omega) (by omega) (by omega)]
      rw [rdW _ _ _ _ (by omega) (by omega) (by omega) (by omega) (by omega) (by omega) (by omega) (by omega), rdW _ _ _ _ (by omega) (by omega) (by omega) (by omega) (by omega) (by omega) (by omega) (by omega)]
      simp [sub?, add?, mul?]; ring
    · refine ⟨valid4 (by omega), ?_⟩
      rw [rdV _ _ _ _ (by omega) (by omega) (by omega) (by omega) (by omega) (by omega) (by omega) (by omega), rdV _ _ _ _ (by omega) (by omega) (by omega) (by omega) (by omega) (by omega) (by omega) (by omega)]
      rw [rdW _ _ _ _ (by omega) (by omega) (by omega) (by omega) (by omega) (by omega) (by omega) (by omega), rdW _ _ _ _ (by omega) (by omega) (by omega) (by omega) (by omega) (by omega) (by omega) (by omega)]
      simp [sub?, add?, mul?])
  refine ⟨r, r0, r2, fun i j k h0 h1 h2 h3 h4 h5 => ?_⟩
  split
  · rename_i hin
    have hm : ∀ x, x ∈ _ → x ∈ crossWrites v w DW DH DD := fun x hx => mem_loop3.2
      ⟨i, j, k, mem_irange.2 ⟨by omega, by omega⟩, mem_irange.2 ⟨by omega, by omega⟩, mem_irange.2 ⟨by omega, by omega⟩, hx⟩
    exact ⟨by simpa using r5 _ (hm _ (.head _)), by simpa using r5 _ (hm _ (.tail _ (.head _))),
      by simpa using r5 _ (hm _ (.tail _ (.tail _ (.head _))))⟩
  · rename_i hin
    intro c hc0 hc1
    refine r6 _ (valid4 (by omega)) fun w hw he => hin ?_
    obtain ⟨i', j', k', hi, hj, hk, hw⟩ := mem_loop3.1 hw
    rw [mem_irange] at hi hj hk
    simp only [List.mem_cons, List.not_mem_nil, or_false] at hw
    rcases hw with rfl | rfl | rfl <;> (simp only [List.cons.injEq] at he; omega)

/-- `Jv_dot_v` and `JvT_dot_v`: `J v` and `Jᵀ v` at every interior grid point, given the Jacobians; 0 on the boundary. -/
theorem C77_Jv (J v : Nd K) (DW DH DD : Nat) (u : Int → Int → Int → Int → K) (M : Int → Int → Int → Int → Int → K)
    (hv : Holds4 v 3 DW DH DD u)
    (hJ : ∀ c d i j k : Int, 0 ≤ c → c < 3 → 0 ≤ d → d < 3 → 0 ≤ i → i < DW → 0 ≤ j → j < DH → 0 ≤ k → k < DD →
      rd J [c, d, i, j, k] = some (M c d i j k)) :
    ∃ g g', runOp [3, DW, DH, DD] (jvWrites J v DW DH DD) = some g ∧
      runOp [3, DW, DH, DD] (jvtWrites J v DW DH DD) = some g' ∧
      ∀ c i j k : Int, 0 ≤ c → c < 3 → 0 ≤ i → i < DW → 0 ≤ j → j < DH → 0 ≤ k → k < DD →
        if 1 ≤ i ∧ i < DW - 1 ∧ 1 ≤ j ∧ j < DH - 1 ∧ 1 ≤ k ∧ k < DD - 1 then
          rd g [c, i, j, k] = some (M c 0 i j k * u 0 i j k + M c 1 i j k * u 1 i j k + M c 2 i j k * u 2 i j k) ∧
          rd g' [c, i, j, k] = some (M 0 c i j k * u 0 i j k + M 1 c i j k * u 1 i j k + M 2 c i j k * u 2 i j k)
        else rd g [c, i, j, k] = some 0 ∧ rd g' [c, i, j, k] = some 0 := by
  have rdV := hv.read
  obtain ⟨r, r0, _, r2, _, r5, r6⟩ := runOp_spec [3, DW, DH, DD] (by simp) (fun
      | [c, i, j, k] => M c 0 i j k * u 0 i j k + M c 1 i j k * u 1 i j k + M c 2 i j k * u 2 i j k
      | _ => 0) (jvWrites J v DW DH DD) _ (List.Perm.refl _) (by
    intro w hw
    rw [jvWrites, mem_loop3] at hw
    obtain ⟨i, j, k, hi, hj, hk, hw⟩ := hw
    rw [mem_irange] at hi hj hk
    obtain ⟨c, hc, rfl⟩ := List.mem_map.1 hw
    rw [mem_irange] at hc
    refine ⟨valid4 (by omega), ?_⟩
    simp (disch := omega) only [rdV, hJ, add?, mul?, Option.bind_some, Option.map_some])
  obtain ⟨r', r0', _, r2', _, r5', r6'⟩ := runOp_spec [3, DW, DH, DD] (by simp) (fun
      | [c, i, j, k] => M 0 c i j k * u 0 i j k + M 1 c i j k * u 1 i j k + M 2 c i j k * u 2 i j k
      | _ => 0) (jvtWrites J v DW DH DD) _ (List.Perm.refl _) (by
    intro w hw
    rw [jvtWrites, mem_loop3] at hw
    obtain ⟨i, j, k, hi, hj, hk, hw⟩ := hw
    rw [mem_irange] at hi hj hk
    obtain ⟨c, hc, rfl⟩ := List.mem_map.1 hw
    rw [mem_irange] at hc
    refine ⟨valid4 (by omega), ?_⟩
    simp (disch := omega) only [rdV, hJ, add?, mul?, Option.bind_some, Option.map_some])
  refine ⟨r, r', r0, r0', fun c i j k hc0 hc1 h0 h1 h2 h3 h4 h5 => ?_⟩
  split
  · rename_i hin
    have hm : ∀ w, w ∈ _ → w ∈ jvWrites J v DW DH DD := fun w hw => mem_loop3.2
      ⟨i, j, k, mem_irange.2 ⟨by omega, by omega⟩, mem_irange.2 ⟨by omega, by omega⟩, mem_irange.2 ⟨by omega, by omega⟩, hw⟩
    have hm' : ∀ w, w ∈ _ → w ∈ jvtWrites J v DW DH DD := fun w hw => mem_loop3.2
      ⟨i, j, k, mem_irange.2 ⟨by omega, by omega⟩, mem_irange.2 ⟨by omega, by omega⟩, mem_irange.2 ⟨by omega, by omega⟩, hw⟩
    exact ⟨r5 _ (hm _ (List.mem_map.2 ⟨c, mem_irange.2 ⟨hc0, hc1⟩, rfl⟩)),
      r5' _ (hm' _ (List.mem_map.2 ⟨c, mem_irange.2 ⟨hc0, hc1⟩, rfl⟩))⟩
  · rename_i hin
    refine ⟨r6 _ (valid4 (by omega)) fun w hw he => hin ?_, r6' _ (valid4 (by omega)) fun w hw he => hin ?_⟩
    all_goals
      obtain ⟨i', j', k', hi, hj, hk, hw⟩ := mem_loop3.1 hw
      rw [mem_irange] at hi hj hk
      obtain ⟨c', hc, rfl⟩ := List.mem_map.1 hw
      simp only [List.cons.injEq] at he
      omega

/-! ## what is wrong -/

/-- `jacobian2D<T, true>` (used by the 2-D tracker): the diagonal entries are `V(i+1) - V(i-1) * (DW-1)`, because of a
missing parenthesis. -/
theorem C77_jacobian2D_symmetric (v : Nd K) (DW DH : Nat) (u : Int → Int → Int → K) (hv : Holds3 v 2 DW DH u)
    (ws : List (W K)) (hp : ws.Perm (jacobian2DWrites true v DW DH)) :
    ∃ g, runOp [2, 2, DW, DH] ws = some g ∧ g.dims = [2, 2, DW, DH] ∧
      ∀ i j : Int, 0 ≤ i → i < DW → 0 ≤ j → j < DH →
        let il := max (i - 1) 0
        let ir := min (i + 1) (DW - 1)
        let jl := max (j - 1) 0
        let jr := min (j + 1) (DH - 1)
        rd g [0, 0, i, j] = some (u 0 ir j - u 0 il j * (DW - 1)) ∧
        rd g [1, 1, i, j] = some (u 1 i jr - u 1 i jl * (DH - 1)) ∧
        rd g [1, 0, i, j] = some ((u 0 i jr - u 0 i jl * (DH - 1) + (u 1 ir j - u 1 il j * (DW - 1))) / 2) ∧
        rd g [0, 1, i, j] = some ((u 0 i jr - u 0 i jl * (DH - 1) + (u 1 ir j - u 1 il j * (DW - 1))) / 2) := by
  have rdS := hv.read
  obtain ⟨r, r0, _, r2, _, r5, r6⟩ := runOp_spec [2, 2, DW, DH] (by simp) (fun
      | [c, d, i, j] =>
        if c = 0 ∧ d = 0 then u 0 (min (i + 1) (DW - 1)) j - u 0 (max (i - 1) 0) j * ((DW : K) - 1)
        else if c = 1 ∧ d = 1 then u 1 i (min (j + 1) (DH - 1)) - u 1 i (max (j - 1) 0) * ((DH : K) - 1)
        else (u 0 i (min (j + 1) (DH - 1)) - u 0 i (max (j - 1) 0) * ((DH : K) - 1) +
          (u 1 (min (i + 1) (DW - 1)) j - u 1 (max (i - 1) 0) j * ((DW : K) - 1))) / 2
      | _ => 0) (jacobian2DWrites true v DW DH) ws hp (by
    intro w hw
    rw [jacobian2DWrites, mem_loop2] at hw
    obtain ⟨i, j, hi, hj, hw⟩ := hw
    rw [mem_irange] at hi hj
    have ei : clampI DW i = i := by unfold clampI; omega
    have ej : clampI DH j = j := by unfold clampI; omega
    have ei1 : clampI DW (i + 1) = min (i + 1) (DW - 1) := by unfold clampI; omega
    have ei2 : clampI DW (i - 1) = max (i - 1) 0 := by unfold clampI; omega
    have ej1 : clampI DH (j + 1) = min (j + 1) (DH - 1) := by unfold clampI; omega
    have ej2 : clampI DH (j - 1) = max (j - 1) 0 := by unfold clampI; omega
    have q : ∀ c : Int, 0 ≤ c → c < 2 → rd v [c, min (i + 1) (DW - 1), j] = some (u c (min (i + 1) (DW - 1)) j) ∧
      rd v [c, max (i - 1) 0, j] = some (u c (max (i - 1) 0) j) ∧
      rd v [c, i, min (j + 1) (DH - 1)] = some (u c i (min (j + 1) (DH - 1))) ∧
      rd v [c, i, max (j - 1) 0] = some (u c i (max (j - 1) 0)) := fun c h0 h1 =>
      ⟨rdS _ _ _ (by omega) (by omega) (by omega) (by omega) (by omega) (by omega),
       rdS _ _ _ (by omega) (by omega) (by omega) (by omega) (by omega) (by omega),
       rdS _ _ _ (by omega) (by omega) (by omega) (by omega) (by omega) (by omega),
       rdS _ _ _ (by omega) (by omega) (by omega) (by omega) (by omega) (by omega)⟩
    obtain ⟨p1, p2, p3, p4⟩ := q 0 (by omega) (by omega)
    obtain ⟨q1, q2, q3, q4⟩ := q 1 (by omega) (by omega)
    simp only [List.mem_cons, List.not_mem_nil, or_false, ei, ej, ei1, ei2, ej1, ej2, p1, p2, p3, p4, q1, q2, q3, q4,
      sub?, add?, Option.bind_some, Option.map_some, if_true, List.cons_append, List.nil_append] at hw
    rcases hw with rfl | rfl | rfl | rfl
    · exact ⟨valid4 (by omega), by simp⟩
    · exact ⟨valid4 (by omega), by simp⟩
    · exact ⟨valid4 (by omega), by simp; ring⟩
    · exact ⟨valid4 (by omega), by simp; ring⟩)
  refine ⟨r, r0, r2, fun i j h0 h1 h2 h3 => ?_⟩
  have hm : ∀ w, w ∈ _ → w ∈ jacobian2DWrites true v DW DH := fun w hw => mem_loop2.2
    ⟨i, j, mem_irange.2 ⟨by omega, by omega⟩, mem_irange.2 ⟨by omega, by omega⟩, hw⟩
  exact ⟨by simpa using r5 _ (hm _ (.head _)), by simpa using r5 _ (hm _ (.tail _ (.head _))),
    by simpa using r5 _ (hm _ (.tail _ (.tail _ (.head _)))),
    by simpa using r5 _ (hm _ (.tail _ (.tail _ (.tail _ (.head _)))))⟩

/-- So the "Jacobian" of the constant field `(1, 1)` on a 4 by 4 grid is not 0, at no grid point. -/
theorem C77_jacobian2D_constant (v : Nd ℚ) (hv : Holds3 v 2 4 4 fun _ _ _ => 1)
    (ws : List (W ℚ)) (hp : ws.Perm (jacobian2DWrites true v 4 4)) :
    ∃ g, runOp [2, 2, 4, 4] ws = some g ∧ ∀ i j : Int, 0 ≤ i → i < 4 → 0 ≤ j → j < 4 →
      rd g [0, 0, i, j] = some (-2) ∧ rd g [1, 1, i, j] = some (-2) := by
  obtain ⟨g, h0, _, h⟩ := C77_jacobian2D_symmetric v 4 4 _ hv ws hp
  refine ⟨g, h0, fun i j h1 h2 h3 h4 => ?_⟩
  obtain ⟨e0, e1, _⟩ := h i j h1 h2 h3 h4
  rw [e0, e1]
  norm_num

/-- `jacobian2D<T, false>` never writes the entries (0,1) and (1,0) of a pixel other than pixel (0,0): they stay 0 whatever
the field. -/
theorem C77_jacobian2D_off_diagonal (v : Nd K) (DW DH : Nat) (u : Int → Int → Int → K) (hv : Holds3 v 2 DW DH u)
    (ws : List (W K)) (hp : ws.Perm (jacobian2DWrites false v DW DH)) (g : Nd K)
    (hg : runOp [2, 2, DW, DH] ws = some g) (i j : Int) (h0 : 0 ≤ i) (h1 : i < DW) (h2 : 0 ≤ j) (h3 : j < DH)
    (hne : i ≠ 0 ∨ j ≠ 0) : rd g [0, 1, i, j] = some 0 ∧ rd g [1, 0, i, j] = some 0 := by
  obtain ⟨z, z0, z1, z2, _, z4⟩ := zeros_spec (K := K) [2, 2, DW, DH] (by simp)
  have key : ∀ (ws : List (W K)) (z g : Nd K), Shaped z → z.dims = [2, 2, DW, DH] →
      (∀ w ∈ ws, (∃ (c x y : Int), w.1 = [c, c, x, y] ∧ 0 ≤ c ∧ c < 2 ∧ 0 ≤ x ∧ x < DW ∧ 0 ≤ y ∧ y < DH) ∨ w.1 = [0, 1] ∨
        w.1 = [1, 0]) →
      runWrites ws z = some g → rd g [0, 1, i, j] = rd z [0, 1, i, j] ∧ rd g [1, 0, i, j] = rd z [1, 0, i, j] := by
    intro ws
    induction ws with
    | nil => intro z g _ _ _ h; cases h; exact ⟨rfl, rfl⟩
    | cons w ws ih =>
      intro z g hz hd hw h
      rw [runWrites, List.foldlM_cons] at h
      rcases hv : w.2 with _ | x
      · simp [hv] at h
      rcases hb : wr z w.1 x with _ | b
      · simp [hv, hb] at h
      simp only [hv, Option.bind_some, hb] at h
      have short : ∀ c d : Int, wr z [c, d] x = wr z [c, d, 0, 0] x := by
        intro c d
        have : z.s = [1, 1 * 2, 1 * 2 * 2, 1 * 2 * 2 * DW] := by rw [hz.str, hd]; rfl
        simp [wr, pos, this, flat]
      have fin : ∀ c d x' y : Int, w.1 = [c, d, x', y] ∨ wr z w.1 x = wr z [c, d, x', y] x →
          0 ≤ c → c < 2 → 0 ≤ d → d < 2 → 0 ≤ x' → x' < DW → 0 ≤ y → y < DH →
          [c, d, x', y] ≠ [0, 1, i, j] → [c, d, x', y] ≠ [1, 0, i, j] →
          rd g [0, 1, i, j] = rd z [0, 1, i, j] ∧ rd g [1, 0, i, j] = rd z [1, 0, i, j] := by
        intro c d x' y hw1 c0 c1 d0 d1 x0 x1 y0 y1 n1 n2
        have hb' : wr z [c, d, x', y] x = some b := by
          rcases hw1 with h | h
          · rw [← h]; exact hb
          · rw [← h]; exact hb
        obtain ⟨b', hb2, hs, hdb, _, _, _, ho⟩ := wr_valid hz (idx := [c, d, x', y]) (hd ▸ valid4 (by omega)) x
        rw [hb'] at hb2
        cases hb2
        obtain ⟨e1, e2⟩ := ih b g hs (hdb.trans hd) (fun w hw' => hw w (List.mem_cons_of_mem _ hw')) h
        rw [e1, e2]
        exact ⟨ho _ (hd ▸ valid4 (by omega)) (Ne.symm n1), ho _ (hd ▸ valid4 (by omega)) (Ne.symm n2)⟩
      rcases hw w List.mem_cons_self with ⟨c, x', y, he, c0, c1, x0, x1, y0, y1⟩ | he | he
      · refine fin c c x' y (.inl he) c0 c1 c0 c1 x0 x1 y0 y1 ?_ ?_ <;>
          (intro h'; simp only [List.cons.injEq] at h'; omega)
      · refine fin 0 1 0 0 (.inr (by rw [he]; exact short 0 1)) (by omega) (by omega) (by omega) (by omega) (by omega)
          (by omega) (by omega) (by omega) ?_ ?_ <;> (intro h'; simp only [List.cons.injEq] at h'; omega)
      · refine fin 1 0 0 0 (.inr (by rw [he]; exact short 1 0)) (by omega) (by omega) (by omega) (by omega) (by omega)
          (by omega) (by omega) (by omega) ?_ ?_ <;> (intro h'; simp only [List.cons.injEq] at h'; omega)
  rw [runOp, z0, Option.bind_some] at hg
  obtain ⟨e1, e2⟩ := key ws z g z1 z2 (by
    intro w hw
    have hw := hp.mem_iff.1 hw
    rw [jacobian2DWrites, mem_loop2] at hw
    obtain ⟨x, y, hx, hy, hw⟩ := hw
    rw [mem_irange] at hx hy
    simp only [List.mem_cons, List.not_mem_nil, or_false, List.cons_append, List.nil_append, if_neg, Bool.false_eq_true,
      not_false_eq_true] at hw
    rcases hw with rfl | rfl | rfl | rfl
    · exact .inl ⟨0, x, y, rfl, by omega⟩
    · exact .inl ⟨1, x, y, rfl, by omega⟩
    · exact .inr (.inl rfl)
    · exact .inr (.inr rfl)) hg
  rw [e1, e2]
  exact ⟨z4 _ (valid4 (by omega)), z4 _ (valid4 (by omega))⟩

/-- `jacobian3Dt` reads in front of the array whenever its loops are not empty. -/
theorem C77_jacobian3Dt_out_of_bounds (v : Nd K) (hs : Shaped v) (DW DH DD DT : Nat) (hd : v.dims = [3, DW, DH, DD, DT])
    (hW : 5 ≤ DW) (hH : 5 ≤ DH) (hD : 3 ≤ DD) (hT : 1 ≤ DT)
    (ws : List (W K)) (hp : ws.Perm (jacobian3DtWrites v DW DH DD DT)) : runOp [3, 3, DW, DH, DD, DT] ws = none := by
  obtain ⟨z, z0, _⟩ := zeros_spec (K := K) [3, 3, DW, DH, DD, DT] (by simp)
  rw [runOp, z0, Option.bind_some]
  apply runWrites_none
  refine ⟨_, hp.mem_iff.2 (mem_loop4.2 ⟨2, 2, 0, 0, mem_irange.2 ⟨by omega, by omega⟩, mem_irange.2 ⟨by omega, by omega⟩,
    mem_irange.2 ⟨by omega, by omega⟩, mem_irange.2 ⟨by omega, by omega⟩, .tail _ (.tail _ (.head _))⟩), ?_⟩
  have : rd v [0, 2, 2, 0 - 1, 0] = none := by
    have hstr : v.s = [1, 1 * 3, 1 * 3 * DW, 1 * 3 * DW * DH, 1 * 3 * DW * DH * DD] := by rw [hs.str, hd]; rfl
    rw [rd, pos, if_neg]
    · rfl
    · rintro ⟨_, h, _⟩
      rw [hstr] at h
      simp only [flat] at h
      push_cast at h
      nlinarith [mul_nonneg (by omega : (0 : Int) ≤ DW - 5) (by omega : (0 : Int) ≤ DH - 5)]
  simp only [this, sub?]
  cases rd v [0, 2, 2, 0 + 1, 0] <;> rfl

/-! ## the hypotheses are met -/

/-- a 3 by 3 by 3 array with entries `0 … 26` -/
def sample : Nd ℚ := ⟨[3, 3, 3], [1, 3, 9], 0, false, (List.range 27).map fun n => (n : ℚ)⟩
example : Shaped sample := ⟨by decide, rfl, by decide⟩
example : Holds3 sample 3 3 3 fun i j k => (i : ℚ) + 3 * j + 9 * k := by
  constructor
  intro i j k h0 h1 h2 h3 h4 h5
  rcases (by omega : i = 0 ∨ i = 1 ∨ i = 2) with rfl | rfl | rfl <;>
    rcases (by omega : j = 0 ∨ j = 1 ∨ j = 2) with rfl | rfl | rfl <;>
      rcases (by omega : k = 0 ∨ k = 1 ∨ k = 2) with rfl | rfl | rfl <;>
        decide +kernel
/-- its gradient at the only interior point is `(1, 3, 9)` -/
example : ((runOp [3, 3, 3, 3] (gradient3DWrites sample 3 3 3)).map fun g =>
    (rd g [0, 1, 1, 1], rd g [1, 1, 1, 1], rd g [2, 1, 1, 1], rd g [0, 0, 1, 1])) =
    some (some 1, some 3, some 9, some 0) := by decide +kernel

end Verif.Grad
