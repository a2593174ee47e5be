import Verif.Cell.Model
import Mathlib.Tactic.Ring
import Mathlib.Tactic.FieldSimp
import Mathlib.Tactic.LinearCombination
import Mathlib.Tactic.Linarith
import Mathlib.Tactic.NormNum
import Mathlib.Tactic.Positivity
import Mathlib.Algebra.BigOperators.Fin
import Mathlib.Algebra.BigOperators.Field
import Mathlib.Algebra.BigOperators.Group.Finset.Basic
import Mathlib.Algebra.Order.BigOperators.Group.Finset
import Mathlib.Algebra.Order.BigOperators.Ring.Finset
import Mathlib.Algebra.Order.Ring.Rat
import Mathlib.Algebra.Order.Field.Rat
import Mathlib.Algebra.Field.Rat

/-!
# Wachspress weights (C144)
-/

namespace Verif.Cell

open Verif.Num Finset

variable {K : Type} [Field K] [LinearOrder K] [IsStrictOrderedRing K]

/-! ### Specification -/

/-- Twice the signed area of the triangle `a b c` of the plane. -/
def cr (a b c : Fin 2 → K) : K := (b 0 - a 0) * (c 1 - a 1) - (b 1 - a 1) * (c 0 - a 0)

/-- A point of the plane through `o` spanned by `e` and `f`. -/
def onPlane (o e f : Fin 3 → K) (p : Fin 2 → K) : Fin 3 → K := fun k => o k + p 0 * e k + p 1 * f k

/-- The number after `i` around the polygon. -/
def nxt (n i : ℕ) : ℕ := (i + 1) % n

/-- The number before `i`. -/
def prv (n i : ℕ) : ℕ := (i + n - 1) % n

/-- `P` are the vertices of a convex polygon, counter-clockwise, and `q` lies in it (inside or on its boundary): every vertex is a left turn (or
straight) and `q` is on the left of every edge (or on it). -/
structure ConvexAt (n : ℕ) (P : ℕ → Fin 2 → K) (q : Fin 2 → K) : Prop where
  three : 3 ≤ n
  convex : ∀ i < n, 0 ≤ cr (P i) (P (nxt n i)) (P (prv n i))
  inside : ∀ i < n, 0 ≤ cr q (P i) (P (nxt n i))

/-- A vertex `i` that is a proper corner, such that `q` is on no edge except those of `i`.  There is one if `q` is inside a proper polygon (any
corner), inside an edge (an end of it), or a corner. -/
def Corner (n : ℕ) (P : ℕ → Fin 2 → K) (q : Fin 2 → K) (i : ℕ) : Prop :=
  i < n ∧ 0 < cr (P i) (P (nxt n i)) (P (prv n i)) ∧ ∀ j < n, j ≠ i → j ≠ prv n i → 0 < cr q (P j) (P (nxt n j))

/-! ### Lemmas -/

theorem nxt_lt {n i : ℕ} (h : 3 ≤ n) : nxt n i < n := Nat.mod_lt _ (by omega)

theorem prv_lt {n i : ℕ} (h : 3 ≤ n) : prv n i < n := Nat.mod_lt _ (by omega)

theorem nxt_eq {n i : ℕ} (h : i < n) : nxt n i = if i + 1 = n then 0 else i + 1 := by
  unfold nxt
  split
  · rename_i h'; rw [h', Nat.mod_self]
  · exact Nat.mod_eq_of_lt (by omega)

theorem prv_eq {n i : ℕ} (h : i < n) : prv n i = if i = 0 then n - 1 else i - 1 := by
  unfold prv
  split
  · rename_i h'; subst h'; rw [Nat.zero_add]; exact Nat.mod_eq_of_lt (by omega)
  · rw [show i + n - 1 = (i - 1) + n by omega, Nat.add_mod_right]; exact Nat.mod_eq_of_lt (by omega)

theorem nxt_prv {n i : ℕ} (h : i < n) : nxt n (prv n i) = i := by
  have hp : prv n i < n := Nat.mod_lt _ (by omega)
  rw [nxt_eq hp, prv_eq h]
  split <;> split <;> omega

theorem prv_nxt {n i : ℕ} (h : i < n) : prv n (nxt n i) = i := by
  have hp : nxt n i < n := Nat.mod_lt _ (by omega)
  rw [prv_eq hp, nxt_eq h]
  split <;> split <;> omega

theorem prv_ne {n i : ℕ} (hn : 3 ≤ n) (h : i < n) : prv n i ≠ i := by rw [prv_eq h]; split <;> omega

theorem foldl_skip (c : ℕ → Prop) [DecidablePred c] (A : ℕ → K) (m : ℕ) :
    (List.range m).foldl (fun p j => if c j then p else p * A j) 1 = ∏ j ∈ range m, if c j then 1 else A j := by
  induction m with
  | zero => simp
  | succ m ih =>
    rw [List.range_succ, List.foldl_append, ih, prod_range_succ]
    simp only [List.foldl_cons, List.foldl_nil]
    split <;> simp

theorem foldl_add (f : ℕ → K) (m : ℕ) : (List.range m).foldl (fun s i => s + f i) 0 = ∑ i ∈ range m, f i := by
  induction m with
  | zero => simp
  | succ m ih => rw [List.range_succ, List.foldl_append, ih, sum_range_succ]; rfl

theorem prodA_eq (n i : ℕ) (A : ℕ → K) : prodA n i A = ∏ j ∈ range n, if j = i ∨ j = prv n i then 1 else A j := by
  unfold prodA prv
  exact foldl_skip _ _ _

/-- The product without one factor. -/
def rest (n i : ℕ) (A : ℕ → K) : K := ∏ j ∈ range n, if j = i then 1 else A j

theorem rest_split (n i k : ℕ) (A : ℕ → K) (hk : k < n) (hik : k ≠ i) :
    (∏ j ∈ range n, if j = i ∨ j = k then 1 else A j) * A k = rest n i A := by
  unfold rest
  have h1 : (∏ j ∈ range n, if j = i then 1 else A j) = (∏ j ∈ range n, if j = i ∨ j = k then 1 else A j) * ∏ j ∈ range n, if j = k then A j else 1 := by
    rw [← prod_mul_distrib]
    refine prod_congr rfl fun j _ => ?_
    by_cases a : j = i <;> by_cases b : j = k <;> simp [a, b]
    all_goals (intro h; exact absurd h (by omega))
  rw [h1]
  congr 1
  rw [prod_ite_eq']
  simp [hk]

theorem prodA_mul (n i : ℕ) (A : ℕ → K) (hn : 3 ≤ n) (hi : i < n) :
    prodA n i A * A (prv n i) = rest n i A ∧ prodA n i A * A i = rest n (prv n i) A := by
  rw [prodA_eq]
  refine ⟨rest_split n i (prv n i) A (prv_lt hn) (prv_ne hn hi), ?_⟩
  rw [← rest_split n (prv n i) i A hi (Ne.symm (prv_ne hn hi))]
  congr 1
  refine prod_congr rfl fun j _ => ?_
  simp only [or_comm]

theorem sum_shift (n : ℕ) (hn : 3 ≤ n) (g : ℕ → K) : ∑ i ∈ range n, g (prv n i) = ∑ i ∈ range n, g i := by
  refine sum_nbij' (prv n) (nxt n) ?_ ?_ ?_ ?_ ?_
  · intro i _; exact mem_range.2 (prv_lt hn)
  · intro i _; exact mem_range.2 (nxt_lt hn)
  · intro i hi; exact nxt_prv (mem_range.1 hi)
  · intro i hi; exact prv_nxt (mem_range.1 hi)
  · intro i _; rfl

/-- The heart of the matter: Wachspress' identity, for one coordinate. -/
theorem identity (P : ℕ → Fin 2 → K) (q : Fin 2 → K) (n : ℕ) (hn : 3 ≤ n) (c : K) (k : Fin 2) :
    ∑ i ∈ range n, c * cr (P i) (P (nxt n i)) (P (prv n i)) * prodA n i (fun j => c * cr q (P j) (P (nxt n j))) * (P i k - q k) = 0 := by
  set a : ℕ → K := fun j => c * cr q (P j) (P (nxt n j)) with ha
  have h1 : ∀ i ∈ range n, c * cr (P i) (P (nxt n i)) (P (prv n i)) * prodA n i a * (P i k - q k) =
      -(rest n i a * (P (nxt n i) k - P i k)) + (fun j => rest n j a * (P (nxt n j) k - P j k)) (prv n i) := by
    intro i hi
    have hi := mem_range.1 hi
    obtain ⟨e1, e2⟩ := prodA_mul n i a hn hi
    have key : c * cr (P i) (P (nxt n i)) (P (prv n i)) * (P i k - q k) = -(a (prv n i) * (P (nxt n i) k - P i k)) + a i * (P i k - P (prv n i) k) := by
      simp only [ha, nxt_prv hi, cr]
      fin_cases k <;> simp only [Fin.zero_eta, Fin.mk_one] <;> ring
    dsimp only
    rw [nxt_prv hi, ← e1, ← e2]
    linear_combination prodA n i a * key
  rw [sum_congr rfl h1, sum_add_distrib, sum_shift n hn (fun j => rest n j a * (P (nxt n j) k - P j k)), ← sum_add_distrib]
  simp

theorem area_plane {sqrt : K → K} (hsq : ∀ d, 0 ≤ d → 0 ≤ sqrt d ∧ sqrt d * sqrt d = d) (o e f : Fin 3 → K) (a b c : Fin 2 → K) :
    area3 sqrt (onPlane o e f a) (onPlane o e f b) (onPlane o e f c) =
      1 / 2 * sqrt ((crossProduct e f 0) ^ 2 + (crossProduct e f 1) ^ 2 + (crossProduct e f 2) ^ 2) * |cr a b c| := by
  unfold area3
  dsimp only
  have h : ∀ k, crossProduct (fun k => onPlane o e f b k - onPlane o e f a k) (fun k => onPlane o e f c k - onPlane o e f a k) k =
      cr a b c * crossProduct e f k := by
    intro k
    fin_cases k <;> simp only [crossProduct, onPlane, cr, Fin.zero_eta, Fin.mk_one, Fin.reduceFinMk, Matrix.cons_val] <;> ring
  rw [h, h, h]
  have hN : 0 ≤ (crossProduct e f 0) ^ 2 + (crossProduct e f 1) ^ 2 + (crossProduct e f 2) ^ 2 := by positivity
  obtain ⟨s0, s1⟩ := hsq _ hN
  have hM : cr a b c * crossProduct e f 0 * (cr a b c * crossProduct e f 0) + cr a b c * crossProduct e f 1 * (cr a b c * crossProduct e f 1) +
      cr a b c * crossProduct e f 2 * (cr a b c * crossProduct e f 2) = cr a b c ^ 2 *
      ((crossProduct e f 0) ^ 2 + (crossProduct e f 1) ^ 2 + (crossProduct e f 2) ^ 2) := by ring
  rw [hM]
  generalize (crossProduct e f 0) ^ 2 + (crossProduct e f 1) ^ 2 + (crossProduct e f 2) ^ 2 = N at *
  obtain ⟨t0, t1⟩ := hsq (cr a b c ^ 2 * N) (by positivity)
  have : sqrt (cr a b c ^ 2 * N) = sqrt N * |cr a b c| := by
    have h2 : sqrt (cr a b c ^ 2 * N) * sqrt (cr a b c ^ 2 * N) = sqrt N * |cr a b c| * (sqrt N * |cr a b c|) := by
      rw [t1]
      have := abs_mul_abs_self (cr a b c)
      linear_combination (-(cr a b c * cr a b c)) * s1 - (sqrt N * sqrt N) * this
    rcases mul_self_eq_mul_self_iff.1 h2 with h3 | h3
    · exact h3
    · have h4 : 0 ≤ sqrt N * |cr a b c| := mul_nonneg s0 (abs_nonneg _)
      linarith
  rw [this]; ring

theorem prodA_nonneg {n i : ℕ} {A : ℕ → K} (h : ∀ j < n, 0 ≤ A j) : 0 ≤ prodA n i A := by
  rw [prodA_eq]
  refine prod_nonneg fun j hj => ?_
  split
  · exact zero_le_one
  · exact h j (mem_range.1 hj)

theorem prodA_pos {n i : ℕ} {A : ℕ → K} (h : ∀ j < n, j ≠ i → j ≠ prv n i → 0 < A j) : 0 < prodA n i A := by
  rw [prodA_eq]
  refine prod_pos fun j hj => ?_
  split
  · exact zero_lt_one
  · rename_i h'
    exact h j (mem_range.1 hj) (fun e => h' (Or.inl e)) (fun e => h' (Or.inr e))

theorem prodA_congr {n i : ℕ} {A B : ℕ → K} (h : ∀ j < n, A j = B j) : prodA n i A = prodA n i B := by
  rw [prodA_eq, prodA_eq]
  refine prod_congr rfl fun j hj => ?_
  rw [h j (mem_range.1 hj)]

/-- The unnormalised weights of a convex polygon in a plane. -/
theorem omega0_eq {sqrt : K → K} (hsq : ∀ d, 0 ≤ d → 0 ≤ sqrt d ∧ sqrt d * sqrt d = d) (o e f : Fin 3 → K) {n : ℕ} {P : ℕ → Fin 2 → K} {q : Fin 2 → K}
    (hc : ConvexAt n P q) {i : ℕ} (hi : i < n) : omega0 sqrt n (fun j => onPlane o e f (P j)) (onPlane o e f q) i =
    (1 / 2 * sqrt ((crossProduct e f 0) ^ 2 + (crossProduct e f 1) ^ 2 + (crossProduct e f 2) ^ 2)) * cr (P i) (P (nxt n i)) (P (prv n i)) *
      prodA n i (fun j => (1 / 2 * sqrt ((crossProduct e f 0) ^ 2 + (crossProduct e f 1) ^ 2 + (crossProduct e f 2) ^ 2)) * cr q (P j) (P (nxt n j))) := by
  unfold omega0
  have e1 : |cr (P i) (P ((i + n - 1) % n)) (P ((i + 1) % n))| = cr (P i) (P (nxt n i)) (P (prv n i)) := by
    have h := hc.convex i hi
    unfold nxt prv at *
    rw [show cr (P i) (P ((i + n - 1) % n)) (P ((i + 1) % n)) = -cr (P i) (P ((i + 1) % n)) (P ((i + n - 1) % n)) by unfold cr; ring, abs_neg, abs_of_nonneg h]
  rw [area_plane hsq, e1]
  congr 1
  refine prodA_congr fun j hj => ?_
  have h := hc.inside j hj
  rw [area_plane hsq]
  unfold nxt at *
  rw [show cr (P j) q (P ((j + 1) % n)) = -cr q (P j) (P ((j + 1) % n)) by unfold cr; ring, abs_neg, abs_of_nonneg h]

/-! ### C144 -/

/-- C144: for a convex polygon (at most ten vertices) in a plane of space and a point of it, the weights are not negative, their sum is 1, and they
reproduce the point (hence every linear field): the point is the mean of the vertices with these weights. -/
theorem C144_weights {sqrt : K → K} (hsq : ∀ d, 0 ≤ d → 0 ≤ sqrt d ∧ sqrt d * sqrt d = d) (o e f : Fin 3 → K) (hef : ∃ k, crossProduct e f k ≠ 0)
    {n : ℕ} (hn : n ≤ 10) {P : ℕ → Fin 2 → K} {q : Fin 2 → K} (hc : ConvexAt n P q) {i0 : ℕ} (h0 : Corner n P q i0) :
    ∃ w, wachspress sqrt n (fun j => onPlane o e f (P j)) (onPlane o e f q) = some w ∧ (∀ i < n, 0 ≤ w i) ∧ ∑ i ∈ range n, w i = 1 ∧
      ∀ k, ∑ i ∈ range n, w i * onPlane o e f (P i) k = onPlane o e f q k := by
  unfold wachspress
  rw [if_neg (by omega)]
  refine ⟨_, rfl, ?_⟩
  rw [foldl_add]
  have hN : 0 < (crossProduct e f 0) ^ 2 + (crossProduct e f 1) ^ 2 + (crossProduct e f 2) ^ 2 := by
    obtain ⟨k, hk⟩ := hef
    fin_cases k <;> simp only [Fin.zero_eta, Fin.mk_one, Fin.reduceFinMk] at hk <;> positivity
  set N := (crossProduct e f 0) ^ 2 + (crossProduct e f 1) ^ 2 + (crossProduct e f 2) ^ 2 with hNd
  obtain ⟨s0, s1⟩ := hsq N hN.le
  have hs : 0 < sqrt N := lt_of_le_of_ne s0 (fun h => by rw [← h, zero_mul] at s1; exact hN.ne s1)
  have hc0 : 0 < 1 / 2 * sqrt N := by positivity
  have hom : ∀ i ∈ range n, omega0 sqrt n (fun j => onPlane o e f (P j)) (onPlane o e f q) i = 1 / 2 * sqrt N * cr (P i) (P (nxt n i)) (P (prv n i)) *
      prodA n i (fun j => 1 / 2 * sqrt N * cr q (P j) (P (nxt n j))) := fun i hi => omega0_eq hsq o e f hc (mem_range.1 hi)
  have hnn : ∀ i ∈ range n, 0 ≤ omega0 sqrt n (fun j => onPlane o e f (P j)) (onPlane o e f q) i := by
    intro i hi
    rw [hom i hi]
    exact mul_nonneg (mul_nonneg hc0.le (hc.convex i (mem_range.1 hi))) (prodA_nonneg fun j hj => mul_nonneg hc0.le (hc.inside j hj))
  have hpos : 0 < ∑ i ∈ range n, omega0 sqrt n (fun j => onPlane o e f (P j)) (onPlane o e f q) i := by
    refine sum_pos' hnn ⟨i0, mem_range.2 h0.1, ?_⟩
    rw [hom i0 (mem_range.2 h0.1)]
    exact mul_pos (mul_pos hc0 h0.2.1) (prodA_pos fun j hj a b => mul_pos hc0 (h0.2.2 j hj a b))
  refine ⟨fun i hi => div_nonneg (hnn i (mem_range.2 hi)) hpos.le, ?_, ?_⟩
  · rw [← sum_div, div_self hpos.ne']
  · have hid : ∀ k : Fin 2, ∑ i ∈ range n, omega0 sqrt n (fun j => onPlane o e f (P j)) (onPlane o e f q) i * (P i k - q k) = 0 := by
      intro k
      rw [← identity P q n hc.three (1 / 2 * sqrt N) k]
      exact sum_congr rfl fun i hi => by rw [hom i hi]
    intro k
    have h1 : ∀ i ∈ range n, omega0 sqrt n (fun j => onPlane o e f (P j)) (onPlane o e f q) i /
        (∑ i ∈ range n, omega0 sqrt n (fun j => onPlane o e f (P j)) (onPlane o e f q) i) * onPlane o e f (P i) k =
        (omega0 sqrt n (fun j => onPlane o e f (P j)) (onPlane o e f q) i * onPlane o e f q k +
          (omega0 sqrt n (fun j => onPlane o e f (P j)) (onPlane o e f q) i * (P i 0 - q 0) * e k +
          omega0 sqrt n (fun j => onPlane o e f (P j)) (onPlane o e f q) i * (P i 1 - q 1) * f k)) /
        (∑ i ∈ range n, omega0 sqrt n (fun j => onPlane o e f (P j)) (onPlane o e f q) i) := by
      intro i _
      rw [div_mul_eq_mul_div]
      congr 1
      simp only [onPlane]
      ring
    rw [sum_congr rfl h1, ← sum_div, sum_add_distrib, sum_add_distrib, ← sum_mul, ← sum_mul, ← sum_mul, hid 0, hid 1, zero_mul, zero_mul, add_zero, add_zero,
      mul_div_assoc, mul_comm, div_mul_cancel₀ _ hpos.ne']

/-- C144: at a corner of the polygon the weight of the corner is 1 and the others are 0. -/
theorem C144_corner {sqrt : K → K} (hsq : ∀ d, 0 ≤ d → 0 ≤ sqrt d ∧ sqrt d * sqrt d = d) (o e f : Fin 3 → K) (hef : ∃ k, crossProduct e f k ≠ 0)
    {n : ℕ} (hn : n ≤ 10) {P : ℕ → Fin 2 → K} {v : ℕ} (hc : ConvexAt n P (P v)) (h0 : Corner n P (P v) v) :
    ∃ w, wachspress sqrt n (fun j => onPlane o e f (P j)) (onPlane o e f (P v)) = some w ∧ ∀ i < n, w i = if i = v then 1 else 0 := by
  obtain ⟨w, h1, -, h3, -⟩ := C144_weights hsq o e f hef hn hc h0
  refine ⟨w, h1, ?_⟩
  have hv := h0.1
  have hz : ∀ i < n, i ≠ v → w i = 0 := by
    intro i hi hiv
    unfold wachspress at h1
    rw [if_neg (by omega)] at h1
    obtain rfl := Option.some.inj h1
    dsimp only
    rw [omega0_eq hsq o e f hc hi, prodA_eq]
    have ha : cr (P v) (P v) (P (nxt n v)) = 0 := by unfold cr; ring
    have hb : cr (P v) (P (prv n v)) (P (nxt n (prv n v))) = 0 := by rw [nxt_prv hv]; unfold cr; ring
    have hp : (∏ j ∈ range n, if j = i ∨ j = prv n i then 1 else
        1 / 2 * sqrt (crossProduct e f 0 ^ 2 + crossProduct e f 1 ^ 2 + crossProduct e f 2 ^ 2) * cr (P v) (P j) (P (nxt n j))) = 0 := by
      by_cases hvi : v = prv n i
      · refine prod_eq_zero (i := prv n v) (mem_range.2 (prv_lt hc.three)) ?_
        rw [if_neg, hb, mul_zero]
        rintro (h | h)
        · rw [prv_eq hv] at h; rw [prv_eq hi] at hvi
          have := hc.three
          split at h <;> split at hvi <;> omega
        · rw [← hvi] at h; exact prv_ne hc.three hv h
      · refine prod_eq_zero (i := v) (mem_range.2 hv) ?_
        rw [if_neg, ha, mul_zero]
        rintro (h | h)
        · exact hiv h.symm
        · exact hvi h
    rw [hp, mul_zero, zero_div]
  intro i hi
  split
  · rename_i h; subst h
    rw [sum_eq_single_of_mem i (mem_range.2 hi) (fun j hj hne => hz j (mem_range.1 hj) hne)] at h3
    exact h3
  · rename_i h
    exact hz i hi h

/-- C144 (finding): with more than ten vertices the areas are written outside their array. -/
theorem C144_undefined (sqrt : K → K) (n : ℕ) (h : 10 < n) (X : ℕ → Fin 3 → K) (x : Fin 3 → K) : wachspress sqrt n X x = none := by
  unfold wachspress; rw [if_pos h]

/-- The unit square and a point in it. -/
example : ConvexAt 4 (fun i => ([![0, 0], ![1, 0], ![1, 1], ![0, 1]] : List (Fin 2 → ℚ)).getD i 0) ![1 / 3, 1 / 4] ∧
    Corner 4 (fun i => ([![0, 0], ![1, 0], ![1, 1], ![0, 1]] : List (Fin 2 → ℚ)).getD i 0) ![1 / 3, 1 / 4] 0 := by
  refine ⟨⟨by omega, by decide +kernel, by decide +kernel⟩, by omega, by decide +kernel, by decide +kernel⟩

end Verif.Cell
