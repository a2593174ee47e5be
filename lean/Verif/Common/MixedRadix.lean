import Mathlib.Data.Nat.Basic
import Mathlib.Algebra.BigOperators.Group.List.Basic
import Mathlib.Tactic.Ring
/-!
Mixed-radix (column-major) index arithmetic shared by `lattice`, `simplicial_regular_mesh` and
`ndarray`: strides are the running products of the sizes, the index is the dot product of
coordinates and strides, decoding divides by the strides from the last dimension down.
-/
namespace Verif

/-- `prod_[0] = p`, `prod_[i] = prod_[i-1] * sizes[i-1]` (lattice.hh:162-166, and with the same
shape simplicial_regular_mesh.hh `dimprod_` and ndarray_base.hh strides `s`), started at `p`. -/
def strides : Nat → List Nat → List Nat
  | _, [] => []
  | p, s :: ss => p :: strides (p * s) ss

/-- `sum_j idx[j] * prod_[j]`. -/
def dot : List Nat → List Nat → Nat
  | x :: xs, p :: ps => x * p + dot xs ps
  | _, _ => 0

/-- The decoding loop `for (j = nd-1; j > 0; j--) { idx[j] = i / prod_[j]; i -= idx[j]*prod_[j]; }
idx[0] = i` (lattice.hh:213-217), on the list of strides in reverse order; the result is in reverse
order too. -/
def decodeRev : List Nat → Nat → List Nat
  | [], _ => []
  | [_], i => [i]
  | p :: q :: ps, i => (i / p) :: decodeRev (q :: ps) (i - (i / p) * p)

/-- The decoding loop, result in order. -/
def decode (ps : List Nat) (i : Nat) : List Nat := (decodeRev ps.reverse i).reverse

/-! specification of "valid multi-index" -/

/-- `xs` is a valid multi-index for sizes `ss`: same length, each coordinate below its size. -/
def ValidIdx (xs ss : List Nat) : Prop := List.Forall₂ (· < ·) xs ss

theorem strides_length (p : Nat) (ss : List Nat) : (strides p ss).length = ss.length := by
  induction ss generalizing p with
  | nil => rfl
  | cons s ss ih => simp [strides, ih]

theorem strides_append (p : Nat) (ss : List Nat) (s : Nat) :
    strides p (ss ++ [s]) = strides p ss ++ [p * ss.prod] := by
  induction ss generalizing p with
  | nil => simp [strides]
  | cons a as ih => simp [strides, ih, Nat.mul_assoc]

theorem dot_append (xs ps : List Nat) (x p : Nat) (h : xs.length = ps.length) :
    dot (xs ++ [x]) (ps ++ [p]) = dot xs ps + x * p := by
  induction xs generalizing ps with
  | nil =>
    cases ps with
    | nil => simp [dot]
    | cons => simp at h
  | cons a as ih =>
    cases ps with
    | nil => simp at h
    | cons b bs => simp [dot, ih bs (by simpa using h)]; omega

theorem ValidIdx.length {xs ss : List Nat} (h : ValidIdx xs ss) : xs.length = ss.length :=
  List.Forall₂.length_eq h

theorem validIdx_append {xs ss : List Nat} {x s : Nat} (h : xs.length = ss.length) :
    ValidIdx (xs ++ [x]) (ss ++ [s]) ↔ ValidIdx xs ss ∧ x < s := by
  induction xs generalizing ss with
  | nil =>
    cases ss with
    | nil => simp [ValidIdx]
    | cons => simp at h
  | cons a as ih =>
    cases ss with
    | nil => simp at h
    | cons b bs =>
      have := ih (ss := bs) (by simpa using h)
      simp only [ValidIdx, List.cons_append, List.forall₂_cons] at this ⊢
      rw [this, and_assoc]

theorem decode_append (ps : List Nat) (p i : Nat) (h : ps ≠ []) :
    decode (ps ++ [p]) i = decode ps (i - (i / p) * p) ++ [i / p] := by
  unfold decode
  rw [List.reverse_append]
  have : ps.reverse ≠ [] := by simpa using h
  cases hr : ps.reverse with
  | nil => exact absurd hr this
  | cons q qs => simp [decodeRev]

/-- snoc view of lists of equal length -/
theorem exists_snoc {xs : List Nat} {n : Nat} (h : xs.length = n + 1) :
    ∃ ys y, xs = ys ++ [y] ∧ ys.length = n := by
  refine ⟨xs.dropLast, xs.getLast (by intro e; simp [e] at h), ?_, by simp [h]⟩
  exact (List.dropLast_append_getLast _).symm

/-- Encoding a valid index gives a number below the product of the sizes. -/
theorem dot_lt (n : Nat) : ∀ (xs ss : List Nat), ss.length = n → ValidIdx xs ss →
    dot xs (strides 1 ss) < ss.prod := by
  induction n with
  | zero =>
    intro xs ss hs hv
    have : ss = [] := List.length_eq_zero_iff.1 hs
    subst this
    have := hv.length
    have : xs = [] := List.length_eq_zero_iff.1 this
    subst this
    simp [dot, strides]
  | succ n ih =>
    intro xs ss hs hv
    obtain ⟨ts, t, rfl, ht⟩ := exists_snoc hs
    obtain ⟨ys, y, rfl, hy⟩ := exists_snoc (hv.length.trans hs)
    rw [validIdx_append (by omega)] at hv
    have := ih ys ts ht hv.1
    rw [strides_append, dot_append _ _ _ _ (by rw [strides_length]; omega)]
    simp only [one_mul, List.prod_append, List.prod_singleton]
    have h2 : (y + 1) * ts.prod ≤ t * ts.prod := Nat.mul_le_mul_right _ hv.2
    rw [Nat.add_mul, Nat.one_mul] at h2
    rw [Nat.mul_comm ts.prod t]
    omega

/-- Decoding inverts encoding on valid indices. -/
theorem decode_dot (n : Nat) : ∀ (xs ss : List Nat), ss.length = n + 1 → ValidIdx xs ss →
    decode (strides 1 ss) (dot xs (strides 1 ss)) = xs := by
  induction n with
  | zero =>
    intro xs ss hs hv
    obtain ⟨ts, t, rfl, ht⟩ := exists_snoc hs
    obtain ⟨ys, y, rfl, hy⟩ := exists_snoc (hv.length.trans hs)
    have h1 : ts = [] := List.length_eq_zero_iff.1 ht
    have h2 : ys = [] := List.length_eq_zero_iff.1 hy
    subst h1; subst h2
    simp [strides, dot, decode, decodeRev]
  | succ n ih =>
    intro xs ss hs hv
    obtain ⟨ts, t, rfl, ht⟩ := exists_snoc hs
    obtain ⟨ys, y, rfl, hy⟩ := exists_snoc (hv.length.trans hs)
    rw [validIdx_append (by omega)] at hv
    have hlt := dot_lt _ ys ts rfl hv.1
    have hne : strides 1 ts ≠ [] := by
      intro e
      have := strides_length 1 ts
      rw [e] at this; simp at this; omega
    rw [strides_append, dot_append _ _ _ _ (by rw [strides_length]; omega), decode_append _ _ _ hne]
    simp only [one_mul]
    have hpos : 0 < ts.prod := by omega
    have hdiv : (dot ys (strides 1 ts) + y * ts.prod) / ts.prod = y := by
      rw [Nat.add_mul_div_right _ _ hpos, Nat.div_eq_of_lt hlt, Nat.zero_add]
    rw [hdiv, Nat.add_sub_cancel, ih ys ts ht hv.1]

/-- Encoding inverts decoding below the product, and the decoded index is valid. -/
theorem dot_decode (n : Nat) : ∀ (ss : List Nat) (i : Nat), ss.length = n + 1 → i < ss.prod →
    ValidIdx (decode (strides 1 ss) i) ss ∧
    dot (decode (strides 1 ss) i) (strides 1 ss) = i := by
  induction n with
  | zero =>
    intro ss i hs hi
    obtain ⟨ts, t, rfl, ht⟩ := exists_snoc hs
    have h1 : ts = [] := List.length_eq_zero_iff.1 ht
    subst h1
    simp only [List.nil_append, List.prod_singleton] at hi
    simp [strides, dot, decode, decodeRev, ValidIdx, hi]
  | succ n ih =>
    intro ss i hs hi
    obtain ⟨ts, t, rfl, ht⟩ := exists_snoc hs
    simp only [List.prod_append, List.prod_singleton] at hi
    have hpos : 0 < ts.prod := by
      rcases Nat.eq_zero_or_pos ts.prod with h | h
      · rw [h, Nat.zero_mul] at hi; omega
      · exact h
    have hne : strides 1 ts ≠ [] := by
      intro e
      have := strides_length 1 ts
      rw [e] at this; simp at this; omega
    have hmod : i - i / ts.prod * ts.prod = i % ts.prod := by
      have := Nat.mod_add_div i ts.prod
      rw [Nat.mul_comm] at this; omega
    obtain ⟨hv, he⟩ := ih ts (i % ts.prod) ht (Nat.mod_lt _ hpos)
    have hlen := hv.length
    rw [strides_append, decode_append _ _ _ hne]
    simp only [one_mul]
    rw [hmod]
    refine ⟨?_, ?_⟩
    · rw [validIdx_append hlen]
      exact ⟨hv, Nat.div_lt_of_lt_mul hi⟩
    · rw [dot_append _ _ _ _ (by rw [strides_length]; exact hlen), he]
      have := Nat.mod_add_div i ts.prod
      rw [Nat.mul_comm] at this; exact this

end Verif
