import Verif.MatOps.Model
import Mathlib.LinearAlgebra.Matrix.Trace
import Mathlib.LinearAlgebra.Matrix.Notation
import Mathlib.Data.Fintype.BigOperators
import Mathlib.Tactic.Ring
import Mathlib.Tactic.FieldSimp
import Mathlib.Tactic.FinCases
import Mathlib.Tactic.LinearCombination
/-! # Small matrices (C198, C199) -/
namespace Verif.MatOps
open Matrix

/-! ## Products -/

section loops
variable {T : Type}

theorem writeAll_spec : ∀ (l : List (Nat × T)) (mem : List T), (l.map Prod.fst).Nodup → (∀ w ∈ l, w.1 < mem.length) →
    ∃ r, writeAll l mem = some r ∧ r.length = mem.length ∧ (∀ w ∈ l, r[w.1]? = some w.2) ∧
      ∀ p, p ∉ l.map Prod.fst → r[p]? = mem[p]? := by
  intro l
  induction l with
  | nil => intro mem _ _; exact ⟨mem, rfl, rfl, by simp, by simp⟩
  | cons w l ih =>
    intro mem hnd hlt
    obtain ⟨p, v⟩ := w
    rw [List.map_cons, List.nodup_cons] at hnd
    obtain ⟨r, r1, r2, r3, r4⟩ := ih (mem.set p v) hnd.2 fun w hw => by rw [List.length_set]; exact hlt w (by simp [hw])
    have hp : p < mem.length := hlt (p, v) (by simp)
    refine ⟨r, by rw [writeAll, if_pos hp, r1], by simpa using r2, ?_, ?_⟩
    · intro w hw
      rcases List.mem_cons.1 hw with rfl | hw
      · rw [r4 p hnd.1, List.getElem?_set_self hp]
      · exact r3 w hw
    · intro q hq
      simp only [List.map_cons, List.mem_cons, not_or] at hq
      rw [r4 q hq.2, List.getElem?_set_ne (Ne.symm hq.1)]

theorem writeAll_outside : ∀ (l : List (Nat × T)) (mem : List T), (∃ w ∈ l, mem.length ≤ w.1) → writeAll l mem = none := by
  intro l
  induction l with
  | nil => rintro mem ⟨w, hw, -⟩; simp at hw
  | cons w l ih =>
    rintro mem ⟨x, hx, h⟩
    obtain ⟨p, v⟩ := w
    rw [writeAll]
    by_cases hp : p < mem.length
    · rw [if_pos hp]
      rcases List.mem_cons.1 hx with rfl | hx
      · exact absurd hp (by simpa using h)
      · exact ih _ ⟨x, hx, by simpa using h⟩
    · rw [if_neg hp]

variable [CommRing T]

theorem foldl_add (f : Nat → T) (k : Nat) : ∀ a, (List.range k).foldl (fun d l => d + f l) a = a + ∑ l : Fin k, f l := by
  induction k with
  | zero => intro a; simp
  | succ k ih =>
    intro a
    rw [List.range_succ, List.foldl_append, ih, Fin.sum_univ_castSucc]
    simp [add_assoc]

/-- The matrix of an array with row length `n` at the beginning of the memory -/
def asMatrix (m n : Nat) (mem : List T) : Matrix (Fin m) (Fin n) T := fun i j => (mem[i * n + j]?).getD 0

/-- The matrix of an argument -/
def arg (m n : Nat) (A : Nat → Nat → T) : Matrix (Fin m) (Fin n) T := fun i j => A i j

theorem index_inj {n i j i' j' : Nat} (hj : j < n) (hj' : j' < n) (h : i * n + j = i' * n + j') : i = i' ∧ j = j' := by
  have a : (i * n + j) / n = i := by
    rw [Nat.add_comm, Nat.add_mul_div_right _ _ (by omega), Nat.div_eq_of_lt hj, Nat.zero_add]
  have b : (i' * n + j') / n = i' := by
    rw [Nat.add_comm, Nat.add_mul_div_right _ _ (by omega), Nat.div_eq_of_lt hj', Nat.zero_add]
  have e : i = i' := by rw [← a, h, b]
  subst e
  exact ⟨rfl, by omega⟩

theorem index_lt {m n i j : Nat} (hi : i < m) (hj : j < n) : i * n + j < m * n := by
  have := Nat.mul_le_mul_right n (show i + 1 ≤ m by omega)
  rw [Nat.add_mul, Nat.one_mul] at this
  omega

/-- C198: the product loops write the product matrix at the beginning of the output memory and nothing else, for matrices of any
size. -/
theorem C198_product (m k n : Nat) (A B : Nat → Nat → T) (mem : List T) (h : m * n ≤ mem.length) :
    ∃ r, matMul m k n A B mem = some r ∧ r.length = mem.length ∧ asMatrix m n r = arg m k A * arg k n B ∧
      ∀ p, m * n ≤ p → r[p]? = mem[p]? := by
  let l := (List.range m).flatMap fun i => (List.range n).map fun j => (i * n + j, dot k A B i j)
  have hmem : ∀ w, w ∈ l ↔ ∃ i < m, ∃ j < n, w = (i * n + j, dot k A B i j) := by
    intro w
    simp only [l, List.mem_flatMap, List.mem_range, List.mem_map]
    exact ⟨fun ⟨i, hi, j, hj, e⟩ => ⟨i, hi, j, hj, e.symm⟩, fun ⟨i, hi, j, hj, e⟩ => ⟨i, hi, j, hj, e.symm⟩⟩
  have hnd : (l.map Prod.fst).Nodup := by
    simp only [l, List.map_flatMap, List.map_map]
    rw [List.nodup_flatMap]
    refine ⟨fun i _ => List.Nodup.map_on (fun a _ b _ e => by simpa using e) List.nodup_range, ?_⟩
    refine List.Pairwise.imp_of_mem ?_ List.nodup_range
    intro i i' hi hi' hne
    simp only [Function.onFun, List.disjoint_left, List.mem_map, List.mem_range, Function.comp_apply]
    rintro x ⟨j, hj, rfl⟩ ⟨j', hj', e⟩
    exact hne (index_inj hj' hj e).1.symm
  obtain ⟨r, r1, r2, r3, r4⟩ := writeAll_spec l mem hnd fun w hw => by
    obtain ⟨i, hi, j, hj, rfl⟩ := (hmem w).1 hw
    exact Nat.lt_of_lt_of_le (index_lt hi hj) h
  refine ⟨r, r1, r2, ?_, ?_⟩
  · funext i j
    have := r3 (i * n + j, dot k A B i j) ((hmem _).2 ⟨i, i.2, j, j.2, rfl⟩)
    simp only [asMatrix, this, Option.getD_some, dot, foldl_add, zero_add, Matrix.mul_apply, arg]
  · intro p hp
    apply r4
    intro hw
    obtain ⟨w, hw2, e⟩ := List.mem_map.1 hw
    obtain ⟨i, hi, j, hj, rfl⟩ := (hmem w).1 hw2
    dsimp only at e
    have := index_lt hi hj
    omega

/-- C199: the product loops stay inside an output array of the right size and leave a smaller one. -/
theorem C199_product (m k n : Nat) (A B : Nat → Nat → T) (mem : List T) (hn : 0 < n) :
    matMul m k n A B mem = none ↔ mem.length < m * n := by
  constructor
  · intro h
    by_contra hc
    obtain ⟨r, r1, -⟩ := C198_product m k n A B mem (by omega)
    rw [r1] at h
    cases h
  · intro h
    apply writeAll_outside
    have hm : 0 < m := by
      rcases Nat.eq_zero_or_pos m with rfl | hm
      · simp at h
      · exact hm
    refine ⟨((m - 1) * n + (n - 1), dot k A B (m - 1) (n - 1)), ?_, ?_⟩
    · simp only [List.mem_flatMap, List.mem_range, List.mem_map]
      exact ⟨m - 1, by omega, n - 1, by omega, rfl⟩
    · have : (m - 1) * n + n = m * n := by
        rw [← Nat.succ_mul, Nat.succ_eq_add_one, Nat.sub_add_cancel hm]
      dsimp only
      omega

/-- C199 (violated): `matrix3x4_matrix4x2_multiplication` always writes outside an output array of the declared type `T[2][2]`. -/
theorem C199_matrix3x4_matrix4x2_violated (A B : Nat → Nat → T) (mem : List T) (h : mem.length = 2 * 2) :
    matMul34_42 A B mem = none := (C199_product 3 4 2 A B mem (by omega)).2 (by omega)

/-- Concrete case: unit vectors into a zeroed 2×2 array -/
example : matMul34_42 (fun i j => if i = j then (1 : ℤ) else 0) (fun i j => i + j) [0, 0, 0, 0] = none := by decide +kernel

/-- C198: into an array of the size of the product it writes the product. -/
theorem C198_matrix3x4_matrix4x2 (A B : Nat → Nat → T) (mem : List T) (h : mem.length = 3 * 2) :
    ∃ r, matMul34_42 A B mem = some r ∧ asMatrix 3 2 r = arg 3 4 A * arg 4 2 B := by
  obtain ⟨r, r1, -, r2, -⟩ := C198_product 3 4 2 A B mem (by omega)
  exact ⟨r, r1, r2⟩

/-- Non-vacuity: a 2×2 product in a memory of five numbers -/
example : matMul 2 2 2 (fun i j => (i + 2 * j : ℤ)) (fun i j => i * j + 1) [0, 0, 0, 0, 7] = some [2, 4, 4, 7, 7] := by
  decide +kernel

end loops

/-! ## Unrolled versions -/

section fixed
variable {T : Type} [CommRing T]

/-- The matrix of a flat array of 9 numbers -/
def flat3 (m : Fin 9 → T) : Matrix (Fin 3) (Fin 3) T := fun i j => m ⟨i * 3 + j, by omega⟩

/-- C198: the products with vectors are the matrix-vector products. -/
theorem C198_vectors :
    (∀ (A : Matrix (Fin 2) (Fin 2) T) b, mv22 A b = A *ᵥ b) ∧ (∀ (A : Matrix (Fin 2) (Fin 3) T) b, mv23 A b = A *ᵥ b) ∧
    (∀ (A : Fin 9 → T) b, mv33flat A b = flat3 A *ᵥ b) ∧ (∀ (A : Matrix (Fin 3) (Fin 3) T) b, mv33 A b = A *ᵥ b) ∧
    (∀ (A : Fin 9 → T) b, flat3 (scalarMul A b) = b • flat3 A) := by
  refine ⟨?_, ?_, ?_, ?_, ?_⟩
  · intro A b; funext i; fin_cases i <;> simp [mv22, Matrix.mulVec, dotProduct, Fin.sum_univ_two]
  · intro A b; funext i; fin_cases i <;> simp [mv23, Matrix.mulVec, dotProduct, Fin.sum_univ_three]
  · intro A b; funext i; fin_cases i <;> simp [mv33flat, flat3, Matrix.mulVec, dotProduct, Fin.sum_univ_three]
  · intro A b; funext i; fin_cases i <;> simp [mv33, Matrix.mulVec, dotProduct, Fin.sum_univ_three]
  · intro A b; funext i j; simp [flat3, scalarMul, mul_comm]

/-- C198: the unrolled products are the matrix products. -/
theorem C198_small_products :
    (∀ A B : Matrix (Fin 2) (Fin 2) T, mm22 A B = A * B) ∧
    (∀ (A : Matrix (Fin 2) (Fin 2) T) (B : Matrix (Fin 2) (Fin 3) T), mm22_23 A B = A * B) ∧
    (∀ (A : Matrix (Fin 2) (Fin 3) T) (B : Matrix (Fin 3) (Fin 2) T), mm23_32 A B = A * B) := by
  refine ⟨?_, ?_, ?_⟩
  · intro A B; funext i j; fin_cases i <;> fin_cases j <;> simp [mm22, Matrix.mul_apply, Fin.sum_univ_two]
  · intro A B; funext i j; fin_cases i <;> fin_cases j <;> simp [mm22_23, Matrix.mul_apply, Fin.sum_univ_two]
  · intro A B; funext i j; fin_cases i <;> fin_cases j <;> simp [mm23_32, Matrix.mul_apply, Fin.sum_univ_three]

/-! ## Transposition -/

variable {S : Type}

/-- C198: the in-place transposition of an `n × n` matrix mirrors it, for every `n`, and changes nothing outside. -/
theorem C198_transpose_in_place (n : Nat) (M : Nat × Nat → S) (a b : Nat) :
    transposeInPlace n M (a, b) = if a < n ∧ b < n then M (b, a) else M (a, b) := by
  have key : ∀ (l : List (Nat × Nat)) (N : Nat × Nat → S), (∀ p ∈ l, p.1 < p.2) → l.Nodup →
      ∀ a b, l.foldl (fun N p => swapAt N p (p.2, p.1)) N (a, b) = if (a, b) ∈ l ∨ (b, a) ∈ l then N (b, a) else N (a, b) := by
    intro l
    induction l with
    | nil => intro N _ _ a b; simp
    | cons p l ih =>
      intro N hl hnd a b
      obtain ⟨i, j⟩ := p
      have hij : i < j := hl (i, j) (by simp)
      rw [List.nodup_cons] at hnd
      have hji : (j, i) ∉ l := fun hh => by have := hl (j, i) (by simp [hh]); dsimp only at this; omega
      rw [List.foldl_cons, ih _ (fun p hp => hl p (by simp [hp])) hnd.2]
      have e : ∀ x y, swapAt N (i, j) (j, i) (x, y) =
          if (x = i ∧ y = j) ∨ (x = j ∧ y = i) then N (y, x) else N (x, y) := by
        intro x y
        unfold swapAt
        simp only [Prod.mk.injEq]
        by_cases h1 : x = i ∧ y = j
        · obtain ⟨rfl, rfl⟩ := h1; simp
        · by_cases h2 : x = j ∧ y = i
          · obtain ⟨rfl, rfl⟩ := h2
            simp only [and_self, or_true, if_true]
            rw [if_neg h1]
          · rw [if_neg h1, if_neg h2, if_neg (by tauto)]
      rw [e, e]
      simp only [List.mem_cons, Prod.mk.injEq]
      by_cases h1 : a = i ∧ b = j
      · obtain ⟨rfl, rfl⟩ := h1
        simp [hnd.1, hji]
      · by_cases h2 : a = j ∧ b = i
        · obtain ⟨rfl, rfl⟩ := h2
          simp [hnd.1, hji]
        · have h3 : ¬ (b = i ∧ a = j) := fun h => h2 ⟨h.2, h.1⟩
          have h4 : ¬ (b = j ∧ a = i) := fun h => h1 ⟨h.2, h.1⟩
          simp only [h1, h2, h3, h4, false_or, or_false, if_false]
  let l := (List.range n).flatMap fun i => ((List.range n).filter (fun j => i < j)).map fun j => (i, j)
  have hl : ∀ x y, (x, y) ∈ l ↔ x < y ∧ y < n := by
    intro x y
    simp only [l, List.mem_flatMap, List.mem_range, List.mem_map, List.mem_filter, decide_eq_true_eq, Prod.mk.injEq]
    constructor
    · rintro ⟨i, hi, j, ⟨hj, hij⟩, rfl, rfl⟩; exact ⟨hij, hj⟩
    · rintro ⟨h1, h2⟩; exact ⟨x, by omega, y, ⟨h2, h1⟩, rfl, rfl⟩
  have hnd : l.Nodup := by
    rw [List.nodup_flatMap]
    refine ⟨fun i _ => List.Nodup.map_on (fun a _ b _ e => by simpa using e) (List.nodup_range.filter _), ?_⟩
    refine List.Pairwise.imp_of_mem ?_ List.nodup_range
    intro i i' hi hi' hne
    simp only [Function.onFun, List.disjoint_left, List.mem_map]
    rintro x ⟨j, -, rfl⟩ ⟨j', -, e⟩
    exact hne (Prod.mk.inj e).1.symm
  have e : transposeInPlace n M = l.foldl (fun N p => swapAt N p (p.2, p.1)) M := by
    unfold transposeInPlace
    simp only [l, List.foldl_flatMap, List.foldl_map]
  rw [e, key l M (fun p hp => ((hl p.1 p.2).1 hp).1) hnd]
  simp only [hl]
  by_cases hab : a < n ∧ b < n
  · rw [if_pos hab]
    rcases Nat.lt_trichotomy a b with h | h | h
    · rw [if_pos (.inl ⟨h, hab.2⟩)]
    · subst h; simp
    · rw [if_pos (.inr ⟨h, hab.1⟩)]
  · rw [if_neg hab, if_neg (by omega)]

/-- C198: the unrolled transpositions mirror their argument; of a flat array the entry `n i + j` becomes the entry `n j + i`. -/
theorem C198_transposes :
    (∀ A : Matrix (Fin 2) (Fin 2) S, tr22 A = Aᵀ) ∧ (∀ A : Matrix (Fin 3) (Fin 3) S, tr33b A = Aᵀ) ∧
    (∀ A : Matrix (Fin 3) (Fin 2) S, tr32 A = Aᵀ) ∧ (∀ A : Matrix (Fin 2) (Fin 3) S, tr23 A = Aᵀ) ∧
    (∀ A : Matrix (Fin 4) (Fin 3) S, tr43 A = Aᵀ) ∧ (∀ (A : Fin 3 × Fin 3 → S) i j, tr33 A (i, j) = A (j, i)) ∧
    (∀ (m : Fin 4 → S) (i j : Fin 2), tr22flat m ⟨i * 2 + j, by omega⟩ = m ⟨j * 2 + i, by omega⟩) ∧
    (∀ (m : Fin 9 → S) (i j : Fin 3), tr33flat m ⟨i * 3 + j, by omega⟩ = m ⟨j * 3 + i, by omega⟩) ∧
    (∀ (m : Fin 9 → S) (i j : Fin 3), tr33flat2 m ⟨i * 3 + j, by omega⟩ = m ⟨j * 3 + i, by omega⟩) ∧
    (∀ (m : Fin 16 → S) (i j : Fin 4), tr44flat m ⟨i * 4 + j, by omega⟩ = m ⟨j * 4 + i, by omega⟩) := by
  refine ⟨?_, ?_, ?_, ?_, ?_, ?_, ?_, ?_, ?_, ?_⟩
  · intro A; funext i j; fin_cases i <;> fin_cases j <;> rfl
  · intro A; funext i j; fin_cases i <;> fin_cases j <;> rfl
  · intro A; funext i j; fin_cases i <;> fin_cases j <;> rfl
  · intro A; funext i j; fin_cases i <;> fin_cases j <;> rfl
  · intro A; funext i j; fin_cases i <;> fin_cases j <;> rfl
  · intro A i j; fin_cases i <;> fin_cases j <;> rfl
  · intro m i j; fin_cases i <;> fin_cases j <;> rfl
  · intro m i j; fin_cases i <;> fin_cases j <;> rfl
  · intro m i j; fin_cases i <;> fin_cases j <;> rfl
  · intro m i j; fin_cases i <;> fin_cases j <;> rfl

/-! ## Traces and parts -/

/-- C198: the traces are the sums of the diagonals; `eye3` is the unit matrix; the cross product is orthogonal to its factors,
changes sign with their order, and satisfies Lagrange's identity. -/
theorem C198_traces :
    (∀ n (A : Nat → Nat → T), trace n A = Matrix.trace (arg n n A)) ∧
    (∀ A : Matrix (Fin 2) (Fin 2) T, trace2 A = Matrix.trace A) ∧ (∀ A : Matrix (Fin 3) (Fin 3) T, trace3 A = Matrix.trace A) ∧
    flat3 (eye3 : Fin 9 → T) = 1 ∧
    (∀ (A : Matrix (Fin 3) (Fin 3) T) (i j : Fin 2), sub33 A i j = A i.castSucc j.castSucc) ∧
    (∀ a b : Fin 3 → T, dot3 a (cross a b) = 0 ∧ dot3 b (cross a b) = 0 ∧ cross b a = -cross a b ∧
      dot3 (cross a b) (cross a b) = dot3 a a * dot3 b b - dot3 a b * dot3 a b) := by
  refine ⟨?_, ?_, ?_, ?_, ?_, ?_⟩
  · intro n A
    rw [trace, foldl_add (fun i => A i i), zero_add]
    rfl
  · intro A; simp [trace2, Matrix.trace, Fin.sum_univ_two]
  · intro A; simp [trace3, Matrix.trace, Fin.sum_univ_three]
  · funext i j; fin_cases i <;> fin_cases j <;> simp [flat3, eye3]
  · intro A i j; fin_cases i <;> fin_cases j <;> rfl
  · intro a b
    refine ⟨?_, ?_, ?_, ?_⟩
    · simp [dot3, cross]; ring
    · simp [dot3, cross]; ring
    · funext i; fin_cases i <;> simp [cross] <;> ring
    · simp [dot3, cross]; ring

end fixed

/-- C198: the symmetric and the antisymmetric part of a matrix are symmetric, antisymmetric and add up to it, and they are the only
such pair; making a matrix symmetric gives its symmetric part. -/
theorem C198_parts {K : Type} [Field K] [CharZero K] (M : Matrix (Fin 3) (Fin 3) K) :
    (Matrix.transpose (symPart M) = symPart M ∧ Matrix.transpose (antiPart M) = -antiPart M ∧
      Matrix.of (symPart M) + Matrix.of (antiPart M) = M) ∧
    (∀ S A : Matrix (Fin 3) (Fin 3) K, Sᵀ = S → Aᵀ = -A → S + A = M → S = symPart M ∧ A = antiPart M) ∧
    makeSym3 M = symPart M := by
  refine ⟨⟨?_, ?_, ?_⟩, ?_, ?_⟩
  · funext i j; fin_cases i <;> fin_cases j <;> simp [symPart, Matrix.transpose, add_comm]
  · funext i j; fin_cases i <;> fin_cases j <;> simp [antiPart, Matrix.transpose] <;> ring
  · funext i j; fin_cases i <;> fin_cases j <;> simp [symPart, antiPart] <;> ring
  · intro S A hS hA h
    have s : ∀ i j, S j i = S i j := fun i j => congrFun (congrFun hS i) j
    have a : ∀ i j, A j i = -A i j := fun i j => congrFun (congrFun hA i) j
    have d : ∀ i, A i i = 0 := fun i => by
      have := a i i
      have h2 : (2 : K) * A i i = 0 := by linear_combination this
      exact (mul_eq_zero.1 h2).resolve_left two_ne_zero
    have m : ∀ i j, M i j = S i j + A i j := fun i j => (congrFun (congrFun h i) j).symm
    constructor
    · funext i j
      fin_cases i <;> fin_cases j <;>
        simp [symPart, m, d, s 0 1, s 0 2, s 1 2, a 0 1, a 0 2, a 1 2] <;> ring
    · funext i j
      fin_cases i <;> fin_cases j <;>
        simp [antiPart, m, d, s 0 1, s 0 2, s 1 2, a 0 1, a 0 2, a 1 2] <;> ring
  · funext i j; fin_cases i <;> fin_cases j <;> simp [makeSym3, symPart, add_comm]

/-- C198: likewise for 2×2 matrices. -/
theorem C198_make_symmetric2 {K : Type} [Field K] [CharZero K] (M : Matrix (Fin 2) (Fin 2) K) :
    makeSym2 M = (1 / 2 : K) • (M + Mᵀ) := by
  funext i j
  fin_cases i <;> fin_cases j <;> simp [makeSym2] <;> ring

end Verif.MatOps
