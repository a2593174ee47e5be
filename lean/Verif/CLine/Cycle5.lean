import Mathlib.Data.List.FinRange
import Mathlib.Data.Fintype.Basic
import Mathlib.Tactic.FinCases
/-! A finite fact: a graph on five nodes whose degrees are 0 or 2 is empty or one cycle of length 3, 4 or 5. -/
namespace Verif.CLT

/-- the other four indices -/
def drop1 (i : Fin 5) : List (Fin 5) := (List.finRange 5).filter fun k => decide (k ≠ i)

/-- the other three indices -/
def drop2 (i j : Fin 5) : List (Fin 5) := (List.finRange 5).filter fun k => decide (k ≠ i) && decide (k ≠ j)

/-- the pairs of cyclically consecutive entries -/
def cycPairs (l : List (Fin 5)) : List (Fin 5 × Fin 5) := l.zip (l.rotate 1)

/-- consecutive in the cyclic list -/
def cycAdj (l : List (Fin 5)) (i j : Fin 5) : Bool := (cycPairs l).any fun p => p == (i, j) || p == (j, i)

/-- the cycles -/
def cands : List (List (Fin 5)) :=
  [[], [0, 1, 2], [0, 1, 3], [0, 1, 4], [0, 2, 3], [0, 2, 4], [0, 3, 4], [1, 2, 3], [1, 2, 4], [1, 3, 4], [2, 3, 4], [0,
  1, 2, 3], [0, 1, 3, 2], [0, 2, 1, 3], [0, 1, 2, 4], [0, 1, 4, 2], [0, 2, 1, 4], [0, 1, 3, 4], [0, 1, 4, 3], [0, 3, 1,
  4], [0, 2, 3, 4], [0, 2, 4, 3], [0, 3, 2, 4], [1, 2, 3, 4], [1, 2, 4, 3], [1, 3, 2, 4], [0, 1, 2, 3, 4], [0, 1, 2, 4,
  3], [0, 1, 3, 2, 4], [0, 1, 3, 4, 2], [0, 1, 4, 2, 3], [0, 1, 4, 3, 2], [0, 2, 1, 3, 4], [0, 2, 1, 4, 3], [0, 2, 3, 1,
  4], [0, 2, 4, 1, 3], [0, 3, 1, 2, 4], [0, 3, 2, 1, 4]]

/-- the symmetric relation with the given entries -/
def mk5 (b01 b02 b03 b04 b12 b13 b14 b23 b24 b34 : Bool) (i j : Fin 5) : Bool :=
  match i.val, j.val with
  | 0, 1 => b01
  | 1, 0 => b01
  | 0, 2 => b02
  | 2, 0 => b02
  | 0, 3 => b03
  | 3, 0 => b03
  | 0, 4 => b04
  | 4, 0 => b04
  | 1, 2 => b12
  | 2, 1 => b12
  | 1, 3 => b13
  | 3, 1 => b13
  | 1, 4 => b14
  | 4, 1 => b14
  | 2, 3 => b23
  | 3, 2 => b23
  | 2, 4 => b24
  | 4, 2 => b24
  | 3, 4 => b34
  | 4, 3 => b34
  | _, _ => false

/-- the check for one relation -/
def chk5 (B : Fin 5 → Fin 5 → Bool) : Bool :=
  !((List.finRange 5).all fun i => ((drop1 i).countP (B i)) == 0 || ((drop1 i).countP (B i)) == 2) ||
    cands.any fun l => (List.finRange 5).all fun i => (List.finRange 5).all fun j => i == j || (B i j == cycAdj l i j)

theorem chk5_all : ∀ b01 b02 b03 b04 b12 b13 b14 b23 b24 b34 : Bool, chk5 (mk5 b01 b02 b03 b04 b12 b13 b14 b23 b24 b34) = true := by
  decide +kernel

theorem cands_ok : ∀ l ∈ cands, l.Nodup ∧ (l.length = 0 ∨ l.length = 3 ∨ l.length = 4 ∨ l.length = 5) := by
  decide +kernel

theorem cycPairs_facts : ∀ l ∈ cands, (cycPairs l).length = l.length ∧
    ((cycPairs l).map fun p => if p.1 < p.2 then p else (p.2, p.1)).Nodup ∧ ∀ p ∈ cycPairs l, p.1 ≠ p.2 := by
  decide +kernel

theorem mk5_eq (B : Fin 5 → Fin 5 → Bool) (hs : ∀ i j, B i j = B j i) (i j : Fin 5) (h : i ≠ j) :
    mk5 (B 0 1) (B 0 2) (B 0 3) (B 0 4) (B 1 2) (B 1 3) (B 1 4) (B 2 3) (B 2 4) (B 3 4) i j = B i j := by
  fin_cases i <;> fin_cases j <;> first | exact absurd rfl h | rfl | exact hs _ _

/-- a graph on five nodes with degrees 0 or 2 is empty or one cycle -/
theorem cycle5 (B : Fin 5 → Fin 5 → Bool) (hs : ∀ i j, B i j = B j i)
    (h : ∀ i, (drop1 i).countP (B i) = 0 ∨ (drop1 i).countP (B i) = 2) :
    ∃ l ∈ cands, ∀ i j, i ≠ j → (B i j = true ↔ cycAdj l i j = true) := by
  have hk := chk5_all (B 0 1) (B 0 2) (B 0 3) (B 0 4) (B 1 2) (B 1 3) (B 1 4) (B 2 3) (B 2 4) (B 3 4)
  have he := mk5_eq B hs
  generalize mk5 (B 0 1) (B 0 2) (B 0 3) (B 0 4) (B 1 2) (B 1 3) (B 1 4) (B 2 3) (B 2 4) (B 3 4) = M at hk he
  have hc : ∀ i, (drop1 i).countP (M i) = (drop1 i).countP (B i) := by
    intro i
    apply List.countP_congr
    intro j hj
    rw [he i j]
    simp only [drop1, List.mem_filter, decide_eq_true_eq] at hj
    exact Ne.symm hj.2
  unfold chk5 at hk
  simp only [Bool.or_eq_true, Bool.not_eq_true', List.any_eq_true] at hk
  rcases hk with hk | ⟨l, hl, hk⟩
  · exfalso
    rw [List.all_eq_false] at hk
    obtain ⟨i, -, hi⟩ := hk
    apply hi
    rw [hc]
    rcases h i with h | h <;> simp [h]
  · refine ⟨l, hl, fun i j hij => ?_⟩
    rw [List.all_eq_true] at hk
    have h1 := hk i (List.mem_finRange i)
    rw [List.all_eq_true] at h1
    have h2 := h1 j (List.mem_finRange j)
    simp only [Bool.or_eq_true, beq_iff_eq] at h2
    rw [← he i j hij, h2.resolve_left hij]

end Verif.CLT
