import Verif.MPAS.Ocean
import Mathlib.Order.Lattice
import Mathlib.Tactic.Linarith
import Mathlib.Algebra.Order.Ring.Rat

/-!
# C149: the layer that contains a depth
-/

namespace Verif.MPAS

variable {K : Type} [Field K] [LinearOrder K]

/-- (specification) depth `z` is in layer `i`: at or below its top and above the next top. -/
def InLayer (top : List K) (z : K) (i : Nat) : Prop := ∃ a b, top[i]? = some a ∧ top[i + 1]? = some b ∧ b < z ∧ z ≤ a

/-- (specification) the tops do not increase with the layer -/
def Descending (top : List K) : Prop := top.Pairwise (· ≥ ·)

theorem Descending.get {top : List K} (h : Descending top) {i j : Nat} {a b : K} (hij : i ≤ j) (ha : top[i]? = some a) (hb : top[j]? = some b) : b ≤ a := by
  obtain ⟨h1, rfl⟩ := List.getElem?_eq_some_iff.1 ha
  obtain ⟨h2, rfl⟩ := List.getElem?_eq_some_iff.1 hb
  rcases Nat.lt_or_eq_of_le hij with h3 | rfl
  · exact List.pairwise_iff_getElem.1 h i j h1 h2 h3
  · exact le_refl _

/-- C149: for tops that do not increase a depth is in at most one layer. -/
theorem C149_unique {top : List K} (h : Descending top) {z : K} {i j : Nat} (hi : InLayer top z i) (hj : InLayer top z j) : i = j := by
  obtain ⟨a, b, h1, h2, h3, h4⟩ := hi
  obtain ⟨c, d, g1, g2, g3, g4⟩ := hj
  rcases Nat.lt_trichotomy i j with hl | hl | hl
  · exact absurd (h.get hl h2 g1) (by rw [not_le]; exact lt_of_lt_of_le h3 g4)
  · exact hl
  · exact absurd (h.get hl g2 h1) (by rw [not_le]; exact lt_of_lt_of_le g3 h4)

variable [IsStrictOrderedRing K]

theorem bisectLoop_spec (top : List K) (z : K) : ∀ (fuel i0 i1 : Nat), i0 < i1 → i1 - i0 ≤ fuel →
    (∃ a, top[i0]? = some a ∧ z ≤ a) → (∃ b, top[i1]? = some b ∧ b < z) →
    ∃ i, bisectLoop top z fuel i0 i1 = some (some ((i : Nat) : Int)) ∧ InLayer top z i := by
  intro fuel
  induction fuel with
  | zero => intro i0 i1 h1 h2; omega
  | succ fuel ih =>
    intro i0 i1 h1 h2 ⟨a, ha, hza⟩ ⟨b, hb, hzb⟩
    have hlen : i1 < top.length := by
      by_contra h
      rw [List.getElem?_eq_none (by omega)] at hb; cases hb
    obtain ⟨c, hc⟩ : ∃ c, top[i0 + 1]? = some c := ⟨_, List.getElem?_eq_getElem (by omega)⟩
    obtain ⟨d, hd⟩ : ∃ d, top[(i0 + i1) / 2]? = some d := ⟨_, List.getElem?_eq_getElem (by omega)⟩
    simp only [bisectLoop, ha, hza, if_true, hc, Option.map_some, hd]
    by_cases hcz : c < z
    · simp only [gt_iff_lt, hcz, decide_true]
      exact ⟨i0, rfl, a, c, ha, hc, hcz, hza⟩
    · simp only [gt_iff_lt, hcz, decide_false]
      have hne : i0 + 1 ≠ i1 := by
        rintro rfl
        rw [hc] at hb
        obtain rfl := Option.some.inj hb
        exact hcz hzb
      by_cases hzd : z - d ≤ 0
      · rw [if_pos hzd]
        exact ih _ _ (by omega) (by omega) ⟨d, hd, by linarith⟩ ⟨b, hb, hzb⟩
      · rw [if_neg hzd]
        exact ih _ _ (by omega) (by omega) ⟨a, ha, hza⟩ ⟨d, hd, by linarith⟩

/-- C149: the bisection always ends (within as many rounds as there are layers, whatever the tops); it answers -1 exactly for depths above the
first or not above the last top, and otherwise a layer that contains the depth. -/
theorem C149_bisection (top : List K) (z a b : K) (ha : top.head? = some a) (hb : top.getLast? = some b) (fuel : Nat) (hf : top.length ≤ fuel) :
    ((a < z ∨ z ≤ b) → bisection fuel top z = some (some (-1))) ∧
    (¬ (a < z ∨ z ≤ b) → ∃ i : Nat, bisection fuel top z = some (some (i : Int)) ∧ InLayer top z i) := by
  have ha' : top[0]? = some a := by rw [← List.head?_eq_getElem?]; exact ha
  have hb' : top[top.length - 1]? = some b := by rw [← List.getLast?_eq_getElem?]; exact hb
  unfold bisection
  simp only [ha', hb', gt_iff_lt]
  constructor
  · intro h; rw [if_pos h]
  · intro h
    rw [if_neg h]
    rw [not_or, not_lt, not_le] at h
    have hlen : 0 < top.length := by
      by_contra h'
      rw [List.getElem?_eq_none (by omega)] at ha'; cases ha'
    have : 0 < top.length - 1 := by
      rcases Nat.lt_or_ge 0 (top.length - 1) with h' | h'
      · exact h'
      · rw [show top.length - 1 = 0 by omega, ha'] at hb'
        obtain rfl := Option.some.inj hb'
        exact absurd h.1 (not_le.2 h.2)
    exact bisectLoop_spec top z fuel 0 _ this (by omega) ⟨a, ha', h.1⟩ ⟨b, hb', h.2⟩

omit [IsStrictOrderedRing K] in
theorem bruteLoop_spec (top : List K) (z b : K) (hd : Descending top) (hb : top[top.length - 1]? = some b) (hz : b < z) :
    ∀ (k i : Nat), i + k = top.length → (∀ j < i, ¬ InLayer top z j) →
    (∃ l : Nat, bruteLoop top z k i = some (l : Int) ∧ InLayer top z l) ∨ (bruteLoop top z k i = some (-1) ∧ ∀ l, ¬ InLayer top z l) := by
  intro k
  induction k with
  | zero =>
    intro i hi hn
    right
    refine ⟨rfl, ?_⟩
    intro l hl
    obtain ⟨a, c, h1, -⟩ := id hl
    obtain ⟨hlt, -⟩ := List.getElem?_eq_some_iff.1 h1
    exact hn l (by omega) hl
  | succ k ih =>
    intro i hi hn
    obtain ⟨a, ha⟩ : ∃ a, top[i]? = some a := ⟨_, List.getElem?_eq_getElem (by omega)⟩
    simp only [bruteLoop, ha, Option.bind_eq_bind, Option.bind_some]
    by_cases hza : z ≤ a
    · rw [if_pos hza]
      have hi1 : i + 1 < top.length := by
        rcases Nat.lt_or_ge (i + 1) top.length with h | h
        · exact h
        · rw [show top.length - 1 = i by omega, ha] at hb
          obtain rfl := Option.some.inj hb
          exact absurd hza (not_le.2 hz)
      obtain ⟨c, hc⟩ : ∃ c, top[i + 1]? = some c := ⟨_, List.getElem?_eq_getElem hi1⟩
      simp only [hc, Option.bind_some]
      by_cases hcz : z > c
      · rw [if_pos hcz]
        exact Or.inl ⟨i, rfl, a, c, ha, hc, hcz, hza⟩
      · rw [if_neg hcz]
        apply ih (i + 1) (by omega)
        intro j hj hl
        rcases Nat.lt_or_eq_of_le (Nat.lt_succ_iff.1 hj) with h | rfl
        · exact hn j h hl
        · obtain ⟨p, q, -, h2, h3, -⟩ := hl
          rw [hc] at h2
          obtain rfl := Option.some.inj h2
          exact hcz h3
    · rw [if_neg hza]
      apply ih (i + 1) (by omega)
      intro j hj hl
      rcases Nat.lt_or_eq_of_le (Nat.lt_succ_iff.1 hj) with h | rfl
      · exact hn j h hl
      · obtain ⟨p, q, h1, -, -, h4⟩ := hl
        rw [ha] at h1
        obtain rfl := Option.some.inj h1
        exact hza h4

/-- C149: for tops that do not increase and depths above the last top, the linear search gives the same answer as the bisection. -/
theorem C149_agree_partial (top : List K) (z b : K) (hd : Descending top) (hb : top.getLast? = some b) (hz : b < z) (fuel : Nat) (hf : top.length ≤ fuel) :
    bisection fuel top z = some (bruteForce top z) := by
  have hb' : top[top.length - 1]? = some b := by rw [← List.getLast?_eq_getElem?]; exact hb
  have hne : top ≠ [] := by rintro rfl; cases hb
  obtain ⟨a, ha⟩ : ∃ a, top.head? = some a := ⟨_, List.head?_eq_some_head hne⟩
  have ha' : top[0]? = some a := by rw [← List.head?_eq_getElem?]; exact ha
  obtain ⟨h1, h2⟩ := C149_bisection top z a b ha hb fuel hf
  have hbr := bruteLoop_spec top z b hd hb' hz top.length 0 (by omega) (by intro j hj; omega)
  by_cases h : a < z ∨ z ≤ b
  · rw [h1 h]
    rcases hbr with ⟨l, -, hl⟩ | ⟨hl, -⟩
    · exfalso
      obtain ⟨p, q, g1, -, -, g4⟩ := hl
      have := hd.get (Nat.zero_le l) ha' g1
      rcases h with h | h
      · exact absurd (le_trans g4 this) (not_le.2 h)
      · exact absurd h (not_le.2 hz)
    · unfold bruteForce; rw [hl]
  · obtain ⟨i, g1, g2⟩ := h2 h
    rw [g1]
    rcases hbr with ⟨l, hl, hl2⟩ | ⟨-, hl⟩
    · rw [C149_unique hd g2 hl2]
      unfold bruteForce; rw [hl]
    · exact absurd g2 (hl i)

omit [IsStrictOrderedRing K] in
/-- C149 (finding): for a depth at or below the last top the linear search reads beyond the array. -/
theorem C149_brute_force_overrun (top : List K) (z b : K) (hd : Descending top) (hb : top.getLast? = some b) (hz : z ≤ b) :
    bruteForce top z = none := by
  have hb' : top[top.length - 1]? = some b := by rw [← List.getLast?_eq_getElem?]; exact hb
  have key : ∀ (k i : Nat), i + k = top.length → 0 < k → bruteLoop top z k i = none := by
    intro k
    induction k with
    | zero => intro i _ h; omega
    | succ k ih =>
      intro i hi _
      obtain ⟨a, ha⟩ : ∃ a, top[i]? = some a := ⟨_, List.getElem?_eq_getElem (by omega)⟩
      have hza : z ≤ a := le_trans hz (hd.get (by omega) ha hb')
      simp only [bruteLoop, ha, Option.bind_eq_bind, Option.bind_some, if_pos hza]
      rcases Nat.eq_zero_or_pos k with rfl | hk
      · rw [List.getElem?_eq_none (by omega)]; rfl
      · obtain ⟨c, hc⟩ : ∃ c, top[i + 1]? = some c := ⟨_, List.getElem?_eq_getElem (by omega)⟩
        have hzc : ¬ z > c := not_lt.2 (le_trans hz (hd.get (by omega) hc hb'))
        simp only [hc, Option.bind_some, if_neg hzc]
        exact ih (i + 1) (by omega) hk
  have hne : top ≠ [] := by rintro rfl; cases hb
  exact key _ 0 (by omega) (List.length_pos_iff.2 hne)

example : bisection 4 [(0 : ℚ), -10, -30, -60] (-20) = some (some 1) := by decide +kernel
example : Descending [(0 : ℚ), -10, -30, -60] ∧ InLayer [(0 : ℚ), -10, -30, -60] (-20) 1 := by
  refine ⟨by unfold Descending; decide +kernel, -10, -30, rfl, rfl, by decide +kernel, by decide +kernel⟩
example : bruteForce [(0 : ℚ), -10, -30, -60] (-60) = none := by decide +kernel

end Verif.MPAS
