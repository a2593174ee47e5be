import Verif.HK.Second
/-! C19: Hoshen-Kopelman labelling. -/
namespace Verif.HK
open Relation

theorem fg_iff {m n : Nat} {A : List Nat} {c : Nat × Nat} :
    Fg m n A c ↔ c.1 < m ∧ c.2 < n ∧ A.getD (c.1 + m * c.2) 0 ≠ 0 := by
  unfold Fg
  refine and_congr_right fun _ => and_congr_right fun _ => ?_
  rw [List.getD_eq_getElem?_getD]
  cases A[c.1 + m * c.2]? <;> simp

theorem idx_lt {m n i j : Nat} (hi : i < m) (hj : j < n) : i + m * j < m * n := by
  obtain ⟨d, rfl⟩ := Nat.exists_eq_add_of_lt hj
  rw [Nat.mul_add, Nat.mul_add]
  omega

theorem dec_idx {m i j : Nat} (hi : i < m) : dec m (i + m * j) = (i, j) := by
  unfold dec
  rw [Nat.add_mul_mod_self_left, Nat.mod_eq_of_lt hi, Nat.add_mul_div_left _ _ (by omega), Nat.div_eq_of_lt hi, Nat.zero_add]

theorem conn_iff {m n : Nat} {A : List Nat} {c d : Nat × Nat} (hc : c.1 < m) (hd : d.1 < m) :
    Conn m n A c d ↔ ConnF m (m * n) A (c.1 + m * c.2) (d.1 + m * d.2) := by
  constructor
  · have key : ∀ x y, Conn m n A x y → ConnF m (m * n) A (x.1 + m * x.2) (y.1 + m * y.2) := by
      intro x y h
      induction h with
      | rel x y h =>
        obtain ⟨hx, hy, hadj⟩ := h
        rw [fg_iff] at hx hy
        have hm : 0 < m := by omega
        have mod : ∀ (z : Nat × Nat), z.1 < m → (z.1 + m * z.2) % m = z.1 ∧ (z.1 + m * z.2) / m = z.2 := by
          intro z hz
          have := dec_idx (j := z.2) hz
          unfold dec at this
          exact ⟨congrArg Prod.fst this, congrArg Prod.snd this⟩
        have hx' := mod x hx.1
        have hy' := mod y hy.1
        rcases hadj with ⟨h2, h1 | h1⟩ | ⟨h1, h2 | h2⟩
        · refine .symm _ _ (.rel _ _ ⟨idx_lt hy.1 hy.2.1, hy.2.2, idx_lt hx.1 hx.2.1, hx.2.2, Or.inl ⟨?_, ?_⟩⟩)
          · rw [hy'.1]; omega
          · rw [h2]; omega
        · refine .rel _ _ ⟨idx_lt hx.1 hx.2.1, hx.2.2, idx_lt hy.1 hy.2.1, hy.2.2, Or.inl ⟨?_, ?_⟩⟩
          · rw [hx'.1]; omega
          · rw [h2]; omega
        · refine .symm _ _ (.rel _ _ ⟨idx_lt hy.1 hy.2.1, hy.2.2, idx_lt hx.1 hx.2.1, hx.2.2, Or.inr ⟨?_, ?_⟩⟩)
          · rw [hy'.2]; omega
          · rw [← h2, Nat.mul_succ, h1]; omega
        · refine .rel _ _ ⟨idx_lt hx.1 hx.2.1, hx.2.2, idx_lt hy.1 hy.2.1, hy.2.2, Or.inr ⟨?_, ?_⟩⟩
          · rw [hx'.2]; omega
          · rw [← h2, Nat.mul_succ, h1]; omega
      | refl => exact .refl _
      | symm a b _ ih => exact .symm _ _ ih
      | trans a b c _ _ i1 i2 => exact .trans _ _ _ i1 i2
    exact key c d
  · have key : ∀ p q, ConnF m (m * n) A p q → Conn m n A (dec m p) (dec m q) := by
      intro p q h
      induction h with
      | rel p q h =>
        obtain ⟨hp, ap, hq, aq, hprev⟩ := h
        have fgof : ∀ p, p < m * n → A.getD p 0 ≠ 0 → Fg m n A (dec m p) := by
          intro p hp ap
          have hm : 0 < m := by
            rcases Nat.eq_zero_or_pos m with h | h
            · subst h; simp at hp
            · exact h
          rw [fg_iff, idx_dec]
          exact ⟨Nat.mod_lt _ hm, Nat.div_lt_of_lt_mul hp, ap⟩
        refine .rel _ _ ⟨fgof p hp ap, fgof q hq aq, ?_⟩
        have hm : 0 < m := by
          rcases Nat.eq_zero_or_pos m with h | h
          · subst h; simp at hp
          · exact h
        rcases hprev with ⟨h1, rfl⟩ | ⟨h1, rfl⟩
        · left
          have e := left_idx h1
          have : dec m (p - 1) = (p % m - 1, p / m) := by
            rw [← e]; exact dec_idx (by have := Nat.mod_lt p hm; omega)
          rw [this]
          refine ⟨rfl, Or.inr ?_⟩
          simp only [dec]; omega
        · right
          have e := up_idx h1
          have : dec m (p - m) = (p % m, p / m - 1) := by
            rw [← e]; exact dec_idx (Nat.mod_lt p hm)
          rw [this]
          refine ⟨rfl, Or.inr ?_⟩
          exact Nat.sub_add_cancel (Nat.pos_of_ne_zero h1)
      | refl => exact .refl _
      | symm a b _ ih => exact .symm _ _ ih
      | trans a b c _ _ i1 i2 => exact .trans _ _ _ i1 i2
    intro h
    have := key _ _ h
    rwa [dec_idx hc, dec_idx hd] at this

theorem corner_count {m n : Nat} {A : List Nat} : (List.range (m * n)).countP (corner m A) = cornerCount m n A := by
  unfold cornerCount
  have := cells_eq m n
  unfold cells at this
  rw [this, List.countP_map]
  refine List.countP_congr (fun p hp => ?_)
  simp only [Function.comp, corner]
  rw [idx_dec]
  have e1 : ((dec m p).1 == 0 || A.getD ((dec m p).1 - 1 + m * (dec m p).2) 0 == 0) = (p % m == 0 || A.getD (p - 1) 0 == 0) := by
    show (p % m == 0 || A.getD (p % m - 1 + m * (p / m)) 0 == 0) = _
    by_cases h : p % m = 0
    · simp [h]
    · rw [left_idx h]
  have e2 : ((dec m p).2 == 0 || A.getD ((dec m p).1 + m * ((dec m p).2 - 1)) 0 == 0) = (p / m == 0 || A.getD (p - m) 0 == 0) := by
    show (p / m == 0 || A.getD (p % m + m * (p / m - 1)) 0 == 0) = _
    by_cases h : p / m = 0
    · simp only [h, beq_self_eq_true, Bool.true_or]
    · rw [up_idx h]
  rw [e1, e2]

/-- C19 (partial: the run must be defined, see `C19_defined_iff`): on an `m x n` image, zero cells stay
zero, non-zero cells get labels `1..count`, every label is used, and two non-zero cells get the same
label iff they are 4-connected through non-zero cells. -/
theorem C19_labelling_partial (m n : Nat) (A : List Nat) (hA : A.length = m * n)
    (hdef : cornerCount m n A < m * n / 2) :
    ∃ M count, hk m n A = some (M, count) ∧ M.length = m * n ∧
      (∀ i j, i < m → j < n → A[i + m * j]? = some 0 → M[i + m * j]? = some 0) ∧
      (∀ c, Fg m n A c → ∃ l, M[c.1 + m * c.2]? = some l ∧ 1 ≤ l ∧ l ≤ count) ∧
      (∀ l : Nat, 1 ≤ l → l ≤ count → ∃ c, Fg m n A c ∧ M[c.1 + m * c.2]? = some l) ∧
      (∀ c d, Fg m n A c → Fg m n A d → (M[c.1 + m * c.2]? = M[d.1 + m * d.2]? ↔ Conn m n A c d)) := by
  obtain ⟨M, c, e, h1, h2, h3, h4, h5⟩ := (hk_flat hA).2 (by rw [corner_count]; exact hdef)
  have hget : ∀ q, q < m * n → M[q]? = some (M.getD q 0) := by
    intro q hq
    rw [List.getD_eq_getElem?_getD, List.getElem?_eq_getElem (by omega)]; rfl
  refine ⟨M, c, e, h1, ?_, ?_, ?_, ?_⟩
  · intro i j hi hj ha
    rw [hget _ (idx_lt hi hj), h2 _ (idx_lt hi hj) (by rw [List.getD_eq_getElem?_getD, ha]; rfl)]
  · intro c hc
    rw [fg_iff] at hc
    exact ⟨_, hget _ (idx_lt hc.1 hc.2.1), h3 _ (idx_lt hc.1 hc.2.1) hc.2.2⟩
  · intro l hl1 hl2
    obtain ⟨q, hq, el⟩ := h4 l hl1 hl2
    have ha : A.getD q 0 ≠ 0 := by
      intro h0; rw [h2 q hq h0] at el; omega
    have hm : 0 < m := by
      rcases Nat.eq_zero_or_pos m with h | h
      · subst h; simp at hq
      · exact h
    refine ⟨dec m q, ?_, ?_⟩
    · rw [fg_iff, idx_dec]
      exact ⟨Nat.mod_lt _ hm, Nat.div_lt_of_lt_mul hq, ha⟩
    · rw [idx_dec, hget q hq, el]
  · intro c d hc hd
    rw [fg_iff] at hc hd
    rw [conn_iff hc.1 hd.1, ← h5 _ _ (idx_lt hc.1 hc.2.1) (idx_lt hd.1 hd.2.1) hc.2.2 hd.2.2,
      hget _ (idx_lt hc.1 hc.2.1), hget _ (idx_lt hd.1 hd.2.1), Option.some.injEq]

/-- C19: exactly when the run avoids out-of-bounds accesses of its label vector (sized
`nelem / 2`): the number of non-zero cells without non-zero left and upper neighbors must be below
`nelem / 2`. -/
theorem C19_defined_iff (m n : Nat) (A : List Nat) (hA : A.length = m * n) :
    (hk m n A).isSome = true ↔ cornerCount m n A < m * n / 2 := by
  rw [← corner_count]
  constructor
  · intro h
    by_contra hn
    rw [(hk_flat hA).1 hn] at h
    cases h
  · intro h
    obtain ⟨M, c, e, _⟩ := (hk_flat hA).2 h
    rw [e]; rfl

/-- C19 (finding): checkerboards overrun the vector, and so does any image of one cell. -/
theorem C19_out_of_bounds_witnesses :
    hk 3 3 [1, 0, 1, 0, 1, 0, 1, 0, 1] = none ∧ hk 2 2 [1, 0, 0, 1] = none ∧ hk 1 1 [1] = none ∧ hk 1 1 [0] = none := by
  decide

example : hk 3 2 [1, 0, 1, 1, 1, 1] = some ([1, 0, 1, 1, 1, 1], 1) := by decide
example : hk 4 3 [1, 1, 0, 7, 0, 0, 0, 1, 1, 0, 0, 0] = some ([1, 1, 0, 2, 0, 0, 0, 2, 3, 0, 0, 0], 3) := by decide
example : cornerCount 4 3 [1, 1, 0, 7, 0, 0, 0, 1, 1, 0, 0, 0] < 4 * 3 / 2 := by decide

end Verif.HK
