import Verif.HK.Lemmas
/-! The first pass of `hoshen_kopelman_2d`. -/
namespace Verif.HK
open Relation Verif.UF

/-- `q` is the left / upper neighbor of `p` (flat indices) -/
def Prev (m p q : Nat) : Prop := (p % m ≠ 0 ∧ q = p - 1) ∨ (p / m ≠ 0 ∧ q = p - m)

/-- connected through non-zero cells (flat indices) -/
def ConnF (m sz : Nat) (A : List Nat) : Nat → Nat → Prop :=
  EqvGen (fun p q => p < sz ∧ A.getD p 0 ≠ 0 ∧ q < sz ∧ A.getD q 0 ≠ 0 ∧ Prev m p q)

/-- corner test on flat indices -/
def corner (m : Nat) (A : List Nat) (p : Nat) : Bool :=
  A.getD p 0 ≠ 0 && (p % m == 0 || A.getD (p - 1) 0 == 0) && (p / m == 0 || A.getD (p - m) 0 == 0)

theorem corner_bg (m : Nat) {A : List Nat} {p : Nat} (ha : A.getD p 0 = 0) : corner m A p = false := by
  have : decide (A.getD p 0 ≠ 0) = false := by rw [ha]; rfl
  unfold corner
  rw [this]; rfl

theorem prev_lt {m p q : Nat} (h : Prev m p q) : q < p := by
  rcases h with ⟨h1, rfl⟩ | ⟨h1, rfl⟩
  · have : p ≠ 0 := by rintro rfl; simp at h1
    omega
  · have hm : 0 < m := by
      rcases Nat.eq_zero_or_pos m with h | h
      · subst h; simp at h1
      · exact h
    have : m ≤ p := by
      by_contra hc
      exact h1 (Nat.div_eq_of_lt (by omega))
    omega

/-- state after cells `< t` -/
structure FInv (m sz : Nat) (A : List Nat) (len t : Nat) (M L : List Nat) (E : Nat → Nat → Prop) (k : Nat) : Prop where
  mlen : M.length = sz
  rest : ∀ q, t ≤ q → M.getD q 0 = A.getD q 0
  bg : ∀ q, q < t → A.getD q 0 = 0 → M.getD q 0 = 0
  fg : ∀ q, q < t → A.getD q 0 ≠ 0 → 1 ≤ M.getD q 0 ∧ M.getD q 0 ≤ k
  lab : LInv len k L E
  used : ∀ l, 1 ≤ l → l ≤ k → ∃ q, q < t ∧ A.getD q 0 ≠ 0 ∧ M.getD q 0 = l
  same : ∀ p q, p < t → q < t → A.getD p 0 ≠ 0 → A.getD q 0 ≠ 0 → M.getD p 0 = M.getD q 0 → ConnF m sz A p q
  snd : ∀ x y, E x y → ∃ p q, p < t ∧ q < t ∧ A.getD p 0 ≠ 0 ∧ A.getD q 0 ≠ 0 ∧ M.getD p 0 = x ∧ M.getD q 0 = y ∧
    ConnF m sz A p q
  adj : ∀ p q, p < t → A.getD p 0 ≠ 0 → A.getD q 0 ≠ 0 → Prev m p q → EqvGen E (M.getD p 0) (M.getD q 0)
  cnt : k = (List.range t).countP (corner m A)

/-- equivalent labels belong to connected cells -/
theorem FInv.conn {m sz : Nat} {A : List Nat} {len t : Nat} {M L : List Nat} {E : Nat → Nat → Prop} {k : Nat}
    (h : FInv m sz A len t M L E k) {x y : Nat} (hxy : EqvGen E x y) : x = y ∨ ∃ p q, p < t ∧ q < t ∧
      A.getD p 0 ≠ 0 ∧ A.getD q 0 ≠ 0 ∧ M.getD p 0 = x ∧ M.getD q 0 = y ∧ ConnF m sz A p q := by
  induction hxy with
  | rel a b hab => exact Or.inr (h.snd a b hab)
  | refl => exact Or.inl rfl
  | symm a b _ ih =>
    rcases ih with rfl | ⟨p, q, h1, h2, h3, h4, h5, h6, h7⟩
    · exact Or.inl rfl
    · exact Or.inr ⟨q, p, h2, h1, h4, h3, h6, h5, .symm _ _ h7⟩
  | trans a b c _ _ i1 i2 =>
    rcases i1 with rfl | ⟨p, q, h1, h2, h3, h4, h5, h6, h7⟩
    · exact i2
    · rcases i2 with rfl | ⟨p', q', g1, g2, g3, g4, g5, g6, g7⟩
      · exact Or.inr ⟨p, q, h1, h2, h3, h4, h5, h6, h7⟩
      · exact Or.inr ⟨p, q', h1, g2, h3, g4, h5, g6,
          .trans _ _ _ h7 (.trans _ _ _ (h.same q p' h2 g1 h4 g3 (h6.trans g5.symm)) g7)⟩

theorem FInv.conn' {m sz : Nat} {A : List Nat} {len t : Nat} {M L : List Nat} {E : Nat → Nat → Prop} {k : Nat}
    (h : FInv m sz A len t M L E k) {p q : Nat} (hp : p < t) (hq : q < t) (ap : A.getD p 0 ≠ 0) (aq : A.getD q 0 ≠ 0)
    (hxy : EqvGen E (M.getD p 0) (M.getD q 0)) : ConnF m sz A p q := by
  rcases h.conn hxy with e | ⟨p', q', h1, h2, h3, h4, h5, h6, h7⟩
  · exact h.same p q hp hq ap aq e
  · exact .trans _ _ _ (h.same p p' hp h1 ap h3 h5.symm) (.trans _ _ _ h7 (h.same q' q h2 hq h4 aq h6))

/-- the generic step: cell `t` gets label `v` -/
theorem FInv.stepv {m sz : Nat} {A : List Nat} {len t : Nat} {M L : List Nat} {E : Nat → Nat → Prop} {k : Nat}
    (h : FInv m sz A len t M L E k) (ht : t < sz) (ha : A.getD t 0 ≠ 0) {L' : List Nat} {E' : Nat → Nat → Prop}
    {k' v : Nat} (hkk : k ≤ k') (hL : LInv len k' L' E') (hv : 1 ≤ v ∧ v ≤ k')
    (hnew : ∀ l, k < l → l ≤ k' → v = l)
    (hsame : ∀ q, q < t → A.getD q 0 ≠ 0 → M.getD q 0 = v → ConnF m sz A t q)
    (hsnd : ∀ x y, E' x y → E x y ∨ ∃ p q, p < t ∧ q < t ∧ A.getD p 0 ≠ 0 ∧ A.getD q 0 ≠ 0 ∧ M.getD p 0 = x ∧
      M.getD q 0 = y ∧ ConnF m sz A p q)
    (hmono : ∀ x y, E x y → E' x y)
    (hadj : ∀ q, A.getD q 0 ≠ 0 → Prev m t q → EqvGen E' v (M.getD q 0))
    (hcnt : k' = k + if corner m A t then 1 else 0) :
    FInv m sz A len (t + 1) (M.set t v) L' E' k' := by
  have hg : ∀ q, (M.set t v).getD q 0 = if q = t then v else M.getD q 0 :=
    getD_set (by rw [h.mlen]; exact ht)
  have hlt : ∀ q, q < t + 1 → q = t ∨ q < t := by intro q hq; omega
  refine ⟨by simp [h.mlen], ?_, ?_, ?_, hL, ?_, ?_, ?_, ?_, ?_⟩
  · intro q hq; rw [hg, if_neg (by omega)]; exact h.rest q (by omega)
  · intro q hq hA
    rcases hlt q hq with rfl | hq
    · exact absurd hA ha
    · rw [hg, if_neg (by omega)]; exact h.bg q hq hA
  · intro q hq hA
    rcases hlt q hq with rfl | hq
    · rw [hg, if_pos rfl]; exact hv
    · rw [hg, if_neg (by omega)]; have := h.fg q hq hA; omega
  · intro l h1 h2
    by_cases hl : l ≤ k
    · obtain ⟨q, hq, hA, e⟩ := h.used l h1 hl
      exact ⟨q, by omega, hA, by rw [hg, if_neg (by omega)]; exact e⟩
    · exact ⟨t, by omega, ha, by rw [hg, if_pos rfl]; exact hnew l (by omega) h2⟩
  · intro p q hp hq ap aq
    rw [hg, hg]
    rcases hlt p hp with rfl | hp <;> rcases hlt q hq with rfl | hq
    · intro _; exact .refl _
    · rw [if_pos rfl, if_neg (by omega)]
      intro e; exact hsame q hq aq e.symm
    · rw [if_neg (by omega), if_pos rfl]
      intro e; exact .symm _ _ (hsame p hp ap e)
    · rw [if_neg (by omega), if_neg (by omega)]; exact h.same p q hp hq ap aq
  · intro x y hxy
    have : ∃ p q, p < t ∧ q < t ∧ A.getD p 0 ≠ 0 ∧ A.getD q 0 ≠ 0 ∧ M.getD p 0 = x ∧
      M.getD q 0 = y ∧ ConnF m sz A p q := by
      rcases hsnd x y hxy with h1 | h1
      · exact h.snd x y h1
      · exact h1
    obtain ⟨p, q, h1, h2, h3, h4, h5, h6, h7⟩ := this
    exact ⟨p, q, by omega, by omega, h3, h4, by rw [hg, if_neg (by omega)]; exact h5,
      by rw [hg, if_neg (by omega)]; exact h6, h7⟩
  · intro p q hp ap aq hpq
    have hqp := prev_lt hpq
    rw [hg, hg]
    rcases hlt p hp with rfl | hp
    · rw [if_pos rfl, if_neg (by omega)]; exact hadj q aq hpq
    · rw [if_neg (by omega), if_neg (by omega)]
      exact EqvGen.mono hmono _ _ (h.adj p q hp ap aq hpq)
  · rw [List.range_succ, List.countP_append, ← h.cnt, hcnt]
    congr 1
    rw [List.countP_singleton]

theorem FInv.stepbg {m sz : Nat} {A : List Nat} {len t : Nat} {M L : List Nat} {E : Nat → Nat → Prop} {k : Nat}
    (h : FInv m sz A len t M L E k) (ha : A.getD t 0 = 0) : FInv m sz A len (t + 1) M L E k := by
  have hlt : ∀ q, q < t + 1 → q = t ∨ q < t := by intro q hq; omega
  have hlt' : ∀ q, q < t + 1 → A.getD q 0 ≠ 0 → q < t := by
    intro q hq hA
    rcases hlt q hq with rfl | h
    · exact absurd ha hA
    · exact h
  refine ⟨h.mlen, fun q hq => h.rest q (by omega), ?_, ?_, h.lab, ?_, ?_, ?_, ?_, ?_⟩
  · intro q hq hA
    rcases hlt q hq with rfl | hq
    · rw [h.rest q (Nat.le_refl _)]; exact ha
    · exact h.bg q hq hA
  · intro q hq hA; exact h.fg q (hlt' q hq hA) hA
  · intro l h1 h2
    obtain ⟨q, a, b, c⟩ := h.used l h1 h2
    exact ⟨q, by omega, b, c⟩
  · intro p q hp hq ap aq; exact h.same p q (hlt' p hp ap) (hlt' q hq aq) ap aq
  · intro x y hxy
    obtain ⟨p, q, h1, h2, h3⟩ := h.snd x y hxy
    exact ⟨p, q, by omega, by omega, h3⟩
  · intro p q hp ap; exact h.adj p q (hlt' p hp ap) ap
  · rw [List.range_succ, List.countP_append, ← h.cnt, List.countP_singleton]
    simp [corner_bg m ha]

theorem firstCell_spec {m sz : Nat} {A : List Nat} {len t : Nat} {M L : List Nat} {E : Nat → Nat → Prop} {k : Nat}
    (h : FInv m sz A len t M L E k) (ht : t < sz) :
    (k + (if corner m A t then 1 else 0) < len →
      ∃ M' L' E', firstCell m (dec m t).1 (dec m t).2 M L = some (M', L') ∧
        FInv m sz A len (t + 1) M' L' E' (k + if corner m A t then 1 else 0)) ∧
    (¬ k + (if corner m A t then 1 else 0) < len → firstCell m (dec m t).1 (dec m t).2 M L = none) := by
  have hMt : M.getD t 0 = A.getD t 0 := h.rest t (Nat.le_refl _)
  unfold firstCell
  rw [idx_dec, hMt]
  by_cases ha : A.getD t 0 = 0
  · have hc : corner m A t = false := corner_bg m ha
    simp only [ha, ne_eq, not_true_eq_false, hc, Bool.false_eq_true, if_false, Nat.add_zero]
    exact ⟨fun _ => ⟨M, L, E, rfl, h.stepbg ha⟩, fun hn => absurd h.lab.lt hn⟩
  · rw [if_pos ha]
    -- the neighbors
    have hleft : (if (dec m t).1 = 0 then 0 else M.getD ((dec m t).1 - 1 + m * (dec m t).2) 0) =
        if t % m = 0 then 0 else M.getD (t - 1) 0 := by
      show (if t % m = 0 then 0 else M.getD (t % m - 1 + m * (t / m)) 0) = _
      by_cases h0 : t % m = 0
      · rw [if_pos h0, if_pos h0]
      · rw [if_neg h0, if_neg h0, left_idx h0]
    have hup : (if (dec m t).2 = 0 then 0 else M.getD ((dec m t).1 + m * ((dec m t).2 - 1)) 0) =
        if t / m = 0 then 0 else M.getD (t - m) 0 := by
      show (if t / m = 0 then 0 else M.getD (t % m + m * (t / m - 1)) 0) = _
      by_cases h0 : t / m = 0
      · rw [if_pos h0, if_pos h0]
      · rw [if_neg h0, if_neg h0, up_idx h0]
    rw [hleft, hup]
    generalize hl : (if t % m = 0 then 0 else M.getD (t - 1) 0) = left
    generalize hu : (if t / m = 0 then 0 else M.getD (t - m) 0) = up
    -- nonzero neighbor facts
    have nz : ∀ q, q < t → (M.getD q 0 ≠ 0 ↔ A.getD q 0 ≠ 0) := by
      intro q hq
      constructor
      · intro h1 h2; exact h1 (h.bg q hq h2)
      · intro h1; have := h.fg q hq h1; omega
    have L1 : left ≠ 0 → (t % m ≠ 0 ∧ M.getD (t - 1) 0 = left ∧ t - 1 < t ∧ A.getD (t - 1) 0 ≠ 0) := by
      intro hne
      by_cases h0 : t % m = 0
      · rw [if_pos h0] at hl; exact absurd hl.symm hne
      · rw [if_neg h0] at hl
        have hlt : t - 1 < t := prev_lt (Or.inl ⟨h0, rfl⟩)
        exact ⟨h0, hl, hlt, (nz _ hlt).1 (by rw [hl]; exact hne)⟩
    have U1 : up ≠ 0 → (t / m ≠ 0 ∧ M.getD (t - m) 0 = up ∧ t - m < t ∧ A.getD (t - m) 0 ≠ 0) := by
      intro hne
      by_cases h0 : t / m = 0
      · rw [if_pos h0] at hu; exact absurd hu.symm hne
      · rw [if_neg h0] at hu
        have hlt : t - m < t := prev_lt (Or.inr ⟨h0, rfl⟩)
        exact ⟨h0, hu, hlt, (nz _ hlt).1 (by rw [hu]; exact hne)⟩
    have L0 : left = 0 → (t % m = 0 ∨ A.getD (t - 1) 0 = 0) := by
      intro h0
      by_cases h1 : t % m = 0
      · exact Or.inl h1
      · rw [if_neg h1] at hl
        right
        by_contra hc
        exact (nz _ (prev_lt (Or.inl ⟨h1, rfl⟩))).2 hc (hl.trans h0)
    have U0 : up = 0 → (t / m = 0 ∨ A.getD (t - m) 0 = 0) := by
      intro h0
      by_cases h1 : t / m = 0
      · exact Or.inl h1
      · rw [if_neg h1] at hu
        right
        by_contra hc
        exact (nz _ (prev_lt (Or.inr ⟨h1, rfl⟩))).2 hc (hu.trans h0)
    have connL : left ≠ 0 → ConnF m sz A t (t - 1) := fun hne =>
      .rel _ _ ⟨ht, ha, Nat.lt_of_le_of_lt (Nat.sub_le _ _) ht, (L1 hne).2.2.2, Or.inl ⟨(L1 hne).1, rfl⟩⟩
    have connU : up ≠ 0 → ConnF m sz A t (t - m) := fun hne =>
      .rel _ _ ⟨ht, ha, Nat.lt_of_le_of_lt (Nat.sub_le _ _) ht, (U1 hne).2.2.2, Or.inr ⟨(U1 hne).1, rfl⟩⟩
    have hcorner : corner m A t = true ↔ left = 0 ∧ up = 0 := by
      unfold corner
      simp only [Bool.and_eq_true, Bool.or_eq_true, beq_iff_eq, decide_eq_true_eq]
      constructor
      · rintro ⟨⟨_, h1⟩, h2⟩
        constructor
        · by_contra hc; have := L1 hc; rcases h1 with h1 | h1; exact this.1 h1; exact this.2.2.2 h1
        · by_contra hc; have := U1 hc; rcases h2 with h2 | h2; exact this.1 h2; exact this.2.2.2 h2
      · rintro ⟨h1, h2⟩; exact ⟨⟨ha, L0 h1⟩, U0 h2⟩
    by_cases hl0 : left = 0 <;> by_cases hu0 : up = 0
    · -- make_set
      have hc : corner m A t = true := hcorner.2 ⟨hl0, hu0⟩
      simp only [hl0, hu0, ne_eq, not_true_eq_false, if_false, Nat.add_zero, hc, if_true]
      constructor
      · intro hk
        obtain ⟨L', e, hL'⟩ := h.lab.makeSet hk
        refine ⟨M.set t (k + 1), L', E, by rw [e], ?_⟩
        refine h.stepv ht ha (by omega) hL' (by omega) (by intro l; omega) ?_ (fun x y h => Or.inl h)
          (fun _ _ h => h) ?_ (by simp [hc])
        · intro q hq hA e
          have := h.fg q hq hA; omega
        · rintro q hA (⟨h1, rfl⟩ | ⟨h1, rfl⟩)
          · rcases L0 hl0 with h | h
            · exact absurd h h1
            · exact absurd h hA
          · rcases U0 hu0 with h | h
            · exact absurd h h1
            · exact absurd h hA
      · intro hk; rw [makeSet_oob h.lab hk]
    · -- only up
      have hc : corner m A t = false := by
        rw [← Bool.not_eq_true, hcorner]; exact fun h => hu0 h.2
      simp only [hl0, hu0, ne_eq, not_true_eq_false, not_false_eq_true, if_true, if_false, Nat.zero_add, Nat.add_zero, hc,
        Bool.false_eq_true, Nat.max_zero]
      refine ⟨fun _ => ⟨M.set t up, L, E, rfl, ?_⟩, fun hn => absurd h.lab.lt hn⟩
      obtain ⟨u1, u2, u3, u4⟩ := U1 hu0
      refine h.stepv ht ha (Nat.le_refl _) h.lab (by rw [← u2]; exact h.fg _ u3 u4) (by intro l; omega) ?_
        (fun x y h => Or.inl h) (fun _ _ h => h) ?_ (by simp [hc])
      · intro q hq hA e
        exact .trans _ _ _ (connU hu0) (h.same _ _ u3 hq u4 hA (u2.trans e.symm))
      · rintro q hA (⟨h1, rfl⟩ | ⟨h1, rfl⟩)
        · rcases L0 hl0 with h | h
          · exact absurd h h1
          · exact absurd h hA
        · rw [u2]; exact .refl _
    · -- only left
      have hc : corner m A t = false := by
        rw [← Bool.not_eq_true, hcorner]; exact fun h => hl0 h.1
      simp only [hl0, hu0, ne_eq, not_true_eq_false, not_false_eq_true, if_true, if_false, Nat.zero_add, Nat.add_zero, hc,
        Bool.false_eq_true, Nat.zero_max]
      refine ⟨fun _ => ⟨M.set t left, L, E, rfl, ?_⟩, fun hn => absurd h.lab.lt hn⟩
      obtain ⟨u1, u2, u3, u4⟩ := L1 hl0
      refine h.stepv ht ha (Nat.le_refl _) h.lab (by rw [← u2]; exact h.fg _ u3 u4) (by intro l; omega) ?_
        (fun x y h => Or.inl h) (fun _ _ h => h) ?_ (by simp [hc])
      · intro q hq hA e
        exact .trans _ _ _ (connL hl0) (h.same _ _ u3 hq u4 hA (u2.trans e.symm))
      · rintro q hA (⟨h1, rfl⟩ | ⟨h1, rfl⟩)
        · rw [u2]; exact .refl _
        · rcases U0 hu0 with h | h
          · exact absurd h h1
          · exact absurd h hA
    · -- both
      have hc : corner m A t = false := by
        rw [← Bool.not_eq_true, hcorner]; exact fun h => hl0 h.1
      simp only [hl0, hu0, ne_eq, not_false_eq_true, if_true, Nat.add_zero, hc,
        Bool.false_eq_true, if_false]
      refine ⟨fun _ => ?_, fun hn => absurd h.lab.lt hn⟩
      obtain ⟨l1, l2, l3, l4⟩ := L1 hl0
      obtain ⟨u1, u2, u3, u4⟩ := U1 hu0
      obtain ⟨L', r, e, hL', hr, hconn⟩ := h.lab.unite (x := up) (y := left) (by rw [← u2]; exact h.fg _ u3 u4)
        (by rw [← l2]; exact h.fg _ l3 l4)
      refine ⟨M.set t r, L', (fun a b => E a b ∨ (a = left ∧ b = up)), by rw [e], ?_⟩
      refine h.stepv ht ha (Nat.le_refl _) hL' hr (by intro l; omega) ?_ ?_ (fun _ _ h => Or.inl h) ?_ (by simp [hc])
      · intro q hq hA e
        refine .trans _ _ _ (connL hl0) (h.conn' l3 hq l4 hA ?_)
        rw [l2, e]; exact hconn
      · rintro x y (hxy | ⟨rfl, rfl⟩)
        · exact Or.inl hxy
        · exact Or.inr ⟨t - 1, t - m, l3, u3, l4, u4, l2, u2, .trans _ _ _ (.symm _ _ (connL hl0)) (connU hu0)⟩
      · have hmono : ∀ x y, EqvGen E x y → EqvGen (fun a b => E a b ∨ (a = left ∧ b = up)) x y :=
          fun x y h => EqvGen.mono (fun _ _ h => Or.inl h) _ _ h
        rintro q hA (⟨h1, rfl⟩ | ⟨h1, rfl⟩)
        · rw [l2]; exact .symm _ _ (hmono _ _ hconn)
        · rw [u2]; exact .trans _ _ _ (.symm _ _ (hmono _ _ hconn)) (.rel _ _ (Or.inr ⟨rfl, rfl⟩))

theorem countP_range_le (m : Nat) (A : List Nat) {a b : Nat} (h : a ≤ b) :
    (List.range a).countP (corner m A) ≤ (List.range b).countP (corner m A) := by
  obtain ⟨c, rfl⟩ := Nat.exists_eq_add_of_le h
  rw [List.range_add, List.countP_append]; omega

theorem firstPass_spec {m sz : Nat} {A : List Nat} {len : Nat} : ∀ (r t : Nat) (M L : List Nat)
    (E : Nat → Nat → Prop) (k : Nat), t + r = sz → FInv m sz A len t M L E k →
    ((List.range sz).countP (corner m A) < len →
      ∃ M' L' E', firstPass m ((List.range' t r).map (dec m)) M L = some (M', L') ∧
        FInv m sz A len sz M' L' E' ((List.range sz).countP (corner m A))) ∧
    (¬ (List.range sz).countP (corner m A) < len → firstPass m ((List.range' t r).map (dec m)) M L = none) := by
  intro r
  induction r with
  | zero =>
    intro t M L E k ht h
    have : t = sz := by omega
    subst this
    constructor
    · intro _; rw [← h.cnt]; exact ⟨M, L, E, rfl, h⟩
    · intro hn; rw [← h.cnt] at hn; exact absurd h.lab.lt hn
  | succ r ih =>
    intro t M L E k ht h
    rw [List.range'_succ, List.map_cons]
    obtain ⟨h1, h2⟩ := firstCell_spec h (by omega)
    have hcnt : (List.range (t + 1)).countP (corner m A) = k + if corner m A t then 1 else 0 := by
      rw [List.range_succ, List.countP_append, ← h.cnt, List.countP_singleton]
    have hle := countP_range_le m A (a := t + 1) (b := sz) (by omega)
    by_cases hk : k + (if corner m A t then 1 else 0) < len
    · obtain ⟨M', L', E', e, h'⟩ := h1 hk
      obtain ⟨i1, i2⟩ := ih (t + 1) M' L' E' _ (by omega) h'
      have he : firstPass m (dec m t :: (List.range' (t + 1) r).map (dec m)) M L =
          firstPass m ((List.range' (t + 1) r).map (dec m)) M' L' := by
        simp only [firstPass]
        rw [show dec m t = ((dec m t).1, (dec m t).2) from rfl]
        simp only [e]
      rw [he]
      exact ⟨i1, i2⟩
    · have hnone : firstPass m (dec m t :: (List.range' (t + 1) r).map (dec m)) M L = none := by
        simp only [firstPass]
        rw [show dec m t = ((dec m t).1, (dec m t).2) from rfl]
        simp only [h2 hk]
      rw [hnone]
      refine ⟨fun hlt => ?_, fun _ => rfl⟩
      rw [hcnt] at hle
      omega

theorem FInv.init {m sz : Nat} {A : List Nat} {len : Nat} (hA : A.length = sz) (hl : 0 < len) :
    FInv m sz A len 0 A (List.replicate len 0) (fun _ _ => False) 0 := by
  have hp : ∀ x p, ¬ pf 0 (List.replicate len 0) x = some p := by
    intro x p h; have := pf_some h; omega
  refine ⟨hA, fun _ _ => rfl, by intro q; omega, by intro q; omega, ⟨by simp, by simp [hl], hl, ⟨⟨?_, fun _ => 0, ?_⟩, ?_, ?_, ?_⟩⟩,
    by intro l; omega, by intro p; omega, by intro x y h; exact h.elim, by intro p; omega, rfl⟩
  · intro i p h; exact absurd h (hp i p)
  · intro i p h; exact absurd h (hp i p)
  · intro x
    constructor
    · intro h; omega
    · rintro ⟨p, h⟩; exact absurd h (hp x p)
  · intro i p h; exact absurd h (hp i p)
  · intro a b h; exact h.elim

end Verif.HK
