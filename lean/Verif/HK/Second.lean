import Verif.HK.First
/-! The second pass of `hoshen_kopelman_2d`. -/
namespace Verif.HK
open Relation Verif.UF

/-- state of the second pass after cells `< t`; `F` is the image after the first pass, `P` its label
forest, `N` the new labels, `c` their counter. -/
structure NInv (sz len k : Nat) (F L0 : List Nat) (E : Nat → Nat → Prop) (t : Nat) (M L N : List Nat) (c : Nat) : Prop where
  mlen : M.length = sz
  rest : ∀ q, t ≤ q → M.getD q 0 = F.getD q 0
  bg : ∀ q, q < t → F.getD q 0 = 0 → M.getD q 0 = 0
  lab : LInv len k L E
  root : ∀ a r, RootOf (pf k L0) a r → RootOf (pf k L) a r
  nlen : N.length = len
  zero : N[0]? = some c
  val : ∀ q, q < t → F.getD q 0 ≠ 0 → ∃ r, RootOf (pf k L0) (F.getD q 0) r ∧ N[r]? = some (M.getD q 0) ∧ M.getD q 0 ≠ 0
  inj : ∀ a b v, 1 ≤ a → 1 ≤ b → N[a]? = some v → N[b]? = some v → v ≠ 0 → a = b
  le : ∀ a v : Nat, 1 ≤ a → N[a]? = some v → v ≤ c
  used : ∀ l, 1 ≤ l → l ≤ c → ∃ q, q < t ∧ M.getD q 0 = l

theorem secondCell_spec {m sz len k : Nat} {F L0 : List Nat} {E : Nat → Nat → Prop} {t : Nat} {M L N : List Nat} {c : Nat}
    (h : NInv sz len k F L0 E t M L N c) (h0 : LInv len k L0 E) (ht : t < sz)
    (hF : F.getD t 0 ≠ 0 → 1 ≤ F.getD t 0 ∧ F.getD t 0 ≤ k) :
    ∃ M' L' N' c', secondCell m (dec m t).1 (dec m t).2 M L N = some (M', L', N') ∧
      NInv sz len k F L0 E (t + 1) M' L' N' c' := by
  have hMt : M.getD t 0 = F.getD t 0 := h.rest t (Nat.le_refl _)
  have hlt : ∀ q, q < t + 1 → q = t ∨ q < t := by intro q hq; omega
  unfold secondCell
  rw [idx_dec, hMt]
  by_cases ha : F.getD t 0 = 0
  · refine ⟨M, L, N, c, by simp only [ha, ne_eq, not_true_eq_false, if_false], h.mlen, fun q hq => h.rest q (by omega),
      ?_, h.lab, h.root, h.nlen, h.zero, ?_, h.inj, h.le, ?_⟩
    · intro q hq hA
      rcases hlt q hq with rfl | hq
      · rw [hMt]; exact ha
      · exact h.bg q hq hA
    · intro q hq hA
      rcases hlt q hq with rfl | hq
      · exact absurd ha hA
      · exact h.val q hq hA
    · intro l h1 h2
      obtain ⟨q, hq, e⟩ := h.used l h1 h2
      exact ⟨q, by omega, e⟩
  · rw [if_pos ha]
    obtain ⟨L', r, e, hL', hr, hroot⟩ := h.lab.find (hF ha)
    have hrr := h.lab.root_range hr
    obtain ⟨p0, hp0⟩ := (h0.rep.dom _).1 (hF ha)
    obtain ⟨r0, hr0⟩ := h0.rep.wf.exists_root hp0
    have : r = r0 := hr.unique (h.root _ _ hr0)
    subst this
    have hlen := h.lab.lt
    have hrN : r < N.length := by rw [h.nlen]; omega
    rw [e]
    simp only [List.getElem?_eq_getElem hrN, h.zero]
    have hg : ∀ w q, (M.set t w).getD q 0 = if q = t then w else M.getD q 0 :=
      fun w => getD_set (by rw [h.mlen]; exact ht)
    by_cases hv : N[r] = 0
    · rw [if_pos hv]
      have hN'r : ((N.set 0 (c + 1)).set r (c + 1))[r]? = some (c + 1) := by
        rw [List.getElem?_set_self (by simpa using hrN)]
      have hN'o : ∀ a : Nat, 1 ≤ a → a ≠ r → ((N.set 0 (c + 1)).set r (c + 1))[a]? = N[a]? := by
        intro a h1 h2
        rw [List.getElem?_set_ne (Ne.symm h2), List.getElem?_set_ne (by omega)]
      refine ⟨M.set t (c + 1), L', _, c + 1, by rw [hN'r], by simp [h.mlen], ?_, ?_, hL', fun a r h' => hroot _ _ (h.root _ _ h'),
        by simp [h.nlen], ?_, ?_, ?_, ?_, ?_⟩
      · intro q hq; rw [hg, if_neg (by omega)]; exact h.rest q (by omega)
      · intro q hq hA
        rcases hlt q hq with rfl | hq
        · exact absurd hA ha
        · rw [hg, if_neg (by omega)]; exact h.bg q hq hA
      · rw [List.getElem?_set_ne (by omega), List.getElem?_set_self (by rw [h.nlen]; omega)]
      · intro q hq hA
        rcases hlt q hq with rfl | hq
        · exact ⟨r, hr0, by rw [hg, if_pos rfl]; exact hN'r, by rw [hg, if_pos rfl]; omega⟩
        · obtain ⟨r', h1, h2, h3⟩ := h.val q hq hA
          refine ⟨r', h1, ?_, by rw [hg, if_neg (by omega)]; exact h3⟩
          rw [hg, if_neg (by omega), hN'o r' (h0.root_range h1).1 ?_]
          · exact h2
          · rintro rfl
            rw [List.getElem?_eq_getElem hrN, hv] at h2
            exact h3 (Option.some.inj h2).symm
      · intro a b v h1 h2 h3 h4 h5
        by_cases ha' : a = r <;> by_cases hb' : b = r
        · rw [ha', hb']
        · exfalso
          subst ha'
          rw [hN'r] at h3; rw [hN'o b h2 hb'] at h4
          have := h.le b v h2 h4
          have := Option.some.inj h3
          omega
        · exfalso
          subst hb'
          rw [hN'r] at h4; rw [hN'o a h1 ha'] at h3
          have := h.le a v h1 h3
          have := Option.some.inj h4
          omega
        · rw [hN'o a h1 ha'] at h3; rw [hN'o b h2 hb'] at h4
          exact h.inj a b v h1 h2 h3 h4 h5
      · intro a v h1 h2
        by_cases ha' : a = r
        · subst ha'; rw [hN'r] at h2; have := Option.some.inj h2; omega
        · rw [hN'o a h1 ha'] at h2; have := h.le a v h1 h2; omega
      · intro l h1 h2
        by_cases hl : l = c + 1
        · exact ⟨t, by omega, by rw [hg, if_pos rfl]; exact hl.symm⟩
        · obtain ⟨q, hq, e⟩ := h.used l h1 (by omega)
          exact ⟨q, by omega, by rw [hg, if_neg (by omega)]; exact e⟩
    · rw [if_neg hv]
      refine ⟨M.set t N[r], L', N, c, by simp only [List.getElem?_eq_getElem hrN], by simp [h.mlen], ?_, ?_, hL',
        fun a r h' => hroot _ _ (h.root _ _ h'), h.nlen, h.zero, ?_, h.inj, h.le, ?_⟩
      · intro q hq; rw [hg, if_neg (by omega)]; exact h.rest q (by omega)
      · intro q hq hA
        rcases hlt q hq with rfl | hq
        · exact absurd hA ha
        · rw [hg, if_neg (by omega)]; exact h.bg q hq hA
      · intro q hq hA
        rcases hlt q hq with rfl | hq
        · exact ⟨r, hr0, by rw [hg, if_pos rfl]; exact List.getElem?_eq_getElem hrN, by rw [hg, if_pos rfl]; exact hv⟩
        · obtain ⟨r', h1, h2, h3⟩ := h.val q hq hA
          exact ⟨r', h1, by rw [hg, if_neg (by omega)]; exact h2, by rw [hg, if_neg (by omega)]; exact h3⟩
      · intro l h1 h2
        obtain ⟨q, hq, e⟩ := h.used l h1 h2
        exact ⟨q, by omega, by rw [hg, if_neg (by omega)]; exact e⟩

theorem secondPass_spec {m sz len k : Nat} {F L0 : List Nat} {E : Nat → Nat → Prop} (h0 : LInv len k L0 E)
    (hF : ∀ q, q < sz → F.getD q 0 ≠ 0 → 1 ≤ F.getD q 0 ∧ F.getD q 0 ≤ k) : ∀ (r t : Nat) (M L N : List Nat) (c : Nat),
    t + r = sz → NInv sz len k F L0 E t M L N c →
    ∃ M' L' N' c', secondPass m ((List.range' t r).map (dec m)) M L N = some (M', L', N') ∧
      NInv sz len k F L0 E sz M' L' N' c' := by
  intro r
  induction r with
  | zero =>
    intro t M L N c ht h
    have : t = sz := by omega
    subst this
    exact ⟨M, L, N, c, rfl, h⟩
  | succ r ih =>
    intro t M L N c ht h
    obtain ⟨M1, L1, N1, c1, e1, h1⟩ := secondCell_spec (m := m) h h0 (by omega) (hF t (by omega))
    obtain ⟨M2, L2, N2, c2, e2, h2⟩ := ih (t + 1) M1 L1 N1 c1 (by omega) h1
    refine ⟨M2, L2, N2, c2, ?_, h2⟩
    rw [List.range'_succ, List.map_cons]
    simp only [secondPass]
    rw [show dec m t = ((dec m t).1, (dec m t).2) from rfl]
    simp only [e1, e2]

/-- the whole run, on flat indices -/
theorem hk_flat {m n : Nat} {A : List Nat} (hA : A.length = m * n) :
    (¬ (List.range (m * n)).countP (corner m A) < m * n / 2 → hk m n A = none) ∧
    ((List.range (m * n)).countP (corner m A) < m * n / 2 → ∃ M c, hk m n A = some (M, c) ∧ M.length = m * n ∧
      (∀ q, q < m * n → A.getD q 0 = 0 → M.getD q 0 = 0) ∧
      (∀ q, q < m * n → A.getD q 0 ≠ 0 → 1 ≤ M.getD q 0 ∧ M.getD q 0 ≤ c) ∧
      (∀ l, 1 ≤ l → l ≤ c → ∃ q, q < m * n ∧ M.getD q 0 = l) ∧
      (∀ p q, p < m * n → q < m * n → A.getD p 0 ≠ 0 → A.getD q 0 ≠ 0 →
        (M.getD p 0 = M.getD q 0 ↔ ConnF m (m * n) A p q))) := by
  have hcells : cells m n = (List.range' 0 (m * n)).map (dec m) := by
    rw [cells_eq, List.range_eq_range']
  by_cases hpos : 0 < m * n / 2
  · have hinit := FInv.init (m := m) hA hpos
    obtain ⟨f1, f2⟩ := firstPass_spec (m * n) 0 A (List.replicate (m * n / 2) 0) _ 0 (by omega) hinit
    constructor
    · intro hn
      unfold hk
      simp only
      rw [hcells, f2 hn]
    · intro hlt
      obtain ⟨F, L0, E, e1, hF⟩ := f1 hlt
      have hN0 : NInv (m * n) (m * n / 2) ((List.range (m * n)).countP (corner m A)) F L0 E 0 F L0
          (List.replicate L0.length 0) 0 := by
        refine ⟨hF.mlen, fun _ _ => rfl, by intro q; omega, hF.lab, fun _ _ h => h, by simp [hF.lab.len], ?_,
          by intro q; omega, ?_, ?_, by intro l; omega⟩
        · simp [hF.lab.len, hpos]
        · intro a b v _ _ h3 _ h5
          rw [List.getElem?_replicate] at h3
          split at h3
          · cases h3; exact absurd rfl h5
          · cases h3
        · intro a v _ h3
          rw [List.getElem?_replicate] at h3
          split at h3
          · cases h3; exact Nat.le_refl _
          · cases h3
      have hnz : ∀ q, q < m * n → (F.getD q 0 ≠ 0 ↔ A.getD q 0 ≠ 0) := by
        intro q hq
        constructor
        · intro h1 h2; exact h1 (hF.bg q hq h2)
        · intro h1; have := hF.fg q hq h1; omega
      obtain ⟨M, L', N, c, e2, h2⟩ := secondPass_spec (m := m) hF.lab
        (fun q hq hne => hF.fg q hq ((hnz q hq).1 hne)) (m * n) 0 F L0 _ 0 (by omega) hN0
      have hmain : ∀ p q, p < m * n → q < m * n → A.getD p 0 ≠ 0 → A.getD q 0 ≠ 0 →
          (M.getD p 0 = M.getD q 0 ↔ ConnF m (m * n) A p q) := by
        intro p q hp hq ap aq
        obtain ⟨rp, p1, p2, p3⟩ := h2.val p hp ((hnz p hp).2 ap)
        obtain ⟨rq, q1, q2, q3⟩ := h2.val q hq ((hnz q hq).2 aq)
        have hiff : M.getD p 0 = M.getD q 0 ↔ rp = rq := by
          constructor
          · intro e
            rw [e] at p2
            exact h2.inj rp rq _ (hF.lab.root_range p1).1 (hF.lab.root_range q1).1 p2 q2 q3
          · rintro rfl
            rw [p2] at q2; exact Option.some.inj q2
        rw [hiff, hF.lab.rep.same_root_iff p1 q1]
        constructor
        · exact hF.conn' hp hq ap aq
        · intro hc
          have key : ∀ x y, ConnF m (m * n) A x y → x = y ∨ EqvGen E (F.getD x 0) (F.getD y 0) := by
            intro x y hxy
            induction hxy with
            | rel a b hab => exact Or.inr (hF.adj a b hab.1 hab.2.1 hab.2.2.2.1 hab.2.2.2.2)
            | refl => exact Or.inl rfl
            | symm a b _ ih =>
              rcases ih with rfl | h
              · exact Or.inl rfl
              · exact Or.inr (.symm _ _ h)
            | trans a b c _ _ i1 i2 =>
              rcases i1 with rfl | h1
              · exact i2
              · rcases i2 with rfl | h2
                · exact Or.inr h1
                · exact Or.inr (.trans _ _ _ h1 h2)
          rcases key p q hc with rfl | h
          · exact .refl _
          · exact h
      refine ⟨M, c, ?_, h2.mlen, ?_, ?_, h2.used, hmain⟩
      · unfold hk
        simp only
        rw [hcells, e1]
        simp only
        rw [e2]
        simp only [h2.zero]
      · intro q hq h1
        exact h2.bg q hq (hF.bg q hq h1)
      · intro q hq h1
        obtain ⟨r, r1, r2, r3⟩ := h2.val q hq ((hnz q hq).2 h1)
        have := h2.le r _ (hF.lab.root_range r1).1 r2
        omega
  · have hz : m * n / 2 = 0 := by omega
    constructor
    · intro _
      unfold hk
      simp only [hz, List.replicate_zero]
      split
      · rfl
      · rename_i M L heq
        have hL : L = [] := by
          have : ∀ (cs : List (Nat × Nat)) (M M' L' : List Nat), firstPass m cs M [] = some (M', L') → L' = [] := by
            intro cs
            induction cs with
            | nil => intro M M' L' h; simp only [firstPass] at h; cases h; rfl
            | cons c cs ih =>
              intro M M' L' h
              obtain ⟨i, j⟩ := c
              simp only [firstPass] at h
              split at h
              · cases h
              · rename_i M1 L1 e1
                have : L1 = [] := by
                  unfold firstCell at e1
                  split at e1
                  · simp only at e1
                    split at e1
                    · simp [makeSet] at e1
                    · cases e1; rfl
                    · simp [HK.unite, HK.find, chase] at e1
                  · cases e1; rfl
                subst this
                exact ih _ _ _ h
          exact this _ _ _ _ heq
        subst hL
        split
        · rfl
        · rename_i M2 L2 N2 heq2
          have hN : N2 = [] := by
            have : ∀ (cs : List (Nat × Nat)) (M L M' L' N' : List Nat), secondPass m cs M L [] = some (M', L', N') → N' = [] := by
              intro cs
              induction cs with
              | nil => intro M L M' L' N' h; simp only [secondPass] at h; cases h; rfl
              | cons c cs ih =>
                intro M L M' L' N' h
                obtain ⟨i, j⟩ := c
                simp only [secondPass] at h
                split at h
                · cases h
                · rename_i M1 L1 N1 e1
                  have : N1 = [] := by
                    unfold secondCell at e1
                    split at e1
                    · split at e1
                      · cases e1
                      · simp at e1
                    · cases e1; rfl
                  subst this
                  exact ih _ _ _ _ _ h
            exact this _ _ _ _ _ _ heq2
          subst hN
          simp
    · intro h; omega

end Verif.HK
