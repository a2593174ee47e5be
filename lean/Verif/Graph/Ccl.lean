import Verif.Graph.Bfs
/-! Proofs for `labelConnectedComponents`. -/
namespace Verif.Gr
open Relation

theorem bfs_spec {α : Type} [DecidableEq α] {nb : α → List α} {crit : α → Bool} {seed : α} {fuel : Nat}
    {tr : List α} (h : bfs fuel seed nb crit = some tr) :
    tr.Nodup ∧ ∀ x, x ∈ tr ↔ crit seed = true ∧ Reach nb crit seed x := by
  unfold bfs at h
  split at h
  · rename_i hc
    obtain ⟨a, b⟩ := BInv.loop fuel _ _ _ _ (BInv.init nb crit seed) h
    exact ⟨a, fun x => by rw [b]; simp [hc]⟩
  · rename_i hc
    cases h
    exact ⟨by simp, fun x => by simp [hc]⟩

theorem bfs_terminates {α : Type} [DecidableEq α] {nb : α → List α} {crit : α → Bool} {seed : α} {U : List α}
    (hU : ∀ x, Reach nb crit seed x → x ∈ U) {fuel : Nat} (hf : U.length ≤ fuel) :
    ∃ tr, bfs fuel seed nb crit = some tr := by
  unfold bfs
  split
  · exact BInv.terminates hU fuel _ _ _ (BInv.init nb crit seed) (by simpa using hf)
  · exact ⟨_, rfl⟩

theorem Reach.crit {α : Type} {nb : α → List α} {crit : α → Bool} {a b : α} (h : Reach nb crit a b)
    (ha : crit a = true) : crit b = true := by
  cases h with
  | refl => exact ha
  | tail _ h => exact h.2

theorem Reach.symm {α : Type} {nb : α → List α} (hs : Symm nb) {crit : α → Bool} {a b : α} (h : Reach nb crit a b)
    (ha : crit a = true) : Reach nb crit b a := by
  unfold Reach at h
  induction h with
  | refl => exact .refl
  | tail h1 h2 ih =>
    exact ReflTransGen.trans (.single ⟨hs _ _ h2.1, Reach.crit h1 ha⟩) ih

theorem setLabels_spec (c : Nat) : ∀ (xs labels : List Nat), (∀ x ∈ xs, x < labels.length) →
    ∃ labels', setLabels c xs labels = some labels' ∧ labels'.length = labels.length ∧
      ∀ i, labels'[i]? = if i ∈ xs then some c else labels[i]? := by
  intro xs
  induction xs with
  | nil => intro labels _; exact ⟨labels, rfl, rfl, by simp⟩
  | cons x xs ih =>
    intro labels h
    have hx := h x (by simp)
    obtain ⟨l', e, hl, hi⟩ := ih (labels.set x c) (by intro y hy; simpa using h y (by simp [hy]))
    refine ⟨l', by simp [setLabels, hx, e], by simpa using hl, fun i => ?_⟩
    rw [hi, List.getElem?_set]
    by_cases h1 : i ∈ xs
    · simp [h1]
    · by_cases h2 : x = i
      · subst h2; simp [hx]
      · simp [h1, h2, Ne.symm h2]

/-- invariant of the seed loop: `k` seeds processed, `cnt` components found -/
structure LInv (n : Nat) (nb : Nat → List Nat) (crit : Nat → Bool) (k : Nat) (labels : List Nat) (cnt : Nat) :
    Prop where
  len : labels.length = n
  rej : ∀ a : Nat, a < n → crit a = false → labels[a]? = some 0
  le : ∀ a l : Nat, labels[a]? = some l → l ≤ cnt
  done : ∀ a : Nat, a < k → crit a = true → labels[a]? ≠ some 0
  used : ∀ l : Nat, 1 ≤ l → l ≤ cnt → ∃ a, a < n ∧ labels[a]? = some l
  same : ∀ a b l : Nat, crit a = true → crit b = true → labels[a]? = some l → l ≠ 0 →
    (labels[b]? = some l ↔ Reach nb crit a b)

theorem labelLoop_spec {n : Nat} {nb : Nat → List Nat} {crit : Nat → Bool} (hs : Symm nb)
    (hr : ∀ a, a < n → ∀ b ∈ nb a, b < n) : ∀ (m k : Nat) (labels : List Nat) (cnt : Nat),
    m + k = n → LInv n nb crit k labels cnt → ∃ labels' cnt',
      labelLoop n nb crit (List.range' k m) labels cnt = some (labels', cnt') ∧ LInv n nb crit n labels' cnt' := by
  have hreach : ∀ {a b : Nat}, a < n → Reach nb crit a b → b < n := by
    intro a b ha h
    unfold Reach at h
    induction h with
    | refl => exact ha
    | tail _ h ih => exact hr _ ih _ h.1
  intro m
  induction m with
  | zero =>
    intro k labels cnt hk h
    have : k = n := by omega
    subst this
    exact ⟨labels, cnt, rfl, h⟩
  | succ m ih =>
    intro k labels cnt hk h
    simp only [List.range'_succ, labelLoop]
    have hkn : k < n := by omega
    have hkl : k < labels.length := by rw [h.len]; exact hkn
    rw [List.getElem?_eq_getElem hkl]
    simp only
    split
    · rename_i hc
      obtain ⟨hl0, hck⟩ := hc
      have hk0 : labels[k]? = some 0 := by rw [List.getElem?_eq_getElem hkl, hl0]
      obtain ⟨tr, htr⟩ := bfs_terminates (nb := nb) (crit := crit) (seed := k) (U := List.range n)
        (fun x hx => List.mem_range.2 (hreach hkn hx)) (fuel := n) (by simp)
      rw [htr]
      obtain ⟨-, hmem⟩ := bfs_spec htr
      simp only [hck, true_and] at hmem
      obtain ⟨l', e, hlen, hget⟩ := setLabels_spec (cnt + 1) tr labels (by
        intro x hx; rw [h.len]; exact hreach hkn ((hmem x).1 hx))
      simp only [e]
      refine ih (k + 1) l' (cnt + 1) (by omega) ?_
      have hnew : ∀ i, l'[i]? = some (cnt + 1) ↔ i ∈ tr := by
        intro i
        rw [hget]
        by_cases hi : i ∈ tr
        · simp [hi]
        · simp only [hi, if_false, iff_false]
          intro e
          have := h.le i _ e
          omega
      -- no node of the new component had a label
      have hfresh : ∀ b, Reach nb crit k b → labels[b]? = some 0 := by
        intro b hb
        have hbn := hreach hkn hb
        have hbl : b < labels.length := by rw [h.len]; exact hbn
        rw [List.getElem?_eq_getElem hbl]
        by_contra hne
        have hcb := hb.crit hck
        have := (h.same b k labels[b] hcb hck (List.getElem?_eq_getElem hbl) (by
          intro e; exact hne (by rw [e]))).2 (hb.symm hs hck)
        rw [hk0] at this
        exact hne this.symm
      constructor
      · rw [hlen, h.len]
      · intro a ha hca
        rw [hget, if_neg, h.rej a ha hca]
        intro hat
        have := Reach.crit ((hmem a).1 hat) hck
        rw [hca] at this; cases this
      · intro a l e
        rw [hget] at e
        split at e
        · cases e; omega
        · have := h.le a l e; omega
      · intro a ha hca
        rw [hget]
        split
        · simp
        · rename_i hat
          have : a ≠ k := by rintro rfl; exact hat ((hmem a).2 .refl)
          exact h.done a (by omega) hca
      · intro l h1 h2
        by_cases hl : l = cnt + 1
        · subst hl
          exact ⟨k, hkn, (hnew k).2 ((hmem k).2 .refl)⟩
        · obtain ⟨a, ha, hal⟩ := h.used l h1 (by omega)
          refine ⟨a, ha, ?_⟩
          rw [hget, if_neg, hal]
          intro hat
          have := hfresh a ((hmem a).1 hat)
          rw [hal] at this
          cases this; omega
      · intro a b l hca hcb hal hl0'
        by_cases hat : a ∈ tr
        · have := (hnew a).2 hat
          rw [hal] at this
          cases this
          rw [hnew, hmem]
          have hka := (hmem a).1 hat
          constructor
          · intro hkb; exact (hka.symm hs hck).trans hkb
          · intro hab; exact hka.trans hab
        · have hal' : labels[a]? = some l := by rw [hget, if_neg hat] at hal; exact hal
          by_cases hbt : b ∈ tr
          · constructor
            · intro e
              rw [(hnew b).2 hbt] at e
              cases e
              exact absurd ((hnew a).1 hal) hat
            · intro hab
              exact absurd ((hmem a).2 (((hmem b).1 hbt).trans (hab.symm hs hca))) hat
          · rw [hget, if_neg hbt]
            exact h.same a b l hca hcb hal' hl0'
    · rename_i hc
      refine ih (k + 1) labels cnt (by omega) ⟨h.len, h.rej, h.le, ?_, h.used, h.same⟩
      intro a ha hca
      by_cases hak : a = k
      · subst hak
        intro e
        rw [List.getElem?_eq_getElem hkl, Option.some_inj] at e
        exact hc ⟨e, hca⟩
      · exact h.done a (by omega) hca

end Verif.Gr
