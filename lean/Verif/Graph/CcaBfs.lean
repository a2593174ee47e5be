import Verif.Graph.Cca
/-! Proofs for `extract_connected_components_bfs`. -/
namespace Verif.Gr
open Relation
variable {α : Type} [LinearOrder α]

theorem ccbPush_fold (R V : List α) : ∀ (ns Q : List α), StrictSorted Q →
    StrictSorted (ns.foldl (ccbPush R V) Q) ∧
    ∀ x, x ∈ ns.foldl (ccbPush R V) Q ↔ x ∈ Q ∨ (x ∈ ns ∧ x ∈ R ∧ x ∉ V) := by
  intro ns
  induction ns with
  | nil => intro Q h; exact ⟨h, by simp⟩
  | cons n ns ih =>
    intro Q h
    simp only [List.foldl_cons]
    by_cases hn : n ∈ R ∧ n ∉ V ∧ n ∉ Q
    · have e : ccbPush R V Q n = setInsert n Q := by simp [ccbPush, hn]
      rw [e]
      obtain ⟨a, b⟩ := ih _ h.setInsert
      refine ⟨a, fun x => ?_⟩
      rw [b, mem_setInsert, List.mem_cons]
      constructor
      · rintro ((rfl | h) | ⟨h1, h2⟩)
        · exact Or.inr ⟨Or.inl rfl, hn.1, hn.2.1⟩
        · exact Or.inl h
        · exact Or.inr ⟨Or.inr h1, h2⟩
      · rintro (h | ⟨rfl | h1, h2⟩)
        · exact Or.inl (Or.inr h)
        · exact Or.inl (Or.inl rfl)
        · exact Or.inr ⟨h1, h2⟩
    · have e : ccbPush R V Q n = Q := by simp only [ccbPush]; rw [if_neg hn]
      rw [e]
      obtain ⟨a, b⟩ := ih _ h
      refine ⟨a, fun x => ?_⟩
      rw [b, List.mem_cons]
      constructor
      · rintro (h | ⟨h1, h2⟩)
        · exact Or.inl h
        · exact Or.inr ⟨Or.inr h1, h2⟩
      · rintro (h | ⟨rfl | h1, h2⟩)
        · exact Or.inl h
        · by_contra hc
          push Not at hc
          exact hn ⟨h2.1, h2.2, hc.1⟩
        · exact Or.inr ⟨h1, h2⟩

/-- (proof device) invariant of the BFS loop: the visited set `V` is closed up to the queue `Q`. -/
structure CInv (nb : α → List α) (R : List α) (seed : α) (Q V : List α) : Prop where
  sq : StrictSorted Q
  sv : StrictSorted V
  disj : ∀ x ∈ Q, x ∉ V
  sub : ∀ x, x ∈ Q ∨ x ∈ V → x ∈ R
  closed : ∀ x ∈ V, ∀ n ∈ nb x, n ∈ R → n ∈ Q ∨ n ∈ V
  sound : ∀ x, x ∈ Q ∨ x ∈ V → Reach nb (fun y => decide (y ∈ R)) seed x
  seed : seed ∈ Q ∨ seed ∈ V

theorem CInv.step {nb : α → List α} {R : List α} {seed c : α} {Q V : List α} (h : CInv nb R seed (c :: Q) V) :
    CInv nb R seed ((nb c).foldl (ccbPush R (setInsert c V)) Q) (setInsert c V) := by
  have hsq := h.sq
  unfold StrictSorted at hsq
  rw [List.pairwise_cons] at hsq
  obtain ⟨a, b⟩ := ccbPush_fold R (setInsert c V) (nb c) Q hsq.2
  refine ⟨a, h.sv.setInsert, ?_, ?_, ?_, ?_, ?_⟩
  · intro x hx hxv
    rw [b] at hx
    rcases hx with hx | hx
    · rcases (mem_setInsert _ _ _).1 hxv with rfl | hxv
      · exact absurd (hsq.1 x hx) (lt_irrefl _)
      · exact h.disj x (by simp [hx]) hxv
    · exact hx.2.2 hxv
  · intro x hx
    rw [b, mem_setInsert] at hx
    rcases hx with (hx | hx) | (rfl | hx)
    · exact h.sub x (Or.inl (by simp [hx]))
    · exact hx.2.1
    · exact h.sub x (Or.inl (by simp))
    · exact h.sub x (Or.inr hx)
  · intro x hx n hn hnR
    rw [b]
    by_cases hnv : n ∈ setInsert c V
    · exact Or.inr hnv
    · rcases (mem_setInsert _ _ _).1 hx with rfl | hx
      · exact Or.inl (Or.inr ⟨hn, hnR, hnv⟩)
      · rcases h.closed x hx n hn hnR with h' | h'
        · rcases List.mem_cons.1 h' with rfl | h'
          · exact absurd ((mem_setInsert _ _ _).2 (Or.inl rfl)) hnv
          · exact Or.inl (Or.inl h')
        · exact absurd ((mem_setInsert _ _ _).2 (Or.inr h')) hnv
  · intro x hx
    rw [b, mem_setInsert] at hx
    have hc := h.sound c (Or.inl (by simp))
    rcases hx with (hx | hx) | (rfl | hx)
    · exact h.sound x (Or.inl (by simp [hx]))
    · exact hc.tail ⟨hx.1, by simp [hx.2.1]⟩
    · exact hc
    · exact h.sound x (Or.inr hx)
  · rw [b, mem_setInsert]
    rcases h.seed with h' | h'
    · rcases List.mem_cons.1 h' with h' | h'
      · exact Or.inr (Or.inl h')
      · exact Or.inl (Or.inl h')
    · exact Or.inr (Or.inr h')

theorem setInsert_length {x : α} : ∀ {l : List α}, StrictSorted l → x ∉ l → (setInsert x l).length = l.length + 1 := by
  intro l
  induction l with
  | nil => intro _ _; simp [setInsert]
  | cons y ys ih =>
    intro h hx
    unfold StrictSorted at h
    rw [List.pairwise_cons] at h
    simp only [List.mem_cons, not_or] at hx
    unfold setInsert
    split
    · simp
    · rw [if_neg hx.1]
      simp [ih h.2 hx.2]

theorem CInv.loop {nb : α → List α} {R : List α} {seed : α} : ∀ (fuel : Nat) (Q V : List α),
    CInv nb R seed Q V → R.length ≤ fuel + V.length → ∃ out, ccbInner nb R fuel Q V = some out ∧
      StrictSorted out ∧ ∀ x, x ∈ out ↔ Reach nb (fun y => decide (y ∈ R)) seed x := by
  have hfin : ∀ V, CInv nb R seed [] V → StrictSorted V ∧
      ∀ x, x ∈ V ↔ Reach nb (fun y => decide (y ∈ R)) seed x := by
    intro V h
    refine ⟨h.sv, fun x => ⟨fun hx => h.sound x (Or.inr hx), fun hx => ?_⟩⟩
    unfold Reach at hx
    induction hx with
    | refl => simpa using h.seed
    | tail _ hab ih => simpa using h.closed _ ih _ hab.1 (by simpa using hab.2)
  intro fuel
  induction fuel with
  | zero =>
    intro Q V h hl
    cases Q with
    | nil => exact ⟨V, by simp [ccbInner], hfin V h⟩
    | cons c Q =>
      exfalso
      have hnd : (c :: V).Nodup := by
        rw [List.nodup_cons]
        exact ⟨h.disj c (by simp), h.sv.nodup⟩
      have hsub : (c :: V) ⊆ R := by
        intro x hx
        rcases List.mem_cons.1 hx with rfl | hx
        · exact h.sub x (Or.inl (by simp))
        · exact h.sub x (Or.inr hx)
      have := (List.subperm_of_subset hnd hsub).length_le
      simp at this
      omega
  | succ fuel ih =>
    intro Q V h hl
    cases Q with
    | nil => exact ⟨V, by simp [ccbInner], hfin V h⟩
    | cons c Q =>
      simp only [ccbInner]
      refine ih _ _ h.step ?_
      rw [setInsert_length h.sv (h.disj c (by simp))]
      omega

/-- invariant of the outer loop: remaining set `R`, components found -/
structure OInv (nb : α → List α) (q0 R : List α) (comps : List (List α)) : Prop where
  sub : ∀ x ∈ R, x ∈ q0
  nodup : R.Nodup
  closed : ∀ x y, Linked nb q0 x y → x ∈ R → y ∈ R
  part : UF.IsPartition (fun x => x ∈ q0 ∧ x ∉ R) (Linked nb q0) comps

theorem linked_iff_reach {nb : α → List α} (hs : Symm nb) {q0 R : List α} {comps : List (List α)}
    (h : OInv nb q0 R comps) {a b : α} (ha : a ∈ R) :
    Linked nb q0 a b ↔ Reach nb (fun y => decide (y ∈ R)) a b := by
  constructor
  · intro hl
    have : ∀ x y, Linked nb q0 x y → (x ∈ R ↔ y ∈ R) ∧ (x ∈ R → Reach nb (fun y => decide (y ∈ R)) x y) := by
      intro x y hxy
      refine ⟨⟨h.closed x y hxy, h.closed y x (EqvGen.symm _ _ hxy)⟩, ?_⟩
      induction hxy with
      | rel x y hxy =>
        intro hx
        exact .single ⟨hxy.2.2, by simpa using h.closed x y (.rel _ _ hxy) hx⟩
      | refl x => intro _; exact .refl
      | symm x y hxy ih =>
        intro hy
        have hx := h.closed y x (EqvGen.symm _ _ hxy) hy
        exact (ih hx).symm hs (by simpa using hx)
      | trans x y z hxy hyz ih1 ih2 =>
        intro hx
        exact (ih1 hx).trans (ih2 (h.closed x y hxy hx))
    exact (this a b hl).2 ha
  · intro hr
    unfold Reach at hr
    induction hr with
    | refl => exact .refl _
    | tail h1 h2 ih =>
      rename_i b c
      have hb : b ∈ R := by
        have := Reach.crit (crit := fun y => decide (y ∈ R)) h1 (by simpa using ha)
        simpa using this
      have hc : c ∈ R := by simpa using h2.2
      exact .trans _ _ _ ih (.rel _ _ ⟨h.sub b hb, h.sub c hc, h2.1⟩)

theorem ccbOuter_spec {nb : α → List α} (hs : Symm nb) {q0 : List α} : ∀ (fuel : Nat) (R : List α)
    (comps : List (List α)), R.length ≤ fuel → OInv nb q0 R comps →
    ∃ out, ccbOuter nb fuel R comps = some out ∧ UF.IsPartition (· ∈ q0) (Linked nb q0) out := by
  intro fuel
  induction fuel with
  | zero =>
    intro R comps hl h
    have : R = [] := List.length_eq_zero_iff.1 (by omega)
    subst this
    exact ⟨comps, by simp [ccbOuter], isPartition_congr h.part (by simp) (by simp)⟩
  | succ fuel ih =>
    intro R comps hl h
    cases R with
    | nil => exact ⟨comps, by simp [ccbOuter], isPartition_congr h.part (by simp) (by simp)⟩
    | cons q qs =>
      have hinit : CInv nb (q :: qs) q [q] [] :=
        ⟨by simp [StrictSorted], by simp [StrictSorted], by simp, by simp, by simp,
          by intro x hx; simp at hx; subst hx; exact .refl, by simp⟩
      obtain ⟨v, ev, hsv, hv⟩ := CInv.loop (q :: qs).length [q] [] hinit (by simp)
      simp only [ccbOuter, ev]
      have hvL : ∀ x, x ∈ v ↔ Linked nb q0 q x := fun x => by
        rw [hv, linked_iff_reach hs h (by simp)]
      have hvR : ∀ x ∈ v, x ∈ q :: qs := fun x hx => h.closed q x ((hvL x).1 hx) (by simp)
      refine ih _ _ ?_ ?_
      · have hlt : ((q :: qs).filter (fun x => decide (x ∉ v))).length < (q :: qs).length := by
          refine List.length_filter_lt_length_iff_exists.2 ⟨q, by simp, ?_⟩
          simpa using (hvL q).2 (.refl _)
        omega
      · have hmem : ∀ x, x ∈ (q :: qs).filter (fun x => decide (x ∉ v)) ↔ x ∈ q :: qs ∧ x ∉ v := by
          intro x; rw [List.mem_filter]; simp
        constructor
        · intro x hx; exact h.sub x ((hmem x).1 hx).1
        · exact h.nodup.filter _
        · intro x y hxy hx
          rw [hmem] at hx ⊢
          refine ⟨h.closed x y hxy hx.1, fun hy => hx.2 ?_⟩
          rw [hvL] at hy ⊢
          exact .trans _ _ _ hy (.symm _ _ hxy)
        · have hp := h.part
          constructor
          · intro s hs'
            rw [List.mem_append, List.mem_singleton] at hs'
            rcases hs' with hs' | rfl
            · exact hp.nonempty s hs'
            · exact List.ne_nil_of_mem ((hvL q).2 (.refl _))
          · intro s hs' x hx
            rw [hmem]
            rw [List.mem_append, List.mem_singleton] at hs'
            rcases hs' with hs' | rfl
            · obtain ⟨a, b⟩ := hp.only s hs' x hx
              exact ⟨a, fun c => b c.1⟩
            · exact ⟨h.sub x (hvR x hx), fun c => c.2 hx⟩
          · rintro x ⟨hx1, hx2⟩
            rw [hmem] at hx2
            by_cases hxv : x ∈ v
            · exact ⟨v, by simp, hxv⟩
            · obtain ⟨s, h1, h2⟩ := hp.cover x ⟨hx1, fun c => hx2 ⟨c, hxv⟩⟩
              exact ⟨s, by simp [h1], h2⟩
          · intro s hs' x hx y hy
            rw [List.mem_append, List.mem_singleton] at hs'
            rcases hs' with hs' | rfl
            · have hxo := hp.only s hs' x hx
              constructor
              · intro hys; exact (hp.classes s hs' x hx y (hp.only s hs' y hys)).1 hys
              · intro hxy
                refine (hp.classes s hs' x hx y ⟨hy.1, fun c => ?_⟩).2 hxy
                exact hxo.2 (h.closed y x (.symm _ _ hxy) c)
            · rw [hvL] at hx ⊢
              constructor
              · intro hy'; exact .trans _ _ _ (.symm _ _ hx) hy'
              · intro hxy; exact .trans _ _ _ hx hxy
          · rw [List.pairwise_append]
            refine ⟨hp.disjoint, by simp, ?_⟩
            intro s hs' t ht x hx hxt
            rw [List.mem_singleton] at ht
            subst ht
            exact (hp.only s hs' x hx).2 (hvR x hxt)
          · intro s hs'
            rw [List.mem_append, List.mem_singleton] at hs'
            rcases hs' with hs' | rfl
            · exact hp.nodup s hs'
            · exact hsv.nodup

theorem extractCCbfs_spec {nb : α → List α} (hs : Symm nb) (q : List α) (hq : q.Nodup) :
    ∃ sets, extractCCbfs nb q = some sets ∧ UF.IsPartition (· ∈ q) (Linked nb q) sets := by
  refine ccbOuter_spec hs q.length q [] (le_refl _) ⟨fun _ h => h, hq, ?_, ?_⟩
  · intro x y h
    have : ∀ x y, Linked nb q x y → (x ∈ q ↔ y ∈ q) := by
      intro x y h
      induction h with
      | rel x y h => exact ⟨fun _ => h.2.1, fun _ => h.1⟩
      | refl x => exact Iff.rfl
      | symm x y _ ih => exact ih.symm
      | trans x y z _ _ i1 i2 => exact i1.trans i2
    exact (this x y h).1
  · exact ⟨by simp, by simp, fun x hx => absurd hx.1 hx.2, by simp, by simp, by simp⟩

end Verif.Gr
