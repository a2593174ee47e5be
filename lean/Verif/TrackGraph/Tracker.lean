import Verif.TrackGraph.Lemmas
/-! Proofs about `connected_component_tracker`. -/
namespace Verif.TG
open Relation Verif.Gr

/-- the edges of one overlap step -/
def OverlapOps (cur : Nat) (l0 l1 : List Nat) (new : List (Op Nat Nat)) : Prop :=
  ∀ o, o ∈ new ↔ ∃ i p q : Nat, o = Op.edge (cur - 1) p cur q ∧ l0[i]? = some p ∧ l1[i]? = some q ∧ p ≠ 0 ∧ q ≠ 0

theorem build_snoc (ops : List (Op Nat Nat)) (a b c d : Nat) :
    (Graph.build ops).addEdge a b c d = Graph.build (ops ++ [Op.edge a b c d]) := by
  unfold Graph.build
  rw [List.foldl_append]
  rfl

theorem exists_idx_cons (a b : Nat) (l0 l1 : List Nat) (P : Nat → Nat → Prop) :
    (∃ i p q : Nat, (a :: l0)[i]? = some p ∧ (b :: l1)[i]? = some q ∧ P p q) ↔
      P a b ∨ ∃ i p q : Nat, l0[i]? = some p ∧ l1[i]? = some q ∧ P p q := by
  constructor
  · rintro ⟨i, p, q, h1, h2, h3⟩
    cases i with
    | zero =>
      have e1 : a = p := by simpa using h1
      have e2 : b = q := by simpa using h2
      subst e1; subst e2; exact Or.inl h3
    | succ i => exact Or.inr ⟨i, p, q, by simpa using h1, by simpa using h2, h3⟩
  · rintro (h | ⟨i, p, q, h1, h2, h3⟩)
    · exact ⟨0, a, b, by simp, by simp, h⟩
    · exact ⟨i + 1, p, q, by simpa using h1, by simpa using h2, h3⟩

theorem addOverlaps_spec (cur : Nat) (hc : cur ≠ 0) : ∀ (l0 l1 : List Nat) (ops : List (Op Nat Nat)),
    l0.length ≤ l1.length → ∃ new, addOverlaps cur l0 l1 (Graph.build ops) = some (Graph.build (ops ++ new)) ∧
      OverlapOps cur l0 l1 new := by
  intro l0
  induction l0 with
  | nil =>
    intro l1 ops _
    refine ⟨[], by simp [addOverlaps], ?_⟩
    intro o; simp
  | cons a l0 ih =>
    intro l1 ops h
    cases l1 with
    | nil => simp at h
    | cons b l1 =>
      have h' : l0.length ≤ l1.length := by simpa using h
      have hsplit : ∀ o : Op Nat Nat, (∃ i p q : Nat, o = Op.edge (cur - 1) p cur q ∧ (a :: l0)[i]? = some p ∧
          (b :: l1)[i]? = some q ∧ p ≠ 0 ∧ q ≠ 0) ↔ (o = Op.edge (cur - 1) a cur b ∧ a ≠ 0 ∧ b ≠ 0) ∨
          ∃ i p q : Nat, o = Op.edge (cur - 1) p cur q ∧ l0[i]? = some p ∧ l1[i]? = some q ∧ p ≠ 0 ∧ q ≠ 0 := by
        intro o
        have := exists_idx_cons a b l0 l1 (fun p q => o = Op.edge (cur - 1) p cur q ∧ p ≠ 0 ∧ q ≠ 0)
        constructor
        · rintro ⟨i, p, q, h1, h2, h3, h4⟩
          rcases this.1 ⟨i, p, q, h2, h3, h1, h4⟩ with h | ⟨i, p, q, h1, h2, h3, h4⟩
          · exact Or.inl h
          · exact Or.inr ⟨i, p, q, h3, h1, h2, h4⟩
        · rintro (h | ⟨i, p, q, h1, h2, h3, h4⟩)
          · obtain ⟨i, p, q, h1, h2, h3, h4⟩ := this.2 (Or.inl h)
            exact ⟨i, p, q, h3, h1, h2, h4⟩
          · obtain ⟨i, p, q, h1, h2, h3, h4⟩ := this.2 (Or.inr ⟨i, p, q, h2, h3, h1, h4⟩)
            exact ⟨i, p, q, h3, h1, h2, h4⟩
      by_cases ha : a = 0
      · obtain ⟨new, e, hn⟩ := ih l1 ops h'
        refine ⟨new, by simp only [addOverlaps, ha, ne_eq, not_true_eq_false, if_false, List.tail_cons]; exact e, ?_⟩
        intro o; rw [hsplit, hn]; simp [ha]
      · by_cases hb : b = 0
        · obtain ⟨new, e, hn⟩ := ih l1 ops h'
          refine ⟨new, by simp only [addOverlaps, ha, hb, ne_eq, not_true_eq_false, not_false_eq_true, if_true, if_false]; exact e, ?_⟩
          intro o; rw [hsplit, hn]; simp [hb]
        · obtain ⟨new, e, hn⟩ := ih l1 (ops ++ [Op.edge (cur - 1) a cur b]) h'
          refine ⟨Op.edge (cur - 1) a cur b :: new, ?_, ?_⟩
          · simp only [addOverlaps, ne_eq, ha, hb, hc, not_false_eq_true, if_true, if_false]
            rw [build_snoc, e]; simp
          · intro o; rw [hsplit, List.mem_cons, hn]; simp [ha, hb]

/-- all overlap edges of a frame sequence -/
def FrameOps (frames : List (List Nat)) (ops : List (Op Nat Nat)) : Prop :=
  ∀ o, o ∈ ops ↔ ∃ (t i p q : Nat) (f0 f1 : List Nat), o = Op.edge t p (t + 1) q ∧ frames[t]? = some f0 ∧
    frames[t + 1]? = some f1 ∧ f0[i]? = some p ∧ f1[i]? = some q ∧ p ≠ 0 ∧ q ≠ 0

theorem drive_spec (n : Nat) : ∀ (fs done : List (List Nat)) (ops : List (Op Nat Nat)),
    (∀ f ∈ done ++ fs, f.length = n) → FrameOps done ops →
    ∃ ops', CCTracker.drive fs { tg := Graph.build ops, snaps := done.getLast?.toList, cur := done.length } =
      some { tg := Graph.build ops', snaps := (done ++ fs).getLast?.toList, cur := (done ++ fs).length } ∧
      FrameOps (done ++ fs) ops' := by
  intro fs
  induction fs with
  | nil => intro done ops _ h; exact ⟨ops, by simp [CCTracker.drive], by simpa using h⟩
  | cons f fs ih =>
    intro done ops hn h
    have key : ∃ ops1, (({ tg := Graph.build ops, snaps := done.getLast?.toList, cur := done.length } : CCTracker).push f).advance =
        some ({ tg := Graph.build ops1, snaps := [f], cur := (done ++ [f]).length }, true) ∧ FrameOps (done ++ [f]) ops1 := by
      rcases List.eq_nil_or_concat done with rfl | ⟨done', l, rfl⟩
      · refine ⟨ops, by simp [CCTracker.push, CCTracker.advance, CCTracker.updateTimestep], ?_⟩
        intro o
        rw [h o]
        constructor
        · rintro ⟨t, i, p, q, f0, f1, h1, h2, h3, h4⟩; simp at h2
        · rintro ⟨t, i, p, q, f0, f1, h1, h2, h3, h4⟩; simp at h3
      · have hl : l.length ≤ f.length := by
          rw [hn l (by simp), hn f (by simp)]
        obtain ⟨new, e, hnew⟩ := addOverlaps_spec (done'.concat l).length (by simp) l f ops hl
        refine ⟨ops ++ new, ?_, ?_⟩
        · simp only [CCTracker.push, CCTracker.advance, CCTracker.updateTimestep]
          simp only [List.concat_eq_append, List.getLast?_append, List.getLast?_singleton, Option.some_or,
            Option.toList_some, List.singleton_append] at e ⊢
          rw [e]
          simp
        · intro o
          rw [List.mem_append, h o, hnew o]
          simp only [List.concat_eq_append, List.length_append, List.length_singleton, Nat.add_sub_cancel]
          have hlen : (done' ++ [l] ++ [f]).length = done'.length + 2 := by simp
          constructor
          · rintro (⟨t, i, p, q, f0, f1, h1, h2, h3, h4⟩ | ⟨i, p, q, h1, h2, h3, h4⟩)
            · refine ⟨t, i, p, q, f0, f1, h1, ?_, ?_, h4⟩
              · exact List.getElem?_append_left (List.getElem?_eq_some_iff.1 h2).1 ▸ h2
              · exact List.getElem?_append_left (List.getElem?_eq_some_iff.1 h3).1 ▸ h3
            · refine ⟨done'.length, i, p, q, l, f, h1, by simp, ?_, h2, h3, h4⟩
              rw [List.getElem?_append_right (by simp)]
              simp
          · rintro ⟨t, i, p, q, f0, f1, h1, h2, h3, h4⟩
            have ht : t + 1 < done'.length + 2 := by
              rw [← hlen]; exact (List.getElem?_eq_some_iff.1 h3).1
            rcases Nat.lt_or_ge t done'.length with htl | htl
            · left
              refine ⟨t, i, p, q, f0, f1, h1, ?_, ?_, h4⟩
              · rwa [List.getElem?_append_left (by simp; omega)] at h2
              · rwa [List.getElem?_append_left (by simp; omega)] at h3
            · right
              have : t = done'.length := by omega
              subst this
              have e0 : l = f0 := by
                rw [List.append_assoc, List.getElem?_append_right (by omega)] at h2
                simpa using h2
              have e1 : f = f1 := by
                rw [List.getElem?_append_right (by simp)] at h3
                simpa using h3
              subst e0; subst e1
              exact ⟨i, p, q, h1, h4⟩
    obtain ⟨ops1, e1, h1⟩ := key
    obtain ⟨ops2, e2, h2⟩ := ih (done ++ [f]) ops1 (by simpa using hn) h1
    refine ⟨ops2, ?_, by simpa using h2⟩
    simp only [CCTracker.drive]
    rw [e1]
    simp only
    have hl : (done ++ [f]).getLast?.toList = [f] := by simp
    rw [hl] at e2
    rw [e2]
    simp only [List.append_assoc, List.singleton_append]

end Verif.TG
