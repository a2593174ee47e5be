import Verif.Graph.Spec
import Mathlib.Data.List.Perm.Subperm
import Mathlib.Data.List.Nodup
/-! Proofs for `bfs`. -/
namespace Verif.Gr
open Relation
variable {α : Type} [DecidableEq α]

theorem bfsPush_fold (crit : α → Bool) : ∀ (ns V Q tr : List α), (tr ++ Q).Nodup →
    (∀ x, x ∈ V ↔ x ∈ tr ++ Q) →
    let vq := ns.foldl (bfsPush crit) (V, Q)
    (tr ++ vq.2).Nodup ∧ (∀ x, x ∈ vq.1 ↔ x ∈ tr ++ vq.2) ∧
    (∀ x, x ∈ vq.1 ↔ x ∈ V ∨ (x ∈ ns ∧ crit x = true)) := by
  intro ns
  induction ns with
  | nil => intro V Q tr h1 h2; exact ⟨h1, h2, fun x => by simp⟩
  | cons n ns ih =>
    intro V Q tr h1 h2
    simp only [List.foldl_cons]
    by_cases hn : n ∈ V
    · have : bfsPush crit (V, Q) n = (V, Q) := by simp [bfsPush, hn]
      rw [this]
      obtain ⟨a, b, c⟩ := ih V Q tr h1 h2
      refine ⟨a, b, fun x => ?_⟩
      rw [c]
      simp only [List.mem_cons]
      constructor
      · rintro (h | h)
        · exact Or.inl h
        · exact Or.inr ⟨Or.inr h.1, h.2⟩
      · rintro (h | ⟨rfl | h, h'⟩)
        · exact Or.inl h
        · exact Or.inl hn
        · exact Or.inr ⟨h, h'⟩
    · by_cases hc : crit n = true
      · have : bfsPush crit (V, Q) n = (n :: V, Q ++ [n]) := by simp [bfsPush, hn, hc]
        rw [this]
        have hn' : n ∉ tr ++ Q := fun h => hn ((h2 n).2 h)
        obtain ⟨a, b, c⟩ := ih (n :: V) (Q ++ [n]) tr (by
          rw [← List.append_assoc]
          refine List.Nodup.append h1 (by simp) ?_
          intro x hx hx'
          simp at hx'; subst hx'; exact hn' hx) (by
          intro x
          simp only [List.mem_cons, h2, List.mem_append, List.mem_singleton, List.not_mem_nil, or_false]
          tauto)
        refine ⟨a, b, fun x => ?_⟩
        rw [c]
        simp only [List.mem_cons]
        constructor
        · rintro ((rfl | h) | h)
          · exact Or.inr ⟨Or.inl rfl, hc⟩
          · exact Or.inl h
          · exact Or.inr ⟨Or.inr h.1, h.2⟩
        · rintro (h | ⟨rfl | h, h'⟩)
          · exact Or.inl (Or.inr h)
          · exact Or.inl (Or.inl rfl)
          · exact Or.inr ⟨h, h'⟩
      · have : bfsPush crit (V, Q) n = (V, Q) := by simp [bfsPush, hn, hc]
        rw [this]
        obtain ⟨a, b, c⟩ := ih V Q tr h1 h2
        refine ⟨a, b, fun x => ?_⟩
        rw [c]
        simp only [List.mem_cons]
        constructor
        · rintro (h | h)
          · exact Or.inl h
          · exact Or.inr ⟨Or.inr h.1, h.2⟩
        · rintro (h | ⟨rfl | h, h'⟩)
          · exact Or.inl h
          · exact absurd h' hc
          · exact Or.inr ⟨h, h'⟩

/-- invariant of the loop -/
structure BInv (nb : α → List α) (crit : α → Bool) (seed : α) (V Q tr : List α) : Prop where
  nodup : (tr ++ Q).Nodup
  vis : ∀ x, x ∈ V ↔ x ∈ tr ++ Q
  closed : ∀ x ∈ tr, ∀ n ∈ nb x, crit n = true → n ∈ V
  sound : ∀ x ∈ V, Reach nb crit seed x
  seed : seed ∈ V

theorem BInv.step {nb : α → List α} {crit : α → Bool} {seed c : α} {V Q tr : List α}
    (h : BInv nb crit seed V (c :: Q) tr) :
    BInv nb crit seed ((nb c).foldl (bfsPush crit) (V, Q)).1 ((nb c).foldl (bfsPush crit) (V, Q)).2
      (tr ++ [c]) := by
  obtain ⟨a, b, d⟩ := bfsPush_fold crit (nb c) V Q (tr ++ [c]) (by simpa using h.nodup)
    (by intro x; rw [h.vis]; simp)
  refine ⟨a, b, ?_, ?_, ?_⟩
  · intro x hx n hn hcn
    rw [d]
    simp only [List.mem_append, List.mem_singleton] at hx
    rcases hx with hx | rfl
    · exact Or.inl (h.closed x hx n hn hcn)
    · exact Or.inr ⟨hn, hcn⟩
  · intro x hx
    rw [d] at hx
    rcases hx with hx | ⟨h1, h2⟩
    · exact h.sound x hx
    · exact (h.sound c ((h.vis c).2 (by simp))).tail ⟨h1, h2⟩
  · rw [d]; exact Or.inl h.seed

theorem BInv.final {nb : α → List α} {crit : α → Bool} {seed : α} {V tr : List α} (h : BInv nb crit seed V [] tr) :
    tr.Nodup ∧ ∀ x, x ∈ tr ↔ Reach nb crit seed x := by
  have hv : ∀ x, x ∈ V ↔ x ∈ tr := by simpa using h.vis
  refine ⟨by simpa using h.nodup, fun x => ⟨fun hx => h.sound x ((hv x).2 hx), fun hx => ?_⟩⟩
  induction hx with
  | refl => exact (hv _).1 h.seed
  | tail _ hab ih => exact (hv _).1 (h.closed _ ih _ hab.1 hab.2)

theorem BInv.loop {nb : α → List α} {crit : α → Bool} {seed : α} : ∀ (fuel : Nat) (V Q tr out : List α),
    BInv nb crit seed V Q tr → bfsLoop nb crit fuel V Q tr = some out →
    out.Nodup ∧ ∀ x, x ∈ out ↔ Reach nb crit seed x := by
  intro fuel
  induction fuel with
  | zero =>
    intro V Q tr out h e
    cases Q with
    | nil =>
      simp [bfsLoop] at e; subst e
      exact h.final
    | cons => simp [bfsLoop] at e
  | succ fuel ih =>
    intro V Q tr out h e
    cases Q with
    | nil =>
      simp [bfsLoop] at e; subst e
      exact h.final
    | cons c Q =>
      simp only [bfsLoop] at e
      exact ih _ _ _ _ h.step e
theorem BInv.terminates {nb : α → List α} {crit : α → Bool} {seed : α} {U : List α}
    (hU : ∀ x, Reach nb crit seed x → x ∈ U) : ∀ (fuel : Nat) (V Q tr : List α),
    BInv nb crit seed V Q tr → U.length ≤ fuel + tr.length → ∃ out, bfsLoop nb crit fuel V Q tr = some out := by
  intro fuel
  induction fuel with
  | zero =>
    intro V Q tr h hl
    cases Q with
    | nil => exact ⟨tr, by simp [bfsLoop]⟩
    | cons c Q =>
      exfalso
      have hsub : (tr ++ c :: Q) ⊆ U := fun x hx => hU x (h.sound x ((h.vis x).2 hx))
      have := (h.nodup.subperm hsub).length_le
      simp at this
      omega
  | succ fuel ih =>
    intro V Q tr h hl
    cases Q with
    | nil => exact ⟨tr, by simp [bfsLoop]⟩
    | cons c Q =>
      simp only [bfsLoop]
      exact ih _ _ _ h.step (by simp; omega)

theorem BInv.init (nb : α → List α) (crit : α → Bool) (seed : α) : BInv nb crit seed [seed] [seed] [] :=
  ⟨by simp, by simp, by simp, by intro x hx; simp at hx; subst hx; exact .refl, by simp⟩

end Verif.Gr
