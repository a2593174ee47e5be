import Verif.Graph.Ccl
import Verif.UnionFind.Refine
/-! Proofs for `extract_connected_components`. -/
namespace Verif.Gr
open Relation
variable {α : Type} [LinearOrder α]

theorem foldl_setInsert_mem (l : List α) : ∀ (acc : List α) (x : α),
    x ∈ l.foldl (fun acc x => setInsert x acc) acc ↔ x ∈ acc ∨ x ∈ l := by
  induction l with
  | nil => intro acc x; simp
  | cons a l ih =>
    intro acc x
    simp only [List.foldl_cons, ih, mem_setInsert, List.mem_cons]
    tauto

theorem foldl_setInsert_sorted (l : List α) : ∀ (acc : List α), StrictSorted acc →
    StrictSorted (l.foldl (fun acc x => setInsert x acc) acc) := by
  induction l with
  | nil => intro acc h; exact h
  | cons a l ih => intro acc h; exact ih _ h.setInsert

theorem addAll_spec (q : List α) : ∀ (s : UF.UnionFind α) (E : α → α → Prop), UF.UInv s E →
    UF.UInv (q.foldl UF.UnionFind.add s) E ∧
      ∀ x, x ∈ (q.foldl UF.UnionFind.add s).eles ↔ x ∈ s.eles ∨ x ∈ q := by
  induction q with
  | nil => intro s E h; exact ⟨h, by simp⟩
  | cons a q ih =>
    intro s E h
    obtain ⟨h1, h2⟩ := h.add a
    obtain ⟨h3, h4⟩ := ih _ E h1
    refine ⟨h3, fun x => ?_⟩
    rw [List.foldl_cons, h4, h2, List.mem_cons]
    tauto

theorem uniteNbs_spec (cur : α) : ∀ (ns : List α) (s : UF.UnionFind α) (E : α → α → Prop), UF.UInv s E →
    cur ∈ s.eles → ∃ s', uniteNbs cur ns s = some s' ∧ s'.eles = s.eles ∧
      UF.UInv s' (fun x y => E x y ∨ (x = cur ∧ y ∈ ns ∧ y ∈ s.eles)) := by
  intro ns
  induction ns with
  | nil => intro s E h _; exact ⟨s, rfl, rfl, h.congr (by simp)⟩
  | cons n ns ih =>
    intro s E h hc
    unfold uniteNbs
    by_cases hn : n ∈ s.eles
    · simp only [UF.UnionFind.has, hn, decide_true, if_true]
      obtain ⟨s1, e1, h1, hel⟩ := h.unite hc hn
      rw [e1]
      simp only
      obtain ⟨s2, e2, hel2, h2⟩ := ih s1 _ h1 (by rw [hel]; exact hc)
      refine ⟨s2, e2, by rw [hel2, hel], h2.congr ?_⟩
      intro x y
      rw [hel]
      simp only [List.mem_cons]
      constructor
      · rintro ((h | ⟨rfl, rfl⟩) | ⟨rfl, h1, h2⟩)
        · exact Or.inl h
        · exact Or.inr ⟨rfl, Or.inl rfl, hn⟩
        · exact Or.inr ⟨rfl, Or.inr h1, h2⟩
      · rintro (h | ⟨rfl, rfl | h1, h2⟩)
        · exact Or.inl (Or.inl h)
        · exact Or.inl (Or.inr ⟨rfl, rfl⟩)
        · exact Or.inr ⟨rfl, h1, h2⟩
    · simp only [UF.UnionFind.has, hn, decide_false, Bool.false_eq_true, if_false]
      obtain ⟨s2, e2, hel2, h2⟩ := ih s E h hc
      refine ⟨s2, e2, hel2, h2.congr ?_⟩
      intro x y
      simp only [List.mem_cons]
      constructor
      · rintro (h | ⟨rfl, h1, h2⟩)
        · exact Or.inl h
        · exact Or.inr ⟨rfl, Or.inr h1, h2⟩
      · rintro (h | ⟨rfl, rfl | h1, h2⟩)
        · exact Or.inl h
        · exact absurd h2 hn
        · exact Or.inr ⟨rfl, h1, h2⟩

theorem uniteAll_spec (nb : α → List α) : ∀ (cs : List α) (s : UF.UnionFind α) (E : α → α → Prop), UF.UInv s E →
    (∀ c ∈ cs, c ∈ s.eles) → ∃ s', uniteAll nb cs s = some s' ∧ s'.eles = s.eles ∧
      UF.UInv s' (fun x y => E x y ∨ (x ∈ cs ∧ y ∈ nb x ∧ y ∈ s.eles)) := by
  intro cs
  induction cs with
  | nil => intro s E h _; exact ⟨s, rfl, rfl, h.congr (by simp)⟩
  | cons c cs ih =>
    intro s E h hc
    obtain ⟨s1, e1, hel1, h1⟩ := uniteNbs_spec c (nb c) s E h (hc c (by simp))
    obtain ⟨s2, e2, hel2, h2⟩ := ih s1 _ h1 (by intro x hx; rw [hel1]; exact hc x (by simp [hx]))
    refine ⟨s2, by simp [uniteAll, e1, e2], by rw [hel2, hel1], h2.congr ?_⟩
    intro x y
    rw [hel1]
    simp only [List.mem_cons]
    constructor
    · rintro ((h | ⟨rfl, h1, h2⟩) | ⟨h0, h1, h2⟩)
      · exact Or.inl h
      · exact Or.inr ⟨Or.inl rfl, h1, h2⟩
      · exact Or.inr ⟨Or.inr h0, h1, h2⟩
    · rintro (h | ⟨rfl | h0, h1, h2⟩)
      · exact Or.inl (Or.inl h)
      · exact Or.inl (Or.inr ⟨rfl, h1, h2⟩)
      · exact Or.inr ⟨h0, h1, h2⟩

theorem eqvGen_congr {E E' : α → α → Prop} (h : ∀ x y, E x y ↔ E' x y) (a b : α) :
    EqvGen E a b ↔ EqvGen E' a b := by
  have : E = E' := by funext x y; exact propext (h x y)
  rw [this]

theorem isPartition_congr {D D' : α → Prop} {R R' : α → α → Prop} {sets : List (List α)}
    (h : UF.IsPartition D R sets) (hD : ∀ x, D x ↔ D' x) (hR : ∀ x y, R x y ↔ R' x y) :
    UF.IsPartition D' R' sets := by
  have e1 : D = D' := by funext x; exact propext (hD x)
  have e2 : R = R' := by funext x y; exact propext (hR x y)
  rw [← e1, ← e2]; exact h

theorem extractCC_spec (nb : α → List α) (q : List α) :
    ∃ sets, extractCC nb q = some sets ∧ UF.IsPartition (· ∈ q) (Linked nb q) sets := by
  obtain ⟨h1, hm⟩ := addAll_spec q UF.UnionFind.init _ UF.UInv.init
  have hm' : ∀ x, x ∈ (q.foldl UF.UnionFind.add UF.UnionFind.init).eles ↔ x ∈ q := by
    intro x; rw [hm]; simp [UF.UnionFind.init]
  obtain ⟨s, e, hel, h2⟩ := uniteAll_spec nb q _ _ h1 (by intro c hc; rw [hm']; exact hc)
  obtain ⟨s', sets, e', -, -, -, hp⟩ := h2.getSets
  refine ⟨sets, by unfold extractCC; rw [e]; simp [e'], ?_⟩
  · refine isPartition_congr hp (fun x => by rw [hel, hm']) (fun x y => eqvGen_congr (fun a b => ?_) x y)
    rw [hm']
    tauto

end Verif.Gr
