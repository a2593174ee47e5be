import Verif.TrackGraph.Spec
import Verif.Graph.Props
/-! Proofs about the tracking graph. -/
namespace Verif.TG
open Relation Verif.Gr
variable {T L : Type}

@[simp] theorem time_node (t : T) (l : L) : time (node t l) = t := rfl
@[simp] theorem label_node (t : T) (l : L) : label (node t l) = l := rfl
@[simp] theorem node_time_label (n : Node T L) : node (time n) (label n) = n := rfl

theorem node_ext {n m : Node T L} (h1 : time n = time m) (h2 : label n = label m) : n = m := by
  rw [← node_time_label n, ← node_time_label m, h1, h2]

theorem eq_node_iff (n : Node T L) (t : T) (l : L) : n = node t l ↔ time n = t ∧ label n = l := by
  constructor
  · rintro rfl; exact ⟨rfl, rfl⟩
  · rintro ⟨rfl, rfl⟩; rfl

variable [LinearOrder T] [LinearOrder L]

/-- the state after a history -/
structure GInv (ops : List (Op T L)) (g : Graph T L) : Prop where
  times : ∀ t, t ∈ g.times ↔ ∃ n, Present ops n ∧ time n = t
  nodes : ∀ t n, n ∈ g.nodes t ↔ Present ops n ∧ time n = t
  left : ∀ a b, a ∈ g.left b ↔ Edge ops a b
  right : ∀ a b, b ∈ g.right a ↔ Edge ops a b
  sortedT : StrictSorted g.times
  sortedL : ∀ b, StrictSorted (g.left b)
  sortedR : ∀ b, StrictSorted (g.right b)

theorem mem_insAt {K V : Type} [DecidableEq K] [LinearOrder V] (m : K → List V) (k : K) (v : V) (x : K) (y : V) :
    y ∈ insAt m k v x ↔ (x = k ∧ y = v) ∨ y ∈ m x := by
  unfold insAt
  split
  · rename_i h; rw [mem_setInsert]; simp [h]
  · rename_i h; simp [h]

theorem sorted_insAt {K V : Type} [DecidableEq K] [LinearOrder V] {m : K → List V} {k : K} {v : V} {x : K}
    (h : StrictSorted (m x)) : StrictSorted (insAt m k v x) := by
  unfold insAt
  split
  · exact h.setInsert
  · exact h

theorem present_snoc (ops : List (Op T L)) (o : Op T L) (n : Node T L) :
    Present (ops ++ [o]) n ↔ Present ops n ∨ Present [o] n := by
  unfold Present
  simp only [List.mem_append, List.mem_singleton]
  constructor
  · rintro ((h | h) | ⟨m, h | h⟩ | ⟨m, h | h⟩)
    · exact Or.inl (Or.inl h)
    · exact Or.inr (Or.inl h)
    · exact Or.inl (Or.inr (Or.inl ⟨m, h⟩))
    · exact Or.inr (Or.inr (Or.inl ⟨m, h⟩))
    · exact Or.inl (Or.inr (Or.inr ⟨m, h⟩))
    · exact Or.inr (Or.inr (Or.inr ⟨m, h⟩))
  · rintro ((h | ⟨m, h⟩ | ⟨m, h⟩) | (h | ⟨m, h⟩ | ⟨m, h⟩))
    · exact Or.inl (Or.inl h)
    · exact Or.inr (Or.inl ⟨m, Or.inl h⟩)
    · exact Or.inr (Or.inr ⟨m, Or.inl h⟩)
    · exact Or.inl (Or.inr h)
    · exact Or.inr (Or.inl ⟨m, Or.inr h⟩)
    · exact Or.inr (Or.inr ⟨m, Or.inr h⟩)

theorem present_node (t : T) (l : L) (n : Node T L) : Present [Op.node t l] n ↔ n = node t l := by
  unfold Present
  simp [eq_node_iff]

theorem present_edge (t0 : T) (l0 : L) (t1 : T) (l1 : L) (n : Node T L) :
    Present [Op.edge t0 l0 t1 l1] n ↔ n = node t0 l0 ∨ n = node t1 l1 := by
  unfold Present
  simp only [List.mem_singleton, reduceCtorEq, false_or, Op.edge.injEq, eq_node_iff]
  constructor
  · rintro (⟨m, h⟩ | ⟨m, h⟩)
    · exact Or.inl ⟨h.1, h.2.1⟩
    · exact Or.inr ⟨h.2.2.1, h.2.2.2⟩
  · rintro (⟨h1, h2⟩ | ⟨h1, h2⟩)
    · exact Or.inl ⟨node t1 l1, h1, h2, rfl, rfl⟩
    · exact Or.inr ⟨node t0 l0, rfl, rfl, h1, h2⟩

theorem edge_snoc_edge (ops : List (Op T L)) (t0 : T) (l0 : L) (t1 : T) (l1 : L) (a b : Node T L) :
    Edge (ops ++ [Op.edge t0 l0 t1 l1]) a b ↔ (a = node t0 l0 ∧ b = node t1 l1) ∨ Edge ops a b := by
  unfold Edge
  simp only [List.mem_append, List.mem_singleton, Op.edge.injEq, eq_node_iff]
  tauto

theorem edge_snoc_node (ops : List (Op T L)) (t : T) (l : L) (a b : Node T L) :
    Edge (ops ++ [Op.node t l]) a b ↔ Edge ops a b := by
  unfold Edge; simp

theorem GInv.init : GInv ([] : List (Op T L)) Graph.init := by
  constructor <;> simp [Graph.init, Present, Edge, StrictSorted]

theorem GInv.step {ops : List (Op T L)} {g : Graph T L} (h : GInv ops g) (o : Op T L) :
    GInv (ops ++ [o]) (g.step o) := by
  cases o with
  | node t l =>
    refine ⟨?_, ?_, ?_, ?_, h.sortedT.setInsert, h.sortedL, h.sortedR⟩
    · intro t'
      simp only [Graph.step, Graph.addNode, mem_setInsert, h.times, present_snoc, present_node]
      constructor
      · rintro (rfl | ⟨n, h1, h2⟩)
        · exact ⟨node t' l, Or.inr rfl, rfl⟩
        · exact ⟨n, Or.inl h1, h2⟩
      · rintro ⟨n, h1 | rfl, rfl⟩
        · exact Or.inr ⟨n, h1, rfl⟩
        · exact Or.inl rfl
    · intro t' n
      simp only [Graph.step, Graph.addNode, mem_insAt, h.nodes, present_snoc, present_node]
      constructor
      · rintro (⟨rfl, rfl⟩ | ⟨h1, rfl⟩)
        · exact ⟨Or.inr rfl, rfl⟩
        · exact ⟨Or.inl h1, rfl⟩
      · rintro ⟨h1 | rfl, rfl⟩
        · exact Or.inr ⟨h1, rfl⟩
        · exact Or.inl ⟨rfl, rfl⟩
    · intro a b; simp only [Graph.step, Graph.addNode, edge_snoc_node, h.left]
    · intro a b; simp only [Graph.step, Graph.addNode, edge_snoc_node, h.right]
  | edge t0 l0 t1 l1 =>
    refine ⟨?_, ?_, ?_, ?_, h.sortedT.setInsert.setInsert, fun b => sorted_insAt (h.sortedL b),
      fun b => sorted_insAt (h.sortedR b)⟩
    · intro t'
      simp only [Graph.step, Graph.addEdge, mem_setInsert, h.times, present_snoc, present_edge]
      constructor
      · rintro (rfl | rfl | ⟨n, h1, h2⟩)
        · exact ⟨node t' l1, Or.inr (Or.inr rfl), rfl⟩
        · exact ⟨node t' l0, Or.inr (Or.inl rfl), rfl⟩
        · exact ⟨n, Or.inl h1, h2⟩
      · rintro ⟨n, h1 | rfl | rfl, rfl⟩
        · exact Or.inr (Or.inr ⟨n, h1, rfl⟩)
        · exact Or.inr (Or.inl rfl)
        · exact Or.inl rfl
    · intro t' n
      simp only [Graph.step, Graph.addEdge, mem_insAt, h.nodes, present_snoc, present_edge]
      constructor
      · rintro (⟨rfl, rfl⟩ | ⟨rfl, rfl⟩ | ⟨h1, rfl⟩)
        · exact ⟨Or.inr (Or.inr rfl), rfl⟩
        · exact ⟨Or.inr (Or.inl rfl), rfl⟩
        · exact ⟨Or.inl h1, rfl⟩
      · rintro ⟨h1 | rfl | rfl, rfl⟩
        · exact Or.inr (Or.inr ⟨h1, rfl⟩)
        · exact Or.inr (Or.inl ⟨rfl, rfl⟩)
        · exact Or.inl ⟨rfl, rfl⟩
    · intro a b
      simp only [Graph.step, Graph.addEdge, mem_insAt, h.left, edge_snoc_edge]
      tauto
    · intro a b
      simp only [Graph.step, Graph.addEdge, mem_insAt, h.right, edge_snoc_edge]

theorem GInv.build (ops : List (Op T L)) : GInv ops (Graph.build ops) := by
  induction ops using List.reverseRecOn with
  | nil => exact GInv.init
  | append_singleton ops o ih =>
    have := ih.step o
    unfold Graph.build at this ⊢
    rw [List.foldl_append]
    exact this

/-! ### relabel -/

theorem foldl_put {N : Type} [DecidableEq N] (v : Nat) : ∀ (l : List N) (m : N → Option Nat) (x : N),
    (l.foldl (fun m x => UF.put m x v) m) x = if x ∈ l then some v else m x := by
  intro l
  induction l with
  | nil => intro m x; simp
  | cons a l ih =>
    intro m x
    rw [List.foldl_cons, ih]
    by_cases h : x ∈ l
    · simp [h]
    · by_cases h2 : x = a
      · subst h2; simp [h, UF.put]
      · simp [h, h2, UF.put]

theorem assignLabels_spec {N : Type} [DecidableEq N] : ∀ (comps : List (List N)) (c : Nat) (m : N → Option Nat),
    comps.Pairwise (fun s t => ∀ x, x ∈ s → x ∉ t) →
    (∀ x, x ∉ comps.flatten → assignLabels c comps m x = m x) ∧
    (∀ (i : Nat) (s : List N), comps[i]? = some s → ∀ x ∈ s, assignLabels c comps m x = some (c + 1 + i)) := by
  intro comps
  induction comps with
  | nil => intro c m _; simp [assignLabels]
  | cons a comps ih =>
    intro c m hd
    rw [List.pairwise_cons] at hd
    obtain ⟨h1, h2⟩ := ih (c + 1) (a.foldl (fun m x => UF.put m x (c + 1)) m) hd.2
    constructor
    · intro x hx
      rw [List.flatten_cons, List.mem_append, not_or] at hx
      rw [assignLabels, h1 x hx.2, foldl_put, if_neg hx.1]
    · intro i s hs x hx
      cases i with
      | zero =>
        have : a = s := by simpa using hs
        subst this
        have hn : x ∉ comps.flatten := by
          intro hc
          obtain ⟨t, ht, hxt⟩ := List.mem_flatten.1 hc
          exact hd.1 t ht x hx hxt
        rw [assignLabels, h1 x hn, foldl_put, if_pos hx]
      | succ i =>
        have : comps[i]? = some s := by simpa using hs
        rw [assignLabels, h2 i s this x hx]
        congr 1; omega

theorem mem_allNodes_aux {N : Type} [LinearOrder N] (f : T → List N) : ∀ (ts : List T) (acc : List N) (n : N),
    n ∈ ts.foldl (fun acc t => (f t).foldl (fun acc x => setInsert x acc) acc) acc ↔
      n ∈ acc ∨ ∃ t ∈ ts, n ∈ f t := by
  intro ts
  induction ts with
  | nil => intro acc n; simp
  | cons t ts ih =>
    intro acc n
    rw [List.foldl_cons, ih, foldl_setInsert_mem]
    simp only [List.mem_cons, exists_eq_or_imp]
    tauto

theorem GInv.mem_allNodes {ops : List (Op T L)} {g : Graph T L} (h : GInv ops g) (n : Node T L) :
    n ∈ g.allNodes ↔ Present ops n := by
  unfold Graph.allNodes
  rw [mem_allNodes_aux]
  constructor
  · rintro (h1 | ⟨t, _, h2⟩)
    · cases h1
    · exact ((h.nodes t n).1 h2).1
  · intro hp
    exact Or.inr ⟨time n, (h.times _).2 ⟨n, hp, rfl⟩, (h.nodes _ _).2 ⟨hp, rfl⟩⟩

theorem length_one_iff {α : Type} [LinearOrder α] {l : List α} (hs : StrictSorted l) {a : α} (ha : a ∈ l) :
    l.length = 1 ↔ ∀ b ∈ l, b = a := by
  constructor
  · intro h b hb
    obtain ⟨c, rfl⟩ := List.length_eq_one_iff.1 h
    simp at ha hb; rw [hb, ha]
  · intro h
    have hn := hs.nodup
    match l, ha, h, hn with
    | [x], _, _, _ => rfl
    | x :: y :: l, _, h, hn =>
      have h1 := h x (by simp)
      have h2 := h y (by simp)
      subst h1; subst h2
      simp at hn

theorem GInv.mem_simpleNbs {ops : List (Op T L)} {g : Graph T L} (h : GInv ops g) (n m : Node T L) :
    m ∈ g.simpleNbs n ↔ (Edge ops m n ∧ ∀ a, Edge ops a n → a = m) ∨ (Edge ops n m ∧ ∀ b, Edge ops n b → b = m) := by
  have hl : ((g.left n).length = 1 ∧ m ∈ g.left n) ↔ (Edge ops m n ∧ ∀ a, Edge ops a n → a = m) := by
    constructor
    · rintro ⟨h1, h2⟩
      rw [length_one_iff (h.sortedL n) h2] at h1
      exact ⟨(h.left _ _).1 h2, fun a ha => h1 a ((h.left _ _).2 ha)⟩
    · rintro ⟨h1, h2⟩
      have h3 := (h.left _ _).2 h1
      refine ⟨(length_one_iff (h.sortedL n) h3).2 (fun b hb => h2 b ((h.left _ _).1 hb)), h3⟩
  have hr : ((g.right n).length = 1 ∧ m ∈ g.right n) ↔ (Edge ops n m ∧ ∀ b, Edge ops n b → b = m) := by
    constructor
    · rintro ⟨h1, h2⟩
      rw [length_one_iff (h.sortedR n) h2] at h1
      exact ⟨(h.right _ _).1 h2, fun a ha => h1 a ((h.right _ _).2 ha)⟩
    · rintro ⟨h1, h2⟩
      have h3 := (h.right _ _).2 h1
      refine ⟨(length_one_iff (h.sortedR n) h3).2 (fun b hb => h2 b ((h.right _ _).1 hb)), h3⟩
  rw [← hl, ← hr]
  unfold Graph.simpleNbs
  simp only
  split <;> split <;> rename_i h1 h2 <;> simp [foldl_setInsert_mem, h1, h2]

theorem eqvGen_mono_of {α : Type} {r s : α → α → Prop} (h : ∀ a b, r a b → EqvGen s a b) {x y : α}
    (hxy : EqvGen r x y) : EqvGen s x y := by
  induction hxy with
  | rel a b hab => exact h a b hab
  | refl a => exact .refl a
  | symm a b _ ih => exact .symm _ _ ih
  | trans a b c _ _ i1 i2 => exact .trans _ _ _ i1 i2

theorem GInv.linked_simple {ops : List (Op T L)} {g : Graph T L} (h : GInv ops g) (x y : Node T L) :
    Linked g.simpleNbs g.allNodes x y ↔ SameTrack ops x y := by
  have pl : ∀ a b, Edge ops a b → Present ops a := fun a b hab => Or.inr (Or.inl ⟨b, hab⟩)
  have pr : ∀ a b, Edge ops a b → Present ops b := fun a b hab => Or.inr (Or.inr ⟨a, hab⟩)
  constructor
  · refine eqvGen_mono_of (fun a b hab => ?_)
    obtain ⟨_, _, h3⟩ := hab
    rcases (h.mem_simpleNbs a b).1 h3 with ⟨h4, h5⟩ | ⟨h4, h5⟩
    · exact .symm _ _ (.rel _ _ ⟨h4, Or.inr h5⟩)
    · exact .rel _ _ ⟨h4, Or.inl h5⟩
  · refine eqvGen_mono_of (fun a b hab => ?_)
    obtain ⟨h1, h2 | h2⟩ := hab
    · exact .rel _ _ ⟨(h.mem_allNodes a).2 (pl _ _ h1), (h.mem_allNodes b).2 (pr _ _ h1),
        (h.mem_simpleNbs a b).2 (Or.inr ⟨h1, h2⟩)⟩
    · exact .symm _ _ (.rel _ _ ⟨(h.mem_allNodes b).2 (pr _ _ h1), (h.mem_allNodes a).2 (pl _ _ h1),
        (h.mem_simpleNbs b a).2 (Or.inl ⟨h1, h2⟩)⟩)

theorem relabel_spec {ops : List (Op T L)} {g : Graph T L} (hg : GInv ops g) :
    ∃ g' k, g.relabel = some g' ∧
      (∀ n, ¬ Present ops n → g'.glob n = none) ∧
      (∀ n, Present ops n → ∃ l, g'.glob n = some l ∧ 1 ≤ l ∧ l ≤ k) ∧
      (∀ l, 1 ≤ l → l ≤ k → ∃ n, Present ops n ∧ g'.glob n = some l) ∧
      (∀ a b, Present ops a → Present ops b → (g'.glob a = g'.glob b ↔ SameTrack ops a b)) := by
  obtain ⟨comps, e, hp⟩ := extractCC_spec g.simpleNbs g.allNodes
  obtain ⟨s1, s2⟩ := assignLabels_spec comps 0 (fun _ => none) hp.disjoint
  have hm : ∀ n, Present ops n ↔ n ∈ comps.flatten := by
    intro n
    rw [(partition_flatten_nodup hp).2, hg.mem_allNodes]
  have hidx : ∀ n, Present ops n → ∃ (i : Nat) (s : List (Node T L)), comps[i]? = some s ∧ n ∈ s := by
    intro n hn
    obtain ⟨s, hs, hns⟩ := List.mem_flatten.1 ((hm n).1 hn)
    obtain ⟨i, hi, rfl⟩ := List.getElem_of_mem hs
    exact ⟨i, _, List.getElem?_eq_getElem hi, hns⟩
  refine ⟨{ g with glob := assignLabels 0 comps (fun _ => none) }, comps.length,
    by simp only [Graph.relabel, e], ?_, ?_, ?_, ?_⟩
  · intro n hn
    exact s1 n (fun h => hn ((hm n).2 h))
  · intro n hn
    obtain ⟨i, s, hs, hns⟩ := hidx n hn
    have := (List.getElem?_eq_some_iff.1 hs).1
    exact ⟨_, s2 i s hs n hns, by omega, by omega⟩
  · intro l h1 h2
    have hl : l - 1 < comps.length := by omega
    have hs := List.getElem?_eq_getElem hl
    have hne := hp.nonempty _ (List.getElem_mem hl)
    obtain ⟨n, hn⟩ := List.exists_mem_of_ne_nil _ hne
    refine ⟨n, ?_, ?_⟩
    · exact (hm n).2 (List.mem_flatten.2 ⟨_, List.getElem_mem hl, hn⟩)
    · show assignLabels 0 comps (fun _ => none) n = some l
      rw [s2 _ _ hs n hn]; congr 1; omega
  · intro a b ha hb
    obtain ⟨i, s, hs, has⟩ := hidx a ha
    obtain ⟨j, t, ht, hbt⟩ := hidx b hb
    show assignLabels 0 comps (fun _ => none) a = assignLabels 0 comps (fun _ => none) b ↔ _
    rw [s2 i s hs a has, s2 j t ht b hbt, ← hg.linked_simple,
      ← hp.classes s (List.mem_of_getElem? hs) a has b ((hg.mem_allNodes b).2 hb)]
    simp only [Option.some.injEq]
    constructor
    · intro h
      have : i = j := by omega
      subst this
      rw [hs] at ht; cases ht; exact hbt
    · intro hbs
      rcases Nat.lt_trichotomy i j with hij | hij | hij
      · exfalso
        have hi := List.getElem?_eq_some_iff.1 hs
        have hj := List.getElem?_eq_some_iff.1 ht
        obtain ⟨hi, rfl⟩ := hi
        obtain ⟨hj, rfl⟩ := hj
        exact (List.pairwise_iff_getElem.1 hp.disjoint i j hi hj hij) b hbs hbt
      · rw [hij]
      · exfalso
        obtain ⟨hi, rfl⟩ := List.getElem?_eq_some_iff.1 hs
        obtain ⟨hj, rfl⟩ := List.getElem?_eq_some_iff.1 ht
        exact (List.pairwise_iff_getElem.1 hp.disjoint j i hj hi hij) b hbt hbs

end Verif.TG
