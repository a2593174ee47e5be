import Verif.Graph.CcaBfs
import Verif.Graph.Curves
/-! C17, C18, C21, C57, C58: graph algorithms. -/
namespace Verif.Gr
open Relation

/-! ### C17 -/

/-- C17: if the nodes reachable from the seed along accepted nodes lie in a finite set `U`, `bfs`
finishes (within `|U|` rounds) and has called the visitor exactly once on every such node, and on no
other; a rejected seed gives no call. -/
theorem C17_bfs_visits_reachable {α : Type} [DecidableEq α] (nb : α → List α) (crit : α → Bool) (seed : α)
    (U : List α) (hU : ∀ x, Reach nb crit seed x → x ∈ U) (fuel : Nat) (hf : U.length ≤ fuel) :
    ∃ tr, bfs fuel seed nb crit = some tr ∧ tr.Nodup ∧
      ∀ x, x ∈ tr ↔ crit seed = true ∧ Reach nb crit seed x := by
  obtain ⟨tr, h⟩ := bfs_terminates hU hf
  exact ⟨tr, h, bfs_spec h⟩

/-- a graph on 0..5: path 0-1-2, edge 3-4, node 5 rejected -/
def exNb : Nat → List Nat
  | 0 => [1] | 1 => [0, 2] | 2 => [1, 5] | 3 => [4] | 4 => [3] | 5 => [2, 3] | _ => []

example : bfs 6 0 exNb (fun x => decide (x ≠ 5)) = some [0, 1, 2] := by decide
example : ∀ x, Reach exNb (fun x => decide (x ≠ 5)) 0 x → x ∈ [0, 1, 2] := by
  intro x h
  unfold Reach at h
  induction h with
  | refl => decide
  | tail _ h ih =>
    rename_i b c
    simp at ih
    rcases ih with rfl | rfl | rfl <;> simp [exNb] at h ⊢ <;> omega

/-! ### C18 -/

/-- C18: `extract_connected_components(neighbors, qualified)` returns a partition of the qualified
elements into the classes of "linked by a path of qualified neighbors". -/
theorem C18_components {α : Type} [LinearOrder α] (nb : α → List α) (q : List α) :
    ∃ sets, extractCC nb q = some sets ∧ UF.IsPartition (· ∈ q) (Linked nb q) sets :=
  extractCC_spec nb q

/-- C18: same for the overload with a number of nodes and a criterion. -/
theorem C18_components_criterion (n : Nat) (nb : Nat → List Nat) (crit : Nat → Bool) :
    ∃ sets, extractCCn n nb crit = some sets ∧
      UF.IsPartition (fun x => x < n ∧ crit x = true) (Linked nb ((List.range n).filter crit)) sets := by
  obtain ⟨sets, e, hp⟩ := extractCC_spec nb (((List.range n).filter crit).foldl (fun acc x => setInsert x acc) [])
  have hm : ∀ x, x ∈ (((List.range n).filter crit).foldl (fun acc x => setInsert x acc) []) ↔
      x ∈ (List.range n).filter crit := by
    intro x; rw [foldl_setInsert_mem]; simp
  refine ⟨sets, e, isPartition_congr hp (fun x => by rw [hm]; simp) (fun x y => ?_)⟩
  exact eqvGen_congr (fun a b => by rw [hm, hm]) x y

/-- C18: same for the overload with a container of nodes and a criterion. -/
theorem C18_components_nodes {α : Type} [LinearOrder α] (nodes : List α) (nb : α → List α) (crit : α → Bool) :
    ∃ sets, extractCCnodes nodes nb crit = some sets ∧
      UF.IsPartition (fun x => x ∈ nodes ∧ crit x = true) (Linked nb (nodes.filter crit)) sets := by
  obtain ⟨sets, e, hp⟩ := extractCC_spec nb ((nodes.filter crit).foldl (fun acc x => setInsert x acc) [])
  have hm : ∀ x, x ∈ ((nodes.filter crit).foldl (fun acc x => setInsert x acc) []) ↔
      x ∈ nodes.filter crit := by
    intro x; rw [foldl_setInsert_mem]; simp
  refine ⟨sets, e, isPartition_congr hp (fun x => by rw [hm]; simp) (fun x y => ?_)⟩
  exact eqvGen_congr (fun a b => by rw [hm, hm]) x y

/-- C18: the breadth-first version returns a partition into the same classes when the neighbor
relation is symmetric (the union-find version needs no symmetry). -/
theorem C18_components_bfs {α : Type} [LinearOrder α] (nb : α → List α) (hs : Symm nb) (q : List α) (hq : q.Nodup) :
    ∃ sets, extractCCbfs nb q = some sets ∧ UF.IsPartition (· ∈ q) (Linked nb q) sets :=
  extractCCbfs_spec hs q hq

/-- C18 (limit): without symmetry the breadth-first version separates linked elements. -/
theorem C18_bfs_needs_symmetry : ∃ (nb : Nat → List Nat) (q : List Nat),
    extractCCbfs nb q = some [[1], [2]] ∧ extractCC nb q = some [[1, 2]] :=
  ⟨fun x => if x = 2 then [1] else [], [1, 2], by decide, by decide⟩

example : extractCC exNb [0, 1, 3] = some [[0, 1], [3]] := by decide
example : extractCCbfs exNb [0, 1, 2, 3, 4] = some [[0, 1, 2], [3, 4]] := by decide
example : Symm (fun x : Nat => if x = 1 then [2] else if x = 2 then [1] else []) := by
  intro a b h
  simp only at h ⊢
  split at h
  · simp at h; subst h; simp_all
  · split at h
    · simp at h; subst h; simp_all
    · simp at h

/-! ### C57 -/

/-- C57: `labelConnectedComponents` on zero-initialised labels of a symmetric graph with nodes
`0..n-1`: rejected nodes keep label 0, accepted nodes get labels `1..count`, every label is used, and
two accepted nodes get the same label iff one is reachable from the other along accepted nodes. -/
theorem C57_label_components (n : Nat) (nb : Nat → List Nat) (crit : Nat → Bool) (hs : Symm nb)
    (hr : ∀ a, a < n → ∀ b ∈ nb a, b < n) :
    ∃ labels cnt, labelComponents n (List.replicate n 0) nb crit = some (labels, cnt) ∧ labels.length = n ∧
      (∀ a, a < n → crit a = false → labels[a]? = some 0) ∧
      (∀ a, a < n → crit a = true → ∃ l, labels[a]? = some l ∧ 1 ≤ l ∧ l ≤ cnt) ∧
      (∀ l : Nat, 1 ≤ l → l ≤ cnt → ∃ a : Nat, labels[a]? = some l) ∧
      (∀ a b : Nat, a < n → b < n → crit a = true → crit b = true →
        (labels[a]? = labels[b]? ↔ Reach nb crit a b)) := by
  have hinit : LInv n nb crit 0 (List.replicate n 0) 0 := by
    refine ⟨by simp, ?_, ?_, by simp, ?_, ?_⟩
    · intro a ha _; simp [ha]
    · intro a l e; rw [List.getElem?_replicate] at e; split at e <;> simp_all
    · intro l h1 h2; omega
    · intro a b l _ _ e hl
      rw [List.getElem?_replicate] at e
      split at e
      · cases e; exact absurd rfl hl
      · cases e
  obtain ⟨labels, cnt, e, h⟩ := labelLoop_spec hs hr n 0 _ _ (by omega) hinit
  rw [← List.range_eq_range'] at e
  have hpos : ∀ a, a < n → crit a = true → ∃ l, labels[a]? = some l ∧ 1 ≤ l ∧ l ≤ cnt := by
    intro a ha hc
    have hal : a < labels.length := by rw [h.len]; exact ha
    have hd := h.done a ha hc
    rw [List.getElem?_eq_getElem hal] at hd
    refine ⟨_, List.getElem?_eq_getElem hal, ?_, h.le a _ (List.getElem?_eq_getElem hal)⟩
    rcases Nat.eq_zero_or_pos labels[a] with h0 | h0
    · exact absurd (by rw [h0]) hd
    · exact h0
  refine ⟨labels, cnt, e, h.len, h.rej, hpos, ?_, ?_⟩
  · intro l h1 h2
    obtain ⟨a, _, ha⟩ := h.used l h1 h2
    exact ⟨a, ha⟩
  · intro a b ha hb hca hcb
    obtain ⟨l, hl, hl1, _⟩ := hpos a ha hca
    rw [← h.same a b l hca hcb hl (by omega), hl]
    exact eq_comm

example : labelComponents 6 (List.replicate 6 0) exNb (fun x => decide (x ≠ 5)) =
    some ([1, 1, 1, 2, 2, 0], 2) := by decide

theorem trackByLabels_spec : ∀ (l0 l1 : List Nat), l0.length ≤ l1.length →
    ∃ r, trackByLabels l0 l1 = some r ∧ ∀ p q : Nat, (p, q) ∈ r ↔
      p ≠ q ∧ p ≠ 0 ∧ q ≠ 0 ∧ ∃ i : Nat, l0[i]? = some p ∧ l1[i]? = some q := by
  intro l0
  induction l0 with
  | nil => intro l1 _; exact ⟨[], rfl, by simp⟩
  | cons a l0 ih =>
    intro l1 h
    cases l1 with
    | nil => simp at h
    | cons b l1 =>
      obtain ⟨r, e, hr⟩ := ih l1 (by simpa using h)
      refine ⟨_, by simp only [trackByLabels, e]; rfl, ?_⟩
      intro p q
      have hex : (∃ i : Nat, (a :: l0)[i]? = some p ∧ (b :: l1)[i]? = some q) ↔ (a = p ∧ b = q) ∨
          ∃ i : Nat, l0[i]? = some p ∧ l1[i]? = some q := by
        constructor
        · rintro ⟨i, h1, h2⟩
          cases i with
          | zero => left; exact ⟨by simpa using h1, by simpa using h2⟩
          | succ i => right; exact ⟨i, by simpa using h1, by simpa using h2⟩
        · rintro (⟨rfl, rfl⟩ | ⟨i, h1, h2⟩)
          · exact ⟨0, by simp, by simp⟩
          · exact ⟨i + 1, by simpa using h1, by simpa using h2⟩
      rw [hex]
      split
      · rename_i hc
        rw [List.mem_cons, hr, Prod.mk.injEq]
        constructor
        · rintro (⟨rfl, rfl⟩ | ⟨h1, h2, h3, h4⟩)
          · exact ⟨hc.1, hc.2.1, hc.2.2, Or.inl ⟨rfl, rfl⟩⟩
          · exact ⟨h1, h2, h3, Or.inr h4⟩
        · rintro ⟨h1, h2, h3, ⟨rfl, rfl⟩ | h4⟩
          · exact Or.inl ⟨rfl, rfl⟩
          · exact Or.inr ⟨h1, h2, h3, h4⟩
      · rename_i hc
        rw [hr]
        constructor
        · rintro ⟨h1, h2, h3, h4⟩; exact ⟨h1, h2, h3, Or.inr h4⟩
        · rintro ⟨h1, h2, h3, ⟨rfl, rfl⟩ | h4⟩
          · exact absurd ⟨h1, h2, h3⟩ hc
          · exact ⟨h1, h2, h3, h4⟩

/-! ### C58 -/

/-- C58: `track_connected_components` relates component `i` of the first step to component `j` of the
second iff they share an element. -/
theorem C58_overlap_pairs {α : Type} [LinearOrder α] (c0 c1 : List (List α)) (i j : Nat) :
    (i, j) ∈ trackCC c0 c1 ↔ ∃ s0 s1 : List α, c0[i]? = some s0 ∧ c1[j]? = some s1 ∧ ∃ x, x ∈ s0 ∧ x ∈ s1 := by
  unfold trackCC overlaps
  simp only [List.mem_flatMap, List.mem_range, List.mem_map, List.mem_filter, Prod.mk.injEq, List.any_eq_true,
    decide_eq_true_eq]
  constructor
  · rintro ⟨i', hi, j', ⟨hj, x, hx0, hx1⟩, rfl, rfl⟩
    refine ⟨c0[i'], c1[j'], List.getElem?_eq_getElem hi, List.getElem?_eq_getElem hj, x, ?_, ?_⟩
    · simpa [List.getD, List.getElem?_eq_getElem hi] using hx0
    · simpa [List.getD, List.getElem?_eq_getElem hj] using hx1
  · rintro ⟨s0, s1, h0, h1, x, hx0, hx1⟩
    refine ⟨i, (List.getElem?_eq_some_iff.1 h0).1, j, ⟨(List.getElem?_eq_some_iff.1 h1).1, x, ?_, ?_⟩, rfl, rfl⟩
    · simpa [List.getD, h0] using hx0
    · simpa [List.getD, h1] using hx1

/-- C58: `trackConnectedComponentsByLabels` relates labels `p ≠ q`, both non-zero, iff some cell has
label `p` before and `q` after.  `labels1` must be at least as long as `labels0`. -/
theorem C58_label_pairs_partial (l0 l1 : List Nat) (h : l0.length ≤ l1.length) :
    ∃ r, trackByLabels l0 l1 = some r ∧ ∀ p q : Nat, (p, q) ∈ r ↔
      p ≠ q ∧ p ≠ 0 ∧ q ≠ 0 ∧ ∃ i : Nat, l0[i]? = some p ∧ l1[i]? = some q :=
  trackByLabels_spec l0 l1 h

/-- C58 (finding): a component that keeps its label number is not reported at all, although it
overlaps. -/
theorem C58_same_label_is_dropped (l : Nat) (_ : l ≠ 0) : trackByLabels [l] [l] = some [] := by
  simp [trackByLabels]

example : trackCC [[1, 2], [5]] [[2, 3], [7], [5, 1]] = [(0, 0), (0, 2), (1, 2)] := by decide
example : trackByLabels [1, 1, 0, 2] [3, 0, 2, 4] = some [(1, 3), (2, 4)] := by decide

/-! ### C21 -/

theorem forall₂_flatten_perm {α : Type} : ∀ {a b : List (List α)}, List.Forall₂ List.Perm a b →
    a.flatten.Perm b.flatten := by
  intro a b h
  induction h with
  | nil => exact .nil
  | cons h1 _ ih => simp only [List.flatten_cons]; exact h1.append ih

theorem partition_flatten_nodup {α : Type} {D : α → Prop} {R : α → α → Prop} {sets : List (List α)}
    (h : UF.IsPartition D R sets) : sets.flatten.Nodup ∧ ∀ x, x ∈ sets.flatten ↔ D x := by
  constructor
  · rw [List.nodup_flatten]
    refine ⟨h.nodup, h.disjoint.imp ?_⟩
    intro a b hab x hx hx'
    exact hab x hx hx'
  · intro x
    rw [List.mem_flatten]
    constructor
    · rintro ⟨s, hs, hx⟩; exact h.only s hs x hx
    · intro hx; obtain ⟨s, hs, hx⟩ := h.cover x hx; exact ⟨s, hs, hx⟩

/-- C21: for a symmetric neighbor relation (values are sets: no repetition) and any finite node set,
`connected_component_to_linear_components` returns non-empty curves; consecutive nodes of a curve are
neighbors; every node with at most two neighbors in the set lies on exactly one curve, exactly once;
nodes with more lie on none; and two nodes lie on one curve iff they are linked through such nodes. -/
theorem C21_linear_components {α : Type} [LinearOrder α] (nb : α → List α) (hs : Symm nb)
    (hnd : ∀ x, (nb x).Nodup) (cc : List α) :
    ∃ curves, linearComponents nb cc = some curves ∧
      (∀ k ∈ curves, k ≠ [] ∧ List.IsChain (fun x y => y ∈ nb x) k) ∧
      curves.flatten.Nodup ∧
      (∀ x, x ∈ curves.flatten ↔ x ∈ cc ∧ ((nb x).filter (fun y => decide (y ≠ x ∧ y ∈ cc))).length ≤ 2) ∧
      (∀ k ∈ curves, ∀ x ∈ k, ∀ y ∈ curves.flatten, (y ∈ k ↔
        Linked nb (cc.filter (fun x => decide (((nb x).filter (fun y => decide (y ≠ x ∧ y ∈ cc))).length ≤ 2))) x y)) := by
  unfold linearComponents
  have hord : ∀ x, x ∈ ordinary nb cc ↔ x ∈ cc ∧
      ((nb x).filter (fun y => decide (y ≠ x ∧ y ∈ cc))).length ≤ 2 := by
    intro x
    unfold ordinary validNbs
    rw [List.mem_filter]
    simp
  split
  · rename_i h
    have : cc = [] := by simpa using h
    subst this
    exact ⟨[], rfl, by simp, by simp, by simp, by simp⟩
  · obtain ⟨sets, e, hp⟩ := extractCC_spec (ordNbs nb cc) (ordinary nb cc)
    rw [e]
    simp only
    obtain ⟨outs, e2, h2⟩ := traceAll_spec (nb := nb) (ord := ordinary nb cc) sets (by
      intro c hc
      obtain ⟨hT, hcl⟩ := thin_of_class hs hp hc
      exact traceComponent_spec hT (hp.nonempty c hc) hnd hcl)
    have hperm : outs.flatten.Perm sets.flatten := forall₂_flatten_perm (h2.imp (fun _ _ h => h.1))
    obtain ⟨hfn, hfm⟩ := partition_flatten_nodup hp
    have hof : ∀ k ∈ outs, ∃ c ∈ sets, k.Perm c ∧ List.IsChain (fun x y => y ∈ nb x) k := by
      intro k hk
      obtain ⟨i, hi, rfl⟩ := List.getElem_of_mem hk
      have := (List.forall₂_iff_get.1 h2)
      have hi' : i < sets.length := by rw [← this.1]; exact hi
      have h3 := this.2 i hi hi'
      exact ⟨sets[i], List.getElem_mem hi', h3.1, h3.2⟩
    refine ⟨outs, e2, ?_, hperm.nodup_iff.2 hfn, ?_, ?_⟩
    · intro k hk
      obtain ⟨c, hc, hkc, hch⟩ := hof k hk
      refine ⟨?_, hch⟩
      rintro rfl
      exact hp.nonempty c hc (List.nil_perm.1 hkc)
    · intro x
      rw [hperm.mem_iff, hfm, hord]
    · intro k hk x hx y hy
      obtain ⟨c, hc, hkc, -⟩ := hof k hk
      rw [hkc.mem_iff]
      rw [hperm.mem_iff, hfm] at hy
      rw [hp.classes c hc x (hkc.mem_iff.1 hx) y hy]
      refine eqvGen_congr (fun a b => ?_) x y
      have hq : ∀ a, a ∈ ordinary nb cc ↔ a ∈ cc.filter (fun x => decide (((nb x).filter (fun y => decide (y ≠ x ∧ y ∈ cc))).length ≤ 2)) := by
        intro a; rw [hord, List.mem_filter]; simp
      rw [← hq, ← hq]
      constructor
      · rintro ⟨h1, h2, h3⟩; exact ⟨h1, h2, (List.mem_filter.1 h3).1⟩
      · rintro ⟨h1, h2, h3⟩
        refine ⟨h1, h2, ?_⟩
        unfold ordNbs
        rw [List.mem_filter]
        refine ⟨h3, ?_⟩
        have hb := (hord b).1 h2
        have : b ∉ special nb cc := by
          unfold special validNbs
          rw [List.mem_filter]
          simp only [decide_eq_true_eq, not_and]
          intro _; omega
        simp [hb.1, this]

/-- C21: on a returned curve of three or more nodes, `is_loop` tells whether the ends are adjacent,
i.e. whether the curve closes to a cycle. -/
theorem C21_is_loop {α : Type} [LinearOrder α] (nb : α → List α) (l : List α) (a b : α) (hl : 2 ≤ l.length)
    (ha : l.head? = some a) (hb : l.getLast? = some b) : isLoop nb l = true ↔ b ∈ nb a := by
  unfold isLoop
  rw [ha, hb]
  simp only
  rw [if_neg (by omega)]
  simp

/-- C21 (finding): a curve of two nodes is always reported as a loop. -/
theorem C21_two_node_curve_is_a_loop {α : Type} [LinearOrder α] (nb : α → List α) (a b : α)
    (hch : List.IsChain (fun x y => y ∈ nb x) [a, b]) : isLoop nb [a, b] = true := by
  have : b ∈ nb a := by simpa using hch
  simp [isLoop, this]

/-- a graph: a star centre 0 with arms 1-2, 3, 4, and a triangle 7-8-9 -/
def exStar : Nat → List Nat
  | 0 => [1, 3, 4] | 1 => [0, 2] | 2 => [1] | 3 => [0] | 4 => [0]
  | 7 => [8, 9] | 8 => [7, 9] | 9 => [7, 8] | _ => []

example : linearComponents exStar [7, 8, 9] = some [[7, 8, 9]] := by decide +kernel
example : linearComponents exStar [0, 1, 3, 4] = some [[1], [3], [4]] := by decide +kernel
example : isLoop exStar [7, 8, 9] = true ∧ isLoop exStar [1, 2] = true := by decide

end Verif.Gr
