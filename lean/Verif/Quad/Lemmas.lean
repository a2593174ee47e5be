import Verif.Quad.Spec
import Mathlib.Data.List.Perm.Basic
import Mathlib.Data.List.Nodup
import Mathlib.Tactic.Linarith
import Mathlib.Tactic.Ring
import Mathlib.Tactic.FieldSimp
import Mathlib.Tactic.LinearCombination
/-! Lemmas about the quad tree. -/
namespace Verif.Quad

/-- bounding box relation -/
def Box.le (e b : Box) : Prop := b.A.1 ≤ e.A.1 ∧ b.A.2 ≤ e.A.2 ∧ e.B.1 ≤ b.B.1 ∧ e.B.2 ≤ b.B.2

theorem contains_iff (b : Box) (x : P2) :
    b.contains x = true ↔ b.A.1 ≤ x.1 ∧ x.1 < b.B.1 ∧ b.A.2 ≤ x.2 ∧ x.2 < b.B.2 := by
  simp only [Box.contains, Bool.and_eq_true, Bool.not_eq_true', Bool.or_eq_false_iff, decide_eq_false_iff_not, not_lt,
    not_le, and_assoc]

theorem contains_of_le {e b : Box} (h : e.le b) {x : P2} (hx : e.contains x = true) : b.contains x = true := by
  rw [contains_iff] at *
  obtain ⟨h1, h2, h3, h4⟩ := h
  exact ⟨h1.trans hx.1, hx.2.1.trans_le h3, h2.trans hx.2.2.1, hx.2.2.2.trans_le h4⟩

/-- the leaf elements -/
def QTree.leaves : QTree → List Box
  | .nil => []
  | .leaf _ e => [e]
  | .node _ a b c d => a.leaves ++ b.leaves ++ c.leaves ++ d.leaves

theorem ids_eq (q : QTree) : q.ids = q.leaves.map Box.id := by
  induction q with
  | nil => rfl
  | leaf => rfl
  | node _ _ _ _ _ ha hb hc hd => simp [QTree.ids, QTree.leaves, ha, hb, hc, hd]

/-- every node's box contains the boxes of the leaves below -/
def QTree.Bounded : QTree → Prop
  | .nil => True
  | .leaf b e => e.le b
  | .node bb a b c d => (∀ e ∈ (QTree.node bb a b c d).leaves, e.le bb) ∧ a.Bounded ∧ b.Bounded ∧ c.Bounded ∧ d.Bounded

theorem join_le (b : Box) (lo hi : P2) :
    b.le (b.join lo hi) := ⟨min_le_left _ _, min_le_left _ _, le_max_left _ _, le_max_left _ _⟩

theorem foldl_join_le (l : List Box) (b : Box) : b.le (l.foldl (fun b e => b.join e.A e.B) b) ∧
    ∀ e ∈ l, e.le (l.foldl (fun b e => b.join e.A e.B) b) := by
  induction l generalizing b with
  | nil => exact ⟨⟨le_refl _, le_refl _, le_refl _, le_refl _⟩, by simp⟩
  | cons a l ih =>
    obtain ⟨h1, h2⟩ := ih (b.join a.A a.B)
    have tr : ∀ {x y z : Box}, x.le y → y.le z → x.le z := fun h h' =>
      ⟨h'.1.trans h.1, h'.2.1.trans h.2.1, h.2.2.1.trans h'.2.2.1, h.2.2.2.trans h'.2.2.2⟩
    refine ⟨tr (join_le b _ _) h1, ?_⟩
    intro e he
    rcases List.mem_cons.1 he with rfl | he
    · refine tr ?_ h1
      exact ⟨min_le_right _ _, min_le_right _ _, le_max_right _ _, le_max_right _ _⟩
    · exact h2 e he

theorem updateBounds_le (b : Box) (es : List Box) : ∀ e ∈ es, e.le (updateBounds b es) := fun e he =>
  (foldl_join_le es b).2 e he

theorem childOf_some {b e : Box} (h : b.contains e.C = true) : ∃ j, j < 4 ∧ childOf b e = some j ∧
    (childBox b j).contains e.C = true := by
  have key : ∃ j, j < 4 ∧ (childBox b j).contains e.C = true := by
    rw [contains_iff] at h
    obtain ⟨h1, h2, h3, h4⟩ := h
    by_cases hx : e.C.1 < b.C.1
    · by_cases hy : e.C.2 < b.C.2
      · exact ⟨0, by omega, (contains_iff _ _).2 ⟨h1, hx, h3, hy⟩⟩
      · exact ⟨3, by omega, (contains_iff _ _).2 ⟨h1, hx, not_lt.1 hy, h4⟩⟩
    · by_cases hy : e.C.2 < b.C.2
      · exact ⟨1, by omega, (contains_iff _ _).2 ⟨not_lt.1 hx, h2, h3, hy⟩⟩
      · exact ⟨2, by omega, (contains_iff _ _).2 ⟨not_lt.1 hx, h2, not_lt.1 hy, h4⟩⟩
  obtain ⟨j, hj, hc⟩ := key
  have : (childOf b e).isSome := by
    rw [childOf, List.find?_isSome]
    exact ⟨j, List.mem_range.2 hj, hc⟩
  obtain ⟨k, hk⟩ := Option.isSome_iff_exists.1 this
  exact ⟨k, List.mem_range.1 (List.mem_of_find?_eq_some hk), hk, List.find?_some (p := fun j => (childBox b j).contains e.C) hk⟩

theorem perm_four {f : Box → Option Nat} (es : List Box) (h : ∀ e ∈ es, ∃ j, j < 4 ∧ f e = some j) :
    (es.filter (fun e => f e == some 0) ++ es.filter (fun e => f e == some 1) ++ es.filter (fun e => f e == some 2) ++
      es.filter (fun e => f e == some 3)).Perm es := by
  induction es with
  | nil => exact .refl _
  | cons e es ih =>
    have ih := ih fun e he => h e (List.mem_cons_of_mem _ he)
    obtain ⟨j, hj, hf⟩ := h e List.mem_cons_self
    have : j = 0 ∨ j = 1 ∨ j = 2 ∨ j = 3 := by omega
    rcases this with rfl | rfl | rfl | rfl <;> simp [hf] <;> simp only [List.append_assoc] at ih
    · exact ih
    · exact (List.perm_middle).trans (ih.cons _)
    · rw [← List.append_assoc]
      refine (List.perm_middle).trans (List.Perm.cons _ ?_)
      rw [List.append_assoc]; exact ih
    · rw [← List.append_assoc, ← List.append_assoc]
      refine (List.perm_middle).trans (List.Perm.cons _ ?_)
      rw [List.append_assoc, List.append_assoc]; exact ih

theorem childElems_perm {b : Box} {es : List Box} (h : ∀ e ∈ es, b.contains e.C = true) :
    (childElems b es 0 ++ childElems b es 1 ++ childElems b es 2 ++ childElems b es 3).Perm es :=
  perm_four es fun e he => let ⟨j, hj, hf, _⟩ := childOf_some (h e he); ⟨j, hj, hf⟩

theorem mem_childElems {b e : Box} {es : List Box} {j : Nat} (h : e ∈ childElems b es j) :
    e ∈ es ∧ (childBox b j).contains e.C = true := by
  simp only [childElems, List.mem_filter, beq_iff_eq] at h
  exact ⟨h.1, List.find?_some (p := fun j => (childBox b j).contains e.C) h.2⟩

/-- what `subdivide` does with one child -/
def childTree (fuel : Nat) (b : Box) (es : List Box) (j : Nat) : Option QTree :=
  if (childElems b es j).isEmpty then some .nil else subdivide fuel false (childBox b j) (childElems b es j)

theorem subdivide_two (fuel : Nat) (isRoot : Bool) (b : Box) {es : List Box} (h : 2 ≤ es.length) :
    subdivide (fuel + 1) isRoot b es =
      match childTree fuel b es 0, childTree fuel b es 1, childTree fuel b es 2, childTree fuel b es 3 with
      | some c0, some c1, some c2, some c3 => some (.node (if isRoot then b else updateBounds b es) c0 c1 c2 c3)
      | _, _, _, _ => none := by
  rcases es with _ | ⟨e, _ | ⟨e', es⟩⟩
  · simp at h
  · simp at h
  · rfl

theorem subdivide_some {fuel : Nat} {isRoot : Bool} {b : Box} {es : List Box} {q : QTree} (h : 2 ≤ es.length)
    (hq : subdivide (fuel + 1) isRoot b es = some q) : ∃ c0 c1 c2 c3,
      childTree fuel b es 0 = some c0 ∧ childTree fuel b es 1 = some c1 ∧ childTree fuel b es 2 = some c2 ∧
      childTree fuel b es 3 = some c3 ∧ q = .node (if isRoot then b else updateBounds b es) c0 c1 c2 c3 := by
  rw [subdivide_two _ _ _ h] at hq
  split at hq
  · rename_i c0 c1 c2 c3 h0 h1 h2 h3
    exact ⟨c0, c1, c2, c3, h0, h1, h2, h3, (Option.some.inj hq).symm⟩
  · cases hq

theorem subdivide_spec : ∀ (fuel : Nat) (isRoot : Bool) (b : Box) (es : List Box) (q : QTree),
    (∀ e ∈ es, b.contains e.C = true) → (isRoot = true → ∀ e ∈ es, e.le b) →
    subdivide fuel isRoot b es = some q → q.leaves.Perm es ∧ q.Bounded := by
  intro fuel
  induction fuel with
  | zero => intro _ _ _ _ _ _ h; cases h
  | succ fuel ih =>
    intro isRoot b es q hc hr h
    rcases Nat.lt_or_ge es.length 2 with hl | hl
    · rcases es with _ | ⟨e, _ | ⟨e', es⟩⟩
      · have h : some (QTree.node (updateBounds b []) .nil .nil .nil .nil) = some q := h
        cases h
        simp [QTree.leaves, QTree.Bounded]
      · have h : some (QTree.leaf (updateBounds b [e]) e) = some q := h
        cases h
        exact ⟨.refl _, updateBounds_le b [e] e List.mem_cons_self⟩
      · simp at hl; omega
    · obtain ⟨c0, c1, c2, c3, h0, h1, h2, h3, rfl⟩ := subdivide_some hl h
      have child : ∀ {j c}, childTree fuel b es j = some c → c.leaves.Perm (childElems b es j) ∧ c.Bounded := by
        intro j c hj
        rw [childTree] at hj
        split at hj
        · rename_i he
          cases hj
          rw [List.isEmpty_iff.1 he]
          exact ⟨.refl _, trivial⟩
        · exact ih false _ _ c (fun e he => (mem_childElems he).2) (by simp) hj
      have hp : (QTree.node (if isRoot then b else updateBounds b es) c0 c1 c2 c3).leaves.Perm es :=
        ((((child h0).1.append (child h1).1).append (child h2).1).append (child h3).1).trans (childElems_perm hc)
      refine ⟨hp, ?_, (child h0).2, (child h1).2, (child h2).2, (child h3).2⟩
      intro e he
      have he' : e ∈ es := hp.mem_iff.1 he
      cases isRoot with
      | true => exact hr rfl e he'
      | false => exact updateBounds_le b es e he'

/-- more fuel changes nothing -/
theorem subdivide_mono : ∀ (fuel fuel' : Nat) (isRoot : Bool) (b : Box) (es : List Box) (q : QTree), fuel ≤ fuel' →
    subdivide fuel isRoot b es = some q → subdivide fuel' isRoot b es = some q := by
  intro fuel
  induction fuel with
  | zero => intro _ _ _ _ _ _ h; cases h
  | succ fuel ih =>
    intro fuel' isRoot b es q hf h
    obtain ⟨fuel', rfl⟩ : ∃ m, fuel' = m + 1 := ⟨fuel' - 1, by omega⟩
    rcases Nat.lt_or_ge es.length 2 with hl | hl
    · rcases es with _ | ⟨e, _ | ⟨e', es⟩⟩
      · exact h
      · exact h
      · simp at hl; omega
    · obtain ⟨c0, c1, c2, c3, h0, h1, h2, h3, rfl⟩ := subdivide_some hl h
      have child : ∀ {j c}, childTree fuel b es j = some c → childTree fuel' b es j = some c := by
        intro j c hj
        rw [childTree] at hj ⊢
        split
        · rename_i he
          rw [if_pos he] at hj; exact hj
        · rename_i he
          rw [if_neg he] at hj
          exact ih fuel' _ _ _ _ (by omega) hj
      rw [subdivide_two _ _ _ hl, child h0, child h1, child h2, child h3]

/-- `δ`-separated in one of the coordinates -/
def Sep (δ : Rat) (p q : P2) : Prop := δ ≤ |p.1 - q.1| ∨ δ ≤ |p.2 - q.2|

theorem childBox_width {b : Box} {j : Nat} {w : Rat}
    (hC : b.C = ((b.A.1 + b.B.1) / 2, (b.A.2 + b.B.2) / 2))
    (h1 : b.B.1 - b.A.1 ≤ w) (h2 : b.B.2 - b.A.2 ≤ w) :
    (childBox b j).B.1 - (childBox b j).A.1 ≤ w / 2 ∧ (childBox b j).B.2 - (childBox b j).A.2 ≤ w / 2 := by
  have e1 : b.C.1 = (b.A.1 + b.B.1) / 2 := by rw [hC]
  have e2 : b.C.2 = (b.A.2 + b.B.2) / 2 := by rw [hC]
  match j with
  | 0 => simp only [childBox, Box.updateCentroid, e1, e2]; constructor <;> linarith
  | 1 => simp only [childBox, Box.updateCentroid, e1, e2]; constructor <;> linarith
  | 2 => simp only [childBox, Box.updateCentroid, e1, e2]; constructor <;> linarith
  | _ + 3 => simp only [childBox, Box.updateCentroid, e1, e2]; constructor <;> linarith

theorem childBox_center (b : Box) (j : Nat) : (childBox b j).C =
    (((childBox b j).A.1 + (childBox b j).B.1) / 2, ((childBox b j).A.2 + (childBox b j).B.2) / 2) := by
  match j with
  | 0 => rfl
  | 1 => rfl
  | 2 => rfl
  | _ + 3 => rfl

theorem subdivide_terminates (δ : Rat) : ∀ (k : Nat) (isRoot : Bool) (b : Box) (es : List Box),
    b.C = ((b.A.1 + b.B.1) / 2, (b.A.2 + b.B.2) / 2) →
    b.B.1 - b.A.1 ≤ δ * 2 ^ k → b.B.2 - b.A.2 ≤ δ * 2 ^ k →
    (∀ e ∈ es, b.contains e.C = true) → es.Pairwise (fun e e' => Sep δ e.C e'.C) →
    ∃ q, subdivide (k + 1) isRoot b es = some q
  | 0, isRoot, b, es, _, h1, h2, hc, hs => by
    rcases es with _ | ⟨e, _ | ⟨e', es⟩⟩
    · exact ⟨_, rfl⟩
    · exact ⟨_, rfl⟩
    · exfalso
      have hs := List.rel_of_pairwise_cons hs (List.mem_cons_self (a := e'))
      have c1 := (contains_iff _ _).1 (hc e List.mem_cons_self)
      have c2 := (contains_iff _ _).1 (hc e' (List.mem_cons_of_mem _ List.mem_cons_self))
      simp only [pow_zero, mul_one] at h1 h2
      rcases hs with hs | hs
      · have : |e.C.1 - e'.C.1| < δ := abs_lt.2 ⟨by linarith [c1.1, c1.2.1, c2.1, c2.2.1], by linarith [c1.1, c1.2.1, c2.1, c2.2.1]⟩
        linarith
      · have : |e.C.2 - e'.C.2| < δ := abs_lt.2 ⟨by linarith [c1.2.2.1, c1.2.2.2, c2.2.2.1, c2.2.2.2], by linarith [c1.2.2.1, c1.2.2.2, c2.2.2.1, c2.2.2.2]⟩
        linarith
  | k + 1, isRoot, b, es, hC, h1, h2, hc, hs => by
    rcases Nat.lt_or_ge es.length 2 with hl | hl
    · rcases es with _ | ⟨e, _ | ⟨e', es⟩⟩
      · exact ⟨_, rfl⟩
      · exact ⟨_, rfl⟩
      · simp at hl; omega
    · have child : ∀ j, ∃ c, childTree (k + 1) b es j = some c := by
        intro j
        rw [childTree]
        split
        · exact ⟨_, rfl⟩
        · have hw := childBox_width (j := j) hC h1 h2
          have e2 : δ * 2 ^ (k + 1) / 2 = δ * 2 ^ k := by rw [pow_succ]; ring
          rw [e2] at hw
          exact subdivide_terminates δ k false _ _ (childBox_center b j) hw.1 hw.2 (fun e he => (mem_childElems he).2)
            (hs.sublist List.filter_sublist)
      obtain ⟨c0, h0⟩ := child 0
      obtain ⟨c1, h1⟩ := child 1
      obtain ⟨c2, h2⟩ := child 2
      obtain ⟨c3, h3⟩ := child 3
      rw [subdivide_two _ _ _ hl, h0, h1, h2, h3]
      exact ⟨_, rfl⟩

/-- two elements with one centroid are never separated -/
theorem subdivide_diverges : ∀ (fuel : Nat) (isRoot : Bool) (b : Box) (es : List Box) (p : P2),
    b.contains p = true → 2 ≤ (es.filter fun e => decide (e.C = p)).length → subdivide fuel isRoot b es = none
  | 0, _, _, _, _, _, _ => rfl
  | fuel + 1, isRoot, b, es, p, hp, h => by
    have hl : 2 ≤ es.length := h.trans (List.length_filter_le _ _)
    obtain ⟨j, hj, hf, hcj⟩ := childOf_some (b := b) (e := { Box.empty with C := p }) hp
    have hchild : childTree fuel b es j = none := by
      have hsub : (es.filter fun e => decide (e.C = p)) = ((childElems b es j).filter fun e => decide (e.C = p)) := by
        rw [childElems, List.filter_filter]
        refine List.filter_congr fun e _ => ?_
        by_cases he : e.C = p
        · have : childOf b e = childOf b { Box.empty with C := p } := by simp only [childOf, he]
          simp [he, this, hf]
        · simp [he]
      rw [hsub] at h
      have hne : (childElems b es j).isEmpty = false := by
        rcases hce : childElems b es j with _ | ⟨_, _⟩
        · rw [hce] at h; simp at h
        · rfl
      rw [childTree, hne]
      exact subdivide_diverges fuel false _ _ p hcj h
    rw [subdivide_two _ _ _ hl]
    have : j = 0 ∨ j = 1 ∨ j = 2 ∨ j = 3 := by omega
    rcases this with rfl | rfl | rfl | rfl
    · rw [hchild]
    · rw [hchild]; cases childTree fuel b es 0 <;> rfl
    · rw [hchild]; cases childTree fuel b es 0 <;> cases childTree fuel b es 1 <;> rfl
    · rw [hchild]; cases childTree fuel b es 0 <;> cases childTree fuel b es 1 <;> cases childTree fuel b es 2 <;> rfl

/-- `inside_triangle` and `mu` -/
theorem den_ne {t : Tri} (h : Nondeg t) : den t ≠ 0 := by
  intro h0; apply h
  rw [den] at h0
  linear_combination h0

theorem bary_of_inside {x : P2} {t : Tri} (h : insideTriangle x t = true) : IsBary x t (baryMu x t) := by
  rw [insideTriangle] at h
  split at h
  · cases h
  rename_i hd
  simp only [Bool.and_eq_true, decide_eq_true_eq] at h
  refine ⟨h.1.1, h.1.2, h.2, ?_, ?_, ?_⟩
  · simp only [baryMu]; ring
  · simp only [baryMu]; field_simp; rw [den]; ring
  · simp only [baryMu]; field_simp; rw [den]; ring

theorem inside_of_bary {x : P2} {t : Tri} (hd : Nondeg t) {m : Rat × Rat × Rat} (h : IsBary x t m) :
    insideTriangle x t = true ∧ baryMu x t = m := by
  obtain ⟨a, b, c⟩ := m
  obtain ⟨h0, h1, h2, hs, hx, hy⟩ := h
  simp only at h0 h1 h2 hs hx hy
  have hdn := den_ne hd
  have hc : c = 1 - a - b := by linarith
  have e0 : (baryMu x t).1 = a := by
    simp only [baryMu]; rw [div_eq_iff hdn, hx, hy, den, hc]; ring
  have e1 : (baryMu x t).2.1 = b := by
    simp only [baryMu]; rw [div_eq_iff hdn, hx, hy, den, hc]; ring
  have e2 : (baryMu x t).2.2 = c := by
    have : (baryMu x t).2.2 = 1 - (baryMu x t).1 - (baryMu x t).2.1 := rfl
    rw [this, e0, e1, hc]
  refine ⟨?_, Prod.ext e0 (Prod.ext e1 e2)⟩
  rw [insideTriangle, if_neg hdn, e0, e1, e2]
  simp [h0, h1, h2]

end Verif.Quad
