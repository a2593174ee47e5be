import Verif.ContourTree.Model
import Mathlib.Logic.Relation
import Mathlib.Data.List.Nodup
/-! C50: contour trees stay symmetric, and `reduce` removes exactly the regular nodes while keeping the ascending order of
the others. -/
namespace Verif.CT

/-- (specification) `u` is an upper link of `l` -/
def Tree.Up (t : Tree) (l u : Int) : Prop := u ∈ (t.upper l).getD []

/-- (specification) `l` is a lower link of `u` -/
def Tree.Low (t : Tree) (u l : Int) : Prop := l ∈ (t.lower u).getD []

/-- (specification) the two link maps describe the same arcs -/
def Tree.Symmetric (t : Tree) : Prop := ∀ l u, t.Up l u ↔ t.Low u l

theorem mem_put (m : Int → Option (List Int)) (i j x : Int) :
    x ∈ (put m i none j).getD [] ↔ j ≠ i ∧ x ∈ (m j).getD [] := by
  unfold put
  split <;> simp [*]

theorem mem_linkInsert (m : Int → Option (List Int)) (k v j x : Int) :
    x ∈ (linkInsert m k v j).getD [] ↔ (j = k ∧ x = v) ∨ x ∈ (m j).getD [] := by
  unfold linkInsert put
  split
  · rename_i h; subst h; simp
  · rename_i h; simp [h]

theorem mem_linkErase (m : Int → Option (List Int)) (k v j x : Int) :
    x ∈ (linkErase m k v j).getD [] ↔ x ∈ (m j).getD [] ∧ ¬ (j = k ∧ x = v) := by
  unfold linkErase put
  split
  · rename_i h; subst h; simp
  · rename_i h; simp [h]

theorem degree_one (o : Option (List Int)) (h : (o.getD []).length = 1) : ∃ a, o = some [a] := by
  cases o with
  | none => simp at h
  | some l =>
    obtain ⟨a, ha⟩ := List.length_eq_one_iff.1 h
    exact ⟨a, by simp at ha; rw [ha]⟩

theorem degree_zero (o : Option (List Int)) (h : (o.getD []).length = 0) : o.getD [] = [] := List.length_eq_zero_iff.1 h

/-- what `reduce_node` does to a node with one upper and one lower link -/
theorem reduceNode_regular (t : Tree) (hs : t.Symmetric) (i : Int) (hu : t.upperDegree i = 1) (hl : t.lowerDegree i = 1) :
    ∃ lo hi t', t.reduceNode i = some (true, t') ∧ t.upper i = some [hi] ∧ t.lower i = some [lo] ∧ t'.Symmetric ∧
      t'.nodes = t.nodes.filter (· ≠ i) ∧
      (∀ l u, t'.Up l u ↔ l ≠ i ∧ u ≠ i ∧ (t.Up l u ∨ (l = lo ∧ u = hi))) ∧
      t'.upper = put (linkInsert (linkErase t.upper lo i) lo hi) i none ∧
      t'.lower = put (linkInsert (linkErase t.lower hi i) hi lo) i none := by
  obtain ⟨hi, hhi⟩ := degree_one _ hu
  obtain ⟨lo, hlo⟩ := degree_one _ hl
  have F1 : ∀ u, t.Up i u ↔ u = hi := by intro u; simp [Tree.Up, hhi]
  have F2 : ∀ l, t.Up l i ↔ l = lo := by intro l; rw [hs]; simp [Tree.Low, hlo]
  have hred : t.reduceNode i = some (true, { t with lower := linkInsert (linkErase t.lower hi i) hi lo,
                                                    upper := linkInsert (linkErase t.upper lo i) lo hi }.drop i) := by
    unfold Tree.reduceNode
    simp only [hu, hl, Tree.upperNode, Tree.lowerNode, hhi, hlo]
    simp
  have hup : ∀ l u, ((⟨t.nodes, linkInsert (linkErase t.upper lo i) lo hi,
      linkInsert (linkErase t.lower hi i) hi lo⟩ : Tree).drop i).Up l u ↔
      l ≠ i ∧ u ≠ i ∧ (t.Up l u ∨ (l = lo ∧ u = hi)) := by
    intro l u
    simp only [Tree.Up, Tree.drop, mem_put, mem_linkInsert, mem_linkErase]
    have f1 := F1 u
    have f2 := F2 l
    have f1i := F1 i
    have f2i := F2 i
    simp only [Tree.Up] at f1 f2 f1i f2i
    by_cases hli : l = i
    · simp [hli]
    · by_cases hui : u = i
      · subst hui
        rw [f2]
        simp only [hli, not_false_eq_true, ne_eq, not_true_eq_false, false_and, and_false, iff_false, true_and,
          not_or, not_and]
        refine ⟨fun h1 h2 => ?_, fun h => by tauto⟩
        have := f1i.2 h2
        have h3 := f2i.1 this
        exact hli (h1.trans h3.symm)
      · simp only [hli, hui, ne_eq, not_false_eq_true, and_false, and_true, true_and]
        tauto
  refine ⟨lo, hi, _, hred, hhi, hlo, ?_, rfl, hup, rfl, rfl⟩
  intro l u
  rw [hup]
  simp only [Tree.Low, Tree.drop, mem_put, mem_linkInsert, mem_linkErase]
  have f1 := F1 u
  have f2 := F2 l
  have f1i := F1 i
  have f2i := F2 i
  have g := hs l u
  have g1 := hs i u
  have g2 := hs l i
  simp only [Tree.Low] at g g1 g2
  by_cases hui : u = i
  · simp [hui]
  · by_cases hli : l = i
    · subst hli
      rw [g1] at f1
      rw [f1]
      simp only [hui, not_false_eq_true, ne_eq, not_true_eq_false, false_and, and_false, false_iff, true_and,
        not_or, not_and]
      refine ⟨fun h1 h2 => ?_, fun h => by tauto⟩
      have := f2i.2 h2
      have h3 := f1i.1 this
      exact hui (h1.trans h3.symm)
    · simp only [hli, hui, ne_eq, not_false_eq_true, and_false, and_true, true_and, g]
      tauto

/-- `reduce_node` keeps the links symmetric -/
theorem reduceNode_symmetric (t : Tree) (hs : t.Symmetric) (i : Int) (b : Bool) (t' : Tree)
    (h : t.reduceNode i = some (b, t')) : t'.Symmetric ∧ (t'.nodes = t.nodes ∨ t'.nodes = t.nodes.filter (· ≠ i)) := by
  by_cases h0 : t.upperDegree i > 1 ∨ t.lowerDegree i > 1
  · unfold Tree.reduceNode at h
    simp only [h0, if_true, Option.some.injEq, Prod.mk.injEq] at h
    rw [← h.2]
    exact ⟨hs, .inl rfl⟩
  · have h0' := not_or.1 h0
    rcases Nat.lt_or_ge (t.upperDegree i) 1 with hu | hu
    · have hu0 : t.upperDegree i = 0 := by omega
      have hue : ∀ u, ¬ t.Up i u := by intro u; simp [Tree.Up, degree_zero _ hu0]
      rcases Nat.lt_or_ge (t.lowerDegree i) 1 with hl | hl
      · -- no links at all
        have hl0 : t.lowerDegree i = 0 := by omega
        have hle : ∀ l, ¬ t.Up l i := by intro l; rw [hs]; simp [Tree.Low, degree_zero _ hl0]
        unfold Tree.reduceNode at h
        simp only [hu0, hl0] at h
        simp only [gt_iff_lt, Nat.not_lt_zero, or_self, if_false, Nat.zero_ne_one, false_and, and_false] at h
        cases hun : t.upperNode i with
        | none => rw [hun] at h; simp at h
        | some hi =>
          cases hln : t.lowerNode i with
          | none => rw [hun, hln] at h; simp at h
          | some lo =>
            have e1 : hi = -1 := by
              unfold Tree.upperNode at hun
              cases hx : t.upper i with
              | none => rw [hx] at hun; simpa using hun.symm
              | some l =>
                have := degree_zero _ hu0
                rw [hx] at this hun
                simp at this
                rw [this] at hun
                simp at hun
            have e2 : lo = -1 := by
              unfold Tree.lowerNode at hln
              cases hx : t.lower i with
              | none => rw [hx] at hln; simpa using hln.symm
              | some l =>
                have := degree_zero _ hl0
                rw [hx] at this hln
                simp at this
                rw [this] at hln
                simp at hln
            subst e1 e2
            rw [hun, hln] at h
            simp only [Option.bind_some, Option.map_some, Option.some.injEq, Prod.mk.injEq] at h
            rw [← h.2]
            refine ⟨?_, .inr rfl⟩
            intro l u
            simp only [Tree.Up, Tree.Low, Tree.drop, mem_put, mem_linkInsert, mem_linkErase]
            have g := hs l u
            have a1 := hue u
            have a2 := hle l
            have g1 := hs i u
            have g2 := hs l i
            simp only [Tree.Up, Tree.Low] at g a1 a2 g1 g2
            by_cases hli : l = i
            · subst hli
              simp only [ne_eq, not_true_eq_false, false_and, false_iff, not_and, not_or]
              intro h1
              refine ⟨fun h2 => ?_, ?_⟩
              · intro h3; omega
              · intro h3; exact absurd (g1.2 h3) a1
            · by_cases hui : u = i
              · subst hui
                simp only [ne_eq, not_true_eq_false, false_and, iff_false, not_and, not_or]
                intro h1
                refine ⟨fun h2 h3 => by omega, fun h3 => absurd h3 a2⟩
              · simp only [hli, hui, ne_eq, not_false_eq_true, true_and, and_false, and_true, g]
                tauto
      · have hl1 : t.lowerDegree i = 1 := by omega
        obtain ⟨lo, hlo⟩ := degree_one _ hl1
        have hle : ∀ l, t.Up l i ↔ l = lo := by intro l; rw [hs]; simp [Tree.Low, hlo]
        unfold Tree.reduceNode at h
        simp only [hu0, hl1, Tree.lowerNode, hlo] at h
        simp at h
        rw [← h.2]
        refine ⟨?_, .inr rfl⟩
        intro l u
        simp only [Tree.Up, Tree.Low, Tree.drop, mem_put, mem_linkErase]
        have g := hs l u
        have a1 := hue u
        have a2 := hle l
        have g1 := hs i u
        simp only [Tree.Up, Tree.Low] at g a1 a2 g1
        by_cases hli : l = i
        · subst hli; tauto
        · by_cases hui : u = i
          · subst hui; tauto
          · tauto
    · have hu1 : t.upperDegree i = 1 := by omega
      rcases Nat.lt_or_ge (t.lowerDegree i) 1 with hl | hl
      · have hl0 : t.lowerDegree i = 0 := by omega
        have hle : ∀ l, ¬ t.Up l i := by intro l; rw [hs]; simp [Tree.Low, degree_zero _ hl0]
        obtain ⟨hi, hhi⟩ := degree_one _ hu1
        have hue : ∀ u, t.Up i u ↔ u = hi := by intro u; simp [Tree.Up, hhi]
        unfold Tree.reduceNode at h
        simp only [hu1, hl0, Tree.upperNode, hhi] at h
        simp at h
        rw [← h.2]
        refine ⟨?_, .inr rfl⟩
        intro l u
        simp only [Tree.Up, Tree.Low, Tree.drop, mem_put, mem_linkErase]
        have g := hs l u
        have a1 := hue u
        have a2 := hle l
        have g2 := hs i u
        simp only [Tree.Up, Tree.Low] at g a1 a2 g2
        by_cases hui : u = i
        · subst hui; tauto
        · by_cases hli : l = i
          · subst hli; tauto
          · tauto
      · obtain ⟨lo, hi, t1, h1, _, _, h2, h3, _⟩ := reduceNode_regular t hs i hu1 (by omega)
        rw [h1] at h
        simp only [Option.some.injEq, Prod.mk.injEq] at h
        rw [← h.2]
        exact ⟨h2, .inr h3⟩

/-- ascending paths between other nodes survive the removal of a regular node -/
theorem paths_reduceNode (t t' : Tree) (i lo hi : Int) (hF1 : ∀ u, t.Up i u ↔ u = hi) (hF2 : ∀ l, t.Up l i ↔ l = lo)
    (hup : ∀ l u, t'.Up l u ↔ l ≠ i ∧ u ≠ i ∧ (t.Up l u ∨ (l = lo ∧ u = hi))) (a b : Int) (ha : a ≠ i) (hb : b ≠ i) :
    Relation.TransGen t'.Up a b ↔ Relation.TransGen t.Up a b := by
  have hback : ∀ l u, t'.Up l u → Relation.TransGen t.Up l u := by
    intro l u h
    rcases ((hup l u).1 h).2.2 with h | ⟨h1, h2⟩
    · exact .single h
    · subst h1 h2
      exact .tail (.single ((hF2 l).2 rfl)) ((hF1 u).2 rfl)
  have htgt : ∀ w, Relation.TransGen t'.Up a w → w ≠ i := by
    intro w h
    cases h with
    | single h => exact ((hup _ _).1 h).2.1
    | tail _ h => exact ((hup _ _).1 h).2.1
  constructor
  · intro h
    induction h with
    | single h => exact hback _ _ h
    | tail h1 h2 ih =>
      rename_i w v
      exact (ih (htgt w h1)).trans (hback _ _ h2)
  · intro h
    have key : ∀ w, Relation.TransGen t.Up a w →
        (w ≠ i → Relation.TransGen t'.Up a w) ∧ (w = i → a = lo ∨ Relation.TransGen t'.Up a lo) := by
      intro w h
      induction h with
      | single h =>
        rename_i w
        refine ⟨fun hw => .single ((hup _ _).2 ⟨ha, hw, .inl h⟩), fun hw => ?_⟩
        subst hw
        exact .inl ((hF2 a).1 h)
      | tail h1 h2 ih =>
        rename_i w v
        by_cases hw : w = i
        · subst hw
          have hv : v = hi := (hF1 v).1 h2
          refine ⟨fun hvw => ?_, fun hvw => ?_⟩
          · rcases ih.2 rfl with h | h
            · subst h
              exact .single ((hup _ _).2 ⟨ha, hvw, .inr ⟨rfl, hv⟩⟩)
            · exact .tail h ((hup _ _).2 ⟨htgt _ h, hvw, .inr ⟨rfl, hv⟩⟩)
          · exact ih.2 rfl
        · have h3 := ih.1 hw
          refine ⟨fun hvi => .tail h3 ((hup _ _).2 ⟨hw, hvi, .inl h2⟩), fun hvi => ?_⟩
          subst hvi
          have : w = lo := (hF2 w).1 h2
          subst this
          exact .inr h3
    exact (key b h).1 hb

/-- the removal loop of `reduce` -/
theorem reduce_loop (rs : List Int) (hnd : rs.Nodup) (t : Tree) (hs : t.Symmetric)
    (hd : ∀ i ∈ rs, t.upperDegree i = 1 ∧ t.lowerDegree i = 1) :
    ∃ t', rs.foldlM (fun t i => (t.reduceNode i).map (·.2)) t = some t' ∧ t'.Symmetric ∧
      t'.nodes = t.nodes.filter (fun i => i ∉ rs) ∧
      (∀ a b, a ∉ rs → b ∉ rs → (Relation.TransGen t'.Up a b ↔ Relation.TransGen t.Up a b)) ∧
      (∀ i ∈ rs, ∀ j, ¬ t'.Up i j ∧ ¬ t'.Up j i) := by
  induction rs generalizing t with
  | nil => exact ⟨t, rfl, hs, by simp, fun _ _ _ _ => Iff.rfl, by simp⟩
  | cons i rs ih =>
    obtain ⟨hni, hnd⟩ := List.nodup_cons.1 hnd
    obtain ⟨hu, hl⟩ := hd i (by simp)
    obtain ⟨lo, hi, t1, h1, hhi, hlo, h2, h3, h4, hU, hL⟩ := reduceNode_regular t hs i hu hl
    have hd1 : ∀ j ∈ rs, t1.upperDegree j = 1 ∧ t1.lowerDegree j = 1 := by
      intro j hj
      have hji : j ≠ i := fun e => hni (e ▸ hj)
      obtain ⟨du, dl⟩ := hd j (by simp [hj])
      obtain ⟨x, hx⟩ := degree_one _ du
      obtain ⟨y, hy⟩ := degree_one _ dl
      constructor
      · unfold Tree.upperDegree
        rw [hU]
        by_cases hjl : j = lo
        · subst hjl
          have hxi : x = i := by
            have : t.Low i j := by simp [Tree.Low, hlo]
            have := (hs j i).2 this
            simp [Tree.Up, hx] at this
            exact this.symm
          subst hxi
          simp [put, hji, linkInsert, linkErase, hx, setInsert]
        · simp [put, hji, linkInsert, linkErase, hx, hjl]
      · unfold Tree.lowerDegree
        rw [hL]
        by_cases hjl : j = hi
        · subst hjl
          have hyi : y = i := by
            have : t.Up i j := by simp [Tree.Up, hhi]
            have := (hs i j).1 this
            simp [Tree.Low, hy] at this
            exact this.symm
          subst hyi
          simp [put, hji, linkInsert, linkErase, hy, setInsert]
        · simp [put, hji, linkInsert, linkErase, hy, hjl]
    obtain ⟨t', g1, g2, g3, g4, g5⟩ := ih hnd t1 h2 hd1
    have F1 : ∀ u, t.Up i u ↔ u = hi := by intro u; simp [Tree.Up, hhi]
    have F2 : ∀ l, t.Up l i ↔ l = lo := by intro l; rw [hs]; simp [Tree.Low, hlo]
    have hend : ∀ j, ¬ t'.Up i j ∧ ¬ t'.Up j i := by
      have hno : ∀ j, ¬ t1.Up i j ∧ ¬ t1.Up j i := by
        intro j
        rw [h4, h4]
        exact ⟨fun h => h.1 rfl, fun h => h.2.1 rfl⟩
      intro j
      constructor
      · intro h
        by_cases hj : j ∈ rs
        · exact (g5 j hj i).2 h
        · have := (g4 i j hni hj).1 (.single h)
          obtain ⟨w, hw, _⟩ := (Relation.TransGen.head'_iff.1 this)
          exact (hno w).1 hw
      · intro h
        by_cases hj : j ∈ rs
        · exact (g5 j hj i).1 h
        · have := (g4 j i hj hni).1 (.single h)
          obtain ⟨w, _, hw⟩ := (Relation.TransGen.tail'_iff.1 this)
          exact (hno w).2 hw
    refine ⟨t', ?_, g2, ?_, ?_, ?_⟩
    · rw [List.foldlM_cons, h1]
      exact g1
    · rw [g3, h3, List.filter_filter]
      congr 1
      funext x
      simp only [List.mem_cons, not_or, decide_not, Bool.decide_and]
      by_cases hx : x = i <;> simp [hx]
    · intro a b ha hb
      simp only [List.mem_cons, not_or] at ha hb
      rw [g4 a b ha.2 hb.2]
      exact paths_reduceNode t t1 i lo hi F1 F2 h4 a b ha.1 hb.1
    · intro j hj
      rcases List.mem_cons.1 hj with h | h
      · subst h; exact hend
      · exact g5 j h

/-- (proof device) what every history keeps -/
def Tree.Good (t : Tree) : Prop := t.Symmetric ∧ t.nodes.Pairwise (· < ·)

theorem step_good (t : Tree) (ht : t.Good) (op : Op) (t' : Tree) (h : t.step op = some t') : t'.Good := by
  obtain ⟨hs, hn⟩ := ht
  cases op with
  | addNode i =>
    simp only [Tree.step, Option.some.injEq] at h
    subst h
    exact ⟨hs, StrictSorted.setInsert hn⟩
  | addArc lo hi =>
    simp only [Tree.step, Option.some.injEq] at h
    subst h
    refine ⟨fun l u => ?_, hn⟩
    have := hs l u
    simp only [Tree.Up, Tree.Low, Tree.addArc, mem_linkInsert] at this ⊢
    rw [this]; tauto
  | reduceNode i =>
    simp only [Tree.step] at h
    cases hr : t.reduceNode i with
    | none => rw [hr] at h; simp at h
    | some r =>
      rw [hr] at h
      simp only [Option.map_some, Option.some.injEq] at h
      obtain ⟨b, t1⟩ := r
      simp only at h
      subst h
      obtain ⟨h1, h2⟩ := reduceNode_symmetric t hs i b t1 hr
      refine ⟨h1, ?_⟩
      rcases h2 with h2 | h2 <;> rw [h2]
      · exact hn
      · exact List.Pairwise.sublist List.filter_sublist hn
  | reduce =>
    simp only [Tree.step, Tree.reduce] at h
    obtain ⟨t1, g1, g2, g3, _⟩ := reduce_loop (t.nodes.filter fun i => t.upperDegree i = 1 ∧ t.lowerDegree i = 1)
      (List.Nodup.filter _ (hn.imp fun h => ne_of_lt h)) t hs (by intro i hi; simpa using (List.mem_filter.1 hi).2)
    rw [g1] at h
    simp only [Option.some.injEq] at h
    subst h
    refine ⟨g2, ?_⟩
    rw [g3]
    exact List.Pairwise.sublist List.filter_sublist hn

/-- **C50 (symmetry).** After any sequence of `add_node`, `add_arc`, `reduce_node` and `reduce` that does not run into
undefined behaviour, `u` is an upper link of `l` exactly if `l` is a lower link of `u`. -/
theorem C50_symmetric (ops : List Op) (t : Tree) (h : ops.foldlM (fun t op => t.step op) ({} : Tree) = some t) :
    ∀ l u, u ∈ (t.upper l).getD [] ↔ l ∈ (t.lower u).getD [] := by
  have key : ∀ (ops : List Op) (t0 : Tree), t0.Good → ops.foldlM (fun t op => t.step op) t0 = some t → t.Good := by
    intro ops
    induction ops with
    | nil => intro t0 h0 h; simp at h; subst h; exact h0
    | cons op ops ih =>
      intro t0 h0 h
      rw [List.foldlM_cons] at h
      cases hs : t0.step op with
      | none => rw [hs] at h; simp at h
      | some t1 =>
        rw [hs] at h
        exact ih t1 (step_good t0 h0 op t1 hs) h
  exact (key ops {} ⟨fun l u => by simp [Tree.Up, Tree.Low], by simp⟩ h).1

/-- **C50 (reduce).** In every state that a history reaches, `reduce()` has no undefined behaviour, removes exactly the nodes
with one upper and one lower link together with all their links, keeps every other node, and for kept nodes there is an
ascending path from one to the other exactly if there was one before. -/
theorem C50_reduce (ops : List Op) (t : Tree) (h : ops.foldlM (fun t op => t.step op) ({} : Tree) = some t) :
    ∃ t', t.reduce = some t' ∧
      (∀ i, i ∈ t'.nodes ↔ i ∈ t.nodes ∧ ¬ (t.upperDegree i = 1 ∧ t.lowerDegree i = 1)) ∧
      (∀ i ∈ t.nodes, i ∉ t'.nodes → t'.upperDegree i = 0 ∧ t'.lowerDegree i = 0) ∧
      (∀ a ∈ t'.nodes, ∀ b ∈ t'.nodes,
        (Relation.TransGen (fun l u => u ∈ (t'.upper l).getD []) a b ↔
         Relation.TransGen (fun l u => u ∈ (t.upper l).getD []) a b)) := by
  have hgood : t.Good := by
    have key : ∀ (ops : List Op) (t0 : Tree), t0.Good → ops.foldlM (fun t op => t.step op) t0 = some t → t.Good := by
      intro ops
      induction ops with
      | nil => intro t0 h0 h; simp at h; subst h; exact h0
      | cons op ops ih =>
        intro t0 h0 h
        rw [List.foldlM_cons] at h
        cases hs : t0.step op with
        | none => rw [hs] at h; simp at h
        | some t1 =>
          rw [hs] at h
          exact ih t1 (step_good t0 h0 op t1 hs) h
    exact key ops {} ⟨fun l u => by simp [Tree.Up, Tree.Low], by simp⟩ h
  obtain ⟨hs, hn⟩ := hgood
  obtain ⟨t1, g1, g2, g3, g4, g5⟩ := reduce_loop (t.nodes.filter fun i => t.upperDegree i = 1 ∧ t.lowerDegree i = 1)
    (List.Nodup.filter _ (hn.imp fun h => ne_of_lt h)) t hs (by intro i hi; simpa using (List.mem_filter.1 hi).2)
  have hnodes : ∀ i, i ∈ t1.nodes ↔ i ∈ t.nodes ∧ ¬ (t.upperDegree i = 1 ∧ t.lowerDegree i = 1) := by
    intro i
    rw [g3]
    simp only [List.mem_filter, decide_eq_true_eq, not_and]
    tauto
  refine ⟨t1, g1, hnodes, fun i hi hni => ?_, fun a ha b hb => ?_⟩
  · have hrem : i ∈ t.nodes.filter fun i => t.upperDegree i = 1 ∧ t.lowerDegree i = 1 := by
      rw [hnodes] at hni
      simp only [List.mem_filter, decide_eq_true_eq]
      tauto
    unfold Tree.upperDegree Tree.lowerDegree
    constructor
    · rw [List.length_eq_zero_iff, List.eq_nil_iff_forall_not_mem]
      intro x hx
      exact (g5 i hrem x).1 hx
    · rw [List.length_eq_zero_iff, List.eq_nil_iff_forall_not_mem]
      intro x hx
      exact (g5 i hrem x).2 ((g2 x i).2 hx)
  · refine g4 a b ?_ ?_
    · have := (hnodes a).1 ha
      simp only [List.mem_filter, decide_eq_true_eq]; tauto
    · have := (hnodes b).1 hb
      simp only [List.mem_filter, decide_eq_true_eq]; tauto

/-- **C50 (reduce_node on a branching node)** returns false and changes nothing. -/
theorem C50_branching (t : Tree) (i : Int) (h : t.upperDegree i > 1 ∨ t.lowerDegree i > 1) :
    t.reduceNode i = some (false, t) := by
  unfold Tree.reduceNode
  simp only [h, if_true]

/-- **C50 (finding).** `reduce_node` on an isolated node invents an arc from -1 to -1; on a node whose only arc was reduced
away before it dereferences the beginning of an empty set. -/
theorem C50_isolated :
    (∃ t', (({} : Tree).addNode 5).reduceNode 5 = some (true, t') ∧ (t'.upper (-1)).getD [] = [-1]) ∧
    (∃ t', ((({} : Tree).addArc 1 2).reduceNode 1) = some (true, t') ∧ t'.reduceNode 2 = none) := by
  refine ⟨⟨_, rfl, by decide +kernel⟩, ⟨_, rfl, by decide +kernel⟩⟩

/-- A tree with a regular node: 1 - 2 - 3 and 1 - 4. -/
example : ((({} : Tree).addNode 1).addNode 2 |>.addNode 3 |>.addNode 4 |>.addArc 1 2 |>.addArc 2 3 |>.addArc 1 4).reduce.map
    (fun t => (t.nodes, t.upper 1, t.upper 2, t.lower 3)) =
    some ([1, 3, 4], some [3, 4], none, some [1]) := by decide +kernel

end Verif.CT
