import Verif.TrackGraph.Lemmas
/-! Proofs about `detect_events`. -/
namespace Verif.TG
open Relation Verif.Gr
variable {T L : Type} [LinearOrder T] [LinearOrder L]

theorem GInv.mem_intervalNodes {ops : List (Op T L)} {g : Graph T L} (h : GInv ops g) (t0 t1 : T) (n : Node T L) :
    n ∈ g.intervalNodes t0 t1 ↔ Present ops n ∧ (time n = t0 ∨ time n = t1) := by
  unfold Graph.intervalNodes
  rw [foldl_setInsert_mem, foldl_setInsert_mem, h.nodes, h.nodes]
  simp; tauto

theorem GInv.linked_interval {ops : List (Op T L)} {g : Graph T L} (h : GInv ops g) (hf : Forward ops)
    {t0 t1 : T} (ht : t0 < t1) (x y : Node T L) :
    Linked (g.intervalNbs t0) (g.intervalNodes t0 t1) x y ↔ IntervalLinked ops t0 t1 x y := by
  have fw : ∀ a b, Edge ops a b → time a < time b := fun a b hab => hf _ _ _ _ hab
  constructor
  · refine eqvGen_mono_of (fun a b hab => ?_)
    obtain ⟨h1, h2, h3⟩ := hab
    rw [h.mem_intervalNodes] at h1 h2
    unfold Graph.intervalNbs at h3
    split at h3
    · rename_i ha
      have he := (h.right _ _).1 h3
      have := fw _ _ he
      refine .rel _ _ ⟨he, ha, ?_⟩
      rcases h2.2 with hb | hb
      · rw [ha, hb] at this; exact absurd this (lt_irrefl _)
      · exact hb
    · rename_i ha
      have he := (h.left _ _).1 h3
      have := fw _ _ he
      have ha1 : time a = t1 := by rcases h1.2 with h | h; exact absurd h ha; exact h
      refine .symm _ _ (.rel _ _ ⟨he, ?_, ha1⟩)
      rcases h2.2 with hb | hb
      · exact hb
      · rw [ha1, hb] at this; exact absurd this (lt_irrefl _)
  · refine eqvGen_mono_of (fun a b hab => ?_)
    obtain ⟨h1, h2, h3⟩ := hab
    refine .rel _ _ ⟨(h.mem_intervalNodes _ _ _).2 ⟨Or.inr (Or.inl ⟨b, h1⟩), Or.inl h2⟩,
      (h.mem_intervalNodes _ _ _).2 ⟨Or.inr (Or.inr ⟨a, h1⟩), Or.inr h3⟩, ?_⟩
    unfold Graph.intervalNbs
    rw [if_pos h2]
    exact (h.right _ _).2 h1

theorem foldl_label_mem (l : List (Node T L)) : ∀ (acc : List L) (x : L),
    x ∈ l.foldl (fun acc n => setInsert (label n) acc) acc ↔ x ∈ acc ∨ ∃ n ∈ l, label n = x := by
  induction l with
  | nil => intro acc x; simp
  | cons a l ih =>
    intro acc x
    rw [List.foldl_cons, ih, mem_setInsert]
    simp only [List.mem_cons, exists_eq_or_imp]
    constructor
    · rintro ((rfl | h) | h)
      · exact Or.inr (Or.inl rfl)
      · exact Or.inl h
      · exact Or.inr (Or.inr h)
    · rintro (h | rfl | h)
      · exact Or.inl (Or.inr h)
      · exact Or.inl (Or.inl rfl)
      · exact Or.inr h

theorem foldl_label_sorted (l : List (Node T L)) : ∀ (acc : List L), StrictSorted acc →
    StrictSorted (l.foldl (fun acc n => setInsert (label n) acc) acc) := by
  induction l with
  | nil => intro acc h; exact h
  | cons a l ih => intro acc h; exact ih _ h.setInsert

theorem foldl_label_length {l : List (Node T L)} {t : T} (ht : ∀ n ∈ l, time n = t) (hn : l.Nodup) :
    (l.foldl (fun acc n => setInsert (label n) acc) []).length = l.length := by
  have h1 : (l.map label).Nodup := by
    refine (List.nodup_map_iff_inj_on hn).2 (fun a ha b hb hab => ?_)
    exact node_ext (by rw [ht a ha, ht b hb]) hab
  have h2 := (foldl_label_sorted l [] (by simp [StrictSorted])).nodup
  have := (List.perm_ext_iff_of_nodup h2 h1).2 (fun x => by rw [foldl_label_mem]; simp)
  rw [this.length_eq, List.length_map]

theorem mkEvent_lengths {t0 t1 : T} {c : List (Node T L)} (ht : ∀ n ∈ c, time n = t0 ∨ time n = t1)
    (hn : c.Nodup) :
    (mkEvent t0 t1 c).lhs.length = (c.filter (fun n => decide (time n = t0))).length ∧
    (mkEvent t0 t1 c).rhs.length = (c.filter (fun n => decide (time n ≠ t0))).length := by
  constructor
  · exact foldl_label_length (t := t0) (by intro n h; simpa using (List.mem_filter.1 h).2) (hn.filter _)
  · refine foldl_label_length (t := t1) ?_ (hn.filter _)
    intro n h
    have h1 := (List.mem_filter.1 h).2
    simp only [decide_eq_true_eq] at h1
    rcases ht n (List.mem_filter.1 h).1 with h2 | h2
    · exact absurd h2 h1
    · exact h2

theorem inEvent_mkEvent {t0 t1 : T} (hne : t0 ≠ t1) {c : List (Node T L)}
    (ht : ∀ n ∈ c, time n = t0 ∨ time n = t1) (n : Node T L) : InEvent (mkEvent t0 t1 c) t0 t1 n ↔ n ∈ c := by
  unfold InEvent mkEvent
  simp only [foldl_label_mem, List.not_mem_nil, false_or, List.mem_filter, decide_eq_true_eq]
  constructor
  · rintro (⟨h1, m, ⟨h2, h3⟩, h4⟩ | ⟨h1, m, ⟨h2, h3⟩, h4⟩)
    · rw [← node_ext (h3.trans h1.symm) h4]; exact h2
    · have : time m = t1 := by rcases ht m h2 with h | h; exact absurd h h3; exact h
      rw [← node_ext (this.trans h1.symm) h4]; exact h2
  · intro h
    rcases ht n h with h1 | h1
    · exact Or.inl ⟨h1, n, ⟨h, h1⟩, rfl⟩
    · exact Or.inr ⟨h1, n, ⟨h, by rw [h1]; exact hne.symm⟩, rfl⟩

theorem eqvGen_step {α : Type} {r : α → α → Prop} {x y : α} (h : EqvGen r x y) :
    x = y ∨ (∃ z, r x z ∨ r z x) ∧ (∃ z, r y z ∨ r z y) := by
  induction h with
  | rel a b h => exact Or.inr ⟨⟨b, Or.inl h⟩, ⟨a, Or.inr h⟩⟩
  | refl => exact Or.inl rfl
  | symm a b _ ih =>
    rcases ih with rfl | ⟨h1, h2⟩
    · exact Or.inl rfl
    · exact Or.inr ⟨h2, h1⟩
  | trans a b c _ _ i1 i2 =>
    rcases i1 with rfl | ⟨h1, h2⟩
    · exact i2
    · rcases i2 with rfl | ⟨h3, h4⟩
      · exact Or.inr ⟨h1, h2⟩
      · exact Or.inr ⟨h1, h4⟩

theorem filter_lengths {α : Type} (p : α → Bool) (l : List α) :
    (l.filter p).length + (l.filter (fun x => !p x)).length = l.length := by
  induction l with
  | nil => rfl
  | cons a l ih =>
    simp only [List.filter_cons]
    cases p a <;> simp <;> omega

theorem detect2_spec {ops : List (Op T L)} {g : Graph T L} (hg : GInv ops g) (hf : Forward ops)
    {t0 t1 : T} (ht : t0 < t1) :
    ∃ evs, g.detectEvents2 t0 t1 = some { g with
        times := setInsert t1 (setInsert t0 g.times)
        events := fun t => if t = t0 then g.events t ++ evs else g.events t } ∧
      EventsFor ops t0 t1 evs := by
  obtain ⟨comps, e, hp⟩ := extractCC_spec (g.intervalNbs t0) (g.intervalNodes t0 t1)
  have hne : t0 ≠ t1 := ne_of_lt ht
  have hct : ∀ c ∈ comps, ∀ n ∈ c, Present ops n ∧ (time n = t0 ∨ time n = t1) :=
    fun c hc n hn => (hg.mem_intervalNodes _ _ _).1 (hp.only c hc n hn)
  have hcl : ∀ c ∈ comps, ∀ x ∈ c, ∀ y, (y ∈ c ↔ (Present ops y ∧ (time y = t0 ∨ time y = t1)) ∧
      IntervalLinked ops t0 t1 x y) := by
    intro c hc x hx y
    constructor
    · intro hy
      refine ⟨hct c hc y hy, ?_⟩
      rw [← hg.linked_interval hf ht, ← hp.classes c hc x hx y (hp.only c hc y hy)]
      exact hy
    · rintro ⟨h1, h2⟩
      rw [hp.classes c hc x hx y ((hg.mem_intervalNodes _ _ _).2 h1), hg.linked_interval hf ht]
      exact h2
  have hin : ∀ c ∈ comps, ∀ n, InEvent (mkEvent t0 t1 c) t0 t1 n ↔ n ∈ c :=
    fun c hc n => inEvent_mkEvent hne (fun n hn => (hct c hc n hn).2) n
  -- endpoints of interval edges are in the interval
  have hend : ∀ x y, x ≠ y → IntervalLinked ops t0 t1 x y → ∃ z, ((Edge ops x z ∧ time x = t0 ∧ time z = t1) ∨
      (Edge ops z x ∧ time z = t0 ∧ time x = t1)) := by
    intro x y hxy h
    rcases eqvGen_step h with h | ⟨h, _⟩
    · exact absurd h hxy
    · exact h
  -- components of size two are continuations
  have htwo : ∀ c ∈ comps, ∀ n ∈ c, (c.length = 2 ↔ Continues ops t0 t1 n) := by
    intro c hc n hn
    have hnd := hp.nodup c hc
    constructor
    · intro h2
      have key : ∀ x y, x ≠ y → (∀ m, m ∈ c ↔ m = x ∨ m = y) → (n = x ∨ n = y) → Continues ops t0 t1 n := by
        intro x y hxy hm hnxy
        have hx : x ∈ c := (hm x).2 (Or.inl rfl)
        have hy : y ∈ c := (hm y).2 (Or.inr rfl)
        have hl := ((hcl c hc x hx y).1 hy).2
        have hall : ∀ m, IntervalLinked ops t0 t1 n m → m = x ∨ m = y := by
          intro m hm'
          by_cases hmn : m = n
          · rw [hmn]; exact hnxy
          · have : m ∈ c := by
              refine (hcl c hc n hn m).2 ⟨?_, hm'⟩
              obtain ⟨z, hz | hz⟩ := hend m n hmn (.symm _ _ hm')
              · exact ⟨Or.inr (Or.inl ⟨z, hz.1⟩), Or.inl hz.2.1⟩
              · exact ⟨Or.inr (Or.inr ⟨z, hz.1⟩), Or.inr hz.2.2⟩
            exact (hm m).1 this
        obtain ⟨z, hz⟩ := hend x y hxy hl
        have hzc : z ∈ c := by
          rcases hz with hz | hz
          · exact (hcl c hc x hx z).2 ⟨⟨Or.inr (Or.inr ⟨x, hz.1⟩), Or.inr hz.2.2⟩, .rel _ _ hz⟩
          · exact (hcl c hc x hx z).2 ⟨⟨Or.inr (Or.inl ⟨x, hz.1⟩), Or.inl hz.2.1⟩, .symm _ _ (.rel _ _ hz)⟩
        have hzx : z ≠ x := by
          rintro rfl
          rcases hz with hz | hz
          · exact hne (hz.2.1.symm.trans hz.2.2)
          · exact hne (hz.2.1.symm.trans hz.2.2)
        have hzy : z = y := by rcases (hm z).1 hzc with h | h; exact absurd h hzx; exact h
        subst hzy
        rcases hz with hz | hz
        · exact ⟨x, z, hz.2.1, hz.2.2, hz.1, hnxy, hall⟩
        · exact ⟨z, x, hz.2.1, hz.2.2, hz.1, hnxy.symm, fun m h => (hall m h).symm⟩
      obtain ⟨x, y, rfl⟩ := List.length_eq_two.1 h2
      refine key x y ?_ (by simp) (by simpa using hn)
      rintro rfl; simp at hnd
    · rintro ⟨a, b, ha, hb, he, hnab, hall⟩
      have hab : a ≠ b := by rintro rfl; exact hne (ha.symm.trans hb)
      have hlab : IntervalLinked ops t0 t1 a b := .rel _ _ ⟨he, ha, hb⟩
      have hna : IntervalLinked ops t0 t1 n a := by
        rcases hnab with rfl | rfl
        · exact .refl _
        · exact .symm _ _ hlab
      have hac : a ∈ c := (hcl c hc n hn a).2 ⟨⟨Or.inr (Or.inl ⟨b, he⟩), Or.inl ha⟩, hna⟩
      have hbc : b ∈ c := (hcl c hc n hn b).2 ⟨⟨Or.inr (Or.inr ⟨a, he⟩), Or.inr hb⟩, .trans _ _ _ hna hlab⟩
      have : c.Perm [a, b] := by
        refine (List.perm_ext_iff_of_nodup hnd (by simpa using hab)).2 (fun m => ?_)
        simp only [List.mem_cons, List.not_mem_nil, or_false]
        constructor
        · intro hm; exact hall m ((hcl c hc n hn m).1 hm).2
        · rintro (rfl | rfl)
          · exact hac
          · exact hbc
      rw [this.length_eq]; rfl
  refine ⟨(comps.filter (fun c => decide (c.length ≠ 2))).map (mkEvent t0 t1), by
    simp only [Graph.detectEvents2, e], ?_, ?_, ?_, ?_, ?_⟩
  · intro ev hev
    obtain ⟨c, hc, rfl⟩ := List.mem_map.1 hev
    rw [List.mem_filter] at hc
    refine ⟨rfl, ?_⟩
    obtain ⟨l1, l2⟩ := mkEvent_lengths (t0 := t0) (t1 := t1) (c := c) (fun n hn => (hct c hc.1 n hn).2) (hp.nodup c hc.1)
    have hsum := filter_lengths (fun n => decide (time n = t0)) c
    have hc2 : c.length ≠ 2 := by simpa using hc.2
    have heq : (c.filter (fun n => decide (time n ≠ t0))) = c.filter (fun n => !decide (time n = t0)) := by
      congr 1; funext n; simp
    rw [heq] at l2
    unfold Event.type
    have hno : ¬ ((mkEvent t0 t1 c).lhs.length = 1 ∧ (mkEvent t0 t1 c).rhs.length = 1) := by
      rw [l1, l2]; rintro ⟨h1, h2⟩; rw [h1, h2] at hsum; exact hc2 (by omega)
    rw [if_neg hno]
    repeat' split
    all_goals simp
  · intro ev hev
    obtain ⟨c, hc, rfl⟩ := List.mem_map.1 hev
    rw [List.mem_filter] at hc
    obtain ⟨n, hn⟩ := List.exists_mem_of_ne_nil _ (hp.nonempty c hc.1)
    refine ⟨n, (hct c hc.1 n hn).1, (hct c hc.1 n hn).2, fun m => ?_⟩
    rw [hin c hc.1, hcl c hc.1 n hn, and_assoc]
  · intro n hn hnt
    obtain ⟨c, hc, hnc⟩ := hp.cover n ((hg.mem_intervalNodes _ _ _).2 ⟨hn, hnt⟩)
    rw [← htwo c hc n hnc]
    constructor
    · rintro ⟨ev, hev, hine⟩
      obtain ⟨c', hc', rfl⟩ := List.mem_map.1 hev
      rw [List.mem_filter] at hc'
      rw [hin c' hc'.1] at hine
      have : c' = c := by
        by_contra hcc
        obtain ⟨i, hi, rfl⟩ := List.getElem_of_mem hc'.1
        obtain ⟨j, hj, rfl⟩ := List.getElem_of_mem hc
        rcases Nat.lt_trichotomy i j with h | h | h
        · exact (List.pairwise_iff_getElem.1 hp.disjoint i j hi hj h) n hine hnc
        · subst h; exact hcc rfl
        · exact (List.pairwise_iff_getElem.1 hp.disjoint j i hj hi h) n hnc hine
      subst this
      simpa using hc'.2
    · intro h2
      exact ⟨mkEvent t0 t1 c, List.mem_map.2 ⟨c, List.mem_filter.2 ⟨hc, by simpa using h2⟩, rfl⟩, (hin c hc n).2 hnc⟩
  · rw [List.pairwise_map]
    refine List.Pairwise.imp_of_mem ?_ (hp.disjoint.filter _)
    intro a b ha hb hab n h1 h2
    rw [hin a (List.mem_filter.1 ha).1] at h1
    rw [hin b (List.mem_filter.1 hb).1] at h2
    exact hab n h1 h2
  · intro ev hev
    obtain ⟨c, hc, rfl⟩ := List.mem_map.1 hev
    exact ⟨(foldl_label_sorted _ [] (by simp [StrictSorted])).nodup,
      (foldl_label_sorted _ [] (by simp [StrictSorted])).nodup⟩

theorem setInsert_of_mem {α : Type} [LinearOrder α] {x : α} : ∀ {l : List α}, StrictSorted l → x ∈ l →
    setInsert x l = l := by
  intro l hs hx
  refine StrictSorted.ext hs.setInsert hs (fun a => ?_)
  rw [mem_setInsert]
  constructor
  · rintro (rfl | h)
    · exact hx
    · exact h
  · exact Or.inr

theorem detectLoop_spec {ops : List (Op T L)} (hf : Forward ops) : ∀ (ts : List T) (g : Graph T L), GInv ops g →
    StrictSorted ts → (∀ t ∈ ts, t ∈ g.times) →
    ∃ g', detectLoop ts g = some g' ∧ g'.times = g.times ∧ g'.nodes = g.nodes ∧ g'.left = g.left ∧
      g'.right = g.right ∧ g'.glob = g.glob ∧
      (∀ (i : Nat) (t0 t1 : T), ts[i]? = some t0 → ts[i + 1]? = some t1 →
        ∃ evs, g'.events t0 = g.events t0 ++ evs ∧ EventsFor ops t0 t1 evs) ∧
      (∀ t, (∀ i : Nat, ts[i]? = some t → ts[i + 1]? = none) → g'.events t = g.events t) := by
  intro ts
  induction ts with
  | nil => intro g _ _ _; exact ⟨g, rfl, rfl, rfl, rfl, rfl, rfl, by simp, by simp⟩
  | cons t0 ts ih =>
    intro g hg hs ht
    cases ts with
    | nil =>
      refine ⟨g, rfl, rfl, rfl, rfl, rfl, rfl, ?_, ?_⟩
      · intro i a b h1 h2
        simp at h2
      · intro t h; rfl
    | cons t1 ts =>
      have hs' := hs
      unfold StrictSorted at hs'
      rw [List.pairwise_cons] at hs'
      have h01 : t0 < t1 := hs'.1 t1 (by simp)
      obtain ⟨evs, e, hev⟩ := detect2_spec hg hf h01
      have htm : setInsert t1 (setInsert t0 g.times) = g.times := by
        rw [setInsert_of_mem hg.sortedT (ht t0 (by simp)), setInsert_of_mem hg.sortedT (ht t1 (by simp))]
      rw [htm] at e
      have hg1 : GInv ops ({ g with events := fun t => if t = t0 then g.events t ++ evs else g.events t } : Graph T L) :=
        ⟨hg.times, hg.nodes, hg.left, hg.right, hg.sortedT, hg.sortedL, hg.sortedR⟩
      obtain ⟨g', e', q1, q2, q3, q4, q5, q6, q7⟩ := ih _ hg1 hs'.2 (fun t h => ht t (List.mem_cons_of_mem _ h))
      refine ⟨g', by simp only [detectLoop]; rw [e]; exact e', q1, q2, q3, q4, q5, ?_, ?_⟩
      · have hlast : g'.events t0 = g.events t0 ++ evs := by
          rw [q7 t0 ?_]
          · simp
          · intro i hi
            exfalso
            have := List.mem_of_getElem? hi
            exact absurd (hs'.1 t0 this) (lt_irrefl _)
        intro i a b h1 h2
        cases i with
        | zero =>
          have ha : t0 = a := by simpa using h1
          have hb : t1 = b := by simpa using h2
          subst ha; subst hb
          exact ⟨evs, hlast, hev⟩
        | succ i =>
          obtain ⟨ev2, h3, h4⟩ := q6 i a b (by simpa using h1) (by simpa using h2)
          refine ⟨ev2, ?_, h4⟩
          rw [h3]
          have : a ≠ t0 := by
            rintro rfl
            have := List.mem_of_getElem? (l := t1 :: ts) (i := i) (by simpa using h1)
            exact absurd (hs'.1 _ this) (lt_irrefl _)
          simp [this]
      · intro t h
        have hne : t ≠ t0 := by
          rintro rfl
          have := h 0 (by simp)
          simp at this
        rw [q7 t (fun i hi => by have := h (i + 1) (by simpa using hi); simpa using this)]
        simp [hne]

end Verif.TG
