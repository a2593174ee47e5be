import Verif.Interval.Model
import Mathlib.Order.Interval.Set.Basic
import Mathlib.Algebra.Order.Ring.Int
import Mathlib.Order.Fin.Basic

/-!
# C35: interval arithmetic has set semantics

`pts i` is the set an interval denotes: unbounded ends are open, other ends as flagged.
-/

namespace Verif.Interval

variable {T : Type} [LinearOrder T] [BoundedOrder T]

/-- The set of points of an interval (the specification). -/
def pts (i : Iv T) : Set T :=
  {x | (i.lo < x ∨ (x = i.lo ∧ i.lo ≠ ⊥ ∧ i.loOpen = false)) ∧ (x < i.hi ∨ (x = i.hi ∧ i.hi ≠ ⊤ ∧ i.hiOpen = false))}

/-- The set a disjoint_intervals object denotes. -/
def dpts (d : DI T) : Set T := {x | ∃ i ∈ d, x ∈ pts i}

theorem lowerOpen_false (i : Iv T) : i.lowerOpen = false ↔ i.lo ≠ ⊥ ∧ i.loOpen = false := by
  unfold Iv.lowerOpen; split <;> simp [*]
theorem upperOpen_false (i : Iv T) : i.upperOpen = false ↔ i.hi ≠ ⊤ ∧ i.hiOpen = false := by
  unfold Iv.upperOpen; split <;> simp [*]

theorem mem_pts (i : Iv T) (x : T) : x ∈ pts i ↔
    (i.lo < x ∨ (x = i.lo ∧ i.lowerOpen = false)) ∧ (x < i.hi ∨ (x = i.hi ∧ i.upperOpen = false)) := by
  rw [lowerOpen_false, upperOpen_false]; rfl

theorem dpts_nil : dpts ([] : DI T) = ∅ := by
  ext x; constructor
  · rintro ⟨i, hi, _⟩; exact absurd hi (List.not_mem_nil)
  · exact fun h => h.elim

theorem dpts_cons (j : Iv T) (l : DI T) : dpts (j :: l) = pts j ∪ dpts l := by
  ext x
  constructor
  · rintro ⟨i, hi, h⟩
    rcases List.mem_cons.1 hi with rfl | hi
    · exact Or.inl h
    · exact Or.inr ⟨i, hi, h⟩
  · rintro (h | ⟨i, hi, h⟩)
    · exact ⟨j, by simp, h⟩
    · exact ⟨i, by simp [hi], h⟩

/-- C35: an interval reported empty has no points. -/
theorem C35_empty (i : Iv T) (h : i.empty = true) : pts i = ∅ := by
  ext x
  simp only [Set.mem_empty_iff_false, iff_false, mem_pts]
  rintro ⟨h1, h2⟩
  have hle : i.lo ≤ i.hi := by
    rcases h1 with h1 | ⟨h1, _⟩ <;> rcases h2 with h2 | ⟨h2, _⟩
    · exact (h1.trans h2).le
    · exact h2 ▸ h1.le
    · exact h1 ▸ h2.le
    · rw [← h1, ← h2]
  unfold Iv.empty at h
  rw [if_neg (not_lt.2 hle)] at h
  split at h
  · rename_i hc
    obtain ⟨he, hc⟩ := hc
    rcases h1 with h1 | ⟨h1, h1'⟩ <;> rcases h2 with h2 | ⟨h2, h2'⟩
    · exact absurd (h1.trans h2) (by rw [he]; exact lt_irrefl _)
    · rw [h2, he] at h1; exact lt_irrefl _ h1
    · rw [h1, he] at h2; exact lt_irrefl _ h2
    · simp [h1', h2'] at hc
  · exact absurd h (by simp)

theorem nonempty_cases {i : Iv T} (h : i.empty = false) : i.lo < i.hi ∨ (i.lo = i.hi ∧ i.lowerOpen = false ∧ i.upperOpen = false) := by
  unfold Iv.empty at h
  split at h
  · exact absurd h (by simp)
  · rename_i h1
    split at h
    · exact absurd h (by simp)
    · rename_i h2
      rcases lt_or_eq_of_le (not_lt.1 h1) with h3 | h3
      · exact Or.inl h3
      · right
        refine ⟨h3, ?_⟩
        rw [not_and_or] at h2
        rcases h2 with h2 | h2
        · exact absurd h3 h2
        · simpa using h2

/-- C35: `contains` is membership, for intervals not reported empty. -/
theorem C35_contains_partial (i : Iv T) (h : i.empty = false) (x : T) : i.contains x = true ↔ x ∈ pts i := by
  rw [mem_pts]
  unfold Iv.contains
  by_cases hs : i.singleton = true
  · rw [if_pos hs]
    have hs' : (i.lo = i.hi ∧ i.lowerOpen = false) ∧ i.upperOpen = false := by
      simpa [Iv.singleton] using hs
    obtain ⟨⟨h1, h2⟩, h3⟩ := hs'
    simp only [decide_eq_true_eq, h2, h3, and_true, ← h1]
    constructor
    · intro h; exact ⟨Or.inr h, Or.inr h⟩
    · rintro ⟨h4 | h4, h5 | h5⟩
      · exact absurd (h4.trans h5) (lt_irrefl _)
      · exact h5
      · exact h4
      · exact h4
  · rw [if_neg hs]
    have hlt : i.lo < i.hi := by
      rcases nonempty_cases h with h | ⟨h1, h2, h3⟩
      · exact h
      · exact absurd (by simp [Iv.singleton, h1, h2, h3]) hs
    by_cases h1 : x = i.lo ∧ (!i.lowerOpen) = true
    · rw [if_pos h1]
      have := h1.2
      simp only [Bool.not_eq_true'] at this
      simp [h1.1, this, hlt]
    · rw [if_neg h1]
      by_cases h2 : x = i.hi ∧ (!i.upperOpen) = true
      · rw [if_pos h2]
        have := h2.2
        simp only [Bool.not_eq_true'] at this
        simp [h2.1, this, hlt]
      · rw [if_neg h2]
        simp only [Bool.not_eq_true'] at h1 h2
        simp only [decide_eq_true_eq, gt_iff_lt, h1, h2, or_false]

/-- C35: intervals reported as not overlapping share no point. -/
theorem C35_overlaps_false (i j : Iv T) (h : i.overlaps j = false) : pts i ∩ pts j = ∅ := by
  ext x
  simp only [Set.mem_inter_iff, Set.mem_empty_iff_false, iff_false, mem_pts]
  rintro ⟨⟨a1, a2⟩, b1, b2⟩
  have l1 : i.lo ≤ x := by rcases a1 with h | h; exacts [h.le, h.1.ge]
  have l2 : x ≤ i.hi := by rcases a2 with h | h; exacts [h.le, h.1.le]
  have l3 : j.lo ≤ x := by rcases b1 with h | h; exacts [h.le, h.1.ge]
  have l4 : x ≤ j.hi := by rcases b2 with h | h; exacts [h.le, h.1.le]
  unfold Iv.overlaps at h
  rw [if_neg (by rw [not_or]; exact ⟨not_lt.2 (l1.trans l4), not_lt.2 (l3.trans l2)⟩)] at h
  split at h
  · rename_i hc
    have e1 : x = i.hi := le_antisymm l2 (hc.1 ▸ l3)
    have e2 : x = j.lo := by rw [e1, hc.1]
    rcases a2 with h | h
    · exact absurd e1 h.ne
    · rcases b1 with h' | h'
      · exact absurd e2.symm h'.ne
      · rcases hc.2 with hc | hc
        · rw [h.2] at hc; exact absurd hc (by simp)
        · rw [h'.2] at hc; exact absurd hc (by simp)
  · split at h
    · rename_i hc
      have e1 : x = i.lo := le_antisymm (hc.1 ▸ l4) l1
      have e2 : x = j.hi := by rw [e1, hc.1]
      rcases a1 with h | h
      · exact absurd e1.symm h.ne
      · rcases b2 with h' | h'
        · exact absurd e2 h'.ne
        · rcases hc.2 with hc | hc
          · rw [h.2] at hc; exact absurd hc (by simp)
          · rw [h'.2] at hc; exact absurd hc (by simp)
    · exact absurd h (by simp)

theorem overlaps_true {i j : Iv T} (h : i.overlaps j = true) :
    i.lo ≤ j.hi ∧ j.lo ≤ i.hi ∧ (i.hi = j.lo → i.upperOpen = false ∧ j.lowerOpen = false) ∧
    (i.lo = j.hi → i.lowerOpen = false ∧ j.upperOpen = false) := by
  unfold Iv.overlaps at h
  split at h
  · exact absurd h (by simp)
  · rename_i h1
    rw [not_or] at h1
    split at h
    · exact absurd h (by simp)
    · rename_i h2
      split at h
      · exact absurd h (by simp)
      · rename_i h3
        refine ⟨not_lt.1 h1.1, not_lt.1 h1.2, fun e => ?_, fun e => ?_⟩
        · simp only [e, true_and] at h2; simpa using h2
        · simp only [e, true_and] at h3; simpa using h3

/-- C35: in a dense order, non-empty intervals reported as overlapping do share a point. -/
theorem C35_overlaps_true [DenselyOrdered T] (i j : Iv T) (hi : i.empty = false) (hj : j.empty = false)
    (h : i.overlaps j = true) : (pts i ∩ pts j).Nonempty := by
  obtain ⟨h1, h2, h3, h4⟩ := overlaps_true h
  have ni := nonempty_cases hi
  have nj := nonempty_cases hj
  have key : ∀ i j : Iv T, i.empty = false → j.empty = false → i.lo ≤ j.lo → j.lo ≤ i.hi →
      (i.hi = j.lo → i.upperOpen = false ∧ j.lowerOpen = false) →
      (i.lo = j.hi → i.lowerOpen = false ∧ j.upperOpen = false) → ∃ x, x ∈ pts i ∧ x ∈ pts j := by
    intro i j hi hj h0 h2 h3 h4
    simp only [mem_pts]
    rcases eq_or_lt_of_le h2 with e | lt
    · -- touch at i.hi = j.lo
      obtain ⟨u1, u2⟩ := h3 e.symm
      refine ⟨j.lo, ⟨?_, Or.inr ⟨e, u1⟩⟩, Or.inr ⟨rfl, u2⟩, ?_⟩
      · rcases eq_or_lt_of_le h0 with h0 | h0
        · rcases nonempty_cases hi with n | n
          · exact absurd (h0.trans e) n.ne
          · exact Or.inr ⟨h0.symm, n.2.1⟩
        · exact Or.inl h0
      · rcases nonempty_cases hj with n | n
        · exact Or.inl n
        · exact Or.inr ⟨n.1, n.2.2⟩
    · rcases nonempty_cases hj with n | ⟨n1, n2, n3⟩
      · obtain ⟨x, hx1, hx2⟩ := exists_between (lt_min lt n)
        exact ⟨x, ⟨Or.inl (lt_of_le_of_lt h0 hx1), Or.inl (lt_of_lt_of_le hx2 (min_le_left _ _))⟩, Or.inl hx1,
          Or.inl (lt_of_lt_of_le hx2 (min_le_right _ _))⟩
      · refine ⟨j.lo, ⟨?_, Or.inl lt⟩, Or.inr ⟨rfl, n2⟩, Or.inr ⟨n1, n3⟩⟩
        rcases eq_or_lt_of_le h0 with h0 | h0
        · exact Or.inr ⟨h0.symm, (h4 (by rw [h0, n1])).1⟩
        · exact Or.inl h0
  rcases le_total i.lo j.lo with h0 | h0
  · obtain ⟨x, a, b⟩ := key i j hi hj h0 h2 h3 h4
    exact ⟨x, a, b⟩
  · obtain ⟨x, a, b⟩ := key j i hj hi h0 h1 (fun e => (h4 e.symm).symm) (fun e => (h3 e.symm).symm)
    exact ⟨x, b, a⟩

theorem mem_cutLower (s i : Iv T) (x : T) :
    ((s.cutLower i).lo < x ∨ (x = (s.cutLower i).lo ∧ (s.cutLower i).lowerOpen = false)) ↔
    ((s.lo < x ∨ (x = s.lo ∧ s.lowerOpen = false)) ∧ (i.lo < x ∨ (x = i.lo ∧ i.lowerOpen = false))) := by
  unfold Iv.cutLower
  split
  · rename_i h
    split
    · rename_i ho
      simp only [Iv.lowerOpen]
      simp only [Iv.lowerOpen] at ho
      rw [← h]
      rw [← h] at ho
      split <;> rename_i hb
      · simp
      · rw [if_neg hb] at ho; simp [ho]; exact fun h => Or.inl h
    · rename_i ho
      rw [Bool.not_eq_true] at ho
      rw [ho, ← h]
      simp
      rintro (h1 | h1)
      · exact Or.inl h1
      · exact Or.inr h1.1
  · split
    · rename_i h1 h
      have hb : i.lo ≠ ⊥ := fun hb => not_lt_bot (hb ▸ h)
      have e : Iv.lowerOpen { s with lo := i.lo, loOpen := i.lowerOpen } = i.lowerOpen := by
        unfold Iv.lowerOpen; simp [hb]
      simp only [e]
      constructor
      · rintro (h2 | ⟨h2, h3⟩)
        · exact ⟨Or.inl (h.trans h2), Or.inl h2⟩
        · exact ⟨Or.inl (h2 ▸ h), Or.inr ⟨h2, h3⟩⟩
      · exact fun h => h.2
    · rename_i h1 h2
      have h3 : i.lo < s.lo := lt_of_le_of_ne (not_lt.1 h2) (Ne.symm h1)
      constructor
      · intro h
        refine ⟨h, Or.inl ?_⟩
        rcases h with h | h
        · exact h3.trans h
        · rw [h.1]; exact h3
      · exact fun h => h.1

theorem mem_cutUpper (s i : Iv T) (x : T) :
    (x < (s.cutUpper i).hi ∨ (x = (s.cutUpper i).hi ∧ (s.cutUpper i).upperOpen = false)) ↔
    ((x < s.hi ∨ (x = s.hi ∧ s.upperOpen = false)) ∧ (x < i.hi ∨ (x = i.hi ∧ i.upperOpen = false))) := by
  unfold Iv.cutUpper
  split
  · rename_i h
    split
    · rename_i ho
      simp only [Iv.upperOpen]
      simp only [Iv.upperOpen] at ho
      rw [← h]
      rw [← h] at ho
      split <;> rename_i hb
      · simp
      · rw [if_neg hb] at ho; simp [ho]; exact fun h => Or.inl h
    · rename_i ho
      rw [Bool.not_eq_true] at ho
      rw [ho, ← h]
      simp
      rintro (h1 | h1)
      · exact Or.inl h1
      · exact Or.inr h1.1
  · split
    · rename_i h1 h
      have hb : i.hi ≠ ⊤ := fun hb => not_top_lt (hb ▸ h)
      have e : Iv.upperOpen { s with hi := i.hi, hiOpen := i.upperOpen } = i.upperOpen := by
        unfold Iv.upperOpen; simp [hb]
      simp only [e]
      constructor
      · rintro (h2 | ⟨h2, h3⟩)
        · exact ⟨Or.inl (h2.trans h), Or.inl h2⟩
        · exact ⟨Or.inl (h2 ▸ h), Or.inr ⟨h2, h3⟩⟩
      · exact fun h => h.2
    · rename_i h1 h2
      have h3 : s.hi < i.hi := lt_of_le_of_ne (not_lt.1 h2) h1
      constructor
      · intro h
        refine ⟨h, Or.inl ?_⟩
        rcases h with h | h
        · exact h.trans h3
        · rw [h.1]; exact h3
      · exact fun h => h.1

theorem cutLower_hi (s i : Iv T) : (s.cutLower i).hi = s.hi ∧ (s.cutLower i).hiOpen = s.hiOpen := by
  unfold Iv.cutLower; split
  · split <;> exact ⟨rfl, rfl⟩
  · split <;> exact ⟨rfl, rfl⟩

theorem cutUpper_lo (s i : Iv T) : (s.cutUpper i).lo = s.lo ∧ (s.cutUpper i).loOpen = s.loOpen := by
  unfold Iv.cutUpper; split
  · split <;> exact ⟨rfl, rfl⟩
  · split <;> exact ⟨rfl, rfl⟩

theorem setToEmpty_pts (s : Iv T) [Nontrivial T] : pts s.setToEmpty = ∅ := by
  ext x
  simp only [Set.mem_empty_iff_false, iff_false, mem_pts, Iv.setToEmpty]
  rintro ⟨h1, h2⟩
  rcases h2 with h2 | ⟨h2, _⟩
  · exact not_lt_bot h2
  · rcases h1 with h1 | ⟨h1, _⟩
    · exact not_top_lt h1
    · exact bot_ne_top (h2.symm.trans h1)

/-- C35: `intersect` computes the intersection, for all intervals, open or closed. -/
theorem C35_intersect [Nontrivial T] (s i : Iv T) : pts (s.intersect i) = pts s ∩ pts i := by
  unfold Iv.intersect
  by_cases h : s.overlaps i = true
  · rw [if_pos h]
    ext x
    rw [Set.mem_inter_iff, mem_pts, mem_pts, mem_pts, mem_cutUpper]
    have e1 := cutUpper_lo (s.cutLower i) i
    have e2 := cutLower_hi s i
    have e3 : ((s.cutLower i).cutUpper i).lowerOpen = (s.cutLower i).lowerOpen := by
      unfold Iv.lowerOpen; rw [e1.1, e1.2]
    have e4 : (s.cutLower i).upperOpen = s.upperOpen := by
      unfold Iv.upperOpen; rw [e2.1, e2.2]
    rw [e3, e1.1, mem_cutLower, e4, e2.1]
    constructor
    · rintro ⟨⟨a, b⟩, c, d⟩; exact ⟨⟨a, c⟩, b, d⟩
    · rintro ⟨⟨a, c⟩, b, d⟩; exact ⟨⟨a, b⟩, c, d⟩
  · rw [if_neg h, setToEmpty_pts, C35_overlaps_false s i (by simpa using h)]

/-! ### intervals without open finite ends, and histories of `disjoint_intervals` -/

/-- no open finite end -/
def CL (i : Iv T) : Prop := (i.loOpen = true → i.lo = ⊥) ∧ (i.hiOpen = true → i.hi = ⊤)

theorem CL.lowerOpen {i : Iv T} (h : CL i) : i.lowerOpen = false ↔ i.lo ≠ ⊥ := by
  rw [lowerOpen_false]
  constructor
  · exact fun h => h.1
  · intro h1
    refine ⟨h1, ?_⟩
    cases hc : i.loOpen
    · rfl
    · exact absurd (h.1 hc) h1

theorem CL.upperOpen {i : Iv T} (h : CL i) : i.upperOpen = false ↔ i.hi ≠ ⊤ := by
  rw [upperOpen_false]
  constructor
  · exact fun h => h.1
  · intro h1
    refine ⟨h1, ?_⟩
    cases hc : i.hiOpen
    · rfl
    · exact absurd (h.2 hc) h1

/-- points of a closed-like interval: proper points (neither infinity) between the ends -/
theorem CL.mem {i : Iv T} (h : CL i) (x : T) : x ∈ pts i ↔ x ≠ ⊥ ∧ x ≠ ⊤ ∧ i.lo ≤ x ∧ x ≤ i.hi := by
  rw [mem_pts, h.lowerOpen, h.upperOpen]
  constructor
  · rintro ⟨h1, h2⟩
    refine ⟨?_, ?_, ?_, ?_⟩
    · rcases h1 with h1 | h1
      · exact (bot_le.trans_lt h1).ne'
      · rw [h1.1]; exact h1.2
    · rcases h2 with h2 | h2
      · exact (h2.trans_le le_top).ne
      · rw [h2.1]; exact h2.2
    · rcases h1 with h1 | h1; exacts [h1.le, h1.1.ge]
    · rcases h2 with h2 | h2; exacts [h2.le, h2.1.le]
  · rintro ⟨h1, h2, h3, h4⟩
    constructor
    · rcases lt_or_eq_of_le h3 with h | h
      · exact Or.inl h
      · exact Or.inr ⟨h.symm, h ▸ h1⟩
    · rcases lt_or_eq_of_le h4 with h | h
      · exact Or.inl h
      · exact Or.inr ⟨h, h ▸ h2⟩

theorem CL.nonempty {i : Iv T} (h : CL i) (hn : i.empty = false) : i.lo ≤ i.hi ∧ i.lo ≠ ⊤ ∧ i.hi ≠ ⊥ := by
  rcases nonempty_cases hn with h1 | ⟨h1, h2, h3⟩
  · exact ⟨h1.le, (h1.trans_le le_top).ne, (bot_le.trans_lt h1).ne'⟩
  · exact ⟨h1.le, h1 ▸ h.upperOpen.1 h3, h1 ▸ h.lowerOpen.1 h2⟩

theorem CL.overlaps {i j : Iv T} (hi : CL i) (hj : CL j) (ni : i.empty = false) (nj : j.empty = false) :
    i.overlaps j = true ↔ i.lo ≤ j.hi ∧ j.lo ≤ i.hi := by
  constructor
  · intro h; obtain ⟨h1, h2, _⟩ := overlaps_true h; exact ⟨h1, h2⟩
  · rintro ⟨h1, h2⟩
    obtain ⟨a1, a2, a3⟩ := hi.nonempty ni
    obtain ⟨b1, b2, b3⟩ := hj.nonempty nj
    unfold Iv.overlaps
    rw [if_neg (by rw [not_or]; exact ⟨not_lt.2 h1, not_lt.2 h2⟩), if_neg, if_neg]
    · rintro ⟨e, h⟩
      rw [hi.lowerOpen.2 (e ▸ b3), hj.upperOpen.2 (e ▸ a2)] at h
      simp at h
    · rintro ⟨e, h⟩
      rw [hi.upperOpen.2 (e ▸ b2), hj.lowerOpen.2 (e ▸ a3)] at h
      simp at h

theorem CL.join {i j : Iv T} (hi : CL i) (hj : CL j) (ni : i.empty = false) (nj : j.empty = false)
    (h : j.overlaps i = true) : (i.join j).1 = true ∧ (i.join j).2.lo = min i.lo j.lo ∧ (i.join j).2.hi = max i.hi j.hi ∧
      CL (i.join j).2 ∧ (i.join j).2.empty = false ∧ pts (i.join j).2 = pts i ∪ pts j := by
  obtain ⟨h1, h2⟩ := (hj.overlaps hi nj ni).1 h
  obtain ⟨a1, a2, a3⟩ := hi.nonempty ni
  obtain ⟨b1, b2, b3⟩ := hj.nonempty nj
  have e : i.join j = (true, { i with lo := min i.lo j.lo, hi := max i.hi j.hi }) := by
    unfold Iv.join
    rw [if_neg (by rw [not_or]; exact ⟨not_lt.2 h2, not_lt.2 h1⟩), if_neg, if_neg]
    · rintro ⟨e, h, h'⟩
      rw [hi.lowerOpen.2 (e ▸ b3)] at h
      simp at h
    · rintro ⟨e, h, h'⟩
      rw [hi.upperOpen.2 (e ▸ b2)] at h
      simp at h
  have hc : CL (i.join j).2 := by
    rw [e]
    refine ⟨fun h => ?_, fun h => ?_⟩
    · have := hi.1 h
      simp [this]
    · have := hi.2 h
      simp [this]
  have hpts : pts (i.join j).2 = pts i ∪ pts j := by
    ext x
    rw [Set.mem_union, hc.mem, hi.mem, hj.mem, e]
    simp only [min_le_iff, le_max_iff]
    constructor
    · rintro ⟨h3, h4, h5, h6⟩
      rcases le_total x i.hi with g | g
      · rcases le_total i.lo x with g' | g'
        · exact Or.inl ⟨h3, h4, g', g⟩
        · rcases h5 with h5 | h5
          · exact Or.inl ⟨h3, h4, h5, g⟩
          · exact Or.inr ⟨h3, h4, h5, g'.trans h2⟩
      · rcases h6 with h6 | h6
        · exact Or.inl ⟨h3, h4, a1.trans g, h6⟩
        · exact Or.inr ⟨h3, h4, h1.trans g, h6⟩
    · rintro (⟨h3, h4, h5, h6⟩ | ⟨h3, h4, h5, h6⟩)
      · exact ⟨h3, h4, Or.inl h5, Or.inl h6⟩
      · exact ⟨h3, h4, Or.inr h5, Or.inr h6⟩
  refine ⟨by rw [e], by rw [e], by rw [e], hc, ?_, hpts⟩
  rw [Bool.eq_false_iff]
  intro hem
  rcases nonempty_cases ni with n | ⟨n1, n2, n3⟩
  · have : min i.lo j.lo < max i.hi j.hi := lt_of_le_of_lt (min_le_left _ _) (lt_of_lt_of_le n (le_max_left _ _))
    unfold Iv.empty at hem
    rw [e] at hem
    simp only at hem
    rw [if_neg (not_lt.2 this.le), if_neg (by rintro ⟨h, _⟩; exact this.ne h)] at hem
    simp at hem
  · have hm : i.lo ∈ pts (i.join j).2 := by
      rw [hpts]; left
      rw [mem_pts]; exact ⟨Or.inr ⟨rfl, n2⟩, Or.inr ⟨n1, n3⟩⟩
    rw [C35_empty _ hem] at hm
    exact hm

/-- the invariant of the `std::set`: closed-like non-empty intervals, strictly increasing and disjoint -/
def Inv (d : DI T) : Prop := (∀ i ∈ d, CL i ∧ i.empty = false) ∧ d.Pairwise fun i j => i.hi < j.lo

theorem joinScan_far (ii : Iv T) (l : DI T) (h : ∀ j ∈ l, ii.hi < j.lo) : joinScan ii l = (ii, l) := by
  induction l with
  | nil => rfl
  | cons j l ih =>
    have h1 : ii.hi < j.lo := h j (by simp)
    have h2 : j.overlaps ii = false := by
      unfold Iv.overlaps; rw [if_pos (Or.inl h1)]
    simp only [joinScan, h2, Bool.false_eq_true, if_false]
    rw [ih fun k hk => h k (by simp [hk])]

theorem joinScan_spec (l : DI T) (hl : Inv l) : ∀ ii : Iv T, CL ii → ii.empty = false →
    CL (joinScan ii l).1 ∧ (joinScan ii l).1.empty = false ∧ (joinScan ii l).2.Sublist l ∧
    (∀ k ∈ (joinScan ii l).2, k.hi < (joinScan ii l).1.lo ∨ (joinScan ii l).1.hi < k.lo) ∧
    (∀ x, (x ∈ pts (joinScan ii l).1 ∨ x ∈ dpts (joinScan ii l).2) ↔ (x ∈ pts ii ∨ x ∈ dpts l)) ∧
    (∀ a, a < ii.lo → (∀ j ∈ l, a < j.lo) → a < (joinScan ii l).1.lo) := by
  induction l with
  | nil =>
    intro ii h1 h2
    exact ⟨h1, h2, List.Sublist.refl _, by simp [joinScan], fun x => Iff.rfl, fun a h _ => h⟩
  | cons j l ih =>
    intro ii h1 h2
    have hl' : Inv l := ⟨fun i hi => hl.1 i (by simp [hi]), (List.pairwise_cons.1 hl.2).2⟩
    have hj := hl.1 j (by simp)
    have hjl := (List.pairwise_cons.1 hl.2).1
    by_cases ho : j.overlaps ii = true
    · simp only [joinScan, ho, if_true]
      obtain ⟨_, e1, e2, e3, e4, e5⟩ := h1.join hj.1 h2 hj.2 ho
      obtain ⟨k1, k2, k3, k4, k5, k6⟩ := ih hl' _ e3 e4
      refine ⟨k1, k2, k3.trans (List.sublist_cons_self _ _), k4, ?_, ?_⟩
      · intro x
        rw [k5 x, e5, dpts_cons]
        simp only [Set.mem_union]
        tauto
      · intro a ha hall
        refine k6 a ?_ fun m hm => hall m (by simp [hm])
        rw [e1]
        exact lt_min ha (hall j (by simp))
    · rw [Bool.not_eq_true] at ho
      simp only [joinScan, ho, Bool.false_eq_true, if_false]
      have hno : ¬ (j.lo ≤ ii.hi ∧ ii.lo ≤ j.hi) := by
        rw [← hj.1.overlaps h1 hj.2 h2, ho]; simp
      obtain ⟨k1, k2, k3, k4, k5, k6⟩ := ih hl' ii h1 h2
      refine ⟨k1, k2, k3.cons_cons j, ?_, ?_, ?_⟩
      · intro k hk
        rw [List.mem_cons] at hk
        rcases hk with rfl | hk
        · rw [not_and_or, not_le, not_le] at hno
          rcases hno with hno | hno
          · right
            rw [joinScan_far ii l fun m hm => (hno.trans_le (hj.1.nonempty hj.2).1).trans (hjl m hm)]
            exact hno
          · left
            exact k6 _ hno hjl
        · exact k4 k hk
      · intro x
        have := k5 x
        rw [dpts_cons, dpts_cons]
        simp only [Set.mem_union]
        tauto
      · intro a ha hall
        exact k6 a ha fun m hm => hall m (by simp [hm])

theorem insertLo_spec (i : Iv T) (l : DI T) (hi : CL i) (hn : i.empty = false) (hl : Inv l)
    (hd : ∀ k ∈ l, k.hi < i.lo ∨ i.hi < k.lo) :
    Inv (insertLo i l) ∧ ∀ k, k ∈ insertLo i l ↔ k = i ∨ k ∈ l := by
  have hii := (hi.nonempty hn).1
  induction l with
  | nil => exact ⟨⟨by simp [insertLo, hi, hn], by simp [insertLo]⟩, by simp [insertLo]⟩
  | cons k l ih =>
    have hl' : Inv l := ⟨fun i hi => hl.1 i (by simp [hi]), (List.pairwise_cons.1 hl.2).2⟩
    have hk := hl.1 k (by simp)
    have hkk := (hk.1.nonempty hk.2).1
    have hkl := (List.pairwise_cons.1 hl.2).1
    simp only [insertLo]
    by_cases h1 : i.lo < k.lo
    · rw [if_pos h1]
      have h2 : i.hi < k.lo := by
        rcases hd k (by simp) with h | h
        · exact absurd (h1.trans_le hkk) (not_lt.2 h.le)
        · exact h
      refine ⟨⟨?_, ?_⟩, by simp⟩
      · intro m hm
        rw [List.mem_cons] at hm
        rcases hm with rfl | hm
        · exact ⟨hi, hn⟩
        · exact hl.1 m hm
      · rw [List.pairwise_cons]
        refine ⟨?_, hl.2⟩
        intro m hm
        rw [List.mem_cons] at hm
        rcases hm with rfl | hm
        · exact h2
        · exact (h2.trans_le hkk).trans (hkl m hm)
    · rw [if_neg h1]
      have h2 : k.hi < i.lo := by
        rcases hd k (by simp) with h | h
        · exact h
        · exact absurd (lt_of_le_of_lt hii h) h1
      have h3 : k.lo < i.lo := lt_of_le_of_lt hkk h2
      rw [if_pos h3]
      obtain ⟨g1, g2⟩ := ih hl' fun m hm => hd m (by simp [hm])
      refine ⟨⟨?_, ?_⟩, ?_⟩
      · intro m hm
        rw [List.mem_cons] at hm
        rcases hm with rfl | hm
        · exact hk
        · exact g1.1 m hm
      · rw [List.pairwise_cons]
        refine ⟨?_, g1.2⟩
        intro m hm
        rcases (g2 m).1 hm with rfl | hm
        · exact h2
        · exact hkl m hm
      · intro m
        simp only [List.mem_cons, g2 m]
        tauto

theorem djoin_spec (d : DI T) (i : Iv T) (hd : Inv d) (hi : CL i) :
    Inv (djoin d i) ∧ dpts (djoin d i) = dpts d ∪ pts i := by
  unfold djoin
  by_cases he : i.empty = true
  · rw [if_pos he, C35_empty i he]
    exact ⟨hd, by simp⟩
  · rw [if_neg he]
    rw [Bool.not_eq_true] at he
    obtain ⟨k1, k2, k3, k4, k5, _⟩ := joinScan_spec d hd i hi he
    have hk : Inv (joinScan i d).2 := ⟨fun m hm => hd.1 m (k3.subset hm), hd.2.sublist k3⟩
    obtain ⟨g1, g2⟩ := insertLo_spec _ _ k1 k2 hk k4
    refine ⟨g1, ?_⟩
    ext x
    have := k5 x
    rw [Set.mem_union, or_comm, ← this]
    constructor
    · rintro ⟨k, hk, hx⟩
      rcases (g2 k).1 hk with rfl | hk
      · exact Or.inl hx
      · exact Or.inr ⟨k, hk, hx⟩
    · rintro (hx | ⟨k, hk, hx⟩)
      · exact ⟨_, (g2 _).2 (Or.inl rfl), hx⟩
      · exact ⟨k, (g2 k).2 (Or.inr hk), hx⟩

theorem cl_intersect {s i : Iv T} (hs : CL s) (hi : CL i) : s.overlaps i = true → CL (s.intersect i) := by
  intro h
  unfold Iv.intersect
  rw [if_pos h]
  have hb : ∀ i : Iv T, CL i → i.lowerOpen = true → i.lo = ⊥ := by
    intro i hi h
    by_contra hc
    rw [hi.lowerOpen.2 hc] at h; simp at h
  have ht : ∀ i : Iv T, CL i → i.upperOpen = true → i.hi = ⊤ := by
    intro i hi h
    by_contra hc
    rw [hi.upperOpen.2 hc] at h; simp at h
  have c1 : CL (s.cutLower i) := by
    unfold Iv.cutLower
    split
    · rename_i h
      split
      · rename_i ho; exact ⟨fun _ => by rw [show ({ s with loOpen := true } : Iv T).lo = s.lo from rfl, h]; exact hb i hi ho, hs.2⟩
      · exact hs
    · split
      · exact ⟨fun h => hb i hi h, hs.2⟩
      · exact hs
  unfold Iv.cutUpper
  split
  · rename_i h
    split
    · rename_i ho; exact ⟨c1.1, fun _ => by rw [show ({ s.cutLower i with hiOpen := true } : Iv T).hi = (s.cutLower i).hi from rfl, h]; exact ht i hi ho⟩
    · exact c1
  · split
    · exact ⟨c1.1, fun h => ht i hi h⟩
    · exact c1

theorem setToEmpty_empty [Nontrivial T] (s : Iv T) : s.setToEmpty.empty = true := by
  unfold Iv.empty Iv.setToEmpty
  rw [if_pos]
  exact lt_of_le_of_ne bot_le bot_ne_top

theorem djoin_inter_spec [Nontrivial T] (d : DI T) (s i : Iv T) (hd : Inv d) (hs : CL s) (hi : CL i) :
    Inv (djoin d (s.intersect i)) ∧ dpts (djoin d (s.intersect i)) = dpts d ∪ (pts s ∩ pts i) := by
  rw [← C35_intersect s i]
  by_cases h : s.overlaps i = true
  · exact djoin_spec d _ hd (cl_intersect hs hi h)
  · have e : s.intersect i = s.setToEmpty := by unfold Iv.intersect; rw [if_neg h]
    rw [e, setToEmpty_pts]
    unfold djoin
    rw [if_pos (setToEmpty_empty s)]
    exact ⟨hd, by simp⟩

theorem dinner_spec [Nontrivial T] (i : Iv T) (hi : CL i) (J : DI T) (hJ : Inv J) : ∀ (I : DI T), Inv I →
    Inv (dinner J I i) ∧ dpts (dinner J I i) = dpts I ∪ (pts i ∩ dpts J) := by
  have hall : ∀ j ∈ J, CL j := fun j hj => (hJ.1 j hj).1
  clear hJ
  unfold dinner
  induction J with
  | nil => intro I h; exact ⟨h, by simp [dpts_nil]⟩
  | cons j J ih =>
    intro I h
    rw [List.foldl_cons]
    obtain ⟨a, b⟩ := djoin_inter_spec I i j h hi (hall j (by simp))
    obtain ⟨c, e⟩ := ih (fun k hk => hall k (by simp [hk])) _ a
    refine ⟨c, ?_⟩
    rw [e, b, dpts_cons]
    ext x
    simp only [Set.mem_union, Set.mem_inter_iff]
    tauto

theorem dintersectD_spec [Nontrivial T] (d J : DI T) (hd : Inv d) (hJ : Inv J) :
    Inv (dintersectD d J) ∧ dpts (dintersectD d J) = dpts d ∩ dpts J := by
  have key : ∀ (d : DI T), (∀ i ∈ d, CL i) → ∀ I : DI T, Inv I →
      Inv (d.foldl (dinner J) I) ∧ dpts (d.foldl (dinner J) I) = dpts I ∪ (dpts d ∩ dpts J) := by
    intro d
    induction d with
    | nil => intro _ I h; exact ⟨h, by simp [dpts_nil]⟩
    | cons i d ih =>
      intro hall I h
      rw [List.foldl_cons]
      obtain ⟨a, b⟩ := dinner_spec i (hall i (by simp)) J hJ I h
      obtain ⟨c, e⟩ := ih (fun k hk => hall k (by simp [hk])) _ a
      refine ⟨c, ?_⟩
      rw [e, b, dpts_cons]
      ext x
      simp only [Set.mem_union, Set.mem_inter_iff]
      tauto
  obtain ⟨a, b⟩ := key d (fun i hi => (hd.1 i hi).1) [] ⟨by simp, List.Pairwise.nil⟩
  exact ⟨a, by unfold dintersectD; rw [b]; simp [dpts]⟩

theorem dintersect_eq (d : DI T) (i : Iv T) : dintersect d i = dinner d [] i := rfl

/-- proper points: neither infinity -/
def proper : Set T := {x | x ≠ ⊥ ∧ x ≠ ⊤}

mutual
/-- Specification: what one call should do to the set of points. -/
def specStep (S : Set T) : Op T → Set T
  | .join l u => S ∪ (Set.Icc l u ∩ proper)
  | .cut l u => S ∩ Set.Icc l u
  | .cutAll ops => S ∩ spec ∅ ops
  | .clear => ∅
  | .complete => proper
/-- Specification of a history. -/
def spec (S : Set T) : List (Op T) → Set T
  | [] => S
  | o :: ops => spec (specStep S o) ops
end

theorem cl_mk (l u : T) : CL (⟨l, u, false, false⟩ : Iv T) := ⟨by simp, by simp⟩

theorem pts_mk (l u : T) : pts (⟨l, u, false, false⟩ : Iv T) = Set.Icc l u ∩ proper := by
  ext x
  rw [(cl_mk l u).mem]
  simp only [Set.mem_inter_iff, Set.mem_Icc]
  show _ ↔ _ ∧ (x ≠ ⊥ ∧ x ≠ ⊤)
  tauto

theorem inv_proper {d : DI T} (h : Inv d) : dpts d ⊆ proper := by
  rintro x ⟨i, hi, hx⟩
  obtain ⟨a, b, _⟩ := ((h.1 i hi).1.mem x).1 hx
  exact ⟨a, b⟩

mutual
theorem step_spec [Nontrivial T] (d : DI T) (hd : Inv d) (o : Op T) :
    Inv (step d o) ∧ dpts (step d o) = specStep (dpts d) o := by
  match o with
  | .join l u =>
    simp only [step, specStep]
    obtain ⟨a, b⟩ := djoin_spec d _ hd (cl_mk l u)
    exact ⟨a, by rw [b, pts_mk]⟩
  | .cut l u =>
    simp only [step, specStep]
    obtain ⟨a, b⟩ := dinner_spec _ (cl_mk l u) d hd [] ⟨by simp, List.Pairwise.nil⟩
    rw [dintersect_eq]
    refine ⟨a, ?_⟩
    rw [b, pts_mk, dpts_nil]
    ext x
    have := @inv_proper T _ _ d hd x
    simp only [Set.mem_union, Set.mem_inter_iff, Set.mem_empty_iff_false, false_or]
    tauto
  | .cutAll ops =>
    simp only [step, specStep]
    obtain ⟨a, b⟩ := run_spec [] ⟨by simp, List.Pairwise.nil⟩ ops
    obtain ⟨c, e⟩ := dintersectD_spec d _ hd a
    refine ⟨c, ?_⟩
    rw [e, b]
    simp [dpts_nil]
  | .clear => simp only [step, specStep]; exact ⟨⟨by simp, List.Pairwise.nil⟩, by simp [dpts_nil]⟩
  | .complete =>
    simp only [step, specStep]
    refine ⟨⟨?_, by simp⟩, ?_⟩
    · intro i hi
      rw [List.mem_singleton] at hi
      subst hi
      refine ⟨cl_mk _ _, ?_⟩
      unfold Iv.empty
      rw [if_neg (not_lt.2 bot_le), if_neg (fun h => bot_ne_top h.1)]
    · rw [dpts_cons, dpts_nil, pts_mk]
      simp
theorem run_spec [Nontrivial T] (d : DI T) (hd : Inv d) (ops : List (Op T)) :
    Inv (run d ops) ∧ dpts (run d ops) = spec (dpts d) ops := by
  match ops with
  | [] => simp only [run, spec]; exact ⟨hd, trivial⟩
  | o :: ops =>
    simp only [run, spec]
    obtain ⟨a, b⟩ := step_spec d hd o
    obtain ⟨c, e⟩ := run_spec _ a ops
    exact ⟨c, by rw [e, b]⟩
end

/-- C35: after any history of calls with closed (possibly unbounded) intervals, `contains` answers membership
in the set specified by the history, and the stored pieces are non-empty, sorted and pairwise disjoint. -/
theorem C35_history_partial [Nontrivial T] (ops : List (Op T)) (x : T) :
    (dcontains (run [] ops) x = true ↔ x ∈ spec ∅ ops) ∧
    (run [] ops).Pairwise (fun i j => i.hi < j.lo) ∧ ∀ i ∈ run [] ops, i.empty = false := by
  obtain ⟨a, b⟩ := run_spec [] ⟨by simp, List.Pairwise.nil⟩ ops
  have e : dpts ([] : DI T) = ∅ := by simp [dpts_nil]
  rw [e] at b
  refine ⟨?_, a.2, fun i hi => (a.1 i hi).2⟩
  rw [← b]
  unfold dcontains
  rw [List.any_eq_true]
  constructor
  · rintro ⟨i, hi, h⟩; exact ⟨i, hi, (C35_contains_partial i (a.1 i hi).2 x).1 h⟩
  · rintro ⟨i, hi, h⟩; exact ⟨i, hi, (C35_contains_partial i (a.1 i hi).2 x).2 h⟩

/-- C35: after such a history `overlaps(i)` is false only if the set shares no point with `i`. -/
theorem C35_history_overlaps_partial [Nontrivial T] (ops : List (Op T)) (i : Iv T) (h : doverlaps (run [] ops) i = false) :
    spec ∅ ops ∩ pts i = ∅ := by
  obtain ⟨_, b⟩ := run_spec ([] : DI T) ⟨by simp, List.Pairwise.nil⟩ ops
  have e : dpts ([] : DI T) = ∅ := by simp [dpts_nil]
  rw [e] at b
  rw [← b]
  ext x
  simp only [Set.mem_inter_iff, Set.mem_empty_iff_false, iff_false]
  rintro ⟨⟨j, hj, hx⟩, hxi⟩
  unfold doverlaps at h
  rw [List.any_eq_false] at h
  have := C35_overlaps_false j i (by simpa using h j hj)
  rw [Set.ext_iff] at this
  exact (this x).1 ⟨hx, hxi⟩

/-! ### where it fails: open finite ends -/

/-- endpoints for the counterexamples: the integers 0..9 (`⊥ = 0`, `⊤ = 9`) -/
abbrev T10 := Fin 10

/-- C35 finding: `join` of overlapping intervals ignores the flags: `(2,5) ∪ [2,3]` loses the point 2, and
`(1,3) ∪ [2,5]` loses the point 5. -/
theorem C35_join_wrong :
    (Iv.join (⟨2, 5, true, true⟩ : Iv T10) ⟨2, 3, false, false⟩).1 = true ∧
    (2 : T10) ∈ pts (⟨2, 3, false, false⟩ : Iv T10) ∧
    (2 : T10) ∉ pts (Iv.join (⟨2, 5, true, true⟩ : Iv T10) ⟨2, 3, false, false⟩).2 ∧
    (5 : T10) ∈ pts (⟨2, 5, false, false⟩ : Iv T10) ∧
    (5 : T10) ∉ pts (Iv.join (⟨1, 3, true, true⟩ : Iv T10) ⟨2, 5, false, false⟩).2 := by
  simp only [mem_pts]; decide +kernel

/-- C35 finding: the set is ordered by the lower bound only, so a disjoint interval with the same lower
bound is silently dropped: `(2,5) ∪ {2}`. -/
theorem C35_insert_dropped :
    djoin [(⟨2, 5, true, false⟩ : Iv T10)] ⟨2, 2, false, false⟩ = [⟨2, 5, true, false⟩] ∧
    Iv.overlaps (⟨2, 5, true, false⟩ : Iv T10) ⟨2, 2, false, false⟩ = false ∧
    dcontains (djoin [(⟨2, 5, true, false⟩ : Iv T10)] ⟨2, 2, false, false⟩) 2 = false := by decide +kernel

/-- C35 finding: `contains` of an empty interval answers true at its closed ends, even for the default
interval (whose lower end is `upper_inf()`). -/
theorem C35_contains_empty_wrong :
    Iv.empty (⟨⊤, ⊥, false, false⟩ : Iv T10) = true ∧ Iv.contains (⟨⊤, ⊥, false, false⟩ : Iv T10) ⊤ = true ∧
    Iv.empty (⟨5, 3, false, false⟩ : Iv T10) = true ∧ Iv.contains (⟨5, 3, false, false⟩ : Iv T10) 5 = true := by decide +kernel

/-- Non-vacuity of the history theorem, and a run of it. -/
example : run ([] : DI T10) [.join 1 2, .join 5 7, .join 2 4, .cut 2 6] = [⟨2, 4, false, false⟩, ⟨5, 6, false, false⟩] ∧
    run ([] : DI T10) [.join 1 3, .join 6 8, .join 3 6] = [⟨1, 8, false, false⟩] ∧
    run ([] : DI T10) [.complete, .cutAll [.join 1 3, .join 6 9], .cut 2 7] = [⟨2, 3, false, false⟩, ⟨6, 7, false, false⟩] ∧
    Iv.empty (⟨2, 5, true, true⟩ : Iv T10) = false ∧ Iv.overlaps (⟨2, 5, true, true⟩ : Iv T10) ⟨4, 6, true, false⟩ = true := by
  decide +kernel

end Verif.Interval
