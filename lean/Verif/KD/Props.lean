import Verif.KD.Model
import Mathlib.Tactic.Ring
import Mathlib.Tactic.Linarith
import Mathlib.Algebra.Order.Ring.Int
import Mathlib.Data.List.Sort
/-! C49: nearest-neighbour search is exact. -/
namespace Verif.KD
variable {F : Type} [CommRing F] [LinearOrder F] [IsStrictOrderedRing F]

omit [LinearOrder F] [IsStrictOrderedRing F] in
theorem dist2_succ (n : Nat) (x y : Nat → F) : dist2 (n + 1) x y = dist2 n x y + (x n - y n) * (x n - y n) := by
  unfold dist2
  rw [List.range_succ, List.foldl_append]
  rfl

theorem dist2_nonneg (n : Nat) (x y : Nat → F) : 0 ≤ dist2 n x y := by
  induction n with
  | zero => simp [dist2]
  | succ n ih => rw [dist2_succ]; have := mul_self_nonneg (x n - y n); linarith

theorem axis_le_dist2 (n : Nat) (x y : Nat → F) (k : Nat) (hk : k < n) : (x k - y k) * (x k - y k) ≤ dist2 n x y := by
  induction n with
  | zero => omega
  | succ n ih =>
    rw [dist2_succ]
    rcases Nat.lt_or_ge k n with h | h
    · have := ih h; have := mul_self_nonneg (x n - y n); linarith
    · have : k = n := by omega
      subst this
      have := dist2_nonneg k x y
      linarith

/-- (specification) `i` is one of `ids` and none of them is nearer to `x` -/
def IsNearest (n : Nat) (pts : Nat → Nat → F) (x : Nat → F) (ids : List Nat) (i : Nat) : Prop :=
  i ∈ ids ∧ ∀ j ∈ ids, dist2 n x (pts i) ≤ dist2 n x (pts j)

omit [IsStrictOrderedRing F] in
theorem closest_some (n : Nat) (pts : Nat → Nat → F) (x : Nat → F) (i j : Nat) :
    ∃ k, closest n pts x (some i) (some j) = some k ∧ (k = i ∨ k = j) ∧ dist2 n x (pts k) ≤ dist2 n x (pts i) ∧
      dist2 n x (pts k) ≤ dist2 n x (pts j) := by
  simp only [closest]
  split
  · rename_i h; exact ⟨_, rfl, .inl rfl, le_refl _, le_of_lt h⟩
  · rename_i h; exact ⟨_, rfl, .inr rfl, not_lt.1 h, le_refl _⟩

theorem sq_le_of_between (a b c : F) (h : a ≤ b ∧ b ≤ c ∨ c ≤ b ∧ b ≤ a) : (a - b) * (a - b) ≤ (a - c) * (a - c) := by
  rcases h with ⟨h1, h2⟩ | ⟨h1, h2⟩ <;> nlinarith

theorem build_spec (N : NthElement F) (n : Nat) (hn : 0 < n) (pts : Nat → Nat → F) (maxLevel : Nat) (x : Nat → F)
    (m : Nat) : ∀ (level : Nat) (ids : List Nat), ids.length = m → ids ≠ [] → level + ids.length ≤ maxLevel + 1 →
      ∃ t, build N n pts maxLevel level ids = some t ∧ ∃ i, findNearest n pts x t level = some i ∧
        IsNearest n pts x ids i := by
  induction m using Nat.strongRecOn with
  | ind m ih =>
    intro level ids hm hne hlev
    have hpos : 0 < ids.length := List.length_pos_iff.2 hne
    have hk : ids.length / 2 < ids.length := by omega
    have hlen := (N.perm (fun i => pts i (level % n)) ids (ids.length / 2)).length_eq
    have hmem := fun a => (N.perm (fun i => pts i (level % n)) ids (ids.length / 2)).mem_iff (a := a)
    have hbef := N.before (fun i => pts i (level % n)) ids (ids.length / 2) hk
    have haft := N.after (fun i => pts i (level % n)) ids (ids.length / 2) hk
    rw [build]
    have hlt : ids.length / 2 < (N.run (fun i => pts i (level % n)) ids (ids.length / 2)).length := by omega
    have hget := List.getElem?_eq_getElem hlt
    generalize hid : (N.run (fun i => pts i (level % n)) ids (ids.length / 2))[ids.length / 2]'hlt = id at hbef haft hget
    have hidm : id ∈ ids := (hmem id).1 (hid ▸ List.getElem_mem _)
    clear hid hlt
    generalize hr : N.run (fun i => pts i (level % n)) ids (ids.length / 2) = r at hget hlen hmem hbef haft ⊢
    rw [hget]
    simp only
    have hax : level % n < n := Nat.mod_lt _ hn
    split
    · rename_i hgt
      obtain ⟨a, ha1, i, ha2, ha3⟩ := ih (ids.length / 2) (by omega) (level + 1) (r.take (ids.length / 2))
        (by simp; omega) (by intro h; have := congrArg List.length h; simp only [List.length_take, List.length_drop, List.length_nil] at this; omega) (by simp; omega)
      obtain ⟨b, hb1, j, hb2, hb3⟩ := ih (ids.length - ids.length / 2) (by omega) (level + 1)
        (r.drop (ids.length / 2)) (by simp; omega) (by intro h; have := congrArg List.length h; simp only [List.length_take, List.length_drop, List.length_nil] at this; omega)
        (by simp; omega)
      rw [ha1, hb1]
      refine ⟨_, rfl, ?_⟩
      have hmem2 : ∀ k, k ∈ ids ↔ k ∈ r.take (ids.length / 2) ∨ k ∈ r.drop (ids.length / 2) := by
        intro k
        rw [← hmem k]
        conv_lhs => rw [← List.take_append_drop (ids.length / 2) r]
        exact List.mem_append
      simp only [findNearest]
      -- the pruning argument, for the side `P` searched first with result `p` and the other side `Q` with result `q`
      have key : ∀ (P Q : List Nat) (p q : Nat), (∀ k, k ∈ ids ↔ k ∈ P ∨ k ∈ Q) → IsNearest n pts x P p →
          IsNearest n pts x Q q →
          (∀ k ∈ Q, (x (level % n) - pts id (level % n)) * (x (level % n) - pts id (level % n)) ≤
            dist2 n x (pts k)) →
          ∃ i, (if dist2 n x (pts ((closest n pts x (some p) (some id)).getD 0)) ≥
              (x (level % n) - pts id (level % n)) * (x (level % n) - pts id (level % n)) then
              closest n pts x (some q) (closest n pts x (some p) (some id))
            else closest n pts x (some p) (some id)) = some i ∧ IsNearest n pts x ids i := by
        intro P Q p q hPQ hp hq hfar
        obtain ⟨c, c1, c2, c3, c4⟩ := closest_some n pts x p id
        have hc : c ∈ ids := by
          rcases c2 with h | h
          · rw [h]; exact (hPQ p).2 (.inl hp.1)
          · rw [h]; exact hidm
        rw [c1]
        simp only [Option.getD_some]
        split
        · obtain ⟨e, e1, e2, e3, e4⟩ := closest_some n pts x q c
          refine ⟨e, e1, ?_, fun k hk => ?_⟩
          · rcases e2 with h | h
            · rw [h]; exact (hPQ q).2 (.inr hq.1)
            · rw [h]; exact hc
          · rcases (hPQ k).1 hk with h | h
            · exact le_trans e4 (le_trans c3 (hp.2 k h))
            · exact le_trans e3 (hq.2 k h)
        · rename_i hlt
          refine ⟨c, rfl, hc, fun k hk => ?_⟩
          rcases (hPQ k).1 hk with h | h
          · exact le_trans c3 (hp.2 k h)
          · exact le_trans (le_of_lt (not_le.1 hlt)) (hfar k h)
      by_cases hside : x (level % n) < pts id (level % n)
      · simp only [hside, decide_true, if_true, ha2, hb2]
        refine key _ _ i j hmem2 ha3 hb3 (fun k hk => ?_)
        refine le_trans ?_ (axis_le_dist2 n x (pts k) (level % n) hax)
        exact sq_le_of_between _ _ _ (.inl ⟨le_of_lt hside, haft k hk⟩)
      · simp only [hside, decide_false, Bool.false_eq_true, if_false, ha2, hb2]
        refine key _ _ j i (fun k => by rw [hmem2 k]; tauto) hb3 ha3 (fun k hk => ?_)
        refine le_trans ?_ (axis_le_dist2 n x (pts k) (level % n) hax)
        exact sq_le_of_between _ _ _ (.inr ⟨hbef k hk, not_lt.1 hside⟩)
    · rename_i hgt
      have h1 : ids.length = 1 := by omega
      obtain ⟨a, ha⟩ := List.length_eq_one_iff.1 h1
      have hida : id = a := by rw [ha] at hidm; simpa using hidm
      refine ⟨_, rfl, id, ?_, hidm, fun k hk => ?_⟩
      · simp only [findNearest, closest]
        simp
      · rw [ha] at hk
        have : k = a := by simpa using hk
        rw [this, hida]

/-- **C49.** With at least one point and at least one axis, and no binding limit on the level (the default is 2^64-1),
`build` succeeds and `find_nearest(x)` returns the index of an input point whose distance to `x` is minimal: for every
point set, every query, and every implementation of `std::nth_element`. -/
theorem C49_nearest (N : NthElement F) (n : Nat) (hn : 0 < n) (pts : Nat → Nat → F) (np : Nat) (hnp : 0 < np)
    (maxLevel : Nat) (hmax : np ≤ maxLevel + 1) (x : Nat → F) :
    ∃ i, nearest N n pts np maxLevel x = some i ∧ i < np ∧ ∀ j < np, dist2 n x (pts i) ≤ dist2 n x (pts j) := by
  obtain ⟨t, h1, i, h2, h3, h4⟩ := build_spec N n hn pts maxLevel x np 0 (List.range np) (by simp) (by simp; omega)
    (by simp; omega)
  refine ⟨i, by unfold nearest; rw [h1, Option.bind_some, h2], by simpa using h3, fun j hj => h4 j (by simpa using hj)⟩

omit [IsStrictOrderedRing F] in
/-- **C49 (naive search).** If some point is nearer than `numeric_limits::max()`, `find_nearest_naive` returns the first of
the nearest points. -/
theorem C49_naive (n : Nat) (pts : Nat → Nat → F) (np : Nat) (big : F) (x : Nat → F)
    (h : ∃ i < np, dist2 n x (pts i) < big) :
    nearestNaive n pts np big x < np ∧
    (∀ j < np, dist2 n x (pts (nearestNaive n pts np big x)) ≤ dist2 n x (pts j)) ∧
    (∀ j < nearestNaive n pts np big x, dist2 n x (pts (nearestNaive n pts np big x)) < dist2 n x (pts j)) := by
  have key : ∀ m, ∀ s, s = (List.range m).foldl (fun (s : Nat × F) i =>
      if s.2 > dist2 n x (pts i) then (i, dist2 n x (pts i)) else s) (0, big) →
      (s = (0, big) ∧ ∀ j < m, big ≤ dist2 n x (pts j)) ∨
      (s.1 < m ∧ s.2 = dist2 n x (pts s.1) ∧ (∀ j < m, s.2 ≤ dist2 n x (pts j)) ∧
        (∀ j < s.1, s.2 < dist2 n x (pts j)) ∧ s.2 < big) := by
    intro m
    induction m with
    | zero => rintro s rfl; left; exact ⟨rfl, by simp⟩
    | succ m ih =>
      rintro s hs
      rw [List.range_succ, List.foldl_append] at hs
      simp only [List.foldl_cons, List.foldl_nil] at hs
      have := ih _ rfl
      generalize (List.range m).foldl (fun (s : Nat × F) i =>
        if s.2 > dist2 n x (pts i) then (i, dist2 n x (pts i)) else s) (0, big) = q at hs this
      by_cases hq : q.2 > dist2 n x (pts m)
      · rw [if_pos hq] at hs
        subst hs
        right
        rcases this with ⟨rfl, h2⟩ | ⟨h1, h2, h3, h4, h5⟩
        · refine ⟨by simp, rfl, fun j hj => ?_, fun j hj => ?_, hq⟩
          · rcases Nat.lt_or_ge j m with h | h
            · exact le_trans (le_of_lt hq) (h2 j h)
            · have : j = m := by omega
              subst this; exact le_refl _
          · exact lt_of_lt_of_le hq (h2 j hj)
        · refine ⟨by simp, rfl, fun j hj => ?_, fun j hj => ?_, lt_trans hq h5⟩
          · rcases Nat.lt_or_ge j m with h | h
            · exact le_trans (le_of_lt hq) (h3 j h)
            · have : j = m := by omega
              subst this; exact le_refl _
          · exact lt_of_lt_of_le hq (h3 j hj)
      · rw [if_neg hq] at hs
        subst hs
        rcases this with ⟨h1, h2⟩ | ⟨h1, h2, h3, h4, h5⟩
        · left
          refine ⟨h1, fun j hj => ?_⟩
          rcases Nat.lt_or_ge j m with h | h
          · exact h2 j h
          · have : j = m := by omega
            subst this
            rw [h1] at hq
            exact not_lt.1 hq
        · right
          refine ⟨by omega, h2, fun j hj => ?_, h4, h5⟩
          rcases Nat.lt_or_ge j m with h | h
          · exact h3 j h
          · have : j = m := by omega
            subst this; exact not_lt.1 hq
  unfold nearestNaive
  have := key np _ rfl
  generalize (List.range np).foldl (fun (s : Nat × F) i =>
      if s.2 > dist2 n x (pts i) then (i, dist2 n x (pts i)) else s) (0, big) = q at this
  rcases this with ⟨_, h2⟩ | ⟨h1, h2, h3, h4, _⟩
  · obtain ⟨i, hi, hd⟩ := h
    exact absurd (h2 i hi) (not_le.2 hd)
  · rw [h2] at h3 h4
    exact ⟨h1, h3, h4⟩

/-- **C49 (agreement).** The tree search and the brute-force search find points at the same distance. -/
theorem C49_agree (N : NthElement F) (n : Nat) (hn : 0 < n) (pts : Nat → Nat → F) (np : Nat)
    (maxLevel : Nat) (hmax : np ≤ maxLevel + 1) (x : Nat → F) (big : F) (h : ∃ i < np, dist2 n x (pts i) < big) :
    ∃ i, nearest N n pts np maxLevel x = some i ∧
      dist2 n x (pts i) = dist2 n x (pts (nearestNaive n pts np big x)) := by
  have hnp : 0 < np := by obtain ⟨i, hi, _⟩ := h; omega
  obtain ⟨i, h1, h2, h3⟩ := C49_nearest N n hn pts np hnp maxLevel hmax x
  obtain ⟨g1, g2, _⟩ := C49_naive n pts np big x h
  exact ⟨i, h1, le_antisymm (h3 _ g1) (g2 _ h2)⟩

/-- An implementation of `std::nth_element`: sorting.  So the quantification over `NthElement` is not empty. -/
def sorting (F : Type) [LinearOrder F] : NthElement F where
  run key l _ := l.insertionSort fun i j => key i ≤ key j
  perm key l _ := List.perm_insertionSort _ l
  before key l k hk a ha := by
    have hs : (l.insertionSort fun i j => key i ≤ key j).Pairwise fun i j => key i ≤ key j :=
      haveI : Std.Total fun i j => key i ≤ key j := ⟨fun i j => le_total _ _⟩
      haveI : IsTrans Nat fun i j => key i ≤ key j := ⟨fun _ _ _ => le_trans⟩
      List.pairwise_insertionSort _ l
    have hlen := (List.perm_insertionSort (fun i j => key i ≤ key j) l).length_eq
    obtain ⟨i, hi, rfl⟩ := List.getElem_of_mem ha
    simp only [List.length_take] at hi
    rw [List.getElem_take]
    exact List.pairwise_iff_getElem.1 hs i k (by omega) (by omega) (by omega)
  after key l k hk a ha := by
    have hs : (l.insertionSort fun i j => key i ≤ key j).Pairwise fun i j => key i ≤ key j :=
      haveI : Std.Total fun i j => key i ≤ key j := ⟨fun i j => le_total _ _⟩
      haveI : IsTrans Nat fun i j => key i ≤ key j := ⟨fun _ _ _ => le_trans⟩
      List.pairwise_insertionSort _ l
    have hlen := (List.perm_insertionSort (fun i j => key i ≤ key j) l).length_eq
    obtain ⟨i, hi, rfl⟩ := List.getElem_of_mem ha
    simp only [List.length_drop] at hi
    rw [List.getElem_drop]
    rcases Nat.eq_zero_or_pos i with h | h
    · subst h; exact le_refl _
    · exact List.pairwise_iff_getElem.1 hs k (k + i) (by omega) (by omega) (by omega)

/-- five points of the plane -/
def demo : Nat → Nat → Int := fun i k => ([[0, 0], [4, 1], [1, 5], [6, 6], [2, 2]].getD i []).getD k 0

/-- **C49 (finding).** With a limit on the level the points that are not medians are forgotten: the nearest of five points
is not found. -/
theorem C49_max_level : nearest (sorting Int) 2 demo 5 0 (fun _ => 0) = some 4 ∧
    dist2 2 (fun _ => 0) (demo 0) < dist2 2 (fun _ => 0) (demo 4) := by decide +kernel

omit [IsStrictOrderedRing F] in
/-- **C49 (finding).** `build` on an empty point set reads out of bounds. -/
theorem C49_empty (N : NthElement F) (n : Nat) (pts : Nat → Nat → F) (maxLevel : Nat) (x : Nat → F) :
    nearest N n pts 0 maxLevel x = none := by
  unfold nearest
  rw [build]
  simp only [List.range_zero, List.length_nil]
  have : N.run (fun i => pts i (0 % n)) [] (0 / 2) = [] := (N.perm _ _ _).eq_nil
  rw [this]
  rfl

example : nearest (sorting Int) 2 demo 5 100 (fun _ => 5) = some 3 := by decide +kernel

end Verif.KD
