import Verif.Curve.Geo
import Mathlib.Algebra.Order.Ring.Int
import Mathlib.Data.List.TakeWhile
import Mathlib.Data.List.GetD
import Mathlib.Algebra.Order.Field.Rat
import Mathlib.Algebra.Field.Rat
import Mathlib.Algebra.Order.Ring.Rat
/-! C23 - C28, C61 - C66: feature curves and curve sets.  Statements use only the operations of the API,
lists and orders. -/
set_option linter.unusedSectionVars false
namespace Verif.Curve
variable {R : Type} {nv : Nat}

/-- a point for the examples: time, ordinal, type, tag -/
def ex (t : Int) (o : Bool) (ty tag : Nat) : Point Int 0 :=
  { x := fun _ => 0, t := t, timestep := t, scalar := fun _ => 0, v := fun _ => 0, type := ty, ordinal := o, tag := tag, id := 0 }

/-- statistics of the examples -/
def exStats : Stats Int 0 :=
  { max := fun _ => 0, min := fun _ => 0, persistence := fun _ => 0, bbmin := fun _ => 0, bbmax := fun _ => 0
    tmin := 0, tmax := 0, vmmin := 0, vmmax := 0, consistent := 0 }
/-- a curve for the examples -/
def exC (loop : Bool) (l : List (Point Int 0)) : Curve Int 0 := { pts := l, id := 7, complete := false, loop := loop, stats := exStats }
/-- limits of the examples -/
def exE : Env Int := { lo := -1000, hi := 1000, vmag := fun v => v 0 }

section order
variable [LinearOrder R]

/-! ### C23 -/

/-- C23.  `adjust_time` changes nothing but the times of interval points; if the times of the ordinal
points are non-decreasing along the curve, the times of all points are non-decreasing afterwards; a
curve whose times are already non-decreasing is not changed. -/
theorem C23_adjust_time (c : Curve R nv) :
    List.Forall₂ (fun p q => q = { p with t := q.t } ∧ (p.ordinal = true → q.t = p.t)) c.pts (adjustTime c).pts ∧
    (((c.pts.filter (fun p => p.ordinal)).map (fun p => p.t)).Pairwise (· ≤ ·) →
      ((adjustTime c).pts.map (fun p => p.t)).Pairwise (· ≤ ·)) ∧
    ((c.pts.map (fun p => p.t)).Pairwise (· ≤ ·) → adjustTime c = c) ∧
    ((adjustTime c).id = c.id ∧ (adjustTime c).loop = c.loop ∧ (adjustTime c).complete = c.complete) := by
  refine ⟨forall₂_only_trans (ascend_only _ _) (descend_only _), ?_, ?_, rfl, rfl, rfl⟩
  · intro h
    rw [filter_ordinal_only (ascend_only c.pts none)] at h
    have := (descend_mono (ascend none c.pts) (ascend_chain c.pts none).1 (List.pairwise_map.1 h)).1
    rw [← List.isChain_iff_pairwise, List.isChain_map]
    exact this
  · intro h
    unfold adjustTime
    rw [ascend_mono c.pts none h (by simp), descend_id c.pts h]

/-- the hypothesis is met by a curve whose interval points are out of order -/
example : (((exC false [ex 0 true 1 0, ex 5 false 1 1, ex 2 false 1 2, ex 3 true 1 3, ex 1 false 1 4]).pts.filter (fun p => p.ordinal)).map
      (fun p => p.t)).Pairwise (· ≤ ·) ∧
    (adjustTime (exC false [ex 0 true 1 0, ex 5 false 1 1, ex 2 false 1 2, ex 3 true 1 3, ex 1 false 1 4])).pts.map (fun p => p.t)
      = [0, 3, 3, 3, 3] := by decide +kernel

/-! ### C24 -/

/-- C24, the part that holds: `split` returns non-empty pieces of one type each, in order, and their
concatenation is a subsequence of the curve; it is the whole curve exactly when all points have the same
type.  Missing: the concatenation is not the whole curve otherwise, see `C24_split_loses_points`. -/
theorem C24_split_partial (c : Curve R nv) :
    (∀ s ∈ splitPts c, s ≠ [] ∧ ∃ ty, ∀ p ∈ s, p.type = ty) ∧
    (splitPts c).flatten.Sublist c.pts ∧
    ((splitPts c).flatten = c.pts ↔ ∀ p ∈ c.pts, ∀ q ∈ c.pts, p.type = q.type) := by
  obtain ⟨h1, h2⟩ := splitLoop_spec c.pts [] 0 (by simp) (fun _ => rfl)
  refine ⟨h2, ?_, ?_⟩
  · show (splitLoop [] 0 c.pts).flatten.Sublist c.pts
    rw [h1]; exact kept_sublist _ _
  · show (splitLoop [] 0 c.pts).flatten = c.pts ↔ _
    rw [h1]
    simp only [List.isEmpty_nil, if_true, List.nil_append]
    cases c.pts with
    | nil => simp [kept]
    | cons p ps =>
      simp only [kept, List.cons.injEq, true_and, kept_eq_iff]
      constructor
      · intro h a ha b hb
        have hall : ∀ x ∈ p :: ps, x.type = p.type := by
          intro x hx
          rcases List.mem_cons.1 hx with rfl | hx
          · rfl
          · exact h x hx
        rw [hall a ha, hall b hb]
      · intro h x hx; exact h x (List.mem_cons_of_mem _ hx) p (by simp)

/-- C24 is violated: each type change loses the first point of the new type.  A curve with one type
change whose second part has one point loses that part altogether. -/
theorem C24_split_loses_points :
    (splitPts (exC false [ex 0 true 1 0, ex 1 true 1 1, ex 2 true 2 2, ex 3 true 2 3])).map (fun s => s.map (fun p => p.tag))
      = [[0, 1], [3]] ∧
    (splitPts (exC false [ex 0 true 1 0, ex 1 true 2 1])).map (fun s => s.map (fun p => p.tag)) = [[0]] := by decide +kernel

/-! ### C25 -/

/-- C25.  On a non-empty curve with non-decreasing times (the documented precondition), `intercept(t0,t1)`
returns in order exactly the points with `t0 ≤ t ≤ t1`, relabelled with the id of the curve. -/
theorem C25_intercept [Sub R] (e : Env R) (fresh : Curve R nv) (cast : Int → R) (c : Curve R nv) (t0 t1 : Int)
    (hne : c.pts ≠ []) (hm : (c.pts.map (fun p => p.t)).Pairwise (· ≤ ·)) :
    ∃ r, intercept e fresh cast c t0 t1 = some r ∧
      r.pts = (c.pts.filter (fun p => decide (cast t0 ≤ p.t ∧ p.t ≤ cast t1))).map (fun p => { p with id := c.id }) ∧
      (r.pts ≠ [] → r.id = c.id) := by
  rcases List.eq_nil_or_concat c.pts with h | ⟨ps, b, h⟩
  · exact absurd h hne
  rw [List.concat_eq_append] at h
  obtain ⟨f, hf⟩ : ∃ f, c.pts.head? = some f := by
    cases hc : c.pts with
    | nil => exact absurd hc hne
    | cons f _ => exact ⟨f, rfl⟩
  have hb : c.pts.getLast? = some b := by rw [h]; simp
  have hfle : ∀ p ∈ c.pts, f.t ≤ p.t := by
    intro p hp
    cases hc : c.pts with
    | nil => exact absurd hc hne
    | cons f' ps' =>
      rw [hc] at hf hp hm
      simp only [List.head?_cons, Option.some.injEq] at hf
      subst hf
      rcases List.mem_cons.1 hp with rfl | hp
      · exact le_refl _
      · exact (List.pairwise_cons.1 (List.pairwise_map.1 hm)).1 p hp
  have hble : ∀ p ∈ c.pts, p.t ≤ b.t := by
    intro p hp
    rw [h] at hp hm
    rcases List.mem_append.1 hp with hp | hp
    · exact (List.pairwise_append.1 (List.pairwise_map.1 hm)).2.2 p hp b (by simp)
    · simp only [List.mem_singleton] at hp; rw [hp]
  have hfeq : c.pts.filter (fun p => decide (p.t ≥ cast t0) && decide (p.t ≤ cast t1)) =
      c.pts.filter (fun p => decide (cast t0 ≤ p.t ∧ p.t ≤ cast t1)) := by
    congr 1; funext p
    simp [Bool.decide_and]
  unfold intercept
  rw [hf, hb]
  simp only [hfeq]
  split
  · rename_i hor
    refine ⟨_, rfl, ?_, by simp⟩
    have : c.pts.filter (fun p => decide (cast t0 ≤ p.t ∧ p.t ≤ cast t1)) = [] := by
      rw [List.filter_eq_nil_iff]
      intro p hp
      simp only [decide_eq_true_eq]
      rintro ⟨h1, h2⟩
      rcases hor with hor | hor
      · exact absurd (le_trans h1 (hble p hp)) (not_le.2 hor)
      · exact absurd (le_trans (hfle p hp) h2) (not_le.2 hor)
    rw [this]; rfl
  · split
    · refine ⟨_, rfl, ?_, ?_⟩
      · rw [(updateStats_pts _ _).1]; rfl
      · intro _; rw [(updateStats_pts _ _).2.1]; rfl
    · rename_i hl
      refine ⟨_, rfl, ?_, by simp⟩
      have : c.pts.filter (fun p => decide (cast t0 ≤ p.t ∧ p.t ≤ cast t1)) = [] :=
        List.length_eq_zero_iff.1 (by omega)
      rw [this]; rfl

/-- the precondition of C25 matters: points inside the window are lost on a curve that is not in time
order, and an empty curve is undefined. -/
theorem C25_unordered_and_empty :
    (intercept exE (exC false []) id (exC false [ex 5 true 1 0, ex 1 true 1 1]) 2 6).map (fun r => r.pts.map (fun p => p.tag)) = some [] ∧
    (intercept exE (exC false []) id (exC false []) 2 6).isNone = true := by decide +kernel

example : (exC false [ex 0 true 1 0, ex 1 true 1 1, ex 2 true 1 2, ex 3 true 1 3]).pts ≠ [] ∧
    (((exC false [ex 0 true 1 0, ex 1 true 1 1, ex 2 true 1 2, ex 3 true 1 3]).pts).map (fun p => p.t)).Pairwise (· ≤ ·) ∧
    (intercept exE (exC false []) id (exC false [ex 0 true 1 0, ex 1 true 1 1, ex 2 true 1 2, ex 3 true 1 3]) 1 2).map
      (fun r => r.pts.map (fun p => (p.tag, p.id))) = some [(1, 7), (2, 7)] := by
  refine ⟨by simp [exC], by decide +kernel, by decide +kernel⟩

/-! ### C26 -/

/-- C26, rotate.  A curve that is not a loop is not changed.  A non-empty loop keeps its cyclic order: the
points are `a ++ b` before and `b ++ a` after; if its points are not all of one type, then afterwards the
first and the last point have different types (so a following `split` cuts no run of equal types). -/
theorem C26_rotate (c : Curve R nv) :
    (c.loop = false → rotate c = some c) ∧
    (c.pts ≠ [] → ∃ r, rotate c = some r ∧
      (∃ a b, c.pts = a ++ b ∧ r.pts = b ++ a) ∧ r.loop = c.loop ∧ r.id = c.id ∧
      (c.loop = true → (∃ p ∈ c.pts, ∃ q ∈ c.pts, p.type ≠ q.type) →
        ∃ f b, r.pts.head? = some f ∧ r.pts.getLast? = some b ∧ f.type ≠ b.type)) ∧
    (c.pts = [] → c.loop = true → rotate c = none) := by
  refine ⟨fun h => by simp [rotate, h], ?_, ?_⟩
  · intro hne
    obtain ⟨f, hf⟩ : ∃ f, c.pts.head? = some f := by
      cases hc : c.pts with
      | nil => exact absurd hc hne
      | cons f _ => exact ⟨f, rfl⟩
    obtain ⟨b, hb⟩ : ∃ b, c.pts.getLast? = some b := ⟨_, List.getLast?_eq_some_getLast hne⟩
    unfold rotate
    rw [hf, hb]
    by_cases hl : c.loop = false
    · rw [if_pos hl]
      exact ⟨c, rfl, ⟨[], c.pts, by simp, by simp⟩, rfl, rfl, fun h => by rw [hl] at h; cases h⟩
    · rw [if_neg hl]
      simp only
      by_cases ht : f.type ≠ b.type
      · rw [if_pos ht]
        exact ⟨c, rfl, ⟨[], c.pts, by simp, by simp⟩, rfl, rfl, fun _ _ => ⟨f, b, hf, hb, ht⟩⟩
      · rw [if_neg ht]
        split
        · rename_i hlt
          refine ⟨_, rfl, ⟨_, _, (List.take_append_drop _ _).symm, rfl⟩, rfl, rfl, ?_⟩
          intro _ _
          -- the point at the cut differs from the first, the point before it does not
          set P := fun p : Point R nv => decide (f.type = p.type) with hP
          have htake : c.pts.take (c.pts.takeWhile P).length = c.pts.takeWhile P :=
            List.prefix_iff_eq_take.1 (List.takeWhile_prefix P) |>.symm
          have hdrop : c.pts.drop (c.pts.takeWhile P).length = c.pts.dropWhile P := by
            have := List.takeWhile_append_dropWhile (p := P) (l := c.pts)
            generalize hA : c.pts.takeWhile P = A at this
            generalize hB : c.pts.dropWhile P = B at this
            rw [← this, List.drop_left]
          have hd : c.pts.dropWhile P ≠ [] := by
            rw [← hdrop]; intro e
            rw [List.drop_eq_nil_iff] at e
            omega
          obtain ⟨g, hg⟩ : ∃ g, (c.pts.dropWhile P).head? = some g := by
            cases hc : c.pts.dropWhile P with
            | nil => exact absurd hc hd
            | cons g _ => exact ⟨g, rfl⟩
          have hgt : P g = false := by
            have := List.head_dropWhile_not P hd
            rw [List.head?_eq_some_head hd] at hg
            cases hg; exact this
          have htw : c.pts.takeWhile P ≠ [] := by
            cases hc : c.pts with
            | nil => exact absurd hc hne
            | cons p ps =>
              rw [hc] at hf
              simp only [List.head?_cons, Option.some.injEq] at hf
              subst hf
              simp [hP]
          refine ⟨g, (c.pts.takeWhile P).getLast htw, ?_, ?_, ?_⟩
          · simp only [htake, hdrop]
            rw [List.head?_append, hg]; rfl
          · simp only [htake, hdrop]
            rw [List.getLast?_append_of_ne_nil _ htw, List.getLast?_eq_some_getLast htw]
          · have h1 : P ((c.pts.takeWhile P).getLast htw) = true := List.mem_takeWhile_imp (List.getLast_mem htw)
            simp only [hP, decide_eq_true_eq, decide_eq_false_iff_not] at h1 hgt
            intro e; exact hgt (h1.trans e.symm)
        · rename_i hge
          refine ⟨c, rfl, ⟨[], c.pts, by simp, by simp⟩, rfl, rfl, ?_⟩
          rintro _ ⟨p, hp, q, hq, hpq⟩
          exfalso
          have hall : ∀ x ∈ c.pts, f.type = x.type := by
            have : c.pts.takeWhile (fun p => decide (f.type = p.type)) = c.pts := by
              have hpre := List.takeWhile_prefix (l := c.pts) (fun p => decide (f.type = p.type))
              exact hpre.eq_of_length (by have := hpre.length_le; omega)
            intro x hx
            rw [← this] at hx
            simpa using List.mem_takeWhile_imp hx
          exact hpq (by rw [← hall p hp, ← hall q hq])
  · intro h hl
    simp [rotate, h, hl]

/-- C26, reorder.  Loops and empty curves are not changed; otherwise the points are kept in the same or in
reversed order and the first point is not later than the last one (by timestep, then by time). -/
theorem C26_reorder (c : Curve R nv) :
    (c.loop = true ∨ c.pts = [] → reorder c = c) ∧
    ((reorder c).pts = c.pts ∨ (reorder c).pts = c.pts.reverse) ∧
    (c.loop = false → ∀ f b, (reorder c).pts.head? = some f → (reorder c).pts.getLast? = some b →
      f.timestep < b.timestep ∨ (f.timestep = b.timestep ∧ f.t ≤ b.t)) := by
  unfold reorder
  by_cases hl : c.loop = true
  · simp only [hl, if_true]
    exact ⟨fun _ => trivial, Or.inl trivial, fun h => by cases h⟩
  · rw [if_neg hl]
    cases hf : c.pts.head? with
    | none =>
      simp only [true_or, implies_true, true_and]
      intro _ f b h; rw [hf] at h; cases h
    | some f =>
      cases hb : c.pts.getLast? with
      | none =>
        simp only [true_or, implies_true, true_and]
        intro _ f b _ h; rw [hb] at h; cases h
      | some b =>
        simp only
        refine ⟨?_, ?_, ?_⟩
        · rintro (h | h)
          · exact absurd h hl
          · rw [h] at hf; cases hf
        · split
          · exact Or.inr rfl
          · exact Or.inl rfl
        · intro _ f' b' h1 h2
          split at h1
          · rename_i hr
            rw [if_pos hr] at h2
            simp only [List.head?_reverse, List.getLast?_reverse] at h1 h2
            rw [hb] at h1; rw [hf] at h2
            cases h1; cases h2
            unfold needsReverse at hr
            split at hr
            · rename_i e
              exact Or.inr ⟨e.symm, le_of_lt (by simpa using hr)⟩
            · exact Or.inl (by simpa using hr)
          · rename_i hr
            rw [if_neg hr] at h2
            rw [hf] at h1; rw [hb] at h2
            cases h1; cases h2
            unfold needsReverse at hr
            split at hr
            · rename_i e
              exact Or.inr ⟨e, by simpa using hr⟩
            · rename_i e
              simp only [decide_eq_true_eq, gt_iff_lt, not_lt] at hr
              exact Or.inl (by omega)

example : (rotate (exC true [ex 0 true 1 0, ex 1 true 2 1, ex 2 true 1 2])).map (fun r => r.pts.map (fun p => p.tag)) = some [1, 2, 0] ∧
    (reorder (exC false [ex 3 true 1 0, ex 2 true 2 1, ex 2 true 1 2])).pts.map (fun p => p.tag) = [2, 1, 0] := by decide +kernel

/-! ### C27 -/

/-- C27.  On a non-empty curve whose values lie between the limits of the number type, the statistics after
`update_statistics` bound the scalars, the coordinates, the times and the speeds of all points, every bound is
attained, `persistence` is the difference, and the consistent type is the common type of the points (a non-zero
consistent type means that all points have it, and conversely).  The points and flags are unchanged. -/
theorem C27_statistics [Sub R] (e : Env R) (c : Curve R nv) (hne : c.pts ≠ [])
    (hlim : ∀ p ∈ c.pts, (∀ k, e.lo ≤ p.scalar k ∧ p.scalar k ≤ e.hi) ∧ (∀ k, e.lo ≤ p.x k ∧ p.x k ≤ e.hi) ∧
      (e.lo ≤ p.t ∧ p.t ≤ e.hi) ∧ (e.lo ≤ e.vmag p.v ∧ e.vmag p.v ≤ e.hi)) :
    let s := (updateStats e c).stats
    (∀ k, (∀ p ∈ c.pts, s.min k ≤ p.scalar k ∧ p.scalar k ≤ s.max k) ∧ (∃ p ∈ c.pts, s.min k = p.scalar k) ∧
      (∃ p ∈ c.pts, s.max k = p.scalar k) ∧ s.persistence k = s.max k - s.min k) ∧
    (∀ k, (∀ p ∈ c.pts, s.bbmin k ≤ p.x k ∧ p.x k ≤ s.bbmax k) ∧ (∃ p ∈ c.pts, s.bbmin k = p.x k) ∧ (∃ p ∈ c.pts, s.bbmax k = p.x k)) ∧
    ((∀ p ∈ c.pts, s.tmin ≤ p.t ∧ p.t ≤ s.tmax) ∧ (∃ p ∈ c.pts, s.tmin = p.t) ∧ (∃ p ∈ c.pts, s.tmax = p.t)) ∧
    ((∀ p ∈ c.pts, s.vmmin ≤ e.vmag p.v ∧ e.vmag p.v ≤ s.vmmax) ∧ (∃ p ∈ c.pts, s.vmmin = e.vmag p.v) ∧
      (∃ p ∈ c.pts, s.vmmax = e.vmag p.v)) ∧
    (∀ ty, ty ≠ 0 → (s.consistent = ty ↔ ∀ p ∈ c.pts, p.type = ty)) ∧
    (updateStats e c).pts = c.pts ∧ (updateStats e c).id = c.id ∧ (updateStats e c).loop = c.loop := by
  intro s
  have hemp : c.pts.isEmpty = false := by
    cases hc : c.pts with
    | nil => exact absurd hc hne
    | cons _ _ => rfl
  obtain ⟨u1, u2, u3, _⟩ := updateStats_pts e c
  have hs : s = (updateStats e c).stats := rfl
  unfold updateStats at hs
  rw [hemp] at hs
  simp only [Bool.false_eq_true, if_false] at hs
  obtain ⟨f1, f2, f3, f4, f5, f6, f7, f8⟩ := statStep_fold e.vmag c.pts { c.stats with max := fun _ => e.lo, min := fun _ => e.hi, bbmax := fun _ => e.lo, bbmin := fun _ => e.hi, tmax := e.lo, tmin := e.hi, vmmax := e.lo, vmmin := e.hi }
  refine ⟨fun k => ⟨fun p hp => ⟨?_, ?_⟩, ?_, ?_, by rw [hs]⟩, fun k => ⟨fun p hp => ⟨?_, ?_⟩, ?_, ?_⟩, ⟨fun p hp => ⟨?_, ?_⟩, ?_, ?_⟩,
    ⟨fun p hp => ⟨?_, ?_⟩, ?_, ?_⟩, ?_, u1, u2, u3⟩
  · rw [hs]; simp only [f2]; exact (foldl_min (fun p => p.scalar k) _ _).2.1 p hp
  · rw [hs]; simp only [f1]; exact (foldl_max (fun p => p.scalar k) _ _).2.1 p hp
  · rw [hs]; simp only [f2]; exact foldl_min_attained (fun p => p.scalar k) hne (fun p hp => ((hlim p hp).1 k).2)
  · rw [hs]; simp only [f1]; exact foldl_max_attained (fun p => p.scalar k) hne (fun p hp => ((hlim p hp).1 k).1)
  · rw [hs]; simp only [f4]; exact (foldl_min (fun p => p.x k) _ _).2.1 p hp
  · rw [hs]; simp only [f3]; exact (foldl_max (fun p => p.x k) _ _).2.1 p hp
  · rw [hs]; simp only [f4]; exact foldl_min_attained (fun p => p.x k) hne (fun p hp => ((hlim p hp).2.1 k).2)
  · rw [hs]; simp only [f3]; exact foldl_max_attained (fun p => p.x k) hne (fun p hp => ((hlim p hp).2.1 k).1)
  · rw [hs]; simp only [f6]; exact (foldl_min (fun p => p.t) _ _).2.1 p hp
  · rw [hs]; simp only [f5]; exact (foldl_max (fun p => p.t) _ _).2.1 p hp
  · rw [hs]; simp only [f6]; exact foldl_min_attained (fun p => p.t) hne (fun p hp => (hlim p hp).2.2.1.2)
  · rw [hs]; simp only [f5]; exact foldl_max_attained (fun p => p.t) hne (fun p hp => (hlim p hp).2.2.1.1)
  · rw [hs]; simp only [f8]; exact (foldl_min (fun p => e.vmag p.v) _ _).2.1 p hp
  · rw [hs]; simp only [f7]; exact (foldl_max (fun p => e.vmag p.v) _ _).2.1 p hp
  · rw [hs]; simp only [f8]; exact foldl_min_attained (fun p => e.vmag p.v) hne (fun p hp => (hlim p hp).2.2.2.2)
  · rw [hs]; simp only [f7]; exact foldl_max_attained (fun p => e.vmag p.v) hne (fun p hp => (hlim p hp).2.2.2.1)
  · rw [hs]; exact consistentType_spec hne

/-- an empty curve keeps whatever statistics it had (e.g. those of points that were discarded) -/
theorem C27_empty_keeps_old [Sub R] (e : Env R) (c : Curve R nv) (h : c.pts = []) : updateStats e c = c := by
  simp [updateStats, h]

example : (updateStats exE (exC false [ex 3 true 2 0, ex 1 true 2 1, ex 5 true 2 2])).stats.tmin = 1 ∧
    (updateStats exE (exC false [ex 3 true 2 0, ex 1 true 2 1, ex 5 true 2 2])).stats.tmax = 5 ∧
    (updateStats exE (exC false [ex 3 true 2 0, ex 1 true 2 1, ex 5 true 2 2])).stats.consistent = 2 ∧
    (updateStats exE (exC false [ex 3 true 2 0, ex 1 true 1 1, ex 5 true 2 2])).stats.consistent = 0 := by decide +kernel
example : ∀ p ∈ (exC false [ex 3 true 2 0, ex 1 true 2 1]).pts, (∀ k, exE.lo ≤ p.scalar k ∧ p.scalar k ≤ exE.hi) ∧
    (∀ k, exE.lo ≤ p.x k ∧ p.x k ≤ exE.hi) ∧ (exE.lo ≤ p.t ∧ p.t ≤ exE.hi) ∧ (exE.lo ≤ exE.vmag p.v ∧ exE.vmag p.v ≤ exE.hi) := by
  intro p hp
  simp only [exC, List.mem_cons, List.not_mem_nil, or_false] at hp
  rcases hp with rfl | rfl <;> simp [ex, exE]

end order

/-! ### C28 -/

/-- the calls that change a set -/
inductive SetOp (R : Type) (nv : Nat)
  | add (c : Curve R nv)
  | addMany (cs : List (Curve R nv))
  | filter (f : Curve R nv → Bool)

/-- one call -/
def setStep (s : CurveSet R nv) : SetOp R nv → CurveSet R nv
  | .add c => (add s c).1
  | .addMany cs => (addAll cs s).1
  | .filter f => filterSet f s

theorem add_eq {s : CurveSet R nv} (h : KeysSorted s) (c : Curve R nv) :
    (add s c).1 = s ++ [((add s c).2, relabel c (add s c).2)] := by
  unfold add
  exact mmInsert_new _ (newId_fresh h)

/-- good sets: keys strictly increasing, curves and points carry the key -/
structure Good (s : CurveSet R nv) : Prop where
  keys : (s.map Prod.fst).Pairwise (· < ·)
  ids : ∀ kv ∈ s, kv.2.id = kv.1 ∧ ∀ p ∈ kv.2.pts, p.id = kv.1

theorem Good.sorted {s : CurveSet R nv} (h : Good s) : KeysSorted s := h.keys.imp le_of_lt

theorem good_add {s : CurveSet R nv} (h : Good s) (c : Curve R nv) : Good (add s c).1 := by
  rw [add_eq h.sorted]
  constructor
  · rw [List.map_append, List.pairwise_append]
    refine ⟨h.keys, by simp, ?_⟩
    intro a ha b hb
    obtain ⟨x, hx, rfl⟩ := List.mem_map.1 ha
    simp only [List.map_cons, List.map_nil, List.mem_singleton] at hb
    rw [hb]
    exact newId_fresh h.sorted x hx
  · intro kv hkv
    rcases List.mem_append.1 hkv with hkv | hkv
    · exact h.ids kv hkv
    · simp only [List.mem_singleton] at hkv
      subst hkv
      refine ⟨rfl, ?_⟩
      intro p hp
      simp only [relabel, List.mem_map] at hp
      obtain ⟨q, _, rfl⟩ := hp
      rfl

theorem good_addAll : ∀ (cs : List (Curve R nv)) (s : CurveSet R nv), Good s → Good (addAll cs s).1 := by
  intro cs
  induction cs with
  | nil => intro s h; exact h
  | cons c cs ih => intro s h; exact ih _ (good_add h c)

theorem good_run (ops : List (SetOp R nv)) : Good (ops.foldl setStep ([] : CurveSet R nv)) := by
  have : ∀ (ops : List (SetOp R nv)) (s : CurveSet R nv), Good s → Good (ops.foldl setStep s) := by
    intro ops
    induction ops with
    | nil => intro s h; exact h
    | cons op ops ih =>
      intro s h
      apply ih
      cases op with
      | add c => exact good_add h c
      | addMany cs => exact good_addAll cs s h
      | filter f =>
        constructor
        · exact h.keys.sublist ((List.filter_sublist).map _)
        · intro kv hkv; exact h.ids kv (List.mem_filter.1 hkv).1
  exact this ops [] ⟨by simp, by simp⟩

/-- C28.  After any sequence of `add(curve)`, `add(vector)` and `filter` calls on an empty set, the keys are
strictly increasing (so pairwise distinct), and every curve and each of its points carry the key as id. -/
theorem C28_ids (ops : List (SetOp R nv)) :
    ((ops.foldl setStep ([] : CurveSet R nv)).map Prod.fst).Pairwise (· < ·) ∧
    ∀ kv ∈ ops.foldl setStep ([] : CurveSet R nv), kv.2.id = kv.1 ∧ ∀ p ∈ kv.2.pts, p.id = kv.1 :=
  ⟨(good_run ops).keys, (good_run ops).ids⟩

/-- C28, one call.  After any such history `add(curve)` returns an id that is not in use, stores the curve under
it and keeps every other entry. -/
theorem C28_add (ops : List (SetOp R nv)) (c : Curve R nv) :
    let s := ops.foldl setStep ([] : CurveSet R nv)
    (∀ kv ∈ s, kv.1 ≠ (add s c).2) ∧ (add s c).1 = s ++ [((add s c).2, relabel c (add s c).2)] ∧
    (relabel c (add s c).2).pts.map (fun p => p.tag) = c.pts.map (fun p => p.tag) := by
  intro s
  have h := good_run ops
  refine ⟨fun kv hkv => ?_, add_eq h.sorted c, ?_⟩
  · have := newId_fresh h.sorted kv hkv
    exact ne_of_lt this
  · simp only [relabel, List.map_map]; rfl

/-- C28, explicit labels.  With `add(curve, label)` keys may repeat, but the keys stay in order and a following
`add(curve)` still returns an unused id. -/
theorem C28_explicit_label (s : CurveSet R nv) (hs : KeysSorted s) (c c' : Curve R nv) (l : Int) :
    KeysSorted (addLabel s c l) ∧ (addLabel s c l).Perm ((l, relabel c l) :: s) ∧
    ∀ kv ∈ addLabel s c l, kv.1 ≠ (add (addLabel s c l) c').2 := by
  have h1 := mmInsert_sorted l (relabel c l) s hs
  exact ⟨h1, mmInsert_perm _ _ _, fun kv hkv => ne_of_lt (newId_fresh h1 kv hkv)⟩

/-- C28 does not extend to `from_list`: the points keep the ids they had. -/
theorem C28_from_list_keeps_old_ids :
    (fromList [exC false [ex 0 true 1 0]] []).map (fun kv => (kv.1, kv.2.id)) = [(0, 7)] := by decide +kernel

example : ([SetOp.add (exC false [ex 0 true 1 0]), .filter (fun _ => false), .addMany [exC false [ex 0 true 1 0], exC false [ex 1 true 1 1]],
    .filter (fun c => c.id = 1), .add (exC false [])].foldl setStep ([] : CurveSet Int 0)).map (fun kv => (kv.1, kv.2.id)) = [(1, 1), (2, 2)] := by
  decide +kernel

/-! ### C61: smooth_ordinal_types -/

theorem pending_mem {ps : List (Point R nv)} {ord : List Nat} {h k ty : Nat} :
    (k, ty) ∈ pending ps ord h ↔ ∃ i, h ≤ i ∧ i + h < ord.length ∧ k = ord.getD i 0 ∧ ty = windowType ps ord h i ∧ ty ≠ 0 ∧ typeAt ps k ≠ ty := by
  unfold pending
  simp only [List.mem_map, List.mem_filter, List.mem_range, Bool.and_eq_true, decide_eq_true_eq, Prod.mk.injEq]
  constructor
  · rintro ⟨i, ⟨⟨j, hj, rfl⟩, h1, h2⟩, rfl, rfl⟩
    exact ⟨h + j, by omega, by omega, rfl, rfl, h1, h2⟩
  · rintro ⟨i, h1, h2, rfl, rfl, h3, h4⟩
    exact ⟨i, ⟨⟨i - h, by omega, by omega⟩, h3, h4⟩, rfl, rfl⟩

theorem windowType_eq {ps : List (Point R nv)} {ord : List Nat} {h i T : Nat} (hT : T ≠ 0) (hh : 1 ≤ h) (hi : h ≤ i) :
    windowType ps ord h i = T ↔ ∀ j, i - h ≤ j → j ≤ i + h → j ≠ i → typeAt ps (ord.getD j 0) = T := by
  unfold windowType
  simp only
  split
  · rename_i hall
    simp only [List.all_eq_true, List.mem_map, List.mem_range, Bool.or_eq_true, decide_eq_true_eq] at hall
    constructor
    · rintro e j h1 h2 h3
      rcases hall j ⟨j - (i - h), by omega, by omega⟩ with h | h
      · exact absurd h h3
      · rw [← h]; exact e
    · intro e; exact e (i - h) (le_refl _) (by omega) (by omega)
  · rename_i hall
    constructor
    · intro e; exact absurd e.symm hT
    · intro e
      exfalso
      apply hall
      simp only [List.all_eq_true, List.mem_map, List.mem_range, Bool.or_eq_true, decide_eq_true_eq]
      rintro j ⟨m, hm, rfl⟩
      by_cases hji : i - h + m = i
      · exact Or.inl hji
      · right
        rw [e _ (by omega) (by omega) hji, e (i - h) (le_refl _) (by omega) (by omega)]

theorem nodup_getD {l : List Nat} (h : l.Pairwise (· < ·)) {i j : Nat} (hi : i < l.length) (hj : j < l.length) (he : l.getD i 0 = l.getD j 0) :
    i = j := by
  rw [List.getD_eq_getElem _ _ hi, List.getD_eq_getElem _ _ hj] at he
  rcases Nat.lt_trichotomy i j with hlt | rfl | hlt
  · have := List.pairwise_iff_getElem.1 h i j hi hj hlt; omega
  · rfl
  · have := List.pairwise_iff_getElem.1 h j i hj hi hlt; omega

/-- C61.  `smooth_ordinal_types(h)`, `h ≥ 1`, changes nothing but types.  With `ord` the indices of the ordinal points
(in order), ordinal number `i` gets type `T ≠ 0` if its `h` predecessors and `h` successors all exist and all have type `T`
(before the call); every other point keeps its type. -/
theorem C61_smooth_ordinal_types [LinearOrder R] (h : Nat) (hh : 1 ≤ h) (c : Curve R nv) (ord : List Nat) (hord : ord = toOrdinals c) :
    List.Forall₂ (fun p q => q = { p with type := q.type }) c.pts (smoothOrdinal h c).pts ∧
    (∀ i T, h ≤ i → i + h < ord.length → T ≠ 0 →
      (∀ j, i - h ≤ j → j ≤ i + h → j ≠ i → typeAt c.pts (ord.getD j 0) = T) →
      typeAt (smoothOrdinal h c).pts (ord.getD i 0) = T) ∧
    (∀ k, k < c.pts.length → typeAt (smoothOrdinal h c).pts k ≠ typeAt c.pts k →
      ∃ i, h ≤ i ∧ i + h < ord.length ∧ k = ord.getD i 0 ∧ ∃ T, T ≠ 0 ∧ typeAt (smoothOrdinal h c).pts k = T ∧
        ∀ j, i - h ≤ j → j ≤ i + h → j ≠ i → typeAt c.pts (ord.getD j 0) = T) := by
  subst hord
  have hsorted : (toOrdinals c).Pairwise (· < ·) := selectFrom_sorted _ _ _
  have hlt : ∀ o ∈ toOrdinals c, o < c.pts.length := by
    intro o ho
    obtain ⟨_, p, hp, _⟩ := (mem_selectFrom _ _ _ _).1 ho
    rw [Nat.sub_zero] at hp
    exact (List.getElem?_eq_some_iff.1 hp).1
  have hnod : ((pending c.pts (toOrdinals c) h).map Prod.fst).Nodup := by
    unfold pending
    rw [List.map_map]
    refine List.Nodup.map_on ?_ (List.Nodup.filter _ (List.Nodup.map (fun x y e => by have : h + x = h + y := e; omega) List.nodup_range))
    intro x hx y hy e
    simp only [List.mem_filter, List.mem_map, List.mem_range] at hx hy
    obtain ⟨⟨a, ha, rfl⟩, _⟩ := hx
    obtain ⟨⟨b, hb, rfl⟩, _⟩ := hy
    exact nodup_getD hsorted (by omega) (by omega) e
  unfold smoothOrdinal
  by_cases hs : (toOrdinals c).length < h * 2 + 1
  · rw [if_pos hs]
    refine ⟨only_refl _, ?_, ?_⟩
    · intro i T h1 h2; omega
    · intro k _ hk; exact absurd rfl hk
  · rw [if_neg hs]
    refine ⟨foldSet_only _ _, ?_, ?_⟩
    · intro i T h1 h2 hT hw
      have hwt := (windowType_eq (ps := c.pts) (ord := toOrdinals c) hT hh h1).2 hw
      have hk : (toOrdinals c).getD i 0 < c.pts.length := by
        apply hlt
        rw [List.getD_eq_getElem _ _ (by omega)]
        exact List.getElem_mem _
      obtain ⟨f1, f2⟩ := foldSet_typeAt (pending c.pts (toOrdinals c) h) c.pts _ hnod hk
      by_cases he : typeAt c.pts ((toOrdinals c).getD i 0) = T
      · simp only
        rw [f2, he]
        intro ty hty
        obtain ⟨i', a1, a2, a3, a4, a5, a6⟩ := pending_mem.1 hty
        have : i = i' := nodup_getD hsorted (by omega) (by omega) a3
        subst this
        exact a6 (by rw [he, a4, hwt])
      · exact f1 T (pending_mem.2 ⟨i, h1, h2, rfl, hwt.symm, hT, he⟩)
    · intro k hk hne
      obtain ⟨f1, f2⟩ := foldSet_typeAt (pending c.pts (toOrdinals c) h) c.pts k hnod hk
      by_cases hex : ∃ ty, (k, ty) ∈ pending c.pts (toOrdinals c) h
      · obtain ⟨ty, hty⟩ := hex
        obtain ⟨i, a1, a2, a3, a4, a5, a6⟩ := pending_mem.1 hty
        exact ⟨i, a1, a2, a3, ty, a5, f1 ty hty, (windowType_eq a5 hh a1).1 a4.symm⟩
      · exact absurd (f2 (fun ty hty => hex ⟨ty, hty⟩)) hne

example : (smoothOrdinal 1 (exC false [ex 0 true 2 0, ex 1 false 4 1, ex 2 true 8 2, ex 3 true 2 3, ex 4 true 8 4])).pts.map (fun p => p.type)
    = [2, 4, 2, 8, 8] := by decide +kernel

/-! ### C62: smooth_interval_types -/

/-- C62.  `smooth_interval_types` changes nothing but types and leaves the types of ordinal points alone.  Points before the
first ordinal point get its type, points after the last one get its type, and between two successive ordinal points `a < b`
the types switch at most once, from the type of `a` to that of `b`.  A curve without ordinal points is not changed. -/
theorem C62_smooth_interval_types [LinearOrder R] (c : Curve R nv) :
    List.Forall₂ (fun p q => q = { p with type := q.type }) c.pts (smoothInterval c).pts ∧
    (∀ k p, c.pts[k]? = some p → p.ordinal = true → typeAt (smoothInterval c).pts k = p.type) ∧
    (∀ k o : Nat, k < o → (∃ p, c.pts[o]? = some p ∧ p.ordinal = true) → (∀ (j : Nat) q, j < o → c.pts[j]? = some q → q.ordinal = false) →
      typeAt (smoothInterval c).pts k = typeAt c.pts o) ∧
    (∀ k o : Nat, o < k → k < c.pts.length → (∃ p, c.pts[o]? = some p ∧ p.ordinal = true) →
      (∀ (j : Nat) q, o < j → c.pts[j]? = some q → q.ordinal = false) → typeAt (smoothInterval c).pts k = typeAt c.pts o) ∧
    (∀ a b : Nat, a < b → (∃ p, c.pts[a]? = some p ∧ p.ordinal = true) → (∃ p, c.pts[b]? = some p ∧ p.ordinal = true) →
      (∀ (j : Nat) q, a < j → j < b → c.pts[j]? = some q → q.ordinal = false) →
      ∃ k, a < k ∧ k ≤ b ∧ (∀ j, a ≤ j → j < k → typeAt (smoothInterval c).pts j = typeAt c.pts a) ∧
        (∀ j, k ≤ j → j < b → typeAt (smoothInterval c).pts j = typeAt c.pts b)) ∧
    ((∀ p ∈ c.pts, p.ordinal = false) → smoothInterval c = c) := by
  have hsorted : (toOrdinals c).Pairwise (· < ·) := selectFrom_sorted _ _ _
  have hmem : ∀ k, k ∈ toOrdinals c ↔ ∃ p, c.pts[k]? = some p ∧ p.ordinal = true := by
    intro k
    rw [toOrdinals, mem_selectFrom]
    simp
  have hlt : ∀ o ∈ toOrdinals c, o < c.pts.length := by
    intro o ho
    obtain ⟨p, hp, _⟩ := (hmem o).1 ho
    exact (List.getElem?_eq_some_iff.1 hp).1
  have hty : ∀ (k : Nat) p, c.pts[k]? = some p → typeAt c.pts k = p.type := by
    intro k p hp; simp [typeAt, hp]
  cases hof : (toOrdinals c).head? with
  | none =>
    have hnil : toOrdinals c = [] := by
      cases ho : toOrdinals c with
      | nil => rfl
      | cons a l => rw [ho] at hof; cases hof
    have hno : ∀ (k : Nat) p, c.pts[k]? = some p → p.ordinal = true → False := by
      intro k p h1 h2
      have := (hmem k).2 ⟨p, h1, h2⟩
      rw [hnil] at this; cases this
    have he : smoothInterval c = c := by unfold smoothInterval; rw [hof]
    rw [he]
    refine ⟨only_refl _, fun k p h1 h2 => (hno k p h1 h2).elim, ?_, ?_, ?_, fun _ => rfl⟩
    · rintro k o _ ⟨p, h1, h2⟩; exact (hno o p h1 h2).elim
    · rintro k o _ _ ⟨p, h1, h2⟩; exact (hno o p h1 h2).elim
    · rintro a b _ ⟨p, h1, h2⟩; exact (hno a p h1 h2).elim
  | some o0 =>
    obtain ⟨o1, hol⟩ : ∃ o1, (toOrdinals c).getLast? = some o1 := by
      rcases List.eq_nil_or_concat (toOrdinals c) with e | ⟨l, o1, e⟩
      · rw [e] at hof; cases hof
      · exact ⟨o1, by rw [e]; simp⟩
    have hm0 : o0 ∈ toOrdinals c := List.mem_of_mem_head? hof
    have hm1 : o1 ∈ toOrdinals c := List.mem_of_mem_getLast? hol
    have hmin : ∀ o ∈ toOrdinals c, o0 ≤ o := by
      intro o ho
      cases hc : toOrdinals c with
      | nil => rw [hc] at ho; cases ho
      | cons a l =>
        rw [hc] at hof ho hsorted
        simp only [List.head?_cons, Option.some.injEq] at hof
        subst hof
        rcases List.mem_cons.1 ho with rfl | ho
        · exact le_refl _
        · exact le_of_lt ((List.pairwise_cons.1 hsorted).1 o ho)
    have hmax : ∀ o ∈ toOrdinals c, o ≤ o1 := by
      intro o ho
      rcases List.eq_nil_or_concat (toOrdinals c) with e | ⟨l, x, e⟩
      · rw [e] at ho; cases ho
      · rw [e, List.concat_eq_append] at hol ho hsorted
        simp only [List.getLast?_concat, Option.some.injEq] at hol
        subst hol
        rcases List.mem_append.1 ho with ho | ho
        · exact le_of_lt ((List.pairwise_append.1 hsorted).2.2 o ho x (by simp))
        · simp only [List.mem_singleton] at ho; omega
    set ps1 := fillType c.pts 0 o0 (typeAt c.pts o0) with hps1
    set ps2 := fillType ps1 o1 ps1.length (typeAt ps1 o1) with hps2
    have he : (smoothInterval c).pts = smoothPairs (toOrdinals c) ps2 := by
      unfold smoothInterval
      rw [hof, hol]
    have hl1 : ps1.length = c.pts.length := fillType_length _ _ _ _
    have hl2 : ps2.length = c.pts.length := by rw [hps2, fillType_length, hl1]
    have ht1 : ∀ j, j < c.pts.length → typeAt ps1 j = if j < o0 then typeAt c.pts o0 else typeAt c.pts j := by
      intro j hj
      rw [hps1, fillType_typeAt _ _ _ _ _ hj]
      simp
    have ht1' : typeAt ps1 o1 = typeAt c.pts o1 := by
      rw [ht1 o1 (hlt o1 hm1), if_neg]
      have := hmin o1 hm1; omega
    have ht2 : ∀ j, j < c.pts.length → typeAt ps2 j = if j < o0 then typeAt c.pts o0 else if o1 ≤ j then typeAt c.pts o1 else typeAt c.pts j := by
      intro j hj
      rw [hps2, fillType_typeAt _ _ _ _ _ (by rw [hl1]; exact hj), ht1', ht1 j hj, hl1]
      have := hmin o1 hm1
      by_cases hj0 : j < o0
      · rw [if_neg (by omega), if_pos hj0, if_pos hj0]
      · by_cases hj1 : o1 ≤ j
        · rw [if_pos ⟨hj1, hj⟩, if_neg hj0, if_pos hj1]
        · rw [if_neg (by omega), if_neg hj0, if_neg hj0, if_neg hj1]
    have ht2o : ∀ o ∈ toOrdinals c, typeAt ps2 o = typeAt c.pts o := by
      intro o ho
      rw [ht2 o (hlt o ho), if_neg (by have := hmin o ho; omega)]
      split
      · have := hmax o ho
        have : o = o1 := by omega
        rw [this]
      · rfl
    obtain ⟨s1, s2, s3, s4, s5⟩ := smoothPairs_spec (toOrdinals c) ps2 hsorted (by intro o ho; rw [hl2]; exact hlt o ho)
    rw [he]
    refine ⟨only_trans (only_trans (fillType_only _ _ _ _) (fillType_only _ _ _ _)) s1, ?_, ?_, ?_, ?_, ?_⟩
    · intro k p h1 h2
      have hk := (hmem k).2 ⟨p, h1, h2⟩
      rw [s3 k hk, ht2o k hk, hty k p h1]
    · rintro k o hko hoo hno
      have ho := (hmem o).2 hoo
      have : o = o0 := by
        have h1 := hmin o ho
        by_contra hne
        obtain ⟨q, hq, hqo⟩ := (hmem o0).1 hm0
        have := hno o0 q (by omega) hq
        rw [hqo] at this; cases this
      subst this
      have hkl : k < c.pts.length := by have := hlt o ho; omega
      rw [s4 k (by rw [hl2]; exact hkl) (Or.inl (fun o' ho' => by have := hmin o' ho'; omega)), ht2 k hkl, if_pos hko]
    · rintro k o hok hkl hoo hno
      have ho := (hmem o).2 hoo
      have : o = o1 := by
        have h1 := hmax o ho
        by_contra hne
        obtain ⟨q, hq, hqo⟩ := (hmem o1).1 hm1
        have := hno o1 q (by omega) hq
        rw [hqo] at this; cases this
      subst this
      rw [s4 k (by rw [hl2]; exact hkl) (Or.inr (fun o' ho' => by have := hmax o' ho'; omega)), ht2 k hkl,
        if_neg (by have := hmin o ho; omega), if_pos (by omega)]
    · rintro a b hab ha hb hno
      have hma := (hmem a).2 ha
      have hmb := (hmem b).2 hb
      have := s5 a b hma hmb hab (by
        intro o ho
        by_contra hc
        obtain ⟨q, hq, hqo⟩ := (hmem o).1 ho
        have := hno o q (by omega) (by omega) hq
        rw [hqo] at this; cases this)
      rw [ht2o a hma, ht2o b hmb] at this
      exact this
    · intro hall
      obtain ⟨q, hq, hqo⟩ := (hmem o0).1 hm0
      have := hall q (List.mem_of_getElem? hq)
      rw [hqo] at this; cases this

example : (smoothInterval (exC false [ex 0 false 9 0, ex 0 true 1 1, ex 1 false 1 2, ex 2 false 5 3, ex 3 false 1 4, ex 4 true 2 5, ex 5 false 7 6])).pts.map
    (fun p => p.type) = [1, 1, 1, 2, 2, 2, 2] := by decide +kernel

/-! ### C63: the post processor -/

section field
variable [Field R] [LinearOrder R] [IsStrictOrderedRing R]

/-- operations that keep all points -/
def keepsAll : PPOp → Bool
  | .smoothTypes | .rotate | .durationPruning | .reorder | .adjustTime => true
  | _ => false

theorem ppStep_tags (e : Env R) (fresh : Curve R nv) (s s' : CurveSet R nv) (op : PPOp) (h : ppStep e fresh s op = some s') :
    (tags s').Subperm (tags s) ∧ (keepsAll op = true → (tags s').Perm (tags s)) := by
  have perm : ∀ f, mapCurves f s = some s' → (∀ c c', f c = some c' → (c'.pts.map (fun p => p.tag)).Perm (c.pts.map (fun p => p.tag))) →
      (tags s').Subperm (tags s) ∧ (keepsAll op = true → (tags s').Perm (tags s)) := by
    intro f hm hf
    have := mapCurves_tags_perm hf s s' hm
    exact ⟨this.subperm, fun _ => this⟩
  have sub : ∀ f, mapCurves f s = some s' → keepsAll op = false →
      (∀ c c', f c = some c' → (c'.pts.map (fun p => p.tag)).Sublist (c.pts.map (fun p => p.tag))) →
      (tags s').Subperm (tags s) ∧ (keepsAll op = true → (tags s').Perm (tags s)) := by
    intro f hm hk hf
    exact ⟨mapCurves_tags (fun c c' h => (hf c c' h).subperm) s s' hm, fun h => by rw [hk] at h; cases h⟩
  cases op with
  | smoothTypes =>
    refine perm _ h ?_
    intro c c' hc
    cases hc
    rw [(updateStats_pts _ _).1, onlyType_tags (smoothInterval_only _), onlyType_tags (smoothOrdinal_only _ _)]
  | rotate =>
    refine perm _ h ?_
    intro c c' hc
    simp only [Option.map_eq_some_iff] at hc
    obtain ⟨c1, h1, rfl⟩ := hc
    rw [(updateStats_pts _ _).1]
    exact (rotate_perm h1).map _
  | durationPruning =>
    cases h; exact ⟨List.Subperm.refl _, fun _ => .refl _⟩
  | split =>
    refine ⟨?_, by simp [keepsAll]⟩
    simp only [ppStep, splitAll] at h
    obtain ⟨s2, e2, p2, _⟩ := addPieces_spec ((s.filter (fun kv : Int × Curve R nv => decide (kv.2.stats.consistent = 0))).flatMap (fun kv : Int × Curve R nv => split e fresh kv.2))
      (s.filter (fun kv : Int × Curve R nv => decide (kv.2.stats.consistent ≠ 0))) (by
        intro c hc
        obtain ⟨kv, _, hkv⟩ := List.mem_flatMap.1 hc
        exact split_pts_ne e fresh kv.2 c hkv)
    rw [e2] at h
    cases h
    refine p2.subperm.trans ?_
    have key : ∀ l : CurveSet R nv, ((l.flatMap (fun kv : Int × Curve R nv => split e fresh kv.2)).flatMap (fun c => c.pts.map (fun p => p.tag))).Sublist (tags l) := by
      intro l
      induction l with
      | nil => simp [tags]
      | cons kv l ih =>
        simp only [List.flatMap_cons, tags, List.flatMap_append]
        exact (split_tags e fresh kv.2).append ih
    have hperm : (s.filter (fun kv : Int × Curve R nv => decide (kv.2.stats.consistent = 0)) ++ s.filter (fun kv => decide (kv.2.stats.consistent ≠ 0))).Perm s := by
      have := List.filter_append_perm (fun kv : Int × Curve R nv => decide (kv.2.stats.consistent = 0)) s
      simpa using this
    have h1 := ((key (s.filter (fun kv : Int × Curve R nv => decide (kv.2.stats.consistent = 0)))).subperm).append
      (List.Subperm.refl (tags (s.filter (fun kv : Int × Curve R nv => decide (kv.2.stats.consistent ≠ 0)))))
    refine h1.trans ?_
    have h2 : tags (s.filter (fun kv : Int × Curve R nv => decide (kv.2.stats.consistent = 0))) ++ tags (s.filter (fun kv : Int × Curve R nv => decide (kv.2.stats.consistent ≠ 0))) =
        tags (s.filter (fun kv : Int × Curve R nv => decide (kv.2.stats.consistent = 0)) ++ s.filter (fun kv => decide (kv.2.stats.consistent ≠ 0))) := by
      simp only [tags, List.flatMap_append]
    rw [h2]
    exact (tags_perm hperm).subperm
  | discardInterval =>
    refine sub _ h rfl ?_
    intro c c' hc
    cases hc
    rw [(updateStats_pts _ _).1]
    exact discardInterval_tags _ _ _
  | reorder =>
    refine perm _ h ?_
    intro c c' hc
    cases hc
    rw [(updateStats_pts _ _).1]
    exact (reorder_perm c).map _
  | adjustTime =>
    refine perm _ h ?_
    intro c c' hc
    cases hc
    rw [(updateStats_pts _ _).1]
    rw [onlyTime_tags (forall₂_only_trans (ascend_only _ _) (descend_only _) : List.Forall₂ OnlyTime c.pts (adjustTime c).pts)]
  | deriveVelocity =>
    refine sub _ h rfl ?_
    intro c c' hc
    cases hc
    rw [(updateStats_pts _ _).1, derive_tags]
    exact discardInterval_tags _ _ _
  | unknown => cases h

/-- C63.  Whatever the list of operations, the post processor invents no point: the tags of the points of the resulting set
form a sub-multiset of the tags before.  If only smoothing, rotating, reordering, time adjustment (and the no-op
`duration_pruning`) are requested, no point is lost either.  An unknown operation never returns (fatal). -/
theorem C63_post_process (e : Env R) (fresh : Curve R nv) (ops : List PPOp) (s s' : CurveSet R nv) (h : postProcess e fresh ops s = some s') :
    (∃ l, (tags s).Perm (tags s' ++ l)) ∧ ((∀ op ∈ ops, keepsAll op = true) → (tags s').Perm (tags s)) ∧ PPOp.unknown ∉ ops := by
  have main : (tags s').Subperm (tags s) ∧ ((∀ op ∈ ops, keepsAll op = true) → (tags s').Perm (tags s)) ∧ PPOp.unknown ∉ ops := by
    induction ops generalizing s with
    | nil =>
      simp only [postProcess, Option.some.injEq] at h
      subst h
      exact ⟨List.Subperm.refl _, fun _ => .refl _, by simp⟩
    | cons op ops ih =>
      simp only [postProcess] at h
      cases h1 : ppStep e fresh s op with
      | none => rw [h1] at h; cases h
      | some s1 =>
        rw [h1] at h
        obtain ⟨a, b, d⟩ := ih s1 h
        obtain ⟨a1, b1⟩ := ppStep_tags e fresh s s1 op h1
        refine ⟨a.trans a1, ?_, ?_⟩
        · intro hall
          exact (b (fun op' h' => hall op' (List.mem_cons_of_mem _ h'))).trans (b1 (hall op (by simp)))
        · intro hm
          rcases List.mem_cons.1 hm with rfl | hm
          · simp [ppStep] at h1
          · exact d hm
  obtain ⟨a, b, d⟩ := main
  refine ⟨?_, b, d⟩
  obtain ⟨m, hm, hsub⟩ := a
  obtain ⟨l, hl⟩ := hsub.exists_perm_append
  exact ⟨l, hl.trans (hm.append_right l)⟩

/-- after `split` every curve of the set has one type, provided the recorded consistent types were up to date -/
theorem C63_split_all_types (e : Env R) (fresh : Curve R nv) (s s' : CurveSet R nv) (h : splitAll e fresh s = some s')
    (hup : ∀ kv ∈ s, kv.2.stats.consistent ≠ 0 → ∀ p ∈ kv.2.pts, p.type = kv.2.stats.consistent) :
    ∀ kv ∈ s', ∃ ty, ∀ p ∈ kv.2.pts, p.type = ty := by
  simp only [splitAll] at h
  obtain ⟨s2, e2, _, m2⟩ := addPieces_spec ((s.filter (fun kv : Int × Curve R nv => decide (kv.2.stats.consistent = 0))).flatMap (fun kv : Int × Curve R nv => split e fresh kv.2))
    (s.filter (fun kv : Int × Curve R nv => decide (kv.2.stats.consistent ≠ 0))) (by
      intro c hc
      obtain ⟨kv, _, hkv⟩ := List.mem_flatMap.1 hc
      exact split_pts_ne e fresh kv.2 c hkv)
  rw [e2] at h
  cases h
  intro kv hkv
  rcases m2 kv hkv with hk | ⟨c, hc, ec⟩
  · obtain ⟨h1, h2⟩ := List.mem_filter.1 hk
    exact ⟨_, hup kv h1 (by simpa using h2)⟩
  · obtain ⟨kv', _, hkv'⟩ := List.mem_flatMap.1 hc
    obtain ⟨ps, hps, rfl⟩ := List.mem_map.1 hkv'
    obtain ⟨ty, hty⟩ := ((splitLoop_spec kv'.2.pts [] 0 (by simp) (fun _ => rfl)).2 ps hps).2
    refine ⟨ty, ?_⟩
    rw [ec]
    intro p hp
    simp only [relabel, (updateStats_pts _ _).1, List.mem_map] at hp
    obtain ⟨q, hq, rfl⟩ := hp
    exact hty q hq

/-! ### C64: derive_velocity -/

/-- C64.  `derive_velocity` changes nothing but velocities.  If coordinate `k` of point number `i` is `a + b i + c i²`, then the
derived velocity of every interior point is exactly the derivative `b + 2 c i`; if `c = 0` (uniform motion, at least two points) it
is exactly `b` at every point, ends included. -/
theorem C64_derive_velocity (c : Curve R nv) :
    ((deriveVelocity c).pts.map (fun p => { p with v := fun _ => 0 }) = c.pts.map (fun p => { p with v := fun _ => (0 : R) })) ∧
    (∀ (k : Fin 3) (a b q : R), (∀ (i : Nat) p, c.pts[i]? = some p → p.x k = a + b * i + q * (i * i)) → 2 ≤ c.pts.length →
      (∀ (i : Nat) p, (deriveVelocity c).pts[i]? = some p → 0 < i → i + 1 < c.pts.length → p.v k = b + 2 * q * i) ∧
      (q = 0 → ∀ (i : Nat) p, (deriveVelocity c).pts[i]? = some p → p.v k = b)) := by
  constructor
  · unfold deriveVelocity
    split
    · rfl
    · apply List.ext_getElem?
      intro i
      simp only [List.getElem?_map, List.getElem?_mapIdx]
      cases c.pts[i]? <;> rfl
  · intro k a b q hx hlen
    have key : ∀ (i : Nat) p, (deriveVelocity c).pts[i]? = some p → ∃ p0, c.pts[i]? = some p0 ∧ p.v k = velAt c.pts c.pts.length i p0 k := by
      intro i p hp
      unfold deriveVelocity at hp
      rw [if_neg (by omega)] at hp
      simp only [List.getElem?_mapIdx, Option.map_eq_some_iff] at hp
      obtain ⟨p0, h0, rfl⟩ := hp
      exact ⟨p0, h0, rfl⟩
    have at' : ∀ i : Nat, i < c.pts.length → ∃ p, c.pts[i]? = some p ∧ p.x k = a + b * i + q * (i * i) := by
      intro i hi
      exact ⟨c.pts[i], by simp [hi], hx i _ (by simp [hi])⟩
    constructor
    · intro i p hp h0 h1
      obtain ⟨p0, e0, ev⟩ := key i p hp
      rw [ev]
      obtain ⟨pn, en, xn⟩ := at' (i + 1) h1
      obtain ⟨pp, ep, xp⟩ := at' (i - 1) (by omega)
      unfold velAt
      simp only
      rw [if_neg (by omega), if_neg (by omega), en, ep]
      simp only
      rw [xn, xp]
      have : ((i - 1 : Nat) : R) = (i : R) - 1 := by
        rw [Nat.cast_sub (by omega)]; simp
      rw [this]
      push_cast
      ring
    · intro hq i p hp
      subst hq
      obtain ⟨p0, e0, ev⟩ := key i p hp
      rw [ev]
      have hi : i < c.pts.length := (List.getElem?_eq_some_iff.1 e0).1
      unfold velAt
      simp only
      split
      · rename_i h0
        subst h0
        obtain ⟨pn, en, xn⟩ := at' (0 + 1) (by omega)
        rw [en]
        simp only
        rw [xn, hx 0 p0 e0]
        push_cast; ring
      · split
        · obtain ⟨pp, ep, xp⟩ := at' (i - 1) (by omega)
          rw [ep]
          simp only
          rw [xp, hx i p0 e0]
          have : ((i - 1 : Nat) : R) = (i : R) - 1 := by
            rw [Nat.cast_sub (by omega)]; simp
          rw [this]
          ring
        · obtain ⟨pn, en, xn⟩ := at' (i + 1) (by omega)
          obtain ⟨pp, ep, xp⟩ := at' (i - 1) (by omega)
          rw [en, ep]
          simp only
          rw [xn, xp]
          have : ((i - 1 : Nat) : R) = (i : R) - 1 := by
            rw [Nat.cast_sub (by omega)]; simp
          rw [this]
          push_cast
          ring

/-! ### C65: unwrap -/

/-- C65.  `unwrap<k>(period)` on a non-empty curve moves coordinate `k` of every point by a whole number of periods and changes
nothing else in the points; if successive points were at most one and a half periods apart (in particular if all lie in one period),
then afterwards successive points are at most half a period apart; if they were closer than half a period already, nothing moves.
An empty curve is undefined. -/
theorem C65_unwrap (e : Env R) (k : Fin 3) (period : R) (hp : 0 < period) (c : Curve R nv) :
    (c.pts = [] → unwrap e k period c = none) ∧
    (c.pts ≠ [] → ∃ r, unwrap e k period c = some r ∧
      List.Forall₂ (fun p q => ∃ m : Int, q = { p with x := fun j => if j = k then p.x j + m * period else p.x j }) c.pts r.pts ∧
      (List.IsChain (fun p q : Point R nv => |q.x k - p.x k| ≤ 3 * period / 2) c.pts →
        List.IsChain (fun p q : Point R nv => |q.x k - p.x k| ≤ period / 2) r.pts) ∧
      (List.IsChain (fun p q : Point R nv => |q.x k - p.x k| < period / 2) c.pts → r.pts = c.pts)) := by
  constructor
  · intro h; simp [unwrap, h]
  · intro h
    have hemp : c.pts.isEmpty = false := by
      cases hc : c.pts with
      | nil => exact absurd hc h
      | cons _ _ => rfl
    unfold unwrap
    rw [hemp]
    simp only [Bool.false_eq_true, if_false]
    obtain ⟨h1, h2, h3⟩ := unwrapLoop_spec k period hp c.pts.length c.pts (le_refl _)
    exact ⟨_, rfl, h1, h2, h3⟩

/-! ### C66: split_geo -/

/-- C66.  `split_geo` loses no point: the pieces are non-empty and their concatenation is the curve; inside a piece successive
longitudes differ by at most 180 degrees, and a cut is made only where they differ by more. -/
theorem C66_split_geo (c : Curve R nv) :
    (splitGeo c).flatten = c.pts ∧
    (∀ s ∈ splitGeo c, s ≠ [] ∧ List.IsChain (fun p q : Point R nv => |q.x 0 - p.x 0| ≤ 180) s) ∧
    List.IsChain (fun s s' : List (Point R nv) => ∀ a ∈ s.getLast?, ∀ b ∈ s'.head?, |b.x 0 - a.x 0| > 180) (splitGeo c) := by
  obtain ⟨h1, h2, h3, _⟩ := geoLoop_spec c.pts [] (fun _ => rfl) (by simp) (by simp)
  exact ⟨by rw [splitGeo, h1]; rfl, h2, h3⟩

end field

/-! examples over the rationals -/

/-- a rational point: coordinate, ordinal, tag -/
def exq (x : Rat) (o : Bool) (tag : Nat) : Point Rat 0 :=
  { x := fun _ => x, t := x, timestep := 0, scalar := fun _ => 0, v := fun _ => 0, type := 1, ordinal := o, tag := tag, id := 0 }
/-- statistics -/
def exqStats : Stats Rat 0 :=
  { max := fun _ => 0, min := fun _ => 0, persistence := fun _ => 0, bbmin := fun _ => 0, bbmax := fun _ => 0
    tmin := 0, tmax := 0, vmmin := 0, vmmax := 0, consistent := 0 }
/-- a rational curve -/
def exqC (loop : Bool) (l : List (Point Rat 0)) : Curve Rat 0 := { pts := l, id := 7, complete := false, loop := loop, stats := exqStats }
/-- limits -/
def exqE : Env Rat := { lo := -1000, hi := 1000, vmag := fun v => v 0 }

example : (postProcess exqE (exqC false []) [.discardInterval, .reorder, .split] [(3, exqC false [exq 1 true 0, exq 2 false 1, exq 3 true 2])]).map
    (fun s => s.map (fun kv => kv.2.pts.map (fun p => p.tag))) = some [[0, 2]] := by decide +kernel
/-- `discard_interval_points` followed by `rotate` on a loop without ordinal points is undefined -/
theorem C63_rotate_after_discard_undefined :
    (postProcess exqE (exqC false []) [.discardInterval, .rotate] [(3, exqC true [exq 1 false 0])]).isNone = true := by decide +kernel
example : (deriveVelocity (exqC false [exq 1 true 0, exq 3 true 1, exq 5 true 2])).pts.map (fun p => p.v 0) = [2, 2, 2] := by decide +kernel
example : (unwrap exqE 0 10 (exqC false [exq 9 true 0, exq 1 true 1, exq 8 true 2])).map (fun r => r.pts.map (fun p => p.x 0)) = some [9, 11, 8] := by
  decide +kernel
example : (splitGeo (exqC false [exq 170 true 0, exq 179 true 1, exq (-179) true 2])).map (fun s => s.map (fun p => p.tag)) = [[0, 1], [2]] := by
  decide +kernel

end Verif.Curve
