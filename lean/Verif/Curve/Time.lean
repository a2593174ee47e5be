import Verif.Curve.Model
import Mathlib.Data.List.Chain
/-! `adjust_time`. -/
namespace Verif.Curve
variable {R : Type} {nv : Nat} [LinearOrder R]

/-- only the time may differ, and only for interval points -/
def OnlyTime (p q : Point R nv) : Prop := q = { p with t := q.t } ∧ (p.ordinal = true → q.t = p.t)

theorem OnlyTime.refl (p : Point R nv) : OnlyTime p p := ⟨rfl, fun _ => rfl⟩
theorem OnlyTime.trans {p q r : Point R nv} (h : OnlyTime p q) (h' : OnlyTime q r) : OnlyTime p r := by
  obtain ⟨a, b⟩ := h
  obtain ⟨c, d⟩ := h'
  constructor
  · rw [c, a]
  · intro hp
    have : q.ordinal = true := by rw [a]; exact hp
    rw [d this, b hp]

theorem ascend_only : ∀ (l : List (Point R nv)) (q : Option R), List.Forall₂ OnlyTime l (ascend q l) := by
  intro l
  induction l with
  | nil => intro q; simp [ascend]
  | cons p ps ih =>
    intro q
    cases q with
    | none => exact .cons (.refl p) (ih _)
    | some q =>
      simp only [ascend]
      split
      · exact .cons (.refl p) (ih _)
      · rename_i h
        exact .cons ⟨rfl, fun e => absurd e h⟩ (ih _)

theorem descend_only : ∀ (l : List (Point R nv)), List.Forall₂ OnlyTime l (descend l) := by
  intro l
  induction l with
  | nil => simp [descend]
  | cons p ps ih =>
    simp only [descend]
    cases hd : descend ps with
    | nil =>
      rw [hd] at ih
      cases ih
      exact .cons (.refl p) .nil
    | cons q qs =>
      rw [hd] at ih
      refine .cons ?_ ih
      split
      · exact .refl p
      · rename_i h; exact ⟨rfl, fun e => absurd e h⟩

theorem forall₂_only_trans {l l' l'' : List (Point R nv)} (h : List.Forall₂ OnlyTime l l') (h' : List.Forall₂ OnlyTime l' l'') :
    List.Forall₂ OnlyTime l l'' := by
  induction h generalizing l'' with
  | nil => cases h'; exact .nil
  | cons h _ ih => cases h' with
    | cons h2 t2 => exact .cons (h.trans h2) (ih t2)

/-- after the ascending loop an interval point is not before its predecessor -/
theorem ascend_chain : ∀ (l : List (Point R nv)) (q : Option R),
    List.IsChain (fun p r : Point R nv => r.ordinal = false → p.t ≤ r.t) (ascend q l) ∧
    ∀ m, q = some m → ∀ r ∈ (ascend q l).head?, r.ordinal = false → m ≤ r.t := by
  intro l
  induction l with
  | nil => intro q; simp [ascend]
  | cons p ps ih =>
    intro q
    have step : ∀ (p' : Point R nv), List.IsChain (fun p r : Point R nv => r.ordinal = false → p.t ≤ r.t) (p' :: ascend (some p'.t) ps) := by
      intro p'
      obtain ⟨h1, h2⟩ := ih (some p'.t)
      cases hc : ascend (some p'.t) ps with
      | nil => simp
      | cons r rs =>
        rw [hc] at h1 h2
        rw [List.isChain_cons_cons]
        exact ⟨fun h => h2 p'.t rfl r (by simp) h, h1⟩
    cases q with
    | none => exact ⟨step p, by simp⟩
    | some q =>
      simp only [ascend]
      split
      · rename_i h
        refine ⟨step p, ?_⟩
        intro m _ r hr hro
        simp only [List.head?_cons, Option.mem_def, Option.some.injEq] at hr
        subst hr
        rw [h] at hro; cases hro
      · refine ⟨step { p with t := max q p.t }, ?_⟩
        intro m hm r hr _
        cases hm
        simp only [List.head?_cons, Option.mem_def, Option.some.injEq] at hr
        subst hr
        exact le_max_left _ _

theorem descend_mono : ∀ (l : List (Point R nv)),
    List.IsChain (fun p r : Point R nv => r.ordinal = false → p.t ≤ r.t) l →
    (l.filter (fun p => p.ordinal)).Pairwise (fun p r => p.t ≤ r.t) →
    List.IsChain (fun p r : Point R nv => p.t ≤ r.t) (descend l) ∧
    ∀ m, (∀ p ∈ l.head?, p.ordinal = false → m ≤ p.t) → (∀ p ∈ l, p.ordinal = true → m ≤ p.t) →
      ∀ x ∈ descend l, m ≤ x.t := by
  intro l
  induction l with
  | nil => intro _ _; simp [descend]
  | cons p ps ih =>
    intro hc ho
    have hc' : List.IsChain (fun p r : Point R nv => r.ordinal = false → p.t ≤ r.t) ps := hc.tail
    have ho' : (ps.filter (fun p => p.ordinal)).Pairwise (fun p r => p.t ≤ r.t) := by
      rw [List.filter_cons] at ho
      split at ho
      · exact (List.pairwise_cons.1 ho).2
      · exact ho
    obtain ⟨i1, i2⟩ := ih hc' ho'
    have hnext : ∀ r ∈ ps.head?, r.ordinal = false → p.t ≤ r.t := by
      intro r hr hro
      cases ps with
      | nil => simp at hr
      | cons s ss =>
        simp only [List.head?_cons, Option.mem_def, Option.some.injEq] at hr
        subst hr
        exact (List.isChain_cons_cons.1 hc).1 hro
    simp only [descend]
    cases hd : descend ps with
    | nil =>
      refine ⟨by simp, ?_⟩
      intro m h1 h2 x hx
      simp only [List.mem_singleton] at hx
      subst hx
      cases hxo : x.ordinal with
      | true => exact h2 x (by simp) hxo
      | false => exact h1 x (by simp) hxo
    | cons q qs =>
      rw [hd] at i1 i2
      simp only
      split
      · rename_i hp
        have hlow : ∀ x ∈ q :: qs, p.t ≤ x.t := by
          apply i2 p.t hnext
          intro r hr hro
          rw [List.filter_cons, if_pos hp] at ho
          exact (List.pairwise_cons.1 ho).1 r (List.mem_filter.2 ⟨hr, hro⟩)
        refine ⟨List.isChain_cons_cons.2 ⟨hlow q (by simp), i1⟩, ?_⟩
        intro m _ h2 x hx
        have hmp := h2 p (by simp) hp
        rcases List.mem_cons.1 hx with rfl | hx
        · exact hmp
        · exact le_trans hmp (hlow x hx)
      · rename_i hp
        refine ⟨List.isChain_cons_cons.2 ⟨min_le_left _ _, i1⟩, ?_⟩
        intro m h1 h2 x hx
        have hmp : m ≤ p.t := h1 p (by simp) (by simpa using hp)
        have hlow := i2 m (fun r hr hro => le_trans hmp (hnext r hr hro)) (fun r hr hro => h2 r (List.mem_cons_of_mem _ hr) hro)
        rcases List.mem_cons.1 hx with rfl | hx
        · exact le_min (hlow q (by simp)) hmp
        · exact hlow x hx

theorem filter_ordinal_only {l l' : List (Point R nv)} (h : List.Forall₂ OnlyTime l l') :
    (l.filter (fun p => p.ordinal)).map (fun p => p.t) = (l'.filter (fun p => p.ordinal)).map (fun p => p.t) := by
  induction h with
  | nil => rfl
  | cons h hh ih =>
    rename_i p q ps qs
    have ho : q.ordinal = p.ordinal := by rw [h.1]
    simp only [List.filter_cons, ho]
    split
    · rename_i hp
      simp only [List.map_cons, ih, h.2 hp]
    · exact ih

/-- a monotone curve is not changed -/
theorem ascend_mono : ∀ (l : List (Point R nv)) (q : Option R), (l.map (fun p => p.t)).Pairwise (· ≤ ·) →
    (∀ m, q = some m → ∀ p ∈ l, m ≤ p.t) → ascend q l = l := by
  intro l
  induction l with
  | nil => intro q _ _; simp [ascend]
  | cons p ps ih =>
    intro q h hq
    rw [List.map_cons, List.pairwise_cons] at h
    have hrec : ascend (some p.t) ps = ps := ih (some p.t) h.2 (by
      intro m hm r hr; cases hm
      exact h.1 _ (List.mem_map.2 ⟨r, hr, rfl⟩))
    cases q with
    | none => simp only [ascend, hrec]
    | some q =>
      have : max q p.t = p.t := max_eq_right (hq q rfl p (by simp))
      simp only [ascend, this, hrec]
      split <;> rfl

theorem descend_id : ∀ (l : List (Point R nv)), (l.map (fun p => p.t)).Pairwise (· ≤ ·) → descend l = l := by
  intro l
  induction l with
  | nil => intro _; rfl
  | cons p ps ih =>
    intro h
    rw [List.map_cons, List.pairwise_cons] at h
    simp only [descend, ih h.2]
    cases ps with
    | nil => rfl
    | cons q qs =>
      have : min q.t p.t = p.t := min_eq_right (h.1 q.t (by simp))
      simp only [this]
      split <;> rfl

end Verif.Curve
