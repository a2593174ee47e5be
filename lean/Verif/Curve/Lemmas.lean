import Verif.Curve.Time
/-! `split`, `rotate`, `reorder`, `update_statistics`, `intercept`, the curve set. -/
namespace Verif.Curve
variable {R : Type} {nv : Nat}

/-- the points `split` keeps: a point that directly follows a kept point of another type is skipped -/
def kept : Option Nat → List (Point R nv) → List (Point R nv)
  | _, [] => []
  | none, p :: ps => p :: kept (some p.type) ps
  | some ty, p :: ps => if p.type = ty then p :: kept (some ty) ps else kept none ps

section
variable [LinearOrder R]

theorem splitLoop_spec : ∀ (ps sub : List (Point R nv)) (cur : Nat), (∀ p ∈ sub, p.type = cur) → (ps = [] → sub = []) →
    (splitLoop sub cur ps).flatten = sub ++ kept (if sub.isEmpty then none else some cur) ps ∧
    ∀ s ∈ splitLoop sub cur ps, s ≠ [] ∧ ∃ ty, ∀ p ∈ s, p.type = ty := by
  intro ps
  induction ps with
  | nil => intro sub cur _ h; rw [h rfl]; simp [splitLoop, kept]
  | cons p ps ih =>
    intro sub cur hs _
    rcases List.eq_nil_or_concat sub with rfl | ⟨s0, l, rfl⟩
    · simp only [splitLoop, List.isEmpty_nil, if_true, ne_eq, not_true_eq_false, false_or, List.nil_append, List.length_singleton,
        Nat.lt_add_one, gt_iff_lt]
      split
      · rename_i h
        subst h
        obtain ⟨h1, h2⟩ := ih [] p.type (by simp) (fun _ => rfl)
        refine ⟨?_, ?_⟩
        · simp only [List.flatten_cons, h1]
          simp [kept]
        · intro s hsm
          rcases List.mem_cons.1 hsm with rfl | hsm
          · exact ⟨by simp, p.type, by simp⟩
          · exact h2 s hsm
      · rename_i h
        obtain ⟨h1, h2⟩ := ih [p] p.type (by simp) (fun e => absurd e h)
        refine ⟨?_, h2⟩
        rw [h1]
        simp [kept]
    · rw [List.concat_eq_append] at *
      have hne : (s0 ++ [l]).isEmpty = false := by cases s0 <;> rfl
      simp only [splitLoop, hne, Bool.false_eq_true, if_false]
      by_cases hp : p.type = cur
      · simp only [hp, if_true, ne_eq, not_true_eq_false, false_or, kept]
        have hall : ∀ q ∈ s0 ++ [l] ++ [p], q.type = cur := by
          intro q hq
          rcases List.mem_append.1 hq with hq | hq
          · exact hs q hq
          · simp only [List.mem_singleton] at hq; rw [hq]; exact hp
        have hlen : (s0 ++ [l] ++ [p]).length > 0 := by simp
        rw [if_pos hlen]
        split
        · rename_i h
          subst h
          obtain ⟨h1, h2⟩ := ih [] cur (by simp) (fun _ => rfl)
          refine ⟨?_, ?_⟩
          · simp only [List.flatten_cons, h1]
            simp [kept]
          · intro s hsm
            rcases List.mem_cons.1 hsm with rfl | hsm
            · exact ⟨by simp, cur, hall⟩
            · exact h2 s hsm
        · rename_i h
          obtain ⟨h1, h2⟩ := ih (s0 ++ [l] ++ [p]) cur hall (fun e => absurd e h)
          refine ⟨?_, h2⟩
          rw [h1]
          have : (s0 ++ [l] ++ [p]).isEmpty = false := by cases s0 <;> rfl
          rw [this]
          simp
      · simp only [hp, if_false, ne_eq, not_false_eq_true, true_or, if_true, kept]
        have hlen : (s0 ++ [l]).length > 0 := by simp
        rw [if_pos hlen]
        obtain ⟨h1, h2⟩ := ih [] cur (by simp) (fun _ => rfl)
        refine ⟨?_, ?_⟩
        · simp only [List.flatten_cons, h1]
          simp
        · intro s hsm
          rcases List.mem_cons.1 hsm with rfl | hsm
          · exact ⟨by simp, cur, hs⟩
          · exact h2 s hsm

end

theorem kept_sublist : ∀ (l : List (Point R nv)) (o : Option Nat), (kept o l).Sublist l := by
  intro l
  induction l with
  | nil => intro o; cases o <;> simp [kept]
  | cons p ps ih =>
    intro o
    cases o with
    | none => exact (ih _).cons_cons p
    | some ty =>
      simp only [kept]
      split
      · exact (ih _).cons_cons p
      · exact (ih _).cons p

theorem kept_eq_iff : ∀ (l : List (Point R nv)) (ty : Nat), kept (some ty) l = l ↔ ∀ p ∈ l, p.type = ty := by
  intro l
  induction l with
  | nil => intro ty; simp [kept]
  | cons p ps ih =>
    intro ty
    simp only [kept]
    split
    · rename_i h
      simp only [List.cons.injEq, true_and, ih, List.mem_cons, forall_eq_or_imp, h]
    · rename_i h
      constructor
      · intro e
        have := (kept_sublist ps none).length_le
        rw [e] at this
        simp at this
      · intro e; exact absurd (e p (by simp)) h

theorem mem_mmInsert {V : Type} (k : Int) (v : V) (x : Int × V) : ∀ (m : List (Int × V)), x ∈ mmInsert k v m ↔ x = (k, v) ∨ x ∈ m := by
  intro m
  induction m with
  | nil => simp [mmInsert]
  | cons y m ih =>
    obtain ⟨k', v'⟩ := y
    simp only [mmInsert]
    split
    · simp
    · simp only [List.mem_cons, ih]; tauto

/-- keys in order: the shape of a multimap -/
def KeysSorted {V : Type} (m : List (Int × V)) : Prop := (m.map Prod.fst).Pairwise (· ≤ ·)

theorem mmInsert_sorted {V : Type} (k : Int) (v : V) : ∀ (m : List (Int × V)), KeysSorted m → KeysSorted (mmInsert k v m) := by
  intro m
  induction m with
  | nil => intro _; simp [mmInsert, KeysSorted]
  | cons y m ih =>
    obtain ⟨k', v'⟩ := y
    intro h
    unfold KeysSorted at h
    rw [List.map_cons, List.pairwise_cons] at h
    simp only [mmInsert]
    split
    · rename_i hlt
      unfold KeysSorted
      rw [List.map_cons, List.map_cons, List.pairwise_cons, List.pairwise_cons]
      refine ⟨?_, h⟩
      intro a ha
      rcases List.mem_cons.1 ha with rfl | ha
      · exact le_of_lt hlt
      · exact le_trans (le_of_lt hlt) (h.1 a ha)
    · rename_i hge
      unfold KeysSorted
      rw [List.map_cons, List.pairwise_cons]
      refine ⟨?_, ih h.2⟩
      intro a ha
      obtain ⟨x, hx, rfl⟩ := List.mem_map.1 ha
      rcases (mem_mmInsert _ _ _ _).1 hx with rfl | hx
      · exact not_lt.1 hge
      · exact h.1 _ (List.mem_map.2 ⟨x, hx, rfl⟩)

theorem mmInsert_perm {V : Type} (k : Int) (v : V) : ∀ (m : List (Int × V)), (mmInsert k v m).Perm ((k, v) :: m) := by
  intro m
  induction m with
  | nil => exact .refl _
  | cons y m ih =>
    obtain ⟨k', v'⟩ := y
    simp only [mmInsert]
    split
    · exact .refl _
    · exact (List.Perm.cons _ ih).trans (List.Perm.swap _ _ _)

theorem newId_fresh {V : Type} {m : List (Int × V)} (h : KeysSorted m) : ∀ x ∈ m, x.1 < getNewId m := by
  intro x hx
  rcases List.eq_nil_or_concat m with rfl | ⟨m', l, rfl⟩
  · simp at hx
  · rw [List.concat_eq_append] at *
    have e : getNewId (m' ++ [l]) = l.1 + 1 := by simp [getNewId]
    rw [e]
    unfold KeysSorted at h
    rw [List.map_append, List.pairwise_append] at h
    rcases List.mem_append.1 hx with hx | hx
    · have := h.2.2 x.1 (List.mem_map.2 ⟨x, hx, rfl⟩) l.1 (by simp)
      omega
    · simp only [List.mem_singleton] at hx; rw [hx]; omega

/-- inserting at the new id appends -/
theorem mmInsert_new {V : Type} (v : V) {k : Int} : ∀ {m : List (Int × V)}, (∀ x ∈ m, x.1 < k) →
    mmInsert k v m = m ++ [(k, v)] := by
  intro m
  induction m with
  | nil => intro _; rfl
  | cons y m ih =>
    obtain ⟨k', v'⟩ := y
    intro h
    simp only [mmInsert]
    have hk := h (k', v') (by simp)
    rw [if_neg (by simp only at hk; omega), ih (fun x hx => h x (List.mem_cons_of_mem _ hx))]
    rfl

/-! extrema of a fold -/

theorem foldl_max {α : Type} {T : Type} [LinearOrder T] (f : α → T) : ∀ (l : List α) (a : T),
    a ≤ l.foldl (fun b p => max b (f p)) a ∧ (∀ p ∈ l, f p ≤ l.foldl (fun b p => max b (f p)) a) ∧
    (l.foldl (fun b p => max b (f p)) a = a ∨ ∃ p ∈ l, l.foldl (fun b p => max b (f p)) a = f p) := by
  intro l
  induction l with
  | nil => intro a; simp
  | cons p l ih =>
    intro a
    obtain ⟨h1, h2, h3⟩ := ih (max a (f p))
    simp only [List.foldl_cons]
    refine ⟨le_trans (le_max_left _ _) h1, ?_, ?_⟩
    · intro q hq
      rcases List.mem_cons.1 hq with rfl | hq
      · exact le_trans (le_max_right _ _) h1
      · exact h2 q hq
    · rcases h3 with h3 | ⟨q, hq, h3⟩
      · rcases le_total a (f p) with hle | hle
        · right; exact ⟨p, by simp, by rw [h3, max_eq_right hle]⟩
        · left; rw [h3, max_eq_left hle]
      · right; exact ⟨q, List.mem_cons_of_mem _ hq, h3⟩

theorem foldl_min {α : Type} {T : Type} [LinearOrder T] (f : α → T) : ∀ (l : List α) (a : T),
    l.foldl (fun b p => min b (f p)) a ≤ a ∧ (∀ p ∈ l, l.foldl (fun b p => min b (f p)) a ≤ f p) ∧
    (l.foldl (fun b p => min b (f p)) a = a ∨ ∃ p ∈ l, l.foldl (fun b p => min b (f p)) a = f p) := by
  intro l
  induction l with
  | nil => intro a; simp
  | cons p l ih =>
    intro a
    obtain ⟨h1, h2, h3⟩ := ih (min a (f p))
    simp only [List.foldl_cons]
    refine ⟨le_trans h1 (min_le_left _ _), ?_, ?_⟩
    · intro q hq
      rcases List.mem_cons.1 hq with rfl | hq
      · exact le_trans h1 (min_le_right _ _)
      · exact h2 q hq
    · rcases h3 with h3 | ⟨q, hq, h3⟩
      · rcases le_total a (f p) with hle | hle
        · left; rw [h3, min_eq_left hle]
        · right; exact ⟨p, by simp, by rw [h3, min_eq_right hle]⟩
      · right; exact ⟨q, List.mem_cons_of_mem _ hq, h3⟩

/-- the maximum over a non-empty list whose values are all at least `a` -/
theorem foldl_max_attained {α : Type} {T : Type} [LinearOrder T] (f : α → T) {l : List α} {a : T} (hl : l ≠ [])
    (ha : ∀ p ∈ l, a ≤ f p) : ∃ p ∈ l, l.foldl (fun b p => max b (f p)) a = f p := by
  obtain ⟨h1, h2, h3⟩ := foldl_max f l a
  rcases h3 with h3 | h3
  · obtain ⟨p, hp⟩ := List.exists_mem_of_ne_nil l hl
    exact ⟨p, hp, le_antisymm (by rw [h3]; exact ha p hp) (h2 p hp)⟩
  · exact h3

theorem foldl_min_attained {α : Type} {T : Type} [LinearOrder T] (f : α → T) {l : List α} {a : T} (hl : l ≠ [])
    (ha : ∀ p ∈ l, f p ≤ a) : ∃ p ∈ l, l.foldl (fun b p => min b (f p)) a = f p := by
  obtain ⟨h1, h2, h3⟩ := foldl_min f l a
  rcases h3 with h3 | h3
  · obtain ⟨p, hp⟩ := List.exists_mem_of_ne_nil l hl
    exact ⟨p, hp, le_antisymm (h2 p hp) (by rw [h3]; exact ha p hp)⟩
  · exact h3

section
variable [LinearOrder R]

theorem statStep_fold (vmag : (Fin 3 → R) → R) : ∀ (l : List (Point R nv)) (s : Stats R nv),
    (∀ k, (l.foldl (statStep vmag) s).max k = l.foldl (fun b p => max b (p.scalar k)) (s.max k)) ∧
    (∀ k, (l.foldl (statStep vmag) s).min k = l.foldl (fun b p => min b (p.scalar k)) (s.min k)) ∧
    (∀ k, (l.foldl (statStep vmag) s).bbmax k = l.foldl (fun b p => max b (p.x k)) (s.bbmax k)) ∧
    (∀ k, (l.foldl (statStep vmag) s).bbmin k = l.foldl (fun b p => min b (p.x k)) (s.bbmin k)) ∧
    (l.foldl (statStep vmag) s).tmax = l.foldl (fun b p => max b p.t) s.tmax ∧
    (l.foldl (statStep vmag) s).tmin = l.foldl (fun b p => min b p.t) s.tmin ∧
    (l.foldl (statStep vmag) s).vmmax = l.foldl (fun b p => max b (vmag p.v)) s.vmmax ∧
    (l.foldl (statStep vmag) s).vmmin = l.foldl (fun b p => min b (vmag p.v)) s.vmmin := by
  intro l
  induction l with
  | nil => intro s; simp
  | cons p l ih =>
    intro s
    simp only [List.foldl_cons]
    exact ih (statStep vmag s p)

theorem consistentType_spec {l : List (Point R nv)} (hl : l ≠ []) :
    (∀ ty, ty ≠ 0 → (consistentType l = ty ↔ ∀ p ∈ l, p.type = ty)) := by
  intro ty hty
  cases l with
  | nil => exact absurd rfl hl
  | cons p ps =>
    simp only [consistentType]
    split
    · rename_i h
      rw [List.all_eq_true] at h
      constructor
      · rintro rfl q hq
        have := h q hq
        simp only [decide_eq_true_eq] at this
        exact this.symm
      · intro e; exact e p (by simp)
    · rename_i h
      constructor
      · intro e; exact absurd e.symm hty
      · intro e
        exfalso
        apply h
        rw [List.all_eq_true]
        intro q hq
        rw [decide_eq_true_eq, e p (by simp), e q hq]

theorem updateStats_pts [Sub R] (e : Env R) (c : Curve R nv) : (updateStats e c).pts = c.pts ∧ (updateStats e c).id = c.id ∧
    (updateStats e c).loop = c.loop ∧ (updateStats e c).complete = c.complete := by
  unfold updateStats
  split <;> exact ⟨rfl, rfl, rfl, rfl⟩

end
end Verif.Curve
