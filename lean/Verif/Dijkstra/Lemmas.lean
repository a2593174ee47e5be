import Verif.Dijkstra.Model
import Verif.Dijkstra.Spec
import Verif.UnionFind.Lemmas
import Mathlib.Data.List.Perm.Subperm
/-! Proofs about `dijkstra`. -/
set_option linter.unusedSectionVars false
namespace Verif.Dij
open Verif.UF
variable {α T : Type} [LinearOrder α] [AddCommMonoid T] [LinearOrder T] [IsOrderedAddMonoid T]

/-- walks from `src`, built at the end -/
inductive Walk (nb : α → List α) (w : α → α → T) (src : α) : α → T → Prop
  | nil : Walk nb w src src 0
  | snoc {x y : α} {W : T} : Walk nb w src x W → y ∈ nb x → Walk nb w src y (W + w x y)

omit [LinearOrder α] [LinearOrder T] [IsOrderedAddMonoid T] in
theorem weight_snoc (w : α → α → T) (y : α) : ∀ (p : List α) (x : α), p.getLast? = some x →
    weight w (p ++ [y]) = weight w p + w x y := by
  intro p
  induction p with
  | nil => intro x h; simp at h
  | cons a p ih =>
    intro x h
    cases p with
    | nil =>
      have : a = x := by simpa using h
      subst this
      simp [weight]
    | cons b p =>
      have h' : (b :: p).getLast? = some x := by rw [List.getLast?_cons_cons] at h; exact h
      have := ih x h'
      simp only [List.cons_append, weight] at this ⊢
      rw [this, add_assoc]

omit [LinearOrder α] [LinearOrder T] [IsOrderedAddMonoid T] in
theorem walk_of_path {nb : α → List α} {w : α → α → T} {src : α} : ∀ (p : List α) (y : α), IsPath nb p src y →
    Walk nb w src y (weight w p) := by
  intro p
  induction p using List.reverseRecOn with
  | nil => rintro y ⟨h, _⟩; simp at h
  | append_singleton p z ih =>
    rintro y ⟨h1, h2, h3⟩
    have hz : z = y := by simpa using h2
    subst hz
    rcases List.eq_nil_or_concat p with rfl | ⟨p', x, rfl⟩
    · have : z = src := by simpa using h1
      subst this
      exact .nil
    · rw [List.concat_eq_append] at *
      have hl : (p' ++ [x]).getLast? = some x := by simp
      rw [weight_snoc w z _ x hl]
      rw [List.isChain_append] at h3
      refine .snoc (ih x ⟨?_, hl, h3.1⟩) (h3.2.2 x (by simp) z (by simp))
      cases p' with
      | nil => simpa using h1
      | cons a p' => simpa using h1

omit [LinearOrder α] in
theorem walk_nonneg {nb : α → List α} {w : α → α → T} (hw : ∀ a b, 0 ≤ w a b) {src x : α} {W : T} (h : Walk nb w src x W) :
    0 ≤ W := by
  induction h with
  | nil => exact le_refl _
  | snoc _ _ ih => exact add_nonneg ih (hw _ _)

/-- the tree recorded by `prev`, newest visited vertex first -/
def Tree (nb : α → List α) (w : α → α → T) (src : α) (s : St α T) : List α → Prop
  | [] => True
  | x :: vs => (x = src ∨ ∃ u ∈ vs, s.prev x = some u ∧ x ∈ nb u ∧ ∃ d, s.dist u = some d ∧ s.dist x = some (d + w u x)) ∧
      x ∉ vs ∧ Tree nb w src s vs

/-- the loop invariant; `P` are the vertices whose neighbors have been relaxed -/
structure Inv (nb : α → List α) (w : α → α → T) (src : α) (s : St α T) : Prop where
  keys : ∀ x, x ∈ s.keys ↔ (s.dist x).isSome = true
  vkeys : ∀ x ∈ s.vis, x ∈ s.keys
  src0 : s.dist src = some 0
  walk : ∀ x d, s.dist x = some d → Walk nb w src x d
  mono : ∀ x y dx dy, x ∈ s.vis → y ∉ s.vis → s.dist x = some dx → s.dist y = some dy → dx ≤ dy
  tree : Tree nb w src s s.vis
  front : ∀ y, y ∉ s.vis → ∀ d, s.dist y = some d → y = src ∨ ∃ u ∈ s.vis, s.prev y = some u ∧ y ∈ nb u ∧
    ∃ du, s.dist u = some du ∧ d = du + w u y

/-- `v`'s neighbors `y ∈ ys` carry a distance at most `dist v + w v y` -/
def Done (w : α → α → T) (s : St α T) (v : α) (ys : List α) : Prop :=
  ∀ y ∈ ys, ∃ dv dy, s.dist v = some dv ∧ s.dist y = some dy ∧ dy ≤ dv + w v y

omit [AddCommMonoid T] [IsOrderedAddMonoid T] in
theorem pick_foldl (s : St α T) : ∀ (ks : List α) (acc : Option (T × α)),
    (∀ m u, acc = some (m, u) → u ∉ s.vis ∧ s.dist u = some m) →
    (∀ m u, ks.foldl (pick s) acc = some (m, u) → u ∉ s.vis ∧ s.dist u = some m ∧
      (∀ a b, acc = some (a, b) → m ≤ a) ∧ ∀ k ∈ ks, k ∉ s.vis → ∀ d, s.dist k = some d → m ≤ d) ∧
    (ks.foldl (pick s) acc = none → acc = none ∧ ∀ k ∈ ks, k ∉ s.vis → s.dist k = none) := by
  intro ks
  induction ks with
  | nil =>
    intro acc h
    refine ⟨fun m u e => ?_, fun e => ⟨e, by simp⟩⟩
    simp only [List.foldl_nil] at e
    obtain ⟨h1, h2⟩ := h m u e
    refine ⟨h1, h2, ?_, by simp⟩
    intro a b e'; rw [e] at e'; cases e'; exact le_refl _
  | cons k ks ih =>
    intro acc h
    have hacc : ∀ m u, pick s acc k = some (m, u) → u ∉ s.vis ∧ s.dist u = some m := by
      intro m u e
      unfold pick at e
      split at e
      · exact h m u e
      · rename_i d hd
        split at e
        · rename_i hc; cases e; exact ⟨hc.1, hd⟩
        · exact h m u e
    obtain ⟨i1, i2⟩ := ih (pick s acc k) hacc
    rw [List.foldl_cons]
    constructor
    · intro m u e
      obtain ⟨h1, h2, h3, h4⟩ := i1 m u e
      have hle : (∀ a b, acc = some (a, b) → m ≤ a) ∧ (k ∉ s.vis → ∀ d, s.dist k = some d → m ≤ d) := by
        unfold pick at h3
        constructor
        · rintro a b rfl
          split at h3
          · exact h3 a b rfl
          · rename_i d hd
            split at h3
            · rename_i hc; exact le_trans (h3 d k rfl) (le_of_lt (by simpa [nearer] using hc.2))
            · exact h3 a b rfl
        · intro hk d hd
          rw [hd] at h3
          simp only at h3
          split at h3
          · exact h3 d k rfl
          · rename_i hc
            cases acc with
            | none => exact absurd ⟨hk, rfl⟩ hc
            | some ab =>
              obtain ⟨a, b⟩ := ab
              have : ¬ d < a := fun hlt => hc ⟨hk, by simpa [nearer] using hlt⟩
              exact le_trans (h3 a b rfl) (not_lt.1 this)
      refine ⟨h1, h2, hle.1, ?_⟩
      intro x hx
      rcases List.mem_cons.1 hx with rfl | hx
      · exact hle.2
      · exact h4 x hx
    · intro e
      obtain ⟨h1, h2⟩ := i2 e
      unfold pick at h1
      split at h1
      · rename_i hd
        refine ⟨h1, ?_⟩
        intro x hx hv
        rcases List.mem_cons.1 hx with rfl | hx
        · exact hd
        · exact h2 x hx hv
      · rename_i d hd
        split at h1
        · cases h1
        · rename_i hc
          subst h1
          refine ⟨rfl, ?_⟩
          intro x hx hv
          rcases List.mem_cons.1 hx with rfl | hx
          · exact absurd ⟨hv, rfl⟩ hc
          · exact h2 x hx hv

omit [AddCommMonoid T] [IsOrderedAddMonoid T] in
theorem select_some {s : St α T} {m : T} {u : α} (h : select s = some (m, u)) (hk : ∀ x, x ∈ s.keys ↔ (s.dist x).isSome = true) :
    u ∉ s.vis ∧ s.dist u = some m ∧ ∀ k, k ∉ s.vis → ∀ d, s.dist k = some d → m ≤ d := by
  obtain ⟨h1, h2, _, h4⟩ := (pick_foldl s s.keys none (by simp)).1 m u h
  refine ⟨h1, h2, fun k hv d hd => h4 k ?_ hv d hd⟩
  rw [hk, hd]; rfl

omit [AddCommMonoid T] [IsOrderedAddMonoid T] in
theorem select_none {s : St α T} (h : select s = none) (hk : ∀ x, x ∈ s.keys ↔ (s.dist x).isSome = true) :
    ∀ k, k ∉ s.vis → s.dist k = none := by
  intro k hv
  by_contra hd
  have : k ∈ s.keys := by
    rw [hk]
    cases e : s.dist k with
    | none => exact absurd e hd
    | some _ => rfl
  exact hd (((pick_foldl s s.keys none (by simp)).2 h).2 k this hv)

/-- the tree does not depend on unvisited vertices -/
theorem Tree.congr {nb : α → List α} {w : α → α → T} {src : α} {s s' : St α T} : ∀ {vs : List α},
    (∀ x ∈ vs, s'.dist x = s.dist x ∧ s'.prev x = s.prev x) → Tree nb w src s vs → Tree nb w src s' vs := by
  intro vs
  induction vs with
  | nil => intro _ _; trivial
  | cons x vs ih =>
    rintro h ⟨h1, h2, h3⟩
    refine ⟨?_, h2, ih (fun y hy => h y (List.mem_cons_of_mem _ hy)) h3⟩
    rcases h1 with h1 | ⟨u, hu, a, b, d, c, e⟩
    · exact Or.inl h1
    · refine Or.inr ⟨u, hu, ?_, b, d, ?_, ?_⟩
      · rw [(h x (by simp)).2]; exact a
      · rw [(h u (List.mem_cons_of_mem _ hu)).1]; exact c
      · rw [(h x (by simp)).1]; exact e

/-- relaxing the neighbors of the newest visited vertex -/
theorem relaxAll_spec {nb : α → List α} {w : α → α → T} {src : α} (hw : ∀ a b, 0 ≤ w a b) {u : α} : ∀ (vs : List α) (s : St α T),
    (∀ v ∈ vs, v ∈ nb u) → Inv nb w src s → u ∈ s.vis →
    (∀ x ∈ s.vis, ∀ dx du, s.dist x = some dx → s.dist u = some du → dx ≤ du) →
    ∃ s', relaxAll w u vs s = some s' ∧ Inv nb w src s' ∧ s'.vis = s.vis ∧
      (∀ x ∈ s.vis, s'.dist x = s.dist x) ∧
      (∀ x d, s.dist x = some d → ∃ d', s'.dist x = some d' ∧ d' ≤ d) ∧ Done w s' u vs := by
  intro vs
  induction vs with
  | nil =>
    intro s _ h _ _
    exact ⟨s, rfl, h, rfl, fun _ _ => rfl, fun x d e => ⟨d, e, le_refl _⟩, by intro y hy; simp at hy⟩
  | cons v vs ih =>
    intro s hvs h hu hmax
    obtain ⟨du, hdu⟩ : ∃ du, s.dist u = some du := by
      have := (h.keys u).1 (h.vkeys u hu)
      exact Option.isSome_iff_exists.1 this
    -- one relaxation
    have key : ∃ s1, relax w u s v = some s1 ∧ Inv nb w src s1 ∧ s1.vis = s.vis ∧ (∀ x ∈ s.vis, s1.dist x = s.dist x) ∧
        (∀ x d, s.dist x = some d → ∃ d', s1.dist x = some d' ∧ d' ≤ d) ∧ ∃ dv, s1.dist v = some dv ∧ dv ≤ du + w u v := by
      unfold relax
      rw [hdu]
      simp only
      have hv := hvs v (by simp)
      have hle0 : ∀ x, du ≤ du + w u x := fun x => le_add_of_nonneg_right (hw u x)
      split
      · rename_i hchange
        have hvv : v ∉ s.vis := by
          intro hvv
          obtain ⟨dv, hdv⟩ := Option.isSome_iff_exists.1 ((h.keys v).1 (h.vkeys v hvv))
          rw [hdv] at hchange
          simp only [shorter, decide_eq_true_eq] at hchange
          exact absurd (lt_of_le_of_lt (hle0 v) hchange) (not_lt.2 (hmax v hvv dv du hdv hdu))
        have hother : ∀ x, x ≠ v → put s.dist v (du + w u v) x = s.dist x := fun x hx => put_ne _ _ hx
        have hsrc : v ≠ src := by
          rintro rfl
          rw [h.src0] at hchange
          simp only [shorter, decide_eq_true_eq] at hchange
          have h0 : (0 : T) ≤ du := by
            exact walk_nonneg hw (h.walk u du hdu)
          exact absurd (le_trans h0 (hle0 v)) (not_le.2 hchange)
        have hdec : ∀ d, s.dist v = some d → du + w u v ≤ d := by
          intro d hd
          rw [hd] at hchange
          simp only [shorter, decide_eq_true_eq] at hchange
          exact le_of_lt hchange
        refine ⟨_, rfl, ⟨?_, ?_, ?_, ?_, ?_, ?_, ?_⟩, rfl, ?_, ?_, du + w u v, put_same _ _ _, le_refl _⟩
        · intro x
          simp only [mem_setInsert, h.keys]
          by_cases hx : x = v
          · subst hx; simp [put_same]
          · simp only [hx, false_or, hother x hx]
        · intro x hx
          exact (mem_setInsert _ _ _).2 (Or.inr (h.vkeys x hx))
        · show put s.dist v (du + w u v) src = some 0
          rw [hother src (Ne.symm hsrc)]; exact h.src0
        · intro x d hd
          by_cases hx : x = v
          · subst hx
            have e : put s.dist x (du + w u x) x = some d := hd
            rw [put_same] at e; cases e
            exact .snoc (h.walk u du hdu) hv
          · have e : put s.dist v (du + w u v) x = some d := hd
            rw [hother x hx] at e; exact h.walk x d e
        · intro x y dx dy hx hy hdx hdy
          have ex : put s.dist v (du + w u v) x = some dx := hdx
          have ey : put s.dist v (du + w u v) y = some dy := hdy
          rw [hother x (by rintro rfl; exact hvv hx)] at ex
          by_cases hyv : y = v
          · subst hyv
            rw [put_same] at ey; cases ey
            exact le_trans (hmax x hx dx du ex hdu) (hle0 y)
          · rw [hother y hyv] at ey; exact h.mono x y dx dy hx hy ex ey
        · refine Tree.congr (fun x hx => ?_) h.tree
          have hxv : x ≠ v := by rintro rfl; exact hvv hx
          exact ⟨hother x hxv, put_ne _ _ hxv⟩
        · intro y hy d hd
          by_cases hyv : y = v
          · subst hyv
            have e : put s.dist y (du + w u y) y = some d := hd
            rw [put_same] at e; cases e
            refine Or.inr ⟨u, hu, put_same _ _ _, hv, du, ?_, rfl⟩
            show put s.dist y (du + w u y) u = some du
            rw [hother u (by rintro rfl; exact hvv hu)]; exact hdu
          · have e : put s.dist v (du + w u v) y = some d := hd
            rw [hother y hyv] at e
            rcases h.front y hy d e with h1 | ⟨u', hu', a, b, du', c, e'⟩
            · exact Or.inl h1
            · refine Or.inr ⟨u', hu', ?_, b, du', ?_, e'⟩
              · show put s.prev v u y = some u'
                rw [put_ne _ _ hyv]; exact a
              · show put s.dist v (du + w u v) u' = some du'
                rw [hother u' (by rintro rfl; exact hvv hu')]; exact c
        · intro x hx
          exact hother x (by rintro rfl; exact hvv hx)
        · intro x d hd
          by_cases hx : x = v
          · subst hx; exact ⟨_, put_same _ _ _, hdec d hd⟩
          · exact ⟨d, by show put s.dist v (du + w u v) x = some d; rw [hother x hx]; exact hd, le_refl _⟩
      · rename_i hchange
        refine ⟨s, rfl, h, rfl, fun _ _ => rfl, fun x d e => ⟨d, e, le_refl _⟩, ?_⟩
        cases hdv : s.dist v with
        | none => rw [hdv] at hchange; simp [shorter] at hchange
        | some dv =>
          rw [hdv] at hchange
          simp only [shorter, decide_eq_true_eq, not_lt] at hchange
          exact ⟨dv, rfl, hchange⟩
    obtain ⟨s1, e1, h1, hv1, hd1, hdec1, dv, hdv, hdvle⟩ := key
    obtain ⟨s2, e2, h2, hv2, hd2, hdec2, hdone⟩ := ih s1 (fun x hx => hvs x (List.mem_cons_of_mem _ hx)) h1
      (by rw [hv1]; exact hu) (by
        intro x hx dx du' hdx hdu'
        rw [hv1] at hx
        rw [hd1 x hx] at hdx
        rw [hd1 u hu] at hdu'
        exact hmax x hx dx du' hdx hdu')
    refine ⟨s2, by simp only [relaxAll, e1]; exact e2, h2, hv2.trans hv1, ?_, ?_, ?_⟩
    · intro x hx
      rw [hd2 x (by rw [hv1]; exact hx), hd1 x hx]
    · intro x d hd
      obtain ⟨d1, a, b⟩ := hdec1 x d hd
      obtain ⟨d2, c, e⟩ := hdec2 x d1 a
      exact ⟨d2, c, le_trans e b⟩
    · intro y hy
      rcases List.mem_cons.1 hy with rfl | hy
      · obtain ⟨d2, c, e⟩ := hdec2 y dv hdv
        refine ⟨du, d2, ?_, c, le_trans e hdvle⟩
        rw [hd2 u (by rw [hv1]; exact hu), hd1 u hu]; exact hdu
      · exact hdone y hy

/-- any walk is bounded below by a visited end or by a frontier vertex -/
theorem walk_bound {nb : α → List α} {w : α → α → T} (hw : ∀ a b, 0 ≤ w a b) {src : α} {s : St α T} (h : Inv nb w src s)
    (hdone : ∀ v ∈ s.vis, Done w s v (nb v)) {y : α} {W : T} (hy : Walk nb w src y W) :
    (y ∈ s.vis ∧ ∃ d, s.dist y = some d ∧ d ≤ W) ∨ ∃ z, z ∉ s.vis ∧ ∃ d, s.dist z = some d ∧ d ≤ W := by
  induction hy with
  | nil =>
    by_cases hs : src ∈ s.vis
    · exact Or.inl ⟨hs, 0, h.src0, le_refl _⟩
    · exact Or.inr ⟨src, hs, 0, h.src0, le_refl _⟩
  | snoc _ hxy ih =>
    rename_i x y W _
    rcases ih with ⟨hx, d, hd, hle⟩ | ⟨z, hz, d, hd, hle⟩
    · obtain ⟨dv, dy, e1, e2, e3⟩ := hdone x hx y hxy
      rw [hd] at e1; cases e1
      have : dy ≤ W + w x y := le_trans e3 (add_le_add_left hle _)
      by_cases hyv : y ∈ s.vis
      · exact Or.inl ⟨hyv, dy, e2, this⟩
      · exact Or.inr ⟨y, hyv, dy, e2, this⟩
    · exact Or.inr ⟨z, hz, d, hd, le_trans hle (le_add_of_nonneg_right (hw _ _))⟩

theorem inv_init (nb : α → List α) (w : α → α → T) (src : α) :
    Inv nb w src { vis := [], keys := [src], dist := fun x => if x = src then some 0 else none, prev := fun _ => none } := by
  refine ⟨?_, by simp, by simp, ?_, by simp, trivial, ?_⟩
  · intro x
    simp only [List.mem_singleton]
    split <;> simp_all
  · intro x d h
    simp only at h
    split at h
    · rename_i e; subst e; cases h; exact .nil
    · cases h
  · intro y _ d h
    simp only at h
    split at h
    · rename_i e; exact Or.inl e
    · cases h

/-- selecting the nearest unvisited vertex -/
theorem inv_select {nb : α → List α} {w : α → α → T} {src : α} {s : St α T} (h : Inv nb w src s) {m : T} {u : α}
    (hs : select s = some (m, u)) : Inv nb w src { s with vis := u :: s.vis } ∧
      ∀ x ∈ u :: s.vis, ∀ dx du, s.dist x = some dx → s.dist u = some du → dx ≤ du := by
  obtain ⟨hu, hdu, hmin⟩ := select_some hs h.keys
  constructor
  · refine ⟨h.keys, ?_, h.src0, h.walk, ?_, ?_, ?_⟩
    · intro x hx
      rcases List.mem_cons.1 hx with rfl | hx
      · rw [h.keys, hdu]; rfl
      · exact h.vkeys x hx
    · intro x y dx dy hx hy hdx hdy
      have hy' : y ∉ s.vis := fun e => hy (List.mem_cons_of_mem _ e)
      rcases List.mem_cons.1 hx with rfl | hx
      · have e : s.dist x = some dx := hdx
        rw [hdu] at e; cases e
        exact hmin y hy' dy hdy
      · exact h.mono x y dx dy hx hy' hdx hdy
    · refine ⟨?_, hu, Tree.congr (s := s) (fun _ _ => ⟨rfl, rfl⟩) h.tree⟩
      rcases h.front u hu m hdu with e | ⟨p, hp, a, b, d, c, e⟩
      · exact Or.inl e
      · exact Or.inr ⟨p, hp, a, b, d, c, by rw [← e]; exact hdu⟩
    · intro y hy d hd
      rcases h.front y (fun e => hy (List.mem_cons_of_mem _ e)) d hd with e | ⟨p, hp, r⟩
      · exact Or.inl e
      · exact Or.inr ⟨p, List.mem_cons_of_mem _ hp, r⟩
  · intro x hx dx du hdx hdu'
    rcases List.mem_cons.1 hx with rfl | hx
    · rw [hdx] at hdu'; cases hdu'; exact le_refl _
    · exact h.mono x u dx du hx hu hdx hdu'

theorem tree_nodup {nb : α → List α} {w : α → α → T} {src : α} {s : St α T} : ∀ {vs : List α}, Tree nb w src s vs → vs.Nodup := by
  intro vs
  induction vs with
  | nil => intro _; exact List.nodup_nil
  | cons x vs ih => rintro ⟨_, h2, h3⟩; exact List.nodup_cons.2 ⟨h2, ih h3⟩

/-- what the loop has established when it breaks -/
structure Final (nb : α → List α) (w : α → α → T) (src dst : α) (s : St α T) (vs : List α) (d : T) : Prop where
  vis : s.vis = dst :: vs
  dist : s.dist dst = some d
  tree : Tree nb w src s s.vis
  best : ∀ W, Walk nb w src dst W → d ≤ W

/-- the loop, with enough fuel for the reachable set `U` -/
theorem loop_spec {nb : α → List α} {w : α → α → T} (hw : ∀ a b, 0 ≤ w a b) {src dst : α} {U : List α}
    (hU : ∀ x W, Walk nb w src x W → x ∈ U) (hdst : ∃ W, Walk nb w src dst W) : ∀ (fuel : Nat) (s : St α T),
    Inv nb w src s → (∀ v ∈ s.vis, Done w s v (nb v)) → dst ∉ s.vis → U.length < fuel + s.vis.length →
    ∃ s' vs d, loop nb w dst fuel s = some s' ∧ Final nb w src dst s' vs d ∧ s'.vis.length ≤ U.length := by
  intro fuel
  have hlen : ∀ s : St α T, Inv nb w src s → s.vis.length ≤ U.length := by
    intro s h
    refine (List.subperm_of_subset (tree_nodup h.tree) ?_).length_le
    intro x hx
    obtain ⟨d, hd⟩ := Option.isSome_iff_exists.1 ((h.keys x).1 (h.vkeys x hx))
    exact hU x d (h.walk x d hd)
  induction fuel with
  | zero =>
    intro s h _ _ hf
    have := hlen s h
    omega
  | succ fuel ih =>
    intro s h hdone hnd hf
    simp only [loop]
    cases hs : select s with
    | none =>
      exfalso
      obtain ⟨W, hW⟩ := hdst
      rcases walk_bound hw h hdone hW with ⟨hv, _⟩ | ⟨z, hz, d, hd, _⟩
      · exact hnd hv
      · rw [select_none hs h.keys z hz] at hd; cases hd
    | some mu =>
      obtain ⟨m, u⟩ := mu
      obtain ⟨hu, hdu, hmin⟩ := select_some hs h.keys
      obtain ⟨h', hmax⟩ := inv_select h hs
      simp only
      split
      · rename_i e
        subst e
        refine ⟨_, s.vis, m, rfl, ⟨rfl, hdu, h'.tree, ?_⟩, hlen _ h'⟩
        intro W hW
        rcases walk_bound hw h hdone hW with ⟨hv, _⟩ | ⟨z, hz, d, hd, hle⟩
        · exact absurd hv hu
        · exact le_trans (hmin z hz d hd) hle
      · rename_i hne
        obtain ⟨s1, e1, h1, hv1, hd1, hdec1, hdone1⟩ := relaxAll_spec (u := u) hw (nb u) { s with vis := u :: s.vis }
          (fun _ hv => hv) h' (by simp) hmax
        rw [e1]
        simp only
        have hdone' : ∀ v ∈ s1.vis, Done w s1 v (nb v) := by
          intro v hv
          rw [hv1] at hv
          rcases List.mem_cons.1 hv with rfl | hv
          · exact hdone1
          · intro y hy
            obtain ⟨dv, dy, a, b, c⟩ := hdone v hv y hy
            obtain ⟨dy', b', c'⟩ := hdec1 y dy b
            refine ⟨dv, dy', ?_, b', le_trans c' c⟩
            rw [hd1 v (List.mem_cons_of_mem _ hv)]; exact a
        apply ih s1 h1 hdone'
        · rw [hv1]
          intro e
          rcases List.mem_cons.1 e with e | e
          · exact hne e.symm
          · exact hnd e
        · rw [hv1]; simp only [List.length_cons]; omega

/-- `dist[src]` stays 0 -/
theorem loop_src {nb : α → List α} {w : α → α → T} (hw : ∀ a b, 0 ≤ w a b) {src dst : α} : ∀ (fuel : Nat) (s : St α T),
    Inv nb w src s → ∀ {s'}, loop nb w dst fuel s = some s' → s'.dist src = some 0 := by
  intro fuel
  induction fuel with
  | zero => intro s _ s' h; simp [loop] at h
  | succ fuel ih =>
    intro s h s' e
    simp only [loop] at e
    cases hs : select s with
    | none => rw [hs] at e; simp at e
    | some mu =>
      obtain ⟨m, u⟩ := mu
      rw [hs] at e
      obtain ⟨h', hmax⟩ := inv_select h hs
      simp only at e
      split at e
      · cases e; exact h.src0
      · obtain ⟨s1, e1, h1, _⟩ := relaxAll_spec (u := u) hw (nb u) { s with vis := u :: s.vis } (fun _ hv => hv) h' (by simp) hmax
        rw [e1] at e
        exact ih s1 h1 e

/-- walking back along `prev` -/
theorem back_spec {nb : α → List α} {w : α → α → T} {src : α} {s : St α T} (hsrc : s.dist src = some 0) :
    ∀ (vs : List α), Tree nb w src s vs → ∀ (x : α) (d : T) (fuel : Nat), x ∈ vs → s.dist x = some d → vs.length ≤ fuel →
    ∃ l, back src s.prev fuel x = some l ∧ IsPath nb l.reverse src x ∧ weight w l.reverse = d := by
  intro vs
  induction vs with
  | nil => intro _ x d fuel hx; simp at hx
  | cons v vs ih =>
    rintro ⟨h1, h2, h3⟩ x d fuel hx hd hf
    cases fuel with
    | zero => simp at hf
    | succ fuel =>
      simp only [List.length_cons, Nat.succ_le_succ_iff] at hf
      rcases List.mem_cons.1 hx with rfl | hx
      · simp only [back]
        split
        · rename_i e
          subst e
          refine ⟨[x], rfl, ⟨by simp, by simp, by simp⟩, ?_⟩
          rw [hsrc] at hd; cases hd
          simp [weight]
        · rename_i hne
          rcases h1 with e | ⟨u, hu, hp, hnb, du, hdu, hdx⟩
          · exact absurd e hne
          · obtain ⟨l, e, ⟨p1, p2, p3⟩, hwt⟩ := ih h3 u du fuel hu hdu hf
            rw [hp]
            simp only [e, Option.map_some]
            refine ⟨x :: l, rfl, ⟨?_, ?_, ?_⟩, ?_⟩
            · rw [List.reverse_cons, List.head?_append, p1]; rfl
            · simp
            · rw [List.reverse_cons, List.isChain_append]
              refine ⟨p3, by simp, ?_⟩
              intro a ha b hb
              rw [p2] at ha
              cases ha
              simp only [List.head?_cons, Option.mem_def, Option.some.injEq] at hb
              subst hb; exact hnb
            · rw [List.reverse_cons, weight_snoc w x _ u p2, hwt]
              rw [hd] at hdx; cases hdx; rfl
      · exact ih h3 x d (fuel + 1) hx hd (by omega)

/-- if `dst` cannot be reached, the loop never breaks at it -/
theorem loop_unreachable {nb : α → List α} {w : α → α → T} (hw : ∀ a b, 0 ≤ w a b) {src dst : α}
    (hdst : ∀ W, ¬ Walk nb w src dst W) : ∀ (fuel : Nat) (s : St α T), Inv nb w src s → loop nb w dst fuel s = none := by
  intro fuel
  induction fuel with
  | zero => intro s _; rfl
  | succ fuel ih =>
    intro s h
    simp only [loop]
    cases hs : select s with
    | none => rfl
    | some mu =>
      obtain ⟨m, u⟩ := mu
      obtain ⟨hu, hdu, hmin⟩ := select_some hs h.keys
      obtain ⟨h', hmax⟩ := inv_select h hs
      simp only
      split
      · rename_i e; subst e; exact absurd (h.walk u m hdu) (hdst m)
      · obtain ⟨s1, e1, h1, _⟩ := relaxAll_spec (u := u) hw (nb u) { s with vis := u :: s.vis } (fun _ hv => hv) h' (by simp) hmax
        rw [e1]
        exact ih s1 h1

/-- a walk as a path -/
theorem path_of_walk {nb : α → List α} {w : α → α → T} {src y : α} {W : T} (h : Walk nb w src y W) :
    ∃ p, IsPath nb p src y ∧ weight w p = W := by
  induction h with
  | nil => exact ⟨[src], ⟨by simp, by simp, by simp⟩, by simp [weight]⟩
  | snoc _ hxy ih =>
    rename_i x y W _
    obtain ⟨p, ⟨p1, p2, p3⟩, e⟩ := ih
    refine ⟨p ++ [y], ⟨?_, by simp, ?_⟩, by rw [weight_snoc w y p x p2, e]⟩
    · rw [List.head?_append, p1]; rfl
    · rw [List.isChain_append]
      refine ⟨p3, by simp, ?_⟩
      intro a ha b hb
      rw [p2] at ha; cases ha
      simp only [List.head?_cons, Option.mem_def, Option.some.injEq] at hb
      subst hb; exact hxy

end Verif.Dij
