import Verif.Curve.Types
import Mathlib.Tactic.Linarith
import Mathlib.Tactic.Ring
import Mathlib.Tactic.FieldSimp
import Mathlib.Tactic.NormNum
import Mathlib.Data.List.Perm.Subperm
import Mathlib.Algebra.Order.Group.Abs
import Mathlib.Algebra.Order.Ring.Cast
/-! `unwrap`, `split_geo`, `derive_velocity`, the post processor. -/
set_option linter.unusedSectionVars false
namespace Verif.Curve
variable {R : Type} {nv : Nat} [Field R] [LinearOrder R] [IsStrictOrderedRing R]

theorem shiftX_same (k : Fin 3) (d : R) (p : Point R nv) : (shiftX k d p).x k = p.x k + d := by simp [shiftX]

theorem shiftX_comp (k : Fin 3) (d e : R) (p : Point R nv) : shiftX k d (shiftX k e p) = shiftX k (e + d) p := by
  unfold shiftX
  congr 1
  funext j
  by_cases h : j = k <;> simp [h, add_assoc]

theorem shiftX_zero (k : Fin 3) (p : Point R nv) : shiftX k 0 p = p := by
  unfold shiftX
  have : (fun j => if j = k then p.x j + 0 else p.x j) = p.x := by funext j; simp
  rw [this]

theorem chain_shift (k : Fin 3) (d : R) (P : R → Prop) : ∀ (l : List (Point R nv)),
    List.IsChain (fun p q : Point R nv => P (q.x k - p.x k)) l →
    List.IsChain (fun p q : Point R nv => P (q.x k - p.x k)) (l.map (shiftX k d)) := by
  intro l h
  rw [List.isChain_map]
  refine h.imp ?_
  intro p q hpq
  rw [shiftX_same, shiftX_same]
  have : q.x k + d - (p.x k + d) = q.x k - p.x k := by ring
  rw [this]; exact hpq

theorem forall₂_shift {k : Fin 3} {period : R} {d : R} {n0 : Int} (hd : d = n0 * period) : ∀ (l l' : List (Point R nv)),
    List.Forall₂ (fun p q => ∃ n : Int, q = shiftX k (n * period) p) (l.map (shiftX k d)) l' →
    List.Forall₂ (fun p q => ∃ n : Int, q = shiftX k (n * period) p) l l' := by
  intro l
  induction l with
  | nil => intro l' h; exact h
  | cons p l ih =>
    intro l' h
    cases h with
    | cons h t =>
      refine .cons ?_ (ih _ t)
      obtain ⟨n, e⟩ := h
      refine ⟨n0 + n, ?_⟩
      rw [e, shiftX_comp, hd]
      push_cast
      congr 1; ring

theorem unwrapLoop_head (k : Fin 3) (period : R) (n : Nat) (p : Point R nv) (ps : List (Point R nv)) :
    (unwrapLoop k period n (p :: ps)).head? = some p := by
  cases n with
  | zero => simp [unwrapLoop]
  | succ n => cases ps with
    | nil => simp [unwrapLoop]
    | cons q ps => simp [unwrapLoop]

theorem unwrapLoop_spec (k : Fin 3) (period : R) (hp : 0 < period) : ∀ (n : Nat) (l : List (Point R nv)), l.length ≤ n →
    List.Forall₂ (fun p q => ∃ m : Int, q = shiftX k (m * period) p) l (unwrapLoop k period n l) ∧
    (List.IsChain (fun p q : Point R nv => |q.x k - p.x k| ≤ 3 * period / 2) l →
      List.IsChain (fun p q : Point R nv => |q.x k - p.x k| ≤ period / 2) (unwrapLoop k period n l)) ∧
    (List.IsChain (fun p q : Point R nv => |q.x k - p.x k| < period / 2) l → unwrapLoop k period n l = l) := by
  have refl : ∀ l : List (Point R nv), List.Forall₂ (fun p q => ∃ m : Int, q = shiftX k (m * period) p) l l := by
    intro l
    induction l with
    | nil => exact .nil
    | cons p l ih => exact .cons ⟨0, by simp [shiftX_zero]⟩ ih
  intro n
  induction n with
  | zero =>
    intro l hl
    have : l = [] := List.length_eq_zero_iff.1 (by omega)
    subst this
    simp [unwrapLoop]
  | succ n ih =>
    intro l hl
    match l, hl with
    | [], _ => simp [unwrapLoop]
    | [p], _ => exact ⟨refl _, fun _ => by simp [unwrapLoop], fun _ => by simp [unwrapLoop]⟩
    | p :: q :: ps, hl =>
      simp only [List.length_cons, Nat.succ_le_succ_iff] at hl
      simp only [unwrapLoop]
      have glue : ∀ (d : R) (n0 : Int), d = n0 * period →
          (|q.x k - p.x k| ≤ 3 * period / 2 → |q.x k + d - p.x k| ≤ period / 2) →
          List.Forall₂ (fun p q => ∃ m : Int, q = shiftX k (m * period) p) (p :: q :: ps)
            (p :: unwrapLoop k period n ((q :: ps).map (shiftX k d))) ∧
          (List.IsChain (fun p q : Point R nv => |q.x k - p.x k| ≤ 3 * period / 2) (p :: q :: ps) →
            List.IsChain (fun p q : Point R nv => |q.x k - p.x k| ≤ period / 2) (p :: unwrapLoop k period n ((q :: ps).map (shiftX k d)))) := by
        intro d n0 hd hgap
        obtain ⟨i1, i2, _⟩ := ih ((q :: ps).map (shiftX k d)) (by simpa using hl)
        constructor
        · exact .cons ⟨0, by simp [shiftX_zero]⟩ (forall₂_shift hd _ _ i1)
        · intro hc
          rw [List.isChain_cons_cons] at hc
          have := i2 (chain_shift k d (fun x => |x| ≤ 3 * period / 2) _ hc.2)
          have hh := unwrapLoop_head k period n (shiftX k d q) (ps.map (shiftX k d))
          rw [List.map_cons] at this ⊢
          cases hu : unwrapLoop k period n (shiftX k d q :: ps.map (shiftX k d)) with
          | nil => rw [hu] at hh; simp at hh
          | cons r rs =>
            rw [hu] at hh this
            simp only [List.head?_cons, Option.some.injEq] at hh
            subst hh
            refine List.isChain_cons_cons.2 ⟨?_, this⟩
            rw [shiftX_same]
            exact hgap hc.1
      have hne : ∀ {δ : R}, |δ| < period / 2 → ¬ (δ ≥ period / 2) ∧ ¬ (δ ≤ -period / 2) := by
        intro δ h
        rw [abs_lt] at h
        constructor
        · intro h'; linarith [h.2]
        · intro h'; linarith [h.1]
      split
      · rename_i h1
        obtain ⟨g1, g2⟩ := glue (-period) (-1) (by push_cast; ring) (by
          intro hb
          rw [abs_le] at hb ⊢
          constructor <;> linarith [hb.1, hb.2])
        refine ⟨g1, g2, ?_⟩
        intro hc
        exact absurd h1 (hne (List.isChain_cons_cons.1 hc).1).1
      · split
        · rename_i h1 h2
          obtain ⟨g1, g2⟩ := glue period 1 (by push_cast; ring) (by
            intro hb
            rw [abs_le] at hb ⊢
            constructor <;> linarith [hb.1, hb.2])
          refine ⟨g1, g2, ?_⟩
          intro hc
          exact absurd h2 (hne (List.isChain_cons_cons.1 hc).1).2
        · rename_i h1 h2
          have hmap : (q :: ps).map (shiftX k (0 : R)) = q :: ps := by
            rw [show (shiftX k (0 : R) : Point R nv → Point R nv) = id from funext (shiftX_zero k)]; simp
          obtain ⟨g1, g2⟩ := glue 0 0 (by simp) (by
            intro _
            rw [abs_le]
            constructor <;> linarith [lt_of_not_ge h1, lt_of_not_ge h2])
          rw [hmap] at g1 g2
          refine ⟨g1, g2, ?_⟩
          intro hc
          rw [(ih (q :: ps) (by simpa using hl)).2.2 (List.isChain_cons_cons.1 hc).2]

theorem absR_eq (a : R) : absR a = |a| := by
  unfold absR
  split
  · rename_i h; rw [abs_of_neg h]
  · rename_i h; rw [abs_of_nonneg (not_lt.1 h)]

/-- the pieces of `split_geo` -/
theorem geoLoop_spec : ∀ (ps sub : List (Point R nv)), (ps = [] → sub = []) →
    List.IsChain (fun p q : Point R nv => |q.x 0 - p.x 0| ≤ 180) sub →
    (∀ a ∈ sub.getLast?, ∀ b ∈ ps.head?, |b.x 0 - a.x 0| ≤ 180) →
    (geoLoop sub ps).flatten = sub ++ ps ∧
    (∀ s ∈ geoLoop sub ps, s ≠ [] ∧ List.IsChain (fun p q : Point R nv => |q.x 0 - p.x 0| ≤ 180) s) ∧
    List.IsChain (fun s s' : List (Point R nv) => ∀ a ∈ s.getLast?, ∀ b ∈ s'.head?, |b.x 0 - a.x 0| > 180) (geoLoop sub ps) ∧
    (ps ≠ [] → ∀ s ∈ (geoLoop sub ps).head?, s.head? = (sub ++ ps).head?) := by
  intro ps
  induction ps with
  | nil => intro sub h _ _; rw [h rfl]; simp [geoLoop]
  | cons p ps ih =>
    intro sub _ hc hj
    have hc' : List.IsChain (fun p q : Point R nv => |q.x 0 - p.x 0| ≤ 180) (sub ++ [p]) := by
      rw [List.isChain_append]
      refine ⟨hc, by simp, ?_⟩
      intro a ha b hb
      exact hj a ha b (by simpa using hb)
    cases ps with
    | nil =>
      simp only [geoLoop]
      refine ⟨by simp, ?_, by simp, ?_⟩
      · intro s hs
        simp only [List.mem_singleton] at hs
        subst hs
        exact ⟨by simp, hc'⟩
      · intro _ s hs
        simp only [List.head?_cons, Option.mem_def, Option.some.injEq] at hs
        rw [hs]
    | cons q ps =>
      simp only [geoLoop, absR_eq]
      split
      · rename_i hcut
        obtain ⟨h1, h2, h3, h4⟩ := ih [] (by simp) (by simp) (by simp)
        refine ⟨by simp [h1], ?_, ?_, ?_⟩
        · intro s hs
          rcases List.mem_cons.1 hs with rfl | hs
          · exact ⟨by simp, hc'⟩
          · exact h2 s hs
        · cases hg : geoLoop [] (q :: ps) with
          | nil => simp
          | cons s ss =>
            rw [hg] at h3 h4
            refine List.isChain_cons_cons.2 ⟨?_, h3⟩
            intro a ha b hb
            have := h4 (by simp) s (by simp)
            rw [this] at hb
            simp only [List.nil_append, List.head?_cons, Option.mem_def, Option.some.injEq] at hb
            simp only [List.getLast?_concat, Option.mem_def, Option.some.injEq] at ha
            rw [← ha, ← hb]; exact hcut
        · intro _ s hs
          simp only [List.head?_cons, Option.mem_def, Option.some.injEq] at hs
          rw [← hs]
          cases sub <;> simp
      · rename_i hcut
        obtain ⟨h1, h2, h3, h4⟩ := ih (sub ++ [p]) (by simp) hc' (by
          intro a ha b hb
          simp only [List.getLast?_concat, Option.mem_def, Option.some.injEq] at ha
          simp only [List.head?_cons, Option.mem_def, Option.some.injEq] at hb
          rw [← ha, ← hb]; exact not_lt.1 hcut)
        refine ⟨by rw [h1]; simp, h2, h3, ?_⟩
        intro _ s hs
        rw [h4 (by simp) s hs]
        cases sub <;> simp

/-! ### the post processor -/

/-- the tags of all points of a set -/
def tags (s : CurveSet R nv) : List Nat := s.flatMap (fun kv => kv.2.pts.map (fun p => p.tag))

theorem tags_perm {s s' : CurveSet R nv} (h : s.Perm s') : (tags s).Perm (tags s') := h.flatMap_right _

theorem mapCurves_tags {f : Curve R nv → Option (Curve R nv)}
    (hf : ∀ c c', f c = some c' → (c'.pts.map (fun p => p.tag)).Subperm (c.pts.map (fun p => p.tag))) :
    ∀ (s s' : CurveSet R nv), mapCurves f s = some s' → (tags s').Subperm (tags s) := by
  intro s
  induction s with
  | nil => intro s' h; simp only [mapCurves, Option.some.injEq] at h; subst h; exact List.Subperm.refl _
  | cons kc s ih =>
    obtain ⟨k, c⟩ := kc
    intro s' h
    simp only [mapCurves] at h
    cases h1 : f c with
    | none => rw [h1] at h; simp at h
    | some c' =>
      cases h2 : mapCurves f s with
      | none => rw [h1, h2] at h; simp at h
      | some s2 =>
        rw [h1, h2] at h
        simp only [Option.some.injEq] at h
        subst h
        simp only [tags, List.flatMap_cons]
        exact (hf c c' h1).append (ih s2 h2)

theorem mapCurves_tags_perm {f : Curve R nv → Option (Curve R nv)}
    (hf : ∀ c c', f c = some c' → (c'.pts.map (fun p => p.tag)).Perm (c.pts.map (fun p => p.tag))) :
    ∀ (s s' : CurveSet R nv), mapCurves f s = some s' → (tags s').Perm (tags s) := by
  intro s
  induction s with
  | nil => intro s' h; simp only [mapCurves, Option.some.injEq] at h; subst h; exact List.Perm.refl _
  | cons kc s ih =>
    obtain ⟨k, c⟩ := kc
    intro s' h
    simp only [mapCurves] at h
    cases h1 : f c with
    | none => rw [h1] at h; simp at h
    | some c' =>
      cases h2 : mapCurves f s with
      | none => rw [h1, h2] at h; simp at h
      | some s2 =>
        rw [h1, h2] at h
        simp only [Option.some.injEq] at h
        subst h
        simp only [tags, List.flatMap_cons]
        exact (hf c c' h1).append (ih s2 h2)

theorem onlyType_tags {l l' : List (Point R nv)} (h : List.Forall₂ OnlyType l l') :
    l'.map (fun p => p.tag) = l.map (fun p => p.tag) := by
  induction h with
  | nil => rfl
  | cons h hh ih => rw [List.map_cons, List.map_cons, ih, h]

theorem onlyTime_tags {l l' : List (Point R nv)} (h : List.Forall₂ OnlyTime l l') :
    l'.map (fun p => p.tag) = l.map (fun p => p.tag) := by
  induction h with
  | nil => rfl
  | cons h hh ih => rw [List.map_cons, List.map_cons, ih, h.1]

theorem smoothOrdinal_only (h : Nat) (c : Curve R nv) : List.Forall₂ OnlyType c.pts (smoothOrdinal h c).pts := by
  unfold smoothOrdinal
  split
  · exact only_refl _
  · exact foldSet_only _ _

theorem ordinals_lt (c : Curve R nv) : ∀ o ∈ toOrdinals c, o < c.pts.length := by
  intro o ho
  obtain ⟨_, p, hp, _⟩ := (mem_selectFrom _ _ _ _).1 ho
  rw [Nat.sub_zero] at hp
  exact (List.getElem?_eq_some_iff.1 hp).1

theorem smoothInterval_only (c : Curve R nv) : List.Forall₂ OnlyType c.pts (smoothInterval c).pts := by
  unfold smoothInterval
  split
  · rename_i o0 o1 _ _
    have h1 := fillType_only c.pts 0 o0 (typeAt c.pts o0)
    have h2 := fillType_only (fillType c.pts 0 o0 (typeAt c.pts o0)) o1
      (fillType c.pts 0 o0 (typeAt c.pts o0)).length (typeAt (fillType c.pts 0 o0 (typeAt c.pts o0)) o1)
    refine only_trans (only_trans h1 h2) ?_
    apply (smoothPairs_spec _ _ (selectFrom_sorted _ _ _) _).1
    intro o ho
    rw [fillType_length, fillType_length]
    exact ordinals_lt c o ho
  · exact only_refl _

theorem rotate_perm {c c' : Curve R nv} (h : rotate c = some c') : c'.pts.Perm c.pts := by
  unfold rotate at h
  split at h
  · cases h; exact .refl _
  · split at h
    · split at h
      · cases h; exact .refl _
      · simp only at h
        split at h
        · cases h
          rename_i f _ _ _ _ _
          have := List.perm_append_comm (l₁ := c.pts.drop (c.pts.takeWhile (fun p => decide (f.type = p.type))).length)
            (l₂ := c.pts.take (c.pts.takeWhile (fun p => decide (f.type = p.type))).length)
          rw [List.take_append_drop] at this
          exact this
        · cases h; exact .refl _
    · cases h

theorem reorder_perm (c : Curve R nv) : (reorder c).pts.Perm c.pts := by
  unfold reorder
  split
  · exact .refl _
  · split
    · split
      · exact List.reverse_perm _
      · exact .refl _
    · exact .refl _

theorem derive_tags (c : Curve R nv) : (deriveVelocity c).pts.map (fun p => p.tag) = c.pts.map (fun p => p.tag) := by
  unfold deriveVelocity
  split
  · rfl
  · apply List.ext_getElem?
    intro i
    simp only [List.getElem?_map, List.getElem?_mapIdx]
    cases c.pts[i]? <;> rfl

theorem discardInterval_pts (e : Env R) (st : Stats R nv) (c : Curve R nv) :
    (discardInterval e st c).pts = c.pts.filter (fun p => p.ordinal) := by
  unfold discardInterval discard
  rw [(updateStats_pts _ _).1]
  simp

theorem discardInterval_tags (e : Env R) (st : Stats R nv) (c : Curve R nv) :
    ((discardInterval e st c).pts.map (fun p => p.tag)).Sublist (c.pts.map (fun p => p.tag)) := by
  rw [discardInterval_pts]
  exact (List.filter_sublist).map _

theorem splitPts_flatten (c : Curve R nv) : (splitPts c).flatten = kept none c.pts :=
  (splitLoop_spec c.pts [] 0 (by simp) (fun _ => rfl)).1

theorem addLabel_tags (s : CurveSet R nv) (c : Curve R nv) (l : Int) :
    (tags (addLabel s c l)).Perm (c.pts.map (fun p => p.tag) ++ tags s) := by
  have := tags_perm (mmInsert_perm l (relabel c l) s)
  refine this.trans ?_
  simp only [tags, List.flatMap_cons, relabel, List.map_map]
  exact .refl _

theorem addPieces_spec : ∀ (pieces : List (Curve R nv)) (s : CurveSet R nv), (∀ c ∈ pieces, c.pts ≠ []) →
    ∃ s', addPieces pieces s = some s' ∧
      (tags s').Perm (pieces.flatMap (fun c => c.pts.map (fun p => p.tag)) ++ tags s) ∧
      ∀ kv ∈ s', kv ∈ s ∨ ∃ c ∈ pieces, kv = (kv.1, relabel c kv.1) := by
  intro pieces
  induction pieces with
  | nil => intro s _; exact ⟨s, rfl, by simp, fun kv h => Or.inl h⟩
  | cons c pieces ih =>
    intro s h
    simp only [addPieces]
    cases hc : c.pts with
    | nil => exact absurd hc (h c (by simp))
    | cons p ps =>
      simp only
      obtain ⟨s', e, h1, h2⟩ := ih (addLabel s c p.id) (fun c' hc' => h c' (List.mem_cons_of_mem _ hc'))
      refine ⟨s', e, ?_, ?_⟩
      · refine h1.trans ?_
        rw [List.flatMap_cons]
        try rw [← hc]
        refine (List.Perm.append_left _ (addLabel_tags s c p.id)).trans ?_
        rw [← List.append_assoc]
        exact (List.perm_append_comm).append_right _
      · intro kv hkv
        rcases h2 kv hkv with h2 | ⟨c', hc', e'⟩
        · rcases (mem_mmInsert _ _ _ _).1 h2 with h2 | h2
          · right; exact ⟨c, by simp, by rw [h2]⟩
          · exact Or.inl h2
        · right; exact ⟨c', List.mem_cons_of_mem _ hc', e'⟩

theorem split_pts_ne (e : Env R) (fresh c : Curve R nv) : ∀ p ∈ split e fresh c, p.pts ≠ [] := by
  intro p hp
  obtain ⟨ps, hps, rfl⟩ := List.mem_map.1 hp
  rw [(updateStats_pts _ _).1]
  exact ((splitLoop_spec c.pts [] 0 (by simp) (fun _ => rfl)).2 ps hps).1

theorem split_tags (e : Env R) (fresh c : Curve R nv) :
    ((split e fresh c).flatMap (fun c => c.pts.map (fun p => p.tag))).Sublist (c.pts.map (fun p => p.tag)) := by
  unfold split
  rw [List.flatMap_map]
  have : (fun ps => (updateStats e { fresh with pts := ps, loop := false, complete := false }).pts.map (fun p => p.tag)) =
      fun ps : List (Point R nv) => ps.map (fun p => p.tag) := by
    funext ps; rw [(updateStats_pts _ _).1]
  rw [this]
  have e2 : (splitPts c).flatMap (fun ps => ps.map (fun p => p.tag)) = ((splitPts c).flatten).map (fun p => p.tag) := by
    rw [List.flatMap_def, List.map_flatten]
  rw [e2, splitPts_flatten]
  exact (kept_sublist _ _).map _

end Verif.Curve
