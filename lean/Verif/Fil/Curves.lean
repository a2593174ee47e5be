import Verif.Curve.Props
/-! C162: `xgc_blob_filament_tracker::post_process_curves`.  Specification: lists, tags and types only. -/
set_option linter.unusedSectionVars false
namespace Verif.Fil
open Verif.Curve
variable {R : Type} {nv : Nat}

/-- the smoothing of types with half window 2 (xgc_blob_filament_tracker.hh:986-1007); statistics are not updated. -/
def smoothCurve (c : Curve R nv) : Curve R nv :=
  if c.pts.length < 2 * 2 + 1 then c
  else { c with pts := (pending c.pts (List.range c.pts.length) 2).foldl (fun ps kv => setType ps kv.1 kv.2) c.pts }

section field
variable [Field R] [LinearOrder R]

/-- `post_process_curves` (xgc_blob_filament_tracker.hh:919-1050): `np` is the number of planes, `vphi` the number of virtual planes
per plane, `poloidal` is `is_poloidal(2, tag % n(2))` as a function of the tag.  Messages are left out. -/
def postCurves (e : Env R) (fresh : Curve R nv) (np vphi : Nat) (poloidal : Nat → Bool) (s : CurveSet R nv) : Option (CurveSet R nv) :=
  match mapCurves (fun c => (unwrap e 2 (np : R) c).map (updateStats e)) s with
  | none => none
  | some s1 =>
    let s2 := s1.map (fun kv => (kv.1, discard e fresh.stats (fun p => !poloidal p.tag) kv.2))
    let s3 := filterSet (fun c => decide (c.pts.length > 0)) s2
    let s4 := if vphi > 1 then filterSet (fun c => decide (c.stats.bbmax 2 - c.stats.bbmin 2 > (vphi : R))) s3 else s3
    let s5 := filterSet (fun c => decide (c.pts.length > 1)) s4
    match mapCurves rotate s5 with
    | none => none
    | some s6 =>
      match splitAll e fresh (s6.map (fun kv => (kv.1, smoothCurve kv.2))) with
      | none => none
      | some s8 => some (filterSet (fun c => decide (c.pts.length > 1)) (filterSet (fun c => decide (c.stats.consistent = 8)) s8))

end field

/-! ### lemmas -/

theorem mapCurves_forall₂ {R : Type} {f : Curve R nv → Option (Curve R nv)} [Field R] [LinearOrder R] :
    ∀ (s s' : CurveSet R nv), mapCurves f s = some s' → List.Forall₂ (fun kv kv' => kv'.1 = kv.1 ∧ f kv.2 = some kv'.2) s s' := by
  intro s
  induction s with
  | nil => intro s' h; simp only [mapCurves, Option.some.injEq] at h; subst h; exact .nil
  | cons kc s ih =>
    obtain ⟨k, c⟩ := kc
    intro s' h
    simp only [mapCurves] at h
    cases h1 : f c with
    | none => rw [h1] at h; simp at h
    | some c' =>
      cases h2 : mapCurves f s with
      | none => rw [h1, h2] at h; simp at h
      | some s2 =>
        rw [h1, h2] at h
        simp only [Option.some.injEq] at h
        subst h
        exact .cons ⟨rfl, h1⟩ (ih s2 h2)

theorem mapCurves_isSome {f : Curve R nv → Option (Curve R nv)} [Field R] [LinearOrder R] :
    ∀ (s : CurveSet R nv), (∀ kv ∈ s, ∃ c, f kv.2 = some c) → ∃ s', mapCurves f s = some s' := by
  intro s
  induction s with
  | nil => intro _; exact ⟨[], rfl⟩
  | cons kc s ih =>
    obtain ⟨k, c⟩ := kc
    intro h
    obtain ⟨c', h1⟩ := h (k, c) (by simp)
    obtain ⟨s', h2⟩ := ih (fun kv hkv => h kv (List.mem_cons_of_mem _ hkv))
    simp only at h1
    exact ⟨(k, c') :: s', by simp only [mapCurves, h1, h2]⟩

theorem forall₂_mem_right {α β : Type} {P : α → β → Prop} {l : List α} {l' : List β} (h : List.Forall₂ P l l') :
    ∀ y ∈ l', ∃ x ∈ l, P x y := by
  induction h with
  | nil => simp
  | cons hh _ ih =>
    intro y hy
    rcases List.mem_cons.1 hy with rfl | hy
    · exact ⟨_, by simp, hh⟩
    · obtain ⟨x, hx, hp⟩ := ih y hy
      exact ⟨x, List.mem_cons_of_mem _ hx, hp⟩

theorem forall₂_mem_left {α β : Type} {P : α → β → Prop} {l : List α} {l' : List β} (h : List.Forall₂ P l l') :
    ∀ x ∈ l, ∃ y ∈ l', P x y := by
  induction h with
  | nil => simp
  | cons hh _ ih =>
    intro y hy
    rcases List.mem_cons.1 hy with rfl | hy
    · exact ⟨_, by simp, hh⟩
    · obtain ⟨x, hx, hp⟩ := ih y hy
      exact ⟨x, List.mem_cons_of_mem _ hx, hp⟩

theorem addPieces_keeps {R : Type} [LinearOrder R] [Sub R] : ∀ (pieces : List (Curve R nv)) (s s' : CurveSet R nv), addPieces pieces s = some s' →
    ∀ kv ∈ s, kv ∈ s' := by
  intro pieces
  induction pieces with
  | nil => intro s s' h kv hkv; cases h; exact hkv
  | cons c pieces ih =>
    intro s s' h kv hkv
    simp only [addPieces] at h
    cases hc : c.pts with
    | nil => rw [hc] at h; cases h
    | cons p ps =>
      rw [hc] at h
      exact ih _ _ h kv ((mem_mmInsert _ _ _ _).2 (Or.inr hkv))

theorem getD_range {n i : Nat} (h : i < n) : (List.range n).getD i 0 = i := by
  rw [List.getD_eq_getElem _ _ (by simpa using h), List.getElem_range]

theorem pending_range_nodup (ps : List (Point R nv)) : ((pending ps (List.range ps.length) 2).map Prod.fst).Nodup := by
  unfold pending
  rw [List.map_map]
  refine List.Nodup.map_on ?_ (List.Nodup.filter _ (List.Nodup.map (fun x y e => by have : 2 + x = 2 + y := e; omega) List.nodup_range))
  intro x hx y hy e
  simp only [List.mem_filter, List.mem_map, List.mem_range, List.length_range] at hx hy
  obtain ⟨⟨a, ha, rfl⟩, _⟩ := hx
  obtain ⟨⟨b, hb, rfl⟩, _⟩ := hy
  simp only [Function.comp] at e
  rw [getD_range (by omega), getD_range (by omega)] at e
  exact e

/-- C162, smoothing.  Only types change.  Point `i` gets the type `T ≠ 0` if the two points before and the two points after it exist
and all have the type `T` before the call; every other point keeps its type. -/
theorem C162_smoothing (c : Curve R nv) :
    List.Forall₂ (fun p q => q = { p with type := q.type }) c.pts (smoothCurve c).pts ∧
    (smoothCurve c).loop = c.loop ∧ (smoothCurve c).stats = c.stats ∧
    (∀ i T, 2 ≤ i → i + 2 < c.pts.length → T ≠ 0 → typeAt c.pts (i - 2) = T → typeAt c.pts (i - 1) = T →
      typeAt c.pts (i + 1) = T → typeAt c.pts (i + 2) = T → typeAt (smoothCurve c).pts i = T) ∧
    (∀ i, i < c.pts.length → typeAt (smoothCurve c).pts i ≠ typeAt c.pts i →
      2 ≤ i ∧ i + 2 < c.pts.length ∧ ∃ T, T ≠ 0 ∧ typeAt (smoothCurve c).pts i = T ∧ typeAt c.pts (i - 2) = T ∧
        typeAt c.pts (i - 1) = T ∧ typeAt c.pts (i + 1) = T ∧ typeAt c.pts (i + 2) = T) := by
  have hnod := pending_range_nodup c.pts
  unfold smoothCurve
  by_cases hs : c.pts.length < 2 * 2 + 1
  · rw [if_pos hs]
    exact ⟨only_refl _, rfl, rfl, fun i T h1 h2 => by omega, fun i _ h => absurd rfl h⟩
  · rw [if_neg hs]
    refine ⟨foldSet_only _ _, rfl, rfl, ?_, ?_⟩
    · intro i T h1 h2 hT w1 w2 w3 w4
      have hwt : windowType c.pts (List.range c.pts.length) 2 i = T := by
        refine (windowType_eq hT (by omega) h1).2 ?_
        intro j j1 j2 j3
        rw [getD_range (by omega)]
        rcases (by omega : j = i - 2 ∨ j = i - 1 ∨ j = i + 1 ∨ j = i + 2) with rfl | rfl | rfl | rfl <;> assumption
      obtain ⟨f1, f2⟩ := foldSet_typeAt (pending c.pts (List.range c.pts.length) 2) c.pts i hnod (by omega)
      by_cases he : typeAt c.pts i = T
      · simp only
        rw [f2, he]
        intro ty hty
        obtain ⟨i', a1, a2, a3, a4, a5, a6⟩ := pending_mem.1 hty
        rw [List.length_range] at a2
        rw [getD_range (by omega)] at a3
        subst a3
        exact a6 (by rw [he, a4, hwt])
      · exact f1 T (pending_mem.2 ⟨i, h1, by rw [List.length_range]; exact h2, (getD_range (by omega)).symm, hwt.symm, hT, he⟩)
    · intro i hi hne
      obtain ⟨f1, f2⟩ := foldSet_typeAt (pending c.pts (List.range c.pts.length) 2) c.pts i hnod hi
      by_cases hex : ∃ ty, (i, ty) ∈ pending c.pts (List.range c.pts.length) 2
      · obtain ⟨ty, hty⟩ := hex
        obtain ⟨i', a1, a2, a3, a4, a5, a6⟩ := pending_mem.1 hty
        rw [List.length_range] at a2
        rw [getD_range (by omega)] at a3
        subst a3
        have hw := (windowType_eq a5 (by omega) a1).1 a4.symm
        refine ⟨a1, a2, ty, a5, f1 ty hty, ?_, ?_, ?_, ?_⟩
        · have := hw (i - 2) (by omega) (by omega) (by omega); rwa [getD_range (by omega)] at this
        · have := hw (i - 1) (by omega) (by omega) (by omega); rwa [getD_range (by omega)] at this
        · have := hw (i + 1) (by omega) (by omega) (by omega); rwa [getD_range (by omega)] at this
        · have := hw (i + 2) (by omega) (by omega) (by omega); rwa [getD_range (by omega)] at this
      · exact absurd (f2 (fun ty hty => hex ⟨ty, hty⟩)) hne

theorem rotate_stats {c c' : Curve R nv} (h : rotate c = some c') : c'.stats = c.stats ∧ c'.loop = c.loop := by
  unfold rotate at h
  split at h
  · cases h; exact ⟨rfl, rfl⟩
  · split at h
    · split at h
      · cases h; exact ⟨rfl, rfl⟩
      · simp only at h
        split at h
        · cases h; exact ⟨rfl, rfl⟩
        · cases h; exact ⟨rfl, rfl⟩
    · cases h

theorem onlyType_tag {l l' : List (Point R nv)} (h : List.Forall₂ (fun p q => q = { p with type := q.type }) l l') :
    l'.map (fun p => p.tag) = l.map (fun p => p.tag) := by
  induction h with
  | nil => rfl
  | cons hh _ ih =>
    rw [List.map_cons, List.map_cons, ih, hh]

theorem rotate_const {c r : Curve R nv} {T : Nat} (hall : ∀ p ∈ c.pts, p.type = T) (hr : rotate c = some r) : r.pts = c.pts := by
  unfold rotate at hr
  split at hr
  · cases hr; rfl
  · split at hr
    · rename_i f _ hf _
      split at hr
      · cases hr; rfl
      · dsimp only at hr
        rw [if_neg] at hr
        · cases hr; rfl
        · have hfm : f.type = T := hall f (List.mem_of_mem_head? hf)
          have : c.pts.takeWhile (fun p => decide (f.type = p.type)) = c.pts := by
            rw [List.takeWhile_eq_self_iff]
            intro p hp
            rw [decide_eq_true_eq, hfm, hall p hp]
          rw [this]; omega
    · cases hr

section field
variable [Field R] [LinearOrder R] [IsStrictOrderedRing R]

/-- the curve after unwrapping and removal of the points off the poloidal planes -/
def prepared (e : Env R) (fresh : Curve R nv) (poloidal : Nat → Bool) (u : Curve R nv) : Curve R nv :=
  discard e fresh.stats (fun p => !poloidal p.tag) (updateStats e u)

theorem prepared_pts (e : Env R) (fresh : Curve R nv) (poloidal : Nat → Bool) (u : Curve R nv) :
    (prepared e fresh poloidal u).pts = u.pts.filter (fun p => poloidal p.tag) := by
  unfold prepared Curve.discard
  rw [(updateStats_pts _ _).1]
  simp only [(updateStats_pts _ _).1, Bool.not_not]

theorem prepared_loop (e : Env R) (fresh : Curve R nv) (poloidal : Nat → Bool) (u : Curve R nv) :
    (prepared e fresh poloidal u).loop = u.loop := by
  unfold prepared Curve.discard
  rw [(updateStats_pts _ _).2.2.1]
  simp only [(updateStats_pts _ _).2.2.1]

theorem prepared_stats (e : Env R) (fresh : Curve R nv) (poloidal : Nat → Bool) (u : Curve R nv) (h : (prepared e fresh poloidal u).pts ≠ []) :
    (prepared e fresh poloidal u).stats.consistent = consistentType (prepared e fresh poloidal u).pts := by
  have h' := h
  rw [prepared_pts] at h
  rw [prepared_pts]
  unfold prepared Curve.discard
  generalize hc : ({ updateStats e u with pts := (updateStats e u).pts.filter (fun p => !!poloidal p.tag), stats := fresh.stats } : Curve R nv) = c
  have hp : c.pts = u.pts.filter (fun p => poloidal p.tag) := by
    rw [← hc]; simp only [(updateStats_pts _ _).1, Bool.not_not]
  rw [← hp] at h ⊢
  unfold updateStats
  rw [if_neg (by rw [List.isEmpty_iff]; exact h)]

theorem unwrap_some {e : Env R} {np : R} {c u : Curve R nv} (h : unwrap e 2 np c = some u) :
    c.pts ≠ [] ∧ u.pts = unwrapLoop 2 np c.pts.length c.pts ∧ u.loop = c.loop := by
  unfold unwrap at h
  split at h
  · cases h
  · rename_i hne
    cases h
    exact ⟨by rw [List.isEmpty_iff] at hne; exact hne, rfl, rfl⟩

theorem postCurves_inv {e : Env R} {fresh : Curve R nv} {np vphi : Nat} {poloidal : Nat → Bool} {s out : CurveSet R nv}
    (h : postCurves e fresh np vphi poloidal s = some out) : ∀ kv ∈ out, ∃ kv0 ∈ s, ∃ u r, unwrap e 2 (np : R) kv0.2 = some u ∧
      1 < (prepared e fresh poloidal u).pts.length ∧
      (1 < vphi → (vphi : R) < (prepared e fresh poloidal u).stats.bbmax 2 - (prepared e fresh poloidal u).stats.bbmin 2) ∧
      rotate (prepared e fresh poloidal u) = some r ∧
      ((kv.2 = smoothCurve r) ∨ ∃ piece ∈ split e fresh (smoothCurve r), kv.2 = relabel piece kv.1) ∧
      kv.2.stats.consistent = 8 ∧ 1 < kv.2.pts.length := by
  unfold postCurves at h
  split at h
  · cases h
  rename_i s1 h1
  have f1 := mapCurves_forall₂ _ _ h1
  dsimp only at h
  split at h
  · cases h
  rename_i s6 h6
  have f6 := mapCurves_forall₂ _ _ h6
  split at h
  · cases h
  rename_i s8 h8
  cases h
  intro kv hkv
  obtain ⟨hkv, hl⟩ := List.mem_filter.1 hkv
  obtain ⟨hkv, hcon⟩ := List.mem_filter.1 hkv
  rw [decide_eq_true_eq] at hl hcon
  have key : ∀ kv7 ∈ s6.map (fun kv : Int × Curve R nv => (kv.1, smoothCurve kv.2)), ∃ kv0 ∈ s, ∃ u r, unwrap e 2 (np : R) kv0.2 = some u ∧
      1 < (prepared e fresh poloidal u).pts.length ∧
      (1 < vphi → (vphi : R) < (prepared e fresh poloidal u).stats.bbmax 2 - (prepared e fresh poloidal u).stats.bbmin 2) ∧
      rotate (prepared e fresh poloidal u) = some r ∧ kv7.2 = smoothCurve r := by
    intro kv7 hkv7
    obtain ⟨kv6, hkv6, rfl⟩ := List.mem_map.1 hkv7
    obtain ⟨kv5, hkv5, _, hr⟩ := forall₂_mem_right f6 kv6 hkv6
    obtain ⟨hkv4, hl5⟩ := List.mem_filter.1 hkv5
    rw [decide_eq_true_eq] at hl5
    have hkv3 : kv5 ∈ filterSet (fun c => decide (c.pts.length > 0))
        (s1.map (fun kv => (kv.1, discard e fresh.stats (fun p => !poloidal p.tag) kv.2))) ∧
        (1 < vphi → (vphi : R) < kv5.2.stats.bbmax 2 - kv5.2.stats.bbmin 2) := by
      by_cases hv : vphi > 1
      · rw [if_pos hv] at hkv4
        obtain ⟨a, b⟩ := List.mem_filter.1 hkv4
        rw [decide_eq_true_eq] at b
        exact ⟨a, fun _ => b⟩
      · rw [if_neg hv] at hkv4
        exact ⟨hkv4, fun h => absurd h hv⟩
    obtain ⟨hkv2, _⟩ := List.mem_filter.1 hkv3.1
    obtain ⟨kv1, hkv1, rfl⟩ := List.mem_map.1 hkv2
    obtain ⟨kv0, hkv0, _, hu⟩ := forall₂_mem_right f1 kv1 hkv1
    obtain ⟨u, hu, hu'⟩ := Option.map_eq_some_iff.1 hu
    refine ⟨kv0, hkv0, u, kv6.2, hu, ?_⟩
    unfold prepared
    rw [hu']
    exact ⟨hl5, hkv3.2, hr, rfl⟩
  simp only [splitAll] at h8
  obtain ⟨s2, e2, _, m2⟩ := addPieces_spec
    (((s6.map (fun kv : Int × Curve R nv => (kv.1, smoothCurve kv.2))).filter (fun kv : Int × Curve R nv => decide (kv.2.stats.consistent = 0))).flatMap
      (fun kv : Int × Curve R nv => split e fresh kv.2))
    ((s6.map (fun kv : Int × Curve R nv => (kv.1, smoothCurve kv.2))).filter (fun kv : Int × Curve R nv => decide (kv.2.stats.consistent ≠ 0))) (by
      intro c hc
      obtain ⟨kv, _, hkv⟩ := List.mem_flatMap.1 hc
      exact split_pts_ne e fresh kv.2 c hkv)
  rw [e2] at h8
  cases h8
  rcases m2 kv hkv with hk | ⟨c, hc, ec⟩
  · obtain ⟨kv0, h0, u, r, a1, a2, a3, a4, a5⟩ := key kv (List.mem_filter.1 hk).1
    exact ⟨kv0, h0, u, r, a1, a2, a3, a4, Or.inl a5, hcon, hl⟩
  · obtain ⟨kv7, hkv7, hs⟩ := List.mem_flatMap.1 hc
    obtain ⟨kv0, h0, u, r, a1, a2, a3, a4, a5⟩ := key kv7 (List.mem_filter.1 hkv7).1
    refine ⟨kv0, h0, u, r, a1, a2, a3, a4, Or.inr ⟨c, by rw [← a5]; exact hs, ?_⟩, hcon, hl⟩
    rw [ec]

theorem rotate_tags {c r : Curve R nv} (h : rotate c = some r) : ∃ a b, c.pts = a ++ b ∧ r.pts = b ++ a := by
  by_cases hne : c.pts = []
  · have := (rotate_perm h)
    rw [hne] at this
    exact ⟨[], [], by simpa using hne, by simpa using this.eq_nil⟩
  · obtain ⟨r', h1, h2, _⟩ := (C26_rotate c).2.1 hne
    rw [h1] at h
    cases h
    exact h2

theorem unwrap_tags {poloidal : Nat → Bool} {np : R} (hp : 0 < np) {e : Env R} {c u : Curve R nv} (h : unwrap e 2 np c = some u) :
    (u.pts.filter (fun p => poloidal p.tag)).map (fun p => (p.tag, p.type)) = (c.pts.filter (fun p => poloidal p.tag)).map (fun p => (p.tag, p.type)) := by
  obtain ⟨_, h2, _⟩ := unwrap_some h
  have := (unwrapLoop_spec 2 np hp c.pts.length c.pts (Nat.le_refl _)).1
  rw [← h2] at this
  generalize u.pts = l' at this
  generalize c.pts = l at this
  clear h2 h
  induction this with
  | nil => rfl
  | cons hh _ ih =>
    obtain ⟨m, rfl⟩ := hh
    simp only [List.filter_cons, shiftX]
    split
    · rw [List.map_cons, List.map_cons, ih]
    · exact ih

theorem out_types {e : Env R} {fresh r : Curve R nv} {kv : Int × Curve R nv}
    (hcon0 : r.pts ≠ [] → r.stats.consistent = 8 → ∀ p ∈ r.pts, p.type = 8)
    (h : (kv.2 = smoothCurve r) ∨ ∃ piece ∈ split e fresh (smoothCurve r), kv.2 = relabel piece kv.1)
    (h8 : kv.2.stats.consistent = 8) (hl : 1 < kv.2.pts.length) : ∀ p ∈ kv.2.pts, p.type = 8 := by
  obtain ⟨s1, s2, s3, s4, s5⟩ := C162_smoothing r
  rcases h with h | ⟨c, hc, h⟩
  · rw [h] at h8 hl ⊢
    rw [s3] at h8
    have hlen : (smoothCurve r).pts.length = r.pts.length := s1.length_eq.symm
    have hr : r.pts ≠ [] := by intro e; rw [hlen, e] at hl; simp at hl
    have hall := hcon0 hr h8
    have hty : ∀ i, i < r.pts.length → typeAt r.pts i = 8 := by
      intro i hi
      simp only [typeAt, List.getElem?_eq_getElem hi]
      exact hall _ (List.getElem_mem _)
    intro p hp
    obtain ⟨i, hi, rfl⟩ := List.getElem_of_mem hp
    have hti : typeAt (smoothCurve r).pts i = ((smoothCurve r).pts[i]).type := by
      simp only [typeAt, List.getElem?_eq_getElem hi]
    rw [← hti]
    by_cases hn : typeAt (smoothCurve r).pts i = typeAt r.pts i
    · rw [hn]; exact hty i (by omega)
    · obtain ⟨q1, q2, T, _, q3, q4, _⟩ := s5 i (by omega) hn
      rw [q3, ← q4]; exact hty _ (by omega)
  · obtain ⟨ps, hps, rfl⟩ := List.mem_map.1 hc
    have hne := ((splitLoop_spec (smoothCurve r).pts [] 0 (by simp) (fun _ => rfl)).2 ps hps).1
    rw [h] at h8 ⊢
    have hcs : consistentType ps = 8 := by
      have : (relabel (updateStats e { fresh with pts := ps, loop := false, complete := false }) kv.1).stats.consistent = consistentType ps := by
        simp only [relabel, updateStats]
        rw [if_neg (by rw [List.isEmpty_iff]; exact hne)]
      rw [← this]; exact h8
    have := (consistentType_spec hne 8 (by decide)).1 hcs
    intro p hp
    simp only [relabel, (updateStats_pts _ _).1, List.mem_map] at hp
    obtain ⟨q, hq, rfl⟩ := hp
    exact this q hq

theorem map_fst {l l' : List (Point R nv)} (h : l.map (fun p => (p.tag, p.type)) = l'.map (fun p => (p.tag, p.type))) :
    l.map (fun p => p.tag) = l'.map (fun p => p.tag) := by
  have := congrArg (List.map Prod.fst) h
  simpa only [List.map_map, Function.comp_def] using this

theorem all_type {l l' : List (Point R nv)} (h : l.map (fun p => (p.tag, p.type)) = l'.map (fun p => (p.tag, p.type))) {T : Nat}
    (ht : ∀ p ∈ l', p.type = T) : ∀ p ∈ l, p.type = T := by
  intro p hp
  have : (p.tag, p.type) ∈ l'.map (fun p => (p.tag, p.type)) := by rw [← h]; exact List.mem_map_of_mem hp
  obtain ⟨q, hq, e⟩ := List.mem_map.1 this
  rw [← (Prod.mk.inj e).2]; exact ht q hq

/-- C162.  For curves that are not empty the post-processing is defined.  Every resulting curve has at least two points, all of them
maxima (type 8); its points come, in order, from a rotation of the points on poloidal planes of one input curve. -/
theorem C162_result (e : Env R) (fresh : Curve R nv) (np vphi : Nat) (hnp : 0 < np) (poloidal : Nat → Bool) (s : CurveSet R nv)
    (hs : ∀ kv ∈ s, kv.2.pts ≠ []) :
    ∃ out, postCurves e fresh np vphi poloidal s = some out ∧
      ∀ kv ∈ out, 2 ≤ kv.2.pts.length ∧ (∀ p ∈ kv.2.pts, p.type = 8) ∧
        ∃ kv0 ∈ s, ∃ a b, (kv0.2.pts.map (fun p => p.tag)).filter poloidal = a ++ b ∧ (kv.2.pts.map (fun p => p.tag)).Sublist (b ++ a) ∧
          (kv0.2.loop = false → a = []) := by
  have hnp' : (0 : R) < (np : R) := by exact_mod_cast hnp
  have hdef : ∃ out, postCurves e fresh np vphi poloidal s = some out := by
    unfold postCurves
    obtain ⟨s1, h1⟩ := mapCurves_isSome (f := fun c => (unwrap e 2 (np : R) c).map (updateStats e)) s (by
      intro kv hkv
      obtain ⟨r, hr, _⟩ := (C65_unwrap e 2 (np : R) hnp' kv.2).2 (hs kv hkv)
      exact ⟨updateStats e r, by rw [hr]; rfl⟩)
    rw [h1]
    dsimp only
    generalize (if vphi > 1 then _ else _ : CurveSet R nv) = s4
    obtain ⟨s6, h6⟩ := mapCurves_isSome (f := rotate) (filterSet (fun c => decide (c.pts.length > 1)) s4) (by
      intro kv hkv
      have hl := (List.mem_filter.1 hkv).2
      rw [decide_eq_true_eq] at hl
      obtain ⟨r, hr, _⟩ := (C26_rotate kv.2).2.1 (by intro e; rw [e] at hl; simp at hl)
      exact ⟨r, hr⟩)
    rw [h6]
    dsimp only
    obtain ⟨s8, h8, _⟩ := addPieces_spec
      (((s6.map (fun kv : Int × Curve R nv => (kv.1, smoothCurve kv.2))).filter (fun kv : Int × Curve R nv => decide (kv.2.stats.consistent = 0))).flatMap
        (fun kv : Int × Curve R nv => split e fresh kv.2))
      ((s6.map (fun kv : Int × Curve R nv => (kv.1, smoothCurve kv.2))).filter (fun kv : Int × Curve R nv => decide (kv.2.stats.consistent ≠ 0))) (by
        intro c hc
        obtain ⟨kv, _, hkv⟩ := List.mem_flatMap.1 hc
        exact split_pts_ne e fresh kv.2 c hkv)
    have : splitAll e fresh (s6.map (fun kv : Int × Curve R nv => (kv.1, smoothCurve kv.2))) = some s8 := h8
    rw [this]
    exact ⟨_, rfl⟩
  obtain ⟨out, hout⟩ := hdef
  refine ⟨out, hout, ?_⟩
  intro kv hkv
  obtain ⟨kv0, h0, u, r, hu, hl, _, hr, hcase, h8, hlen⟩ := postCurves_inv hout kv hkv
  have hdne : (prepared e fresh poloidal u).pts ≠ [] := by intro e; rw [e] at hl; simp at hl
  have hdc := prepared_stats e fresh poloidal u hdne
  obtain ⟨a, b, hab, hba⟩ := rotate_tags hr
  refine ⟨hlen, out_types ?_ hcase h8 hlen, kv0, h0, ?_⟩
  · intro _ hc p hp
    rw [(rotate_stats hr).1, hdc] at hc
    have := (consistentType_spec hdne 8 (by decide)).1 hc
    exact this p ((rotate_perm hr).mem_iff.1 hp)
  · have htags : (kv0.2.pts.map (fun p => p.tag)).filter poloidal = (prepared e fresh poloidal u).pts.map (fun p => p.tag) := by
      rw [prepared_pts, map_fst (unwrap_tags hnp' hu), List.filter_map]
      rfl
    have hsub : (kv.2.pts.map (fun p => p.tag)).Sublist (r.pts.map (fun p => p.tag)) := by
      rw [← onlyType_tag (C162_smoothing r).1]
      rcases hcase with hc | ⟨c, hc, h⟩
      · rw [hc]
      · rw [h]
        have h1 : (relabel c kv.1).pts.map (fun p => p.tag) = c.pts.map (fun p => p.tag) := by
          simp only [relabel, List.map_map]; rfl
        rw [h1]
        refine List.Sublist.trans ?_ (split_tags e fresh (smoothCurve r))
        exact List.sublist_flatten_of_mem (List.mem_map_of_mem hc)
    by_cases hloop : kv0.2.loop = false
    · have hr' := (C26_rotate (prepared e fresh poloidal u)).1 (by rw [prepared_loop, (unwrap_some hu).2.2, hloop])
      rw [hr] at hr'
      obtain rfl := Option.some.inj hr'
      exact ⟨[], _, htags, by simpa using hsub, fun _ => rfl⟩
    · refine ⟨a.map (fun p => p.tag), b.map (fun p => p.tag), ?_, ?_, fun h => absurd h hloop⟩
      · rw [htags, hab, List.map_append]
      · rw [← List.map_append, ← hba]; exact hsub

/-- C162, virtual planes.  With more than one virtual plane per plane a resulting curve stems from a curve whose points on poloidal
planes, after moving each by whole turns, extend over more than the `vphi` virtual planes between two planes (coordinates within the
limits of the number type). -/
theorem C162_extent (e : Env R) (fresh : Curve R nv) (np vphi : Nat) (hnp : 0 < np) (hv : 1 < vphi) (poloidal : Nat → Bool) (s out : CurveSet R nv)
    (h : postCurves e fresh np vphi poloidal s = some out)
    (hlim : ∀ kv ∈ s, ∀ u, unwrap e 2 (np : R) kv.2 = some u → ∀ p ∈ u.pts, (∀ k, e.lo ≤ p.scalar k ∧ p.scalar k ≤ e.hi) ∧
      (∀ k, e.lo ≤ p.x k ∧ p.x k ≤ e.hi) ∧ (e.lo ≤ p.t ∧ p.t ≤ e.hi) ∧ (e.lo ≤ e.vmag p.v ∧ e.vmag p.v ≤ e.hi)) :
    ∀ kv ∈ out, ∃ kv0 ∈ s, ∃ p ∈ kv0.2.pts, ∃ q ∈ kv0.2.pts, poloidal p.tag = true ∧ poloidal q.tag = true ∧
      ∃ m : Int, (vphi : R) < (q.x 2 + m * np) - p.x 2 := by
  have hnp' : (0 : R) < (np : R) := by exact_mod_cast hnp
  intro kv hkv
  obtain ⟨kv0, h0, u, r, hu, hl, hext, _⟩ := postCurves_inv h kv hkv
  have hext := hext hv
  have hdne : (prepared e fresh poloidal u).pts ≠ [] := by intro e; rw [e] at hl; simp at hl
  have hpts := prepared_pts e fresh poloidal u
  generalize hd : (⟨(updateStats e u).pts.filter (fun p => !!poloidal p.tag), (updateStats e u).id, (updateStats e u).complete, (updateStats e u).loop, fresh.stats⟩ : Curve R nv) = d
  have hpd : prepared e fresh poloidal u = updateStats e d := by rw [← hd]; rfl
  have hdp : d.pts = u.pts.filter (fun p => poloidal p.tag) := by
    rw [← hpts, hpd, (updateStats_pts _ _).1]
  have hst := (C27_statistics e d (by rw [hdp, ← hpts]; exact hdne) (fun p hp => hlim kv0 h0 u hu p (by rw [hdp] at hp; exact (List.mem_filter.1 hp).1))).2.1 2
  rw [← hpd] at hst
  obtain ⟨_, ⟨p, hp, ep⟩, ⟨q, hq, eq⟩⟩ := hst
  rw [hdp, List.mem_filter] at hp hq
  have hf := (unwrapLoop_spec 2 (np : R) hnp' kv0.2.pts.length kv0.2.pts (Nat.le_refl _)).1
  rw [← (unwrap_some hu).2.1] at hf
  obtain ⟨p0, hp0, mp, rfl⟩ := forall₂_mem_right hf p hp.1
  obtain ⟨q0, hq0, mq, rfl⟩ := forall₂_mem_right hf q hq.1
  rw [ep, eq, shiftX_same, shiftX_same] at hext
  refine ⟨kv0, h0, p0, hp0, q0, hq0, hp.2, hq.2, mq - mp, ?_⟩
  push_cast
  have : q0.x 2 + ((mq : R) - mp) * np - p0.x 2 = q0.x 2 + mq * np - (p0.x 2 + mp * np) := by ring
  rw [this]; exact hext

/-- C162, nothing else is lost: without virtual planes, a curve with at least two points on poloidal planes, all of which are maxima,
survives with exactly these points. -/
theorem C162_keeps_partial (e : Env R) (fresh : Curve R nv) (np vphi : Nat) (hnp : 0 < np) (hv : vphi ≤ 1) (poloidal : Nat → Bool) (s out : CurveSet R nv)
    (h : postCurves e fresh np vphi poloidal s = some out) (kv : Int × Curve R nv) (hkv : kv ∈ s)
    (h2 : 2 ≤ (kv.2.pts.filter (fun p => poloidal p.tag)).length) (h8 : ∀ p ∈ kv.2.pts, poloidal p.tag = true → p.type = 8) :
    ∃ kv' ∈ out, kv'.1 = kv.1 ∧ kv'.2.pts.map (fun p => p.tag) = (kv.2.pts.map (fun p => p.tag)).filter poloidal := by
  have hnp' : (0 : R) < (np : R) := by exact_mod_cast hnp
  unfold postCurves at h
  split at h
  · cases h
  rename_i s1 h1
  have f1 := mapCurves_forall₂ _ _ h1
  dsimp only at h
  rw [if_neg (by omega)] at h
  split at h
  · cases h
  rename_i s6 h6
  have f6 := mapCurves_forall₂ _ _ h6
  split at h
  · cases h
  rename_i s8 hs8
  cases h
  obtain ⟨kv1, hkv1, k1, hu⟩ := forall₂_mem_left f1 kv hkv
  obtain ⟨u, hu, hu'⟩ := Option.map_eq_some_iff.1 hu
  have htt := unwrap_tags (poloidal := poloidal) hnp' hu
  have hpts := prepared_pts e fresh poloidal u
  have htags : (prepared e fresh poloidal u).pts.map (fun p => p.tag) = (kv.2.pts.map (fun p => p.tag)).filter poloidal := by
    rw [hpts, map_fst htt, List.filter_map]; rfl
  have hlen : 2 ≤ (prepared e fresh poloidal u).pts.length := by
    have := congrArg List.length htt
    rw [List.length_map, List.length_map] at this
    rw [hpts, this]; exact h2
  have hdne : (prepared e fresh poloidal u).pts ≠ [] := by intro e; rw [e] at hlen; simp at hlen
  have hall : ∀ p ∈ (prepared e fresh poloidal u).pts, p.type = 8 := by
    rw [hpts]
    exact all_type htt (fun p hp => h8 p (List.mem_filter.1 hp).1 (List.mem_filter.1 hp).2)
  have hcon : (prepared e fresh poloidal u).stats.consistent = 8 := by
    rw [prepared_stats e fresh poloidal u hdne]
    exact (consistentType_spec hdne 8 (by decide)).2 hall
  have hkv5 : ((kv.1, prepared e fresh poloidal u) : Int × Curve R nv) ∈ filterSet (fun c => decide (c.pts.length > 1))
      (filterSet (fun c => decide (c.pts.length > 0)) (s1.map (fun kv => (kv.1, Curve.discard e fresh.stats (fun p => !poloidal p.tag) kv.2)))) := by
    refine List.mem_filter.2 ⟨List.mem_filter.2 ⟨List.mem_map.2 ⟨kv1, hkv1, ?_⟩, ?_⟩, ?_⟩
    · rw [k1, ← hu']; rfl
    · rw [decide_eq_true_eq]; show _ > 0; dsimp only; omega
    · rw [decide_eq_true_eq]; dsimp only; omega
  obtain ⟨kv6, hkv6, k6, hr⟩ := forall₂_mem_left f6 _ hkv5
  dsimp only at hr k6
  have hrot : kv6.2.pts = (prepared e fresh poloidal u).pts := by
    exact rotate_const hall hr
  have hsm := C162_smoothing kv6.2
  have hpt : (smoothCurve kv6.2).pts.map (fun p => p.tag) = (kv.2.pts.map (fun p => p.tag)).filter poloidal := by
    rw [onlyType_tag hsm.1, hrot, htags]
  have hk8 : ((kv6.1, smoothCurve kv6.2) : Int × Curve R nv) ∈ s8 := by
    refine addPieces_keeps _ _ _ hs8 _ (List.mem_filter.2 ⟨List.mem_map_of_mem hkv6, ?_⟩)
    rw [decide_eq_true_eq]; dsimp only
    rw [hsm.2.2.1, (rotate_stats hr).1, hcon]; decide
  refine ⟨(kv6.1, smoothCurve kv6.2), List.mem_filter.2 ⟨List.mem_filter.2 ⟨hk8, ?_⟩, ?_⟩, k6, hpt⟩
  · rw [decide_eq_true_eq]; dsimp only
    rw [hsm.2.2.1, (rotate_stats hr).1, hcon]
  · rw [decide_eq_true_eq]; dsimp only
    rw [← hsm.1.length_eq, hrot]; omega

end field

/-! ### examples -/

/-- a point at angle `x` with a type and a tag -/
def pt (x : Rat) (ty tag : Nat) : Point Rat 0 :=
  { x := fun k => if k = 2 then x else 0, t := 0, timestep := 0, scalar := fun _ => 0, v := fun _ => 0, type := ty, ordinal := true, tag := tag, id := 0 }
/-- a curve -/
def cv (loop : Bool) (l : List (Point Rat 0)) : Curve Rat 0 :=
  { pts := l, id := 7, complete := false, loop := loop
    stats := { max := fun _ => 0, min := fun _ => 0, persistence := fun _ => 0, bbmin := fun _ => 0, bbmax := fun _ => 0
               tmin := 0, tmax := 0, vmmin := 0, vmmax := 0, consistent := 0 } }
/-- limits -/
def env : Env Rat := { lo := -1000, hi := 1000, vmag := fun v => v 0 }
/-- the tags of the results for one curve; even tags are on poloidal planes -/
def runOne (np vphi : Nat) (c : Curve Rat 0) : Option (List (List Nat)) :=
  (postCurves env (cv false []) np vphi (fun t => t % 2 == 0) [(0, c)]).map (fun s => s.map (fun kv => kv.2.pts.map (fun p => p.tag)))

/-- a filament around the torus keeps its points on planes; a loop of two types is rotated and cut -/
example : runOne 4 1 (cv false [pt 0 8 0, pt (1/2) 2 1, pt 1 8 2, pt 2 8 4, pt 3 8 6]) = some [[0, 2, 4, 6]] ∧
    runOne 4 1 (cv true [pt 0 8 0, pt 1 2 2, pt 2 2 4, pt 3 8 6, pt 3 8 8, pt 3 8 10]) = some [[8, 10, 0]] := by decide +kernel

/-- with virtual planes a curve that extends over more than the virtual planes is kept, a shorter one is not -/
example : runOne 4 2 (cv false [pt 0 8 0, pt 1 8 2, pt 2 8 4, pt 1 8 6]) = some [] ∧
    runOne 4 2 (cv false [pt 0 8 0, pt 1 8 2, pt 2 8 4, pt 3 8 6]) = some [[0, 2, 4, 6]] := by decide +kernel

/-- C162, a part that fails: two neighbouring maxima that follow a point of another type are lost (`split` drops the point at which
the type changes, and the single remaining point is removed), while two maxima before it are kept. -/
theorem C162_short_run_lost :
    runOne 4 1 (cv false [pt 0 2 0, pt 1 2 2, pt 2 8 4, pt 3 8 6]) = some [] ∧
    runOne 4 1 (cv false [pt 0 8 0, pt 1 8 2, pt 2 2 4, pt 3 2 6]) = some [[0, 2]] := by decide +kernel

end Verif.Fil
