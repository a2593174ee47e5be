import Verif.UTrk.Spec
import Verif.XMesh.Props
import Verif.Tracker.Restrict
/-! The scans of the unstructured tracker. -/
namespace Verif.UTrk
open Verif.Ser (lookup mapPut Sorted)
open Verif.Trk (Snap CP Traj Op scale)
open Verif.XM (below time Base Dec shift)
open Verif.SRM (Scope)
variable {γ : Type} {n0 : Nat} {ts : List UM.Tri} {m : UM.M2}

/-- the triangles of one time, decoded -/
structure Facet (n0 : Nat) (m : UM.M2) (t : Nat) (e v0 v1 v2 : Int) (o : Bool) : Prop where
  get : XM.getSimplex m 2 e = some (e, [v0, v1, v2])
  nonneg : 0 ≤ v0
  lt1 : v0 < v1
  lt2 : v1 < v2
  first : time n0 v0 = t
  times : ∀ v ∈ [v0, v1, v2], time n0 v = t ∨ time n0 v = t + 1
  flat : ∀ v ∈ [v0, v1, v2], XM.flatTime m v = some (time n0 v) ∧ XM.flatId m v = some (below n0 v) ∧
    0 ≤ below n0 v ∧ below n0 v < n0
  ord : XM.isOrdinal m 2 e = some o
  same : o = true ↔ e ∈ XM.ordinalIds m 2 t
  flatT : o = true → ∀ v ∈ [v0, v1, v2], time n0 v = t
  spanT : o = false → ∃ v ∈ [v0, v1, v2], time n0 v = t + 1

theorem flats_of (B : Base n0 ts m) {a : Int} (t : Nat) (h0 : 0 ≤ a) (h1 : a < m.n 0) :
    (XM.flatTime m (a + (t : Int) * m.n 0) = some (time n0 (a + (t : Int) * m.n 0)) ∧
      XM.flatId m (a + (t : Int) * m.n 0) = some (below n0 (a + (t : Int) * m.n 0)) ∧
      0 ≤ below n0 (a + (t : Int) * m.n 0) ∧ below n0 (a + (t : Int) * m.n 0) < n0) ∧
    (XM.flatTime m (a + m.n 0 + (t : Int) * m.n 0) = some (time n0 (a + m.n 0 + (t : Int) * m.n 0)) ∧
      XM.flatId m (a + m.n 0 + (t : Int) * m.n 0) = some (below n0 (a + m.n 0 + (t : Int) * m.n 0)) ∧
      0 ≤ below n0 (a + m.n 0 + (t : Int) * m.n 0) ∧ below n0 (a + m.n 0 + (t : Int) * m.n 0) < n0) := by
  obtain ⟨f1, f2, f3, f4⟩ := XM.flat_at (m := m) (t := (t : Int)) h0 h1 (by omega)
  obtain ⟨g1, g2, g3, g4⟩ := XM.below_at (t := (t : Int)) B.hn0 h0 h1
  have : (m.n 0 : Int) = n0 := by rw [B.hn0]
  rw [f1, f2, f3, f4, g1, g2, g3, g4]
  exact ⟨⟨rfl, rfl, h0, by omega⟩, rfl, rfl, h0, by omega⟩

theorem facet_of (B : Base n0 ts m) (hN : 0 < XM.n m 3) {t : Nat} {e : Int} (h : Own m t e) :
    ∃ v0 v1 v2 o, Facet n0 m t e v0 v1 v2 o := by
  have hN2 : 0 < XM.n m 2 := by simp only [XM.n] at *; omega
  obtain ⟨i, s, us, e1, e2, D, e4⟩ := XM.get_total B (d := 2) (by omega) hN2 e (.inl h.1)
  have hs : s = (t : Int) := by rw [e2, h.2]
  subst hs
  have hr := D.range B
  have hsort := XM.dec_sorted B (t := (t : Int)) D
  have hord : XM.isOrdinal m 2 e = some (decide (i < XM.nOrdinal m 2)) := by
    unfold XM.isOrdinal
    rw [XM.mod_good hN2 (.inl h.1), e1, XM.emod_at hr.1 hr.2]
    rfl
  have hmem : decide (i < XM.nOrdinal m 2) = true ↔ e ∈ XM.ordinalIds m 2 t := by
    rw [XM.ordinalIds_mem, e1, decide_eq_true_eq]
    omega
  have nonneg : ∀ a : Int, 0 ≤ a → 0 ≤ a + (t : Int) * m.n 0 := fun a ha =>
    XM.id_nonneg (by omega) ha (by omega)
  have key : ∀ {a : Int}, 0 ≤ a → a < m.n 0 → _ := fun {a} h0 h1 => XM.below_at (t := (t : Int)) B.hn0 (a := a) h0 h1
  have fl : ∀ {a : Int}, 0 ≤ a → a < m.n 0 → _ := fun {a} h0 h1 => flats_of B (a := a) t h0 h1
  have hn : XM.nOrdinal m 2 = m.n 2 := rfl
  cases D with
  | @t3 j a b hj | @t4 j a b hj =>
    have ok := B.edge_ok hj
    have ka := key (a := a) (by omega) (by omega)
    have kb := key (a := b) (by omega) (by omega)
    have fa := fl (a := a) (by omega) (by omega)
    have fb := fl (a := b) (by omega) (by omega)
    simp only [shift, List.map_cons, List.map_nil, List.pairwise_cons, List.mem_cons, List.not_mem_nil, or_false, forall_eq_or_imp, forall_eq] at hsort e4
    refine ⟨_, _, _, _, e4, nonneg a (by omega), hsort.1.1, hsort.2.1, ka.2.1, ?_, ?_, hord, hmem, ?_, ?_⟩
    · simp [ka, kb]
    · simp [fa, fb]
    · intro ho; simp [hn] at ho; omega
    · intro _; exact ⟨_, .tail _ (.tail _ (.head _)), kb.2.2.2⟩
  | @t0 j a b c hj =>
    have ok := B.tri_ok hj
    have ka := key (a := a) (by omega) (by omega)
    have kb := key (a := b) (by omega) (by omega)
    have kc := key (a := c) (by omega) (by omega)
    have fa := fl (a := a) (by omega) (by omega)
    have fb := fl (a := b) (by omega) (by omega)
    have fc := fl (a := c) (by omega) (by omega)
    simp only [shift, List.map_cons, List.map_nil, List.pairwise_cons, List.mem_cons, List.not_mem_nil, or_false, forall_eq_or_imp, forall_eq] at hsort e4
    refine ⟨_, _, _, _, e4, nonneg a (by omega), hsort.1.1, hsort.2.1, ka.2.1, ?_, ?_, hord, hmem, ?_, ?_⟩
    · simp [ka, kb, kc]
    · simp [fa, fb, fc]
    · intro _; simp [ka, kb, kc]
    · intro ho; simp [hn] at ho; omega
  | @t1 j a b c hj | @t2 j a b c hj =>
    have ok := B.tri_ok hj
    have ka := key (a := a) (by omega) (by omega)
    have kb := key (a := b) (by omega) (by omega)
    have kc := key (a := c) (by omega) (by omega)
    have fa := fl (a := a) (by omega) (by omega)
    have fb := fl (a := b) (by omega) (by omega)
    have fc := fl (a := c) (by omega) (by omega)
    simp only [shift, List.map_cons, List.map_nil, List.pairwise_cons, List.mem_cons, List.not_mem_nil, or_false, forall_eq_or_imp, forall_eq] at hsort e4
    refine ⟨_, _, _, _, e4, nonneg a (by omega), hsort.1.1, hsort.2.1, ka.2.1, ?_, ?_, hord, hmem, ?_, ?_⟩
    · simp [ka, kb, kc]
    · simp [fa, fb, fc]
    · intro ho; simp [hn] at ho; omega
    · intro _; exact ⟨_, .tail _ (.tail _ (.head _)), kc.2.2.2⟩

/-! ### visits -/

/-- the point recorded for `e` -/
def hit (c : Cfg γ) (st : St γ) (e : Int) : Option (CP (Info γ)) :=
  match check c st e with
  | some (some cp) => if c.keep cp then some cp else none
  | _ => none

/-- the entry for `e` written -/
def record (h : Int → Option (CP (Info γ))) (dcp : List (Int × CP (Info γ))) (e : Int) : List (Int × CP (Info γ)) :=
  match h e with
  | some cp => mapPut e cp dcp
  | none => dcp

/-- the state after visiting `es` -/
def after (c : Cfg γ) (st : St γ) (es : List Int) : St γ :=
  { st with calls := st.calls ++ es.map (fun e => (e, st.cur)), dcp := es.foldl (record (hit c st)) st.dcp }

theorem check_congr {c : Cfg γ} {st st' : St γ} (h1 : st.factor = st'.factor) (h2 : st.cur = st'.cur)
    (h3 : st.snaps = st'.snaps) : check c st = check c st' := by
  funext e; unfold check; rw [h1, h2, h3]

theorem hit_congr {c : Cfg γ} {st st' : St γ} (h1 : st.factor = st'.factor) (h2 : st.cur = st'.cur)
    (h3 : st.snaps = st'.snaps) : hit c st = hit c st' := by
  funext e; unfold hit; rw [check_congr h1 h2 h3]

/-- the tag of a point is the id of its triangle, for ids that decode to themselves -/
theorem check_tag {c : Cfg γ} {f : Int} {cur : Nat} {rd : Int → Option (Fin 2 → Option Rat)} {e : Int} {vs : List Int}
    (hg : XM.getSimplex c.m 2 e = some (e, vs)) {cp : CP (Info γ)} (h : checkWith c f cur rd e = some (some cp)) :
    cp.tag = e ∧ cp.timestep = cur := by
  unfold checkWith at h
  split at h
  · rename_i tid v0 v1 v2 o h1 h2
    rw [hg] at h1
    cases h1
    split at h
    · split at h
      · split at h
        · cases h
        · cases h; exact ⟨rfl, rfl⟩
      · cases h
    · cases h
  · cases h

theorem visit_eq (c : Cfg γ) (st : St γ) (e : Int) {vs : List Int} (hg : XM.getSimplex c.m 2 e = some (e, vs)) :
    visit c st e = if (check c st e).isSome then some (after c st [e]) else none := by
  unfold visit after hit record
  cases h : check c st e with
  | none => rfl
  | some o =>
    cases o with
    | none => simp [h]
    | some cp =>
      have ht : cp.tag = e := (check_tag hg h).1
      by_cases hk : c.keep cp <;> simp [h, hk, ht]

theorem after_append (c : Cfg γ) (st : St γ) (es es' : List Int) :
    after c (after c st es) es' = after c st (es ++ es') := by
  have : hit c (after c st es) = hit c st := hit_congr rfl rfl rfl
  unfold after
  unfold after at this
  simp only [this, List.foldl_append, List.map_append, List.append_assoc]

theorem visitAll_spec (c : Cfg γ) : ∀ (es : List Int) (st : St γ), (∀ e ∈ es, ∃ vs, XM.getSimplex c.m 2 e = some (e, vs)) →
    visitAll c es st = if (∀ e ∈ es, (check c st e).isSome) then some (after c st es) else none
  | [], st, _ => by simp [visitAll, after]
  | e :: es, st, hg => by
    have ih := visitAll_spec c es (after c st [e]) fun x hx => hg x (by simp [hx])
    have hc : check c (after c st [e]) = check c st := check_congr rfl rfl rfl
    rw [after_append, hc] at ih
    obtain ⟨vs, hvs⟩ := hg e (by simp)
    simp only [visitAll, visit_eq c st e hvs]
    by_cases h : (check c st e).isSome
    · simp only [h, if_true, ih, List.singleton_append]
      simp [h]
    · simp [h]

theorem foldl_record_sorted (h : Int → Option (CP (Info γ))) : ∀ (es : List Int) (dcp : List (Int × CP (Info γ))), Sorted dcp →
    Sorted (es.foldl (record h) dcp)
  | [], _, hs => hs
  | e :: es, dcp, hs => by
    refine foldl_record_sorted h es _ ?_
    unfold record
    split
    · exact Comm.sorted_mapPut _ _ _ hs
    · exact hs

theorem lookup_foldl_record (h : Int → Option (CP (Info γ))) : ∀ (es : List Int) (dcp : List (Int × CP (Info γ))) (x : Int),
    lookup x (es.foldl (record h) dcp) = if x ∈ es then (h x).or (lookup x dcp) else lookup x dcp
  | [], _, _ => by simp
  | e :: es, dcp, x => by
    rw [List.foldl_cons, lookup_foldl_record h es]
    have hr : lookup x (record h dcp e) = if x = e then (h x).or (lookup x dcp) else lookup x dcp := by
      unfold record
      cases he : h e with
      | none =>
        by_cases hx : x = e
        · subst hx; simp [he]
        · simp [hx]
      | some cp =>
        rw [Comm.lookup_mapPut]
        by_cases hx : x = e
        · subst hx; simp [he]
        · simp [hx]
    rw [hr]
    by_cases hx : x = e
    · subst hx
      by_cases hm : x ∈ es
      · simp only [hm, if_true, List.mem_cons, or_true]
        cases h x <;> simp
      · simp [hm]
    · simp [hx]

/-! ### scans -/

theorem ids_ordinal {ord : Scope → List Int} (ho : Complete m ord) (t : Nat) :
    (idsOf m .ordinal (ord .ordinal) t).Perm (XM.ordinalIds m 2 t) := by
  unfold idsOf XM.ordinalIds
  refine (ho.1.map _).trans (List.Perm.of_eq ?_)
  rw [List.map_map]
  rfl

theorem ids_interval {ord : Scope → List Int} (ho : Complete m ord) (t : Nat) :
    (idsOf m .interval (ord .interval) t).Perm (XM.intervalIds m 2 t) := by
  unfold idsOf XM.intervalIds
  refine (ho.2.map _).trans (List.Perm.of_eq ?_)
  rw [List.map_map]
  rfl

theorem own_iff (hN : 0 < XM.n m 2) (t : Nat) (e : Int) :
    Own m t e ↔ e ∈ XM.ordinalIds m 2 t ++ XM.intervalIds m 2 t := by
  rw [(XM.C51_enumeration (by omega) hN t).2 e]
  unfold Own
  constructor
  · exact fun h => h.2
  · intro h
    refine ⟨?_, h⟩
    have := (Int.le_ediv_iff_mul_le hN).1 (show (0 : Int) ≤ e / XM.n m 2 by omega)
    omega

/-- what `update_timestep` does before growing trajectories -/
theorem scans_spec (B : Base n0 ts m) (hN : 0 < XM.n m 3) {c : Cfg γ} (hm : c.m = m) {ord : Scope → List Int} (ho : Complete m ord)
    (st : St γ) : ∃ es : List Int, es.Nodup ∧
      (∀ e, e ∈ es ↔ Own m st.cur e ∧ (e ∈ XM.ordinalIds m 2 st.cur ∨ 2 ≤ st.snaps.length)) ∧
      scans c ord st = if (∀ e ∈ es, (check c st.rescale e).isSome) then some (after c st.rescale es) else none := by
  have hN2 : 0 < XM.n m 2 := by simp only [XM.n] at *; omega
  obtain ⟨hnd, -⟩ := XM.C51_enumeration (m := m) (d := 2) (by omega) hN2 st.cur
  have hnd' := List.nodup_append.1 hnd
  have hget : ∀ e, Own m st.cur e → ∃ vs, XM.getSimplex c.m 2 e = some (e, vs) := by
    intro e he
    obtain ⟨v0, v1, v2, o, F⟩ := facet_of B hN he
    rw [hm]
    exact ⟨_, F.get⟩
  have p1 := ids_ordinal ho st.cur
  have p2 := ids_interval ho st.cur
  have m1 : ∀ e, e ∈ idsOf m .ordinal (ord .ordinal) st.cur → Own m st.cur e := fun e he =>
    (own_iff hN2 _ _).2 (List.mem_append.2 (.inl (p1.mem_iff.1 he)))
  have m2 : ∀ e, e ∈ idsOf m .interval (ord .interval) st.cur → Own m st.cur e := fun e he =>
    (own_iff hN2 _ _).2 (List.mem_append.2 (.inr (p2.mem_iff.1 he)))
  have s1 := visitAll_spec c (idsOf m .ordinal (ord .ordinal) st.cur) st.rescale fun e he => hget e (m1 e he)
  have hck : ∀ es, check c (after c st.rescale es) = check c st.rescale := fun es => check_congr rfl rfl rfl
  unfold scans
  rw [hm, s1]
  by_cases h2 : 2 ≤ st.snaps.length
  · refine ⟨idsOf m .ordinal (ord .ordinal) st.cur ++ idsOf m .interval (ord .interval) st.cur, ?_, ?_, ?_⟩
    · exact (p1.append p2).nodup_iff.2 hnd
    · intro e
      rw [(p1.append p2).mem_iff, ← own_iff hN2]
      simp [h2]
    · have s2 := visitAll_spec c (idsOf m .interval (ord .interval) st.cur)
        (after c st.rescale (idsOf m .ordinal (ord .ordinal) st.cur)) fun e he => hget e (m2 e he)
      rw [hck, after_append] at s2
      by_cases hh : ∀ e ∈ idsOf m .ordinal (ord .ordinal) st.cur, (check c st.rescale e).isSome
      · rw [if_pos hh]
        have hl : (after c st.rescale (idsOf m .ordinal (ord .ordinal) st.cur)).snaps.length ≥ 2 := h2
        have hcu : (after c st.rescale (idsOf m .ordinal (ord .ordinal) st.cur)).cur = st.cur := rfl
        simp only [hl, if_true, hcu]
        rw [s2]
        by_cases hh2 : ∀ e ∈ idsOf m .interval (ord .interval) st.cur, (check c st.rescale e).isSome
        · rw [if_pos hh2, if_pos (by
            intro e he
            rcases List.mem_append.1 he with h | h
            · exact hh e h
            · exact hh2 e h)]
        · rw [if_neg hh2, if_neg (fun h => hh2 fun e he => h e (by simp [he]))]
      · rw [if_neg hh, if_neg (fun h => hh fun e he => h e (by simp [he]))]
  · refine ⟨idsOf m .ordinal (ord .ordinal) st.cur, p1.nodup_iff.2 hnd'.1, ?_, ?_⟩
    · intro e
      rw [p1.mem_iff]
      constructor
      · intro h; exact ⟨(own_iff hN2 _ _).2 (List.mem_append.2 (.inl h)), .inl h⟩
      · rintro ⟨-, h | h⟩
        · exact h
        · exact absurd h h2
    · by_cases hh : ∀ e ∈ idsOf m .ordinal (ord .ordinal) st.cur, (check c st.rescale e).isSome
      · rw [if_pos hh]
        have hl : ¬ (after c st.rescale (idsOf m .ordinal (ord .ordinal) st.cur)).snaps.length ≥ 2 := h2
        simp only [hl, if_false]
      · rw [if_neg hh]

/-! ### reading -/

theorem readVertex_eq {series snaps : List (Snap 2)} {cur : Nat} (hs : snaps = series.drop cur) {v : Int}
    (ht : XM.flatTime m v = some (time n0 v)) (hi : XM.flatId m v = some (below n0 v))
    (hv : time n0 v = cur ∨ time n0 v = cur + 1) :
    readVertex m snaps cur v = absRead n0 series v := by
  unfold readVertex absRead
  simp only [ht, hi]
  subst hs
  rcases hv with hv | hv
  · rw [hv]
    simp only [if_true, List.getElem?_drop, Nat.add_zero]
    rw [if_neg (by omega)]
    simp only [Int.toNat_natCast]
    cases series[cur]? <;> rfl
  · rw [hv]
    have : ¬ ((cur : Int) + 1 = cur) := by omega
    rw [if_neg this]
    simp only [List.getElem?_drop]
    rw [if_neg (by omega)]
    have : ((cur : Int) + 1).toNat = cur + 1 := by omega
    rw [this]
    cases series[cur + 1]? <;> rfl

theorem all3_congr {β : Type} {f g : Int → Option β} {v0 v1 v2 : Int} (h : ∀ v ∈ [v0, v1, v2], f v = g v) :
    all3 f v0 v1 v2 = all3 g v0 v1 v2 := by
  unfold all3
  rw [h v0 (by simp), h v1 (by simp), h v2 (by simp)]

theorem all3_isSome {β : Type} {f : Int → Option β} {v0 v1 v2 : Int} (h : ∀ v ∈ [v0, v1, v2], (f v).isSome) :
    ∃ x, all3 f v0 v1 v2 = some x := by
  obtain ⟨a, ha⟩ := Option.isSome_iff_exists.1 (h v0 (by simp))
  obtain ⟨b, hb⟩ := Option.isSome_iff_exists.1 (h v1 (by simp))
  obtain ⟨d, hd⟩ := Option.isSome_iff_exists.1 (h v2 (by simp))
  exact ⟨![a, b, d], by simp only [all3, ha, hb, hd]⟩

theorem checkWith_congr {c : Cfg γ} {f : Int} {cur : Nat} {rd rd' : Int → Option (Fin 2 → Option Rat)} {e : Int}
    {v0 v1 v2 : Int} (hg : XM.getSimplex c.m 2 e = some (e, [v0, v1, v2])) (h : ∀ v ∈ [v0, v1, v2], rd v = rd' v) :
    checkWith c f cur rd e = checkWith c f cur rd' e := by
  unfold checkWith
  rw [hg]
  cases XM.isOrdinal c.m 2 e with
  | none => rfl
  | some o =>
    simp only
    rw [all3_congr (f := fun v => (rd v).bind finite2) (g := fun v => (rd' v).bind finite2) fun v hv => by rw [h v hv]]

theorem finite2_isSome {x : Fin 2 → Option Rat} (h : ∀ j, (x j).isSome) : (finite2 x).isSome := by
  obtain ⟨a, ha⟩ := Option.isSome_iff_exists.1 (h 0)
  obtain ⟨b, hb⟩ := Option.isSome_iff_exists.1 (h 1)
  simp [finite2, ha, hb]

theorem coordsOf_some {c : Cfg γ} (hm : c.m = m) {t : Nat} {e v0 v1 v2 : Int} {o : Bool} (F : Facet n0 m t e v0 v1 v2 o) :
    ∀ v ∈ [v0, v1, v2], coordsOf c v = some ![c.coords (below n0 v) 0, c.coords (below n0 v) 1, c.coords (below n0 v) 2, (time n0 v : Rat)] := by
  intro v hv
  obtain ⟨h1, h2, -⟩ := F.flat v hv
  simp only [coordsOf, hm, h1, h2]

theorem checkWith_isSome {c : Cfg γ} (hm : c.m = m) {f : Int} {cur t : Nat} {rd : Int → Option (Fin 2 → Option Rat)}
    {e v0 v1 v2 : Int} {o : Bool} (F : Facet n0 m t e v0 v1 v2 o)
    (h : ∀ v ∈ [v0, v1, v2], ∃ x, rd v = some x ∧ ∀ j, (x j).isSome) :
    (checkWith c f cur rd e).isSome := by
  obtain ⟨V, hV⟩ := all3_isSome (f := fun v => (rd v).bind finite2) (v0 := v0) (v1 := v1) (v2 := v2) (by
    intro v hv
    obtain ⟨x, hx, hj⟩ := h v hv
    simp only [hx, Option.bind_some]
    exact finite2_isSome hj)
  obtain ⟨X, hX⟩ := all3_isSome (f := coordsOf c) (v0 := v0) (v1 := v1) (v2 := v2) (by
    intro v hv
    rw [coordsOf_some hm F v hv]; rfl)
  unfold checkWith
  rw [hm, F.get, F.ord]
  simp only [hV, hX]
  split
  · split <;> rfl
  · rfl

theorem absRead_some {P : List (Snap 2)} (hP : ∀ s ∈ P, Covers n0 s) {v : Int} (h0 : 0 ≤ time n0 v) (h1 : time n0 v < P.length)
    (hb : 0 ≤ below n0 v ∧ below n0 v < n0) : ∃ x, absRead n0 P v = some x ∧ ∀ j, (x j).isSome := by
  have hlt : (time n0 v).toNat < P.length := by omega
  have hc := hP _ (List.getElem_mem hlt)
  have hin : Trk.inDims P[(time n0 v).toNat].dims [below n0 v] = true := by
    rw [hc.dims]
    simp [Trk.inDims, hb]
  refine ⟨P[(time n0 v).toNat].val [below n0 v], ?_, fun j => hc.finite _ hin j⟩
  unfold absRead
  rw [if_neg (by omega), List.getElem?_eq_getElem hlt]
  simp only [Trk.Snap.read, hin, if_true]

end Verif.UTrk
