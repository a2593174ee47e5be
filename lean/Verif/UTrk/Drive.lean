import Verif.UTrk.Nbs
/-! The time loop of the unstructured tracker: invariant of push / advance. -/
namespace Verif.UTrk
open Verif.Ser (lookup mapPut Sorted)
open Verif.Trk (Snap CP Traj Op scale ResInv minRes deg deg_mono Chained)
open Verif.XM (below time Base)
open Verif.SRM (Scope)
open Verif.UM (IsOrder Valid build)
variable {γ : Type} {n0 : Nat} {ts : List UM.Tri} {m : UM.M2}

/-- the mesh is built from a valid list of triangles, not empty -/
structure Geo (n0 : Nat) (ts : List UM.Tri) (m : UM.M2) : Prop where
  valid : Valid n0 ts
  built : ∃ order : List (UM.Edge × Int) → List (UM.Edge × Int), IsOrder order ∧ build order n0 ts = some m
  ne : ts ≠ []

theorem Geo.base (G : Geo n0 ts m) : Base n0 ts m := by
  obtain ⟨order, ho, hb⟩ := G.built
  exact XM.base_of ho G.valid hb

theorem Geo.pos (G : Geo n0 ts m) : 0 < XM.n m 3 := by
  have B := G.base
  obtain ⟨t, ht⟩ := List.exists_mem_of_ne_nil _ G.ne
  obtain ⟨i, a, b, c, h, -⟩ := B.tri_of t ht
  have := B.tri_ok h
  simp only [XM.n]
  omega

theorem Geo.pos2 (G : Geo n0 ts m) : 0 < XM.n m 2 := by
  have := G.pos
  simp only [XM.n] at *
  omega

theorem Geo.facet (G : Geo n0 ts m) {t : Nat} {e : Int} (h : Own m t e) : ∃ v0 v1 v2 o, Facet n0 m t e v0 v1 v2 o :=
  facet_of G.base G.pos h

theorem Geo.symm (G : Geo n0 ts m) : Gr.Symm (nbR m) := by
  obtain ⟨order, ho, hb⟩ := G.built
  exact nbR_symm ho G.valid hb G.pos

theorem Geo.nodup (G : Geo n0 ts m) (x : Int) : (nbR m x).Nodup := by
  obtain ⟨order, ho, hb⟩ := G.built
  exact nbR_nodup ho G.valid hb G.pos x

theorem Geo.defined (G : Geo n0 ts m) {l : List Int} (h : ∀ x ∈ l, 0 ≤ x) : nbDefined m l = true := by
  obtain ⟨order, ho, hb⟩ := G.built
  exact nbDefined_of ho G.valid hb G.pos h

/-! ### detection does not depend on later snapshots -/

theorem absRead_append {P Q : List (Snap 2)} {v : Int} (hx : time n0 v < P.length) :
    absRead n0 (P ++ Q) v = absRead n0 P v := by
  unfold absRead
  by_cases h : time n0 v < 0
  · rw [if_pos h, if_pos h]
  · rw [if_neg h, if_neg h, List.getElem?_append_left (by omega)]

theorem detect_append (G : Geo n0 ts m) {c : Cfg γ} (hm : c.m = m) {P Q : List (Snap 2)} {f : Int} {t : Nat} {e : Int}
    (he : Own m t e) (hlen : t + 2 ≤ P.length) : detect c n0 (P ++ Q) f t e = detect c n0 P f t e := by
  obtain ⟨v0, v1, v2, o, F⟩ := G.facet he
  have : checkWith c f t (absRead n0 (P ++ Q)) e = checkWith c f t (absRead n0 P) e := by
    refine checkWith_congr (by rw [hm]; exact F.get) ?_
    intro v hv
    apply absRead_append
    rcases F.times v hv with h | h <;> omega
  unfold detect
  rw [this]

/-- in an aligned state, `check_simplex` sees the series -/
theorem check_eq (G : Geo n0 ts m) {c : Cfg γ} (hm : c.m = m) {P : List (Snap 2)} {st : St γ} (hs : st.snaps = P.drop st.cur)
    {e : Int} (he : Own m st.cur e) : check c st e = checkWith c st.factor st.cur (absRead n0 P) e := by
  obtain ⟨v0, v1, v2, o, F⟩ := G.facet he
  unfold check
  refine checkWith_congr (by rw [hm]; exact F.get) ?_
  intro v hv
  obtain ⟨h1, h2, -⟩ := F.flat v hv
  rw [hm]
  exact readVertex_eq hs h1 h2 (F.times v hv)

theorem hit_eq (G : Geo n0 ts m) {c : Cfg γ} (hm : c.m = m) {P : List (Snap 2)} {st : St γ} (hs : st.snaps = P.drop st.cur)
    {e : Int} (he : Own m st.cur e) : hit c st e = detect c n0 P st.factor st.cur e := by
  unfold hit detect
  rw [check_eq G hm hs he]
  rcases checkWith c st.factor st.cur (absRead n0 P) e with _ | _ | _ <;> rfl

theorem check_isSome (G : Geo n0 ts m) {c : Cfg γ} (hm : c.m = m) {P : List (Snap 2)} (hP : ∀ s ∈ P, Covers n0 s) {st : St γ}
    (hs : st.snaps = P.drop st.cur) {e : Int} (he : Own m st.cur e) (h1 : 1 ≤ st.snaps.length)
    (h2 : e ∈ XM.ordinalIds m 2 st.cur ∨ 2 ≤ st.snaps.length) : (check c st e).isSome := by
  rw [check_eq G hm hs he]
  obtain ⟨v0, v1, v2, o, F⟩ := G.facet he
  rw [hs, List.length_drop] at h1 h2
  refine checkWith_isSome hm F ?_
  intro v hv
  obtain ⟨-, -, h3⟩ := F.flat v hv
  refine absRead_some hP ?_ ?_ h3
  · rcases F.times v hv with h | h <;> omega
  · rcases h2 with h2 | h2
    · have := F.flatT (F.same.2 h2) v hv
      omega
    · rcases F.times v hv with h | h <;> omega

/-! ### the invariant -/

theorem own_time {t t' : Nat} {e : Int} (h : Own m t e) (h' : Own m t' e) : t = t' := by
  have h1 := h.2
  have h2 := h'.2
  omega

theorem detect_tag (G : Geo n0 ts m) {c : Cfg γ} (hm : c.m = m) {P : List (Snap 2)} {f : Int} {t : Nat} {e : Int}
    {cp : CP (Info γ)} (ho : Own m t e) (hd : detect c n0 P f t e = some cp) : cp.tag = e ∧ cp.timestep = t := by
  obtain ⟨v0, v1, v2, o, F⟩ := G.facet ho
  unfold detect at hd
  split at hd
  · rename_i cp' hh
    split at hd
    · cases hd
      exact check_tag (by rw [hm]; exact F.get) hh
    · cases hd
  · cases hd

theorem found_tag (G : Geo n0 ts m) {c : Cfg γ} (hm : c.m = m) {P : List (Snap 2)} {k : Nat → Nat} {T : Nat} {e : Int}
    {cp : CP (Info γ)} (h : Found c n0 P k T e cp) : cp.tag = e ∧ 0 ≤ e := by
  obtain ⟨t, -, ho, hd⟩ := h
  rw [hm] at ho
  exact ⟨(detect_tag G hm ho hd).1, ho.1⟩

/-- what is known of the trajectories and recorded points after the timesteps before `T` -/
structure Res (c : Cfg γ) (n0 : Nat) (P : List (Snap 2)) (k : Nat → Nat) (T : Nat) (st : St γ) : Prop where
  sorted : Sorted st.dcp
  trajs : ∀ t ∈ st.trajs, t.pts ≠ [] ∧ Chained (nbR c.m) CP.tag t.pts
  tags : ∀ t ∈ st.trajs, ∀ q ∈ t.pts, 0 ≤ q.tag
  off : c.streaming = false → st.trajs = [] ∧ ∀ e cp, (e, cp) ∈ st.dcp ↔ Found c n0 P k T e cp
  on : c.streaming = true → st.dcp = [] ∧ ∃ all lost : List (Int × CP (Info γ)), (all.map Prod.fst).Nodup ∧
    (∀ e cp, (e, cp) ∈ all ↔ Found c n0 P k T e cp) ∧
    (st.trajs.flatMap Traj.pts ++ lost.map Prod.snd).Perm (all.map Prod.snd) ∧
    ∀ kv ∈ lost, kv ∈ all ∧ 2 < deg (nbR c.m) (all.map Prod.fst) kv.1

/-- state after pushes `P` and `cur` advances, each made with at least two snapshots present -/
structure Inv (c : Cfg γ) (n0 : Nat) (P : List (Snap 2)) (k : Nat → Nat) (st : St γ) : Prop where
  le : st.cur ≤ P.length
  snaps : st.snaps = P.drop st.cur
  res : ResInv P st.cur st.res
  nodup : st.calls.Nodup
  calls : ∀ e t, (e, t) ∈ st.calls ↔ t < st.cur ∧ Own c.m t e
  seen : ∀ t < st.cur, t + 2 ≤ k t ∧ k t ≤ P.length
  result : Res c n0 P k st.cur st

theorem inv_init (c : Cfg γ) (n0 : Nat) (k : Nat → Nat) : Inv c n0 [] k St.init where
  le := by simp [St.init]
  snaps := by simp [St.init]
  res := by intro x; simp [St.init]
  nodup := by simp [St.init]
  calls := by simp [St.init]
  seen := by simp [St.init]
  result := {
    sorted := List.Pairwise.nil
    trajs := by simp [St.init]
    tags := by simp [St.init]
    off := by intro _; simp [St.init, Found]
    on := by
      intro _
      refine ⟨rfl, [], [], by simp, ?_, by simp [St.init], by simp⟩
      simp [St.init, Found] }

theorem found_push (G : Geo n0 ts m) {c : Cfg γ} (hm : c.m = m) {P Q : List (Snap 2)} {k : Nat → Nat} {T : Nat}
    (hk : ∀ t < T, t + 2 ≤ k t ∧ k t ≤ P.length) (e : Int) (cp : CP (Info γ)) :
    Found c n0 (P ++ Q) k T e cp ↔ Found c n0 P k T e cp := by
  unfold Found
  refine exists_congr fun t => and_congr_right fun ht => and_congr_right fun ho => ?_
  have := hk t ht
  rw [hm] at ho
  rw [List.take_append_of_le_length this.2, detect_append G hm ho (by omega)]

theorem inv_push (G : Geo n0 ts m) {c : Cfg γ} (hm : c.m = m) {P : List (Snap 2)} {k : Nat → Nat} {st : St γ} (h : Inv c n0 P k st)
    (s : Snap 2) : Inv c n0 (P ++ [s]) k (push s st) where
  le := by simpa [push] using Nat.le_succ_of_le h.le
  snaps := by simp [push, h.snaps, List.drop_append_of_le_length h.le]
  res := h.res.push h.le s
  nodup := h.nodup
  calls := h.calls
  seen := fun t ht => by have := h.seen t ht; simp; omega
  result := {
    sorted := h.result.sorted
    trajs := h.result.trajs
    tags := h.result.tags
    off := fun hs => ⟨(h.result.off hs).1, fun e cp => ((h.result.off hs).2 e cp).trans (found_push G hm h.seen e cp).symm⟩
    on := fun hs => by
      obtain ⟨a, all, lost, b, f, g⟩ := h.result.on hs
      exact ⟨a, all, lost, b, fun e cp => (f e cp).trans (found_push G hm h.seen e cp).symm, g⟩ }

theorem mem_iff_lookup {l : List (Int × CP (Info γ))} (hs : Sorted l) (x : Int) (v : CP (Info γ)) :
    (x, v) ∈ l ↔ lookup x l = some v := ⟨Trk.lookup_of_mem hs, Trk.lookup_some_mem⟩

/-- what a scan of timestep `cur` adds -/
theorem after_facts (G : Geo n0 ts m) {c : Cfg γ} (hm : c.m = m) {P : List (Snap 2)} {k : Nat → Nat} {st : St γ} (h : Inv c n0 P k st)
    {es : List Int} (hn : es.Nodup) (hes : ∀ e ∈ es, Own m st.cur e) :
    let st' := after c st.rescale es
    st'.calls.Nodup ∧ (∀ e t, (e, t) ∈ st'.calls ↔ (t < st.cur ∧ Own m t e) ∨ (t = st.cur ∧ e ∈ es)) ∧
    Sorted st'.dcp ∧ st'.factor = scale P ∧ st'.res = minRes P ∧
    (∀ e cp, (e, cp) ∈ st'.dcp ↔ (e, cp) ∈ st.dcp ∨ (e ∈ es ∧ detect c n0 P (scale P) st.cur e = some cp)) := by
  intro st'
  have hres : st.rescale.res = minRes P := by
    have := h.res.rescale
    rw [← h.snaps] at this
    exact this
  have hfac : st.rescale.factor = scale P := by
    have h1 : st.rescale.factor = 2 ^ Trk.nbits st.rescale.res := rfl
    rw [h1, hres]
    rfl
  have hcalls : ∀ e t, (e, t) ∈ st'.calls ↔ (t < st.cur ∧ Own m t e) ∨ (t = st.cur ∧ e ∈ es) := by
    intro e t
    have h1 : st'.calls = st.calls ++ es.map (fun e => (e, st.cur)) := rfl
    rw [h1, List.mem_append, h.calls, hm]
    simp only [List.mem_map, Prod.mk.injEq]
    constructor
    · rintro (h | ⟨e', h1, rfl, rfl⟩)
      · exact .inl h
      · exact .inr ⟨rfl, h1⟩
    · rintro (h | ⟨rfl, h1⟩)
      · exact .inl h
      · exact .inr ⟨e, h1, rfl, rfl⟩
  have hsorted : Sorted st'.dcp := foldl_record_sorted _ es _ h.result.sorted
  refine ⟨?_, hcalls, hsorted, hfac, hres, ?_⟩
  · have h1 : st'.calls = st.calls ++ es.map (fun e => (e, st.cur)) := rfl
    rw [h1, List.nodup_append]
    refine ⟨h.nodup, (List.nodup_map_iff (by intro a b hab; simpa using hab)).2 hn, ?_⟩
    rintro ⟨e, t⟩ he y hy rfl
    obtain ⟨e', -, h2⟩ := List.mem_map.1 hy
    cases h2
    have := ((h.calls _ _).1 he).1
    omega
  · intro e cp
    rw [mem_iff_lookup hsorted, mem_iff_lookup h.result.sorted]
    have h1 : lookup e st'.dcp = if e ∈ es then (hit c st.rescale e).or (lookup e st.dcp) else lookup e st.dcp :=
      lookup_foldl_record _ es st.dcp e
    rw [h1]
    by_cases he : e ∈ es
    · have ho := hes e he
      have hh : hit c st.rescale e = detect c n0 P (scale P) st.cur e := by
        rw [← hfac]
        exact hit_eq G hm (st := st.rescale) h.snaps ho
      have hold : lookup e st.dcp = none := by
        cases hl : lookup e st.dcp with
        | none => rfl
        | some v =>
          exfalso
          have hmem := Trk.lookup_some_mem hl
          by_cases hs : c.streaming = true
          · rw [(h.result.on hs).1] at hmem; cases hmem
          · obtain ⟨t, ht, ho', -⟩ := ((h.result.off (by simpa using hs)).2 e v).1 hmem
            rw [hm] at ho'
            have := own_time ho ho'
            omega
      rw [if_pos he, hh, hold]
      simp [he]
    · simp [he]

theorem found_step {c : Cfg γ} {P : List (Snap 2)} {k k' : Nat → Nat} {T : Nat} (hk : ∀ t < T, k' t = k t)
    (hT : k' T = P.length) (e : Int) (cp : CP (Info γ)) :
    Found c n0 P k' (T + 1) e cp ↔ Found c n0 P k T e cp ∨ (Own c.m T e ∧ detect c n0 P (scale P) T e = some cp) := by
  unfold Found
  constructor
  · rintro ⟨t, ht, ho, h⟩
    by_cases hT' : t = T
    · subst hT'
      rw [hT, List.take_length] at h
      exact .inr ⟨ho, h⟩
    · rw [hk t (by omega)] at h
      exact .inl ⟨t, by omega, ho, h⟩
  · rintro (⟨t, ht, ho, h⟩ | ⟨ho, h⟩)
    · exact ⟨t, by omega, ho, by rw [hk t ht]; exact h⟩
    · exact ⟨T, by omega, ho, by rw [hT, List.take_length]; exact h⟩

/-- `update_timestep`: the scan of the current timestep, and the growth of the trajectories -/
theorem update_inv (G : Geo n0 ts m) {c : Cfg γ} (hm : c.m = m) {ord : Scope → List Int} (ho : Complete m ord)
    {P : List (Snap 2)} (hP : ∀ s ∈ P, Covers n0 s) {k k' : Nat → Nat} {st : St γ} (h : Inv c n0 P k st)
    (h1 : 1 ≤ st.snaps.length) (hk : ∀ t < st.cur, k' t = k t) (hT : k' st.cur = P.length)
    (hlast : ∀ e cp, Own m st.cur e → st.snaps.length < 2 → detect c n0 P (scale P) st.cur e = some cp →
      e ∈ XM.ordinalIds m 2 st.cur) :
    ∃ st', update c ord st = some st' ∧ st'.cur = st.cur ∧ st'.snaps = st.snaps ∧ st'.res = minRes P ∧
      st'.calls.Nodup ∧
      (∀ e t, (e, t) ∈ st'.calls ↔ (t < st.cur ∧ Own m t e) ∨
        (t = st.cur ∧ Own m t e ∧ (e ∈ XM.ordinalIds m 2 st.cur ∨ 2 ≤ st.snaps.length))) ∧
      Res c n0 P k' (st.cur + 1) st' := by
  obtain ⟨es, hn, hes, hup⟩ := scans_spec G.base G.pos hm ho st
  have hsome : ∀ e ∈ es, (check c st.rescale e).isSome := by
    intro e he
    have := (hes e).1 he
    exact check_isSome G hm hP (st := st.rescale) h.snaps this.1 h1 this.2
  rw [if_pos hsome] at hup
  obtain ⟨f1, f2, f3, f4, f5, f6⟩ := after_facts G hm h hn fun e he => ((hes e).1 he).1
  have hcalls : ∀ e t, (e, t) ∈ (after c st.rescale es).calls ↔ (t < st.cur ∧ Own m t e) ∨
      (t = st.cur ∧ Own m t e ∧ (e ∈ XM.ordinalIds m 2 st.cur ∨ 2 ≤ st.snaps.length)) := by
    intro e t
    rw [f2, hes]
    constructor
    · rintro (a | ⟨rfl, a⟩)
      · exact .inl a
      · exact .inr ⟨rfl, a⟩
    · rintro (a | ⟨rfl, a⟩)
      · exact .inl a
      · exact .inr ⟨rfl, a⟩
  have hnew : ∀ e cp, (e ∈ es ∧ detect c n0 P (scale P) st.cur e = some cp) ↔
      (Own m st.cur e ∧ detect c n0 P (scale P) st.cur e = some cp) := by
    intro e cp
    rw [hes]
    constructor
    · rintro ⟨⟨a, -⟩, b⟩; exact ⟨a, b⟩
    · rintro ⟨a, b⟩
      refine ⟨⟨a, ?_⟩, b⟩
      by_cases h2 : 2 ≤ st.snaps.length
      · exact .inr h2
      · exact .inl (hlast e cp a (by omega) b)
  by_cases hstr : c.streaming = true
  · obtain ⟨hd0, all, lost, a1, a2, a3, a4⟩ := h.result.on hstr
    have hdcp : ∀ e cp, (e, cp) ∈ (after c st.rescale es).dcp ↔
        Own m st.cur e ∧ detect c n0 P (scale P) st.cur e = some cp := by
      intro e cp
      rw [f6, hd0, hnew]
      simp
    have hcons : ∀ kv ∈ (after c st.rescale es).dcp, kv.2.tag = kv.1 := by
      rintro ⟨e, cp⟩ hkv
      obtain ⟨ho, hdet⟩ := (hdcp e cp).1 hkv
      exact (detect_tag G hm ho hdet).1
    have hkeys : ∀ x ∈ (after c st.rescale es).dcp.map Prod.fst, decide (0 ≤ x) = true := by
      intro x hx
      obtain ⟨⟨e, cp⟩, hkv, rfl⟩ := List.mem_map.1 hx
      simpa using ((hdcp e cp).1 hkv).1.1
    have htr := h.result.trajs
    rw [hm] at htr
    obtain ⟨old, new, kept, lost', t1, t2, t3, t4, t5, t6⟩ := Trk.C48_online_step (nbR m) G.symm G.nodup
      CP.tag st.trajs htr (after c st.rescale es).dcp f3 hcons
    rw [Trk.traceOnline_restr (nbR_restr m) G.symm G.nodup st.trajs _ hkeys
      (fun t ht q hq => by simpa using h.result.tags t ht q hq) hcons] at t1
    have hgrow : grow c (after c st.rescale es) =
        some { after c st.rescale es with trajs := old ++ new, dcp := [] } := by
      unfold grow
      have e1 : (after c st.rescale es).trajs = st.trajs := rfl
      have d1 : nbDefined c.m ((after c st.rescale es).dcp.map Prod.fst) = true := by
        rw [hm]; exact G.defined fun x hx => by simpa using hkeys x hx
      have d2 : nbDefined c.m ((st.trajs.flatMap Traj.pts).map CP.tag) = true := by
        rw [hm]
        apply G.defined
        intro x hx
        obtain ⟨q, hq, rfl⟩ := List.mem_map.1 hx
        obtain ⟨t, ht, hq⟩ := List.mem_flatMap.1 hq
        exact h.result.tags t ht q hq
      rw [e1, d1, d2, hm, t1]
      rfl
    refine ⟨{ after c st.rescale es with trajs := old ++ new, dcp := [] }, ?_, rfl, rfl, f5, f1, hcalls, ?_⟩
    · unfold update
      rw [hup]
      simp only [hstr, if_true, hgrow]
    refine ⟨List.Pairwise.nil, by rw [hm]; exact t6, ?_, (fun hf => absurd hf (by rw [hstr]; simp)),
      fun _ => ⟨rfl, all ++ (after c st.rescale es).dcp, lost ++ lost', ?_, ?_, ?_, ?_⟩⟩
    · intro t ht q hq
      have hmem : q ∈ (st.trajs.flatMap Traj.pts ++ kept.map Prod.snd) :=
        t3.mem_iff.1 (List.mem_flatMap.2 ⟨t, ht, hq⟩)
      rcases List.mem_append.1 hmem with hq | hq
      · obtain ⟨t, ht, hq⟩ := List.mem_flatMap.1 hq
        exact h.result.tags t ht q hq
      · obtain ⟨⟨e, cp⟩, hkv, rfl⟩ := List.mem_map.1 hq
        have hkv' : (e, cp) ∈ (after c st.rescale es).dcp := t2.mem_iff.1 (by simp [hkv])
        have := hcons _ hkv'
        simp only at this ⊢
        rw [this]
        exact ((hdcp e cp).1 hkv').1.1
    · rw [List.map_append, List.nodup_append]
      refine ⟨a1, Trk.sorted_nodup f3, ?_⟩
      rintro x hx y hy rfl
      obtain ⟨⟨e, cp⟩, h1, rfl⟩ := List.mem_map.1 hx
      obtain ⟨⟨e', cp'⟩, h3, h4⟩ := List.mem_map.1 hy
      obtain ⟨t, ht, o1, -⟩ := (a2 e cp).1 h1
      obtain ⟨o2, -⟩ := (hdcp e' cp').1 h3
      simp only at h4
      subst h4
      rw [hm] at o1
      have := own_time o1 o2
      omega
    · intro e cp
      rw [List.mem_append, a2, hdcp, found_step hk hT e cp, hm]
    · show ((old ++ new).flatMap Traj.pts ++ (lost ++ lost').map Prod.snd).Perm _
      rw [List.map_append, List.map_append]
      have e1 : ((old ++ new).flatMap Traj.pts ++ (lost.map Prod.snd ++ lost'.map Prod.snd)).Perm
          ((st.trajs.flatMap Traj.pts ++ kept.map Prod.snd) ++ (lost.map Prod.snd ++ lost'.map Prod.snd)) :=
        t3.append_right _
      refine e1.trans ?_
      have e2 : ((kept ++ lost').map Prod.snd).Perm ((after c st.rescale es).dcp.map Prod.snd) := t2.map _
      rw [List.map_append] at e2
      refine List.Perm.trans ?_ (a3.append e2)
      rw [List.append_assoc, List.append_assoc]
      refine List.Perm.append_left _ ?_
      rw [← List.append_assoc, ← List.append_assoc]
      exact List.perm_append_comm.append_right _
    · intro kv hkv
      rw [hm] at a4 ⊢
      have hmono : ∀ keys : List Int, (∀ y ∈ keys, y ∈ (all ++ (after c st.rescale es).dcp).map Prod.fst) →
          2 < deg (nbR m) keys kv.1 →
          2 < deg (nbR m) ((all ++ (after c st.rescale es).dcp).map Prod.fst) kv.1 := by
        intro keys hk hd
        exact lt_of_lt_of_le hd (deg_mono _ hk _)
      rcases List.mem_append.1 hkv with hkv | hkv
      · obtain ⟨b1, b2⟩ := a4 kv hkv
        exact ⟨by simp [b1], hmono _ (by intro y hy; rw [List.map_append]; simp only [List.mem_append]; exact .inl hy) b2⟩
      · refine ⟨?_, hmono _ (by intro y hy; rw [List.map_append]; simp only [List.mem_append]; exact .inr hy) (t4 kv hkv)⟩
        exact List.mem_append.2 (.inr (t2.mem_iff.1 (by simp [hkv])))
  · have hstr' : c.streaming = false := by simpa using hstr
    obtain ⟨o1, o2⟩ := h.result.off hstr'
    refine ⟨after c st.rescale es, ?_, rfl, rfl, f5, f1, hcalls, f3, h.result.trajs, h.result.tags,
      fun _ => ⟨o1, fun e cp => ?_⟩, fun hf => absurd hf hstr⟩
    · unfold update
      rw [hup]
      simp [hstr]
    · rw [f6, o2, hnew, found_step hk hT e cp, hm]

/-- one advance with at least two snapshots present -/
theorem inv_advance (G : Geo n0 ts m) {c : Cfg γ} (hm : c.m = m) {ord : Scope → List Int} (ho : Complete m ord)
    {P : List (Snap 2)} (hP : ∀ s ∈ P, Covers n0 s) {k k' : Nat → Nat} {st : St γ} (h : Inv c n0 P k st)
    (h2 : 2 ≤ st.snaps.length) (hk : ∀ t < st.cur, k' t = k t) (hT : k' st.cur = P.length) :
    ∃ st', advance c ord st = some st' ∧ st'.cur = st.cur + 1 ∧ Inv c n0 P k' st' := by
  obtain ⟨st1, e1, e2, e3, e4, e5, e6, e7⟩ := update_inv G hm ho hP h (by omega) hk hT (fun e cp _ hl => by omega)
  have hdlen : st.cur + 2 ≤ P.length := by
    have := h2
    rw [h.snaps, List.length_drop] at this
    omega
  refine ⟨{ st1 with snaps := st1.snaps.tail, cur := st1.cur + 1 }, by unfold advance; rw [e1], by simp [e2], ?_⟩
  refine ⟨by show st1.cur + 1 ≤ _; omega, ?_, ?_, e5, ?_, ?_, ?_⟩
  · show st1.snaps.tail = P.drop (st1.cur + 1)
    rw [e3, e2, h.snaps, List.tail_drop]
  · show ResInv P (st1.cur + 1) st1.res
    rw [e4]; exact .seen _
  · intro e t
    show (e, t) ∈ st1.calls ↔ t < st1.cur + 1 ∧ _
    rw [e6, e2, hm]
    constructor
    · rintro (⟨a, b⟩ | ⟨rfl, b, -⟩)
      · exact ⟨by omega, b⟩
      · exact ⟨by omega, b⟩
    · rintro ⟨a, b⟩
      by_cases htt : t = st.cur
      · exact .inr ⟨htt, b, .inr h2⟩
      · exact .inl ⟨by omega, b⟩
  · intro t ht
    have ht : t < st1.cur + 1 := ht
    by_cases htt : t = st.cur
    · subst htt; rw [hT]; omega
    · rw [hk t (by omega)]; exact h.seen t (by omega)
  · show Res c n0 P k' (st1.cur + 1) _
    rw [e2]
    exact ⟨e7.sorted, e7.trajs, e7.tags, e7.off, e7.on⟩

end Verif.UTrk
