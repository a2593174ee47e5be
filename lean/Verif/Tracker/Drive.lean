import Verif.Tracker.Nbs
import Verif.Tracker.Online
/-! The time loop of the trackers: invariant of push / advance. -/
namespace Verif.Trk
open Verif.Ser (lookup mapPut Sorted)
open Verif.SRM
variable {d : Nat} {γ : Type}

theorem le_foldl_min (x r : Rat) : ∀ (P : List (Snap d)) , x ≤ P.foldl (fun r s => min r s.res) r ↔
    x ≤ r ∧ ∀ s ∈ P, x ≤ s.res := by
  intro P
  induction P generalizing r with
  | nil => simp
  | cons s P ih =>
    rw [List.foldl_cons, ih, le_min_iff]
    simp only [List.mem_cons, forall_eq_or_imp]
    tauto

/-- the running resolution together with the snapshots still to be seen gives the overall minimum -/
def ResInv (P : List (Snap d)) (cur : Nat) (r : Rat) : Prop :=
  ∀ x, (x ≤ r ∧ ∀ s ∈ P.drop cur, x ≤ s.res) ↔ x ≤ dblMax ∧ ∀ s ∈ P, x ≤ s.res

theorem ResInv.rescale {P : List (Snap d)} {cur : Nat} {r : Rat} (h : ResInv P cur r) :
    (P.drop cur).foldl (fun r s => min r s.res) r = minRes P := by
  apply eq_of_forall_le_iff
  intro x
  unfold minRes
  rw [le_foldl_min, le_foldl_min]
  exact h x

theorem ResInv.seen {P : List (Snap d)} (cur : Nat) : ResInv P cur (minRes P) := by
  intro x
  unfold minRes
  rw [le_foldl_min]
  constructor
  · rintro ⟨h, -⟩; exact h
  · intro h; exact ⟨h, fun s hs => h.2 s (List.mem_of_mem_drop hs)⟩

theorem ResInv.push {P : List (Snap d)} {cur : Nat} {r : Rat} (h : ResInv P cur r) (hc : cur ≤ P.length) (s : Snap d) :
    ResInv (P ++ [s]) cur r := by
  intro x
  have := h x
  rw [List.drop_append_of_le_length hc]
  simp only [List.mem_append, List.mem_singleton]
  constructor
  · rintro ⟨a, b⟩
    obtain ⟨p, q⟩ := this.1 ⟨a, fun s hs => b s (.inl hs)⟩
    refine ⟨p, ?_⟩
    rintro s' (hs | rfl)
    · exact q s' hs
    · exact b _ (.inr rfl)
  · rintro ⟨a, b⟩
    obtain ⟨p, q⟩ := this.2 ⟨a, fun s hs => b s (.inl hs)⟩
    refine ⟨p, ?_⟩
    rintro s' (hs | rfl)
    · exact q s' hs
    · exact b _ (.inr rfl)

/-! ### detection does not depend on later snapshots -/

theorem absRead_append {c : Cfg d γ} {P Q : List (Snap d)} {v : Vtx} {x : Nat} (hv : AtTime (d + 1) v x)
    (hx : x < P.length) : absRead c (P ++ Q) v = absRead c P v := by
  unfold AtTime at hv
  simp only [Nat.add_sub_cancel] at hv
  unfold absRead
  simp only [hv, Int.toNat_natCast]
  rw [List.getElem?_append_left hx]

theorem detect_append {c : Cfg d γ} {P Q : List (Snap d)} {f : Int} {t : Nat} {e : Elem} (he : Facet d e)
    (ht : AtTime (d + 1) e.corner t) (hlen : t + 2 ≤ P.length) :
    detect c (P ++ Q) f t e = detect c P f t e := by
  have : checkWith c f t (absRead c (P ++ Q)) e = checkWith c f t (absRead c P) e := by
    apply checkWith_congr
    intro vs hvs v hv
    obtain ⟨vs', h1, -, h3⟩ := facet_vertices he ht
    rw [hvs] at h1
    cases h1
    rcases (h3 v hv).2 with h | ⟨h, -⟩
    · exact absRead_append h (by omega)
    · exact absRead_append (x := t + 1) (by simpa using h) (by omega)
  unfold detect
  rw [this]

/-- in an aligned state, `check_simplex` sees the series -/
theorem check_eq {c : Cfg d γ} {P : List (Snap d)} {st : St d γ} (hs : st.snaps = P.drop st.cur) {e : Elem}
    (he : Facet d e) (ht : AtTime (d + 1) e.corner st.cur) :
    check c st e = checkWith c st.factor st.cur (absRead c P) e := by
  unfold check
  apply checkWith_congr
  intro vs hvs v hv
  obtain ⟨vs', h1, -, h3⟩ := facet_vertices he ht
  rw [hvs] at h1
  cases h1
  apply readVertex_eq hs
  rcases (h3 v hv).2 with h | ⟨h, -⟩
  · exact .inl h
  · exact .inr (by simpa using h)

theorem hit_eq {c : Cfg d γ} {P : List (Snap d)} {st : St d γ} (hs : st.snaps = P.drop st.cur) {e : Elem}
    (he : Facet d e) (ht : AtTime (d + 1) e.corner st.cur) :
    hit c st e = detect c P st.factor st.cur e := by
  unfold hit detect
  rw [check_eq hs he ht]
  rcases checkWith c st.factor st.cur (absRead c P) e with _ | _ | _ <;> rfl

/-- checks are defined when the snapshots needed are there and cover the domain -/
theorem check_isSome {c : Cfg d γ} (hc : Shaped c) {P : List (Snap d)} (hP : ∀ s ∈ P, Covers c s) {st : St d γ}
    (hs : st.snaps = P.drop st.cur) {e : Elem} (he : Facet d e) (ht : AtTime (d + 1) e.corner st.cur) (hcore : InCore c e)
    (h1 : 1 ≤ st.snaps.length) (h2 : e.type ∈ scopeTypes (d + 1) d .ordinal ∨ 2 ≤ st.snaps.length) :
    (check c st e).isSome := by
  rw [check_eq hs he ht]
  apply checkWith_isSome
  intro vs hvs hw v hv
  obtain ⟨vs', g1, -, g3⟩ := facet_vertices he ht
  rw [hvs] at g1
  cases g1
  obtain ⟨hl, hti⟩ := g3 v hv
  rw [hs, List.length_drop] at h1 h2
  have hx : ∃ x : Nat, AtTime (d + 1) v x ∧ x < P.length := by
    rcases hti with h | ⟨h, ho⟩
    · exact ⟨st.cur, h, by omega⟩
    · refine ⟨st.cur + 1, by simpa using h, ?_⟩
      rcases h2 with h2 | h2
      · exact absurd h2 ho
      · omega
  obtain ⟨x, hx1, hx2⟩ := hx
  unfold AtTime at hx1
  simp only [Nat.add_sub_cancel] at hx1
  unfold absRead
  simp only [hx1, Int.toNat_natCast]
  rw [if_neg (by omega), List.getElem?_eq_getElem hx2]
  refine read_isSome hc (hP _ (List.getElem_mem hx2)) hl hcore he.len ?_ (hw v hv)
  have hcell := cell_of_elem (n := d + 1) (by omega) (by rw [he.dim]; omega) rfl he.len hvs
  obtain ⟨q1, q2⟩ := hcell.cube v hv
  intro i
  have q3 := (cube_iff.1 q2).2 i
  rw [getD_sub (by rw [q1, he.len])] at q3
  omega

/-! ### the invariant -/

/-- the points found at timesteps before `T`, the scaling factor at timestep `t` being computed from the
first `m t` snapshots -/
def Found (c : Cfg d γ) (P : List (Snap d)) (m : Nat → Nat) (T : Nat) (e : Elem) (cp : CP γ) : Prop :=
  ∃ t < T, Own c t e ∧ detect c P (scale (P.take (m t))) t e = some cp

theorem own_time {c : Cfg d γ} {e : Elem} {t t' : Nat} (h : Own c t e) (h' : Own c t' e) : t = t' := by
  have h1 := h.time
  have h2 := h'.time
  unfold AtTime at h1 h2
  rw [h1] at h2
  simpa using h2

theorem found_elem {c : Cfg d γ} (hc : Shaped c) {P : List (Snap d)} {m : Nat → Nat} {T : Nat} {e : Elem} {cp : CP γ}
    (h : Found c P m T e cp) : elemOf c cp = e := by
  obtain ⟨t, -, ho, hd⟩ := h
  unfold detect at hd
  split at hd
  · rename_i cp' hh
    split at hd
    · cases hd
      exact elemOf_detect hc ho.facet hh
    · cases hd
  · cases hd

/-- state after pushes `P` and `cur` advances, each made with at least two snapshots present -/
structure Inv (c : Cfg d γ) (P : List (Snap d)) (m : Nat → Nat) (st : St d γ) : Prop where
  le : st.cur ≤ P.length
  snaps : st.snaps = P.drop st.cur
  res : ResInv P st.cur st.res
  nodup : st.calls.Nodup
  calls : ∀ e t, (e, t) ∈ st.calls ↔ t < st.cur ∧ Own c t e
  seen : ∀ t < st.cur, t + 2 ≤ m t ∧ m t ≤ P.length
  sorted : Sorted st.dcp
  trajs : ∀ t ∈ st.trajs, t.pts ≠ [] ∧ Chained (nbs (d + 1)) (elemOf c) t.pts
  off : c.streaming = false → st.trajs = [] ∧ ∀ e cp, (e, cp) ∈ st.dcp ↔ Found c P m st.cur e cp
  on : c.streaming = true → st.dcp = [] ∧ ∃ all lost : List (Elem × CP γ), (all.map Prod.fst).Nodup ∧
    (∀ e cp, (e, cp) ∈ all ↔ Found c P m st.cur e cp) ∧
    (st.trajs.flatMap Traj.pts ++ lost.map Prod.snd).Perm (all.map Prod.snd) ∧
    ∀ kv ∈ lost, kv ∈ all ∧ 2 < deg (nbs (d + 1)) (all.map Prod.fst) kv.1

theorem inv_init (c : Cfg d γ) (m : Nat → Nat) : Inv c [] m St.init where
  le := by simp [St.init]
  snaps := by simp [St.init]
  res := by intro x; simp [St.init]
  nodup := by simp [St.init]
  calls := by simp [St.init]
  seen := by simp [St.init]
  sorted := List.Pairwise.nil
  trajs := by simp [St.init]
  off := by intro _; simp [St.init, Found]
  on := by
    intro _
    refine ⟨rfl, [], [], by simp, ?_, by simp [St.init], by simp⟩
    simp [St.init, Found]

theorem found_push {c : Cfg d γ} {P Q : List (Snap d)} {m : Nat → Nat} {T : Nat}
    (hm : ∀ t < T, t + 2 ≤ m t ∧ m t ≤ P.length) (e : Elem) (cp : CP γ) :
    Found c (P ++ Q) m T e cp ↔ Found c P m T e cp := by
  unfold Found
  constructor
  · rintro ⟨t, ht, ho, h⟩
    have := hm t ht
    refine ⟨t, ht, ho, ?_⟩
    rw [List.take_append_of_le_length this.2, detect_append ho.facet ho.time (by omega)] at h
    exact h
  · rintro ⟨t, ht, ho, h⟩
    have := hm t ht
    refine ⟨t, ht, ho, ?_⟩
    rw [List.take_append_of_le_length this.2, detect_append ho.facet ho.time (by omega)]
    exact h

theorem inv_push {c : Cfg d γ} {P : List (Snap d)} {m : Nat → Nat} {st : St d γ} (h : Inv c P m st) (s : Snap d) :
    Inv c (P ++ [s]) m (push s st) where
  le := by simpa [push] using Nat.le_succ_of_le h.le
  snaps := by simp [push, h.snaps, List.drop_append_of_le_length h.le]
  res := h.res.push h.le s
  nodup := h.nodup
  calls := h.calls
  seen := fun t ht => by have := h.seen t ht; simp; omega
  sorted := h.sorted
  trajs := h.trajs
  off := fun hs => ⟨(h.off hs).1, fun e cp => ((h.off hs).2 e cp).trans (found_push h.seen e cp).symm⟩
  on := fun hs => by
    obtain ⟨a, all, lost, b, f, g⟩ := h.on hs
    exact ⟨a, all, lost, b, fun e cp => (f e cp).trans (found_push h.seen e cp).symm, g⟩

/-- what a scan of timestep `cur` adds -/
theorem after_facts {c : Cfg d γ} {P : List (Snap d)} {m : Nat → Nat} {st : St d γ} (h : Inv c P m st)
    {es : List Elem} (hn : es.Nodup) (hes : ∀ e ∈ es, Own c st.cur e) :
    let st' := after c st.rescale es
    st'.calls.Nodup ∧ (∀ e t, (e, t) ∈ st'.calls ↔ (t < st.cur ∧ Own c t e) ∨ (t = st.cur ∧ e ∈ es)) ∧
    Sorted st'.dcp ∧ st'.factor = scale P ∧ st'.res = minRes P ∧
    (∀ e cp, (e, cp) ∈ st'.dcp ↔ (e, cp) ∈ st.dcp ∨ (e ∈ es ∧ detect c P (scale P) st.cur e = some cp)) := by
  intro st'
  have hres : st.rescale.res = minRes P := by
    have := h.res.rescale
    rw [← h.snaps] at this
    exact this
  have hfac : st.rescale.factor = scale P := by
    have h1 : st.rescale.factor = 2 ^ nbits st.rescale.res := rfl
    rw [h1, hres]
    rfl
  have hcalls : ∀ e t, (e, t) ∈ st'.calls ↔ (t < st.cur ∧ Own c t e) ∨ (t = st.cur ∧ e ∈ es) := by
    intro e t
    have h1 : st'.calls = st.calls ++ es.map (fun e => (e, st.cur)) := rfl
    rw [h1, List.mem_append, h.calls]
    simp only [List.mem_map, Prod.mk.injEq]
    constructor
    · rintro (h | ⟨e', h1, rfl, rfl⟩)
      · exact .inl h
      · exact .inr ⟨rfl, h1⟩
    · rintro (h | ⟨rfl, h1⟩)
      · exact .inl h
      · exact .inr ⟨e, h1, rfl, rfl⟩
  have hsorted : Sorted st'.dcp := foldl_record_sorted _ es _ h.sorted
  refine ⟨?_, hcalls, hsorted, hfac, hres, ?_⟩
  · have h1 : st'.calls = st.calls ++ es.map (fun e => (e, st.cur)) := rfl
    rw [h1, List.nodup_append]
    refine ⟨h.nodup, (List.nodup_map_iff (by intro a b hab; simpa using hab)).2 hn, ?_⟩
    rintro ⟨e, t⟩ he y hy rfl
    obtain ⟨e', -, h2⟩ := List.mem_map.1 hy
    cases h2
    have := ((h.calls _ _).1 he).1
    omega
  · intro e cp
    rw [mem_iff_lookup hsorted, mem_iff_lookup h.sorted]
    have h1 : lookup e st'.dcp = if e ∈ es then (hit c st.rescale e).or (lookup e st.dcp) else lookup e st.dcp :=
      lookup_foldl_record _ es st.dcp e
    rw [h1]
    by_cases he : e ∈ es
    · have ho := hes e he
      have hh : hit c st.rescale e = detect c P (scale P) st.cur e := by
        rw [← hfac]
        exact hit_eq (st := st.rescale) h.snaps ho.facet ho.time
      have hold : lookup e st.dcp = none := by
        cases hl : lookup e st.dcp with
        | none => rfl
        | some v =>
          exfalso
          have hmem := lookup_some_mem hl
          by_cases hs : c.streaming = true
          · rw [(h.on hs).1] at hmem; cases hmem
          · obtain ⟨t, ht, ho', -⟩ := ((h.off (by simpa using hs)).2 e v).1 hmem
            have := own_time ho ho'
            omega
      rw [if_pos he, hh, hold]
      simp [he]
    · simp [he]

theorem found_step {c : Cfg d γ} {P : List (Snap d)} {m m' : Nat → Nat} {T : Nat} (hm : ∀ t < T, m' t = m t)
    (hT : m' T = P.length) (e : Elem) (cp : CP γ) :
    Found c P m' (T + 1) e cp ↔ Found c P m T e cp ∨ (Own c T e ∧ detect c P (scale P) T e = some cp) := by
  unfold Found
  constructor
  · rintro ⟨t, ht, ho, h⟩
    by_cases hT' : t = T
    · subst hT'
      rw [hT, List.take_length] at h
      exact .inr ⟨ho, h⟩
    · rw [hm t (by omega)] at h
      exact .inl ⟨t, by omega, ho, h⟩
  · rintro (⟨t, ht, ho, h⟩ | ⟨ho, h⟩)
    · exact ⟨t, by omega, ho, by rw [hm t ht]; exact h⟩
    · exact ⟨T, by omega, ho, by rw [hT, List.take_length]; exact h⟩

/-- one advance with at least two snapshots present -/
theorem inv_advance {c : Cfg d γ} (hc : Shaped c) {ord : Scope → List Int} (ho : Complete c ord)
    {P : List (Snap d)} (hP : ∀ s ∈ P, Covers c s) {m m' : Nat → Nat} {st : St d γ} (h : Inv c P m st)
    (h2 : 2 ≤ st.snaps.length) (hm : ∀ t < st.cur, m' t = m t) (hT : m' st.cur = P.length) :
    ∃ st', advance c ord st = some st' ∧ st'.cur = st.cur + 1 ∧ Inv c P m' st' := by
  obtain ⟨es, hn, hes, hup⟩ := update_spec hc ho st
  have hes' : ∀ e, e ∈ es ↔ Own c st.cur e := by
    intro e
    rw [hes]
    constructor
    · rintro ⟨a, b, g, -⟩; exact ⟨a, b, g⟩
    · rintro ⟨a, b, g⟩; exact ⟨a, b, g, .inr h2⟩
  have hsome : ∀ e ∈ es, (check c st.rescale e).isSome := by
    intro e he
    have := (hes' e).1 he
    exact check_isSome hc hP (st := st.rescale) h.snaps this.facet this.time this.core (by
      have : st.rescale.snaps = st.snaps := rfl
      rw [this]; omega) (.inr h2)
  rw [if_pos hsome] at hup
  obtain ⟨f1, f2, f3, f4, f5, f6⟩ := after_facts h hn fun e he => (hes' e).1 he
  have hdlen : st.cur + 2 ≤ P.length := by
    have := h2
    rw [h.snaps, List.length_drop] at this
    omega
  have hseen : ∀ t < st.cur + 1, t + 2 ≤ m' t ∧ m' t ≤ P.length := by
    intro t ht
    by_cases htt : t = st.cur
    · subst htt; rw [hT]; omega
    · rw [hm t (by omega)]; exact h.seen t (by omega)
  have hcalls : ∀ e t, (e, t) ∈ (after c st.rescale es).calls ↔ t < st.cur + 1 ∧ Own c t e := by
    intro e t
    rw [f2, hes']
    constructor
    · rintro (⟨a, b⟩ | ⟨rfl, b⟩)
      · exact ⟨by omega, b⟩
      · exact ⟨by omega, b⟩
    · rintro ⟨a, b⟩
      by_cases htt : t = st.cur
      · exact .inr ⟨htt, htt ▸ b⟩
      · exact .inl ⟨by omega, b⟩
  have hsnaps : st.snaps.tail = P.drop (st.cur + 1) := by
    rw [h.snaps, List.tail_drop]
  by_cases hstr : c.streaming = true
  · rw [if_pos ⟨hstr, h2⟩] at hup
    obtain ⟨hd0, all, lost, a1, a2, a3, a4⟩ := h.on hstr
    have hdcp : ∀ e cp, (e, cp) ∈ (after c st.rescale es).dcp ↔
        Own c st.cur e ∧ detect c P (scale P) st.cur e = some cp := by
      intro e cp
      rw [f6, hd0, hes']
      simp
    have hcons : ∀ kv ∈ (after c st.rescale es).dcp, elemOf c kv.2 = kv.1 := by
      rintro ⟨e, cp⟩ hkv
      obtain ⟨ho, hdet⟩ := (hdcp e cp).1 hkv
      exact found_elem hc (m := m') ((found_step hm hT e cp).2 (.inr ⟨ho, hdet⟩))
    obtain ⟨old, new, kept, lost', t1, t2, t3, t4, -, t6⟩ := C48_online_step (nbs (d + 1)) nbs_symm nbs_nodup
      (elemOf c) st.trajs h.trajs (after c st.rescale es).dcp f3 hcons
    have hgrow : grow c (after c st.rescale es) =
        some { after c st.rescale es with trajs := old ++ new, dcp := [] } := by
      unfold grow
      have : (after c st.rescale es).trajs = st.trajs := rfl
      rw [this, t1]
    rw [hgrow] at hup
    refine ⟨{ after c st.rescale es with
              trajs := old ++ new, dcp := [], snaps := st.snaps.tail, cur := st.cur + 1 },
      by simp only [advance, hup]; rfl, rfl, ?_⟩
    refine ⟨by show st.cur + 1 ≤ _; omega, hsnaps, by show ResInv P (st.cur + 1) _; rw [f5]; exact .seen _, f1, hcalls, hseen, List.Pairwise.nil, t6,
      (fun hf => absurd hf (by rw [hstr]; simp)), fun _ => ⟨rfl, all ++ (after c st.rescale es).dcp, lost ++ lost', ?_, ?_, ?_, ?_⟩⟩
    · rw [List.map_append, List.nodup_append]
      refine ⟨a1, sorted_nodup f3, ?_⟩
      rintro x hx y hy rfl
      obtain ⟨⟨e, cp⟩, h1, rfl⟩ := List.mem_map.1 hx
      obtain ⟨⟨e', cp'⟩, h3, h4⟩ := List.mem_map.1 hy
      obtain ⟨t, ht, o1, -⟩ := (a2 e cp).1 h1
      obtain ⟨o2, -⟩ := (hdcp e' cp').1 h3
      simp only at h4
      subst h4
      have := own_time o1 o2
      omega
    · intro e cp
      rw [List.mem_append, a2, hdcp]
      exact (found_step hm hT e cp).symm
    · show ((old ++ new).flatMap Traj.pts ++ (lost ++ lost').map Prod.snd).Perm _
      rw [List.map_append, List.map_append]
      have e1 : ((old ++ new).flatMap Traj.pts ++ (lost.map Prod.snd ++ lost'.map Prod.snd)).Perm
          ((st.trajs.flatMap Traj.pts ++ kept.map Prod.snd) ++ (lost.map Prod.snd ++ lost'.map Prod.snd)) :=
        t3.append_right _
      refine e1.trans ?_
      have e2 : ((kept ++ lost').map Prod.snd).Perm ((after c st.rescale es).dcp.map Prod.snd) := t2.map _
      rw [List.map_append] at e2
      refine List.Perm.trans ?_ (a3.append e2)
      rw [List.append_assoc, List.append_assoc]
      refine List.Perm.append_left _ ?_
      rw [← List.append_assoc, ← List.append_assoc]
      exact List.perm_append_comm.append_right _
    · intro kv hkv
      have hmono : ∀ keys : List Elem, (∀ y ∈ keys, y ∈ (all ++ (after c st.rescale es).dcp).map Prod.fst) →
          2 < deg (nbs (d + 1)) keys kv.1 →
          2 < deg (nbs (d + 1)) ((all ++ (after c st.rescale es).dcp).map Prod.fst) kv.1 := by
        intro keys hk hd
        exact lt_of_lt_of_le hd (deg_mono _ hk _)
      rcases List.mem_append.1 hkv with hkv | hkv
      · obtain ⟨b1, b2⟩ := a4 kv hkv
        exact ⟨by simp [b1], hmono _ (by intro y hy; rw [List.map_append]; simp only [List.mem_append]; exact .inl hy) b2⟩
      · refine ⟨?_, hmono _ (by intro y hy; rw [List.map_append]; simp only [List.mem_append]; exact .inr hy) (t4 kv hkv)⟩
        exact List.mem_append.2 (.inr (t2.mem_iff.1 (by simp [hkv])))
  · have hstr' : c.streaming = false := by simpa using hstr
    rw [if_neg (fun hh => hstr hh.1)] at hup
    obtain ⟨o1, o2⟩ := h.off hstr'
    refine ⟨{ after c st.rescale es with snaps := st.snaps.tail, cur := st.cur + 1 },
      by simp only [advance, hup]; rfl, rfl, ?_⟩
    refine ⟨by show st.cur + 1 ≤ _; omega, hsnaps, by show ResInv P (st.cur + 1) _; rw [f5]; exact .seen _, f1, hcalls, hseen, f3, h.trajs,
      fun _ => ⟨o1, ?_⟩, fun hf => absurd hf hstr⟩
    intro e cp
    show (e, cp) ∈ (after c st.rescale es).dcp ↔ _
    rw [f6, o2, hes']
    exact (found_step hm hT e cp).symm

end Verif.Trk
