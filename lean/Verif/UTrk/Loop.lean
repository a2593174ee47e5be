import Verif.UTrk.Drive
/-! The time loop of the unstructured tracker: whole runs. -/
namespace Verif.UTrk
open Verif.Ser (lookup mapPut Sorted)
open Verif.Trk (Snap CP Traj Op scale ResInv minRes deg Chained pushes advances Ahead phases phases_snoc driveOps_snoc)
open Verif.XM (below time Base)
open Verif.SRM (Scope)
variable {γ : Type} {n0 : Nat} {ts : List UM.Tri} {m : UM.M2}

theorem run_append (c : Cfg γ) : ∀ (a b : List (Op 2)) (st : St γ),
    run c (a ++ b) st = (run c a st).bind fun st' => run c b st'
  | [], _, _ => rfl
  | o :: a, b, st => by
    simp only [List.cons_append, run]
    cases step c st o with
    | none => rfl
    | some st' => exact run_append c a b st'

theorem run_ahead (G : Geo n0 ts m) {c : Cfg γ} (hm : c.m = m) : ∀ (os : List (Op 2)) (P : List (Snap 2)) (k : Nat → Nat) (st : St γ),
    Inv c n0 P k st → (∀ s ∈ P, Covers n0 s) → (∀ s ∈ pushes os, Covers n0 s) → AllComplete m os → Ahead st.snaps.length os →
    ∃ st' k', run c os st = some st' ∧ Inv c n0 (P ++ pushes os) k' st' ∧ st'.cur = st.cur + advances os
  | [], P, k, st, h, _, _, _, _ => ⟨st, k, rfl, by simpa [pushes] using h, by simp [advances]⟩
  | .push s :: os, P, k, st, h, hP, hp, hcm, ha => by
    obtain ⟨st', k', e, i, q⟩ := run_ahead G hm os (P ++ [s]) k (push s st) (inv_push G hm h s)
      (by intro s' hs'; rcases List.mem_append.1 hs' with h1 | h1
          · exact hP _ h1
          · simp only [List.mem_singleton] at h1; subst h1; exact hp s' (by simp [pushes]))
      (fun s' hs' => hp s' (by simp [pushes, hs'])) (fun o ho => hcm o (by simp [ho]))
      (by have : (push s st).snaps.length = st.snaps.length + 1 := by simp [push]
          rw [this]; exact ha)
    refine ⟨st', k', by simp only [run, step, e], ?_, by simpa [advances, push] using q⟩
    simpa [pushes] using i
  | .advance ord :: os, P, k, st, h, hP, hp, hcm, ha => by
    obtain ⟨st1, e1, hcur, i1⟩ := inv_advance G hm (hcm (.advance ord) (by simp)) hP h ha.1
      (k' := fun t => if t = st.cur then P.length else k t) (fun t ht => if_neg (by omega)) (if_pos rfl)
    have hl : st1.snaps.length = st.snaps.length - 1 := by
      rw [i1.snaps, h.snaps, List.length_drop, List.length_drop, hcur]; omega
    obtain ⟨st', k', e, i, q⟩ := run_ahead G hm os P _ st1 i1 hP (fun s' hs' => hp s' (by simpa [pushes] using hs'))
      (fun o ho => hcm o (by simp [ho])) (by rw [hl]; exact ha.2)
    refine ⟨st', k', by simp only [run, step, e1, e], by simpa [pushes] using i, ?_⟩
    rw [q, hcur]
    simp only [advances]
    omega
  | .update ord :: os, P, k, st, h, hP, hp, hcm, ha => absurd ha id

/-- at the last timestep no point can be found on an interval triangle -/
theorem detect_last (G : Geo n0 ts m) {c : Cfg γ} (hm : c.m = m) {P : List (Snap 2)} {f : Int} {t : Nat} {e : Int}
    (he : Own m t e) (hlen : t + 1 = P.length) {cp : CP (Info γ)} (hd : detect c n0 P f t e = some cp) :
    e ∈ XM.ordinalIds m 2 t := by
  obtain ⟨v0, v1, v2, o, F⟩ := G.facet he
  cases o with
  | true => exact F.same.1 rfl
  | false =>
    exfalso
    obtain ⟨v, hv, hvt⟩ := F.spanT rfl
    have hr : absRead n0 P v = none := by
      unfold absRead
      rw [hvt, if_neg (by omega), List.getElem?_eq_none (by omega)]
    have ha : all3 (fun v => (absRead n0 P v).bind finite2) v0 v1 v2 = none := by
      simp only [List.mem_cons, List.not_mem_nil, or_false] at hv
      unfold all3
      rcases hv with rfl | rfl | rfl
      · simp [hr]
      · simp only [hr, Option.bind_none]
        rcases (absRead n0 P v0).bind finite2 with _ | _ <;> rfl
      · simp only [hr, Option.bind_none]
        rcases (absRead n0 P v0).bind finite2 with _ | _ <;> rcases (absRead n0 P v1).bind finite2 with _ | _ <;> rfl
    unfold detect checkWith at hd
    rw [hm, F.get, F.ord] at hd
    simp only [ha] at hd
    cases hd

theorem spans_iff (G : Geo n0 ts m) (T : Nat) (e : Int) (t : Nat) :
    Spans n0 m T e t ↔ Own m t e ∧ t < T ∧ (e ∈ XM.ordinalIds m 2 t ∨ t + 1 < T) := by
  have hN2 := G.pos2
  constructor
  · rintro ⟨h0, v, l, h1, h2, -, h3⟩
    have how : Own m t e := by
      obtain ⟨order, ho, hb⟩ := G.built
      obtain ⟨vs, g1, -, -, v', l', g2, g3⟩ := XM.C51_get_simplex ho G.valid hb (d := 2) (by omega) hN2 e (.inl h0)
      rw [h1] at g1
      cases g1
      cases g2
      exact ⟨h0, by rw [← g3, h2]⟩
    obtain ⟨v0, v1, v2, o, F⟩ := G.facet how
    rw [F.get] at h1
    cases h1
    refine ⟨how, ?_, ?_⟩
    · have := h3 v (by simp); omega
    · cases o with
      | true => exact .inl (F.same.1 rfl)
      | false =>
        obtain ⟨v, hv, hvt⟩ := F.spanT rfl
        have := h3 v hv
        exact .inr (by omega)
  · rintro ⟨how, h1, h2⟩
    obtain ⟨v0, v1, v2, o, F⟩ := G.facet how
    refine ⟨how.1, v0, [v1, v2], F.get, F.first, ?_, ?_⟩
    · intro v hv
      rcases F.times v hv with h | h <;> omega
    · intro v hv
      rcases h2 with h2 | h2
      · have := F.flatT (F.same.2 h2) v hv; omega
      · rcases F.times v hv with h | h <;> omega

/-- the final `update_timestep`, one snapshot being left -/
theorem final_update (G : Geo n0 ts m) {c : Cfg γ} (hm : c.m = m) {ord : Scope → List Int} (ho : Complete m ord)
    {P : List (Snap 2)} (hP : ∀ s ∈ P, Covers n0 s) {k k' : Nat → Nat} {st : St γ} (h : Inv c n0 P k st)
    (h1 : st.cur + 1 = P.length) (hk : ∀ t < st.cur, k' t = k t) (hT : k' st.cur = P.length) :
    ∃ st', update c ord st = some st' ∧ st'.calls.Nodup ∧
      (∀ e t, (e, t) ∈ st'.calls ↔ Spans n0 m P.length e t) ∧ Res c n0 P k' P.length st' := by
  have hsl : st.snaps.length = 1 := by rw [h.snaps, List.length_drop]; omega
  obtain ⟨st', e1, -, -, -, e5, e6, e7⟩ := update_inv G hm ho hP h (by omega) hk hT
    (fun e cp hown _ hd => detect_last G hm hown h1 hd)
  refine ⟨st', e1, e5, ?_, by rw [← h1]; exact e7⟩
  intro e t
  rw [e6, spans_iff G]
  constructor
  · rintro (⟨a, b⟩ | ⟨rfl, b, h' | h'⟩)
    · exact ⟨b, by omega, .inr (by omega)⟩
    · exact ⟨b, by omega, .inl h'⟩
    · omega
  · rintro ⟨a, b, g⟩
    by_cases htt : t = st.cur
    · subst htt
      rcases g with g | g
      · exact .inr ⟨rfl, a, .inl g⟩
      · omega
    · exact .inl ⟨by omega, a⟩

theorem run_phases (G : Geo n0 ts m) {c : Cfg γ} (hm : c.m = m) (ord : Nat → Scope → List Int) (ho : ∀ k, Complete m (ord k))
    (p : List (Snap 2)) : (∀ s ∈ p, Covers n0 s) → p ≠ [] → ∃ st, run c (phases ord p) St.init = some st ∧
      Inv c n0 p (fun t => t + 2) st ∧ st.cur + 1 = p.length := by
  induction p using List.reverseRecOn with
  | nil => intro _ h; exact absurd rfl h
  | append_singleton p s ih =>
    intro hcov _
    rw [phases_snoc, run_append]
    rcases List.eq_nil_or_concat p with rfl | ⟨p0, s0, hp⟩
    · refine ⟨push s St.init, by simp [phases, run, step], inv_push G hm (inv_init c n0 _) s, by simp [push, St.init]⟩
    · rw [List.concat_eq_append] at hp
      subst hp
      obtain ⟨st, e, i, q⟩ := ih (fun s' hs' => hcov s' (by simp at hs' ⊢; tauto)) (by simp)
      have i' := inv_push G hm i s
      have hcur : (push s st).cur = st.cur := rfl
      have hl : (push s st).snaps.length = 2 := by
        rw [i'.snaps, List.length_drop, hcur]
        simp only [List.length_append, List.length_singleton] at q ⊢
        omega
      obtain ⟨st1, e1, hc1, i1⟩ := inv_advance G hm (ho ((p0 ++ [s0]).length - 1)) hcov i' (by omega)
        (k' := fun t => t + 2) (fun _ _ => rfl) (by
          rw [hcur]
          simp only [List.length_append, List.length_singleton] at q ⊢
          omega)
      refine ⟨st1, ?_, i1, ?_⟩
      · rw [e]
        simp only [Option.bind_some]
        rw [if_pos (by simp)]
        simp only [run, step, e1]
      · rw [hc1, hcur]
        simp only [List.length_append, List.length_singleton] at q ⊢
        omega

/-- a whole run of the driver's loop -/
theorem run_driver (G : Geo n0 ts m) {c : Cfg γ} (hm : c.m = m) (series : List (Snap 2)) (hne : series ≠ [])
    (hcov : ∀ s ∈ series, Covers n0 s) (ord : Nat → Scope → List Int) (ho : ∀ k, Complete m (ord k)) :
    ∃ st, run c (Trk.driveOps series ord) St.init = some st ∧ st.calls.Nodup ∧
      (∀ e t, (e, t) ∈ st.calls ↔ Spans n0 m series.length e t) ∧
      Res c n0 series (fun t => t + 2) series.length st := by
  obtain ⟨p, s, rfl⟩ : ∃ p s, series = p ++ [s] := by
    rcases List.eq_nil_or_concat series with h | ⟨p, s, h⟩
    · exact absurd h hne
    · exact ⟨p, s, by rw [h, List.concat_eq_append]⟩
  obtain ⟨st, e, i, q⟩ := run_phases G hm ord ho (p ++ [s]) hcov (by simp)
  have hfm : ∀ e cp, Found c n0 (p ++ [s]) (fun t => if t = st.cur then (p ++ [s]).length else t + 2) (p ++ [s]).length e cp ↔
      Found c n0 (p ++ [s]) (fun t => t + 2) (p ++ [s]).length e cp := by
    intro e cp
    unfold Found
    refine exists_congr fun t => and_congr_right fun ht => and_congr_right fun _ => ?_
    by_cases htt : t = st.cur
    · simp only [htt, if_true]
      rw [List.take_length, List.take_of_length_le (by omega)]
    · simp only [htt, if_false]
  obtain ⟨st', e', p1, p2, p3⟩ := final_update G hm (ho p.length) hcov i q
    (k' := fun t => if t = st.cur then (p ++ [s]).length else t + 2) (fun t ht => if_neg (by omega)) (if_pos rfl)
  refine ⟨st', ?_, p1, p2, p3.sorted, p3.trajs, p3.tags, fun hs => ⟨(p3.off hs).1, fun e cp => ((p3.off hs).2 e cp).trans (hfm e cp)⟩,
    fun hs => ?_⟩
  · rw [driveOps_snoc, run_append, e]
    simp only [Option.bind_some, run, step, e']
  · obtain ⟨a, all, lost, b, f, g⟩ := p3.on hs
    exact ⟨a, all, lost, b, fun e cp => (f e cp).trans (hfm e cp), g⟩

end Verif.UTrk
