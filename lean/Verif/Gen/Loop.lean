import Verif.Gen.Model
import Verif.Contour.Detect
/-! What the generic time loop records, for any per-element test with a specification. -/
namespace Verif.Gen
open Verif.Ser (lookup mapPut Sorted)
open Verif.SRM
open Verif.Trk (lookup_of_mem lookup_some_mem)
open Verif.Ctr (IsElem atTime_inj)
variable {S P : Type}

/-- what the loop needs from the test, `P` the snapshots pushed so far: on the elements it is called for, the test returns,
and finds exactly what the specification `Det` says; elements whose snapshots are not there yet are not found; later
snapshots change nothing. -/
structure Meets (g : Prog S P) (Ok : List S → Prop) (Det : List S → Nat → Elem → P → Prop) : Prop where
  pos : 1 ≤ g.d
  kle : g.k ≤ g.d
  clen : g.core.starts.length = g.d ∧ g.core.sizes.length = g.d
  ok : ∀ Q R, Ok (Q ++ R) → Ok Q
  chk : ∀ Q (t : Nat) e, Ok Q → t < Q.length → IsElem (g.d + 1) g.k e → AtTime (g.d + 1) e.corner t →
    Lat.InBox g.core (e.corner.take g.d) →
    (e.type ∈ scopeTypes (g.d + 1) g.k .ordinal ∨ t + 2 ≤ Q.length) →
    ∃ o, g.chk t (Q.drop t) e = some o ∧ ∀ p, o = some p ↔ Det Q t e p
  kind : ∀ Q (t : Nat) e p, IsElem (g.d + 1) g.k e → AtTime (g.d + 1) e.corner t → Det Q t e p →
    Lat.InBox g.core (e.corner.take g.d) ∧ (e.type ∈ scopeTypes (g.d + 1) g.k .ordinal ∨ t + 2 ≤ Q.length)
  later : ∀ Q R (t : Nat) e p, IsElem (g.d + 1) g.k e → AtTime (g.d + 1) e.corner t → t + 2 ≤ Q.length →
    (Det (Q ++ R) t e p ↔ Det Q t e p)

/-- the tasks run are those of the scan, each once, in any order -/
def Complete (g : Prog S P) (ord : Scope → List Int) : Prop :=
  ∀ sc, (ord sc).Perm ((List.range (g.core.sizes.prod * (scopeTypes (g.d + 1) g.k sc).length)).map Int.ofNat)

/-- the boxes of a tracker as those of a critical point tracker -/
def toTrk (g : Prog S P) : Trk.Cfg g.d Unit :=
  { domain := g.core, core := g.core, astart := g.core.starts, t0 := 0, t1 := 0, streaming := false,
    test := fun _ _ => false, detail := fun _ _ => (), keep := fun _ => true }

section
variable {g : Prog S P} {Ok : List S → Prop} {Det : List S → Nat → Elem → P → Prop}

theorem toTrk_shaped (h : Meets g Ok Det) : Trk.Shaped (toTrk g) where
  pos := h.pos
  dlen := h.clen
  clen := h.clen
  alen := h.clen.1

theorem visitAll_spec (g : Prog S P) (chk : Elem → Option P) : ∀ (es : List Elem) (st : St S P),
    (∀ e ∈ es, g.chk st.cur st.snaps e = some (chk e)) → Sorted st.inter →
    ∃ st', visitAll g (es.map some) st = some st' ∧ st'.snaps = st.snaps ∧ st'.cur = st.cur ∧ Sorted st'.inter ∧
      ∀ x, lookup x st'.inter = if x ∈ es then (chk x).or (lookup x st.inter) else lookup x st.inter
  | [], st, _, h1 => ⟨st, rfl, rfl, rfl, h1, by simp⟩
  | e :: es, st, h, h1 => by
    have hck := h e (by simp)
    obtain ⟨st1, v1, s1, s2, s3, s5⟩ : ∃ st1, visit g st e = some st1 ∧ st1.snaps = st.snaps ∧ st1.cur = st.cur ∧
        Sorted st1.inter ∧
        ∀ x, lookup x st1.inter = if x = e then (chk x).or (lookup x st.inter) else lookup x st.inter := by
      unfold visit
      rw [hck]
      cases hp : chk e with
      | none =>
        refine ⟨st, rfl, rfl, rfl, h1, fun x => ?_⟩
        by_cases hx : x = e
        · subst hx; simp [hp]
        · simp [hx]
      | some p =>
        refine ⟨_, rfl, rfl, rfl, Comm.sorted_mapPut _ _ _ h1, fun x => ?_⟩
        show lookup x (mapPut e p st.inter) = _
        rw [Comm.lookup_mapPut]
        by_cases hx : x = e
        · subst hx; simp [hp]
        · simp [hx]
    obtain ⟨st', w, t1, t2, t3, t5⟩ := visitAll_spec g chk es st1 (by
      intro x hx
      rw [s1, s2]
      exact h x (by simp [hx])) s3
    refine ⟨st', by simp only [List.map_cons, visitAll, v1, w], t1.trans s1, t2.trans s2, t3, fun x => ?_⟩
    rw [t5, s5]
    by_cases hx : x = e
    · subst hx
      by_cases hm : x ∈ es
      · simp only [hm, if_true, List.mem_cons, or_true]
        cases chk x <;> simp
      · simp [hm]
    · simp [hx]

/-- element `e` with earliest time below `T` is detected, with point `p` -/
def FoundBefore (g : Prog S P) (Det : List S → Nat → Elem → P → Prop) (Q : List S) (T : Nat) (e : Elem) (p : P) : Prop :=
  ∃ t < T, IsElem (g.d + 1) g.k e ∧ AtTime (g.d + 1) e.corner t ∧ Det Q t e p

/-- the state when the timesteps below `T` have been processed -/
structure Holds (g : Prog S P) (Det : List S → Nat → Elem → P → Prop) (Q : List S) (T : Nat) (st : St S P) : Prop where
  snaps : st.snaps = Q.drop st.cur
  sorted : Sorted st.inter
  inter : ∀ e p, (e, p) ∈ st.inter ↔ FoundBefore g Det Q T e p

/-- one `update_timestep` processes the current timestep -/
theorem update_holds (hm : Meets g Ok Det) {Q : List S} (hP : Ok Q) {ord : Scope → List Int} (ho : Complete g ord)
    {st : St S P} (h : Holds g Det Q st.cur st) (h1 : st.cur < Q.length) :
    ∃ st', update g ord st = some st' ∧ st'.cur = st.cur ∧ Holds g Det Q (st.cur + 1) st' := by
  have hd := hm.pos
  have hk := hm.kle
  have hscan : ∀ (sc : Scope) (st0 : St S P), st0.snaps = st.snaps → st0.cur = st.cur → Sorted st0.inter →
      (sc = .ordinal ∨ 2 ≤ st.snaps.length) →
      ∃ (st' : St S P) (es : List Elem), scan g sc (ord sc) st0 = some st' ∧ st'.snaps = st.snaps ∧ st'.cur = st.cur ∧
        Sorted st'.inter ∧
        (∀ e, e ∈ es ↔ IsElem (g.d + 1) g.k e ∧ AtTime (g.d + 1) e.corner st.cur ∧ Lat.InBox g.core (e.corner.take g.d) ∧
          e.type ∈ scopeTypes (g.d + 1) g.k sc) ∧
        ∀ e p, (e, p) ∈ st'.inter ↔ (e ∈ es ∧ FoundBefore g Det Q (st.cur + 1) e p) ∨ ((e, p) ∈ st0.inter ∧
          ¬ (e ∈ es ∧ ∃ q, FoundBefore g Det Q (st.cur + 1) e q)) := by
    intro sc st0 q1 q2 q3 q5
    have hts := toTrk_shaped hm
    obtain ⟨es, e1, -, e3⟩ := Trk.calls_spec (g.d + 1) g.k (slab g st0.cur)
      (Trk.slab_wf (c := toTrk g) hts st0.cur) sc (ord sc) (by
        have : (slab g st0.cur).sizes.prod = g.core.sizes.prod := by simp [slab]
        rw [this]; exact ho sc)
    have hes : ∀ e, e ∈ es ↔ IsElem (g.d + 1) g.k e ∧ AtTime (g.d + 1) e.corner st.cur ∧
        Lat.InBox g.core (e.corner.take g.d) ∧ e.type ∈ scopeTypes (g.d + 1) g.k sc := by
      intro e
      rw [e3]
      have hb := Trk.inBox_slab (c := toTrk g) hts st0.cur e.corner
      rw [show Lat.InBox (slab g st0.cur) e.corner ↔ _ from hb, q2]
      constructor
      · rintro ⟨⟨a, b, c⟩, hd, t⟩
        exact ⟨⟨hd, a, by rw [hd]; exact ((mem_scopeTypes (by omega) _ _).1 t).1⟩, b, c, t⟩
      · rintro ⟨⟨a, b, c⟩, h, k, t⟩
        exact ⟨⟨b, h, k⟩, a, t⟩
    have hck : ∀ e ∈ es, ∃ o, g.chk st0.cur st0.snaps e = some o ∧
        ∀ p, o = some p ↔ FoundBefore g Det Q (st.cur + 1) e p := by
      intro e he
      obtain ⟨a, b, c, t⟩ := (hes e).1 he
      obtain ⟨o, o1, o2⟩ := hm.chk Q st.cur e hP h1 a b c (by
        rcases q5 with rfl | q5
        · exact .inl t
        · rw [h.snaps, List.length_drop] at q5
          exact .inr (by omega))
      refine ⟨o, by rw [q1, q2, h.snaps]; exact o1, fun p => ?_⟩
      rw [o2]
      constructor
      · intro hp
        exact ⟨st.cur, by omega, a, b, hp⟩
      · rintro ⟨t, ht, -, hat, hp⟩
        have : t = st.cur := by exact_mod_cast atTime_inj hat b
        subst this
        exact hp
    obtain ⟨st', v1, v2, v3, v4, v6⟩ := visitAll_spec g (fun e => (g.chk st0.cur st0.snaps e).getD none) es st0 (by
      intro e he
      obtain ⟨o, o1, -⟩ := hck e he
      rw [o1]; rfl) q3
    refine ⟨st', es, by unfold scan; rw [e1]; exact v1, v2.trans q1, v3.trans q2, v4, hes, fun e p => ?_⟩
    have hl : ∀ (m : List (Elem × P)), Sorted m → ((e, p) ∈ m ↔ lookup e m = some p) :=
      fun m hm => ⟨lookup_of_mem hm, lookup_some_mem⟩
    rw [hl _ v4, hl _ q3, v6]
    by_cases he : e ∈ es
    · obtain ⟨o, o1, o2⟩ := hck e he
      simp only [he, if_true, o1, Option.getD_some, true_and, ← o2]
      cases o with
      | none => simp
      | some q => simp
    · simp [he]
  have hold : ∀ e p, FoundBefore g Det Q (st.cur + 1) e p ↔ FoundBefore g Det Q st.cur e p ∨
      (AtTime (g.d + 1) e.corner st.cur ∧ FoundBefore g Det Q (st.cur + 1) e p) := by
    intro e p
    constructor
    · rintro ⟨t, ht, r⟩
      by_cases htt : t = st.cur
      · subst htt; exact .inr ⟨r.2.1, _, ht, r⟩
      · exact .inl ⟨t, by omega, r⟩
    · rintro (⟨t, ht, r⟩ | h)
      · exact ⟨t, by omega, r⟩
      · exact h.2
  have hnew : ∀ e p, FoundBefore g Det Q st.cur e p → ¬ AtTime (g.d + 1) e.corner st.cur := by
    rintro e p ⟨t, ht, -, r, -⟩ h
    have : t = st.cur := by exact_mod_cast atTime_inj r h
    omega
  have hkind : ∀ e p, AtTime (g.d + 1) e.corner st.cur → FoundBefore g Det Q (st.cur + 1) e p →
      IsElem (g.d + 1) g.k e ∧ Lat.InBox g.core (e.corner.take g.d) ∧ (e.type ∈ scopeTypes (g.d + 1) g.k .ordinal ∨
        (e.type ∈ scopeTypes (g.d + 1) g.k .interval ∧ 2 ≤ st.snaps.length)) := by
    rintro e p hat ⟨t, ht, hel, hat', hdet⟩
    obtain ⟨i1, i2⟩ := hm.kind Q t e p hel hat' hdet
    have htt : t = st.cur := by exact_mod_cast atTime_inj hat' hat
    refine ⟨hel, i1, ?_⟩
    by_cases hor : e.type ∈ scopeTypes (g.d + 1) g.k .ordinal
    · exact .inl hor
    · right
      have hty := hel.type
      rw [hel.dim] at hty
      constructor
      · rw [mem_scopeTypes (by omega)] at hor ⊢
        refine ⟨hty, ?_⟩
        cases h : isOrdinalType (g.d + 1) g.k e.type
        · rfl
        · exact absurd ⟨hty, h⟩ hor
      · rcases i2 with i2 | i2
        · exact absurd i2 hor
        · rw [h.snaps, List.length_drop]
          omega
  obtain ⟨st1, es1, a1, a2, a3, a4, a6, a7⟩ := hscan .ordinal st rfl rfl h.sorted (.inl rfl)
  by_cases h2 : 2 ≤ st.snaps.length
  · obtain ⟨st2, es2, b1, b2, b3, b4, b6, b7⟩ := hscan .interval st1 a2 a3 a4 (.inr h2)
    refine ⟨st2, ?_, b3, ⟨by rw [b2, b3, h.snaps], b4, fun e p => ?_⟩⟩
    · unfold update
      rw [a1]
      simp only
      rw [if_pos (by rw [a2]; exact h2), b1]
    · rw [b7, a7, h.inter]
      refine Iff.trans ?_ (hold e p).symm
      constructor
      · rintro (⟨he, hf⟩ | ⟨⟨he, hf⟩ | ⟨hf, -⟩, -⟩)
        · exact .inr ⟨((b6 e).1 he).2.1, hf⟩
        · exact .inr ⟨((a6 e).1 he).2.1, hf⟩
        · exact .inl hf
      · rintro (hf | ⟨hat, hf⟩)
        · refine .inr ⟨.inr ⟨hf, ?_⟩, ?_⟩
          · rintro ⟨he, -⟩; exact hnew e p hf ((a6 e).1 he).2.1
          · rintro ⟨he, -⟩; exact hnew e p hf ((b6 e).1 he).2.1
        · obtain ⟨k1, k2, k3⟩ := hkind e p hat hf
          rcases k3 with k3 | ⟨k3, -⟩
          · refine .inr ⟨.inl ⟨(a6 e).2 ⟨k1, hat, k2, k3⟩, hf⟩, ?_⟩
            rintro ⟨he, -⟩
            have q1 := ((mem_scopeTypes (n := g.d + 1) (d := g.k) (by omega) _ _).1 k3).2
            have q2 := ((mem_scopeTypes (n := g.d + 1) (d := g.k) (by omega) _ _).1 ((b6 e).1 he).2.2.2).2
            simp only at q1 q2
            rw [q1] at q2
            cases q2
          · exact .inl ⟨(b6 e).2 ⟨k1, hat, k2, k3⟩, hf⟩
  · refine ⟨st1, ?_, a3, ⟨by rw [a2, a3, h.snaps], a4, fun e p => ?_⟩⟩
    · unfold update
      rw [a1]
      simp only
      rw [if_neg (by rw [a2]; exact h2)]
    · rw [a7, h.inter]
      refine Iff.trans ?_ (hold e p).symm
      constructor
      · rintro (⟨he, hf⟩ | ⟨hf, -⟩)
        · exact .inr ⟨((a6 e).1 he).2.1, hf⟩
        · exact .inl hf
      · rintro (hf | ⟨hat, hf⟩)
        · refine .inr ⟨hf, ?_⟩
          rintro ⟨he, -⟩; exact hnew e p hf ((a6 e).1 he).2.1
        · obtain ⟨k1, k2, k3⟩ := hkind e p hat hf
          rcases k3 with k3 | ⟨-, k3⟩
          · exact .inl ⟨(a6 e).2 ⟨k1, hat, k2, k3⟩, hf⟩
          · exact absurd k3 h2

/-! ### the driver -/

theorem found_later (hm : Meets g Ok Det) {Q R : List S} {T : Nat} (hT : ∀ t < T, t + 2 ≤ Q.length) (e : Elem) (p : P) :
    FoundBefore g Det (Q ++ R) T e p ↔ FoundBefore g Det Q T e p :=
  exists_congr fun _ => and_congr_right fun ht => and_congr_right fun hel => and_congr_right fun hat =>
    hm.later Q R _ e p hel hat (hT _ ht)

theorem holds_push (hm : Meets g Ok Det) {Q : List S} {st : St S P} (h : Holds g Det Q st.cur st) (hle : st.cur ≤ Q.length)
    (hT : ∀ t < st.cur, t + 2 ≤ Q.length) (s : S) : Holds g Det (Q ++ [s]) st.cur (push s st) where
  snaps := by simp [push, h.snaps, List.drop_append_of_le_length hle]
  sorted := h.sorted
  inter := fun e p => (h.inter e p).trans (found_later hm hT e p).symm

theorem run_append (g : Prog S P) : ∀ (a b : List (Op S)) (st : St S P), run g (a ++ b) st = (run g a st).bind (run g b)
  | [], _, _ => rfl
  | o :: os, b, st => by
    simp only [List.cons_append, run]
    cases step g st o with
    | none => rfl
    | some st' => exact run_append g os b st'

/-- the calls of the driver before the final `update_timestep` -/
def phases (ord : Nat → Scope → List Int) (p : List S) : List (Op S) :=
  ((List.range p.length).zip p).flatMap fun ks =>
    Op.push ks.2 :: (if ks.1 ≠ 0 then [Op.advance (ord (ks.1 - 1))] else [])

theorem phases_snoc (ord : Nat → Scope → List Int) (p : List S) (s : S) :
    phases ord (p ++ [s]) = phases ord p ++
      (Op.push s :: (if p.length ≠ 0 then [Op.advance (ord (p.length - 1))] else [])) := by
  unfold phases
  rw [List.length_append, List.length_singleton, List.range_succ, List.zip_append (by simp)]
  rw [List.flatMap_append]
  simp

theorem driveOps_snoc (ord : Nat → Scope → List Int) (p : List S) (s : S) :
    driveOps (p ++ [s]) ord = phases ord (p ++ [s]) ++ [Op.update (ord p.length)] := by
  rw [phases_snoc]
  unfold driveOps phases
  rw [List.length_append, List.length_singleton, List.range_succ, List.zip_append (by simp)]
  rw [List.flatMap_append]
  have h1 : ((List.range p.length).zip p).flatMap (fun ks => Op.push ks.2 :: ((if ks.1 ≠ 0 then [Op.advance (ord (ks.1 - 1))] else []) ++
      if ks.1 + 1 = p.length + 1 then [Op.update (ord ks.1)] else [])) =
      ((List.range p.length).zip p).flatMap fun ks =>
        Op.push ks.2 :: (if ks.1 ≠ 0 then [Op.advance (ord (ks.1 - 1))] else []) := by
    apply List.flatMap_congr
    rintro ⟨k, s'⟩ hk
    have : k < p.length := by simpa using (List.of_mem_zip hk).1
    have h2 : ¬ (k + 1 = p.length + 1) := by omega
    simp only [if_neg h2, List.append_nil]
  rw [h1]
  simp

theorem run_phases (hm : Meets g Ok Det) (ord : Nat → Scope → List Int) (ho : ∀ k, Complete g (ord k))
    (p : List S) : Ok p → p ≠ [] → ∃ st, run g (phases ord p) St.init = some st ∧
      Holds g Det p st.cur st ∧ st.cur + 1 = p.length := by
  induction p using List.reverseRecOn with
  | nil => intro _ h; exact absurd rfl h
  | append_singleton p s ih =>
    intro hok _
    rw [phases_snoc, run_append]
    rcases List.eq_nil_or_concat p with rfl | ⟨p0, s0, hp⟩
    · refine ⟨push s St.init, by simp [phases, run, step], ?_, by simp [push, St.init]⟩
      refine ⟨by simp [push, St.init], List.Pairwise.nil, ?_⟩
      intro e p; simp [push, St.init, FoundBefore]
    · rw [List.concat_eq_append] at hp
      subst hp
      obtain ⟨st, e, i, q⟩ := ih (hm.ok _ _ hok) (by simp)
      have i' := holds_push hm i (by omega) (fun t ht => by omega) s
      have hcur : (push s st).cur = st.cur := rfl
      obtain ⟨st1, e1, hc1, i1⟩ := update_holds hm hok (ho ((p0 ++ [s0]).length - 1)) (st := push s st) i' (by
        rw [hcur]
        simp only [List.length_append, List.length_singleton] at q ⊢
        omega)
      refine ⟨{ st1 with snaps := st1.snaps.tail, cur := st1.cur + 1 }, ?_, ?_, ?_⟩
      · rw [e]
        simp only [Option.bind_some]
        rw [if_pos (by simp)]
        simp only [run, step, advance, e1]
      · refine ⟨?_, i1.sorted, ?_⟩
        · simp only [i1.snaps, List.tail_drop]
        · intro e p
          rw [hc1]
          exact i1.inter e p
      · simp only [hc1, hcur, List.length_append, List.length_singleton] at q ⊢
        omega

/-- the state after the driver's loop -/
theorem drive_holds (hm : Meets g Ok Det) {series : List S} (hok : Ok series) (hne : series ≠ [])
    (ord : Nat → Scope → List Int) (ho : ∀ k, Complete g (ord k)) :
    ∃ st, run g (driveOps series ord) St.init = some st ∧ Holds g Det series series.length st ∧
      st.cur + 1 = series.length := by
  obtain ⟨p, s, hs⟩ : ∃ p s, series = p ++ [s] := by
    rcases List.eq_nil_or_concat series with h | ⟨p, s, h⟩
    · exact absurd h hne
    · exact ⟨p, s, by rw [h, List.concat_eq_append]⟩
  obtain ⟨st, e, i, q⟩ := run_phases hm ord ho series hok hne
  obtain ⟨st', e', hc', i'⟩ := update_holds hm hok (ho p.length) i (by omega)
  refine ⟨st', ?_, by rw [q] at i'; exact i', by omega⟩
  subst hs
  rw [driveOps_snoc, run_append, e]
  simp only [Option.bind_some, run, step, e']

end

end Verif.Gen
