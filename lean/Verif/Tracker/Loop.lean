import Verif.Tracker.Drive
import Verif.Tracker.Offline
/-! # C47: the time loop of the trackers -/
namespace Verif.Trk
open Verif.Ser (lookup mapPut Sorted)
open Verif.SRM
variable {d : Nat} {γ : Type}

/-! ## specification of the histories -/

/-- the snapshots pushed by a sequence of calls -/
def pushes : List (Op d) → List (Snap d)
  | [] => []
  | .push s :: os => s :: pushes os
  | _ :: os => pushes os

/-- number of calls of `advance_timestep` -/
def advances : List (Op d) → Nat
  | [] => 0
  | .advance _ :: os => advances os + 1
  | _ :: os => advances os

/-- pushes and advances in any order, as long as each advance finds two snapshots; `k` snapshots are
there at the beginning -/
def Ahead : Nat → List (Op d) → Prop
  | _, [] => True
  | k, .push _ :: os => Ahead (k + 1) os
  | k, .advance _ :: os => 2 ≤ k ∧ Ahead (k - 1) os
  | _, .update _ :: _ => False

/-- every call executes all its tasks -/
def AllComplete (c : Cfg d γ) (os : List (Op d)) : Prop :=
  ∀ o ∈ os, match o with
    | .push _ => True
    | .advance ord => Complete c ord
    | .update ord => Complete c ord

/-! ## lemmas -/

theorem runOps_append (c : Cfg d γ) : ∀ (a b : List (Op d)) (st : St d γ),
    run c (a ++ b) st = (run c a st).bind fun st' => run c b st'
  | [], _, _ => rfl
  | o :: a, b, st => by
    simp only [List.cons_append, run]
    cases step c st o with
    | none => rfl
    | some st' => exact runOps_append c a b st'

theorem run_ahead {c : Cfg d γ} (hc : Shaped c) : ∀ (os : List (Op d)) (P : List (Snap d)) (m : Nat → Nat) (st : St d γ),
    Inv c P m st → (∀ s ∈ P, Covers c s) → (∀ s ∈ pushes os, Covers c s) → AllComplete c os → Ahead st.snaps.length os →
    ∃ st' m', run c os st = some st' ∧ Inv c (P ++ pushes os) m' st' ∧ st'.cur = st.cur + advances os
  | [], P, m, st, h, _, _, _, _ => ⟨st, m, rfl, by simpa [pushes] using h, by simp [advances]⟩
  | .push s :: os, P, m, st, h, hP, hp, hcm, ha => by
    obtain ⟨st', m', e, i, q⟩ := run_ahead hc os (P ++ [s]) m (push s st) (inv_push h s)
      (by intro s' hs'; rcases List.mem_append.1 hs' with h1 | h1
          · exact hP _ h1
          · simp only [List.mem_singleton] at h1; subst h1; exact hp s' (by simp [pushes]))
      (fun s' hs' => hp s' (by simp [pushes, hs'])) (fun o ho => hcm o (by simp [ho]))
      (by have : (push s st).snaps.length = st.snaps.length + 1 := by simp [push]
          rw [this]; exact ha)
    refine ⟨st', m', by simp only [run, step, e], ?_, by simpa [advances, push] using q⟩
    simpa [pushes] using i
  | .advance ord :: os, P, m, st, h, hP, hp, hcm, ha => by
    obtain ⟨st1, e1, hcur, i1⟩ := inv_advance hc (hcm (.advance ord) (by simp)) hP h ha.1
      (m' := fun t => if t = st.cur then P.length else m t) (fun t ht => if_neg (by omega)) (if_pos rfl)
    have hl : st1.snaps.length = st.snaps.length - 1 := by
      rw [i1.snaps, h.snaps, List.length_drop, List.length_drop, hcur]; omega
    obtain ⟨st', m', e, i, q⟩ := run_ahead hc os P _ st1 i1 hP (fun s' hs' => hp s' (by simpa [pushes] using hs'))
      (fun o ho => hcm o (by simp [ho])) (by rw [hl]; exact ha.2)
    refine ⟨st', m', by simp only [run, step, e1, e], by simpa [pushes] using i, ?_⟩
    rw [q, hcur]
    simp only [advances]
    omega
  | .update ord :: os, P, m, st, h, hP, hp, hcm, ha => absurd ha id

/-- at the last timestep no point can be found on an interval facet -/
theorem detect_last {c : Cfg d γ} {P : List (Snap d)} {f : Int} {t : Nat} {e : Elem} (he : Facet d e)
    (ht : AtTime (d + 1) e.corner t) (hlen : t + 1 = P.length) (ho : e.type ∉ scopeTypes (d + 1) d .ordinal) :
    detect c P f t e = none := by
  obtain ⟨vs, hvs, -, -⟩ := facet_vertices he ht
  have hty := he.type
  rw [he.dim] at hty
  have hint : e.type ∈ scopeTypes (d + 1) e.dim .interval := by
    rw [he.dim]
    rcases mem_both.1 hty with h | h
    · exact absurd h ho
    · exact h
  obtain ⟨-, -, v, hv, hvt⟩ := (C16_times (d + 1) (by omega) e (by rw [he.dim]; omega) he.len t ht vs hvs).2.1 hint
  have hr : absRead c P v = none := by
    unfold AtTime at hvt
    simp only [Nat.add_sub_cancel] at hvt
    unfold absRead
    simp only [hvt]
    rw [if_neg (by omega), List.getElem?_eq_none (by omega)]
  have hra : readAll (absRead c P) vs = none := by
    clear hvs
    induction vs with
    | nil => cases hv
    | cons w vs ih =>
      rcases List.mem_cons.1 hv with rfl | hv
      · simp only [readAll, hr]
      · simp only [readAll, ih hv]
        cases absRead c P w <;> rfl
  unfold detect checkWith
  simp only [hvs, hra]
  by_cases hval : elemValid (d + 1) c.bounds e <;> simp [hval]

theorem spans_iff {e : Elem} (he : Facet d e) (T t : Nat) :
    Spans d T e t ↔ AtTime (d + 1) e.corner t ∧ t < T ∧ (e.type ∈ scopeTypes (d + 1) d .ordinal ∨ t + 1 < T) := by
  unfold Spans
  refine and_congr_right fun ht => ?_
  obtain ⟨vs, hvs, hlen, hall⟩ := facet_vertices he ht
  have hty := he.type
  rw [he.dim] at hty
  have hcell := cell_of_elem (n := d + 1) (by omega) (by rw [he.dim]; omega) rfl he.len hvs
  have atinj : ∀ {v : Vtx} {a b : Int}, AtTime (d + 1) v a → AtTime (d + 1) v b → a = b := by
    intro v a b h1 h2
    unfold AtTime at h1 h2
    rw [h1] at h2
    simpa using h2
  constructor
  · rintro ⟨vs', h1, h2⟩
    rw [hvs] at h1
    cases h1
    constructor
    · obtain ⟨x, hx, hlt⟩ := h2 _ (List.mem_of_mem_head? hcell.head)
      have := atinj ht hx
      omega
    · by_cases ho : e.type ∈ scopeTypes (d + 1) d .ordinal
      · exact .inl ho
      · right
        have hint : e.type ∈ scopeTypes (d + 1) e.dim .interval := by
          rw [he.dim]
          rcases mem_both.1 hty with h | h
          · exact absurd h ho
          · exact h
        obtain ⟨-, -, v, hv, hvt⟩ := (C16_times (d + 1) (by omega) e (by rw [he.dim]; omega) he.len t ht vs hvs).2.1 hint
        obtain ⟨x, hx, hlt⟩ := h2 v hv
        have := atinj hvt hx
        omega
  · rintro ⟨h1, h2⟩
    refine ⟨vs, hvs, fun v hv => ?_⟩
    rcases (hall v hv).2 with h | ⟨h, ho⟩
    · exact ⟨t, h, h1⟩
    · rcases h2 with h2 | h2
      · exact absurd h2 ho
      · exact ⟨t + 1, by simpa using h, h2⟩

/-- the final `update_timestep`, one snapshot being left -/
theorem final_update {c : Cfg d γ} (hc : Shaped c) {ord : Scope → List Int} (ho : Complete c ord)
    {P : List (Snap d)} (hP : ∀ s ∈ P, Covers c s) {m m' : Nat → Nat} {st : St d γ} (h : Inv c P m st)
    (h1 : st.cur + 1 = P.length) (hm : ∀ t < st.cur, m' t = m t) (hT : m' st.cur = P.length) :
    ∃ st', update c ord st = some st' ∧ st'.cur = st.cur ∧ st'.trajs = st.trajs ∧ st'.calls.Nodup ∧
      (∀ e t, (e, t) ∈ st'.calls ↔ Facet d e ∧ InCore c e ∧ Spans d P.length e t) ∧ Sorted st'.dcp ∧
      (∀ e cp, (e, cp) ∈ st'.dcp ↔ Found c P m' P.length e cp ∧ (c.streaming = true → cp.timestep + 1 = P.length)) := by
  obtain ⟨es, hn, hes, hup⟩ := update_spec hc ho st
  have hsl : st.snaps.length = 1 := by rw [h.snaps, List.length_drop]; omega
  have hes' : ∀ e, e ∈ es ↔ Own c st.cur e ∧ e.type ∈ scopeTypes (d + 1) d .ordinal := by
    intro e
    rw [hes, hsl]
    constructor
    · rintro ⟨a, b, g, k | k⟩
      · exact ⟨⟨a, b, g⟩, k⟩
      · omega
    · rintro ⟨⟨a, b, g⟩, k⟩; exact ⟨a, b, g, .inl k⟩
  have hsome : ∀ e ∈ es, (check c st.rescale e).isSome := by
    intro e he
    have := (hes' e).1 he
    exact check_isSome hc hP (st := st.rescale) h.snaps this.1.facet this.1.time this.1.core (by
      have : st.rescale.snaps = st.snaps := rfl
      rw [this]; omega) (.inl this.2)
  rw [if_pos hsome, if_neg (by omega)] at hup
  obtain ⟨f1, f2, f3, f4, f5, f6⟩ := after_facts h hn fun e he => ((hes' e).1 he).1
  refine ⟨_, hup, rfl, rfl, f1, ?_, f3, ?_⟩
  · intro e t
    rw [f2, hes']
    constructor
    · rintro (⟨a, b⟩ | ⟨rfl, b, ho⟩)
      · exact ⟨b.facet, b.core, (spans_iff b.facet _ _).2 ⟨b.time, by omega, .inr (by omega)⟩⟩
      · exact ⟨b.facet, b.core, (spans_iff b.facet _ _).2 ⟨b.time, by omega, .inl ho⟩⟩
    · rintro ⟨a, b, g⟩
      obtain ⟨g1, g2, g3⟩ := (spans_iff a _ _).1 g
      by_cases htt : t = st.cur
      · subst htt
        rcases g3 with g3 | g3
        · exact .inr ⟨rfl, ⟨a, g1, b⟩, g3⟩
        · omega
      · exact .inl ⟨by omega, a, g1, b⟩
  · intro e cp
    rw [f6, hes']
    have hstep := found_step (c := c) hm hT e cp
    rw [h1] at hstep
    rw [hstep]
    have hts : ∀ {f : Int} {t : Nat} {e : Elem} {cp : CP γ}, detect c P f t e = some cp → cp.timestep = t := by
      intro f t e cp hd
      unfold detect at hd
      split at hd
      · rename_i cp' hh
        split at hd
        · cases hd
          unfold checkWith at hh
          split at hh
          · split at hh
            · cases hh
            · split at hh
              · cases hh
              · split at hh
                · cases hh; rfl
                · cases hh
          · cases hh
        · cases hd
      · cases hd
    constructor
    · rintro (hd | ⟨⟨a, b⟩, g⟩)
      · by_cases hs : c.streaming = true
        · rw [(h.on hs).1] at hd; cases hd
        · exact ⟨.inl (((h.off (by simpa using hs)).2 e cp).1 hd), fun hh => absurd hh hs⟩
      · exact ⟨.inr ⟨a, g⟩, fun _ => by rw [hts g]; exact h1⟩
    · rintro ⟨hd | ⟨a, g⟩, hs⟩
      · by_cases hstr : c.streaming = true
        · obtain ⟨t, ht, -, hd⟩ := hd
          have := hs hstr
          rw [hts hd] at this
          omega
        · exact .inl (((h.off (by simpa using hstr)).2 e cp).2 hd)
      · by_cases ho : e.type ∈ scopeTypes (d + 1) d .ordinal
        · exact .inr ⟨⟨a, ho⟩, g⟩
        · rw [detect_last a.facet a.time h1 ho] at g
          cases g

/-! ## theorems -/

/-- C47, every push pattern: when `T ≥ 1` snapshots are pushed and `T - 1` advances made, in any order as
long as each advance finds two snapshots, and then `update_timestep` is called, with any thread schedule of
each scan, then nothing undefined happens; every facet of the spacetime mesh whose corner lies in the core
and whose vertices all lie at times `0 … T-1` has been tested exactly once, and nothing else; and
(without streaming) the points recorded are exactly those that the series says — each vertex's value taken
from the snapshot numbered by the vertex's time. -/
theorem C47_exactly_once (c : Cfg d γ) (hc : Shaped c) (os : List (Op d)) (series : List (Snap d))
    (hser : pushes os = series) (hT : advances os + 1 = series.length) (hah : Ahead 0 os)
    (hcov : ∀ s ∈ series, Covers c s) (hcomp : AllComplete c os) (ord : Scope → List Int) (ho : Complete c ord) :
    ∃ st m, run c (os ++ [.update ord]) St.init = some st ∧
      st.calls.Nodup ∧
      (∀ e t, (e, t) ∈ st.calls ↔ Facet d e ∧ InCore c e ∧ Spans d series.length e t) ∧
      Sorted st.dcp ∧ (∀ t < series.length, min (t + 2) series.length ≤ m t ∧ m t ≤ series.length) ∧
      (c.streaming = false → ∀ e cp, (e, cp) ∈ st.dcp ↔ Found c series m series.length e cp) := by
  obtain ⟨st, m, e, i, q⟩ := run_ahead hc os [] (fun _ => 0) St.init (inv_init c _) (by simp)
    (by rw [hser]; exact hcov) hcomp (by simpa [St.init] using hah)
  rw [List.nil_append, hser] at i
  have hcur : st.cur + 1 = series.length := by rw [q]; simp only [St.init]; omega
  obtain ⟨st', e', -, -, p1, p2, p3, p4⟩ := final_update hc ho hcov i hcur
    (m' := fun t => if t = st.cur then series.length else m t) (fun t ht => if_neg (by omega)) (if_pos rfl)
  refine ⟨st', fun t => if t = st.cur then series.length else m t, ?_, p1, p2, p3, ?_, fun hs e cp => ?_⟩
  · rw [runOps_append, e]
    simp only [Option.bind_some, run, step, e']
  · intro t ht
    by_cases htt : t = st.cur
    · subst htt; simp
    · have := i.seen t (by omega)
      simp only [htt, if_false]
      omega
  · rw [p4]
    simp [hs]

/-! ### the driver -/

/-- the calls of the driver before the final `update_timestep` -/
def phases (ord : Nat → Scope → List Int) (p : List (Snap d)) : List (Op d) :=
  ((List.range p.length).zip p).flatMap fun ks =>
    Op.push ks.2 :: (if ks.1 ≠ 0 then [Op.advance (ord (ks.1 - 1))] else [])

theorem phases_snoc (ord : Nat → Scope → List Int) (p : List (Snap d)) (s : Snap d) :
    phases ord (p ++ [s]) = phases ord p ++
      (Op.push s :: (if p.length ≠ 0 then [Op.advance (ord (p.length - 1))] else [])) := by
  unfold phases
  rw [List.length_append, List.length_singleton, List.range_succ, List.zip_append (by simp)]
  rw [List.flatMap_append]
  simp

theorem driveOps_snoc (ord : Nat → Scope → List Int) (p : List (Snap d)) (s : Snap d) :
    driveOps (p ++ [s]) ord = phases ord (p ++ [s]) ++ [Op.update (ord p.length)] := by
  rw [phases_snoc]
  unfold driveOps phases
  rw [List.length_append, List.length_singleton, List.range_succ, List.zip_append (by simp)]
  rw [List.flatMap_append]
  have h1 : ((List.range p.length).zip p).flatMap (fun ks => Op.push ks.2 :: ((if ks.1 ≠ 0 then [Op.advance (ord (ks.1 - 1))] else []) ++
      if ks.1 + 1 = p.length + 1 then [Op.update (ord ks.1)] else [])) =
      ((List.range p.length).zip p).flatMap fun ks =>
        Op.push ks.2 :: (if ks.1 ≠ 0 then [Op.advance (ord (ks.1 - 1))] else []) := by
    apply List.flatMap_congr
    rintro ⟨k, s'⟩ hk
    have : k < p.length := by simpa using (List.of_mem_zip hk).1
    have h2 : ¬ (k + 1 = p.length + 1) := by omega
    simp only [if_neg h2, List.append_nil]
  rw [h1]
  simp

theorem run_phases {c : Cfg d γ} (hc : Shaped c) (ord : Nat → Scope → List Int) (ho : ∀ k, Complete c (ord k))
    (p : List (Snap d)) : (∀ s ∈ p, Covers c s) → p ≠ [] → ∃ st, run c (phases ord p) St.init = some st ∧
      Inv c p (fun t => t + 2) st ∧ st.cur + 1 = p.length := by
  induction p using List.reverseRecOn with
  | nil => intro _ h; exact absurd rfl h
  | append_singleton p s ih =>
    intro hcov _
    rw [phases_snoc, runOps_append]
    rcases List.eq_nil_or_concat p with rfl | ⟨p0, s0, hp⟩
    · refine ⟨push s St.init, by simp [phases, run, step], inv_push (inv_init c _) s, by simp [push, St.init]⟩
    · rw [List.concat_eq_append] at hp
      subst hp
      obtain ⟨st, e, i, q⟩ := ih (fun s' hs' => hcov s' (by simp at hs' ⊢; tauto)) (by simp)
      have i' := inv_push i s
      have hcur : (push s st).cur = st.cur := rfl
      have hl : (push s st).snaps.length = 2 := by
        rw [i'.snaps, List.length_drop, hcur]
        simp only [List.length_append, List.length_singleton] at q ⊢
        omega
      obtain ⟨st1, e1, hc1, i1⟩ := inv_advance hc (ho ((p0 ++ [s0]).length - 1)) hcov i' (by omega)
        (m' := fun t => t + 2) (fun _ _ => rfl) (by
          rw [hcur]
          simp only [List.length_append, List.length_singleton] at q ⊢
          omega)
      refine ⟨st1, ?_, i1, ?_⟩
      · rw [e]
        simp only [Option.bind_some]
        rw [if_pos (by simp)]
        simp only [run, step, e1]
      · rw [hc1, hcur]
        simp only [List.length_append, List.length_singleton] at q ⊢
        omega

/-- C47 for the driver's loop (push each snapshot, advance after every one but the first, `update_timestep`
after the last): as above; here timestep `t` is processed with the scaling factor computed from the
snapshots `0 … t+1`. -/
theorem C47_driver (c : Cfg d γ) (hc : Shaped c) (series : List (Snap d)) (hne : series ≠ [])
    (hcov : ∀ s ∈ series, Covers c s) (ord : Nat → Scope → List Int) (ho : ∀ k, Complete c (ord k)) :
    ∃ st, run c (driveOps series ord) St.init = some st ∧
      st.calls.Nodup ∧
      (∀ e t, (e, t) ∈ st.calls ↔ Facet d e ∧ InCore c e ∧ Spans d series.length e t) ∧
      Sorted st.dcp ∧
      (c.streaming = false → st.trajs = [] ∧
        ∀ e cp, (e, cp) ∈ st.dcp ↔ Found c series (fun t => t + 2) series.length e cp) := by
  obtain ⟨p, s, rfl⟩ : ∃ p s, series = p ++ [s] := by
    rcases List.eq_nil_or_concat series with h | ⟨p, s, h⟩
    · exact absurd h hne
    · exact ⟨p, s, by rw [h, List.concat_eq_append]⟩
  obtain ⟨st, e, i, q⟩ := run_phases hc ord ho (p ++ [s]) hcov (by simp)
  have hm : ∀ e cp, Found c (p ++ [s]) (fun t => if t = st.cur then (p ++ [s]).length else t + 2) (p ++ [s]).length e cp ↔
      Found c (p ++ [s]) (fun t => t + 2) (p ++ [s]).length e cp := by
    intro e cp
    unfold Found
    refine exists_congr fun t => and_congr_right fun ht => and_congr_right fun _ => ?_
    by_cases htt : t = st.cur
    · simp only [htt, if_true]
      rw [List.take_length, List.take_of_length_le (by omega)]
    · simp only [htt, if_false]
  obtain ⟨st', e', -, h3, p1, p2, p3, p4⟩ := final_update hc (ho p.length) hcov i q
    (m' := fun t => if t = st.cur then (p ++ [s]).length else t + 2) (fun t ht => if_neg (by omega)) (if_pos rfl)
  refine ⟨st', ?_, p1, p2, p3, fun hs => ⟨by rw [h3, (i.off hs).1], fun e cp => ?_⟩⟩
  · rw [driveOps_snoc, runOps_append, e]
    simp only [Option.bind_some, run, step, e']
  · rw [p4, hm]
    simp [hs]

/-- C48 for the streaming tracker: after the driver's loop over `T` snapshots, the trajectories hold, each
once, the points found with earliest time before `T - 1`, except for `lost` ones, which have more than two
neighbors among the points found; consecutive points of a trajectory lie on facets of one cell. -/
theorem C48_streaming_tracker (c : Cfg d γ) (hc : Shaped c) (hstr : c.streaming = true) (series : List (Snap d))
    (hne : series ≠ []) (hcov : ∀ s ∈ series, Covers c s) (ord : Nat → Scope → List Int) (ho : ∀ k, Complete c (ord k)) :
    ∃ (ts : List (Traj (CP γ))) (all lost : List (Elem × CP γ)), track c series ord = some ts ∧
      (all.map Prod.fst).Nodup ∧
      (∀ e cp, (e, cp) ∈ all ↔ Found c series (fun t => t + 2) (series.length - 1) e cp) ∧
      (ts.flatMap Traj.pts ++ lost.map Prod.snd).Perm (all.map Prod.snd) ∧
      (∀ kv ∈ lost, kv ∈ all ∧ 2 < deg (nbs (d + 1)) (all.map Prod.fst) kv.1) ∧
      (∀ kv ∈ all, elemOf c kv.2 = kv.1) ∧
      ∀ t ∈ ts, t.pts ≠ [] ∧ Chained (nbs (d + 1)) (elemOf c) t.pts := by
  obtain ⟨p, s, rfl⟩ : ∃ p s, series = p ++ [s] := by
    rcases List.eq_nil_or_concat series with h | ⟨p, s, h⟩
    · exact absurd h hne
    · exact ⟨p, s, by rw [h, List.concat_eq_append]⟩
  obtain ⟨st, e, i, q⟩ := run_phases hc ord ho (p ++ [s]) hcov (by simp)
  obtain ⟨st', e', -, h3, -⟩ := final_update hc (ho p.length) hcov i q
    (m' := fun t => if t = st.cur then (p ++ [s]).length else t + 2) (fun t ht => if_neg (by omega)) (if_pos rfl)
  obtain ⟨-, all, lost, a1, a2, a3, a4⟩ := i.on hstr
  have hT : (p ++ [s]).length - 1 = st.cur := by omega
  refine ⟨st.trajs, all, lost, ?_, a1, by rw [hT]; exact a2, a3, a4, ?_, i.trajs⟩
  · unfold track
    rw [driveOps_snoc, runOps_append, e]
    simp only [Option.bind_some, run, step, e', finalize, hstr, if_true, h3]
  · rintro ⟨e, cp⟩ h
    exact found_elem hc ((a2 e cp).1 h)

/-- **Violation** of the expectation behind C48 in streaming mode: no point of the last timestep is ever
put on a trajectory. -/
theorem C48_streaming_loses_last_timestep (c : Cfg d γ) (hc : Shaped c) (hstr : c.streaming = true)
    (series : List (Snap d)) (hne : series ≠ []) (hcov : ∀ s ∈ series, Covers c s)
    (ord : Nat → Scope → List Int) (ho : ∀ k, Complete c (ord k)) (ts : List (Traj (CP γ)))
    (hts : track c series ord = some ts) (t : Traj (CP γ)) (ht : t ∈ ts) (cp : CP γ) (hcp : cp ∈ t.pts) :
    cp.timestep + 1 < series.length := by
  obtain ⟨ts', all, lost, e, -, h2, h3, -⟩ := C48_streaming_tracker c hc hstr series hne hcov ord ho
  rw [hts] at e
  cases e
  have hmem : cp ∈ all.map Prod.snd := h3.mem_iff.1 (by
    rw [List.mem_append]
    exact .inl (List.mem_flatMap.2 ⟨t, ht, hcp⟩))
  obtain ⟨⟨e, cp'⟩, hm, rfl⟩ := List.mem_map.1 hmem
  obtain ⟨t', ht', -, hd⟩ := (h2 e cp').1 hm
  have : cp'.timestep = t' := by
    unfold detect at hd
    split at hd
    · rename_i cp'' hh
      split at hd
      · cases hd
        unfold checkWith at hh
        split at hh
        · split at hh
          · cases hh
          · split at hh
            · cases hh
            · split at hh
              · cases hh; rfl
              · cases hh
        · cases hh
      · cases hd
    · cases hd
  simp only
  omega

/-- C47, several processes: if the cores tile the domain, every facet with its spatial corner in the domain
belongs to exactly one process, … -/
theorem C47_one_process (domain : Lat.Lattice) (cores : List Lat.Lattice) (ht : Lat.Tiles domain cores) (x : Vtx)
    (hx : Lat.InBox domain x) :
    ∃ i, (∃ l, cores[i]? = some l ∧ Lat.InBox l x) ∧ ∀ (j : Nat) (l' : Lat.Lattice), cores[j]? = some l' → Lat.InBox l' x → j = i := by
  obtain ⟨l, hl, hlx⟩ := ht.cover x hx
  obtain ⟨i, hi, rfl⟩ := List.getElem_of_mem hl
  refine ⟨i, ⟨_, List.getElem?_eq_getElem hi, hlx⟩, ?_⟩
  intro j l' hj hjx
  obtain ⟨hj', rfl⟩ := List.getElem?_eq_some_iff.1 hj
  have hp := List.pairwise_iff_getElem.1 ht.disjoint
  rcases Nat.lt_trichotomy i j with h | h | h
  · exact absurd hjx (hp i j hi hj' h x hlx)
  · exact h.symm
  · exact absurd hlx (hp j i hj' hi h x hjx)

/-- … and the points found by all processes together are those a single process finds (arrays not
partial: every process has the same snapshots). -/
theorem C47_processes_together (c : Cfg d γ) (cores : List Lat.Lattice) (ht : Lat.Tiles c.domain cores)
    (series : List (Snap d)) (m : Nat → Nat) (T : Nat) (e : Elem) (cp : CP γ) :
    Found { c with core := c.domain } series m T e cp ↔
      ∃ l ∈ cores, Found { c with core := l } series m T e cp := by
  unfold Found
  constructor
  · rintro ⟨t, h1, h2, h3⟩
    obtain ⟨l, hl, hlx⟩ := ht.cover _ h2.core
    exact ⟨l, hl, t, h1, ⟨h2.facet, h2.time, hlx⟩, h3⟩
  · rintro ⟨l, hl, t, h1, h2, h3⟩
    exact ⟨t, h1, ⟨h2.facet, h2.time, ht.inside l hl _ h2.core⟩, h3⟩

theorem sorted_ext {α β : Type} [LinearOrder α] : ∀ {m m' : List (α × β)}, Sorted m → Sorted m' →
    (∀ k v, (k, v) ∈ m ↔ (k, v) ∈ m') → m = m' := by
  intro m m' h h' hm
  have nd : ∀ {l : List (α × β)}, Sorted l → l.Nodup := fun hl => List.Nodup.of_map _ (sorted_nodup hl)
  have hp : m.Perm m' := (List.perm_ext_iff_of_nodup (nd h) (nd h')).2 fun ⟨k, v⟩ => hm k v
  refine hp.eq_of_pairwise ?_ h h'
  intro a b _ _ h1 h2
  exact absurd (lt_trans h1 h2) (lt_irrefl _)

/-- C47: the trajectories (without streaming) do not depend on how the threads interleave. -/
theorem C47_schedule_independent (c : Cfg d γ) (hc : Shaped c) (hoff : c.streaming = false) (series : List (Snap d))
    (hne : series ≠ []) (hcov : ∀ s ∈ series, Covers c s) (ord ord' : Nat → Scope → List Int)
    (ho : ∀ k, Complete c (ord k)) (ho' : ∀ k, Complete c (ord' k)) :
    track c series ord = track c series ord' := by
  obtain ⟨st, e, -, -, s1, h⟩ := C47_driver c hc series hne hcov ord ho
  obtain ⟨st', e', -, -, s2, h'⟩ := C47_driver c hc series hne hcov ord' ho'
  have hd : st.dcp = st'.dcp := sorted_ext s1 s2 fun k v => ((h hoff).2 k v).trans ((h' hoff).2 k v).symm
  unfold track
  rw [e, e']
  simp only [finalize, hoff, hd, (h hoff).1, (h' hoff).1]

end Verif.Trk
