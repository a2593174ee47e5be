import Verif.X3Trk.Nbs
import Verif.UTrk.Curves
/-! # C128: the trajectories of the unstructured 3-D tracker follow the punctured tetrahedra through the pentachora -/
namespace Verif.X3T
open Verif.U3 Verif.X3
open Verif.Ser (lookup mapPut Sorted)
open Verif.Trk (Snap CP Traj scale quant nbits minRes dblMax Strip MadeOf offlineGroups offlineCurves offline_spec ordKeys traceOffline)
open Verif.SRM (Scope)
variable {γ : Type} {n0 : Nat} {ts : List Tet} {m : M3}

theorem vecAt_time {series : List (Snap 3)} {v : Int} {x : Fin 3 → Option Rat} (h : vecAt n0 series v = some x) :
    0 ≤ time n0 v ∧ time n0 v < series.length := by
  unfold vecAt at h
  by_cases h0 : time n0 v < 0
  · rw [if_pos h0] at h; cases h
  · rw [if_neg h0] at h
    by_contra hc
    rw [List.getElem?_eq_none (by omega)] at h
    cases h

theorem data_unique {series : List (Snap 3)} {e : Int} {v v' : Fin 4 → Int} {V V' : Fin 4 → Fin 3 → Rat}
    (h : Data n0 m series e v V) (h' : Data n0 m series e v' V') : v' = v ∧ V' = V := by
  have h1 := h.1
  rw [h'.1] at h1
  simp only [Option.some.injEq, List.cons.injEq, and_true] at h1
  have hv : v' = v := by rw [← vec4_eta v', h1.1, h1.2.1, h1.2.2.1, h1.2.2.2, vec4_eta]
  subst hv
  refine ⟨rfl, ?_⟩
  funext i j
  have h2 := h.2 i
  rw [h'.2 i] at h2
  exact Option.some.inj (congrFun (Option.some.inj h2) j)

/-- every vertex inside has a vector -/
theorem vec_of (G : Geo n0 ts m) (c : Cfg γ) {series : List (Snap 3)} (hcov : ∀ s ∈ series, VecField n0 s) {v : Int}
    (h0 : 0 ≤ time n0 v) (h1 : time n0 v < series.length) :
    ∃ x : Fin 3 → Rat, vecAt n0 series v = some fun j => some (x j) := by
  have := valueAt_some (g := cpProg c) G.num.2 (fun s hs => covers_of c (hcov s hs)) h0 h1
  obtain ⟨x, hx⟩ := Option.isSome_iff_exists.1 this
  exact ⟨x, (valueAt_cp c series v x).1 hx⟩

/-- a point is found exactly on the punctured tetrahedra, when none is degenerate -/
theorem found_iff (G : Geo n0 ts m) {c : Cfg γ} (hm : c.m = m) (hkeep : ∀ cp, c.keep cp = true) {series : List (Snap 3)} {F : Int}
    (hF : ∀ t < series.length, ∀ e v V, Data n0 m series e v V → (Hit (scale (series.take (t + 2))) v V ↔ Hit F v V))
    (hnd : ∀ e v V, 0 ≤ e → Data n0 m series e v V → Hit F v V → ¬ Degenerate V) (e : Int) :
    (∃ p, ∃ t, Says (cpProg c) n0 series (minRes (series.take (t + 2))) t e p) ↔ Punctured n0 m series F e := by
  have hlt : ∀ {v : Fin 4 → Int} {V : Fin 4 → Fin 3 → Rat} {t : Nat}, Data n0 m series e v V → Earliest n0 v t → t < series.length := by
    intro v V t hd hE
    obtain ⟨i, hi⟩ := hE.2
    have := (vecAt_time (hd.2 i)).2
    omega
  constructor
  · rintro ⟨p, t, hs⟩
    obtain ⟨h0, v, V, w, o, h1, h2, h3, -⟩ := (C126_detected_iff G c hm series _ t e p).1 hs
    exact ⟨h0, v, V, h1, (hF t (hlt h1 h2) e v V h1).1 h3⟩
  · rintro ⟨h0, v, V, hd, hh⟩
    have hq : 0 ≤ e / n m 3 := Int.ediv_nonneg h0 (le_of_lt (G.pos (.inr rfl)))
    obtain ⟨vs, F'⟩ := G.facet (.inr rfl) (d := 3) (t := (e / n m 3).toNat) (e := e) (by omega) h0
    have hvs : vs = [v 0, v 1, v 2, v 3] := by
      have d1 := hd.1
      rw [F'.get] at d1
      exact Option.some.inj d1
    have hE : Earliest n0 v (e / n m 3).toNat := by
      refine ⟨fun i => ?_, ?_⟩
      · have := F'.times (v i) (by rw [hvs]; fin_cases i <;> simp)
        omega
      · obtain ⟨u, l, h1, h2⟩ := F'.first
        rw [hvs] at h1
        simp only [List.cons.injEq] at h1
        exact ⟨0, by rw [h1.1]; exact h2⟩
    obtain ⟨p, hp⟩ := (C126_punctured_partial G c hm series (minRes (series.take ((e / n m 3).toNat + 2))) _ e h0 v V hd hE
      ((hF _ (hlt hd hE) e v V hd).2 hh)).2 (hnd e v V h0 hd hh) hkeep
    exact ⟨p, _, hp⟩

/-- an inside pentachoron has no or two punctured facets -/
theorem cell_parity (G : Geo n0 ts m) (c : Cfg γ) {series : List (Snap 3)} (hcov : ∀ s ∈ series, VecField n0 s) (F : Int) {e : Int} {ps : List PV}
    (he : Is m 4 e ps) (hin : ∀ p ∈ ps, 0 ≤ p.2 ∧ p.2 < series.length) :
    (∀ f, Punctured n0 m series F f → ¬ Facets m f e) ∨
    ∃ f g, f ≠ g ∧ ∀ h, (Punctured n0 m series F h ∧ Facets m h e) ↔ h = f ∨ h = g := by
  obtain ⟨w, g, winj, wpos, hw, ginj, hg, hall⟩ := cell_faces G he (fun p hp => (hin p hp).1)
  have hread : ∀ i, ∃ x : Fin 3 → Rat, vecAt n0 series (w i) = some fun j => some (x j) := by
    intro i
    obtain ⟨p, hp, hpw⟩ := List.mem_map.1 (hw i)
    have hf := he.facts.2.2.1 p hp
    have ht := (enc_facts G.base.hn0 hf.1 hf.2.1).2
    rw [hpw] at ht
    have := hin p hp
    exact vec_of G c hcov (by omega) (by omega)
  choose V hV using hread
  have hp : ∀ k, Punctured n0 m series F (g k) ↔
      SoS.criticalPointInSimplex3 (fun i => (fun i j => quant F (V i j)) (Fin.succAbove k i)) (fun i => w (Fin.succAbove k i)) = true := by
    intro k
    have hd : Data n0 m series (g k) (fun i => w (k.succAbove i)) (fun i => V (k.succAbove i)) :=
      ⟨(hg k).2.1, fun i => hV _⟩
    constructor
    · rintro ⟨-, v, V', hd', hh⟩
      obtain ⟨rfl, rfl⟩ := data_unique hd hd'
      exact hh
    · intro h
      exact ⟨(hg k).1, _, _, hd, h⟩
  rcases Trk.zeroOrTwo_3d (fun i j => quant F (V i j)) w winj wpos with hz | ⟨a, b, hab, hk⟩
  · left
    rintro f hpf ⟨fs, hf1, hf2⟩
    obtain ⟨k, rfl⟩ := hall f fs hf1 hf2
    have := (hp k).1 hpf
    rw [hz k] at this
    cases this
  · right
    refine ⟨g a, g b, fun h => hab (ginj h), fun h => ?_⟩
    constructor
    · rintro ⟨hph, fs, hf1, hf2⟩
      obtain ⟨k, rfl⟩ := hall h fs hf1 hf2
      rcases (hk k).1 ((hp k).1 hph) with rfl | rfl
      · exact .inl rfl
      · exact .inr rfl
    · rintro (rfl | rfl)
      · exact ⟨(hp a).2 ((hk a).2 (.inl rfl)), (hg a).2.2⟩
      · exact ⟨(hp b).2 ((hk b).2 (.inr rfl)), (hg b).2.2⟩

theorem punctured_times (G : Geo n0 ts m) {series : List (Snap 3)} {F : Int} {f : Int} (h : Punctured n0 m series F f) {fs : List PV}
    (hfs : Is m 3 f fs) : ∀ p ∈ fs, 0 ≤ p.2 ∧ p.2 < series.length := by
  obtain ⟨h0, v, V, hd, -⟩ := h
  have h1 := hd.1
  rw [get3 h0 hfs] at h1
  have h1 := Option.some.inj h1
  intro p hp
  have hf := hfs.facts.2.2.1 p hp
  have ht := (enc_facts G.base.hn0 hf.1 hf.2.1).2
  have hm : enc m p ∈ [v 0, v 1, v 2, v 3] := by rw [← h1]; exact List.mem_map.2 ⟨p, hp, rfl⟩
  rw [← ht]
  simp only [List.mem_cons, List.not_mem_nil, or_false] at hm
  rcases hm with h | h | h | h <;> rw [h] <;> exact vecAt_time (hd.2 _)

/-- the recorded tetrahedra form a strip -/
theorem strip (G : Geo n0 ts m) (hM : Manifold ts) (c : Cfg γ) {series : List (Snap 3)} (hcov : ∀ s ∈ series, VecField n0 s) (F : Int) {K : List Int}
    (hK : ∀ f, f ∈ K ↔ Punctured n0 m series F f) : Strip (nbR m) (face m) (inside m series.length) K where
  two := fun f hf => face_two G hM ((hK f).1 hf).1
  cover := by
    rintro f hf g hg hfg (e | e) h1 h2
    · obtain ⟨ps, hps⟩ := is4 G e
      obtain ⟨fs, f1, f2⟩ := h1
      obtain ⟨gs, g1, g2⟩ := h2
      refine ⟨ps, hps, fun p hp => ?_⟩
      rcases (faces_cover G f1 g1 hps hfg f2 g2 p).1 hp with h | h
      · exact punctured_times G ((hK f).1 hf) f1 p h
      · exact punctured_times G ((hK g).1 hg) g1 p h
    · exact absurd (h1.1.symm.trans h2.1) hfg
  parity := by
    rintro (e | e) hin f hf hfe
    · obtain ⟨ps, hps, hin⟩ := hin
      rcases cell_parity G c hcov F hps hin with hz | ⟨p, q, hpq, hall⟩
      · exact absurd hfe (hz f ((hK f).1 hf))
      · have hp := (hall p).2 (.inl rfl)
        have hq := (hall q).2 (.inr rfl)
        rcases (hall f).1 ⟨(hK f).1 hf, hfe⟩ with rfl | rfl
        · exact ⟨q, (hK q).2 hq.1, Ne.symm hpq, hq.2, fun h hh hhe => (hall h).1 ⟨(hK h).1 hh, hhe⟩⟩
        · exact ⟨p, (hK p).2 hp.1, hpq, hp.2, fun h hh hhe => ((hall h).1 ⟨(hK h).1 hh, hhe⟩).symm⟩
    · exact hin.elim
  one := by
    rintro f hf g hg hfg (e | e) (e' | e') h1 h2 h3 h4
    · obtain ⟨fs, f1, f2⟩ := h1
      obtain ⟨gs, g1, g2⟩ := h2
      exact congrArg _ (cell_one G f1 g1 hfg f2 g2 ((facets_of f1).1 h3) ((facets_of g1).1 h4))
    · exact absurd (h3.1.symm.trans h4.1) hfg
    · exact absurd (h1.1.symm.trans h2.1) hfg
    · exact absurd (h1.1.symm.trans h2.1) hfg
  adj := by
    intro f hf g hg
    rw [mem_nbR G hM]
    constructor
    · rintro ⟨-, -, e, h1, h2⟩
      exact ⟨.inl e, h1, h2⟩
    · rintro ⟨e | e, h1, h2⟩
      · exact ⟨((hK f).1 hf).1, ((hK g).1 hg).1, e, h1, h2⟩
      · obtain ⟨rfl, a, ha⟩ := h1
        obtain ⟨rfl, -⟩ := h2
        exact ⟨((hK _).1 hf).1, ((hK _).1 hf).1, a, (ha a).2 rfl, (ha a).2 rfl⟩
  nodup := nbR_nodup G hM
  symm := nbR_symm G hM

theorem curvesOf_eq {nb : Int → List Int} {dcp : List (Int × CP (Info γ))} (hs : Sorted dcp)
    (he : ∀ kv ∈ dcp, kv.2.tag = kv.1) {cs : List (List Int)} {trs : List (Traj (CP (Info γ)))}
    (h : List.Forall₂ (MadeOf nb dcp) cs trs) : curvesOf trs = cs := by
  unfold curvesOf
  induction h with
  | nil => rfl
  | @cons k t cs ts hm _ ih =>
    rw [List.map_cons, ih]
    congr 1
    have hp := hm.pts
    generalize t.pts = ps at hp
    clear hm ih
    induction ps generalizing k with
    | nil =>
      simp only [List.map_nil] at hp
      exact (List.map_eq_nil_iff.1 hp.symm).symm
    | cons p ps ih =>
      rcases k with _ | ⟨x, k⟩
      · simp at hp
      · simp only [List.map_cons, List.cons.injEq] at hp ⊢
        refine ⟨?_, ih hp.2⟩
        exact he (x, p) ((mem_iff_lookup hs).2 hp.1.symm)

/-- a face of a cell outside is at the boundary -/
theorem boundary_of (G : Geo n0 ts m) (hM : Manifold ts) {T : Nat} {f : Int} (hf : 0 ≤ f) {e : Int ⊕ Int} (he : face m f e)
    (ho : ¬ inside m T e) : AtBoundary n0 ts m 3 T f := by
  intro ws ws' hw hw' hfw hfw'
  obtain ⟨a, pa, ha, ia, rfl⟩ := (inside_is G (by omega)).1 hw
  obtain ⟨b, pb, hb, ib, rfl⟩ := (inside_is G (by omega)).1 hw'
  have hfa := (faceOf_is G hf ha).1 hfw
  have hfb := (faceOf_is G hf hb).1 hfw'
  obtain ⟨x, y, hxy, hall⟩ := face_two G hM hf
  have h1 := (hall (.inl a)).1 hfa
  have h2 := (hall (.inl b)).1 hfb
  have h3 := (hall e).1 he
  have n1 : e ≠ .inl a := fun h => ho (by rw [h]; exact ⟨pa, ha, ia⟩)
  have n2 : e ≠ .inl b := fun h => ho (by rw [h]; exact ⟨pb, hb, ib⟩)
  have : (Sum.inl a : Int ⊕ Int) = .inl b := by
    rcases h1 with h1 | h1 <;> rcases h2 with h2 | h2 <;> rcases h3 with h3 | h3
    · rw [h1, h2]
    · rw [h1, h2]
    · exact absurd (h3.trans h1.symm) n1
    · exact absurd (h3.trans h2.symm) n2
    · exact absurd (h3.trans h2.symm) n2
    · exact absurd (h3.trans h1.symm) n1
    · rw [h1, h2]
    · rw [h1, h2]
  obtain rfl := Sum.inl.inj this
  obtain rfl := ha.func hb
  rfl

/-- C128, when the changes of the scaling factor during the run do not change what is detected. -/
theorem follows_of_detect (G : Geo n0 ts m) (hM : Manifold ts) (c : Cfg γ) (hm : c.m = m) (hkeep : ∀ cp, c.keep cp = true)
    (series : List (Snap 3)) (hne : series ≠ []) (hcov : ∀ s ∈ series, VecField n0 s)
    (F : Int) (hF : ∀ t < series.length, ∀ e v V, Data n0 m series e v V → (Hit (scale (series.take (t + 2))) v V ↔ Hit F v V))
    (hnd : ∀ e v V, 0 ≤ e → Data n0 m series e v V → Hit F v V → ¬ Degenerate V)
    (ord : Nat → Order) (ho : ∀ k, Complete m 3 k (ord k)) :
    ∃ st gs, run (cpProg c) (driveOps Op.push series ord) (St.init dblMax) = some st ∧
      nbDefined m 3 (st.found.map Prod.fst) = true ∧
      offlineGroups (nb m 3) st.found = some gs ∧
      ∀ gs' : List (Int × List (Int × CP (Info γ))), gs'.Perm gs →
        ∃ trs, offlineCurves (nb m 3) gs' = some trs ∧ Follows n0 ts m series F trs := by
  obtain ⟨st, e, hs, hdcp⟩ := C126_driver G c hm series hne hcov ord ho
  have hK : ∀ f, f ∈ st.found.map Prod.fst ↔ Punctured n0 m series F f := by
    intro f
    rw [← found_iff G hm hkeep hF hnd]
    constructor
    · intro hf
      obtain ⟨⟨f', cp⟩, hm, rfl⟩ := List.mem_map.1 hf
      exact ⟨cp, (hdcp _ _).1 hm⟩
    · rintro ⟨cp, hm⟩
      exact List.mem_map.2 ⟨(f, cp), (hdcp _ _).2 hm, rfl⟩
  have htag : ∀ kv ∈ st.found, kv.2.tag = kv.1 := by
    rintro ⟨f, p⟩ h
    obtain ⟨t, h⟩ := (hdcp f p).1 h
    obtain ⟨-, v, V, w, o, -, -, -, -, -, -, rfl⟩ := (C126_detected_iff G c hm series _ t f p).1 h
    rfl
  have hsym := nbR_symm G hM
  have hnod := nbR_nodup G hM
  have hkeys : ∀ x ∈ st.found.map Prod.fst, 0 ≤ x := fun x hx => ((hK x).1 hx).1
  have hkeys' : ∀ x ∈ st.found.map Prod.fst, decide (0 ≤ x) = true := fun x hx => by simpa using hkeys x hx
  have hst := strip G hM c hcov F hK
  obtain ⟨gs, hg, hall⟩ := offline_spec (nbR m) hsym hnod st.found hs
  have hgm : ∀ g ∈ gs, ∀ x ∈ g.2.map Prod.fst, decide (0 ≤ x) = true := by
    intro g hgg x hx
    obtain ⟨gs2, h1, h2, -⟩ := Trk.offlineGroups_spec (nbR m) st.found hs
    rw [hg] at h1
    cases h1
    exact hkeys' x (((h2 g hgg).map Prod.fst).subset hx)
  refine ⟨st, gs, e, nbDefined_of G hM hkeys, ?_, fun gs' hperm => ?_⟩
  · rw [← Trk.offlineGroups_restr (nbR_restr m) st.found hkeys']
    exact hg
  obtain ⟨cs, trs, q1, q2, q3, q4, q5, q6⟩ := hall gs' hperm
  rw [Trk.offlineCurves_restr (nbR_restr m) hsym hnod gs' (fun g hg' => hgm g (hperm.mem_iff.1 hg'))] at q1
  have hcs : curvesOf trs = cs := curvesOf_eq hs htag q2
  have hmem : ∀ x, x ∈ cs.flatten ↔ x ∈ st.found.map Prod.fst := by
    intro x
    rw [q5]
    exact ⟨fun h => h.1, fun h => ⟨h, hst.deg_le_two h⟩⟩
  have hord : ordKeys (nbR m) (st.found.map Prod.fst) = st.found.map Prod.fst := by
    unfold ordKeys
    rw [List.filter_eq_self]
    intro x hx
    simpa using hst.deg_le_two hx
  rw [hord] at q6
  have hcurve : ∀ k ∈ cs, Strip.Curve (nbR m) (st.found.map Prod.fst) k := fun k hk =>
    ⟨fun x hx => (hmem x).1 (List.mem_flatten.2 ⟨k, hk, hx⟩), (List.nodup_flatten.1 q4).1 k hk, (q3 k hk).2⟩
  have hcl : ∀ k ∈ cs, ∀ x ∈ k, ∀ y ∈ st.found.map Prod.fst, y ∈ nbR m x → y ∈ k := by
    intro k hk x hx y hy hyx
    exact (q6 k hk x hx y ((hmem y).2 hy)).2 (.rel _ _ ⟨(hcurve k hk).sub x hx, hy, hyx⟩)
  have hshare : ∀ f ∈ st.found.map Prod.fst, ∀ g ∈ st.found.map Prod.fst, f ≠ g → g ∈ nbR m f → Share n0 ts m 3 series.length f g := by
    intro f hf g hg hfg hn
    obtain ⟨e, he1, he2⟩ := (hst.adj f hf g hg).1 hn
    have hin := hst.cover f hf g hg hfg e he1 he2
    rcases e with e | e
    · obtain ⟨ps, hps, hin⟩ := hin
      exact ⟨_, (inside_is G (by omega)).2 ⟨e, ps, hps, hin, rfl⟩, (faceOf_is G (hkeys f hf) hps).2 he1, (faceOf_is G (hkeys g hg) hps).2 he2⟩
    · exact hin.elim
  have hunshare : ∀ f ∈ st.found.map Prod.fst, ∀ g ∈ st.found.map Prod.fst, Share n0 ts m 3 series.length f g → g ∈ nbR m f := by
    rintro f hf g hg ⟨ws, he1, he2, he3⟩
    obtain ⟨e, ps, hps, -, rfl⟩ := (inside_is G (by omega)).1 he1
    exact (hst.adj f hf g hg).2 ⟨.inl e, (faceOf_is G (hkeys f hf) hps).1 he2, (faceOf_is G (hkeys g hg) hps).1 he3⟩
  have hendsne : ∀ k ∈ cs, ∀ a z, 2 ≤ k.length → k.head? = some a → k.getLast? = some z → z ≠ a := by
    intro k hk a z hl ha hz hza
    subst hza
    have hnd := (hcurve k hk).nodup
    rcases k with _ | ⟨x, k⟩
    · cases ha
    · simp only [List.head?_cons, Option.some.injEq] at ha
      subst ha
      rcases List.eq_nil_or_concat k with rfl | ⟨k', w, rfl⟩
      · simp at hl
      · rw [List.concat_eq_append] at hnd hz
        simp [List.getLast?_cons] at hz
        subst hz
        simp at hnd
  refine ⟨trs, q1, ?_⟩
  constructor
  · rw [hcs]; exact q4
  · intro f
    rw [hcs, hmem, hK]
  · intro k hk
    rw [hcs] at hk
    refine ⟨(q3 k hk).1, ?_⟩
    have hch : List.IsChain (fun x y => y ∈ nbR m x) k := (q3 k hk).2
    have hnd := (hcurve k hk).nodup
    have hsub := (hcurve k hk).sub
    clear hk
    induction k with
    | nil => exact .nil
    | cons x k ih =>
      rcases k with _ | ⟨y, k⟩
      · exact .singleton _
      · rw [List.isChain_cons_cons] at hch ⊢
        refine ⟨hshare x (hsub x (by simp)) y (hsub y (by simp)) ?_ hch.1, ih hch.2 (List.nodup_cons.1 hnd).2
          fun z hz => hsub z (by simp [hz])⟩
        rintro rfl
        simp at hnd
  · intro k hk a z ha hz
    rw [hcs] at hk
    have hka : a ∈ k := List.mem_of_mem_head? ha
    have hkz : z ∈ k := List.mem_of_mem_getLast? hz
    rcases hst.closed_or_open (hcurve k hk) (hcl k hk) ha hz with ⟨hl, hn⟩ | ⟨⟨e, he, hi⟩, e', he', hi'⟩
    · left
      have hza := hendsne k hk a z (by omega) ha hz
      exact ⟨hl, hshare z ((hcurve k hk).sub z hkz) a ((hcurve k hk).sub a hka) hza (hsym _ _ hn)⟩
    · exact .inr ⟨boundary_of G hM (hkeys a ((hcurve k hk).sub a hka)) he hi,
        boundary_of G hM (hkeys z ((hcurve k hk).sub z hkz)) he' hi'⟩
  · intro ws hin'
    obtain ⟨e, ps, hps, hin, rfl⟩ := (inside_is G (by omega)).1 hin'
    have hfo : ∀ f, Punctured n0 m series F f → (FaceOf m 3 f (ps.map (enc m)) ↔ Facets m f e) := fun f hf => faceOf_is G hf.1 hps
    rcases cell_parity G c hcov F hps hin with hz | ⟨f, g, hfg, hh⟩
    · exact .inl fun f hf h => hz f hf ((hfo f hf).1 h)
    · right
      have hh : ∀ h, (Punctured n0 m series F h ∧ FaceOf m 3 h (ps.map (enc m))) ↔ h = f ∨ h = g := by
        intro h
        rw [← hh]
        exact and_congr_right fun hp => hfo h hp
      obtain ⟨pf, ff⟩ := (hh f).2 (.inl rfl)
      obtain ⟨pg, fg⟩ := (hh g).2 (.inr rfl)
      have kf := (hK f).2 pf
      have kg := (hK g).2 pg
      obtain ⟨k, hk, hfk⟩ := List.mem_flatten.1 ((hmem f).2 kf)
      have hn : g ∈ nbR m f := hunshare f kf g kg ⟨_, hin', ff, fg⟩
      refine ⟨f, g, hfg, hh, k, by rw [hcs]; exact hk, ?_⟩
      exact hst.nextTo (hcurve k hk) hfk (hcl k hk f hfk g kg hn) hfg hn
  · intro t ht hl
    obtain ⟨k, hk, hmk⟩ := Trk.forall₂_get q2 t ht
    have hkt : t.pts.map CP.tag = k := by
      have := curvesOf_eq hs htag (List.Forall₂.cons hmk .nil)
      simpa [curvesOf] using this
    have hkl : 3 ≤ k.length := by rw [← hkt]; simpa using hl
    rw [hkt, hmk.loop]
    have hne : k ≠ [] := (q3 k hk).1
    obtain ⟨a, ha⟩ : ∃ a, k.head? = some a := by
      rcases k with _ | ⟨x, k⟩
      · exact absurd rfl hne
      · exact ⟨x, rfl⟩
    obtain ⟨z, hz⟩ : ∃ z, k.getLast? = some z := ⟨_, List.getLast?_eq_some_getLast hne⟩
    rw [Gr.C21_is_loop (nbR m) k a z (by omega) ha hz]
    have ka := (hcurve k hk).sub a (List.mem_of_mem_head? ha)
    have kz := (hcurve k hk).sub z (List.mem_of_mem_getLast? hz)
    constructor
    · intro hn
      exact ⟨a, z, ha, hz, hshare z kz a ka (hendsne k hk a z (by omega) ha hz) (hsym _ _ hn)⟩
    · rintro ⟨a', z', ha', hz', hsh⟩
      rw [ha] at ha'
      rw [hz] at hz'
      cases ha'
      cases hz'
      exact hsym _ _ (hunshare z kz a ka hsh)

/-- C128 — one process, no point filter, finite values, no triangle of the mesh in more than two tetrahedra, no punctured
tetrahedron with degenerate vectors, one scaling factor `F` during the run: whatever the thread schedules of the scans, the
tracker returns trajectories that follow the punctured tetrahedra through the pentachora. -/
theorem C128_follows_partial (G : Geo n0 ts m) (hM : Manifold ts) (c : Cfg γ) (hm : c.m = m) (hkeep : ∀ cp, c.keep cp = true)
    (series : List (Snap 3)) (hne : series ≠ []) (hcov : ∀ s ∈ series, VecField n0 s)
    (F : Int) (hF : ∀ t < series.length, scale (series.take (t + 2)) = F)
    (hnd : ∀ e v V, 0 ≤ e → Data n0 m series e v V → Hit F v V → ¬ Degenerate V)
    (ord : Nat → Order) (ho : ∀ k, Complete m 3 k (ord k)) :
    ∃ trs, track c Op.push series ord = some trs ∧ Follows n0 ts m series F trs := by
  obtain ⟨st, gs, e1, e3, e4, h⟩ := follows_of_detect G hM c hm hkeep series hne hcov F
    (fun t ht e v V _ => by rw [hF t ht]) hnd ord ho
  obtain ⟨trs, e5, h⟩ := h gs (List.Perm.refl _)
  refine ⟨trs, ?_, h⟩
  simp [track, e1, finalize, traceOffline, hm, e3, e4, e5]

/-! ### values that are multiples of 1/256 -/

theorem vecAt_dyadic {series : List (Snap 3)} (hd : ∀ s ∈ series, Trk.Dyadic s) {v : Int}
    {x : Fin 3 → Rat} (hx : vecAt n0 series v = some fun j => some (x j)) (j : Fin 3) : ∃ z : Int, x j * 256 = z := by
  unfold vecAt at hx
  by_cases h0 : time n0 v < 0
  · rw [if_pos h0] at hx; cases hx
  · rw [if_neg h0] at hx
    cases hss : series[(time n0 v).toNat]? with
    | none => simp [hss] at hx
    | some s =>
      simp only [hss, Snap.read] at hx
      split at hx
      · have := congrFun (Option.some.inj hx) j
        exact hd s (List.mem_of_getElem? hss) _ _ _ this
      · cases hx

theorem hit_dyadic {series : List (Snap 3)} (hd : ∀ s ∈ series, Trk.Dyadic s) {e : Int} {v : Fin 4 → Int}
    {V : Fin 4 → Fin 3 → Rat} (h : Data n0 m series e v V) (P : List (Snap 3)) : Hit (scale P) v V ↔ Hit 256 v V := by
  unfold scale
  obtain ⟨k, hk⟩ := Nat.exists_eq_add_of_le (Trk.nbits_ge (Trk.minRes P))
  rw [hk]
  unfold Hit
  have hq : (fun i j => quant (2 ^ (8 + k)) (V i j)) = fun i j => 2 ^ k * quant 256 (V i j) := by
    funext i j
    obtain ⟨z, hz⟩ := vecAt_dyadic hd (h.2 i) j
    rw [Trk.quant_int (f := 256) (z := z) (by exact_mod_cast hz), Trk.quant_int (f := 2 ^ (8 + k)) (z := 2 ^ k * z) (by
      push_cast
      rw [← hz, pow_add]
      ring)]
  rw [hq, SoS.scale3 _ (by positivity)]

/-- C128, without hypotheses on scaling factors and on degenerate vectors: if all values are multiples of 1/256 (fields of
integers, say). -/
theorem C128_follows_dyadic (G : Geo n0 ts m) (hM : Manifold ts) (c : Cfg γ) (hm : c.m = m) (hkeep : ∀ cp, c.keep cp = true)
    (series : List (Snap 3)) (hne : series ≠ []) (hcov : ∀ s ∈ series, VecField n0 s) (hdy : ∀ s ∈ series, Trk.Dyadic s)
    (ord : Nat → Order) (ho : ∀ k, Complete m 3 k (ord k)) :
    ∃ trs, track c Op.push series ord = some trs ∧ Follows n0 ts m series 256 trs := by
  have hnd : ∀ e v V, 0 ≤ e → Data n0 m series e v V → Hit 256 v V → ¬ Degenerate V := by
    intro e v V h0 hd hh
    have h := tet_vertices G h0 hd.1
    exact hit_nondegenerate (by norm_num) h.1 h.2.1 (fun i j => by
      obtain ⟨z, hz⟩ := vecAt_dyadic hdy (hd.2 i) j
      exact ⟨z, by push_cast; exact hz⟩) hh
  obtain ⟨st, gs, e1, e3, e4, h⟩ := follows_of_detect G hM c hm hkeep series hne hcov 256
    (fun t _ e v V hd => hit_dyadic hdy hd _) hnd ord ho
  obtain ⟨trs, e5, h⟩ := h gs (List.Perm.refl _)
  refine ⟨trs, ?_, h⟩
  simp [track, e1, finalize, traceOffline, hm, e3, e4, e5]

end Verif.X3T
