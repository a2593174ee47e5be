import Verif.UTrk.Tets
/-! # C94: the trajectories of the unstructured 2-D tracker follow the punctured triangles through the tetrahedra -/
namespace Verif.UTrk
open Verif.Ser (lookup mapPut Sorted)
open Verif.Trk (Snap CP Traj Op scale quant Strip MadeOf offlineGroups offlineCurves offline_spec ordKeys traceOffline)
open Verif.XM (below time Base Good)
open Verif.SRM (Scope)
variable {γ : Type} {n0 : Nat} {ts : List UM.Tri} {m : UM.M2}

theorem absRead_time {series : List (Snap 2)} {v : Int} {x : Fin 2 → Option Rat} (h : absRead n0 series v = some x) :
    0 ≤ time n0 v ∧ time n0 v < series.length := by
  unfold absRead at h
  by_cases h0 : time n0 v < 0
  · rw [if_pos h0] at h; cases h
  · rw [if_neg h0] at h
    by_contra hc
    rw [List.getElem?_eq_none (by omega)] at h
    cases h

theorem data_unique {series : List (Snap 2)} {e : Int} {v v' : Fin 3 → Int} {V V' : Fin 3 → Fin 2 → Rat}
    (h : Data n0 m series e v V) (h' : Data n0 m series e v' V') : v' = v ∧ V' = V := by
  have h1 := h.1
  rw [h'.1] at h1
  simp only [Option.some.injEq, Prod.mk.injEq, List.cons.injEq, and_true, true_and] at h1
  have hv : v' = v := by rw [← vec3_eta v', h1.1, h1.2.1, h1.2.2, vec3_eta]
  subst hv
  refine ⟨rfl, ?_⟩
  funext i j
  have h2 := h.2 i
  rw [h'.2 i] at h2
  have := congrFun (Option.some.inj h2) j
  exact Option.some.inj this

/-- every triangle inside has data -/
theorem data_of (G : Geo n0 ts m) {series : List (Snap 2)} (hcov : ∀ s ∈ series, Covers n0 s) {v : Int}
    (h0 : 0 ≤ time n0 v) (h1 : time n0 v < series.length) :
    ∃ x : Fin 2 → Rat, absRead n0 series v = some fun j => some (x j) := by
  have hn0 : (0 : Int) < n0 := by
    have := G.base.hn0
    obtain ⟨tt, htt⟩ := List.exists_mem_of_ne_nil _ G.ne
    obtain ⟨i, a, b, c, h', -⟩ := G.base.tri_of tt htt
    have := G.base.tri_ok h'
    omega
  obtain ⟨x, hx, hfin⟩ := absRead_some hcov h0 h1 ⟨Int.emod_nonneg _ (by omega), Int.emod_lt_of_pos _ hn0⟩
  refine ⟨fun j => (x j).get (hfin j), hx.trans ?_⟩
  congr 1
  funext j
  exact (Option.some_get _).symm

/-- a point is found exactly on the punctured triangles, when none is degenerate -/
theorem found_iff (G : Geo n0 ts m) {c : Cfg γ} (hm : c.m = m) (hkeep : ∀ cp, c.keep cp = true) {series : List (Snap 2)} {F : Int}
    (hF : ∀ t < series.length, ∀ e, Own m t e → detect c n0 series (scale (series.take (t + 2))) t e = detect c n0 series F t e)
    (hnd : ∀ e v V, 0 ≤ e → Data n0 m series e v V → Hit F v V → ¬ Degenerate V) (e : Int) :
    (∃ cp, Found c n0 series (fun t => t + 2) series.length e cp) ↔ Punctured n0 m series F e := by
  constructor
  · rintro ⟨cp, t, ht, ho, hd⟩
    rw [hm] at ho
    rw [hF t ht e ho] at hd
    obtain ⟨v, V, w, o, h1, h2, -⟩ := (C92_detected_iff G c hm series F t e ho cp).1 hd
    exact ⟨ho.1, v, V, h1, h2⟩
  · rintro ⟨h0, v, V, hd, hh⟩
    have hown : Own m (e / XM.n m 2).toNat e := by
      refine ⟨h0, ?_⟩
      have := Int.ediv_nonneg h0 (le_of_lt G.pos2)
      omega
    obtain ⟨v0, v1, v2, o, F'⟩ := G.facet hown
    have hv0 : v 0 = v0 := by
      have d1 := hd.1
      rw [F'.get] at d1
      simp only [Option.some.injEq, Prod.mk.injEq, List.cons.injEq, and_true, true_and] at d1
      exact d1.1.symm
    have ht : (e / XM.n m 2).toNat < series.length := by
      have := (absRead_time (hd.2 0)).2
      rw [hv0, F'.first] at this
      omega
    obtain ⟨cp, hcp⟩ := Option.isSome_iff_exists.1 ((C92_punctured_partial G c hm series F _ e hown v V hd hh).2 (hnd e v V h0 hd hh) hkeep)
    exact ⟨cp, _, ht, by rw [hm]; exact hown, by rw [hF _ ht e hown]; exact hcp⟩

theorem vec_succAbove {β : Type} (w : Fin 4 → β) (k : Fin 4) :
    ![w (k.succAbove 0), w (k.succAbove 1), w (k.succAbove 2)] = fun i => w (k.succAbove i) := by
  funext i
  fin_cases i <;> rfl

/-- an inside tetrahedron has no or two punctured faces -/
theorem tet_parity (G : Geo n0 ts m) {series : List (Snap 2)} (hcov : ∀ s ∈ series, Covers n0 s) (F : Int) {e : Int}
    (hin : Inside n0 m series.length e) :
    (∀ f, Punctured n0 m series F f → ¬ FaceOf m f e) ∨
    ∃ f g, f ≠ g ∧ ∀ h, (Punctured n0 m series F h ∧ FaceOf m h e) ↔ h = f ∨ h = g := by
  obtain ⟨w, g, winj, wpos, hw, ginj, hg, hall⟩ := tet_faces G hin
  have hread : ∀ i, ∃ x : Fin 2 → Rat, absRead n0 series (w i) = some fun j => some (x j) := by
    intro i
    obtain ⟨-, ws, hws, ht⟩ := hin
    rw [hw] at hws
    simp only [Option.some.injEq, Prod.mk.injEq, true_and] at hws
    have := ht (w i) (by rw [← hws]; fin_cases i <;> simp)
    exact data_of G hcov this.1 this.2
  choose V hV using hread
  have hp : ∀ k, Punctured n0 m series F (g k) ↔
      SoS.criticalPointInSimplex2 (fun i => (fun i j => quant F (V i j)) (Fin.succAbove k i)) (fun i => w (Fin.succAbove k i)) = true := by
    intro k
    have hd : Data n0 m series (g k) (fun i => w (k.succAbove i)) (fun i => V (k.succAbove i)) :=
      ⟨(hg k).2.1, fun i => hV _⟩
    constructor
    · rintro ⟨-, v, V', hd', hh⟩
      obtain ⟨rfl, rfl⟩ := data_unique hd hd'
      exact hh
    · intro h
      exact ⟨(hg k).1, _, _, hd, h⟩
  rcases Trk.zeroOrTwo_2d (fun i j => quant F (V i j)) w winj wpos with hz | ⟨a, b, hab, hk⟩
  · left
    intro f hpf hfe
    obtain ⟨k, rfl⟩ := hall f hpf.1 hfe
    have := (hp k).1 hpf
    rw [hz k] at this
    cases this
  · right
    refine ⟨g a, g b, fun h => hab (ginj h), fun h => ?_⟩
    constructor
    · rintro ⟨hph, hfe⟩
      obtain ⟨k, rfl⟩ := hall h hph.1 hfe
      rcases (hk k).1 ((hp k).1 hph) with rfl | rfl
      · exact .inl rfl
      · exact .inr rfl
    · rintro (rfl | rfl)
      · exact ⟨(hp a).2 ((hk a).2 (.inl rfl)), (hg a).2.2⟩
      · exact ⟨(hp b).2 ((hk b).2 (.inr rfl)), (hg b).2.2⟩

theorem punctured_times {series : List (Snap 2)} {F : Int} {f : Int} (h : Punctured n0 m series F f) {vs : List Int}
    (hvs : XM.getSimplex m 2 f = some (f, vs)) : ∀ v ∈ vs, 0 ≤ time n0 v ∧ time n0 v < series.length := by
  obtain ⟨-, v, V, hd, -⟩ := h
  rw [hd.1] at hvs
  cases hvs
  intro x hx
  simp only [List.mem_cons, List.not_mem_nil, or_false] at hx
  rcases hx with rfl | rfl | rfl <;> exact absRead_time (hd.2 _)

/-- the recorded triangles form a strip -/
theorem strip (G : Geo n0 ts m) {series : List (Snap 2)} (hcov : ∀ s ∈ series, Covers n0 s) (F : Int) {K : List Int}
    (hK : ∀ f, f ∈ K ↔ Punctured n0 m series F f) : Strip (nbR m) (face m) (inside n0 m series.length) K where
  two := fun f hf => face_two G ((hK f).1 hf).1
  cover := by
    rintro f hf g hg hfg (e | e) h1 h2
    · obtain ⟨vs, us, ws, a1, a2, a3, a4, a5⟩ := faces_cover G ((hK f).1 hf).1 ((hK g).1 hg).1 h1.1 hfg h1.2 h2.2
      have htime : ∀ v ∈ ws, 0 ≤ time n0 v ∧ time n0 v < series.length := by
        intro v hv
        rcases (a4 v).1 hv with h | h
        · exact punctured_times ((hK f).1 hf) a1 v h
        · exact punctured_times ((hK g).1 hg) a2 v h
      refine ⟨?_, ws, a3, htime⟩
      obtain ⟨order, ho, hb⟩ := G.built
      obtain ⟨ws', b1, -, -, v, l, b3, b4⟩ := XM.C51_get_simplex ho G.valid hb (d := 3) (by omega) G.pos e h1.1
      rw [a3] at b1
      cases b1
      have := (htime v (by rw [b3]; simp)).1
      rw [b4] at this
      by_contra hc
      have := Int.ediv_lt_of_lt_mul (a := e) (b := 0) G.pos (by omega)
      omega
    · exact absurd (h1.1.symm.trans h2.1) hfg
  parity := by
    rintro (e | e) hin f hf hfe
    · rcases tet_parity G hcov F hin with hz | ⟨p, q, hpq, hall⟩
      · exact absurd hfe.2 (hz f ((hK f).1 hf))
      · have hp := (hall p).2 (.inl rfl)
        have hq := (hall q).2 (.inr rfl)
        rcases (hall f).1 ⟨(hK f).1 hf, hfe.2⟩ with rfl | rfl
        · exact ⟨q, (hK q).2 hq.1, Ne.symm hpq, ⟨hfe.1, hq.2⟩, fun h hh hhe => (hall h).1 ⟨(hK h).1 hh, hhe.2⟩⟩
        · exact ⟨p, (hK p).2 hp.1, hpq, ⟨hfe.1, hp.2⟩, fun h hh hhe => ((hall h).1 ⟨(hK h).1 hh, hhe.2⟩).symm⟩
    · exact hin.elim
  one := by
    rintro f hf g hg hfg (e | e) (e' | e') h1 h2 h3 h4
    · exact congrArg _ (tet_one G ((hK f).1 hf).1 ((hK g).1 hg).1 h1.1 h3.1 hfg h1.2 h2.2 h3.2 h4.2)
    · exact absurd (h3.1.symm.trans h4.1) hfg
    · exact absurd (h1.1.symm.trans h2.1) hfg
    · exact absurd (h1.1.symm.trans h2.1) hfg
  adj := by
    intro f hf g hg
    have f0 := ((hK f).1 hf).1
    have g0 := ((hK g).1 hg).1
    obtain ⟨order, ho, hb⟩ := G.built
    obtain ⟨R, r1, -, r3, r4⟩ := cofaces G f0
    have key : g ∈ nbR m f ↔ ∃ e, (Good m 3 e ∧ FaceOf m f e) ∧ (Good m 3 e ∧ FaceOf m g e) := by
      rw [mem_nbR ho G.valid hb G.pos]
      constructor
      · rintro ⟨-, -, R', e, S, h1, h2, h3, h4⟩
        rw [r1] at h1
        cases h1
        have he := (r4 e).1 h2
        refine ⟨e, he, he.1, ?_⟩
        obtain ⟨-, R', k1, k2⟩ := share_symm ho G.valid hb G.pos f0 g0 r1 h2 h3 h4
        obtain ⟨Rg, q1, -, -, q4⟩ := cofaces G g0
        rw [q1] at k1
        cases k1
        exact ((q4 e).1 k2).2
      · rintro ⟨e, h1, h2⟩
        refine ⟨f0, g0, R, e, ?_⟩
        obtain ⟨Rg, S, b1, b2, b3⟩ := XM.C52_duality_partial ho G.valid hb G.pos g e g0 h1.1
        obtain ⟨Rg', q1, -, -, q4⟩ := cofaces G g0
        rw [q1] at b1
        cases b1
        exact ⟨S, r1, (r4 e).2 h1, b2, b3.1 ((q4 e).2 h2)⟩
    rw [key]
    constructor
    · rintro ⟨e, h1, h2⟩
      exact ⟨.inl e, h1, h2⟩
    · rintro ⟨e | e, h1, h2⟩
      · exact ⟨e, h1, h2⟩
      · obtain ⟨rfl, a, ha⟩ := h1
        obtain ⟨rfl, -⟩ := h2
        exact ⟨a, (ha a).2 rfl, (ha a).2 rfl⟩
  nodup := G.nodup
  symm := G.symm

theorem curvesOf_eq {nb : Int → List Int} {dcp : List (Int × CP (Info γ))} (hs : Sorted dcp)
    (he : ∀ kv ∈ dcp, kv.2.tag = kv.1) {cs : List (List Int)} {trs : List (Traj (CP (Info γ)))}
    (h : List.Forall₂ (MadeOf nb dcp) cs trs) : curvesOf trs = cs := by
  unfold curvesOf
  induction h with
  | nil => rfl
  | @cons k t cs ts hm _ ih =>
    rw [List.map_cons, ih]
    congr 1
    have hp := hm.pts
    generalize t.pts = ps at hp
    clear hm ih
    induction ps generalizing k with
    | nil =>
      simp only [List.map_nil] at hp
      exact (List.map_eq_nil_iff.1 hp.symm).symm
    | cons p ps ih =>
      rcases k with _ | ⟨x, k⟩
      · simp at hp
      · simp only [List.map_cons, List.cons.injEq] at hp ⊢
        refine ⟨?_, ih hp.2⟩
        have := mem_iff_lookup hs x p
        exact he (x, p) (this.2 hp.1.symm)

theorem face_inside (_G : Geo n0 ts m) {T : Nat} {f e : Int} (h : Inside n0 m T e) (hf : FaceOf m f e) : face m f (.inl e) :=
  ⟨.inl h.1, hf⟩

/-- a face of a cell outside is at the boundary -/
theorem boundary_of (G : Geo n0 ts m) {T : Nat} {f : Int} (hf : 0 ≤ f) {e : Int ⊕ Int} (he : face m f e)
    (ho : ¬ inside n0 m T e) : AtBoundary n0 m T f := by
  intro a b ha hb hfa hfb
  obtain ⟨x, y, hxy, hall⟩ := face_two G hf
  have h1 := (hall (.inl a)).1 (face_inside G ha hfa)
  have h2 := (hall (.inl b)).1 (face_inside G hb hfb)
  have h3 := (hall e).1 he
  have n1 : e ≠ .inl a := fun h => ho (by rw [h]; exact ha)
  have n2 : e ≠ .inl b := fun h => ho (by rw [h]; exact hb)
  have : (Sum.inl a : Int ⊕ Int) = .inl b := by
    rcases h1 with h1 | h1 <;> rcases h2 with h2 | h2 <;> rcases h3 with h3 | h3
    · rw [h1, h2]
    · rw [h1, h2]
    · exact absurd (h3.trans h1.symm) n1
    · exact absurd (h3.trans h2.symm) n2
    · exact absurd (h3.trans h2.symm) n2
    · exact absurd (h3.trans h1.symm) n1
    · rw [h1, h2]
    · rw [h1, h2]
  exact Sum.inl.inj this

/-- C94, when the changes of the scaling factor during the run do not change what is detected. -/
theorem follows_of_detect (G : Geo n0 ts m) (c : Cfg γ) (hm : c.m = m) (hkeep : ∀ cp, c.keep cp = true)
    (hstr : c.streaming = false) (series : List (Snap 2)) (hne : series ≠ []) (hcov : ∀ s ∈ series, Covers n0 s)
    (F : Int) (hF : ∀ t < series.length, ∀ e, Own m t e → detect c n0 series (scale (series.take (t + 2))) t e = detect c n0 series F t e)
    (hnd : ∀ e v V, 0 ≤ e → Data n0 m series e v V → Hit F v V → ¬ Degenerate V)
    (ord : Nat → Scope → List Int) (ho : ∀ k, Complete m (ord k)) :
    ∃ st gs, run c (Trk.driveOps series ord) St.init = some st ∧ st.trajs = [] ∧
      nbDefined m (st.dcp.map Prod.fst) = true ∧
      offlineGroups (nb m) st.dcp = some gs ∧
      ∀ gs' : List (Int × List (Int × CP (Info γ))), gs'.Perm gs →
        ∃ trs, offlineCurves (nb m) gs' = some trs ∧ Follows n0 m series F trs := by
  obtain ⟨st, e, -, -, hs, hoff⟩ := C92_driver G c hm series hne hcov ord ho
  obtain ⟨htr, hdcp⟩ := hoff hstr
  have hK : ∀ f, f ∈ st.dcp.map Prod.fst ↔ Punctured n0 m series F f := by
    intro f
    rw [← found_iff G hm hkeep hF hnd]
    constructor
    · intro hf
      obtain ⟨⟨f', cp⟩, hm, rfl⟩ := List.mem_map.1 hf
      exact ⟨cp, (hdcp _ _).1 hm⟩
    · rintro ⟨cp, hm⟩
      exact List.mem_map.2 ⟨(f, cp), (hdcp _ _).2 hm, rfl⟩
  have htag : ∀ kv ∈ st.dcp, kv.2.tag = kv.1 := fun ⟨f, cp⟩ h => (found_tag G hm ((hdcp f cp).1 h)).1
  have hkeys : ∀ x ∈ st.dcp.map Prod.fst, 0 ≤ x := fun x hx => ((hK x).1 hx).1
  have hkeys' : ∀ x ∈ st.dcp.map Prod.fst, decide (0 ≤ x) = true := fun x hx => by simpa using hkeys x hx
  have hst := strip G hcov F hK
  obtain ⟨gs, hg, hall⟩ := offline_spec (nbR m) G.symm G.nodup st.dcp hs
  have hgm : ∀ g ∈ gs, ∀ x ∈ g.2.map Prod.fst, decide (0 ≤ x) = true := by
    intro g hgg x hx
    obtain ⟨gs2, h1, h2, -⟩ := Trk.offlineGroups_spec (nbR m) st.dcp hs
    rw [hg] at h1
    cases h1
    exact hkeys' x (((h2 g hgg).map Prod.fst).subset hx)
  refine ⟨st, gs, e, htr, G.defined hkeys, ?_, fun gs' hperm => ?_⟩
  · rw [← Trk.offlineGroups_restr (nbR_restr m) st.dcp hkeys']
    exact hg
  obtain ⟨cs, trs, q1, q2, q3, q4, q5, q6⟩ := hall gs' hperm
  rw [Trk.offlineCurves_restr (nbR_restr m) G.symm G.nodup gs' (fun g hg' => hgm g (hperm.mem_iff.1 hg'))] at q1
  have hcs : curvesOf trs = cs := curvesOf_eq hs htag q2
  have hmem : ∀ x, x ∈ cs.flatten ↔ x ∈ st.dcp.map Prod.fst := by
    intro x
    rw [q5]
    exact ⟨fun h => h.1, fun h => ⟨h, hst.deg_le_two h⟩⟩
  have hord : ordKeys (nbR m) (st.dcp.map Prod.fst) = st.dcp.map Prod.fst := by
    unfold ordKeys
    rw [List.filter_eq_self]
    intro x hx
    simpa using hst.deg_le_two hx
  rw [hord] at q6
  have hcurve : ∀ k ∈ cs, Strip.Curve (nbR m) (st.dcp.map Prod.fst) k := fun k hk =>
    ⟨fun x hx => (hmem x).1 (List.mem_flatten.2 ⟨k, hk, hx⟩), (List.nodup_flatten.1 q4).1 k hk, (q3 k hk).2⟩
  have hcl : ∀ k ∈ cs, ∀ x ∈ k, ∀ y ∈ st.dcp.map Prod.fst, y ∈ nbR m x → y ∈ k := by
    intro k hk x hx y hy hyx
    exact (q6 k hk x hx y ((hmem y).2 hy)).2 (.rel _ _ ⟨(hcurve k hk).sub x hx, hy, hyx⟩)
  have hshare : ∀ f ∈ st.dcp.map Prod.fst, ∀ g ∈ st.dcp.map Prod.fst, f ≠ g → g ∈ nbR m f → ShareTet n0 m series.length f g := by
    intro f hf g hg hfg hn
    obtain ⟨e, he1, he2⟩ := (hst.adj f hf g hg).1 hn
    have hin := hst.cover f hf g hg hfg e he1 he2
    rcases e with e | e
    · exact ⟨e, hin, he1.2, he2.2⟩
    · exact hin.elim
  have hunshare : ∀ f ∈ st.dcp.map Prod.fst, ∀ g ∈ st.dcp.map Prod.fst, ShareTet n0 m series.length f g → g ∈ nbR m f := by
    rintro f hf g hg ⟨e, he1, he2, he3⟩
    exact (hst.adj f hf g hg).2 ⟨.inl e, face_inside G he1 he2, face_inside G he1 he3⟩
  have hendsne : ∀ k ∈ cs, ∀ a z, 2 ≤ k.length → k.head? = some a → k.getLast? = some z → z ≠ a := by
    intro k hk a z hl ha hz hza
    subst hza
    have hnd := (hcurve k hk).nodup
    rcases k with _ | ⟨x, k⟩
    · cases ha
    · simp only [List.head?_cons, Option.some.injEq] at ha
      subst ha
      rcases List.eq_nil_or_concat k with rfl | ⟨k', w, rfl⟩
      · simp at hl
      · rw [List.concat_eq_append] at hnd hz
        simp [List.getLast?_cons] at hz
        subst hz
        simp at hnd
  refine ⟨trs, q1, ?_⟩
  constructor
  · rw [hcs]; exact q4
  · intro f
    rw [hcs, hmem, hK]
  · intro k hk
    rw [hcs] at hk
    refine ⟨(q3 k hk).1, ?_⟩
    have hch : List.IsChain (fun x y => y ∈ nbR m x) k := (q3 k hk).2
    have hnd := (hcurve k hk).nodup
    have hsub := (hcurve k hk).sub
    clear hk
    induction k with
    | nil => exact .nil
    | cons x k ih =>
      rcases k with _ | ⟨y, k⟩
      · exact .singleton _
      · rw [List.isChain_cons_cons] at hch ⊢
        refine ⟨hshare x (hsub x (by simp)) y (hsub y (by simp)) ?_ hch.1, ih hch.2 (List.nodup_cons.1 hnd).2
          fun z hz => hsub z (by simp [hz])⟩
        rintro rfl
        simp at hnd
  · intro k hk a z ha hz
    rw [hcs] at hk
    have hka : a ∈ k := List.mem_of_mem_head? ha
    have hkz : z ∈ k := List.mem_of_mem_getLast? hz
    rcases hst.closed_or_open (hcurve k hk) (hcl k hk) ha hz with ⟨hl, hn⟩ | ⟨⟨e, he, hi⟩, e', he', hi'⟩
    · left
      have hza := hendsne k hk a z (by omega) ha hz
      exact ⟨hl, hshare z ((hcurve k hk).sub z hkz) a ((hcurve k hk).sub a hka) hza (G.symm _ _ hn)⟩
    · exact .inr ⟨boundary_of G (hkeys a ((hcurve k hk).sub a hka)) he hi,
        boundary_of G (hkeys z ((hcurve k hk).sub z hkz)) he' hi'⟩
  · intro e hin
    rcases tet_parity G hcov F hin with hz | ⟨f, g, hfg, hh⟩
    · exact .inl hz
    · right
      obtain ⟨pf, ff⟩ := (hh f).2 (.inl rfl)
      obtain ⟨pg, fg⟩ := (hh g).2 (.inr rfl)
      have kf := (hK f).2 pf
      have kg := (hK g).2 pg
      obtain ⟨k, hk, hfk⟩ := List.mem_flatten.1 ((hmem f).2 kf)
      have hn : g ∈ nbR m f := hunshare f kf g kg ⟨e, hin, ff, fg⟩
      refine ⟨f, g, hfg, hh, k, by rw [hcs]; exact hk, ?_⟩
      exact hst.nextTo (hcurve k hk) hfk (hcl k hk f hfk g kg hn) hfg hn
  · intro t ht hl
    obtain ⟨k, hk, hmk⟩ := Trk.forall₂_get q2 t ht
    have hkt : t.pts.map CP.tag = k := by
      have := curvesOf_eq hs htag (List.Forall₂.cons hmk .nil)
      simpa [curvesOf] using this
    have hkl : 3 ≤ k.length := by rw [← hkt]; simpa using hl
    rw [hkt, hmk.loop]
    have hne : k ≠ [] := (q3 k hk).1
    obtain ⟨a, ha⟩ : ∃ a, k.head? = some a := by
      rcases k with _ | ⟨x, k⟩
      · exact absurd rfl hne
      · exact ⟨x, rfl⟩
    obtain ⟨z, hz⟩ : ∃ z, k.getLast? = some z := ⟨_, List.getLast?_eq_some_getLast hne⟩
    rw [Gr.C21_is_loop (nbR m) k a z (by omega) ha hz]
    have ka := (hcurve k hk).sub a (List.mem_of_mem_head? ha)
    have kz := (hcurve k hk).sub z (List.mem_of_mem_getLast? hz)
    constructor
    · intro hn
      exact ⟨a, z, ha, hz, hshare z kz a ka (hendsne k hk a z (by omega) ha hz) (G.symm _ _ hn)⟩
    · rintro ⟨a', z', ha', hz', hsh⟩
      rw [ha] at ha'
      rw [hz] at hz'
      cases ha'
      cases hz'
      exact G.symm _ _ (hunshare z kz a ka hsh)

/-- C94 — one process, no point filter, finite values, no punctured triangle with degenerate vectors, one scaling factor
`F` during the run: whatever the thread schedules of the scans, the tracker returns trajectories that follow the punctured
triangles through the tetrahedra. -/
theorem C94_follows_partial (G : Geo n0 ts m) (c : Cfg γ) (hm : c.m = m) (hkeep : ∀ cp, c.keep cp = true)
    (hstr : c.streaming = false) (series : List (Snap 2)) (hne : series ≠ []) (hcov : ∀ s ∈ series, Covers n0 s)
    (F : Int) (hF : ∀ t < series.length, scale (series.take (t + 2)) = F)
    (hnd : ∀ e v V, 0 ≤ e → Data n0 m series e v V → Hit F v V → ¬ Degenerate V)
    (ord : Nat → Scope → List Int) (ho : ∀ k, Complete m (ord k)) :
    ∃ trs, track c series ord = some trs ∧ Follows n0 m series F trs := by
  obtain ⟨st, gs, e1, e2, e3, e4, h⟩ := follows_of_detect G c hm hkeep hstr series hne hcov F
    (fun t ht e _ => by rw [hF t ht]) hnd ord ho
  obtain ⟨trs, e5, h⟩ := h gs (List.Perm.refl _)
  refine ⟨trs, ?_, h⟩
  simp [track, e1, finalize, hstr, traceOffline, e2, hm, e3, e4, e5]

/-! ### values that are multiples of 1/256 -/

theorem absRead_dyadic {series : List (Snap 2)} (hd : ∀ s ∈ series, Trk.Dyadic s) {v : Int}
    {x : Fin 2 → Rat} (hx : absRead n0 series v = some fun j => some (x j)) (j : Fin 2) : ∃ z : Int, x j * 256 = z := by
  unfold absRead at hx
  by_cases h0 : time n0 v < 0
  · rw [if_pos h0] at hx; cases hx
  · rw [if_neg h0] at hx
    cases hss : series[(time n0 v).toNat]? with
    | none => simp [hss] at hx
    | some s =>
      simp only [hss, Snap.read] at hx
      split at hx
      · have := congrFun (Option.some.inj hx) j
        exact hd s (List.mem_of_getElem? hss) _ _ _ this
      · cases hx

theorem hit_dyadic {series : List (Snap 2)} (hd : ∀ s ∈ series, Trk.Dyadic s) {e : Int} {v : Fin 3 → Int}
    {V : Fin 3 → Fin 2 → Rat} (h : Data n0 m series e v V) (P : List (Snap 2)) : Hit (scale P) v V ↔ Hit 256 v V := by
  unfold scale
  obtain ⟨k, hk⟩ := Nat.exists_eq_add_of_le (Trk.nbits_ge (Trk.minRes P))
  rw [hk]
  unfold Hit
  have hq : (fun i j => quant (2 ^ (8 + k)) (V i j)) = fun i j => 2 ^ k * quant 256 (V i j) := by
    funext i j
    obtain ⟨z, hz⟩ := absRead_dyadic hd (h.2 i) j
    rw [Trk.quant_int (f := 256) (z := z) (by exact_mod_cast hz), Trk.quant_int (f := 2 ^ (8 + k)) (z := 2 ^ k * z) (by
      push_cast
      rw [← hz, pow_add]
      ring)]
  rw [hq, SoS.scale2 _ (by positivity)]

theorem detect_dyadic (G : Geo n0 ts m) {c : Cfg γ} (hm : c.m = m) {series : List (Snap 2)} (hd : ∀ s ∈ series, Trk.Dyadic s)
    (P : List (Snap 2)) (t : Nat) (e : Int) (he : Own m t e) : detect c n0 series (scale P) t e = detect c n0 series 256 t e := by
  have key : ∀ cp, detect c n0 series (scale P) t e = some cp ↔ detect c n0 series 256 t e = some cp := by
    intro cp
    rw [C92_detected_iff G c hm _ _ _ _ he, C92_detected_iff G c hm _ _ _ _ he]
    constructor
    · rintro ⟨v, V, w, o, h1, h2, h3⟩
      exact ⟨v, V, w, o, h1, (hit_dyadic hd h1 P).1 h2, h3⟩
    · rintro ⟨v, V, w, o, h1, h2, h3⟩
      exact ⟨v, V, w, o, h1, (hit_dyadic hd h1 P).2 h2, h3⟩
  cases h : detect c n0 series (scale P) t e with
  | some cp => exact ((key cp).1 h).symm
  | none =>
    cases h' : detect c n0 series 256 t e with
    | none => rfl
    | some cp => rw [(key cp).2 h'] at h; cases h

/-- C94, without hypotheses on scaling factors and on degenerate vectors: if all values are multiples of 1/256 (fields of
integers, say). -/
theorem C94_follows_dyadic (G : Geo n0 ts m) (c : Cfg γ) (hm : c.m = m) (hkeep : ∀ cp, c.keep cp = true)
    (hstr : c.streaming = false) (series : List (Snap 2)) (hne : series ≠ []) (hcov : ∀ s ∈ series, Covers n0 s)
    (hdy : ∀ s ∈ series, Trk.Dyadic s)
    (ord : Nat → Scope → List Int) (ho : ∀ k, Complete m (ord k)) :
    ∃ trs, track c series ord = some trs ∧ Follows n0 m series 256 trs := by
  have hnd : ∀ e v V, 0 ≤ e → Data n0 m series e v V → Hit 256 v V → ¬ Degenerate V := by
    intro e v V h0 hd hh
    have hown : Own m (e / XM.n m 2).toNat e := by
      refine ⟨h0, ?_⟩
      have := Int.ediv_nonneg h0 (le_of_lt G.pos2)
      omega
    have h := data_vertices G hown hd
    exact hit_nondegenerate (by norm_num) h.1 h.2 (fun i j => by
      obtain ⟨z, hz⟩ := absRead_dyadic hdy (hd.2 i) j
      exact ⟨z, by push_cast; exact hz⟩) hh
  obtain ⟨st, gs, e1, e2, e3, e4, h⟩ := follows_of_detect G c hm hkeep hstr series hne hcov 256
    (fun t _ e he => detect_dyadic G hm hdy _ t e he) hnd ord ho
  obtain ⟨trs, e5, h⟩ := h gs (List.Perm.refl _)
  refine ⟨trs, ?_, h⟩
  simp [track, e1, finalize, hstr, traceOffline, e2, hm, e3, e4, e5]

end Verif.UTrk
