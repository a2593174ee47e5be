import Verif.Tracker.CurveGeo
import Verif.Tracker.Scale
import Mathlib.Tactic.Positivity
import Mathlib.Tactic.NormNum
/-! # C72: the trajectories of a single-process tracker follow the punctured facets through the cells -/
namespace Verif.Trk
open Verif.Ser (lookup mapPut Sorted)
open Verif.SRM
variable {d : Nat} {γ : Type}

/-- the curves of facets behind the trajectories -/
def curvesOf (c : Cfg d γ) (ts : List (Traj (CP γ))) : List (List Elem) := ts.map fun t => t.pts.map (elemOf c)

/-- what C72 says of the trajectories `ts` -/
structure Follows (c : Cfg d γ) (series : List (Snap d)) (F : Int) (ts : List (Traj (CP γ))) : Prop where
  /-- every punctured facet is on exactly one curve, exactly once, and nothing else is -/
  once : (curvesOf c ts).flatten.Nodup
  all : ∀ f, f ∈ (curvesOf c ts).flatten ↔ Punctured c series F f
  /-- consecutive facets of a curve are faces of a common inside cell -/
  step : ∀ k ∈ curvesOf c ts, k ≠ [] ∧ List.IsChain (ShareCell c series.length) k
  /-- a curve closes, or both its ends are at the boundary of the box -/
  ends : ∀ k ∈ curvesOf c ts, ∀ a z, k.head? = some a → k.getLast? = some z →
    (3 ≤ k.length ∧ ShareCell c series.length z a) ∨ (AtBoundary c series.length a ∧ AtBoundary c series.length z)
  /-- every inside cell is passed by no curve, or by one curve, which enters it by one face and leaves it
  by another -/
  cell : ∀ e, IsCell d e → Inside c series.length e →
    (∀ f, Punctured c series F f → ¬ FaceOf d f e) ∨
    ∃ f g, f ≠ g ∧ (∀ h, (Punctured c series F h ∧ FaceOf d h e) ↔ h = f ∨ h = g) ∧
      ∃ k ∈ curvesOf c ts, NextTo k f g
  /-- the loop flag of a trajectory of three or more points tells whether it closes -/
  loop : ∀ t ∈ ts, 3 ≤ t.pts.length → (t.loop = true ↔ ∃ a z, (t.pts.map (elemOf c)).head? = some a ∧
    (t.pts.map (elemOf c)).getLast? = some z ∧ ShareCell c series.length z a)

theorem curvesOf_eq {c : Cfg d γ} {nb : Elem → List Elem} {dcp : List (Elem × CP γ)} (hs : Sorted dcp)
    (he : ∀ kv ∈ dcp, elemOf c kv.2 = kv.1) {cs : List (List Elem)} {ts : List (Traj (CP γ))}
    (h : List.Forall₂ (MadeOf nb dcp) cs ts) : curvesOf c ts = cs := by
  unfold curvesOf
  induction h with
  | nil => rfl
  | @cons k t cs ts hm _ ih =>
    rw [List.map_cons, ih]
    congr 1
    have hp := hm.pts
    generalize t.pts = ps at hp
    clear hm ih
    induction ps generalizing k with
    | nil =>
      simp only [List.map_nil] at hp
      exact (List.map_eq_nil_iff.1 hp.symm).symm
    | cons p ps ih =>
      rcases k with _ | ⟨x, k⟩
      · simp at hp
      · simp only [List.map_cons, List.cons.injEq] at hp ⊢
        refine ⟨?_, ih hp.2⟩
        have := mem_iff_lookup hs x p
        exact he (x, p) (this.2 hp.1.symm)

theorem forall₂_get {α β : Type} {R : α → β → Prop} : ∀ {as : List α} {bs : List β}, List.Forall₂ R as bs → ∀ b ∈ bs,
    ∃ a ∈ as, R a b
  | _, _, .nil, b, hb => by cases hb
  | _, _, .cons h hs, b, hb => by
    rcases List.mem_cons.1 hb with rfl | hb
    · exact ⟨_, by simp, h⟩
    · obtain ⟨a, ha, hr⟩ := forall₂_get hs b hb
      exact ⟨a, by simp [ha], hr⟩

/-- C72, for every test with the zero-or-two property (C32), when the changes of the scaling factor during
the run do not change what is detected. -/
theorem follows_of_detect (c : Cfg d γ) (hc : Shaped c) (hone : c.core = c.domain) (hkeep : ∀ cp, c.keep cp = true)
    (hpar : ZeroOrTwo c.test) (hstr : c.streaming = false) (h0 : c.t0 = 0)
    (series : List (Snap d)) (hne : series ≠ []) (h1 : (series.length : Int) ≤ c.t1 + 1)
    (hcov : ∀ s ∈ series, Covers c s) (hfin : ∀ s ∈ series, AllFinite s)
    (F : Int) (hF : ∀ t < series.length, ∀ e, detect c series (scale (series.take (t + 2))) t e = detect c series F t e)
    (ord : Nat → Scope → List Int) (ho : ∀ k, Complete c (ord k)) :
    ∃ st gs, run c (driveOps series ord) St.init = some st ∧ st.trajs = [] ∧
      offlineGroups (nbs (d + 1)) st.dcp = some gs ∧
      ∀ gs' : List (Elem × List (Elem × CP γ)), gs'.Perm gs →
        ∃ ts, offlineCurves (nbs (d + 1)) gs' = some ts ∧ Follows c series F ts := by
  obtain ⟨st, e, -, -, hs, hoff⟩ := C47_driver c hc series hne hcov ord ho
  obtain ⟨htr, hdcp⟩ := hoff hstr
  have hK : ∀ f, f ∈ st.dcp.map Prod.fst ↔ Punctured c series F f := by
    intro f
    rw [← found_iff_punctured hc hone hkeep hcov hfin h0 h1 hF]
    constructor
    · intro hf
      obtain ⟨⟨f', cp⟩, hm, rfl⟩ := List.mem_map.1 hf
      exact ⟨cp, (hdcp _ _).1 hm⟩
    · rintro ⟨cp, hm⟩
      exact List.mem_map.2 ⟨(f, cp), (hdcp _ _).2 hm, rfl⟩
  have hst := strip hc hone hpar hcov h0 h1 F hK
  obtain ⟨gs, hg, hall⟩ := offline_spec (nbs (d + 1)) nbs_symm nbs_nodup st.dcp hs
  refine ⟨st, gs, e, htr, hg, fun gs' hperm => ?_⟩
  obtain ⟨cs, ts, q1, q2, q3, q4, q5, q6⟩ := hall gs' hperm
  have hcs : curvesOf c ts = cs := curvesOf_eq hs (fun ⟨f, cp⟩ hm => found_elem hc ((hdcp f cp).1 hm)) q2
  have hmem : ∀ x, x ∈ cs.flatten ↔ x ∈ st.dcp.map Prod.fst := by
    intro x
    rw [q5]
    exact ⟨fun h => h.1, fun h => ⟨h, hst.deg_le_two h⟩⟩
  have hord : ordKeys (nbs (d + 1)) (st.dcp.map Prod.fst) = st.dcp.map Prod.fst := by
    unfold ordKeys
    rw [List.filter_eq_self]
    intro x hx
    simpa using hst.deg_le_two hx
  rw [hord] at q6
  have hcurve : ∀ k ∈ cs, Strip.Curve (nbs (d + 1)) (st.dcp.map Prod.fst) k := fun k hk =>
    ⟨fun x hx => (hmem x).1 (List.mem_flatten.2 ⟨k, hk, hx⟩), (List.nodup_flatten.1 q4).1 k hk, (q3 k hk).2⟩
  have hcl : ∀ k ∈ cs, ∀ x ∈ k, ∀ y ∈ st.dcp.map Prod.fst, y ∈ nbs (d + 1) x → y ∈ k := by
    intro k hk x hx y hy hyx
    exact (q6 k hk x hx y ((hmem y).2 hy)).2 (.rel _ _ ⟨(hcurve k hk).sub x hx, hy, hyx⟩)
  have hshare : ∀ f ∈ st.dcp.map Prod.fst, ∀ g ∈ st.dcp.map Prod.fst, f ≠ g → g ∈ nbs (d + 1) f → ShareCell c series.length f g := by
    intro f hf g hg hfg hn
    obtain ⟨e, he1, he2⟩ := (hst.adj f hf g hg).1 hn
    exact ⟨e, he1.1, hst.cover f hf g hg hfg e he1 he2, he1.2, he2.2⟩
  have hunshare : ∀ f ∈ st.dcp.map Prod.fst, ∀ g ∈ st.dcp.map Prod.fst, ShareCell c series.length f g → g ∈ nbs (d + 1) f := by
    rintro f hf g hg ⟨e, he1, -, he2, he3⟩
    exact (hst.adj f hf g hg).2 ⟨e, ⟨he1, he2⟩, he1, he3⟩
  have hendsne : ∀ k ∈ cs, ∀ a z, 2 ≤ k.length → k.head? = some a → k.getLast? = some z → z ≠ a := by
    intro k hk a z hl ha hz hza
    subst hza
    have hnd := (hcurve k hk).nodup
    rcases k with _ | ⟨x, k⟩
    · cases ha
    · simp only [List.head?_cons, Option.some.injEq] at ha
      subst ha
      rcases List.eq_nil_or_concat k with rfl | ⟨k', w, rfl⟩
      · simp at hl
      · rw [List.concat_eq_append] at hnd hz
        simp [List.getLast?_cons] at hz
        subst hz
        simp at hnd
  refine ⟨ts, q1, ?_⟩
  constructor
  · rw [hcs]; exact q4
  · intro f
    rw [hcs, hmem, hK]
  · intro k hk
    rw [hcs] at hk
    refine ⟨(q3 k hk).1, ?_⟩
    have hch : List.IsChain (fun x y => y ∈ nbs (d + 1) x) k := (q3 k hk).2
    have hnd := (hcurve k hk).nodup
    have hsub := (hcurve k hk).sub
    clear hk
    induction k with
    | nil => exact .nil
    | cons x k ih =>
      rcases k with _ | ⟨y, k⟩
      · exact .singleton _
      · rw [List.isChain_cons_cons] at hch ⊢
        refine ⟨hshare x (hsub x (by simp)) y (hsub y (by simp)) ?_ hch.1, ih hch.2 (List.nodup_cons.1 hnd).2
          fun z hz => hsub z (by simp [hz])⟩
        rintro rfl
        simp at hnd
  · intro k hk a z ha hz
    rw [hcs] at hk
    have hka : a ∈ k := List.mem_of_mem_head? ha
    have hkz : z ∈ k := List.mem_of_mem_getLast? hz
    rcases hst.closed_or_open (hcurve k hk) (hcl k hk) ha hz with ⟨hl, hn⟩ | ⟨⟨e, he, hi⟩, e', he', hi'⟩
    · left
      have hza := hendsne k hk a z (by omega) ha hz
      exact ⟨hl, hshare z ((hcurve k hk).sub z hkz) a ((hcurve k hk).sub a hka) hza (nbs_symm _ _ hn)⟩
    · exact .inr ⟨⟨e, he.1, he.2, hi⟩, e', he'.1, he'.2, hi'⟩
  · intro e he hin
    rcases cell_parity hc hone hpar hcov h0 h1 F he hin with hz | ⟨f, g, hfg, hh⟩
    · exact .inl hz
    · right
      obtain ⟨pf, ff⟩ := (hh f).2 (.inl rfl)
      obtain ⟨pg, fg⟩ := (hh g).2 (.inr rfl)
      have kf := (hK f).2 pf
      have kg := (hK g).2 pg
      obtain ⟨k, hk, hfk⟩ := List.mem_flatten.1 ((hmem f).2 kf)
      have hn : g ∈ nbs (d + 1) f := (hst.adj f kf g kg).2 ⟨e, ⟨he, ff⟩, he, fg⟩
      refine ⟨f, g, hfg, hh, k, by rw [hcs]; exact hk, ?_⟩
      exact hst.nextTo (hcurve k hk) hfk (hcl k hk f hfk g kg hn) hfg hn
  · intro t ht hl
    obtain ⟨k, hk, hm⟩ := forall₂_get q2 t ht
    have hkt : t.pts.map (elemOf c) = k := by
      have := curvesOf_eq (c := c) hs (fun ⟨f, cp⟩ hm => found_elem hc ((hdcp f cp).1 hm)) (List.Forall₂.cons hm .nil)
      simpa [curvesOf] using this
    have hkl : 3 ≤ k.length := by rw [← hkt]; simpa using hl
    rw [hkt, hm.loop]
    have hne : k ≠ [] := (q3 k hk).1
    obtain ⟨a, ha⟩ : ∃ a, k.head? = some a := by
      rcases k with _ | ⟨x, k⟩
      · exact absurd rfl hne
      · exact ⟨x, rfl⟩
    obtain ⟨z, hz⟩ : ∃ z, k.getLast? = some z := ⟨_, List.getLast?_eq_some_getLast hne⟩
    rw [Gr.C21_is_loop (nbs (d + 1)) k a z (by omega) ha hz]
    have ka := (hcurve k hk).sub a (List.mem_of_mem_head? ha)
    have kz := (hcurve k hk).sub z (List.mem_of_mem_getLast? hz)
    constructor
    · intro hn
      exact ⟨a, z, ha, hz, hshare z kz a ka (hendsne k hk a z (by omega) ha hz) (nbs_symm _ _ hn)⟩
    · rintro ⟨a', z', ha', hz', hsh⟩
      rw [ha] at ha'
      rw [hz] at hz'
      cases ha'
      cases hz'
      exact nbs_symm _ _ (hunshare z kz a ka hsh)

/-- C72, for every test with the zero-or-two property (C32) — a single process, no point filter, finite
values, one scaling factor `F` during the run: whatever the thread schedules of the scans and the order in
which the components are finished at the end, the trajectories follow the punctured facets through the
cells. -/
theorem C72_follows (c : Cfg d γ) (hc : Shaped c) (hone : c.core = c.domain) (hkeep : ∀ cp, c.keep cp = true)
    (hpar : ZeroOrTwo c.test) (hstr : c.streaming = false) (h0 : c.t0 = 0)
    (series : List (Snap d)) (hne : series ≠ []) (h1 : (series.length : Int) ≤ c.t1 + 1)
    (hcov : ∀ s ∈ series, Covers c s) (hfin : ∀ s ∈ series, AllFinite s)
    (F : Int) (hF : ∀ t < series.length, scale (series.take (t + 2)) = F)
    (ord : Nat → Scope → List Int) (ho : ∀ k, Complete c (ord k)) :
    ∃ st gs, run c (driveOps series ord) St.init = some st ∧ st.trajs = [] ∧
      offlineGroups (nbs (d + 1)) st.dcp = some gs ∧
      ∀ gs' : List (Elem × List (Elem × CP γ)), gs'.Perm gs →
        ∃ ts, offlineCurves (nbs (d + 1)) gs' = some ts ∧ Follows c series F ts :=
  follows_of_detect c hc hone hkeep hpar hstr h0 series hne h1 hcov hfin F (fun t ht e => by rw [hF t ht]) ord ho

/-! ### values that are multiples of 1/256 -/

/-- every value times 256 is an integer (the scaling factor is never smaller) -/
def Dyadic (s : Snap d) : Prop := ∀ idx j r, s.val idx j = some r → ∃ z : Int, r * 256 = z

/-- the test is unchanged when all vectors are multiplied by a positive integer -/
def ScaleFree (test : (Fin (d + 1) → Fin d → Int) → (Fin (d + 1) → Int) → Bool) : Prop :=
  ∀ (m : Int), 0 < m → ∀ V v, test (fun i j => m * V i j) v = test V v

theorem quant_int {f : Int} {r : Rat} {z : Int} (h : r * f = z) : quant f r = z := by
  unfold quant
  have hd : (r.den : Rat) ≠ 0 := by exact_mod_cast r.den_nz
  have : r.num * f = z * r.den := by
    have h2 : (r.num : Rat) * f = z * r.den := by
      rw [← h]
      conv_lhs => rw [← Rat.mul_den_eq_num r]
      ring
    exact_mod_cast h2
  rw [this]
  exact Int.mul_tdiv_cancel _ (by exact_mod_cast r.den_nz)

theorem nbits_ge (r : Rat) : 8 ≤ nbits r := by
  unfold nbits
  split <;> omega

theorem absRead_dyadic {c : Cfg d γ} {series : List (Snap d)} (hd : ∀ s ∈ series, Dyadic s) {v : Vtx}
    {x : Fin d → Option Rat} (hx : absRead c series v = some x) (j : Fin d) :
    ∃ z : Int, ((x j).getD 0) * 256 = z := by
  unfold absRead at hx
  cases ht : v[d]? with
  | none => simp [ht] at hx
  | some t =>
    simp only [ht] at hx
    by_cases h0 : t < 0
    · simp [h0] at hx
    · rw [if_neg h0] at hx
      cases hss : series[t.toNat]? with
      | none => simp [hss] at hx
      | some s =>
        simp only [hss, Snap.read] at hx
        split at hx
        · cases hx
          cases hv : s.val (List.zipWith (fun x (a : Nat) => x - a) (v.take d) c.astart) j with
          | none => exact ⟨0, by simp⟩
          | some r =>
            obtain ⟨z, hz⟩ := hd s (List.mem_of_getElem? hss) _ _ _ hv
            exact ⟨z, by simpa using hz⟩
        · cases hx

theorem detect_dyadic {c : Cfg d γ} (hsc : ScaleFree c.test) {series : List (Snap d)} (hd : ∀ s ∈ series, Dyadic s)
    (P : List (Snap d)) (t : Nat) (e : Elem) : detect c series (scale P) t e = detect c series 256 t e := by
  unfold scale
  obtain ⟨k, hk⟩ := Nat.exists_eq_add_of_le (nbits_ge (minRes P))
  rw [hk]
  unfold detect checkWith
  by_cases hv : elemValid (d + 1) c.bounds e
  · simp only [hv, if_true]
    cases hvs : e.vertices (d + 1) with
    | none => rfl
    | some vs =>
      simp only
      cases hr : readAll (absRead c series) vs with
      | none => rfl
      | some vals =>
        simp only
        have hvf : vf (d := d) (2 ^ (8 + k)) vals = fun i j => 2 ^ k * vf (d := d) 256 vals i j := by
          funext i j
          unfold vf
          have hz : ∃ z : Int, (((vals[i.val]?.getD fun _ => none) j).getD 0) * 256 = z := by
            cases hi : vals[i.val]? with
            | none => exact ⟨0, by simp⟩
            | some x =>
              obtain ⟨h1, h2⟩ := readAll_eq hr
              rw [h1, List.getElem?_map] at hi
              cases hiv : vs[i.val]? with
              | none => simp [hiv] at hi
              | some v =>
                simp only [hiv, Option.map_some, Option.some.injEq] at hi
                obtain ⟨y, hy⟩ := Option.isSome_iff_exists.1 (h2 v (List.mem_of_getElem? hiv))
                rw [hy, Option.getD_some] at hi
                subst hi
                exact absRead_dyadic hd hy j
          obtain ⟨z, hz⟩ := hz
          have q1 := quant_int (f := 256) (z := z) (by exact_mod_cast hz)
          have q2 := quant_int (f := 2 ^ (8 + k)) (r := ((vals[i.val]?.getD fun _ => none) j).getD 0) (z := 2 ^ k * z) (by
            push_cast
            rw [← hz, pow_add]
            ring)
          rw [q1, q2]
        rw [hvf, hsc _ (by positivity)]
  · simp only [hv]
    rfl

/-- the robust tests of the 2-D and 3-D trackers have the zero-or-two property -/
theorem zeroOrTwo_of_card {d : Nat} {test : (Fin (d + 1) → Fin d → Int) → (Fin (d + 1) → Int) → Bool}
    (h : ∀ (V : Fin (d + 2) → Fin d → Int) (v : Fin (d + 2) → Int), Function.Injective v → (∀ i, 0 ≤ v i) →
      let p := Finset.univ.filter fun k => test (SoS.face V k) (SoS.face v k) = true
      p.card = 0 ∨ p.card = 2) : ZeroOrTwo test := by
  intro V v hv h0
  rcases h V v hv h0 with hc | hc
  · left
    intro k
    have := Finset.filter_eq_empty_iff.1 (Finset.card_eq_zero.1 hc) (Finset.mem_univ k)
    exact Bool.eq_false_iff.2 this
  · right
    obtain ⟨a, b, hab, he⟩ := Finset.card_eq_two.1 hc
    refine ⟨a, b, hab, fun k => ?_⟩
    have : k ∈ Finset.univ.filter (fun k => test (SoS.face V k) (SoS.face v k) = true) ↔ k = a ∨ k = b := by
      rw [he]; simp
    rw [Finset.mem_filter, and_iff_right (Finset.mem_univ k)] at this
    exact this

theorem zeroOrTwo_2d : ZeroOrTwo (d := 2) SoS.criticalPointInSimplex2 :=
  zeroOrTwo_of_card SoS.C32_critical_point_2d

theorem zeroOrTwo_3d : ZeroOrTwo (d := 3) SoS.criticalPointInSimplex3 :=
  zeroOrTwo_of_card SoS.C32_critical_point_3d

/-- C72 for the 2-D tracker. -/
theorem C72_tracker_2d (c : Cfg 2 γ) (htest : c.test = SoS.criticalPointInSimplex2) (hc : Shaped c)
    (hone : c.core = c.domain) (hkeep : ∀ cp, c.keep cp = true) (hstr : c.streaming = false) (h0 : c.t0 = 0)
    (series : List (Snap 2)) (hne : series ≠ []) (h1 : (series.length : Int) ≤ c.t1 + 1)
    (hcov : ∀ s ∈ series, Covers c s) (hfin : ∀ s ∈ series, AllFinite s)
    (F : Int) (hF : ∀ t < series.length, scale (series.take (t + 2)) = F)
    (ord : Nat → Scope → List Int) (ho : ∀ k, Complete c (ord k)) :
    ∃ ts, track c series ord = some ts ∧ Follows c series F ts := by
  obtain ⟨st, gs, e1, e2, e3, h⟩ := C72_follows c hc hone hkeep (by rw [htest]; exact zeroOrTwo_2d) hstr h0 series hne h1
    hcov hfin F hF ord ho
  obtain ⟨ts, e4, h⟩ := h gs (List.Perm.refl _)
  refine ⟨ts, ?_, h⟩
  simp [track, e1, finalize, hstr, traceOffline, e2, e3, e4]

/-- C72 for the 3-D tracker. -/
theorem C72_tracker_3d (c : Cfg 3 γ) (htest : c.test = SoS.criticalPointInSimplex3) (hc : Shaped c)
    (hone : c.core = c.domain) (hkeep : ∀ cp, c.keep cp = true) (hstr : c.streaming = false) (h0 : c.t0 = 0)
    (series : List (Snap 3)) (hne : series ≠ []) (h1 : (series.length : Int) ≤ c.t1 + 1)
    (hcov : ∀ s ∈ series, Covers c s) (hfin : ∀ s ∈ series, AllFinite s)
    (F : Int) (hF : ∀ t < series.length, scale (series.take (t + 2)) = F)
    (ord : Nat → Scope → List Int) (ho : ∀ k, Complete c (ord k)) :
    ∃ ts, track c series ord = some ts ∧ Follows c series F ts := by
  obtain ⟨st, gs, e1, e2, e3, h⟩ := C72_follows c hc hone hkeep (by rw [htest]; exact zeroOrTwo_3d) hstr h0 series hne h1
    hcov hfin F hF ord ho
  obtain ⟨ts, e4, h⟩ := h gs (List.Perm.refl _)
  refine ⟨ts, ?_, h⟩
  simp [track, e1, finalize, hstr, traceOffline, e2, e3, e4]

/-- C72 without a hypothesis on the scaling factors: if all values are multiples of 1/256 (fields of
integers, say), 2-D tracker. -/
theorem C72_tracker_2d_dyadic (c : Cfg 2 γ) (htest : c.test = SoS.criticalPointInSimplex2) (hc : Shaped c)
    (hone : c.core = c.domain) (hkeep : ∀ cp, c.keep cp = true) (hstr : c.streaming = false) (h0 : c.t0 = 0)
    (series : List (Snap 2)) (hne : series ≠ []) (h1 : (series.length : Int) ≤ c.t1 + 1)
    (hcov : ∀ s ∈ series, Covers c s) (hfin : ∀ s ∈ series, AllFinite s) (hdy : ∀ s ∈ series, Dyadic s)
    (ord : Nat → Scope → List Int) (ho : ∀ k, Complete c (ord k)) :
    ∃ ts, track c series ord = some ts ∧ Follows c series 256 ts := by
  obtain ⟨st, gs, e1, e2, e3, h⟩ := follows_of_detect c hc hone hkeep (by rw [htest]; exact zeroOrTwo_2d) hstr h0 series hne
    h1 hcov hfin 256 (fun t _ e => detect_dyadic (by rw [htest]; exact fun m hm V v => SoS.scale2 m hm V v) hdy _ t e) ord ho
  obtain ⟨ts, e4, h⟩ := h gs (List.Perm.refl _)
  refine ⟨ts, ?_, h⟩
  simp [track, e1, finalize, hstr, traceOffline, e2, e3, e4]

/-- C72, values that are multiples of 1/256, 3-D tracker. -/
theorem C72_tracker_3d_dyadic (c : Cfg 3 γ) (htest : c.test = SoS.criticalPointInSimplex3) (hc : Shaped c)
    (hone : c.core = c.domain) (hkeep : ∀ cp, c.keep cp = true) (hstr : c.streaming = false) (h0 : c.t0 = 0)
    (series : List (Snap 3)) (hne : series ≠ []) (h1 : (series.length : Int) ≤ c.t1 + 1)
    (hcov : ∀ s ∈ series, Covers c s) (hfin : ∀ s ∈ series, AllFinite s) (hdy : ∀ s ∈ series, Dyadic s)
    (ord : Nat → Scope → List Int) (ho : ∀ k, Complete c (ord k)) :
    ∃ ts, track c series ord = some ts ∧ Follows c series 256 ts := by
  obtain ⟨st, gs, e1, e2, e3, h⟩ := follows_of_detect c hc hone hkeep (by rw [htest]; exact zeroOrTwo_3d) hstr h0 series hne
    h1 hcov hfin 256 (fun t _ e => detect_dyadic (by rw [htest]; exact fun m hm V v => SoS.scale3 m hm V v) hdy _ t e) ord ho
  obtain ⟨ts, e4, h⟩ := h gs (List.Perm.refl _)
  refine ⟨ts, ?_, h⟩
  simp [track, e1, finalize, hstr, traceOffline, e2, e3, e4]

end Verif.Trk
