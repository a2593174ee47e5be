import Verif.CLine.Slice
import Verif.Tracker.CurveGeo
import Verif.Graph.Props
/-! Curves of the critical line tracker for a single snapshot. -/
namespace Verif.CLT
open Verif.SRM
open Verif.Gen (Box InsideV Inside Shaped)
open Verif.Trk (Strip)
open Verif.Ctr (IsElem FaceOf isElem_of_cell elem_unique faceOf_iff sub_cell)
open Verif.Gr (Linked Symm)

variable {S V : Type} [Inhabited V]

/-! ### curves of a graph whose degrees are at most two -/

theorem curves_generic {α : Type} [LinearOrder α] (nb : α → List α) (hs : Symm nb) (hnd : ∀ x, (nb x).Nodup) (K : List α)
    (hdeg : ∀ x ∈ K, Trk.deg nb K x ≤ 2) :
    ∃ cs css, Gr.extractCC nb K = some cs ∧ Gen.mapAll (Gr.linearComponents nb) cs = some css ∧
      (∀ k ∈ css.flatten, k ≠ [] ∧ List.IsChain (fun x y => y ∈ nb x) k) ∧ css.flatten.flatten.Nodup ∧
      (∀ x, x ∈ css.flatten.flatten ↔ x ∈ K) ∧
      ∀ k ∈ css.flatten, ∀ x ∈ k, ∀ y ∈ K, y ∈ nb x → y ∈ k := by
  obtain ⟨cs, h1, hp⟩ := Gr.C18_components nb K
  have hcl : ∀ cc ∈ cs, ∀ x ∈ cc, ∀ y ∈ K, y ∈ nb x → y ∈ cc := by
    intro cc hcc x hx y hy hyx
    exact (hp.classes cc hcc x hx y hy).2 (.rel _ _ ⟨hp.only cc hcc x hx, hy, hyx⟩)
  have key : ∀ cc ∈ cs, ∃ curves, Gr.linearComponents nb cc = some curves ∧
      (∀ k ∈ curves, k ≠ [] ∧ List.IsChain (fun x y => y ∈ nb x) k) ∧ curves.flatten.Nodup ∧
      (∀ x, x ∈ curves.flatten ↔ x ∈ cc) ∧ ∀ k ∈ curves, ∀ x ∈ k, ∀ y ∈ cc, y ∈ nb x → y ∈ k := by
    intro cc hcc
    obtain ⟨curves, e1, e2, e3, e4, e5⟩ := Gr.C21_linear_components nb hs hnd cc
    have hd : ∀ x ∈ cc, ((nb x).filter (fun y => decide (y ≠ x ∧ y ∈ cc))).length ≤ 2 := by
      intro x hx
      refine Nat.le_trans ?_ (hdeg x (hp.only cc hcc x hx))
      unfold Trk.deg
      rw [← List.countP_eq_length_filter, ← List.countP_eq_length_filter]
      apply List.countP_mono_left
      intro y _ hy
      simp only [decide_eq_true_eq] at hy ⊢
      exact ⟨hy.1, hp.only cc hcc y hy.2⟩
    have hm : ∀ x, x ∈ curves.flatten ↔ x ∈ cc := fun x => (e4 x).trans ⟨fun h => h.1, fun h => ⟨h, hd x h⟩⟩
    have hf : cc.filter (fun x => decide (((nb x).filter (fun y => decide (y ≠ x ∧ y ∈ cc))).length ≤ 2)) = cc := by
      rw [List.filter_eq_self]
      intro x hx
      simpa using hd x hx
    rw [hf] at e5
    refine ⟨curves, e1, e2, e3, hm, fun k hk x hx y hy hyx => ?_⟩
    have hxc : x ∈ cc := (hm x).1 (List.mem_flatten.2 ⟨k, hk, hx⟩)
    exact (e5 k hk x hx y ((hm y).2 hy)).2 (.rel _ _ ⟨hxc, hy, hyx⟩)
  have key' : ∀ cc, ∃ curves, cc ∈ cs → Gr.linearComponents nb cc = some curves ∧
      (∀ k ∈ curves, k ≠ [] ∧ List.IsChain (fun x y => y ∈ nb x) k) ∧ curves.flatten.Nodup ∧
      (∀ x, x ∈ curves.flatten ↔ x ∈ cc) ∧ ∀ k ∈ curves, ∀ x ∈ k, ∀ y ∈ cc, y ∈ nb x → y ∈ k := by
    intro cc
    by_cases h : cc ∈ cs
    · obtain ⟨curves, h'⟩ := key cc h
      exact ⟨curves, fun _ => h'⟩
    · exact ⟨[], fun h' => absurd h' h⟩
  choose g hg using key'
  have hflat : ((cs.map g).flatten).flatten = (cs.map fun cc => (g cc).flatten).flatten := by
    rw [List.flatten_flatten, List.map_map]
    rfl
  refine ⟨cs, cs.map g, h1, Gen.mapAll_some fun cc hcc => (hg cc hcc).1, ?_, ?_, ?_, ?_⟩
  · intro k hk
    obtain ⟨l, hl, hkl⟩ := List.mem_flatten.1 hk
    obtain ⟨cc, hcc, rfl⟩ := List.mem_map.1 hl
    exact (hg cc hcc).2.1 k hkl
  · rw [hflat, List.nodup_flatten]
    constructor
    · intro l hl
      obtain ⟨cc, hcc, rfl⟩ := List.mem_map.1 hl
      exact (hg cc hcc).2.2.1
    · rw [List.pairwise_map]
      refine List.Pairwise.imp_of_mem ?_ hp.disjoint
      intro a b ha hb hab
      rw [List.disjoint_left]
      intro x hx hx'
      exact hab x (((hg a ha).2.2.2.1 x).1 hx) (((hg b hb).2.2.2.1 x).1 hx')
  · intro x
    rw [hflat, List.mem_flatten]
    constructor
    · rintro ⟨l, hl, hx⟩
      obtain ⟨cc, hcc, rfl⟩ := List.mem_map.1 hl
      exact hp.only cc hcc x (((hg cc hcc).2.2.2.1 x).1 hx)
    · intro hx
      obtain ⟨cc, hcc, hxc⟩ := hp.cover x hx
      exact ⟨_, List.mem_map.2 ⟨cc, hcc, rfl⟩, ((hg cc hcc).2.2.2.1 x).2 hxc⟩
  · intro k hk x hx y hy hyx
    obtain ⟨l, hl, hkl⟩ := List.mem_flatten.1 hk
    obtain ⟨cc, hcc, rfl⟩ := List.mem_map.1 hl
    have hxc : x ∈ cc := ((hg cc hcc).2.2.2.1 x).1 (List.mem_flatten.2 ⟨k, hkl, hx⟩)
    exact (hg cc hcc).2.2.2.2 k hkl x hx y (hcl cc hcc x hxc y hy hyx) hyx

/-! ### triangles of a tetrahedron -/

/-- the other three indices of four -/
def dropOne (i : Fin 4) : List (Fin 4) := (List.finRange 4).filter fun k => decide (k ≠ i)

theorem mem_dropOne {i k : Fin 4} : k ∈ dropOne i ↔ k ≠ i := by simp [dropOne]
theorem dropOne_len : ∀ i : Fin 4, (dropOne i).length = 3 := by decide
theorem dropOne_sub (i : Fin 4) : (dropOne i).Sublist (List.finRange 4) := List.filter_sublist
theorem sub3of4 : ∀ s ∈ (List.finRange 4).sublists, s.length = 3 → ∃ i, s = dropOne i := by decide +kernel

/-- the faces of a tetrahedron -/
structure TFaces (e : Elem) (w : Fin 4 → Vtx) (F : Fin 4 → Elem) : Prop where
  inj : Function.Injective w
  verts : e.vertices 4 = some (List.ofFn w)
  tri : ∀ i, IsElem 4 2 (F i) ∧ (F i).vertices 4 = some ((dropOne i).map w)
  tris : ∀ f, IsElem 4 2 f → (FaceOf 4 f e ↔ ∃ i, f = F i)
  finj : Function.Injective F

theorem tfaces_exist {e : Elem} (he : IsElem 4 3 e) : ∃ w F, TFaces e w F := by
  obtain ⟨w, hw, hinj, hcell⟩ := Ctr.verts_ofFn (n := 4) (by omega) (k := 3) (by omega) he
  have hmk : ∀ i, ∃ f, IsElem 4 2 f ∧ f.vertices 4 = some ((dropOne i).map w) := by
    intro i
    obtain ⟨c', hc'⟩ := sub_cell hcell (ws := (dropOne i).map w) (by rw [List.ofFn_eq_map]; exact (dropOne_sub i).map w) (m := 2)
      (by simpa using dropOne_len i)
    exact isElem_of_cell (by omega) (by omega) hc'
  choose F hF using hmk
  refine ⟨w, F, hinj, hw, hF, fun f hf => ⟨fun hfe => ?_, ?_⟩, fun i j hij => ?_⟩
  · obtain ⟨vf, ve, a, b, s⟩ := (faceOf_iff (by omega) (by omega) (by omega) hf he).1 hfe
    rw [hw] at b
    cases b
    rw [List.ofFn_eq_map] at s
    obtain ⟨t, ht, rfl⟩ := List.sublist_map_iff.1 s
    have hl := (cell_of_elem (n := 4) (by omega) (by omega) hf.dim hf.len a).len
    obtain ⟨i, rfl⟩ := sub3of4 t (List.mem_sublists.2 ht) (by simpa using hl)
    exact ⟨i, elem_unique (by omega) (by omega) hf (hF i).1 a (hF i).2⟩
  · rintro ⟨i, rfl⟩
    refine ⟨_, _, (hF i).2, hw, fun v hv => ?_⟩
    obtain ⟨k, -, rfl⟩ := List.mem_map.1 hv
    exact List.mem_ofFn.2 ⟨k, rfl⟩
  · have h1 := (hF i).2
    rw [hij, (hF j).2] at h1
    have hs := List.map_injective_iff.2 hinj (Option.some.inj h1)
    by_contra hne
    have : i ∈ dropOne j := mem_dropOne.2 hne
    rw [hs] at this
    exact mem_dropOne.1 this rfl

/-- two different triangles of a tetrahedron contain all its vertices -/
theorem tri_cover {e f g : Elem} (he : IsElem 4 3 e) (hf : IsElem 4 2 f) (hg : IsElem 4 2 g) (hfg : f ≠ g) (h1 : FaceOf 4 f e)
    (h2 : FaceOf 4 g e) : ∃ ve vf vg, e.vertices 4 = some ve ∧ f.vertices 4 = some vf ∧ g.vertices 4 = some vg ∧
      ∀ v, v ∈ ve ↔ v ∈ vf ∨ v ∈ vg := by
  obtain ⟨w, F, hF⟩ := tfaces_exist he
  obtain ⟨i, rfl⟩ := (hF.tris f hf).1 h1
  obtain ⟨j, rfl⟩ := (hF.tris g hg).1 h2
  have hij : i ≠ j := fun h => hfg (by rw [h])
  refine ⟨_, _, _, hF.verts, (hF.tri i).2, (hF.tri j).2, fun v => ?_⟩
  rw [List.mem_ofFn]
  simp only [List.mem_map, mem_dropOne]
  constructor
  · rintro ⟨k, rfl⟩
    by_cases h : k = i
    · exact .inr ⟨k, fun h' => hij (h.symm.trans h'), rfl⟩
    · exact .inl ⟨k, h, rfl⟩
  · rintro (⟨k, -, rfl⟩ | ⟨k, -, rfl⟩) <;> exact ⟨k, rfl⟩

/-- a tetrahedron inside has no pierced triangle or exactly two -/
theorem tet_parity {c : Cfg V} (rd : S → List Int → Option V) (series : List S) (hc : Shaped c.box series.length) {e : Elem}
    (he : IsElem 4 3 e) (hin : Inside c.box series.length e) : (∀ f, Pierced c rd series f → ¬ FaceOf 4 f e) ∨
    ∃ f g, f ≠ g ∧ ∀ h, (Pierced c rd series h ∧ FaceOf 4 h e) ↔ h = f ∨ h = g := by
  obtain ⟨w, F, hF⟩ := tfaces_exist he
  have hins : ∀ i, InsideV c.box series.length (w i) := by
    obtain ⟨vs, h1, h2⟩ := hin
    have := hF.verts
    rw [h1] at this
    cases this
    exact fun i => h2 _ (List.mem_ofFn.2 ⟨i, rfl⟩)
  have hb : ∀ i, InBounds c.box.bounds (w i) := fun i => Gen.insideV_bounds hc (Nat.le_refl _) (hins i)
  have hpar := parity4 hc rd series w hF.inj hb
  have hP : ∀ i, Pierced c rd series (F i) ↔ pb c rd series ((dropOne i).map w) = true := by
    intro i
    rw [pierced_iff (hF.tri i).1 (hF.tri i).2]
    refine ⟨fun h => h.2, fun h => ⟨fun v hv => ?_, h⟩⟩
    obtain ⟨k, -, rfl⟩ := List.mem_map.1 hv
    exact hins k
  have e0 : (dropOne 0).map w = [w 1, w 2, w 3] := rfl
  have e1 : (dropOne 1).map w = [w 0, w 2, w 3] := rfl
  have e2 : (dropOne 2).map w = [w 0, w 1, w 3] := rfl
  have e3 : (dropOne 3).map w = [w 0, w 1, w 2] := rfl
  have hfin : (∀ i, pb c rd series ((dropOne i).map w) = false) ∨
      ∃ i j, i ≠ j ∧ ∀ k, pb c rd series ((dropOne k).map w) = true ↔ k = i ∨ k = j := by
    rcases hpar with ⟨a, b, d, e⟩ | h
    · left
      intro i
      fin_cases i
      · exact a
      · exact b
      · exact d
      · exact e
    · right
      rw [← e0, ← e1, ← e2, ← e3] at h
      have : ∀ B : Fin 4 → Bool, [B 0, B 1, B 2, B 3].countP id = 2 → ∃ i j, i ≠ j ∧ ∀ k, B k = true ↔ k = i ∨ k = j := by
        intro B hB
        have hd : ∀ b0 b1 b2 b3 : Bool, [b0, b1, b2, b3].countP id = 2 →
            ∃ i j : Fin 4, i ≠ j ∧ ∀ k, (![b0, b1, b2, b3] : Fin 4 → Bool) k = true ↔ k = i ∨ k = j := by decide
        obtain ⟨i, j, hij, hk⟩ := hd _ _ _ _ hB
        refine ⟨i, j, hij, fun k => ?_⟩
        rw [← hk k]
        fin_cases k <;> rfl
      exact this (fun i => pb c rd series ((dropOne i).map w)) h
  have htri : ∀ f, Pierced c rd series f → IsElem 4 2 f := fun f ⟨_, h⟩ => h.tri
  rcases hfin with h | ⟨i, j, hij, h⟩
  · left
    intro f hp hfe
    obtain ⟨i, rfl⟩ := (hF.tris f (htri f hp)).1 hfe
    have := (hP i).1 hp
    rw [h i] at this
    cases this
  · right
    refine ⟨F i, F j, fun h => hij (hF.finj h), fun x => ⟨?_, ?_⟩⟩
    · rintro ⟨hp, hfe⟩
      obtain ⟨k, rfl⟩ := (hF.tris x (htri x hp)).1 hfe
      rcases (h k).1 ((hP k).1 hp) with rfl | rfl
      · exact .inl rfl
      · exact .inr rfl
    · rintro (rfl | rfl)
      · exact ⟨(hP i).2 ((h i).2 (.inl rfl)), (hF.tris _ (hF.tri i).1).2 ⟨i, rfl⟩⟩
      · exact ⟨(hP j).2 ((h j).2 (.inr rfl)), (hF.tris _ (hF.tri j).1).2 ⟨j, rfl⟩⟩

/-! ### neighbours -/

theorem mem_nbs {f g : Elem} : g ∈ nbs f ↔ IsElem 4 2 f ∧ IsElem 4 2 g ∧ ∃ e, IsElem 4 3 e ∧ FaceOf 4 f e ∧ FaceOf 4 g e := by
  unfold nbs
  by_cases hf : IsElem 4 2 f
  · rw [if_pos ⟨hf.len, hf.dim, hf.type⟩]
    obtain ⟨S, s1, s2⟩ := Ctr.sideOf_iff (n := 4) (by omega) (k := 2) (by omega) hf
    rw [s1]
    simp only
    rw [mem_toSet, List.mem_flatMap]
    constructor
    · rintro ⟨e, he, hg⟩
      obtain ⟨a, b⟩ := (s2 e).1 he
      obtain ⟨S', t1, -, t2⟩ := Ctr.sides_iff (n := 4) (by omega) (k := 2) (by omega) a
      rw [t1] at hg
      obtain ⟨q, r⟩ := (t2 g).1 hg
      exact ⟨hf, q, e, a, b, r⟩
    · rintro ⟨-, hg, e, a, b, r⟩
      obtain ⟨S', t1, -, t2⟩ := Ctr.sides_iff (n := 4) (by omega) (k := 2) (by omega) a
      refine ⟨e, (s2 e).2 ⟨a, b⟩, ?_⟩
      rw [t1]
      exact (t2 g).2 ⟨hg, r⟩
  · rw [if_neg (fun h => hf ⟨h.2.1, h.1, h.2.2⟩)]
    constructor
    · intro h
      cases h
    · rintro ⟨h, -⟩
      exact absurd h hf

theorem nbs_symm : Symm nbs := by
  intro f g h
  obtain ⟨a, b, e, h1, h2, h3⟩ := mem_nbs.1 h
  exact mem_nbs.2 ⟨b, a, e, h1, h3, h2⟩

theorem nbs_nodup (f : Elem) : (nbs f).Nodup := by
  unfold nbs
  split
  · split
    · exact List.nodup_nil
    · exact (toSet_sorted _).nodup
  · exact List.nodup_nil

/-! ### the strip -/

variable {c : Cfg V} {rd : S → List Int → Option V} {s : S}

/-- a pierced triangle of a single snapshot is at time 0 -/
theorem pierced_ord {f : Elem} (h : Pierced c rd [s] f) : OrdAt f 0 := by
  obtain ⟨vs, h⟩ := h
  refine ⟨_, h.verts, fun v hv => ?_⟩
  have hz : ∀ i, AtTime 4 (vs i) 0 := by
    intro i
    obtain ⟨x, hx, hlt⟩ := (h.inside i).time
    have : x = 0 := by simpa using hlt
    subst this
    exact hx
  simp only [List.mem_cons, List.not_mem_nil, or_false] at hv
  rcases hv with rfl | rfl | rfl
  · exact hz 0
  · exact hz 1
  · exact hz 2

theorem inside_ord {e : Elem} (h : Inside c.box 1 e) : OrdAt e 0 := by
  obtain ⟨vs, h1, h2⟩ := h
  refine ⟨vs, h1, fun v hv => ?_⟩
  obtain ⟨x, hx, hlt⟩ := (h2 v hv).time
  have : x = 0 := by omega
  subst this
  exact hx

theorem pierced_tri {f : Elem} {series : List S} (h : Pierced c rd series f) : IsElem 4 2 f := by
  obtain ⟨vs, h⟩ := h
  exact h.tri

theorem pierced_inside {f : Elem} {series : List S} (h : Pierced c rd series f) : Inside c.box series.length f := by
  obtain ⟨vs, h⟩ := h
  refine ⟨_, h.verts, fun v hv => ?_⟩
  simp only [List.mem_cons, List.not_mem_nil, or_false] at hv
  rcases hv with rfl | rfl | rfl
  · exact h.inside 0
  · exact h.inside 1
  · exact h.inside 2

/-- the pierced triangles of a single snapshot form a strip through the tetrahedra -/
theorem strip (hc : Shaped c.box 1) {K : List Elem} (hK : ∀ f, f ∈ K ↔ Pierced c rd [s] f) :
    Strip nbs (fun f e => IsElem 4 3 e ∧ OrdAt e 0 ∧ FaceOf 4 f e) (Inside c.box 1) K := by
  have hcover : ∀ f ∈ K, ∀ g ∈ K, f ≠ g → ∀ e, IsElem 4 3 e → FaceOf 4 f e → FaceOf 4 g e → Inside c.box 1 e := by
    intro f hf g hg hfg e he h1 h2
    have pf := (hK f).1 hf
    have pg := (hK g).1 hg
    obtain ⟨ve, vf, vg, q1, q2, q3, q4⟩ := tri_cover he (pierced_tri pf) (pierced_tri pg) hfg h1 h2
    obtain ⟨vf', r1, r2⟩ := pierced_inside pf
    obtain ⟨vg', r3, r4⟩ := pierced_inside pg
    rw [q2] at r1
    rw [q3] at r3
    cases r1
    cases r3
    refine ⟨ve, q1, fun v hv => ?_⟩
    rcases (q4 v).1 hv with h | h
    · exact r2 v h
    · exact r4 v h
  constructor
  · intro f hf
    exact two_tets (pierced_tri ((hK f).1 hf)) (pierced_ord ((hK f).1 hf))
  · rintro f hf g hg hfg e ⟨he, -, h1⟩ ⟨-, -, h2⟩
    exact hcover f hf g hg hfg e he h1 h2
  · rintro e hin f hf ⟨he, hot, hfe⟩
    rcases tet_parity rd [s] hc he hin with hz | ⟨p, q, hpq, hall⟩
    · exact absurd hfe (hz f ((hK f).1 hf))
    · have hp := (hall p).2 (.inl rfl)
      have hq := (hall q).2 (.inr rfl)
      rcases (hall f).1 ⟨(hK f).1 hf, hfe⟩ with rfl | rfl
      · exact ⟨q, (hK q).2 hq.1, Ne.symm hpq, ⟨he, hot, hq.2⟩, fun h hh ⟨_, _, hhe⟩ => (hall h).1 ⟨(hK h).1 hh, hhe⟩⟩
      · exact ⟨p, (hK p).2 hp.1, hpq, ⟨he, hot, hp.2⟩, fun h hh ⟨_, _, hhe⟩ => ((hall h).1 ⟨(hK h).1 hh, hhe⟩).symm⟩
  · rintro f hf g hg hfg e e' ⟨he, -, q1⟩ ⟨-, -, q2⟩ ⟨he', -, q3⟩ ⟨-, -, q4⟩
    have tf := pierced_tri ((hK f).1 hf)
    have tg := pierced_tri ((hK g).1 hg)
    obtain ⟨ve, vf, vg, a1, a2, a3, a4⟩ := tri_cover he tf tg hfg q1 q2
    obtain ⟨ve', vf', vg', b1, b2, b3, b4⟩ := tri_cover he' tf tg hfg q3 q4
    rw [a2] at b2
    rw [a3] at b3
    cases b2
    cases b3
    have h1 : FaceOf 4 e e' := ⟨_, _, a1, b1, fun v hv => (b4 v).2 ((a4 v).1 hv)⟩
    obtain ⟨x, y, hx, hy, hsub⟩ := (faceOf_iff (by omega) (by omega) (by omega) he he').1 h1
    have hxl := (cell_of_elem (n := 4) (by omega) (by omega) he.dim he.len hx).len
    have hyl := (cell_of_elem (n := 4) (by omega) (by omega) he'.dim he'.len hy).len
    have := hsub.eq_of_length (by omega)
    subst this
    exact elem_unique (by omega) (by omega) he he' hx hy
  · intro f hf g hg
    have pf := (hK f).1 hf
    have pg := (hK g).1 hg
    rw [mem_nbs]
    constructor
    · rintro ⟨-, -, e, h1, h2, h3⟩
      by_cases hfg : f = g
      · subst hfg
        obtain ⟨a, b, -, hab⟩ := two_tets (pierced_tri pf) (pierced_ord pf)
        have := (hab a).2 (.inl rfl)
        exact ⟨a, this, this⟩
      · have hot := inside_ord (hcover f hf g hg hfg e h1 h2 h3)
        exact ⟨e, ⟨h1, hot, h2⟩, h1, hot, h3⟩
    · rintro ⟨e, ⟨h1, -, h2⟩, -, -, h3⟩
      exact ⟨pierced_tri pf, pierced_tri pg, e, h1, h2, h3⟩
  · exact nbs_nodup
  · exact nbs_symm

/-- the curves of a single snapshot -/
theorem lines_follow (hc : Shaped c.box 1) {P : Type} {inter : List (Elem × P)}
    (hK : ∀ f, f ∈ inter.map Prod.fst ↔ Pierced c rd [s] f) : ∃ ks, lines inter = some ks ∧ FollowsLines c rd s ks := by
  have hst := strip hc hK
  obtain ⟨cs, css, h1, h2, q3, q4, q5, q6⟩ := curves_generic nbs nbs_symm nbs_nodup (inter.map Prod.fst)
    (fun x hx => hst.deg_le_two hx)
  refine ⟨css.flatten, by unfold lines; rw [h1]; simp only [h2, Option.map_some], ?_⟩
  have hcurve : ∀ k ∈ css.flatten, Strip.Curve nbs (inter.map Prod.fst) k := fun k hk =>
    ⟨fun x hx => (q5 x).1 (List.mem_flatten.2 ⟨k, hk, hx⟩), (List.nodup_flatten.1 q4).1 k hk, (q3 k hk).2⟩
  have hshare : ∀ f ∈ inter.map Prod.fst, ∀ g ∈ inter.map Prod.fst, f ≠ g → g ∈ nbs f → ShareTet c 1 f g := by
    intro f hf g hg hfg hn
    obtain ⟨e, he1, he2⟩ := (hst.adj f hf g hg).1 hn
    exact ⟨e, he1.1, hst.cover f hf g hg hfg e he1 he2, he1.2.2, he2.2.2⟩
  constructor
  · exact q4
  · intro f
    rw [q5, hK]
  · intro k hk
    refine ⟨(q3 k hk).1, ?_⟩
    have hch : List.IsChain (fun x y => y ∈ nbs x) k := (q3 k hk).2
    have hnd := (hcurve k hk).nodup
    have hsub := (hcurve k hk).sub
    clear hk
    induction k with
    | nil => exact .nil
    | cons x k ih =>
      rcases k with _ | ⟨y, k⟩
      · exact .singleton _
      · rw [List.isChain_cons_cons] at hch ⊢
        refine ⟨hshare x (hsub x (by simp)) y (hsub y (by simp)) ?_ hch.1, ih hch.2 (List.nodup_cons.1 hnd).2
          fun z hz => hsub z (by simp [hz])⟩
        rintro rfl
        simp at hnd
  · intro k hk a z ha hz
    have hka : a ∈ k := List.mem_of_mem_head? ha
    have hkz : z ∈ k := List.mem_of_mem_getLast? hz
    rcases hst.closed_or_open (hcurve k hk) (q6 k hk) ha hz with ⟨hl, hn⟩ | ⟨⟨e, he, hi⟩, e', he', hi'⟩
    · left
      have hza : z ≠ a := by
        rintro rfl
        have hnd := (hcurve k hk).nodup
        rcases k with _ | ⟨x, k⟩
        · cases ha
        · simp only [List.head?_cons, Option.some.injEq] at ha
          subst ha
          rcases List.eq_nil_or_concat k with rfl | ⟨k', w, rfl⟩
          · simp at hl
          · rw [List.concat_eq_append] at hnd hz
            simp [List.getLast?_cons] at hz
            subst hz
            simp at hnd
      exact ⟨hl, hshare z ((hcurve k hk).sub z hkz) a ((hcurve k hk).sub a hka) hza (nbs_symm _ _ hn)⟩
    · right
      obtain ⟨vs, hv, hat⟩ := he.2.1
      obtain ⟨vs', hv', hat'⟩ := he'.2.1
      exact ⟨⟨e, vs, he.1, hv, hat, he.2.2, hi⟩, e', vs', he'.1, hv', hat', he'.2.2, hi'⟩
  · intro e he hin
    rcases tet_parity rd [s] hc he hin with hz | ⟨f, g, hfg, hh⟩
    · exact .inl hz
    · right
      obtain ⟨pf, ff⟩ := (hh f).2 (.inl rfl)
      obtain ⟨pg, fg⟩ := (hh g).2 (.inr rfl)
      have kf := (hK f).2 pf
      have kg := (hK g).2 pg
      obtain ⟨k, hk, hfk⟩ := List.mem_flatten.1 ((q5 f).2 kf)
      have hot := inside_ord hin
      have hn : g ∈ nbs f := (hst.adj f kf g kg).2 ⟨e, ⟨he, hot, ff⟩, he, hot, fg⟩
      exact ⟨f, g, hfg, hh, k, hk, hst.nextTo (hcurve k hk) hfk (q6 k hk f hfk g kg hn) hfg hn⟩

end Verif.CLT
