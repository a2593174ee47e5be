import Verif.Contour.Props
import Verif.Contour.Volume
/-! C86: the isovolumes of the 3-D contour tracker. -/
namespace Verif.Ctr
open Verif.SRM
open Verif.Trk (elemValid)
variable {c : Cfg 3} {series : List Scal} {inter : List (Elem × Pt)}

theorem mem_cutD {ins abv : Fin 5 → Bool} {i : Fin 5} {p : Fin 5 × Fin 5} :
    p ∈ cutD ins abv i ↔ p ∈ cutP ins abv ∧ p.1 ≠ i ∧ p.2 ≠ i := by
  unfold cutD cutP
  rw [List.mem_filter, List.mem_filter, pairs_others]
  constructor
  · rintro ⟨⟨a, b⟩, c⟩; exact ⟨⟨a, c⟩, b⟩
  · rintro ⟨⟨a, c⟩, b⟩; exact ⟨⟨a, b⟩, c⟩

theorem idx_lt (hk : Keys c series inter) {w : Fin 5 → Vtx} {b : Vtx} (hcell : Cell 4 4 b (List.ofFn w)) {p : Fin 5 × Fin 5}
    (hp : p ∈ cutP (insW c series w) (abvW c series w)) : numAt 4 inter w p < inter.length := by
  obtain ⟨-, p2, -⟩ := numAt_eq hk hcell hp
  have := List.idxOf_lt_length_iff.2 ((hk.mem _).2 p2)
  rw [List.length_map] at this
  exact this

/-- the tetrahedra of a related cell have four different, existing points -/
theorem tets_idx (hk : Keys c series inter) {x : Elem} (hx : IsElem 4 4 x) (hv : elemValid 4 c.bounds x = true)
    {l : List (List Nat)} (hl : patch3 c.bounds inter x = some l) : ∀ t ∈ l, t.length = 4 ∧ t.Nodup ∧ ∀ i ∈ t, i < inter.length := by
  obtain ⟨w, hw, hwi, hcell⟩ := verts_ofFn (n := 4) (by omega) (by omega) hx
  obtain ⟨S, s, σ, h1, h2, rfl, h3⟩ := sides_pos hx hw hwi hcell
  rw [patch3_spec hk hx hv hw h1 h2 h3] at hl
  cases hl
  intro t ht
  obtain ⟨r, hr, rfl⟩ := List.mem_map.1 ht
  obtain ⟨s1, s2, s3⟩ := tet5_shape _ _ h2 r hr
  refine ⟨by rw [List.length_map, s1], ?_, ?_⟩
  · refine (List.nodup_map_iff_inj_on s2).2 fun p hp q hq h => ?_
    obtain ⟨p1, -, -⟩ := numAt_eq hk hcell (s3 p hp)
    obtain ⟨q1, -, q3⟩ := numAt_eq hk hcell (s3 q hq)
    exact at2_inj hwi (edgeOf_inj (by omega) hcell hcell p1 q1 (q3 _ h))
  · intro i hi
    obtain ⟨p, hp, rfl⟩ := List.mem_map.1 hi
    exact idx_lt hk hcell (s3 p hp)

theorem ord2_cases (a b : Fin 5) (h : a ≠ b) : ord2 a b = (a, b) ∧ a < b ∨ ord2 a b = (b, a) ∧ b < a := by
  unfold ord2
  by_cases hab : a < b
  · left; exact ⟨if_pos hab, hab⟩
  · right; exact ⟨if_neg hab, lt_of_le_of_ne (not_lt.1 hab) (Ne.symm h)⟩

theorem lt_pairs : ∀ a b : Fin 5, a < b → (a, b) ∈ pairs (List.finRange 5) := by decide +kernel

/-- an inside cell is decomposed as it should -/
theorem inside_decomposed (hk : Keys c series inter) {x : Elem} (hx : IsElem 4 4 x) (hv : elemValid 4 c.bounds x = true)
    (hin : Inside c series.length x) {l : List (List Nat)} (hl : patch3 c.bounds inter x = some l) :
    Decomposed c series inter x l := by
  obtain ⟨w, hw, hwi, hcell⟩ := verts_ofFn (n := 4) (by omega) (by omega) hx
  obtain ⟨S, s, σ, h1, h2, rfl, h3⟩ := sides_pos hx hw hwi hcell
  rw [patch3_spec hk hx hv hw h1 h2 h3] at hl
  cases hl
  have hi := (inside_iff hw).1 hin
  have hins : insW c series w = ![true, true, true, true, true] := by rw [eta5 (insW c series w), hi, hi, hi, hi, hi]
  have habv : ∀ a b, (abvW c series w a ≠ abvW c series w b) ↔ (Above c series (w a) ↔ ¬ Above c series (w b)) := by
    intro a b
    unfold abvW abvB
    by_cases h1 : Above c series (w a) <;> by_cases h2 : Above c series (w b) <;> simp [h1, h2]
  have habv' : ∀ a b, (abvW c series w a = abvW c series w b) ↔ (Above c series (w a) ↔ Above c series (w b)) := by
    intro a b
    unfold abvW abvB
    by_cases h1 : Above c series (w a) <;> by_cases h2 : Above c series (w b) <;> simp [h1, h2]
  refine ⟨w, fun a b => numAt 4 inter w (ord2 a b), hw, ?_, ?_⟩
  · intro a b hab
    have hne := (habv a b).2 hab
    have hab' : a ≠ b := fun h => hne (by rw [h])
    have hmem : ord2 a b ∈ cutP (insW c series w) (abvW c series w) := by
      unfold cutP
      rw [List.mem_filter]
      rcases ord2_cases a b hab' with ⟨e, hlt⟩ | ⟨e, hlt⟩
      · rw [e]; exact ⟨lt_pairs _ _ hlt, by simp [hi, hne]⟩
      · rw [e]; exact ⟨lt_pairs _ _ hlt, by simp [hi, Ne.symm hne]⟩
    obtain ⟨m1, m2, -⟩ := numAt_eq hk hcell hmem
    obtain ⟨es, ev⟩ := edgeOf_spec (by omega) hcell m1
    have hmk := (hk.mem _).2 m2
    have hlt := List.idxOf_lt_length_iff.2 hmk
    have hlt' : numAt 4 inter w (ord2 a b) < inter.length := by rw [List.length_map] at hlt; exact hlt
    have hg : (inter.map Prod.fst)[numAt 4 inter w (ord2 a b)]'(by rw [List.length_map]; exact hlt') = edgeOf 4 (at2 w (ord2 a b)) :=
      List.getElem_idxOf hlt
    refine ⟨edgeOf 4 (at2 w (ord2 a b)), (inter[numAt 4 inter w (ord2 a b)]'hlt').2, ?_, es, ?_⟩
    · rw [List.getElem?_eq_getElem hlt']
      rw [List.getElem_map] at hg
      rw [← hg]
    · rw [ev]
      rcases ord2_cases a b hab' with ⟨e, -⟩ | ⟨e, -⟩
      · left; rw [e]; rfl
      · right; rw [e]; rfl
  · have hcases := in_cases (abvW c series w 0) (abvW c series w 1) (abvW c series w 2) (abvW c series w 3) (abvW c series w 4)
    rw [← eta5 (abvW c series w), ← hins] at hcases
    rcases hcases with ⟨h0, hall⟩ | ⟨h4, i, hone, hcut⟩ | h6
    · left
      refine ⟨fun a b => (habv' a b).1 (hall a b), ?_⟩
      unfold tet5
      rw [h0]
      rfl
    · right; left
      refine ⟨i, fun j hj => (habv j i).1 (hone j hj), ?_⟩
      unfold tet5
      rw [if_pos h4, hcut]
      simp only [List.map_cons, List.map_nil, List.map_map]
      rfl
    · right; right
      obtain ⟨p, q, hm, hpq, mp, mq⟩ := minors_two h6 h2
      have hsix := six_cases (abvW c series w 0) (abvW c series w 1) (abvW c series w 2) (abvW c series w 3) (abvW c series w 4)
      rw [← eta5 (abvW c series w), ← hins] at hsix
      obtain ⟨k1, a, b, d, hmaj, hab, hbd⟩ := hsix h6
      obtain ⟨e1, e2⟩ := k1 q p mq mp
      refine ⟨q, p, a, b, d, Ne.symm hpq, hab, hbd, (habv' q p).1 e1, ?_, ?_⟩
      · intro k hk'
        exact (habv k q).1 (e2 k (by rw [hmaj]; simpa using hk'))
      · unfold tet5
        rw [if_neg (by omega), if_pos h6, hm]
        simp only [hmaj, stair]
        rfl

/-- a related cell that is not inside -/
theorem outside_flat (hk : Keys c series inter) {x : Elem} (hx : IsElem 4 4 x) (hv : elemValid 4 c.bounds x = true)
    (hin : ¬ Inside c series.length x) {l : List (List Nat)} (hl : patch3 c.bounds inter x = some l) :
    l = [] ∨ ∃ t f, l = [t] ∧ IsElem 4 3 f ∧ FaceOf 4 f x ∧
      ∀ i ∈ t, ∃ e p, inter[i]? = some (e, p) ∧ FaceOf 4 e f := by
  obtain ⟨w, hw, hwi, hcell⟩ := verts_ofFn (n := 4) (by omega) (by omega) hx
  obtain ⟨S, s, σ, h1, h2, rfl, h3⟩ := sides_pos hx hw hwi hcell
  rw [patch3_spec hk hx hv hw h1 h2 h3] at hl
  cases hl
  rw [inside_iff hw] at hin
  obtain ⟨i, hi⟩ := not_forall.1 hin
  rcases tet5_out (insW c series w) (abvW c series w) (i := i) (by simpa using hi) (minors (abvW c series w) σ) with ⟨h, -⟩ | ⟨h, -⟩
  · left; rw [h]; rfl
  · right
    rw [h]
    refine ⟨_, s i, rfl, (h3 i).1, (h3 i).2.2, ?_⟩
    intro n hn
    obtain ⟨p, hp, rfl⟩ := List.mem_map.1 hn
    obtain ⟨p1, p2, p3⟩ := mem_cutD.1 hp
    obtain ⟨m1, m2, -⟩ := numAt_eq hk hcell p1
    have hlt := idx_lt hk hcell p1
    have hg : (inter.map Prod.fst)[numAt 4 inter w p]'(by rw [List.length_map]; exact hlt) = edgeOf 4 (at2 w p) :=
      List.getElem_idxOf (by rw [List.length_map]; exact hlt)
    refine ⟨edgeOf 4 (at2 w p), (inter[numAt 4 inter w p]'hlt).2, ?_, ?_⟩
    · rw [List.getElem?_eq_getElem hlt]
      rw [List.getElem_map] at hg
      rw [← hg]
    · refine ⟨_, _, (edgeOf_spec (by omega) hcell m1).2, (h3 i).2.1, ?_⟩
      intro v hv'
      have hmo : ∀ j, j ≠ i → w j ∈ (others i).map w := fun j hj =>
        List.mem_map.2 ⟨j, List.mem_filter.2 ⟨List.mem_finRange j, by simpa using hj⟩, rfl⟩
      rcases List.mem_cons.1 hv' with rfl | hv'
      · exact hmo _ p2
      · rw [List.mem_singleton.1 hv']; exact hmo _ p3

/-- when the mesh ends with the last snapshot, valid cells are inside -/
theorem valid_inside {d : Nat} {c : Cfg d} {T : Nat} (hc : Shaped c T) (ht : c.t1 + 1 = T) {k : Nat} (hkd : k ≤ d + 1) {x : Elem}
    (hx : IsElem (d + 1) k x) (hv : elemValid (d + 1) c.bounds x = true) : Inside c T x := by
  obtain ⟨vs, h1, h2⟩ := (elemValid_iff hc hx hkd).1 hv
  refine ⟨vs, h1, fun v hv => ?_⟩
  obtain ⟨a, b, y, y1, y2, y3⟩ := (inBounds_iff hc).1 (h2 v hv)
  have h0 := hc.start
  refine ⟨a, b, y.toNat, ?_, by omega⟩
  rw [Int.toNat_of_nonneg (by omega)]
  exact y1

/-- C86: building the isovolume never overruns its arrays nor fails its assertions, whatever the order in which the cells are
processed.  The points are the intersections in their order; every tetrahedron has four different, existing points; the
tetrahedra are those of the related cells, each inside cell being decomposed as described by `Decomposed`.  If the mesh's last
time is the last snapshot's, all related cells are inside; otherwise a related cell that is not contributes at most one
tetrahedron, a flat one (all its points lie in one facet of the cell). -/
theorem C86_isovolume_partial (c : Cfg 3) (series : List Scal) (hc : Shaped c series.length) (hne : series ≠ [])
    (hcov : ∀ s ∈ series, Covers c s) (ord : Nat → Scope → List Int) (ho : ∀ k, Complete c (ord k)) :
    ∃ st, run c (driveOps series ord) St.init = some st ∧ ∀ order, order.Perm st.cells →
      ∃ V parts, buildIsovolume c.bounds st.inter order = some V ∧ V.pts = st.inter.map Prod.snd ∧
        V.cells = order.flatMap parts ∧
        (∀ t ∈ V.cells, t.length = 4 ∧ t.Nodup ∧ ∀ i ∈ t, i < V.pts.length) ∧
        (∀ x ∈ order, Inside c series.length x → Decomposed c series st.inter x (parts x)) ∧
        (c.t1 + 1 = series.length → ∀ x ∈ order, Inside c series.length x) ∧
        ∀ x ∈ order, ¬ Inside c series.length x → parts x = [] ∨ ∃ t f, parts x = [t] ∧ IsElem 4 3 f ∧ FaceOf 4 f x ∧
          ∀ i ∈ t, ∃ e p, st.inter[i]? = some (e, p) ∧ FaceOf 4 e f := by
  obtain ⟨st, h1, h2⟩ := drive_holds hc hne hcov ord ho
  have hk := h2.keys hc
  refine ⟨st, h1, fun order hperm => ?_⟩
  have hord : ∀ x ∈ order, IsElem 4 4 x ∧ elemValid 4 c.bounds x = true := by
    intro x hx
    obtain ⟨e, p, -, hm⟩ := (h2.cells x).1 (hperm.mem_iff.1 hx)
    exact ⟨hm.1, hm.2.1⟩
  have hp : ∀ x ∈ order, patch3 c.bounds st.inter x = some ((patch3 c.bounds st.inter x).getD []) := by
    intro x hx
    obtain ⟨w, hw, hwi, hcell⟩ := verts_ofFn (n := 4) (by omega) (by omega) (hord x hx).1
    obtain ⟨S, s, σ, g1, g2, rfl, g3⟩ := sides_pos (hord x hx).1 hw hwi hcell
    rw [patch3_spec hk (hord x hx).1 (hord x hx).2 hw g1 g2 g3]
    rfl
  refine ⟨⟨st.inter.map Prod.snd, order.flatMap fun x => (patch3 c.bounds st.inter x).getD []⟩,
    fun x => (patch3 c.bounds st.inter x).getD [], ?_, rfl, rfl, ?_, ?_, ?_, ?_⟩
  · unfold buildIsovolume
    rw [collect_eq hp]
  · intro t ht
    obtain ⟨x, hx, htx⟩ := List.mem_flatMap.1 ht
    simp only [List.length_map]
    exact tets_idx hk (hord x hx).1 (hord x hx).2 (hp x hx) t htx
  · intro x hx hin
    exact inside_decomposed hk (hord x hx).1 (hord x hx).2 hin (hp x hx)
  · intro ht x hx
    exact valid_inside hc ht (Nat.le_refl _) (hord x hx).1 (hord x hx).2
  · intro x hx hin
    exact outside_flat hk (hord x hx).1 (hord x hx).2 hin (hp x hx)

/-! ### triangular patches -/

theorem cover4 : ∀ i0 i1 i2 i3 a0 a1 a2 a3 : Bool, (cutP ![i0, i1, i2, i3] ![a0, a1, a2, a3]).length = 3 →
    ∀ i : Fin 4, (cutP ![i0, i1, i2, i3] ![a0, a1, a2, a3]).any (fun p => decide (p.1 = i) || decide (p.2 = i)) = true := by
  decide +kernel

theorem cutP_nodup4 : ∀ i0 i1 i2 i3 a0 a1 a2 a3 : Bool, (cutP ![i0, i1, i2, i3] ![a0, a1, a2, a3]).Nodup := by
  decide +kernel

/-- a tetrahedron with exactly three cut edges: they touch all its vertices -/
theorem three_cover {f : Elem} (hf : IsElem 4 3 f) {es : List Elem} (hnd : es.Nodup) (hl : es.length = 3)
    (hes : ∀ e, e ∈ es ↔ Cut c series e ∧ FaceOf 4 e f) {x : Elem} {vx : Simplex} (hvx : x.vertices 4 = some vx)
    (h : ∀ e ∈ es, FaceOf 4 e x) : FaceOf 4 f x := by
  obtain ⟨w, hw, hwi, hcell⟩ := verts_ofFn (n := 4) (by omega) (k := 3) (by omega) hf
  have hperm : ((cutP (insW c series w) (abvW c series w)).map fun p => edgeOf 4 (at2 w p)).Perm es := by
    refine (List.perm_ext_iff_of_nodup ?_ hnd).2 fun e => ?_
    · refine (List.nodup_map_iff_inj_on ?_).2 fun p hp q hq h => ?_
      · rw [eta4 (insW c series w), eta4 (abvW c series w)]; exact cutP_nodup4 _ _ _ _ _ _ _ _
      · exact at2_inj hwi (edgeOf_inj (by omega) hcell hcell (mem_finPairs w (List.mem_filter.1 hp).1)
          (mem_finPairs w (List.mem_filter.1 hq).1) h)
    · rw [hes]
      constructor
      · intro he
        obtain ⟨p, hp, rfl⟩ := List.mem_map.1 he
        obtain ⟨h1, h2⟩ := List.mem_filter.1 hp
        have hm := mem_finPairs w h1
        exact ⟨(cut_pair (c := c) (series := series) hcell hm).2 h2, pair_face hf hw hcell hm⟩
      · rintro ⟨⟨u, v, hcut⟩, hfe⟩
        obtain ⟨p, hp, p1, p2⟩ := face_pos (by omega) (by omega) hf hw hcut hfe
        exact List.mem_map.2 ⟨p, hp, p2⟩
  have hlen : (cutP (insW c series w) (abvW c series w)).length = 3 := by
    have := hperm.length_eq
    rw [List.length_map, hl] at this
    exact this
  have hcov := cover4 (insW c series w 0) (insW c series w 1) (insW c series w 2) (insW c series w 3)
    (abvW c series w 0) (abvW c series w 1) (abvW c series w 2) (abvW c series w 3)
  rw [← eta4 (insW c series w), ← eta4 (abvW c series w)] at hcov
  refine ⟨_, _, hw, hvx, fun v hv => ?_⟩
  obtain ⟨i, rfl⟩ := List.mem_ofFn.1 hv
  obtain ⟨p, hp, hpi⟩ := List.any_eq_true.1 (hcov hlen i)
  have hm := mem_finPairs w (List.mem_filter.1 hp).1
  obtain ⟨ve, vx', e1, e2, e3⟩ := h (edgeOf 4 (at2 w p)) (hperm.mem_iff.1 (List.mem_map.2 ⟨p, hp, rfl⟩))
  rw [hvx] at e2
  cases e2
  rw [(edgeOf_spec (by omega) hcell hm).2] at e1
  cases e1
  rw [Bool.or_eq_true, decide_eq_true_iff, decide_eq_true_iff] at hpi
  rcases hpi with rfl | rfl
  · exact e3 _ (by simp [at2])
  · exact e3 _ (by simp [at2])

/-- the position left out by a facet -/
theorem facet_pos {x f : Elem} (hx : IsElem 4 4 x) (hf : IsElem 4 3 f) (h : FaceOf 4 f x) {w : Fin 5 → Vtx}
    (hw : x.vertices 4 = some (List.ofFn w)) : ∃ i, f.vertices 4 = some ((others i).map w) := by
  obtain ⟨vf, ve, a, b, sl⟩ := (faceOf_iff (by omega) (by omega) (by omega) hf hx).1 h
  rw [hw] at b
  cases b
  have cf := cell_of_elem (by omega) (by omega) hf.dim hf.len a
  obtain ⟨i, hi, he⟩ := dropsOne_of_sublist sl (by rw [cf.len, List.length_ofFn])
  rw [List.length_ofFn] at hi
  refine ⟨⟨i, hi⟩, ?_⟩
  rw [a, he, List.ofFn_eq_map, List.eraseIdx_map, ← others_eq ⟨i, hi⟩]

theorem mem_others {i j : Fin 5} {w : Fin 5 → Vtx} (hwi : Function.Injective w) : w j ∈ (others i).map w ↔ j ≠ i := by
  unfold others
  constructor
  · intro h
    obtain ⟨k, hk, e⟩ := List.mem_map.1 h
    rw [← hwi e]
    simpa using (List.mem_filter.1 hk).2
  · intro h
    exact List.mem_map.2 ⟨j, List.mem_filter.2 ⟨List.mem_finRange j, by simpa using h⟩, rfl⟩

/-- the cut edges of a facet of a cell, by position -/
theorem facet_cut {x f : Elem} (hx : IsElem 4 4 x) {w : Fin 5 → Vtx} (hw : x.vertices 4 = some (List.ofFn w))
    (hwi : Function.Injective w) (hcell : Cell 4 4 x.corner (List.ofFn w)) {i : Fin 5}
    (hvf : f.vertices 4 = some ((others i).map w)) {e : Elem} :
    (Cut c series e ∧ FaceOf 4 e f) ↔ ∃ p ∈ cutD (insW c series w) (abvW c series w) i, edgeOf 4 (at2 w p) = e := by
  constructor
  · rintro ⟨⟨u, v, hcut⟩, va, vf, e1, e2, e3⟩
    rw [hcut.verts] at e1
    rw [hvf] at e2
    cases e1
    cases e2
    have hfx : FaceOf 4 e x := ⟨_, _, hcut.verts, hw, fun z hz => by
      obtain ⟨j, -, rfl⟩ := List.mem_map.1 (e3 z hz)
      exact List.mem_ofFn.2 ⟨j, rfl⟩⟩
    obtain ⟨p, hp, p1, p2⟩ := face_pos (by omega) (by omega) hx hw hcut hfx
    unfold at2 at p1
    simp only [Prod.mk.injEq] at p1
    refine ⟨p, mem_cutD.2 ⟨hp, ?_, ?_⟩, p2⟩
    · exact (mem_others hwi).1 (p1.1 ▸ e3 u (by simp))
    · exact (mem_others hwi).1 (p1.2 ▸ e3 v (by simp))
  · rintro ⟨p, hp, rfl⟩
    obtain ⟨p1, p2, p3⟩ := mem_cutD.1 hp
    obtain ⟨h1, h2⟩ := List.mem_filter.1 p1
    have hm := mem_finPairs w h1
    refine ⟨(cut_pair (c := c) (series := series) hcell hm).2 h2, _, _, (edgeOf_spec (by omega) hcell hm).2, hvf, ?_⟩
    intro z hz
    rcases List.mem_cons.1 hz with rfl | hz
    · exact (mem_others hwi).2 p2
    · rw [List.mem_singleton.1 hz]; exact (mem_others hwi).2 p3

theorem cutD_nodup (ins abv : Fin 5 → Bool) (i : Fin 5) : (cutD ins abv i).Nodup := by
  have : ∀ i : Fin 5, (pairs (others i)).Nodup := by decide +kernel
  exact (this i).filter _

/-- in how many tetrahedra of a related cell three intersections on a triangular patch lie -/
theorem tri_cell_count (hk : Keys c series inter) {x : Elem} (hx : IsElem 4 4 x) (hv : elemValid 4 c.bounds x = true)
    {l : List (List Nat)} (hl : patch3 c.bounds inter x = some l) {f : Elem} (hf : IsElem 4 3 f) {es : List Elem} (hnd : es.Nodup)
    (hlen : es.length = 3) (hes : ∀ e, e ∈ es ↔ Cut c series e ∧ FaceOf 4 e f) :
    (FaceOf 4 f x → Inside c series.length x → l.countP (fun t => es.all fun e => decide ((inter.map Prod.fst).idxOf e ∈ t)) = 1) ∧
    (¬ (FaceOf 4 f x ∧ Inside c series.length x) →
      l.countP (fun t => es.all fun e => decide ((inter.map Prod.fst).idxOf e ∈ t)) = 0) := by
  obtain ⟨w, hw, hwi, hcell⟩ := verts_ofFn (n := 4) (by omega) (by omega) hx
  obtain ⟨S, s, σ, h1, h2, rfl, h3⟩ := sides_pos hx hw hwi hcell
  rw [patch3_spec hk hx hv hw h1 h2 h3] at hl
  cases hl
  have hshape := tet5_shape (insW c series w) (abvW c series w) h2
  have hpos : ∀ i, f.vertices 4 = some ((others i).map w) → ((cutD (insW c series w) (abvW c series w) i).map fun p => edgeOf 4 (at2 w p)).Perm es := by
    intro i hvf
    refine (List.perm_ext_iff_of_nodup ?_ hnd).2 fun e => ?_
    · refine (List.nodup_map_iff_inj_on (cutD_nodup _ _ _)).2 fun p hp q hq h => ?_
      exact at2_inj hwi (edgeOf_inj (by omega) hcell hcell (numAt_eq hk hcell (mem_cutD.1 hp).1).1
        (numAt_eq hk hcell (mem_cutD.1 hq).1).1 h)
    · rw [hes, facet_cut hx hw hwi hcell hvf]
      exact List.mem_map
  constructor
  · intro hfx hin
    obtain ⟨i, hvf⟩ := facet_pos hx hf hfx hw
    have hpm := hpos i hvf
    have h3' : (cutD (insW c series w) (abvW c series w) i).length = 3 := by
      have := hpm.length_eq
      rw [List.length_map, hlen] at this
      exact this
    rw [List.countP_map, ← tet5_count (insW c series w) (abvW c series w) ((inside_iff hw).1 hin) h2 h3']
    apply List.countP_congr
    intro t ht
    simp only [Function.comp_apply, List.all_eq_true, decide_eq_true_eq]
    constructor
    · intro h p hp
      obtain ⟨p1, p2, p3⟩ := numAt_eq hk hcell (mem_cutD.1 hp).1
      obtain ⟨r, hr, e⟩ := List.mem_map.1 (h _ (hpm.mem_iff.1 (List.mem_map.2 ⟨p, hp, rfl⟩)))
      obtain ⟨r1, -, r3⟩ := numAt_eq hk hcell ((hshape t ht).2.2 r hr)
      have := r3 _ e.symm
      rw [← at2_inj hwi (edgeOf_inj (by omega) hcell hcell p1 r1 this)] at hr
      exact hr
    · intro h e he
      obtain ⟨p, hp, rfl⟩ := List.mem_map.1 (hpm.mem_iff.2 he)
      exact List.mem_map.2 ⟨p, h p hp, rfl⟩
  · intro hno
    rw [List.countP_eq_zero]
    intro t' ht' hall
    obtain ⟨t, ht, rfl⟩ := List.mem_map.1 ht'
    rw [List.all_eq_true] at hall
    have hfaces : ∀ e ∈ es, FaceOf 4 e x := by
      intro e he
      have := hall e he
      rw [decide_eq_true_iff] at this
      obtain ⟨r, hr, e'⟩ := List.mem_map.1 this
      obtain ⟨r1, -, r3⟩ := numAt_eq hk hcell ((hshape t ht).2.2 r hr)
      rw [r3 e e'.symm]
      exact pair_face hx hw hcell r1
    have hfx := three_cover hf hnd hlen hes hw hfaces
    have hin : ¬ ∀ i, insW c series w i = true := fun h => hno ⟨hfx, (inside_iff hw).2 h⟩
    obtain ⟨j, hj⟩ := not_forall.1 hin
    obtain ⟨i, hvf⟩ := facet_pos hx hf hfx hw
    have hpm := hpos i hvf
    rcases tet5_out (insW c series w) (abvW c series w) (i := j) (by simpa using hj) (minors (abvW c series w) σ) with ⟨h, -⟩ | ⟨h, h4⟩
    · rw [h] at ht; cases ht
    · -- the outside vertex is the one left out by `f`
      have hij : i = j := by
        by_contra hne
        have hcovf := three_cover (c := c) (series := series) hf hnd hlen hes hvf
        -- all vertices of `f` lie on cut edges, hence inside
        obtain ⟨wf, hwf, -, hcf⟩ := verts_ofFn (n := 4) (by omega) (k := 3) (by omega) hf
        have hvj : w j ∈ (others i).map w := (mem_others hwi).2 (Ne.symm hne)
        have hins : insW c series w j = true := by
          have hlen' : (cutP (insW c series wf) (abvW c series wf)).length = 3 := by
            have : ((cutP (insW c series wf) (abvW c series wf)).map fun p => edgeOf 4 (at2 wf p)).Perm es := by
              refine (List.perm_ext_iff_of_nodup ?_ hnd).2 fun e => ?_
              · refine (List.nodup_map_iff_inj_on ?_).2 fun p hp q hq h => ?_
                · rw [eta4 (insW c series wf), eta4 (abvW c series wf)]; exact cutP_nodup4 _ _ _ _ _ _ _ _
                · have hwfi : Function.Injective wf := by
                    obtain ⟨wf', hwf', hi', -⟩ := verts_ofFn (n := 4) (by omega) (k := 3) (by omega) hf
                    rw [hwf] at hwf'
                    simp only [Option.some.injEq] at hwf'
                    rw [List.ofFn_injective hwf']
                    exact hi'
                  exact at2_inj hwfi (edgeOf_inj (by omega) hcf hcf (mem_finPairs wf (List.mem_filter.1 hp).1)
                    (mem_finPairs wf (List.mem_filter.1 hq).1) h)
              · rw [hes]
                constructor
                · intro he
                  obtain ⟨p, hp, rfl⟩ := List.mem_map.1 he
                  obtain ⟨h1, h2⟩ := List.mem_filter.1 hp
                  have hm := mem_finPairs wf h1
                  exact ⟨(cut_pair (c := c) (series := series) hcf hm).2 h2, pair_face hf hwf hcf hm⟩
                · rintro ⟨⟨u, v, hcut⟩, hfe⟩
                  obtain ⟨p, hp, p1, p2⟩ := face_pos (by omega) (by omega) hf hwf hcut hfe
                  exact List.mem_map.2 ⟨p, hp, p2⟩
            have hl2 := this.length_eq
            rw [List.length_map, hlen] at hl2
            exact hl2
          have hcov := cover4 (insW c series wf 0) (insW c series wf 1) (insW c series wf 2) (insW c series wf 3)
            (abvW c series wf 0) (abvW c series wf 1) (abvW c series wf 2) (abvW c series wf 3)
          rw [← eta4 (insW c series wf), ← eta4 (abvW c series wf)] at hcov
          rw [hvf] at hwf
          simp only [Option.some.injEq] at hwf
          rw [hwf] at hvj
          obtain ⟨k, hk'⟩ := List.mem_ofFn.1 hvj
          obtain ⟨p, hp, hpi⟩ := List.any_eq_true.1 (hcov hlen' k)
          have h2' := (List.mem_filter.1 hp).2
          rw [Bool.and_eq_true, Bool.and_eq_true] at h2'
          rw [Bool.or_eq_true, decide_eq_true_iff, decide_eq_true_iff] at hpi
          show insB c series.length (w j) = true
          rw [← hk']
          rcases hpi with rfl | rfl
          · exact h2'.1.1
          · exact h2'.1.2
        exact hj hins
      subst hij
      have := hpm.length_eq
      rw [List.length_map, h4, hlen] at this
      omega

open Classical in
/-- C86: the triangular patches of neighbouring cells fit: for a tetrahedron of the mesh with exactly three cut edges, the
three points on them lie together in as many tetrahedra of the isovolume as cells of the mesh containing it lie inside. -/
theorem C86_triangular_patches (c : Cfg 3) (series : List Scal) (hc : Shaped c series.length) (hne : series ≠ [])
    (hcov : ∀ s ∈ series, Covers c s) (ord : Nat → Scope → List Int) (ho : ∀ k, Complete c (ord k)) :
    ∃ st, run c (driveOps series ord) St.init = some st ∧ ∀ order, order.Perm st.cells →
      ∃ V, buildIsovolume c.bounds st.inter order = some V ∧
        ∀ (i j k : Nat) (ei ej ek f a b : Elem) (p q r : Pt), st.inter[i]? = some (ei, p) → st.inter[j]? = some (ej, q) →
          st.inter[k]? = some (ek, r) → i ≠ j → j ≠ k → i ≠ k → IsElem 4 3 f →
          (∀ e, Cut c series e ∧ FaceOf 4 e f ↔ e = ei ∨ e = ej ∨ e = ek) →
          IsElem 4 4 a → IsElem 4 4 b → a ≠ b → FaceOf 4 f a → FaceOf 4 f b →
          V.cells.countP (fun t => decide (i ∈ t ∧ j ∈ t ∧ k ∈ t)) =
            (if Inside c series.length a then 1 else 0) + if Inside c series.length b then 1 else 0 := by
  obtain ⟨st, h1, h2⟩ := drive_holds hc hne hcov ord ho
  have hk := h2.keys hc
  refine ⟨st, h1, fun order hperm => ?_⟩
  have hord : ∀ x ∈ order, IsElem 4 4 x ∧ elemValid 4 c.bounds x = true := by
    intro x hx
    obtain ⟨e, p, -, hm⟩ := (h2.cells x).1 (hperm.mem_iff.1 hx)
    exact ⟨hm.1, hm.2.1⟩
  have hp : ∀ x ∈ order, patch3 c.bounds st.inter x = some ((patch3 c.bounds st.inter x).getD []) := by
    intro x hx
    obtain ⟨w, hw, hwi, hcell⟩ := verts_ofFn (n := 4) (by omega) (by omega) (hord x hx).1
    obtain ⟨S, s, σ, g1, g2, rfl, g3⟩ := sides_pos (hord x hx).1 hw hwi hcell
    rw [patch3_spec hk (hord x hx).1 (hord x hx).2 hw g1 g2 g3]
    rfl
  refine ⟨⟨st.inter.map Prod.snd, order.flatMap fun x => (patch3 c.bounds st.inter x).getD []⟩, ?_, ?_⟩
  · unfold buildIsovolume
    rw [collect_eq hp]
  intro i j k ei ej ek f a b p q r hi hj hkk hij hjk hik hf hcut ha hb hab fa fb
  have hnd : (st.inter.map Prod.fst).Nodup := Trk.sorted_nodup h2.sorted
  have idx : ∀ (i : Nat) (e : Elem) (p : Pt), st.inter[i]? = some (e, p) → (st.inter.map Prod.fst).idxOf e = i := by
    intro i e p h
    have hg : (st.inter.map Prod.fst)[i]? = some e := by rw [List.getElem?_map, h]; rfl
    obtain ⟨hlt, hge⟩ := List.getElem?_eq_some_iff.1 hg
    rw [← hge]
    exact List.Nodup.idxOf_getElem hnd i hlt
  have xi := idx i ei p hi
  have xj := idx j ej q hj
  have xk := idx k ek r hkk
  have hes : ∀ e, e ∈ [ei, ej, ek] ↔ Cut c series e ∧ FaceOf 4 e f := by
    intro e
    rw [hcut]
    simp
  have hesn : [ei, ej, ek].Nodup := by
    simp only [List.nodup_cons, List.mem_cons, List.not_mem_nil, or_false, not_or, not_false_eq_true, List.nodup_nil, and_true]
    refine ⟨⟨?_, ?_⟩, ?_⟩
    · rintro rfl; exact hij (xi.symm.trans xj)
    · rintro rfl; exact hik (xi.symm.trans xk)
    · rintro rfl; exact hjk (xj.symm.trans xk)
  have hcount : ∀ ts : List (List Nat), ts.countP (fun t => decide (i ∈ t ∧ j ∈ t ∧ k ∈ t)) =
      ts.countP (fun t => [ei, ej, ek].all fun e => decide ((st.inter.map Prod.fst).idxOf e ∈ t)) := by
    intro ts
    apply List.countP_congr
    intro t _
    simp [xi, xj, xk]
  rw [hcount, countP_flatMap]
  have hcell := fun x (hx : x ∈ order) => tri_cell_count hk (hord x hx).1 (hord x hx).2 (hp x hx) hf hesn rfl hes
  obtain ⟨S, s1, s2⟩ := sideOf_iff (n := 4) (by omega) (by omega) hf
  obtain ⟨a', b', hab', hs⟩ := C14_facet_has_two_cofaces 4 (by omega) f (by rw [hf.dim]) hf.len hf.type
  rw [hs] at s1
  cases s1
  rw [sum_two hab' (hperm.nodup_iff.2 h2.csorted.nodup) (fun x hx h => by
    by_contra hcon
    refine h ((hcell x hx).2 fun hh => hcon ?_)
    simpa using (s2 x).2 ⟨(hord x hx).1, hh.1⟩)]
  have hin : ∀ x, IsElem 4 4 x → Inside c series.length x → FaceOf 4 f x → x ∈ order := by
    rintro x hx ⟨vs, v1, v2⟩ hfx
    obtain ⟨hce, hfe⟩ := (hcut ei).2 (Or.inl rfl)
    obtain ⟨p, hp⟩ := (found_iff_cut hc).2 hce
    refine hperm.mem_iff.2 ((h2.cells x).2 ⟨ei, p, hp, hx, ?_, hfe.trans hfx⟩)
    exact (elemValid_iff hc hx (Nat.le_refl _)).2 ⟨vs, v1, fun v hv => insideV_bounds hc (Nat.le_refl _) (v2 v hv)⟩
  have one : ∀ x, x ∈ [a', b'] → (if x ∈ order then
      ((patch3 c.bounds st.inter x).getD []).countP (fun t => [ei, ej, ek].all fun e => decide ((st.inter.map Prod.fst).idxOf e ∈ t)) else 0) =
      (if Inside c series.length x then 1 else 0) := by
    intro x hx
    obtain ⟨x1, x2⟩ := (s2 x).1 hx
    by_cases hi : Inside c series.length x
    · rw [if_pos (hin x x1 hi x2), if_pos hi]
      exact (hcell x (hin x x1 hi x2)).1 x2 hi
    · rw [if_neg hi]
      by_cases hxo : x ∈ order
      · rw [if_pos hxo]
        exact (hcell x hxo).2 fun h => hi h.2
      · rw [if_neg hxo]
  rw [one a' (by simp), one b' (by simp)]
  have ma := (s2 a).2 ⟨ha, fa⟩
  have mb := (s2 b).2 ⟨hb, fb⟩
  simp only [List.mem_cons, List.not_mem_nil, or_false] at ma mb
  rcases ma with rfl | rfl <;> rcases mb with rfl | rfl
  · exact absurd rfl hab
  · rfl
  · rw [Nat.add_comm]
  · exact absurd rfl hab

end Verif.Ctr
