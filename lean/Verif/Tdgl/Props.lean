import Verif.Tdgl.Sheet
/-! C110: the surfaces of the vortex tracker. -/
namespace Verif.Tdgl
open Verif.SRM
open Relation (EqvGen)
open Verif.Gen (Box InsideV Inside Shaped)
open Verif.Ctr (IsElem FaceOf)
open Real (pi pi_pos)
open Verif.CLT (Faces drop1 drop2 num Patch Patch.sub Patch.joins Patch.distinct SameTri vec3)

/-- the test of a triangle, of its vertices -/
noncomputable def vtest (c : Cfg) (series : List Snap) : List Vtx → Bool
  | [p, q, r] => crossed (phases c series ![p, q, r]) (lineInts c series ![p, q, r])
  | _ => false

theorem vortex_iff {c : Cfg} {series : List Snap} {f : Elem} (hf : IsElem 4 2 f) {l : List Vtx} (hl : f.vertices 4 = some l) :
    Vortex c series f ↔ (∀ v ∈ l, InsideV c.box series.length v) ∧ vtest c series l = true := by
  constructor
  · rintro ⟨vs, h⟩
    have := h.verts
    rw [hl] at this
    cases this
    constructor
    · intro v hv
      simp only [List.mem_cons, List.not_mem_nil, or_false] at hv
      rcases hv with rfl | rfl | rfl
      · exact h.inside 0
      · exact h.inside 1
      · exact h.inside 2
    · simp only [vtest, vec3]
      exact (turns_iff _ _).1 h.turns
  · rintro ⟨h1, h2⟩
    obtain ⟨ve, hve, hcell⟩ := hf.cell (by omega) (by omega)
    rw [hl] at hve
    cases hve
    have hlen := hcell.len
    rcases l with _ | ⟨a, _ | ⟨b, _ | ⟨d, _ | ⟨x, l⟩⟩⟩⟩ <;> simp at hlen
    refine ⟨![a, b, d], hf, hl, ?_, (turns_iff _ _).2 h2⟩
    intro i
    fin_cases i
    · exact h1 a (by simp)
    · exact h1 b (by simp)
    · exact h1 d (by simp)

/-- the four faces of a tetrahedron of the mesh -/
theorem tet_par {c : Cfg} {series : List Snap} (u : Fin 4 → Vtx)
    (h : ∀ i : Fin 4, lineInts c series (fun k => u (i.succAbove k)) 0 + lineInts c series (fun k => u (i.succAbove k)) 1 +
      lineInts c series (fun k => u (i.succAbove k)) 2 = 0 ∧
      ¬ Tie (phases c series fun k => u (i.succAbove k)) (lineInts c series fun k => u (i.succAbove k))) :
    [vtest c series [u 1, u 2, u 3], vtest c series [u 0, u 2, u 3], vtest c series [u 0, u 1, u 3],
      vtest c series [u 0, u 1, u 2]].countP id = 0 ∨
    [vtest c series [u 1, u 2, u 3], vtest c series [u 0, u 2, u 3], vtest c series [u 0, u 1, u 3],
      vtest c series [u 0, u 1, u 2]].countP id = 2 := by
  have key := C108_two u (fun i => valueAt c series (u i)) (fun i => (h i).2) fun i => (h i).1
  have e : ∀ i : Fin 4, crossed (facePhi (fun i => valueAt c series (u i)) i) (faceInt u (fun i => valueAt c series (u i)) i) =
      vtest c series [u (i.succAbove 0), u (i.succAbove 1), u (i.succAbove 2)] := by
    intro i
    have e1 : (fun k => u (i.succAbove k)) = (![u (i.succAbove 0), u (i.succAbove 1), u (i.succAbove 2)] : Fin 3 → Vtx) := by
      funext k; fin_cases k <;> rfl
    simp only [vtest, ← e1]
    rfl
  rw [show (List.finRange 4) = [0, 1, 2, 3] by decide] at key
  simp only [e] at key
  exact key

theorem sheet_of_calm {c : Cfg} {series : List Snap} (hcalm : Calm c series) :
    Sheet c.box series.length (Vortex c series) (vtest c series) where
  tri := by rintro f ⟨vs, h⟩; exact h.tri
  decides := fun hf hl => vortex_iff hf hl
  par := by
    intro x w U D hF k hin
    have key := tet_par (c := c) (series := series) (fun i => w (k.succAbove i)) (by
      intro i
      have hne : k.succAbove i ≠ k := Fin.succAbove_ne k i
      obtain ⟨t1, t2⟩ := hF.tri k (k.succAbove i) hne.symm
      refine hcalm _ _ t1 ?_ fun j => hin _ (Fin.succAbove_ne k _)
      rw [t2]
      congr 1
      fin_cases k <;> fin_cases i <;> rfl)
    have e : (drop1 k).countP (fun j => vtest c series ((drop2 k j).map w)) =
        [vtest c series [w (k.succAbove 1), w (k.succAbove 2), w (k.succAbove 3)],
         vtest c series [w (k.succAbove 0), w (k.succAbove 2), w (k.succAbove 3)],
         vtest c series [w (k.succAbove 0), w (k.succAbove 1), w (k.succAbove 3)],
         vtest c series [w (k.succAbove 0), w (k.succAbove 1), w (k.succAbove 2)]].countP id := by
      fin_cases k <;> rfl
    rw [e]
    exact key

theorem surfacePts_get (inter : List (Elem × Pt)) (i : Nat) (q : Surf.FPt Pt) :
    (surfacePts inter)[i]? = some q ↔ ∃ e p, inter[i]? = some (e, p) ∧ q = ⟨i, p.timestep, p.ordinal, p⟩ := by
  unfold surfacePts
  rw [List.getElem?_map, List.getElem?_zipIdx]
  cases h : inter[i]? with
  | none => simp
  | some kv =>
    obtain ⟨e, p⟩ := kv
    simp only [Option.map_some, Option.some.injEq, Prod.mk.injEq, Nat.zero_add]
    constructor
    · rintro rfl
      exact ⟨e, p, ⟨rfl, rfl⟩, rfl⟩
    · rintro ⟨e', p', ⟨rfl, rfl⟩, rfl⟩
      rfl

/-- C110: without circulation and ties, in every 4-simplex of the spacetime mesh inside the domain and the series, the crossed
triangles are the corners of one polygon of three, four or five sides, or there are none; every tetrahedron has none or exactly
two, which are consecutive. -/
theorem C110_ring (c : Cfg) (series : List Snap) (hcalm : Calm c series) (x : Elem)
    (hx : IsElem 4 4 x) (hin : Inside c.box series.length x) : ∃ ts fs, Ring (Vortex c series) x ts fs :=
  ring_exists (sheet_of_calm hcalm) hx hin

/-- C110, what holds of the surfaces: if nowhere the potential circulates around a triangle and no phase difference is exactly
half a turn, then for a series of any length and every order of the tasks the surface is built; its points are the recorded ones;
its triangles have three different corners; they are the patches of the 4-simplices inside that have crossed triangles; two points
are corners of a common triangle exactly if their triangles of the mesh lie on a common 4-simplex inside; and two points get
the same identifier exactly if they are linked through such 4-simplices.  What is missing: with a field a 4-simplex can have more
crossed triangles than a polygon (`C108_four`), and the patches are not triangulations of the polygons (as in C97). -/
theorem C110_surface_partial (c : Cfg) (series : List Snap) (hne : series ≠ []) (hcalm : Calm c series)
    (hc : Shaped c.box series.length) (hcov : ∀ s ∈ series, Covers c s) (ord : Nat → Scope → List Int)
    (ho : ∀ k, Complete c (ord k)) (perm : List Elem → List Elem) (hperm : ∀ l, (perm l).Perm l) :
    ∃ st s, Gen.run (tracker c).prog (Gen.driveOps series ord) Gen.St.init = some st ∧
      surfaces c.box.bounds st.inter perm = some s ∧ s.pts.length = st.inter.length ∧ s.quads = [] ∧ s.pentagons = [] ∧
      (∀ (i : Nat) e p, st.inter[i]? = some (e, p) → ∃ id, s.pts[i]? = some ⟨id, p.timestep, p.ordinal, p⟩) ∧
      (∀ t ∈ s.tris, (t.1 < s.pts.length ∧ t.2.1 < s.pts.length ∧ t.2.2 < s.pts.length) ∧
        t.1 ≠ t.2.1 ∧ t.1 ≠ t.2.2 ∧ t.2.1 ≠ t.2.2) ∧
      (∃ (order : List Elem) (g : Elem → List (Nat × Nat × Nat)), s.tris = order.flatMap g ∧ order.Nodup ∧
        (∀ x, x ∈ order ↔ IsElem 4 4 x ∧ Inside c.box series.length x ∧ ∃ f, Vortex c series f ∧ FaceOf 4 f x) ∧
        ∀ x ∈ order, ∃ ids, ids.Nodup ∧ 3 ≤ ids.length ∧ Patch ids (g x) ∧
          ∀ i, i ∈ ids ↔ ∃ f, (st.inter.map Prod.fst)[i]? = some f ∧ FaceOf 4 f x) ∧
      (∀ i j, SameTri s.tris i j ↔ SameCell c.box series.length st.inter i j) ∧
      ∀ (i j : Nat) (p q : Surf.FPt Pt), s.pts[i]? = some p → s.pts[j]? = some q → (p.id = q.id ↔ EqvGen (SameCell c.box series.length st.inter) i j) := by
  obtain ⟨st, h1, h2, -, h4⟩ := C107_detects c series hne hc hcov ord ho
  have hS := sheet_of_calm hcalm
  have hk : Keys (Vortex c series) st.inter := ⟨Trk.sorted_nodup h2, keys_vortex h4⟩
  obtain ⟨cells, e1, -⟩ := relatedCells_spec hS.tri hk c.box.bounds
  obtain ⟨g, g1, gnd, g2, g3⟩ := surfaceTris_spec hc hS hk e1 (hperm cells)
  have hsame := sameTri_iff hc hk g2 g3
  have hpl : (surfacePts st.inter).length = st.inter.length := by simp [surfacePts]
  have hrange : ∀ t ∈ (perm cells).flatMap g, (t.1 < st.inter.length ∧ t.2.1 < st.inter.length ∧ t.2.2 < st.inter.length) ∧
      t.1 ≠ t.2.1 ∧ t.1 ≠ t.2.2 ∧ t.2.1 ≠ t.2.2 := by
    intro t ht
    obtain ⟨x, hx, hxt⟩ := List.mem_flatMap.1 ht
    obtain ⟨ids, hnd, hpat, hids, -, -⟩ := (g3 x hx).patch
    have hlt : ∀ i ∈ ids, i < st.inter.length := by
      intro i hi
      obtain ⟨f, hf, -⟩ := (hids i).1 hi
      by_contra hn
      rw [List.getElem?_eq_none (by rw [List.length_map]; omega)] at hf
      cases hf
    obtain ⟨s1, s2, s3⟩ := hpat.sub hxt
    exact ⟨⟨hlt _ s1, hlt _ s2, hlt _ s3⟩, hpat.distinct hnd hxt⟩
  obtain ⟨s', r1, r2, r3, r4, -, r5⟩ := Surf.C87_surface_partial
    (⟨surfacePts st.inter, (perm cells).flatMap g, [], []⟩ : Surf.Surface Pt) (by
      intro l hl i hi
      simp only [Surf.Surface.cells, List.map_nil, List.append_nil, List.mem_map] at hl
      obtain ⟨t, ht, rfl⟩ := hl
      obtain ⟨⟨a, b, d⟩, -⟩ := hrange t ht
      simp only [Surf.triVs, List.mem_cons, List.not_mem_nil, or_false] at hi
      rcases hi with rfl | rfl | rfl <;> rw [hpl] <;> assumption)
  have hL := r5 rfl
  have hlen : s'.pts.length = st.inter.length := by rw [← hL.same.length_eq, hpl]
  refine ⟨st, s', h1, ?_, hlen, r3, r4, ?_, ?_, ?_, ?_, ?_⟩
  · unfold surfaces
    simp only [e1, g1, r1]
  · intro i e p hip
    have ho : (surfacePts st.inter)[i]? = some ⟨i, p.timestep, p.ordinal, p⟩ := (surfacePts_get _ _ _).2 ⟨e, p, hip, rfl⟩
    have hi : i < s'.pts.length := by
      rw [hlen]
      by_contra hn
      rw [List.getElem?_eq_none (by omega)] at hip
      cases hip
    have hi' : i < (surfacePts st.inter).length := by rw [hpl, ← hlen]; exact hi
    have := (List.forall₂_iff_get.1 hL.same).2 i hi' hi
    rw [List.getElem?_eq_getElem hi'] at ho
    have h' := Option.some.inj ho
    simp only [List.get_eq_getElem] at this
    rw [h'] at this
    exact ⟨_, (List.getElem?_eq_getElem hi).trans (congrArg some this)⟩
  · intro t ht
    rw [r2] at ht
    rw [hlen]
    exact hrange t ht
  · classical
    have hno : ∀ x ∈ perm cells, ¬ Inside c.box series.length x → g x = [] := by
      intro x hx hn
      obtain ⟨ids, hnd, hpat, hids, -, h3⟩ := (g3 x hx).patch
      have := h3 hn
      rcases hpat with ⟨h, -⟩ | ⟨h, -⟩ | ⟨h, -⟩ | ⟨-, h⟩
      · omega
      · omega
      · omega
      · exact h
    refine ⟨(perm cells).filter fun x => decide (Inside c.box series.length x), g, ?_, gnd.filter _, fun x => ?_, fun x hx => ?_⟩
    · rw [r2]
      simp only
      clear g1 g2 g3 hsame hrange r1 r5 gnd r2 r3 r4 hL hlen
      revert hno
      generalize perm cells = L
      intro hno
      induction L with
      | nil => rfl
      | cons a l ih =>
        rw [List.flatMap_cons, ih fun x hx => hno x (List.mem_cons_of_mem _ hx), List.filter_cons]
        by_cases ha : Inside c.box series.length a
        · rw [if_pos (by simpa using ha), List.flatMap_cons]
        · rw [if_neg (by simpa using ha), hno a (by simp) ha, List.nil_append]
    · rw [List.mem_filter, g2, decide_eq_true_eq]
      constructor
      · rintro ⟨⟨a, b, d⟩, e⟩
        exact ⟨a, e, d⟩
      · rintro ⟨a, e, d⟩
        exact ⟨⟨a, inside_valid hc a e, d⟩, e⟩
    · rw [List.mem_filter, decide_eq_true_eq] at hx
      obtain ⟨ids, hnd, hpat, hids, h3, -⟩ := (g3 x hx.1).patch
      refine ⟨ids, hnd, ?_, hpat, hids⟩
      rcases h3 hx.2 with h | h
      · exfalso
        obtain ⟨-, -, f, hf, hfx⟩ := (g2 x).1 hx.1
        have := (hids (num st.inter f)).2 ⟨f, (num_get hk).2 ⟨hf, rfl⟩, hfx⟩
        rw [h] at this
        cases this
      · exact h
  · intro i j
    rw [r2]
    exact hsame i j
  · intro i j p q hp hq
    rw [hL.ids i j p q hp hq]
    have hrel : (fun a b => ∃ l ∈ (⟨surfacePts st.inter, (perm cells).flatMap g, [], []⟩ : Surf.Surface Pt).cells, a ∈ l ∧ b ∈ l) =
        SameCell c.box series.length st.inter := by
      funext a b
      apply propext
      rw [← hsame]
      simp only [Surf.Surface.cells, List.map_nil, List.append_nil, List.mem_map, SameTri]
      constructor
      · rintro ⟨l, ⟨t, ht, rfl⟩, ha, hb⟩
        exact ⟨t, ht, by simpa [Surf.triVs] using ha, by simpa [Surf.triVs] using hb⟩
      · rintro ⟨t, ht, ha, hb⟩
        exact ⟨_, ⟨t, ht, rfl⟩, by simpa [Surf.triVs] using ha, by simpa [Surf.triVs] using hb⟩
    unfold Surf.Joined
    rw [hrel]

/-- the value at a vertex inside is read from a snapshot -/
theorem valueAt_inside {c : Cfg} {series : List Snap} (hcov : ∀ s ∈ series, Covers c s) {v : Vtx}
    (hv : InsideV c.box series.length v) : ∃ s ∈ series, valueAt c series v = ⟨s.rho (c.box.place v), s.phi (c.box.place v), s.md⟩ := by
  obtain ⟨x, hx, hlt⟩ := hv.time
  have hx' : (v.getD 3 0).toNat = x := by
    unfold AtTime at hx
    simp [List.getD, hx]
  have hm := List.getElem_mem hlt
  have := hcov _ hm _ hv.place
  obtain ⟨w, hw⟩ := Option.isSome_iff_exists.1 this
  refine ⟨series[x], hm, ?_⟩
  unfold valueAt
  rw [hx', List.getElem?_eq_getElem hlt]
  have hw' : series[x].read (c.box.place v) = some w := hw
  simp only [Option.bind_some, hw', Option.getD_some]
  unfold Snap.read at hw'
  split at hw'
  · exact (Option.some.inj hw').symm
  · cases hw'

/-- C110: a series without a field meets the hypothesis: one set of metadata without field and without `kex`, and no two phases in
the series differ by an odd multiple of half a turn. -/
theorem C110_free (c : Cfg) (series : List Snap) (hcov : ∀ s ∈ series, Covers c s) (m : Meta) (hm : ∀ s ∈ series, s.md = m)
    (hB : m.B = 0) (hk : m.kex = 0)
    (hno : ∀ s ∈ series, ∀ s' ∈ series, ∀ p q (k : ℤ), s.phi p - s'.phi q ≠ pi + 2 * pi * k) : Calm c series := by
  intro e vs _ _ hin
  have hz : ∀ i, lineInts c series vs i = 0 := by
    intro i
    obtain ⟨s, hs, e1⟩ := valueAt_inside hcov (hin i)
    obtain ⟨s', hs', e2⟩ := valueAt_inside hcov (hin (i + 1))
    unfold lineInts integrals
    beta_reduce
    rw [e1, e2]
    simp [edgeIntegral, lineIntegral, potential, hm s hs, hm s' hs', hB, hk]
  refine ⟨by rw [hz, hz, hz]; ring, ?_⟩
  rintro ⟨i, k, h⟩
  rw [hz, _root_.sub_zero] at h
  obtain ⟨s, hs, e1⟩ := valueAt_inside hcov (hin i)
  obtain ⟨s', hs', e2⟩ := valueAt_inside hcov (hin (i + 1))
  unfold phases at h
  rw [e1, e2] at h
  exact hno _ hs' _ hs _ _ _ h

end Verif.Tdgl
