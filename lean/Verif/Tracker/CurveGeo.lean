import Verif.Tracker.Curves
import Verif.Tracker.Loop
import Verif.SoS.Props
/-! C72: the punctured facets of a series form closed curves and curves ending at the boundary. -/
namespace Verif.Trk
open Verif.Ser (lookup mapPut Sorted)
open Verif.SRM
variable {d : Nat} {γ : Type}

/-! ### faces of a cell -/

theorem cell_vertices {e : Elem} (he : IsCell d e) : ∃ ve, e.vertices (d + 1) = some ve ∧ Cell (d + 1) (d + 1) e.corner ve := by
  obtain ⟨ve, hve⟩ := vertices_exists he.type
  exact ⟨ve, hve, cell_of_elem (by omega) (Nat.le_refl _) he.dim he.len hve⟩

theorem Cell.nodup' {n k : Nat} {c : Vtx} {vs : Simplex} (h : Cell n k c vs) : vs.Nodup :=
  h.chain.imp fun hab => hab.2

/-- every vertex of a cell may be left out -/
theorem face_exists {e : Elem} (he : IsCell d e) {ve : Simplex} (hve : e.vertices (d + 1) = some ve) (k : Nat)
    (hk : k < d + 2) : ∃ f, Facet d f ∧ f.vertices (d + 1) = some (ve.eraseIdx k) := by
  obtain ⟨S, -, h2, h3, h4⟩ := mem_sides he
  have hcell := cell_of_elem (by omega) (Nat.le_refl _) he.dim he.len hve
  have hL : (S.map fun f => f.vertices (d + 1)).Nodup := by
    refine List.Nodup.map_on ?_ h2
    intro f hf g hg hfg
    obtain ⟨F, _⟩ := (h4 f).1 hf
    obtain ⟨G, _⟩ := (h4 g).1 hg
    obtain ⟨vf, hvf⟩ := vertices_exists F.type
    exact elem_ext (by omega) (by rw [F.dim]; omega) (by rw [F.dim, G.dim]) F.len G.len hvf (by rw [← hfg]; exact hvf)
  have hsub : (S.map fun f => f.vertices (d + 1)) ⊆ (List.range (d + 2)).map fun i => some (ve.eraseIdx i) := by
    intro x hx
    obtain ⟨f, hf, rfl⟩ := List.mem_map.1 hx
    obtain ⟨-, ve', vf, q1, q2, i, hi, q3⟩ := (h4 f).1 hf
    rw [hve] at q1
    cases q1
    refine List.mem_map.2 ⟨i, ?_, by rw [q2, q3]⟩
    rw [hcell.len] at hi
    exact List.mem_range.2 (by omega)
  have hp := (hL.subperm hsub).perm_of_length_le (by simp [h3])
  have : some (ve.eraseIdx k) ∈ S.map fun f => f.vertices (d + 1) :=
    hp.mem_iff.2 (List.mem_map.2 ⟨k, by simpa using hk, rfl⟩)
  obtain ⟨f, hf, hv⟩ := List.mem_map.1 this
  exact ⟨f, ((h4 f).1 hf).1, hv⟩

theorem facet_ext {f g : Elem} (hf : Facet d f) (hg : Facet d g) {vs : Simplex} (h1 : f.vertices (d + 1) = some vs)
    (h2 : g.vertices (d + 1) = some vs) : f = g :=
  elem_ext (by omega) (by rw [hf.dim]; omega) (by rw [hf.dim, hg.dim]) hf.len hg.len h1 h2

theorem mem_eraseIdx_of_ne {α : Type} {l : List α} {i k : Nat} {x : α} (hi : l[i]? = some x) (hk : i ≠ k) :
    x ∈ l.eraseIdx k := by
  rw [List.mem_eraseIdx_iff_getElem?]
  exact ⟨i, hk, hi⟩

/-- two different faces of a cell have all its vertices -/
theorem faces_cover {f g e : Elem} (hf : Facet d f) (hg : Facet d g) (hfg : f ≠ g) (h1 : FaceOf d f e) (h2 : FaceOf d g e) :
    ∃ ve vf vg, e.vertices (d + 1) = some ve ∧ f.vertices (d + 1) = some vf ∧ g.vertices (d + 1) = some vg ∧
      ∀ v, v ∈ ve ↔ v ∈ vf ∨ v ∈ vg := by
  obtain ⟨ve, vf, q1, q2, i, hi, rfl⟩ := h1
  obtain ⟨ve', vg, q3, q4, j, hj, rfl⟩ := h2
  rw [q1] at q3
  cases q3
  refine ⟨ve, _, _, q1, q2, q4, fun v => ⟨fun hv => ?_, fun hv => ?_⟩⟩
  · obtain ⟨m, hm, rfl⟩ := List.getElem_of_mem hv
    have hij : i ≠ j := by
      rintro rfl
      exact hfg (facet_ext hf hg q2 q4)
    by_cases hmi : m = i
    · exact .inr (mem_eraseIdx_of_ne (List.getElem?_eq_getElem hm) (by omega))
    · exact .inl (mem_eraseIdx_of_ne (List.getElem?_eq_getElem hm) hmi)
  · rcases hv with hv | hv <;> exact List.mem_of_mem_eraseIdx hv

theorem cover_inside {c : Cfg d γ} {T : Nat} {f g e : Elem} (hf : Facet d f) (hg : Facet d g) (hfg : f ≠ g)
    (h1 : FaceOf d f e) (h2 : FaceOf d g e) (i1 : Inside c T f) (i2 : Inside c T g) : Inside c T e := by
  obtain ⟨ve, vf, vg, q1, q2, q3, hm⟩ := faces_cover hf hg hfg h1 h2
  obtain ⟨vf', r1, r2⟩ := i1
  obtain ⟨vg', s1, s2⟩ := i2
  rw [q2] at r1
  rw [q3] at s1
  cases r1
  cases s1
  refine ⟨ve, q1, fun v hv => ?_⟩
  rcases (hm v).1 hv with h | h
  · exact r2 v h
  · exact s2 v h

/-- two cells have at most one facet in common -/
theorem one_common {f g e e' : Elem} (hf : Facet d f) (hg : Facet d g) (hfg : f ≠ g) (he : IsCell d e) (he' : IsCell d e')
    (h1 : FaceOf d f e) (h2 : FaceOf d g e) (h3 : FaceOf d f e') (h4 : FaceOf d g e') : e = e' := by
  obtain ⟨ve, vf, vg, q1, q2, q3, hm⟩ := faces_cover hf hg hfg h1 h2
  obtain ⟨ve', vf', vg', r1, r2, r3, hm'⟩ := faces_cover hf hg hfg h3 h4
  rw [q2] at r2
  rw [q3] at r3
  cases r2
  cases r3
  have c1 := cell_of_elem (by omega) (Nat.le_refl _) he.dim he.len q1
  have c2 := cell_of_elem (by omega) (Nat.le_refl _) he'.dim he'.len r1
  have hmem : ∀ v, v ∈ ve ↔ v ∈ ve' := fun v => by rw [hm, hm']
  have hp : ve.Perm ve' := (List.perm_ext_iff_of_nodup (Cell.nodup' c1) (Cell.nodup' c2)).2 hmem
  have hve : ve = ve' := by
    refine hp.eq_of_pairwise ?_ c1.chain c2.chain
    intro a b ha hb hab hba
    refine absurd ?_ hab.2
    have la := vle_iff.1 hab.1
    have lb := vle_iff.1 hba.1
    exact ext_getD la.1 fun j => Int.le_antisymm (la.2 j) (lb.2 j)
  subst hve
  exact elem_ext (by omega) (by rw [he.dim]) (by rw [he.dim, he'.dim]) he.len he'.len q1 r1

/-! ### inside and bounds -/

theorem inBounds_bounds {c : Cfg d γ} (hc : Shaped c) {v : Vtx} :
    InBounds c.bounds v ↔ v.length = d + 1 ∧ Lat.InBox c.domain (v.take d) ∧ ∃ x, AtTime (d + 1) v x ∧ c.t0 ≤ x ∧ x ≤ c.t1 := by
  obtain ⟨b1, b2⟩ := bounds_len hc
  obtain ⟨l1, l2⟩ := hc.dlen
  unfold InBounds Lat.InBox AtTime
  rw [b1]
  refine and_congr_right fun hl => ?_
  simp only [Nat.add_sub_cancel]
  constructor
  · intro h
    refine ⟨⟨by simp [hl, l2], ?_⟩, ?_⟩
    · intro i s n x hs hn hx
      have hi : i < d := by
        rw [← l1]; exact (List.getElem?_eq_some_iff.1 hs).1
      rw [List.getElem?_take_of_lt hi] at hx
      have := h i s (s + n - 1) x (by
        simp only [Cfg.bounds]
        rw [List.getElem?_append_left (by simpa using by omega)]
        simp [hs]) (by
        simp only [Cfg.bounds]
        rw [List.getElem?_append_left (by simp; omega)]
        simp [List.getElem?_zipWith, hs, hn]) hx
      omega
    · have hx : v[d]? = some (v[d]'(by omega)) := List.getElem?_eq_getElem (by omega)
      refine ⟨_, hx, h d _ _ _ ?_ ?_ hx⟩
      · simp only [Cfg.bounds]
        rw [List.getElem?_append_right (by simp; omega)]
        simp [l1]
      · simp only [Cfg.bounds]
        rw [List.getElem?_append_right (by simp; omega)]
        simp [l1, l2]
  · rintro ⟨⟨-, h⟩, x, hx, h0, h1⟩ i l u y hll huu hy
    by_cases hi : i < d
    · simp only [Cfg.bounds] at hll huu
      rw [List.getElem?_append_left (by simp; omega)] at hll huu
      simp only [List.getElem?_map, Option.map_eq_some_iff] at hll
      obtain ⟨s, hs, rfl⟩ := hll
      rw [List.getElem?_zipWith] at huu
      simp only [hs] at huu
      cases hn : c.domain.sizes[i]? with
      | none => simp [hn] at huu
      | some n =>
        simp only [hn, Option.some.injEq] at huu
        have := h i s n y hs hn (by rw [List.getElem?_take_of_lt hi]; exact hy)
        omega
    · have hid : i = d := by
        have := (List.getElem?_eq_some_iff.1 hy).1
        omega
      subst hid
      rw [hx] at hy
      cases hy
      simp only [Cfg.bounds] at hll huu
      rw [List.getElem?_append_right (by simp; omega)] at hll huu
      simp [l1] at hll
      simp [l1, l2] at huu
      omega

theorem insideV_bounds {c : Cfg d γ} (hc : Shaped c) {T : Nat} (h0 : c.t0 = 0) (h1 : (T : Int) ≤ c.t1 + 1) {v : Vtx}
    (h : InsideV c T v) : InBounds c.bounds v := by
  obtain ⟨x, hx, hT⟩ := h.time
  exact (inBounds_bounds hc).2 ⟨h.len, h.place, x, hx, by omega, by omega⟩

/-- vertex indices are distinct and not negative -/
theorem cornerIndex_facts {c : Cfg d γ} (hc : Shaped c) {v : Vtx} (hv : InBounds c.bounds v) :
    0 ≤ cornerIndex v c.bounds.lb c.bounds.dimprod ∧
    ∀ w, InBounds c.bounds w → cornerIndex v c.bounds.lb c.bounds.dimprod = cornerIndex w c.bounds.lb c.bounds.dimprod →
      v = w := by
  obtain ⟨b1, b2⟩ := bounds_len hc
  have hpos : 0 < ntypes (d + 1) 0 := ntypes_pos (by omega) (by omega)
  have hval : ∀ w, InBounds c.bounds w → Valid (d + 1) c.bounds ⟨w, 0, 0⟩ := fun w hw => ⟨by simp, hpos, hw⟩
  constructor
  · obtain ⟨i, h1, -⟩ := C12_from_to (d + 1) (by omega) c.bounds b1 b2 ⟨v, 0, 0⟩ (hval v hv)
    simp only [Elem.toInteger] at h1
    by_contra hneg
    have hneg : cornerIndex v c.bounds.lb c.bounds.dimprod < 0 := by omega
    have := Int.mul_neg_of_neg_of_pos hneg (by exact_mod_cast hpos : (0 : Int) < ntypes (d + 1) 0)
    simp only [Nat.cast_zero] at h1
    omega
  · intro w hw he
    have := C12_to_integer_injective (d + 1) (by omega) c.bounds b1 b2 ⟨v, 0, 0⟩ ⟨w, 0, 0⟩ (hval v hv) (hval w hw) rfl
      (by simp only [Elem.toInteger, he])
    exact congrArg Elem.corner this

/-! ### values -/

/-- value of the series at a vertex, nothing if there is none -/
def valAt (c : Cfg d γ) (series : List (Snap d)) (v : Vtx) : Fin d → Option Rat :=
  (absRead c series v).getD fun _ => none

theorem readAll_eq {rd : Vtx → Option (Fin d → Option Rat)} : ∀ {vs : List Vtx} {xs : List (Fin d → Option Rat)},
    readAll rd vs = some xs → xs = vs.map (fun v => (rd v).getD fun _ => none) ∧ ∀ v ∈ vs, (rd v).isSome = true
  | [], xs, h => by
    simp only [readAll, Option.some.injEq] at h
    subst h
    exact ⟨rfl, by simp⟩
  | v :: vs, xs, h => by
    simp only [readAll] at h
    cases h1 : rd v with
    | none => simp [h1] at h
    | some x =>
      cases h2 : readAll rd vs with
      | none => simp [h1, h2] at h
      | some ys =>
        simp only [h1, h2, Option.some.injEq] at h
        subst h
        obtain ⟨q1, q2⟩ := readAll_eq h2
        refine ⟨by simp [h1, ← q1], ?_⟩
        intro w hw
        rcases List.mem_cons.1 hw with rfl | hw
        · simp [h1]
        · exact q2 w hw

theorem readAll_of {rd : Vtx → Option (Fin d → Option Rat)} {vs : List Vtx} (h : ∀ v ∈ vs, (rd v).isSome = true) :
    readAll rd vs = some (vs.map fun v => (rd v).getD fun _ => none) := by
  obtain ⟨xs, hx⟩ := readAll_isSome h
  rw [hx, (readAll_eq hx).1]

theorem absRead_time {c : Cfg d γ} {series : List (Snap d)} {v : Vtx} (h : (absRead c series v).isSome = true) :
    ∃ x : Nat, AtTime (d + 1) v x ∧ x < series.length := by
  unfold absRead at h
  unfold AtTime
  simp only [Nat.add_sub_cancel]
  cases ht : v[d]? with
  | none => simp [ht] at h
  | some t =>
    simp only [ht] at h
    by_cases h0 : t < 0
    · simp [h0] at h
    · rw [if_neg h0] at h
      cases hs : series[t.toNat]? with
      | none => simp [hs] at h
      | some s =>
        exact ⟨t.toNat, by rw [Int.toNat_of_nonneg (by omega)], (List.getElem?_eq_some_iff.1 hs).1⟩

theorem finite_read {c : Cfg d γ} {series : List (Snap d)} (hfin : ∀ s ∈ series, AllFinite s) {vs : List Vtx}
    (h : ∀ v ∈ vs, (absRead c series v).isSome = true) :
    finite (vs.map fun v => (absRead c series v).getD fun _ => none) = true := by
  unfold finite
  rw [List.all_eq_true]
  intro x hx
  obtain ⟨v, hv, rfl⟩ := List.mem_map.1 hx
  rw [List.all_eq_true]
  intro j _
  have hs := h v hv
  obtain ⟨y, hy⟩ := Option.isSome_iff_exists.1 hs
  rw [hy, Option.getD_some]
  unfold absRead at hy
  cases ht : v[d]? with
  | none => simp [ht] at hy
  | some t =>
    simp only [ht] at hy
    by_cases h0 : t < 0
    · simp [h0] at hy
    · rw [if_neg h0] at hy
      cases hss : series[t.toNat]? with
      | none => simp [hss] at hy
      | some s =>
        simp only [hss, Snap.read] at hy
        split at hy
        · rename_i hd
          cases hy
          exact hfin s (List.mem_of_getElem? hss) _ hd j
        · cases hy

/-- the values of the series exist at every inside vertex -/
theorem absRead_inside {c : Cfg d γ} (hc : Shaped c) (hone : c.core = c.domain) {series : List (Snap d)}
    (hcov : ∀ s ∈ series, Covers c s) (h0 : c.t0 = 0) (h1 : (series.length : Int) ≤ c.t1 + 1) {v : Vtx}
    (h : InsideV c series.length v) : (absRead c series v).isSome = true := by
  obtain ⟨x, hx, hT⟩ := h.time
  have hb := insideV_bounds hc h0 h1 h
  obtain ⟨b1, b2⟩ := bounds_len hc
  have hw := (within_inBounds (by rw [b1]; exact h.len) (by rw [b1, b2])).2 hb
  have hr := read_isSome hc (hcov series[x] (List.getElem_mem hT)) (x := v) h.len (by rw [hone]; exact h.place) h.len
    (fun i => ⟨Int.le_refl _, by omega⟩) hw
  unfold AtTime at hx
  simp only [Nat.add_sub_cancel] at hx
  unfold absRead
  simp only [hx]
  rw [if_neg (by omega)]
  simp only [Int.toNat_natCast, List.getElem?_eq_getElem hT]
  exact hr

/-- a single process without filter records exactly the punctured facets -/
theorem found_iff_punctured {c : Cfg d γ} (hc : Shaped c) (hone : c.core = c.domain) (hkeep : ∀ cp, c.keep cp = true)
    {series : List (Snap d)} (hcov : ∀ s ∈ series, Covers c s) (hfin : ∀ s ∈ series, AllFinite s)
    (h0 : c.t0 = 0) (h1 : (series.length : Int) ≤ c.t1 + 1) {F : Int} {m : Nat → Nat}
    (hF : ∀ t < series.length, ∀ e, detect c series (scale (series.take (m t))) t e = detect c series F t e) (f : Elem) :
    (∃ cp, Found c series m series.length f cp) ↔ Punctured c series F f := by
  constructor
  · rintro ⟨cp, t, ht, ho, hd⟩
    rw [hF t ht f] at hd
    unfold detect at hd
    split at hd
    case h_2 => cases hd
    rename_i cp' hh
    unfold checkWith at hh
    by_cases hval : elemValid (d + 1) c.bounds f = true
    · rw [if_pos hval] at hh
      obtain ⟨vs, hvs, hin⟩ := (elemValid_iff hc ho.facet.len (by rw [ho.facet.dim]; omega)).1 hval
      simp only [hvs] at hh
      cases hr : readAll (absRead c series) vs with
      | none => simp [hr] at hh
      | some vals =>
        simp only [hr] at hh
        split at hh
        · rename_i htest
          rw [Bool.and_eq_true] at htest
          refine ⟨ho.facet, ⟨vs, hvs, fun v hv => ?_⟩, vs, vals, hvs, hr, htest.2⟩
          have hb := (inBounds_bounds hc).1 (hin v hv)
          exact ⟨hb.1, hb.2.1, absRead_time ((readAll_eq hr).2 v hv)⟩
        · cases hh
    · rw [if_neg hval] at hh
      cases hh
  · rintro ⟨hf, ⟨vs, hvs, hin⟩, vs', vals, hvs', hr, htest⟩
    rw [hvs] at hvs'
    cases hvs'
    have hcell := cell_of_elem (n := d + 1) (by omega) (by rw [hf.dim]; omega) rfl hf.len hvs
    have hcor := hin _ (List.mem_of_mem_head? hcell.head)
    obtain ⟨t, ht, hT⟩ := hcor.time
    have hval : elemValid (d + 1) c.bounds f = true :=
      (elemValid_iff hc hf.len (by rw [hf.dim]; omega)).2 ⟨vs, hvs, fun v hv => insideV_bounds hc h0 h1 (hin v hv)⟩
    have hx := readAll_eq hr
    have hfi : finite vals = true := by rw [hx.1]; exact finite_read hfin hx.2
    refine ⟨{ tag := f.toInteger (d + 1) c.bounds, ordinal := isOrdinalType (d + 1) f.dim f.type, timestep := t,
              info := c.detail vs vals }, t, hT, ⟨hf, ht, by unfold InCore; rw [hone]; exact hcor.place⟩, ?_⟩
    · rw [hF t hT f]
      unfold detect checkWith
      simp only [if_pos hval, hvs, hr, hfi, htest, Bool.and_self, if_true, hkeep]

/-! ### parity -/

theorem get_erase {α : Type} (l : List α) (n : Nat) (k : Fin (n + 1)) (i : Fin n) :
    (l.eraseIdx k)[i.val]? = l[(Fin.succAbove k i).val]? := by
  rw [List.getElem?_eraseIdx]
  unfold Fin.succAbove
  by_cases h : i.val < k.val
  · rw [if_pos h, if_pos (by simpa [Fin.lt_def] using h)]
    simp
  · rw [if_neg h, if_neg (by simpa [Fin.lt_def] using h)]
    simp

/-- an inside cell has no punctured face or exactly two -/
theorem cell_parity {c : Cfg d γ} (hc : Shaped c) (hone : c.core = c.domain) (hpar : ZeroOrTwo c.test)
    {series : List (Snap d)} (hcov : ∀ s ∈ series, Covers c s)
    (h0 : c.t0 = 0) (h1 : (series.length : Int) ≤ c.t1 + 1) (F : Int) {e : Elem} (he : IsCell d e)
    (hin : Inside c series.length e) :
    (∀ f, Punctured c series F f → ¬ FaceOf d f e) ∨
    ∃ f g, f ≠ g ∧ ∀ h, (Punctured c series F h ∧ FaceOf d h e) ↔ h = f ∨ h = g := by
  obtain ⟨ve, hve, hcell⟩ := cell_vertices he
  obtain ⟨ve', hve', hins⟩ := hin
  rw [hve] at hve'
  cases hve'
  have hnd := Cell.nodup' hcell
  have hlen := hcell.len
  let V : Fin (d + 2) → Fin d → Int := fun i j => quant F ((valAt c series (ve.getD i.val []) j).getD 0)
  let v : Fin (d + 2) → Int := fun i => cornerIndex (ve.getD i.val []) c.bounds.lb c.bounds.dimprod
  have hget : ∀ i : Fin (d + 2), ve.getD i.val [] = ve[i.val]'(by omega) := fun i => List.getD_eq_getElem _ _ _
  have hmem : ∀ i : Fin (d + 2), ve.getD i.val [] ∈ ve := fun i => by rw [hget]; exact List.getElem_mem _
  have hbd : ∀ i : Fin (d + 2), InBounds c.bounds (ve.getD i.val []) := fun i => insideV_bounds hc h0 h1 (hins _ (hmem i))
  have hinj : Function.Injective v := by
    intro i j hij
    have := (cornerIndex_facts hc (hbd i)).2 _ (hbd j) hij
    rw [hget, hget] at this
    exact Fin.ext ((List.Nodup.getElem_inj_iff hnd).1 this)
  -- the face without vertex `k`
  have hface : ∀ k : Fin (d + 2), ∃ f, Facet d f ∧ f.vertices (d + 1) = some (ve.eraseIdx k) ∧
      (Punctured c series F f ↔ c.test (fun i => V (Fin.succAbove k i)) (fun i => v (Fin.succAbove k i)) = true) := by
    intro k
    obtain ⟨f, hf, hfv⟩ := face_exists he hve k.val k.isLt
    refine ⟨f, hf, hfv, ?_⟩
    have hsub : ∀ w ∈ ve.eraseIdx k.val, InsideV c series.length w := fun w hw => hins w (List.mem_of_mem_eraseIdx hw)
    have hrd := readAll_of (rd := absRead c series) (vs := ve.eraseIdx k.val)
      fun w hw => absRead_inside hc hone hcov h0 h1 (hsub w hw)
    have e1 : vf F ((ve.eraseIdx k.val).map fun v => (absRead c series v).getD fun _ => none) =
        fun i => V (Fin.succAbove k i) := by
      funext i j
      unfold vf
      have hlt : (Fin.succAbove k i).val < ve.length := by rw [hlen]; omega
      rw [List.getElem?_map, get_erase ve (d + 1) k i, List.getElem?_eq_getElem hlt]
      simp only [V, hget, valAt, Option.map_some, Option.getD_some]
    have e2 : (vindex c.bounds (ve.eraseIdx k.val) : Fin (d + 1) → Int) = fun i => v (Fin.succAbove k i) := by
      funext i
      unfold vindex
      simp only [v]
      congr 1
      rw [List.getD_eq_getElem?_getD, List.getD_eq_getElem?_getD, get_erase ve (d + 1) k i]
    constructor
    · rintro ⟨-, -, vs, vals, q1, q2, q3⟩
      rw [hfv] at q1
      cases q1
      rw [hrd] at q2
      cases q2
      rw [← e1, ← e2]
      exact q3
    · intro h
      rw [← e1, ← e2] at h
      exact ⟨hf, ⟨_, hfv, hsub⟩, _, _, hfv, hrd, h⟩
  choose φ φ1 φ2 φ3 using hface
  have hall : ∀ f, Facet d f → FaceOf d f e → ∃ k, f = φ k := by
    rintro f hf ⟨ve', vf, q1, q2, i, hi, rfl⟩
    rw [hve] at q1
    cases q1
    refine ⟨⟨i, by omega⟩, facet_ext hf (φ1 _) q2 (φ2 _)⟩
  have hof : ∀ k, FaceOf d (φ k) e := fun k => ⟨ve, _, hve, φ2 k, k.val, by omega, rfl⟩
  have hφ : Function.Injective φ := by
    intro k k' hkk
    have a := φ2 k
    rw [hkk, φ2 k'] at a
    simp only [Option.some.injEq] at a
    exact Fin.ext (eraseIdx_inj hnd (by omega) (by omega) a).symm
  rcases hpar V v hinj (fun i => (cornerIndex_facts hc (hbd i)).1) with hz | ⟨a, b, hab, hk⟩
  · left
    intro f hp hfe
    obtain ⟨k, rfl⟩ := hall f hp.1 hfe
    have := (φ3 k).1 hp
    rw [hz k] at this
    cases this
  · right
    refine ⟨φ a, φ b, fun h => hab (hφ h), fun h => ?_⟩
    constructor
    · rintro ⟨hp, hfe⟩
      obtain ⟨k, rfl⟩ := hall h hp.1 hfe
      rcases (hk k).1 ((φ3 k).1 hp) with rfl | rfl
      · exact .inl rfl
      · exact .inr rfl
    · rintro (rfl | rfl)
      · exact ⟨(φ3 a).2 ((hk a).2 (.inl rfl)), hof a⟩
      · exact ⟨(φ3 b).2 ((hk b).2 (.inr rfl)), hof b⟩

/-- the recorded facets form a strip -/
theorem strip {c : Cfg d γ} (hc : Shaped c) (hone : c.core = c.domain) (hpar : ZeroOrTwo c.test)
    {series : List (Snap d)} (hcov : ∀ s ∈ series, Covers c s)
    (h0 : c.t0 = 0) (h1 : (series.length : Int) ≤ c.t1 + 1) (F : Int) {K : List Elem}
    (hK : ∀ f, f ∈ K ↔ Punctured c series F f) :
    Strip (nbs (d + 1)) (fun f e => IsCell d e ∧ FaceOf d f e) (Inside c series.length) K where
  two := by
    intro f hf
    have hF := ((hK f).1 hf).1
    obtain ⟨a, b, hab, hs⟩ := C14_facet_has_two_cofaces (d + 1) (by omega) f (by rw [hF.dim]) hF.len hF.type
    obtain ⟨S, s1, -, s2⟩ := mem_sideOf (e := f) hF
    rw [hs] at s1
    cases s1
    refine ⟨a, b, hab, fun e => ?_⟩
    rw [← s2 e]
    simp
  cover := by
    rintro f hf g hg hfg e ⟨-, h1⟩ ⟨-, h2⟩
    exact cover_inside ((hK f).1 hf).1 ((hK g).1 hg).1 hfg h1 h2 ((hK f).1 hf).2.1 ((hK g).1 hg).2.1
  parity := by
    rintro e hin f hf ⟨hcell, hfe⟩
    rcases cell_parity hc hone hpar hcov h0 h1 F hcell hin with hz | ⟨p, q, hpq, hall⟩
    · exact absurd hfe (hz f ((hK f).1 hf))
    · have hp := (hall p).2 (.inl rfl)
      have hq := (hall q).2 (.inr rfl)
      rcases (hall f).1 ⟨(hK f).1 hf, hfe⟩ with rfl | rfl
      · exact ⟨q, (hK q).2 hq.1, Ne.symm hpq, ⟨hcell, hq.2⟩, fun h hh ⟨_, hhe⟩ => (hall h).1 ⟨(hK h).1 hh, hhe⟩⟩
      · exact ⟨p, (hK p).2 hp.1, hpq, ⟨hcell, hp.2⟩, fun h hh ⟨_, hhe⟩ => ((hall h).1 ⟨(hK h).1 hh, hhe⟩).symm⟩
  one := by
    rintro f hf g hg hfg e e' ⟨c1, q1⟩ ⟨-, q2⟩ ⟨c2, q3⟩ ⟨-, q4⟩
    exact one_common ((hK f).1 hf).1 ((hK g).1 hg).1 hfg c1 c2 q1 q2 q3 q4
  adj := by
    intro f hf g hg
    rw [mem_nbs]
    constructor
    · rintro ⟨-, -, e, q1, q2, q3⟩
      exact ⟨e, ⟨q1, q2⟩, q1, q3⟩
    · rintro ⟨e, ⟨q1, q2⟩, -, q3⟩
      exact ⟨((hK f).1 hf).1, ((hK g).1 hg).1, e, q1, q2, q3⟩
  nodup := nbs_nodup
  symm := nbs_symm

end Verif.Trk
