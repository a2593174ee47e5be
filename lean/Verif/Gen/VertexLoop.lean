import Verif.Gen.Vertex
import Verif.Gen.Loop
/-! The trackers of `Gen/Vertex.lean` find exactly the elements whose values pass the test. -/
namespace Verif.Gen
open Verif.Ser (Sorted)
open Verif.SRM
open Verif.Trk (elemValid)
open Verif.Ctr (IsElem atTime_inj)
variable {d : Nat} {S V P : Type}

/-- the boxes as those of a critical point tracker -/
def Box.toTrk (b : Box d) : Trk.Cfg d Unit :=
  { domain := b.domain, core := b.core, astart := b.astart, t0 := b.t0, t1 := b.t1, streaming := false,
    test := fun _ _ => false, detail := fun _ _ => (), keep := fun _ => true }

theorem Box.toTrk_shaped {b : Box d} {T : Nat} (hc : Shaped b T) : Trk.Shaped b.toTrk where
  pos := hc.pos
  dlen := hc.dlen
  clen := by show b.core.starts.length = d ∧ b.core.sizes.length = d; rw [hc.core]; exact hc.dlen
  alen := hc.alen

theorem inBounds_iff {b : Box d} {T : Nat} (hc : Shaped b T) {v : Vtx} :
    InBounds b.bounds v ↔ v.length = d + 1 ∧ Lat.InBox b.domain (v.take d) ∧ ∃ x, AtTime (d + 1) v x ∧ b.t0 ≤ x ∧ x ≤ b.t1 :=
  Trk.inBounds_bounds (c := b.toTrk) (Box.toTrk_shaped hc)

theorem insideV_bounds {b : Box d} {T T' : Nat} (hc : Shaped b T) (hT : T' ≤ T) {v : Vtx} (h : InsideV b T' v) :
    InBounds b.bounds v := by
  obtain ⟨x, hx, hlt⟩ := h.time
  have := hc.start
  have := hc.stop
  exact (inBounds_iff hc).2 ⟨h.len, h.place, x, hx, by omega, by omega⟩

theorem elemValid_iff {b : Box d} {T k : Nat} (hc : Shaped b T) {e : Elem} (he : IsElem (d + 1) k e) (hk : k ≤ d + 1) :
    elemValid (d + 1) b.bounds e = true ↔ ∃ vs, e.vertices (d + 1) = some vs ∧ ∀ v ∈ vs, InBounds b.bounds v :=
  Trk.elemValid_iff (c := b.toTrk) (Box.toTrk_shaped hc) he.len (he.dim ▸ hk)

theorem cornerIndex_facts {b : Box d} {T : Nat} (hc : Shaped b T) {u : Vtx} (hu : InBounds b.bounds u) :
    0 ≤ cornerIndex u b.bounds.lb b.bounds.dimprod ∧ ∀ v, InBounds b.bounds v →
      cornerIndex u b.bounds.lb b.bounds.dimprod = cornerIndex v b.bounds.lb b.bounds.dimprod → u = v :=
  Trk.cornerIndex_facts (c := b.toTrk) (Box.toTrk_shaped hc) hu

theorem mapAll_some {α β : Type} {f : α → Option β} {g : α → β} : ∀ {l : List α}, (∀ x ∈ l, f x = some (g x)) →
    mapAll f l = some (l.map g)
  | [], _ => rfl
  | x :: xs, h => by
    have h1 := h x (by simp)
    have h2 := mapAll_some (f := f) (g := g) (l := xs) fun y hy => h y (by simp [hy])
    simp only [mapAll, h1, h2, List.map_cons]

/-- the vertices of an element of dimension `k ≥ 0` whose corner is at time `t` -/
theorem vertices_times {k : Nat} {e : Elem} (he : IsElem (d + 1) k e) (hk : k ≤ d) {t : Nat}
    (ht : AtTime (d + 1) e.corner t) :
    ∃ vs, e.vertices (d + 1) = some vs ∧ vs.Nodup ∧ vs.length = k + 1 ∧ (∀ v ∈ vs, v.length = d + 1) ∧ vs.head? = some e.corner ∧
      (∀ v ∈ vs, AtTime (d + 1) v t ∨ AtTime (d + 1) v ((t + 1 : Nat) : Int)) ∧
      (e.type ∈ scopeTypes (d + 1) k .ordinal ↔ ∀ v ∈ vs, AtTime (d + 1) v t) := by
  obtain ⟨vs, hvs, hcell⟩ := he.cell (by omega) (by omega)
  obtain ⟨h1, h2⟩ := C16_times (d + 1) (by omega) e (by rw [he.dim]; omega) he.len t ht _ hvs
  rw [he.dim] at h1 h2
  have hty := he.type
  rw [he.dim] at hty
  refine ⟨vs, hvs, ?_, hcell.len, fun v hv => (hcell.cube v hv).1, hcell.head, ?_, h1⟩
  · exact hcell.chain.imp fun h => h.2
  · by_cases ho : e.type ∈ scopeTypes (d + 1) k .ordinal
    · exact fun v hv => .inl (h1.1 ho v hv)
    · have : e.type ∈ scopeTypes (d + 1) k .interval := by
        rw [mem_scopeTypes (by omega)] at ho ⊢
        refine ⟨hty, ?_⟩
        cases h : isOrdinalType (d + 1) k e.type
        · rfl
        · exact absurd ⟨hty, h⟩ ho
      intro v hv
      rcases (h2.1 this).1 v hv with h | h
      · exact .inl h
      · exact .inr (by simpa using h)

section
variable [Inhabited V] {g : VProg d S V P}

theorem readVertex_spec {Q snaps : List S} {cur : Nat} (hs : snaps = Q.drop cur) (hP : ∀ s ∈ Q, g.Covers s)
    {v : Vtx} (h : InsideV g.box Q.length v) (ht : AtTime (d + 1) v cur ∨ AtTime (d + 1) v ((cur + 1 : Nat) : Int)) :
    g.readVertex snaps cur v = some (g.valueAt Q v) := by
  obtain ⟨x, hx, hlt⟩ := h.time
  have hget : ∀ y : Nat, AtTime (d + 1) v y → v[d]? = some (y : Int) ∧ (v.getD d 0).toNat = y := by
    intro y hy
    unfold AtTime at hy
    simp only [Nat.add_sub_cancel] at hy
    exact ⟨hy, by simp [List.getD, hy]⟩
  have key : ∀ (y : Nat), AtTime (d + 1) v y → snaps[if v[d]? = some (cur : Int) then 0 else 1]? = Q[y]? →
      g.readVertex snaps cur v = some (g.valueAt Q v) := by
    intro y hy hsn
    have hxy : x = y := by exact_mod_cast atTime_inj hx hy
    subst hxy
    unfold VProg.readVertex VProg.valueAt
    rw [hsn, (hget x hx).2, List.getElem?_eq_getElem hlt]
    have c1 := hP _ (List.getElem_mem hlt) _ h.place
    obtain ⟨w, hw⟩ := Option.isSome_iff_exists.1 c1
    have hw' : g.rd Q[x] (g.box.place v) = some w := hw
    simp only [Option.bind_some, hw', Option.getD_some]
  rcases ht with ht | ht
  · refine key cur ht ?_
    rw [if_pos (hget _ ht).1, hs, List.getElem?_drop, Nat.add_zero]
  · refine key (cur + 1) ht ?_
    rw [if_neg (by rw [(hget _ ht).1]; simp), hs, List.getElem?_drop]

theorem valueAt_append {Q R : List S} {v : Vtx} {x : Nat} (hv : AtTime (d + 1) v x) (hx : x < Q.length) :
    g.valueAt (Q ++ R) v = g.valueAt Q v := by
  unfold AtTime at hv
  simp only [Nat.add_sub_cancel] at hv
  unfold VProg.valueAt
  have : (v.getD d 0).toNat = x := by simp [List.getD, hv]
  rw [this, List.getElem?_append_left hx]

theorem vertex_meets {T : Nat} (hc : Shaped g.box T) (hk : g.k ≤ d) :
    Meets g.prog (fun Q => Q.length ≤ T ∧ ∀ s ∈ Q, g.Covers s) g.Det where
  pos := hc.pos
  kle := hk
  clen := by show g.box.core.starts.length = d ∧ g.box.core.sizes.length = d; rw [hc.core]; exact hc.dlen
  ok := fun Q R h => ⟨by have := h.1; simp at this; omega, fun s hs => h.2 s (by simp [hs])⟩
  chk := by
    rintro Q t e ⟨hT, hP⟩ htQ he hat hbox hsc
    change IsElem (d + 1) g.k e at he
    change AtTime (d + 1) e.corner t at hat
    change e.type ∈ scopeTypes (d + 1) g.k .ordinal ∨ _ at hsc
    obtain ⟨vs, hvs, -, -, hl, -, htm, hor⟩ := vertices_times he hk hat
    have htime : ∀ v ∈ vs, ∃ x : Nat, AtTime (d + 1) v x ∧ x < Q.length := by
      intro v hv
      by_cases hh : AtTime (d + 1) v t
      · exact ⟨t, hh, htQ⟩
      · refine ⟨t + 1, (htm v hv).resolve_left hh, ?_⟩
        rcases hsc with h | h
        · exact absurd (hor.1 h v hv) hh
        · omega
    show ∃ o, g.chk t (Q.drop t) e = some o ∧ _
    unfold VProg.chk
    by_cases hval : elemValid (d + 1) g.box.bounds e = true
    · rw [if_pos hval, hvs]
      obtain ⟨vs', a, b⟩ := (elemValid_iff hc he (by omega)).1 hval
      rw [hvs] at a
      cases a
      have ins : ∀ v ∈ vs, InsideV g.box Q.length v := fun v hv =>
        ⟨hl v hv, ((inBounds_iff hc).1 (b v hv)).2.1, htime v hv⟩
      simp only
      rw [mapAll_some (g := g.valueAt Q) fun v hv => readVertex_spec rfl hP (ins v hv) (htm v hv)]
      refine ⟨_, rfl, fun p => ⟨fun h => ⟨vs, hvs, ins, h⟩, ?_⟩⟩
      rintro ⟨vs', h1, -, h2⟩
      rw [hvs] at h1
      cases h1
      exact h2
    · rw [if_neg hval]
      refine ⟨none, rfl, fun p => ⟨fun h => by simp at h, ?_⟩⟩
      rintro ⟨vs', h1, h2, -⟩
      exact absurd ((elemValid_iff hc he (by omega)).2 ⟨vs', h1, fun v hv => insideV_bounds hc hT (h2 v hv)⟩) hval
  kind := by
    rintro Q t e p he hat ⟨vs', h1, h2, -⟩
    change IsElem (d + 1) g.k e at he
    change AtTime (d + 1) e.corner t at hat
    obtain ⟨vs, hvs, -, hlen, hl, hhead, htm, hor⟩ := vertices_times he hk hat
    rw [hvs] at h1
    obtain rfl := Option.some.inj h1
    constructor
    · show Lat.InBox g.box.core (e.corner.take d)
      rw [hc.core]
      exact (h2 _ (List.mem_of_mem_head? hhead)).place
    · by_cases h : ∀ v ∈ vs, AtTime (d + 1) v t
      · exact .inl (hor.2 h)
      · right
        push Not at h
        obtain ⟨v, hv, hn⟩ := h
        have h3 := (htm v hv).resolve_left hn
        obtain ⟨x, hx, hlt⟩ := (h2 v hv).time
        have : x = t + 1 := by exact_mod_cast atTime_inj hx h3
        omega
  later := by
    intro Q R t e p he hat htQ
    change IsElem (d + 1) g.k e at he
    change AtTime (d + 1) e.corner t at hat
    obtain ⟨vs, hvs, -, -, hl, -, htm, -⟩ := vertices_times he hk hat
    have htime : ∀ v ∈ vs, ∃ x : Nat, AtTime (d + 1) v x ∧ x < Q.length := by
      intro v hv
      rcases htm v hv with h | h
      · exact ⟨t, h, by omega⟩
      · exact ⟨t + 1, h, by omega⟩
    have hval : vs.map (g.valueAt (Q ++ R)) = vs.map (g.valueAt Q) := by
      apply List.map_congr_left
      intro v hv
      obtain ⟨x, hx, hlt⟩ := htime v hv
      exact valueAt_append hx hlt
    constructor
    · rintro ⟨vs', h1, h2, h3⟩
      rw [hvs] at h1
      cases h1
      refine ⟨vs, hvs, fun v hv => ⟨(h2 v hv).len, (h2 v hv).place, htime v hv⟩, ?_⟩
      rw [← hval]
      exact h3
    · rintro ⟨vs', h1, h2, h3⟩
      rw [hvs] at h1
      cases h1
      refine ⟨vs, hvs, fun v hv => ⟨(h2 v hv).len, (h2 v hv).place, ?_⟩, ?_⟩
      · obtain ⟨x, hx, hlt⟩ := htime v hv
        exact ⟨x, hx, by simp; omega⟩
      · rw [hval]
        exact h3

/-- what the loop records: exactly the elements inside whose values pass the test -/
theorem vertex_drive {series : List S} (hc : Shaped g.box series.length) (hk : g.k ≤ d) (hne : series ≠ [])
    (hcov : ∀ s ∈ series, g.Covers s) (ord : Nat → Scope → List Int) (ho : ∀ j, Complete g.prog (ord j)) :
    ∃ st, run g.prog (driveOps series ord) St.init = some st ∧ Sorted st.inter ∧ st.cur + 1 = series.length ∧
      ∀ e p, (e, p) ∈ st.inter ↔ IsElem (d + 1) g.k e ∧ ∃ t : Nat, AtTime (d + 1) e.corner t ∧ g.Det series t e p := by
  obtain ⟨st, h1, h2, h3⟩ := drive_holds (vertex_meets hc hk) ⟨Nat.le_refl _, hcov⟩ hne ord ho
  refine ⟨st, h1, h2.sorted, h3, fun e p => (h2.inter e p).trans ⟨?_, ?_⟩⟩
  · rintro ⟨t, -, he, hat, hd⟩
    exact ⟨he, t, hat, hd⟩
  · rintro ⟨he, t, hat, hd⟩
    refine ⟨t, ?_, he, hat, hd⟩
    obtain ⟨vs, hvs, -, -, -, hhead, -, -⟩ := vertices_times he hk hat
    obtain ⟨vs', h1, h2, -⟩ := hd
    rw [hvs] at h1
    cases h1
    obtain ⟨x, hx, hlt⟩ := (h2 _ (List.mem_of_mem_head? hhead)).time
    have : x = t := by exact_mod_cast atTime_inj hx hat
    omega

end

end Verif.Gen
