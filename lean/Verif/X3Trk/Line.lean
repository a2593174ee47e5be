import Verif.X3Trk.Nbs
import Verif.CLine.Detect
import Verif.CLine.Lines
/-! # C129: the triangles found by the critical line tracker on unstructured 3-D meshes -/
namespace Verif.X3T
open Verif.U3 Verif.X3
open Verif.Ser (lookup mapPut Sorted)
open Verif.Trk (quant)
open Verif.SRM (Scope)
variable {n0 : Nat} {ts : List Tet} {m : M3}

theorem vec3_eta {β : Type} (v : Fin 3 → β) : ![v 0, v 1, v 2] = v := by
  funext i
  fin_cases i <;> rfl

theorem valueAt_line (c : LCfg) (series : List CLT.UV) (v : Int) : valueAt (lineProg c) n0 series v = uvAt n0 series v := by
  unfold valueAt uvAt
  split
  · rfl
  · cases series[(time n0 v).toNat]? <;> rfl

theorem scales_line (c : LCfg) : Scales (lineProg c) (fun _ => ()) := fun _ _ _ _ _ => rfl

theorem covers_line (c : LCfg) {s : CLT.UV} (h : s.dims = [n0]) : Covers (lineProg c) n0 s := by
  intro k h0 h1
  show (readLine s k).isSome = true
  unfold readLine CLT.UV.read
  rw [if_pos]
  · rfl
  · rw [h]
    simp [Trk.inDims, h0, h1]

theorem tri_vertices (G : Geo n0 ts m) {e : Int} (he : 0 ≤ e) {v : Fin 3 → Int} (hd : getSimplex m 2 e = some [v 0, v 1, v 2]) :
    Function.Injective v ∧ (∀ i, 0 ≤ v i) ∧ (∀ i, flatTime m (v i) = some (time n0 (v i)) ∧ flatId m (v i) = some (below n0 (v i))) ∧
    ∀ i, time n0 (v i) = e / n m 2 ∨ time n0 (v i) = e / n m 2 + 1 := by
  have hN := G.pos (.inl rfl)
  have hq : 0 ≤ e / n m 2 := Int.ediv_nonneg he (by omega)
  obtain ⟨vs, F⟩ := G.facet (.inl rfl) (d := 2) (t := (e / n m 2).toNat) (e := e) (by omega) he
  obtain ⟨vs', g1, g2, g3, -⟩ := C123_get_simplex_partial G.valid G.built (d := 2) (by omega) hN e (.inl he) (by omega)
  obtain rfl := Option.some.inj (F.get.symm.trans hd)
  obtain rfl := Option.some.inj (g1.symm.trans hd)
  have hm : ∀ i, v i ∈ [v 0, v 1, v 2] := fun i => by fin_cases i <;> simp
  refine ⟨?_, fun i => (F.flat _ (hm i)).2.2, fun i => ⟨(F.flat _ (hm i)).1, (F.flat _ (hm i)).2.1⟩, fun i => ?_⟩
  · have hc := g3.chain
    simp only [List.pairwise_cons, List.mem_cons, List.not_mem_nil, or_false, forall_eq_or_imp, forall_eq] at hc
    intro i j hij
    fin_cases i <;> fin_cases j <;> simp at hij ⊢ <;> simp_all
  · have := F.times _ (hm i)
    omega

theorem mapAll_three {β : Type} {f : Int → Option β} {v : Fin 3 → Int} {V : Fin 3 → β} (h : ∀ i, f (v i) = some (V i)) :
    Gen.mapAll f [v 0, v 1, v 2] = some [V 0, V 1, V 2] := by
  simp only [Gen.mapAll, h]

theorem three_vals {β : Type} {f : Int → Option β} {vs : List Int} {vals : List β}
    (hl : vs.length = 3) (h : Gen.mapAll f vs = some vals) :
    ∃ (v : Fin 3 → Int) (V : Fin 3 → β), vs = [v 0, v 1, v 2] ∧ vals = [V 0, V 1, V 2] ∧ ∀ i, f (v i) = some (V i) := by
  obtain ⟨v0, v1, v2, rfl⟩ : ∃ v0 v1 v2, vs = [v0, v1, v2] := by
    rcases vs with _ | ⟨w0, _ | ⟨w1, _ | ⟨w2, _ | ⟨w3, ws⟩⟩⟩⟩ <;> simp at hl
    exact ⟨w0, w1, w2, rfl⟩
  simp only [Gen.mapAll] at h
  cases h0 : f v0 with
  | none => simp [h0] at h
  | some x0 =>
  cases h1 : f v1 with
  | none => simp [h0, h1] at h
  | some x1 =>
  cases h2 : f v2 with
  | none => simp [h0, h1, h2] at h
  | some x2 =>
  simp only [h0, h1, h2, Option.some.injEq] at h
  refine ⟨![v0, v1, v2], ![x0, x1, x2], rfl, h.symm, fun i => ?_⟩
  fin_cases i
  · exact h0
  · exact h1
  · exact h2

/-- What the series says about triangle `e` with earliest time `t`, and the point. -/
theorem C129_detected_iff (G : Geo n0 ts m) (c : LCfg) (hm : c.m = m) (series : List CLT.UV) (t : Nat) (e : Int) (p : LPt) :
    Says (lineProg c) n0 series () t e p ↔
      0 ≤ e ∧ ∃ v U o, LData n0 m series e v U ∧ Earliest n0 v t ∧ LHit v U ∧ (o = true ↔ ∀ i, time n0 (v i) = t) ∧
        p = { pos := fun j => place c.coords n0 (v 0) j * lineMu c U 0 + place c.coords n0 (v 1) j * lineMu c U 1 +
                place c.coords n0 (v 2) j * lineMu c U 2,
              mu := lineMu c U, tag := e, ordinal := o, timestep := t } := by
  have hmem : ∀ (v : Fin 3 → Int) (u : Int), u ∈ [v 0, v 1, v 2] ↔ ∃ i, v i = u := by
    intro v u
    simp only [List.mem_cons, List.not_mem_nil, or_false]
    constructor
    · rintro (rfl | rfl | rfl)
      · exact ⟨0, rfl⟩
      · exact ⟨1, rfl⟩
      · exact ⟨2, rfl⟩
    · rintro ⟨i, rfl⟩
      fin_cases i <;> simp
  have hord : ∀ (v : Fin 3 → Int), 0 ≤ e → getSimplex m 2 e = some [v 0, v 1, v 2] → Earliest n0 v t →
      ((isOrdinal m 2 e).getD false = true ↔ ∀ i, time n0 (v i) = t) := by
    intro v h0 hg he
    have h := (C123_ordinal G.valid G.built (d := 2) (by omega) e _ (.inl h0) hg).2
    have h' : (isOrdinal m 2 e).getD false = true ↔ isOrdinal m 2 e = some true := by
      cases isOrdinal m 2 e <;> simp
    rw [h', h]
    obtain ⟨i0, hi0⟩ := he.2
    constructor
    · intro H i
      rw [← hi0]
      exact H _ ((hmem v _).2 ⟨i, rfl⟩) _ ((hmem v _).2 ⟨i0, rfl⟩)
    · intro H a ha b hb
      obtain ⟨i, rfl⟩ := (hmem v a).1 ha
      obtain ⟨j, rfl⟩ := (hmem v b).1 hb
      rw [H, H]
  have hplace : ∀ (v : Fin 3 → Int), 0 ≤ e → getSimplex m 2 e = some [v 0, v 1, v 2] → ∀ i, coordsOf m c.coords (v i) = place c.coords n0 (v i) := by
    intro v h0 hg i
    have := (tri_vertices G h0 hg).2.2.1 i
    unfold coordsOf place
    rw [this.1, this.2]
  have hfix : ∀ (U : Fin 3 → Fin 2 → Rat) (v : Fin 3 → Int), lineHit U v = true ↔ LHit v U := by
    intro U v
    unfold lineHit LHit CLT.fixed
    norm_num
  constructor
  · rintro ⟨vs, vals, ⟨h0, h1, h2, h3⟩, h4, h5⟩
    have h1' : getSimplex m 2 e = some vs := by rw [← hm]; exact h1
    obtain ⟨vs', g1, g2, -⟩ := C123_get_simplex_partial G.valid G.built (d := 2) (by omega) (G.pos (.inl rfl)) e (.inl h0) (by omega)
    obtain rfl := Option.some.inj (g1.symm.trans h1')
    obtain ⟨v, U, rfl, rfl, hU⟩ := three_vals g2 h4
    have hE : Earliest n0 v t := by
      refine ⟨fun i => h2 _ ((hmem v _).2 ⟨i, rfl⟩), ?_⟩
      obtain ⟨u, hu, hut⟩ := h3
      obtain ⟨i, rfl⟩ := (hmem v u).1 hu
      exact ⟨i, hut⟩
    simp only [lineProg, lineTest, vec3_eta] at h5
    split at h5
    · rename_i hh
      obtain rfl := Option.some.inj h5
      refine ⟨h0, v, U, _, ⟨h1', fun i => (valueAt_line c series _).symm.trans (hU i)⟩, hE, (hfix U v).1 hh, hord v h0 h1' hE, ?_⟩
      rw [hm, hplace v h0 h1', hplace v h0 h1', hplace v h0 h1']
    · cases h5
  · rintro ⟨h0, v, U, o, ⟨d1, d2⟩, hE, hh, ho, rfl⟩
    refine ⟨[v 0, v 1, v 2], [U 0, U 1, U 2], ⟨h0, by show getSimplex c.m 2 e = _; rw [hm]; exact d1, ?_, ?_⟩,
      mapAll_three fun i => (valueAt_line c series _).trans (d2 i), ?_⟩
    · intro u hu
      obtain ⟨i, rfl⟩ := (hmem v u).1 hu
      exact hE.1 i
    · obtain ⟨i, hi⟩ := hE.2
      exact ⟨v i, (hmem v _).2 ⟨i, rfl⟩, hi⟩
    · have hoo : (isOrdinal c.m 2 e).getD false = o := by
        rw [hm]
        have := (hord v h0 d1 hE).trans ho.symm
        cases h1 : (isOrdinal m 2 e).getD false <;> cases o <;> simp_all
      simp only [lineProg, lineTest, vec3_eta, (hfix U v).2 hh, if_true, hoo]
      rw [hm, hplace v h0 d1, hplace v h0 d1, hplace v h0 d1]

theorem uvAt_time {series : List CLT.UV} {v : Int} {x : Fin 2 → Rat} (h : uvAt n0 series v = some x) :
    0 ≤ time n0 v ∧ time n0 v < series.length := by
  unfold uvAt at h
  by_cases h0 : time n0 v < 0
  · rw [if_pos h0] at h; cases h
  · rw [if_neg h0] at h
    by_contra hc
    rw [List.getElem?_eq_none (by omega)] at h
    cases h

/-- C129: a series of snapshots pushed with `push_field_data_snapshot` by the loop of the drivers, whatever the thread
schedules: exactly the pierced triangles have a point (degenerate vectors included), once, whatever their time, and the
point is the one of `C129_detected_iff`. -/
theorem C129_detects (G : Geo n0 ts m) (c : LCfg) (hm : c.m = m) (series : List CLT.UV) (hne : series ≠ [])
    (hcov : ∀ s ∈ series, s.dims = [n0]) (ord : Nat → Order) (ho : ∀ k, Complete m 2 k (ord k)) :
    ∃ st, run (lineProg c) (driveOps Op.push series ord) (St.init ()) = some st ∧ Sorted st.found ∧
      (∀ e p, (e, p) ∈ st.found ↔ ∃ t, Says (lineProg c) n0 series () t e p) ∧
      ∀ e, e ∈ st.found.map Prod.fst ↔ Pierced n0 m series e := by
  obtain ⟨os, h1, h2, h3, h4, h5, h6⟩ := drive_split (m := m) series hne ord
  obtain ⟨st, g1, g2, g3⟩ := run_all G (g := lineProg c) hm (.inl rfl) (scales_line c) os (ord (series.length - 1)) (by rw [h2]; exact h3) h5
    (by rw [h2]; exact fun s hs => covers_line c (hcov s hs)) (h6 2 ho)
  rw [h2] at g3
  have hlt : ∀ {e v U t}, LData n0 m series e v U → Earliest n0 v t → t < series.length := by
    intro e v U t hd hE
    obtain ⟨i, hi⟩ := hE.2
    have := (uvAt_time (hd.2 i)).2
    omega
  have key : ∀ e p, (e, p) ∈ st.found ↔ ∃ t, Says (lineProg c) n0 series () t e p := by
    intro e p
    rw [g3]
    constructor
    · rintro ⟨t, k, -, hs⟩
      exact ⟨t, hs⟩
    · rintro ⟨t, hs⟩
      obtain ⟨-, v, U, o, hd, hE, -⟩ := (C129_detected_iff G c hm series t e p).1 hs
      have := hlt hd hE
      obtain ⟨k, hk⟩ : ∃ k, (seen 0 os ++ [series.length])[t]? = some k :=
        ⟨_, List.getElem?_eq_getElem (by simp; omega)⟩
      exact ⟨t, k, hk, hs⟩
  refine ⟨st, by rw [h1]; exact g1, g2, key, fun e => ?_⟩
  constructor
  · intro he
    obtain ⟨⟨e', p⟩, hp, rfl⟩ := List.mem_map.1 he
    obtain ⟨t, hs⟩ := (key _ _).1 hp
    obtain ⟨h0, v, U, o, hd, -, hh, -⟩ := (C129_detected_iff G c hm series t _ p).1 hs
    exact ⟨h0, v, U, hd, hh⟩
  · rintro ⟨h0, v, U, hd, hh⟩
    have hq : 0 ≤ e / n m 2 := Int.ediv_nonneg h0 (le_of_lt (G.pos (.inl rfl)))
    obtain ⟨vs, F'⟩ := G.facet (.inl rfl) (d := 2) (t := (e / n m 2).toNat) (e := e) (by omega) h0
    have hvs : vs = [v 0, v 1, v 2] := Option.some.inj (F'.get.symm.trans hd.1)
    have hE : Earliest n0 v (e / n m 2).toNat := by
      refine ⟨fun i => ?_, ?_⟩
      · have := F'.times (v i) (by rw [hvs]; fin_cases i <;> simp)
        omega
      · obtain ⟨u, l, h1, h2⟩ := F'.first
        rw [hvs] at h1
        simp only [List.cons.injEq] at h1
        exact ⟨0, by rw [h1.1]; exact h2⟩
    exact List.mem_map.2 ⟨(e, _), (key _ _).2 ⟨_, (C129_detected_iff G c hm series _ e _).2
      ⟨h0, v, U, decide (∀ i, time n0 (v i) = ((e / n m 2).toNat : Int)), hd, hE, hh, by simp, rfl⟩⟩, rfl⟩

/-- a configuration of the regular tracker with the same treatment of degenerate vectors -/
def asCLT (c : LCfg) : CLT.Cfg (Fin 2 → Rat) :=
  { box := { domain := ⟨[], []⟩, core := ⟨[], []⟩, astart := [], t0 := 0, t1 := 0 }, uv := id, extra := fun _ _ => [], degen := c.degen }

theorem lineMu_eq (c : LCfg) (U : Fin 3 → Fin 2 → Rat) : lineMu c U = CLT.weights (asCLT c) U := rfl

/-- C129: a recorded point lies in its triangle (also if the vectors are degenerate): it is the combination of the
positions of the vertices with weights that are not negative and sum up to one; its time is between those of the two
snapshots around its timestep; it is ordinal exactly if the triangle is at one time. -/
theorem C129_point (G : Geo n0 ts m) (c : LCfg) (hm : c.m = m) (series : List CLT.UV) (t : Nat) (e : Int) (p : LPt)
    (h : Says (lineProg c) n0 series () t e p) :
    p.tag = e ∧ p.timestep = t ∧ ∃ v U, LData n0 m series e v U ∧ LHit v U ∧ Earliest n0 v t ∧
      (∀ i, 0 ≤ p.mu i) ∧ p.mu 0 + p.mu 1 + p.mu 2 = 1 ∧
      (∀ j, p.pos j = place c.coords n0 (v 0) j * p.mu 0 + place c.coords n0 (v 1) j * p.mu 1 + place c.coords n0 (v 2) j * p.mu 2) ∧
      (p.ordinal = true ↔ ∀ i, time n0 (v i) = t) ∧ (t : Rat) ≤ p.pos 3 ∧ p.pos 3 ≤ t + 1 := by
  obtain ⟨h0, v, U, o, h1, h2, h3, h4, rfl⟩ := (C129_detected_iff G c hm series t e p).1 h
  obtain ⟨w1, w2⟩ := CLT.weights_convex (asCLT c) U
  rw [← lineMu_eq] at w1 w2
  have htm := (tri_vertices G h0 h1.1).2.2.2
  have hle : ∀ i, (t : Rat) ≤ (time n0 (v i) : Rat) ∧ (time n0 (v i) : Rat) ≤ t + 1 := by
    intro i
    obtain ⟨i0, hi0⟩ := h2.2
    have a := h2.1 i
    have b := htm i
    have d := htm i0
    have e' : time n0 (v i) ≤ (t : Int) + 1 := by
      rcases b with b | b <;> rcases d with d | d <;> omega
    exact ⟨by exact_mod_cast a, by exact_mod_cast e'⟩
  refine ⟨rfl, rfl, v, U, h1, h3, h2, w1, w2, fun j => rfl, h4, ?_, ?_⟩
  · simp only [place, Matrix.cons_val]
    have := hle 0; have := hle 1; have := hle 2
    nlinarith [w1 0, w1 1, w1 2, mul_nonneg (w1 0) (sub_nonneg.2 (hle 0).1), mul_nonneg (w1 1) (sub_nonneg.2 (hle 1).1), mul_nonneg (w1 2) (sub_nonneg.2 (hle 2).1)]
  · simp only [place, Matrix.cons_val]
    nlinarith [w1 0, w1 1, w1 2, mul_nonneg (w1 0) (sub_nonneg.2 (hle 0).2), mul_nonneg (w1 1) (sub_nonneg.2 (hle 1).2), mul_nonneg (w1 2) (sub_nonneg.2 (hle 2).2)]

/-- C129: if all values are multiples of 2⁻²¹, the 2-vector field, interpolated with the recorded weights, is exactly zero
at the recorded point, and no other weights with sum one make it zero. -/
theorem C129_zero_dyadic (G : Geo n0 ts m) (c : LCfg) (hm : c.m = m) (series : List CLT.UV) (hdy : ∀ s ∈ series, LDyadic s)
    (t : Nat) (e : Int) (p : LPt) (h : Says (lineProg c) n0 series () t e p) (mu : Fin 3 → Rat) (hmu : mu 0 + mu 1 + mu 2 = 1) :
    ∃ v U, LData n0 m series e v U ∧ ((∀ j, mu 0 * U 0 j + mu 1 * U 1 j + mu 2 * U 2 j = 0) ↔ mu = p.mu) := by
  obtain ⟨h0, v, U, o, h1, h2, h3, h4, rfl⟩ := (C129_detected_iff G c hm series t e p).1 h
  obtain ⟨hinj, hpos, -⟩ := tri_vertices G h0 h1.1
  refine ⟨v, U, h1, ?_⟩
  show _ ↔ mu = lineMu c U
  rw [lineMu_eq]
  refine CLT.zero_core (asCLT c) U v hinj hpos (fun i j => ?_) h3 mu hmu
  have hx := h1.2 i
  unfold uvAt at hx
  by_cases hn : time n0 (v i) < 0
  · rw [if_pos hn] at hx; cases hx
  · rw [if_neg hn] at hx
    cases hss : series[(time n0 (v i)).toNat]? with
    | none => simp [hss] at hx
    | some s =>
      simp only [hss, CLT.UV.read] at hx
      split at hx
      · obtain ⟨z, hz⟩ := hdy s (List.mem_of_getElem? hss) [below n0 (v i)] j
        rw [Option.some.inj hx] at hz
        exact ⟨z, by push_cast; exact hz⟩
      · cases hx

end Verif.X3T
