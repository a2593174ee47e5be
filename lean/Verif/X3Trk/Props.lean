import Verif.X3Trk.Detect
/-! # C126, C127: critical points on unstructured 3-D meshes: which tetrahedra yield a point, and where it is -/
namespace Verif.X3T
open Verif.U3 Verif.X3
open Verif.Ser (lookup mapPut Sorted)
open Verif.Trk (Snap CP Traj quant nbits scale minRes dblMax)
variable {γ : Type} {n0 : Nat} {ts : List Tet} {m : M3}

/-! ## C126 -/

/-- C126, what "the series says" means: tetrahedron `e` (earliest time `t`) gives the point `p` when the vectors at its
vertices, each taken from the snapshot numbered by the vertex's own time, pass the robust test, the weights of
`check_simplex` being `w`, and the point is not filtered out. -/
theorem C126_detected_iff (G : Geo n0 ts m) (c : Cfg γ) (hm : c.m = m) (series : List (Snap 3)) (r : Rat) (t : Nat) (e : Int)
    (p : CP (Info γ)) :
    Says (cpProg c) n0 series r t e p ↔
      0 ≤ e ∧ ∃ v V w o, Data n0 m series e v V ∧ Earliest n0 v t ∧ Hit (2 ^ nbits r) v V ∧ mu V = some w ∧
        (o = true ↔ ∀ i, time n0 (v i) = t) ∧ c.keep p = true ∧
        p = { tag := e, ordinal := o, timestep := t,
              info := { pos := fun j => place c.coords n0 (v 0) j * w 0 + place c.coords n0 (v 1) j * w 1 +
                          place c.coords n0 (v 2) j * w 2 + place c.coords n0 (v 3) j * w 3,
                        mu := w, extra := c.extra [v 0, v 1, v 2, v 3] V w } } := by
  have hmem : ∀ (v : Fin 4 → Int) (u : Int), u ∈ [v 0, v 1, v 2, v 3] ↔ ∃ i, v i = u := by
    intro v u
    simp only [List.mem_cons, List.not_mem_nil, or_false]
    constructor
    · rintro (rfl | rfl | rfl | rfl)
      · exact ⟨0, rfl⟩
      · exact ⟨1, rfl⟩
      · exact ⟨2, rfl⟩
      · exact ⟨3, rfl⟩
    · rintro ⟨i, rfl⟩
      fin_cases i <;> simp
  have hord : ∀ (v : Fin 4 → Int), 0 ≤ e → getSimplex m 3 e = some [v 0, v 1, v 2, v 3] → Earliest n0 v t →
      ((isOrdinal m 3 e).getD false = true ↔ ∀ i, time n0 (v i) = t) := by
    intro v h0 hg he
    have h := (C123_ordinal G.valid G.built (d := 3) (by omega) e _ (.inl h0) hg).2
    have h' : (isOrdinal m 3 e).getD false = true ↔ isOrdinal m 3 e = some true := by
      cases isOrdinal m 3 e <;> simp
    rw [h', h]
    obtain ⟨i0, hi0⟩ := he.2
    constructor
    · intro H i
      rw [← hi0]
      exact H _ ((hmem v _).2 ⟨i, rfl⟩) _ ((hmem v _).2 ⟨i0, rfl⟩)
    · intro H a ha b hb
      obtain ⟨i, rfl⟩ := (hmem v a).1 ha
      obtain ⟨j, rfl⟩ := (hmem v b).1 hb
      rw [H, H]
  constructor
  · rintro ⟨vs, vals, ⟨h0, h1, h2, h3⟩, h4, h5⟩
    have h1' : getSimplex m 3 e = some vs := by rw [← hm]; exact h1
    obtain ⟨vs', g1, g2, -⟩ := C123_get_simplex_partial G.valid G.built (d := 3) (by omega) (G.pos (.inr rfl)) e (.inl h0) (by omega)
    obtain rfl := Option.some.inj (g1.symm.trans h1')
    obtain ⟨v, V, rfl, rfl, hV⟩ := four g2 h4
    have hE : Earliest n0 v t := by
      refine ⟨fun i => h2 _ ((hmem v _).2 ⟨i, rfl⟩), ?_⟩
      obtain ⟨u, hu, hut⟩ := h3
      obtain ⟨i, rfl⟩ := (hmem v u).1 hu
      exact ⟨i, hut⟩
    have hvt := tet_vertices G h0 h1'
    simp only [cpProg, cpTest, vec4_eta] at h5
    split at h5
    · rename_i hh
      split at h5
      · cases h5
      · rename_i w hw
        split at h5
        · rename_i hk
          obtain rfl := Option.some.inj h5
          refine ⟨h0, v, V, w, _, ⟨h1', fun i => (valueAt_cp c series _ _).1 (hV i)⟩, hE, hh, hw, hord v h0 h1' hE, hk, ?_⟩
          rw [hm]
          congr 2
          funext j
          rw [← hm]
          unfold lerp4
          beta_reduce
          rw [place_eq c hm (hvt.2.2.1 0), place_eq c hm (hvt.2.2.1 1), place_eq c hm (hvt.2.2.1 2), place_eq c hm (hvt.2.2.1 3)]
        · cases h5
    · cases h5
  · rintro ⟨h0, v, V, w, o, ⟨d1, d2⟩, hE, hh, hw, ho, hk, hp⟩
    have hvt := tet_vertices G h0 d1
    refine ⟨[v 0, v 1, v 2, v 3], [V 0, V 1, V 2, V 3], ⟨h0, by show getSimplex c.m 3 e = _; rw [hm]; exact d1, ?_, ?_⟩,
      mapAll_four fun i => (valueAt_cp c series _ _).2 (d2 i), ?_⟩
    · intro u hu
      obtain ⟨i, rfl⟩ := (hmem v u).1 hu
      exact hE.1 i
    · obtain ⟨i, hi⟩ := hE.2
      exact ⟨v i, (hmem v _).2 ⟨i, rfl⟩, hi⟩
    · have hoo : (isOrdinal c.m 3 e).getD false = o := by
        rw [hm]
        have := (hord v h0 d1 hE).trans ho.symm
        cases h1 : (isOrdinal m 3 e).getD false <;> cases o <;> simp_all
      have hpos : (lerp4 (fun k => coordsOf c.m c.coords (v k)) w) = fun j => place c.coords n0 (v 0) j * w 0 +
          place c.coords n0 (v 1) j * w 1 + place c.coords n0 (v 2) j * w 2 + place c.coords n0 (v 3) j * w 3 := by
        funext j
        unfold lerp4
        beta_reduce
        rw [place_eq c hm (hvt.2.2.1 0), place_eq c hm (hvt.2.2.1 1), place_eq c hm (hvt.2.2.1 2), place_eq c hm (hvt.2.2.1 3)]
      have hh' : hit (2 ^ nbits r) V v = true := hh
      simp only [cpProg, cpTest, vec4_eta, hh', if_true, hw, hoo, hpos]
      rw [← hp, if_pos hk]

/-- C126: whatever the order in which snapshots are pushed (with `push_field_data_snapshot`) and timesteps advanced, as long
as two snapshots are there at each advance, and whatever the thread schedule, after the last update there is a point on
exactly the tetrahedra on which the series says there is one, once; the factor of a tetrahedron is that of the snapshots
pushed when its timestep was processed. -/
theorem C126_exactly_once (G : Geo n0 ts m) (c : Cfg γ) (hm : c.m = m) (os : List (Op (Snap 3))) (ord : Order)
    (hT : (seen 0 os).length + 1 = (pushes os).length) (hah : Ahead 0 os) (hcov : ∀ s ∈ pushes os, VecField n0 s)
    (hcm : AllComplete m 3 0 (os ++ [.update ord])) :
    ∃ st, run (cpProg c) (os ++ [.update ord]) (St.init dblMax) = some st ∧ (st.found.map Prod.fst).Nodup ∧
      ∀ e p, (e, p) ∈ st.found ↔ ∃ t k, (seen 0 os ++ [(pushes os).length])[t]? = some k ∧
        Says (cpProg c) n0 (pushes os) (minRes ((pushes os).take k)) t e p := by
  obtain ⟨st, h1, h2, h3⟩ := run_all G (g := cpProg c) hm (.inr rfl) (scales_cp c) os ord hT hah (fun s hs => covers_of c (hcov s hs)) hcm
  exact ⟨st, h1, Trk.sorted_nodup h2, h3⟩

/-- the calls of the driver are pushes and advances, then an update -/
theorem drive_split {S : Type} (series : List S) (hne : series ≠ []) (ord : Nat → Order) :
    ∃ os, driveOps Op.push series ord = os ++ [.update (ord (series.length - 1))] ∧ pushes os = series ∧
      (seen 0 os).length + 1 = series.length ∧ (∀ t, t + 1 < series.length → (seen 0 os)[t]? = some (t + 2)) ∧ Ahead 0 os ∧
      ∀ d, (∀ k, Complete m d k (ord k)) → AllComplete m d 0 (os ++ [.update (ord (series.length - 1))]) := by
  have key : ∀ (l : List S) (k n : Nat), l ≠ [] → n = k + l.length →
      ∃ os, driveFrom Op.push n k ord l = os ++ [.update (ord (n - 1))] ∧ pushes os = l ∧
        (k = 0 → (seen 0 os).length + 1 = l.length) ∧ (k ≠ 0 → (seen k os).length = l.length) ∧
        (k = 0 → ∀ t, t + 1 < l.length → (seen 0 os)[t]? = some (t + 2)) ∧
        (k ≠ 0 → ∀ t, t < l.length → (seen k os)[t]? = some (t + k + 1)) ∧
        (Ahead (if k = 0 then 0 else 1) os) ∧
        ∀ d, (∀ k, Complete m d k (ord k)) → AllComplete m d (k - 1) (os ++ [.update (ord (n - 1))]) := by
    intro l
    induction l with
    | nil => intro k n h; exact absurd rfl h
    | cons s l ih =>
      intro k n _ hn
      by_cases hl : l = []
      · subst hl
        simp only [List.length_singleton] at hn
        subst hn
        by_cases hk : k = 0
        · subst hk
          refine ⟨[.push s], by simp [driveFrom], rfl, by simp [seen], by simp, by simp, by simp, by simp [Ahead], ?_⟩
          intro d h
          exact ⟨by simpa using h 0, trivial⟩
        · refine ⟨[.push s, .advance (ord (k - 1))], by simp [driveFrom, hk], rfl, fun h => absurd h hk, by simp [seen], fun h => absurd h hk, ?_,
            by simp [Ahead, hk], ?_⟩
          · intro _ t ht
            simp at ht
            subst ht
            simp [seen]
          · intro d h
            refine ⟨h (k - 1), ?_, trivial⟩
            rw [show k - 1 + 1 = k from by omega, show k + 1 - 1 = k from by omega]
            exact h k
      · have hlen : 0 < l.length := List.length_pos_of_ne_nil hl
        simp only [List.length_cons] at hn
        obtain ⟨os, i1, i2, -, i4, -, i6, i7, i8⟩ := ih (k + 1) n hl (by omega)
        have hlast : ¬ k + 1 = n := by omega
        rw [if_neg (by omega)] at i7
        by_cases hk : k = 0
        · subst hk
          refine ⟨.push s :: os, by simp [driveFrom, hlast, i1], by simp [pushes, i2], ?_, by simp, ?_, by simp, i7, ?_⟩
          · intro _
            simp only [seen, List.length_cons]
            rw [i4 (by omega)]
          · intro _ t ht
            simp only [seen]
            rw [i6 (by omega) t (by simpa using ht)]
          · intro d h
            exact i8 d h
        · refine ⟨.push s :: .advance (ord (k - 1)) :: os, by simp [driveFrom, hlast, i1, hk], by simp [pushes, i2],
            fun h => absurd h hk, ?_, fun h => absurd h hk, ?_, ?_, ?_⟩
          · intro _
            simp only [seen, List.length_cons]
            rw [i4 (by omega)]
          · intro _ t ht
            simp only [seen]
            cases t with
            | zero => simp
            | succ t =>
              rw [List.getElem?_cons_succ, i6 (by omega) t (by simpa using ht)]
              congr 1
              omega
          · rw [if_neg hk]
            exact ⟨by omega, i7⟩
          · intro d h
            refine ⟨h (k - 1), ?_⟩
            rw [show k - 1 + 1 = k + 1 - 1 from by omega]
            exact i8 d h
  obtain ⟨os, h1, h2, h3, -, h5, -, h7, h8⟩ := key series 0 series.length hne (by omega)
  exact ⟨os, h1, h2, h3 rfl, h5 rfl, h7, h8⟩

/-- C126 for the loop of the drivers (json_interface.hh, src/cli), had it used `push_field_data_snapshot`. -/
theorem C126_driver (G : Geo n0 ts m) (c : Cfg γ) (hm : c.m = m) (series : List (Snap 3)) (hne : series ≠ [])
    (hcov : ∀ s ∈ series, VecField n0 s) (ord : Nat → Order) (ho : ∀ k, Complete m 3 k (ord k)) :
    ∃ st, run (cpProg c) (driveOps Op.push series ord) (St.init dblMax) = some st ∧ Sorted st.found ∧
      ∀ e p, (e, p) ∈ st.found ↔ ∃ t, Says (cpProg c) n0 series (minRes (series.take (t + 2))) t e p := by
  obtain ⟨os, h1, h2, h3, h4, h5, h6⟩ := drive_split (m := m) series hne ord
  obtain ⟨st, g1, g2, g3⟩ := run_all G (g := cpProg c) hm (.inr rfl) (scales_cp c) os (ord (series.length - 1)) (by rw [h2]; exact h3) h5
    (by rw [h2]; exact fun s hs => covers_of c (hcov s hs)) (h6 3 ho)
  rw [h2] at g3
  refine ⟨st, by rw [h1]; exact g1, g2, fun e p => ?_⟩
  rw [g3]
  constructor
  · rintro ⟨t, k, hk, hs⟩
    refine ⟨t, ?_⟩
    rcases lt_trichotomy (t + 1) series.length with h | h | h
    · rw [List.getElem?_append_left (by omega), h4 t h] at hk
      cases hk
      exact hs
    · rw [List.getElem?_append_right (by omega), show t - (seen 0 os).length = 0 from by omega] at hk
      simp at hk
      subst hk
      rw [List.take_of_length_le (by omega)]
      rwa [List.take_of_length_le (by omega)] at hs
    · rw [List.getElem?_eq_none (by simp; omega)] at hk
      cases hk
  · rintro ⟨t, hs⟩
    have ht : t < series.length := by
      obtain ⟨-, v, V, w, o, hd, hE, -⟩ := (C126_detected_iff G c hm series _ t e p).1 hs
      obtain ⟨i, hi⟩ := hE.2
      have := valueAt_none (g := cpProg c) (n0 := n0) (Q := series) (v := v i) (by rw [(valueAt_cp c series _ _).2 (hd.2 i)]; rfl)
      omega
    rcases Nat.lt_or_ge (t + 1) series.length with h | h
    · exact ⟨t, t + 2, by rw [List.getElem?_append_left (by omega)]; exact h4 t h, hs⟩
    · refine ⟨t, series.length, by rw [List.getElem?_append_right (by omega), show t - (seen 0 os).length = 0 from by omega]; rfl, ?_⟩
      rw [List.take_of_length_le (by omega)] at hs
      rwa [List.take_of_length_le (by omega)]

/-- C126: the points found, and the trajectories, do not depend on the thread schedules. -/
theorem C126_schedule_independent (G : Geo n0 ts m) (c : Cfg γ) (hm : c.m = m) (series : List (Snap 3)) (hne : series ≠ [])
    (hcov : ∀ s ∈ series, VecField n0 s) (ord ord' : Nat → Order) (ho : ∀ k, Complete m 3 k (ord k)) (ho' : ∀ k, Complete m 3 k (ord' k)) :
    (∃ st st', run (cpProg c) (driveOps Op.push series ord) (St.init dblMax) = some st ∧
      run (cpProg c) (driveOps Op.push series ord') (St.init dblMax) = some st' ∧ st.found = st'.found) ∧
    track c Op.push series ord = track c Op.push series ord' := by
  obtain ⟨st, e1, e2, e3⟩ := C126_driver G c hm series hne hcov ord ho
  obtain ⟨st', f1, f2, f3⟩ := C126_driver G c hm series hne hcov ord' ho'
  have : st.found = st'.found := Trk.sorted_ext e2 f2 fun e p => (e3 e p).trans (f3 e p).symm
  refine ⟨⟨st, st', e1, f1, this⟩, ?_⟩
  unfold track
  rw [e1, f1]
  simp only [finalize, this]

/-- C126 (violated as "every punctured tetrahedron yields a point"): a punctured tetrahedron whose vectors are degenerate
yields none; every other one does, up to the filters. -/
theorem C126_punctured_partial (G : Geo n0 ts m) (c : Cfg γ) (hm : c.m = m) (series : List (Snap 3)) (r : Rat) (t : Nat) (e : Int)
    (he : 0 ≤ e) (v : Fin 4 → Int) (V : Fin 4 → Fin 3 → Rat) (hd : Data n0 m series e v V) (hE : Earliest n0 v t)
    (hh : Hit (2 ^ nbits r) v V) :
    (Degenerate V → ∀ p, ¬ Says (cpProg c) n0 series r t e p) ∧
    (¬ Degenerate V → (∀ cp, c.keep cp = true) → ∃ p, Says (cpProg c) n0 series r t e p) := by
  constructor
  · intro hdg p hs
    obtain ⟨-, v', V', w, o, q1, -, -, q4, -⟩ := (C126_detected_iff G c hm series r t e p).1 hs
    have h1 := hd.1
    rw [q1.1] at h1
    simp only [Option.some.injEq, List.cons.injEq, and_true] at h1
    have hv : v' = v := by rw [← vec4_eta v', h1.1, h1.2.1, h1.2.2.1, h1.2.2.2, vec4_eta]
    subst hv
    have hV : V' = V := by
      funext i j
      have h2 := hd.2 i
      rw [q1.2 i] at h2
      exact Option.some.inj (congrFun (Option.some.inj h2) j)
    subst hV
    rw [mu, if_pos ((det_iff _).2 hdg)] at q4
    cases q4
  · intro hdg hk
    obtain ⟨w, hw⟩ : ∃ w, mu V = some w := by
      unfold mu
      rw [if_neg (fun h => hdg ((det_iff _).1 h))]
      dsimp only
      split
      · exact ⟨_, rfl⟩
      · exact ⟨_, rfl⟩
    classical
    exact ⟨_, (C126_detected_iff G c hm series r t e _).2 ⟨he, v, V, w, decide (∀ i, time n0 (v i) = t), hd, hE, hh, hw, by simp,
      hk _, rfl⟩⟩

/-- C126: with exact quantisation every punctured tetrahedron yields a point (that the filter may drop). -/
theorem C126_punctured (G : Geo n0 ts m) (c : Cfg γ) (hm : c.m = m) (series : List (Snap 3)) (r : Rat) (t : Nat) (e : Int)
    (he : 0 ≤ e) (v : Fin 4 → Int) (V : Fin 4 → Fin 3 → Rat) (hd : Data n0 m series e v V) (hE : Earliest n0 v t)
    (hint : ∀ i j, ∃ z : Int, V i j * ((2 ^ nbits r : Int) : Rat) = z) (hh : Hit (2 ^ nbits r) v V) (hk : ∀ cp, c.keep cp = true) :
    ∃ p, Says (cpProg c) n0 series r t e p :=
  have h := tet_vertices G he hd.1
  (C126_punctured_partial G c hm series r t e he v V hd hE hh).2
    (hit_nondegenerate (by positivity) h.1 h.2.1 hint hh) hk

/-- C126 (violated): the loop of json_interface.hh:457-470 pushes with `push_vector_field_snapshot`, which this tracker
overrides with an empty function: no snapshot is ever stored and the first `update_timestep` reads a snapshot that does not
exist — for every mesh and every series. -/
theorem C126_push_lost (G : Geo n0 ts m) (c : Cfg γ) (hm : c.m = m) (series : List (Snap 3)) (hne : series ≠ [])
    (ord : Nat → Order) (ho : ∀ k, Complete m 3 k (ord k)) : track c Op.pushField series ord = none := by
  have hupd : ∀ (st : St Rat (Snap 3) (CP (Info γ))), st.snaps = [] → st.cur = 0 → update (cpProg c) (ord 0) st = none := by
    intro st hs hc
    have hord := (ho 0).1
    obtain ⟨vs, F⟩ := G.facet (.inr rfl) (d := 3) (t := 0) (e := 0) (by simp) (le_refl _)
    have h0 : (0 : Int) ∈ ord 0 .ordinal := by
      rw [hord.mem_iff, ordinalIds_mem]
      refine ⟨?_, ?_⟩
      · simp
      · have := (counts G.base G.ne)
        simp [nOrdinal]
        omega
    unfold update
    have hnone : ∀ (l : List Int) (st : St Rat (Snap 3) (CP (Info γ))), st.snaps = [] → st.cur = 0 → 0 ∈ l → (∀ x ∈ l, 0 ≤ x ∧ x / n m 3 = 0) →
        visitAll (cpProg c) l st = none := by
      intro l
      cases l with
      | nil => intro st _ _ h; cases h
      | cons x l =>
        intro st hs hc _ hx
        obtain ⟨vs, F⟩ := G.facet (.inr rfl) (d := 3) (t := 0) (e := x) (by simpa using (hx x (by simp)).2) (hx x (by simp)).1
        obtain ⟨v, l', hv, -⟩ := F.first
        have hchk : (cpProg c).chk st.sig st.cur st.snaps x = none := by
          unfold Prog.chk
          have : getSimplex (cpProg c).m (cpProg c).d x = some vs := by show getSimplex c.m 3 x = _; rw [hm]; exact F.get
          rw [this]
          simp only
          have hr : (cpProg c).readVertex st.snaps st.cur v = none := by
            unfold Prog.readVertex
            rw [hs]
            split <;> simp
          rw [hv, Gen.mapAll, hr]
        unfold visitAll visit
        rw [hchk]
    have h3 := hnone (ord 0 .ordinal) { st with sig := (cpProg c).pre st.sig st.snaps } hs hc h0 (by
      intro x hx
      rw [hord.mem_iff, ordinalIds_mem] at hx
      have hle : nOrdinal m 3 ≤ n m 3 := by
        have := (counts G.base G.ne)
        simp [nOrdinal, n, nInterval]
        omega
      have : 0 ≤ x := by simpa using hx.1
      refine ⟨this, Int.ediv_eq_zero_of_lt this ?_⟩
      have := hx.2
      simp at this
      omega)
    rw [h3]
  have hrun : run (cpProg c) (driveOps Op.pushField series ord) (St.init dblMax) = none := by
    obtain ⟨s, l, rfl⟩ := List.exists_cons_of_ne_nil hne
    unfold driveOps driveFrom
    simp only [run, step]
    rw [if_neg (by simp)]
    rcases l with _ | ⟨s', l⟩
    · simp only [List.length_singleton, if_true, List.nil_append, List.cons_append, run, step]
      rw [hupd _ rfl rfl]
    · rw [if_neg (by simp)]
      simp only [List.nil_append, driveFrom, run, step]
      rw [if_pos (by simp)]
      simp only [List.singleton_append, List.cons_append, run, step, advance]
      have : ord (0 + 1 - 1) = ord 0 := rfl
      rw [this, hupd _ rfl rfl]
  unfold track
  rw [hrun]

/-! ## C127 -/

/-- The weights sum to one, interpolate the vectors to zero and are within `[-eps, 1+eps)`. -/
def Solves (V : Fin 4 → Fin 3 → Rat) (w : Fin 4 → Rat) : Prop :=
  w 0 + w 1 + w 2 + w 3 = 1 ∧ (∀ j, V 0 j * w 0 + V 1 j * w 1 + V 2 j * w 2 + V 3 j * w 3 = 0) ∧ ∀ i, -eps ≤ w i ∧ w i < 1 + eps

/-- C127 (violated as "the weights of a point sum to one"): when weights that solve the system exist, they are used.
When none exist, the weights used are `m0`, `m1` clamped, `1 - m0 - m1 - m2` in the place of the third and the unclamped
fourth: they sum to one exactly when the third, clamped, equals the unclamped fourth. -/
theorem C127_weights_partial (V : Fin 4 → Fin 3 → Rat) (w : Fin 4 → Rat) (h : mu V = some w) :
    Solves V w ∨
    ((¬ ∃ u, Solves V u) ∧ ∃ u : Fin 4 → Rat, (u 0 + u 1 + u 2 + u 3 = 1 ∧
        ∀ j, V 0 j * u 0 + V 1 j * u 1 + V 2 j * u 2 + V 3 j * u 3 = 0) ∧
      w 3 = u 3 ∧ w 0 = max (min 1 (u 0)) 0 ∧ w 1 = max (min (1 - w 0) (u 1)) 0 ∧
      w 2 = 1 - w 0 - w 1 - max (min (1 - w 1 - w 0) (u 2)) 0 ∧ (∀ i, i ≠ 3 → 0 ≤ w i ∧ w i ≤ 1) ∧
      (w 0 + w 1 + w 2 + w 3 = 1 ↔ u 3 = max (min (1 - w 1 - w 0) (u 2)) 0)) := by
  unfold mu at h
  by_cases hd : det V = 0
  · rw [if_pos hd] at h; cases h
  rw [if_neg hd] at h
  have hsol := Num.C54_s3v3 V eps (by rw [det_eq]; exact hd)
  have hsuc := Num.C54_s3v3_success V eps
  dsimp only at h
  have hz := (hsol (Num.inverseLerpS3v3 V eps).2).2 rfl
  have hz2 : ∀ j, V 0 j * (Num.inverseLerpS3v3 V eps).2 0 + V 1 j * (Num.inverseLerpS3v3 V eps).2 1 +
      V 2 j * (Num.inverseLerpS3v3 V eps).2 2 + V 3 j * (Num.inverseLerpS3v3 V eps).2 3 = 0 := by
    intro j
    have := congrFun hz.2 j
    fin_cases j <;> simpa [Num.lerpS3v3] using this
  split at h
  · rename_i hs
    obtain rfl := Option.some.inj h
    exact .inl ⟨hz.1, hz2, hsuc.1 hs⟩
  · rename_i hs
    obtain rfl := Option.some.inj h
    right
    refine ⟨?_, (Num.inverseLerpS3v3 V eps).2, ⟨hz.1, hz2⟩, rfl, rfl, rfl, rfl, ?_, ?_⟩
    · rintro ⟨u, u1, u2, u3⟩
      apply hs
      rw [hsuc]
      have : u = (Num.inverseLerpS3v3 V eps).2 := (hsol u).1 ⟨u1, by
        funext j
        have := u2 j
        fin_cases j <;> simpa [Num.lerpS3v3] using this⟩
      rw [← this]
      exact u3
    · set r := Num.inverseLerpS3v3 V eps
      have a0 : 0 ≤ max (min 1 (r.2 0)) 0 := le_max_right _ _
      have a1 : max (min 1 (r.2 0)) 0 ≤ 1 := max_le (min_le_left _ _) (by norm_num)
      have b0 : 0 ≤ max (min (1 - max (min 1 (r.2 0)) 0) (r.2 1)) 0 := le_max_right _ _
      have b1 : max (min (1 - max (min 1 (r.2 0)) 0) (r.2 1)) 0 ≤ 1 - max (min 1 (r.2 0)) 0 :=
        max_le (min_le_left _ _) (by linarith)
      generalize max (min 1 (r.2 0)) 0 = x at *
      generalize max (min (1 - x) (r.2 1)) 0 = y at *
      have c0 : 0 ≤ max (min (1 - y - x) (r.2 2)) 0 := le_max_right _ _
      have c1 : max (min (1 - y - x) (r.2 2)) 0 ≤ 1 - y - x := max_le (min_le_left _ _) (by linarith)
      generalize max (min (1 - y - x) (r.2 2)) 0 = z at *
      intro i hi
      fin_cases i
      · exact ⟨a0, a1⟩
      · exact ⟨b0, by show y ≤ 1; linarith⟩
      · exact ⟨by show 0 ≤ 1 - x - y - z; linarith, by show 1 - x - y - z ≤ 1; linarith⟩
      · exact absurd rfl hi
    · simp only [Matrix.cons_val]
      generalize max (min 1 _) 0 = x
      generalize max (min (1 - x) _) 0 = y
      generalize max (min (1 - y - x) _) 0 = z
      generalize (Num.inverseLerpS3v3 V eps).2 3 = q
      constructor <;> intro h <;> linarith

/-- C127: the position (and time) of a point is the combination of the positions of the vertices of its tetrahedron with
weights that solve the system (see `Solves`), if there are such weights. -/
theorem C127_position_partial (G : Geo n0 ts m) (c : Cfg γ) (hm : c.m = m) (series : List (Snap 3)) (r : Rat) (t : Nat) (e : Int)
    (p : CP (Info γ)) (h : Says (cpProg c) n0 series r t e p) :
    ∃ v V, ∃ w : Fin 4 → Rat, Data n0 m series e v V ∧ Hit (2 ^ nbits r) v V ∧
      (∀ j, p.info.pos j = place c.coords n0 (v 0) j * w 0 + place c.coords n0 (v 1) j * w 1 +
        place c.coords n0 (v 2) j * w 2 + place c.coords n0 (v 3) j * w 3) ∧
      (Solves V w ∨ ¬ ∃ u, Solves V u) := by
  obtain ⟨h0, v, V, w, o, h1, h2, h3, h4, h5, h6, rfl⟩ := (C126_detected_iff G c hm series r t e p).1 h
  refine ⟨v, V, w, h1, h3, fun j => rfl, ?_⟩
  rcases C127_weights_partial V w h4 with h | h
  · exact .inl h
  · exact .inr h.1

theorem weights_scale {V : Fin 4 → Fin 3 → Rat} {f : Rat} (hf : f ≠ 0) (hd : det V ≠ 0) :
    (Num.inverseLerpS3v3 (fun i j => V i j * f) eps).2 = (Num.inverseLerpS3v3 V eps).2 := by
  have h1 := Num.C54_s3v3 V eps (by rw [det_eq]; exact hd) (Num.inverseLerpS3v3 V eps).2
  have hd' : det (fun i j => V i j * f) ≠ 0 := by
    have : det (fun i j => V i j * f) = det V * f * f * f := by unfold det Num.det3; simp; ring
    rw [this]
    exact mul_ne_zero (mul_ne_zero (mul_ne_zero hd hf) hf) hf
  have h2 := Num.C54_s3v3 (fun i j => V i j * f) eps (by rw [det_eq]; exact hd') (Num.inverseLerpS3v3 V eps).2
  refine (h2.1 ⟨(h1.2 rfl).1, ?_⟩).symm
  have hz := (h1.2 rfl).2
  funext j
  have := congrFun hz j
  fin_cases j <;> simp [Num.lerpS3v3] at this ⊢ <;> linear_combination f * this

/-- C127, exact quantisation: when the vectors times the scaling factor are integers (as for values that are multiples of
1/256, see C72), the point is in its tetrahedron — weights in `[0, 1]` that sum to one, so also a time between those of the
vertices — and the interpolated vector is zero there. -/
theorem C127_exact (G : Geo n0 ts m) (c : Cfg γ) (hm : c.m = m) (series : List (Snap 3)) (r : Rat) (t : Nat) (e : Int)
    (p : CP (Info γ)) (h : Says (cpProg c) n0 series r t e p)
    (hint : ∀ v V, Data n0 m series e v V → ∀ i j, ∃ z : Int, V i j * ((2 ^ nbits r : Int) : Rat) = z) :
    ∃ v V, ∃ w : Fin 4 → Rat, Data n0 m series e v V ∧ w 0 + w 1 + w 2 + w 3 = 1 ∧ (∀ i, 0 ≤ w i ∧ w i ≤ 1) ∧
      (∀ j, V 0 j * w 0 + V 1 j * w 1 + V 2 j * w 2 + V 3 j * w 3 = 0) ∧
      (∀ j, p.info.pos j = place c.coords n0 (v 0) j * w 0 + place c.coords n0 (v 1) j * w 1 +
        place c.coords n0 (v 2) j * w 2 + place c.coords n0 (v 3) j * w 3) ∧
      (t : Rat) ≤ p.info.pos 3 ∧ p.info.pos 3 ≤ t + 1 := by
  obtain ⟨h0, v, V, w, o, h1, hE, h2, h3, h4, h5, rfl⟩ := (C126_detected_iff G c hm series r t e p).1 h
  obtain ⟨hinj, hpos, -, htm⟩ := tet_vertices G h0 h1.1
  generalize hfe : (2 ^ nbits r : Int) = f at *
  have hf : 0 < f := by rw [← hfe]; positivity
  have hd : det V ≠ 0 := by
    intro hd
    rw [mu, if_pos hd] at h3
    cases h3
  have hfQ : (f : Rat) ≠ 0 := by exact_mod_cast hf.ne'
  have hq : Num.castV (fun i j => Trk.quant f (V i j)) = fun i j => V i j * f := by
    funext i j
    obtain ⟨z, hz⟩ := hint v V h1 i j
    show ((Trk.quant f (V i j) : Int) : Rat) = V i j * f
    rw [Trk.quant_int hz, hz]
  have hd' : (Num.edges3 (Num.castV (fun i j => Trk.quant f (V i j)))).det ≠ 0 := by
    rw [hq, det_eq]
    have : det (fun i j => V i j * f) = det V * f * f * f := by unfold det Num.det3; simp; ring
    rw [this]
    exact mul_ne_zero (mul_ne_zero (mul_ne_zero hd hfQ) hfQ) hfQ
  obtain ⟨hw, hs⟩ := (Num.C54_robust_then_solve3 (fun i j => Trk.quant f (V i j)) v hinj (fun i => by have := hpos i; omega) hd' eps
    (by unfold eps; norm_num)).1 h2
  rw [hq, weights_scale hfQ hd] at hw
  have hz := (Num.C54_s3v3 V eps (by rw [det_eq]; exact hd) (Num.inverseLerpS3v3 V eps).2).2 rfl
  have hsucc : (Num.inverseLerpS3v3 V eps).1 = true := by
    rw [Num.C54_s3v3_success]
    intro i
    have := hw i
    have h0 : (0 : Rat) < eps := by unfold eps; norm_num
    constructor <;> linarith
  have hw3 : w = (Num.inverseLerpS3v3 V eps).2 := by
    unfold mu at h3
    rw [if_neg hd] at h3
    simp only [hsucc, if_true, Option.some.injEq] at h3
    exact h3.symm
  subst hw3
  have htime : ∀ i, (t : Rat) ≤ time n0 (v i) ∧ (time n0 (v i) : Rat) ≤ t + 1 := by
    intro i
    obtain ⟨i0, hi0⟩ := hE.2
    have b := htm i0
    have b' := htm i
    have c' : time n0 (v i) ≤ t + 1 := by omega
    exact ⟨by exact_mod_cast hE.1 i, by exact_mod_cast c'⟩
  have hzz : ∀ j, V 0 j * (Num.inverseLerpS3v3 V eps).2 0 + V 1 j * (Num.inverseLerpS3v3 V eps).2 1 +
      V 2 j * (Num.inverseLerpS3v3 V eps).2 2 + V 3 j * (Num.inverseLerpS3v3 V eps).2 3 = 0 := by
    intro j
    have := congrFun hz.2 j
    fin_cases j <;> simpa [Num.lerpS3v3] using this
  refine ⟨v, V, _, h1, hz.1, hw, hzz, fun j => rfl, ?_, ?_⟩
  · show (t : Rat) ≤ (time n0 (v 0) : Rat) * _ + (time n0 (v 1) : Rat) * _ + (time n0 (v 2) : Rat) * _ + (time n0 (v 3) : Rat) * _
    have e0 := mul_le_mul_of_nonneg_right (htime 0).1 (hw 0).1
    have e1 := mul_le_mul_of_nonneg_right (htime 1).1 (hw 1).1
    have e2 := mul_le_mul_of_nonneg_right (htime 2).1 (hw 2).1
    have e3 := mul_le_mul_of_nonneg_right (htime 3).1 (hw 3).1
    have hsum : (t : Rat) * ((Num.inverseLerpS3v3 V eps).2 0 + (Num.inverseLerpS3v3 V eps).2 1 + (Num.inverseLerpS3v3 V eps).2 2 +
      (Num.inverseLerpS3v3 V eps).2 3) = t := by rw [hz.1, mul_one]
    linarith
  · show (time n0 (v 0) : Rat) * _ + (time n0 (v 1) : Rat) * _ + (time n0 (v 2) : Rat) * _ + (time n0 (v 3) : Rat) * _ ≤ (t : Rat) + 1
    have e0 := mul_le_mul_of_nonneg_right (htime 0).2 (hw 0).1
    have e1 := mul_le_mul_of_nonneg_right (htime 1).2 (hw 1).1
    have e2 := mul_le_mul_of_nonneg_right (htime 2).2 (hw 2).1
    have e3 := mul_le_mul_of_nonneg_right (htime 3).2 (hw 3).1
    have hsum : ((t : Rat) + 1) * ((Num.inverseLerpS3v3 V eps).2 0 + (Num.inverseLerpS3v3 V eps).2 1 + (Num.inverseLerpS3v3 V eps).2 2 +
      (Num.inverseLerpS3v3 V eps).2 3) = t + 1 := by rw [hz.1, mul_one]
    linarith

end Verif.X3T
