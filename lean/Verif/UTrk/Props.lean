import Verif.UTrk.Loop
import Verif.Num.Link
import Verif.SoS.Degenerate
/-! # C92, C93: the unstructured 2-D critical point tracker tests every triangle once, and places its points -/
namespace Verif.UTrk
open Verif.Ser (lookup mapPut Sorted)
open Verif.Trk (Snap CP Traj Op scale deg Chained pushes advances Ahead)
open Verif.XM (below time)
open Verif.SRM (Scope)
variable {γ : Type} {n0 : Nat} {ts : List UM.Tri} {m : UM.M2}

/-! ## C92 -/

/-- C92, every push pattern: when `T ≥ 1` snapshots are pushed and `T - 1` advances made, in any order as long as each
advance finds two snapshots, and then `update_timestep` is called, with any thread schedule of each scan, then nothing
undefined happens; every triangle of the extruded mesh whose vertices all lie at times `0 … T-1` has been tested exactly
once, at the time of its earliest vertices, and nothing else; and (without streaming) the points recorded are exactly
those that the series says. -/
theorem C92_exactly_once (G : Geo n0 ts m) (c : Cfg γ) (hm : c.m = m) (os : List (Op 2)) (series : List (Snap 2))
    (hser : pushes os = series) (hT : advances os + 1 = series.length) (hah : Ahead 0 os)
    (hcov : ∀ s ∈ series, Covers n0 s) (hcomp : AllComplete m os) (ord : Scope → List Int) (ho : Complete m ord) :
    ∃ st k, run c (os ++ [.update ord]) St.init = some st ∧
      st.calls.Nodup ∧
      (∀ e t, (e, t) ∈ st.calls ↔ Spans n0 m series.length e t) ∧
      Sorted st.dcp ∧ (∀ t < series.length, min (t + 2) series.length ≤ k t ∧ k t ≤ series.length) ∧
      (c.streaming = false → ∀ e cp, (e, cp) ∈ st.dcp ↔ Found c n0 series k series.length e cp) := by
  obtain ⟨st, k, e, i, q⟩ := run_ahead G hm os [] (fun _ => 0) St.init (inv_init c n0 _) (by simp)
    (by rw [hser]; exact hcov) hcomp (by simpa [St.init] using hah)
  rw [List.nil_append, hser] at i
  have hcur : st.cur + 1 = series.length := by rw [q]; simp only [St.init]; omega
  obtain ⟨st', e', p1, p2, p3⟩ := final_update G hm ho hcov i hcur
    (k' := fun t => if t = st.cur then series.length else k t) (fun t ht => if_neg (by omega)) (if_pos rfl)
  refine ⟨st', fun t => if t = st.cur then series.length else k t, ?_, p1, p2, p3.sorted, ?_, fun hs => (p3.off hs).2⟩
  · rw [run_append, e]
    simp only [Option.bind_some, run, step, e']
  · intro t ht
    by_cases htt : t = st.cur
    · subst htt; simp
    · have := i.seen t (by omega)
      simp only [htt, if_false]
      omega

/-- C92 for the driver's loop (push each snapshot, advance after every one but the first, `update_timestep` after the
last): as above; timestep `t` is processed with the scaling factor computed from the snapshots `0 … t+1`. -/
theorem C92_driver (G : Geo n0 ts m) (c : Cfg γ) (hm : c.m = m) (series : List (Snap 2)) (hne : series ≠ [])
    (hcov : ∀ s ∈ series, Covers n0 s) (ord : Nat → Scope → List Int) (ho : ∀ k, Complete m (ord k)) :
    ∃ st, run c (Trk.driveOps series ord) St.init = some st ∧ st.calls.Nodup ∧
      (∀ e t, (e, t) ∈ st.calls ↔ Spans n0 m series.length e t) ∧ Sorted st.dcp ∧
      (c.streaming = false → st.trajs = [] ∧
        ∀ e cp, (e, cp) ∈ st.dcp ↔ Found c n0 series (fun t => t + 2) series.length e cp) := by
  obtain ⟨st, e, p1, p2, p3⟩ := run_driver G hm series hne hcov ord ho
  exact ⟨st, e, p1, p2, p3.sorted, p3.off⟩

/-- C92: with streaming the trajectories hold, once, every point that the series says, including those of the last
timestep (the regular trackers lose these, C48), except `lost` ones, which have more than two neighbors; consecutive
points of a trajectory are on triangles of a common tetrahedron. -/
theorem C92_streaming (G : Geo n0 ts m) (c : Cfg γ) (hm : c.m = m) (hstr : c.streaming = true) (series : List (Snap 2))
    (hne : series ≠ []) (hcov : ∀ s ∈ series, Covers n0 s) (ord : Nat → Scope → List Int) (ho : ∀ k, Complete m (ord k)) :
    ∃ (trs : List (Traj (CP (Info γ)))) (all lost : List (Int × CP (Info γ))), track c series ord = some trs ∧
      (all.map Prod.fst).Nodup ∧
      (∀ e cp, (e, cp) ∈ all ↔ Found c n0 series (fun t => t + 2) series.length e cp) ∧
      (trs.flatMap Traj.pts ++ lost.map Prod.snd).Perm (all.map Prod.snd) ∧
      (∀ kv ∈ lost, kv ∈ all ∧ 2 < deg (nbR m) (all.map Prod.fst) kv.1) ∧
      (∀ kv ∈ all, kv.2.tag = kv.1) ∧
      ∀ t ∈ trs, t.pts ≠ [] ∧ Chained (nbR m) CP.tag t.pts := by
  obtain ⟨st, e, -, -, p3⟩ := run_driver G hm series hne hcov ord ho
  obtain ⟨-, all, lost, h1, h2, h3, h4⟩ := p3.on hstr
  refine ⟨st.trajs, all, lost, ?_, h1, h2, h3, by rw [← hm]; exact h4, ?_, by rw [← hm]; exact p3.trajs⟩
  · simp [track, e, finalize, hstr]
  · rintro ⟨e, cp⟩ hk
    exact (found_tag G hm ((h2 e cp).1 hk)).1

/-- C92: the result does not depend on the thread schedules of the scans. -/
theorem C92_schedule_independent (G : Geo n0 ts m) (c : Cfg γ) (hm : c.m = m) (hoff : c.streaming = false)
    (series : List (Snap 2)) (hne : series ≠ []) (hcov : ∀ s ∈ series, Covers n0 s) (ord ord' : Nat → Scope → List Int)
    (ho : ∀ k, Complete m (ord k)) (ho' : ∀ k, Complete m (ord' k)) : track c series ord = track c series ord' := by
  obtain ⟨st, e, -, -, s1, h⟩ := C92_driver G c hm series hne hcov ord ho
  obtain ⟨st', e', -, -, s2, h'⟩ := C92_driver G c hm series hne hcov ord' ho'
  have hd : st.dcp = st'.dcp := Trk.sorted_ext s1 s2 fun k v => ((h hoff).2 k v).trans ((h' hoff).2 k v).symm
  unfold track
  rw [e, e']
  simp only [finalize, hoff, hd, (h hoff).1, (h' hoff).1]

/-! ### what the series says -/

theorem det_iff (V : Fin 3 → Fin 2 → Rat) : det V = 0 ↔ Degenerate V := by
  unfold det Degenerate
  constructor <;> intro h <;> linarith

theorem finite2_some {x : Fin 2 → Option Rat} {y : Fin 2 → Rat} : finite2 x = some y ↔ x = fun j => some (y j) := by
  unfold finite2
  constructor
  · intro h
    split at h
    · rename_i a b ha hb
      cases h
      funext j
      fin_cases j
      · simpa using ha
      · simpa using hb
    · cases h
  · rintro rfl
    simp only [Option.some.injEq]
    funext j
    fin_cases j <;> rfl

theorem all3_some_iff {β : Type} {f : Int → Option β} {v0 v1 v2 : Int} {X : Fin 3 → β} :
    all3 f v0 v1 v2 = some X ↔ ∀ i, f ((![v0, v1, v2] : Fin 3 → Int) i) = some (X i) := by
  unfold all3
  constructor
  · intro h
    split at h
    · rename_i a b c ha hb hc
      cases h
      intro i
      fin_cases i
      · simpa using ha
      · simpa using hb
      · simpa using hc
    · cases h
  · intro h
    have h0 : f v0 = some (X 0) := h 0
    have h1 : f v1 = some (X 1) := h 1
    have h2 : f v2 = some (X 2) := h 2
    rw [h0, h1, h2]
    simp only [Option.some.injEq]
    funext i
    fin_cases i <;> rfl

theorem vec3_eta {β : Type} (v : Fin 3 → β) : ![v 0, v 1, v 2] = v := by
  funext i
  fin_cases i <;> rfl

/-- C92, what "the series says" means: triangle `e` (earliest time `t`) gives the point `cp` when the vectors at its
vertices, each taken from the snapshot numbered by the vertex's time, pass the robust test and are not degenerate, the
weights being `w`, and the point is not filtered out. -/
theorem C92_detected_iff (G : Geo n0 ts m) (c : Cfg γ) (hm : c.m = m) (series : List (Snap 2)) (f : Int) (t : Nat) (e : Int)
    (he : Own m t e) (cp : CP (Info γ)) :
    detect c n0 series f t e = some cp ↔
      ∃ v V w o, Data n0 m series e v V ∧ Hit f v V ∧ mu V = some w ∧ (o = true ↔ ∀ i, time n0 (v i) = t) ∧
        c.keep cp = true ∧
        cp = { tag := e, ordinal := o, timestep := t,
               info := { pos := fun j => place c n0 (v 0) j * w 0 + place c n0 (v 1) j * w 1 + place c n0 (v 2) j * w 2,
                         extra := c.extra [v 0, v 1, v 2] V w } } := by
  obtain ⟨v0, v1, v2, o, F⟩ := G.facet he
  have hX : all3 (coordsOf c) v0 v1 v2 = some fun i => place c n0 ((![v0, v1, v2] : Fin 3 → Int) i) := by
    rw [all3_some_iff]
    intro i
    obtain ⟨h1, h2, -⟩ := F.flat ((![v0, v1, v2] : Fin 3 → Int) i) (by fin_cases i <;> simp)
    unfold coordsOf place
    rw [hm, h1, h2]
  have hmem : ∀ v ∈ [v0, v1, v2], ∃ i, (![v0, v1, v2] : Fin 3 → Int) i = v := by
    intro v hv
    simp only [List.mem_cons, List.not_mem_nil, or_false] at hv
    rcases hv with rfl | rfl | rfl
    · exact ⟨0, rfl⟩
    · exact ⟨1, rfl⟩
    · exact ⟨2, rfl⟩
  have ho : o = true ↔ ∀ i, time n0 ((![v0, v1, v2] : Fin 3 → Int) i) = t := by
    constructor
    · intro h i
      exact F.flatT h _ (by fin_cases i <;> simp)
    · intro h
      cases o with
      | true => rfl
      | false =>
        obtain ⟨v, hv, hvt⟩ := F.spanT rfl
        obtain ⟨i, rfl⟩ := hmem v hv
        have := h i
        omega
  have hread : ∀ V, all3 (fun v => (absRead n0 series v).bind finite2) v0 v1 v2 = some V ↔
      ∀ i, absRead n0 series ((![v0, v1, v2] : Fin 3 → Int) i) = some fun j => some (V i j) := by
    intro V
    rw [all3_some_iff]
    refine forall_congr' fun i => ?_
    cases absRead n0 series ((![v0, v1, v2] : Fin 3 → Int) i) with
    | none => simp
    | some x => simp only [Option.bind_some, finite2_some, Option.some.injEq]
  unfold detect checkWith
  rw [hm, F.get, F.ord]
  simp only [hX]
  constructor
  · intro h
    split at h
    · rename_i cp' hh
      split at hh
      · rename_i V X hV hX'
        cases hX'
        split at hh
        · rename_i ht
          split at hh
          · cases hh
          · rename_i w hw
            cases hh
            split at h
            · rename_i hk
              cases h
              exact ⟨![v0, v1, v2], V, w, o, ⟨F.get, (hread V).1 hV⟩, ht, hw, ho, hk, rfl⟩
            · cases h
        · cases hh
      · cases hh
    · cases h
  · rintro ⟨v, V, w, o', ⟨d1, d2⟩, h2, h3, h4, h5, rfl⟩
    have hv : v = ![v0, v1, v2] := by
      rw [F.get] at d1
      simp only [Option.some.injEq, Prod.mk.injEq, List.cons.injEq, and_true, true_and] at d1
      rw [d1.1, d1.2.1, d1.2.2, vec3_eta]
    subst hv
    have hoo : o' = o := by
      cases o <;> cases o' <;> simp_all
    subst hoo
    rw [(hread V).2 d2]
    have ht : test f V v0 v1 v2 = true := h2
    simp only [ht, if_true, h3]
    exact if_pos h5

/-- C92 (violated as "every punctured triangle yields a point"): a punctured triangle whose vectors are degenerate yields
none; every other one does, up to the filters. -/
theorem C92_punctured_partial (G : Geo n0 ts m) (c : Cfg γ) (hm : c.m = m) (series : List (Snap 2)) (f : Int) (t : Nat) (e : Int)
    (he : Own m t e) (v : Fin 3 → Int) (V : Fin 3 → Fin 2 → Rat) (hd : Data n0 m series e v V) (hh : Hit f v V) :
    (Degenerate V → detect c n0 series f t e = none) ∧
    (¬ Degenerate V → (∀ cp, c.keep cp = true) → (detect c n0 series f t e).isSome = true) := by
  have hu : ∀ v' V', Data n0 m series e v' V' → v' = v ∧ V' = V := by
    intro v' V' h'
    have h1 := hd.1
    rw [h'.1] at h1
    simp only [Option.some.injEq, Prod.mk.injEq, List.cons.injEq, and_true, true_and] at h1
    have hv : v' = v := by rw [← vec3_eta v', h1.1, h1.2.1, h1.2.2, vec3_eta]
    subst hv
    refine ⟨rfl, ?_⟩
    funext i j
    have h2 := hd.2 i
    rw [h'.2 i] at h2
    have := congrFun (Option.some.inj h2) j
    exact Option.some.inj this
  constructor
  · intro hdg
    cases hc : detect c n0 series f t e with
    | none => rfl
    | some cp =>
      obtain ⟨v', V', w, o, q1, -, q3, -⟩ := (C92_detected_iff G c hm series f t e he cp).1 hc
      obtain ⟨rfl, rfl⟩ := hu _ _ q1
      rw [mu, if_pos ((det_iff _).2 hdg)] at q3
      cases q3
  · intro hdg hk
    obtain ⟨w, hw⟩ : ∃ w, mu V = some w := by
      unfold mu
      rw [if_neg (fun h => hdg ((det_iff _).1 h))]
      simp only
      split
      · exact ⟨_, rfl⟩
      · exact ⟨_, rfl⟩
    rw [Option.isSome_iff_exists]
    classical
    exact ⟨_, (C92_detected_iff G c hm series f t e he _).2 ⟨v, V, w, decide (∀ i, time n0 (v i) = t), hd, hh, hw, by simp,
      hk _, rfl⟩⟩

/-- vectors that quantisation represents exactly: a punctured triangle is never degenerate (C95) -/
theorem hit_nondegenerate {f : Int} (hf : 0 < f) {v : Fin 3 → Int} {V : Fin 3 → Fin 2 → Rat} (hv : Function.Injective v)
    (h0 : ∀ i, 0 ≤ v i) (hint : ∀ i j, ∃ z : Int, V i j * f = z) (hh : Hit f v V) : ¬ Degenerate V := by
  intro hdg
  have h1 := (SoS.C95_hit2 _ v hv h0 hh).1
  apply h1
  have hfQ : (f : Rat) ≠ 0 := by exact_mod_cast hf.ne'
  have hq : Num.castV (fun i j => Trk.quant f (V i j)) = fun i j => V i j * f := by
    funext i j
    obtain ⟨z, hz⟩ := hint i j
    show ((Trk.quant f (V i j) : Int) : Rat) = V i j * f
    rw [Trk.quant_int hz, hz]
  have h2 := Num.edges2_det (fun i j => Trk.quant f (V i j))
  rw [hq, Matrix.det_fin_two] at h2
  simp only [Num.edges2, Matrix.of_apply, Matrix.cons_val_zero, Matrix.cons_val_one] at h2
  have h3 : ((SoS.orientZ fun i j => Trk.quant f (V i j) : Int) : Rat) = 0 := by
    rw [← h2]
    unfold Degenerate at hdg
    linear_combination f * f * hdg
  exact_mod_cast h3

/-- vertices of a triangle are distinct and numbered from 0 -/
theorem data_vertices (G : Geo n0 ts m) {series : List (Snap 2)} {t : Nat} {e : Int} (he : Own m t e) {v : Fin 3 → Int}
    {V : Fin 3 → Fin 2 → Rat} (hd : Data n0 m series e v V) : Function.Injective v ∧ ∀ i, 0 ≤ v i := by
  obtain ⟨v0, v1, v2, o', F⟩ := G.facet he
  have hv : v = ![v0, v1, v2] := by
    have d1 := hd.1
    rw [F.get] at d1
    simp only [Option.some.injEq, Prod.mk.injEq, List.cons.injEq, and_true, true_and] at d1
    rw [d1.1, d1.2.1, d1.2.2, vec3_eta]
  have hlt1 := F.lt1
  have hlt2 := F.lt2
  have hnn := F.nonneg
  rw [hv]
  constructor
  · intro i j hij
    fin_cases i <;> fin_cases j <;> simp at hij ⊢ <;> omega
  · intro i
    fin_cases i <;> simp <;> omega

/-- C92: with exact quantisation every punctured triangle yields a point (that the filter may drop). -/
theorem C92_punctured (G : Geo n0 ts m) (c : Cfg γ) (hm : c.m = m) (series : List (Snap 2)) (f : Int) (hf : 0 < f) (t : Nat) (e : Int)
    (he : Own m t e) (v : Fin 3 → Int) (V : Fin 3 → Fin 2 → Rat) (hd : Data n0 m series e v V)
    (hint : ∀ i j, ∃ z : Int, V i j * f = z) (hh : Hit f v V) (hk : ∀ cp, c.keep cp = true) :
    (detect c n0 series f t e).isSome = true :=
  have h := data_vertices G he hd
  (C92_punctured_partial G c hm series f t e he v V hd hh).2 (hit_nondegenerate hf h.1 h.2 hint hh) hk

/-! ## C93 -/

theorem edges_det (V : Fin 3 → Fin 2 → Rat) : (Num.edges2 V).det = det V := by
  rw [Matrix.det_fin_two]
  simp [Num.edges2, det]

/-- C93: what the weights of `check_simplex` are: they sum to one; either they interpolate the vectors to zero and lie in
`[-eps, 1+eps]`, or no such weights exist and they lie in `[0, 1]`. -/
theorem C93_weights (V : Fin 3 → Fin 2 → Rat) (w : Fin 3 → Rat) (h : mu V = some w) :
    w 0 + w 1 + w 2 = 1 ∧
    (((∀ j, V 0 j * w 0 + V 1 j * w 1 + V 2 j * w 2 = 0) ∧ ∀ i, -eps ≤ w i ∧ w i ≤ 1 + eps) ∨
     ((∀ i, 0 ≤ w i ∧ w i ≤ 1) ∧ ¬ ∃ u : Fin 3 → Rat, u 0 + u 1 + u 2 = 1 ∧
        (∀ j, V 0 j * u 0 + V 1 j * u 1 + V 2 j * u 2 = 0) ∧ ∀ i, -eps ≤ u i ∧ u i ≤ 1 + eps)) := by
  unfold mu at h
  by_cases hd : det V = 0
  · rw [if_pos hd] at h; cases h
  rw [if_neg hd] at h
  have hsol := Num.C54_s2v2 V eps (by rw [edges_det]; exact hd)
  have hsuc := Num.C54_s2v2_success V eps
  simp only at h
  have hz := (hsol (Num.inverseLerpS2v2 V eps).2).2 rfl
  split at h
  · rename_i hs
    cases h
    refine ⟨hz.1, .inl ⟨fun j => ?_, hsuc.1 hs⟩⟩
    have := congrFun hz.2 j
    fin_cases j <;> simpa [Num.lerpS2v2] using this
  · rename_i hs
    cases h
    set r := Num.inverseLerpS2v2 V eps
    have a0 : 0 ≤ max (min 1 (r.2 0)) 0 := le_max_right _ _
    have a1 : max (min 1 (r.2 0)) 0 ≤ 1 := max_le (min_le_left _ _) (by norm_num)
    have b0 : 0 ≤ max (min (1 - max (min 1 (r.2 0)) 0) (r.2 1)) 0 := le_max_right _ _
    have b1 : max (min (1 - max (min 1 (r.2 0)) 0) (r.2 1)) 0 ≤ 1 - max (min 1 (r.2 0)) 0 :=
      max_le (min_le_left _ _) (by linarith)
    refine ⟨by simp, .inr ⟨?_, ?_⟩⟩
    · intro i
      fin_cases i <;> simp only [Fin.zero_eta, Fin.mk_one, Fin.reduceFinMk]
      · exact ⟨a0, a1⟩
      · refine ⟨b0, ?_⟩
        show max (min (1 - max (min 1 (r.2 0)) 0) (r.2 1)) 0 ≤ 1
        linarith
      · show 0 ≤ 1 - max (min 1 (r.2 0)) 0 - max (min (1 - max (min 1 (r.2 0)) 0) (r.2 1)) 0 ∧
          1 - max (min 1 (r.2 0)) 0 - max (min (1 - max (min 1 (r.2 0)) 0) (r.2 1)) 0 ≤ 1
        constructor <;> linarith
    · rintro ⟨u, u1, u2, u3⟩
      apply hs
      rw [hsuc]
      have : u = r.2 := (hsol u).1 ⟨u1, by
        funext j
        have := u2 j
        fin_cases j <;> simpa [Num.lerpS2v2] using this⟩
      rw [← this]
      exact u3

/-- C93: the position (and time) of a point is the combination of the positions of the vertices of its triangle with
weights that sum to one; the interpolated vector is zero there and the weights are in `[-eps, 1+eps]`, or no point of the
triangle (up to `eps`) is a zero and the weights are in `[0, 1]`. -/
theorem C93_position (G : Geo n0 ts m) (c : Cfg γ) (hm : c.m = m) (series : List (Snap 2)) (f : Int) (t : Nat) (e : Int)
    (he : Own m t e) (cp : CP (Info γ)) (h : detect c n0 series f t e = some cp) :
    ∃ v V, ∃ w : Fin 3 → Rat, Data n0 m series e v V ∧ Hit f v V ∧ w 0 + w 1 + w 2 = 1 ∧
      (∀ j, cp.info.pos j = place c n0 (v 0) j * w 0 + place c n0 (v 1) j * w 1 + place c n0 (v 2) j * w 2) ∧
      (((∀ j, V 0 j * w 0 + V 1 j * w 1 + V 2 j * w 2 = 0) ∧ ∀ i, -eps ≤ w i ∧ w i ≤ 1 + eps) ∨
       ((∀ i, 0 ≤ w i ∧ w i ≤ 1) ∧ ¬ ∃ u : Fin 3 → Rat, u 0 + u 1 + u 2 = 1 ∧
          (∀ j, V 0 j * u 0 + V 1 j * u 1 + V 2 j * u 2 = 0) ∧ ∀ i, -eps ≤ u i ∧ u i ≤ 1 + eps)) := by
  obtain ⟨v, V, w, o, h1, h2, h3, h4, h5, rfl⟩ := (C92_detected_iff G c hm series f t e he cp).1 h
  obtain ⟨q1, q2⟩ := C93_weights V w h3
  exact ⟨v, V, w, h1, h2, q1, fun j => rfl, q2⟩

theorem weights_scale {V : Fin 3 → Fin 2 → Rat} {f : Rat} (hf : f ≠ 0) (hd : det V ≠ 0) :
    (Num.inverseLerpS2v2 (fun i j => V i j * f) eps).2 = (Num.inverseLerpS2v2 V eps).2 := by
  have h1 := Num.C54_s2v2 V eps (by rw [edges_det]; exact hd) (Num.inverseLerpS2v2 V eps).2
  have hd' : det (fun i j => V i j * f) ≠ 0 := by
    have : det (fun i j => V i j * f) = det V * f * f := by unfold det; ring
    rw [this]
    exact mul_ne_zero (mul_ne_zero hd hf) hf
  have h2 := Num.C54_s2v2 (fun i j => V i j * f) eps (by rw [edges_det]; exact hd') (Num.inverseLerpS2v2 V eps).2
  refine (h2.1 ⟨(h1.2 rfl).1, ?_⟩).symm
  have hz := (h1.2 rfl).2
  funext j
  have := congrFun hz j
  fin_cases j
  · simp [Num.lerpS2v2] at this ⊢
    linear_combination f * this
  · simp [Num.lerpS2v2] at this ⊢
    linear_combination f * this

/-- C93, exact quantisation: when the vectors times the scaling factor are integers (as for values that are multiples of
1/256, see C72), the point is in its triangle — weights in `[0, 1]`, so also a time between those of the vertices — and
the interpolated vector is zero there. -/
theorem C93_exact (G : Geo n0 ts m) (c : Cfg γ) (hm : c.m = m) (series : List (Snap 2)) (f : Int) (hf : 0 < f) (t : Nat) (e : Int)
    (he : Own m t e) (cp : CP (Info γ)) (h : detect c n0 series f t e = some cp)
    (hint : ∀ v V, Data n0 m series e v V → ∀ i j, ∃ z : Int, V i j * f = z) :
    ∃ v V, ∃ w : Fin 3 → Rat, Data n0 m series e v V ∧ w 0 + w 1 + w 2 = 1 ∧ (∀ i, 0 ≤ w i ∧ w i ≤ 1) ∧
      (∀ j, V 0 j * w 0 + V 1 j * w 1 + V 2 j * w 2 = 0) ∧
      (∀ j, cp.info.pos j = place c n0 (v 0) j * w 0 + place c n0 (v 1) j * w 1 + place c n0 (v 2) j * w 2) ∧
      (t : Rat) ≤ cp.info.pos 3 ∧ cp.info.pos 3 ≤ t + 1 := by
  obtain ⟨v, V, w, o, h1, h2, h3, h4, h5, rfl⟩ := (C92_detected_iff G c hm series f t e he cp).1 h
  obtain ⟨v0, v1, v2, o', F⟩ := G.facet he
  have hv : v = ![v0, v1, v2] := by
    have d1 := h1.1
    rw [F.get] at d1
    simp only [Option.some.injEq, Prod.mk.injEq, List.cons.injEq, and_true, true_and] at d1
    rw [d1.1, d1.2.1, d1.2.2, vec3_eta]
  have hd : det V ≠ 0 := by
    intro hd
    rw [mu, if_pos hd] at h3
    cases h3
  have hfQ : (f : Rat) ≠ 0 := by exact_mod_cast hf.ne'
  have hq : Num.castV (fun i j => Trk.quant f (V i j)) = fun i j => V i j * f := by
    funext i j
    obtain ⟨z, hz⟩ := hint v V h1 i j
    show ((Trk.quant f (V i j) : Int) : Rat) = V i j * f
    rw [Trk.quant_int hz, hz]
  have hd' : (Num.edges2 (Num.castV (fun i j => Trk.quant f (V i j)))).det ≠ 0 := by
    rw [hq, edges_det]
    have : det (fun i j => V i j * f) = det V * f * f := by unfold det; ring
    rw [this]
    exact mul_ne_zero (mul_ne_zero hd hfQ) hfQ
  have hlt1 := F.lt1
  have hlt2 := F.lt2
  have hnn := F.nonneg
  have hinj : Function.Injective v := by
    rw [hv]
    intro i j hij
    fin_cases i <;> fin_cases j <;> simp at hij ⊢ <;> omega
  have hm1 : ∀ i, v i ≠ -1 := by
    rw [hv]
    intro i
    fin_cases i <;> simp <;> omega
  obtain ⟨hw, hs⟩ := (Num.C54_robust_then_solve2 (fun i j => Trk.quant f (V i j)) v hinj hm1 hd' eps (by unfold eps; norm_num)).1 h2
  rw [hq, weights_scale hfQ hd] at hw
  have hz := (Num.C54_s2v2 V eps (by rw [edges_det]; exact hd) (Num.inverseLerpS2v2 V eps).2).2 rfl
  have hsucc : (Num.inverseLerpS2v2 V eps).1 = true := by
    rw [Num.C54_s2v2_success]
    intro i
    have := hw i
    have h0 : (0 : Rat) ≤ eps := by unfold eps; norm_num
    constructor <;> linarith
  have hw3 : w = (Num.inverseLerpS2v2 V eps).2 := by
    unfold mu at h3
    rw [if_neg hd] at h3
    simp only [hsucc, if_true, Option.some.injEq] at h3
    exact h3.symm
  subst hw3
  have htime : ∀ i, (t : Rat) ≤ time n0 (v i) ∧ (time n0 (v i) : Rat) ≤ t + 1 := by
    intro i
    have := F.times (v i) (by rw [hv]; fin_cases i <;> simp)
    rcases this with h | h <;> rw [h] <;> push_cast <;> constructor <;> linarith
  refine ⟨v, V, _, h1, hz.1, hw, ?_, fun j => rfl, ?_, ?_⟩
  · intro j
    have := congrFun hz.2 j
    fin_cases j <;> simpa [Num.lerpS2v2] using this
  · show (t : Rat) ≤ (time n0 (v 0) : Rat) * _ + (time n0 (v 1) : Rat) * _ + (time n0 (v 2) : Rat) * _
    nlinarith [htime 0, htime 1, htime 2, hw 0, hw 1, hw 2, hz.1, mul_le_mul_of_nonneg_right (htime 0).1 (hw 0).1,
      mul_le_mul_of_nonneg_right (htime 1).1 (hw 1).1, mul_le_mul_of_nonneg_right (htime 2).1 (hw 2).1]
  · show (time n0 (v 0) : Rat) * _ + (time n0 (v 1) : Rat) * _ + (time n0 (v 2) : Rat) * _ ≤ (t : Rat) + 1
    nlinarith [htime 0, htime 1, htime 2, hw 0, hw 1, hw 2, hz.1, mul_le_mul_of_nonneg_right (htime 0).2 (hw 0).1,
      mul_le_mul_of_nonneg_right (htime 1).2 (hw 1).1, mul_le_mul_of_nonneg_right (htime 2).2 (hw 2).1]

end Verif.UTrk
