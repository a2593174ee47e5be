import Verif.Contour.Surface
import Mathlib.Tactic.FieldSimp
/-! C83, C84, C85: the contour trackers. -/
namespace Verif.Ctr
open Verif.Ser (Sorted)
open Verif.SRM
open Verif.Trk (elemValid)
variable {d : Nat}

/-! ### C83 -/

/-- C83: after the driver's loop over a series of snapshots (push each, `advance_timestep` after all but the
first, `update_timestep` after the last), the tasks of every scan having been executed in any order, no
read was out of range; the intersections are exactly the edges of the spacetime mesh, inside the domain and
the times of the series, that have exactly one end above the threshold (by at least `2⁻²¹`), each once; and
the related cells are exactly the valid cells of the mesh containing one of them. -/
theorem C83_contour_edges (c : Cfg d) (series : List Scal) (hc : Shaped c series.length) (hne : series ≠ [])
    (hcov : ∀ s ∈ series, Covers c s) (ord : Nat → Scope → List Int) (ho : ∀ k, Complete c (ord k)) :
    ∃ st, run c (driveOps series ord) St.init = some st ∧
      (st.inter.map Prod.fst).Nodup ∧ (∀ e, e ∈ st.inter.map Prod.fst ↔ Cut c series e) ∧
      st.cells.Nodup ∧ ∀ x, x ∈ st.cells ↔ IsElem (d + 1) (d + 1) x ∧
        (∃ vs, x.vertices (d + 1) = some vs ∧ ∀ v ∈ vs, InBounds c.bounds v) ∧ ∃ e, Cut c series e ∧ FaceOf (d + 1) e x := by
  obtain ⟨st, h1, h2⟩ := drive_holds hc hne hcov ord ho
  have hk := h2.keys hc
  refine ⟨st, h1, Trk.sorted_nodup h2.sorted, hk.mem, h2.csorted.nodup, fun x => ?_⟩
  rw [h2.cells]
  constructor
  · rintro ⟨e, p, hf, hx, hv, hfe⟩
    exact ⟨hx, (elemValid_iff hc hx (Nat.le_refl _)).1 hv, e, (found_iff_cut hc).1 ⟨p, hf⟩, hfe⟩
  · rintro ⟨hx, hv, e, hcut, hfe⟩
    obtain ⟨p, hp⟩ := (found_iff_cut hc).2 hcut
    exact ⟨e, p, hp, hx, (elemValid_iff hc hx (Nat.le_refl _)).2 hv, hfe⟩

/-- C83: the result does not depend on the order in which the tasks are executed. -/
theorem C83_schedule_independent (c : Cfg d) (series : List Scal) (hc : Shaped c series.length) (hne : series ≠ [])
    (hcov : ∀ s ∈ series, Covers c s) (ord ord' : Nat → Scope → List Int) (ho : ∀ k, Complete c (ord k))
    (ho' : ∀ k, Complete c (ord' k)) :
    run c (driveOps series ord) St.init = run c (driveOps series ord') St.init := by
  obtain ⟨st, h1, h2⟩ := drive_holds hc hne hcov ord ho
  obtain ⟨st', h1', h2'⟩ := drive_holds hc hne hcov ord' ho'
  have hcur : st.cur = st'.cur := by
    have hcnt : ∀ (os : List Op) (a b : St), run c os a = some b → b.cur = a.cur + os.countP (fun o => match o with
        | .advance _ => true | _ => false) := by
      have hup : ∀ (o : Scope → List Int) (a b : St), update c o a = some b → b.cur = a.cur := by
        intro o a b h
        have hsc : ∀ (es : List (Option Elem)) (a b : St), visitAll c es a = some b → b.cur = a.cur := by
          intro es
          induction es with
          | nil => intro a b h; simp only [visitAll, Option.some.injEq] at h; rw [h]
          | cons e es ih =>
            intro a b h
            cases e with
            | none => simp [visitAll] at h
            | some e =>
              simp only [visitAll] at h
              cases hv : visit c a e with
              | none => simp [hv] at h
              | some a' =>
                simp only [hv] at h
                rw [ih a' b h]
                unfold visit at hv
                split at hv
                · simp at hv
                · simp only [Option.some.injEq] at hv; rw [hv]
                · split at hv
                  · simp at hv
                  · simp only [Option.some.injEq] at hv; rw [← hv]
        unfold update at h
        cases h1 : scan c .ordinal (o .ordinal) a with
        | none => simp [h1] at h
        | some a1 =>
          have e1 := hsc _ _ _ h1
          simp only [h1] at h
          split at h
          · rw [hsc _ _ _ h, e1]
          · simp only [Option.some.injEq] at h; rw [← h, e1]
      intro os
      induction os with
      | nil => intro a b h; simp only [run, Option.some.injEq] at h; simp [h]
      | cons o os ih =>
        intro a b h
        simp only [run] at h
        cases hs : step c a o with
        | none => simp [hs] at h
        | some a' =>
          simp only [hs] at h
          rw [ih a' b h, List.countP_cons]
          cases o with
          | push s => simp only [step, Option.some.injEq] at hs; rw [← hs]; simp [push]
          | update o =>
            have := hup _ _ _ hs
            rw [this]; simp
          | advance o =>
            simp only [step, advance] at hs
            cases hu : update c o a with
            | none => simp [hu] at hs
            | some a1 =>
              simp only [hu, Option.some.injEq] at hs
              have := hup _ _ _ hu
              rw [← hs]
              simp only [this]
              simp
              omega
    have a := hcnt _ _ _ h1
    have b := hcnt _ _ _ h1'
    rw [a, b]
    congr 1
    unfold driveOps
    rw [List.countP_flatMap, List.countP_flatMap]
    congr 1
    apply List.map_congr_left
    rintro ⟨k, s⟩ _
    simp only [Function.comp_apply]
    by_cases hk : k = 0
    · subst hk
      by_cases hl : 0 + 1 = series.length
      · simp only [hl, ne_eq, not_true_eq_false, if_true, if_false, List.nil_append, List.countP_cons, List.countP_nil]
      · simp only [hl, ne_eq, not_true_eq_false, if_false, List.nil_append, List.countP_cons, List.countP_nil]
    · by_cases hl : k + 1 = series.length
      · simp only [hk, hl, ne_eq, not_false_eq_true, if_true, List.countP_cons, List.countP_append, List.countP_nil]
      · simp only [hk, hl, ne_eq, not_false_eq_true, if_true, if_false, List.countP_cons, List.countP_append, List.countP_nil]
  have hinter : st.inter = st'.inter := by
    have n1 : st.inter.Nodup := (Trk.sorted_nodup h2.sorted).of_map
    have n2 : st'.inter.Nodup := (Trk.sorted_nodup h2'.sorted).of_map
    refine List.Perm.eq_of_pairwise (le := fun (a b : Elem × Pt) => a.1 < b.1)
      (fun a b _ _ (hab : a.1 < b.1) (hba : b.1 < a.1) => absurd hab (lt_asymm hba)) h2.sorted h2'.sorted ?_
    exact (List.perm_ext_iff_of_nodup n1 n2).2 fun ⟨e, p⟩ => (h2.inter e p).trans (h2'.inter e p).symm
  have hcells : st.cells = st'.cells := by
    refine List.Perm.eq_of_pairwise (le := (· < ·)) (fun a b _ _ hab hba => absurd hab (lt_asymm hba)) h2.csorted h2'.csorted ?_
    exact (List.perm_ext_iff_of_nodup h2.csorted.nodup h2'.csorted.nodup).2 fun x => (h2.cells x).trans (h2'.cells x).symm
  have hsn : st.snaps = st'.snaps := by rw [h2.snaps, h2'.snaps, hcur]
  rw [h1, h1']
  cases st
  cases st'
  simp only at hcur hinter hcells hsn
  rw [hcur, hinter, hcells, hsn]

/-! ### C84 -/

/-- C84: every intersection found lies on the line of its edge where the linear interpolation of the two
values equals the threshold; it carries the number of the edge, the time of its earlier end and whether the
two ends have the same time; it lies between the two ends unless both values exceed the threshold (one of
them by less than `2⁻²¹`). -/
theorem C84_contour_point_partial (c : Cfg d) (series : List Scal) (hc : Shaped c series.length) (hne : series ≠ [])
    (hcov : ∀ s ∈ series, Covers c s) (ord : Nat → Scope → List Int) (ho : ∀ k, Complete c (ord k)) :
    ∃ st, run c (driveOps series ord) St.init = some st ∧ ∀ e p, (e, p) ∈ st.inter →
      ∃ u v mu, CutAt c series e u v ∧ p.x = onSegment u v mu ∧
        (1 - mu) * valueAt c series u + mu * valueAt c series v = c.thr ∧ p.scalar = c.thr ∧
        p.tag = e.toInteger (d + 1) c.bounds ∧ AtTime (d + 1) u p.timestep ∧
        (p.ordinal = true ↔ AtTime (d + 1) v p.timestep) ∧
        ((valueAt c series u ≤ c.thr ∨ valueAt c series v ≤ c.thr) → 0 ≤ mu ∧ mu ≤ 1) := by
  obtain ⟨st, h1, h2⟩ := drive_holds hc hne hcov ord ho
  refine ⟨st, h1, fun e p hp => ?_⟩
  obtain ⟨t, -, hat, u, v, hcut, rfl⟩ := (h2.inter e p).1 hp
  obtain ⟨u', v', hv, -, hu, -, -, tv, hoo⟩ := edge_vertices hcut.edge hc.pos hat
  rw [hcut.verts] at hv
  cases hv
  generalize hA : valueAt c series u = A
  generalize hB : valueAt c series v = B
  have hcc := hcut.cut
  unfold Above at hcc
  rw [hA, hB] at hcc
  have hne' : B - c.thr - (A - c.thr) ≠ 0 := by
    intro h
    have : A = B := by linarith
    subst this
    exact iff_not_self hcc
  have hne2 : B - A ≠ 0 := by intro h; apply hne'; linarith
  refine ⟨u, v, 1 - (B - c.thr) / (B - c.thr - (A - c.thr)), hcut, ?_, ?_, ?_, rfl, ?_, ?_, ?_⟩
  · simp only [isoPoint, point, onSegment, Num.inverseLerpS1v1, hA, hB]
    have : ∀ (f g : Int → Int → Rat), (∀ a b, f a b = g a b) → List.zipWith f u v = List.zipWith g u v := by
      intro f g h
      have : f = g := by funext a b; exact h a b
      rw [this]
    apply this
    intro a b
    simp
    ring
  · have : B - c.thr - (A - c.thr) = B - A := by ring
    rw [this, hA, hB]
    field_simp
    ring
  · simp only [isoPoint, point, Num.lerpS1, Num.inverseLerpS1v1, hA, hB, Matrix.cons_val_zero, Matrix.cons_val_one]
    have : B - c.thr - (A - c.thr) = B - A := by ring
    rw [this]
    field_simp
    ring
  · show AtTime (d + 1) u (t : Int)
    rw [hu]
    exact hat
  · show isOrdinalType (d + 1) e.dim e.type = true ↔ AtTime (d + 1) v (t : Int)
    rw [← hoo, mem_scopeTypes (by omega), hcut.edge.dim]
    have hty := hcut.edge.type
    rw [hcut.edge.dim] at hty
    simp [hty]
  · intro hlow
    have key : ∀ x y : Rat, y - x ≠ 0 → ((x ≤ 0 ∧ 0 ≤ y) ∨ (y ≤ 0 ∧ 0 ≤ x)) → 0 ≤ 1 - y / (y - x) ∧ 1 - y / (y - x) ≤ 1 := by
      intro x y hxy h
      have e : 1 - y / (y - x) = -x / (y - x) := by field_simp; ring
      rcases h with ⟨h1, h2⟩ | ⟨h1, h2⟩
      · have hp : 0 < y - x := lt_of_le_of_ne (by linarith) (Ne.symm hxy)
        refine ⟨?_, ?_⟩
        · rw [e]; exact div_nonneg (by linarith) hp.le
        · have := div_nonneg h2 hp.le; linarith
      · have hp : y - x < 0 := lt_of_le_of_ne (by linarith) hxy
        refine ⟨?_, ?_⟩
        · rw [e]; exact div_nonneg_of_nonpos (by linarith) hp.le
        · have := div_nonneg_of_nonpos h1 hp.le; linarith
    refine key _ _ hne' ?_
    have hpos : (0 : Rat) ≤ 1 / 2 ^ 21 := by norm_num
    by_cases hh : c.thr + 1 / 2 ^ 21 ≤ A
    · have hb := hcc.1 hh
      right
      refine ⟨?_, by linarith⟩
      rcases hlow with h | h
      · exfalso
        have : (0 : Rat) < 1 / 2 ^ 21 := by norm_num
        linarith
      · linarith
    · have hb : c.thr + 1 / 2 ^ 21 ≤ B := by
        by_contra hcon
        exact hh (hcc.2 hcon)
      left
      refine ⟨?_, by linarith⟩
      rcases hlow with h | h
      · linarith
      · exfalso
        have : (0 : Rat) < 1 / 2 ^ 21 := by norm_num
        linarith

/-! ### C85 -/

theorem renumber_length : ∀ (i : Nat) (m : List (Elem × Pt)), (renumber i m).length = m.length
  | _, [] => rfl
  | i, (_, _) :: m => by simp [renumber, renumber_length (i + 1) m]

theorem renumber_get : ∀ (i : Nat) (m : List (Elem × Pt)) (k : Nat),
    (renumber i m)[k]? = (m[k]?).map fun ep => { ep.2 with tag := ((i + k : Nat) : Int) }
  | _, [], k => by simp [renumber]
  | i, (e, p) :: m, 0 => by simp [renumber]
  | i, (e, p) :: m, k + 1 => by
    simp only [renumber, List.getElem?_cons_succ, renumber_get (i + 1) m k]
    congr 1
    funext ep
    congr 2
    omega

theorem cell_idx {inter : List (Elem × Pt)} {c : Cfg 2} {series : List Scal} (hk : Keys c series inter) {x : Elem} (hx : IsElem 3 3 x)
    {l : List (List Nat)} (hl : patch2 inter x = some l) : ∀ t ∈ l, t.length = 3 ∧ t.Nodup ∧ ∀ i ∈ t, i < inter.length := by
  obtain ⟨w, hw, hwi, hcell⟩ := verts_ofFn (n := 3) (by omega) (by omega) hx
  rw [patch2_spec hk hx hw] at hl
  cases hl
  intro t ht
  obtain ⟨s, hs, rfl⟩ := List.mem_map.1 ht
  obtain ⟨s1, s2, s3⟩ := tri4_shape _ _ s hs
  refine ⟨by rw [List.length_map, s1], ?_, ?_⟩
  · refine (List.nodup_map_iff_inj_on s2).2 fun p hp q hq h => ?_
    obtain ⟨p1, -, -⟩ := numAt_eq hk hcell (s3 p hp)
    obtain ⟨q1, -, q3⟩ := numAt_eq hk hcell (s3 q hq)
    exact at2_inj hwi (edgeOf_inj (by omega) hcell hcell p1 q1 (q3 _ h))
  · intro i hi
    obtain ⟨p, hp, rfl⟩ := List.mem_map.1 hi
    obtain ⟨-, p2, -⟩ := numAt_eq hk hcell (s3 p hp)
    have := List.idxOf_lt_length_iff.2 ((hk.mem _).2 p2)
    rw [List.length_map] at this
    exact this

open Classical in
/-- C85: the surface built from the series, whatever the order in which the cells are processed.  The points are
the intersections, in their order, numbered.  Every triangle has three different, existing points.  Two points on
two edges of a common triangle of the mesh lie together in as many triangles of the surface as cells of the mesh
that contain this triangle lie inside; two points on other edges lie together in none or two. -/
theorem C85_surface (c : Cfg 2) (series : List Scal) (hc : Shaped c series.length) (hne : series ≠ [])
    (hcov : ∀ s ∈ series, Covers c s) (ord : Nat → Scope → List Int) (ho : ∀ k, Complete c (ord k)) :
    ∃ st, run c (driveOps series ord) St.init = some st ∧ ∀ order, order.Perm st.cells →
      ∃ S, buildSurfaces st.inter order = some S ∧ S.pts.length = st.inter.length ∧
        (∀ (i : Nat) (e : Elem) (p : Pt), st.inter[i]? = some (e, p) → S.pts[i]? = some { p with tag := (i : Int) }) ∧
        (∀ t ∈ S.cells, t.length = 3 ∧ t.Nodup ∧ ∀ i ∈ t, i < S.pts.length) ∧
        ∀ (i j : Nat) (ei ej : Elem) (p q : Pt), st.inter[i]? = some (ei, p) → st.inter[j]? = some (ej, q) → i ≠ j →
          (∀ f a b, IsElem 3 2 f → FaceOf 3 ei f → FaceOf 3 ej f → IsElem 3 3 a → IsElem 3 3 b → a ≠ b →
            FaceOf 3 f a → FaceOf 3 f b →
            S.cells.countP (fun t => decide (i ∈ t ∧ j ∈ t)) =
              (if Inside c series.length a then 1 else 0) + if Inside c series.length b then 1 else 0) ∧
          ((∀ f, IsElem 3 2 f → FaceOf 3 ei f → ¬ FaceOf 3 ej f) →
            S.cells.countP (fun t => decide (i ∈ t ∧ j ∈ t)) = 0 ∨ S.cells.countP (fun t => decide (i ∈ t ∧ j ∈ t)) = 2) := by
  obtain ⟨st, h1, h2⟩ := drive_holds hc hne hcov ord ho
  have hk := h2.keys hc
  refine ⟨st, h1, fun order hperm => ?_⟩
  have hord : ∀ x ∈ order, IsElem 3 3 x := by
    intro x hx
    obtain ⟨e, p, -, hm⟩ := (h2.cells x).1 (hperm.mem_iff.1 hx)
    exact hm.1
  have hin : ∀ x e, IsElem 3 3 x → Inside c series.length x → Cut c series e → FaceOf 3 e x → x ∈ order := by
    rintro x e hx ⟨vs, v1, v2⟩ hcut hfe
    obtain ⟨p, hp⟩ := (found_iff_cut hc).2 hcut
    refine hperm.mem_iff.2 ((h2.cells x).2 ⟨e, p, hp, hx, ?_, hfe⟩)
    exact (elemValid_iff hc hx (Nat.le_refl _)).2 ⟨vs, v1, fun v hv => insideV_bounds hc (Nat.le_refl _) (v2 v hv)⟩
  obtain ⟨ts, t1, t2, -, t4⟩ := surface_count hk (hperm.nodup_iff.2 h2.csorted.nodup) hord hin
  refine ⟨⟨renumber 0 st.inter, ts⟩, by unfold buildSurfaces; rw [t1], renumber_length _ _, ?_, ?_, ?_⟩
  · intro i e p h
    show (renumber 0 st.inter)[i]? = _
    rw [renumber_get, h]
    simp
  · intro t ht
    obtain ⟨x, hx, -, l, hl, htl⟩ := t2 t ht
    show _ ∧ _ ∧ ∀ i ∈ t, i < (renumber 0 st.inter).length
    rw [renumber_length]
    exact cell_idx hk (hord x hx) hl t htl
  · intro i j ei ej p q hi hj hij
    have hnd : (st.inter.map Prod.fst).Nodup := Trk.sorted_nodup h2.sorted
    have idx : ∀ (i : Nat) (e : Elem) (p : Pt), st.inter[i]? = some (e, p) →
        (st.inter.map Prod.fst).idxOf e = i ∧ Cut c series e := by
      intro i e p h
      have hg : (st.inter.map Prod.fst)[i]? = some e := by rw [List.getElem?_map, h]; rfl
      obtain ⟨hlt, hge⟩ := List.getElem?_eq_some_iff.1 hg
      refine ⟨?_, (hk.mem e).1 (List.mem_of_getElem? hg)⟩
      rw [← hge]
      exact List.Nodup.idxOf_getElem hnd i hlt
    obtain ⟨a1, a2⟩ := idx i ei p hi
    obtain ⟨b1, b2⟩ := idx j ej q hj
    have hne' : ei ≠ ej := by
      rintro rfl
      exact hij (a1.symm.trans b1)
    have hcnt : ts.countP (fun t => decide (i ∈ t ∧ j ∈ t)) = cnt i j ts := by
      unfold cnt
      apply List.countP_congr
      intro t _
      simp
    obtain ⟨k1, k2⟩ := t4 ei ej a2 b2 hne'
    rw [a1, b1] at k1 k2
    simp only [hcnt]
    refine ⟨fun f a b hf f1 f2 ea eb hab fa fb => ?_, k2⟩
    obtain ⟨S, s1, s2⟩ := sideOf_iff (n := 3) (by omega) (by omega) hf
    obtain ⟨a', b', hab', hs⟩ := C14_facet_has_two_cofaces 3 (by omega) f (by rw [hf.dim]) hf.len hf.type
    rw [hs] at s1
    cases s1
    have ma := (s2 a).2 ⟨ea, fa⟩
    have mb := (s2 b).2 ⟨eb, fb⟩
    have := k1 f hf f1 f2 a' b' hab' hs
    simp only [List.mem_cons, List.not_mem_nil, or_false] at ma mb
    rcases ma with rfl | rfl <;> rcases mb with rfl | rfl
    · exact absurd rfl hab
    · rw [this]
    · rw [this, Nat.add_comm]
    · exact absurd rfl hab

/-- C85: the surface has no boundary in the interior: two points lie together in at most two triangles, and in exactly
one only on a triangle of the mesh that belongs to a cell not inside the domain and the times of the series. -/
theorem C85_watertight (c : Cfg 2) (series : List Scal) (hc : Shaped c series.length) (hne : series ≠ [])
    (hcov : ∀ s ∈ series, Covers c s) (ord : Nat → Scope → List Int) (ho : ∀ k, Complete c (ord k)) :
    ∃ st, run c (driveOps series ord) St.init = some st ∧ ∀ order, order.Perm st.cells →
      ∃ S, buildSurfaces st.inter order = some S ∧ S.pts.length = st.inter.length ∧ ∀ i j : Nat, i < S.pts.length → j < S.pts.length → i ≠ j →
        S.cells.countP (fun t => decide (i ∈ t ∧ j ∈ t)) ≤ 2 ∧
        (S.cells.countP (fun t => decide (i ∈ t ∧ j ∈ t)) = 1 → ∃ f x ei ej p q, st.inter[i]? = some (ei, p) ∧
          st.inter[j]? = some (ej, q) ∧ IsElem 3 2 f ∧ FaceOf 3 ei f ∧ FaceOf 3 ej f ∧
          IsElem 3 3 x ∧ FaceOf 3 f x ∧ ¬ Inside c series.length x) := by
  obtain ⟨st, h1, h2⟩ := C85_surface c series hc hne hcov ord ho
  refine ⟨st, h1, fun order hp => ?_⟩
  obtain ⟨S, s1, s2, -, -, s5⟩ := h2 order hp
  refine ⟨S, s1, s2, fun i j hi hj hij => ?_⟩
  obtain ⟨⟨ei, p⟩, gi⟩ : ∃ x, st.inter[i]? = some x := ⟨_, List.getElem?_eq_getElem (s2 ▸ hi)⟩
  obtain ⟨⟨ej, q⟩, gj⟩ : ∃ x, st.inter[j]? = some x := ⟨_, List.getElem?_eq_getElem (s2 ▸ hj)⟩
  obtain ⟨k1, k2⟩ := s5 i j ei ej p q gi gj hij
  by_cases hex : ∃ f, IsElem 3 2 f ∧ FaceOf 3 ei f ∧ FaceOf 3 ej f
  · obtain ⟨f, f1, f2, f3⟩ := hex
    obtain ⟨a, b, hab, hs⟩ := C14_facet_has_two_cofaces 3 (by omega) f (by rw [f1.dim]) f1.len f1.type
    obtain ⟨L, l1, l2⟩ := sideOf_iff (n := 3) (by omega) (by omega) f1
    rw [hs] at l1
    cases l1
    obtain ⟨a1, a2⟩ := (l2 a).1 (by simp)
    obtain ⟨b1, b2⟩ := (l2 b).1 (by simp)
    rw [k1 f a b f1 f2 f3 a1 b1 hab a2 b2]
    by_cases ia : Inside c series.length a
    · by_cases ib : Inside c series.length b
      · simp [ia, ib]
      · simp only [ia, ib, if_true, if_false]
        exact ⟨by omega, fun _ => ⟨f, b, ei, ej, p, q, gi, gj, f1, f2, f3, b1, b2, ib⟩⟩
    · simp only [ia, if_false]
      refine ⟨by split <;> omega, fun _ => ⟨f, a, ei, ej, p, q, gi, gj, f1, f2, f3, a1, a2, ia⟩⟩
  · have := k2 fun f hf h1 h2 => hex ⟨f, hf, h1, h2⟩
    rcases this with h | h <;> rw [h] <;> simp

/-- C85: the order in which the cells are processed only permutes the triangles. -/
theorem C85_order (inter : List (Elem × Pt)) (order order' : List Elem) (h : order.Perm order') (S : Complex)
    (hS : buildSurfaces inter order = some S) :
    ∃ S', buildSurfaces inter order' = some S' ∧ S'.pts = S.pts ∧ S'.cells.Perm S.cells := by
  have hall : ∀ (l : List Elem) (ts : List (List Nat)), collect (patch2 inter) l = some ts →
      ∀ x ∈ l, patch2 inter x = some ((patch2 inter x).getD []) := by
    intro l
    induction l with
    | nil => intro _ _ x hx; cases hx
    | cons y l ih =>
      intro ts hts x hx
      simp only [collect] at hts
      cases hy : patch2 inter y with
      | none => rw [hy] at hts; simp at hts
      | some r =>
        rw [hy] at hts
        cases hl : collect (patch2 inter) l with
        | none => rw [hl] at hts; simp at hts
        | some rs =>
          rcases List.mem_cons.1 hx with rfl | hx
          · rw [hy]; rfl
          · exact ih rs hl x hx
  unfold buildSurfaces at hS ⊢
  cases hc : collect (patch2 inter) order with
  | none => rw [hc] at hS; cases hS
  | some ts =>
    rw [hc] at hS
    cases hS
    have a := hall order ts hc
    have e := collect_eq a
    rw [hc] at e
    cases e
    have e' := collect_eq (l := order') (f := patch2 inter) (g := fun x => (patch2 inter x).getD []) fun x hx => a x (h.mem_iff.2 hx)
    rw [e']
    exact ⟨_, rfl, rfl, (h.symm.flatMap_right _)⟩

end Verif.Ctr
