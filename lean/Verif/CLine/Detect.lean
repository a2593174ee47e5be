import Verif.CLine.Spec
import Verif.Gen.VertexLoop
import Verif.Num.Hit
import Verif.UTrk.Props
/-! C96: what the critical line tracker records. -/
namespace Verif.CLT
open Verif.Ser (Sorted)
open Verif.SRM
open Verif.Gen (Box InsideV Inside Shaped)
open Verif.Ctr (IsElem FaceOf atTime_inj)
variable {S V : Type} [Inhabited V]

/-- the point of a triangle according to the series -/
def pointAt (c : Cfg V) (rd : S → List Int → Option V) (series : List S) (t : Nat) (e : Elem) (vs : Fin 3 → Vtx) : Pt :=
  point c t e vs fun i => valueAt c rd series (vs i)

theorem vec3 {α : Type} (f : Fin 3 → α) : (![f 0, f 1, f 2] : Fin 3 → α) = f := by
  funext i; fin_cases i <;> rfl

theorem det_iff (c : Cfg V) (rd : S → List Int → Option V) (series : List S) (t : Nat) (e : Elem) (he : IsElem 4 2 e) (p : Pt) :
    (tracker c rd).Det series t e p ↔ ∃ vs, PiercedAt c rd series e vs ∧ p = pointAt c rd series t e vs := by
  constructor
  · rintro ⟨l, h1, h2, h3⟩
    change test c t e l _ = some p at h3
    obtain ⟨ve, hve, hcell⟩ := he.cell (by omega) (by omega)
    rw [h1] at hve
    cases hve
    have hl := hcell.len
    rcases l with _ | ⟨a, _ | ⟨b, _ | ⟨d, _ | ⟨x, l⟩⟩⟩⟩ <;> simp at hl
    simp only [List.map_cons, List.map_nil, test] at h3
    have hv : (![(tracker c rd).valueAt series a, (tracker c rd).valueAt series b, (tracker c rd).valueAt series d] : Fin 3 → V) =
        fun i => valueAt c rd series ((![a, b, d] : Fin 3 → Vtx) i) := by
      funext i; fin_cases i <;> rfl
    rw [hv] at h3
    split at h3
    · rename_i hh
      refine ⟨![a, b, d], ⟨he, h1, ?_, hh⟩, (Option.some.inj h3).symm⟩
      intro i
      fin_cases i
      · exact h2 a (by simp)
      · exact h2 b (by simp)
      · exact h2 d (by simp)
    · cases h3
  · rintro ⟨vs, hp, rfl⟩
    refine ⟨_, hp.verts, ?_, ?_⟩
    · intro v hv
      simp only [List.mem_cons, List.not_mem_nil, or_false] at hv
      rcases hv with rfl | rfl | rfl
      · exact hp.inside 0
      · exact hp.inside 1
      · exact hp.inside 2
    · have ht : (tracker c rd).test = test c := rfl
      rw [ht]
      simp only [List.map_cons, List.map_nil, test]
      have hv : (![(tracker c rd).valueAt series (vs 0), (tracker c rd).valueAt series (vs 1),
          (tracker c rd).valueAt series (vs 2)] : Fin 3 → V) = fun i => valueAt c rd series (vs i) := by
        funext i; fin_cases i <;> rfl
      rw [hv, vec3, if_pos (by exact hp.hit)]
      rfl

/-- C96: after the driver's loop over a series, for every order of the tasks, the tracker has recorded exactly the pierced
triangles, each with its point; none is missed, whatever its time. -/
theorem C96_detects (c : Cfg V) (rd : S → List Int → Option V) (series : List S) (hne : series ≠ [])
    (hc : Shaped c.box series.length) (hcov : ∀ s ∈ series, Covers c rd s) (ord : Nat → Scope → List Int)
    (ho : ∀ k, Complete c (ord k)) :
    ∃ st, Gen.run (tracker c rd).prog (Gen.driveOps series ord) Gen.St.init = some st ∧ Sorted st.inter ∧
      st.cur + 1 = series.length ∧
      ∀ e p, (e, p) ∈ st.inter ↔ ∃ (vs : Fin 3 → Vtx) (t : Nat), PiercedAt c rd series e vs ∧ AtTime 4 e.corner t ∧
        p = pointAt c rd series t e vs := by
  obtain ⟨st, h1, h2, h3, h4⟩ := Gen.vertex_drive (g := tracker c rd) hc (by show 2 ≤ 3; omega) hne hcov ord ho
  refine ⟨st, h1, h2, h3, fun e p => (h4 e p).trans ?_⟩
  constructor
  · rintro ⟨he, t, hat, hd⟩
    obtain ⟨vs, hp, rfl⟩ := (det_iff c rd series t e he p).1 hd
    exact ⟨vs, t, hp, hat, rfl⟩
  · rintro ⟨vs, t, hp, hat, rfl⟩
    exact ⟨hp.tri, t, hat, (det_iff c rd series t e hp.tri _).2 ⟨vs, hp, rfl⟩⟩

/-- every pierced triangle has a time -/
theorem PiercedAt.time {c : Cfg V} {rd : S → List Int → Option V} {series : List S} {e : Elem} {vs : Fin 3 → Vtx}
    (h : PiercedAt c rd series e vs) : ∃ t : Nat, AtTime 4 e.corner t ∧ t < series.length := by
  have hcell := cell_of_elem (n := 4) (by omega) (k := 2) (by omega) h.tri.dim h.tri.len h.verts
  have : vs 0 = e.corner := by simpa using hcell.head
  rw [← this]
  exact (h.inside 0).time

theorem PiercedAt.uniq {c : Cfg V} {rd : S → List Int → Option V} {series : List S} {e : Elem} {vs vs' : Fin 3 → Vtx}
    (h : PiercedAt c rd series e vs) (h' : PiercedAt c rd series e vs') : vs' = vs := by
  have := h.verts
  rw [h'.verts] at this
  simp only [Option.some.injEq, List.cons.injEq, and_true] at this
  rw [← vec3 vs, ← vec3 vs', this.1, this.2.1, this.2.2]

/-- C96: the keys of the result are the pierced triangles -/
theorem keys_pierced {c : Cfg V} {rd : S → List Int → Option V} {series : List S} {inter : List (Elem × Pt)}
    (h : ∀ e p, (e, p) ∈ inter ↔ ∃ (vs : Fin 3 → Vtx) (t : Nat), PiercedAt c rd series e vs ∧ AtTime 4 e.corner t ∧
      p = pointAt c rd series t e vs) (e : Elem) : e ∈ inter.map Prod.fst ↔ Pierced c rd series e := by
  constructor
  · intro he
    obtain ⟨⟨e', p⟩, hm, rfl⟩ := List.mem_map.1 he
    obtain ⟨vs, t, hp, -⟩ := (h _ _).1 hm
    exact ⟨vs, hp⟩
  · rintro ⟨vs, hp⟩
    obtain ⟨t, hat, -⟩ := hp.time
    exact List.mem_map.2 ⟨(e, _), (h e _).2 ⟨vs, t, hp, hat, rfl⟩, rfl⟩

theorem weights_convex (c : Cfg V) (U : Fin 3 → Fin 2 → Rat) :
    (∀ i, 0 ≤ weights c U i) ∧ weights c U 0 + weights c U 1 + weights c U 2 = 1 := by
  obtain ⟨h1, h2, -⟩ := Num.C54_clampBarycentric (n := 3) (by omega)
    (if (U 0 0 - U 2 0) * (U 1 1 - U 2 1) - (U 1 0 - U 2 0) * (U 0 1 - U 2 1) = 0 then c.degen U
      else (Num.inverseLerpS2v2 U 0).2)
  rw [Fin.sum_univ_three] at h2
  exact ⟨fun i => (h1 i).1, h2⟩

theorem convex_between {a b c x y z t : Rat} (ha : 0 ≤ a) (hb : 0 ≤ b) (hc : 0 ≤ c) (hs : a + b + c = 1)
    (hx : t ≤ x ∧ x ≤ t + 1) (hy : t ≤ y ∧ y ≤ t + 1) (hz : t ≤ z ∧ z ≤ t + 1) :
    t ≤ a * x + b * y + c * z ∧ a * x + b * y + c * z ≤ t + 1 := by
  have e : ∀ s : Rat, s = a * s + b * s + c * s := fun s => by rw [← add_mul, ← add_mul, hs, one_mul]
  have h1 := mul_le_mul_of_nonneg_left hx.1 ha
  have h2 := mul_le_mul_of_nonneg_left hy.1 hb
  have h3 := mul_le_mul_of_nonneg_left hz.1 hc
  have h4 := mul_le_mul_of_nonneg_left hx.2 ha
  have h5 := mul_le_mul_of_nonneg_left hy.2 hb
  have h6 := mul_le_mul_of_nonneg_left hz.2 hc
  have e1 := e t
  have e2 := e (t + 1)
  constructor <;> linarith

theorem lerp_spec {a b d : Vtx} (ha : a.length = 4) (hb : b.length = 4) (hd : d.length = 4) (mu : Fin 3 → Rat) :
    (lerpS2v4 a b d mu).length = 4 ∧ ∀ j, (lerpS2v4 a b d mu).getD j 0 =
      mu 0 * ((a.getD j 0 : Int) : Rat) + mu 1 * ((b.getD j 0 : Int) : Rat) + mu 2 * ((d.getD j 0 : Int) : Rat) := by
  have hl : (lerpS2v4 a b d mu).length = 4 := by simp [lerpS2v4, ha, hb, hd]
  refine ⟨hl, fun j => ?_⟩
  by_cases hj : j < 4
  · have e1 : (lerpS2v4 a b d mu).getD j 0 = (lerpS2v4 a b d mu)[j]'(by omega) := List.getD_eq_getElem _ _ _
    have e2 : a.getD j 0 = a[j]'(by omega) := List.getD_eq_getElem _ _ _
    have e3 : b.getD j 0 = b[j]'(by omega) := List.getD_eq_getElem _ _ _
    have e4 : d.getD j 0 = d[j]'(by omega) := List.getD_eq_getElem _ _ _
    rw [e1, e2, e3, e4]
    simp only [lerpS2v4, List.getElem_zipWith]
    ring
  · rw [List.getD_eq_default _ _ (by omega), List.getD_eq_default _ _ (by omega), List.getD_eq_default _ _ (by omega),
      List.getD_eq_default _ _ (by omega)]
    simp

/-- C96: a recorded point lies in its triangle (also if the vectors are degenerate), between the snapshots of its
timestep; it is ordinal iff the triangle is at one time; its timestep is the earliest time of the triangle, and its tag
identifies the triangle. -/
theorem C96_point (c : Cfg V) (rd : S → List Int → Option V) (series : List S) (e : Elem) (vs : Fin 3 → Vtx) (t : Nat)
    (hc : Shaped c.box series.length) (h : PiercedAt c rd series e vs) (hat : AtTime 4 e.corner t) :
    inTriangle vs (pointAt c rd series t e vs).mu (pointAt c rd series t e vs).x ∧
    (pointAt c rd series t e vs).timestep = t ∧
    ((pointAt c rd series t e vs).ordinal = true ↔ ∀ i, AtTime 4 (vs i) t) ∧
    ((t : Rat) ≤ (pointAt c rd series t e vs).x.getD 3 0 ∧ (pointAt c rd series t e vs).x.getD 3 0 ≤ t + 1) ∧
    ∀ e' vs' t', PiercedAt c rd series e' vs' → (pointAt c rd series t' e' vs').tag = (pointAt c rd series t e vs).tag → e' = e := by
  have hxl : ∀ i, (vs i).length = 4 := fun i => (h.inside i).len
  obtain ⟨w1, w2⟩ := weights_convex c fun i => c.uv (valueAt c rd series (vs i))
  obtain ⟨l1, l2⟩ := lerp_spec (hxl 0) (hxl 1) (hxl 2) (weights c fun i => c.uv (valueAt c rd series (vs i)))
  obtain ⟨ve, hve, -, -, -, -, htm, hor⟩ := Gen.vertices_times (d := 3) h.tri (by omega) hat
  have hv := h.verts
  rw [hve] at hv
  obtain rfl := Option.some.inj hv
  have hmem : ∀ i, vs i ∈ [vs 0, vs 1, vs 2] := by intro i; fin_cases i <;> simp
  have hall : ∀ (P : Vtx → Prop), (∀ v ∈ [vs 0, vs 1, vs 2], P v) ↔ ∀ i, P (vs i) := by
    intro P
    constructor
    · intro hh i; exact hh _ (hmem i)
    · intro hh v hv
      simp only [List.mem_cons, List.not_mem_nil, or_false] at hv
      rcases hv with rfl | rfl | rfl
      · exact hh 0
      · exact hh 1
      · exact hh 2
  have hty : e.type < ntypes 4 2 := by have := h.tri.type; rwa [h.tri.dim] at this
  refine ⟨⟨w1, w2, l1, l2⟩, rfl, ?_, ?_, ?_⟩
  · show isOrdinalType 4 e.dim e.type = true ↔ _
    rw [h.tri.dim, ← hall (fun v => AtTime 4 v t), ← hor, mem_scopeTypes (by omega)]
    exact ⟨fun hh => ⟨hty, hh⟩, fun hh => hh.2⟩
  · have ht : ∀ i, ((t : Int) : Rat) ≤ (((vs i).getD 3 0 : Int) : Rat) ∧ (((vs i).getD 3 0 : Int) : Rat) ≤ ((t : Int) : Rat) + 1 := by
      intro i
      have := htm (vs i) (hmem i)
      unfold AtTime at this
      simp only [Nat.reduceAdd, Nat.add_one_sub_one] at this
      rw [List.getD_eq_getElem?_getD]
      rcases this with h' | h' <;> rw [h'] <;> simp
    have e3 := l2 3
    show (t : Rat) ≤ (lerpS2v4 (vs 0) (vs 1) (vs 2) (weights c fun i => c.uv (valueAt c rd series (vs i)))).getD 3 0 ∧
      (lerpS2v4 (vs 0) (vs 1) (vs 2) (weights c fun i => c.uv (valueAt c rd series (vs i)))).getD 3 0 ≤ t + 1
    rw [e3]
    generalize weights c (fun i => c.uv (valueAt c rd series (vs i))) = mu at w1 w2
    simp only [Int.cast_natCast] at ht
    exact convex_between (w1 0) (w1 1) (w1 2) w2 (ht 0) (ht 1) (ht 2)
  · intro e' vs' t' h' htag
    have hb : ∀ e vs, PiercedAt c rd series e vs → Valid 4 c.box.bounds e := by
      intro e vs h
      have hcell := cell_of_elem (n := 4) (by omega) (k := 2) (by omega) h.tri.dim h.tri.len h.verts
      have : vs 0 = e.corner := by simpa using hcell.head
      refine ⟨by rw [h.tri.dim]; omega, h.tri.type, ?_⟩
      rw [← this]
      exact Gen.insideV_bounds hc (Nat.le_refl _) (h.inside 0)
    have hl := hc.dlen
    exact C12_to_integer_injective 4 (by omega) c.box.bounds (by simp [Box.bounds, hl.1]) (by simp [Box.bounds, hl.1, hl.2])
      e' e (hb _ _ h') (hb _ _ h) (by rw [h.tri.dim, h'.tri.dim]) htag

/-- vertices of a pierced triangle have distinct, non-negative indices -/
theorem PiercedAt.indices {c : Cfg V} {rd : S → List Int → Option V} {series : List S} {e : Elem} {vs : Fin 3 → Vtx}
    (hc : Shaped c.box series.length) (h : PiercedAt c rd series e vs) :
    Function.Injective (fun i => cornerIndex (vs i) c.box.bounds.lb c.box.bounds.dimprod) ∧
      ∀ i, 0 ≤ cornerIndex (vs i) c.box.bounds.lb c.box.bounds.dimprod := by
  have hb : ∀ i, InBounds c.box.bounds (vs i) := fun i => Gen.insideV_bounds hc (Nat.le_refl _) (h.inside i)
  have hcell := cell_of_elem (n := 4) (by omega) (k := 2) (by omega) h.tri.dim h.tri.len h.verts
  have hnd : [vs 0, vs 1, vs 2].Nodup := hcell.chain.imp fun hh => hh.2
  have hinj : Function.Injective vs := by
    rw [show [vs 0, vs 1, vs 2] = List.ofFn vs by simp [List.ofFn_succ]] at hnd
    exact List.nodup_ofFn.1 hnd
  refine ⟨fun i j hij => hinj ((Gen.cornerIndex_facts hc (hb i)).2 _ (hb j) hij), fun i => (Gen.cornerIndex_facts hc (hb i)).1⟩

theorem zero_core (c : Cfg V) (U : Fin 3 → Fin 2 → Rat) (v : Fin 3 → Int) (hv : Function.Injective v) (h0 : ∀ i, 0 ≤ v i)
    (hint : ∀ i j, ∃ z : Int, U i j * ((2 ^ 21 : Int) : Rat) = z)
    (hh : SoS.criticalPointInSimplex2 (fun i j => Trk.quant (2 ^ 21) (U i j)) v = true) (mu : Fin 3 → Rat)
    (hmu : mu 0 + mu 1 + mu 2 = 1) :
    (∀ j, mu 0 * U 0 j + mu 1 * U 1 j + mu 2 * U 2 j = 0) ↔ mu = weights c U := by
  have hnd := UTrk.hit_nondegenerate (by norm_num) hv h0 hint hh
  have hdet : (Num.edges2 U).det ≠ 0 := by
    intro hd
    apply hnd
    rw [Matrix.det_fin_two] at hd
    simp only [Num.edges2, Matrix.of_apply, Matrix.cons_val_zero, Matrix.cons_val_one] at hd
    unfold UTrk.Degenerate
    linarith
  have hif : ¬ ((U 0 0 - U 2 0) * (U 1 1 - U 2 1) - (U 1 0 - U 2 0) * (U 0 1 - U 2 1) = 0) := by
    intro hd
    apply hnd
    unfold UTrk.Degenerate
    linarith
  have key := Num.C54_s2v2 U 0 hdet
  have hlerp : ∀ m : Fin 3 → Rat, Num.lerpS2v2 U m = 0 ↔ ∀ j, m 0 * U 0 j + m 1 * U 1 j + m 2 * U 2 j = 0 := by
    intro m
    rw [funext_iff, Fin.forall_fin_two, Fin.forall_fin_two]
    simp only [Num.lerpS2v2, Matrix.cons_val_zero, Matrix.cons_val_one, Pi.zero_apply]
    constructor <;> rintro ⟨a, b⟩ <;> constructor <;> linarith
  -- the exact solution is convex
  obtain ⟨-, hb, hs, hz⟩ := Num.C95_solve2 (fun i j => Trk.quant (2 ^ 21) (U i j)) v hv h0 hh 0 (le_refl _)
  generalize (Num.inverseLerpS2v2 (Num.castV fun i j => Trk.quant (2 ^ 21) (U i j)) 0).2 = w at hb hs hz
  rw [Fin.sum_univ_three] at hs
  have hw : w = (Num.inverseLerpS2v2 U 0).2 := by
    refine (key w).1 ⟨hs, (hlerp w).2 fun j => ?_⟩
    have := hz j
    rw [Fin.sum_univ_three] at this
    have hq : ∀ i, Num.castV (fun i j => Trk.quant (2 ^ 21) (U i j)) i j = U i j * 2 ^ 21 := by
      intro i
      obtain ⟨z, hz⟩ := hint i j
      show ((Trk.quant (2 ^ 21) (U i j) : Int) : Rat) = _
      rw [Trk.quant_int hz, ← hz]
      push_cast
      rfl
    rw [hq, hq, hq] at this
    have h2 : (2 : Rat) ^ 21 ≠ 0 := by positivity
    have : (w 0 * U 0 j + w 1 * U 1 j + w 2 * U 2 j) * 2 ^ 21 = 0 := by linear_combination this
    exact (mul_eq_zero.1 this).resolve_right h2
  have hwt : weights c U = w := by
    unfold weights
    rw [if_neg hif, ← hw]
    exact (Num.C54_clampBarycentric (n := 3) (by omega) w).2.2 (fun i => (hb i).1) (by rw [Fin.sum_univ_three]; exact hs)
  rw [hwt, hw, ← key mu, hlerp]
  exact ⟨fun hj => ⟨hmu, hj⟩, fun hj => hj.2⟩

/-- C96: if all values are multiples of `2⁻²¹`, the field, interpolated with the recorded weights, is exactly zero at the
recorded point, and no other weights with sum 1 make it zero. -/
theorem C96_zero_dyadic (c : Cfg V) (rd : S → List Int → Option V) (series : List S) (e : Elem) (vs : Fin 3 → Vtx) (t : Nat)
    (hc : Shaped c.box series.length) (hcov : ∀ s ∈ series, Covers c rd s) (hdy : ∀ s ∈ series, Dyadic c rd s)
    (h : PiercedAt c rd series e vs) (mu : Fin 3 → Rat) (hmu : mu 0 + mu 1 + mu 2 = 1) :
    (∀ j, mu 0 * c.uv (valueAt c rd series (vs 0)) j + mu 1 * c.uv (valueAt c rd series (vs 1)) j +
      mu 2 * c.uv (valueAt c rd series (vs 2)) j = 0) ↔ mu = (pointAt c rd series t e vs).mu := by
  obtain ⟨hinj, h0⟩ := h.indices hc
  have hint : ∀ i j, ∃ z : Int, c.uv (valueAt c rd series (vs i)) j * ((2 ^ 21 : Int) : Rat) = z := by
    intro i j
    obtain ⟨x, hx, hlt⟩ := (h.inside i).time
    have hget : ((vs i).getD 3 0).toNat = x := by
      unfold AtTime at hx
      simp only [Nat.reduceAdd, Nat.add_one_sub_one] at hx
      simp [List.getD, hx]
    obtain ⟨w, hw⟩ := Option.isSome_iff_exists.1 (hcov _ (List.getElem_mem hlt) _ (h.inside i).place)
    have hval : valueAt c rd series (vs i) = w := by
      unfold valueAt
      rw [hget, List.getElem?_eq_getElem hlt]
      have hw' : rd series[x] (c.box.place (vs i)) = some w := hw
      simp only [Option.bind_some, hw', Option.getD_some]
    rw [hval]
    obtain ⟨z, hz⟩ := hdy _ (List.getElem_mem hlt) _ _ hw j
    exact ⟨z, by push_cast; exact hz⟩
  have hh := h.hit
  have hmuP : (pointAt c rd series t e vs).mu = weights c fun i => c.uv (valueAt c rd series (vs i)) := rfl
  rw [hmuP]
  exact zero_core c (fun i => c.uv (valueAt c rd series (vs i))) _ hinj h0 hint hh mu hmu

end Verif.CLT
