import Verif.Contour.Incid
import Verif.Contour.Sign
import Verif.Tracker.Nbs
import Mathlib.Data.List.Induction
/-! The edges found by the contour trackers. -/
namespace Verif.Ctr
open Verif.Ser (lookup mapPut Sorted)
open Verif.SRM
open Verif.Trk (elemValid lookup_of_mem lookup_some_mem)
variable {d : Nat}

/-! ### the boxes -/

/-- the boxes and times of a contour tracker as those of a critical point tracker -/
def toTrk (c : Cfg d) : Trk.Cfg d Unit :=
  { domain := c.domain, core := c.core, astart := c.astart, t0 := c.t0, t1 := c.t1, streaming := false,
    test := fun _ _ => false, detail := fun _ _ => (), keep := fun _ => true }

theorem toTrk_shaped {c : Cfg d} {T : Nat} (hc : Shaped c T) : Trk.Shaped (toTrk c) where
  pos := hc.pos
  dlen := hc.dlen
  clen := by show c.core.starts.length = d ∧ c.core.sizes.length = d; rw [hc.core]; exact hc.dlen
  alen := hc.alen

theorem inBounds_iff {c : Cfg d} {T : Nat} (hc : Shaped c T) {v : Vtx} :
    InBounds c.bounds v ↔ v.length = d + 1 ∧ Lat.InBox c.domain (v.take d) ∧ ∃ x, AtTime (d + 1) v x ∧ c.t0 ≤ x ∧ x ≤ c.t1 :=
  Trk.inBounds_bounds (c := toTrk c) (toTrk_shaped hc)

theorem insideV_bounds {c : Cfg d} {T T' : Nat} (hc : Shaped c T) (hT : T' ≤ T) {v : Vtx} (h : InsideV c T' v) : InBounds c.bounds v := by
  obtain ⟨x, hx, hlt⟩ := h.time
  have := hc.start
  have := hc.stop
  exact (inBounds_iff hc).2 ⟨h.len, h.place, x, hx, by omega, by omega⟩

theorem elemValid_iff {c : Cfg d} {T k : Nat} (hc : Shaped c T) {e : Elem} (he : IsElem (d + 1) k e) (hk : k ≤ d + 1) :
    elemValid (d + 1) c.bounds e = true ↔ ∃ vs, e.vertices (d + 1) = some vs ∧ ∀ v ∈ vs, InBounds c.bounds v :=
  Trk.elemValid_iff (c := toTrk c) (toTrk_shaped hc) he.len (he.dim ▸ hk)

theorem vindex_facts {c : Cfg d} {T : Nat} (hc : Shaped c T) {u v : Vtx} (hu : InBounds c.bounds u) (hv : InBounds c.bounds v)
    (huv : u ≠ v) : 0 ≤ vindex c.bounds u ∧ 0 ≤ vindex c.bounds v ∧ vindex c.bounds u ≠ vindex c.bounds v := by
  have a := Trk.cornerIndex_facts (c := toTrk c) (toTrk_shaped hc) hu
  have b := Trk.cornerIndex_facts (c := toTrk c) (toTrk_shaped hc) hv
  exact ⟨a.1, b.1, fun h => huv (a.2 v hv h)⟩

/-! ### one edge -/

theorem atTime_inj {n : Nat} {v : Vtx} {a b : Int} (h1 : AtTime n v a) (h2 : AtTime n v b) : a = b := by
  unfold AtTime at h1 h2
  rw [h1] at h2
  simpa using h2

/-- the point of an edge according to the series -/
def isoPoint (c : Cfg d) (P : List Scal) (t : Nat) (e : Elem) (u v : Vtx) : Pt :=
  point c t e u v ![valueAt c P u - c.thr, valueAt c P v - c.thr]

theorem checkVals_spec {c : Cfg d} {T : Nat} (hc : Shaped c T) {cur : Nat} {e : Elem} {u v : Vtx} {a b : Rat}
    (hu : InBounds c.bounds u) (hv : InBounds c.bounds v) (huv : u ≠ v) (p : Pt) :
    checkVals c cur e u v a b = some p ↔
      (c.thr + 1 / 2 ^ 21 ≤ a ↔ ¬ c.thr + 1 / 2 ^ 21 ≤ b) ∧ p = point c cur e u v ![a - c.thr, b - c.thr] := by
  obtain ⟨h1, h2, h3⟩ := vindex_facts hc hu hv huv
  unfold checkVals
  have hf : (fun i => fixed ((![a - c.thr, b - c.thr] : Fin 2 → Rat) i)) = ![fixed (a - c.thr), fixed (b - c.thr)] := by
    funext i; fin_cases i <;> rfl
  have key := simplex1_iff (fixed (a - c.thr)) (fixed (b - c.thr)) _ _ h1 h2 h3
  rw [fixed_pos, fixed_pos] at key
  have ea : (1 / 2 ^ 21 ≤ a - c.thr) ↔ (c.thr + 1 / 2 ^ 21 ≤ a) := by constructor <;> intro h <;> linarith
  have eb : (1 / 2 ^ 21 ≤ b - c.thr) ↔ (c.thr + 1 / 2 ^ 21 ≤ b) := by constructor <;> intro h <;> linarith
  rw [ea, eb] at key
  simp only [hf]
  split
  · rename_i h
    rw [Option.some_inj]
    exact ⟨fun h' => ⟨key.1 h, h'.symm⟩, fun h' => h'.2.symm⟩
  · rename_i h
    exact ⟨fun h' => by simp at h', fun h' => absurd (key.2 h'.1) h⟩

theorem readVertex_spec {c : Cfg d} {P snaps : List Scal} {cur : Nat} (hs : snaps = P.drop cur) (hP : ∀ s ∈ P, Covers c s)
    {v : Vtx} (h : InsideV c P.length v) (ht : AtTime (d + 1) v cur ∨ AtTime (d + 1) v ((cur + 1 : Nat) : Int)) :
    readVertex c snaps cur v = some (valueAt c P v) := by
  obtain ⟨x, hx, hlt⟩ := h.time
  have hget : ∀ y : Nat, AtTime (d + 1) v y → v[d]? = some (y : Int) ∧ (v.getD d 0).toNat = y := by
    intro y hy
    unfold AtTime at hy
    simp only [Nat.add_sub_cancel] at hy
    exact ⟨hy, by simp [List.getD, hy]⟩
  have key : ∀ (y : Nat), AtTime (d + 1) v y → snaps[if v[d]? = some (cur : Int) then 0 else 1]? = P[y]? →
      readVertex c snaps cur v = some (valueAt c P v) := by
    intro y hy hsn
    have hxy : x = y := by exact_mod_cast atTime_inj hx hy
    subst hxy
    unfold readVertex valueAt
    rw [hsn, (hget x hx).2, List.getElem?_eq_getElem hlt]
    simp only
    obtain ⟨c1, c2⟩ := hP _ (List.getElem_mem hlt) _ h.place
    rw [if_pos]
    rw [c1]
    by_cases h3 : d = 3
    · simp [c2 h3]
    · simp [h3]
  rcases ht with ht | ht
  · refine key cur ht ?_
    rw [if_pos (hget _ ht).1, hs, List.getElem?_drop, Nat.add_zero]
  · refine key (cur + 1) ht ?_
    rw [if_neg (by rw [(hget _ ht).1]; simp), hs, List.getElem?_drop]

/-- the vertices of an edge -/
theorem edge_vertices {e : Elem} (he : IsElem (d + 1) 1 e) (hd : 1 ≤ d) {t : Int} (ht : AtTime (d + 1) e.corner t) :
    ∃ u v, e.vertices (d + 1) = some [u, v] ∧ u ≠ v ∧ u = e.corner ∧ u.length = d + 1 ∧ v.length = d + 1 ∧
      (AtTime (d + 1) v t ∨ AtTime (d + 1) v (t + 1)) ∧
      (e.type ∈ scopeTypes (d + 1) 1 .ordinal ↔ AtTime (d + 1) v t) := by
  obtain ⟨vs, hvs, hcell⟩ := he.cell (by omega) (by omega)
  rcases vs with _ | ⟨u, _ | ⟨v, _ | ⟨w, vs⟩⟩⟩
  · have := hcell.len; simp at this
  · have := hcell.len; simp at this
  · have hu : u = e.corner := by simpa using hcell.head
    have hne : u ≠ v := ((List.pairwise_cons.1 hcell.chain).1 v (by simp)).2
    obtain ⟨h1, h2⟩ := C16_times (d + 1) (by omega) e (by rw [he.dim]; omega) he.len t ht _ hvs
    rw [he.dim] at h1 h2
    have hty := he.type
    rw [he.dim] at hty
    refine ⟨u, v, hvs, hne, hu, (hcell.cube u (by simp)).1, (hcell.cube v (by simp)).1, ?_, ?_⟩
    · by_cases ho : e.type ∈ scopeTypes (d + 1) 1 .ordinal
      · exact .inl (h1.1 ho v (by simp))
      · have : e.type ∈ scopeTypes (d + 1) 1 .interval := by
          rw [mem_scopeTypes (by omega)] at ho ⊢
          refine ⟨hty, ?_⟩
          cases h : isOrdinalType (d + 1) 1 e.type
          · rfl
          · exact absurd ⟨hty, h⟩ ho
        exact (h2.1 this).1 v (by simp)
    · rw [h1]
      constructor
      · intro h; exact h v (by simp)
      · intro h w hw
        rcases List.mem_cons.1 hw with rfl | hw
        · rw [hu]; exact ht
        · obtain rfl := List.mem_singleton.1 hw
          exact h
  · have := hcell.len; simp at this

/-- what `check_simplex` answers on an edge of the current slab -/
theorem check_spec {c : Cfg d} {T : Nat} (hc : Shaped c T) {P : List Scal} (hT : P.length ≤ T) (hP : ∀ s ∈ P, Covers c s)
    {st : St} (hs : st.snaps = P.drop st.cur) {e : Elem} (he : IsElem (d + 1) 1 e) (ht : AtTime (d + 1) e.corner st.cur)
    (h1 : 1 ≤ st.snaps.length) (h2 : e.type ∈ scopeTypes (d + 1) 1 .ordinal ∨ 2 ≤ st.snaps.length) :
    ∃ o, check c st e = some o ∧ ∀ p, o = some p ↔ ∃ u v, CutAt c P e u v ∧ p = isoPoint c P st.cur e u v := by
  obtain ⟨u, v, hv, hne, hu, lu, lv, tv, ho⟩ := edge_vertices he hc.pos ht
  have tu : AtTime (d + 1) u st.cur := hu ▸ ht
  rw [hs, List.length_drop] at h1 h2
  have htime : ∀ w, w = u ∨ w = v → ∃ x : Nat, AtTime (d + 1) w x ∧ x < P.length ∧
      (AtTime (d + 1) w st.cur ∨ AtTime (d + 1) w ((st.cur + 1 : Nat) : Int)) := by
    rintro w (rfl | rfl)
    · exact ⟨st.cur, tu, by omega, .inl tu⟩
    · by_cases hh : AtTime (d + 1) w st.cur
      · exact ⟨st.cur, hh, by omega, .inl hh⟩
      · have h3 : AtTime (d + 1) w ((st.cur + 1 : Nat) : Int) := by
          rcases tv with h | h
          · exact absurd h hh
          · simpa using h
        refine ⟨st.cur + 1, h3, ?_, .inr h3⟩
        rcases h2 with h2 | h2
        · exact absurd (ho.1 h2) hh
        · omega
  unfold check checkWith
  by_cases hval : elemValid (d + 1) c.bounds e = true
  · rw [if_pos hval, hv]
    obtain ⟨vs, a, b⟩ := (elemValid_iff hc he (by omega)).1 hval
    rw [hv] at a
    cases a
    have bu := b u (by simp)
    have bv := b v (by simp)
    have ins : ∀ w, w = u ∨ w = v → InBounds c.bounds w → InsideV c P.length w := by
      intro w hw hb
      obtain ⟨q1, q2, -⟩ := (inBounds_iff hc).1 hb
      obtain ⟨x, hx, hlt, -⟩ := htime w hw
      exact ⟨q1, q2, x, hx, hlt⟩
    have iu := ins u (.inl rfl) bu
    have iv := ins v (.inr rfl) bv
    simp only
    rw [readVertex_spec hs hP iu (htime u (.inl rfl)).choose_spec.2.2, readVertex_spec hs hP iv (htime v (.inr rfl)).choose_spec.2.2]
    refine ⟨_, rfl, fun p => ?_⟩
    rw [checkVals_spec hc bu bv hne]
    constructor
    · rintro ⟨h, rfl⟩
      exact ⟨u, v, ⟨he, hv, iu, iv, h⟩, rfl⟩
    · rintro ⟨u', v', hcut, rfl⟩
      have := hcut.verts
      rw [hv] at this
      cases this
      exact ⟨hcut.cut, rfl⟩
  · rw [if_neg hval]
    refine ⟨none, rfl, fun p => ⟨fun h => by simp at h, ?_⟩⟩
    rintro ⟨u', v', hcut, -⟩
    refine absurd ((elemValid_iff hc he (by omega)).2 ⟨_, hcut.verts, ?_⟩) hval
    intro w hw
    rcases List.mem_cons.1 hw with rfl | hw
    · exact insideV_bounds hc hT hcut.left
    · obtain rfl := List.mem_singleton.1 hw
      exact insideV_bounds hc hT hcut.right

/-! ### visits -/

theorem check_congr {c : Cfg d} {st st' : St} (h2 : st.cur = st'.cur) (h3 : st.snaps = st'.snaps) : check c st = check c st' := by
  funext e; unfold check; rw [h2, h3]

theorem setInsert_spec {x : Elem} {l : List Elem} (h : StrictSorted l) :
    StrictSorted (setInsert x l) ∧ ∀ y, y ∈ setInsert x l ↔ y = x ∨ y ∈ l := by
  have h0 : toSet l = l := by
    have a := toSet_sorted l
    refine List.Perm.eq_of_pairwise (le := (· < ·)) (fun a b _ _ hab hba => absurd hab (lt_asymm hba)) a h ?_
    exact (List.perm_ext_iff_of_nodup a.nodup h.nodup).2 fun y => mem_toSet l y
  have h1 : setInsert x l = toSet (l ++ [x]) := by
    unfold toSet
    rw [List.foldl_append]
    show setInsert x l = setInsert x (toSet l)
    rw [h0]
  rw [h1]
  refine ⟨toSet_sorted _, fun y => ?_⟩
  rw [mem_toSet, List.mem_append, List.mem_singleton]
  exact or_comm

theorem foldl_setInsert_spec : ∀ (cs : List Elem) {l : List Elem}, StrictSorted l →
    StrictSorted (cs.foldl (fun acc x => setInsert x acc) l) ∧
      ∀ y, y ∈ cs.foldl (fun acc x => setInsert x acc) l ↔ y ∈ cs ∨ y ∈ l
  | [], _, h => ⟨h, by simp⟩
  | x :: cs, l, h => by
    obtain ⟨h1, h2⟩ := setInsert_spec (x := x) h
    obtain ⟨h3, h4⟩ := foldl_setInsert_spec cs h1
    refine ⟨h3, fun y => ?_⟩
    rw [List.foldl_cons, h4, h2, List.mem_cons]
    tauto

/-- cells that the visit of an edge marks -/
def Marked (c : Cfg d) (e x : Elem) : Prop :=
  IsElem (d + 1) (d + 1) x ∧ elemValid (d + 1) c.bounds x = true ∧ FaceOf (d + 1) e x

theorem visitAll_spec (c : Cfg d) (hd : 1 ≤ d) (chk : Elem → Option Pt) : ∀ (es : List Elem) (st : St),
    (∀ e ∈ es, IsElem (d + 1) 1 e ∧ check c st e = some (chk e)) → Sorted st.inter → StrictSorted st.cells →
    ∃ st', visitAll c (es.map some) st = some st' ∧ st'.snaps = st.snaps ∧ st'.cur = st.cur ∧ Sorted st'.inter ∧
      StrictSorted st'.cells ∧
      (∀ x, lookup x st'.inter = if x ∈ es then (chk x).or (lookup x st.inter) else lookup x st.inter) ∧
      ∀ x, x ∈ st'.cells ↔ x ∈ st.cells ∨ ∃ e ∈ es, (chk e).isSome = true ∧ Marked c e x
  | [], st, _, h1, h2 => ⟨st, rfl, rfl, rfl, h1, h2, by simp, by simp⟩
  | e :: es, st, h, h1, h2 => by
    obtain ⟨he, hck⟩ := h e (by simp)
    -- the first visit
    obtain ⟨st1, v1, s1, s2, s3, s4, s5, s6⟩ : ∃ st1, visit c st e = some st1 ∧ st1.snaps = st.snaps ∧ st1.cur = st.cur ∧
        Sorted st1.inter ∧ StrictSorted st1.cells ∧
        (∀ x, lookup x st1.inter = if x = e then (chk x).or (lookup x st.inter) else lookup x st.inter) ∧
        ∀ x, x ∈ st1.cells ↔ x ∈ st.cells ∨ ((chk e).isSome = true ∧ Marked c e x) := by
      unfold visit
      rw [hck]
      cases hp : chk e with
      | none =>
        refine ⟨st, rfl, rfl, rfl, h1, h2, fun x => ?_, by simp⟩
        by_cases hx : x = e
        · subst hx; simp [hp]
        · simp [hx]
      | some p =>
        obtain ⟨cs, u1, u2⟩ := up_spec (n := d + 1) (by omega) c.bounds d (k := 1) (by omega) hd he
        simp only [u1]
        obtain ⟨f1, f2⟩ := foldl_setInsert_spec cs h2
        refine ⟨_, rfl, rfl, rfl, Comm.sorted_mapPut _ _ _ h1, f1, fun x => ?_, fun x => ?_⟩
        · show lookup x (mapPut e p st.inter) = _
          rw [Comm.lookup_mapPut]
          by_cases hx : x = e
          · subst hx; simp [hp]
          · simp [hx]
        · rw [f2, u2, Nat.add_comm 1 d]
          unfold Marked
          simp only [Option.isSome_some, true_and]
          tauto
    obtain ⟨st', w, t1, t2, t3, t4, t5, t6⟩ := visitAll_spec c hd chk es st1 (by
      intro x hx
      rw [check_congr s2 s1]
      exact h x (by simp [hx])) s3 s4
    refine ⟨st', by simp only [List.map_cons, visitAll, v1, w], t1.trans s1, t2.trans s2, t3, t4, fun x => ?_, fun x => ?_⟩
    · rw [t5, s5]
      by_cases hx : x = e
      · subst hx
        by_cases hm : x ∈ es
        · simp only [hm, if_true, List.mem_cons, or_true]
          cases chk x <;> simp
        · simp [hm]
      · simp [hx]
    · rw [t6, s6]
      simp only [List.mem_cons, exists_eq_or_imp]
      tauto

/-! ### the invariant -/

/-- edge `e` with earliest time below `T` is cut, with point `p` -/
def FoundBefore (c : Cfg d) (P : List Scal) (T : Nat) (e : Elem) (p : Pt) : Prop :=
  ∃ t < T, AtTime (d + 1) e.corner t ∧ ∃ u v, CutAt c P e u v ∧ p = isoPoint c P t e u v

/-- the state when the timesteps below `T` have been processed -/
structure Holds (c : Cfg d) (P : List Scal) (T : Nat) (st : St) : Prop where
  snaps : st.snaps = P.drop st.cur
  sorted : Sorted st.inter
  csorted : StrictSorted st.cells
  inter : ∀ e p, (e, p) ∈ st.inter ↔ FoundBefore c P T e p
  cells : ∀ x, x ∈ st.cells ↔ ∃ e p, FoundBefore c P T e p ∧ Marked c e x

theorem FoundBefore.elem {c : Cfg d} {P : List Scal} {T : Nat} {e : Elem} {p : Pt} (h : FoundBefore c P T e p) :
    IsElem (d + 1) 1 e := by
  obtain ⟨_, _, _, _, _, h, _⟩ := h
  exact h.edge

theorem found_unique {c : Cfg d} {P : List Scal} {T T' : Nat} {e : Elem} {p p' : Pt} (h : FoundBefore c P T e p)
    (h' : FoundBefore c P T' e p') : p = p' := by
  obtain ⟨t, -, ht, u, v, hc, rfl⟩ := h
  obtain ⟨t', -, ht', u', v', hc', rfl⟩ := h'
  have h1 : t = t' := by exact_mod_cast atTime_inj ht ht'
  have h2 := hc.verts
  rw [hc'.verts] at h2
  cases h2
  subst h1
  rfl

theorem inBox_corner {c : Cfg d} {T : Nat} (hc : Shaped c T) {P : List Scal} {e : Elem} {u v : Vtx} (h : CutAt c P e u v) :
    Lat.InBox c.core (e.corner.take d) := by
  have hcell := cell_of_elem (n := d + 1) (by omega) (k := 1) (by have := hc.pos; omega) h.edge.dim h.edge.len h.verts
  have : u = e.corner := by simpa using hcell.head
  rw [hc.core, ← this]
  exact h.left.place

/-- one `update_timestep` processes the current timestep -/
theorem update_holds {c : Cfg d} {T : Nat} (hc : Shaped c T) {P : List Scal} (hT : P.length ≤ T) (hP : ∀ s ∈ P, Covers c s)
    {ord : Scope → List Int} (ho : Complete c ord) {st : St} (h : Holds c P st.cur st) (h1 : st.cur < P.length) :
    ∃ st', update c ord st = some st' ∧ st'.cur = st.cur ∧ Holds c P (st.cur + 1) st' := by
  have hd := hc.pos
  have hscan : ∀ (sc : Scope) (st0 : St), st0.snaps = st.snaps → st0.cur = st.cur → Sorted st0.inter → StrictSorted st0.cells →
      (sc = .ordinal ∨ 2 ≤ st.snaps.length) →
      ∃ (st' : St) (es : List Elem), scan c sc (ord sc) st0 = some st' ∧ st'.snaps = st.snaps ∧ st'.cur = st.cur ∧ Sorted st'.inter ∧ StrictSorted st'.cells ∧
        (∀ e, e ∈ es ↔ IsElem (d + 1) 1 e ∧ AtTime (d + 1) e.corner st.cur ∧ Lat.InBox c.core (e.corner.take d) ∧
          e.type ∈ scopeTypes (d + 1) 1 sc) ∧
        (∀ e p, (e, p) ∈ st'.inter ↔ (e ∈ es ∧ FoundBefore c P (st.cur + 1) e p) ∨ ((e, p) ∈ st0.inter ∧
          ¬ (e ∈ es ∧ ∃ q, FoundBefore c P (st.cur + 1) e q))) ∧
        ∀ x, x ∈ st'.cells ↔ x ∈ st0.cells ∨ ∃ e ∈ es, ∃ p, FoundBefore c P (st.cur + 1) e p ∧ Marked c e x := by
    intro sc st0 q1 q2 q3 q4 q5
    have hts := toTrk_shaped hc
    obtain ⟨es, e1, -, e3⟩ := Trk.calls_spec (d + 1) 1 (slab c st0.cur)
      (Trk.slab_wf (c := toTrk c) hts st0.cur) sc (ord sc) (by
        have : (slab c st0.cur).sizes.prod = c.core.sizes.prod := by simp [slab]
        rw [this]; exact ho sc)
    have hes : ∀ e, e ∈ es ↔ IsElem (d + 1) 1 e ∧ AtTime (d + 1) e.corner st.cur ∧ Lat.InBox c.core (e.corner.take d) ∧
          e.type ∈ scopeTypes (d + 1) 1 sc := by
      intro e
      rw [e3]
      have hb := Trk.inBox_slab (c := toTrk c) hts st0.cur e.corner
      rw [show Lat.InBox (slab c st0.cur) e.corner ↔ _ from hb, q2]
      constructor
      · rintro ⟨⟨a, b, g⟩, hd, t⟩
        exact ⟨⟨hd, a, by rw [hd]; exact ((mem_scopeTypes (by omega) _ _).1 t).1⟩, b, g, t⟩
      · rintro ⟨⟨a, b, g⟩, h, k, t⟩
        exact ⟨⟨b, h, k⟩, a, t⟩
    have hck : ∀ e ∈ es, ∃ o, check c st0 e = some o ∧
        ∀ p, o = some p ↔ FoundBefore c P (st.cur + 1) e p := by
      intro e he
      obtain ⟨a, b, -, t⟩ := (hes e).1 he
      have hsn : st0.snaps = P.drop st0.cur := by rw [q1, q2, h.snaps]
      obtain ⟨o, o1, o2⟩ := check_spec hc hT hP hsn a (q2 ▸ b) (by rw [q1, h.snaps, List.length_drop]; omega) (by
        rcases q5 with rfl | q5
        · exact .inl t
        · exact .inr (by rw [q1]; exact q5))
      refine ⟨o, o1, fun p => ?_⟩
      rw [o2, q2]
      constructor
      · rintro ⟨u, v, g, rfl⟩
        exact ⟨st.cur, by omega, b, u, v, g, rfl⟩
      · rintro ⟨t, ht, hat, u, v, g, rfl⟩
        have : t = st.cur := by exact_mod_cast atTime_inj hat b
        subst this
        exact ⟨u, v, g, rfl⟩
    obtain ⟨st', v1, v2, v3, v4, v5, v6, v7⟩ := visitAll_spec c hd (fun e => (check c st0 e).getD none) es st0 (by
      intro e he
      obtain ⟨o, o1, -⟩ := hck e he
      exact ⟨((hes e).1 he).1, by rw [o1]; rfl⟩) q3 q4
    refine ⟨st', es, by unfold scan; rw [e1]; exact v1, v2.trans q1, v3.trans q2, v4, v5, hes, fun e p => ?_, fun x => ?_⟩
    · have hl : ∀ (m : List (Elem × Pt)), Sorted m → ((e, p) ∈ m ↔ lookup e m = some p) :=
        fun m hm => ⟨lookup_of_mem hm, lookup_some_mem⟩
      rw [hl _ v4, hl _ q3, v6]
      by_cases he : e ∈ es
      · obtain ⟨o, o1, o2⟩ := hck e he
        simp only [he, if_true, o1, Option.getD_some, true_and, ← o2]
        cases o with
        | none => simp
        | some q => simp
      · simp [he]
    · rw [v7]
      refine or_congr_right ⟨?_, ?_⟩
      · rintro ⟨e, he, hs, hm⟩
        obtain ⟨o, o1, o2⟩ := hck e he
        simp only [o1, Option.getD_some] at hs
        obtain ⟨p, hp⟩ := Option.isSome_iff_exists.1 hs
        exact ⟨e, he, p, (o2 p).1 hp, hm⟩
      · rintro ⟨e, he, p, hf, hm⟩
        obtain ⟨o, o1, o2⟩ := hck e he
        refine ⟨e, he, ?_, hm⟩
        simp only [o1, Option.getD_some, (o2 p).2 hf, Option.isSome_some]
  have hold : ∀ e p, FoundBefore c P (st.cur + 1) e p ↔ FoundBefore c P st.cur e p ∨
      (AtTime (d + 1) e.corner st.cur ∧ FoundBefore c P (st.cur + 1) e p) := by
    intro e p
    constructor
    · rintro ⟨t, ht, r⟩
      by_cases htt : t = st.cur
      · subst htt; exact .inr ⟨r.1, _, ht, r⟩
      · exact .inl ⟨t, by omega, r⟩
    · rintro (⟨t, ht, r⟩ | h)
      · exact ⟨t, by omega, r⟩
      · exact h.2
  have hnew : ∀ e p, FoundBefore c P st.cur e p → ¬ AtTime (d + 1) e.corner st.cur := by
    rintro e p ⟨t, ht, r, -⟩ h
    have : t = st.cur := by exact_mod_cast atTime_inj r h
    omega
  -- an edge found at the current time is ordinal, or there are two snapshots
  have hkind : ∀ e p, AtTime (d + 1) e.corner st.cur → FoundBefore c P (st.cur + 1) e p →
      IsElem (d + 1) 1 e ∧ Lat.InBox c.core (e.corner.take d) ∧ (e.type ∈ scopeTypes (d + 1) 1 .ordinal ∨
        (e.type ∈ scopeTypes (d + 1) 1 .interval ∧ 2 ≤ st.snaps.length)) := by
    rintro e p hat ⟨t, ht, hat', u, v, hcut, -⟩
    refine ⟨hcut.edge, inBox_corner hc hcut, ?_⟩
    by_cases hor : e.type ∈ scopeTypes (d + 1) 1 .ordinal
    · exact .inl hor
    · right
      have hty := hcut.edge.type
      rw [hcut.edge.dim] at hty
      constructor
      · rw [mem_scopeTypes (by omega)] at hor ⊢
        refine ⟨hty, ?_⟩
        cases h : isOrdinalType (d + 1) 1 e.type
        · rfl
        · exact absurd ⟨hty, h⟩ hor
      · obtain ⟨u', v', hv, -, -, -, -, tv, hoo⟩ := edge_vertices hcut.edge hd hat
        rw [hcut.verts] at hv
        cases hv
        rcases tv with h' | h'
        · exact absurd (hoo.2 h') hor
        · obtain ⟨x, hx, hlt⟩ := hcut.right.time
          have := atTime_inj hx h'
          rw [h.snaps, List.length_drop]
          omega
  obtain ⟨st1, es1, a1, a2, a3, a4, a5, a6, a7, a8⟩ := hscan .ordinal st rfl rfl h.sorted h.csorted (.inl rfl)
  by_cases h2 : 2 ≤ st.snaps.length
  · obtain ⟨st2, es2, b1, b2, b3, b4, b5, b6, b7, b8⟩ := hscan .interval st1 a2 a3 a4 a5 (.inr h2)
    refine ⟨st2, ?_, b3, ⟨by rw [b2, b3, h.snaps], b4, b5, fun e p => ?_, fun x => ?_⟩⟩
    · unfold update
      rw [a1]
      simp only
      rw [if_pos (by rw [a2]; exact h2), b1]
    · rw [b7, a7, h.inter]
      refine Iff.trans ?_ (hold e p).symm
      constructor
      · rintro (⟨he, hf⟩ | ⟨⟨he, hf⟩ | ⟨hf, -⟩, -⟩)
        · exact .inr ⟨((b6 e).1 he).2.1, hf⟩
        · exact .inr ⟨((a6 e).1 he).2.1, hf⟩
        · exact .inl hf
      · rintro (hf | ⟨hat, hf⟩)
        · refine .inr ⟨.inr ⟨hf, ?_⟩, ?_⟩
          · rintro ⟨he, -⟩; exact hnew e p hf ((a6 e).1 he).2.1
          · rintro ⟨he, -⟩; exact hnew e p hf ((b6 e).1 he).2.1
        · obtain ⟨k1, k2, k3⟩ := hkind e p hat hf
          rcases k3 with k3 | ⟨k3, -⟩
          · refine .inr ⟨.inl ⟨(a6 e).2 ⟨k1, hat, k2, k3⟩, hf⟩, ?_⟩
            rintro ⟨he, -⟩
            have q1 := ((mem_scopeTypes (n := d + 1) (d := 1) (by omega) _ _).1 k3).2
            have q2 := ((mem_scopeTypes (n := d + 1) (d := 1) (by omega) _ _).1 ((b6 e).1 he).2.2.2).2
            simp only at q1 q2
            rw [q1] at q2
            cases q2
          · exact .inl ⟨(b6 e).2 ⟨k1, hat, k2, k3⟩, hf⟩
    · rw [b8, a8, h.cells]
      constructor
      · rintro ((⟨e, p, hf, hm⟩ | ⟨e, he, p, hf, hm⟩) | ⟨e, he, p, hf, hm⟩)
        · exact ⟨e, p, (hold e p).2 (.inl hf), hm⟩
        · exact ⟨e, p, hf, hm⟩
        · exact ⟨e, p, hf, hm⟩
      · rintro ⟨e, p, hf, hm⟩
        rcases (hold e p).1 hf with hf | ⟨hat, hf⟩
        · exact .inl (.inl ⟨e, p, hf, hm⟩)
        · obtain ⟨k1, k2, k3⟩ := hkind e p hat hf
          rcases k3 with k3 | ⟨k3, -⟩
          · exact .inl (.inr ⟨e, (a6 e).2 ⟨k1, hat, k2, k3⟩, p, hf, hm⟩)
          · exact .inr ⟨e, (b6 e).2 ⟨k1, hat, k2, k3⟩, p, hf, hm⟩
  · refine ⟨st1, ?_, a3, ⟨by rw [a2, a3, h.snaps], a4, a5, fun e p => ?_, fun x => ?_⟩⟩
    · unfold update
      rw [a1]
      simp only
      rw [if_neg (by rw [a2]; exact h2)]
    · rw [a7, h.inter]
      refine Iff.trans ?_ (hold e p).symm
      constructor
      · rintro (⟨he, hf⟩ | ⟨hf, -⟩)
        · exact .inr ⟨((a6 e).1 he).2.1, hf⟩
        · exact .inl hf
      · rintro (hf | ⟨hat, hf⟩)
        · refine .inr ⟨hf, ?_⟩
          rintro ⟨he, -⟩; exact hnew e p hf ((a6 e).1 he).2.1
        · obtain ⟨k1, k2, k3⟩ := hkind e p hat hf
          rcases k3 with k3 | ⟨-, k3⟩
          · exact .inl ⟨(a6 e).2 ⟨k1, hat, k2, k3⟩, hf⟩
          · exact absurd k3 h2
    · rw [a8, h.cells]
      constructor
      · rintro (⟨e, p, hf, hm⟩ | ⟨e, he, p, hf, hm⟩)
        · exact ⟨e, p, (hold e p).2 (.inl hf), hm⟩
        · exact ⟨e, p, hf, hm⟩
      · rintro ⟨e, p, hf, hm⟩
        rcases (hold e p).1 hf with hf | ⟨hat, hf⟩
        · exact .inl ⟨e, p, hf, hm⟩
        · obtain ⟨k1, k2, k3⟩ := hkind e p hat hf
          rcases k3 with k3 | ⟨-, k3⟩
          · exact .inr ⟨e, (a6 e).2 ⟨k1, hat, k2, k3⟩, p, hf, hm⟩
          · exact absurd k3 h2

/-! ### the driver -/

theorem valueAt_append {c : Cfg d} {P Q : List Scal} {v : Vtx} {x : Nat} (hv : AtTime (d + 1) v x) (hx : x < P.length) :
    valueAt c (P ++ Q) v = valueAt c P v := by
  unfold AtTime at hv
  simp only [Nat.add_sub_cancel] at hv
  unfold valueAt
  have : (v.getD d 0).toNat = x := by simp [List.getD, hv]
  rw [this, List.getElem?_append_left hx]

theorem found_append {c : Cfg d} (hd : 1 ≤ d) {P Q : List Scal} {T : Nat} (hT : ∀ t < T, t + 2 ≤ P.length) (e : Elem) (p : Pt) :
    FoundBefore c (P ++ Q) T e p ↔ FoundBefore c P T e p := by
  unfold FoundBefore
  refine exists_congr fun t => and_congr_right fun ht => and_congr_right fun hat => ?_
  have h2 := hT t ht
  have key : ∀ (R : List Scal), P.length ≤ R.length → ∀ u v, CutAt c R e u v →
      AtTime (d + 1) u t ∧ ∃ x : Nat, AtTime (d + 1) v x ∧ x < P.length := by
    intro R _ u v hcut
    obtain ⟨u', v', hv, -, hu, -, -, tv, -⟩ := edge_vertices hcut.edge hd hat
    rw [hcut.verts] at hv
    cases hv
    refine ⟨hu ▸ hat, ?_⟩
    rcases tv with h | h
    · exact ⟨t, h, by omega⟩
    · exact ⟨t + 1, by simpa using h, by omega⟩
  refine exists_congr fun u => exists_congr fun v => ?_
  constructor
  · rintro ⟨hcut, rfl⟩
    obtain ⟨hu, x, hv, hx⟩ := key _ (by simp) u v hcut
    have e1 : valueAt c (P ++ Q) u = valueAt c P u := valueAt_append hu (by omega)
    have e2 : valueAt c (P ++ Q) v = valueAt c P v := valueAt_append hv hx
    refine ⟨⟨hcut.edge, hcut.verts, ⟨hcut.left.len, hcut.left.place, t, hu, by omega⟩,
      ⟨hcut.right.len, hcut.right.place, x, hv, hx⟩, ?_⟩, ?_⟩
    · have := hcut.cut
      unfold Above at this ⊢
      rwa [e1, e2] at this
    · unfold isoPoint
      rw [e1, e2]
  · rintro ⟨hcut, rfl⟩
    obtain ⟨hu, x, hv, hx⟩ := key _ (Nat.le_refl _) u v hcut
    have e1 : valueAt c (P ++ Q) u = valueAt c P u := valueAt_append hu (by omega)
    have e2 : valueAt c (P ++ Q) v = valueAt c P v := valueAt_append hv hx
    refine ⟨⟨hcut.edge, hcut.verts, ⟨hcut.left.len, hcut.left.place, t, hu, by simp; omega⟩,
      ⟨hcut.right.len, hcut.right.place, x, hv, by simp; omega⟩, ?_⟩, ?_⟩
    · have := hcut.cut
      unfold Above at this ⊢
      rwa [e1, e2]
    · unfold isoPoint
      rw [e1, e2]

theorem holds_push {c : Cfg d} (hd : 1 ≤ d) {P : List Scal} {st : St} (h : Holds c P st.cur st) (hle : st.cur ≤ P.length)
    (hT : ∀ t < st.cur, t + 2 ≤ P.length) (s : Scal) : Holds c (P ++ [s]) st.cur (push s st) where
  snaps := by simp [push, h.snaps, List.drop_append_of_le_length hle]
  sorted := h.sorted
  csorted := h.csorted
  inter := fun e p => (h.inter e p).trans (found_append hd hT e p).symm
  cells := fun x => (h.cells x).trans (by simp only [found_append hd hT])

theorem run_append (c : Cfg d) : ∀ (a b : List Op) (st : St), run c (a ++ b) st = (run c a st).bind (run c b)
  | [], _, _ => rfl
  | o :: os, b, st => by
    simp only [List.cons_append, run]
    cases step c st o with
    | none => rfl
    | some st' => exact run_append c os b st'

/-- the calls of the driver before the final `update_timestep` -/
def phases (ord : Nat → Scope → List Int) (p : List Scal) : List Op :=
  ((List.range p.length).zip p).flatMap fun ks =>
    Op.push ks.2 :: (if ks.1 ≠ 0 then [Op.advance (ord (ks.1 - 1))] else [])

theorem phases_snoc (ord : Nat → Scope → List Int) (p : List Scal) (s : Scal) :
    phases ord (p ++ [s]) = phases ord p ++
      (Op.push s :: (if p.length ≠ 0 then [Op.advance (ord (p.length - 1))] else [])) := by
  unfold phases
  rw [List.length_append, List.length_singleton, List.range_succ, List.zip_append (by simp)]
  rw [List.flatMap_append]
  simp

theorem driveOps_snoc (ord : Nat → Scope → List Int) (p : List Scal) (s : Scal) :
    driveOps (p ++ [s]) ord = phases ord (p ++ [s]) ++ [Op.update (ord p.length)] := by
  rw [phases_snoc]
  unfold driveOps phases
  rw [List.length_append, List.length_singleton, List.range_succ, List.zip_append (by simp)]
  rw [List.flatMap_append]
  have h1 : ((List.range p.length).zip p).flatMap (fun ks => Op.push ks.2 :: ((if ks.1 ≠ 0 then [Op.advance (ord (ks.1 - 1))] else []) ++
      if ks.1 + 1 = p.length + 1 then [Op.update (ord ks.1)] else [])) =
      ((List.range p.length).zip p).flatMap fun ks =>
        Op.push ks.2 :: (if ks.1 ≠ 0 then [Op.advance (ord (ks.1 - 1))] else []) := by
    apply List.flatMap_congr
    rintro ⟨k, s'⟩ hk
    have : k < p.length := by simpa using (List.of_mem_zip hk).1
    have h2 : ¬ (k + 1 = p.length + 1) := by omega
    simp only [if_neg h2, List.append_nil]
  rw [h1]
  simp

theorem run_phases {c : Cfg d} {T : Nat} (hc : Shaped c T) (ord : Nat → Scope → List Int) (ho : ∀ k, Complete c (ord k))
    (p : List Scal) : p.length ≤ T → (∀ s ∈ p, Covers c s) → p ≠ [] → ∃ st, run c (phases ord p) St.init = some st ∧
      Holds c p st.cur st ∧ st.cur + 1 = p.length := by
  induction p using List.reverseRecOn with
  | nil => intro _ _ h; exact absurd rfl h
  | append_singleton p s ih =>
    intro hT hcov _
    rw [phases_snoc, run_append]
    rcases List.eq_nil_or_concat p with rfl | ⟨p0, s0, hp⟩
    · refine ⟨push s St.init, by simp [phases, run, step], ?_, by simp [push, St.init]⟩
      refine ⟨by simp [push, St.init], List.Pairwise.nil, List.Pairwise.nil, ?_, ?_⟩
      · intro e p; simp [push, St.init, FoundBefore]
      · intro x; simp [push, St.init, FoundBefore]
    · rw [List.concat_eq_append] at hp
      subst hp
      obtain ⟨st, e, i, q⟩ := ih (by simp at hT ⊢; omega) (fun s' hs' => hcov s' (by simp at hs' ⊢; tauto)) (by simp)
      have i' := holds_push hc.pos i (by omega) (fun t ht => by omega) s
      have hcur : (push s st).cur = st.cur := rfl
      obtain ⟨st1, e1, hc1, i1⟩ := update_holds hc hT hcov (ho ((p0 ++ [s0]).length - 1)) (st := push s st) i' (by
        rw [hcur]
        simp only [List.length_append, List.length_singleton] at q ⊢
        omega)
      refine ⟨{ st1 with snaps := st1.snaps.tail, cur := st1.cur + 1 }, ?_, ?_, ?_⟩
      · rw [e]
        simp only [Option.bind_some]
        rw [if_pos (by simp)]
        simp only [run, step, advance, e1]
      · refine ⟨?_, i1.sorted, i1.csorted, ?_, ?_⟩
        · simp only [i1.snaps, List.tail_drop]
        · intro e p
          rw [hc1]
          exact i1.inter e p
        · intro x
          rw [hc1]
          exact i1.cells x
      · simp only [hc1, hcur, List.length_append, List.length_singleton] at q ⊢
        omega

/-- the state after the driver's loop -/
theorem drive_holds {c : Cfg d} {series : List Scal} (hc : Shaped c series.length) (hne : series ≠ [])
    (hcov : ∀ s ∈ series, Covers c s) (ord : Nat → Scope → List Int) (ho : ∀ k, Complete c (ord k)) :
    ∃ st, run c (driveOps series ord) St.init = some st ∧ Holds c series series.length st := by
  obtain ⟨p, s, hs⟩ : ∃ p s, series = p ++ [s] := by
    rcases List.eq_nil_or_concat series with h | ⟨p, s, h⟩
    · exact absurd h hne
    · exact ⟨p, s, by rw [h, List.concat_eq_append]⟩
  obtain ⟨st, e, i, q⟩ := run_phases hc ord ho series (Nat.le_refl _) hcov hne
  obtain ⟨st', e', hc', i'⟩ := update_holds hc (Nat.le_refl _) hcov (ho p.length) i (by omega)
  refine ⟨st', ?_, by rw [q] at i'; exact i'⟩
  subst hs
  rw [driveOps_snoc, run_append, e]
  simp only [Option.bind_some, run, step, e']

end Verif.Ctr
