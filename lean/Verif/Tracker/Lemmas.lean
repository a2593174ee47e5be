import Verif.Tracker.Spec
import Verif.Tracker.Trace
import Verif.Mesh.Props
import Verif.Mesh.Cofaces
/-! The scans of the trackers. -/
namespace Verif.Trk
open Verif.Ser (lookup mapPut Sorted)
open Verif.SRM
variable {d : Nat} {γ : Type}

/-! ### visits -/

/-- the point recorded for `e` -/
def hit (c : Cfg d γ) (st : St d γ) (e : Elem) : Option (CP γ) :=
  match check c st e with
  | some (some cp) => if c.keep cp then some cp else none
  | _ => none

/-- the entry for `e` written -/
def record (h : Elem → Option (CP γ)) (dcp : List (Elem × CP γ)) (e : Elem) : List (Elem × CP γ) :=
  match h e with
  | some cp => mapPut e cp dcp
  | none => dcp

/-- the state after visiting `es` -/
def after (c : Cfg d γ) (st : St d γ) (es : List Elem) : St d γ :=
  { st with calls := st.calls ++ es.map (fun e => (e, st.cur)), dcp := es.foldl (record (hit c st)) st.dcp }

theorem check_congr {c : Cfg d γ} {st st' : St d γ} (h1 : st.factor = st'.factor) (h2 : st.cur = st'.cur)
    (h3 : st.snaps = st'.snaps) : check c st = check c st' := by
  funext e; unfold check; rw [h1, h2, h3]

theorem hit_congr {c : Cfg d γ} {st st' : St d γ} (h1 : st.factor = st'.factor) (h2 : st.cur = st'.cur)
    (h3 : st.snaps = st'.snaps) : hit c st = hit c st' := by
  funext e; unfold hit; rw [check_congr h1 h2 h3]

theorem visit_eq (c : Cfg d γ) (st : St d γ) (e : Elem) :
    visit c st e = if (check c st e).isSome then some (after c st [e]) else none := by
  unfold visit after hit record
  cases h : check c st e with
  | none => rfl
  | some o =>
    cases o with
    | none => simp [h]
    | some cp =>
      by_cases hk : c.keep cp <;> simp [h, hk]

theorem after_append (c : Cfg d γ) (st : St d γ) (es es' : List Elem) :
    after c (after c st es) es' = after c st (es ++ es') := by
  have : hit c (after c st es) = hit c st := hit_congr rfl rfl rfl
  unfold after
  unfold after at this
  simp only [this, List.foldl_append, List.map_append, List.append_assoc]

theorem visitAll_spec (c : Cfg d γ) : ∀ (es : List Elem) (st : St d γ),
    visitAll c (es.map some) st = if (∀ e ∈ es, (check c st e).isSome) then some (after c st es) else none
  | [], st => by simp [visitAll, after]
  | e :: es, st => by
    have ih := visitAll_spec c es (after c st [e])
    have hc : check c (after c st [e]) = check c st := check_congr rfl rfl rfl
    rw [after_append, hc] at ih
    simp only [List.map_cons, visitAll, visit_eq]
    by_cases h : (check c st e).isSome
    · simp only [h, if_true, ih, List.singleton_append]
      simp [h]
    · simp [h]

theorem foldl_record_sorted (h : Elem → Option (CP γ)) : ∀ (es : List Elem) (dcp : List (Elem × CP γ)), Sorted dcp →
    Sorted (es.foldl (record h) dcp)
  | [], _, hs => hs
  | e :: es, dcp, hs => by
    refine foldl_record_sorted h es _ ?_
    unfold record
    split
    · exact Comm.sorted_mapPut _ _ _ hs
    · exact hs

theorem lookup_foldl_record (h : Elem → Option (CP γ)) : ∀ (es : List Elem) (dcp : List (Elem × CP γ)) (x : Elem),
    lookup x (es.foldl (record h) dcp) = if x ∈ es then (h x).or (lookup x dcp) else lookup x dcp
  | [], _, _ => by simp
  | e :: es, dcp, x => by
    rw [List.foldl_cons, lookup_foldl_record h es]
    have hr : lookup x (record h dcp e) = if x = e then (h x).or (lookup x dcp) else lookup x dcp := by
      unfold record
      cases he : h e with
      | none =>
        by_cases hx : x = e
        · subst hx; simp [he]
        · simp [hx]
      | some cp =>
        rw [Comm.lookup_mapPut]
        by_cases hx : x = e
        · subst hx; simp [he]
        · simp [hx]
    rw [hr]
    by_cases hx : x = e
    · subst hx
      by_cases hm : x ∈ es
      · simp only [hm, if_true, List.mem_cons, or_true]
        cases h x <;> simp
      · simp [hm]
    · simp [hx]

theorem mem_iff_lookup {m : List (Elem × CP γ)} (hs : Sorted m) (x : Elem) (v : CP γ) :
    (x, v) ∈ m ↔ lookup x m = some v := ⟨lookup_of_mem hs, lookup_some_mem⟩

/-! ### scans -/

theorem calls_spec (n k : Nat) (l : Lat.Lattice) (hl : l.Wf) (sc : Scope) (trace : List Int)
    (hperm : trace.Perm ((List.range (l.sizes.prod * (scopeTypes n k sc).length)).map Int.ofNat)) :
    ∃ es : List Elem, elementForCalls n k l sc trace = es.map some ∧ es.Nodup ∧
      ∀ e, e ∈ es ↔ Lat.InBox l e.corner ∧ e.dim = k ∧ e.type ∈ scopeTypes n k sc := by
  have hone : ∀ i : Int, i ∈ trace → ∃ e : Elem,
      (if i < 0 then none else fromWorkIndex n k i.toNat l sc) = some e := by
    intro i hi
    have := hperm.mem_iff.1 hi
    simp only [List.mem_map, List.mem_range] at this
    obtain ⟨j, hj, rfl⟩ := this
    obtain ⟨t, c, -, -, -, -, h4⟩ := fromWorkIndex_spec (n := n) (d := k) hl sc hj
    exact ⟨_, by simpa using h4⟩
  have hes : ∀ tr : List Int, (∀ i ∈ tr, ∃ e : Elem,
      (if i < 0 then none else fromWorkIndex n k i.toNat l sc) = some e) →
      ∃ es : List Elem, elementForCalls n k l sc tr = es.map some := by
    intro tr
    induction tr with
    | nil => intro _; exact ⟨[], rfl⟩
    | cons i tr ih =>
      intro h
      obtain ⟨e, he⟩ := h i (by simp)
      obtain ⟨es, hes⟩ := ih (fun j hj => h j (by simp [hj]))
      refine ⟨e :: es, ?_⟩
      simp only [elementForCalls] at hes ⊢
      rw [List.map_cons, he, hes, List.map_cons]
  obtain ⟨es, hes⟩ := hes trace hone
  refine ⟨es, hes, ?_⟩
  have hcalls : (es.map some).Perm ((List.range (l.sizes.prod * (scopeTypes n k sc).length)).map
      (fun i => fromWorkIndex n k i l sc)) := by
    rw [← hes]
    unfold elementForCalls
    refine (hperm.map _).trans (List.Perm.of_eq ?_)
    rw [List.map_map]
    apply List.map_congr_left
    intro i _
    simp
  constructor
  · refine List.Nodup.of_map some (hcalls.nodup_iff.2 ?_)
    rw [List.nodup_map_iff_inj_on List.nodup_range]
    intro i hi j hj hij
    simp only [List.mem_range] at hi hj
    obtain ⟨t, c, h1, h2, -, h3, h4⟩ := fromWorkIndex_spec (n := n) (d := k) hl sc hi
    obtain ⟨t', c', h1', h2', -, h3', h4'⟩ := fromWorkIndex_spec (n := n) (d := k) hl sc hj
    rw [h4, h4'] at hij
    simp only [Option.some.injEq, Elem.mk.injEq] at hij
    obtain ⟨rfl, -, rfl⟩ := hij
    rw [h3] at h3'
    simp only [Option.some.injEq, Int.natCast_inj] at h3'
    obtain ⟨a1, b1⟩ := List.getElem?_eq_some_iff.1 h1
    obtain ⟨a2, b2⟩ := List.getElem?_eq_some_iff.1 h1'
    have hm := (List.Nodup.getElem_inj_iff (scopeTypes_nodup n k sc)).1 (b1.trans b2.symm)
    rw [← Nat.mod_add_div i (scopeTypes n k sc).length, ← Nat.mod_add_div j (scopeTypes n k sc).length,
      hm, h3']
  · intro e
    have hm : e ∈ es ↔ some e ∈ es.map some := by simp
    rw [hm, hcalls.mem_iff]
    simp only [List.mem_map, List.mem_range]
    constructor
    · rintro ⟨i, hi, he⟩
      obtain ⟨t, c, h1, h2, h3, -, h4⟩ := fromWorkIndex_spec (n := n) (d := k) hl sc hi
      rw [h4] at he
      cases he
      exact ⟨h3, rfl, List.mem_of_getElem? h1⟩
    · obtain ⟨c, d', t⟩ := e
      rintro ⟨hc, hd', ht⟩
      simp only at hc hd' ht
      subst hd'
      obtain ⟨q, hk1, hk2, hk3⟩ := (Lat.C08_lattice_index_bijection l hl).2.1 c hc
      obtain ⟨j, hj, hj'⟩ := List.getElem_of_mem ht
      refine ⟨q * (scopeTypes n d' sc).length + j, ?_, ?_⟩
      · have : (q + 1) * (scopeTypes n d' sc).length ≤ l.sizes.prod * (scopeTypes n d' sc).length :=
          Nat.mul_le_mul_right _ hk2
        rw [Nat.add_mul] at this
        omega
      · have hpos : 0 < (scopeTypes n d' sc).length := by omega
        unfold fromWorkIndex
        simp only
        rw [Nat.add_comm, Nat.add_mul_mod_self_right, Nat.add_mul_div_right _ _ hpos,
          Nat.mod_eq_of_lt hj, Nat.div_eq_of_lt hj, Nat.zero_add, hk3, List.getElem?_eq_getElem hj, hj']

theorem slab_wf {c : Cfg d γ} (hc : Shaped c) (t : Nat) : (slab c t).Wf := by
  constructor
  · simp [slab, hc.clen.1, hc.clen.2]
  · simp [slab]

/-- a corner is in the slab iff it is at the time and its spatial part is in the core -/
theorem inBox_slab {c : Cfg d γ} (hc : Shaped c) (t : Nat) (x : Vtx) :
    Lat.InBox (slab c t) x ↔ x.length = d + 1 ∧ AtTime (d + 1) x t ∧ Lat.InBox c.core (x.take d) := by
  obtain ⟨h1, h2⟩ := hc.clen
  unfold AtTime
  simp only [Nat.add_sub_cancel]
  constructor
  · rintro ⟨a, b⟩
    have hl : x.length = d + 1 := by simpa [slab, h2] using a
    refine ⟨hl, ?_, ?_, ?_⟩
    · have hd : d < x.length := by omega
      have := b d t 1 x[d] (by simp [slab, ← h1]) (by simp [slab, ← h2]) (List.getElem?_eq_getElem hd)
      rw [List.getElem?_eq_getElem hd, Option.some_inj]
      omega
    · simp [hl, h2]
    · intro i s m v e1 e2 e3
      have hi : i < d := by
        have := (List.getElem?_eq_some_iff.1 e1).1; omega
      refine b i s m v ?_ ?_ ?_
      · simp only [slab]; rw [List.getElem?_append_left (by omega)]; exact e1
      · simp only [slab]; rw [List.getElem?_append_left (by omega)]; exact e2
      · rw [List.getElem?_take] at e3; simpa [hi] using e3
  · rintro ⟨hl, ht, hb⟩
    refine ⟨by simp [slab, h2, hl], ?_⟩
    intro i s m v e1 e2 e3
    have hi : i < d + 1 := by
      have := (List.getElem?_eq_some_iff.1 e3).1; omega
    by_cases hid : i = d
    · subst hid
      simp only [slab] at e1 e2
      rw [List.getElem?_append_right (by omega)] at e1 e2
      simp [h1] at e1
      simp [h2] at e2
      rw [ht] at e3
      cases e3
      omega
    · simp only [slab] at e1 e2
      rw [List.getElem?_append_left (by omega)] at e1 e2
      refine hb.2 i s m v e1 e2 ?_
      rw [List.getElem?_take, if_pos (by omega)]
      exact e3

theorem prod_slab {c : Cfg d γ} (t : Nat) : (slab c t).sizes.prod = c.core.sizes.prod := by
  simp [slab]

/-- one scan -/
theorem scan_spec {c : Cfg d γ} (hc : Shaped c) (sc : Scope) {ord : Scope → List Int} (ho : Complete c ord)
    (st : St d γ) : ∃ es : List Elem, es.Nodup ∧
      (∀ e, e ∈ es ↔ Facet d e ∧ AtTime (d + 1) e.corner st.cur ∧ InCore c e ∧ e.type ∈ scopeTypes (d + 1) d sc) ∧
      scan c sc (ord sc) st = if (∀ e ∈ es, (check c st e).isSome) then some (after c st es) else none := by
  obtain ⟨es, h1, h2, h3⟩ := calls_spec (d + 1) d (slab c st.cur) (slab_wf hc _) sc (ord sc)
    (by rw [prod_slab]; exact ho sc)
  refine ⟨es, h2, ?_, ?_⟩
  · intro e
    rw [h3, inBox_slab hc]
    constructor
    · rintro ⟨⟨a, b, g⟩, rfl, t⟩
      exact ⟨⟨rfl, a, ((mem_scopeTypes (by omega) _ _).1 t).1⟩, b, g, t⟩
    · rintro ⟨⟨a, b, g⟩, h, k, t⟩
      exact ⟨⟨b, h, k⟩, a, t⟩
  · unfold scan
    rw [h1, visitAll_spec]

theorem mem_both {t : Nat} : (t < ntypes (d + 1) d) ↔
    t ∈ scopeTypes (d + 1) d .ordinal ∨ t ∈ scopeTypes (d + 1) d .interval := by
  rw [mem_scopeTypes (by omega), mem_scopeTypes (by omega)]
  cases isOrdinalType (d + 1) d t <;> simp

/-- what `update_timestep` does before growing trajectories -/
theorem update_spec {c : Cfg d γ} (hc : Shaped c) {ord : Scope → List Int} (ho : Complete c ord)
    (st : St d γ) : ∃ es : List Elem, es.Nodup ∧
      (∀ e, e ∈ es ↔ Facet d e ∧ AtTime (d + 1) e.corner st.cur ∧ InCore c e ∧
        (e.type ∈ scopeTypes (d + 1) d .ordinal ∨ 2 ≤ st.snaps.length)) ∧
      update c ord st = if (∀ e ∈ es, (check c st.rescale e).isSome) then
          (if c.streaming = true ∧ 2 ≤ st.snaps.length then grow c (after c st.rescale es)
            else some (after c st.rescale es)) else none := by
  obtain ⟨es1, n1, m1, e1⟩ := scan_spec hc .ordinal ho st.rescale
  have hcur : st.rescale.cur = st.cur := rfl
  have hsn : st.rescale.snaps = st.snaps := rfl
  by_cases h2 : 2 ≤ st.snaps.length
  · obtain ⟨es2, n2, m2, e2⟩ := scan_spec hc .interval ho (after c st.rescale es1)
    have hck : check c (after c st.rescale es1) = check c st.rescale := check_congr rfl rfl rfl
    rw [hck, after_append] at e2
    have hcur2 : (after c st.rescale es1).cur = st.cur := rfl
    refine ⟨es1 ++ es2, ?_, ?_, ?_⟩
    · rw [List.nodup_append]
      refine ⟨n1, n2, ?_⟩
      rintro a ha b hb rfl
      have := (m1 a).1 ha
      have h' := (m2 a).1 hb
      have q1 := ((mem_scopeTypes (n := d + 1) (d := d) (by omega) _ _).1 this.2.2.2).2
      have q2 := ((mem_scopeTypes (n := d + 1) (d := d) (by omega) _ _).1 h'.2.2.2).2
      simp only at q1 q2
      rw [q1] at q2
      cases q2
    · intro e
      rw [List.mem_append, m1, m2, hcur, hcur2]
      constructor
      · rintro (⟨a, b, g, -⟩ | ⟨a, b, g, -⟩) <;> exact ⟨a, b, g, .inr h2⟩
      · rintro ⟨a, b, g, -⟩
        have := a.type
        rw [a.dim] at this
        rcases mem_both.1 this with h | h
        · exact .inl ⟨a, b, g, h⟩
        · exact .inr ⟨a, b, g, h⟩
    · unfold update
      rw [e1]
      by_cases hh : ∀ e ∈ es1, (check c st.rescale e).isSome
      · rw [if_pos hh]
        simp only
        have : (after c st.rescale es1).snaps.length ≥ 2 := h2
        rw [if_pos this, e2]
        by_cases hh2 : ∀ e ∈ es2, (check c st.rescale e).isSome
        · rw [if_pos hh2, if_pos (by
            intro e he
            rcases List.mem_append.1 he with h | h
            · exact hh e h
            · exact hh2 e h)]
          simp only
          by_cases hs : c.streaming = true
          · simp [hs, h2]
          · simp [hs]
        · rw [if_neg hh2, if_neg (fun h => hh2 fun e he => h e (by simp [he]))]
      · rw [if_neg hh, if_neg (fun h => hh fun e he => h e (by simp [he]))]
  · refine ⟨es1, n1, ?_, ?_⟩
    · intro e
      rw [m1, hcur]
      constructor
      · rintro ⟨a, b, g, t⟩; exact ⟨a, b, g, .inl t⟩
      · rintro ⟨a, b, g, t | t⟩
        · exact ⟨a, b, g, t⟩
        · exact absurd t h2
    · unfold update
      rw [e1]
      by_cases hh : ∀ e ∈ es1, (check c st.rescale e).isSome
      · rw [if_pos hh, if_pos hh, if_neg (fun h => h2 h.2)]
        simp only
        have : ¬ (after c st.rescale es1).snaps.length ≥ 2 := h2
        rw [if_neg this]
      · rw [if_neg hh, if_neg hh]

/-! ### reading -/

theorem facet_vertices {e : Elem} (he : Facet d e) {t : Int} (ht : AtTime (d + 1) e.corner t) :
    ∃ vs, e.vertices (d + 1) = some vs ∧ vs.length = d + 1 ∧ ∀ v ∈ vs, v.length = d + 1 ∧
      (AtTime (d + 1) v t ∨ (AtTime (d + 1) v (t + 1) ∧ e.type ∉ scopeTypes (d + 1) d .ordinal)) := by
  obtain ⟨vs, hvs⟩ := vertices_exists he.type
  have hdim : e.dim ≤ d + 1 := by rw [he.dim]; omega
  have hcell := cell_of_elem (n := d + 1) (by omega) hdim rfl he.len hvs
  refine ⟨vs, hvs, by rw [hcell.len, he.dim], fun v hv => ⟨(hcell.cube v hv).1, ?_⟩⟩
  obtain ⟨h1, h2⟩ := C16_times (d + 1) (by omega) e hdim he.len t ht vs hvs
  have := he.type
  rw [he.dim] at this
  rw [he.dim] at h1 h2
  by_cases ho : e.type ∈ scopeTypes (d + 1) d .ordinal
  · exact .inl (h1.1 ho v hv)
  · rcases mem_both.1 this with h | h
    · exact absurd h ho
    · rcases (h2.1 h).1 v hv with h' | h'
      · exact .inl h'
      · exact .inr ⟨h', ho⟩

theorem readVertex_eq {c : Cfg d γ} {series snaps : List (Snap d)} {cur : Nat} (hs : snaps = series.drop cur) {v : Vtx}
    (hv : AtTime (d + 1) v cur ∨ AtTime (d + 1) v ((cur + 1 : Nat) : Int)) :
    readVertex c snaps cur v = absRead c series v := by
  unfold AtTime at hv
  simp only [Nat.add_sub_cancel] at hv
  unfold readVertex absRead
  subst hs
  rcases hv with hv | hv
  · rw [hv]
    simp only [if_true, List.getElem?_drop, Nat.add_zero]
    rw [if_neg (by omega)]
    simp only [Int.toNat_natCast]
    cases series[cur]? <;> rfl
  · rw [hv]
    have : ¬ (some ((cur + 1 : Nat) : Int) = some (cur : Int)) := by simp
    rw [if_neg this]
    simp only [List.getElem?_drop]
    rw [if_neg (by omega)]
    simp only [Int.toNat_natCast]
    cases series[cur + 1]? <;> rfl

theorem readAll_congr {rd rd' : Vtx → Option (Fin d → Option Rat)} : ∀ {vs : List Vtx}, (∀ v ∈ vs, rd v = rd' v) →
    readAll rd vs = readAll rd' vs
  | [], _ => rfl
  | v :: vs, h => by
    simp only [readAll, h v (by simp), readAll_congr (vs := vs) fun w hw => h w (by simp [hw])]

theorem checkWith_congr {c : Cfg d γ} {f : Int} {cur : Nat} {rd rd' : Vtx → Option (Fin d → Option Rat)} {e : Elem}
    (h : ∀ vs, e.vertices (d + 1) = some vs → ∀ v ∈ vs, rd v = rd' v) :
    checkWith c f cur rd e = checkWith c f cur rd' e := by
  unfold checkWith
  split
  · cases hv : e.vertices (d + 1) with
    | none => rfl
    | some vs =>
      simp only
      rw [readAll_congr (h vs hv)]
  · rfl

theorem readAll_isSome {rd : Vtx → Option (Fin d → Option Rat)} : ∀ {vs : List Vtx}, (∀ v ∈ vs, (rd v).isSome) →
    ∃ xs, readAll rd vs = some xs
  | [], _ => ⟨[], rfl⟩
  | v :: vs, h => by
    obtain ⟨xs, hx⟩ := readAll_isSome (vs := vs) fun w hw => h w (by simp [hw])
    obtain ⟨x, hx'⟩ := Option.isSome_iff_exists.1 (h v (by simp))
    exact ⟨x :: xs, by simp only [readAll, hx, hx']⟩

theorem checkWith_isSome {c : Cfg d γ} {f : Int} {cur : Nat} {rd : Vtx → Option (Fin d → Option Rat)} {e : Elem}
    (h : ∀ vs, e.vertices (d + 1) = some vs → (∀ v ∈ vs, within c.bounds.lb c.bounds.ub v = true) →
      ∀ v ∈ vs, (rd v).isSome) :
    (checkWith c f cur rd e).isSome := by
  unfold checkWith
  split
  · rename_i hval
    unfold elemValid at hval
    cases hv : e.vertices (d + 1) with
    | none => rw [hv] at hval; cases hval
    | some vs =>
      rw [hv] at hval
      obtain ⟨xs, hx⟩ := readAll_isSome (h vs hv (by simpa using hval))
      simp only [hx]
      split <;> rfl
  · rfl

/-- a vertex within the bounds, of a facet with corner in the core, has its place in every covering array -/
theorem read_isSome {c : Cfg d γ} (hc : Shaped c) {s : Snap d} (hs : Covers c s) {x v : Vtx} (hl : v.length = d + 1)
    (hx : Lat.InBox c.core (x.take d)) (hlx : x.length = d + 1) (hxv : ∀ i, x.getD i 0 ≤ v.getD i 0 ∧ v.getD i 0 ≤ x.getD i 0 + 1)
    (hw : within c.bounds.lb c.bounds.ub v = true) :
    (s.read (List.zipWith (fun x (a : Nat) => x - a) (v.take d) c.astart)).isSome := by
  have key : ∀ (cs cm st sz a dims : List Nat) (x v : Vtx) (l u : List Int), st.length = sz.length → st.length = a.length →
      st.length = dims.length → st.length = v.length → st.length = x.length → st.length = cs.length → st.length = cm.length →
      (∀ (i a' s' : Nat), a[i]? = some a' → cs[i]? = some s' → a' ≤ s') →
      (∀ (i a' s' m k c' m' : Nat), a[i]? = some a' → st[i]? = some s' → sz[i]? = some m → dims[i]? = some k →
        cs[i]? = some c' → cm[i]? = some m' → min (c' + m' + 1) (s' + m) ≤ a' + k) →
      (∀ (i : Nat) (s n : Nat) (v : Int), cs[i]? = some s → cm[i]? = some n → x[i]? = some v → (s : Int) ≤ v ∧ v < s + n) →
      (∀ i, x.getD i 0 ≤ v.getD i 0 ∧ v.getD i 0 ≤ x.getD i 0 + 1) →
      ∀ w : Vtx, within (st.map (fun (s : Nat) => (s : Int)) ++ l)
        (List.zipWith (fun (s m : Nat) => (s : Int) + m - 1) st sz ++ u) (v ++ w) = true →
      inDims dims (List.zipWith (fun x (a : Nat) => x - a) v a) = true := by
    intro cs cm st
    induction st generalizing cs cm with
    | nil =>
      intro sz a dims x v l u h1 h2 h3 h4 _ _ _ _ _ _ _ w _
      obtain rfl := List.eq_nil_of_length_eq_zero h3.symm
      obtain rfl := List.eq_nil_of_length_eq_zero h4.symm
      rfl
    | cons s0 st ih =>
      intro sz a dims x v l u h1 h2 h3 h4 h5 h6 h7 hlo hhi hbox hxv w hw
      rcases sz with _ | ⟨z0, sz⟩
      · simp at h1
      rcases a with _ | ⟨a0, a⟩
      · simp at h2
      rcases dims with _ | ⟨k0, dims⟩
      · simp at h3
      rcases v with _ | ⟨v0, v⟩
      · simp at h4
      rcases x with _ | ⟨x0, x⟩
      · simp at h5
      rcases cs with _ | ⟨c0, cs⟩
      · simp at h6
      rcases cm with _ | ⟨m0, cm⟩
      · simp at h7
      simp only [List.map_cons, List.zipWith_cons_cons, List.cons_append, within, Bool.and_eq_true,
        decide_eq_true_eq] at hw
      have q1 := hlo 0 a0 c0 rfl rfl
      have q2 := hhi 0 a0 s0 z0 k0 c0 m0 rfl rfl rfl rfl rfl rfl
      have q3 := hbox 0 c0 m0 x0 rfl rfl rfl
      have q4 := hxv 0
      simp only [List.getD_cons_zero] at q4
      simp only [List.zipWith_cons_cons, inDims, Bool.and_eq_true, decide_eq_true_eq]
      refine ⟨⟨by omega, by omega⟩, ?_⟩
      refine ih cs cm sz a dims x v l u (by simpa using h1) (by simpa using h2) (by simpa using h3) (by simpa using h4)
        (by simpa using h5) (by simpa using h6) (by simpa using h7)
        (fun i => hlo (i + 1)) (fun i => hhi (i + 1)) (fun i => hbox (i + 1)) (fun i => by simpa using hxv (i + 1)) w hw.2
  unfold Snap.read
  have : v = v.take d ++ v.drop d := (List.take_append_drop d v).symm
  rw [if_pos]
  · rfl
  · refine key c.core.starts c.core.sizes c.domain.starts c.domain.sizes c.astart s.dims (x.take d) (v.take d) [c.t0] [c.t1]
      (by rw [hc.dlen.1, hc.dlen.2]) (by rw [hc.dlen.1, hc.alen]) (by rw [hc.dlen.1, hs.len])
      (by rw [hc.dlen.1]; simp [hl]) (by rw [hc.dlen.1]; simp [hlx]) (by rw [hc.dlen.1, hc.clen.1])
      (by rw [hc.dlen.1, hc.clen.2]) hs.lo hs.hi hx.2 ?_ (v.drop d) ?_
    · intro i
      have := hxv i
      simp only [List.getD, List.getElem?_take] at this ⊢
      split
      · exact this
      · simp
    · rw [← this]
      exact hw

end Verif.Trk
