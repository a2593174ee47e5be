import Verif.Contour.Cells
import Mathlib.Data.Fin.VecNotation
import Mathlib.Tactic.FinCases
/-! The surfaces built by the 2-D contour tracker. -/
namespace Verif.Ctr
open Verif.SRM
open Verif.Trk (elemValid)

theorem trisOf_map {α β : Type} (f : α → β) (l : List α) : trisOf (l.map f) = (trisOf l).map (·.map (·.map f)) := by
  rcases l with _ | ⟨a, _ | ⟨b, _ | ⟨c, _ | ⟨e, _ | ⟨g, l⟩⟩⟩⟩⟩ <;> simp [trisOf]

/-- the triangles of a tetrahedron, by positions -/
def tri4 (ins abv : Fin 4 → Bool) : List (List (Fin 4 × Fin 4)) := (trisOf (cutP ins abv)).getD []

/-- two pairs of positions share a position -/
def share {α : Type} [DecidableEq α] (p q : α × α) : Bool := p.1 = q.1 || p.1 = q.2 || p.2 = q.1 || p.2 = q.2

theorem eta4 {α : Type} (f : Fin 4 → α) : f = ![f 0, f 1, f 2, f 3] := by
  funext i; fin_cases i <;> rfl

theorem tri4_some (ins abv : Fin 4 → Bool) : trisOf (cutP ins abv) = some (tri4 ins abv) := by
  have : ∀ i0 i1 i2 i3 a0 a1 a2 a3 : Bool, (trisOf (cutP ![i0, i1, i2, i3] ![a0, a1, a2, a3])).isSome = true := by decide +kernel
  unfold tri4
  rw [eta4 ins, eta4 abv]
  obtain ⟨x, hx⟩ := Option.isSome_iff_exists.1 (this (ins 0) (ins 1) (ins 2) (ins 3) (abv 0) (abv 1) (abv 2) (abv 3))
  rw [hx]
  rfl

theorem tri4_shape (ins abv : Fin 4 → Bool) : ∀ t ∈ tri4 ins abv, t.length = 3 ∧ t.Nodup ∧ ∀ p ∈ t, p ∈ cutP ins abv := by
  have : ∀ i0 i1 i2 i3 a0 a1 a2 a3 : Bool, (tri4 ![i0, i1, i2, i3] ![a0, a1, a2, a3]).all (fun t => decide (t.length = 3) && decide t.Nodup &&
    t.all fun p => decide (p ∈ cutP ![i0, i1, i2, i3] ![a0, a1, a2, a3])) = true := by decide +kernel
  have h := this (ins 0) (ins 1) (ins 2) (ins 3) (abv 0) (abv 1) (abv 2) (abv 3)
  rw [← eta4 ins, ← eta4 abv] at h
  simpa [List.all_eq_true, and_assoc] using h

theorem tri4_out (ins abv : Fin 4 → Bool) (h : ∃ i, ins i = false) : tri4 ins abv = [] := by
  have : ∀ i0 i1 i2 i3 a0 a1 a2 a3 : Bool, (∃ i : Fin 4, (![i0, i1, i2, i3] : Fin 4 → Bool) i = false) →
    tri4 ![i0, i1, i2, i3] ![a0, a1, a2, a3] = [] := by decide +kernel
  rw [eta4 ins, eta4 abv]
  refine this _ _ _ _ _ _ _ _ ?_
  rw [← eta4 ins]
  exact h

/-- number of triangles containing both pairs -/
def cnt {α : Type} [DecidableEq α] (p q : α) (ts : List (List α)) : Nat := ts.countP fun t => decide (p ∈ t) && decide (q ∈ t)

theorem tri4_count (ins abv : Fin 4 → Bool) (hi : ∀ i, ins i = true) : ∀ p ∈ cutP ins abv, ∀ q ∈ cutP ins abv, p ≠ q →
    if share p q then cnt p q (tri4 ins abv) = 1 else cnt p q (tri4 ins abv) = 0 ∨ cnt p q (tri4 ins abv) = 2 := by
  have : ∀ a0 a1 a2 a3 : Bool, ∀ p ∈ cutP ![true, true, true, true] ![a0, a1, a2, a3],
    ∀ q ∈ cutP ![true, true, true, true] ![a0, a1, a2, a3], p ≠ q →
    if share p q then cnt p q (tri4 ![true, true, true, true] ![a0, a1, a2, a3]) = 1
    else cnt p q (tri4 ![true, true, true, true] ![a0, a1, a2, a3]) = 0 ∨ cnt p q (tri4 ![true, true, true, true] ![a0, a1, a2, a3]) = 2 := by
    decide +kernel
  rw [eta4 ins, eta4 abv, hi, hi, hi, hi]
  exact this _ _ _ _

/-- the numbers of cut edges of a tetrahedron -/
theorem cutP4_length (ins abv : Fin 4 → Bool) (hi : ∀ i, ins i = true) :
    (cutP ins abv).length = 0 ∨ (cutP ins abv).length = 3 ∨ (cutP ins abv).length = 4 := by
  have : ∀ a0 a1 a2 a3 : Bool, (cutP ![true, true, true, true] ![a0, a1, a2, a3]).length = 0 ∨
    (cutP ![true, true, true, true] ![a0, a1, a2, a3]).length = 3 ∨ (cutP ![true, true, true, true] ![a0, a1, a2, a3]).length = 4 := by
    decide +kernel
  rw [eta4 ins, eta4 abv, hi, hi, hi, hi]
  exact this _ _ _ _

/-! ### one cell -/

theorem cnt_map {α β : Type} [DecidableEq α] [DecidableEq β] (f : α → β) (p q : α) : ∀ (ts : List (List α)),
    (∀ t ∈ ts, ∀ r ∈ t, (f r = f p → r = p) ∧ (f r = f q → r = q)) → cnt (f p) (f q) (ts.map (·.map f)) = cnt p q ts := by
  intro ts h
  unfold cnt
  rw [List.countP_map]
  apply List.countP_congr
  intro t ht
  have hm : ∀ z, (∀ r ∈ t, f r = f z → r = z) → (f z ∈ t.map f ↔ z ∈ t) := by
    intro z hz
    constructor
    · intro hh
      obtain ⟨r, hr, he⟩ := List.mem_map.1 hh
      rw [← hz r hr he]
      exact hr
    · intro hh; exact List.mem_map.2 ⟨z, hh, rfl⟩
  simp only [Function.comp_apply, Bool.and_eq_true, decide_eq_true_eq]
  rw [hm p fun r hr => (h t ht r hr).1, hm q fun r hr => (h t ht r hr).2]

theorem cnt_zero {α : Type} [DecidableEq α] {a b : α} {ts : List (List α)} (h : ∀ t ∈ ts, ¬ (a ∈ t ∧ b ∈ t)) : cnt a b ts = 0 := by
  unfold cnt
  rw [List.countP_eq_zero]
  intro t ht
  simpa using h t ht

variable {c : Cfg 2} {series : List Scal} {inter : List (Elem × Pt)}

/-- the number of a pair of positions -/
noncomputable def numAt {m : Nat} (n : Nat) (inter : List (Elem × Pt)) (w : Fin m → Vtx) (p : Fin m × Fin m) : Nat :=
  num n inter (at2 w p)

/-- the sides of the vertices -/
noncomputable def insW {d m : Nat} (c : Cfg d) (series : List Scal) (w : Fin m → Vtx) : Fin m → Bool := fun i => insB c series.length (w i)
/-- whether the vertices are above the threshold -/
noncomputable def abvW {d m : Nat} (c : Cfg d) (series : List Scal) (w : Fin m → Vtx) : Fin m → Bool := fun i => abvB c series (w i)

theorem patch2_spec (hk : Keys c series inter) {x : Elem} (hx : IsElem 3 3 x) {w : Fin 4 → Vtx}
    (hw : x.vertices 3 = some (List.ofFn w)) :
    patch2 inter x = some ((tri4 (insW c series w) (abvW c series w)).map (·.map (numAt 3 inter w))) := by
  obtain ⟨es, e1, e2⟩ := down_spec (n := 3) (by omega) 2 (k := 1) (by omega) (by omega) hx
  unfold patch2 cutIds
  rw [e1]
  simp only
  rw [ids_spec hk (k := 3) (by omega) hx hw e2, filter_pairs, List.map_map, trisOf_map,
    show (fun i => insB c series.length (w i)) = insW c series w from rfl,
    show (fun i => abvB c series (w i)) = abvW c series w from rfl, tri4_some]
  rfl

theorem inside_iff {d k : Nat} {c : Cfg d} {x : Elem} {w : Fin (k + 1) → Vtx}
    (hw : x.vertices (d + 1) = some (List.ofFn w)) : Inside c series.length x ↔ ∀ i, insW c series w i = true := by
  unfold Inside insW insB
  simp only [decide_eq_true_eq]
  constructor
  · rintro ⟨vs, h1, h2⟩ i
    rw [hw] at h1
    cases h1
    exact h2 _ (List.mem_ofFn.2 ⟨i, rfl⟩)
  · intro h
    refine ⟨_, hw, fun v hv => ?_⟩
    obtain ⟨i, rfl⟩ := List.mem_ofFn.1 hv
    exact h i

/-- a pair of positions with the number of a cut edge is that edge -/
theorem numAt_eq {d k : Nat} {c : Cfg d} (hk : Keys c series inter) {b : Vtx} {w : Fin (k + 1) → Vtx}
    (hcell : Cell (d + 1) k b (List.ofFn w)) {p : Fin (k + 1) × Fin (k + 1)}
    (hp : p ∈ cutP (insW c series w) (abvW c series w)) :
    at2 w p ∈ pairs (List.ofFn w) ∧ Cut c series (edgeOf (d + 1) (at2 w p)) ∧
    ∀ e, (inter.map Prod.fst).idxOf e = numAt (d + 1) inter w p → e = edgeOf (d + 1) (at2 w p) := by
  obtain ⟨h1, h2⟩ := List.mem_filter.1 hp
  have hm := mem_finPairs w h1
  have hcut := (cut_pair (c := c) (series := series) hcell hm).2 h2
  exact ⟨hm, hcut, fun e he => (num_inj hk hcut he.symm).symm⟩

/-- a cut edge that is a face of the cell is one of its cut pairs -/
theorem face_pos {d k : Nat} {c : Cfg d} (hd : 1 ≤ d) (hkd : k ≤ d + 1) {x : Elem} (hx : IsElem (d + 1) k x)
    {w : Fin (k + 1) → Vtx} (hw : x.vertices (d + 1) = some (List.ofFn w)) {e : Elem} {u v : Vtx} (he : CutAt c series e u v)
    (hf : FaceOf (d + 1) e x) : ∃ p ∈ cutP (insW c series w) (abvW c series w), at2 w p = (u, v) ∧ edgeOf (d + 1) (at2 w p) = e := by
  obtain ⟨vf, ve, a, b, s⟩ := (faceOf_iff (by omega) (by omega) hkd he.edge hx).1 hf
  rw [he.verts] at a
  rw [hw] at b
  cases a
  cases b
  have hp := mem_pairs.2 s
  rw [pairs_ofFn] at hp
  obtain ⟨p, hp1, hp2⟩ := List.mem_map.1 hp
  have hed : edgeOf (d + 1) (u, v) = e := edgeOf_eq (by omega) he.edge he.verts
  have hcell := cell_of_elem (by omega) hkd hx.dim hx.len hw
  refine ⟨p, List.mem_filter.2 ⟨hp1, ?_⟩, hp2, by rw [hp2, hed]⟩
  exact (cut_pair (c := c) (series := series) hcell (mem_finPairs w hp1)).1 (by rw [hp2, hed]; exact ⟨u, v, he⟩)

theorem pair_face {d k : Nat} {x : Elem} (_hx : IsElem (d + 1) k x) {w : Fin (k + 1) → Vtx}
    (hw : x.vertices (d + 1) = some (List.ofFn w)) (hcell : Cell (d + 1) k x.corner (List.ofFn w)) {q : Vtx × Vtx}
    (hq : q ∈ pairs (List.ofFn w)) : FaceOf (d + 1) (edgeOf (d + 1) q) x :=
  ⟨_, _, (edgeOf_spec (by omega) hcell hq).2, hw, fun _ hv => (mem_pairs.1 hq).subset hv⟩

/-- in how many triangles of a cell two intersections lie -/
theorem cell_count (hk : Keys c series inter) {x : Elem} (hx : IsElem 3 3 x) {ts : List (List Nat)} (hts : patch2 inter x = some ts)
    {ea eb : Elem} {u v u' v' : Vtx} (ha : CutAt c series ea u v) (hb : CutAt c series eb u' v') (hne : ea ≠ eb) :
    (¬ (FaceOf 3 ea x ∧ FaceOf 3 eb x ∧ Inside c series.length x) →
      cnt ((inter.map Prod.fst).idxOf ea) ((inter.map Prod.fst).idxOf eb) ts = 0) ∧
    (FaceOf 3 ea x → FaceOf 3 eb x → Inside c series.length x →
      if share (u, v) (u', v') then cnt ((inter.map Prod.fst).idxOf ea) ((inter.map Prod.fst).idxOf eb) ts = 1
      else cnt ((inter.map Prod.fst).idxOf ea) ((inter.map Prod.fst).idxOf eb) ts = 0 ∨
        cnt ((inter.map Prod.fst).idxOf ea) ((inter.map Prod.fst).idxOf eb) ts = 2) := by
  obtain ⟨w, hw, hwi, hcell⟩ := verts_ofFn (n := 3) (by omega) (by omega) hx
  rw [patch2_spec hk hx hw] at hts
  cases hts
  have hshape := tri4_shape (insW c series w) (abvW c series w)
  constructor
  · intro hno
    apply cnt_zero
    rintro t' ht' ⟨h1, h2⟩
    obtain ⟨t, ht, rfl⟩ := List.mem_map.1 ht'
    obtain ⟨p, hp, e1⟩ := List.mem_map.1 h1
    obtain ⟨q, hq, e2⟩ := List.mem_map.1 h2
    obtain ⟨p1, -, p3⟩ := numAt_eq hk hcell ((hshape t ht).2.2 p hp)
    obtain ⟨q1, -, q3⟩ := numAt_eq hk hcell ((hshape t ht).2.2 q hq)
    refine hno ⟨?_, ?_, ?_⟩
    · rw [p3 ea e1.symm]; exact pair_face hx hw hcell p1
    · rw [q3 eb e2.symm]; exact pair_face hx hw hcell q1
    · rw [inside_iff hw]
      intro i
      by_contra hi
      rw [tri4_out _ _ ⟨i, by simpa using hi⟩] at ht
      cases ht
  · intro f1 f2 hin
    obtain ⟨p, hp, p1, p2⟩ := face_pos (by omega) (by omega) hx hw ha f1
    obtain ⟨q, hq, q1, q2⟩ := face_pos (by omega) (by omega) hx hw hb f2
    have ea' : (inter.map Prod.fst).idxOf ea = numAt 3 inter w p := by unfold numAt num; rw [p2]
    have eb' : (inter.map Prod.fst).idxOf eb = numAt 3 inter w q := by unfold numAt num; rw [q2]
    rw [ea', eb', cnt_map]
    · have hpq : p ≠ q := by
        rintro rfl
        exact hne (p2.symm.trans q2)
      have hsh : share p q = share (u, v) (u', v') := by
        rw [← p1, ← q1]
        unfold share at2
        simp only [hwi.eq_iff]
      rw [← hsh]
      exact tri4_count _ _ ((inside_iff hw).1 hin) p hp q hq hpq
    · intro t ht r hr
      have hr' := (hshape t ht).2.2 r hr
      obtain ⟨r1, r2, r3⟩ := numAt_eq hk hcell hr'
      constructor
      · intro he
        have := r3 ea (ea'.trans he.symm)
        refine at2_inj hwi (edgeOf_inj (by omega) hcell hcell r1 ?_ (this.symm.trans p2.symm))
        exact (numAt_eq hk hcell hp).1
      · intro he
        have := r3 eb (eb'.trans he.symm)
        refine at2_inj hwi (edgeOf_inj (by omega) hcell hcell r1 ?_ (this.symm.trans q2.symm))
        exact (numAt_eq hk hcell hq).1

/-! ### two cut edges -/

/-- two cut edges of a triangle share a vertex, and every vertex of the triangle is on one of them -/
theorem tri_edges {f : Elem} (hf : IsElem 3 2 f) {ea eb : Elem} {u v u' v' : Vtx} (ha : CutAt c series ea u v)
    (hb : CutAt c series eb u' v') (hne : ea ≠ eb) (h1 : FaceOf 3 ea f) (h2 : FaceOf 3 eb f) :
    share (u, v) (u', v') = true ∧ ∀ x, FaceOf 3 ea x → FaceOf 3 eb x → FaceOf 3 f x := by
  obtain ⟨w, hw, hwi, hcell⟩ := verts_ofFn (n := 3) (by omega) (by omega) hf
  obtain ⟨p, hp, p1, p2⟩ := face_pos (by omega) (by omega) hf hw ha h1
  obtain ⟨q, hq, q1, q2⟩ := face_pos (by omega) (by omega) hf hw hb h2
  have hpq : p ≠ q := by rintro rfl; exact hne (p2.symm.trans q2)
  have key : ∀ p ∈ pairs (List.finRange 3), ∀ q ∈ pairs (List.finRange 3), p ≠ q →
      share p q = true ∧ ∀ i : Fin 3, i = p.1 ∨ i = p.2 ∨ i = q.1 ∨ i = q.2 := by decide +kernel
  obtain ⟨k1, k2⟩ := key p (List.mem_filter.1 hp).1 q (List.mem_filter.1 hq).1 hpq
  constructor
  · rw [← p1, ← q1]
    unfold share at2 at *
    simpa only [hwi.eq_iff] using k1
  · rintro x ⟨va, vx, a1, a2, a3⟩ ⟨vb, vx', b1, b2, b3⟩
    rw [a2] at b2
    cases b2
    rw [ha.verts] at a1
    rw [hb.verts] at b1
    cases a1
    cases b1
    refine ⟨_, _, hw, a2, fun z hz => ?_⟩
    obtain ⟨i, rfl⟩ := List.mem_ofFn.1 hz
    unfold at2 at p1 q1
    simp only [Prod.mk.injEq] at p1 q1
    rcases k2 i with rfl | rfl | rfl | rfl
    · exact a3 _ (by simp [p1.1])
    · exact a3 _ (by simp [p1.2])
    · exact b3 _ (by simp [q1.1])
    · exact b3 _ (by simp [q1.2])

/-- two cut edges of a cell that share a vertex lie in a common triangle -/
theorem cell_share {x : Elem} (hx : IsElem 3 3 x) {ea eb : Elem} {u v u' v' : Vtx} (ha : CutAt c series ea u v)
    (hb : CutAt c series eb u' v') (hne : ea ≠ eb) (h1 : FaceOf 3 ea x) (h2 : FaceOf 3 eb x)
    (hs : share (u, v) (u', v') = true) : ∃ f, IsElem 3 2 f ∧ FaceOf 3 ea f ∧ FaceOf 3 eb f := by
  obtain ⟨w, hw, hwi, hcell⟩ := verts_ofFn (n := 3) (by omega) (by omega) hx
  obtain ⟨p, hp, p1, p2⟩ := face_pos (by omega) (by omega) hx hw ha h1
  obtain ⟨q, hq, q1, q2⟩ := face_pos (by omega) (by omega) hx hw hb h2
  have hpq : p ≠ q := by rintro rfl; exact hne (p2.symm.trans q2)
  have hs' : share p q = true := by
    rw [← p1, ← q1] at hs
    unfold share at2 at *
    simpa only [hwi.eq_iff] using hs
  have key : ∀ p ∈ pairs (List.finRange 4), ∀ q ∈ pairs (List.finRange 4), p ≠ q → share p q = true →
      ((List.finRange 4).filter fun i => decide (i = p.1 ∨ i = p.2 ∨ i = q.1 ∨ i = q.2)).length = 3 := by decide +kernel
  have hl := key p (List.mem_filter.1 hp).1 q (List.mem_filter.1 hq).1 hpq hs'
  obtain ⟨c', hc'⟩ := sub_cell hcell (m := 2)
    (ws := ((List.finRange 4).filter fun i => decide (i = p.1 ∨ i = p.2 ∨ i = q.1 ∨ i = q.2)).map w)
    (by rw [List.ofFn_eq_map]; exact List.filter_sublist.map w) (by rw [List.length_map, hl])
  obtain ⟨f, f1, f2⟩ := isElem_of_cell (by omega) (by omega) hc'
  have hm : ∀ i, (i = p.1 ∨ i = p.2 ∨ i = q.1 ∨ i = q.2) →
      w i ∈ ((List.finRange 4).filter fun i => decide (i = p.1 ∨ i = p.2 ∨ i = q.1 ∨ i = q.2)).map w := by
    intro i hi
    exact List.mem_map.2 ⟨i, List.mem_filter.2 ⟨List.mem_finRange i, by simpa using hi⟩, rfl⟩
  unfold at2 at p1 q1
  simp only [Prod.mk.injEq] at p1 q1
  refine ⟨f, f1, ⟨_, _, ha.verts, f2, ?_⟩, ⟨_, _, hb.verts, f2, ?_⟩⟩
  · intro z hz
    rcases List.mem_cons.1 hz with rfl | hz
    · rw [← p1.1]; exact hm _ (by simp)
    · rw [List.mem_singleton.1 hz, ← p1.2]; exact hm _ (by simp)
  · intro z hz
    rcases List.mem_cons.1 hz with rfl | hz
    · rw [← q1.1]; exact hm _ (by simp)
    · rw [List.mem_singleton.1 hz, ← q1.2]; exact hm _ (by simp)

/-- two cut edges without a common vertex lie in at most one cell -/
theorem cell_disjoint {x y : Elem} (hx : IsElem 3 3 x) (hy : IsElem 3 3 y) {ea eb : Elem} {u v u' v' : Vtx}
    (ha : CutAt c series ea u v) (hb : CutAt c series eb u' v') (h1 : FaceOf 3 ea x) (h2 : FaceOf 3 eb x)
    (h3 : FaceOf 3 ea y) (h4 : FaceOf 3 eb y) (hs : share (u, v) (u', v') = false) : x = y := by
  obtain ⟨w, hw, hwi, hcell⟩ := verts_ofFn (n := 3) (by omega) (by omega) hx
  obtain ⟨p, hp, p1, p2⟩ := face_pos (by omega) (by omega) hx hw ha h1
  obtain ⟨q, hq, q1, q2⟩ := face_pos (by omega) (by omega) hx hw hb h2
  have hs' : share p q = false := by
    rw [← p1, ← q1] at hs
    unfold share at2 at *
    simpa only [hwi.eq_iff] using hs
  have key : ∀ p ∈ pairs (List.finRange 4), ∀ q ∈ pairs (List.finRange 4), share p q = false →
      ∀ i : Fin 4, i = p.1 ∨ i = p.2 ∨ i = q.1 ∨ i = q.2 := by decide +kernel
  have k2 := key p (List.mem_filter.1 hp).1 q (List.mem_filter.1 hq).1 hs'
  have hxy : FaceOf 3 x y := by
    obtain ⟨va, vy, a1, a2, a3⟩ := h3
    obtain ⟨vb, vy', b1, b2, b3⟩ := h4
    rw [a2] at b2
    cases b2
    rw [ha.verts] at a1
    rw [hb.verts] at b1
    cases a1
    cases b1
    refine ⟨_, _, hw, a2, fun z hz => ?_⟩
    obtain ⟨i, rfl⟩ := List.mem_ofFn.1 hz
    unfold at2 at p1 q1
    simp only [Prod.mk.injEq] at p1 q1
    rcases k2 i with rfl | rfl | rfl | rfl
    · exact a3 _ (by simp [p1.1])
    · exact a3 _ (by simp [p1.2])
    · exact b3 _ (by simp [q1.1])
    · exact b3 _ (by simp [q1.2])
  obtain ⟨vx, vy, e1, e2, e3⟩ := (faceOf_iff (by omega) (by omega) (by omega) hx hy).1 hxy
  have cx := cell_of_elem (by omega) (by omega) hx.dim hx.len e1
  have cy := cell_of_elem (by omega) (by omega) hy.dim hy.len e2
  have := e3.eq_of_length (by rw [cx.len, cy.len])
  subst this
  exact elem_unique (by omega) (by omega) hx hy e1 e2

/-! ### all cells -/

/-- in how many triangles of the whole surface two intersections lie -/
theorem surface_count (hk : Keys c series inter) {order : List Elem} (hnd : order.Nodup)
    (ho : ∀ x ∈ order, IsElem 3 3 x)
    (hin : ∀ x e, IsElem 3 3 x → Inside c series.length x → Cut c series e → FaceOf 3 e x → x ∈ order) :
    ∃ ts, collect (patch2 inter) order = some ts ∧
      (∀ t ∈ ts, ∃ x ∈ order, Inside c series.length x ∧ ∃ l, patch2 inter x = some l ∧ t ∈ l) ∧
      (∀ x ∈ order, Inside c series.length x → ∃ l, patch2 inter x = some l ∧ ∀ t ∈ l, t ∈ ts) ∧
      ∀ ea eb, Cut c series ea → Cut c series eb → ea ≠ eb →
        (∀ f, IsElem 3 2 f → FaceOf 3 ea f → FaceOf 3 eb f → ∀ a b, a ≠ b → f.sideOf 3 = some [a, b] →
          (cnt ((inter.map Prod.fst).idxOf ea) ((inter.map Prod.fst).idxOf eb) ts : Nat) =
            (open Classical in (if Inside c series.length a then 1 else 0) + if Inside c series.length b then 1 else 0)) ∧
        ((∀ f, IsElem 3 2 f → FaceOf 3 ea f → ¬ FaceOf 3 eb f) →
          cnt ((inter.map Prod.fst).idxOf ea) ((inter.map Prod.fst).idxOf eb) ts = 0 ∨
          cnt ((inter.map Prod.fst).idxOf ea) ((inter.map Prod.fst).idxOf eb) ts = 2) := by
  have hp : ∀ x ∈ order, patch2 inter x = some ((patch2 inter x).getD []) := by
    intro x hx
    obtain ⟨w, hw, -, -⟩ := verts_ofFn (n := 3) (by omega) (by omega) (ho x hx)
    rw [patch2_spec hk (ho x hx) hw]
    rfl
  refine ⟨_, collect_eq hp, ?_, ?_, ?_⟩
  · intro t ht
    obtain ⟨x, hx, htx⟩ := List.mem_flatMap.1 ht
    refine ⟨x, hx, ?_, _, hp x hx, htx⟩
    obtain ⟨w, hw, -, -⟩ := verts_ofFn (n := 3) (by omega) (by omega) (ho x hx)
    rw [inside_iff hw]
    intro i
    by_contra hi
    rw [patch2_spec hk (ho x hx) hw, tri4_out _ _ ⟨i, by simpa using hi⟩] at htx
    cases htx
  · intro x hx _
    exact ⟨_, hp x hx, fun t ht => List.mem_flatMap.2 ⟨x, hx, ht⟩⟩
  · rintro ea eb ⟨u, v, ha⟩ ⟨u', v', hb⟩ hne
    have hcnt : ∀ l : List Elem, cnt ((inter.map Prod.fst).idxOf ea) ((inter.map Prod.fst).idxOf eb) (l.flatMap fun x => (patch2 inter x).getD []) =
        (l.map fun x => cnt ((inter.map Prod.fst).idxOf ea) ((inter.map Prod.fst).idxOf eb) ((patch2 inter x).getD [])).sum :=
      fun l => countP_flatMap _ _ l
    rw [hcnt]
    have hcell := fun x (hx : x ∈ order) => cell_count hk (ho x hx) (hp x hx) ha hb hne
    have hsupp : ∀ x ∈ order, cnt ((inter.map Prod.fst).idxOf ea) ((inter.map Prod.fst).idxOf eb) ((patch2 inter x).getD []) ≠ 0 →
        FaceOf 3 ea x ∧ FaceOf 3 eb x ∧ Inside c series.length x := by
      intro x hx h
      by_contra hcon
      exact h ((hcell x hx).1 hcon)
    constructor
    · intro f hf h1 h2 a b hab hsides
      obtain ⟨hsh, hall⟩ := tri_edges hf ha hb hne h1 h2
      obtain ⟨S, s1, s2⟩ := sideOf_iff (n := 3) (by omega) (by omega) hf
      rw [hsides] at s1
      cases s1
      rw [sum_two hab hnd (fun x hx h => by
        obtain ⟨f1, f2, f3⟩ := hsupp x hx h
        have := (s2 x).2 ⟨ho x hx, hall x f1 f2⟩
        simpa using this)]
      have one : ∀ x, x ∈ [a, b] → (if x ∈ order then
          cnt ((inter.map Prod.fst).idxOf ea) ((inter.map Prod.fst).idxOf eb) ((patch2 inter x).getD []) else 0) =
          (open Classical in if Inside c series.length x then 1 else 0) := by
        intro x hx
        obtain ⟨x1, x2⟩ := (s2 x).1 hx
        by_cases hi : Inside c series.length x
        · have hxo := hin x ea x1 hi ⟨u, v, ha⟩ (h1.trans x2)
          have := (hcell x hxo).2 (h1.trans x2) (h2.trans x2) hi
          rw [hsh] at this
          rw [if_pos hxo, if_pos hi]
          simpa using this
        · rw [if_neg hi]
          by_cases hxo : x ∈ order
          · rw [if_pos hxo]
            exact (hcell x hxo).1 fun h => hi h.2.2
          · rw [if_neg hxo]
      rw [one a (by simp), one b (by simp)]
    · intro hno
      by_cases hex : ∃ x ∈ order, FaceOf 3 ea x ∧ FaceOf 3 eb x ∧ Inside c series.length x
      · obtain ⟨x, hx, f1, f2, f3⟩ := hex
        have hsh : share (u, v) (u', v') = false := by
          by_contra hcon
          obtain ⟨f, g1, g2, g3⟩ := cell_share (ho x hx) ha hb hne f1 f2 (by simpa using hcon)
          exact hno f g1 g2 g3
        rw [sum_one (a := x) hnd (fun y hy h => by
          obtain ⟨f1', f2', -⟩ := hsupp y hy h
          exact cell_disjoint (ho y hy) (ho x hx) ha hb f1' f2' f1 f2 hsh), if_pos hx]
        have := (hcell x hx).2 f1 f2 f3
        rw [hsh] at this
        simpa using this
      · left
        rw [List.sum_eq_zero]
        intro k hk'
        obtain ⟨x, hx, rfl⟩ := List.mem_map.1 hk'
        by_contra h
        exact hex ⟨x, hx, hsupp x hx h⟩

end Verif.Ctr
