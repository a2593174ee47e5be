import Verif.Contour.Surface
/-! The isovolumes built by the 3-D contour tracker. -/
namespace Verif.Ctr
open Verif.SRM
open Verif.Trk (elemValid)
variable {c : Cfg 3} {series : List Scal} {inter : List (Elem × Pt)}

/-! ### the sides of a cell, by position -/

/-- the positions left when one of five is dropped -/
def others (i : Fin 5) : List (Fin 5) := (List.finRange 5).filter fun j => decide (j ≠ i)

theorem others_eq : ∀ i : Fin 5, (List.finRange 5).eraseIdx i.val = others i := by decide +kernel

theorem others_inj : ∀ i j : Fin 5, others i = others j → i = j := by decide +kernel

/-- the sides of a pentachoron, in the order of `sides`, by the position left out -/
theorem sides_pos {x : Elem} (hx : IsElem 4 4 x) {w : Fin 5 → Vtx} (hw : x.vertices 4 = some (List.ofFn w))
    (hwi : Function.Injective w) (hcell : Cell 4 4 x.corner (List.ofFn w)) :
    ∃ (S : List Elem) (s : Fin 5 → Elem) (σ : List (Fin 5)), x.sides 4 = some S ∧ σ.Perm (List.finRange 5) ∧ S = σ.map s ∧
      ∀ i, IsElem 4 3 (s i) ∧ (s i).vertices 4 = some ((others i).map w) ∧ FaceOf 4 (s i) x := by
  obtain ⟨S, h1, h2, h3⟩ := sides_iff (n := 4) (by omega) (k := 3) (by omega) hx
  have hsub : ∀ i, ((others i).map w).Sublist (List.ofFn w) := by
    intro i
    rw [List.ofFn_eq_map]
    exact List.filter_sublist.map w
  have hlen : ∀ i : Fin 5, (others i).length = 4 := by decide +kernel
  have hex : ∀ i, ∃ e, IsElem 4 3 e ∧ e.vertices 4 = some ((others i).map w) := by
    intro i
    obtain ⟨c', hc'⟩ := sub_cell hcell (m := 3) (hsub i) (by rw [List.length_map, hlen])
    exact isElem_of_cell (by omega) (by omega) hc'
  choose s hs1 hs2 using hex
  have hinj : Function.Injective s := by
    intro i j hij
    have := hs2 i
    rw [hij, hs2 j] at this
    simp only [Option.some.injEq] at this
    exact (others_inj j i (List.map_injective_iff.2 hwi this)).symm
  have hface : ∀ i, FaceOf 4 (s i) x := fun i => ⟨_, _, hs2 i, hw, fun v hv => (hsub i).subset hv⟩
  have hpos : ∀ f ∈ S, ∃ i, s i = f := by
    intro f hf
    obtain ⟨f1, f2⟩ := (h3 f).1 hf
    obtain ⟨vf, ve, a, b, sl⟩ := (faceOf_iff (by omega) (by omega) (by omega) f1 hx).1 f2
    rw [hw] at b
    cases b
    have cf := cell_of_elem (by omega) (by omega) f1.dim f1.len a
    obtain ⟨i, hi, he⟩ := dropsOne_of_sublist sl (by rw [cf.len, List.length_ofFn])
    rw [List.length_ofFn] at hi
    have e : vf = (others ⟨i, hi⟩).map w := by
      rw [he, List.ofFn_eq_map, List.eraseIdx_map, ← others_eq ⟨i, hi⟩]
    exact ⟨⟨i, hi⟩, elem_unique (by omega) (by omega) (hs1 _) f1 (hs2 _) (e ▸ a)⟩
  classical
  choose! g hg using hpos
  refine ⟨S, s, S.map g, h1, ?_, ?_, fun i => ⟨hs1 i, hs2 i, hface i⟩⟩
  · refine (List.perm_ext_iff_of_nodup ?_ (List.nodup_finRange 5)).2 fun i => ⟨fun _ => List.mem_finRange i, fun _ => ?_⟩
    · refine (List.nodup_map_iff_inj_on h2).2 fun a ha b hb hab => ?_
      rw [← hg a ha, ← hg b hb, hab]
    · have hm : s i ∈ S := (h3 _).2 ⟨hs1 i, hface i⟩
      exact List.mem_map.2 ⟨s i, hm, hinj (hg _ hm)⟩
  · rw [List.map_map]
    conv_lhs => rw [← List.map_id S]
    apply List.map_congr_left
    intro f hf
    exact (hg f hf).symm

/-- the cut pairs of the side that leaves out position `i` -/
def cutD (ins abv : Fin 5 → Bool) (i : Fin 5) : List (Fin 5 × Fin 5) :=
  (pairs (others i)).filter fun p => ins p.1 && ins p.2 && (abv p.1 != abv p.2)

theorem sideIds_spec (hk : Keys c series inter) {x : Elem} (hv : elemValid 4 c.bounds x = true)
    {w : Fin 5 → Vtx} {t : Elem} (ht : IsElem 4 3 t) (htx : FaceOf 4 t x) {i : Fin 5} (hvt : t.vertices 4 = some ((others i).map w)) :
    sideIds c.bounds inter t = some ((cutD (insW c series w) (abvW c series w) i).map (numAt 4 inter w)) := by
  obtain ⟨S, h1, -, h3⟩ := sides_iff (n := 4) (by omega) (k := 2) (by omega) ht
  have hvalid : ∀ y, FaceOf 4 y t → elemValid 4 c.bounds y = true := fun y hy => elemValid_face (hy.trans htx) hv
  have hf : S.filter (elemValid 4 c.bounds) = S := List.filter_eq_self.2 fun y hy => hvalid y ((h3 y).1 hy).2
  obtain ⟨es, e1, e2⟩ := mem_collect (f := fun tri : Elem => (tri.sides 4).map fun es => es.filter (elemValid 4 c.bounds)) (l := S)
    (P := fun g y => IsElem 4 1 y ∧ FaceOf 4 y g) (by
      intro g hg
      obtain ⟨g1, g2⟩ := (h3 g).1 hg
      obtain ⟨R, r1, -, r3⟩ := sides_iff (n := 4) (by omega) (k := 1) (by omega) g1
      refine ⟨R.filter (elemValid 4 c.bounds), by rw [r1]; rfl, fun y => ?_⟩
      rw [List.mem_filter, r3]
      exact ⟨fun h => h.1, fun h => ⟨h, hvalid y (h.2.trans g2)⟩⟩)
  have hes : ∀ y, y ∈ es ↔ IsElem 4 1 y ∧ FaceOf 4 y t := by
    intro y
    rw [e2]
    constructor
    · rintro ⟨g, hg, y1, y2⟩
      exact ⟨y1, y2.trans ((h3 g).1 hg).2⟩
    · rintro ⟨y1, y2⟩
      obtain ⟨g, g1, g2, g3⟩ := between_elem (n := 4) (by omega) (by omega) (by omega) y1 ht y2
      exact ⟨g, (h3 g).2 ⟨g1, g3⟩, y1, g2⟩
  unfold sideIds
  rw [h1]
  simp only [hf, e1]
  rw [ids_spec hk (k := 3) (by omega) ht hvt hes, pairs_map, List.filter_map, List.map_map]
  rfl

/-! ### the six-edge case, by position -/

/-- number of vertices on the same side as `i` -/
def mates (abv : Fin 5 → Bool) (i : Fin 5) : Nat := (List.finRange 5).countP fun j => abv j == abv i

/-- `i` is one of exactly two vertices on its side -/
def minor (abv : Fin 5 → Bool) (i : Fin 5) : Bool := mates abv i == 2

theorem eta5 {α : Type} (f : Fin 5 → α) : f = ![f 0, f 1, f 2, f 3, f 4] := by
  funext i; fin_cases i <;> rfl

/-- the sides in the loop over the sides of a cell with six cut edges -/
theorem sidePatches_eq {α : Type} (b : Bounds) (f : α → List Nat) (s : α → Elem) (hs : ∀ i, sideIds b inter (s i) = some (f i)) :
    ∀ (σ : List α) (ts qs : List (List Nat)), (∀ i ∈ σ, (f i).length ≤ 4) →
      ts.length + (σ.filter fun i => decide ((f i).length = 3)).length ≤ 2 →
      qs.length + (σ.filter fun i => decide ((f i).length = 4)).length ≤ 3 →
      sidePatches b inter (σ.map s) ts qs =
        some (ts ++ (σ.filter fun i => decide ((f i).length = 3)).map f, qs ++ (σ.filter fun i => decide ((f i).length = 4)).map f)
  | [], ts, qs, _, _, _ => by simp [sidePatches]
  | i :: σ, ts, qs, h4, ht, hq => by
    have hi := h4 i (by simp)
    have ih := fun ts qs => sidePatches_eq b f s hs σ ts qs fun j hj => h4 j (by simp [hj])
    simp only [List.map_cons, sidePatches, hs]
    rw [if_neg (by omega)]
    by_cases h3 : (f i).length = 3
    · have hn4 : ¬ (f i).length = 4 := by omega
      simp only [List.filter_cons, h3, decide_true, if_true, List.length_cons,
        show decide (3 = 4) = false from rfl, if_false, Bool.false_eq_true] at ht hq ⊢
      rw [if_neg (by omega), ih _ _ (by rw [List.length_append, List.length_singleton]; omega) hq]
      simp
    · by_cases hh4 : (f i).length = 4
      · simp only [List.filter_cons, hh4, decide_true, if_true, List.length_cons,
          show decide (4 = 3) = false from rfl, if_false, Bool.false_eq_true] at ht hq ⊢
        rw [if_neg (show ¬ (4 = 3) by omega), if_neg (by omega), ih _ _ ht (by rw [List.length_append, List.length_singleton]; omega)]
        simp
      · simp only [List.filter_cons, h3, hh4, decide_false, if_false, Bool.false_eq_true] at ht hq ⊢
        rw [ih _ _ ht hq]

/-- facts about the patterns with six cut edges -/
theorem six_facts : ∀ a0 a1 a2 a3 a4 : Bool, (cutP ![true, true, true, true, true] ![a0, a1, a2, a3, a4]).length = 6 →
    ∀ i, ((cutD ![true, true, true, true, true] ![a0, a1, a2, a3, a4] i).length = 3 ↔ minor ![a0, a1, a2, a3, a4] i = true) ∧
      ((cutD ![true, true, true, true, true] ![a0, a1, a2, a3, a4] i).length = 4 ↔ minor ![a0, a1, a2, a3, a4] i = false) := by
  decide +kernel

theorem six_count : ∀ a0 a1 a2 a3 a4 : Bool, (cutP ![true, true, true, true, true] ![a0, a1, a2, a3, a4]).length = 6 →
    ((List.finRange 5).filter fun i => minor ![a0, a1, a2, a3, a4] i).length = 2 ∧
    ((List.finRange 5).filter fun i => !minor ![a0, a1, a2, a3, a4] i).length = 3 := by
  decide +kernel

/-- a cell with six cut edges lies inside -/
theorem six_inside : ∀ i0 i1 i2 i3 i4 a0 a1 a2 a3 a4 : Bool, 6 ≤ (cutP ![i0, i1, i2, i3, i4] ![a0, a1, a2, a3, a4]).length →
    ∀ i, (![i0, i1, i2, i3, i4] : Fin 5 → Bool) i = true := by
  decide +kernel

theorem cutP5_le : ∀ i0 i1 i2 i3 i4 a0 a1 a2 a3 a4 : Bool, (cutP ![i0, i1, i2, i3, i4] ![a0, a1, a2, a3, a4]).length ≤ 6 := by
  decide +kernel

/-- the pair of two positions, in order -/
def ord2 (a b : Fin 5) : Fin 5 × Fin 5 := if a < b then (a, b) else (b, a)

/-- the staircase triangulation of the prism between the vertices `p`, `q` and the three others -/
def stair (p q : Fin 5) : List (Fin 5) → List (List (Fin 5 × Fin 5))
  | [k0, k1, k2] => [[ord2 p k0, ord2 p k1, ord2 p k2, ord2 q k2], [ord2 p k0, ord2 p k1, ord2 q k1, ord2 q k2],
      [ord2 p k0, ord2 q k0, ord2 q k1, ord2 q k2]]
  | _ => []

/-- the vertices that are not among exactly two on their side -/
def majors (abv : Fin 5 → Bool) : List (Fin 5) := (List.finRange 5).filter fun i => !minor abv i

/-- the tetrahedra of a pentachoron, by positions; `m` = the two vertices on one side, in the order of `sides` -/
def tet5 (ins abv : Fin 5 → Bool) (m : List (Fin 5)) : List (List (Fin 5 × Fin 5)) :=
  if (cutP ins abv).length = 4 then [cutP ins abv]
  else if (cutP ins abv).length = 6 then
    match m with
    | [p, q] => stair q p (majors abv)
    | _ => []
  else []

theorem six_stair : ∀ a0 a1 a2 a3 a4 : Bool, (cutP ![true, true, true, true, true] ![a0, a1, a2, a3, a4]).length = 6 →
    ∀ p q, minor ![a0, a1, a2, a3, a4] p = true → minor ![a0, a1, a2, a3, a4] q = true → p ≠ q →
    staircase ([cutD ![true, true, true, true, true] ![a0, a1, a2, a3, a4] p, cutD ![true, true, true, true, true] ![a0, a1, a2, a3, a4] q],
      (majors ![a0, a1, a2, a3, a4]).map fun _ => []) = some (stair q p (majors ![a0, a1, a2, a3, a4])) := by
  decide +kernel

theorem staircase_map {α β : Type} (f : α → β) (ts qs : List (List α)) (qs' : List (List β)) (h : qs'.length = qs.length) :
    staircase (ts.map (·.map f), qs') = (staircase (ts, qs)).map (·.map (·.map f)) := by
  rcases ts with _ | ⟨x, _ | ⟨y, _ | ⟨z, ts⟩⟩⟩
  · rfl
  · rcases x with _ | ⟨_, _ | ⟨_, _ | ⟨_, _ | ⟨_, _⟩⟩⟩⟩ <;> rfl
  · rcases x with _ | ⟨_, _ | ⟨_, _ | ⟨_, _ | ⟨_, _⟩⟩⟩⟩ <;> try rfl
    rcases y with _ | ⟨_, _ | ⟨_, _ | ⟨_, _ | ⟨_, _⟩⟩⟩⟩ <;> try rfl
    simp only [List.map_cons, List.map_nil, staircase, h]
    split <;> rfl
  · rcases x with _ | ⟨_, _ | ⟨_, _ | ⟨_, _ | ⟨_, _⟩⟩⟩⟩ <;> try rfl
    rcases y with _ | ⟨_, _ | ⟨_, _ | ⟨_, _ | ⟨_, _⟩⟩⟩⟩ <;> rfl

theorem cutP5_length_le (ins abv : Fin 5 → Bool) : (cutP ins abv).length ≤ 6 := by
  rw [eta5 ins, eta5 abv]; exact cutP5_le _ _ _ _ _ _ _ _ _ _

theorem cutP5_inside (ins abv : Fin 5 → Bool) (h : (cutP ins abv).length = 6) : ∀ i, ins i = true := by
  have := six_inside (ins 0) (ins 1) (ins 2) (ins 3) (ins 4) (abv 0) (abv 1) (abv 2) (abv 3) (abv 4)
  rw [← eta5 ins, ← eta5 abv] at this
  exact this (by omega)

/-- the two vertices on one side, in the order of the list of sides -/
def minors (abv : Fin 5 → Bool) (σ : List (Fin 5)) : List (Fin 5) := σ.filter fun i => minor abv i

theorem minors_two {abv : Fin 5 → Bool} {ins : Fin 5 → Bool} (h : (cutP ins abv).length = 6) {σ : List (Fin 5)}
    (hσ : σ.Perm (List.finRange 5)) : ∃ p q, minors abv σ = [p, q] ∧ p ≠ q ∧ minor abv p = true ∧ minor abv q = true := by
  have hi := cutP5_inside ins abv h
  have h2 := (six_count (abv 0) (abv 1) (abv 2) (abv 3) (abv 4) (by
    rw [eta5 ins, eta5 abv, hi, hi, hi, hi, hi] at h; exact h)).1
  rw [← eta5 abv, ← (hσ.filter _).length_eq] at h2
  have hnd : (minors abv σ).Nodup := (hσ.nodup_iff.2 (List.nodup_finRange 5)).filter _
  obtain ⟨p, q, hpq⟩ := List.length_eq_two.1 h2
  have hpq' : minors abv σ = [p, q] := hpq
  rw [hpq'] at hnd
  have hm : ∀ i ∈ minors abv σ, minor abv i = true := fun i hi => (List.mem_filter.1 hi).2
  rw [hpq'] at hm
  exact ⟨p, q, hpq', by simpa using hnd, hm p (by simp), hm q (by simp)⟩

/-- the tetrahedra of a related cell -/
theorem patch3_spec (hk : Keys c series inter) {x : Elem} (hx : IsElem 4 4 x) (hv : elemValid 4 c.bounds x = true) {w : Fin 5 → Vtx}
    (hw : x.vertices 4 = some (List.ofFn w)) {s : Fin 5 → Elem} {σ : List (Fin 5)} (h1 : x.sides 4 = some (σ.map s))
    (h2 : σ.Perm (List.finRange 5))
    (h3 : ∀ i, IsElem 4 3 (s i) ∧ (s i).vertices 4 = some ((others i).map w) ∧ FaceOf 4 (s i) x) :
    patch3 c.bounds inter x = some ((tet5 (insW c series w) (abvW c series w) (minors (abvW c series w) σ)).map (·.map (numAt 4 inter w))) := by
  obtain ⟨es, e1, e2⟩ := down_spec (n := 4) (by omega) 3 (k := 1) (by omega) (by omega) hx
  unfold patch3 cutIds
  rw [e1]
  simp only
  rw [ids_spec hk (k := 4) (by omega) hx hw e2, filter_pairs, List.map_map,
    show (fun i => insB c series.length (w i)) = insW c series w from rfl,
    show (fun i => abvB c series (w i)) = abvW c series w from rfl, h1]
  have hle := cutP5_length_le (insW c series w) (abvW c series w)
  have hsides : ∀ i, sideIds c.bounds inter (s i) = some ((cutD (insW c series w) (abvW c series w) i).map (numAt 4 inter w)) :=
    fun i => sideIds_spec hk hv (h3 i).1 (h3 i).2.2 (h3 i).2.1
  generalize insW c series w = ins at *
  generalize abvW c series w = abv at *
  rw [List.length_map, if_neg (by omega)]
  unfold tet5
  by_cases h4 : (cutP ins abv).length = 4
  · rw [if_pos h4, if_pos h4]
    rfl
  rw [if_neg h4, if_neg h4]
  by_cases h6 : (cutP ins abv).length = 6
  swap
  · rw [if_neg h6, if_neg h6]; rfl
  rw [if_pos h6, if_pos h6]
  have hi := cutP5_inside ins abv h6
  obtain ⟨p, q, hm, hpq, mp, mq⟩ := minors_two h6 h2
  have hins : ins = ![true, true, true, true, true] := by rw [eta5 ins, hi, hi, hi, hi, hi]
  have h6' := h6
  rw [hins, eta5 abv] at h6'
  have hf := six_facts _ _ _ _ _ h6'
  rw [← eta5 abv, ← hins] at hf
  obtain ⟨c2, c3⟩ := six_count _ _ _ _ _ h6'
  rw [← eta5 abv] at c2 c3
  have hst := six_stair _ _ _ _ _ h6' p q (by rw [← eta5 abv]; exact mp) (by rw [← eta5 abv]; exact mq) hpq
  rw [← eta5 abv, ← hins] at hst
  have f3 : (σ.filter fun i => decide (((cutD ins abv i).map (numAt 4 inter w)).length = 3)) = minors abv σ := by
    unfold minors
    apply List.filter_congr
    intro i _
    rw [List.length_map, Bool.eq_iff_iff, decide_eq_true_iff]
    exact (hf i).1
  have f4 : (σ.filter fun i => decide (((cutD ins abv i).map (numAt 4 inter w)).length = 4)) = σ.filter fun i => !minor abv i := by
    apply List.filter_congr
    intro i _
    rw [List.length_map, Bool.eq_iff_iff, decide_eq_true_iff, Bool.not_eq_true']
    exact (hf i).2
  have l4 : (σ.filter fun i => !minor abv i).length = 3 := by rw [(h2.filter _).length_eq, c3]
  simp only
  rw [sidePatches_eq c.bounds (fun i => (cutD ins abv i).map (numAt 4 inter w)) s hsides σ [] [] ?_ ?_ ?_]
  · rw [f3, f4, hm, Option.bind_some]
    simp only [List.nil_append]
    have := staircase_map (numAt 4 inter w) [cutD ins abv p, cutD ins abv q] ((majors abv).map fun _ => [])
      ((σ.filter fun i => !minor abv i).map fun i => (cutD ins abv i).map (numAt 4 inter w))
      (by rw [List.length_map, List.length_map, l4]; exact c3.symm)
    rw [hst] at this
    exact this
  · intro i _
    rw [List.length_map]
    rcases Bool.eq_false_or_eq_true (minor abv i) with h | h
    · rw [(hf i).1.2 h]; omega
    · rw [(hf i).2.2 h]
  · rw [f3, hm]; simp
  · rw [f4, l4]; simp

/-! ### properties of the patterns -/

theorem tet5_four : ∀ i0 i1 i2 i3 i4 a0 a1 a2 a3 a4 : Bool, (cutP ![i0, i1, i2, i3, i4] ![a0, a1, a2, a3, a4]).Nodup := by
  decide +kernel

theorem tet5_six : ∀ a0 a1 a2 a3 a4 : Bool, (cutP ![true, true, true, true, true] ![a0, a1, a2, a3, a4]).length = 6 →
    ∀ p q, minor ![a0, a1, a2, a3, a4] p = true → minor ![a0, a1, a2, a3, a4] q = true → p ≠ q →
    (stair q p (majors ![a0, a1, a2, a3, a4])).all (fun t => decide (t.length = 4) && decide t.Nodup &&
      t.all fun e => decide (e ∈ cutP ![true, true, true, true, true] ![a0, a1, a2, a3, a4])) = true := by
  decide +kernel

theorem tet5_shape (ins abv : Fin 5 → Bool) {σ : List (Fin 5)} (hσ : σ.Perm (List.finRange 5)) :
    ∀ t ∈ tet5 ins abv (minors abv σ), t.length = 4 ∧ t.Nodup ∧ ∀ e ∈ t, e ∈ cutP ins abv := by
  intro t ht
  unfold tet5 at ht
  split at ht
  · next h =>
    rw [List.mem_singleton.1 ht]
    refine ⟨h, ?_, fun e he => he⟩
    rw [eta5 ins, eta5 abv]
    exact tet5_four _ _ _ _ _ _ _ _ _ _
  · split at ht
    · next h6 =>
      obtain ⟨p, q, hm, hpq, mp, mq⟩ := minors_two h6 hσ
      have hi := cutP5_inside ins abv h6
      have hins : ins = ![true, true, true, true, true] := by rw [eta5 ins, hi, hi, hi, hi, hi]
      rw [hm] at ht
      have := tet5_six (abv 0) (abv 1) (abv 2) (abv 3) (abv 4) (by rw [← eta5 abv, ← hins]; exact h6) p q
        (by rw [← eta5 abv]; exact mp) (by rw [← eta5 abv]; exact mq) hpq
      rw [← eta5 abv, ← hins, List.all_eq_true] at this
      have := this t ht
      simpa [List.all_eq_true, and_assoc] using this
    · cases ht

theorem in_cases : ∀ a0 a1 a2 a3 a4 : Bool,
    ((cutP ![true, true, true, true, true] ![a0, a1, a2, a3, a4]).length = 0 ∧
      ∀ i j : Fin 5, (![a0, a1, a2, a3, a4] : Fin 5 → Bool) i = (![a0, a1, a2, a3, a4] : Fin 5 → Bool) j) ∨
    ((cutP ![true, true, true, true, true] ![a0, a1, a2, a3, a4]).length = 4 ∧
      ∃ i : Fin 5, (∀ j, j ≠ i → (![a0, a1, a2, a3, a4] : Fin 5 → Bool) j ≠ (![a0, a1, a2, a3, a4] : Fin 5 → Bool) i) ∧
        cutP ![true, true, true, true, true] ![a0, a1, a2, a3, a4] = (others i).map (ord2 i)) ∨
    (cutP ![true, true, true, true, true] ![a0, a1, a2, a3, a4]).length = 6 := by
  decide +kernel

theorem six_cases : ∀ a0 a1 a2 a3 a4 : Bool, (cutP ![true, true, true, true, true] ![a0, a1, a2, a3, a4]).length = 6 →
    (∀ p q, minor ![a0, a1, a2, a3, a4] p = true → minor ![a0, a1, a2, a3, a4] q = true →
      (![a0, a1, a2, a3, a4] : Fin 5 → Bool) p = (![a0, a1, a2, a3, a4] : Fin 5 → Bool) q ∧
      ∀ k ∈ majors ![a0, a1, a2, a3, a4], (![a0, a1, a2, a3, a4] : Fin 5 → Bool) k ≠ (![a0, a1, a2, a3, a4] : Fin 5 → Bool) p) ∧
    ∃ k0 k1 k2, majors ![a0, a1, a2, a3, a4] = [k0, k1, k2] ∧ k0 < k1 ∧ k1 < k2 := by
  decide +kernel

theorem out_cases : ∀ i0 i1 i2 i3 i4 a0 a1 a2 a3 a4 : Bool, ∀ i : Fin 5, (![i0, i1, i2, i3, i4] : Fin 5 → Bool) i = false →
    cutP ![i0, i1, i2, i3, i4] ![a0, a1, a2, a3, a4] = cutD ![i0, i1, i2, i3, i4] ![a0, a1, a2, a3, a4] i := by
  decide +kernel

theorem pairs_others : ∀ (i : Fin 5) (p : Fin 5 × Fin 5),
    p ∈ pairs (others i) ↔ p ∈ pairs (List.finRange 5) ∧ p.1 ≠ i ∧ p.2 ≠ i := by
  decide +kernel

theorem tri_four : ∀ a0 a1 a2 a3 a4 : Bool, ∀ i : Fin 5, (cutD ![true, true, true, true, true] ![a0, a1, a2, a3, a4] i).length = 3 →
    (cutP ![true, true, true, true, true] ![a0, a1, a2, a3, a4]).length = 4 →
    (cutD ![true, true, true, true, true] ![a0, a1, a2, a3, a4] i).all (fun e => decide (e ∈ cutP ![true, true, true, true, true] ![a0, a1, a2, a3, a4])) = true := by
  decide +kernel

theorem tri_six : ∀ a0 a1 a2 a3 a4 : Bool, ∀ i : Fin 5, (cutD ![true, true, true, true, true] ![a0, a1, a2, a3, a4] i).length = 3 →
    (cutP ![true, true, true, true, true] ![a0, a1, a2, a3, a4]).length = 6 →
    ∀ p q, minor ![a0, a1, a2, a3, a4] p = true → minor ![a0, a1, a2, a3, a4] q = true → p ≠ q →
    (stair q p (majors ![a0, a1, a2, a3, a4])).countP (fun t =>
        (cutD ![true, true, true, true, true] ![a0, a1, a2, a3, a4] i).all fun e => decide (e ∈ t)) = 1 := by
  decide +kernel

theorem tri_or : ∀ a0 a1 a2 a3 a4 : Bool, ∀ i : Fin 5, (cutD ![true, true, true, true, true] ![a0, a1, a2, a3, a4] i).length = 3 →
    (cutP ![true, true, true, true, true] ![a0, a1, a2, a3, a4]).length = 4 ∨
      (cutP ![true, true, true, true, true] ![a0, a1, a2, a3, a4]).length = 6 := by
  decide +kernel

theorem tet5_count (ins abv : Fin 5 → Bool) (hi : ∀ i, ins i = true) {σ : List (Fin 5)} (hσ : σ.Perm (List.finRange 5)) {i : Fin 5}
    (h3 : (cutD ins abv i).length = 3) :
    (tet5 ins abv (minors abv σ)).countP (fun t => (cutD ins abv i).all fun e => decide (e ∈ t)) = 1 := by
  have hins : ins = ![true, true, true, true, true] := by rw [eta5 ins, hi, hi, hi, hi, hi]
  have t4 := tri_four (abv 0) (abv 1) (abv 2) (abv 3) (abv 4) i (by rw [← eta5 abv, ← hins]; exact h3)
  have t6 := tri_six (abv 0) (abv 1) (abv 2) (abv 3) (abv 4) i (by rw [← eta5 abv, ← hins]; exact h3)
  have hor := tri_or (abv 0) (abv 1) (abv 2) (abv 3) (abv 4) i (by rw [← eta5 abv, ← hins]; exact h3)
  rw [← eta5 abv, ← hins] at t4 t6 hor
  unfold tet5
  rcases hor with h | h
  · rw [if_pos h, List.countP_cons, if_pos]
    · rfl
    · exact t4 h
  · rw [if_neg (by omega), if_pos h]
    obtain ⟨p, q, hm, hpq, mp, mq⟩ := minors_two h hσ
    rw [hm]
    exact t6 h p q mp mq hpq

/-- a related cell that is not inside contributes at most one tetrahedron, and only if four of its vertices are inside, two on
each side -/
theorem tet5_out (ins abv : Fin 5 → Bool) {i : Fin 5} (hi : ins i = false) (m : List (Fin 5)) :
    (tet5 ins abv m = [] ∧ (cutD ins abv i).length ≠ 4) ∨ (tet5 ins abv m = [cutD ins abv i] ∧ (cutD ins abv i).length = 4) := by
  have he : cutP ins abv = cutD ins abv i := by
    have := out_cases (ins 0) (ins 1) (ins 2) (ins 3) (ins 4) (abv 0) (abv 1) (abv 2) (abv 3) (abv 4) i
    rw [← eta5 ins, ← eta5 abv] at this
    exact this hi
  unfold tet5
  by_cases h4 : (cutP ins abv).length = 4
  · rw [if_pos h4, he]
    exact Or.inr ⟨rfl, he ▸ h4⟩
  · rw [if_neg h4]
    left
    refine ⟨?_, he ▸ h4⟩
    rw [if_neg]
    intro h6
    have := cutP5_inside ins abv h6 i
    rw [hi] at this
    cases this

end Verif.Ctr
