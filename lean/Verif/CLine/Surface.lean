import Verif.CLine.Pent
import Verif.Surf.Relabel
import Mathlib.Logic.Relation
import Mathlib.Data.List.Perm.Subperm
/-! Surfaces of the critical line tracker. -/
namespace Verif.CLT
open Verif.SRM
open Verif.Gen (Box InsideV Inside Shaped)
open Verif.Trk (elemValid)
open Verif.Ctr (IsElem FaceOf collect up down)

variable {S V : Type} [Inhabited V]

/-! ### the ring of a 4-simplex -/

/-- the vertices of an inside 4-simplex -/
theorem Faces.inside {c : Cfg V} {T : Nat} {x : Elem} {w T' D} (hF : Faces x w T' D) (h : Inside c.box T x) (i : Fin 5) :
    InsideV c.box T (w i) := by
  obtain ⟨vs, hvs, hi⟩ := h
  have := hF.verts
  rw [hvs] at this
  cases this
  exact hi _ (List.mem_ofFn.2 ⟨i, rfl⟩)

theorem drop2_mem_inside {c : Cfg V} {rd : S → List Int → Option V} {series : List S} {x : Elem} {w T D}
    (hF : Faces x w T D) {i j : Fin 5} (hij : i ≠ j) :
    Pierced c rd series (D i j) ↔ (∀ k, k ≠ i → k ≠ j → InsideV c.box series.length (w k)) ∧ pb c rd series ((drop2 i j).map w) = true := by
  rw [pierced_iff (hF.tri i j hij).1 (hF.tri i j hij).2]
  refine and_congr ⟨fun h k hi hj => h _ (List.mem_map.2 ⟨k, mem_drop2.2 ⟨hi, hj⟩, rfl⟩), ?_⟩ Iff.rfl
  intro h v hv
  obtain ⟨k, hk, rfl⟩ := List.mem_map.1 hv
  exact h k (mem_drop2.1 hk).1 (mem_drop2.1 hk).2

theorem cycAdj_iff {l : List (Fin 5)} {i j : Fin 5} : cycAdj l i j = true ↔ (i, j) ∈ cycPairs l ∨ (j, i) ∈ cycPairs l := by
  unfold cycAdj
  rw [List.any_eq_true]
  constructor
  · rintro ⟨p, hp, h⟩
    simp only [Bool.or_eq_true, beq_iff_eq] at h
    rcases h with rfl | rfl
    · exact .inl hp
    · exact .inr hp
  · rintro (h | h)
    · exact ⟨_, h, by simp⟩
    · exact ⟨_, h, by simp⟩

theorem cycPairs_get {l : List (Fin 5)} {i : Nat} {p : Fin 5 × Fin 5} (h : (cycPairs l)[i]? = some p) :
    l[i]? = some p.1 ∧ l[(i + 1) % l.length]? = some p.2 := by
  unfold cycPairs at h
  rw [List.getElem?_zip_eq_some] at h
  refine ⟨h.1, ?_⟩
  have h2 := h.2
  have hi : i < (l.rotate 1).length := by
    by_contra hn
    rw [List.getElem?_eq_none (by omega)] at h2
    cases h2
  rw [List.length_rotate] at hi
  rwa [List.getElem?_rotate (by omega)] at h2

/-- the pierced triangles of a 4-simplex inside form a ring -/
theorem ring_exists {c : Cfg V} (rd : S → List Int → Option V) (series : List S) (hc : Shaped c.box series.length) {x : Elem}
    (hx : IsElem 4 4 x) (hin : Inside c.box series.length x) : ∃ ts fs, Ring c rd series x ts fs := by
  obtain ⟨w, T, D, hF⟩ := faces_exist hx
  have hins := hF.inside hin
  have hb : ∀ i, InBounds c.box.bounds (w i) := fun i => Gen.insideV_bounds hc (Nat.le_refl _) (hins i)
  obtain ⟨l, hl, hadj⟩ := cycle5 (fun i j => pb c rd series ((drop2 i j).map w)) (fun i j => by rw [drop2_comm])
    (parity5 hc rd series w hF.inj hb)
  have hP : ∀ i j, i ≠ j → (Pierced c rd series (D i j) ↔ cycAdj l i j = true) := by
    intro i j hij
    rw [drop2_mem_inside hF hij, ← hadj i j hij]
    exact ⟨fun h => h.2, fun h => ⟨fun k _ _ => hins k, h⟩⟩
  obtain ⟨n1, n2⟩ := cands_ok l hl
  obtain ⟨p1, p2, p3⟩ := cycPairs_facts l hl
  have hTinj : Function.Injective T := by
    intro a b hab
    by_contra hne
    obtain ⟨k, hk⟩ : ∃ k : Fin 5, k ≠ a ∧ k ≠ b := by clear hab hne; revert a b; decide
    have h1 := (hF.sub a k a (Ne.symm hk.1)).2 (.inl rfl)
    rw [hab] at h1
    rcases (hF.sub a k b (Ne.symm hk.1)).1 h1 with h | h
    · exact hne h.symm
    · exact hk.2 h.symm
  have hmem : ∀ f, f ∈ (cycPairs l).map (fun p => D p.1 p.2) ↔ IsElem 4 2 f ∧ FaceOf 4 f x ∧ Pierced c rd series f := by
    intro f
    constructor
    · intro hf
      obtain ⟨⟨i, j⟩, hp, rfl⟩ := List.mem_map.1 hf
      have hij := p3 _ hp
      refine ⟨(hF.tri i j hij).1, (hF.tris _ (hF.tri i j hij).1).2 ⟨i, j, hij, rfl⟩, (hP i j hij).2 (cycAdj_iff.2 (.inl hp))⟩
    · rintro ⟨h1, h2, h3⟩
      obtain ⟨i, j, hij, rfl⟩ := (hF.tris _ h1).1 h2
      rcases cycAdj_iff.1 ((hP i j hij).1 h3) with h | h
      · exact List.mem_map.2 ⟨_, h, rfl⟩
      · exact List.mem_map.2 ⟨_, h, (hF.comm i j hij).symm⟩
  refine ⟨l.map T, (cycPairs l).map fun p => D p.1 p.2, ?_, ?_, ?_, ?_, ?_, ?_, hmem, ?_⟩
  · simpa [p1] using n2
  · simp [p1]
  · exact (List.nodup_map_iff hTinj).2 n1
  · refine List.Nodup.map_on ?_ (p2.of_map _)
    rintro ⟨a, b⟩ h1 ⟨a', b'⟩ h2 he
    have hne1 := p3 _ h1
    have hne2 := p3 _ h2
    refine List.inj_on_of_nodup_map p2 h1 h2 ?_
    rcases hF.dinj _ _ _ _ hne1 hne2 he with ⟨rfl, rfl⟩ | ⟨rfl, rfl⟩
    · rfl
    · simp only at hne1 ⊢
      rcases lt_or_gt_of_ne hne1 with h | h
      · rw [if_pos h, if_neg (by omega)]
      · rw [if_neg (by omega), if_pos h]
  · intro y hy
    obtain ⟨i, -, rfl⟩ := List.mem_map.1 hy
    exact ⟨(hF.tet i).1, (hF.tets _ (hF.tet i).1).2 ⟨i, rfl⟩⟩
  · intro i y z f hy hz hf
    rw [List.getElem?_map, Option.map_eq_some_iff] at hy hz hf
    obtain ⟨⟨a, b⟩, hp, rfl⟩ := hf
    obtain ⟨k1, hk1, rfl⟩ := hy
    obtain ⟨k2, hk2, rfl⟩ := hz
    obtain ⟨g1, g2⟩ := cycPairs_get hp
    rw [List.length_map] at hk2
    rw [hk1] at g1
    rw [hk2] at g2
    obtain rfl := Option.some.inj g1
    obtain rfl := Option.some.inj g2
    have hij := p3 _ (List.mem_of_getElem? hp)
    exact ⟨(hF.sub _ _ _ hij).2 (.inl rfl), (hF.sub _ _ _ hij).2 (.inr rfl)⟩
  · intro y f hy hyx hno hp hfy
    obtain ⟨k, rfl⟩ := (hF.tets y hy).1 hyx
    have hf2 : IsElem 4 2 f := by obtain ⟨vs, h⟩ := hp; exact h.tri
    obtain ⟨i, j, hij, rfl⟩ := (hF.tris _ hf2).1 (hfy.trans hyx)
    have hk := (hF.sub i j k hij).1 hfy
    apply hno
    have hl' : ∀ a b, (a, b) ∈ cycPairs l → a ∈ l ∧ b ∈ l := by
      intro a b hab
      unfold cycPairs at hab
      obtain ⟨h1, h2⟩ := List.of_mem_zip hab
      exact ⟨h1, List.mem_rotate.1 h2⟩
    have : i ∈ l ∧ j ∈ l := by
      rcases cycAdj_iff.1 ((hP i j hij).1 hp) with h | h
      · exact hl' _ _ h
      · exact (hl' _ _ h).symm
    rcases hk with rfl | rfl
    · exact List.mem_map.2 ⟨_, this.1, rfl⟩
    · exact List.mem_map.2 ⟨_, this.2, rfl⟩

/-- a valid 4-simplex that is not inside has at most two pierced triangles -/
theorem outside_few {c : Cfg V} (rd : S → List Int → Option V) (series : List S) (hc : Shaped c.box series.length) {x : Elem}
    (hx : IsElem 4 4 x) (hv : elemValid 4 c.box.bounds x = true) (hin : ¬ Inside c.box series.length x) :
    ∃ fs : List Elem, fs.length ≤ 2 ∧ ∀ f, IsElem 4 2 f → FaceOf 4 f x → Pierced c rd series f → f ∈ fs := by
  obtain ⟨w, T, D, hF⟩ := faces_exist hx
  obtain ⟨vs, hvs, hb'⟩ := (Gen.elemValid_iff (d := 3) hc hx (by omega)).1 hv
  have hb : ∀ i, InBounds c.box.bounds (w i) := by
    intro i
    have := hF.verts
    rw [hvs] at this
    cases this
    exact hb' _ (List.mem_ofFn.2 ⟨i, rfl⟩)
  obtain ⟨k, hk⟩ : ∃ k, ¬ InsideV c.box series.length (w k) := by
    by_contra hn
    push Not at hn
    exact hin ⟨_, hF.verts, fun v hv => by obtain ⟨i, rfl⟩ := List.mem_ofFn.1 hv; exact hn i⟩
  have hpar := parity5 hc rd series w hF.inj hb k
  refine ⟨((drop1 k).filter fun j => pb c rd series ((drop2 k j).map w)).map (D k), ?_, ?_⟩
  · rw [List.length_map, ← List.countP_eq_length_filter]
    omega
  · intro f h1 h2 h3
    obtain ⟨i, j, hij, rfl⟩ := (hF.tris _ h1).1 h2
    obtain ⟨g1, g2⟩ := (drop2_mem_inside hF hij).1 h3
    have : k = i ∨ k = j := by
      by_contra hn
      push Not at hn
      exact hk (g1 k hn.1 hn.2)
    rcases this with rfl | rfl
    · exact List.mem_map.2 ⟨j, List.mem_filter.2 ⟨mem_drop1.2 (Ne.symm hij), g2⟩, rfl⟩
    · refine List.mem_map.2 ⟨i, List.mem_filter.2 ⟨mem_drop1.2 hij, ?_⟩, (hF.comm i k hij).symm⟩
      rw [drop2_comm]
      exact g2

/-! ### the points of a cell -/

theorem idOf_eq {P : Type} (e : Elem) : ∀ m : List (Elem × P),
    idOf e m = if e ∈ m.map Prod.fst then some ((m.map Prod.fst).idxOf e) else none
  | [] => rfl
  | (k, p) :: m => by
    simp only [idOf, List.map_cons, List.mem_cons]
    by_cases h : e = k
    · subst h; simp
    · rw [if_neg h, idOf_eq e m]
      simp only [h, false_or]
      by_cases h2 : e ∈ m.map Prod.fst
      · rw [if_pos h2, if_pos h2, List.idxOf_cons_ne _ (Ne.symm h)]
        rfl
      · rw [if_neg h2, if_neg h2]
        rfl

/-- what the keys of the record are -/
structure Keys {P : Type} (c : Cfg V) (rd : S → List Int → Option V) (series : List S) (inter : List (Elem × P)) : Prop where
  nodup : (inter.map Prod.fst).Nodup
  mem : ∀ e, e ∈ inter.map Prod.fst ↔ Pierced c rd series e

variable {P : Type} {c : Cfg V} {rd : S → List Int → Option V} {series : List S} {inter : List (Elem × P)}

/-- the number of a point -/
def num (inter : List (Elem × P)) (e : Elem) : Nat := (inter.map Prod.fst).idxOf e

theorem num_inj (hk : Keys c rd series inter) {e e' : Elem} (he : Pierced c rd series e) (h : num inter e = num inter e') : e = e' :=
  (List.idxOf_inj ((hk.mem e).2 he)).1 h

theorem num_get (hk : Keys c rd series inter) {e : Elem} {i : Nat} : (inter.map Prod.fst)[i]? = some e ↔ Pierced c rd series e ∧ i = num inter e := by
  constructor
  · intro h
    have hm := List.mem_of_getElem? h
    refine ⟨(hk.mem e).1 hm, ?_⟩
    obtain ⟨hi, rfl⟩ := List.getElem?_eq_some_iff.1 h
    exact (hk.nodup.idxOf_getElem i hi).symm
  · rintro ⟨hp, rfl⟩
    have hm := (hk.mem e).2 hp
    unfold num
    rw [List.getElem?_eq_getElem (List.idxOf_lt_length_iff.2 hm)]
    exact congrArg some (List.getElem_idxOf _)

/-- the ids of a cell are the numbers of its pierced triangles, each once -/
theorem cellIds_spec (hk : Keys c rd series inter) {x : Elem} (hx : IsElem 4 4 x) :
    ∃ gs : List Elem, cellIds inter x = some (gs.map (num inter)) ∧ gs.Nodup ∧ (gs.map (num inter)).Nodup ∧
      ∀ f, f ∈ gs ↔ IsElem 4 2 f ∧ FaceOf 4 f x ∧ Pierced c rd series f := by
  obtain ⟨r, hr, hmem⟩ := Ctr.down_spec (n := 4) (by omega) 2 (k := 2) (by omega) (by omega) hx
  have hmem' : ∀ f, f ∈ (toSet r).filter (fun f => decide (f ∈ inter.map Prod.fst)) ↔
      IsElem 4 2 f ∧ FaceOf 4 f x ∧ Pierced c rd series f := by
    intro f
    rw [List.mem_filter, mem_toSet, hmem, decide_eq_true_eq, hk.mem, and_assoc]
  have hnd : ((toSet r).filter (fun f => decide (f ∈ inter.map Prod.fst))).Nodup := (toSet_sorted r).nodup.filter _
  refine ⟨(toSet r).filter fun f => decide (f ∈ inter.map Prod.fst), ?_, hnd, ?_, hmem'⟩
  · unfold cellIds
    rw [hr, Option.map_some]
    congr 1
    induction toSet r with
    | nil => rfl
    | cons a l ih =>
      rw [List.filterMap_cons, idOf_eq, ih, List.filter_cons]
      by_cases h : a ∈ inter.map Prod.fst
      · rw [if_pos h, if_pos (by simpa using h)]
        rfl
      · rw [if_neg h, if_neg (by simpa using h)]
  · refine List.Nodup.map_on ?_ hnd
    intro a ha b _ hab
    exact num_inj hk ((hmem' a).1 ha).2.2 hab

theorem polygon_patch {ids : List Nat} (h : ids.length ≤ 5) : ∃ tris, polygon ids = some tris ∧ Patch ids tris := by
  rcases ids with _ | ⟨a, _ | ⟨b, _ | ⟨c, _ | ⟨d, _ | ⟨e, _ | ⟨f, l⟩⟩⟩⟩⟩⟩
  · exact ⟨[], rfl, .inr (.inr (.inr ⟨by simp, rfl⟩))⟩
  · exact ⟨[], rfl, .inr (.inr (.inr ⟨by simp, rfl⟩))⟩
  · exact ⟨[], rfl, .inr (.inr (.inr ⟨by simp, rfl⟩))⟩
  · exact ⟨_, rfl, .inl ⟨rfl, _, _, _, rfl, rfl⟩⟩
  · exact ⟨_, rfl, .inr (.inl ⟨rfl, _, _, _, _, rfl, List.Perm.refl _⟩)⟩
  · refine ⟨_, rfl, .inr (.inr (.inl ⟨rfl, _, _, _, _, _, rfl, ?_⟩))⟩
    exact (List.perm_middle (a := (b, d, e)) (l₁ := [(a, b, c), (a, b, d), (a, b, e), (a, c, d), (a, c, e), (a, d, e), (b, c, d), (b, c, e)])
      (l₂ := [(c, d, e)])).symm
  · simp only [List.length_cons] at h
    omega

/-- all corners of the triangles of a patch are among its points -/
theorem Patch.sub {ids : List Nat} {tris : List (Nat × Nat × Nat)} (h : Patch ids tris) {t : Nat × Nat × Nat} (ht : t ∈ tris) :
    t.1 ∈ ids ∧ t.2.1 ∈ ids ∧ t.2.2 ∈ ids := by
  rcases h with ⟨-, i, j, k, rfl, rfl⟩ | ⟨-, i, j, k, l, rfl, hp⟩ | ⟨-, i, j, k, l, m, rfl, hp⟩ | ⟨-, rfl⟩
  · simp only [List.mem_singleton] at ht
    subst ht
    simp
  · have := hp.mem_iff.1 ht
    simp only [List.mem_cons, List.not_mem_nil, or_false] at this
    rcases this with rfl | rfl | rfl | rfl <;> simp
  · have := hp.mem_iff.1 (List.mem_cons_of_mem _ ht)
    simp only [List.mem_cons, List.not_mem_nil, or_false] at this
    rcases this with rfl | rfl | rfl | rfl | rfl | rfl | rfl | rfl | rfl | rfl <;> simp
  · cases ht

/-- a patch of three points or more joins all its points -/
theorem Patch.joins {ids : List Nat} {tris : List (Nat × Nat × Nat)} (h : Patch ids tris) (h3 : 3 ≤ ids.length) (hnd : ids.Nodup)
    {i j : Nat} (hi : i ∈ ids) (hj : j ∈ ids) : SameTri tris i j := by
  rcases h with ⟨-, a, b, c, rfl, rfl⟩ | ⟨-, a, b, c, d, rfl, hp⟩ | ⟨-, a, b, c, d, e, rfl, hp⟩ | ⟨h, rfl⟩
  · refine ⟨(a, b, c), by simp, ?_, ?_⟩
    · simpa using hi
    · simpa using hj
  · have hm : ∀ t ∈ [(a, b, c), (a, b, d), (a, c, d), (b, c, d)], t ∈ tris := fun t ht => hp.mem_iff.2 ht
    simp only [List.mem_cons, List.not_mem_nil, or_false, forall_eq_or_imp, forall_eq] at hm hi hj
    obtain ⟨m1, m2, m3, m4⟩ := hm
    rcases hi with rfl | rfl | rfl | rfl <;> rcases hj with rfl | rfl | rfl | rfl <;>
      first
      | (refine ⟨_, m1, ?_, ?_⟩ <;> (simp; done))
      | (refine ⟨_, m2, ?_, ?_⟩ <;> (simp; done))
      | (refine ⟨_, m3, ?_, ?_⟩ <;> (simp; done))
      | (refine ⟨_, m4, ?_, ?_⟩ <;> (simp; done))
  · have hm : ∀ t ∈ [(a, b, c), (a, b, d), (a, b, e), (a, c, d), (a, c, e), (a, d, e), (b, c, d), (b, c, e), (c, d, e)],
        t ∈ tris := by
      intro t ht
      have h1 : t ∈ (b, d, e) :: tris := by
        refine hp.mem_iff.2 ?_
        simp only [List.mem_cons, List.not_mem_nil, or_false] at ht ⊢
        rcases ht with h | h | h | h | h | h | h | h | h <;> simp [h]
      rcases List.mem_cons.1 h1 with rfl | h1
      · exfalso
        simp only [List.nodup_cons, List.mem_cons, List.not_mem_nil, or_false, not_or] at hnd
        simp only [List.mem_cons, List.not_mem_nil, or_false, Prod.mk.injEq] at ht
        omega
      · exact h1
    simp only [List.mem_cons, List.not_mem_nil, or_false, forall_eq_or_imp, forall_eq] at hm hi hj
    obtain ⟨m1, m2, m3, m4, m5, m6, m7, m8, m9⟩ := hm
    rcases hi with rfl | rfl | rfl | rfl | rfl <;> rcases hj with rfl | rfl | rfl | rfl | rfl <;>
      first
      | (refine ⟨_, m1, ?_, ?_⟩ <;> (simp; done))
      | (refine ⟨_, m2, ?_, ?_⟩ <;> (simp; done))
      | (refine ⟨_, m3, ?_, ?_⟩ <;> (simp; done))
      | (refine ⟨_, m4, ?_, ?_⟩ <;> (simp; done))
      | (refine ⟨_, m5, ?_, ?_⟩ <;> (simp; done))
      | (refine ⟨_, m6, ?_, ?_⟩ <;> (simp; done))
      | (refine ⟨_, m7, ?_, ?_⟩ <;> (simp; done))
      | (refine ⟨_, m8, ?_, ?_⟩ <;> (simp; done))
      | (refine ⟨_, m9, ?_, ?_⟩ <;> (simp; done))
  · omega

/-! ### the surface -/

theorem relatedCells_spec (hk : Keys c rd series inter) (b : Bounds) :
    ∃ cells, relatedCells b inter = some cells ∧ cells.Nodup ∧
      ∀ x, x ∈ cells ↔ IsElem 4 4 x ∧ elemValid 4 b x = true ∧ ∃ f, Pierced c rd series f ∧ FaceOf 4 f x := by
  obtain ⟨r, hr, hm⟩ := Ctr.mem_collect (f := fun kv : Elem × P => up 4 b 2 kv.1)
    (P := fun kv x => IsElem 4 4 x ∧ FaceOf 4 kv.1 x ∧ elemValid 4 b x = true) (l := inter) (by
      intro kv hkv
      obtain ⟨vs, hp⟩ := (hk.mem kv.1).1 (List.mem_map.2 ⟨kv, hkv, rfl⟩)
      exact Ctr.up_spec (n := 4) (by omega) b 2 (k := 2) (by omega) (by omega) hp.tri)
  refine ⟨toSet r, by unfold relatedCells; rw [hr]; rfl, (toSet_sorted r).nodup, fun x => ?_⟩
  rw [mem_toSet, hm]
  constructor
  · rintro ⟨kv, hkv, h1, h2, h3⟩
    exact ⟨h1, h3, kv.1, (hk.mem _).1 (List.mem_map.2 ⟨kv, hkv, rfl⟩), h2⟩
  · rintro ⟨h1, h3, f, hf, h2⟩
    obtain ⟨kv, hkv, rfl⟩ := List.mem_map.1 ((hk.mem f).2 hf)
    exact ⟨kv, hkv, h1, h2, h3⟩

/-- what one cell contributes -/
structure CellOut (c : Cfg V) (rd : S → List Int → Option V) (series : List S) (inter : List (Elem × P)) (x : Elem)
    (tris : List (Nat × Nat × Nat)) : Prop where
  patch : ∃ ids, ids.Nodup ∧ Patch ids tris ∧ (∀ i, i ∈ ids ↔ ∃ f, (inter.map Prod.fst)[i]? = some f ∧ FaceOf 4 f x) ∧
    (Inside c.box series.length x → ids = [] ∨ 3 ≤ ids.length) ∧ (¬ Inside c.box series.length x → ids.length < 3)

theorem cellTris_spec (hc : Shaped c.box series.length) (hk : Keys c rd series inter) {x : Elem} (hx : IsElem 4 4 x)
    (hv : elemValid 4 c.box.bounds x = true) :
    ∃ tris, cellTris inter x = some tris ∧ CellOut c rd series inter x tris := by
  obtain ⟨gs, h1, h2, h3, h4⟩ := cellIds_spec hk hx
  have hids : ∀ i, i ∈ gs.map (num inter) ↔ ∃ f, (inter.map Prod.fst)[i]? = some f ∧ FaceOf 4 f x := by
    intro i
    constructor
    · intro hi
      obtain ⟨f, hf, rfl⟩ := List.mem_map.1 hi
      obtain ⟨-, g2, g3⟩ := (h4 f).1 hf
      exact ⟨f, (num_get hk).2 ⟨g3, rfl⟩, g2⟩
    · rintro ⟨f, hf, hfx⟩
      obtain ⟨hp, rfl⟩ := (num_get hk).1 hf
      refine List.mem_map.2 ⟨f, (h4 f).2 ⟨?_, hfx, hp⟩, rfl⟩
      obtain ⟨vs, hvs⟩ := hp
      exact hvs.tri
  have hle : (Inside c.box series.length x → gs.length = 0 ∨ 3 ≤ gs.length) ∧ (¬ Inside c.box series.length x → gs.length < 3) ∧
      gs.length ≤ 5 := by
    by_cases hin : Inside c.box series.length x
    · obtain ⟨ts, fs, hr⟩ := ring_exists rd series hc hx hin
      have hp : gs.Perm fs := (List.perm_ext_iff_of_nodup h2 hr.fnodup).2 fun f => (h4 f).trans (hr.all f).symm
      have := hp.length_eq
      have := hr.len
      refine ⟨fun _ => by omega, fun h => absurd hin h, by omega⟩
    · obtain ⟨fs, hf1, hf2⟩ := outside_few rd series hc hx hv hin
      have := (List.subperm_of_subset h2 fun f hf => by
        obtain ⟨a, b, d⟩ := (h4 f).1 hf
        exact hf2 f a b d).length_le
      exact ⟨fun h => absurd h hin, fun _ => by omega, by omega⟩
  obtain ⟨tris, ht, hpat⟩ := polygon_patch (ids := gs.map (num inter)) (by simpa using hle.2.2)
  refine ⟨tris, by unfold cellTris; rw [h1]; exact ht, ⟨_, h3, hpat, hids, fun h => ?_, fun h => by simpa using hle.2.1 h⟩⟩
  rcases hle.1 h with h | h
  · exact .inl (by rw [List.length_eq_zero_iff.1 h]; rfl)
  · exact .inr (by simpa using h)

/-- C97, the surface before labelling: for every order of the tasks it is built, and two points are corners of one of its
triangles exactly if they lie on one 4-simplex inside. -/
theorem surfaceTris_spec (hc : Shaped c.box series.length) (hk : Keys c rd series inter) {cells : List Elem}
    (hcells : relatedCells c.box.bounds inter = some cells) {order : List Elem} (hord : order.Perm cells) :
    ∃ g : Elem → List (Nat × Nat × Nat), surfaceTris inter order = some (order.flatMap g) ∧ order.Nodup ∧
      (∀ x, x ∈ order ↔ IsElem 4 4 x ∧ elemValid 4 c.box.bounds x = true ∧ ∃ f, Pierced c rd series f ∧ FaceOf 4 f x) ∧
      ∀ x ∈ order, CellOut c rd series inter x (g x) := by
  obtain ⟨cells', e1, e2, e3⟩ := relatedCells_spec hk c.box.bounds
  rw [hcells] at e1
  obtain rfl := Option.some.inj e1
  have hmem : ∀ x, x ∈ order ↔ IsElem 4 4 x ∧ elemValid 4 c.box.bounds x = true ∧ ∃ f, Pierced c rd series f ∧ FaceOf 4 f x :=
    fun x => hord.mem_iff.trans (e3 x)
  refine ⟨fun x => (cellTris inter x).getD [], Ctr.collect_eq fun x hx => ?_, hord.nodup_iff.2 e2, hmem, fun x hx => ?_⟩
  · obtain ⟨h1, h2, -⟩ := (hmem x).1 hx
    obtain ⟨t, ht, -⟩ := cellTris_spec hc hk h1 h2
    rw [ht]
    rfl
  · obtain ⟨h1, h2, -⟩ := (hmem x).1 hx
    obtain ⟨t, ht, h⟩ := cellTris_spec hc hk h1 h2
    simp only [ht, Option.getD_some]
    exact h

theorem inside_valid (hc : Shaped c.box series.length) {x : Elem} (hx : IsElem 4 4 x) (h : Inside c.box series.length x) :
    elemValid 4 c.box.bounds x = true := by
  obtain ⟨vs, h1, h2⟩ := h
  exact (Gen.elemValid_iff (d := 3) hc hx (by omega)).2 ⟨vs, h1, fun v hv => Gen.insideV_bounds hc (Nat.le_refl _) (h2 v hv)⟩

/-- two points are corners of one triangle exactly if they lie on one 4-simplex inside -/
theorem sameTri_iff {order : List Elem} {g : Elem → List (Nat × Nat × Nat)} (hc : Shaped c.box series.length)
    (hk : Keys c rd series inter)
    (hmem : ∀ x, x ∈ order ↔ IsElem 4 4 x ∧ elemValid 4 c.box.bounds x = true ∧ ∃ f, Pierced c rd series f ∧ FaceOf 4 f x)
    (hout : ∀ x ∈ order, CellOut c rd series inter x (g x)) (i j : Nat) :
    SameTri (order.flatMap g) i j ↔ SameCell c series.length inter i j := by
  constructor
  · rintro ⟨t, ht, hi, hj⟩
    obtain ⟨x, hx, hxt⟩ := List.mem_flatMap.1 ht
    obtain ⟨ids, hnd, hpat, hids, -, hno⟩ := (hout x hx).patch
    have hin : Inside c.box series.length x := by
      by_contra hn
      have := hno hn
      rcases hpat with ⟨h, -⟩ | ⟨h, -⟩ | ⟨h, -⟩ | ⟨-, h⟩
      · omega
      · omega
      · omega
      · rw [h] at hxt
        cases hxt
    obtain ⟨s1, s2, s3⟩ := hpat.sub hxt
    have hi' : i ∈ ids := by rcases hi with rfl | rfl | rfl <;> assumption
    have hj' : j ∈ ids := by rcases hj with rfl | rfl | rfl <;> assumption
    obtain ⟨e, he, hex⟩ := (hids i).1 hi'
    obtain ⟨f, hf, hfx⟩ := (hids j).1 hj'
    exact ⟨x, e, f, ((hmem x).1 hx).1, hin, he, hf, hex, hfx⟩
  · rintro ⟨x, e, f, hx, hin, he, hf, hex, hfx⟩
    have hxo : x ∈ order := (hmem x).2 ⟨hx, inside_valid hc hx hin, e, ((num_get hk).1 he).1, hex⟩
    obtain ⟨ids, hnd, hpat, hids, h3, -⟩ := (hout x hxo).patch
    have hi := (hids i).2 ⟨e, he, hex⟩
    have hj := (hids j).2 ⟨f, hf, hfx⟩
    rcases h3 hin with h | h
    · rw [h] at hi
      cases hi
    · obtain ⟨t, ht, h1, h2⟩ := hpat.joins h hnd hi hj
      exact ⟨t, List.mem_flatMap.2 ⟨x, hxo, ht⟩, h1, h2⟩

end Verif.CLT
