import Verif.Contour.Incid
/-! The edges of a cell, in the order of `std::set<element_t>`: the pairs of its vertices in
lexicographic order. -/
namespace Verif.Ctr
open Verif.SRM

/-- pairs of a list, in lexicographic order of the positions -/
def pairs {α : Type} : List α → List (α × α)
  | [] => []
  | v :: vs => vs.map (fun w => (v, w)) ++ pairs vs

theorem pairs_map {α β : Type} (f : α → β) : ∀ l : List α, pairs (l.map f) = (pairs l).map fun p => (f p.1, f p.2)
  | [] => rfl
  | v :: vs => by
    simp only [List.map_cons, pairs, List.map_append, List.map_map, pairs_map f vs]
    rfl

theorem mem_pairs {α : Type} {l : List α} {u v : α} : (u, v) ∈ pairs l ↔ [u, v].Sublist l := by
  induction l with
  | nil => simp [pairs]
  | cons w l ih =>
    simp only [pairs, List.mem_append, List.mem_map, Prod.mk.injEq, ih]
    constructor
    · rintro (⟨x, hx, rfl, rfl⟩ | h)
      · exact (List.singleton_sublist.2 hx).cons_cons _
      · exact h.cons _
    · intro h
      cases h with
      | cons _ h => exact .inr h
      | cons_cons _ h => exact .inl ⟨v, List.singleton_sublist.1 h, rfl, rfl⟩

/-- the edge with the given vertices -/
noncomputable def edgeOf (n : Nat) (p : Vtx × Vtx) : Elem :=
  open Classical in if h : ∃ f, IsElem n 1 f ∧ f.vertices n = some [p.1, p.2] then h.choose else ⟨[], 0, 0⟩

theorem edgeOf_spec {n k : Nat} (hn : 1 ≤ n) {c : Vtx} {ve : Simplex} (h : Cell n k c ve) {p : Vtx × Vtx}
    (hp : p ∈ pairs ve) : IsElem n 1 (edgeOf n p) ∧ (edgeOf n p).vertices n = some [p.1, p.2] := by
  have hs := mem_pairs.1 hp
  obtain ⟨c', hc'⟩ := sub_cell h hs (m := 1) rfl
  have hex := isElem_of_cell hn hn hc'
  unfold edgeOf
  rw [dif_pos hex]
  exact hex.choose_spec

theorem edgeOf_eq {n : Nat} (hn : 1 ≤ n) {e : Elem} (he : IsElem n 1 e) {u v : Vtx} (h : e.vertices n = some [u, v]) :
    edgeOf n (u, v) = e := by
  unfold edgeOf
  have hex : ∃ f, IsElem n 1 f ∧ f.vertices n = some [(u, v).1, (u, v).2] := ⟨e, he, h⟩
  rw [dif_pos hex]
  exact elem_unique hn hn hex.choose_spec.1 he hex.choose_spec.2 h

theorem sub_lex {o : Vtx} : ∀ {u v : Vtx}, u.length = o.length → v.length = o.length → u < v → sub u o < sub v o := by
  induction o with
  | nil =>
    intro u v hu hv h
    rw [List.eq_nil_of_length_eq_zero hu, List.eq_nil_of_length_eq_zero hv] at h
    exact absurd h (lt_irrefl _)
  | cons x o ih =>
    intro u v hu hv h
    rcases u with _ | ⟨a, u⟩
    · simp at hu
    rcases v with _ | ⟨b, v⟩
    · simp at hv
    simp only [sub, List.zipWith_cons_cons] at ih ⊢
    rw [List.cons_lt_cons_iff] at h ⊢
    rcases h with h | ⟨rfl, h⟩
    · exact .inl (by omega)
    · exact .inr ⟨rfl, ih (by simpa using hu) (by simpa using hv) h⟩

/-- edges of one vertex are in the order of their other ends -/
theorem edge_lt {n k : Nat} (hn : 1 ≤ n) {c : Vtx} {ve : Simplex} (h : Cell n k c ve) {p q : Vtx × Vtx}
    (hp : p ∈ pairs ve) (hq : q ∈ pairs ve) (hlt : p.1 < q.1 ∨ (p.1 = q.1 ∧ p.2 < q.2)) : edgeOf n p < edgeOf n q := by
  obtain ⟨ep, vp⟩ := edgeOf_spec hn h hp
  obtain ⟨eq, vq⟩ := edgeOf_spec hn h hq
  have cp := cell_of_elem hn hn ep.dim ep.len vp
  have cq := cell_of_elem hn hn eq.dim eq.len vq
  have hp1 : p.1 = (edgeOf n p).corner := by simpa using cp.head
  have hq1 : q.1 = (edgeOf n q).corner := by simpa using cq.head
  show Trk.Elem.key (edgeOf n p) < Trk.Elem.key (edgeOf n q)
  unfold Trk.Elem.key
  rw [Prod.Lex.toLex_lt_toLex]
  simp only
  rcases hlt with hlt | ⟨heq, hlt⟩
  · exact .inl (by rw [← hp1, ← hq1]; exact hlt)
  · refine .inr ⟨by rw [← hp1, ← hq1]; exact heq, ?_⟩
    rw [Prod.Lex.toLex_lt_toLex]
    left
    -- the types
    obtain ⟨s, hs, e1⟩ := vertices_unit vp
    obtain ⟨t, ht, e2⟩ := vertices_unit vq
    rw [ep.dim] at hs
    rw [eq.dim] at ht
    have ks := unit_get hn hn hs
    have kt := unit_get hn hn ht
    have form : ∀ {s : Simplex} {c a b : Vtx}, Kuhn n 1 s → c.length = n → [a, b] = s.map (translate c) → b.length = n →
        s = [List.replicate n 0, sub b c] := by
      intro s c a b hK hc he hb
      rcases s with _ | ⟨x, _ | ⟨y, _ | ⟨z, s⟩⟩⟩
      · simp at he
      · simp at he
      · have hx : x = List.replicate n 0 := by simpa using hK.head
        have hy := (hK.cube y (by simp)).1
        simp only [List.map_cons, List.map_nil, List.cons.injEq, and_true] at he
        rw [hx, he.2, sub_translate (by rw [hy, hc])]
      · have := hK.len
        simp at this
    have lp : p.2.length = n := (cp.cube p.2 (by simp)).1
    have lq : q.2.length = n := (cq.cube q.2 (by simp)).1
    have fs := form ks ep.len e1 lp
    have ft := form kt eq.len e2 lq
    have hst : s < t := by
      rw [fs, ft, List.cons_lt_cons_iff]
      right
      refine ⟨rfl, ?_⟩
      rw [List.cons_lt_cons_iff]
      left
      rw [← hp1, ← hq1, heq]
      have : q.1.length = n := by rw [hq1]; exact eq.len
      exact sub_lex (by rw [lp, this]) (by rw [lq, this]) hlt
    by_contra hge
    have hge : (edgeOf n q).type ≤ (edgeOf n p).type := by omega
    have hsort := unitSimplices_sorted n 1
    rcases Nat.lt_or_ge (edgeOf n q).type (edgeOf n p).type with hl | hl
    · obtain ⟨i1, j1⟩ := List.getElem?_eq_some_iff.1 hs
      obtain ⟨i2, j2⟩ := List.getElem?_eq_some_iff.1 ht
      have := List.pairwise_iff_getElem.1 hsort _ _ i2 i1 hl
      rw [j1, j2] at this
      exact lt_asymm hst this
    · have heq' : (edgeOf n q).type = (edgeOf n p).type := by omega
      rw [heq', hs] at ht
      cases ht
      exact lt_irrefl _ hst

theorem pairs_sorted {ve : Simplex} (h : ve.Pairwise VLt) :
    (pairs ve).Pairwise fun p q => p.1 < q.1 ∨ (p.1 = q.1 ∧ p.2 < q.2) := by
  induction ve with
  | nil => exact List.Pairwise.nil
  | cons v vs ih =>
    rw [List.pairwise_cons] at h
    simp only [pairs]
    rw [List.pairwise_append]
    refine ⟨?_, ih h.2, ?_⟩
    · rw [List.pairwise_map]
      exact h.2.imp fun hlt => .inr ⟨rfl, hlt.lex⟩
    · intro p hp q hq
      obtain ⟨w, -, rfl⟩ := List.mem_map.1 hp
      obtain ⟨a, b⟩ := q
      have := (mem_pairs.1 hq).subset (show a ∈ [a, b] by simp)
      exact .inl (h.1 a this).lex

/-- the set of the edges of an element is the list of its pairs of vertices -/
theorem edges_eq {n k : Nat} (hn : 1 ≤ n) (hk : k ≤ n) {e : Elem} (he : IsElem n k e) {ve : Simplex}
    (hve : e.vertices n = some ve) {es : List Elem} (hes : ∀ x, x ∈ es ↔ IsElem n 1 x ∧ FaceOf n x e) :
    toSet es = (pairs ve).map (edgeOf n) := by
  have hcell := cell_of_elem hn hk he.dim he.len hve
  have s1 : StrictSorted ((pairs ve).map (edgeOf n)) := by
    unfold StrictSorted
    rw [List.pairwise_map]
    exact (pairs_sorted hcell.chain).imp_of_mem fun ha hb h => edge_lt hn hcell ha hb h
  have s2 := toSet_sorted es
  refine List.Perm.eq_of_pairwise (le := (· < ·)) (fun a b _ _ hab hba => absurd hab (lt_asymm hba)) s2 s1 ?_
  refine (List.perm_ext_iff_of_nodup s2.nodup s1.nodup).2 fun x => ?_
  rw [mem_toSet, hes, List.mem_map]
  constructor
  · rintro ⟨hx, hxe⟩
    obtain ⟨vf, ve', a, b, s⟩ := (faceOf_iff hn hn hk hx he).1 hxe
    rw [hve] at b
    cases b
    have hl := (cell_of_elem hn hn hx.dim hx.len a).len
    rcases vf with _ | ⟨u, _ | ⟨v, _ | ⟨w, vf⟩⟩⟩
    · simp at hl
    · simp at hl
    · exact ⟨(u, v), mem_pairs.2 s, edgeOf_eq hn hx a⟩
    · simp at hl
  · rintro ⟨p, hp, rfl⟩
    obtain ⟨a, b⟩ := edgeOf_spec hn hcell hp
    exact ⟨a, _, ve, b, hve, fun v hv => (mem_pairs.1 hp).subset hv⟩

theorem edgeOf_inj {n k k' : Nat} (hn : 1 ≤ n) {c c' : Vtx} {ve ve' : Simplex} (h : Cell n k c ve) (h' : Cell n k' c' ve') {p q : Vtx × Vtx}
    (hp : p ∈ pairs ve) (hq : q ∈ pairs ve') (he : edgeOf n p = edgeOf n q) : p = q := by
  have a := (edgeOf_spec hn h hp).2
  have b := (edgeOf_spec hn h' hq).2
  rw [he, b] at a
  simp only [Option.some.injEq, List.cons.injEq, and_true] at a
  exact Prod.ext a.1.symm a.2.symm

end Verif.Ctr
