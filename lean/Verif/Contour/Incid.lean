import Verif.Contour.Spec
import Verif.Tracker.CurveGeo
import Mathlib.Data.List.Nodup
/-! Incidence: cells above an edge, edges of a cell and their order. -/
namespace Verif.Ctr
open Verif.SRM
open Verif.Trk (elemValid)

theorem mem_collect {α β : Type} {f : α → Option (List β)} {P : α → β → Prop} : ∀ {l : List α},
    (∀ x ∈ l, ∃ r, f x = some r ∧ ∀ y, y ∈ r ↔ P x y) →
    ∃ r, collect f l = some r ∧ ∀ y, y ∈ r ↔ ∃ x ∈ l, P x y
  | [], _ => ⟨[], rfl, by simp⟩
  | x :: l, h => by
    obtain ⟨r, h1, h2⟩ := h x (by simp)
    obtain ⟨s, h3, h4⟩ := mem_collect (l := l) fun y hy => h y (by simp [hy])
    refine ⟨r ++ s, by simp only [collect, h1, h3], fun y => ?_⟩
    simp only [List.mem_append, h2, h4, List.mem_cons, exists_eq_or_imp]

theorem collect_single {α : Type} {f : α → Option (List α)} (h : ∀ x, f x = some [x]) : ∀ l : List α, collect f l = some l
  | [] => rfl
  | x :: l => by simp only [collect, h, collect_single h l, List.singleton_append]

theorem IsElem.cell {n k : Nat} {e : Elem} (he : IsElem n k e) (hn : 1 ≤ n) (hk : k ≤ n) :
    ∃ ve, e.vertices n = some ve ∧ Cell n k e.corner ve := by
  obtain ⟨ve, h⟩ := vertices_exists he.type
  exact ⟨ve, h, cell_of_elem hn hk he.dim he.len h⟩

theorem isElem_of_cell {n k : Nat} (hn : 1 ≤ n) (hk : k ≤ n) {c : Vtx} {vs : Simplex} (h : Cell n k c vs) :
    ∃ e : Elem, IsElem n k e ∧ e.vertices n = some vs := by
  obtain ⟨e, h1, h2, h3⟩ := elem_of_cell hn hk h
  exact ⟨e, ⟨h2, h1 ▸ h.clen, type_lt_of_vertices h3⟩, h3⟩

theorem elem_unique {n k : Nat} (hn : 1 ≤ n) (hk : k ≤ n) {e f : Elem} (he : IsElem n k e) (hf : IsElem n k f)
    {vs : Simplex} (h1 : e.vertices n = some vs) (h2 : f.vertices n = some vs) : e = f :=
  elem_ext hn (he.dim ▸ hk) (he.dim.trans hf.dim.symm) he.len hf.len h1 h2

theorem vlt_le {u v : Vtx} (h : VLt u v) : ∀ j, u.getD j 0 ≤ v.getD j 0 := (vle_iff.1 h.1).2

/-- a nonempty sublist of the vertices of a cell is the vertex list of an element -/
theorem sub_cell {n k m : Nat} {c : Vtx} {vs ws : Simplex} (h : Cell n k c vs) (hs : ws.Sublist vs)
    (hl : ws.length = m + 1) : ∃ c', Cell n m c' ws := by
  rcases ws with _ | ⟨w, ws⟩
  · simp at hl
  refine ⟨w, hl, (h.cube w (hs.subset (by simp))).1, rfl, h.chain.sublist hs, ?_⟩
  have hch := h.chain.sublist hs
  intro v hv
  have hvm := h.cube v (hs.subset hv)
  have hwm := h.cube w (hs.subset (by simp))
  refine ⟨hvm.1, ?_⟩
  have hwv : ∀ j, w.getD j 0 ≤ v.getD j 0 := by
    rcases List.mem_cons.1 hv with rfl | hv
    · exact fun _ => Int.le_refl _
    · exact vlt_le ((List.pairwise_cons.1 hch).1 v hv)
  rw [cube_iff]
  refine ⟨by simp [sub, hvm.1, hwm.1], fun j => ?_⟩
  have a := (cube_iff.1 hvm.2).2 j
  have b := (cube_iff.1 hwm.2).2 j
  have := hwv j
  rw [getD_sub (by rw [hvm.1, h.clen])] at a
  rw [getD_sub (by rw [hwm.1, h.clen])] at b
  rw [getD_sub (by rw [hvm.1, hwm.1])]
  omega

/-- chains: subset is sublist -/
theorem chain_sublist {ws vs : Simplex} (h1 : ws.Pairwise VLt) (h2 : vs.Pairwise VLt) (h : ∀ v ∈ ws, v ∈ vs) :
    ws.Sublist vs := by
  have : ∀ {ws vs : Simplex}, StrictSorted ws → StrictSorted vs → (∀ v ∈ ws, v ∈ vs) → ws.Sublist vs := by
    intro ws vs
    induction vs generalizing ws with
    | nil =>
      intro _ _ h
      rcases ws with _ | ⟨w, ws⟩
      · exact List.Sublist.slnil
      · exact absurd (h w (by simp)) (by simp)
    | cons v vs ih =>
      intro h1 h2 h
      rcases ws with _ | ⟨w, ws⟩
      · exact List.nil_sublist _
      unfold StrictSorted at h1 h2
      rw [List.pairwise_cons] at h1 h2
      by_cases hwv : w = v
      · subst hwv
        refine List.Sublist.cons_cons _ (ih h1.2 h2.2 fun x hx => ?_)
        rcases List.mem_cons.1 (h x (by simp [hx])) with rfl | hx'
        · exact absurd (h1.1 x hx) (lt_irrefl _)
        · exact hx'
      · refine List.Sublist.cons _ (ih (ws := w :: ws) (List.pairwise_cons.2 h1) h2.2 fun x hx => ?_)
        rcases List.mem_cons.1 (h x hx) with rfl | hx'
        · exfalso
          rcases List.mem_cons.1 hx with rfl | hx
          · exact hwv rfl
          · have hw := h w (by simp)
            rcases List.mem_cons.1 hw with hw | hw
            · exact hwv hw
            · exact lt_asymm (h1.1 x hx) (h2.1 w hw)
        · exact hx'
  exact this (chain_strict h1) (chain_strict h2) h

theorem faceOf_iff {n k m : Nat} (hn : 1 ≤ n) (hk : k ≤ n) (hm : m ≤ n) {f e : Elem} (hf : IsElem n k f)
    (he : IsElem n m e) : FaceOf n f e ↔ ∃ vf ve, f.vertices n = some vf ∧ e.vertices n = some ve ∧ vf.Sublist ve := by
  constructor
  · rintro ⟨vf, ve, h1, h2, h3⟩
    exact ⟨vf, ve, h1, h2, chain_sublist (cell_of_elem hn hk hf.dim hf.len h1).chain
      (cell_of_elem hn hm he.dim he.len h2).chain h3⟩
  · rintro ⟨vf, ve, h1, h2, h3⟩
    exact ⟨vf, ve, h1, h2, fun v hv => h3.subset hv⟩

theorem FaceOf.trans {n : Nat} {a b c : Elem} (h : FaceOf n a b) (h' : FaceOf n b c) : FaceOf n a c := by
  obtain ⟨va, vb, h1, h2, h3⟩ := h
  obtain ⟨vb', vc, h4, h5, h6⟩ := h'
  rw [h2] at h4
  cases h4
  exact ⟨va, vc, h1, h5, fun v hv => h6 v (h3 v hv)⟩

theorem dropsOne_sublist {ve vf : Simplex} (h : DropsOne ve vf) : vf.Sublist ve ∧ vf.length + 1 = ve.length := by
  obtain ⟨i, hi, rfl⟩ := h
  exact ⟨List.eraseIdx_sublist ve i, by rw [List.length_eraseIdx_of_lt hi]; omega⟩

/-- a sublist shorter by one leaves out one -/
theorem dropsOne_of_sublist {ve vf : Simplex} (h : vf.Sublist ve) (hl : vf.length + 1 = ve.length) : DropsOne ve vf := by
  rw [dropsOne_iff]
  induction h with
  | slnil => simp at hl
  | @cons l₁ l₂ a h ih =>
    have : l₁ = l₂ := h.eq_of_length (by simpa using hl)
    subst this
    exact ⟨[], a, l₁, rfl, rfl⟩
  | @cons_cons l₁ l₂ a h ih =>
    obtain ⟨p, w, q, rfl, rfl⟩ := ih (by simpa using hl)
    exact ⟨a :: p, w, q, rfl, rfl⟩

/-- between a sublist and a longer list there is a sublist longer by one -/
theorem exists_between {ve vf : Simplex} (h : vf.Sublist ve) (hl : vf.length < ve.length) :
    ∃ g, vf.Sublist g ∧ g.Sublist ve ∧ g.length = vf.length + 1 := by
  induction h with
  | slnil => simp at hl
  | @cons l₁ l₂ a h ih => exact ⟨a :: l₁, List.sublist_cons_self _ _, h.cons_cons a, rfl⟩
  | @cons_cons l₁ l₂ a h ih =>
    obtain ⟨g, h1, h2, h3⟩ := ih (by simpa using hl)
    exact ⟨a :: g, h1.cons_cons a, h2.cons_cons a, by simp [h3]⟩

theorem sideOf_iff {n k : Nat} (hn : 1 ≤ n) (hk : k + 1 ≤ n) {f : Elem} (hf : IsElem n k f) :
    ∃ S, f.sideOf n = some S ∧ ∀ e, e ∈ S ↔ IsElem n (k + 1) e ∧ FaceOf n f e := by
  obtain ⟨vf, hvf⟩ := vertices_exists hf.type
  obtain ⟨S, h1, -, h3⟩ := C14_side_of n hn f vf k hf.dim hk hf.len hvf
  refine ⟨S, h1, fun e => ?_⟩
  rw [h3]
  constructor
  · rintro ⟨a, b, ve, hve, hd⟩
    exact ⟨⟨b, a, type_lt_of_vertices hve⟩, vf, ve, hvf, hve, fun v hv => (dropsOne_sublist hd).1.subset hv⟩
  · rintro ⟨he, hfe⟩
    obtain ⟨vf', ve, a, b, g⟩ := (faceOf_iff hn (by omega) hk hf he).1 hfe
    rw [hvf] at a
    cases a
    refine ⟨he.len, he.dim, ve, b, dropsOne_of_sublist g ?_⟩
    rw [(cell_of_elem hn (by omega) hf.dim hf.len hvf).len, (cell_of_elem hn hk he.dim he.len b).len]

theorem sides_iff {n k : Nat} (hn : 1 ≤ n) (hk : k + 1 ≤ n) {e : Elem} (he : IsElem n (k + 1) e) :
    ∃ S, e.sides n = some S ∧ S.Nodup ∧ ∀ f, f ∈ S ↔ IsElem n k f ∧ FaceOf n f e := by
  obtain ⟨ve, hve⟩ := vertices_exists he.type
  obtain ⟨S, h1, h2, -, h3⟩ := C14_sides n hn e ve k he.dim hk he.len hve
  refine ⟨S, h1, h2, fun f => ?_⟩
  rw [h3]
  constructor
  · rintro ⟨a, b, vf, hvf, hd⟩
    exact ⟨⟨b, a, type_lt_of_vertices hvf⟩, vf, ve, hvf, hve, fun v hv => (dropsOne_sublist hd).1.subset hv⟩
  · rintro ⟨hf, hfe⟩
    obtain ⟨vf, ve', a, b, g⟩ := (faceOf_iff hn (by omega) hk hf he).1 hfe
    rw [hve] at b
    cases b
    refine ⟨hf.len, hf.dim, vf, a, dropsOne_of_sublist g ?_⟩
    rw [(cell_of_elem hn (by omega) hf.dim hf.len a).len, (cell_of_elem hn hk he.dim he.len hve).len]

/-- between a face and an element there is one of the next dimension -/
theorem between_elem {n k m : Nat} (hn : 1 ≤ n) (hm : m ≤ n) (hkm : k < m) {f e : Elem} (hf : IsElem n k f)
    (he : IsElem n m e) (h : FaceOf n f e) : ∃ g, IsElem n (k + 1) g ∧ FaceOf n f g ∧ FaceOf n g e := by
  obtain ⟨vf, ve, a, b, s⟩ := (faceOf_iff hn (by omega) hm hf he).1 h
  have cf := cell_of_elem hn (by omega) hf.dim hf.len a
  have ce := cell_of_elem hn hm he.dim he.len b
  obtain ⟨vg, s1, s2, hl⟩ := exists_between s (by rw [cf.len, ce.len]; omega)
  obtain ⟨c', cg⟩ := sub_cell ce s2 (m := k + 1) (by rw [hl, cf.len])
  obtain ⟨g, hg, hvg⟩ := isElem_of_cell hn (by omega) cg
  exact ⟨g, hg, ⟨vf, vg, a, hvg, fun v hv => s1.subset hv⟩, ⟨vg, ve, hvg, b, fun v hv => s2.subset hv⟩⟩

theorem elemValid_face {n : Nat} {b : Bounds} {f e : Elem} (h : FaceOf n f e) (he : elemValid n b e = true) :
    elemValid n b f = true := by
  obtain ⟨vf, ve, a, b', s⟩ := h
  unfold elemValid at *
  rw [a]
  rw [b'] at he
  simp only [List.all_eq_true] at he ⊢
  exact fun v hv => he v (s v hv)

/-- the nested loops over cofaces find exactly the valid elements, `m` dimensions up, that contain the element -/
theorem up_spec {n : Nat} (hn : 1 ≤ n) (b : Bounds) : ∀ (m : Nat) {k : Nat} {e : Elem}, k + m ≤ n → 1 ≤ m → IsElem n k e →
    ∃ r, up n b m e = some r ∧ ∀ x, x ∈ r ↔ IsElem n (k + m) x ∧ FaceOf n e x ∧ elemValid n b x = true := by
  intro m
  induction m with
  | zero => intro k e _ h _; omega
  | succ m ih =>
    intro k e hk _ he
    obtain ⟨S, hS, hmem⟩ := sideOf_iff hn (by omega) he
    rcases Nat.eq_zero_or_pos m with rfl | hm
    · refine ⟨S.filter (elemValid n b), ?_, ?_⟩
      · simp only [up, hS]
        exact collect_single (fun _ => rfl) _
      · intro x
        rw [List.mem_filter, hmem]
        tauto
    · obtain ⟨r, h1, h2⟩ := mem_collect (f := up n b m) (l := S.filter (elemValid n b))
        (P := fun g x => IsElem n (k + 1 + m) x ∧ FaceOf n g x ∧ elemValid n b x = true) (by
          intro g hg
          exact ih (by omega) hm ((hmem g).1 (List.mem_filter.1 hg).1).1)
      refine ⟨r, by simp only [up, hS, h1], fun x => ?_⟩
      rw [h2]
      have ek : k + 1 + m = k + (m + 1) := by omega
      constructor
      · rintro ⟨g, hg, hx, hgx, hv⟩
        obtain ⟨hg1, hg2⟩ := List.mem_filter.1 hg
        exact ⟨ek ▸ hx, ((hmem g).1 hg1).2.trans hgx, hv⟩
      · rintro ⟨hx, hex, hv⟩
        obtain ⟨g, hg, h3, h4⟩ := between_elem hn hk (by omega) he hx hex
        exact ⟨g, List.mem_filter.2 ⟨(hmem g).2 ⟨hg, h3⟩, elemValid_face h4 hv⟩, ek ▸ hx, h4, hv⟩

/-- the nested loops over sides find exactly the faces `m` dimensions down -/
theorem down_spec {n : Nat} (hn : 1 ≤ n) : ∀ (m : Nat) {k : Nat} {e : Elem}, k + m ≤ n → 1 ≤ m → IsElem n (k + m) e →
    ∃ r, down n m e = some r ∧ ∀ x, x ∈ r ↔ IsElem n k x ∧ FaceOf n x e := by
  intro m
  induction m with
  | zero => intro k e _ h _; omega
  | succ m ih =>
    intro k e hk _ he
    obtain ⟨S, hS, -, hmem⟩ := sides_iff hn (k := k + m) (by omega) he
    rcases Nat.eq_zero_or_pos m with rfl | hm
    · refine ⟨S, ?_, hmem⟩
      simp only [down, hS]
      exact collect_single (fun _ => rfl) _
    · obtain ⟨r, h1, h2⟩ := mem_collect (f := down n m) (l := S)
        (P := fun g x => IsElem n k x ∧ FaceOf n x g) (by
          intro g hg
          exact ih (by omega) hm ((hmem g).1 hg).1)
      refine ⟨r, by simp only [down, hS, h1], fun x => ?_⟩
      rw [h2]
      constructor
      · rintro ⟨g, hg, hx, hgx⟩
        exact ⟨hx, hgx.trans ((hmem g).1 hg).2⟩
      · rintro ⟨hx, hex⟩
        obtain ⟨vf, ve, a, b, s⟩ := (faceOf_iff hn (by omega) (by omega) hx he).1 hex
        have cf := cell_of_elem hn (by omega) hx.dim hx.len a
        have ce := cell_of_elem hn (by omega) he.dim he.len b
        obtain ⟨vg, s1, s2, hl⟩ : ∃ g, vf.Sublist g ∧ g.Sublist ve ∧ g.length = ve.length - 1 := by
          have hlt : vf.length < ve.length := by rw [cf.len, ce.len]; omega
          clear hex cf ce a b he
          induction s with
          | slnil => simp at hlt
          | @cons l₁ l₂ a h ih => exact ⟨l₂, h, List.sublist_cons_self _ _, by simp⟩
          | @cons_cons l₁ l₂ a h ih =>
            obtain ⟨g, h1, h2, h3⟩ := ih (by simpa using hlt)
            exact ⟨a :: g, h1.cons_cons a, h2.cons_cons a, by simp [h3] at hlt ⊢; omega⟩
        obtain ⟨c', cg⟩ := sub_cell ce s2 (m := k + m) (by rw [hl, ce.len]; omega)
        obtain ⟨g, hg, hvg⟩ := isElem_of_cell hn (by omega) cg
        exact ⟨g, (hmem g).2 ⟨hg, vg, ve, hvg, b, fun v hv => s2.subset hv⟩, hx, vf, vg, a, hvg, fun v hv => s1.subset hv⟩

end Verif.Ctr
