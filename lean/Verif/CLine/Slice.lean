import Verif.CLine.Pent
/-! Elements all of whose vertices have one time correspond to elements of the mesh of one dimension less. -/
namespace Verif.CLT
open Verif.SRM
open Verif.Ctr (IsElem FaceOf isElem_of_cell elem_unique faceOf_iff)

/-- all vertices of the element have time `t` -/
def OrdAt (e : Elem) (t : Int) : Prop := ∃ vs, e.vertices 4 = some vs ∧ ∀ v ∈ vs, AtTime 4 v t

/-- the vertex at time `t` -/
def up1 (t : Int) (v : Vtx) : Vtx := v ++ [t]

theorem up1_inj {t : Int} : Function.Injective (up1 t) := fun a b h => (List.append_left_inj [t]).1 h

theorem sub_up1 {t : Int} {v c : Vtx} (h : v.length = c.length) : sub (up1 t v) (up1 t c) = sub v c ++ [0] := by
  unfold sub up1
  rw [List.zipWith_append h]
  simp

theorem vlt_up1 {t : Int} {u v : Vtx} : VLt (up1 t u) (up1 t v) ↔ VLt u v := by
  unfold VLt
  refine and_congr ?_ (not_congr up1_inj.eq_iff)
  constructor
  · intro h
    have hl := h.length_eq
    simp only [up1, List.length_append, List.length_singleton] at hl
    have := List.forall₂_take (n := u.length) h
    unfold up1 at this
    rw [List.take_left' rfl, List.take_left' (by omega)] at this
    exact this
  · intro h
    exact List.rel_append h (.cons (Int.le_refl _) .nil)

theorem cell_up1 {n k : Nat} {t : Int} {c : Vtx} {vs : Simplex} (hv : ∀ v ∈ vs, v.length = n) (hc : c.length = n) :
    Cell (n + 1) k (up1 t c) (vs.map (up1 t)) ↔ Cell n k c vs := by
  have hcube : ∀ v, v.length = n → (Cube (n + 1) (sub (up1 t v) (up1 t c)) ↔ Cube n (sub v c)) := by
    intro v hv
    rw [sub_up1 (by omega)]
    unfold Cube
    simp only [List.length_append, List.length_singleton, List.mem_append, List.mem_singleton]
    constructor
    · rintro ⟨a, b⟩
      exact ⟨by omega, fun x hx => b x (.inl hx)⟩
    · rintro ⟨a, b⟩
      exact ⟨by omega, fun x hx => hx.elim (b x) .inl⟩
  constructor
  · intro h
    refine ⟨by simpa using h.len, hc, ?_, ?_, fun v hm => ⟨hv v hm, (hcube v (hv v hm)).1 (h.cube _ (List.mem_map.2 ⟨v, hm, rfl⟩)).2⟩⟩
    · have := h.head
      rw [List.head?_map, Option.map_eq_some_iff] at this
      obtain ⟨a, ha, hb⟩ := this
      rw [ha, up1_inj hb]
    · have := h.chain
      rw [List.pairwise_map] at this
      exact this.imp fun h => vlt_up1.1 h
  · intro h
    refine ⟨by simpa using h.len, by simp [up1, hc], ?_, ?_, ?_⟩
    · rw [List.head?_map, h.head]
      rfl
    · rw [List.pairwise_map]
      exact h.chain.imp fun h => vlt_up1.2 h
    · intro w hw
      obtain ⟨v, hm, rfl⟩ := List.mem_map.1 hw
      exact ⟨by simp [up1, hv v hm], (hcube v (hv v hm)).2 (h.cube v hm).2⟩

/-- an element at one time: its trace in the 3-D mesh -/
theorem trace_exists {k : Nat} (hk : k ≤ 3) {e : Elem} (he : IsElem 4 k e) {t : Int} (ht : OrdAt e t) :
    ∃ e' ws, IsElem 3 k e' ∧ e'.vertices 3 = some ws ∧ e.vertices 4 = some (ws.map (up1 t)) := by
  obtain ⟨vs, hvs, hat⟩ := ht
  have hcell := cell_of_elem (n := 4) (by omega) (k := k) (by omega) he.dim he.len hvs
  have hform : ∀ v ∈ vs, v = up1 t (v.take 3) := by
    intro v hv
    have hl := (hcell.cube v hv).1
    have := hat v hv
    unfold AtTime at this
    unfold up1
    conv_lhs => rw [← List.take_append_drop 3 v]
    congr 1
    rcases v with _ | ⟨a, _ | ⟨b, _ | ⟨c, _ | ⟨d, _ | ⟨x, l⟩⟩⟩⟩⟩ <;> simp at hl
    simp at this
    simp [this]
  have hmap : vs = (vs.map (List.take 3)).map (up1 t) := by
    rw [List.map_map]
    conv_lhs => rw [← List.map_id vs]
    exact List.map_congr_left hform
  have hc : e.corner = up1 t (e.corner.take 3) := hform _ (List.mem_of_mem_head? (by rw [hcell.head]; exact rfl))
  rw [hmap, hc] at hcell
  have hcell' := (cell_up1 (n := 3) (by
    intro v hv
    obtain ⟨w, hw, rfl⟩ := List.mem_map.1 hv
    have := (cell_of_elem (n := 4) (by omega) (k := k) (by omega) he.dim he.len hvs).cube w hw
    simp [this.1]) (by simp [he.len])).1 hcell
  obtain ⟨e', h1, h2⟩ := isElem_of_cell (n := 3) (by omega) hk hcell'
  exact ⟨e', _, h1, h2, by rw [← hmap]; exact hvs⟩

/-- the element of the 4-D mesh at time `t` over an element of the 3-D mesh -/
theorem lift_exists {k : Nat} (hk : k ≤ 3) {e' : Elem} (he' : IsElem 3 k e') {ws : Simplex} (hws : e'.vertices 3 = some ws) (t : Int) :
    ∃ e, IsElem 4 k e ∧ e.vertices 4 = some (ws.map (up1 t)) := by
  have hcell := cell_of_elem (n := 3) (by omega) hk he'.dim he'.len hws
  have := (cell_up1 (n := 3) (t := t) (fun v hv => (hcell.cube v hv).1) he'.len).2 hcell
  exact isElem_of_cell (n := 4) (by omega) (by omega) this

/-- a triangle at one time has exactly two tetrahedra at that time -/
theorem two_tets {f : Elem} (hf : IsElem 4 2 f) {t : Int} (ht : OrdAt f t) :
    ∃ a b, a ≠ b ∧ ∀ e, (IsElem 4 3 e ∧ OrdAt e t ∧ FaceOf 4 f e) ↔ e = a ∨ e = b := by
  obtain ⟨f', wf, f1, f2, f3⟩ := trace_exists (by omega) hf ht
  obtain ⟨a', b', hab, hs⟩ := C14_facet_has_two_cofaces 3 (by omega) f' (by rw [f1.dim]) f1.len f1.type
  obtain ⟨S, s1, s2⟩ := Ctr.sideOf_iff (n := 3) (by omega) (k := 2) (by omega) f1
  rw [hs] at s1
  cases s1
  obtain ⟨ea, fa⟩ := (s2 a').1 (by simp)
  obtain ⟨eb, fb⟩ := (s2 b').1 (by simp)
  obtain ⟨_, wa, q1, q2, qa⟩ := fa
  obtain ⟨_, wb, q3, q4, qb⟩ := fb
  rw [f2] at q1 q3
  cases q1
  cases q3
  obtain ⟨a, ha1, ha2⟩ := lift_exists (by omega) ea q2 t
  obtain ⟨b, hb1, hb2⟩ := lift_exists (by omega) eb q4 t
  have hat : ∀ {k : Nat} {x : Elem} {ws : Simplex}, IsElem 4 k x → k ≤ 4 → x.vertices 4 = some (ws.map (up1 t)) → OrdAt x t := by
    intro k x ws hx hk hv
    have hc := cell_of_elem (n := 4) (by omega) hk hx.dim hx.len hv
    refine ⟨_, hv, fun v hv => ?_⟩
    have hl := (hc.cube v hv).1
    obtain ⟨w, -, rfl⟩ := List.mem_map.1 hv
    unfold AtTime up1
    unfold up1 at hl
    simp only [List.length_append, List.length_singleton] at hl
    rw [List.getElem?_append_right (by omega)]
    simp [show w.length = 3 by omega]
  have hface : ∀ {x : Elem} {ws : Simplex}, x.vertices 4 = some (ws.map (up1 t)) → ((∀ v ∈ wf, v ∈ ws) ↔ FaceOf 4 f x) := by
    intro x ws hv
    constructor
    · intro h
      refine ⟨_, _, f3, hv, fun v hm => ?_⟩
      obtain ⟨w, hw, rfl⟩ := List.mem_map.1 hm
      exact List.mem_map.2 ⟨w, h w hw, rfl⟩
    · rintro ⟨_, _, h1, h2, h3⟩ v hm
      rw [f3] at h1
      rw [hv] at h2
      cases h1
      cases h2
      obtain ⟨w, hw, he⟩ := List.mem_map.1 (h3 _ (List.mem_map.2 ⟨v, hm, rfl⟩))
      exact up1_inj he ▸ hw
  refine ⟨a, b, ?_, fun e => ⟨?_, ?_⟩⟩
  · rintro rfl
    rw [ha2] at hb2
    have := List.map_injective_iff.2 up1_inj (Option.some.inj hb2)
    subst this
    exact hab (elem_unique (by omega) (by omega) ea eb q2 q4)
  · rintro ⟨he, hot, hfe⟩
    obtain ⟨e', we, e1, e2, e3⟩ := trace_exists (by omega) he hot
    have hfe' : FaceOf 3 f' e' := ⟨_, _, f2, e2, (hface e3).2 hfe⟩
    have := (s2 e').2 ⟨e1, hfe'⟩
    simp only [List.mem_cons, List.not_mem_nil, or_false] at this
    rcases this with rfl | rfl
    · rw [e2] at q2
      cases q2
      exact .inl (elem_unique (by omega) (by omega) he ha1 e3 ha2)
    · rw [e2] at q4
      cases q4
      exact .inr (elem_unique (by omega) (by omega) he hb1 e3 hb2)
  · rintro (rfl | rfl)
    · exact ⟨ha1, hat ha1 (by omega) ha2, (hface ha2).1 qa⟩
    · exact ⟨hb1, hat hb1 (by omega) hb2, (hface hb2).1 qb⟩

end Verif.CLT
