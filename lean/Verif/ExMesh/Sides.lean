import Verif.ExMesh.Cells
/-!
# Sides and cofaces in the explicit extruded mesh (C189)
-/
namespace Verif.ExM
open Verif.U3

/-- C189, violated: `sides` finds no side of any cell. -/
theorem C189_sides_missing (m : Ex) (d : Nat) (k : Int) (hn : m.n d ≠ 0) : m.sides d k = some [] := by
  unfold Ex.sides XM.mod
  rw [if_neg hn]
  rfl

section
variable {n0 : Nat} {ts : List Tet} {m3 : M3}

theorem n_le (hl : Layered n0 ts) (hb : build (2 * n0) ts = some m3) {d : Nat} (h1 : 1 ≤ d) (h3 : d ≤ 3) :
    (mk n0 m3).n d ≤ m3.n d := by
  rw [← ids_length (mk n0 m3) h1 h3]
  have hsub : ids (mk n0 m3) d ⊆ List.range (m3.n d) := by
    intro j hj
    obtain ⟨c, hc, -⟩ := (ids_mem hl hb h1 h3 j).1 hj
    rw [List.mem_range]
    by_contra hge
    rw [(C122_cells hl.valid hb h1 h3).2.1 j (by omega)] at hc; cases hc
  have := (List.subperm_of_subset (ids_nodup hl hb h1 h3) hsub).length_le
  rw [List.length_range] at this
  exact_mod_cast this

theorem get_small (hl : Layered n0 ts) (hb : build (2 * n0) ts = some m3) {d : Nat} (h1 : 1 ≤ d) (h3 : d ≤ 3) {i : Int}
    (h0 : 0 ≤ i) (hi : i < (mk n0 m3).n d) : ∃ c, m3.get d i = some c ∧ c.length = d + 1 ∧ ∀ v ∈ c, v < (m3.n 0 : Int) := by
  have hle := n_le hl hb h1 h3
  obtain ⟨c, hc, hcell⟩ := (C122_cells hl.valid hb h1 h3).1 i h0 (by omega)
  refine ⟨c, hc, hcell.len, fun v hv => ?_⟩
  have := cell_range hl hcell v hv
  have := (base_of hl.valid hb).hn0
  omega

/-- The "normal form" of a cell id that is not negative is the id itself: `normalize` compares with the number of vertices
of the whole period, both planes, which no vertex reaches. -/
theorem normalize_id (hl : Layered n0 ts) (hb : build (2 * n0) ts = some m3) {d : Nat} (h3 : d ≤ 3)
    (hn : 0 < (mk n0 m3).n d) {k : Int} (hk : 0 ≤ k) : (mk n0 m3).normalize d k = some k := by
  unfold Ex.normalize
  by_cases hd : d = 0 ∨ d = 3
  · rw [if_pos hd]
  · rw [if_neg hd]
    obtain ⟨c, hc, hlen, hv⟩ := get_small hl hb (d := d) (by omega) h3 (Int.emod_nonneg k hn.ne') (Int.emod_lt_of_pos k hn)
    have hall : ¬ ((c.take d).all fun v => ¬ (v < ((mk n0 m3).m3.n 0 : Int))) = true := by
      match c, hlen with
      | v :: w :: c, _ =>
        obtain ⟨e, rfl⟩ : ∃ e, d = e + 1 := ⟨d - 1, by omega⟩
        rw [List.take_succ_cons, List.all_cons]
        have hv0 : v < (m3.n 0 : Int) := hv v (by simp)
        simp [mk_m3, hv0]
    simp only [XM.mod_of_nonneg hn hk, mk_m3, hc, Option.bind_eq_bind, Option.bind_some]
    exact if_neg hall

theorem gather_spec (hl : Layered n0 ts) (hb : build (2 * n0) ts = some m3) {d : Nat} (h3 : d ≤ 3)
    (hn : 0 < (mk n0 m3).n d) {off : Int} (ho : 0 ≤ off) : ∀ (ss acc : List Int), (∀ s ∈ ss, 0 ≤ s) →
      ∃ r, (mk n0 m3).gather d off ss acc = some r ∧ ∀ x, x ∈ r ↔ x ∈ acc ∨ ∃ s ∈ ss, x = s + off
  | [], acc, _ => ⟨acc, rfl, fun x => by simp⟩
  | s :: ss, acc, hs => by
    obtain ⟨r, hr, hx⟩ := gather_spec hl hb h3 hn ho ss (setInsert (s + off) acc) fun s' h => hs s' (by simp [h])
    refine ⟨r, ?_, fun x => ?_⟩
    · unfold Ex.gather
      have h0 : 0 ≤ s + off := by have := hs s (by simp); omega
      simp only [normalize_id hl hb h3 hn h0, Option.bind_eq_bind, Option.bind_some]
      exact hr
    · rw [hx, mem_setInsert]
      constructor
      · rintro ((rfl | h) | ⟨s', h, rfl⟩)
        · exact .inr ⟨s, by simp, rfl⟩
        · exact .inl h
        · exact .inr ⟨s', by simp [h], rfl⟩
      · rintro (h | ⟨s', h, rfl⟩)
        · exact .inl (.inr h)
        · rcases List.mem_cons.1 h with rfl | h
          · exact .inl (.inl rfl)
          · exact .inr ⟨s', h, rfl⟩

/-- C189 (what `side_of` does): for an edge or triangle id `k ≥ 0` the result is the cofaces, within the single period, of
the cell of the *tetrahedral mesh* numbered `k mod n(d)`, each moved by `n(d)` ids per period. -/
theorem C189_sideof_partial (hl : Layered n0 ts) (hb : build (2 * n0) ts = some m3) {d : Nat} (hd : d = 1 ∨ d = 2)
    (hn : 0 < (mk n0 m3).n d) (hn' : 0 < (mk n0 m3).n (d + 1)) {k : Int} (hk : 0 ≤ k) :
    ∃ c r, m3.get d (k % (mk n0 m3).n d) = some c ∧ (mk n0 m3).sideOf d k = some r ∧
      ∀ x, x ∈ r ↔ ∃ s c', m3.get (d + 1) s = some c' ∧ (∀ v ∈ c, v ∈ c') ∧
        x = s + k / (mk n0 m3).n d * (mk n0 m3).n d := by
  obtain ⟨c, hc, hlen, hv⟩ := get_small hl hb (d := d) (by omega) (by omega) (Int.emod_nonneg k hn.ne') (Int.emod_lt_of_pos k hn)
  obtain ⟨S, hS, -, -, hmem⟩ := C122_side_of hl.valid hb hd _ c hc
  have hdiv : 0 ≤ k / (mk n0 m3).n d := Int.ediv_nonneg hk hn.le
  obtain ⟨r, hr, hx⟩ := gather_spec hl hb (d := d + 1) (by omega) hn' (mul_nonneg hdiv hn.le) S [] (fun s hs => by
    obtain ⟨c', hc', -⟩ := (hmem s).1 hs
    exact ((base_of hl.valid hb).get_range hc').2.2.1)
  have hnp : (mk n0 m3).notPure d (k % (mk n0 m3).n d) = some false := by
    unfold Ex.notPure
    rw [if_neg (by omega), mk_m3, hc, Option.map_some]
    congr 1
    rw [List.any_eq_false]
    intro v hv'
    have := hv v (List.mem_of_mem_take hv')
    simp [this]
  refine ⟨c, r, hc, ?_, fun x => ?_⟩
  · unfold Ex.sideOf
    simp only [XM.mod_of_nonneg hn hk, mk_m3, hS, Int.fdiv_eq_ediv_of_nonneg _ hn.le, hr, hnp, Option.bind_eq_bind,
      Option.bind_some]
    rfl
  · rw [hx]
    constructor
    · rintro (h | ⟨s, hs, rfl⟩)
      · cases h
      · obtain ⟨c', hc', hsub⟩ := (hmem s).1 hs
        exact ⟨s, c', hc', hsub, rfl⟩
    · rintro ⟨s, c', hc', hsub, rfl⟩
      exact .inr ⟨s, (hmem s).2 ⟨c', hc', hsub⟩, rfl⟩

/-- C189: in period 0 the cofaces of a triangle whose id is the same in both meshes are right, except that those of a
triangle in the lower plane in the period before are missing: the result is the tetrahedra of period 0 that have the three
corners of the triangle. -/
theorem C189_first_period_partial (hl : Layered n0 ts) (hb : build (2 * n0) ts = some m3) {k : Int} (hk : 0 ≤ k)
    (hkn : k < (mk n0 m3).n 2) (hsame : (mk n0 m3).idOf 2 k = some k) :
    ∃ c r, (mk n0 m3).get 2 k = some c ∧ (mk n0 m3).sideOf 2 k = some r ∧
      ∀ x, x ∈ r ↔ 0 ≤ x ∧ x < (mk n0 m3).n 3 ∧ ∃ c', (mk n0 m3).get 3 x = some c' ∧ ∀ v ∈ c, v ∈ c' := by
  have hn : 0 < (mk n0 m3).n 2 := by omega
  have hB := base_of hl.valid hb
  have h3 : (mk n0 m3).n 3 = (m3.n 3 : Int) := by unfold Ex.n; rw [if_pos rfl]; rfl
  have hq : k / (mk n0 m3).n 2 = 0 := Int.ediv_eq_zero_of_lt hk hkn
  have hr' : k % (mk n0 m3).n 2 = k := Int.emod_eq_of_lt hk hkn
  have hn3 : 0 < (mk n0 m3).n 3 := by
    obtain ⟨c, hc, hlen, -⟩ := get_small hl hb (d := 2) (by omega) (by omega) hk hkn
    obtain ⟨t, ht, -⟩ := (hB.get_cell hc).on
    have := hB.n3
    have := List.length_pos_of_mem ht
    omega
  obtain ⟨c, r, hc, hr, hx⟩ := C189_sideof_partial hl hb (d := 2) (.inr rfl) hn hn3 hk
  rw [hr'] at hc
  have hg2 : (mk n0 m3).get 2 k = some c := by
    unfold Ex.get
    simp only [XM.mod_of_nonneg hn hk, hr', hsame, mk_m3, hc, Int.fdiv_eq_ediv_of_nonneg _ hn.le, hq, Option.bind_eq_bind,
      Option.bind_some, zero_mul, add_zero, List.map_id']
  have hg3 : ∀ x, 0 ≤ x → x < (mk n0 m3).n 3 → (mk n0 m3).get 3 x = m3.get 3 x := by
    intro x h0 h1
    unfold Ex.get Ex.idOf
    simp only [XM.mod_of_nonneg hn3 h0, Int.emod_eq_of_lt h0 h1, mk_m3, Int.fdiv_eq_ediv_of_nonneg _ hn3.le,
      Int.ediv_eq_zero_of_lt h0 h1, Option.bind_eq_bind, Option.bind_some, zero_mul, add_zero, List.map_id', if_true]
    cases m3.get 3 x <;> rfl
  refine ⟨c, r, hg2, hr, fun x => ?_⟩
  rw [hx, hq, zero_mul]
  constructor
  · rintro ⟨s, c', hc', hsub, rfl⟩
    have hrange := (hB.get_range hc').2.2
    rw [add_zero]
    refine ⟨hrange.1, by rw [h3]; exact hrange.2, c', ?_, hsub⟩
    rw [hg3 s hrange.1 (by rw [h3]; exact hrange.2)]
    exact hc'
  · rintro ⟨h0, h1, c', hc', hsub⟩
    rw [hg3 x h0 h1] at hc'
    exact ⟨x, c', hc', hsub, (add_zero x).symm⟩

end

/-! ### a concrete mesh -/

/-- One prism over the triangle 0 1 2, cut into three tetrahedra. -/
def prism : List Tet := [(0, 1, 2, 5), (0, 1, 4, 5), (0, 3, 4, 5)]

theorem prism_planes : ∀ d, (d = 1 ∨ d = 2) → ∀ c : Cell, (∀ v ∈ c, 0 ≤ v ∧ v < ((3 : Nat) : Int)) →
    (IsCell prism d c ↔ IsCell prism d (c.map (· + ((3 : Nat) : Int)))) := by
  -- every increasing list of corners in one of the planes is a cell there
  have low : ∀ c : Cell, (∀ v ∈ c, 0 ≤ v ∧ v < (3 : Int)) → ∃ t ∈ prism, ∀ v ∈ c, OnTet v t := by
    intro c hv
    refine ⟨(0, 1, 2, 5), by simp [prism], fun v h => ?_⟩
    have := hv v h
    simp only [OnTet]; omega
  have up : ∀ c : Cell, (∀ v ∈ c, 3 ≤ v ∧ v < (6 : Int)) → ∃ t ∈ prism, ∀ v ∈ c, OnTet v t := by
    intro c hv
    refine ⟨(0, 3, 4, 5), by simp [prism], fun v h => ?_⟩
    have := hv v h
    simp only [OnTet]; omega
  intro d _ c hv
  constructor
  · rintro ⟨h1, h2, -⟩
    refine ⟨by simpa using h1, ?_, up _ ?_⟩
    · rw [List.pairwise_map]; exact h2.imp fun h => by omega
    · intro v h
      obtain ⟨w, hw, rfl⟩ := List.mem_map.1 h
      have := hv w hw
      omega
  · rintro ⟨h1, h2, -⟩
    refine ⟨by simpa using h1, ?_, low c fun v h => by have := hv v h; omega⟩
    rw [List.pairwise_map] at h2; exact h2.imp fun h => by omega

theorem prism_valid : Valid 6 prism := by
  refine ⟨?_, by decide, ?_⟩
  · intro t ht v hv
    simp [prism] at ht
    rcases ht with rfl | rfl | rfl <;> simp [OnTet] at hv <;> omega
  · intro i j s t hi hj h
    have key : ∀ k r, prism[k]? = some r →
        (k = 0 ∧ r = (0, 1, 2, 5)) ∨ (k = 1 ∧ r = (0, 1, 4, 5)) ∨ (k = 2 ∧ r = (0, 3, 4, 5)) := by
      intro k r hk
      match k, hk with
      | 0, hk => left; simp [prism] at hk; exact ⟨rfl, hk.symm⟩
      | 1, hk => right; left; simp [prism] at hk; exact ⟨rfl, hk.symm⟩
      | 2, hk => right; right; simp [prism] at hk; exact ⟨rfl, hk.symm⟩
      | k + 3, hk => simp [prism] at hk
    have a := h 1
    have b := h 2
    have c := h 3
    rcases key i s hi with ⟨rfl, rfl⟩ | ⟨rfl, rfl⟩ | ⟨rfl, rfl⟩ <;>
      rcases key j t hj with ⟨rfl, rfl⟩ | ⟨rfl, rfl⟩ | ⟨rfl, rfl⟩ <;>
      first | rfl | (exfalso; simp [OnTet] at a b c)

theorem prism_layered : Layered 3 prism := by
  refine ⟨prism_valid, fun d c hd hv => prism_planes d hd c hv, ?_⟩
  intro t ht
  simp [prism] at ht
  rcases ht with rfl | rfl | rfl <;> exact ⟨0, by simp [OnTet], by simp⟩


/-- Non-vacuity: the prism meets the hypotheses; a period has 3 tetrahedra, 9 triangles and 9 edges, each with an id. -/
example : Layered 3 prism ∧ ∃ m3, build (2 * 3) prism = some m3 ∧ (mk 3 m3).n 1 = 9 ∧ (mk 3 m3).n 2 = 9 ∧ (mk 3 m3).n 3 = 3 ∧
    (mk 3 m3).get 2 9 = some [3, 4, 5] ∧ (mk 3 m3).get 1 (-7) = some [-2, -1] ∧ (mk 3 m3).idOf 2 6 = some 6 ∧
    (mk 3 m3).sideOf 2 6 = some [1, 2] := by
  refine ⟨prism_layered, ?_⟩
  cases h : build (2 * 3) prism with
  | none =>
    have : build (2 * 3) prism ≠ none := by decide +kernel
    exact absurd h this
  | some m3 =>
    refine ⟨m3, rfl, ?_⟩
    have key : ∀ m ∈ build (2 * 3) prism, (mk 3 m).n 1 = 9 ∧ (mk 3 m).n 2 = 9 ∧ (mk 3 m).n 3 = 3 ∧
      (mk 3 m).get 2 9 = some [3, 4, 5] ∧ (mk 3 m).get 1 (-7) = some [-2, -1] ∧ (mk 3 m).idOf 2 6 = some 6 ∧
      (mk 3 m).sideOf 2 6 = some [1, 2] := by decide +kernel
    exact key m3 h

/-- C189, violated: in the prism, the triangle 3 4 5 between periods 0 and 1 (id 9) is a face of the tetrahedra 0 3 4 5 (id 2)
and 3 4 5 8 (id 3); `side_of` answers with the single tetrahedron 9, which has the corners 9, 10, 11, 14 and none of the triangle's.  And the
interval edge 0 3 (id 3) gets the cofaces of the edge number 3 of the tetrahedral mesh, which is 0 4. -/
theorem C189_violated : ∀ m3 ∈ build 6 prism,
    (mk 3 m3).get 2 9 = some [3, 4, 5] ∧ (mk 3 m3).get 3 2 = some [0, 3, 4, 5] ∧ (mk 3 m3).get 3 3 = some [3, 4, 5, 8] ∧
    (mk 3 m3).sideOf 2 9 = some [9] ∧ (mk 3 m3).get 3 9 = some [9, 10, 11, 14] ∧
    (mk 3 m3).get 1 3 = some [0, 3] ∧ (mk 3 m3).sideOf 1 3 = some [1, 4, 6] ∧ (mk 3 m3).get 2 1 = some [0, 1, 4] := by
  decide +kernel

end Verif.ExM
