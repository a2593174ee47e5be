import Verif.XMesh.Dual

/-!
# Properties of the extruded 2-D mesh (C51, C52)
-/

namespace Verif.XM

open Verif.UM

variable {order : List (Edge × Int) → List (Edge × Int)} {n0 : Nat} {ts : List Tri} {m : M2}

/-! ## C51: ids -/

/-- C51: an id decodes to itself and to the `d + 1` vertices of a simplex of the extruded mesh that
starts at the time the id says. -/
theorem C51_get_simplex (ho : IsOrder order) (hv : Valid n0 ts) (hb : build order n0 ts = some m)
    {d : Nat} (hd : d ≤ 3) (hN : 0 < n m d) (k : Int) (hg : Good m d k) :
    ∃ vs, getSimplex m d k = some (k, vs) ∧ vs.length = d + 1 ∧ Simplex n0 ts vs ∧
      ∃ v l, vs = v :: l ∧ time n0 v = k / n m d := by
  have B := base_of ho hv hb
  obtain ⟨i, t, us, h1, h2, h3, h4⟩ := get_total B hd hN k hg
  obtain ⟨g1, g2, v, l, g3, g4⟩ := dec_simplex B (t := t) h3
  exact ⟨_, h4, g1, g2, v, l, g3, by rw [g4, h2]⟩

/-- C51: conversely every simplex of the extruded mesh has an id, in the block of its time, and only
one. -/
theorem C51_every_simplex (ho : IsOrder order) (hv : Valid n0 ts) (hb : build order n0 ts = some m)
    (hn : 0 < n0) {d : Nat} (hd : d ≤ 3) (v : Int) (l : List Int) (hl : l.length = d) (hs : Simplex n0 ts (v :: l)) :
    ∃ k, k / n m d = time n0 v ∧ (Good m d k → getSimplex m d k = some (k, v :: l)) ∧
      ∀ k' g, Good m d k' → getSimplex m d k' = some (g, v :: l) → k' = k := by
  have B := base_of ho hv hb
  obtain ⟨i, t, us, h1, h2⟩ := dec_complete B hn hd (by simp [hl]) hs
  have hr := h1.range B
  obtain ⟨_, _, v', l', g3, g4⟩ := dec_simplex B (t := t) h1
  refine ⟨i + t * n m d, ?_, ?_, ?_⟩
  · rw [ediv_at hr.1 hr.2]
    rw [← h2] at g3
    simp at g3
    rw [g3.1, g4]
  · intro hg
    rw [get_dec B h1 hg, ← h2]
  · intro k' g hg' hk'
    obtain ⟨i', t', us', e1, _, e3, e4⟩ := get_total B hd (by omega) k' hg'
    rw [hk'] at e4
    simp at e4
    obtain ⟨rfl, rfl⟩ := shift_inj B h1 e3 (by rw [← h2, e4.2])
    exact e1

/-- C51: `find_simplex` finds, for every edge, triangle or tetrahedron of the extruded mesh at
non-negative times, given by its vertices in increasing order, the id that decodes to it. -/
theorem C51_find_simplex (ho : IsOrder order) (hv : Valid n0 ts) (hb : build order n0 ts = some m)
    (hn : 0 < n0) {d : Nat} (h1 : 1 ≤ d) (hd : d ≤ 3) (vs : List Int) (hl : vs.length = d + 1)
    (hs : Simplex n0 ts vs) (ht : ∀ v ∈ vs, 0 ≤ v) :
    ∃ k, 0 ≤ k ∧ findSimplex m d vs = some (some k) ∧ getSimplex m d k = some (k, vs) := by
  have B := base_of ho hv hb
  obtain ⟨i, t, us, g1, g2⟩ := dec_complete B hn hd hl hs
  have hr := g1.range B
  obtain ⟨_, _, v', l', g3, g4⟩ := dec_simplex B (t := t) g1
  have ht0 : 0 ≤ t := by
    have := ht v' (by rw [g2, g3]; simp)
    rw [← g4]
    exact Int.ediv_nonneg this (by omega)
  have hk := id_nonneg (i := i) (t := t) (N := n m d) (by omega) hr.1 ht0
  refine ⟨i + t * n m d, hk, ?_, ?_⟩
  · rw [g2]; exact find_dec B h1 g1 ht0
  · rw [g2]; exact get_dec B g1 (Or.inl hk)

/-- C51: `find_simplex` inverts `get_simplex` at non-negative times. -/
theorem C51_find_get_partial (ho : IsOrder order) (hv : Valid n0 ts) (hb : build order n0 ts = some m)
    {d : Nat} (h1 : 1 ≤ d) (hd : d ≤ 3) (hN : 0 < n m d) (k : Int) (hk : 0 ≤ k) :
    ∃ vs, getSimplex m d k = some (k, vs) ∧ findSimplex m d vs = some (some k) := by
  have B := base_of ho hv hb
  obtain ⟨i, t, us, e1, e2, e3, e4⟩ := get_total B hd hN k (Or.inl hk)
  have ht : 0 ≤ t := by rw [e2]; exact Int.ediv_nonneg hk (by omega)
  exact ⟨_, e4, by rw [find_dec B h1 e3 ht, e1]⟩

theorem ordinalIds_mem {d : Nat} {t k : Int} : k ∈ ordinalIds m d t ↔ t * n m d ≤ k ∧ k < nOrdinal m d + t * n m d := by
  unfold ordinalIds
  simp only [List.mem_map, List.mem_range]
  constructor
  · rintro ⟨a, h1, rfl⟩; omega
  · rintro ⟨h1, h2⟩; exact ⟨(k - t * n m d).toNat, by omega, by omega⟩

theorem intervalIds_mem {d : Nat} {t k : Int} : k ∈ intervalIds m d t ↔
    nOrdinal m d + t * n m d ≤ k ∧ k < nInterval m d + nOrdinal m d + t * n m d := by
  unfold intervalIds
  simp only [List.mem_map, List.mem_range]
  constructor
  · rintro ⟨a, h1, rfl⟩; omega
  · rintro ⟨h1, h2⟩; exact ⟨(k - nOrdinal m d - t * n m d).toNat, by omega, by omega⟩

theorem map_add_nodup (N : Nat) (f : Int → Int) (hf : ∀ a b, f a = f b → a = b) :
    ((List.range N).map (fun (i : Nat) => f (i : Int))).Nodup := by
  apply List.Nodup.map _ List.nodup_range
  intro a b h
  have := hf _ _ h
  omega

theorem nOrdinal_add (m : M2) {d : Nat} (hd : d ≤ 3) : nOrdinal m d + nInterval m d = n m d ∧ 0 ≤ nOrdinal m d ∧ 0 ≤ nInterval m d := by
  obtain rfl | rfl | rfl | rfl : d = 0 ∨ d = 1 ∨ d = 2 ∨ d = 3 := by omega
  all_goals simp only [nOrdinal, nInterval, n]
  · omega
  · omega
  · omega
  · have : m.n 3 = 0 := rfl
    omega

/-- C51: `element_for_ordinal(d, t)` and `element_for_interval(d, t)` together visit every id of
block `t` exactly once and no other id. -/
theorem C51_enumeration {d : Nat} (hd : d ≤ 3) (hN : 0 < n m d) (t : Int) :
    (ordinalIds m d t ++ intervalIds m d t).Nodup ∧
    ∀ k, k ∈ ordinalIds m d t ++ intervalIds m d t ↔ k / n m d = t := by
  obtain ⟨hadd, h0, h1⟩ := nOrdinal_add m hd
  constructor
  · rw [List.nodup_append]
    refine ⟨map_add_nodup _ (fun i => i + t * n m d) (fun a b h => by simpa using h),
      map_add_nodup _ (fun i => i + nOrdinal m d + t * n m d) (fun a b h => by simp at h; omega), ?_⟩
    intro a ha b hb
    rw [ordinalIds_mem] at ha
    rw [intervalIds_mem] at hb
    omega
  · intro k
    rw [List.mem_append, ordinalIds_mem, intervalIds_mem]
    constructor
    · intro h
      have : k = (k - t * n m d) + t * n m d := by omega
      rw [this, ediv_at (by omega) (by omega)]
    · rintro rfl
      have e := Int.emod_add_mul_ediv k (n m d)
      rw [Int.mul_comm] at e
      have g1 := Int.emod_nonneg k (show n m d ≠ 0 by omega)
      have g2 := Int.emod_lt_of_pos k hN
      omega

/-- C51: the ordinal ids are the simplices inside one time step, the interval ids those that span two;
`is_ordinal` tells them apart. -/
theorem C51_ordinal (ho : IsOrder order) (hv : Valid n0 ts) (hb : build order n0 ts = some m)
    {d : Nat} (hd : d ≤ 3) (k g : Int) (vs : List Int) (hN : 0 < n m d) (hg : Good m d k)
    (h : getSimplex m d k = some (g, vs)) :
    (k ∈ ordinalIds m d (k / n m d) ↔ ∀ u ∈ vs, ∀ v ∈ vs, time n0 u = time n0 v) ∧
    (isOrdinal m d k = some true ↔ ∀ u ∈ vs, ∀ v ∈ vs, time n0 u = time n0 v) := by
  have B := base_of ho hv hb
  obtain ⟨i, t, us, e1, e2, e3, e4⟩ := get_total B hd hN k hg
  rw [h] at e4; simp at e4; clear h
  have hr := e3.range B
  have hiff : i < nOrdinal m d ↔ ∀ u ∈ vs, ∀ v ∈ vs, time n0 u = time n0 v := by
    have key : ∀ {a : Int}, 0 ≤ a → a < m.n 0 → _ := fun {a} h0 h1 => below_at (t := t) B.hn0 (a := a) h0 h1
    rw [e4.2]
    cases e3 with
    | v0 h0 h1 => simp [shift, nOrdinal, h1]
    | @e2 a h0 h1 =>
      have ka := key h0 h1
      simp [shift, ka, nOrdinal]; omega
    | @e0 j a b h | @e1 j a b h | @t3 j a b h | @t4 j a b h =>
      have ok := B.edge_ok h
      have ka := key (a := a) (by omega) (by omega)
      have kb := key (a := b) (by omega) (by omega)
      simp [shift, ka, kb, nOrdinal] <;> omega
    | @t0 j a b c h | @t1 j a b c h | @t2 j a b c h =>
      have ok := B.tri_ok h
      have ka := key (a := a) (by omega) (by omega)
      have kb := key (a := b) (by omega) (by omega)
      have kc := key (a := c) (by omega) (by omega)
      simp [shift, ka, kb, kc, nOrdinal] <;> omega
    | @k0 j a b c h | @k1 j a b c h | @k2 j a b c h =>
      have ok := B.tri_ok h
      have ka := key (a := a) (by omega) (by omega)
      have kb := key (a := b) (by omega) (by omega)
      have kc := key (a := c) (by omega) (by omega)
      have : m.n 3 = 0 := rfl
      simp [shift, ka, kb, kc, nOrdinal, this] <;> omega
  constructor
  · rw [← hiff, ordinalIds_mem, ← e2, e1]; omega
  · rw [← hiff]
    unfold isOrdinal
    rw [mod_good hN hg, e1, emod_at hr.1 hr.2]
    simp

/-- The square of C69, extruded: 5 vertices, 15 edges, 16 triangles and 6 tetrahedra per interval. -/
def squareMesh : M2 :=
  { n0 := 5, tris := [(0, 1, 2), (1, 2, 3)], chi := [true, true],
    triMap := [((0, 1, 2), 0), ((1, 2, 3), 1)], vtris := [[0], [0, 1], [0, 1], [1], []],
    edgeMap := [((0, 1), 0), ((1, 2), 1), ((0, 2), 2), ((2, 3), 3), ((1, 3), 4)],
    triEdges := [0, 1, 2, 1, 3, 4], edges := [0, 1, 1, 2, 0, 2, 2, 3, 1, 3],
    sideOf := [0, -1, 0, 1, 0, -1, 1, -1, 1, -1],
    vside := [[0, 2], [0, 1, 4], [1, 2, 3], [3, 4], []],
    vev := [[1, 2], [0, 2, 3], [0, 1, 3], [1, 2], []], tet := [[1], [0]] }

theorem squareMesh_built : build (fun l => l) 5 square = some squareMesh := by decide +kernel

/-- Non-vacuity: the hypotheses hold for the square; its second tetrahedron over triangle 1 at time
2 has id 15 and is found again; the prism over triangle 0 at time 1. -/
example : Valid 5 square ∧ IsOrder (fun l : List (Edge × Int) => l) ∧ build (fun l => l) 5 square = some squareMesh ∧
    n squareMesh 0 = 5 ∧ n squareMesh 1 = 15 ∧ n squareMesh 2 = 16 ∧ n squareMesh 3 = 6 ∧
    Good squareMesh 3 15 ∧ Good squareMesh 3 (-2) ∧
    getSimplex squareMesh 3 15 = some (15, [11, 12, 17, 18]) ∧
    getSimplex squareMesh 3 (-2) = some (-2, [-5, 0, 1, 2]) ∧
    findSimplex squareMesh 3 [11, 12, 17, 18] = some (some 15) ∧
    isOrdinal squareMesh 2 17 = some true ∧ isOrdinal squareMesh 2 18 = some false := by
  refine ⟨square_valid, isOrder_id, squareMesh_built, rfl, rfl, rfl, rfl, Or.inl (by decide), Or.inr (by decide), ?_⟩
  decide +kernel

/-- A simplex in the sense of the specification: the tetrahedron with id 15 above. -/
example : Simplex 5 square [11, 12, 17, 18] := by
  refine ⟨by decide, by decide, Or.inr ⟨(2, 1, 3), by decide, ?_⟩⟩
  intro v hv
  simp at hv
  rcases hv with rfl | rfl | rfl | rfl <;> simp [OnTri, below]

/-- C51 (violated at negative multiples): `mod(-n, n)` is `n`, not 0, so vertex id `-n0`, i.e. vertex 0
at time -1, decodes to vertex 0 at time 0, for every mesh. -/
theorem C51_negative_vertex (m : M2) (h : 0 < m.n 0) : getSimplex m 0 (-(m.n 0 : Int)) = some (0, [0]) := by
  have h1 : mod (-(m.n 0 : Int)) (m.n 0) = some (m.n 0 : Int) := by
    unfold mod
    rw [if_neg (by omega), if_pos (by omega), Int.neg_tmod, Int.tmod_self]; simp
  have h2 : (-(m.n 0 : Int)).fdiv (m.n 0) = -1 := by
    rw [Int.fdiv_eq_ediv_of_nonneg _ (by omega), Int.neg_ediv_of_dvd (Int.dvd_refl _), Int.ediv_self (by omega)]
  have hn : n m 0 = m.n 0 := rfl
  have h3 : mod (m.n 0 : Int) (m.n 0) = some 0 := by
    rw [mod_of_nonneg (by omega) (by omega), Int.emod_self]
  simp [getSimplex, hn, h1, h2, simplexType, h3, simplexAt]

/-- C51 (violated): on the square, the first triangle and the first edge of time -1 decode to the
wrong simplex. -/
theorem C51_negative_multiple :
    getSimplex squareMesh 2 (-16) = some (-16, [-5, -4, -3]) ∧ getSimplex squareMesh 1 (-15) = some (-15, [-5, -4]) := by
  decide +kernel

/-- C51 (violated at negative times): `find_simplex` divides by an unsigned number, so it
returns another id for the tetrahedron `-1`. -/
theorem C51_find_negative : getSimplex squareMesh 3 (-1) = some (-1, [-4, 1, 2, 3]) ∧
    findSimplex squareMesh 3 [-4, 1, 2, 3] = some (some 1) ∧ flatTime squareMesh (-4) = some 858993458 := by
  decide +kernel

/-- C51 (violated): the type is read off the second and third vertex in the order given, so the same
edge with its end points exchanged gets another id, and a pair that is no edge of the extruded mesh
is reported as found. -/
theorem C51_find_order : findSimplex squareMesh 1 [0, 6] = some (some 5) ∧ findSimplex squareMesh 1 [6, 0] = some (some 0) ∧
    findSimplex squareMesh 1 [1, 5] = some (some 5) ∧ ¬ Simplex 5 square [1, 5] ∧ ¬ Simplex 5 square [5, 1] := by
  refine ⟨by decide +kernel, by decide +kernel, by decide +kernel, ?_, ?_⟩
  · intro h
    have := h.chain
    revert this; decide
  · intro h
    have := h.chain
    revert this; decide

/-! ## C52: faces -/

/-- C52: the sides of a tetrahedron are four triangles, namely those all of whose vertices are
vertices of the tetrahedron. -/
theorem C52_sides (ho : IsOrder order) (hv : Valid n0 ts) (hb : build order n0 ts = some m)
    (hN : 0 < n m 3) (e : Int) (he : Good m 3 e) :
    ∃ S, sides m e = some S ∧ S.Pairwise (· < ·) ∧ S.length = 4 ∧
      ∀ f, Good m 2 f → ∃ vs ws, getSimplex m 2 f = some (f, vs) ∧ getSimplex m 3 e = some (e, ws) ∧
        (f ∈ S ↔ ∀ v ∈ vs, v ∈ ws) := by
  have B := base_of ho hv hb
  have hN2 : 0 < n m 2 := by simp only [n] at *; omega
  obtain ⟨i, t, us, e1, _, e3, e4⟩ := get_total B (by omega) hN e he
  obtain ⟨S, u0, u1, u2, u3, f0, f1, f2, f3, rfl, s1, s2, s3, s4, F0, F1, F2, F3⟩ := sides_faces B e3 (by rw [← e1]; exact he)
  rw [← e1] at s1
  refine ⟨S, s1, s2, s3, ?_⟩
  intro f hf
  obtain ⟨j, s, vs, g1, _, g3, g4⟩ := get_total B (d := 2) (by omega) hN2 f hf
  refine ⟨_, _, g4, e4, ?_⟩
  have hsub : ∀ f' us' , (∃ j s vs, Dec m 2 j vs ∧ f' = j + s * n m 2 ∧ shift m s vs = shift m t us') →
      (f = f' ↔ shift m s vs = shift m t us') := by
    rintro f' us' ⟨j', s', vs', q1, q2, q3⟩
    constructor
    · intro h
      rw [g1, q2] at h
      have r1 := g3.range B
      have r2 := q1.range B
      obtain ⟨rfl, rfl⟩ := at_eq r1.1 r1.2 r2.1 r2.2 h
      have h5 := get_dec B q1 (t := s) (by rw [← g1]; exact hf)
      rw [← g1, g4] at h5
      simp at h5
      rw [h5, q3]
    · intro h
      obtain ⟨rfl, rfl⟩ := shift_inj B g3 q1 (by rw [h, q3])
      rw [g1, q2]
  rw [s4, hsub _ _ F0, hsub _ _ F1, hsub _ _ F2, hsub _ _ F3]
  constructor
  · have hm : ∀ x l, x ∈ shift m t l → (∀ y ∈ l, y ∈ [u0, u1, u2, u3]) → x ∈ shift m t [u0, u1, u2, u3] := by
      intro x l hx hl
      simp only [shift, List.mem_map] at hx ⊢
      obtain ⟨y, hy, rfl⟩ := hx
      exact ⟨y, hl y hy, rfl⟩
    rintro (h | h | h | h) <;> rw [h] <;> intro v hv' <;> refine hm v _ hv' ?_ <;> simp
  · intro h
    have hsl := sublist_of_subset (dec_sorted B g3) (dec_sorted B e3) (fun v hv => h v hv)
    have hl := (dec_simplex B (t := s) g3).1
    exact sublists3 hsl hl

/-- C52: for a triangle at a non-negative time, `side_of` does not fail its internal check and returns
the tetrahedra that contain the triangle: one or two. -/
theorem C52_side_of (ho : IsOrder order) (hv : Valid n0 ts) (hb : build order n0 ts = some m)
    (hN : 0 < n m 3) (f : Int) (hf : 0 ≤ f) :
    ∃ R, sideOf m f = some R ∧ R.Pairwise (· < ·) ∧ (R.length = 1 ∨ R.length = 2) ∧ (∀ e ∈ R, Good m 3 e) ∧
      ∀ e, Good m 3 e → ∃ vs ws, getSimplex m 2 f = some (f, vs) ∧ getSimplex m 3 e = some (e, ws) ∧
        (e ∈ R ↔ ∀ v ∈ vs, v ∈ ws) := by
  have B := base_of ho hv hb
  have hN2 : 0 < n m 2 := by simp only [n] at *; omega
  obtain ⟨i, t, us, e1, e2, e3, e4⟩ := get_total B (d := 2) (by omega) hN2 f (Or.inl hf)
  have ht : 0 ≤ t := by rw [e2]; exact Int.ediv_nonneg hf (by omega)
  obtain ⟨R, r1, r2, r3, r4⟩ := dual_fwd B e3 ht
  have hso := sideOf_eq B e3 ht
  rw [← e1] at r1 hso r4
  refine ⟨R, by rw [hso, r1], r2, r3, fun e he => (r4 e he).1, ?_⟩
  intro e he
  obtain ⟨S, s1, _, _, s4⟩ := C52_sides ho hv hb hN e he
  obtain ⟨vs, ws, g1, g2, g3⟩ := s4 f (Or.inl hf)
  refine ⟨vs, ws, g1, g2, ?_⟩
  rw [← g3]
  constructor
  · intro h
    obtain ⟨_, S', s', hS'⟩ := r4 e h
    rw [s1] at s'; simp at s'; subst s'; exact hS'
  · intro h
    obtain ⟨i', t', us', q1, _, q3, _⟩ := get_total B (d := 3) (by omega) hN e he
    obtain ⟨R', p1, p2⟩ := dual_bwd B q3 (t := t') (by rw [← q1]; exact he) (by rw [← q1]; exact s1) h hf
    rw [r1] at p1; simp at p1; subst p1
    rw [q1]; exact p2

/-- C52: `sides` and `side_of` are dual. -/
theorem C52_duality_partial (ho : IsOrder order) (hv : Valid n0 ts) (hb : build order n0 ts = some m)
    (hN : 0 < n m 3) (f e : Int) (hf : 0 ≤ f) (he : Good m 3 e) :
    ∃ R S, sideOf m f = some R ∧ sides m e = some S ∧ (e ∈ R ↔ f ∈ S) := by
  obtain ⟨R, r1, _, _, _, r4⟩ := C52_side_of ho hv hb hN f hf
  obtain ⟨S, s1, _, _, s4⟩ := C52_sides ho hv hb hN e he
  obtain ⟨vs, ws, g1, g2, g3⟩ := s4 f (Or.inl hf)
  obtain ⟨vs', ws', g1', g2', g3'⟩ := r4 e he
  rw [g1] at g1'; rw [g2] at g2'
  simp at g1' g2'; subst g1'; subst g2'
  exact ⟨R, S, r1, s1, by rw [g3, g3']⟩

/-- Non-vacuity: the face over the inner edge of the square has two tetrahedra, one over an outer edge
has one, the bottom of the first prism is shared with the prism below. -/
example : sideOf squareMesh 7 = some [0, 3] ∧ sideOf squareMesh 6 = some [2] ∧ sideOf squareMesh 0 = some [-2, 0] ∧
    sides squareMesh 0 = some [0, 2, 7, 8] ∧ sides squareMesh (-2) = some [-12, -5, -3, 0] := by decide +kernel

/-- C52 (violated at negative times): for every mesh the first tetrahedron of time -1 has no sides. -/
theorem C52_negative_sides (h : 0 < m.n 2) (hg : ∃ t, m.getTriangle 0 = some t) :
    sides m (-(n m 3)) = some [] := by
  obtain ⟨t, ht⟩ := hg
  have hN : n m 3 = 3 * m.n 2 := rfl
  have hN0 : 0 < n m 3 := by omega
  have h1 : mod (-(n m 3)) (n m 3) = some (n m 3) := by
    unfold mod
    rw [if_neg (by omega), if_pos (by omega), Int.neg_tmod, Int.tmod_self]; simp
  have h3 : mod (n m 3) (n m 3) = some 0 := by rw [mod_of_nonneg hN0 (by omega), Int.emod_self]
  have h4 : n m 3 / (m.n 2 : Int) = 3 := by rw [hN]; exact Int.mul_ediv_cancel _ (by omega)
  have h0 : mod 0 (n m 3) = some 0 := mod_small (by omega) hN0
  have hr : rem 0 (m.n 2 : Int) = some 0 := rem_small (by omega) (by omega)
  have hg : getSimplex m 3 (n m 3) = some (0 + (n m 3).fdiv (n m 3) * n m 3,
      [t.1, t.2.1, t.2.2, t.2.2 + m.n 0].map (· + (n m 3).fdiv (n m 3) * n m 0)) := by
    have h2 : ¬ m.n 2 = 0 := by omega
    simp only [getSimplex, h3, simplexType, h0, Option.bind_eq_bind, Option.bind_some, h2, if_false, Int.zero_ediv,
      simplexAt, tetAt, hr, ht, if_true]
  unfold sides
  rw [h1]
  simp only [Option.bind_eq_bind, Option.bind_some, hg, List.map_cons, List.map_nil, h4]
  rw [if_neg (by omega)]
  simp [sidesAt]

/-- C52 (violated at negative times): hence `side_of` of a face of that tetrahedron aborts. -/
theorem C52_negative_side_of : sides squareMesh (-6) = some [] ∧ getSimplex squareMesh 2 (-14) = some (-14, [-5, -4, 2]) ∧
    sideOf squareMesh (-14) = none := by decide +kernel

/-- C52: `get_vertex_edge_vertex` only returns vertices joined to `i` by an edge of the extruded mesh
(the vertex before the first time step included). -/
theorem C52_neighbours_partial (ho : IsOrder order) (hv : Valid n0 ts) (hb : build order n0 ts = some m)
    (hn : 0 < n0) (i : Int) (hi : 0 ≤ i) : ∃ S, vertexEdgeVertex m i = some S ∧ S.Pairwise (· < ·) ∧
      ∀ w ∈ S, Simplex n0 ts [i, w] ∨ Simplex n0 ts [w, i] := by
  have B := base_of ho hv hb
  have hN : m.n 0 = n0 := B.hn0
  obtain ⟨i1, i2, i3⟩ := vertex_rep hn i
  have ht : 0 ≤ time n0 i := Int.ediv_nonneg hi (by omega)
  generalize hk : below n0 i = k at *
  generalize hti : time n0 i = t at *
  obtain ⟨f1, f2, -, -⟩ := flat_at (m := m) (a := k) (t := t) i2 (by omega) ht
  rw [hN, ← i1] at f1 f2
  obtain ⟨-, V, v1, v2, v3⟩ := C70_vertex_neighbours ho hv hb k i2 i3
  have hfold : ∀ (l acc : List Int), StrictSorted acc →
      StrictSorted (l.foldl (fun s v0 => setInsert (t * m.n 0 + v0) s) acc) ∧
      ∀ x, x ∈ l.foldl (fun s v0 => setInsert (t * m.n 0 + v0) s) acc ↔ x ∈ acc ∨ ∃ v ∈ l, x = t * m.n 0 + v := by
    intro l
    induction l with
    | nil => intro acc ha; exact ⟨ha, by simp⟩
    | cons y l ih =>
      intro acc ha
      obtain ⟨a1, a2⟩ := ih _ (ha.setInsert (x := t * m.n 0 + y))
      refine ⟨a1, ?_⟩
      intro x
      rw [List.foldl_cons, a2, mem_setInsert]
      constructor
      · rintro ((h | h) | ⟨v, hv, h⟩)
        · exact Or.inr ⟨y, by simp, h⟩
        · exact Or.inl h
        · exact Or.inr ⟨v, by simp [hv], h⟩
      · rintro (h | ⟨v, hv, h⟩)
        · exact Or.inl (Or.inr h)
        · simp at hv
          rcases hv with rfl | hv
          · exact Or.inl (Or.inl h)
          · exact Or.inr ⟨v, hv, h⟩
  obtain ⟨s1, s2⟩ := hfold V [] (by simp [StrictSorted])
  refine ⟨setInsert ((t - 1) * m.n 0 + k) (setInsert ((t + 1) * m.n 0 + k)
    (V.foldl (fun s v0 => setInsert (t * m.n 0 + v0) s) [])),
    by simp only [vertexEdgeVertex, f1, f2, v1, Option.bind_eq_bind, Option.bind_some], s1.setInsert.setInsert, ?_⟩
  intro w hw
  rw [mem_setInsert, mem_setInsert, s2] at hw
  have kk : ∀ s : Int, below n0 (s * n0 + k) = k ∧ time n0 (s * n0 + k) = s := by
    intro s
    unfold below time
    rw [Int.add_comm]
    exact ⟨emod_at i2 i3, ediv_at i2 i3⟩
  rcases hw with rfl | rfl | h | ⟨v, hv', rfl⟩
  · right
    have := kk (t - 1)
    rw [hN]
    refine ⟨?_, ?_, ?_⟩
    · simp [this, hk, hti]
      rw [i1, Int.sub_mul]; omega
    · simp [this, hti]; omega
    · left; simp [this, hk]
  · left
    have := kk (t + 1)
    rw [hN]
    refine ⟨?_, ?_, ?_⟩
    · simp [this, hk, hti]
      rw [i1, Int.add_mul]; omega
    · simp [this, hti]; omega
    · left; simp [this, hk]
  · simp at h
  · obtain ⟨hne, tt, htt, o1, o2⟩ := (v3 v).1 hv'
    have hvr := hv.range tt htt v o2
    have bv : below n0 (t * n0 + v) = v ∧ time n0 (t * n0 + v) = t := by
      unfold below time
      rw [Int.add_comm]
      exact ⟨emod_at hvr.1 hvr.2, ediv_at hvr.1 hvr.2⟩
    rw [hN]
    by_cases hlt : k < v
    · left
      refine ⟨?_, ?_, Or.inr ⟨tt, htt, ?_⟩⟩
      · simp [bv, hk, hti]; omega
      · simp [bv, hti]
      · simp [bv, hk, o1, o2]
    · right
      refine ⟨?_, ?_, Or.inr ⟨tt, htt, ?_⟩⟩
      · simp [bv, hk, hti]; omega
      · simp [bv, hti]
      · simp [bv, hk, o1, o2]

/-- C52 (violated): the diagonal edges are missing: vertex 1 at time 0 is joined to vertex 2 at time 1,
but not listed as a neighbour. -/
theorem C52_neighbours_incomplete : vertexEdgeVertex squareMesh 1 = some [-4, 0, 2, 3, 6] ∧
    getSimplex squareMesh 1 6 = some (6, [1, 7]) := by decide +kernel

end Verif.XM
