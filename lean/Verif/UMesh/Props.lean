import Verif.UMesh.Build

/-!
# Properties of the unstructured 2-D mesh (C69, C70)
-/

namespace Verif.UM

variable {order : List (Edge × Int) → List (Edge × Int)} {n0 : Nat} {ts : List Tri} {m : M2}

theorem built (ho : IsOrder order) (hv : Valid n0 ts) (hb : build order n0 ts = some m) :
    ∃ ks, Built n0 ts m ks := by
  obtain ⟨m', ks, h1, h2⟩ := build_spec ho hv
  rw [hb] at h1; simp at h1; subst h1
  exact ⟨ks, h2⟩

/-- A small legal mesh: the square `0 1 2 3` cut along the diagonal `1 2`, plus an isolated
vertex `4`; the triangles are not given in sorted order. -/
def square : List Tri := [(1, 0, 2), (2, 1, 3)]

/-- `std::map` order is not needed: insertion order. -/
theorem isOrder_id : IsOrder (fun l => l) := fun l => List.Perm.refl l

theorem isOrder_reverse : IsOrder List.reverse := fun l => List.reverse_perm l

theorem square_valid : Valid 5 square := by
  have hlt : ∀ (i : Nat) (s : Tri), square[i]? = some s → i < 2 := by
    intro i s h
    have := (List.getElem?_eq_some_iff.1 h).1
    simpa [square] using this
  have h2 : ∀ (i : Nat) (s : Tri), square[i]? = some s → (i = 0 ∧ s = (1, 0, 2)) ∨ (i = 1 ∧ s = (2, 1, 3)) := by
    intro i s h
    have := hlt i s h
    rcases i with _ | _ | i
    · left; simp [square] at h; exact ⟨rfl, h.symm⟩
    · right; simp [square] at h; exact ⟨rfl, h.symm⟩
    · omega
  constructor
  · intro t ht v hv
    simp [square] at ht
    unfold OnTri at hv
    rcases ht with rfl | rfl <;> simp at hv <;> omega
  · intro t ht
    simp [square] at ht
    rcases ht with rfl | rfl <;> simp
  · intro i j s t hi hj hs
    rcases h2 i s hi with ⟨rfl, rfl⟩ | ⟨rfl, rfl⟩ <;> rcases h2 j t hj with ⟨rfl, rfl⟩ | ⟨rfl, rfl⟩
    · rfl
    · have := (hs 0).1 (by simp [OnTri]); simp [OnTri] at this
    · have := (hs 3).1 (by simp [OnTri]); simp [OnTri] at this
    · rfl
  · intro i j k r s t u v hij hjk hi hj hk
    have := hlt k t hk
    omega

/-! ## C69: triangles -/

/-- C69: construction of a legal mesh never leaves an array, whatever order the edge map is
iterated in. -/
theorem C69_build_defined (ho : IsOrder order) (hv : Valid n0 ts) : ∃ m, build order n0 ts = some m := by
  obtain ⟨m, ks, h, -⟩ := build_spec ho hv
  exact ⟨m, h⟩

/-- C69: the mesh has the vertices and triangles that were given: triangle `i` is input triangle `i`,
its corners listed in increasing order. -/
theorem C69_get_triangle (ho : IsOrder order) (hv : Valid n0 ts) (hb : build order n0 ts = some m) :
    m.n 0 = n0 ∧ m.n 2 = ts.length ∧
    (∀ (i : Nat) (t : Tri), ts[i]? = some t → ∃ a b c, m.getTriangle i = some (a, b, c) ∧ a < b ∧ b < c ∧
      SameTri (a, b, c) t) ∧
    (∀ i : Int, i < 0 ∨ ts.length ≤ i → m.getTriangle i = none) := by
  obtain ⟨ks, B⟩ := built ho hv hb
  refine ⟨B.hn0, by show m.tris.length = _; rw [B.tris, List.length_map], ?_, ?_⟩
  · intro i t hi
    have hinc := sort3_incr (hv.distinct t (List.mem_of_getElem? hi))
    refine ⟨(sort3 t).1, (sort3 t).2.1, (sort3 t).2.2, ?_, hinc.1, hinc.2, sort3_same t⟩
    show read m.tris (i : Int) = _
    rw [read_nat, B.tris, List.getElem?_map, hi]; rfl
  · intro i hi
    show read m.tris i = none
    unfold read
    split
    · rw [List.getElem?_eq_none]
      rw [B.tris, List.length_map]; omega
    · rfl

/-- C69: `find_triangle` of three different vertices, in any order, finds the triangle with exactly
these corners, and reports absence only if there is none. -/
theorem C69_find_triangle (ho : IsOrder order) (hv : Valid n0 ts) (hb : build order n0 ts = some m)
    (v : Tri) (hd : v.1 ≠ v.2.1 ∧ v.1 ≠ v.2.2 ∧ v.2.1 ≠ v.2.2) :
    (∀ i : Int, m.findTriangle v = some (some i) ↔ ∃ (j : Nat) (t : Tri), i = j ∧ ts[j]? = some t ∧ SameTri v t) ∧
    (m.findTriangle v = some none ↔ ∀ t ∈ ts, ¬ SameTri v t) := by
  obtain ⟨ks, B⟩ := built ho hv hb
  have hfind : ∀ x, find m.triMap (sort3 v) = some x ↔ ∃ (j : Nat) (t : Tri), x = j ∧ ts[j]? = some t ∧ SameTri v t := by
    intro x
    rw [B.triMap]
    constructor
    · rintro ⟨j, t, h1, h2, h3⟩
      exact ⟨j, t, h3, h1, (sort3_eq_iff hd (hv.distinct t (List.mem_of_getElem? h1))).1 h2.symm⟩
    · rintro ⟨j, t, h3, h1, h2⟩
      exact ⟨j, t, h1, ((sort3_eq_iff hd (hv.distinct t (List.mem_of_getElem? h1))).2 h2).symm, h3⟩
  have hval : ∀ x, find m.triMap (sort3 v) = some x → m.findTriangle v = some (some x) := by
    intro x hx
    obtain ⟨j, t, h1, h2, h3⟩ := (hfind x).1 hx
    have e1 := (sort3_eq_iff hd (hv.distinct t (List.mem_of_getElem? h2))).2 h3
    have : read m.tris x = some (sort3 v) := by
      rw [h1, read_nat, B.tris, List.getElem?_map, h2, e1]; rfl
    simp [M2.findTriangle, hx, this]
  cases hf : find m.triMap (sort3 v) with
  | none =>
    have hr : m.findTriangle v = some none := by simp [M2.findTriangle, hf]
    have hno : ∀ (j : Nat) (t : Tri), ts[j]? = some t → ¬ SameTri v t := by
      intro j t h1 h2
      have := (hfind (j : Int)).2 ⟨j, t, rfl, h1, h2⟩
      rw [hf] at this; cases this
    constructor
    · intro i
      rw [hr]
      constructor
      · intro h; simp at h
      · rintro ⟨j, t, h1, h2, h3⟩; exact absurd h3 (hno j t h2)
    · rw [hr]
      simp only [true_iff]
      intro t ht
      obtain ⟨j, hj⟩ := List.getElem?_of_mem ht
      exact hno j t hj
  | some x =>
    have hr := hval x hf
    constructor
    · intro i
      rw [hr, ← hfind i, hf]
      simp
    · rw [hr]
      obtain ⟨j, t, h1, h2, h3⟩ := (hfind x).1 hf
      constructor
      · intro h; simp at h
      · intro h; exact absurd h3 (h t (List.mem_of_getElem? h2))

/-- C69: the chirality of a triangle is the sign of the permutation that sorts its corners. -/
theorem C69_chirality (ho : IsOrder order) (hv : Valid n0 ts) (hb : build order n0 ts = some m)
    (i : Nat) (t : Tri) (hi : ts[i]? = some t) : ∃ σ : Equiv.Perm (Fin 3),
      corner t (σ 0) < corner t (σ 1) ∧ corner t (σ 1) < corner t (σ 2) ∧
      m.getTriangle i = some (corner t (σ 0), corner t (σ 1), corner t (σ 2)) ∧
      m.triangleChi i = some (Equiv.Perm.sign σ : Int) := by
  obtain ⟨ks, B⟩ := built ho hv hb
  have hd := hv.distinct t (List.mem_of_getElem? hi)
  have hinj : Function.Injective (![t.1, t.2.1, t.2.2] : Fin 3 → Int) := by
    intro a b hab
    fin_cases a <;> fin_cases b <;> simp at hab ⊢ <;> omega
  obtain ⟨σ, h1, h2, h3⟩ := SoS.bsInv_sort (n := 3) ![t.1, t.2.1, t.2.2]
  have hlt : ∀ p q : Fin 3, p < q → (![t.1, t.2.1, t.2.2] : Fin 3 → Int) (σ p) < (![t.1, t.2.1, t.2.2] : Fin 3 → Int) (σ q) := by
    intro p q hpq
    have := SoS.sort_sorted (![t.1, t.2.1, t.2.2] : Fin 3 → Int) p q (le_of_lt hpq)
    rw [h2, h2] at this
    refine lt_of_le_of_ne this ?_
    intro he
    have := σ.injective (hinj he)
    subst this
    exact lt_irrefl _ hpq
  refine ⟨σ, hlt 0 1 (by decide), hlt 1 2 (by decide), ?_, ?_⟩
  · show read m.tris (i : Int) = _
    rw [read_nat, B.tris, List.getElem?_map, hi]
    simp only [Option.map_some, sort3, h2, corner]
  · have hchi : read m.chi (i : Int) = some (chi3 t) := by
      rw [read_nat, B.chi, List.getElem?_map, hi]; rfl
    simp only [M2.triangleChi, hchi, Option.bind_eq_bind, Option.bind_some, Option.some.injEq]
    rw [h3]
    unfold chi3
    by_cases hp : (SoS.bubbleSort (n := 3) ![t.1, t.2.1, t.2.2]).nswaps % 2 = 0
    · rw [Even.neg_one_pow (Nat.even_iff.2 hp)]; simp [hp]
    · rw [Odd.neg_one_pow (Nat.odd_iff.2 (by omega))]; simp [hp]

/-- C69: `get_vertex_triangles()[v]` lists exactly the triangles with corner `v`. -/
theorem C69_vertex_triangles (ho : IsOrder order) (hv : Valid n0 ts) (hb : build order n0 ts = some m)
    (v : Int) (h0 : 0 ≤ v) (h1 : v < n0) : ∃ S, m.vertexTriangles v = some S ∧ S.Pairwise (· < ·) ∧
      ∀ x, x ∈ S ↔ ∃ (j : Nat) (t : Tri), x = j ∧ ts[j]? = some t ∧ OnTri v t := by
  obtain ⟨ks, B⟩ := built ho hv hb
  obtain ⟨S, g1, g2, g3⟩ := B.vtris v h0 h1
  refine ⟨S, g1, g2, ?_⟩
  intro x; rw [g3]
  constructor
  · rintro ⟨j, t, a, b, c⟩; exact ⟨j, t, b, a, c⟩
  · rintro ⟨j, t, b, a, c⟩; exact ⟨j, t, a, b, c⟩

/-- The square meets the hypotheses of C69 and C70; e.g. its second triangle can be found by its
corners in any order, and the first one has odd chirality. -/
example : Valid 5 square ∧ IsOrder (List.reverse (α := Edge × Int)) ∧
    ∃ m, build List.reverse 5 square = some m ∧ m.findTriangle (3, 2, 1) = some (some 1) ∧
      m.findTriangle (0, 2, 3) = some none ∧ m.triangleChi 0 = some (-1) ∧ m.triangleChi 1 = some (-1) ∧
      m.vertexTriangles 1 = some [0, 1] ∧ m.n 1 = 5 ∧ m.findEdge (2, 1) = some (some 1) ∧
      m.sideOf1 1 = some [0, 1] ∧ m.sides2 1 = some [1, 3, 4] ∧ m.sideOf0 4 = some [] := by
  refine ⟨square_valid, isOrder_reverse, ?_⟩
  generalize hm : build List.reverse 5 square = r
  rw [show build List.reverse 5 square = some
    { n0 := 5, tris := [(0, 1, 2), (1, 2, 3)], chi := [true, true],
      triMap := [((0, 1, 2), 0), ((1, 2, 3), 1)], vtris := [[0], [0, 1], [0, 1], [1], []],
      edgeMap := [((0, 1), 0), ((1, 2), 1), ((0, 2), 2), ((2, 3), 3), ((1, 3), 4)],
      triEdges := [0, 1, 2, 1, 3, 4], edges := [0, 1, 1, 2, 0, 2, 2, 3, 1, 3],
      sideOf := [0, -1, 0, 1, 0, -1, 1, -1, 1, -1],
      vside := [[0, 2], [0, 1, 4], [1, 2, 3], [3, 4], []],
      vev := [[1, 2], [0, 2, 3], [0, 1, 3], [1, 2], []], tet := [[1], [0]] } by decide +kernel] at hm
  subst hm
  refine ⟨_, rfl, ?_⟩
  decide +kernel

/-! ## C70: edges and incidences -/

theorem getEdge_eq {ks : List Edge} (B : Built n0 ts m ks) (i : Int) (e : Edge) :
    m.getEdge i = some e ↔ 0 ≤ i ∧ ks[i.toNat]? = some e := by
  constructor
  · intro h
    have hr : ∃ a, read m.edges (2 * i) = some a := by
      cases hh : read m.edges (2 * i) with
      | none => simp [M2.getEdge, hh] at h
      | some a => exact ⟨a, rfl⟩
    obtain ⟨a, ha⟩ := hr
    have hl := read_lt ha
    rw [B.elen] at hl
    have hi : i.toNat < ks.length := by omega
    obtain ⟨g1, g2⟩ := B.edge i.toNat _ (List.getElem?_eq_getElem hi)
    have hii : ((i.toNat : Nat) : Int) = i := by omega
    rw [hii] at g1 g2
    refine ⟨by omega, ?_⟩
    rw [List.getElem?_eq_getElem hi]
    simp [M2.getEdge, g1, g2] at h
    simp [h]
  · rintro ⟨h0, h1⟩
    obtain ⟨g1, g2⟩ := B.edge i.toNat _ h1
    have hii : ((i.toNat : Nat) : Int) = i := by omega
    rw [hii] at g1 g2
    simp [M2.getEdge, g1, g2]

/-- C70: edge ids run through `0 … n(1)-1`; each names a pair of different vertices of one triangle,
smaller one first, and every such pair has exactly one id. -/
theorem C70_edges (ho : IsOrder order) (hv : Valid n0 ts) (hb : build order n0 ts = some m) :
    (∀ i : Int, 0 ≤ i → i < m.n 1 → ∃ u v, m.getEdge i = some (u, v) ∧ u < v ∧ Joined ts u v) ∧
    (∀ i : Int, i < 0 ∨ m.n 1 ≤ i → m.getEdge i = none) ∧
    (∀ u v, u < v → Joined ts u v → ∃ i : Int, m.getEdge i = some (u, v) ∧
      ∀ i' : Int, m.getEdge i' = some (u, v) → i' = i) := by
  obtain ⟨ks, B⟩ := built ho hv hb
  have hn : m.n 1 = ks.length := by show m.edges.length / 2 = _; rw [B.elen]; omega
  refine ⟨?_, ?_, ?_⟩
  · intro i h0 h1
    have hi : i.toNat < ks.length := by omega
    have hmem := (B.mem ks[i.toNat]).1 (List.getElem_mem hi)
    exact ⟨ks[i.toNat].1, ks[i.toNat].2, (getEdge_eq B i _).2 ⟨h0, List.getElem?_eq_getElem hi⟩, hmem.1,
      by omega, hmem.2⟩
  · intro i hi
    rw [Option.eq_none_iff_forall_ne_some]
    intro e he
    obtain ⟨h0, h1⟩ := (getEdge_eq B i e).1 he
    have := (List.getElem?_eq_some_iff.1 h1).1
    omega
  · intro u v huv hj
    have hmem : (u, v) ∈ ks := (B.mem (u, v)).2 ⟨huv, hj.2⟩
    obtain ⟨j, hj'⟩ := List.getElem?_of_mem hmem
    refine ⟨(j : Int), (getEdge_eq B _ _).2 ⟨by omega, by simpa using hj'⟩, ?_⟩
    intro i' hi'
    obtain ⟨h0, h1⟩ := (getEdge_eq B i' _).1 hi'
    have g1 := List.getElem?_eq_some_iff.1 hj'
    have g2 := List.getElem?_eq_some_iff.1 h1
    have := (List.Nodup.getElem_inj_iff B.nodup).1 (g1.2.trans g2.2.symm)
    omega

/-- C70: `find_edge`, the end points given in either order, inverts `get_edge`, and reports absence
exactly for vertices not joined by an edge. -/
theorem C70_find_edge (ho : IsOrder order) (hv : Valid n0 ts) (hb : build order n0 ts = some m)
    (u v : Int) (huv : u ≠ v) :
    (∀ i : Int, m.findEdge (u, v) = some (some i) ↔ m.getEdge i = some (u, v) ∨ m.getEdge i = some (v, u)) ∧
    (m.findEdge (u, v) = some none ↔ ¬ Joined ts u v) := by
  obtain ⟨ks, B⟩ := built ho hv hb
  obtain ⟨hlt, hcase⟩ : (sort2 u v).1 < (sort2 u v).2 ∧ (sort2 u v = (u, v) ∨ sort2 u v = (v, u)) := by
    unfold sort2; split
    · exact ⟨by simp; omega, Or.inr rfl⟩
    · exact ⟨by simp; omega, Or.inl rfl⟩
  have hmemJ : sort2 u v ∈ ks ↔ Joined ts u v := by
    rw [B.mem]
    rcases hcase with h | h <;> rw [h] at hlt ⊢
    · exact ⟨fun hh => ⟨huv, hh.2⟩, fun hh => ⟨hlt, hh.2⟩⟩
    · constructor
      · rintro ⟨_, t, h1, h2, h3⟩; exact ⟨huv, t, h1, h3, h2⟩
      · rintro ⟨_, t, h1, h2, h3⟩; exact ⟨hlt, t, h1, h3, h2⟩
  have hget : ∀ i, (m.getEdge i = some (u, v) ∨ m.getEdge i = some (v, u)) ↔ m.getEdge i = some (sort2 u v) := by
    intro i
    constructor
    · rintro (h | h)
      · rcases hcase with h' | h'
        · rw [h', h]
        · exfalso
          have := (B.mem _).1 (List.mem_of_getElem? ((getEdge_eq B i _).1 h).2)
          rw [h'] at hlt; simp at this hlt; omega
      · rcases hcase with h' | h'
        · exfalso
          have := (B.mem _).1 (List.mem_of_getElem? ((getEdge_eq B i _).1 h).2)
          rw [h'] at hlt; simp at this hlt; omega
        · rw [h', h]
    · intro h
      rcases hcase with h' | h' <;> rw [h'] at h
      · exact Or.inl h
      · exact Or.inr h
  have hval : ∀ x, find m.edgeMap (sort2 u v) = some x → m.findEdge (u, v) = some (some x) ∧ m.getEdge x = some (sort2 u v) := by
    intro x hx
    rw [B.edgeMap, find_entries ks 0 B.nodup] at hx
    obtain ⟨j, h1, h2⟩ := hx
    have hx' : x = (j : Int) := by omega
    obtain ⟨g1, g2⟩ := B.edge j _ h1
    have hf : find m.edgeMap (sort2 u v) = some x := by
      rw [B.edgeMap, find_entries ks 0 B.nodup]; exact ⟨j, h1, h2⟩
    refine ⟨?_, (getEdge_eq B x _).2 ⟨by omega, by rw [hx']; simpa using h1⟩⟩
    subst hx'
    have e1 : (1 : Int) + 2 * (j : Int) = 2 * j + 1 := by omega
    simp [M2.findEdge, hf, g1, e1, g2]
  cases hf : find m.edgeMap (sort2 u v) with
  | none =>
    have hr : m.findEdge (u, v) = some none := by simp [M2.findEdge, hf]
    have hnot : sort2 u v ∉ ks := by
      rw [B.edgeMap, find_entries_none ks 0 B.nodup] at hf; exact hf
    constructor
    · intro i
      rw [hr, hget]
      constructor
      · intro h; simp at h
      · intro h
        exact absurd (List.mem_of_getElem? ((getEdge_eq B i _).1 h).2) hnot
    · rw [hr, ← hmemJ]; simp [hnot]
  | some x =>
    obtain ⟨hr, hg⟩ := hval x hf
    have hmem := List.mem_of_getElem? ((getEdge_eq B x _).1 hg).2
    constructor
    · intro i
      rw [hr, hget]
      constructor
      · intro h; simp at h; subst h; exact hg
      · intro h
        obtain ⟨a1, a2⟩ := (getEdge_eq B i _).1 h
        obtain ⟨b1, b2⟩ := (getEdge_eq B x _).1 hg
        have g1 := List.getElem?_eq_some_iff.1 a2
        have g2 := List.getElem?_eq_some_iff.1 b2
        have := (List.Nodup.getElem_inj_iff B.nodup).1 (g1.2.trans g2.2.symm)
        simp; omega
    · rw [hr, ← hmemJ]; simp [hmem]

/-- C70: `sides(2, i)` are the three edges whose two ends are corners of triangle `i`. -/
theorem C70_sides (ho : IsOrder order) (hv : Valid n0 ts) (hb : build order n0 ts = some m)
    (i : Nat) (t : Tri) (hi : ts[i]? = some t) : ∃ S, m.sides2 i = some S ∧ S.length = 3 ∧ S.Pairwise (· < ·) ∧
      ∀ e : Int, e ∈ S ↔ ∃ u v, m.getEdge e = some (u, v) ∧ OnTri u t ∧ OnTri v t := by
  obtain ⟨ks, B⟩ := built ho hv hb
  obtain ⟨a, b, c, a1, b1, c1, a2, b2, c2⟩ := B.te i t hi
  have hinc := sort3_incr (hv.distinct t (List.mem_of_getElem? hi))
  have hmem3 := sort3_mem t
  generalize hst : sort3 t = q at a1 b1 c1 hinc hmem3
  obtain ⟨q1, q2, q3⟩ := q
  unfold Incr3 at hinc
  simp only at a1 b1 c1 hinc
  have ia := List.getElem?_eq_some_iff.1 a1
  have ib := List.getElem?_eq_some_iff.1 b1
  have ic := List.getElem?_eq_some_iff.1 c1
  have inj : ∀ (p q : Nat) (x y : Edge), ks[p]? = some x → ks[q]? = some y → x ≠ y → p ≠ q := by
    rintro p q x y h1 h2 hne rfl
    rw [h1] at h2; simp at h2; exact hne h2
  have nab := inj a b _ _ a1 b1 (by simp; omega)
  have nac := inj a c _ _ a1 c1 (by simp; omega)
  have nbc := inj b c _ _ b1 c1 (by simp; omega)
  refine ⟨setInsert (c : Int) (setInsert (b : Int) (setInsert (a : Int) [])), ?_, ?_, ?_, ?_⟩
  · have e0 : (0 : Int) + 3 * (i : Int) = 3 * i := by omega
    have e1 : (1 : Int) + 3 * (i : Int) = 3 * i + 1 := by omega
    have e2 : (2 : Int) + 3 * (i : Int) = 3 * i + 2 := by omega
    simp only [M2.sides2, e0, e1, e2, a2, b2, c2, Option.bind_eq_bind, Option.bind_some]
  · rw [setInsert_length_of_not_mem, setInsert_length_of_not_mem, setInsert_length_of_not_mem]
    · rfl
    · simp
    · simp; omega
    · simp; omega
  · have h0 : StrictSorted ([] : List Int) := by simp [StrictSorted]
    exact h0.setInsert.setInsert.setInsert
  · intro e
    simp only [mem_setInsert, List.not_mem_nil, or_false]
    constructor
    · rintro (rfl | rfl | rfl)
      · exact ⟨_, _, (getEdge_eq B _ _).2 ⟨by omega, by simpa using c1⟩,
          (hmem3 _).1 (by simp [OnTri]), (hmem3 _).1 (by simp [OnTri])⟩
      · exact ⟨_, _, (getEdge_eq B _ _).2 ⟨by omega, by simpa using b1⟩,
          (hmem3 _).1 (by simp [OnTri]), (hmem3 _).1 (by simp [OnTri])⟩
      · exact ⟨_, _, (getEdge_eq B _ _).2 ⟨by omega, by simpa using a1⟩,
          (hmem3 _).1 (by simp [OnTri]), (hmem3 _).1 (by simp [OnTri])⟩
    · rintro ⟨u, w, h1, h2, h3⟩
      obtain ⟨h4, h5⟩ := (getEdge_eq B _ _).1 h1
      have hlt := ((B.mem _).1 (List.mem_of_getElem? h5)).1
      rw [← hmem3] at h2 h3
      unfold OnTri at h2 h3
      simp only at hlt h2 h3
      have same : ∀ (p : Nat) (x : Edge), ks[p]? = some x → x = (u, w) → e = (p : Int) := by
        intro p x hp hx
        subst hx
        have g1 := List.getElem?_eq_some_iff.1 hp
        have g2 := List.getElem?_eq_some_iff.1 h5
        have := (List.Nodup.getElem_inj_iff B.nodup).1 (g1.2.trans g2.2.symm)
        omega
      have cases3 : (u = q1 ∧ w = q2) ∨ (u = q2 ∧ w = q3) ∨ (u = q1 ∧ w = q3) := by omega
      rcases cases3 with ⟨rfl, rfl⟩ | ⟨rfl, rfl⟩ | ⟨rfl, rfl⟩
      · exact Or.inr (Or.inr (same a _ a1 rfl))
      · exact Or.inr (Or.inl (same b _ b1 rfl))
      · exact Or.inl (same c _ c1 rfl)

/-- C70: `side_of(1, e)` are exactly the (one or two) triangles having both ends of edge `e` as
corners. -/
theorem C70_side_of (ho : IsOrder order) (hv : Valid n0 ts) (hb : build order n0 ts = some m)
    (e u v : Int) (he : m.getEdge e = some (u, v)) : ∃ S, m.sideOf1 e = some S ∧ S.Pairwise (· < ·) ∧
      (S.length = 1 ∨ S.length = 2) ∧
      ∀ x : Int, x ∈ S ↔ ∃ (i : Nat) (t : Tri), x = i ∧ ts[i]? = some t ∧ OnTri u t ∧ OnTri v t := by
  obtain ⟨ks, B⟩ := built ho hv hb
  obtain ⟨h0, h1⟩ := (getEdge_eq B e _).1 he
  obtain ⟨S, g1, g2, g3, g4, g5⟩ := B.side e.toNat _ h1
  have hee : ((e.toNat : Nat) : Int) = e := by omega
  rw [hee] at g4 g5
  have hpos : ∀ x ∈ S, 0 ≤ x := by
    intro x hx
    obtain ⟨i, t, _, rfl, _⟩ := (g3 x).1 hx
    omega
  have hne : S ≠ [] := by
    obtain ⟨_, t, ht, a, b⟩ := (B.mem _).1 (List.mem_of_getElem? h1)
    obtain ⟨i, hi⟩ := List.getElem?_of_mem ht
    intro hS
    have := (g3 (i : Int)).2 ⟨i, t, hi, rfl, a, b⟩
    rw [hS] at this; simp at this
  have hmemS : ∀ x : Int, x ∈ S ↔ ∃ (i : Nat) (t : Tri), x = i ∧ ts[i]? = some t ∧ OnTri u t ∧ OnTri v t := by
    intro x; rw [g3]
    constructor
    · rintro ⟨i, t, a, b, c, d⟩; exact ⟨i, t, b, a, c, d⟩
    · rintro ⟨i, t, b, a, c, d⟩; exact ⟨i, t, a, b, c, d⟩
  have e1 : (0 : Int) + 2 * e = 2 * e := by omega
  have e2 : (1 : Int) + 2 * e = 2 * e + 1 := by omega
  rcases S with _ | ⟨a, _ | ⟨b, _ | ⟨c, S⟩⟩⟩
  · exact absurd rfl hne
  · have ha := hpos a (by simp)
    simp at g4 g5
    refine ⟨[a], ?_, g1, Or.inl rfl, hmemS⟩
    simp [M2.sideOf1, e2, g4, g5, ha, setInsert]
  · have ha := hpos a (by simp)
    have hb' := hpos b (by simp)
    have hab : a < b := by
      unfold StrictSorted at g1; simp at g1; exact g1
    simp at g4 g5
    refine ⟨[a, b], ?_, g1, Or.inr rfl, hmemS⟩
    have h3 : ¬ b < a := by omega
    have h4 : ¬ b = a := by omega
    simp [M2.sideOf1, e2, g4, g5, ha, hb', setInsert, h3, h4]
  · simp at g2

/-- C70: `sides` and `side_of` are dual: edge `e` is a side of triangle `t` iff `t` is listed for `e`. -/
theorem C70_duality (ho : IsOrder order) (hv : Valid n0 ts) (hb : build order n0 ts = some m)
    (t e : Int) (ht : 0 ≤ t ∧ t < m.n 2) (he : 0 ≤ e ∧ e < m.n 1) :
    ∃ S T, m.sides2 t = some S ∧ m.sideOf1 e = some T ∧ (e ∈ S ↔ t ∈ T) := by
  obtain ⟨u, v, hg, -, -⟩ := (C70_edges ho hv hb).1 e he.1 he.2
  have hn2 : m.n 2 = ts.length := (C69_get_triangle ho hv hb).2.1
  have hlt : t.toNat < ts.length := by omega
  obtain ⟨S, s1, -, -, s2⟩ := C70_sides ho hv hb t.toNat _ (List.getElem?_eq_getElem hlt)
  obtain ⟨T, t1, -, -, t2⟩ := C70_side_of ho hv hb e u v hg
  have htt : ((t.toNat : Nat) : Int) = t := by omega
  rw [htt] at s1
  refine ⟨S, T, s1, t1, ?_⟩
  rw [s2, t2]
  constructor
  · rintro ⟨u', v', h1, h2, h3⟩
    rw [hg] at h1; simp at h1; obtain ⟨rfl, rfl⟩ := h1
    exact ⟨t.toNat, _, htt.symm, List.getElem?_eq_getElem hlt, h2, h3⟩
  · rintro ⟨i, t', h1, h2, h3, h4⟩
    have : t.toNat = i := by omega
    subst this
    rw [List.getElem?_eq_getElem hlt] at h2; simp at h2; subst h2
    exact ⟨u, v, hg, h3, h4⟩

/-- C70: `side_of(0, v)` are the edges with end `v`, and `get_vertex_edge_vertex(v)` the vertices
joined to `v` by an edge. -/
theorem C70_vertex_neighbours (ho : IsOrder order) (hv : Valid n0 ts) (hb : build order n0 ts = some m)
    (v : Int) (h0 : 0 ≤ v) (h1 : v < n0) :
    (∃ S, m.sideOf0 v = some S ∧ S.Pairwise (· < ·) ∧
      ∀ e : Int, e ∈ S ↔ ∃ a b, m.getEdge e = some (a, b) ∧ (v = a ∨ v = b)) ∧
    (∃ S, m.vertexEdgeVertex v = some S ∧ S.Pairwise (· < ·) ∧ ∀ w : Int, w ∈ S ↔ Joined ts v w) := by
  obtain ⟨ks, B⟩ := built ho hv hb
  constructor
  · obtain ⟨S, g1, g2, g3⟩ := B.vside v h0 h1
    refine ⟨S, g1, g2, ?_⟩
    intro e; rw [g3]
    constructor
    · rintro ⟨j, ed, a, rfl, b⟩
      exact ⟨ed.1, ed.2, (getEdge_eq B _ _).2 ⟨by omega, by simpa using a⟩, b⟩
    · rintro ⟨a, b, h2, h3⟩
      obtain ⟨h4, h5⟩ := (getEdge_eq B _ _).1 h2
      exact ⟨e.toNat, (a, b), h5, by omega, h3⟩
  · obtain ⟨S, g1, g2, g3⟩ := B.vev v h0 h1
    refine ⟨S, g1, g2, ?_⟩
    intro w; rw [g3]
    constructor
    · rintro ⟨e, he, ⟨rfl, rfl⟩ | ⟨rfl, rfl⟩⟩
      · obtain ⟨h2, t, h3, h4, h5⟩ := (B.mem e).1 he
        exact ⟨by omega, t, h3, h4, h5⟩
      · obtain ⟨h2, t, h3, h4, h5⟩ := (B.mem e).1 he
        exact ⟨by omega, t, h3, h5, h4⟩
    · rintro ⟨hne, t, h2, h3, h4⟩
      rcases lt_or_gt_of_ne hne with h | h
      · exact ⟨(v, w), (B.mem _).2 ⟨h, t, h2, h3, h4⟩, Or.inl ⟨rfl, rfl⟩⟩
      · exact ⟨(w, v), (B.mem _).2 ⟨h, t, h2, h4, h3⟩, Or.inr ⟨rfl, rfl⟩⟩

/-- C70 (violated without the manifold hypothesis): when three triangles share an edge, the third
one is written into the *next* edge's column.  `side_of` then misses a triangle for the shared edge
(iteration by id) and, in another iteration order (the TBB map), gives edge `1 = (1, 2)` the triangle
`2 = (0, 1, 4)`, which does not contain it. -/
theorem C70_nonmanifold_corrupts :
    (build (fun l => l) 5 [(0, 1, 2), (0, 1, 3), (0, 1, 4)]).bind (fun m => m.getEdge 0) = some (0, 1) ∧
    (build (fun l => l) 5 [(0, 1, 2), (0, 1, 3), (0, 1, 4)]).bind (fun m => m.sideOf1 0) = some [0, 1] ∧
    (build List.reverse 5 [(0, 1, 2), (0, 1, 3), (0, 1, 4)]).bind (fun m => m.getEdge 1) = some (1, 2) ∧
    (build List.reverse 5 [(0, 1, 2), (0, 1, 3), (0, 1, 4)]).bind (fun m => m.sideOf1 1) = some [2] := by
  refine ⟨by decide +kernel, by decide +kernel, by decide +kernel, by decide +kernel⟩

/-- … and three copies of one triangle make the write leave the array. -/
theorem C70_duplicates_undefined : build (fun l => l) 3 [(0, 1, 2), (0, 1, 2), (0, 1, 2)] = none := by
  decide +kernel

/-- C70, `triangle_edge_triangles` (the adjacency handed to METIS), the part that holds: only
triangles sharing an edge are listed as neighbours.  Missing: every such pair is listed
(`C70_adjacency_incomplete`). -/
theorem C70_adjacency_partial (ho : IsOrder order) (hv : Valid n0 ts) (hb : build order n0 ts = some m)
    (v : Int) (h0 : 0 ≤ v) (h1 : v < ts.length) : ∃ S, read m.tet v = some S ∧
      ∀ x ∈ S, ∃ (i j : Nat) (s t : Tri) (a b : Int), v = i ∧ x = j ∧ i ≠ j ∧ ts[i]? = some s ∧ ts[j]? = some t ∧
        a ≠ b ∧ OnTri a s ∧ OnTri b s ∧ OnTri a t ∧ OnTri b t := by
  obtain ⟨ks, B⟩ := built ho hv hb
  obtain ⟨S, g1, -, g3⟩ := B.tet v h0 h1
  refine ⟨S, g1, ?_⟩
  intro x hx
  obtain ⟨i, hi, t0, t1, a1, a2, p0, p1, hc⟩ := (g3 x).1 hx
  have hl := read_lt a1
  rw [B.slen] at hl
  have hil : i < ks.length := by omega
  obtain ⟨S', q1, q2, q3, q4, q5⟩ := B.side i _ (List.getElem?_eq_getElem hil)
  rw [a1] at q4; rw [a2] at q5
  rcases S' with _ | ⟨a, _ | ⟨b, S'⟩⟩
  · simp at q4; omega
  · simp at q5; omega
  · simp at q4 q5
    subst q4; subst q5
    have hlt := ((B.mem ks[i]).1 (List.getElem_mem hil)).1
    have hab : t0 < t1 := by
      unfold StrictSorted at q1; simp only [List.pairwise_cons, List.mem_cons, forall_eq_or_imp] at q1; exact q1.1.1
    obtain ⟨i1, s1, c1, c2, c3, c4⟩ := (q3 t0).1 (by simp)
    obtain ⟨i2, s2, d1, d2, d3, d4⟩ := (q3 t1).1 (by simp)
    rcases hc with ⟨rfl, rfl⟩ | ⟨rfl, rfl⟩
    · exact ⟨i1, i2, s1, s2, ks[i].1, ks[i].2, c2, d2, by omega, c1, d1, by omega, c3, c4, d3, d4⟩
    · exact ⟨i2, i1, s2, s1, ks[i].1, ks[i].2, d2, c2, by omega, d1, c1, by omega, d3, d4, c3, c4⟩

/-- C70 (violated): the loop that fills `triangle_edge_triangles` runs over `i < n(2)` although `i` is
an edge id, so neighbours across an edge with id `≥ n(2)` are missing. -/
theorem C70_adjacency_incomplete : Valid 4 [(0, 1, 2), (0, 2, 3)] ∧
    (build (fun l => l) 4 [(0, 1, 2), (0, 2, 3)]).bind (fun m => m.sideOf1 2) = some [0, 1] ∧
    (build (fun l => l) 4 [(0, 1, 2), (0, 2, 3)]).map (fun m => m.tet) = some [[], []] := by
  constructor
  · have h2 : ∀ (i : Nat) (s : Tri), ([(0, 1, 2), (0, 2, 3)] : List Tri)[i]? = some s →
        (i = 0 ∧ s = (0, 1, 2)) ∨ (i = 1 ∧ s = (0, 2, 3)) := by
      intro i s h
      have := (List.getElem?_eq_some_iff.1 h).1
      rcases i with _ | _ | i
      · left; simp at h; exact ⟨rfl, h.symm⟩
      · right; simp at h; exact ⟨rfl, h.symm⟩
      · simp only [List.length_cons, List.length_nil] at this; omega
    constructor
    · intro t ht v hv
      simp at ht
      unfold OnTri at hv
      rcases ht with rfl | rfl <;> simp at hv <;> omega
    · intro t ht
      simp at ht
      rcases ht with rfl | rfl <;> simp
    · intro i j s t hi hj hs
      rcases h2 i s hi with ⟨rfl, rfl⟩ | ⟨rfl, rfl⟩ <;> rcases h2 j t hj with ⟨rfl, rfl⟩ | ⟨rfl, rfl⟩
      · rfl
      · have := (hs 1).1 (by simp [OnTri]); simp [OnTri] at this
      · have := (hs 3).1 (by simp [OnTri]); simp [OnTri] at this
      · rfl
    · intro i j k r s t u v hij hjk hi hj hk
      rcases h2 k t hk with ⟨rfl, rfl⟩ | ⟨rfl, rfl⟩ <;> omega
  · exact ⟨by decide +kernel, by decide +kernel⟩

end Verif.UM
