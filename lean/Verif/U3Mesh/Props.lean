import Verif.U3Mesh.Build

/-!
# Properties of the tetrahedral mesh (C122)
-/

namespace Verif.U3

variable {n0 : Nat} {ts : List Tet} {m : M3}

theorem base_of (hv : Valid n0 ts) (hb : build n0 ts = some m) : Base n0 ts m := by
  obtain ⟨m', h1, h2⟩ := build_base hv
  rw [hb] at h1
  obtain rfl := Option.some.inj h1
  exact h2

/-- C122: reading a legal mesh never goes outside an array; tetrahedron `i` has the corners of the
`i`-th input tetrahedron in increasing order. -/
theorem C122_build_partial (hv : Valid n0 ts) : ∃ m, build n0 ts = some m ∧ m.n 0 = n0 ∧ m.n 3 = ts.length ∧
    ∀ (i : Nat) (t : Tet), ts[i]? = some t → ∃ c, m.get 3 i = some c ∧ c.length = 4 ∧ c.Pairwise (· < ·) ∧
      ∀ v, v ∈ c ↔ OnTet v t := by
  obtain ⟨m, h1, B⟩ := build_base hv
  refine ⟨m, h1, B.hn0, B.n3, ?_⟩
  intro i t hi
  obtain ⟨c, c1, c2⟩ := B.tet i t hi
  have := B.get_cell c1
  exact ⟨c, c1, this.len, this.incr, c2⟩

/-- C122: the ids `0 … n(d)-1` of the edges, triangles and tetrahedra number the cells of the mesh:
each id gives a cell, each cell has exactly one id; other ids are undefined. -/
theorem C122_cells (hv : Valid n0 ts) (hb : build n0 ts = some m) {d : Nat} (h1 : 1 ≤ d) (h3 : d ≤ 3) :
    (∀ i : Int, 0 ≤ i → i < m.n d → ∃ c, m.get d i = some c ∧ IsCell ts d c) ∧
    (∀ i : Int, ¬ (0 ≤ i ∧ i < m.n d) → m.get d i = none) ∧
    (∀ c, IsCell ts d c → ∃ i, m.get d i = some c ∧ ∀ j, m.get d j = some c → j = i) := by
  have B := base_of hv hb
  refine ⟨?_, ?_, ?_⟩
  · intro i h0 hi
    obtain ⟨c, hc⟩ := B.get_def h1 h3 h0 hi
    exact ⟨c, hc, B.get_cell hc⟩
  · intro i hi
    cases h : m.get d i with
    | none => rfl
    | some c => exact absurd (B.get_range h).2.2 hi
  · intro c hc
    obtain ⟨i, hi⟩ := B.get_of h1 h3 hc
    refine ⟨i, hi, ?_⟩
    intro j hj
    obtain ⟨r, -, r2⟩ := B.find (d := d) c
    have g1 := (r2 i).2 hi
    have g2 := (r2 j).2 hj
    rw [g1] at g2; simpa using g2.symm

/-- C122: `find_simplex` finds exactly the cells of the mesh, given by their corners in increasing order,
and returns their id; it never fails its assertion. -/
theorem C122_find (hv : Valid n0 ts) (hb : build n0 ts = some m) {d : Nat} (h1 : 1 ≤ d) (h3 : d ≤ 3) (c : Cell) :
    (∀ i, m.find d c = some (some i) ↔ m.get d i = some c) ∧ (m.find d c = some none ↔ ¬ IsCell ts d c) := by
  have B := base_of hv hb
  obtain ⟨r, r1, r2⟩ := B.find (d := d) c
  rw [r1]
  constructor
  · intro i; rw [← r2]; simp
  · constructor
    · intro h hc
      obtain ⟨i, hi⟩ := B.get_of h1 h3 hc
      have := (r2 i).2 hi
      simp at h
      rw [h] at this; cases this
    · intro h
      cases r with
      | none => rfl
      | some i => exact absurd (B.get_cell ((r2 i).1 rfl)) h

/-- C122: edges and triangles are numbered in lexicographic order of their corners. -/
theorem C122_order (hv : Valid n0 ts) (hb : build n0 ts = some m) {d : Nat} (hd : d = 1 ∨ d = 2) (i j : Int)
    (c c' : Cell) (hi : m.get d i = some c) (hj : m.get d j = some c') : i < j → Before c c' :=
  (base_of hv hb).order hd hi hj

/-- C122: `side_of` of an edge (triangle) is the set of the triangles (tetrahedra) that have all its
corners; it is never empty. -/
theorem C122_side_of (hv : Valid n0 ts) (hb : build n0 ts = some m) {d : Nat} (hd : d = 1 ∨ d = 2) (i : Int)
    (c : Cell) (hi : m.get d i = some c) :
    ∃ S, m.sideOf d i = some S ∧ S.Pairwise (· < ·) ∧ S ≠ [] ∧
      ∀ x, x ∈ S ↔ ∃ c', m.get (d + 1) x = some c' ∧ ∀ v ∈ c, v ∈ c' :=
  (base_of hv hb).side hd hi

/-- C122: `side_of` of a vertex is the set of the edges at it. -/
theorem C122_side_of_vertex (hv : Valid n0 ts) (hb : build n0 ts = some m) (v : Int) (h0 : 0 ≤ v) (h1 : v < n0) :
    ∃ S, m.sideOf 0 v = some S ∧ S.Pairwise (· < ·) ∧ ∀ x, x ∈ S ↔ ∃ c, m.get 1 x = some c ∧ v ∈ c :=
  (base_of hv hb).vside h0 h1

/-- C122: the neighbours stored for a vertex (used by the smoothing kernel) are the other corners of its
tetrahedra. -/
theorem C122_vertex_neighbours (hv : Valid n0 ts) (hb : build n0 ts = some m) (v : Int) (h0 : 0 ≤ v) (h1 : v < n0) :
    ∃ S, UM.read m.vev v = some S ∧ S.Pairwise (· < ·) ∧
      ∀ x, x ∈ S ↔ x ≠ v ∧ ∃ t ∈ ts, OnTet v t ∧ OnTet x t :=
  (base_of hv hb).vev h0 h1

/-- C122 (violated by the public constructor): a mesh made from coordinates and tetrahedra has no
triangles and no edges, finds no simplex at all, not even its own tetrahedra, and keeps the corners
in the order given. -/
theorem C122_constructor_unusable (n0 : Nat) (ts : List Tet) :
    (construct n0 ts).n 3 = ts.length ∧ (construct n0 ts).n 2 = 0 ∧ (construct n0 ts).n 1 = 0 ∧
    ∀ d c, (construct n0 ts).find d c = some none := by
  refine ⟨by simp [construct, M3.n], rfl, rfl, ?_⟩
  intro d c
  unfold M3.find
  split <;> rfl

/-- C122 (violated): `sides` of the mesh returns nothing for any simplex. -/
theorem C122_sides_missing (m : M3) (d : Nat) (i : Int) : m.sides d i = [] := rfl

/-! ### a concrete mesh -/

/-- Two tetrahedra sharing the face 1 2 3, corners given out of order; vertex 5 is isolated. -/
def pair : List Tet := [(3, 1, 0, 2), (1, 4, 2, 3)]

theorem pair_valid : Valid 6 pair := by
  refine ⟨?_, by decide, ?_⟩
  · intro t ht v hv
    simp [pair] at ht
    rcases ht with rfl | rfl <;> simp [OnTet] at hv <;> omega
  · intro i j s t hi hj h
    have key : ∀ k r, pair[k]? = some r → (k = 0 ∧ r = (3, 1, 0, 2)) ∨ (k = 1 ∧ r = (1, 4, 2, 3)) := by
      intro k r hk
      match k, hk with
      | 0, hk => left; simp [pair] at hk; exact ⟨rfl, hk.symm⟩
      | 1, hk => right; simp [pair] at hk; exact ⟨rfl, hk.symm⟩
      | k + 2, hk => simp [pair] at hk
    rcases key i s hi with ⟨rfl, rfl⟩ | ⟨rfl, rfl⟩ <;> rcases key j t hj with ⟨rfl, rfl⟩ | ⟨rfl, rfl⟩
    · rfl
    · have := (h 0).1 (by simp [OnTet]); simp [OnTet] at this
    · have := (h 0).2 (by simp [OnTet]); simp [OnTet] at this
    · rfl

/-- The mesh built from `pair`: 2 tetrahedra, 7 triangles, 9 edges. -/
def pairMesh : M3 :=
  { n0 := 6, tets := [[0, 1, 2, 3], [1, 2, 3, 4]], tetMap := [([0, 1, 2, 3], 0), ([1, 2, 3, 4], 1)]
    tris := [[0, 1, 2], [0, 1, 3], [0, 2, 3], [1, 2, 3], [1, 2, 4], [1, 3, 4], [2, 3, 4]]
    triSide := [[0], [0], [0], [0, 1], [1], [1], [1]]
    triMap := [([0, 1, 2], 0), ([0, 1, 3], 1), ([0, 2, 3], 2), ([1, 2, 3], 3), ([1, 2, 4], 4), ([1, 3, 4], 5), ([2, 3, 4], 6)]
    edges := [[0, 1], [0, 2], [0, 3], [1, 2], [1, 3], [1, 4], [2, 3], [2, 4], [3, 4]]
    edgeSide := [[0, 1], [0, 2], [1, 2], [0, 3, 4], [1, 3, 5], [4, 5], [2, 3, 6], [4, 6], [5, 6]]
    edgeMap := [([0, 1], 0), ([0, 2], 1), ([0, 3], 2), ([1, 2], 3), ([1, 3], 4), ([1, 4], 5), ([2, 3], 6), ([2, 4], 7), ([3, 4], 8)]
    vside := [[0, 1, 2], [0, 3, 4, 5], [1, 3, 6, 7], [2, 4, 6, 8], [5, 7, 8], []]
    vev := [[1, 2, 3], [0, 2, 3, 4], [0, 1, 3, 4], [0, 1, 2, 4], [1, 2, 3], []] }

theorem pairMesh_built : build 6 pair = some pairMesh := by decide +kernel

/-- Non-vacuity: the hypotheses of C122 hold for the pair; the shared triangle has id 3 and two
tetrahedra; `1 2 3 4` is found, `0 1 2 4` is not. -/
example : Valid 6 pair ∧ build 6 pair = some pairMesh ∧ pairMesh.n 2 = 7 ∧ pairMesh.n 1 = 9 ∧
    pairMesh.get 2 3 = some [1, 2, 3] ∧ pairMesh.sideOf 2 3 = some [0, 1] ∧ pairMesh.sideOf 1 3 = some [0, 3, 4] ∧
    pairMesh.find 3 [1, 2, 3, 4] = some (some 1) ∧ pairMesh.find 3 [0, 1, 2, 4] = some none ∧
    pairMesh.find 2 [1, 3, 2] = some none := by
  refine ⟨pair_valid, pairMesh_built, ?_⟩
  decide +kernel

/-- Non-vacuity of the violation: the same two tetrahedra through the constructor. -/
example : (construct 6 pair).find 3 [0, 1, 2, 3] = some none ∧ (construct 6 pair).get 3 0 = some [3, 1, 0, 2] := by
  decide +kernel

end Verif.U3
