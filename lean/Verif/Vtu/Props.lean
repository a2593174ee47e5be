import Verif.Vtu.Model
import Verif.MPAS.Locate
/-! # Meshes in VTU files (C201, C202) -/
namespace Verif.Vtu

/-! ## Lemmas -/

theorem mapM_range {β : Type} (g : Nat → Option β) (r : List β) (h : ∀ i, i < r.length → g i = r[i]?) :
    (List.range r.length).mapM g = some r := by
  rcases r with _ | ⟨b, l⟩
  · rfl
  · rw [MPAS.mapM_some g (fun i => ((b :: l)[i]?).getD b)]
    · congr 1
      apply List.ext_getElem
      · simp
      · intro i h1 h2
        simp only [List.getElem_map, List.getElem_range, List.getElem?_eq_getElem h2, Option.getD_some]
    · intro i hi
      have hi := List.mem_range.1 hi
      rw [h i hi, List.getElem?_eq_getElem hi, Option.getD_some]

theorem mapM_read {α β : Type} (f : α → β) (l : List α) {n : Nat} (hn : l.length = n) :
    (List.range n).mapM (fun (i : Nat) => (UM.read l i).map f) = some (l.map f) := by
  subst hn
  have := mapM_range (fun (i : Nat) => (UM.read l i).map f) (l.map f) fun i _ => by rw [UM.read_nat, List.getElem?_map]
  rwa [List.length_map] at this

section three
open U3
variable {n0 : Nat} {ts : List Tet} {m : M3}

theorem build_lists (hb : build n0 ts = some m) : m.n0 = n0 ∧ m.tets = ts.map sort4 := by
  unfold build at hb
  simp only [Option.bind_eq_bind, Option.bind_eq_some_iff] at hb
  obtain ⟨r, -, h⟩ := hb
  obtain rfl := Option.some.inj h
  exact ⟨rfl, rfl⟩

theorem build_congr {ts' : List Tet} (h : ts'.map sort4 = ts.map sort4) : build n0 ts' = build n0 ts := by
  unfold build
  rw [h]

theorem sort4_again {t : Tet} (h : [t.1, t.2.1, t.2.2.1, t.2.2.2].Nodup) :
    sort4 ((sort4 t).getD 0 0, (sort4 t).getD 1 0, (sort4 t).getD 2 0, (sort4 t).getD 3 0) = sort4 t := by
  obtain ⟨a, b, c, d, e, h1, h2, h3, -⟩ := sort4_incr h
  rw [e]
  have hn : [a, b, c, d].Nodup := by simp; omega
  obtain ⟨a', b', c', d', e', h1', h2', h3', h4'⟩ := sort4_incr (t := (a, b, c, d)) hn
  show sort4 (a, b, c, d) = [a, b, c, d]
  rw [e']
  apply incr_ext
  · simp; omega
  · simp; omega
  · intro v
    rw [h4']
    simp [OnTet]

theorem tetsOf_cells : ∀ cs : List (List Int), tetsOf (cs.map fun c => (vtkTetra, c)) =
    cs.map fun c => (c.getD 0 0, c.getD 1 0, c.getD 2 0, c.getD 3 0)
  | [] => rfl
  | c :: cs => by
    rw [List.map_cons, tetsOf, if_pos rfl, tetsOf_cells cs, List.map_cons]

/-! ## Round trips -/

/-- C201: a tetrahedral mesh written to a VTU file and read again is the same mesh: same numbers, tetrahedra, triangles, edges and
neighbours.  Its coordinates are the ones written, rounded to the precision of the file. -/
theorem C201_tetrahedra {K : Type} (rnd : K → K) (hv : Valid n0 ts) (hb : build n0 ts = some m) (xyz : List (K × K × K))
    (hx : xyz.length = n0) :
    ∃ g, toVtu3 rnd m xyz = some g ∧ fromVtu3 g = some (m, xyz.map fun p => (rnd p.1, rnd p.2.1, rnd p.2.2)) := by
  obtain ⟨h0, h3⟩ := build_lists hb
  refine ⟨⟨xyz.map fun p => (rnd p.1, rnd p.2.1, rnd p.2.2), m.tets.map fun c => (vtkTetra, c)⟩, ?_, ?_⟩
  · unfold toVtu3
    rw [show m.n 0 = n0 from h0, mapM_read _ _ hx,
      show (fun (i : Nat) => (m.get 3 i).map fun c => (vtkTetra, c)) = fun (i : Nat) => (UM.read m.tets i).map fun c => (vtkTetra, c)
        from rfl, mapM_read _ _ (show m.tets.length = m.n 3 from rfl)]
  · unfold fromVtu3
    dsimp only
    rw [List.length_map, hx, tetsOf_cells, build_congr (ts := ts), hb]
    rw [h3, List.map_map, List.map_map]
    apply List.map_congr_left
    intro t ht
    exact sort4_again (hv.distinct t ht)

end three

section two
open UM
variable {n0 : Nat} {ts : List Tri} {m : M2} {order : List (Edge × Int) → List (Edge × Int)}

theorem chi3_incr {t : Tri} (h : Incr3 t) : chi3 t = false := by
  obtain ⟨a, b, c⟩ := t
  obtain ⟨h1, h2⟩ := h
  dsimp only at h1 h2
  have h1' : ¬ (a > b) := by omega
  have h2' : ¬ (b > c) := by omega
  simp [chi3, SoS.bubbleSort, SoS.bubblePass, SoS.bubbleStep, List.range_succ, h1', h2']

theorem triLoop_sorted : ∀ (ts : List Tri) (s r : TS) (i : Nat) (c : List Bool), (∀ t ∈ ts, Distinct3 t) →
    triLoop s i ts = some r →
    triLoop { s with chi := c } i (ts.map sort3) = some { r with chi := c ++ ts.map fun _ => false }
  | [], s, r, i, c, _, h => by
    obtain rfl := Option.some.inj h
    simp [triLoop]
  | t :: ts, s, r, i, c, hd, h => by
    have hi : Incr3 (sort3 t) := sort3_incr (hd t (by simp))
    have e : triLoop s i (t :: ts) = (triStep s i t).bind fun s => triLoop s (i + 1) ts := rfl
    rw [e, Option.bind_eq_some_iff] at h
    obtain ⟨s', h1, h2⟩ := h
    have e2 : triLoop { s with chi := c } i ((t :: ts).map sort3) =
      (triStep { s with chi := c } i (sort3 t)).bind fun s => triLoop s (i + 1) (ts.map sort3) := rfl
    have e3 : triStep { s with chi := c } i (sort3 t) = some { s' with chi := c ++ [false] } := by
      unfold triStep at h1 ⊢
      simp only [sort3_of_incr hi, chi3_incr hi, Option.bind_eq_bind, Option.bind_eq_some_iff] at h1 ⊢
      obtain ⟨v1, a1, v2, a2, v3, a3, a4⟩ := h1
      obtain rfl := Option.some.inj a4
      exact ⟨v1, a1, v2, a2, v3, a3, rfl⟩
    rw [e2, e3, Option.bind_some, triLoop_sorted ts s' r (i + 1) (c ++ [false]) (fun t ht => hd t (by simp [ht])) h2]
    simp

theorem build_lists2 (hb : build order n0 ts = some m) : m.n0 = n0 ∧
    ∃ s, triLoop { tris := [], chi := [], triMap := [], vtris := List.replicate n0 [] } 0 ts = some s ∧ m.tris = s.tris := by
  unfold build at hb
  simp only [Option.bind_eq_bind, Option.bind_eq_some_iff] at hb
  obtain ⟨s, h1, e, h2, a, h3, b, h4, c, h5, h⟩ := hb
  obtain rfl := Option.some.inj h
  exact ⟨rfl, s, h1, rfl⟩

theorem triLoop_tris : ∀ (ts : List Tri) (s r : TS) (i : Nat), triLoop s i ts = some r → r.tris = s.tris ++ ts.map sort3
  | [], s, r, i, h => by obtain rfl := Option.some.inj h; simp
  | t :: ts, s, r, i, h => by
    have e : triLoop s i (t :: ts) = (triStep s i t).bind fun s => triLoop s (i + 1) ts := rfl
    rw [e, Option.bind_eq_some_iff] at h
    obtain ⟨s', h1, h2⟩ := h
    rw [triLoop_tris ts s' r (i + 1) h2]
    unfold triStep at h1
    simp only [Option.bind_eq_bind, Option.bind_eq_some_iff] at h1
    obtain ⟨v1, a1, v2, a2, v3, a3, a4⟩ := h1
    obtain rfl := Option.some.inj a4
    simp

theorem build_sorted (hd : ∀ t ∈ ts, Distinct3 t) (hb : build order n0 ts = some m) :
    build order n0 (ts.map sort3) = some { m with chi := ts.map fun _ => false } := by
  unfold build at hb ⊢
  simp only [Option.bind_eq_bind, Option.bind_eq_some_iff] at hb ⊢
  obtain ⟨s, h1, e, h2, a, h3, b, h4, c, h5, h⟩ := hb
  have := triLoop_sorted ts _ s 0 [] hd h1
  refine ⟨_, this, e, h2, a, h3, b, h4, c, h5, ?_⟩
  obtain rfl := Option.some.inj h
  simp

theorem trianglesOf_cells : ∀ cs : List Tri, trianglesOf (cs.map fun t => (vtkTriangle, [t.1, t.2.1, t.2.2])) = cs
  | [] => rfl
  | c :: cs => by
    rw [List.map_cons, trianglesOf, if_pos rfl, trianglesOf_cells cs]
    rfl

/-- C201 (the part that holds for triangle meshes): a mesh written to a VTU file and read again is the same mesh, except that every
triangle is taken to be positively oriented.  Missing: the orientation (see `C201_orientation_violated`). -/
theorem C201_triangles_partial {K : Type} (rnd : K → K) (ho : IsOrder order) (hv : Valid n0 ts) (hb : build order n0 ts = some m)
    (xyz : List (K × K × K)) (hx : xyz.length = n0) :
    ∃ g m', toVtu2 rnd m xyz = some g ∧
      fromVtu2 order g = some (m', xyz.map fun p => (rnd p.1, rnd p.2.1, rnd p.2.2)) ∧
      m = { m' with chi := m.chi } ∧ ∀ i : Int, 0 ≤ i → i < ts.length → m'.triangleChi i = some 1 := by
  obtain ⟨h0, s, hs, h3⟩ := build_lists2 hb
  have h4 : m.tris = ts.map sort3 := by rw [h3, triLoop_tris _ _ _ _ hs]; rfl
  have h2 : m.n 2 = m.tris.length := rfl
  refine ⟨⟨xyz.map fun p => (rnd p.1, rnd p.2.1, rnd p.2.2), m.tris.map fun t => (vtkTriangle, [t.1, t.2.1, t.2.2])⟩,
    { m with chi := ts.map fun _ => false }, ?_, ?_, rfl, ?_⟩
  · unfold toVtu2
    rw [show m.n 0 = n0 from h0, mapM_read _ _ hx, h2, mapM_read _ _ rfl]
  · unfold fromVtu2
    dsimp only
    have e := build_sorted (fun t ht => hv.distinct t ht) hb
    rw [← h4] at e
    rw [List.length_map, hx, trianglesOf_cells, e]
  · intro i hi0 hi1
    obtain ⟨k, rfl⟩ := Int.eq_ofNat_of_zero_le hi0
    have hk : k < ts.length := by omega
    simp only [M2.triangleChi, UM.read_nat, List.getElem?_map, List.getElem?_eq_getElem hk, Option.map_some,
      Option.bind_eq_bind, Option.bind_some]
    rfl

/-- C201 (violated): the square's first triangle `1 0 2` is negatively oriented, and positively after writing and reading. -/
theorem C201_orientation_violated : ∃ m m' g, build id 5 square = some m ∧
    toVtu2 id m [(0, 0, 0), (1, 0, 0), (0, 1, 0), (1, 1, 0), (7, 7, (0 : ℚ))] = some g ∧
    fromVtu2 id g = some (m', [(0, 0, 0), (1, 0, 0), (0, 1, 0), (1, 1, 0), (7, 7, 0)]) ∧
    m.triangleChi 0 = some (-1) ∧ m'.triangleChi 0 = some 1 := by
  have ho : IsOrder id := fun l => List.Perm.refl l
  obtain ⟨m, hm⟩ := C69_build_defined ho square_valid
  obtain ⟨g, m', h1, h2, -, h4⟩ := C201_triangles_partial (K := ℚ) id ho square_valid hm
    [(0, 0, 0), (1, 0, 0), (0, 1, 0), (1, 1, 0), (7, 7, 0)] rfl
  refine ⟨m, m', g, hm, h1, by simpa using h2, ?_, h4 0 (by omega) (by decide)⟩
  have h : (build id 5 square).map (fun m => m.triangleChi 0) = some (some (-1)) := by decide +kernel
  rw [hm, Option.map_some] at h
  exact Option.some.inj h

end two

/-! ## Reading into a mesh that was in use -/

section again
open U3

/-- C202 (the part that holds): if reading a file into a used mesh does not crash, the numbers of cells, the cells and the cells at
each edge and triangle are those of the file.  Missing: lookups and the edges at a vertex, and the crash. -/
theorem C202_cells_partial {K : Type} (old m m' : M3) (g : Grid K) (c : List (K × K × K)) (h : fromVtu3 g = some (m, c))
    (h' : reread3 old g = some m') :
    (∀ d, m'.n d = m.n d) ∧ (∀ d i, m'.get d i = m.get d i) ∧ (∀ i, m'.sideOf 1 i = m.sideOf 1 i) ∧
      ∀ i, m'.sideOf 2 i = m.sideOf 2 i := by
  unfold fromVtu3 at h
  unfold reread3 refill3 at h'
  split at h
  · cases h
  · rename_i w hw
    obtain ⟨rfl, -⟩ := Prod.mk.inj (Option.some.inj h)
    unfold build at hw
    simp only [Option.bind_eq_bind, Option.bind_eq_some_iff] at hw
    obtain ⟨r, -, hw⟩ := hw
    obtain rfl := Option.some.inj hw
    dsimp only at h'
    split at h'
    · cases h'
    · obtain rfl := Option.some.inj h'
      refine ⟨fun d => ?_, fun d i => ?_, fun i => rfl, fun i => rfl⟩
      · match d with
        | 0 => rfl
        | 1 => rfl
        | 2 => rfl
        | 3 => rfl
        | _ + 4 => rfl
      · match d with
        | 0 => rfl
        | 1 => rfl
        | 2 => rfl
        | 3 => rfl
        | _ + 4 => rfl

/-- C202: on a mesh that was not in use nothing is missing. -/
theorem C202_fresh {K : Type} (n0 : Nat) (g : Grid K) (c : List (K × K × K)) (m : M3) (h : fromVtu3 g = some (m, c)) :
    reread3 (construct n0 []) g = some m := by
  unfold fromVtu3 at h
  split at h
  · cases h
  · rename_i w hw
    obtain ⟨rfl, -⟩ := Prod.mk.inj (Option.some.inj h)
    unfold build at hw
    simp only [Option.bind_eq_bind, Option.bind_eq_some_iff] at hw
    obtain ⟨r, h1, hw⟩ := hw
    obtain rfl := Option.some.inj hw
    unfold reread3 refill3
    dsimp only
    have e : (resize g.points.length [] (construct n0 []).vside : List (List Int)) = List.replicate g.points.length [] := by
      simp [resize, construct]
    have e' : (resize g.points.length [] (construct n0 []).vev : List (List Int)) = List.replicate g.points.length [] := by
      simp [resize, construct]
    rw [e, e', show (construct n0 []).edgeMap = [] from rfl, h1]
    rfl

/-- A grid with the single tetrahedron 0 1 2 3, `n` points and a triangle -/
def single (n : Nat) : Grid Unit := ⟨List.replicate n ((), (), ()), [(vtkTriangle, [0, 1, 2]), (vtkTetra, [0, 1, 2, 3])]⟩

/-- C202 (violated): the mesh of two tetrahedra, then reading the single tetrahedron: the edge
between 1 and 4 is still found, and asking for the old second tetrahedron fails an assertion; a new mesh answers "not found"
to both. -/
theorem C202_lookup_violated : ∃ m m', fromVtu3 (single 6) = some (m, (single 6).points) ∧
    reread3 pairMesh (single 6) = some m' ∧
    m.find 1 [1, 4] = some none ∧ m'.find 1 [1, 4] ≠ some none ∧ m.find 3 [1, 2, 3, 4] = some none ∧
    m'.find 3 [1, 2, 3, 4] = none := by
  have h1 : ((fromVtu3 (single 6)).map fun r => (r.2 = (single 6).points ∧ r.1.find 1 [1, 4] = some none ∧
      r.1.find 3 [1, 2, 3, 4] = some none : Bool)) = some true := by decide +kernel
  have h2 : ((reread3 pairMesh (single 6)).map fun r => (r.find 1 [1, 4] ≠ some none ∧
      r.find 3 [1, 2, 3, 4] = none : Bool)) = some true := by decide +kernel
  obtain ⟨⟨m, c⟩, a, b⟩ := Option.map_eq_some_iff.1 h1
  obtain ⟨m', a', b'⟩ := Option.map_eq_some_iff.1 h2
  simp only [decide_eq_true_eq] at b b'
  obtain ⟨b1, b2, b3⟩ := b
  obtain rfl := b1
  exact ⟨m, m', a, a', b2, b'.1, b3, b'.2⟩

/-- C202 (violated): if the new file has fewer points, the old edges make the code write outside its vectors. -/
theorem C202_crash_violated : (fromVtu3 (single 4)).isSome = true ∧ reread3 pairMesh (single 4) = none := by
  constructor <;> decide +kernel

end again

/-- Non-vacuity of C201: the mesh of two tetrahedra. -/
example : ∃ g, toVtu3 (fun x : ℚ => x) U3.pairMesh ((List.range 6).map fun i => ((i : ℚ), 0, 0)) = some g ∧
    (fromVtu3 g).isSome = true := by
  obtain ⟨g, h1, h2⟩ := C201_tetrahedra (fun x : ℚ => x) U3.pair_valid U3.pairMesh_built
    ((List.range 6).map fun i => ((i : ℚ), 0, 0)) rfl
  exact ⟨g, h1, by rw [h2]; rfl⟩

end Verif.Vtu
