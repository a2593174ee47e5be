import Verif.UMesh.Props

/-!
# Model of `build_partition`, `lid2gid`, `gid2lid` (`simplicial_unstructured_2d_mesh.hh:987-1100`)

The process count is > 1.  `part` is the vector METIS produced on rank 0 and broadcast (`:1021-1053`):
one owner per triangle; METIS itself is not modelled.
-/

namespace Verif.UM

/-- `part_triangles, part_edges, part_vertices` and the three `…_gid` maps (`:194-195`); the maps are
filled as `part_X_gid[lid] = gid` with `lid = 0, 1, …`, so a list indexed by `lid`. -/
structure Part where
  triangles : List Int
  edges : List Int
  vertices : List Int
  trianglesGid : List Int
  edgesGid : List Int
  verticesGid : List Int
deriving DecidableEq, Repr

/-- The loop `:1061-1076`: owned triangles, the set of their edges (and of their corners). -/
def partLoop (m : M2) (part : List Nat) (rank : Nat) : List Nat → List Int × List Int × List Int →
    Option (List Int × List Int × List Int)
  | [], s => some s
  | i :: l, s => do
    let o ← part[i]?
    if o = rank then
      let es ← m.sides2 i
      let t ← m.getTriangle i
      partLoop m part rank l (s.1 ++ [(i : Int)], es.foldl (fun a e => setInsert e a) s.2.1,
        setInsert t.2.2 (setInsert t.2.1 (setInsert t.1 s.2.2)))
    else partLoop m part rank l s

/-- `build_partition` on rank `rank` (`:1056-1093`).  The loop at `:1088` that should run over
`set_part_verts` runs over `set_part_edges`. -/
def buildPartition (m : M2) (part : List Nat) (rank : Nat) : Option Part := do
  let s ← partLoop m part rank (List.range (m.n 2)) ([], [], [])
  some { triangles := s.1, edges := s.2.1, vertices := s.2.1,
         trianglesGid := s.1, edgesGid := s.2.1, verticesGid := s.2.1 }

/-- `lid2gid` (`:987-998`). -/
def Part.lid2gid (p : Part) (d : Nat) (lid : Int) : Option Int :=
  match d with
  | 2 => read p.triangles lid
  | 1 => read p.edges lid
  | 0 => read p.vertices lid
  | _ => some (-1)

/-- `gid2lid` (`:1000-1012`): `part_X_gid.at(gid)`; `none` is the thrown `std::out_of_range`. -/
def Part.gid2lid (p : Part) (d : Nat) (gid : Int) : Option Int :=
  match d with
  | 2 => read p.trianglesGid gid
  | 1 => read p.edgesGid gid
  | 0 => read p.verticesGid gid
  | _ => some (-1)

theorem foldl_setInsert_mem' (es : List Int) (a : List Int) (x : Int) :
    x ∈ es.foldl (fun a e => setInsert e a) a ↔ x ∈ es ∨ x ∈ a := by
  induction es generalizing a with
  | nil => simp
  | cons e es ih => simp only [List.foldl_cons, ih, mem_setInsert, List.mem_cons]; tauto

theorem foldl_setInsert_sorted' (es : List Int) (a : List Int) (h : StrictSorted a) :
    StrictSorted (es.foldl (fun a e => setInsert e a) a) := by
  induction es generalizing a with
  | nil => exact h
  | cons e es ih => exact ih _ h.setInsert

theorem partLoop_spec (m : M2) (part : List Nat) (rank : Nat) : ∀ (l : List Nat) (s : List Int × List Int × List Int),
    (∀ i ∈ l, (∃ o, part[i]? = some o) ∧ (∃ es, m.sides2 i = some es) ∧ ∃ t, m.getTriangle i = some t) →
    StrictSorted s.2.1 →
    ∃ s', partLoop m part rank l s = some s' ∧
      s'.1 = s.1 ++ (l.filter (fun i => part[i]? = some rank)).map (fun i : Nat => (i : Int)) ∧
      StrictSorted s'.2.1 ∧
      ∀ e, e ∈ s'.2.1 ↔ e ∈ s.2.1 ∨ ∃ i ∈ l, part[i]? = some rank ∧ ∃ es, m.sides2 i = some es ∧ e ∈ es := by
  intro l
  induction l with
  | nil => intro s _ hs; exact ⟨s, rfl, by simp, hs, by simp⟩
  | cons i l ih =>
    intro s h hs
    obtain ⟨⟨o, ho⟩, ⟨es, hes⟩, ⟨t, ht⟩⟩ := h i (List.mem_cons_self ..)
    have hl := fun j hj => h j (List.mem_cons_of_mem i hj)
    by_cases hor : o = rank
    · subst hor
      obtain ⟨s', e1, e2, e3, e4⟩ := ih (s.1 ++ [(i : Int)], es.foldl (fun a e => setInsert e a) s.2.1,
        setInsert t.2.2 (setInsert t.2.1 (setInsert t.1 s.2.2))) hl (foldl_setInsert_sorted' es _ hs)
      refine ⟨s', by simp [partLoop, ho, hes, ht, e1], ?_, e3, ?_⟩
      · rw [e2]; simp [List.filter_cons, ho]
      · intro e
        rw [e4]
        simp only [foldl_setInsert_mem', List.mem_cons]
        constructor
        · rintro ((h1 | h1) | ⟨j, h1, h2⟩)
          · exact Or.inr ⟨i, Or.inl rfl, ho, es, hes, h1⟩
          · exact Or.inl h1
          · exact Or.inr ⟨j, Or.inr h1, h2⟩
        · rintro (h1 | ⟨j, rfl | h1, h2, es', h3, h4⟩)
          · exact Or.inl (Or.inr h1)
          · rw [hes] at h3; simp at h3; subst h3; exact Or.inl (Or.inl h4)
          · exact Or.inr ⟨j, h1, h2, es', h3, h4⟩
    · obtain ⟨s', e1, e2, e3, e4⟩ := ih s hl hs
      have hne : part[i]? ≠ some rank := by rw [ho]; simp [hor]
      refine ⟨s', by simp [partLoop, ho, hor, e1], ?_, e3, ?_⟩
      · rw [e2]; simp [List.filter_cons, hne]
      · intro e
        rw [e4]
        constructor
        · rintro (h1 | ⟨j, h1, h2⟩)
          · exact Or.inl h1
          · exact Or.inr ⟨j, List.mem_cons_of_mem _ h1, h2⟩
        · rintro (h1 | ⟨j, h1, h2, h3⟩)
          · exact Or.inl h1
          · rcases List.mem_cons.1 h1 with rfl | h1
            · exact absurd h2 hne
            · exact Or.inr ⟨j, h1, h2, h3⟩

variable {order : List (Edge × Int) → List (Edge × Int)} {n0 : Nat} {ts : List Tri} {m : M2}

/-- C71, the part that holds.  With one owner per triangle: on every rank, local triangle ids run
without repetition exactly through the triangles the rank owns, and local edge ids exactly through
the edges of these triangles.  Hence every triangle is a local triangle of exactly one rank.
Missing: local vertex ids name the corners of the owned triangles, and `gid2lid` inverts `lid2gid`;
both are false (`C71_vertices_wrong`, `C71_gid2lid_wrong`). -/
theorem C71_partition_partial (ho : IsOrder order) (hv : Valid n0 ts) (hb : build order n0 ts = some m)
    (part : List Nat) (hp : part.length = ts.length) (rank : Nat) :
    ∃ p, buildPartition m part rank = some p ∧
      (∀ l l' g : Int, p.lid2gid 2 l = some g → p.lid2gid 2 l' = some g → l = l') ∧
      (∀ g : Int, (∃ l, p.lid2gid 2 l = some g) ↔ ∃ i : Nat, g = i ∧ part[i]? = some rank) ∧
      (∀ l l' g : Int, p.lid2gid 1 l = some g → p.lid2gid 1 l' = some g → l = l') ∧
      (∀ g : Int, (∃ l, p.lid2gid 1 l = some g) ↔
        ∃ (i : Nat) (t : Tri) (u v : Int), part[i]? = some rank ∧ ts[i]? = some t ∧ m.getEdge g = some (u, v) ∧
          OnTri u t ∧ OnTri v t) := by
  have hn2 : m.n 2 = ts.length := (C69_get_triangle ho hv hb).2.1
  obtain ⟨s', e1, e2, e3, e4⟩ := partLoop_spec m part rank (List.range (m.n 2)) ([], [], []) (by
    intro i hi
    rw [List.mem_range, hn2] at hi
    obtain ⟨es, h1, -⟩ := C70_sides ho hv hb i _ (List.getElem?_eq_getElem hi)
    obtain ⟨a, b, c, h2, -⟩ := (C69_get_triangle ho hv hb).2.2.1 i _ (List.getElem?_eq_getElem hi)
    exact ⟨⟨part[i], List.getElem?_eq_getElem (by omega)⟩, ⟨es, h1⟩, ⟨_, h2⟩⟩) (by simp [StrictSorted])
  have inj : ∀ (L : List Int), L.Nodup → ∀ l l' g : Int, read L l = some g → read L l' = some g → l = l' := by
    intro L hL l l' g h1 h2
    rw [read_eq_some] at h1 h2
    have g1 := List.getElem?_eq_some_iff.1 h1.2
    have g2 := List.getElem?_eq_some_iff.1 h2.2
    have := (List.Nodup.getElem_inj_iff hL).1 (g1.2.trans g2.2.symm)
    omega
  have hmem : ∀ (L : List Int) (g : Int), (∃ l, read L l = some g) ↔ g ∈ L := by
    intro L g
    constructor
    · rintro ⟨l, h⟩; rw [read_eq_some] at h; exact List.mem_of_getElem? h.2
    · intro h
      obtain ⟨j, hj⟩ := List.getElem?_of_mem h
      exact ⟨(j : Int), by rw [read_nat]; exact hj⟩
  refine ⟨⟨s'.1, s'.2.1, s'.2.1, s'.1, s'.2.1, s'.2.1⟩, by simp [buildPartition, e1], ?_, ?_, ?_, ?_⟩
  · apply inj s'.1
    rw [e2, List.nil_append]
    exact (List.nodup_range.filter _).map (fun a b h => by simpa using h)
  · intro g
    show (∃ l, read s'.1 l = some g) ↔ _
    rw [hmem, e2]
    simp only [List.nil_append, List.mem_map, List.mem_filter, List.mem_range, decide_eq_true_eq]
    constructor
    · rintro ⟨i, ⟨h1, h2⟩, rfl⟩; exact ⟨i, rfl, h2⟩
    · rintro ⟨i, rfl, h2⟩
      have := (List.getElem?_eq_some_iff.1 h2).1
      exact ⟨i, ⟨by omega, h2⟩, rfl⟩
  · exact inj s'.2.1 e3.nodup
  · intro g
    show (∃ l, read s'.2.1 l = some g) ↔ _
    rw [hmem, e4]
    simp only [List.not_mem_nil, false_or, List.mem_range]
    constructor
    · rintro ⟨i, h1, h2, es, h3, h4⟩
      rw [hn2] at h1
      obtain ⟨S, s1, -, -, s2⟩ := C70_sides ho hv hb i _ (List.getElem?_eq_getElem h1)
      rw [h3] at s1; simp at s1; subst s1
      obtain ⟨u, v, h5, h6, h7⟩ := (s2 g).1 h4
      exact ⟨i, _, u, v, h2, List.getElem?_eq_getElem h1, h5, h6, h7⟩
    · rintro ⟨i, t, u, v, h1, h2, h3, h4, h5⟩
      have hi := (List.getElem?_eq_some_iff.1 h2).1
      obtain ⟨S, s1, -, -, s2⟩ := C70_sides ho hv hb i t h2
      exact ⟨i, by omega, h1, S, s1, (s2 g).2 ⟨u, v, h3, h4, h5⟩⟩

/-- C71: the ranks' triangles partition the mesh: every triangle is local on exactly one rank. -/
theorem C71_exactly_one_rank (ho : IsOrder order) (hv : Valid n0 ts) (hb : build order n0 ts = some m)
    (part : List Nat) (hp : part.length = ts.length) (i : Nat) (hi : i < ts.length) :
    ∃ r, (∃ p l, buildPartition m part r = some p ∧ p.lid2gid 2 l = some (i : Int)) ∧
      ∀ r', (∃ p l, buildPartition m part r' = some p ∧ p.lid2gid 2 l = some (i : Int)) → r' = r := by
  have hip : i < part.length := by omega
  have key : ∀ r, (∃ p l, buildPartition m part r = some p ∧ p.lid2gid 2 l = some (i : Int)) ↔ part[i] = r := by
    intro r
    obtain ⟨p, h1, -, h2, -⟩ := C71_partition_partial ho hv hb part hp r
    constructor
    · rintro ⟨p', l, g1, g2⟩
      rw [h1] at g1; simp at g1; subst g1
      obtain ⟨j, hj, hj'⟩ := (h2 i).1 ⟨l, g2⟩
      have : i = j := by omega
      subst this
      rw [List.getElem?_eq_getElem hip] at hj'; simpa using hj'
    · intro hr
      obtain ⟨l, hl⟩ := (h2 i).2 ⟨i, rfl, by rw [List.getElem?_eq_getElem hip, hr]⟩
      exact ⟨p, l, h1, hl⟩
  exact ⟨part[i], (key _).2 rfl, fun r' h => ((key r').1 h).symm⟩

/-- The square split over two ranks meets the hypotheses; rank 1 owns triangle `1`, whose edges are
`1, 3, 4`. -/
example : Valid 5 square ∧ [0, 1].length = square.length ∧
    (build (fun l => l) 5 square).bind (fun m => buildPartition m [0, 1] 1) =
      some ⟨[1], [1, 3, 4], [1, 3, 4], [1], [1, 3, 4], [1, 3, 4]⟩ :=
  ⟨square_valid, rfl, by decide +kernel⟩

/-- C71 (violated): on rank 1 of that example the local vertices are reported as the *edge* ids
`1, 3, 4`: vertex `2`, a corner of the owned triangle `(1, 2, 3)`, has no local id and the isolated
vertex `4` has one. -/
theorem C71_vertices_wrong : ∃ p, (build (fun l => l) 5 square).bind (fun m => buildPartition m [0, 1] 1) = some p ∧
    (∀ l, p.lid2gid 0 l ≠ some 2) ∧ p.lid2gid 0 2 = some 4 := by
  refine ⟨⟨[1], [1, 3, 4], [1, 3, 4], [1], [1, 3, 4], [1, 3, 4]⟩, by decide +kernel, ?_, by decide +kernel⟩
  intro l h
  have h : read [(1 : Int), 3, 4] l = some 2 := h
  rw [read_eq_some] at h
  have := List.mem_of_getElem? h.2
  simp at this

/-- C71 (violated): `gid2lid` is not the inverse of `lid2gid`: its map is filled the wrong way round.
Triangle `1` is local triangle `0` of rank 1, but asking for its local id throws, and asking for
that of triangle `0`, which rank 1 does not have, answers `1`. -/
theorem C71_gid2lid_wrong : ∃ p, (build (fun l => l) 5 square).bind (fun m => buildPartition m [0, 1] 1) = some p ∧
    p.lid2gid 2 0 = some 1 ∧ p.gid2lid 2 1 = none ∧ p.gid2lid 2 0 = some 1 :=
  ⟨⟨[1], [1, 3, 4], [1, 3, 4], [1], [1, 3, 4], [1, 3, 4]⟩, by decide +kernel, by decide +kernel, by decide +kernel,
    by decide +kernel⟩

end Verif.UM
