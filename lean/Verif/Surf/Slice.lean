import Verif.Surf.Spec
import Mathlib.Data.List.Nodup
/-! C88: slices of volumes. -/
namespace Verif.Surf
variable {δ : Type}

theorem selected_sorted (f : FPt δ → Bool) (pts : List (FPt δ)) : (selected f pts).Pairwise (· < ·) :=
  List.Pairwise.sublist List.filter_sublist List.pairwise_lt_range

theorem mem_selected {f : FPt δ → Bool} {pts : List (FPt δ)} {i : Nat} : i ∈ selected f pts ↔ ∃ p, pts[i]? = some p ∧ f p = true := by
  unfold selected
  rw [List.mem_filter, List.mem_range]
  constructor
  · rintro ⟨h, h2⟩
    rw [List.getElem?_eq_getElem h] at h2 ⊢
    exact ⟨_, rfl, by simpa using h2⟩
  · rintro ⟨p, h1, h2⟩
    refine ⟨(List.getElem?_eq_some_iff.1 h1).1, ?_⟩
    rw [h1]
    simpa using h2

theorem selected_get (f : FPt δ → Bool) (pts : List (FPt δ)) : (selected f pts).map (pts[·]?) = (pts.filter f).map some := by
  have key : ∀ (l pre : List (FPt δ)), pre ++ l = pts →
      ((List.range' pre.length l.length).filter fun i => (pts[i]?).any f).map (pts[·]?) = (l.filter f).map some := by
    intro l
    induction l with
    | nil => intro _ _; simp
    | cons p l ih =>
      intro pre h
      have := ih (pre ++ [p]) (by simpa using h)
      rw [List.length_append, List.length_singleton] at this
      have hp : pts[pre.length]? = some p := by rw [← h]; simp
      rw [List.length_cons, List.range'_succ, List.filter_cons, hp]
      simp only [Option.any_some, List.filter_cons]
      by_cases hf : f p = true
      · simp only [hf, if_true, List.map_cons, this, hp]
      · simp only [hf, if_false, this, Bool.false_eq_true]
  have := key pts [] rfl
  unfold selected
  rw [List.range_eq_range']
  exact this

/-- how the points of a slice relate to the points of the complex: `sel` lists the numbers of the points kept -/
structure Kept (f : FPt δ → Bool) (old new : List (FPt δ)) (sel : List Nat) : Prop where
  order : sel.Pairwise (· < ·)
  mem : ∀ i, i ∈ sel ↔ ∃ p, old[i]? = some p ∧ f p = true
  length : new.length = sel.length
  point : ∀ (k i : Nat), sel[k]? = some i → new[k]? = old[i]?

theorem kept_selected (f : FPt δ → Bool) (pts : List (FPt δ)) : Kept f pts (pts.filter f) (selected f pts) := by
  have h := selected_get f pts
  refine ⟨selected_sorted f pts, fun i => mem_selected, ?_, ?_⟩
  · have := congrArg List.length h
    simpa using this.symm
  · intro k i hk
    have := congrArg (·[k]?) h
    simp only [List.getElem?_map, hk, Option.map_some] at this
    cases h2 : (pts.filter f)[k]? with
    | none => rw [h2] at this; simp at this
    | some p => rw [h2] at this; simp only [Option.map_some, Option.some.injEq] at this; exact this.symm

theorem Kept.nodup {f : FPt δ → Bool} {old new : List (FPt δ)} {sel : List Nat} (h : Kept f old new sel) : sel.Nodup :=
  h.order.imp fun hlt => Nat.ne_of_lt hlt

theorem sort3_iff {x y z a b c : Nat} : sort3 x y z = (a, b, c) ↔ [x, y, z].Perm [a, b, c] ∧ a ≤ b ∧ b ≤ c := by
  have hp : ([x, y, z].insertionSort (· ≤ ·)).Perm [x, y, z] := List.perm_insertionSort _ _
  have hs : ([x, y, z].insertionSort (· ≤ ·)).Pairwise (· ≤ ·) := List.pairwise_insertionSort _ _
  unfold sort3
  rcases h : [x, y, z].insertionSort (· ≤ ·) with _ | ⟨p, _ | ⟨q, _ | ⟨r, _ | ⟨s, l⟩⟩⟩⟩
  all_goals rw [h] at hp hs
  all_goals have hl := hp.length_eq
  all_goals simp only [List.length_cons, List.length_nil] at hl
  all_goals try omega
  simp only [Prod.mk.injEq]
  constructor
  · rintro ⟨rfl, rfl, rfl⟩
    simp only [List.pairwise_cons, List.mem_cons, List.not_mem_nil, or_false] at hs
    exact ⟨hp.symm, hs.1 _ (.inl rfl), hs.2.1 _ rfl⟩
  · rintro ⟨h1, h2, h3⟩
    have hs' : [a, b, c].Pairwise (· ≤ ·) := by
      simp only [List.pairwise_cons, List.mem_cons, List.not_mem_nil, or_false, List.Pairwise.nil, and_true]
      refine ⟨?_, ?_, by simp⟩
      · rintro _ (rfl | rfl) <;> omega
      · rintro _ rfl; omega
    have := List.Perm.eq_of_pairwise (le := fun a b : Nat => a ≤ b) (fun a b _ _ h1 h2 => Nat.le_antisymm h1 h2) hs hs' (hp.trans h1)
    simpa using this

theorem filterMap_newIndex (sel l : List Nat) :
    l.filterMap (newIndex sel) = (l.filter fun i => decide (i ∈ sel)).map sel.idxOf := by
  induction l with
  | nil => rfl
  | cons i l ih =>
    simp only [List.filterMap_cons, List.filter_cons, newIndex]
    by_cases h : i ∈ sel
    · simp only [h, if_true, decide_true, List.map_cons, ← ih]
    · simp only [h, if_false, decide_false, Bool.false_eq_true, ← ih]

theorem sliceTet_mem {sel : List Nat} {tris : List TriKey} {q : Quad} {k : TriKey} :
    k ∈ sliceTet sel tris q ↔ k ∈ tris ∨ ∃ x y z, (quadVs q).filterMap (newIndex sel) = [x, y, z] ∧ k = triKey (sort3 x y z) := by
  unfold sliceTet
  split
  · rename_i x y z h
    rw [mem_setInsert]
    constructor
    · rintro (h' | h')
      · exact .inr ⟨x, y, z, h, h'⟩
      · exact .inl h'
    · rintro (h' | ⟨_, _, _, h1, h2⟩)
      · exact .inr h'
      · rw [h] at h1
        simp only [List.cons.injEq, and_true] at h1
        obtain ⟨rfl, rfl, rfl⟩ := h1
        exact .inl h2
  · rename_i hno
    constructor
    · exact .inl
    · rintro (h | ⟨x, y, z, h, -⟩)
      · exact h
      · exact absurd h (hno x y z)

theorem sliceTet_sorted {sel : List Nat} {tris : List TriKey} {q : Quad} (h : StrictSorted tris) : StrictSorted (sliceTet sel tris q) := by
  unfold sliceTet
  split
  · exact h.setInsert
  · exact h

theorem ofKey_triKey (t : Tri) : ofKey (triKey t) = t := rfl
theorem triKey_ofKey (k : TriKey) : triKey (ofKey k) = k := rfl

/-- the triangle with the new point numbers `a ≤ b ≤ c` is the part of the tetrahedron `q` in the slice -/
def PartOf (sel : List Nat) (a b c : Nat) (q : Quad) : Prop :=
  a ≤ b ∧ b ≤ c ∧ ∃ i j k : Nat, sel[a]? = some i ∧ sel[b]? = some j ∧ sel[c]? = some k ∧
    ((quadVs q).filter fun i => decide (i ∈ sel)).Perm [i, j, k]

theorem partOf_iff {sel : List Nat} (hn : sel.Nodup) {q : Quad} {a b c : Nat} :
    (∃ x y z, (quadVs q).filterMap (newIndex sel) = [x, y, z] ∧ (a, b, c) = sort3 x y z) ↔ PartOf sel a b c q := by
  rw [filterMap_newIndex]
  unfold PartOf
  generalize hL : (quadVs q).filter (fun i => decide (i ∈ sel)) = L
  have hLs : ∀ i ∈ L, i ∈ sel := by
    intro i hi
    rw [← hL] at hi
    simpa using (List.mem_filter.1 hi).2
  have hget : ∀ i ∈ sel, sel[sel.idxOf i]? = some i := by
    intro i hi
    rw [List.getElem?_eq_getElem (List.idxOf_lt_length_iff.2 hi), List.getElem_idxOf]
  have hidx : ∀ (a i : Nat), sel[a]? = some i → sel.idxOf i = a := by
    intro a i h
    obtain ⟨h1, rfl⟩ := List.getElem?_eq_some_iff.1 h
    exact List.Nodup.idxOf_getElem hn a h1
  constructor
  · rintro ⟨x, y, z, h1, h2⟩
    obtain ⟨hp, h3, h4⟩ := sort3_iff.1 h2.symm
    have hlen : L.length = 3 := by have := congrArg List.length h1; simpa using this
    have hmap : (L.map sel.idxOf).map (sel[·]?) = L.map some := by
      rw [List.map_map]
      apply List.map_congr_left
      intro i hi
      exact hget i (hLs i hi)
    rw [h1] at hmap
    have hp2 := hp.map (sel[·]?)
    rw [hmap] at hp2
    have hsome : ∀ o ∈ [a, b, c].map (sel[·]?), ∃ i : Nat, o = some i := by
      intro o ho
      obtain ⟨i, -, hi⟩ := List.mem_map.1 (hp2.mem_iff.2 ho)
      exact ⟨i, hi.symm⟩
    obtain ⟨i, hi⟩ := hsome sel[a]? (by simp)
    obtain ⟨j, hj⟩ := hsome sel[b]? (by simp)
    obtain ⟨k, hk⟩ := hsome sel[c]? (by simp)
    refine ⟨h3, h4, i, j, k, hi, hj, hk, ?_⟩
    simp only [List.map_cons, List.map_nil, hi, hj, hk] at hp2
    have h5 := hp2.filterMap id
    simpa [List.filterMap_map] using h5
  · rintro ⟨h3, h4, i, j, k, hi, hj, hk, hp⟩
    have hlen := hp.length_eq
    rcases L with _ | ⟨p, _ | ⟨q, _ | ⟨r, _ | ⟨s, l⟩⟩⟩⟩ <;> simp only [List.length_cons, List.length_nil] at hlen <;> try omega
    refine ⟨_, _, _, rfl, (sort3_iff.2 ⟨?_, h3, h4⟩).symm⟩
    have := hp.map sel.idxOf
    simpa only [List.map_cons, List.map_nil, hidx _ _ hi, hidx _ _ hj, hidx _ _ hk] using this

theorem foldl_sliceTet {sel : List Nat} : ∀ (qs : List Quad) (tris : List TriKey), StrictSorted tris →
    StrictSorted (qs.foldl (sliceTet sel) tris) ∧ ∀ k, k ∈ qs.foldl (sliceTet sel) tris ↔ k ∈ tris ∨
      ∃ q ∈ qs, ∃ x y z, (quadVs q).filterMap (newIndex sel) = [x, y, z] ∧ k = triKey (sort3 x y z) := by
  intro qs
  induction qs with
  | nil => intro tris h; exact ⟨h, by simp⟩
  | cons q qs ih =>
    intro tris h
    obtain ⟨h1, h2⟩ := ih (sliceTet sel tris q) (sliceTet_sorted h)
    refine ⟨h1, fun k => ?_⟩
    rw [List.foldl_cons, h2, sliceTet_mem]
    simp only [List.mem_cons, exists_eq_or_imp, or_assoc]

theorem nodup_ofKey {l : List TriKey} (h : StrictSorted l) : (l.map ofKey).Nodup := by
  refine List.Nodup.map ?_ h.nodup
  intro a b hab
  have := congrArg triKey hab
  exact this

theorem mem_map_ofKey {l : List TriKey} {t : Tri} : t ∈ l.map ofKey ↔ triKey t ∈ l := by
  rw [List.mem_map]
  constructor
  · rintro ⟨k, h, rfl⟩; exact h
  · intro h; exact ⟨_, h, rfl⟩

theorem triKey_inj {a b : Tri} : triKey a = triKey b ↔ a = b := ⟨fun h => by have := congrArg ofKey h; exact this, fun h => by rw [h]⟩

/-- C88: `slice(f)` has the points satisfying `f`, in order, and one triangle for each triple of points that are the points
satisfying `f` of some tetrahedron; triangles are listed once, their point numbers in increasing order. -/
theorem C88_slice (v : Volume δ) (f : FPt δ → Bool) :
    ∃ sel, Kept f v.pts (v.slice f).pts sel ∧ (v.slice f).quads = [] ∧ (v.slice f).pentagons = [] ∧ (v.slice f).tris.Nodup ∧
      ∀ a b c, (a, b, c) ∈ (v.slice f).tris ↔ ∃ q ∈ v.conn, PartOf sel a b c q := by
  have hk := kept_selected f v.pts
  refine ⟨selected f v.pts, hk, rfl, rfl, ?_, ?_⟩
  · exact nodup_ofKey (foldl_sliceTet v.conn [] (by simp [StrictSorted])).1
  · intro a b c
    unfold Volume.slice
    simp only
    rw [mem_map_ofKey, (foldl_sliceTet v.conn [] (by simp [StrictSorted])).2]
    simp only [List.not_mem_nil, false_or]
    refine exists_congr fun q => and_congr_right fun _ => ?_
    rw [← partOf_iff hk.nodup]
    simp only [triKey_inj]

theorem tetAt_spec {pts : List (FPt δ)} {t : Int} {q : Quad} (h : ∀ i ∈ quadVs q, i < pts.length) :
    ∃ ok, tetAt pts t q = some ok ∧ (ok = true ↔ ∀ i ∈ quadVs q, ∀ p, pts[i]? = some p → p.timestep = t) := by
  unfold tetAt
  have key : ∀ (l : List Nat) (b : Bool), (∀ i ∈ l, i < pts.length) →
      ∃ ok, l.foldlM (fun ok i => (pts[i]?).map fun p => ok && decide (p.timestep = t)) b = some ok ∧
        (ok = true ↔ b = true ∧ ∀ i ∈ l, ∀ p, pts[i]? = some p → p.timestep = t) := by
    intro l
    induction l with
    | nil => intro b _; exact ⟨b, rfl, by simp⟩
    | cons i l ih =>
      intro b hl
      have hi := List.getElem?_eq_getElem (hl i (by simp))
      obtain ⟨ok, e, h1⟩ := ih (b && decide ((pts[i]'(hl i (by simp))).timestep = t)) fun j hj => hl j (by simp [hj])
      refine ⟨ok, ?_, ?_⟩
      · rw [List.foldlM_cons, hi]
        exact e
      · rw [h1]
        simp only [Bool.and_eq_true, decide_eq_true_eq, List.mem_cons, forall_eq_or_imp, hi, Option.some.injEq]
        constructor
        · rintro ⟨⟨h1, h2⟩, h3⟩; exact ⟨h1, fun p hp => hp ▸ h2, h3⟩
        · rintro ⟨h1, h2, h3⟩; exact ⟨⟨h1, h2 _ rfl⟩, h3⟩
  obtain ⟨ok, e, h1⟩ := key (quadVs q) true h
  exact ⟨ok, e, by simpa using h1⟩

theorem sliceTets_spec {pts : List (FPt δ)} {t : Int} {sel : List Nat} : ∀ (qs : List Quad) (tris : List TriKey),
    (∀ q ∈ qs, ∀ i ∈ quadVs q, i < pts.length) → StrictSorted tris →
    ∃ out, sliceTets pts t sel qs tris = some out ∧ StrictSorted out ∧ ∀ k, k ∈ out ↔ k ∈ tris ∨
      ∃ q ∈ qs, (∀ i ∈ quadVs q, ∀ p, pts[i]? = some p → p.timestep = t) ∧
        ∃ x y z, (quadVs q).filterMap (newIndex sel) = [x, y, z] ∧ k = triKey (sort3 x y z) := by
  intro qs
  induction qs with
  | nil => intro tris _ h; exact ⟨tris, rfl, h, by simp⟩
  | cons q qs ih =>
    intro tris hr h
    obtain ⟨ok, e, hok⟩ := tetAt_spec (t := t) (hr q (by simp))
    have hs : StrictSorted (if ok then sliceTet sel tris q else tris) := by
      split
      · exact sliceTet_sorted h
      · exact h
    obtain ⟨out, e2, h1, h2⟩ := ih _ (fun q hq => hr q (by simp [hq])) hs
    refine ⟨out, by simp only [sliceTets, e, e2], h1, fun k => ?_⟩
    rw [h2]
    simp only [List.mem_cons, exists_eq_or_imp]
    cases ok with
    | true =>
      simp only [if_true, sliceTet_mem, or_assoc]
      have := hok.1 rfl
      constructor
      · rintro (h | h | h)
        · exact .inl h
        · exact .inr (.inl ⟨this, h⟩)
        · exact .inr (.inr h)
      · rintro (h | h | h)
        · exact .inl h
        · exact .inr (.inl h.2)
        · exact .inr (.inr h)
    | false =>
      simp only [Bool.false_eq_true, if_false]
      constructor
      · rintro (h | h)
        · exact .inl h
        · exact .inr (.inr h)
      · rintro (h | h | h)
        · exact .inl h
        · exact absurd (hok.2 h.1) (by simp)
        · exact .inr h

/-- C88: `slice_time(t)` has the points lying in time slice `t`, in order, and one triangle for each triple of them that are
the points in the slice of some tetrahedron *all of whose points have timestep `t`*. -/
theorem C88_slice_time_partial (v : Volume δ) (hr : InRange v.pts.length v.cells) (t : Int) :
    ∃ S sel, v.sliceTime t = some S ∧ Kept (fun p => decide (p.timestep = t ∧ p.ordinal = true)) v.pts S.pts sel ∧
      S.quads = [] ∧ S.pentagons = [] ∧ S.tris.Nodup ∧
      ∀ a b c, (a, b, c) ∈ S.tris ↔ ∃ q ∈ v.conn, (∀ i ∈ quadVs q, ∀ p, v.pts[i]? = some p → p.timestep = t) ∧ PartOf sel a b c q := by
  have hk := kept_selected (atTime t) v.pts
  obtain ⟨out, e, h1, h2⟩ := sliceTets_spec (t := t) (sel := selected (atTime t) v.pts) v.conn [] (by
    intro q hq i hi
    exact hr (quadVs q) (List.mem_map.2 ⟨q, hq, rfl⟩) i hi) (by simp [StrictSorted])
  have hf : (fun p : FPt δ => decide (p.timestep = t ∧ p.ordinal = true)) = atTime t := by
    funext p
    unfold atTime
    simp [Bool.decide_and]
  refine ⟨_, selected (atTime t) v.pts, by unfold Volume.sliceTime; rw [e]; rfl, by rw [hf]; exact hk, rfl, rfl, nodup_ofKey h1, ?_⟩
  intro a b c
  simp only
  rw [mem_map_ofKey, h2]
  simp only [List.not_mem_nil, false_or]
  refine exists_congr fun q => and_congr_right fun _ => and_congr_right fun _ => ?_
  rw [← partOf_iff hk.nodup]
  simp only [triKey_inj]

/-- C88 (finding): a tetrahedron with three points in slice 1 and its fourth point in the interval before contributes no
triangle to `slice_time(1)`, although `slice` with the same condition does find the triangle. -/
theorem C88_slice_time_misses_triangle : ∃ v : Volume Unit, InRange v.pts.length v.cells ∧
    (v.sliceTime 1).map Surface.tris = some [] ∧ (v.slice fun p => decide (p.timestep = 1 ∧ p.ordinal = true)).tris = [(0, 1, 2)] := by
  refine ⟨⟨[⟨0, 0, false, ()⟩, ⟨1, 1, true, ()⟩, ⟨2, 1, true, ()⟩, ⟨3, 1, true, ()⟩], [(0, 1, 2, 3)]⟩, ?_, by decide +kernel, by decide +kernel⟩
  intro c hc i hi
  simp only [Volume.cells, List.map_cons, List.map_nil, List.mem_singleton, quadVs] at hc
  subst hc
  simp only [List.mem_cons, List.not_mem_nil, or_false] at hi
  rcases hi with rfl | rfl | rfl | rfl <;> decide

/-- two tetrahedra sharing a triangle with points 1, 2, 3 in slice 4 -/
def exVol : Volume Unit :=
  ⟨[⟨0, 4, false, ()⟩, ⟨1, 4, true, ()⟩, ⟨2, 4, true, ()⟩, ⟨3, 4, true, ()⟩, ⟨4, 4, false, ()⟩], [(0, 3, 2, 1), (1, 2, 4, 3), (0, 4, 1, 2)]⟩

example : InRange exVol.pts.length exVol.cells := by
  intro c hc i hi
  simp only [Volume.cells, exVol, List.map_cons, List.map_nil, List.mem_cons, List.not_mem_nil, or_false, quadVs] at hc
  rcases hc with rfl | rfl | rfl <;> simp only [List.mem_cons, List.not_mem_nil, or_false] at hi <;>
    rcases hi with rfl | rfl | rfl | rfl <;> decide
example : (exVol.sliceTime 4).map (fun s => (s.pts.map FPt.id, s.tris)) = some ([1, 2, 3], [(0, 1, 2)]) := by decide +kernel
example : (exVol.slice fun p => decide (p.id ≠ 3)).tris = [(0, 1, 2), (1, 2, 3)] := by decide +kernel

end Verif.Surf
