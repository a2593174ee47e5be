import Verif.Fil.Detect
import Verif.Surf.Relabel
/-! C159, C161: surfaces of the filament tracker; the seam. -/
namespace Verif.Fil
open Relation
open Verif.Ser (Sorted)
open Verif.Surf (Tri FPt Surface triVs Labelled Joined InRange)
variable {σ S V P δ : Type}

/-- Triangle `e` is a triangle of a facet of cell `c`. -/
def FaceOf (m : Mesh) (e c : Int) : Prop := ∃ t ∈ m.facets c, e ∈ m.tris t

/-- Point number `i` of the table lies on cell `c`. -/
def On (m : Mesh) (found : List (Int × P)) (c : Int) (i : Nat) : Prop := ∃ kv, found[i]? = some kv ∧ FaceOf m kv.1 c

/-- The number of points on a cell. -/
noncomputable def count (m : Mesh) (found : List (Int × P)) (c : Int) : Nat :=
  open Classical in ((List.range found.length).filter fun i => decide (On m found c i)).length

/-- All vertices of the cell are at times `0 … endT-1`. -/
def Window (m : Mesh) (endT : Int) (c : Int) : Prop := ∀ v ∈ m.cell c, 0 ≤ v / (m.n0 : Int) ∧ v / (m.n0 : Int) < endT

/-- Two points on a common cell that is used: within the window, with three to five points. -/
def Share (m : Mesh) (endT : Int) (found : List (Int × P)) (a b : Nat) : Prop :=
  ∃ c, Window m endT c ∧ 3 ≤ count m found c ∧ count m found c ≤ 5 ∧ On m found c a ∧ On m found c b

theorem mem_uniqueTris (m : Mesh) (c e : Int) : e ∈ m.uniqueTris c ↔ FaceOf m e c := by
  unfold Mesh.uniqueTris FaceOf
  rw [Gr.foldl_setInsert_mem]
  simp

theorem nodup_uniqueTris (m : Mesh) (c : Int) : (m.uniqueTris c).Nodup :=
  StrictSorted.nodup (Gr.foldl_setInsert_sorted _ _ List.Pairwise.nil)

theorem indexOf_some {found : List (Int × P)} (h : Sorted found) {k : Int} {i : Nat} :
    indexOf found k = some i ↔ ∃ kv, found[i]? = some kv ∧ kv.1 = k := by
  unfold indexOf
  rw [List.findIdx?_eq_some_iff_getElem]
  constructor
  · rintro ⟨hi, h1, -⟩
    exact ⟨found[i], List.getElem?_eq_getElem hi, by simpa using h1⟩
  · rintro ⟨kv, h1, h2⟩
    obtain ⟨hi, rfl⟩ := List.getElem?_eq_some_iff.1 h1
    refine ⟨hi, by simpa using h2, fun j hj => ?_⟩
    have := (List.pairwise_iff_getElem.1 h) j i (by omega) hi hj
    simp only [decide_eq_true_eq]
    omega

theorem mem_hits {m : Mesh} {found : List (Int × P)} (h : Sorted found) (c : Int) (i : Nat) : i ∈ hits m found c ↔ On m found c i := by
  unfold hits On
  rw [List.mem_filterMap]
  constructor
  · rintro ⟨e, he, hi⟩
    obtain ⟨kv, h1, rfl⟩ := (indexOf_some h).1 hi
    exact ⟨kv, h1, (mem_uniqueTris m c _).1 he⟩
  · rintro ⟨kv, h1, h2⟩
    exact ⟨kv.1, (mem_uniqueTris m c _).2 h2, (indexOf_some h).2 ⟨kv, h1, rfl⟩⟩

theorem nodup_hits {m : Mesh} {found : List (Int × P)} (h : Sorted found) (c : Int) : (hits m found c).Nodup := by
  unfold hits
  refine (nodup_uniqueTris m c).filterMap ?_
  intro a a' b hb hb'
  obtain ⟨kv, h1, rfl⟩ := (indexOf_some h).1 (by simpa using hb)
  obtain ⟨kv', h1', rfl⟩ := (indexOf_some h).1 (by simpa using hb')
  rw [h1] at h1'
  cases h1'
  rfl

theorem on_lt {m : Mesh} {found : List (Int × P)} {c : Int} {i : Nat} (h : On m found c i) : i < found.length := by
  obtain ⟨kv, h, -⟩ := h
  exact (List.getElem?_eq_some_iff.1 h).1

theorem count_eq {m : Mesh} {found : List (Int × P)} (h : Sorted found) (c : Int) : (hits m found c).length = count m found c := by
  classical
  unfold count
  refine List.Perm.length_eq ((List.perm_ext_iff_of_nodup (nodup_hits h c) (List.nodup_range.filter _)).2 fun i => ?_)
  rw [mem_hits h, List.mem_filter, List.mem_range]
  simp only [decide_eq_true_eq]
  exact ⟨fun hi => ⟨on_lt hi, hi⟩, fun hi => hi.2⟩

theorem window_iff {m : Mesh} {endT : Int} {c : Int} :
    (m.cell c).any (fun v => decide (v.fdiv m.n0 < 0) || decide (v.fdiv m.n0 ≥ endT)) = false ↔ Window m endT c := by
  rw [List.any_eq_false]
  unfold Window
  refine forall₂_congr fun v _ => ?_
  rw [Int.fdiv_eq_ediv_of_nonneg _ (by omega)]
  simp only [Bool.or_eq_true, decide_eq_true_eq]
  omega

/-- The entries of the triangles of a list of points are entries of the list; any two entries lie in a common triangle. -/
theorem pentaTris_spec (l : List Nat) (h3 : 3 ≤ l.length) (h5 : l.length ≤ 5) :
    (∀ t ∈ pentaTris l, ∀ i ∈ triVs t, i ∈ l) ∧ ∀ a ∈ l, ∀ b ∈ l, ∃ t ∈ pentaTris l, a ∈ triVs t ∧ b ∈ triVs t := by
  match l, h3, h5 with
  | [a, b, c], _, _ => simp [pentaTris, triVs]
  | [a, b, c, d], _, _ => simp [pentaTris, triVs]
  | [a, b, c, d, e], _, _ => simp [pentaTris, triVs]
  | [], h, _ => simp at h
  | [_], h, _ => simp at h
  | [_, _], h, _ => simp at h
  | _ :: _ :: _ :: _ :: _ :: _ :: _, _, h => simp at h

theorem pentaTris_other (l : List Nat) (h : l.length < 3 ∨ 5 < l.length) : pentaTris l = [] := by
  match l, h with
  | [], _ => rfl
  | [_], _ => rfl
  | [_, _], _ => rfl
  | [a, b, c], h => simp at h
  | [a, b, c, d], h => simp at h
  | [a, b, c, d, e], h => simp at h
  | _ :: _ :: _ :: _ :: _ :: _ :: _, _ => rfl

theorem checkAll_spec {m : Mesh} {endT : Int} {found : List (Int × P)} : ∀ (cells : List Int),
    (∀ c ∈ cells, Window m endT c → (m.uniqueTris c).length = 10) →
    ∃ ts, checkAll m endT found cells = some ts ∧ ∀ t, t ∈ ts ↔ ∃ c ∈ cells, Window m endT c ∧ t ∈ pentaTris (hits m found c)
  | [], _ => ⟨[], rfl, by simp⟩
  | c :: cs, h => by
    obtain ⟨ts, h1, h2⟩ := checkAll_spec (found := found) cs fun x hx => h x (by simp [hx])
    obtain ⟨a, ha, ha'⟩ : ∃ a, checkPenta m endT found c = some a ∧ ∀ t, t ∈ a ↔ Window m endT c ∧ t ∈ pentaTris (hits m found c) := by
      unfold checkPenta
      by_cases hw : Window m endT c
      · rw [window_iff.2 hw]
        refine ⟨pentaTris (hits m found c), ?_, by simp [hw]⟩
        have := h c (by simp) hw
        simp [this]
      · refine ⟨[], ?_, by simp [hw]⟩
        rw [if_pos]
        by_contra hf
        exact hw (window_iff.1 (by simpa using hf))
    refine ⟨a ++ ts, by simp only [checkAll, ha, h1], fun t => ?_⟩
    rw [List.mem_append, ha', h2]
    simp only [List.mem_cons, exists_eq_or_imp]

/-- C159.  For every order of the cells: the surface has one point per intersection, its triangles join points lying on a
common cell, and two points carry the same label exactly if they are connected through cells with three to five points.  The
cells considered are those with all vertices at times `0 … end_timestep - 1`; see `C159_last_interval_lost` for why this is
not all of the data, hence partial.  Also missing: cells with one, two or more than five points. -/
theorem C159_surfaces_partial (m : Mesh) (endT : Int) (found : List (Int × FPt δ)) (hs : Sorted found) (cells : List Int)
    (hc : ∀ c, c ∈ cells ↔ ∃ e p, (e, p) ∈ found ∧ CofaceOf m e c)
    (hd : ∀ e c, CofaceOf m e c ↔ FaceOf m e c) (h10 : ∀ c ∈ cells, Window m endT c → (m.uniqueTris c).length = 10) :
    ∃ s, buildSurfaces m endT found cells = some s ∧
      List.Forall₂ (fun kv q => q = { kv.2 with id := q.id }) found s.pts ∧ s.quads = [] ∧ s.pentagons = [] ∧
      (∀ t ∈ s.tris, ∃ c, Window m endT c ∧ 3 ≤ count m found c ∧ count m found c ≤ 5 ∧ ∀ i ∈ triVs t, On m found c i) ∧
      (∀ a b, Share m endT found a b → ∃ t ∈ s.tris, a ∈ triVs t ∧ b ∈ triVs t) ∧
      ∀ (i j : Nat) (p q : FPt δ), s.pts[i]? = some p → s.pts[j]? = some q → (p.id = q.id ↔ EqvGen (Share m endT found) i j) := by
  obtain ⟨ts, h1, h2⟩ := checkAll_spec (found := found) cells h10
  have hcell : ∀ c i, On m found c i → c ∈ cells := by
    rintro c i ⟨kv, hk, hf⟩
    exact (hc c).2 ⟨kv.1, kv.2, List.mem_of_getElem? hk, (hd _ _).2 hf⟩
  have t1 : ∀ t ∈ ts, ∃ c, Window m endT c ∧ 3 ≤ count m found c ∧ count m found c ≤ 5 ∧ ∀ i ∈ triVs t, On m found c i := by
    intro t ht
    obtain ⟨c, -, hw, hp⟩ := (h2 t).1 ht
    have hl : 3 ≤ (hits m found c).length ∧ (hits m found c).length ≤ 5 := by
      by_contra hn
      rw [pentaTris_other _ (by omega)] at hp
      simp at hp
    refine ⟨c, hw, by rw [← count_eq hs]; exact hl.1, by rw [← count_eq hs]; exact hl.2, fun i hi => ?_⟩
    exact (mem_hits hs c i).1 ((pentaTris_spec _ hl.1 hl.2).1 t hp i hi)
  have t2 : ∀ a b, Share m endT found a b → ∃ t ∈ ts, a ∈ triVs t ∧ b ∈ triVs t := by
    rintro a b ⟨c, hw, c3, c5, ha, hb⟩
    rw [← count_eq hs] at c3 c5
    obtain ⟨t, ht, hta, htb⟩ := (pentaTris_spec _ c3 c5).2 a ((mem_hits hs c a).2 ha) b ((mem_hits hs c b).2 hb)
    exact ⟨t, (h2 t).2 ⟨c, hcell c a ha, hw, ht⟩, hta, htb⟩
  set pts := found.mapIdx fun (i : Nat) kv => { kv.2 with id := i } with hpts
  have hlen : pts.length = found.length := by rw [hpts, List.length_mapIdx]
  obtain ⟨s, r1, r2, r3, r4, r5, r6⟩ := Surf.C87_surface_partial ({ pts := pts, tris := ts, quads := [], pentagons := [] } : Surface δ) (by
    intro c hc' i hi
    simp only [Surf.Surface.cells, List.map_nil, List.append_nil, List.mem_map] at hc'
    obtain ⟨t, ht, rfl⟩ := hc'
    obtain ⟨c, -, -, -, hon⟩ := t1 t ht
    show i < pts.length
    rw [hlen]
    exact on_lt (hon i hi))
  have hlab := r6 rfl
  refine ⟨s, ?_, ?_, r3, r4, by rw [r2]; exact t1, by rw [r2]; exact t2, ?_⟩
  · unfold buildSurfaces
    rw [h1]
    exact r1
  · have hsame := hlab.same
    rw [List.forall₂_iff_get] at hsame ⊢
    refine ⟨by rw [← hlen]; exact hsame.1, fun i hi hi' => ?_⟩
    have := hsame.2 i (by rw [show ({ pts := pts, tris := ts, quads := [], pentagons := [] } : Surface δ).pts = pts from rfl, hlen]; exact hi) hi'
    simp only [List.get_eq_getElem] at this ⊢
    rw [this]
    simp [hpts]
  · intro i j p q hp hq
    rw [hlab.ids i j p q hp hq]
    unfold Joined
    refine Surf.eqvGen_iff ?_ ?_ i j
    · rintro a b ⟨c, hc', ha, hb⟩
      simp only [Surf.Surface.cells, List.map_nil, List.append_nil, List.mem_map] at hc'
      obtain ⟨t, ht, rfl⟩ := hc'
      obtain ⟨c, hw, c3, c5, hon⟩ := t1 t ht
      exact .rel _ _ ⟨c, hw, c3, c5, hon a ha, hon b hb⟩
    · intro a b h
      obtain ⟨t, ht, ha, hb⟩ := t2 a b h
      refine .rel _ _ ⟨triVs t, ?_, ha, hb⟩
      simp only [Surf.Surface.cells, List.map_nil, List.append_nil, List.mem_map]
      exact ⟨t, ht, rfl⟩

/-- C159: a cell with one, two or more than five points yields no triangle. -/
theorem C159_irregular_dropped (m : Mesh) (endT : Int) (found : List (Int × P)) (hs : Sorted found) (c : Int)
    (h : count m found c < 3 ∨ 5 < count m found c) (ts : List Tri) (hr : checkPenta m endT found c = some ts) : ts = [] := by
  unfold checkPenta at hr
  split at hr
  · cases hr; rfl
  · split at hr
    · cases hr
    · rw [pentaTris_other _ (by rw [count_eq hs]; exact h)] at hr
      cases hr; rfl

/-- C159 is violated at the end of the series: `end_timestep` is set to the number of the last timestep (src/cli/ftk.cpp:459),
but cells with a vertex in that timestep are skipped.  Cells of the mesh span two consecutive timesteps; so with two
timesteps no surface at all is built, and in general none over the last interval. -/
theorem C159_last_interval_lost (m : Mesh) (n : Nat) (found : List (Int × P)) (cells : List Int)
    (hspan : ∀ c, ∃ v ∈ m.cell c, ∃ w ∈ m.cell c, w / (m.n0 : Int) = v / (m.n0 : Int) + 1) :
    (∀ c, (∃ v ∈ m.cell c, v / (m.n0 : Int) = (n : Int) - 1) → checkPenta m ((n : Int) - 1) found c = some []) ∧
    (n = 2 → checkAll m ((n : Int) - 1) found cells = some []) := by
  have key : ∀ c, ¬ Window m ((n : Int) - 1) c → checkPenta m ((n : Int) - 1) found c = some [] := by
    intro c hw
    unfold checkPenta
    rw [if_pos]
    by_contra hf
    exact hw (window_iff.1 (by simpa using hf))
  refine ⟨fun c ⟨v, hv, h⟩ => key c fun hw => ?_, fun hn => ?_⟩
  · have := (hw v hv).2
    omega
  · subst hn
    induction cells with
    | nil => rfl
    | cons c cs ih =>
      unfold checkAll
      rw [ih, key c]
      · rfl
      · intro hw
        obtain ⟨v, hv, w, hw', h⟩ := hspan c
        have h1 := hw v hv
        have h2 := hw w hw'
        simp at h1 h2
        omega

/-- C159 is violated: a cell with four points should contribute a quadrilateral, i.e. two triangles with a boundary; all four
triangles are added, so every edge has two triangles (a closed tetrahedron).  With five points nine of the ten triangles are
added, the edge of the first two points gets three of them. -/
theorem C159_not_a_surface (a b c d e : Nat) (h : [a, b, c, d, e].Nodup) :
    (∀ x ∈ [a, b, c, d], ∀ y ∈ [a, b, c, d], x ≠ y →
      ((pentaTris [a, b, c, d]).filter fun t => decide (x ∈ triVs t) && decide (y ∈ triVs t)).length = 2) ∧
    ((pentaTris [a, b, c, d, e]).filter fun t => decide (a ∈ triVs t) && decide (b ∈ triVs t)).length = 3 ∧
    (pentaTris [a, b, c, d, e]).length = 9 ∧ ¬ ∃ t ∈ pentaTris [a, b, c, d, e], b ∈ triVs t ∧ d ∈ triVs t ∧ e ∈ triVs t := by
  simp only [List.nodup_cons, List.mem_cons, List.not_mem_nil, or_false, not_or, List.nodup_nil, and_true, not_false_eq_true] at h
  obtain ⟨⟨h1, h2, h3, h4⟩, ⟨h5, h6, h7⟩, ⟨h8, h9⟩, h10⟩ := h
  have s1 := Ne.symm h1; have s2 := Ne.symm h2; have s3 := Ne.symm h3; have s4 := Ne.symm h4
  have s5 := Ne.symm h5; have s6 := Ne.symm h6; have s7 := Ne.symm h7; have s8 := Ne.symm h8
  have s9 := Ne.symm h9; have s10 := Ne.symm h10
  refine ⟨?_, ?_, rfl, ?_⟩
  · intro x hx y hy hxy
    simp only [List.mem_cons, List.not_mem_nil, or_false] at hx hy
    rcases hx with rfl | rfl | rfl | rfl <;> rcases hy with rfl | rfl | rfl | rfl <;>
      first
        | exact absurd rfl hxy
        | simp [pentaTris, triVs, *]
  · simp [pentaTris, triVs, *]
  · simp [pentaTris, triVs, *]

/-! ### the seam -/

/-- C161, the part that holds: with three or more planes, a simplex in plane `P` and the next plane (cyclically) gets
consecutive plane numbers `P` and `P + 1`, each congruent to the vertex's plane.  Missing: fewer planes, see
`C161_two_planes`. -/
theorem C161_seam_partial (np P : Nat) (h3 : 3 ≤ np) (hP : P < np) (p : List Nat) (h : ∀ x ∈ p, x = P ∨ x = (P + 1) % np)
    (hu : ∃ x ∈ p, x = P) :
    List.Forall₂ (fun x y => y % np = x ∧ (y = P ∨ y = P + 1)) p (unwrapPhi np p) := by
  unfold unwrapPhi
  dsimp only
  by_cases hl : P + 1 = np
  · have e : (P + 1) % np = 0 := by rw [hl, Nat.mod_self]
    rw [e] at h
    have hb1 : (p.any fun x => decide (x ≠ 0) && decide (x = np - 1)) = true := by
      rw [List.any_eq_true]
      obtain ⟨x, hx, hxP⟩ := hu
      exact ⟨x, hx, by simp; omega⟩
    rw [hb1, Bool.and_true]
    have hf : List.Forall₂ (fun x y => y % np = x ∧ (y = P ∨ y = P + 1)) p (p.map fun x => if x = 0 then x + np else x) := by
      rw [List.forall₂_map_right_iff, List.forall₂_same]
      intro x hx
      rcases h x hx with rfl | rfl
      · rw [if_neg (by omega)]
        exact ⟨Nat.mod_eq_of_lt hP, Or.inl rfl⟩
      · rw [if_pos rfl]
        exact ⟨by simp, Or.inr (by omega)⟩
    by_cases hb0 : (p.any fun x => decide (x = 0)) = true
    · rw [if_pos hb0]; exact hf
    · rw [if_neg hb0]
      convert hf using 1
      symm
      rw [List.map_eq_iff]
      intro i
      rcases hpi : p[i]? with _ | x
      · simp
      · have : x ≠ 0 := by
          intro hx0
          apply hb0
          rw [List.any_eq_true]
          exact ⟨x, List.mem_of_getElem? hpi, by simp [hx0]⟩
        simp [this]
  · have e : (P + 1) % np = P + 1 := Nat.mod_eq_of_lt (by omega)
    rw [e] at h
    have hneg : ¬ ((p.any fun x => decide (x = 0)) && (p.any fun x => decide (x ≠ 0) && decide (x = np - 1))) = true := by
      rw [Bool.and_eq_true, List.any_eq_true, List.any_eq_true]
      rintro ⟨⟨x, hx, hx0⟩, y, hy, hy1⟩
      simp only [decide_eq_true_eq, Bool.and_eq_true] at hx0 hy1
      have := h x hx
      have := h y hy
      omega
    rw [if_neg hneg, List.forall₂_same]
    intro x hx
    have := h x hx
    exact ⟨Nat.mod_eq_of_lt (by omega), this⟩

/-- C161 is violated with two planes: the simplices from plane 0 to plane 1 are taken for simplices across the seam, and
their lower vertices are moved past the upper ones. -/
theorem C161_two_planes : unwrapPhi 2 [0, 1, 1] = [2, 1, 1] ∧ unwrapPhi 2 [0, 0, 1] = [2, 2, 1] := by decide

/-- the hypotheses are met by a triangle across the seam of four planes -/
example : (∀ x ∈ [3, 0, 3], x = 3 ∨ x = (3 + 1) % 4) ∧ (∃ x ∈ [3, 0, 3], x = 3) ∧ unwrapPhi 4 [3, 0, 3] = [3, 4, 3] ∧
    unwrapPhi 4 [1, 2, 2] = [1, 2, 2] ∧ unwrapPhi 4 [0, 1, 1] = [0, 1, 1] := by decide

/-- A mesh with one vertex per timestep, ten triangles per cell. -/
def demoCells : Mesh where
  n0 := 1
  no := 5
  ni := 5
  tri := fun e => [e / 10, e / 10 + 1]
  tets := fun e => [e / 10]
  pents := fun t => [t]
  cell := fun c => [c, c + 1]
  facets := fun c => [c]
  tris := fun t => (List.range 10).map fun (i : Nat) => 10 * t + i

theorem demoCells_dual (e c : Int) : CofaceOf demoCells e c ↔ FaceOf demoCells e c := by
  unfold CofaceOf FaceOf demoCells
  simp only [List.mem_singleton, exists_eq_left, List.mem_map, List.mem_range]
  constructor
  · rintro rfl
    exact ⟨(e % 10).toNat, by omega, by omega⟩
  · rintro ⟨i, hi, rfl⟩
    omega

/-- Points of the example: three in the first cell, four in the second. -/
def demoFound : List (Int × FPt Nat) :=
  [0, 4, 7, 10, 13, 15, 19].map fun e => (e, ⟨0, 0, true, e.toNat⟩)

example : Sorted demoFound ∧ (∀ c, c ∈ [0, 1] ↔ ∃ e p, (e, p) ∈ demoFound ∧ CofaceOf demoCells e c) ∧
    (∀ c ∈ ([0, 1] : List Int), Window demoCells 3 c → (demoCells.uniqueTris c).length = 10) ∧
    (buildSurfaces demoCells 3 demoFound [1, 0]).map (fun s => (s.pts.map FPt.id, s.tris)) =
      some ([0, 0, 0, 3, 3, 3, 3], [(3, 4, 5), (3, 4, 6), (3, 5, 6), (4, 5, 6), (0, 1, 2)]) ∧
    (buildSurfaces demoCells 1 demoFound [1, 0]).map (fun s => (s.pts.map FPt.id, s.tris)) = some ([0, 1, 2, 3, 4, 5, 6], []) := by
  refine ⟨?_, ?_, ?_, by decide +kernel, by decide +kernel⟩
  · unfold Ser.Sorted demoFound
    decide
  · intro c
    unfold demoFound CofaceOf demoCells
    simp only [List.mem_map, List.mem_cons, List.not_mem_nil, or_false, exists_eq_left]
    constructor
    · rintro (rfl | rfl)
      · exact ⟨4, ⟨0, 0, true, 4⟩, ⟨4, by simp, by decide⟩, by decide⟩
      · exact ⟨13, ⟨0, 0, true, 13⟩, ⟨13, by simp, by decide⟩, by decide⟩
    · rintro ⟨e, p, ⟨a, ha, hap⟩, hc⟩
      have : a = e := congrArg Prod.fst hap
      subst this
      omega
  · intro c hc _
    simp only [List.mem_cons, List.not_mem_nil, or_false] at hc
    rcases hc with rfl | rfl <;> decide +kernel

/-- the cells span two timesteps -/
example (c : Int) : ∃ v ∈ demoCells.cell c, ∃ w ∈ demoCells.cell c, w / (demoCells.n0 : Int) = v / (demoCells.n0 : Int) + 1 := by
  refine ⟨c, by simp [demoCells], c + 1, by simp [demoCells], ?_⟩
  show (c + 1) / ((1 : Nat) : Int) = c / ((1 : Nat) : Int) + 1
  omega

end Verif.Fil
