import Verif.Contour.VolumeProps
/-! Concrete cases for C83-C86, and counterexamples. -/
namespace Verif.Ctr
open Verif.SRM
open Verif.Trk (elemValid)

/-! ### order of the sides of a cell -/

/-- the sides are listed by type -/
theorem sides_types {n : Nat} {x : Elem} {S : List Elem} (h : x.sides n = some S) : S.Pairwise fun a b => a.type ≤ b.type := by
  unfold Elem.sides at h
  split at h
  · cases h
  · next l hl =>
    cases h
    rw [List.pairwise_map]
    unfold unitSides at hl
    split at hl
    · cases hl; exact List.Pairwise.nil
    · split at hl
      · cases hl
      · cases hl
        rw [List.pairwise_map]
        refine (toSet_sorted _).imp ?_
        intro a b hab
        show (ofLex a).1 ≤ (ofLex b).1
        rcases Prod.Lex.lt_iff.1 hab with h | ⟨h, -⟩
        · exact le_of_lt h
        · exact le_of_eq h

/-- types are ordered as the vertices relative to the corner -/
theorem type_lt {n k : Nat} {e f : Elem} (he : IsElem n k e) (hf : IsElem n k f) {u v : Simplex}
    (hu : (unitSimplices n k)[e.type]? = some u) (hv : (unitSimplices n k)[f.type]? = some v) (h : u < v) : e.type < f.type := by
  obtain ⟨a, ha⟩ := List.getElem?_eq_some_iff.1 hu
  obtain ⟨b, hb⟩ := List.getElem?_eq_some_iff.1 hv
  by_contra hcon
  rcases Nat.lt_or_eq_of_le (Nat.not_lt.1 hcon) with hlt | heq
  · have := List.pairwise_iff_getElem.1 (unitSimplices_sorted n k) f.type e.type b a hlt
    rw [ha, hb] at this
    exact absurd h (lt_asymm this)
  · rw [heq, hu] at hv
    cases hv
    exact absurd h (lt_irrefl _)

/-- vertices relative to the corner -/
theorem unit_of_vertices {n k : Nat} (hn : 1 ≤ n) (hk : k ≤ n) {e : Elem} (he : IsElem n k e) {vs : Simplex} (hv : e.vertices n = some vs) :
    (unitSimplices n k)[e.type]? = some (vs.map fun v => sub v e.corner) := by
  obtain ⟨s, h1, h2⟩ := vertices_unit hv
  rw [he.dim] at h1
  have hK := unit_get hn hk h1
  rw [h1, h2, List.map_map]
  congr 1
  conv_lhs => rw [← List.map_id s]
  apply List.map_congr_left
  intro v hv
  have hl := (hK.cube v hv).1
  have hc := he.len
  simp only [id_eq, Function.comp_apply]
  unfold sub translate
  apply List.ext_getElem
  · simp [hl, hc]
  · intro i a b
    simp

/-! ### neighbouring prisms -/

/-- a box of 2×2×2 places and two times -/
def demo3 : Cfg 3 :=
  { domain := ⟨[0, 0, 0], [2, 2, 2]⟩, core := ⟨[0, 0, 0], [2, 2, 2]⟩, astart := [0, 0, 0], t0 := 0, t1 := 1, thr := 1 / 2 }

/-- one place above the threshold at time 0, two at time 1 -/
def series3 : List Scal :=
  [⟨[2, 2, 2], fun p => if p = [0, 0, 0] then 1 else 0⟩, ⟨[2, 2, 2], fun p => if p = [0, 0, 0] ∨ p = [0, 1, 0] then 1 else 0⟩]

/-- the tasks in increasing order -/
def increasing {d : Nat} (c : Cfg d) (sc : Scope) : List Int := (List.range (ntasks c sc)).map Int.ofNat

theorem increasing_complete {d : Nat} (c : Cfg d) : Complete c (increasing c) := fun _ => List.Perm.refl _

theorem demo3_shaped : Shaped demo3 series3.length :=
  { pos := by decide, dlen := by decide, core := rfl, alen := rfl, start := rfl, stop := by decide }

theorem demo3_place {p : List Int} : Lat.InBox demo3.domain p ↔ ∃ a b c : Int, p = [a, b, c] ∧ (0 ≤ a ∧ a < 2) ∧ (0 ≤ b ∧ b < 2) ∧ 0 ≤ c ∧ c < 2 := by
  constructor
  · rintro ⟨hl, h⟩
    have hl' : p.length = 3 := hl
    obtain ⟨a, b, c, rfl⟩ := List.length_eq_three.1 hl'
    exact ⟨a, b, c, rfl, by simpa using h 0 0 2 a rfl rfl rfl, by simpa using h 1 0 2 b rfl rfl rfl, by simpa using h 2 0 2 c rfl rfl rfl⟩
  · rintro ⟨a, b, c, rfl, ha, hb, hc⟩
    refine ⟨rfl, fun d s n v hs hn hv => ?_⟩
    rcases d with _ | _ | _ | d
    · simp [demo3] at hs hn hv; omega
    · simp [demo3] at hs hn hv; omega
    · simp [demo3] at hs hn hv; omega
    · simp at hv

theorem demo3_covers : ∀ s ∈ series3, Covers demo3 s := by
  intro s hs p hp
  obtain ⟨a, b, c, rfl, ha, hb, hc⟩ := demo3_place.1 hp
  have hd : s.dims = [2, 2, 2] := by
    simp only [series3, List.mem_cons, List.not_mem_nil, or_false] at hs
    rcases hs with rfl | rfl <;> rfl
  rw [hd]
  have : ∀ a : Int, 0 ≤ a → a < 2 → a = 0 ∨ a = 1 := by intro a h1 h2; omega
  rcases this a ha.1 ha.2 with rfl | rfl <;> rcases this b hb.1 hb.2 with rfl | rfl <;> rcases this c hc.1 hc.2 with rfl | rfl <;>
    exact ⟨by decide, fun _ => by decide⟩

theorem demo3_inside {a b c t : Int} (ha : 0 ≤ a ∧ a < 2) (hb : 0 ≤ b ∧ b < 2) (hc : 0 ≤ c ∧ c < 2) (ht : 0 ≤ t ∧ t < 2) :
    InsideV demo3 series3.length [a, b, c, t] where
  len := rfl
  place := demo3_place.2 ⟨a, b, c, rfl, ha, hb, hc⟩
  time := ⟨t.toNat, by show ([a, b, c, t] : List Int)[3]? = some _; simp; omega, by show t.toNat < 2; omega⟩

/-- a pentachoron -/
def vA : Fin 5 → Vtx := ![[0, 0, 0, 0], [0, 0, 0, 1], [0, 0, 1, 1], [0, 1, 1, 1], [1, 1, 1, 1]]
/-- its neighbour -/
def vB : Fin 5 → Vtx := ![[0, 0, 0, 0], [0, 0, 0, 1], [0, 1, 0, 1], [0, 1, 1, 1], [1, 1, 1, 1]]

theorem vA_cell : Cell 4 4 [0, 0, 0, 0] (List.ofFn vA) where
  len := rfl
  clen := rfl
  head := rfl
  chain := by simp [vA, VLt]
  cube := by simp [vA, Cube, sub]

theorem vB_cell : Cell 4 4 [0, 0, 0, 0] (List.ofFn vB) where
  len := rfl
  clen := rfl
  head := rfl
  chain := by simp [vB, VLt]
  cube := by simp [vB, Cube, sub]

theorem vA_ins : insW demo3 series3 vA = ![true, true, true, true, true] := by
  funext i
  unfold insW insB
  have : InsideV demo3 series3.length (vA i) := by
    fin_cases i <;> exact demo3_inside (by decide) (by decide) (by decide) (by decide)
  simp only [this, decide_true]
  fin_cases i <;> rfl

theorem vB_ins : insW demo3 series3 vB = ![true, true, true, true, true] := by
  funext i
  unfold insW insB
  have : InsideV demo3 series3.length (vB i) := by
    fin_cases i <;> exact demo3_inside (by decide) (by decide) (by decide) (by decide)
  simp only [this, decide_true]
  fin_cases i <;> rfl

theorem vA_abv : abvW demo3 series3 vA = ![true, true, false, false, false] := by
  funext i
  unfold abvW abvB
  by_cases h : Above demo3 series3 (vA i)
  · simp only [h, decide_true]
    unfold Above at h
    fin_cases i <;> first | rfl | exact absurd h (by decide +kernel)
  · simp only [h, decide_false]
    unfold Above at h
    fin_cases i <;> first | rfl | exact absurd (by decide +kernel) h

theorem vB_abv : abvW demo3 series3 vB = ![true, true, true, false, false] := by
  funext i
  unfold abvW abvB
  by_cases h : Above demo3 series3 (vB i)
  · simp only [h, decide_true]
    unfold Above at h
    fin_cases i <;> first | rfl | exact absurd h (by decide +kernel)
  · simp only [h, decide_false]
    unfold Above at h
    fin_cases i <;> first | rfl | exact absurd (by decide +kernel) h

/-- the number of tetrahedra of a cell with three given points, by position -/
theorem count_pos {c : Cfg 3} {series : List Scal} {inter : List (Elem × Pt)} (hk : Keys c series inter) {w : Fin 5 → Vtx}
    (hwi : Function.Injective w) {b : Vtx} (hcell : Cell 4 4 b (List.ofFn w)) {σ : List (Fin 5)} (hσ : σ.Perm (List.finRange 5))
    {p q r : Fin 5 × Fin 5} (hp : p ∈ cutP (insW c series w) (abvW c series w)) (hq : q ∈ cutP (insW c series w) (abvW c series w))
    (hr : r ∈ cutP (insW c series w) (abvW c series w)) :
    ((tet5 (insW c series w) (abvW c series w) (minors (abvW c series w) σ)).map (·.map (numAt 4 inter w))).countP
        (fun t => decide (numAt 4 inter w p ∈ t ∧ numAt 4 inter w q ∈ t ∧ numAt 4 inter w r ∈ t)) =
      (tet5 (insW c series w) (abvW c series w) (minors (abvW c series w) σ)).countP (fun t => decide (p ∈ t ∧ q ∈ t ∧ r ∈ t)) := by
  have hshape := tet5_shape (insW c series w) (abvW c series w) hσ
  rw [List.countP_map]
  apply List.countP_congr
  intro t ht
  have key : ∀ p ∈ cutP (insW c series w) (abvW c series w), (numAt 4 inter w p ∈ t.map (numAt 4 inter w) ↔ p ∈ t) := by
    intro p hp
    constructor
    · intro h
      obtain ⟨s, hs, e⟩ := List.mem_map.1 h
      obtain ⟨s1, -, s3⟩ := numAt_eq hk hcell ((hshape t ht).2.2 s hs)
      obtain ⟨p1, -, -⟩ := numAt_eq hk hcell hp
      rw [at2_inj hwi (edgeOf_inj (by omega) hcell hcell p1 s1 (s3 _ e.symm))]
      exact hs
    · intro h; exact List.mem_map.2 ⟨p, h, rfl⟩
  simp only [Function.comp_apply, decide_eq_true_eq]
  rw [key p hp, key q hq, key r hr]

/-- the tetrahedron shared by the two pentachora -/
def vF : Fin 4 → Vtx := ![[0, 0, 0, 0], [0, 0, 0, 1], [0, 1, 1, 1], [1, 1, 1, 1]]

theorem vF_cell : Cell 4 3 [0, 0, 0, 0] (List.ofFn vF) where
  len := rfl
  clen := rfl
  head := rfl
  chain := by simp [vF, VLt]
  cube := by simp [vF, Cube, sub]

theorem vA_inj : Function.Injective vA := by
  have : ∀ i j, vA i = vA j → i = j := by decide +kernel
  exact fun i j h => this i j h

theorem vB_inj : Function.Injective vB := by
  have : ∀ i j, vB i = vB j → i = j := by decide +kernel
  exact fun i j h => this i j h

theorem minorsA {σ : List (Fin 5)} (hσ : σ.Perm (List.finRange 5)) {s : Fin 5 → Elem} {A : Elem} (h1 : A.sides 4 = some (σ.map s))
    (h3 : ∀ i, IsElem 4 3 (s i) ∧ (s i).vertices 4 = some ((others i).map vA) ∧ FaceOf 4 (s i) A) :
    minors (abvW demo3 series3 vA) σ = [0, 1] := by
  have hp := sides_types h1
  rw [List.pairwise_map] at hp
  have h6 : (cutP (insW demo3 series3 vA) (abvW demo3 series3 vA)).length = 6 := by rw [vA_ins, vA_abv]; decide +kernel
  obtain ⟨p, q, hm, hpq, mp, mq⟩ := minors_two h6 hσ
  have hmp : (minors (abvW demo3 series3 vA) σ).Pairwise fun i j => (s i).type ≤ (s j).type := hp.sublist List.filter_sublist
  rw [hm] at hmp ⊢
  have hle : (s p).type ≤ (s q).type := by simpa using hmp
  rw [vA_abv] at mp mq
  have hpos : ∀ p q : Fin 5, minor ![true, true, false, false, false] p = true → minor ![true, true, false, false, false] q = true → p ≠ q →
      (p = 0 ∧ q = 1) ∨ (p = 1 ∧ q = 0) := by decide +kernel
  rcases hpos p q mp mq hpq with ⟨rfl, rfl⟩ | ⟨rfl, rfl⟩
  · rfl
  · exfalso
    have u0 := unit_of_vertices (by omega) (by omega) (h3 0).1 (h3 0).2.1
    have u1 := unit_of_vertices (by omega) (by omega) (h3 1).1 (h3 1).2.1
    have c0 := cell_of_elem (n := 4) (by omega) (by omega) (h3 0).1.dim (h3 0).1.len (h3 0).2.1
    have c1 := cell_of_elem (n := 4) (by omega) (by omega) (h3 1).1.dim (h3 1).1.len (h3 1).2.1
    have k0 : (s 0).corner = [0, 0, 0, 1] := by
      have := c0.head
      have e : ((others 0).map vA).head? = some [0, 0, 0, 1] := by decide +kernel
      rw [e] at this
      exact (Option.some.inj this).symm
    have k1 : (s 1).corner = [0, 0, 0, 0] := by
      have := c1.head
      have e : ((others 1).map vA).head? = some [0, 0, 0, 0] := by decide +kernel
      rw [e] at this
      exact (Option.some.inj this).symm
    rw [k0] at u0
    rw [k1] at u1
    have := type_lt (h3 0).1 (h3 1).1 u0 u1 (by decide +kernel)
    omega

theorem minorsB {σ : List (Fin 5)} (hσ : σ.Perm (List.finRange 5)) {s : Fin 5 → Elem} {B : Elem} (h1 : B.sides 4 = some (σ.map s))
    (h3 : ∀ i, IsElem 4 3 (s i) ∧ (s i).vertices 4 = some ((others i).map vB) ∧ FaceOf 4 (s i) B) :
    minors (abvW demo3 series3 vB) σ = [4, 3] := by
  have hp := sides_types h1
  rw [List.pairwise_map] at hp
  have h6 : (cutP (insW demo3 series3 vB) (abvW demo3 series3 vB)).length = 6 := by rw [vB_ins, vB_abv]; decide +kernel
  obtain ⟨p, q, hm, hpq, mp, mq⟩ := minors_two h6 hσ
  have hmp : (minors (abvW demo3 series3 vB) σ).Pairwise fun i j => (s i).type ≤ (s j).type := hp.sublist List.filter_sublist
  rw [hm] at hmp ⊢
  have hle : (s p).type ≤ (s q).type := by simpa using hmp
  rw [vB_abv] at mp mq
  have hpos : ∀ p q : Fin 5, minor ![true, true, true, false, false] p = true → minor ![true, true, true, false, false] q = true → p ≠ q →
      (p = 3 ∧ q = 4) ∨ (p = 4 ∧ q = 3) := by decide +kernel
  rcases hpos p q mp mq hpq with ⟨rfl, rfl⟩ | ⟨rfl, rfl⟩
  · exfalso
    have u3 := unit_of_vertices (by omega) (by omega) (h3 3).1 (h3 3).2.1
    have u4 := unit_of_vertices (by omega) (by omega) (h3 4).1 (h3 4).2.1
    have c3 := cell_of_elem (n := 4) (by omega) (by omega) (h3 3).1.dim (h3 3).1.len (h3 3).2.1
    have c4 := cell_of_elem (n := 4) (by omega) (by omega) (h3 4).1.dim (h3 4).1.len (h3 4).2.1
    have k3 : (s 3).corner = [0, 0, 0, 0] := by
      have := c3.head
      have e : ((others 3).map vB).head? = some [0, 0, 0, 0] := by decide +kernel
      rw [e] at this
      exact (Option.some.inj this).symm
    have k4 : (s 4).corner = [0, 0, 0, 0] := by
      have := c4.head
      have e : ((others 4).map vB).head? = some [0, 0, 0, 0] := by decide +kernel
      rw [e] at this
      exact (Option.some.inj this).symm
    rw [k3] at u3
    rw [k4] at u4
    have := type_lt (h3 4).1 (h3 3).1 u4 u3 (by decide +kernel)
    omega
  · rfl

/-- C86, what fails: neighbouring cells may cut a common quadrilateral along different diagonals, so the isovolume is not
watertight.  In the box `demo3` with the series `series3`, whatever the orders: three points on edges of one tetrahedron of the
mesh, both of whose cells are inside, lie together in exactly one tetrahedron of the isovolume. -/
theorem C86_quadrilaterals_do_not_fit (ord : Nat → Scope → List Int) (ho : ∀ k, Complete demo3 (ord k)) :
    ∃ st, run demo3 (driveOps series3 ord) St.init = some st ∧ ∀ order, order.Perm st.cells →
      ∃ V, buildIsovolume demo3.bounds st.inter order = some V ∧
        ∃ (i j k : Nat) (ei ej ek f a b : Elem) (p q r : Pt), st.inter[i]? = some (ei, p) ∧ st.inter[j]? = some (ej, q) ∧
          st.inter[k]? = some (ek, r) ∧ i ≠ j ∧ j ≠ k ∧ i ≠ k ∧ IsElem 4 3 f ∧ FaceOf 4 ei f ∧ FaceOf 4 ej f ∧ FaceOf 4 ek f ∧
          IsElem 4 4 a ∧ IsElem 4 4 b ∧ a ≠ b ∧ FaceOf 4 f a ∧ FaceOf 4 f b ∧ Inside demo3 series3.length a ∧
          Inside demo3 series3.length b ∧ V.cells.countP (fun t => decide (i ∈ t ∧ j ∈ t ∧ k ∈ t)) = 1 := by
  have hc := demo3_shaped
  obtain ⟨st, h1, h2⟩ := drive_holds hc (by decide) demo3_covers ord ho
  have hk := h2.keys hc
  refine ⟨st, h1, fun order hperm => ?_⟩
  have hord : ∀ x ∈ order, IsElem 4 4 x ∧ elemValid 4 demo3.bounds x = true := by
    intro x hx
    obtain ⟨e, p, -, hm⟩ := (h2.cells x).1 (hperm.mem_iff.1 hx)
    exact ⟨hm.1, hm.2.1⟩
  have hp : ∀ x ∈ order, patch3 demo3.bounds st.inter x = some ((patch3 demo3.bounds st.inter x).getD []) := by
    intro x hx
    obtain ⟨w, hw, hwi, hcell⟩ := verts_ofFn (n := 4) (by omega) (by omega) (hord x hx).1
    obtain ⟨S, s, σ, g1, g2, rfl, g3⟩ := sides_pos (hord x hx).1 hw hwi hcell
    rw [patch3_spec hk (hord x hx).1 (hord x hx).2 hw g1 g2 g3]
    rfl
  refine ⟨⟨st.inter.map Prod.snd, order.flatMap fun x => (patch3 demo3.bounds st.inter x).getD []⟩, ?_, ?_⟩
  · unfold buildIsovolume
    rw [collect_eq hp]
  obtain ⟨A, eA, wA⟩ := isElem_of_cell (n := 4) (by omega) (by omega) vA_cell
  obtain ⟨B, eB, wB⟩ := isElem_of_cell (n := 4) (by omega) (by omega) vB_cell
  obtain ⟨f, ef, wf⟩ := isElem_of_cell (n := 4) (by omega) (by omega) vF_cell
  have cA := cell_of_elem (n := 4) (by omega) (by omega) eA.dim eA.len wA
  have cB := cell_of_elem (n := 4) (by omega) (by omega) eB.dim eB.len wB
  have iA : Inside demo3 series3.length A := (inside_iff wA).2 (by intro i; rw [vA_ins]; fin_cases i <;> rfl)
  have iB : Inside demo3 series3.length B := (inside_iff wB).2 (by intro i; rw [vB_ins]; fin_cases i <;> rfl)
  have hAB : A ≠ B := by
    rintro rfl
    rw [wA] at wB
    exact absurd wB (by decide +kernel)
  have fA : FaceOf 4 f A := ⟨_, _, wf, wA, by decide +kernel⟩
  have fB : FaceOf 4 f B := ⟨_, _, wf, wB, by decide +kernel⟩
  have pA : ∀ p ∈ [((0 : Fin 5), (4 : Fin 5)), (1, 3), (0, 3)], p ∈ cutP (insW demo3 series3 vA) (abvW demo3 series3 vA) := by
    rw [vA_ins, vA_abv]; decide +kernel
  have pB : ∀ p ∈ [((0 : Fin 5), (4 : Fin 5)), (1, 3), (0, 3)], p ∈ cutP (insW demo3 series3 vB) (abvW demo3 series3 vB) := by
    rw [vB_ins, vB_abv]; decide +kernel
  have hAB2 : ∀ p ∈ [((0 : Fin 5), (4 : Fin 5)), (1, 3), (0, 3)], numAt 4 st.inter vB p = numAt 4 st.inter vA p := by
    intro p hp'
    have : at2 vB p = at2 vA p := by revert p; decide +kernel
    unfold numAt
    rw [this]
  have point : ∀ p ∈ [((0 : Fin 5), (4 : Fin 5)), (1, 3), (0, 3)],
      ∃ q, st.inter[numAt 4 st.inter vA p]? = some (edgeOf 4 (at2 vA p), q) := by
    intro p hp'
    have hlt := idx_lt hk cA (pA p hp')
    have hg : (st.inter.map Prod.fst)[numAt 4 st.inter vA p]'(by rw [List.length_map]; exact hlt) = edgeOf 4 (at2 vA p) :=
      List.getElem_idxOf (by rw [List.length_map]; exact hlt)
    refine ⟨(st.inter[numAt 4 st.inter vA p]'hlt).2, ?_⟩
    rw [List.getElem?_eq_getElem hlt]
    rw [List.getElem_map] at hg
    rw [← hg]
  have hdist : ∀ p ∈ [((0 : Fin 5), (4 : Fin 5)), (1, 3), (0, 3)], ∀ q ∈ [((0 : Fin 5), (4 : Fin 5)), (1, 3), (0, 3)], p ≠ q →
      numAt 4 st.inter vA p ≠ numAt 4 st.inter vA q := by
    intro p hp' q hq' hpq h
    obtain ⟨p1, -, -⟩ := numAt_eq hk cA (pA p hp')
    obtain ⟨q1, -, q3⟩ := numAt_eq hk cA (pA q hq')
    exact hpq (at2_inj vA_inj (edgeOf_inj (by omega) cA cA p1 q1 (q3 _ h)))
  have hfe : ∀ p ∈ [((0 : Fin 5), (4 : Fin 5)), (1, 3), (0, 3)], FaceOf 4 (edgeOf 4 (at2 vA p)) f := by
    intro p hp'
    obtain ⟨p1, -, -⟩ := numAt_eq hk cA (pA p hp')
    refine ⟨_, _, (edgeOf_spec (by omega) cA p1).2, wf, ?_⟩
    revert p
    decide +kernel
  obtain ⟨q1, g1⟩ := point (0, 4) (by decide)
  obtain ⟨q2, g2⟩ := point (1, 3) (by decide)
  obtain ⟨q3, g3⟩ := point (0, 3) (by decide)
  refine ⟨_, _, _, _, _, _, f, A, B, q1, q2, q3, g1, g2, g3, hdist _ (by decide) _ (by decide) (by decide),
    hdist _ (by decide) _ (by decide) (by decide), hdist _ (by decide) _ (by decide) (by decide), ef, hfe _ (by decide), hfe _ (by decide),
    hfe _ (by decide), eA, eB, hAB, fA, fB, iA, iB, ?_⟩
  simp only
  rw [countP_flatMap]
  -- only the two cells count
  rw [sum_two hAB (hperm.nodup_iff.2 h2.csorted.nodup) (fun x hx h => by
    obtain ⟨w, hw, hwi, hcell⟩ := verts_ofFn (n := 4) (by omega) (by omega) (hord x hx).1
    obtain ⟨S, s, σ, g1, g2, rfl, g3⟩ := sides_pos (hord x hx).1 hw hwi hcell
    rw [patch3_spec hk (hord x hx).1 (hord x hx).2 hw g1 g2 g3, Option.getD_some] at h
    obtain ⟨t', ht', hall⟩ := List.countP_pos_iff.1 (Nat.pos_of_ne_zero h)
    obtain ⟨t, ht, rfl⟩ := List.mem_map.1 ht'
    rw [decide_eq_true_iff] at hall
    have face : ∀ p, numAt 4 st.inter vA p ∈ t.map (numAt 4 st.inter w) → FaceOf 4 (edgeOf 4 (at2 vA p)) x := by
      intro p hp'
      obtain ⟨r, hr, e'⟩ := List.mem_map.1 hp'
      obtain ⟨r1, -, r3⟩ := numAt_eq hk hcell ((tet5_shape _ _ g2 t ht).2.2 r hr)
      rw [r3 _ e'.symm]
      exact pair_face (hord x hx).1 hw hcell r1
    have e04 := face _ hall.1
    have e13 := face _ hall.2.1
    have hm04 : (([0, 0, 0, 0] : Vtx) ∈ List.ofFn w ∧ ([1, 1, 1, 1] : Vtx) ∈ List.ofFn w) := by
      obtain ⟨va, vx, a1, a2, a3⟩ := e04
      rw [hw] at a2
      cases a2
      rw [(edgeOf_spec (by omega) cA (numAt_eq hk cA (pA (0, 4) (by decide))).1).2] at a1
      cases a1
      exact ⟨a3 _ (by simp [at2, vA]), a3 _ (by simp [at2, vA])⟩
    have hm13 : (([0, 0, 0, 1] : Vtx) ∈ List.ofFn w ∧ ([0, 1, 1, 1] : Vtx) ∈ List.ofFn w) := by
      obtain ⟨va, vx, a1, a2, a3⟩ := e13
      rw [hw] at a2
      cases a2
      rw [(edgeOf_spec (by omega) cA (numAt_eq hk cA (pA (1, 3) (by decide))).1).2] at a1
      cases a1
      exact ⟨a3 _ (by simp [at2, vA]), a3 _ (by simp [at2, vA])⟩
    have hfx : FaceOf 4 f x := ⟨_, _, wf, hw, by
      intro v hv
      obtain ⟨i, rfl⟩ := List.mem_ofFn.1 hv
      fin_cases i
      · exact hm04.1
      · exact hm13.1
      · exact hm13.2
      · exact hm04.2⟩
    obtain ⟨S, s1, s2⟩ := sideOf_iff (n := 4) (by omega) (by omega) ef
    obtain ⟨a', b', hab', hs⟩ := C14_facet_has_two_cofaces 4 (by omega) f (by rw [ef.dim]) ef.len ef.type
    rw [hs] at s1
    cases s1
    have mx := (s2 x).2 ⟨(hord x hx).1, hfx⟩
    have ma := (s2 A).2 ⟨eA, fA⟩
    have mb := (s2 B).2 ⟨eB, fB⟩
    simp only [List.mem_cons, List.not_mem_nil, or_false] at mx ma mb
    rcases mx with rfl | rfl <;> rcases ma with rfl | rfl <;> rcases mb with rfl | rfl <;> first | exact Or.inl rfl | exact Or.inr rfl | exact absurd rfl hAB)]
  have hin : ∀ x, IsElem 4 4 x → Inside demo3 series3.length x → FaceOf 4 f x → x ∈ order := by
    rintro x hx ⟨vs, v1, v2⟩ hfx
    have hce := (numAt_eq hk cA (pA (0, 4) (by decide))).2.1
    obtain ⟨p, hp⟩ := (found_iff_cut hc).2 hce
    refine hperm.mem_iff.2 ((h2.cells x).2 ⟨_, p, hp, hx, ?_, (hfe _ (by decide)).trans hfx⟩)
    exact (elemValid_iff hc hx (Nat.le_refl _)).2 ⟨vs, v1, fun v hv => insideV_bounds hc (Nat.le_refl _) (v2 v hv)⟩
  have oA := hin A eA iA fA
  have oB := hin B eB iB fB
  rw [if_pos oA, if_pos oB]
  obtain ⟨SA, sA, σA, gA1, gA2, rfl, gA3⟩ := sides_pos eA wA vA_inj cA
  obtain ⟨SB, sB, σB, gB1, gB2, rfl, gB3⟩ := sides_pos eB wB vB_inj cB
  rw [patch3_spec hk eA (hord A oA).2 wA gA1 gA2 gA3, patch3_spec hk eB (hord B oB).2 wB gB1 gB2 gB3, Option.getD_some, Option.getD_some]
  rw [count_pos hk vA_inj cA gA2 (pA _ (by decide)) (pA _ (by decide)) (pA _ (by decide))]
  rw [← hAB2 (0, 4) (by decide), ← hAB2 (1, 3) (by decide), ← hAB2 (0, 3) (by decide),
    count_pos hk vB_inj cB gB2 (pB _ (by decide)) (pB _ (by decide)) (pB _ (by decide))]
  rw [minorsA gA2 gA1 gA3, minorsB gB2 gB1 gB3, vA_ins, vA_abv, vB_ins, vB_abv]
  decide +kernel

/-! ### 2-D -/

/-- a box of 2×2 places, times `0 … m` -/
def demo2 (m : Int) : Cfg 2 :=
  { domain := ⟨[0, 0], [2, 2]⟩, core := ⟨[0, 0], [2, 2]⟩, astart := [0, 0], t0 := 0, t1 := m, thr := 0 }

/-- a snapshot with value `a` at the origin and `b` elsewhere -/
def corner2 (a b : Rat) : Scal := ⟨[2, 2], fun p => if p = [0, 0] then a else b⟩

theorem demo2_place {m : Int} {p : List Int} : Lat.InBox (demo2 m).domain p ↔ ∃ a b : Int, p = [a, b] ∧ (0 ≤ a ∧ a < 2) ∧ 0 ≤ b ∧ b < 2 := by
  constructor
  · rintro ⟨hl, h⟩
    have hl' : p.length = 2 := hl
    obtain ⟨a, b, rfl⟩ := List.length_eq_two.1 hl'
    exact ⟨a, b, rfl, by simpa using h 0 0 2 a rfl rfl rfl, by simpa using h 1 0 2 b rfl rfl rfl⟩
  · rintro ⟨a, b, rfl, ha, hb⟩
    refine ⟨rfl, fun d s n v hs hn hv => ?_⟩
    rcases d with _ | _ | d
    · simp [demo2] at hs hn hv; omega
    · simp [demo2] at hs hn hv; omega
    · simp at hv

theorem corner2_covers (m : Int) (a b : Rat) : Covers (demo2 m) (corner2 a b) := by
  intro p hp
  obtain ⟨x, y, rfl, hx, hy⟩ := demo2_place.1 hp
  have : ∀ a : Int, 0 ≤ a → a < 2 → a = 0 ∨ a = 1 := by intro a h1 h2; omega
  rcases this x hx.1 hx.2 with rfl | rfl <;> rcases this y hy.1 hy.2 with rfl | rfl <;>
    exact ⟨by show Trk.inDims [2, 2] (List.zipWith (fun (x : Int) (a : Nat) => x - a) _ [0, 0]) = true; decide +kernel, fun h => absurd h (by decide)⟩

theorem demo2_inside (m : Int) {T : Nat} {a b t : Int} (ha : 0 ≤ a ∧ a < 2) (hb : 0 ≤ b ∧ b < 2) (ht : 0 ≤ t ∧ t < T) :
    InsideV (demo2 m) T [a, b, t] where
  len := rfl
  place := demo2_place.2 ⟨a, b, rfl, ha, hb⟩
  time := ⟨t.toNat, by show ([a, b, t] : List Int)[2]? = some _; simp; omega, by omega⟩

/-- one snapshot, the values `2⁻²²` at the origin and `2⁻²¹` elsewhere: both above the threshold 0 -/
def series1 : List Scal := [corner2 (1 / 2 ^ 22) (1 / 2 ^ 21)]

/-- C84, what fails: when both values exceed the threshold, one of them by less than `2⁻²¹`, the point is extrapolated.  Here it
lies at `x = -1`, outside the edge from `x = 0` to `x = 1` and outside the domain. -/
theorem C84_point_leaves_edge (ord : Nat → Scope → List Int) (ho : ∀ k, Complete (demo2 0) (ord k)) :
    ∃ st, run (demo2 0) (driveOps series1 ord) St.init = some st ∧ ∃ e p, (e, p) ∈ st.inter ∧
      e.vertices 3 = some [[0, 0, 0], [1, 0, 0]] ∧ p.x = [-1, 0, 0] := by
  have hc : Shaped (demo2 0) series1.length :=
    { pos := by decide, dlen := by decide, core := rfl, alen := rfl, start := rfl, stop := by decide }
  obtain ⟨st, h1, h2⟩ := drive_holds hc (by decide) (by
    intro s hs
    rw [series1, List.mem_singleton] at hs
    subst hs
    exact corner2_covers _ _ _) ord ho
  refine ⟨st, h1, ?_⟩
  have hcell : Cell 3 1 [0, 0, 0] [[0, 0, 0], [1, 0, 0]] :=
    { len := rfl, clen := rfl, head := rfl, chain := by simp [VLt], cube := by simp [Cube, sub] }
  obtain ⟨e, e1, e2⟩ := isElem_of_cell (by omega) (by omega) hcell
  have hcorner : e.corner = [0, 0, 0] := by
    have := (cell_of_elem (by omega) (by omega) e1.dim e1.len e2).head
    exact (Option.some.inj this).symm
  have hcut : CutAt (demo2 0) series1 e [0, 0, 0] [1, 0, 0] :=
    { edge := e1, verts := e2, left := demo2_inside 0 (by decide) (by decide) (by decide),
      right := demo2_inside 0 (by decide) (by decide) (by decide),
      cut := by
        have a : ¬ Above (demo2 0) series1 [0, 0, 0] := by unfold Above; decide +kernel
        have b : Above (demo2 0) series1 [1, 0, 0] := by unfold Above; decide +kernel
        simp [a, b] }
  refine ⟨e, isoPoint (demo2 0) series1 0 e [0, 0, 0] [1, 0, 0], (h2.inter _ _).2 ⟨0, by decide, ?_, _, _, hcut, rfl⟩, e2, ?_⟩
  · rw [hcorner]; rfl
  · have va : valueAt (demo2 0) series1 [0, 0, 0] = 1 / 2 ^ 22 := by decide +kernel
    have vb : valueAt (demo2 0) series1 [1, 0, 0] = 1 / 2 ^ 21 := by decide +kernel
    simp only [isoPoint, point, va, vb]
    decide +kernel

/-- two snapshots with only the origin above -/
def series2 : List Scal := [corner2 1 (-1), corner2 1 (-1)]

theorem series2_shaped : Shaped (demo2 1) series2.length :=
  { pos := by decide, dlen := by decide, core := rfl, alen := rfl, start := rfl, stop := by decide }

theorem series2_covers : ∀ s ∈ series2, Covers (demo2 1) s := by
  intro s hs
  have : s = corner2 1 (-1) := by simpa [series2] using hs
  subst this
  exact corner2_covers _ _ _

/-- a tetrahedron -/
def vT : Fin 4 → Vtx := ![[0, 0, 0], [1, 0, 0], [1, 1, 0], [1, 1, 1]]

theorem vT_cell : Cell 3 3 [0, 0, 0] (List.ofFn vT) where
  len := rfl
  clen := rfl
  head := rfl
  chain := by simp [vT, VLt]
  cube := by simp [vT, Cube, sub]

theorem demo2_edge {i : Fin 4} (hi : 0 < i) : Cut (demo2 1) series2 (edgeOf 3 (vT 0, vT i)) := by
  obtain ⟨A, eA, wA⟩ := isElem_of_cell (n := 3) (by omega) (by omega) vT_cell
  have cA := cell_of_elem (n := 3) (by omega) (by omega) eA.dim eA.len wA
  refine (cut_pair cA ?_).2 (cutB_iff.2 ⟨?_, ?_, ?_⟩)
  · exact mem_finPairs vT (p := (0, i)) (by revert hi; revert i; decide +kernel)
  · exact demo2_inside 1 (T := 2) (by decide) (by decide) (by decide)
  · revert hi
    fin_cases i
    · intro h; exact absurd h (by decide)
    all_goals exact fun _ => demo2_inside 1 (T := 2) (by decide) (by decide) (by decide)
  · have a : Above (demo2 1) series2 (vT 0) := by unfold Above; decide +kernel
    have b : ¬ Above (demo2 1) series2 (vT i) := by
      revert hi
      fin_cases i
      · intro h; exact absurd h (by decide)
      all_goals intro _; unfold Above; decide +kernel
    simp [a, b]

/-- C83, C84: hypotheses, and an edge that is cut -/
example : Shaped (demo2 1) series2.length ∧ series2 ≠ [] ∧ (∀ s ∈ series2, Covers (demo2 1) s) ∧
    Complete (demo2 1) (increasing (demo2 1)) ∧ ∃ e, Cut (demo2 1) series2 e :=
  ⟨series2_shaped, by decide, series2_covers, increasing_complete _, _, demo2_edge (i := 1) (by decide)⟩

/-- C85: two cut edges of a common triangle of the mesh, on an inside cell -/
example : ∃ ei ej f x, Cut (demo2 1) series2 ei ∧ Cut (demo2 1) series2 ej ∧ ei ≠ ej ∧ IsElem 3 2 f ∧ FaceOf 3 ei f ∧ FaceOf 3 ej f ∧
    IsElem 3 3 x ∧ FaceOf 3 f x ∧ Inside (demo2 1) series2.length x := by
  obtain ⟨A, eA, wA⟩ := isElem_of_cell (n := 3) (by omega) (by omega) vT_cell
  have cA := cell_of_elem (n := 3) (by omega) (by omega) eA.dim eA.len wA
  have hF : Cell 3 2 [0, 0, 0] [vT 0, vT 1, vT 2] :=
    { len := rfl, clen := rfl, head := rfl, chain := by simp [vT, VLt], cube := by simp [vT, Cube, sub] }
  obtain ⟨f, ef, wf⟩ := isElem_of_cell (n := 3) (by omega) (by omega) hF
  have m1 : (vT 0, vT 1) ∈ pairs (List.ofFn vT) := mem_finPairs vT (p := (0, 1)) (by decide +kernel)
  have m2 : (vT 0, vT 2) ∈ pairs (List.ofFn vT) := mem_finPairs vT (p := (0, 2)) (by decide +kernel)
  refine ⟨_, _, f, A, demo2_edge (i := 1) (by decide), demo2_edge (i := 2) (by decide), ?_, ef,
    ⟨_, _, (edgeOf_spec (by omega) cA m1).2, wf, by simp⟩, ⟨_, _, (edgeOf_spec (by omega) cA m2).2, wf, by simp⟩, eA,
    ⟨_, _, wf, wA, by decide +kernel⟩, _, wA, ?_⟩
  · intro h
    have := edgeOf_inj (by omega) cA cA m1 m2 h
    exact absurd this (by decide +kernel)
  · intro v hv
    obtain ⟨i, rfl⟩ := List.mem_ofFn.1 hv
    fin_cases i <;> exact demo2_inside 1 (T := 2) (by decide) (by decide) (by decide)

/-- C86: hypotheses, with the mesh ending at the last snapshot, and a cell with six cut edges (a prism) -/
example : Shaped demo3 series3.length ∧ series3 ≠ [] ∧ (∀ s ∈ series3, Covers demo3 s) ∧ demo3.t1 + 1 = series3.length ∧
    Complete demo3 (increasing demo3) ∧ (cutP (insW demo3 series3 vA) (abvW demo3 series3 vA)).length = 6 :=
  ⟨demo3_shaped, by decide, demo3_covers, by decide, increasing_complete _, by rw [vA_ins, vA_abv]; decide +kernel⟩

/-- C86: a tetrahedron of the mesh with exactly three cut edges, all of whose vertices are inside -/
example : cutP (insW demo3 series3 ![vA 1, vA 2, vA 3, vA 4]) (abvW demo3 series3 ![vA 1, vA 2, vA 3, vA 4]) = [(0, 1), (0, 2), (0, 3)] := by
  have h1 : insW demo3 series3 ![vA 1, vA 2, vA 3, vA 4] = ![true, true, true, true] := by
    funext i
    have := fun j => congrFun vA_ins j
    fin_cases i
    · exact this 1
    · exact this 2
    · exact this 3
    · exact this 4
  have h2 : abvW demo3 series3 ![vA 1, vA 2, vA 3, vA 4] = ![true, false, false, false] := by
    funext i
    have := fun j => congrFun vA_abv j
    fin_cases i
    · exact this 1
    · exact this 2
    · exact this 3
    · exact this 4
  rw [h1, h2]
  decide +kernel

end Verif.Ctr
