import Verif.Deg.Model
import Verif.SoS.Props
import Verif.XMesh.Props
import Mathlib.Tactic.Linarith
import Mathlib.Tactic.LinearCombination

/-!
# C145: the degree of the critical points found by the trackers
-/

namespace Verif.Deg

open Verif.SoS Verif.UM

/-- Twice the signed area of the triangle `p q r`: positive when the corners go counter-clockwise. -/
def area {K : Type} [CommRing K] (p q r : Fin 2 → K) : K := (q 0 - p 0) * (r 1 - p 1) - (q 1 - p 1) * (r 0 - p 0)

/-- `J` is the Jacobian of the affine field with value `V i` at position `X i`. -/
def IsJacobian (X : Fin 3 → Fin 2 → ℚ) (V : Fin 3 → Fin 2 → ℤ) (J : Fin 2 → Fin 2 → ℚ) : Prop :=
  ∀ i j k, J k 0 * (X i 0 - X j 0) + J k 1 * (X i 1 - X j 1) = (V i k : ℚ) - V j k

/-- The Poincaré index of the zero of an affine field with Jacobian `J`: the sign of the determinant. -/
def index (J : Fin 2 → Fin 2 → ℚ) : ℤ := if 0 < J 0 0 * J 1 1 - J 0 1 * J 1 0 then 1 else if J 0 0 * J 1 1 - J 0 1 * J 1 0 < 0 then -1 else 0

theorem orientZ_area (V : Fin 3 → Fin 2 → ℤ) : orientZ V = area (V 0) (V 1) (V 2) := by
  unfold orientZ area
  rw [Matrix.det_fin_three]
  simp [Fin.snoc]
  ring

theorem area_jac {X : Fin 3 → Fin 2 → ℚ} {V : Fin 3 → Fin 2 → ℤ} {J : Fin 2 → Fin 2 → ℚ} (h : IsJacobian X V J) :
    ((area (V 0) (V 1) (V 2) : ℤ) : ℚ) = (J 0 0 * J 1 1 - J 0 1 * J 1 0) * area (X 0) (X 1) (X 2) := by
  have h1 := h 1 0 0
  have h2 := h 1 0 1
  have h3 := h 2 0 0
  have h4 := h 2 0 1
  unfold area
  push_cast
  rw [← h1, ← h2, ← h3, ← h4]
  ring

/-- The robust sign is the index times the orientation of the triangle. -/
theorem positive2_index {X : Fin 3 → Fin 2 → ℚ} {V : Fin 3 → Fin 2 → ℤ} {J : Fin 2 → Fin 2 → ℚ} (h : IsJacobian X V J)
    (hd : J 0 0 * J 1 1 - J 0 1 * J 1 0 ≠ 0) {ind : Fin 3 → ℤ} (hi : Function.Injective ind) :
    (0 < area (X 0) (X 1) (X 2) → positive2 V ind = index J) ∧ (area (X 0) (X 1) (X 2) < 0 → positive2 V ind = -index J) := by
  have e := area_jac h
  have key : ∀ s : ℤ, (s = 1 ∧ (0 : ℚ) < (area (V 0) (V 1) (V 2) : ℤ)) ∨ (s = -1 ∧ ((area (V 0) (V 1) (V 2) : ℤ) : ℚ) < 0) → positive2 V ind = s := by
    intro s hs
    have hne : orientZ V ≠ 0 := by
      rw [orientZ_area]
      intro h0
      rw [h0] at hs
      simp at hs
    rw [C30_exact2 V ind hi hne, orientZ_area]
    rcases hs with ⟨rfl, hs⟩ | ⟨rfl, hs⟩
    · exact Int.sign_eq_one_of_pos (by exact_mod_cast hs)
    · exact Int.sign_eq_neg_one_of_neg (by exact_mod_cast hs)
  constructor
  · intro ha
    apply key
    rw [e]
    rcases lt_or_gt_of_ne hd with h | h
    · exact Or.inr ⟨by unfold index; rw [if_neg (by linarith), if_pos h], mul_neg_of_neg_of_pos h ha⟩
    · exact Or.inl ⟨by unfold index; rw [if_pos h], mul_pos h ha⟩
  · intro ha
    apply key
    rw [e]
    rcases lt_or_gt_of_ne hd with h | h
    · exact Or.inl ⟨by unfold index; rw [if_neg (by linarith), if_pos h]; rfl, mul_pos_of_neg_of_neg h ha⟩
    · exact Or.inr ⟨by unfold index; rw [if_pos h], mul_neg_of_pos_of_neg h ha⟩

theorem index_cases {J : Fin 2 → Fin 2 → ℚ} (hd : J 0 0 * J 1 1 - J 0 1 * J 1 0 ≠ 0) : index J = 1 ∨ index J = -1 := by
  unfold index
  rcases lt_or_gt_of_ne hd with h | h
  · rw [if_neg (by linarith), if_pos h]; exact Or.inr rfl
  · rw [if_pos h]; exact Or.inl rfl

/-! ### regular grids -/

theorem ordinal_types : ∀ t ∈ List.range (SRM.ntypes 3 2), SRM.isOrdinalType 3 2 t = true →
    (t = 4 ∧ (SRM.unitSimplices 3 2)[t]? = some [[0, 0, 0], [0, 1, 0], [1, 1, 0]]) ∨
    (t = 8 ∧ (SRM.unitSimplices 3 2)[t]? = some [[0, 0, 0], [1, 0, 0], [1, 1, 0]]) := by decide +kernel

/-- The spatial position of a lattice vertex. -/
def pos (v : SRM.Vtx) : Fin 2 → ℚ := ![(v.getD 0 0 : ℤ), (v.getD 1 0 : ℤ)]

/-- C145: on a regular grid (two dimensions and time) the type reported with degrees enabled, on an element within one time step
on which the (quantised) field is not degenerate, is 1 if the index of the zero is −1 (a saddle) and 2 if the index is +1. -/
theorem C145_regular (e : SRM.Elem) (hdim : e.dim = 2) (hcorner : e.corner.length = 3) (ho : SRM.isOrdinalType 3 2 e.type = true)
    {x0 x1 x2 : SRM.Vtx} (hx : e.vertices 3 = some [x0, x1, x2]) (V : Fin 3 → Fin 2 → ℤ) {J : Fin 2 → Fin 2 → ℚ}
    (hJ : IsJacobian ![pos x0, pos x1, pos x2] V J) (hd : J 0 0 * J 1 1 - J 0 1 * J 1 0 ≠ 0) {ind : Fin 3 → ℤ} (hi : Function.Injective ind) :
    typeRegular e.type true V ind = if index J = -1 then 1 else 2 := by
  have ht : e.type ∈ List.range (SRM.ntypes 3 2) := by
    rw [List.mem_range]
    unfold SRM.ntypes
    unfold SRM.Elem.vertices at hx
    rw [hdim] at hx
    by_contra hcon
    rw [List.getElem?_eq_none (by omega)] at hx
    cases hx
  obtain ⟨c, he⟩ : ∃ c, e.corner = c := ⟨_, rfl⟩
  rw [he] at hcorner
  match c, hcorner with
  | [c0, c1, c2], _ =>
    have hp := positive2_index hJ hd hi
    have hx' := hx
    unfold SRM.Elem.vertices at hx'
    rw [hdim, he] at hx'
    rcases ordinal_types _ ht ho with ⟨h4, hs⟩ | ⟨h8, hs⟩
    · rw [hs] at hx'
      simp only [List.map_cons, List.map_nil, SRM.translate, List.zipWith_cons_cons, List.zipWith_nil_left, Option.some.injEq, List.cons.injEq, and_true] at hx'
      obtain ⟨rfl, rfl, rfl⟩ := hx'
      have harea : area (![pos [c0 + 0, c1 + 0, c2 + 0], pos [c0 + 0, c1 + 1, c2 + 0], pos [c0 + 1, c1 + 1, c2 + 0]] 0) (![pos [c0 + 0, c1 + 0, c2 + 0], pos [c0 + 0, c1 + 1, c2 + 0], pos [c0 + 1, c1 + 1, c2 + 0]] 1) (![pos [c0 + 0, c1 + 0, c2 + 0], pos [c0 + 0, c1 + 1, c2 + 0], pos [c0 + 1, c1 + 1, c2 + 0]] 2) < 0 := by
        simp [area, pos]
      have h := hp.2 harea
      unfold typeRegular
      simp only [h4, if_true, h]
      rcases index_cases hd with h | h <;> rw [h] <;> rfl
    · rw [hs] at hx'
      simp only [List.map_cons, List.map_nil, SRM.translate, List.zipWith_cons_cons, List.zipWith_nil_left, Option.some.injEq, List.cons.injEq, and_true] at hx'
      obtain ⟨rfl, rfl, rfl⟩ := hx'
      have harea : 0 < area (![pos [c0 + 0, c1 + 0, c2 + 0], pos [c0 + 1, c1 + 0, c2 + 0], pos [c0 + 1, c1 + 1, c2 + 0]] 0) (![pos [c0 + 0, c1 + 0, c2 + 0], pos [c0 + 1, c1 + 0, c2 + 0], pos [c0 + 1, c1 + 1, c2 + 0]] 1) (![pos [c0 + 0, c1 + 0, c2 + 0], pos [c0 + 1, c1 + 0, c2 + 0], pos [c0 + 1, c1 + 1, c2 + 0]] 2) := by
        simp [area, pos]
      have h := hp.1 harea
      unfold typeRegular
      simp only [h8, if_true, h]
      rcases index_cases hd with h | h <;> rw [h] <;> rfl

/-! ### unstructured meshes -/

theorem area_perm {K : Type} [CommRing K] (w : Fin 3 → Fin 2 → K) (σ : Equiv.Perm (Fin 3)) :
    area (w (σ 0)) (w (σ 1)) (w (σ 2)) = ((Equiv.Perm.sign σ : ℤ) : K) * area (w 0) (w 1) (w 2) := by
  have key : ∀ u : Fin 3 → Fin 2 → K, (Matrix.of (fun i => ![u i 0, u i 1, 1])).det = area (u 0) (u 1) (u 2) := by
    intro u
    rw [Matrix.det_fin_three]
    simp [area]
    ring
  rw [← key (fun i => w (σ i)), ← key w]
  exact Matrix.det_permute σ (Matrix.of (fun i => ![w i 0, w i 1, 1]))

/-- Sorting a triangle changes its orientation by its chirality. -/
theorem sort3_area {K : Type} [CommRing K] (X : ℤ → Fin 2 → K) {t : Tri} (hd : Distinct3 t) :
    area (X (sort3 t).1) (X (sort3 t).2.1) (X (sort3 t).2.2) = (if chi3 t then -1 else 1) * area (X t.1) (X t.2.1) (X t.2.2) := by
  have hinj : Function.Injective (![t.1, t.2.1, t.2.2] : Fin 3 → ℤ) := by
    obtain ⟨h1, h2, h3⟩ := hd
    intro i j h
    fin_cases i <;> fin_cases j <;> simp_all
  obtain ⟨σ, h1, h2, h3⟩ := SoS.bsInv_sort (n := 3) ![t.1, t.2.1, t.2.2]
  obtain ⟨τ, g1, -, g3, g4⟩ := SoS.sort_spec (n := 3) ![t.1, t.2.1, t.2.2] hinj
  have hst : σ = τ := by
    ext i
    rw [← h1 i, ← g1 i]
  subst hst
  have e := area_perm (fun i => X ((![t.1, t.2.1, t.2.2] : Fin 3 → ℤ) i)) σ
  simp only [Matrix.cons_val] at e
  have ea : ∀ i, (SoS.bubbleSort (n := 3) ![t.1, t.2.1, t.2.2]).arr i = (![t.1, t.2.1, t.2.2] : Fin 3 → ℤ) (σ i) := h2
  show area (X ((SoS.bubbleSort (n := 3) ![t.1, t.2.1, t.2.2]).arr 0)) (X ((SoS.bubbleSort (n := 3) ![t.1, t.2.1, t.2.2]).arr 1)) (X ((SoS.bubbleSort (n := 3) ![t.1, t.2.1, t.2.2]).arr 2)) = _
  rw [ea, ea, ea, e]
  congr 1
  unfold chi3
  by_cases hn : (SoS.bubbleSort (n := 3) ![t.1, t.2.1, t.2.2]).nswaps % 2 ≠ 0
  · rw [g3 hn]; simp [hn]
  · rw [g4 hn]; simp [hn]

variable {order : List (Edge × Int) → List (Edge × Int)} {n0 : Nat} {ts : List Tri} {m : M2}

/-- C145: on an unstructured triangulation the type reported, with degrees enabled, for triangle number `k` of the input, given
with corners `a b c`, at time `s`, is 1 or 2 as the index of the zero is +1 or −1 if the corners were given counter-clockwise,
and 2 or 1 if they were given clockwise. -/
theorem C145_unstructured (ho : IsOrder order) (hv : Valid n0 ts) (hb : build order n0 ts = some m) (X : ℤ → Fin 2 → ℚ)
    (V : ℤ → Fin 2 → ℤ) {k : Nat} {a b c : Int} (hk : ts[k]? = some (a, b, c)) (s : Nat) {J : Fin 2 → Fin 2 → ℚ}
    (hJ : IsJacobian ![X a, X b, X c] ![V (a + s * n0), V (b + s * n0), V (c + s * n0)] J) (hd : J 0 0 * J 1 1 - J 0 1 * J 1 0 ≠ 0) :
    (0 < area (X a) (X b) (X c) → typeUnstructured m V (k + s * XM.n m 2) = some (if index J = 1 then 1 else 2)) ∧
    (area (X a) (X b) (X c) < 0 → typeUnstructured m V (k + s * XM.n m 2) = some (if index J = 1 then 2 else 1)) := by
  obtain ⟨ks, B⟩ := built ho hv hb
  have hdis := hv.distinct _ (List.mem_of_getElem? hk)
  have hinc := sort3_incr hdis
  obtain ⟨hklt, -⟩ := List.getElem?_eq_some_iff.1 hk
  have hn2 : m.n 2 = ts.length := by
    show m.tris.length = _
    rw [B.tris, List.length_map]
  have hn0 : m.n 0 = n0 := B.hn0
  have hN : (m.n 2 : Int) ≤ XM.n m 2 := by
    show (m.n 2 : Int) ≤ m.n 2 + m.n 2 * 2 + m.n 1 * 2
    omega
  have hmod : XM.mod ((k : Int) + s * XM.n m 2) (XM.n m 2) = some (k : Int) := by
    unfold XM.mod
    have hnn : (0 : Int) ≤ s * XM.n m 2 := Int.mul_nonneg (by omega) (by omega)
    rw [if_neg (by omega), if_neg (by omega)]
    rw [Int.tmod_eq_emod_of_nonneg (by omega), Int.add_mul_emod_self_right, Int.emod_eq_of_lt (by omega) (by omega)]
  have hmodk : XM.mod (k : Int) (XM.n m 2) = some (k : Int) := by
    unfold XM.mod
    rw [if_neg (by omega), if_neg (by omega), Int.tmod_eq_emod_of_nonneg (by omega), Int.emod_eq_of_lt (by omega) (by omega)]
  have hdiv : ((k : Int) + s * XM.n m 2).fdiv (XM.n m 2) = s := by
    rw [Int.fdiv_eq_ediv_of_nonneg _ (by omega), Int.add_mul_ediv_right _ _ (by omega), Int.ediv_eq_zero_of_lt (by omega) (by omega), zero_add]
  have htri : m.getTriangle (k : Int) = some (sort3 (a, b, c)) := by
    show read m.tris (k : Int) = _
    rw [read_nat, B.tris, List.getElem?_map, hk]; rfl
  have hrem : XM.rem (k : Int) (m.n 2) = some (k : Int) := by
    unfold XM.rem
    rw [if_neg (by omega), Int.tmod_eq_emod_of_nonneg (by omega), Int.emod_eq_of_lt (by omega) (by omega)]
  have hget : XM.getSimplex m 2 ((k : Int) + s * XM.n m 2) = some ((k : Int) + s * XM.n m 2,
      [(sort3 (a, b, c)).1 + s * XM.n m 0, (sort3 (a, b, c)).2.1 + s * XM.n m 0, (sort3 (a, b, c)).2.2 + s * XM.n m 0]) := by
    unfold XM.getSimplex
    simp only [hmod, Option.bind_eq_bind, Option.bind_some, hdiv]
    unfold XM.simplexType
    simp only [hmodk, Option.bind_eq_bind, Option.bind_some]
    rw [if_pos (by omega)]
    simp only [Option.bind_some, XM.simplexAt, XM.triAt]
    simp [hrem, htri]
  have hord : XM.isOrdinal m 2 ((k : Int) + s * XM.n m 2) = some true := by
    unfold XM.isOrdinal
    simp only [hmod, Option.bind_eq_bind, Option.bind_some, XM.nOrdinal]
    simp [hn2, hklt]
  have hchi : extChi m ((k : Int) + s * XM.n m 2) = some (if chi3 (a, b, c) then -1 else 1) := by
    unfold extChi
    have hlt : (k : Int) < XM.nOrdinal m 2 := by
      show (k : Int) < (m.n 2 : Nat)
      omega
    simp only [hmod, Option.bind_eq_bind, Option.bind_some, if_pos hlt]
    unfold M2.triangleChi
    rw [read_nat, B.chi, List.getElem?_map, hk]
    rfl
  have hn0' : XM.n m 0 = (n0 : Int) := by
    show (m.n 0 : Int) = _
    rw [hn0]
  rw [hn0'] at hget
  -- the field on the sorted triangle
  have htype : typeUnstructured m V ((k : Int) + s * XM.n m 2) = some (if positive2 ![V ((sort3 (a, b, c)).1 + s * n0), V ((sort3 (a, b, c)).2.1 + s * n0), V ((sort3 (a, b, c)).2.2 + s * n0)]
      ![(sort3 (a, b, c)).1 + s * n0, (sort3 (a, b, c)).2.1 + s * n0, (sort3 (a, b, c)).2.2 + s * n0] * (if chi3 (a, b, c) then -1 else 1) = 1 then 1 else 2) := by
    unfold typeUnstructured
    simp only [hget, hord, hchi, Option.bind_eq_bind, Option.bind_some, if_true]
  have hJ' : IsJacobian ![X (sort3 (a, b, c)).1, X (sort3 (a, b, c)).2.1, X (sort3 (a, b, c)).2.2]
      ![V ((sort3 (a, b, c)).1 + s * n0), V ((sort3 (a, b, c)).2.1 + s * n0), V ((sort3 (a, b, c)).2.2 + s * n0)] J := by
    have hp : ∀ u v : Int, OnTri u (a, b, c) → OnTri v (a, b, c) → ∀ q, J q 0 * (X u 0 - X v 0) + J q 1 * (X u 1 - X v 1) = (V (u + s * n0) q : ℚ) - V (v + s * n0) q := by
      have hf : ∀ u : Int, OnTri u (a, b, c) → ∃ i : Fin 3, X u = (![X a, X b, X c] : Fin 3 → Fin 2 → ℚ) i ∧ V (u + s * n0) = (![V (a + s * n0), V (b + s * n0), V (c + s * n0)] : Fin 3 → Fin 2 → ℤ) i := by
        rintro u (rfl | rfl | rfl)
        · exact ⟨0, rfl, rfl⟩
        · exact ⟨1, rfl, rfl⟩
        · exact ⟨2, rfl, rfl⟩
      intro u v hu hv q
      obtain ⟨i, e1, e2⟩ := hf u hu
      obtain ⟨j, e3, e4⟩ := hf v hv
      rw [e1, e2, e3, e4]
      exact hJ i j q
    have hm : ∀ i : Fin 3, OnTri ((![(sort3 (a, b, c)).1, (sort3 (a, b, c)).2.1, (sort3 (a, b, c)).2.2] : Fin 3 → Int) i) (a, b, c) := by
      intro i
      rw [← sort3_mem]
      fin_cases i
      · exact Or.inl rfl
      · exact Or.inr (Or.inl rfl)
      · exact Or.inr (Or.inr rfl)
    intro i j q
    have := hp _ _ (hm i) (hm j) q
    fin_cases i <;> fin_cases j <;> simpa using this
  have hi : Function.Injective (![(sort3 (a, b, c)).1 + s * n0, (sort3 (a, b, c)).2.1 + s * n0, (sort3 (a, b, c)).2.2 + s * n0] : Fin 3 → ℤ) := by
    obtain ⟨h1, h2⟩ := hinc
    intro i j h
    fin_cases i <;> fin_cases j <;> simp at h ⊢ <;> omega
  have hp := positive2_index hJ' hd hi
  simp only [Matrix.cons_val] at hp
  have hsa := sort3_area X hdis
  dsimp only at hsa
  rw [htype]
  constructor
  · intro ha
    cases hc : chi3 (a, b, c) with
    | false =>
      rw [hc] at hsa
      rw [hp.1 (by rw [hsa]; simpa using ha)]
      rcases index_cases hd with h | h <;> rw [h] <;> rfl
    | true =>
      rw [hc] at hsa
      rw [hp.2 (by rw [hsa]; simpa using ha)]
      rcases index_cases hd with h | h <;> rw [h] <;> rfl
  · intro ha
    cases hc : chi3 (a, b, c) with
    | false =>
      rw [hc] at hsa
      rw [hp.2 (by rw [hsa]; simpa using ha)]
      rcases index_cases hd with h | h <;> rw [h] <;> rfl
    | true =>
      rw [hc] at hsa
      rw [hp.1 (by rw [hsa]; simpa using ha)]
      rcases index_cases hd with h | h <;> rw [h] <;> rfl

/-- C145 (finding): the two trackers number the same field differently: the source `(x, y)` about the middle of a triangle given
counter-clockwise is 1 on the unstructured mesh and 2 on the grid. -/
theorem C145_inconsistent : typeRegular 8 true ![![-2, -1], ![1, -1], ![1, 2]] ![0, 1, 2] = 2 ∧
    typeUnstructured XM.squareMesh (fun v => if v = 0 then ![-1, -1] else if v = 1 then ![-1, 2] else ![2, -1]) 0 = some 1 := by
  decide +kernel

/-- C145: elements that extend in time get type 0. -/
theorem C145_interval (V : ℤ → Fin 2 → ℤ) (i : Int) {g : Int × List Int} (h : XM.getSimplex m 2 i = some g) (ho : XM.isOrdinal m 2 i = some false) :
    typeUnstructured m V i = some 0 ∧ ∀ t vf ind, typeRegular t false vf ind = 0 := by
  unfold typeUnstructured
  simp [h, ho, typeRegular]

/-- The second triangle of the unit cell, and the source about a point in it. -/
example : (⟨[5, 7, 2], 2, 8⟩ : SRM.Elem).vertices 3 = some [[5, 7, 2], [6, 7, 2], [6, 8, 2]] ∧ SRM.isOrdinalType 3 2 8 = true ∧
    IsJacobian ![pos [5, 7, 2], pos [6, 7, 2], pos [6, 8, 2]] ![![-2, -1], ![1, -1], ![1, 2]] ![![3, 0], ![0, 3]] := by
  refine ⟨by decide +kernel, by decide +kernel, ?_⟩
  unfold IsJacobian
  decide +kernel

/-- Triangle 0 of the square was given as `(1, 0, 2)`, here with coordinates that make it counter-clockwise. -/
example : UM.square[0]? = some (1, 0, 2) ∧ 0 < area (K := ℚ) ![0, 1] ![0, 0] ![1, 0] ∧
    IsJacobian ![![0, 1], ![0, 0], ![1, 0]] ![![-1, 2], ![-1, -1], ![2, -1]] ![![3, 0], ![0, 3]] := by
  unfold IsJacobian
  decide +kernel

end Verif.Deg
