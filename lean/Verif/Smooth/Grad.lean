import Verif.Smooth.Model
import Verif.Smooth.Spec
import Verif.UMesh.Props
import Verif.MPAS.Locate
import Mathlib.Algebra.BigOperators.Field
import Mathlib.Algebra.BigOperators.Group.List.Basic
import Mathlib.Tactic.FinCases
import Mathlib.Tactic.IntervalCases
import Mathlib.Algebra.Order.Field.Rat
/-! # Gradients of a field on a triangle mesh (C176) -/
namespace Verif.Smooth
open Verif.UM
variable {K : Type} [Field K]

/-- The list of a function on the vertices (a field, or the coordinates). -/
def field {α : Type} (n : Nat) (f : Int → α) : List α := (List.range n).map fun (v : Nat) => f v

theorem read_field {α : Type} {n : Nat} (f : Int → α) {v : Int} (h0 : 0 ≤ v) (h1 : v < n) :
    read (field n f) v = some (f v) := by
  obtain ⟨k, rfl⟩ := Int.eq_ofNat_of_zero_le h0
  simp [UM.read, field, show k < n by omega]

theorem corners_field {α : Type} {n : Nat} (f : Int → α) {t : Tri} (h : ∀ v, OnTri v t → 0 ≤ v ∧ v < n) :
    corners (field n f) t = some ![f t.1, f t.2.1, f t.2.2] := by
  have a := h t.1 (Or.inl rfl)
  have b := h t.2.1 (Or.inr (Or.inl rfl))
  have c := h t.2.2 (Or.inr (Or.inr rfl))
  simp [corners, read_field f a.1 a.2, read_field f b.1 b.2, read_field f c.1 c.2]

/-- The corners of a triangle with sorted corners are a rearrangement of the given ones. -/
theorem perm_of_same {s t : Tri} (hs : Distinct3 s) (h : SameTri s t) :
    s = (t.1, t.2.1, t.2.2) ∨ s = (t.1, t.2.2, t.2.1) ∨ s = (t.2.1, t.1, t.2.2) ∨ s = (t.2.1, t.2.2, t.1) ∨
    s = (t.2.2, t.1, t.2.1) ∨ s = (t.2.2, t.2.1, t.1) := by
  obtain ⟨a, b, c⟩ := s
  obtain ⟨p, q, r⟩ := t
  have ha := (h a).1 (Or.inl rfl)
  have hb := (h b).1 (Or.inr (Or.inl rfl))
  have hc := (h c).1 (Or.inr (Or.inr rfl))
  obtain ⟨d1, d2, d3⟩ := hs
  simp only [OnTri] at *
  simp only [Prod.mk.injEq]
  rcases ha with rfl | rfl | rfl <;> rcases hb with rfl | rfl | rfl <;> rcases hc with rfl | rfl | rfl <;> simp_all

theorem area_same {x : Int → Fin 2 → K} {s t : Tri} (hs : Distinct3 s) (h : SameTri s t) (ht : Area x t) : Area x s := by
  unfold Area at *
  intro e
  apply ht
  rcases perm_of_same hs h with rfl | rfl | rfl | rfl | rfl | rfl <;> dsimp only at e
  · exact e
  · linear_combination -e
  · linear_combination -e
  · linear_combination e
  · linear_combination e
  · linear_combination -e

variable [LinearOrder K] [IsStrictOrderedRing K] {order : List (Edge × Int) → List (Edge × Int)} {n0 : Nat} {ts : List Tri} {m : M2}

/-- The gradient computed for a triangle. -/
def triGrad (x : Int → Fin 2 → K) (f : Int → K) (t : Tri) : Fin 2 → K :=
  Num.gradient2dsimplex2 ![x (sort3 t).1, x (sort3 t).2.1, x (sort3 t).2.2] ![f (sort3 t).1, f (sort3 t).2.1, f (sort3 t).2.2]

theorem isGrad_triGrad (x : Int → Fin 2 → K) (f : Int → K) {t : Tri} (hd : Distinct3 t) (ha : Area x t) :
    IsGrad x f t (triGrad x f t) := by
  have hs := sort3_same t
  have h2 : Area x (sort3 t) := area_same (incr3_distinct (sort3_incr hd)) hs ha
  have hX : Num.Triangle ![x (sort3 t).1, x (sort3 t).2.1, x (sort3 t).2.2] := by
    simpa [Num.Triangle, Area] using h2
  obtain ⟨⟨c, g⟩, hc, -⟩ := Num.C78_affine_interpolant _ hX ![f (sort3 t).1, f (sort3 t).2.1, f (sort3 t).2.2]
  have hg := Num.C78_gradient_2dsimplex2_partial _ hX c g
  have e : triGrad x f t = g := by
    unfold triGrad
    rw [← hg]
    congr 1
    funext i
    exact hc i
  refine ⟨c, fun v hv => ?_⟩
  rw [e]
  have hv' := (hs v).2 hv
  rcases hv' with rfl | rfl | rfl
  · simpa [Fin.sum_univ_two] using hc 0
  · simpa [Fin.sum_univ_two] using hc 1
  · simpa [Fin.sum_univ_two] using hc 2

theorem isGrad_unique {x : Int → Fin 2 → K} {f : Int → K} {t : Tri} (ha : Area x t) {g h : Fin 2 → K}
    (hg : IsGrad x f t g) (hh : IsGrad x f t h) : g = h := by
  obtain ⟨c, hc⟩ := hg
  obtain ⟨d, hd⟩ := hh
  have e1 := (hc t.1 (Or.inl rfl)).symm.trans (hd t.1 (Or.inl rfl))
  have e2 := (hc t.2.1 (Or.inr (Or.inl rfl))).symm.trans (hd t.2.1 (Or.inr (Or.inl rfl)))
  have e3 := (hc t.2.2 (Or.inr (Or.inr rfl))).symm.trans (hd t.2.2 (Or.inr (Or.inr rfl)))
  unfold Area at ha
  funext i
  fin_cases i <;> apply mul_right_cancel₀ ha <;> simp only [Fin.zero_eta, Fin.mk_one]
  · linear_combination (x t.2.2 1 - x t.1 1) * (e2 - e1) - (x t.2.1 1 - x t.1 1) * (e3 - e1)
  · linear_combination (x t.2.1 0 - x t.1 0) * (e3 - e1) - (x t.2.2 0 - x t.1 0) * (e2 - e1)

theorem cell_eq (B : ∃ ks, Built n0 ts m ks) (hv : Valid n0 ts) (x : Int → Fin 2 → K) (f : Int → K) :
    m.tris.mapM (cellGrad (field n0 x) (field n0 f)) = some (ts.map (triGrad x f)) := by
  obtain ⟨ks, B⟩ := B
  rw [B.tris]
  rw [MPAS.mapM_some _ (fun t => Num.gradient2dsimplex2 ![x t.1, x t.2.1, x t.2.2] ![f t.1, f t.2.1, f t.2.2])]
  · simp [List.map_map, triGrad, Function.comp_def]
  · intro s hs
    obtain ⟨t, ht, rfl⟩ := List.mem_map.1 hs
    have hr : ∀ v, OnTri v (sort3 t) → 0 ≤ v ∧ v < (n0 : Int) := fun v h => hv.range t ht v ((sort3_mem t v).1 h)
    simp [cellGrad, corners_field x hr, corners_field f hr]

/-- The triangles at a vertex, as a list of numbers. -/
theorem star_list (hv : Valid n0 ts) (B : ∃ ks, Built n0 ts m ks) {i : Nat} (hi : i < n0) :
    ∃ L : List Nat, L.Nodup ∧ L.toFinset = star ts i ∧ m.vertexTriangles i = some (L.map fun (j : Nat) => (j : Int)) ∧
      ∀ j ∈ L, j < ts.length := by
  classical
  obtain ⟨ks, B⟩ := B
  obtain ⟨S, h1, h2, h3⟩ := B.vtris i (by omega) (by omega)
  let L := (List.range ts.length).filter fun j => ∃ t, ts[j]? = some t ∧ OnTri (i : Int) t
  have hL : ∀ j, j ∈ L ↔ ∃ t, ts[j]? = some t ∧ OnTri (i : Int) t := by
    intro j
    simp only [L, List.mem_filter, List.mem_range, decide_eq_true_eq]
    constructor
    · exact And.right
    · rintro ⟨t, ht, h⟩
      exact ⟨(List.getElem?_eq_some_iff.1 ht).1, t, ht, h⟩
  have hLs : StrictSorted (L.map fun (j : Nat) => (j : Int)) := by
    unfold StrictSorted
    rw [List.pairwise_map]
    have : L.Pairwise (· < ·) := List.pairwise_lt_range.filter _
    exact this.imp fun h => by exact_mod_cast h
  refine ⟨L, (List.nodup_range).filter _, ?_, ?_, ?_⟩
  · ext j
    simp only [List.mem_toFinset, star, Finset.mem_filter, Finset.mem_range, hL]
    constructor
    · rintro ⟨t, ht, h⟩
      exact ⟨(List.getElem?_eq_some_iff.1 ht).1, t, ht, h⟩
    · exact And.right
  · show read m.vtris i = _
    rw [h1]
    congr 1
    apply StrictSorted.ext h2 hLs
    intro a
    rw [h3, List.mem_map]
    constructor
    · rintro ⟨j, t, ht, rfl, h⟩
      exact ⟨j, (hL j).2 ⟨t, ht, h⟩, rfl⟩
    · rintro ⟨j, hj, rfl⟩
      obtain ⟨t, ht, h⟩ := (hL j).1 hj
      exact ⟨j, t, ht, rfl, h⟩
  · intro j hj
    obtain ⟨t, ht, -⟩ := (hL j).1 hj
    exact (List.getElem?_eq_some_iff.1 ht).1

theorem foldl_grad (gs : List (Fin 2 → K)) : ∀ a : Fin 2 → K,
    gs.foldl (fun acc g => fun d => acc d + g d) a = fun d => a d + (gs.map fun g => g d).sum := by
  induction gs with
  | nil => intro a; simp
  | cons g gs ih =>
    intro a
    rw [List.foldl_cons, ih]
    funext d
    simp [add_assoc]

theorem foldl_comp (gs : List (Fin 2 → K)) : ∀ a : K,
    gs.foldl (fun acc g => acc + g 0) a = a + (gs.map fun g => g 0).sum := by
  induction gs with
  | nil => intro a; simp
  | cons g gs ih =>
    intro a
    rw [List.foldl_cons, ih]
    simp [add_assoc]

theorem read_cells (G : Nat → Fin 2 → K) (h : List (Fin 2 → K)) (hG : ∀ j < h.length, h[j]? = some (G j)) (L : List Nat)
    (hL : ∀ j ∈ L, j < h.length) : (L.map fun (j : Nat) => (j : Int)).mapM (read h) = some (L.map G) := by
  rw [MPAS.mapM_some _ (fun a => G a.toNat)]
  · simp [List.map_map, Function.comp_def]
  · intro a ha
    obtain ⟨j, hj, rfl⟩ := List.mem_map.1 ha
    simp [UM.read, hG j (hL j hj)]

/-- C176: for a legal mesh whose triangles have positive area, `scalar_gradient` gives at every vertex the average, over the
triangles at the vertex, of the gradients of the affine functions through the corner values; a vertex without triangle
gets NaN. -/
theorem C176_scalar_gradient (ho : IsOrder order) (hv : Valid n0 ts) (hb : build order n0 ts = some m)
    (x : Int → Fin 2 → K) (f : Int → K) (ha : ∀ t ∈ ts, Area x t) :
    ∃ (g : Nat → Fin 2 → K) (r : List (Option (Fin 2 → K))),
      (∀ (j : Nat) (t : Tri), ts[j]? = some t → IsGrad x f t (g j)) ∧
      scalarGradient m (field n0 x) (field n0 f) = some r ∧ r.length = n0 ∧
      ∀ i < n0, r[i]? = some (if star ts i = ∅ then none
        else some fun d => (∑ j ∈ star ts i, g j d) / ((star ts i).card : K)) := by
  classical
  have B := built ho hv hb
  have hn0 : m.n0 = n0 := B.choose_spec.hn0
  let G : Nat → Fin 2 → K := fun j => ((ts.map (triGrad x f))[j]?).getD fun _ => 0
  have hG : ∀ j < (ts.map (triGrad x f)).length, (ts.map (triGrad x f))[j]? = some (G j) := by
    intro j hj
    simp only [G]
    rw [List.getElem?_eq_getElem hj]; rfl
  have hrow : ∀ i ∈ List.range n0, ((m.vertexTriangles (i : Nat)).bind (average (ts.map (triGrad x f)))) =
      some (if star ts i = ∅ then none else some fun d => (∑ j ∈ star ts i, G j d) / ((star ts i).card : K)) := by
    intro i hi
    obtain ⟨L, l1, l2, l3, l4⟩ := star_list hv B (List.mem_range.1 hi)
    have hr := read_cells G (ts.map (triGrad x f)) hG L (by simpa using l4)
    rw [l3, Option.bind_some]
    unfold average
    rw [hr, Option.bind_eq_bind, Option.bind_some, foldl_grad]
    have hc : (star ts i).card = L.length := by rw [← l2, List.toFinset_card_of_nodup l1]
    by_cases hL : L = []
    · subst hL
      have : star ts (i : Int) = ∅ := by rw [← l2]; rfl
      simp [this]
    · have h1 : star ts (i : Int) ≠ ∅ := by
        rw [← l2]; simpa using hL
      simp only [h1, if_false, List.length_map, hc, List.length_eq_zero_iff, hL]
      congr 2
      funext d
      rw [← l2, List.sum_toFinset _ l1, zero_add, List.map_map]
      rfl
  refine ⟨G, (List.range n0).map fun (i : Nat) => if star ts i = ∅ then none
    else some fun d => (∑ j ∈ star ts i, G j d) / ((star ts i).card : K), ?_, ?_, by simp, ?_⟩
  · intro j t ht
    have : G j = triGrad x f t := by simp [G, ht]
    rw [this]
    exact isGrad_triGrad x f (hv.distinct t (List.mem_of_getElem? ht)) (ha t (List.mem_of_getElem? ht))
  · unfold scalarGradient
    rw [cell_eq B hv, Option.bind_eq_bind, Option.bind_some, hn0]
    exact MPAS.mapM_some _ _ _ hrow
  · intro i hi
    simp [hi]

/-- In particular the gradient of an affine field is exact at every vertex that has a triangle. -/
theorem C176_affine_exact (ho : IsOrder order) (hv : Valid n0 ts) (hb : build order n0 ts = some m)
    (x : Int → Fin 2 → K) (c : K) (g : Fin 2 → K) (ha : ∀ t ∈ ts, Area x t) :
    ∃ r, scalarGradient m (field n0 x) (field n0 fun v => c + (g 0 * x v 0 + g 1 * x v 1)) = some r ∧ r.length = n0 ∧
      ∀ i < n0, (∃ t ∈ ts, OnTri i t) → r[i]? = some (some g) := by
  obtain ⟨G, r, h1, h2, h3, h4⟩ := C176_scalar_gradient ho hv hb x (fun v => c + (g 0 * x v 0 + g 1 * x v 1)) ha
  refine ⟨r, h2, h3, fun i hi ht => ?_⟩
  rw [h4 i hi]
  have hne : star ts (i : Int) ≠ ∅ := by
    obtain ⟨t, ht, hon⟩ := ht
    obtain ⟨j, hj⟩ := List.getElem?_of_mem ht
    apply Finset.Nonempty.ne_empty
    refine ⟨j, ?_⟩
    simp only [star, Finset.mem_filter, Finset.mem_range]
    exact ⟨(List.getElem?_eq_some_iff.1 hj).1, t, hj, hon⟩
  rw [if_neg hne]
  congr 2
  funext d
  have : ∀ j ∈ star ts (i : Int), G j d = g d := by
    intro j hj
    simp only [star, Finset.mem_filter] at hj
    obtain ⟨-, t, hj, -⟩ := hj
    rw [isGrad_unique (ha t (List.mem_of_getElem? hj)) (h1 j t hj) ⟨c, fun v _ => rfl⟩]
  rw [Finset.sum_congr rfl this, Finset.sum_const, nsmul_eq_mul]
  have hc : ((star ts (i : Int)).card : K) ≠ 0 := by
    exact_mod_cast Finset.card_ne_zero.2 (Finset.nonempty_iff_ne_empty.2 hne)
  field_simp

/-- C176: `vector_gradient` of a field with `w` components: the derivatives along the first axis are the averages, as for a
scalar.  The entry for the second axis is **not** the derivative along the second axis, but the derivative along the first
axis divided once more by the number of triangles.  Missing: the second derivative. -/
theorem C176_vector_gradient_partial (ho : IsOrder order) (hv : Valid n0 ts) (hb : build order n0 ts = some m)
    (x : Int → Fin 2 → K) (w : Nat) (u : Nat → Int → K) (ha : ∀ t ∈ ts, Area x t) :
    ∃ (g : Nat → Nat → Fin 2 → K) (r : List (List (Option (Fin 2 → K)))),
      (∀ c < w, ∀ (j : Nat) (t : Tri), ts[j]? = some t → IsGrad x (u c) t (g c j)) ∧
      vectorGradient m (field n0 x) w (field n0 fun v => (List.range w).map fun c => u c v) = some r ∧ r.length = w ∧
      ∀ c < w, ∃ rc, r[c]? = some rc ∧ rc.length = n0 ∧ ∀ i < n0, rc[i]? = some (if star ts i = ∅ then none
        else some ![(∑ j ∈ star ts i, g c j 0) / ((star ts i).card : K),
          (∑ j ∈ star ts i, g c j 0) / ((star ts i).card : K) / ((star ts i).card : K)]) := by
  classical
  have B := built ho hv hb
  have hn0 : m.n0 = n0 := B.choose_spec.hn0
  let G : Nat → Nat → Fin 2 → K := fun c j => ((ts.map (triGrad x (u c)))[j]?).getD fun _ => 0
  have hG : ∀ c, ∀ j < (ts.map (triGrad x (u c))).length, (ts.map (triGrad x (u c)))[j]? = some (G c j) := by
    intro c j hj
    simp only [G]
    rw [List.getElem?_eq_getElem hj]; rfl
  let R : Nat → List (Option (Fin 2 → K)) := fun c => (List.range n0).map fun (i : Nat) => if star ts i = ∅ then none
        else some ![(∑ j ∈ star ts i, G c j 0) / ((star ts i).card : K),
          (∑ j ∈ star ts i, G c j 0) / ((star ts i).card : K) / ((star ts i).card : K)]
  have hcomp : ∀ c ∈ List.range w, vectorGradientC m (field n0 x) (field n0 fun v => (List.range w).map fun c => u c v) c
      = some (R c) := by
    intro c hc
    have e1 : component (field n0 fun v => (List.range w).map fun c => u c v) c = some (field n0 (u c)) := by
      unfold component
      rw [MPAS.mapM_some _ (fun col => col[c]?.getD 0)]
      · simp [field, List.map_map, Function.comp_def, List.mem_range.1 hc]
      · intro col hcol
        simp only [field, List.mem_map] at hcol
        obtain ⟨v, -, rfl⟩ := hcol
        simp [List.mem_range.1 hc]
    unfold vectorGradientC
    rw [e1, Option.bind_eq_bind, Option.bind_some, cell_eq B hv, Option.bind_eq_bind, Option.bind_some, hn0]
    apply MPAS.mapM_some
    intro i hi
    obtain ⟨L, l1, l2, l3, l4⟩ := star_list hv B (List.mem_range.1 hi)
    have hr := read_cells (G c) (ts.map (triGrad x (u c))) (hG c) L (by simpa using l4)
    rw [l3, Option.bind_eq_bind, Option.bind_some, hr, Option.bind_eq_bind, Option.bind_some, foldl_comp]
    have hcard : (star ts i).card = L.length := by rw [← l2, List.toFinset_card_of_nodup l1]
    by_cases hL : L = []
    · subst hL
      have : star ts (i : Int) = ∅ := by rw [← l2]; rfl
      simp [this]
    · have h1 : star ts (i : Int) ≠ ∅ := by
        rw [← l2]; simpa using hL
      have h2 : ((L.map (G c)).map fun g => g 0).sum = ∑ j ∈ star ts (i : Int), G c j 0 := by
        rw [← l2, List.sum_toFinset _ l1, List.map_map]
        rfl
      simp only [h1, if_false, List.length_map, hcard, List.length_eq_zero_iff, hL, zero_add, h2]
  refine ⟨G, (List.range w).map R, ?_, ?_, by simp, ?_⟩
  · intro c _ j t ht
    have : G c j = triGrad x (u c) t := by simp [G, ht]
    rw [this]
    exact isGrad_triGrad x (u c) (hv.distinct t (List.mem_of_getElem? ht)) (ha t (List.mem_of_getElem? ht))
  · unfold vectorGradient
    exact MPAS.mapM_some _ _ _ hcomp
  · intro c hc
    refine ⟨R c, by simp [hc], by simp [R], fun i hi => ?_⟩
    simp [R, hi]

theorem star_nonempty {i : Nat} (h : ∃ t ∈ ts, OnTri (i : Int) t) : star ts (i : Int) ≠ ∅ := by
  obtain ⟨t, ht, hon⟩ := h
  obtain ⟨j, hj⟩ := List.getElem?_of_mem ht
  apply Finset.Nonempty.ne_empty
  refine ⟨j, ?_⟩
  simp only [star, Finset.mem_filter, Finset.mem_range]
  exact ⟨(List.getElem?_eq_some_iff.1 hj).1, t, hj, hon⟩

/-- What `vector_gradient` does to an affine component with gradient `(g0, g1)`: `(g0, g0 / n)` at a vertex with `n`
triangles; `g1` is lost. -/
theorem C176_vector_affine (ho : IsOrder order) (hv : Valid n0 ts) (hb : build order n0 ts = some m)
    (x : Int → Fin 2 → K) (w : Nat) (u : Nat → Int → K) (ha : ∀ t ∈ ts, Area x t) :
    ∃ r, vectorGradient m (field n0 x) w (field n0 fun v => (List.range w).map fun c => u c v) = some r ∧ r.length = w ∧
      ∀ (c : Nat), c < w → ∀ (k : K) (g : Fin 2 → K),
        (∀ v : Int, 0 ≤ v → v < n0 → u c v = k + (g 0 * x v 0 + g 1 * x v 1)) →
        ∃ rc, r[c]? = some rc ∧ rc.length = n0 ∧ ∀ i < n0, (∃ t ∈ ts, OnTri i t) →
          rc[i]? = some (some ![g 0, g 0 / ((star ts i).card : K)]) := by
  obtain ⟨G, r, h1, h2, h3, h4⟩ := C176_vector_gradient_partial ho hv hb x w u ha
  refine ⟨r, h2, h3, fun c hc k g hu => ?_⟩
  obtain ⟨rc, e1, e2, e3⟩ := h4 c hc
  refine ⟨rc, e1, e2, fun i hi ht => ?_⟩
  have hne := star_nonempty ht
  rw [e3 i hi, if_neg hne]
  have : ∀ j ∈ star ts (i : Int), G c j 0 = g 0 := by
    intro j hj
    simp only [star, Finset.mem_filter] at hj
    obtain ⟨-, t, hj, -⟩ := hj
    have hm := List.mem_of_getElem? hj
    rw [isGrad_unique (ha t hm) (h1 c hc j t hj) ⟨k, fun v hv' => hu v (hv.range t hm v hv').1 (hv.range t hm v hv').2⟩]
  rw [Finset.sum_congr rfl this, Finset.sum_const, nsmul_eq_mul]
  have hc : ((star ts (i : Int)).card : K) ≠ 0 := by
    exact_mod_cast Finset.card_ne_zero.2 (Finset.nonempty_iff_ne_empty.2 hne)
  have e : ((star ts (i : Int)).card : K) * g 0 / ((star ts (i : Int)).card : K) = g 0 := by field_simp
  rw [e]

/-- So the property "`vector_gradient` is exact for affine components" fails on every mesh with a triangle: the component
`u(x) = x_1` has gradient `(0, 1)` on every triangle, and the result is `(0, 0)` at every vertex of a triangle. -/
theorem C176_vector_gradient_wrong (ho : IsOrder order) (hv : Valid n0 ts) (hb : build order n0 ts = some m)
    (x : Int → Fin 2 → K) (ha : ∀ t ∈ ts, Area x t) :
    (∀ t ∈ ts, IsGrad x (fun v => x v 1) t ![0, 1]) ∧
    ∃ rc, vectorGradient m (field n0 x) 1 (field n0 fun v => [x v 1]) = some [rc] ∧
      ∀ i < n0, (∃ t ∈ ts, OnTri i t) → rc[i]? = some (some ![0, 0]) := by
  refine ⟨fun t _ => ⟨0, fun v _ => by simp⟩, ?_⟩
  obtain ⟨r, h1, h2, h3⟩ := C176_vector_affine ho hv hb x 1 (fun _ v => x v 1) ha
  obtain ⟨rc, e1, -, e3⟩ := h3 0 (by omega) 0 ![0, 1] (by simp)
  obtain ⟨a, rfl⟩ := List.length_eq_one_iff.1 h2
  simp only [List.getElem?_cons_zero, Option.some.injEq] at e1
  subst e1
  refine ⟨a, by simpa using h1, fun i hi ht => ?_⟩
  rw [e3 i hi ht]
  simp

/-- `scalar_gradient_jacobian` of an affine field: the gradient is exact and the Jacobian zero everywhere. -/
theorem C176_affine_jacobian (ho : IsOrder order) (hv : Valid n0 ts) (hb : build order n0 ts = some m)
    (x : Int → Fin 2 → K) (c : K) (g : Fin 2 → K) (ha : ∀ t ∈ ts, Area x t) (hall : ∀ i < n0, ∃ t ∈ ts, OnTri i t) :
    scalarGradientJacobian m (field n0 x) (field n0 fun v => c + (g 0 * x v 0 + g 1 * x v 1)) =
      some (List.replicate n0 g, List.replicate 2 (List.replicate n0 (some ![0, 0]))) := by
  obtain ⟨r, h1, h2, h3⟩ := C176_affine_exact ho hv hb x c g ha
  have hr : r = List.replicate n0 (some g) := by
    apply List.ext_getElem?
    intro i
    by_cases hi : i < n0
    · rw [h3 i hi (hall i hi)]; simp [hi]
    · rw [List.getElem?_eq_none (by omega), List.getElem?_eq_none (by simp; omega)]
  have hid : (List.replicate n0 (some g)).mapM id = some (List.replicate n0 g) := by
    rw [MPAS.mapM_some _ (fun o => o.getD g)]
    · simp
    · intro a ha; rw [List.eq_of_mem_replicate ha]; rfl
  have hf : (List.replicate n0 g).map (fun x => [x 0, x 1]) =
      field n0 fun _ => (List.range 2).map fun k => (fun (k : Nat) (_ : Int) => if k = 0 then g 0 else g 1) k 0 := by
    simp [field, List.range_succ]
  obtain ⟨r2, k1, k2, k3⟩ := C176_vector_affine ho hv hb x 2 (fun (k : Nat) (_ : Int) => if k = 0 then g 0 else g 1) ha
  unfold scalarGradientJacobian
  rw [h1, Option.bind_eq_bind, Option.bind_some, hr, hid, Option.bind_eq_bind, Option.bind_some, hf]
  rw [k1]
  simp only [Option.bind_eq_bind, Option.bind_some, Option.some.injEq, Prod.mk.injEq, true_and]
  apply List.ext_getElem?
  intro k
  by_cases hk : k < 2
  · obtain ⟨rc, e1, e2, e3⟩ := k3 k hk (if k = 0 then g 0 else g 1) 0 (by intro v _ _; simp)
    rw [e1]
    simp only [List.getElem?_replicate, hk, if_true, Option.some.injEq]
    apply List.ext_getElem?
    intro i
    by_cases hi : i < n0
    · rw [e3 i hi (hall i hi)]; simp [hi]
    · rw [List.getElem?_eq_none (by omega), List.getElem?_eq_none (by simp; omega)]
  · rw [List.getElem?_eq_none (by omega), List.getElem?_eq_none (by simp; omega)]

theorem sq_cover : ∀ i < 4, ∃ t ∈ square, OnTri ((i : Nat) : Int) t := by
  intro i hi
  interval_cases i <;> simp [square, OnTri]

/-- The square of `UMesh/Props.lean` with its isolated fifth vertex left out meets the hypotheses. -/
def sqX : Int → Fin 2 → ℚ := fun v => if v = 0 then ![0, 0] else if v = 1 then ![1, 0] else if v = 2 then ![0, 1] else ![2, 3]

theorem square4_valid : Valid 4 square :=
  ⟨fun t ht v hv => by
      simp only [square, List.mem_cons, List.not_mem_nil, or_false] at ht
      rcases ht with rfl | rfl <;> simp only [OnTri] at hv <;> omega,
    square_valid.distinct, square_valid.nodup, square_valid.manifold⟩

theorem sq_area : ∀ t ∈ square, Area sqX t := by
  intro t ht
  simp only [square, List.mem_cons, List.not_mem_nil, or_false] at ht
  rcases ht with rfl | rfl <;> simp [Area, sqX]
  norm_num

example : Valid 4 square ∧ (∀ t ∈ square, Area sqX t) ∧ (∀ i < 4, ∃ t ∈ square, OnTri (i : Nat) t) ∧
    ∃ m, build (fun l => l) 4 square = some m ∧
      scalarGradient m (field 4 sqX) [0, 1, 2, 8] = some [some ![1, 2], some ![1, 2], some ![1, 2], some ![1, 2]] := by
  refine ⟨square4_valid, sq_area, sq_cover, ?_⟩
  obtain ⟨m, hm⟩ := C69_build_defined isOrder_id square4_valid
  refine ⟨m, hm, ?_⟩
  obtain ⟨r, h1, h2, h3⟩ := C176_affine_exact isOrder_id square4_valid hm sqX 0 ![1, 2] sq_area
  have hf : (field 4 fun v => (0 : ℚ) + ((![1, 2] : Fin 2 → ℚ) 0 * sqX v 0 + (![1, 2] : Fin 2 → ℚ) 1 * sqX v 1)) =
      [0, 1, 2, 8] := by
    simp [field, List.range_succ, sqX]; norm_num
  rw [hf] at h1
  rw [h1]
  congr 1
  apply List.ext_getElem?
  intro i
  by_cases hi : i < 4
  · rw [h3 i hi (sq_cover i hi)]
    interval_cases i <;> rfl
  · rw [List.getElem?_eq_none (by omega), List.getElem?_eq_none (by simp; omega)]

end Verif.Smooth
