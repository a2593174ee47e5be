import Verif.XG2.Model
import Verif.Smooth.Grad
import Mathlib.Analysis.Calculus.Deriv.Mul
import Mathlib.Tactic.Linarith
import Mathlib.Tactic.FieldSimp
import Mathlib.Tactic.Positivity
/-! # Derived fields of the poloidal mesh (C177) -/
namespace Verif.XG2
open Verif.UM Verif.Smooth

/-! ## The unit field -/

/-- C177: `derive_bfield0` gives, for a non-zero field, the vector of length 1 in the same direction. -/
theorem C177_unit_field (b : Fin 3 → ℝ) (hb : b ≠ 0) : ∃ u, bfield0 b = some u ∧ u 0 ^ 2 + u 1 ^ 2 + u 2 ^ 2 = 1 ∧
    ∃ n : ℝ, 0 < n ∧ ∀ c, b c = n * u c := by
  have hpos : 0 < b 0 * b 0 + b 1 * b 1 + b 2 * b 2 := by
    by_contra h
    apply hb
    have h0 := mul_self_nonneg (b 0)
    have h1 := mul_self_nonneg (b 1)
    have h2 := mul_self_nonneg (b 2)
    funext c
    fin_cases c
    · show b 0 = 0
      exact mul_self_eq_zero.1 (le_antisymm (by linarith) h0)
    · show b 1 = 0
      exact mul_self_eq_zero.1 (le_antisymm (by linarith) h1)
    · show b 2 = 0
      exact mul_self_eq_zero.1 (le_antisymm (by linarith) h2)
  have hn : 0 < Real.sqrt (b 0 * b 0 + b 1 * b 1 + b 2 * b 2) := Real.sqrt_pos.2 hpos
  refine ⟨fun c => b c / Real.sqrt (b 0 * b 0 + b 1 * b 1 + b 2 * b 2), by simp only [bfield0, hn.ne', if_false], ?_, _, hn, ?_⟩
  · have hs := Real.sq_sqrt hpos.le
    simp only [div_pow]
    rw [← add_div, ← add_div, hs, div_eq_one_iff_eq hpos.ne']
    ring
  · intro c
    exact (mul_div_cancel₀ (b c) hn.ne').symm

/-- The zero field gives NaN. -/
theorem C177_unit_zero : bfield0 0 = none := by simp [bfield0]

example : (![3, 0, 4] : Fin 3 → ℝ) ≠ 0 := fun h => by have := congrFun h 0; norm_num at this

/-! ## The curl -/

/-- C177: with exact derivatives `g d c = ∂ B_c / ∂ (R, Z)_d` the three formulas of `derive_curl_bfield0` are the components
`-∂B_φ/∂Z`, `(1/R) ∂(R B_φ)/∂R`, `∂B_R/∂Z - ∂B_Z/∂R` of the curl of an axisymmetric field. -/
theorem C177_curl_formula (B : ℝ → ℝ → Fin 3 → ℝ) (R Z : ℝ) (hR : R ≠ 0) (g : Fin 2 → Fin 3 → ℝ) (D : ℝ)
    (h0 : ∀ c, HasDerivAt (fun r => B r Z c) (g 0 c) R) (hD : HasDerivAt (fun r => r * B r Z 2) D R) :
    curlAt R (B R Z) g = ![-g 1 2, D / R, g 1 0 - g 0 1] := by
  have h := (hasDerivAt_id R).mul (h0 2)
  have e := hD.unique h
  unfold curlAt
  congr 1
  rw [e]
  simp only [id_eq, one_mul]
  congr 1
  field_simp

/-- The field `B_φ = R` meets the hypotheses with `D = 2 R`. -/
example : HasDerivAt (fun r : ℝ => r * ![(0 : ℝ), 0, r] 2) (2 * 3) 3 := by
  have := (hasDerivAt_id (3 : ℝ)).mul (hasDerivAt_id (3 : ℝ))
  refine HasDerivAt.congr_deriv this ?_
  norm_num

section mesh
variable {K : Type} [Field K] [LinearOrder K] [IsStrictOrderedRing K]
  {order : List (Edge × Int) → List (Edge × Int)} {n0 : Nat} {ts : List Tri} {m : M2}

/-- C177: what `derive_curl_bfield0` gives for a field whose three components are affine, with gradients `G c`: at a vertex
with `n` triangles `(-∂_R B_φ / n, B_φ / R + ∂_R B_φ, ∂_R B_R / n - ∂_R B_Z)`.  Only the middle component is the curl; the
derivatives along `Z` are lost in `vector_gradient` (C176).  Missing: the other two components. -/
theorem C177_curl_partial (ho : IsOrder order) (hv : Valid n0 ts) (hb : build order n0 ts = some m)
    (x : Int → Fin 2 → K) (ha : ∀ t ∈ ts, Area x t) (hall : ∀ i < n0, ∃ t ∈ ts, OnTri (i : Nat) t)
    (k : Fin 3 → K) (G : Fin 3 → Fin 2 → K) :
    ∃ r, deriveCurl m (field n0 x) (field n0 fun v => fun c => k c + (G c 0 * x v 0 + G c 1 * x v 1)) = some r ∧
      r.length = n0 ∧ ∀ i < n0, r[i]? = some (some ![-(G 2 0 / ((star ts (i : Nat)).card : K)),
        (k 2 + (G 2 0 * x i 0 + G 2 1 * x i 1)) / x i 0 + G 2 0, G 0 0 / ((star ts (i : Nat)).card : K) - G 1 0]) := by
  let b : Int → Fin 3 → K := fun v => fun c => k c + (G c 0 * x v 0 + G c 1 * x v 1)
  let u : Nat → Int → K := fun c v => if c = 0 then b v 0 else if c = 1 then b v 1 else b v 2
  obtain ⟨r, h1, h2, h3⟩ := C176_vector_affine ho hv hb x 3 u ha
  have hf : (field n0 b).map (fun b => [b 0, b 1, b 2]) = field n0 fun v => (List.range 3).map fun c => u c v := by
    simp [field, List.range_succ, u, Function.comp_def]
  obtain ⟨g0, a0, -, c0⟩ := h3 0 (by omega) (k 0) (G 0) (by intro v _ _; simp [u, b])
  obtain ⟨g1, a1, -, c1⟩ := h3 1 (by omega) (k 1) (G 1) (by intro v _ _; simp [u, b])
  obtain ⟨g2, a2, -, c2⟩ := h3 2 (by omega) (k 2) (G 2) (by intro v _ _; simp [u, b])
  refine ⟨(List.range n0).map fun (i : Nat) => some ![-(G 2 0 / ((star ts (i : Nat)).card : K)),
        (k 2 + (G 2 0 * x i 0 + G 2 1 * x i 1)) / x i 0 + G 2 0, G 0 0 / ((star ts (i : Nat)).card : K) - G 1 0], ?_, by simp,
        fun i hi => by simp [hi]⟩
  unfold deriveCurl
  simp only [show (fun v => fun c => k c + (G c 0 * x v 0 + G c 1 * x v 1)) = b from rfl]
  rw [hf]
  simp only [h1, a0, a1, a2, Option.bind_eq_bind, Option.bind_some]
  rw [show (field n0 b).length = n0 by simp [field]]
  apply MPAS.mapM_some
  intro i hi
  have hi := List.mem_range.1 hi
  have e1 : (field n0 b)[i]? = some (b i) := by simp [field, hi]
  have e2 : (field n0 x)[i]? = some (x i) := by simp [field, hi]
  simp only [e1, e2, c0 i hi (hall i hi), c1 i hi (hall i hi), c2 i hi (hall i hi), Option.bind_some, Option.some.injEq]
  funext c
  fin_cases c <;> simp [curlAt, b]

/-- On every mesh the field `B_R = Z` has curl `(0, 0, 1)`, and the result is zero everywhere. -/
theorem C177_curl_wrong (ho : IsOrder order) (hv : Valid n0 ts) (hb : build order n0 ts = some m)
    (x : Int → Fin 2 → K) (ha : ∀ t ∈ ts, Area x t) (hall : ∀ i < n0, ∃ t ∈ ts, OnTri (i : Nat) t) :
    (∀ t ∈ ts, IsGrad x (fun v => (![x v 1, 0, 0] : Fin 3 → K) 0) t ![0, 1]) ∧
    (∀ R : K, curlAt R ![1, 0, 0] ![![0, 0, 0], ![1, 0, 0]] = ![0, 0, 1]) ∧
    ∃ r, deriveCurl m (field n0 x) (field n0 fun v => ![x v 1, 0, 0]) = some r ∧ ∀ i < n0, r[i]? = some (some ![0, 0, 0]) := by
  refine ⟨fun t _ => ⟨0, fun v _ => by simp⟩, fun R => by simp [curlAt], ?_⟩
  obtain ⟨r, h1, -, h3⟩ := C177_curl_partial ho hv hb x ha hall 0 ![![0, 1], ![0, 0], ![0, 0]]
  refine ⟨r, ?_, fun i hi => ?_⟩
  · rw [← h1]
    congr 2
    funext v c
    fin_cases c <;> simp
  · rw [h3 i hi]; simp

/-! ## The perturbation -/

/-- The cross product of two vectors given by their components along `R`, `Z`, `φ`: `e_R × e_φ = e_Z`, `e_φ × e_Z = e_R`,
`e_Z × e_R = e_φ`. -/
def cylCross (u v : Fin 3 → K) : Fin 3 → K :=
  ![u 2 * v 1 - u 1 * v 2, u 0 * v 2 - u 2 * v 0, u 1 * v 0 - u 0 * v 1]

example : cylCross (K := ℚ) ![1, 0, 0] ![0, 0, 1] = ![0, 1, 0] ∧ cylCross (K := ℚ) ![0, 0, 1] ![0, 1, 0] = ![1, 0, 0] ∧
    cylCross (K := ℚ) ![0, 1, 0] ![1, 0, 0] = ![0, 0, 1] := by
  refine ⟨?_, ?_, ?_⟩ <;> funext c <;> fin_cases c <;> simp [cylCross]

omit [LinearOrder K] [IsStrictOrderedRing K] in
/-- C177: the formula of `derive_delta_B` is `-(∇A × b) + A ∇ × b` with `∇A = (∂_R A, ∂_Z A, ∂_φ A)` — the product has the
wrong sign relative to the curl of `A b`, which is `∇A × b + A ∇ × b` (and the `φ`-derivative is not divided by `R`). -/
theorem C177_delta_formula (a : K) (g : Fin 2 → K) (dphi : K) (b curl : Fin 3 → K) :
    deltaAt a g dphi b curl = fun c => - cylCross ![g 0, g 1, dphi] b c + a * curl c := by
  funext c
  fin_cases c <;> simp [deltaAt, cylCross] <;> ring

/-- C177: `derive_delta_B` on a legal mesh without isolated vertices, for `np ≥ 1` planes: the gradient is the averaged
gradient of **plane 0** for every plane, the `φ`-derivative the central difference over the neighbouring planes. -/
theorem C177_delta_B (ho : IsOrder order) (hv : Valid n0 ts) (hb : build order n0 ts = some m)
    (x : Int → Fin 2 → K) (ha : ∀ t ∈ ts, Area x t) (hall : ∀ i < n0, ∃ t ∈ ts, OnTri (i : Nat) t)
    (twoPi : K) (b curl : Int → Fin 3 → K) (np : Nat) (hnp : 0 < np) (A : Nat → Int → K) :
    ∃ (g : Nat → Fin 2 → K) (r : List (List (Option (Fin 3 → K)))),
      (∀ (j : Nat) (t : Tri), ts[j]? = some t → IsGrad x (A 0) t (g j)) ∧
      deltaB m (field n0 x) twoPi (field n0 b) (field n0 curl) ((List.range np).map fun c => field n0 (A c)) = some r ∧
      r.length = np ∧ ∀ c < np, ∃ rc, r[c]? = some rc ∧ rc.length = n0 ∧ ∀ i < n0, rc[i]? = some (some
        (deltaAt (A c i) (fun d => (∑ j ∈ star ts (i : Nat), g j d) / ((star ts (i : Nat)).card : K))
          ((A ((c + 1) % np) i - A ((c + np - 1) % np) i) / (twoPi / (np : K) * 2)) (b i) (curl i))) := by
  obtain ⟨g, r0, h1, h2, h3, h4⟩ := C176_scalar_gradient ho hv hb x (A 0) ha
  have B := built ho hv hb
  have hn0 : m.n0 = n0 := B.choose_spec.hn0
  let P := fun (c i : Nat) => deltaAt (A c i) (fun d => (∑ j ∈ star ts (i : Nat), g j d) / ((star ts (i : Nat)).card : K))
          ((A ((c + 1) % np) i - A ((c + np - 1) % np) i) / (twoPi / (np : K) * 2)) (b i) (curl i)
  refine ⟨g, (List.range np).map fun (c : Nat) => (List.range n0).map fun (i : Nat) => some (P c i), h1, ?_, by simp,
    fun c hc => ⟨(List.range n0).map fun (i : Nat) => some (P c i), by simp [hc], by simp, fun i hi => by simp [hi, P]⟩⟩
  unfold deltaB
  simp only [List.length_map, List.length_range]
  apply MPAS.mapM_some
  intro c hc
  have hc := List.mem_range.1 hc
  have hplane : ∀ c' < np, ((List.range np).map fun c => field n0 (A c))[c']? = some (field n0 (A c')) := by
    intro c' h'; simp [h']
  simp only [hplane 0 hnp, hplane c hc, hplane _ (Nat.mod_lt (c + 1) hnp), hplane _ (Nat.mod_lt (c + np - 1) hnp), h2,
    Option.bind_eq_bind, Option.bind_some, hn0]
  apply MPAS.mapM_some
  intro i hi
  have hi := List.mem_range.1 hi
  have hfield : ∀ {α : Type} (f : Int → α), (field n0 f)[i]? = some (f i) := by intro α f; simp [field, hi]
  have hne := star_nonempty (hall i hi)
  simp only [hfield, h4 i hi, if_neg hne, Option.bind_some, Option.map_some, P]

/-- C177: where the potential is the same constant on all planes the result is right: `A ∇ × b`.  Missing: every other
potential, see the next theorem. -/
theorem C177_delta_B_partial (ho : IsOrder order) (hv : Valid n0 ts) (hb : build order n0 ts = some m)
    (x : Int → Fin 2 → K) (ha : ∀ t ∈ ts, Area x t) (hall : ∀ i < n0, ∃ t ∈ ts, OnTri (i : Nat) t)
    (twoPi : K) (b curl : Int → Fin 3 → K) (np : Nat) (hnp : 0 < np) (a : K) :
    ∃ r, deltaB m (field n0 x) twoPi (field n0 b) (field n0 curl) ((List.range np).map fun _ => field n0 fun _ => a) = some r ∧
      r.length = np ∧ ∀ c < np, ∃ rc, r[c]? = some rc ∧ rc.length = n0 ∧
        ∀ i < n0, rc[i]? = some (some fun d => a * curl i d) := by
  obtain ⟨g, r, h1, h2, h3, h4⟩ := C177_delta_B ho hv hb x ha hall twoPi b curl np hnp fun _ _ => a
  refine ⟨r, h2, h3, fun c hc => ?_⟩
  obtain ⟨rc, e1, e2, e3⟩ := h4 c hc
  refine ⟨rc, e1, e2, fun i hi => ?_⟩
  rw [e3 i hi]
  have hg : ∀ j ∈ star ts (i : Int), g j = ![0, 0] := by
    intro j hj
    simp only [Smooth.star, Finset.mem_filter] at hj
    obtain ⟨-, t, hj, -⟩ := hj
    exact isGrad_unique (ha t (List.mem_of_getElem? hj)) (h1 j t hj) ⟨a, fun v _ => by simp⟩
  congr 2
  have h0 : ∀ d, (∑ j ∈ star ts (i : Nat), g j d) / ((star ts (i : Nat)).card : K) = 0 := by
    intro d
    rw [Finset.sum_congr rfl (fun j hj => by rw [hg j hj])]
    fin_cases d <;> simp
  funext d
  fin_cases d <;> simp [deltaAt, h0]

/-- The sign: `b = e_φ` (with curl 0) and `A = Z` on every plane.  `∇ × (A b)` has `R`-component `-1`; the result is `+1`. -/
theorem C177_delta_B_sign_wrong (ho : IsOrder order) (hv : Valid n0 ts) (hb : build order n0 ts = some m)
    (x : Int → Fin 2 → K) (ha : ∀ t ∈ ts, Area x t) (hall : ∀ i < n0, ∃ t ∈ ts, OnTri (i : Nat) t)
    (twoPi : K) (np : Nat) (hnp : 0 < np) :
    cylCross ![0, 1, 0] ![0, 0, 1] = (![-1, 0, 0] : Fin 3 → K) ∧
    ∃ r, deltaB m (field n0 x) twoPi (field n0 fun _ => ![0, 0, 1]) (field n0 fun _ => 0)
        ((List.range np).map fun _ => field n0 fun v => x v 1) = some r ∧
      ∀ c < np, ∃ rc, r[c]? = some rc ∧ ∀ i < n0, rc[i]? = some (some ![1, 0, 0]) := by
  refine ⟨by funext c; fin_cases c <;> simp [cylCross], ?_⟩
  obtain ⟨g, r, h1, h2, h3, h4⟩ := C177_delta_B ho hv hb x ha hall twoPi (fun _ => ![0, 0, 1]) (fun _ => 0) np hnp
    fun _ v => x v 1
  refine ⟨r, h2, fun c hc => ?_⟩
  obtain ⟨rc, e1, e2, e3⟩ := h4 c hc
  refine ⟨rc, e1, fun i hi => ?_⟩
  rw [e3 i hi]
  have hne := star_nonempty (hall i hi)
  have hcard : ((star ts (i : Int)).card : K) ≠ 0 := by
    exact_mod_cast Finset.card_ne_zero.2 (Finset.nonempty_iff_ne_empty.2 hne)
  have hg : ∀ j ∈ star ts (i : Int), g j = ![0, 1] := by
    intro j hj
    simp only [Smooth.star, Finset.mem_filter] at hj
    obtain ⟨-, t, hj, -⟩ := hj
    exact isGrad_unique (ha t (List.mem_of_getElem? hj)) (h1 j t hj) ⟨0, fun v _ => by simp⟩
  have h0 : (∑ j ∈ star ts (i : Nat), g j 0) / ((star ts (i : Nat)).card : K) = 0 := by
    rw [Finset.sum_congr rfl (fun j hj => by rw [hg j hj])]; simp
  have h1' : (∑ j ∈ star ts (i : Nat), g j 1) / ((star ts (i : Nat)).card : K) = 1 := by
    rw [Finset.sum_congr rfl (fun j hj => by rw [hg j hj])]; simp [hcard]
  congr 2
  funext d
  fin_cases d <;> simp [deltaAt, h0, h1']

omit [LinearOrder K] [IsStrictOrderedRing K] in
/-- C177: `derive_total_B` adds the background field at every vertex of every plane. -/
theorem C177_total_B (bf : Int → Fin 3 → K) (dB : List (List (Option (Fin 3 → K)))) (h : ∀ p ∈ dB, p.length = n0) :
    ∃ r, totalB (field n0 bf) dB = some r ∧ r.length = dB.length ∧ ∀ (c : Nat) (p : List (Option (Fin 3 → K))),
      dB[c]? = some p → ∃ rc, r[c]? = some rc ∧ rc.length = n0 ∧
        ∀ (i : Nat) (d : Option (Fin 3 → K)), p[i]? = some d → rc[i]? = some (d.map fun d => fun j => d j + bf i j) := by
  let P := fun (p : List (Option (Fin 3 → K))) => (List.range p.length).map fun (i : Nat) =>
    (p[i]?.getD none).map fun d => fun j => d j + bf i j
  refine ⟨dB.map P, ?_, by simp, fun c p hp => ⟨P p, by simp [hp], by simp [P, h p (List.mem_of_getElem? hp)], ?_⟩⟩
  · unfold totalB
    apply MPAS.mapM_some
    intro p hp
    apply MPAS.mapM_some
    intro i hi
    have hi := List.mem_range.1 hi
    have hn : i < n0 := by rw [← h p hp]; exact hi
    have e : (field n0 bf)[i]? = some (bf i) := by simp [field, hn]
    rw [List.getElem?_eq_getElem hi, e]
    rfl
  · intro i d hd
    obtain ⟨hi, rfl⟩ := List.getElem?_eq_some_iff.1 hd
    simp [P, hi]

end mesh

/-- the hypotheses of the mesh theorems are met by the square -/
example : ∃ m, build (fun l => l) 4 square = some m ∧ ∃ r, deltaB m (field 4 sqX) 6 (field 4 fun _ => ![0, 0, 1])
    (field 4 fun _ => 0) ((List.range 3).map fun _ => field 4 fun v => sqX v 1) = some r := by
  obtain ⟨m, hm⟩ := C69_build_defined isOrder_id square4_valid
  obtain ⟨-, r, hr, -⟩ := C177_delta_B_sign_wrong isOrder_id square4_valid hm sqX sq_area sq_cover 6 3 (by omega)
  exact ⟨m, hm, r, hr⟩

end Verif.XG2
