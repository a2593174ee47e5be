import Verif.SoS.Geo
import Verif.SoS.Props
/-! # A degenerate simplex does not contain a point whose index is below all indices of its vertices

The query point of `robust_critical_point_in_simplex*` has index -1, so it moves further than every vertex. -/
namespace Verif.SoS
open Spec

theorem incr_range (m : ℕ → ℝ) (b : ℕ) : ∀ (d : ℕ) (k lo : ℕ), lo ≤ 2 ^ (b + k) →
    Incr ((List.range' k d).map fun i => (m i, 2 ^ (b + i))) lo (2 ^ (b + k + d)) := by
  intro d
  induction d with
  | zero => intro k lo h; exact h
  | succ d ih =>
    intro k lo h
    refine ⟨h, ?_⟩
    have := ih (k + 1) (2 ^ (b + k) + 1) (by
      have : 0 < 2 ^ (b + k) := by positivity
      rw [show b + (k + 1) = (b + k) + 1 by ring, pow_succ]
      omega)
    rwa [show b + (k + 1) + d = b + k + (d + 1) by ring] at this

theorem spSum_range (m : ℕ → ℝ) (b : ℕ) (ε : ℝ) : ∀ (d k : ℕ),
    spSum ((List.range' k d).map fun i => (m i, 2 ^ (b + i))) ε = ∑ i ∈ Finset.range d, m (k + i) * ε ^ 2 ^ (b + (k + i)) := by
  intro d
  induction d with
  | zero => intro k; simp [spSum]
  | succ d ih =>
    intro k
    rw [List.range'_succ, List.map_cons, spSum, ih, Finset.sum_range_succ', add_comm]
    congr 1
    refine Finset.sum_congr rfl fun i _ => ?_
    rw [show k + 1 + i = k + (i + 1) by ring]

theorem lead_exists : ∀ L : List (ℝ × ℕ), (∃ p ∈ L, p.1 ≠ 0) → ∃ s, Lead s L ∧ (s = 1 ∨ s = -1) := by
  intro L
  induction L with
  | nil => rintro ⟨p, hp, -⟩; cases hp
  | cons c L ih =>
    rintro ⟨p, hp, h0⟩
    rcases lt_trichotomy c.1 0 with h | h | h
    · exact ⟨-1, .inl (.inr ⟨rfl, h⟩), .inr rfl⟩
    · rcases List.mem_cons.1 hp with rfl | hp
      · exact absurd h h0
      · obtain ⟨s, hs, h1⟩ := ih ⟨p, hp, h0⟩
        exact ⟨s, .inr ⟨h, hs⟩, h1⟩
    · exact ⟨1, .inl (.inl ⟨rfl, h⟩), .inl rfl⟩

/-- the polynomial of the query's perturbation beats every higher power -/
theorem small_beats (A : ℝ) (m : ℕ → ℝ) (b d : ℕ) (h : A ≠ 0 ∨ ∃ i < d, m i ≠ 0) (C : ℝ) :
    Small fun ε => C * ε ^ 2 ^ (b + d) < |A + ∑ i ∈ Finset.range d, m i * ε ^ 2 ^ (b + i)| := by
  obtain ⟨s, hs, h1⟩ := lead_exists ((A, 0) :: (List.range' 0 d).map fun i => (m i, 2 ^ (b + i))) (by
    rcases h with h | ⟨i, hi, h⟩
    · exact ⟨_, List.mem_cons_self, h⟩
    · exact ⟨_, List.mem_cons_of_mem _ (List.mem_map.2 ⟨i, by simp [List.mem_range'_1, hi], rfl⟩), h⟩)
  have hi : Incr ((A, 0) :: (List.range' 0 d).map fun i => (m i, 2 ^ (b + i))) 0 (2 ^ (b + d)) :=
    ⟨le_refl _, by
      have := incr_range m b d 0 (0 + 1) Nat.one_le_two_pow
      rwa [add_zero] at this⟩
  refine small_mono ?_ (lead_sign _ 0 (2 ^ (b + d)) (fun _ => -((s : ℝ) * C)) s continuous_const hi hs)
  intro ε _ hsg
  rw [spSum, spSum_range] at hsg
  simp only [pow_zero, mul_one, zero_add] at hsg
  generalize A + ∑ i ∈ Finset.range d, m i * ε ^ 2 ^ (b + i) = S at *
  rcases h1 with rfl | rfl
  · rcases hsg with ⟨-, h⟩ | ⟨h, -⟩
    · push_cast at h
      exact lt_of_lt_of_le (by linarith) (le_abs_self _)
    · norm_num at h
  · rcases hsg with ⟨h, -⟩ | ⟨-, h⟩
    · norm_num at h
    · push_cast at h
      exact lt_of_lt_of_le (by linarith) (neg_le_abs _)

/-- the general statement, in any dimension -/
theorem not_inside_of_degenerate {d : ℕ} (lo : ℤ) (v : Fin (d + 1) → ℤ) (X : Fin (d + 1) → Fin d → ℤ) (x : Fin d → ℤ) (ix : ℤ)
    (hlo : lo ≤ ix) (hix : ∀ i, ix < v i) (h0 : orientZ X = 0) :
    Small fun ε => ¬ Inside (simplex lo v X ε) (pt lo ix x ε) := by
  have h0' : (mat fun i j => (X i j : ℝ)).det = 0 := by
    rw [← orient_eq, ← orientZ_cast, h0, Int.cast_zero]
  obtain ⟨u, hu, hu0⟩ := Matrix.exists_mulVec_eq_zero_iff.2 h0'
  have hrow : ∀ i, (∑ j : Fin d, (X i j : ℝ) * u j.castSucc) + u (Fin.last d) = 0 := by
    intro i
    have := congrFun hu0 i
    simpa [Matrix.mulVec, dotProduct, mat, Fin.sum_univ_castSucc, hom_cast, hom_last] using this
  set m : ℕ → ℝ := fun k => if h : k < d then u (Fin.castSucc ⟨d - 1 - k, by omega⟩) else 0 with hm
  have hn : ∃ i < d, m i ≠ 0 := by
    by_contra hc
    push Not at hc
    apply hu
    have hz : ∀ j : Fin d, u j.castSucc = 0 := by
      intro j
      have := hc (d - 1 - j) (by omega)
      rw [hm] at this
      simp only at this
      rw [dif_pos (by omega)] at this
      convert this using 3
      ext
      show (j : ℕ) = d - 1 - (d - 1 - j)
      omega
    funext k
    refine Fin.lastCases ?_ (fun j => hz j) k
    have := hrow 0
    simpa [hz] using this
  set b := d * (ix - lo).toNat with hb
  refine small_mono ?_ (small_and (small_beats ((∑ j, (x j : ℝ) * u j.castSucc) + u (Fin.last d)) m b d (.inr hn)
    (∑ j : Fin d, |u j.castSucc|)) ⟨1, one_pos, fun ε _ h => h⟩)
  rintro ε he ⟨hbig, he1⟩ ⟨w, w0, w1, w2⟩
  have hq : (∑ j : Fin d, (x j : ℝ) * u j.castSucc) + u (Fin.last d) + ∑ i ∈ Finset.range d, m i * ε ^ 2 ^ (b + i) =
      (∑ j, pt lo ix x ε j * u j.castSucc) + u (Fin.last d) := by
    have hs : ∑ i ∈ Finset.range d, m i * ε ^ 2 ^ (b + i) = ∑ j : Fin d, u j.castSucc * ε ^ 2 ^ (b + (d - 1 - (j : ℕ))) := by
      rw [← Finset.sum_range_reflect, Finset.sum_range]
      refine Finset.sum_congr rfl fun j _ => ?_
      have hj := j.2
      rw [hm]
      simp only
      rw [dif_pos (by omega)]
      congr 3
      ext
      show d - 1 - (d - 1 - (j : ℕ)) = j
      omega
    rw [hs]
    simp only [pt, add_mul, Finset.sum_add_distrib]
    rw [← hb]
    have : ∑ j : Fin d, u j.castSucc * ε ^ 2 ^ (b + (d - 1 - (j : ℕ))) = ∑ j : Fin d, ε ^ 2 ^ (b + (d - 1 - (j : ℕ))) * u j.castSucc :=
      Finset.sum_congr rfl fun _ _ => mul_comm _ _
    rw [this]
    ring
  have hp : (∑ j, pt lo ix x ε j * u j.castSucc) + u (Fin.last d) =
      ∑ i, w i * ∑ j : Fin d, ε ^ 2 ^ (d * (v i - lo).toNat + (d - 1 - (j : ℕ))) * u j.castSucc := by
    have h1 : ∑ j, pt lo ix x ε j * u j.castSucc = ∑ i, w i * ∑ j, simplex lo v X ε i j * u j.castSucc := by
      simp only [← w2, Finset.sum_mul, Finset.mul_sum]
      rw [Finset.sum_comm]
      exact Finset.sum_congr rfl fun _ _ => Finset.sum_congr rfl fun _ _ => by ring
    have h2 : u (Fin.last d) = ∑ i, w i * u (Fin.last d) := by rw [← Finset.sum_mul, w1, one_mul]
    rw [h1, h2, ← Finset.sum_add_distrib]
    refine Finset.sum_congr rfl fun i _ => ?_
    rw [← mul_add]
    congr 1
    simp only [simplex, pt, add_mul, Finset.sum_add_distrib]
    have := hrow i
    linarith
  rw [hq, hp] at hbig
  refine absurd hbig (not_lt.2 ?_)
  have hterm : ∀ i, |∑ j : Fin d, ε ^ 2 ^ (d * (v i - lo).toNat + (d - 1 - (j : ℕ))) * u j.castSucc| ≤
      (∑ j : Fin d, |u j.castSucc|) * ε ^ 2 ^ (b + d) := by
    intro i
    refine (Finset.abs_sum_le_sum_abs _ _).trans ?_
    rw [Finset.sum_mul]
    refine Finset.sum_le_sum fun j _ => ?_
    rw [abs_mul, mul_comm, abs_of_pos (pow_pos he _)]
    refine mul_le_mul_of_nonneg_left ?_ (abs_nonneg _)
    refine pow_le_pow_of_le_one he.le he1.le ?_
    refine Nat.pow_le_pow_right (by norm_num) ?_
    have : (ix - lo).toNat + 1 ≤ (v i - lo).toNat := by have := hix i; omega
    calc b + d = d * ((ix - lo).toNat + 1) := by rw [hb]; ring
      _ ≤ d * (v i - lo).toNat := Nat.mul_le_mul_left _ this
      _ ≤ _ := Nat.le_add_right _ _
  calc |∑ i, w i * ∑ j : Fin d, ε ^ 2 ^ (d * (v i - lo).toNat + (d - 1 - (j : ℕ))) * u j.castSucc|
      ≤ ∑ i, |w i * ∑ j : Fin d, ε ^ 2 ^ (d * (v i - lo).toNat + (d - 1 - (j : ℕ))) * u j.castSucc| := Finset.abs_sum_le_sum_abs _ _
    _ ≤ ∑ i, w i * ((∑ j : Fin d, |u j.castSucc|) * ε ^ 2 ^ (b + d)) := by
        refine Finset.sum_le_sum fun i _ => ?_
        rw [abs_mul, abs_of_pos (w0 i)]
        exact mul_le_mul_of_nonneg_left (hterm i) (w0 i).le
    _ = _ := by rw [← Finset.sum_mul, w1, one_mul]

/-- (specification) `p` lies in the closed simplex with the integer vertices `X`, and in one way only. -/
def Solvable {d : ℕ} (X : Fin (d + 1) → Fin d → ℤ) (p : Fin d → ℝ) : Prop :=
  ∃! w : Fin (d + 1) → ℝ, (∀ i, 0 ≤ w i) ∧ ∑ i, w i = 1 ∧ ∀ j, ∑ i, w i * (X i j : ℝ) = p j

/-- signs that agree where the determinants are not zero give weights that are not negative -/
theorem solvable_of_signs {d : ℕ} {X : Fin (d + 1) → Fin d → ℤ} {x : Fin d → ℤ} (hne : orientZ X ≠ 0)
    (h : ∀ i, orientZ (replace X i x) ≠ 0 → (orientZ X).sign = (orientZ (replace X i x)).sign) :
    Solvable X fun j => x j := by
  have hne' : orient (fun i j => (X i j : ℝ)) ≠ 0 := by rw [← orientZ_cast]; exact_mod_cast hne
  have hiff : ∀ w : Fin (d + 1) → ℝ, (∑ i, w i = 1 ∧ ∀ j, ∑ i, w i * (X i j : ℝ) = x j) ↔
      comb w (fun i j => (X i j : ℝ)) = hom fun j => (x j : ℝ) := by
    intro w
    constructor
    · rintro ⟨h1, h2⟩
      funext j
      refine Fin.lastCases ?_ (fun j => ?_) j
      · simp only [comb, hom_last, mul_one]; exact h1
      · simp only [comb, hom_cast]; exact h2 j
    · intro h1
      refine ⟨?_, fun j => ?_⟩
      · have := congrFun h1 (Fin.last d)
        simpa only [comb, hom_last, mul_one] using this
      · have := congrFun h1 j.castSucc
        simpa only [comb, hom_cast] using this
  obtain ⟨w, hw⟩ := comb_surj hne' (hom fun j => (x j : ℝ))
  refine ⟨w, ⟨fun i => ?_, (hiff w).2 hw⟩, fun w' hw' => comb_inj hne' (((hiff w').1 hw'.2).trans hw.symm)⟩
  have hr := orient_replace hw i
  have hrep : replace (fun i j => (X i j : ℝ)) i (fun j => (x j : ℝ)) = fun a j => ((replace X i x a j : ℤ) : ℝ) := by
    funext a j
    unfold replace
    split <;> rfl
  rw [hrep, ← orientZ_cast, ← orientZ_cast] at hr
  by_cases h0 : orientZ (replace X i x) = 0
  · rw [h0, Int.cast_zero] at hr
    rcases mul_eq_zero.1 hr.symm with h | h
    · exact h.ge
    · exact absurd (by exact_mod_cast h) hne
  · have hs := h i h0
    rcases lt_or_gt_of_ne hne with hl | hl
    · rw [Int.sign_eq_neg_one_of_neg hl, eq_comm, Int.sign_eq_neg_one_iff_neg] at hs
      have a : ((orientZ X : ℤ) : ℝ) < 0 := by exact_mod_cast hl
      have b : ((orientZ (replace X i x) : ℤ) : ℝ) < 0 := by exact_mod_cast hs
      nlinarith
    · rw [Int.sign_eq_one_of_pos hl, eq_comm, Int.sign_eq_one_iff_pos] at hs
      have a : 0 < ((orientZ X : ℤ) : ℝ) := by exact_mod_cast hl
      have b : 0 < ((orientZ (replace X i x) : ℤ) : ℝ) := by exact_mod_cast hs
      nlinarith

/-- C95 — segment: if the robust test with vertex indices ≥ 0 says that the field vanishes in the simplex, then the
vectors at the vertices are affinely independent, and they have exactly one convex combination that is zero. -/
theorem C95_hit1 (V : Fin 2 → ℤ) (v : Fin 2 → ℤ) (hv : Function.Injective v) (h0 : ∀ i, 0 ≤ v i)
    (h : criticalPointInSimplex1 V v = true) :
    orientZ (fun i (_ : Fin 1) => V i) ≠ 0 ∧ Solvable (fun i (_ : Fin 1) => V i) fun _ => 0 := by
  have hm : ∀ i, v i ≠ -1 := fun i => by have := h0 i; omega
  have hne : orientZ (fun i (_ : Fin 1) => V i) ≠ 0 := by
    intro hz
    obtain ⟨ε, -, h1, h2⟩ := small_exists (small_and
      (C31_inside1 (-1) V v 0 (-1) (fun i => by have := h0 i; omega) (le_refl _) hv hm)
      (not_inside_of_degenerate (-1) v (fun i (_ : Fin 1) => V i) (fun _ => 0) (-1) (le_refl _) (fun i => by have := h0 i; omega) hz))
    exact h2 (h1.1 h)
  refine ⟨hne, ?_⟩
  have := solvable_of_signs (x := fun _ => 0) hne fun i hi => ?_
  · simpa using this
  · unfold criticalPointInSimplex1 pointInSimplex1 at h
    rw [allLoop_iff] at h
    have := h i
    rw [beq_iff_eq, C30_exact1 V v hv hne] at this
    have hrep : (fun a (_ : Fin 1) => replace V i 0 a) = replace (fun i (_ : Fin 1) => V i) i fun _ => 0 := by
      funext a j
      unfold replace
      split <;> rfl
    rw [this, C30_exact1 _ _ (replace_inj hv hm i) (by rw [hrep]; exact hi), hrep]

/-- C95 — triangle. -/
theorem C95_hit2 (V : Fin 3 → Fin 2 → ℤ) (v : Fin 3 → ℤ) (hv : Function.Injective v) (h0 : ∀ i, 0 ≤ v i)
    (h : criticalPointInSimplex2 V v = true) : orientZ V ≠ 0 ∧ Solvable V fun _ => 0 := by
  have hm : ∀ i, v i ≠ -1 := fun i => by have := h0 i; omega
  have hne : orientZ V ≠ 0 := by
    intro hz
    obtain ⟨ε, -, h1, h2⟩ := small_exists (small_and
      (C31_inside2 (-1) V v (fun _ => 0) (-1) (fun i => by have := h0 i; omega) (le_refl _) hv hm)
      (not_inside_of_degenerate (-1) v V (fun _ => 0) (-1) (le_refl _) (fun i => by have := h0 i; omega) hz))
    exact h2 (h1.1 h)
  refine ⟨hne, ?_⟩
  have := solvable_of_signs (x := fun _ => 0) hne fun i hi => ?_
  · simpa using this
  · unfold criticalPointInSimplex2 pointInSimplex2 at h
    rw [allLoop_iff] at h
    have := h i
    rw [beq_iff_eq, C30_exact2 V v hv hne] at this
    rw [this, C30_exact2 _ _ (replace_inj hv hm i) hi]

/-- C95 — tetrahedron. -/
theorem C95_hit3 (V : Fin 4 → Fin 3 → ℤ) (v : Fin 4 → ℤ) (hv : Function.Injective v) (h0 : ∀ i, 0 ≤ v i)
    (h : criticalPointInSimplex3 V v = true) : orientZ V ≠ 0 ∧ Solvable V fun _ => 0 := by
  have hm : ∀ i, v i ≠ -1 := fun i => by have := h0 i; omega
  have hne : orientZ V ≠ 0 := by
    intro hz
    obtain ⟨ε, -, h1, h2⟩ := small_exists (small_and
      (C31_inside3 (-1) V v (fun _ => 0) (-1) (fun i => by have := h0 i; omega) (le_refl _) hv hm)
      (not_inside_of_degenerate (-1) v V (fun _ => 0) (-1) (le_refl _) (fun i => by have := h0 i; omega) hz))
    exact h2 (h1.1 h)
  refine ⟨hne, ?_⟩
  have := solvable_of_signs (x := fun _ => 0) hne fun i hi => ?_
  · simpa using this
  · unfold criticalPointInSimplex3 pointInSimplex3 at h
    rw [allLoop_iff] at h
    have := h i
    rw [beq_iff_eq, C30_exact3 V v hv hne] at this
    rw [this, C30_exact3 _ _ (replace_inj hv hm i) hi]

/-- Non-vacuity of C95: a zero on an edge of the triangle, and a zero at a vertex of the tetrahedron, are reported. -/
example : criticalPointInSimplex1 ![0, 5] ![3, 7] = true ∧ criticalPointInSimplex2 ![![-1, 0], ![1, 0], ![0, 4]] ![0, 1, 2] = true ∧
    criticalPointInSimplex3 ![![0, 0, 0], ![1, 0, 0], ![0, 1, 0], ![0, 0, 1]] ![0, 1, 2, 3] = true := by
  refine ⟨?_, ?_, ?_⟩ <;> decide +kernel

/-- C95 needs indices that are not negative (the trackers number vertices from 0): with an index below that of the query,
a degenerate triangle is reported. -/
theorem C95_negative_index : criticalPointInSimplex2 ![![-1, -1], ![-1, -1], ![1, 1]] ![-2, 4, 5] = true ∧
    orientZ ![![-1, -1], ![-1, -1], ![1, 1]] = 0 := by
  refine ⟨by decide +kernel, by decide +kernel⟩

end Verif.SoS
