import Verif.SoS.Sort
import Verif.SoS.Geo
import Mathlib.Tactic.NormNum

/-!
# C29–C32: robust orientation signs, point-in-simplex and critical-point tests

`lo` is any lower bound of the vertex indices in play; the tracker uses indices `≥ 0` for mesh
vertices and `-1` for the zero vector, so `lo = -1` there.
-/

namespace Verif.SoS
open Spec
open Num (det2 det3 det4)

/-! ## C30: the robust sign is the sign of the perturbed determinant -/

theorem orient_perm {d : ℕ} (lo : ℤ) (v : Fin (d + 1) → ℤ) (X : Fin (d + 1) → Fin d → ℤ) (ε : ℝ)
    (σ : Equiv.Perm (Fin (d + 1))) :
    orient (simplex lo (fun i => v (σ i)) (fun i => X (σ i)) ε)
      = (Equiv.Perm.sign σ : ℤ) * orient (simplex lo v X ε) := by
  rw [orient_eq, orient_eq, ← Matrix.det_permute]
  rfl

theorem finish {d : ℕ} {lo : ℤ} {v : Fin (d + 1) → ℤ} {X : Fin (d + 1) → Fin d → ℤ}
    {σ : Equiv.Perm (Fin (d + 1))} {r : ℤ} {odd : Prop} [Decidable odd]
    (h1 : odd → Equiv.Perm.sign σ = -1) (h2 : ¬ odd → Equiv.Perm.sign σ = 1)
    (h : Small fun ε => IsSign r (orient (simplex lo (fun i => v (σ i)) (fun i => X (σ i)) ε))) :
    Small fun ε => IsSign (if odd then -r else r) (orient (simplex lo v X ε)) := by
  refine small_mono ?_ h
  intro ε _ hs
  rw [orient_perm] at hs
  by_cases ho : odd
  · rw [if_pos ho]
    rw [h1 ho] at hs
    have := isSign_neg hs
    simpa using this
  · rw [if_neg ho]
    rw [h2 ho] at hs
    simpa using hs

/-- C30 (d = 1). -/
theorem C30_positive1 (lo : ℤ) (X : Fin 2 → ℤ) (v : Fin 2 → ℤ) (hlo : ∀ i, lo ≤ v i)
    (hv : Function.Injective v) :
    Small fun ε => IsSign (positive1 X v) (orient (simplex lo v (fun i _ => X i) ε)) := by
  obtain ⟨σ, ho, hs, h1, h2⟩ := sort_spec v hv
  unfold positive1
  refine finish h1 h2 ?_
  simp only [ho]
  exact sorted1 lo (fun i => v (σ i)) (fun i _ => X (σ i)) (fun i => hlo _) (hs 0 1 (by decide))

/-- C30 (d = 2). -/
theorem C30_positive2 (lo : ℤ) (X : Fin 3 → Fin 2 → ℤ) (v : Fin 3 → ℤ) (hlo : ∀ i, lo ≤ v i)
    (hv : Function.Injective v) :
    Small fun ε => IsSign (positive2 X v) (orient (simplex lo v X ε)) := by
  obtain ⟨σ, ho, hs, h1, h2⟩ := sort_spec v hv
  unfold positive2
  refine finish h1 h2 ?_
  simp only [ho]
  exact sorted2 lo (fun i => v (σ i)) (fun i => X (σ i)) (fun i => hlo _) (hs 0 1 (by decide))
    (hs 1 2 (by decide))

/-- C30 (d = 3). -/
theorem C30_positive3 (lo : ℤ) (X : Fin 4 → Fin 3 → ℤ) (v : Fin 4 → ℤ) (hlo : ∀ i, lo ≤ v i)
    (hv : Function.Injective v) :
    Small fun ε => IsSign (positive3 X v) (orient (simplex lo v X ε)) := by
  obtain ⟨σ, ho, hs, h1, h2⟩ := sort_spec v hv
  unfold positive3
  refine finish h1 h2 ?_
  simp only [ho]
  exact sorted3 lo (fun i => v (σ i)) (fun i => X (σ i)) (fun i => hlo _) (hs 0 1 (by decide))
    (hs 1 2 (by decide)) (hs 2 3 (by decide))

theorem exists_lo {n : ℕ} (v : Fin n → ℤ) : ∃ lo, ∀ i, lo ≤ v i := by
  refine ⟨-∑ i, |v i|, fun i => ?_⟩
  have h1 := Finset.single_le_sum (f := fun i => |v i|) (fun j _ => abs_nonneg (v j)) (Finset.mem_univ i)
  have h2 := neg_abs_le (v i)
  omega

/-- The unperturbed orientation (Mathlib's determinant over `ℤ`). -/
def orientZ {d : ℕ} (X : Fin (d + 1) → Fin d → ℤ) : ℤ :=
  Matrix.det (Matrix.of fun i => (Fin.snoc (X i) 1 : Fin (d + 1) → ℤ))

theorem orientZ_cast {d : ℕ} (X : Fin (d + 1) → Fin d → ℤ) :
    ((orientZ X : ℤ) : ℝ) = orient fun i j => (X i j : ℝ) := by
  unfold orientZ orient
  rw [Int.cast_det (R := ℝ)]
  congr 1
  ext i j
  refine Fin.lastCases ?_ (fun j => ?_) j <;> simp

theorem orient_cont {d : ℕ} (lo : ℤ) (v : Fin (d + 1) → ℤ) (X : Fin (d + 1) → Fin d → ℤ) :
    Continuous fun ε => orient (simplex lo v X ε) := by
  unfold orient
  simp only [Matrix.det_apply]
  refine continuous_finsetSum _ fun σ _ => ?_
  refine Continuous.const_smul ?_ _
  refine continuous_finsetProd _ fun i _ => ?_
  simp only [Matrix.of_apply]
  refine Fin.lastCases ?_ (fun j => ?_) i
  · simp only [Fin.snoc_last]; fun_prop
  · simp only [Fin.snoc_castSucc, simplex, pt]; fun_prop

theorem exact_of_limit {d : ℕ} {lo : ℤ} {v : Fin (d + 1) → ℤ} {X : Fin (d + 1) → Fin d → ℤ} {s : ℤ}
    (h : Small fun ε => IsSign s (orient (simplex lo v X ε))) (hne : orientZ X ≠ 0) :
    s = (orientZ X).sign := by
  have h0 : orient (simplex lo v X 0) = ((orientZ X : ℤ) : ℝ) := by
    rw [orientZ_cast]
    congr 1
    funext i j
    simp [simplex, pt]
  have hs : IsSign (orientZ X).sign (orient (simplex lo v X 0)) := by
    rw [h0]
    rcases lt_or_gt_of_ne hne with h | h
    · exact Or.inr ⟨Int.sign_eq_neg_one_of_neg h, by exact_mod_cast h⟩
    · exact Or.inl ⟨Int.sign_eq_one_of_pos h, by exact_mod_cast h⟩
  obtain ⟨ε, _, h1, h2⟩ := small_exists (small_and h (small_isSign_cont (orient_cont lo v X) hs))
  exact isSign_unique h1 h2

/-- C30: on non-degenerate input the robust sign is the true sign of the determinant. -/
theorem C30_exact1 (X : Fin 2 → ℤ) (v : Fin 2 → ℤ) (hv : Function.Injective v)
    (hne : orientZ (fun i (_ : Fin 1) => X i) ≠ 0) :
    positive1 X v = (orientZ (fun i (_ : Fin 1) => X i)).sign := by
  obtain ⟨lo, hlo⟩ := exists_lo v
  exact exact_of_limit (C30_positive1 lo X v hlo hv) hne

theorem C30_exact2 (X : Fin 3 → Fin 2 → ℤ) (v : Fin 3 → ℤ) (hv : Function.Injective v)
    (hne : orientZ X ≠ 0) : positive2 X v = (orientZ X).sign := by
  obtain ⟨lo, hlo⟩ := exists_lo v
  exact exact_of_limit (C30_positive2 lo X v hlo hv) hne

theorem C30_exact3 (X : Fin 4 → Fin 3 → ℤ) (v : Fin 4 → ℤ) (hv : Function.Injective v)
    (hne : orientZ X ≠ 0) : positive3 X v = (orientZ X).sign := by
  obtain ⟨lo, hlo⟩ := exists_lo v
  exact exact_of_limit (C30_positive3 lo X v hlo hv) hne

/-- C30: `robust_smaller` compares the perturbed coordinates (`j`, `l` are coordinate numbers `< d`,
`i`, `k` vertex indices). -/
theorem C30_robust_smaller {d : ℕ} (lo i k pij pkl : ℤ) (j l : Fin d) (hi : lo ≤ i) (hk : lo ≤ k)
    (hne : (i, j) ≠ (k, l)) :
    (robustSmaller i j k l pij pkl = true →
      Small fun ε => pt lo i (fun _ => pij) ε j < pt lo k (fun _ => pkl) ε l) ∧
    (robustSmaller i j k l pij pkl = false →
      Small fun ε => pt lo k (fun _ => pkl) ε l < pt lo i (fun _ => pij) ε j) := by
  have cont : ∀ (a : ℤ) (p : ℤ) (m : Fin d), Continuous fun ε => pt lo a (fun _ => p) ε m := by
    intro a p m; unfold pt; fun_prop
  have lt_of : ∀ (a b p q : ℤ) (m n : Fin d), p < q →
      Small fun ε => pt lo a (fun _ => p) ε m < pt lo b (fun _ => q) ε n := by
    intro a b p q m n h
    have := small_pos_of_cont (g := fun ε => pt lo b (fun _ => q) ε n - pt lo a (fun _ => p) ε m)
      ((cont b q n).sub (cont a p m)) (by simp [pt]; exact_mod_cast h)
    exact small_mono (fun ε _ h => by linarith) this
  have pow_lt : ∀ (a b p : ℤ) (m n : Fin d), d * (b - lo).toNat + (d - 1 - (n : ℕ)) < d * (a - lo).toNat + (d - 1 - (m : ℕ)) →
      Small fun ε => pt lo a (fun _ => p) ε m < pt lo b (fun _ => p) ε n := by
    intro a b p m n h
    refine ⟨1, one_pos, fun ε h0 h1 => ?_⟩
    unfold pt
    have := pow_lt_pow_right_of_lt_one₀ h0 h1 (Nat.pow_lt_pow_right (a := 2) (by norm_num) h)
    linarith
  have idx : ∀ (a b : ℤ) (m n : Fin d), lo ≤ a → lo ≤ b → b < a →
      d * (b - lo).toNat + (d - 1 - (n : ℕ)) < d * (a - lo).toNat + (d - 1 - (m : ℕ)) := by
    intro a b m n ha hb h
    have h1 : (b - lo).toNat + 1 ≤ (a - lo).toNat := by omega
    have h2 := Nat.mul_le_mul_left d h1
    rw [Nat.mul_add, Nat.mul_one] at h2
    have := n.isLt
    omega
  have co : ∀ (a : ℤ) (m n : Fin d), m < n →
      d * (a - lo).toNat + (d - 1 - (n : ℕ)) < d * (a - lo).toNat + (d - 1 - (m : ℕ)) := by
    intro a m n h
    have := n.isLt
    have : m.val < n.val := h
    omega
  unfold robustSmaller
  by_cases hp : pij = pkl
  · subst hp
    by_cases hik : i = k
    · subst hik
      have hjl : j ≠ l := fun h => hne (by rw [h])
      simp only [ne_eq, not_true_eq_false, if_false, decide_eq_true_eq, decide_eq_false_iff_not]
      constructor
      · intro h
        exact pow_lt _ _ _ _ _ (co i j l (by have : (j : ℕ) < l := by omega
                                             exact this))
      · intro h
        exact pow_lt _ _ _ _ _ (co i l j (by
          have h1 : (j : ℕ) ≠ l := fun h => hjl (Fin.ext h)
          have : (l : ℕ) < j := by omega
          exact this))
    · simp only [ne_eq, not_true_eq_false, if_false, hik, not_false_eq_true, if_true,
        decide_eq_true_eq, decide_eq_false_iff_not]
      exact ⟨fun h => pow_lt _ _ _ _ _ (idx i k j l hi hk h),
        fun h => pow_lt _ _ _ _ _ (idx k i l j hk hi (by omega))⟩
  · simp only [ne_eq, hp, not_false_eq_true, if_true, decide_eq_true_eq, decide_eq_false_iff_not]
    exact ⟨fun h => lt_of _ _ _ _ _ _ h, fun h => lt_of _ _ _ _ _ _ (by omega)⟩

/-- A degenerate case with unsorted indices: three equal points. -/
example : positive2 ![![5, 5], ![5, 5], ![5, 5]] ![7, 3, 4] = 1 ∧
    positive2 ![![5, 5], ![5, 5], ![5, 5]] ![3, 7, 4] = -1 ∧ Function.Injective ![(7 : ℤ), 3, 4] := by
  decide

/-! ## C29: never zero, antisymmetric -/

/-- C29: the robust sign is `1` or `-1`, never `0`, whatever the input (also with equal indices). -/
theorem C29_never_zero2 (X : Fin 2 → ℤ) : robustSignDet2 X = 1 ∨ robustSignDet2 X = -1 := by
  obtain ⟨ε, _, h⟩ := small_exists (sorted1 0 ![0, 1] (fun i _ => X i) (by decide) (by decide))
  rcases h with ⟨h, _⟩ | ⟨h, _⟩ <;> simp [h]

theorem C29_never_zero3 (X : Fin 3 → Fin 2 → ℤ) : robustSignDet3 X = 1 ∨ robustSignDet3 X = -1 := by
  obtain ⟨ε, _, h⟩ := small_exists (sorted2 0 ![0, 1, 2] X (by decide) (by decide) (by decide))
  rcases h with ⟨h, _⟩ | ⟨h, _⟩ <;> simp [h]

theorem C29_never_zero4 (X : Fin 4 → Fin 3 → ℤ) : robustSignDet4 X = 1 ∨ robustSignDet4 X = -1 := by
  obtain ⟨ε, _, h⟩ := small_exists (sorted3 0 ![0, 1, 2, 3] X (by decide) (by decide) (by decide) (by decide))
  rcases h with ⟨h, _⟩ | ⟨h, _⟩ <;> simp [h]

theorem C29_positive1_pm (X v : Fin 2 → ℤ) : positive1 X v = 1 ∨ positive1 X v = -1 := by
  unfold positive1
  have := C29_never_zero2 fun i => X ((bubbleSort v).order i)
  simp only
  split <;> omega

theorem C29_positive2_pm (X : Fin 3 → Fin 2 → ℤ) (v : Fin 3 → ℤ) : positive2 X v = 1 ∨ positive2 X v = -1 := by
  unfold positive2
  have := C29_never_zero3 fun i j => X ((bubbleSort v).order i) j
  simp only
  split <;> omega

theorem C29_positive3_pm (X : Fin 4 → Fin 3 → ℤ) (v : Fin 4 → ℤ) : positive3 X v = 1 ∨ positive3 X v = -1 := by
  unfold positive3
  have := C29_never_zero4 fun i j => X ((bubbleSort v).order i) j
  simp only
  split <;> omega

theorem perm_of_limit {d : ℕ} {lo : ℤ} {v : Fin (d + 1) → ℤ} {X : Fin (d + 1) → Fin d → ℤ} {s t : ℤ}
    (σ : Equiv.Perm (Fin (d + 1)))
    (h : Small fun ε => IsSign s (orient (simplex lo v X ε)))
    (h' : Small fun ε => IsSign t (orient (simplex lo (fun i => v (σ i)) (fun i => X (σ i)) ε))) :
    t = (Equiv.Perm.sign σ : ℤ) * s := by
  obtain ⟨ε, _, h1, h2⟩ := small_exists (small_and h h')
  rw [orient_perm] at h2
  rcases Int.units_eq_one_or (Equiv.Perm.sign σ) with e | e <;> rw [e] at h2 ⊢
  · simp only [Units.val_one, Int.cast_one, one_mul] at h2 ⊢
    exact isSign_unique h2 h1
  · simp only [Units.val_neg, Units.val_one, Int.cast_neg, Int.cast_one, neg_mul, one_mul] at h2 ⊢
    exact isSign_unique h2 (isSign_neg h1)

/-- C29: permuting the vertices together with their indices multiplies the result by the parity of
the permutation. -/
theorem C29_perm1 (X v : Fin 2 → ℤ) (hv : Function.Injective v) (σ : Equiv.Perm (Fin 2)) :
    positive1 (fun i => X (σ i)) (fun i => v (σ i)) = (Equiv.Perm.sign σ : ℤ) * positive1 X v := by
  obtain ⟨lo, hlo⟩ := exists_lo v
  exact perm_of_limit (X := fun i _ => X i) σ (C30_positive1 lo X v hlo hv)
    (C30_positive1 lo _ _ (fun i => hlo _) (hv.comp σ.injective))

theorem C29_perm2 (X : Fin 3 → Fin 2 → ℤ) (v : Fin 3 → ℤ) (hv : Function.Injective v)
    (σ : Equiv.Perm (Fin 3)) :
    positive2 (fun i => X (σ i)) (fun i => v (σ i)) = (Equiv.Perm.sign σ : ℤ) * positive2 X v := by
  obtain ⟨lo, hlo⟩ := exists_lo v
  exact perm_of_limit σ (C30_positive2 lo X v hlo hv)
    (C30_positive2 lo _ _ (fun i => hlo _) (hv.comp σ.injective))

theorem C29_perm3 (X : Fin 4 → Fin 3 → ℤ) (v : Fin 4 → ℤ) (hv : Function.Injective v)
    (σ : Equiv.Perm (Fin 4)) :
    positive3 (fun i => X (σ i)) (fun i => v (σ i)) = (Equiv.Perm.sign σ : ℤ) * positive3 X v := by
  obtain ⟨lo, hlo⟩ := exists_lo v
  exact perm_of_limit σ (C30_positive3 lo X v hlo hv)
    (C30_positive3 lo _ _ (fun i => hlo _) (hv.comp σ.injective))

/-- C29: exchanging two vertices (and their indices) negates the sign. -/
theorem C29_swap2 (X : Fin 3 → Fin 2 → ℤ) (v : Fin 3 → ℤ) (hv : Function.Injective v)
    (a b : Fin 3) (hab : a ≠ b) :
    positive2 (fun i => X (Equiv.swap a b i)) (fun i => v (Equiv.swap a b i)) = - positive2 X v := by
  rw [C29_perm2 X v hv, Equiv.Perm.sign_swap hab]; simp

theorem C29_swap3 (X : Fin 4 → Fin 3 → ℤ) (v : Fin 4 → ℤ) (hv : Function.Injective v)
    (a b : Fin 4) (hab : a ≠ b) :
    positive3 (fun i => X (Equiv.swap a b i)) (fun i => v (Equiv.swap a b i)) = - positive3 X v := by
  rw [C29_perm3 X v hv, Equiv.Perm.sign_swap hab]; simp

/-- C29: distinct indices are needed: with equal indices exchanging two coincident vertices does not
negate the sign. -/
theorem C29_equal_indices_not_antisymmetric :
    ∃ X : Fin 3 → Fin 2 → ℤ, ∃ v : Fin 3 → ℤ,
      positive2 (fun i => X (Equiv.swap 0 1 i)) (fun i => v (Equiv.swap 0 1 i)) ≠ - positive2 X v :=
  ⟨fun _ _ => 0, fun _ => 0, by decide⟩

/-- Non-vacuity: a degenerate (collinear) triangle with distinct indices. -/
example : Function.Injective ![(2 : ℤ), 9, 4] ∧ orientZ ![![0, 0], ![1, 1], ![2, 2]] = 0 ∧
    positive2 ![![0, 0], ![1, 1], ![2, 2]] ![2, 9, 4] = 1 ∧
    positive2 ![![1, 1], ![0, 0], ![2, 2]] ![9, 2, 4] = -1 := by decide

/-- Non-vacuity of the `d = 3` statements: four equal points. -/
example : Function.Injective ![(2 : ℤ), 9, 4, -1] ∧
    positive3 (fun _ _ => 3) ![2, 9, 4, -1] = - positive3 (fun _ _ => 3) ![9, 2, 4, -1] := by decide

/-! ## C31: point in simplex -/

theorem replace_simplex {d : ℕ} (lo : ℤ) (v : Fin (d + 1) → ℤ) (X : Fin (d + 1) → Fin d → ℤ) (ε : ℝ)
    (i : Fin (d + 1)) (x : Fin d → ℤ) (ix : ℤ) :
    simplex lo (replace v i ix) (replace X i x) ε = replace (simplex lo v X ε) i (pt lo ix x ε) := by
  funext a
  by_cases h : i = a
  · subst h; simp [simplex, replace]
  · simp [simplex, replace, h]

theorem replace_inj {n : ℕ} {v : Fin n → ℤ} (hv : Function.Injective v) {ix : ℤ} (hx : ∀ i, v i ≠ ix)
    (i : Fin n) : Function.Injective (replace v i ix) := by
  intro a b h
  unfold replace at h
  by_cases h1 : i = a <;> by_cases h2 : i = b
  · exact h1.symm.trans h2
  · rw [if_pos h1, if_neg h2] at h; exact absurd h.symm (hx b)
  · rw [if_neg h1, if_pos h2] at h; exact absurd h (hx a)
  · rw [if_neg h1, if_neg h2] at h; exact hv h

theorem replace_lo {n : ℕ} {lo : ℤ} {v : Fin n → ℤ} (hlo : ∀ i, lo ≤ v i) {ix : ℤ} (hx : lo ≤ ix)
    (i : Fin n) : ∀ j, lo ≤ replace v i ix j := by
  intro j
  unfold replace
  split
  · exact hx
  · exact hlo j

theorem allLoop_iff {n : ℕ} (ok : Fin n → Bool) : allLoop ok = true ↔ ∀ i, ok i = true := by
  simp [allLoop, List.all_eq_true]

/-- everything one needs to know about one tested simplex, for all small `ε` -/
theorem inside_of_signs {d : ℕ} {lo : ℤ} {v : Fin (d + 1) → ℤ} {X : Fin (d + 1) → Fin d → ℤ}
    {x : Fin d → ℤ} {ix : ℤ} {s : ℤ} {si : Fin (d + 1) → ℤ}
    (h : Small fun ε => IsSign s (orient (simplex lo v X ε)))
    (hi : ∀ i, Small fun ε => IsSign (si i) (orient (simplex lo (replace v i ix) (replace X i x) ε))) :
    Small fun ε => orient (simplex lo v X ε) ≠ 0 ∧
      (∀ i, orient (replace (simplex lo v X ε) i (pt lo ix x ε)) ≠ 0) ∧
      ((allLoop fun i => s == si i) = true ↔ Inside (simplex lo v X ε) (pt lo ix x ε)) := by
  refine small_mono ?_ (small_and h (small_all hi))
  rintro ε _ ⟨h1, h2⟩
  have nz : ∀ {t : ℤ} {r : ℝ}, IsSign t r → r ≠ 0 := by
    rintro t r (⟨_, h⟩ | ⟨_, h⟩)
    · exact ne_of_gt h
    · exact ne_of_lt h
  have h0 := nz h1
  refine ⟨h0, fun i => ?_, ?_⟩
  · have := nz (h2 i)
    rwa [replace_simplex] at this
  · rw [inside_iff_orient h0, allLoop_iff]
    refine forall_congr' fun i => ?_
    rw [beq_iff_eq, isSign_iff_eq h1 (h2 i), replace_simplex]

theorem simplex1_facts (lo : ℤ) (X v : Fin 2 → ℤ) (x ix : ℤ) (hlo : ∀ i, lo ≤ v i) (hx : lo ≤ ix)
    (hv : Function.Injective v) (hxv : ∀ i, v i ≠ ix) :
    Small fun ε => orient (simplex lo v (fun i (_ : Fin 1) => X i) ε) ≠ 0 ∧
      (∀ i, orient (replace (simplex lo v (fun i (_ : Fin 1) => X i) ε) i (pt lo ix (fun _ => x) ε)) ≠ 0) ∧
      (pointInSimplex1 X v x ix = true ↔ Inside (simplex lo v (fun i (_ : Fin 1) => X i) ε) (pt lo ix (fun _ => x) ε)) := by
  refine inside_of_signs (C30_positive1 lo X v hlo hv) fun i => ?_
  have := C30_positive1 lo (replace X i x) (replace v i ix) (replace_lo hlo hx i) (replace_inj hv hxv i)
  refine small_mono (fun ε _ h => isSign_congr ?_ h) this
  congr 2
  funext a b
  simp only [replace]
  split <;> rfl

theorem simplex2_facts (lo : ℤ) (X : Fin 3 → Fin 2 → ℤ) (v : Fin 3 → ℤ) (x : Fin 2 → ℤ) (ix : ℤ)
    (hlo : ∀ i, lo ≤ v i) (hx : lo ≤ ix) (hv : Function.Injective v) (hxv : ∀ i, v i ≠ ix) :
    Small fun ε => orient (simplex lo v X ε) ≠ 0 ∧
      (∀ i, orient (replace (simplex lo v X ε) i (pt lo ix x ε)) ≠ 0) ∧
      (pointInSimplex2 X v x ix = true ↔ Inside (simplex lo v X ε) (pt lo ix x ε)) :=
  inside_of_signs (C30_positive2 lo X v hlo hv) fun i =>
    C30_positive2 lo (replace X i x) (replace v i ix) (replace_lo hlo hx i) (replace_inj hv hxv i)

theorem simplex3_facts (lo : ℤ) (X : Fin 4 → Fin 3 → ℤ) (v : Fin 4 → ℤ) (x : Fin 3 → ℤ) (ix : ℤ)
    (hlo : ∀ i, lo ≤ v i) (hx : lo ≤ ix) (hv : Function.Injective v) (hxv : ∀ i, v i ≠ ix) :
    Small fun ε => orient (simplex lo v X ε) ≠ 0 ∧
      (∀ i, orient (replace (simplex lo v X ε) i (pt lo ix x ε)) ≠ 0) ∧
      (pointInSimplex3 X v x ix = true ↔ Inside (simplex lo v X ε) (pt lo ix x ε)) :=
  inside_of_signs (C30_positive3 lo X v hlo hv) fun i =>
    C30_positive3 lo (replace X i x) (replace v i ix) (replace_lo hlo hx i) (replace_inj hv hxv i)

/-- C31: the answer is yes iff the perturbed point is strictly inside the perturbed segment, for
every sufficiently small perturbation. -/
theorem C31_inside1 (lo : ℤ) (X v : Fin 2 → ℤ) (x ix : ℤ) (hlo : ∀ i, lo ≤ v i) (hx : lo ≤ ix)
    (hv : Function.Injective v) (hxv : ∀ i, v i ≠ ix) :
    Small fun ε => pointInSimplex1 X v x ix = true ↔
      Inside (simplex lo v (fun i (_ : Fin 1) => X i) ε) (pt lo ix (fun _ => x) ε) :=
  small_mono (fun _ _ h => h.2.2) (simplex1_facts lo X v x ix hlo hx hv hxv)

theorem C31_inside2 (lo : ℤ) (X : Fin 3 → Fin 2 → ℤ) (v : Fin 3 → ℤ) (x : Fin 2 → ℤ) (ix : ℤ)
    (hlo : ∀ i, lo ≤ v i) (hx : lo ≤ ix) (hv : Function.Injective v) (hxv : ∀ i, v i ≠ ix) :
    Small fun ε => pointInSimplex2 X v x ix = true ↔ Inside (simplex lo v X ε) (pt lo ix x ε) :=
  small_mono (fun _ _ h => h.2.2) (simplex2_facts lo X v x ix hlo hx hv hxv)

theorem C31_inside3 (lo : ℤ) (X : Fin 4 → Fin 3 → ℤ) (v : Fin 4 → ℤ) (x : Fin 3 → ℤ) (ix : ℤ)
    (hlo : ∀ i, lo ≤ v i) (hx : lo ≤ ix) (hv : Function.Injective v) (hxv : ∀ i, v i ≠ ix) :
    Small fun ε => pointInSimplex3 X v x ix = true ↔ Inside (simplex lo v X ε) (pt lo ix x ε) :=
  small_mono (fun _ _ h => h.2.2) (simplex3_facts lo X v x ix hlo hx hv hxv)

theorem inside_perm {d : ℕ} (P : Fin (d + 1) → Fin d → ℝ) (p : Fin d → ℝ) (σ : Equiv.Perm (Fin (d + 1))) :
    Inside (fun i => P (σ i)) p ↔ Inside P p := by
  have key : ∀ (P : Fin (d + 1) → Fin d → ℝ) (σ : Equiv.Perm (Fin (d + 1))), Inside P p → Inside (fun i => P (σ i)) p := by
    rintro P σ ⟨w, h0, h1, h2⟩
    refine ⟨fun i => w (σ i), fun i => h0 _, ?_, fun j => ?_⟩
    · rw [Equiv.sum_comp σ w, h1]
    · rw [← h2 j]
      exact Equiv.sum_comp σ fun i => w i * P i j
  refine ⟨fun h => ?_, key P σ⟩
  have := key _ σ⁻¹ h
  simpa using this

theorem exists_lo' {n : ℕ} (v : Fin n → ℤ) (ix : ℤ) : ∃ lo, (∀ i, lo ≤ v i) ∧ lo ≤ ix := by
  obtain ⟨lo, h⟩ := exists_lo v
  exact ⟨min lo ix, fun i => le_trans (min_le_left _ _) (h i), min_le_right _ _⟩

/-- C31: the answer does not depend on the order in which the vertices are listed. -/
theorem C31_perm1 (X v : Fin 2 → ℤ) (x ix : ℤ) (hv : Function.Injective v) (hxv : ∀ i, v i ≠ ix)
    (σ : Equiv.Perm (Fin 2)) :
    pointInSimplex1 (fun i => X (σ i)) (fun i => v (σ i)) x ix = pointInSimplex1 X v x ix := by
  obtain ⟨lo, hlo, hx⟩ := exists_lo' v ix
  obtain ⟨ε, _, h1, h2⟩ := small_exists (small_and (C31_inside1 lo X v x ix hlo hx hv hxv)
    (C31_inside1 lo (fun i => X (σ i)) (fun i => v (σ i)) x ix (fun i => hlo _) hx (hv.comp σ.injective) fun i => hxv _))
  rw [Bool.eq_iff_iff, h1, h2, ← inside_perm (simplex lo v (fun i (_ : Fin 1) => X i) ε) _ σ]
  rfl

theorem C31_perm2 (X : Fin 3 → Fin 2 → ℤ) (v : Fin 3 → ℤ) (x : Fin 2 → ℤ) (ix : ℤ)
    (hv : Function.Injective v) (hxv : ∀ i, v i ≠ ix) (σ : Equiv.Perm (Fin 3)) :
    pointInSimplex2 (fun i => X (σ i)) (fun i => v (σ i)) x ix = pointInSimplex2 X v x ix := by
  obtain ⟨lo, hlo, hx⟩ := exists_lo' v ix
  obtain ⟨ε, _, h1, h2⟩ := small_exists (small_and (C31_inside2 lo X v x ix hlo hx hv hxv)
    (C31_inside2 lo (fun i => X (σ i)) (fun i => v (σ i)) x ix (fun i => hlo _) hx (hv.comp σ.injective) fun i => hxv _))
  rw [Bool.eq_iff_iff, h1, h2, ← inside_perm (simplex lo v X ε) _ σ]
  rfl

theorem C31_perm3 (X : Fin 4 → Fin 3 → ℤ) (v : Fin 4 → ℤ) (x : Fin 3 → ℤ) (ix : ℤ)
    (hv : Function.Injective v) (hxv : ∀ i, v i ≠ ix) (σ : Equiv.Perm (Fin 4)) :
    pointInSimplex3 (fun i => X (σ i)) (fun i => v (σ i)) x ix = pointInSimplex3 X v x ix := by
  obtain ⟨lo, hlo, hx⟩ := exists_lo' v ix
  obtain ⟨ε, _, h1, h2⟩ := small_exists (small_and (C31_inside3 lo X v x ix hlo hx hv hxv)
    (C31_inside3 lo (fun i => X (σ i)) (fun i => v (σ i)) x ix (fun i => hlo _) hx (hv.comp σ.injective) fun i => hxv _))
  rw [Bool.eq_iff_iff, h1, h2, ← inside_perm (simplex lo v X ε) _ σ]
  rfl

/-- Non-vacuity: the zero vector lies on an edge, on a vertex, and on a vertex of a fully degenerate
triangle. -/
example : criticalPointInSimplex2 ![![-1, 0], ![1, 0], ![0, 5]] ![4, 2, 7] = true ∧
    criticalPointInSimplex2 ![![-1, 0], ![1, 0], ![0, -5]] ![4, 2, 7] = false ∧
    criticalPointInSimplex2 ![![0, 0], ![0, 0], ![0, 0]] ![4, 2, 7] = false := by decide

/-! ## C32: every `(d+1)`-simplex has no punctured facet or exactly two -/

theorem small_exists_and_count {d : ℕ} {lo : ℤ} {v : Fin (d + 2) → ℤ} {Y : Fin (d + 2) → Fin d → ℤ}
    {x : Fin d → ℤ} {ix : ℤ} {test : Fin (d + 2) → Bool}
    (h : ∀ k, Small fun ε => orient (simplex lo (face v k) (face Y k) ε) ≠ 0 ∧
      (∀ i, orient (replace (simplex lo (face v k) (face Y k) ε) i (pt lo ix x ε)) ≠ 0) ∧
      (test k = true ↔ Inside (simplex lo (face v k) (face Y k) ε) (pt lo ix x ε))) :
    (Finset.univ.filter fun k => test k = true).card = 0 ∨ (Finset.univ.filter fun k => test k = true).card = 2 := by
  obtain ⟨ε, _, hh⟩ := small_exists (small_all h)
  refine faces_zero_or_two (fun i => pt lo (v i) (Y i) ε) (pt lo ix x ε) (fun k => (hh k).1)
    (fun k => (hh k).2.1) _ fun k => ?_
  rw [Finset.mem_filter, (hh k).2.2]
  exact ⟨fun h => h.2, fun h => ⟨Finset.mem_univ _, h⟩⟩

theorem face_inj {n : ℕ} {v : Fin (n + 1) → ℤ} (hv : Function.Injective v) (k : Fin (n + 1)) :
    Function.Injective (face v k) := fun _ _ h => Fin.succAbove_right_injective (hv h)

/-- C32, d = 1: of the 3 edges of a triangle whose vertices carry scalar values, either none or exactly
two contain the query value. -/
theorem C32_triangle (Y v : Fin 3 → ℤ) (x ix : ℤ) (hv : Function.Injective v) (hxv : ∀ i, v i ≠ ix) :
    let punctured := Finset.univ.filter fun k => pointInSimplex1 (face Y k) (face v k) x ix = true
    punctured.card = 0 ∨ punctured.card = 2 := by
  obtain ⟨lo, hlo, hx⟩ := exists_lo' v ix
  exact small_exists_and_count (Y := fun i _ => Y i) (x := fun _ => x) fun k =>
    simplex1_facts lo (face Y k) (face v k) x ix (fun i => hlo _) hx (face_inj hv k) fun i => hxv _

/-- C32, d = 2: of the 4 triangles of a tetrahedron whose vertices carry 2-vectors, either none or exactly
two contain the query vector. -/
theorem C32_tetrahedron (Y : Fin 4 → Fin 2 → ℤ) (v : Fin 4 → ℤ) (x : Fin 2 → ℤ) (ix : ℤ)
    (hv : Function.Injective v) (hxv : ∀ i, v i ≠ ix) :
    let punctured := Finset.univ.filter fun k => pointInSimplex2 (face Y k) (face v k) x ix = true
    punctured.card = 0 ∨ punctured.card = 2 := by
  obtain ⟨lo, hlo, hx⟩ := exists_lo' v ix
  exact small_exists_and_count fun k =>
    simplex2_facts lo (face Y k) (face v k) x ix (fun i => hlo _) hx (face_inj hv k) fun i => hxv _

/-- C32, d = 3: of the 5 tetrahedra of a 4-simplex whose vertices carry 3-vectors, either none or exactly
two contain the query vector. -/
theorem C32_pentatope (Y : Fin 5 → Fin 3 → ℤ) (v : Fin 5 → ℤ) (x : Fin 3 → ℤ) (ix : ℤ)
    (hv : Function.Injective v) (hxv : ∀ i, v i ≠ ix) :
    let punctured := Finset.univ.filter fun k => pointInSimplex3 (face Y k) (face v k) x ix = true
    punctured.card = 0 ∨ punctured.card = 2 := by
  obtain ⟨lo, hlo, hx⟩ := exists_lo' v ix
  exact small_exists_and_count fun k =>
    simplex3_facts lo (face Y k) (face v k) x ix (fun i => hlo _) hx (face_inj hv k) fun i => hxv _

/-- C32 for the critical-point tests of the trackers: mesh vertices have distinct non-negative indices
(so different from the `-1` given to the zero vector). -/
theorem C32_critical_point_2d (V : Fin 4 → Fin 2 → ℤ) (v : Fin 4 → ℤ) (hv : Function.Injective v)
    (h0 : ∀ i, 0 ≤ v i) :
    let punctured := Finset.univ.filter fun k => criticalPointInSimplex2 (face V k) (face v k) = true
    punctured.card = 0 ∨ punctured.card = 2 :=
  C32_tetrahedron V v (fun _ => 0) (-1) hv fun i => by have := h0 i; omega

theorem C32_critical_point_3d (V : Fin 5 → Fin 3 → ℤ) (v : Fin 5 → ℤ) (hv : Function.Injective v)
    (h0 : ∀ i, 0 ≤ v i) :
    let punctured := Finset.univ.filter fun k => criticalPointInSimplex3 (face V k) (face v k) = true
    punctured.card = 0 ∨ punctured.card = 2 :=
  C32_pentatope V v (fun _ => 0) (-1) hv fun i => by have := h0 i; omega

/-- Non-vacuity: a degenerate tetrahedron (two vertices carry the zero vector) with two punctured faces;
with unperturbed closed tests all four faces would contain zero. -/
example : (Finset.univ.filter fun k => criticalPointInSimplex2
      (face ![![0, 0], ![1, 0], ![-1, 1], ![0, 0]] k) (face ![3, 1, 4, 5] k) = true).card = 2 ∧
    Function.Injective ![(3 : ℤ), 1, 4, 5] := by decide +kernel

end Verif.SoS
