import Verif.Ineq.Model
import Mathlib.Topology.Instances.EReal.Lemmas
import Mathlib.Analysis.Calculus.Deriv.Polynomial
import Mathlib.Topology.Order.IntermediateValue

/-!
# C119, C120: the linear and cubic inequality solvers return the solution set
-/

namespace Verif.Ineq

open Polynomial Verif.Poly Verif.Interval Verif.Roots Filter Topology

/-! ### Linear -/

theorem mem_real (i : Iv EReal) (hi : CL i) (x : ℝ) : (x : EReal) ∈ pts i ↔ i.lo ≤ x ∧ (x : EReal) ≤ i.hi := by
  rw [hi.mem]
  simp

/-- C119: when `a` is zero or not tiny, the returned interval contains exactly the reals with `a x + b ≥ 0`.
Full statement: the same for every `a`; false of the code, see `C119_tiny_slope`. -/
theorem C119_linear_partial (eps a b : ℝ) (he : 0 < eps) (ha : a = 0 ∨ eps ≤ |a|) (x : ℝ) :
    (linearIneq eps a b).contains (x : EReal) = true ↔ a * x + b ≥ 0 := by
  unfold linearIneq
  by_cases h : |a| < eps
  · have ha0 : a = 0 := by rcases ha with h1 | h1 <;> [exact h1; exact absurd h (not_lt.2 h1)]
    rw [if_pos h, ha0]
    by_cases hb : b ≥ 0
    · rw [if_pos hb, C35_contains_partial _ (by simp [Iv.empty, Iv.setToComplete, emptyIv]), mem_real _ (by constructor <;> simp [Iv.setToComplete, emptyIv])]
      simp [Iv.setToComplete, hb]
    · rw [if_neg hb]
      have : Iv.contains (emptyIv.setToEmpty) (x : EReal) = false := by
        simp [Iv.contains, Iv.singleton, Iv.setToEmpty, emptyIv]
      rw [this]
      simp; linarith
  · rw [if_neg h]
    have hne : a ≠ 0 := by rintro rfl; simp at h; linarith
    by_cases hp : a > 0
    · rw [if_pos hp, C35_contains_partial _ (by simp [Iv.empty]), mem_real _ (by constructor <;> simp [emptyIv])]
      simp only [le_top, and_true, EReal.coe_le_coe_iff]
      rw [div_le_iff₀ hp]
      constructor <;> intro <;> nlinarith
    · have hn : a < 0 := lt_of_le_of_ne (not_lt.1 hp) hne
      rw [if_neg hp, C35_contains_partial _ (by simp [Iv.empty]), mem_real _ (by constructor <;> simp [emptyIv])]
      simp only [bot_le, true_and, EReal.coe_le_coe_iff]
      rw [le_div_iff_of_neg hn]
      constructor <;> intro <;> nlinarith

/-- C119 (finding): for a non-zero slope below the machine epsilon the whole line is returned whenever `b ≥ 0`, although
`a x + b ≥ 0` fails for large `|x|`. -/
theorem C119_tiny_slope (eps a b : ℝ) (ha0 : a ≠ 0) (ha : |a| < eps) (hb : b ≥ 0) :
    ∃ x : ℝ, (linearIneq eps a b).contains (x : EReal) = true ∧ ¬ a * x + b ≥ 0 := by
  refine ⟨(-b - 1) / a, ?_, ?_⟩
  · unfold linearIneq
    rw [if_pos ha, if_pos hb, C35_contains_partial _ (by simp [Iv.empty, Iv.setToComplete, emptyIv]), mem_real _ (by constructor <;> simp [Iv.setToComplete, emptyIv])]
    simp [Iv.setToComplete]
  · rw [mul_div_cancel₀ _ ha0]; linarith

example : (linearIneq (1 / 1000) (-2) 6).contains ((3 : ℝ) : EReal) = true :=
  (C119_linear_partial (1 / 1000) (-2) 6 (by norm_num) (Or.inr (by norm_num)) 3).2 (by norm_num)
example : (linearIneq (1 / 1000) (-2) 6).contains ((4 : ℝ) : EReal) = false := by
  have := (C119_linear_partial (1 / 1000) (-2) 6 (by norm_num) (Or.inr (by norm_num)) 4)
  rw [Bool.eq_false_iff, ne_eq, this]; norm_num

/-! ### Cubic -/

/-- consecutive pairs of `lo, x₀, …, xₖ, ⊤` -/
noncomputable def pairs : EReal → List ℝ → List (EReal × EReal)
  | lo, [] => [(lo, ⊤)]
  | lo, a :: l => (lo, (a : EReal)) :: pairs a l

theorem subs_eq (x : List ℝ) (h0 : x ≠ []) (h : x.length ≤ 3) : subs x = (pairs ⊥ x).map fun p => iv p.1 p.2 := by
  rcases x with _ | ⟨a, _ | ⟨b, _ | ⟨c, _ | ⟨d, l⟩⟩⟩⟩
  · exact absurd rfl h0
  · rfl
  · rfl
  · rfl
  · simp at h; omega

/-- the pairs cover the line, are non-degenerate and have no root strictly inside -/
theorem pairs_spec : ∀ (l : List ℝ) (lo : EReal), lo ≠ ⊤ → l.Pairwise (· < ·) → (∀ a ∈ l, lo < (a : EReal)) →
    (∀ p ∈ pairs lo l, lo ≤ p.1 ∧ p.1 < p.2 ∧ (p.1 = lo ∨ ∃ a ∈ l, p.1 = (a : EReal)) ∧ (p.2 = ⊤ ∨ ∃ a ∈ l, p.2 = (a : EReal)) ∧
      ∀ a ∈ l, ¬ (p.1 < (a : EReal) ∧ (a : EReal) < p.2)) ∧
    ∀ x : EReal, lo ≤ x → ∃ p ∈ pairs lo l, p.1 ≤ x ∧ x ≤ p.2 := by
  intro l
  induction l with
  | nil =>
    intro lo hlo _ _
    refine ⟨?_, fun x hx => ⟨_, List.mem_singleton.2 rfl, hx, le_top⟩⟩
    intro p hp
    obtain rfl := List.mem_singleton.1 hp
    exact ⟨le_rfl, lt_top_iff_ne_top.2 hlo, Or.inl rfl, Or.inl rfl, by simp⟩
  | cons a l ih =>
    intro lo hlo hs hl
    rw [List.pairwise_cons] at hs
    obtain ⟨i1, i2⟩ := ih (a : EReal) (by simp) hs.2 fun b hb => by exact_mod_cast hs.1 b hb
    have ha := hl a (by simp)
    constructor
    · intro p hp
      rcases List.mem_cons.1 hp with rfl | hp
      · refine ⟨le_rfl, ha, Or.inl rfl, Or.inr ⟨a, by simp, rfl⟩, ?_⟩
        rintro b hb ⟨_, h2⟩
        rcases List.mem_cons.1 hb with rfl | hb
        · exact lt_irrefl _ h2
        · have : (b : ℝ) < a := EReal.coe_lt_coe_iff.1 h2
          exact absurd (hs.1 b hb) (not_lt.2 this.le)
      · obtain ⟨h1, h2, h3, h4, h5⟩ := i1 p hp
        refine ⟨ha.le.trans h1, h2, Or.inr ?_, ?_, ?_⟩
        · rcases h3 with h3 | ⟨b, hb, h3⟩
          · exact ⟨a, by simp, h3⟩
          · exact ⟨b, by simp [hb], h3⟩
        · rcases h4 with h4 | ⟨b, hb, h4⟩
          · exact Or.inl h4
          · exact Or.inr ⟨b, by simp [hb], h4⟩
        · intro b hb hc
          rcases List.mem_cons.1 hb with rfl | hb
          · exact absurd hc.1 (not_lt.2 h1)
          · exact h5 b hb hc
    · intro x hx
      rcases le_total x (a : EReal) with h | h
      · exact ⟨_, List.mem_cons_self .., hx, h⟩
      · obtain ⟨p, hp, h1⟩ := i2 x h
        exact ⟨p, List.mem_cons_of_mem _ hp, h1⟩

/-- the sample of a subinterval lies strictly inside it -/
theorem sample_inside (lo hi : EReal) (h : lo < hi) : lo < (sample (iv lo hi) : EReal) ∧ (sample (iv lo hi) : EReal) < hi := by
  unfold sample iv
  induction lo with
  | bot =>
    induction hi with
    | bot => exact absurd h (lt_irrefl _)
    | top => simp
    | coe b =>
      rw [if_neg (by simp), if_neg (by simp [Iv.singleton, Iv.lowerOpen]), if_neg (by simp), if_pos rfl]
      refine ⟨EReal.bot_lt_coe _, ?_⟩
      simp only [EReal.toReal_coe]
      exact_mod_cast (by linarith : b - 1000000000 < b)
  | top => exact absurd h (not_lt.2 le_top)
  | coe a =>
    induction hi with
    | bot => exact absurd h (not_lt.2 bot_le)
    | top =>
      rw [if_neg (by simp), if_neg (by simp [Iv.singleton]), if_pos rfl]
      simp only [EReal.toReal_coe]
      refine ⟨?_, EReal.coe_lt_top _⟩
      exact_mod_cast (by linarith : a < a + 1000000000)
    | coe b =>
      have hab : a < b := by exact_mod_cast h
      rw [if_neg (by simp), if_neg (by simp [Iv.singleton, hab.ne]), if_neg (by simp), if_neg (by simp)]
      simp only [EReal.toReal_coe]
      constructor
      · exact_mod_cast (by linarith : a < (b + a) / 2)
      · exact_mod_cast (by linarith : (b + a) / 2 < b)

/-- no change of sign inside an interval without roots -/
theorem same_sign {p : ℝ[X]} {lo hi : EReal} (hr : ∀ a : ℝ, lo < (a : EReal) → (a : EReal) < hi → p.eval a ≠ 0)
    {s x : ℝ} (hs : lo < (s : EReal) ∧ (s : EReal) < hi) (hx : lo < (x : EReal) ∧ (x : EReal) < hi) (h : 0 < p.eval s) : 0 < p.eval x := by
  by_contra hn
  have hc : ContinuousOn (fun y => p.eval y) (Set.uIcc s x) := (Polynomial.differentiable p).continuous.continuousOn
  have := intermediate_value_uIcc hc
  have h0 : (0 : ℝ) ∈ Set.uIcc (p.eval s) (p.eval x) := by
    rw [Set.mem_uIcc]; right; exact ⟨not_lt.1 hn, h.le⟩
  obtain ⟨y, hy, hy0⟩ := this h0
  rw [Set.mem_uIcc] at hy
  refine hr y ?_ ?_ hy0
  · rcases hy with hy | hy
    · exact lt_of_lt_of_le hs.1 (by exact_mod_cast hy.1)
    · exact lt_of_lt_of_le hx.1 (by exact_mod_cast hy.1)
  · rcases hy with hy | hy
    · exact lt_of_le_of_lt (by exact_mod_cast hy.2) hx.2
    · exact lt_of_le_of_lt (by exact_mod_cast hy.2) hs.2

/-- every point of a closed interval is a limit of points of the open one -/
theorem mem_closure_open {lo hi : EReal} {S : Set ℝ} (hS : ∀ y : ℝ, lo < (y : EReal) → (y : EReal) < hi → y ∈ S)
    {s x : ℝ} (hs : lo < (s : EReal) ∧ (s : EReal) < hi) (hx : lo ≤ (x : EReal) ∧ (x : EReal) ≤ hi) : x ∈ closure S := by
  have hc : Continuous fun t : ℝ => x + t * (s - x) := by fun_prop
  have ht : Tendsto (fun t : ℝ => x + t * (s - x)) (𝓝[>] 0) (𝓝 x) := by
    have := (hc.tendsto 0).mono_left (nhdsWithin_le_nhds (s := Set.Ioi (0 : ℝ)))
    simpa using this
  refine mem_closure_of_tendsto ht ?_
  have h1 : ∀ᶠ t : ℝ in 𝓝[>] 0, t ∈ Set.Ioo (0 : ℝ) 1 := Ioo_mem_nhdsGT (by norm_num)
  filter_upwards [h1] with t ht
  obtain ⟨t0, t1⟩ := ht
  apply hS
  · rcases lt_trichotomy x s with h | h | h
    · exact lt_of_le_of_lt hx.1 (by exact_mod_cast (by nlinarith : x < x + t * (s - x)))
    · subst h; simpa using hs.1
    · exact lt_of_lt_of_le hs.1 (by exact_mod_cast (by nlinarith : s ≤ x + t * (s - x)))
  · rcases lt_trichotomy x s with h | h | h
    · exact lt_of_le_of_lt (by exact_mod_cast (by nlinarith : x + t * (s - x) ≤ s)) hs.2
    · subst h; simpa using hs.2
    · exact lt_of_lt_of_le (by exact_mod_cast (by nlinarith : x + t * (s - x) < x)) hx.2

theorem fold_spec (P : ℕ → ℝ) (l : List (Iv EReal)) (hl : ∀ i ∈ l, CL i) (I : DI EReal) (hI : Inv I) :
    Inv (l.foldl (fun I i => if evaluate P 3 (sample i) ≥ 0 then djoin I i else I) I) ∧
    dpts (l.foldl (fun I i => if evaluate P 3 (sample i) ≥ 0 then djoin I i else I) I) =
      dpts I ∪ {x | ∃ i ∈ l, evaluate P 3 (sample i) ≥ 0 ∧ x ∈ pts i} := by
  induction l generalizing I with
  | nil => exact ⟨hI, by simp⟩
  | cons i l ih =>
    simp only [List.foldl_cons]
    have hl' : ∀ j ∈ l, CL j := fun j hj => hl j (by simp [hj])
    by_cases h : evaluate P 3 (sample i) ≥ 0
    · simp only [if_pos h]
      obtain ⟨j1, j2⟩ := djoin_spec I i hI (hl i (by simp))
      obtain ⟨k1, k2⟩ := ih hl' _ j1
      refine ⟨k1, ?_⟩
      rw [k2, j2]
      ext x
      simp only [Set.mem_union, Set.mem_setOf_eq, List.mem_cons]
      constructor
      · rintro ((h1 | h1) | ⟨j, hj, h1⟩)
        · exact Or.inl h1
        · exact Or.inr ⟨i, Or.inl rfl, h, h1⟩
        · exact Or.inr ⟨j, Or.inr hj, h1⟩
      · rintro (h1 | ⟨j, rfl | hj, h1⟩)
        · exact Or.inl (Or.inl h1)
        · exact Or.inl (Or.inr h1.2)
        · exact Or.inr ⟨j, hj, h1⟩
    · simp only [if_neg h]
      obtain ⟨k1, k2⟩ := ih hl' _ hI
      refine ⟨k1, ?_⟩
      rw [k2]
      ext x
      simp only [Set.mem_union, Set.mem_setOf_eq, List.mem_cons]
      constructor
      · rintro (h1 | ⟨j, hj, h1⟩)
        · exact Or.inl h1
        · exact Or.inr ⟨j, Or.inr hj, h1⟩
      · rintro (h1 | ⟨j, rfl | hj, h1⟩)
        · exact Or.inl h1
        · exact absurd h1.1 h
        · exact Or.inr ⟨j, hj, h1⟩

theorem dcontains_inv {d : DI EReal} (h : Inv d) (x : EReal) : dcontains d x = true ↔ x ∈ dpts d := by
  unfold dcontains dpts
  rw [List.any_eq_true]
  constructor
  · rintro ⟨i, hi, h1⟩; exact ⟨i, hi, (C35_contains_partial i (h.1 i hi).2 x).1 h1⟩
  · rintro ⟨i, hi, h1⟩; exact ⟨i, hi, (C35_contains_partial i (h.1 i hi).2 x).2 h1⟩

/-- C120: for a non-zero polynomial of degree at most 3 on which the root finder behaves, the solver returns exactly the
closure of the set where the polynomial is positive.
Full statement: for every polynomial the result contains exactly the reals with `P(x) ≥ 0`; false of the code, see
`C120_isolated_zero`, `C120_undefined`. -/
theorem C120_cubic_partial (epsM eps : ℝ) (hM : 0 < epsM) (he : 0 ≤ eps) (P : ℕ → ℝ) (hP : ∀ i, NotTiny epsM eps (P i))
    (hne : poly P 3 ≠ 0) (hbad : ¬ (P 3 = 0 ∧ P 2 ≠ 0 ∧ P 0 = 0) ∧ ¬ (P 3 ≠ 0 ∧ P 0 = 0 ∧ P 1 = 0)) :
    ∃ d, cubicIneq epsM eps P = some d ∧
      ∀ x : ℝ, dcontains d (x : EReal) = true ↔ x ∈ closure {y : ℝ | 0 < (poly P 3).eval y} := by
  obtain ⟨n, xm, h1, h2, l, l1, l2, l3, l4⟩ := C67_cubic_partial epsM eps hM he P hP hne hbad none none none
  unfold cubicIneq
  simp only [h1]
  by_cases hn : n = 0
  · rw [if_pos hn]
    refine ⟨_, rfl, fun x => ?_⟩
    have hnil : l = [] := List.length_eq_zero_iff.1 (l2.trans hn)
    have hr : ∀ a : ℝ, (poly P 3).eval a ≠ 0 := fun a h => by
      have := (l4 a).2 h; rw [hnil] at this; simp at this
    have e0 : (poly P 3).eval 0 = P 0 := by rw [eval3]; ring
    have hP0 : P 0 ≠ 0 := by rw [← e0]; exact hr 0
    by_cases hp : P 0 ≥ 0
    · have hpos : ∀ y : ℝ, 0 < (poly P 3).eval y := fun y =>
        same_sign (lo := ⊥) (hi := ⊤) (fun a _ _ => hr a) (s := 0) ⟨by simp, by simp⟩ ⟨by simp, by simp⟩
          (by rw [e0]; exact lt_of_le_of_ne hp (Ne.symm hP0))
      rw [if_pos hp]
      have : {y : ℝ | 0 < (poly P 3).eval y} = Set.univ := by ext y; simp [hpos y]
      rw [this, closure_univ]
      simp only [Set.mem_univ, iff_true]
      unfold dcontains
      simp only [List.any_cons, List.any_nil, Bool.or_false]
      rw [C35_contains_partial _ (by simp [Iv.empty, Iv.setToComplete, emptyIv]), mem_real _ (by constructor <;> simp [Iv.setToComplete, emptyIv])]
      simp [Iv.setToComplete]
    · have hneg : ∀ y : ℝ, ¬ 0 < (poly P 3).eval y := fun y hy => by
        have := same_sign (lo := ⊥) (hi := ⊤) (fun a _ _ => hr a) (s := y) (x := 0) ⟨by simp, by simp⟩ ⟨by simp, by simp⟩ hy
        rw [e0] at this; exact hp this.le
      rw [if_neg hp]
      have : {y : ℝ | 0 < (poly P 3).eval y} = ∅ := by ext y; simp only [Set.mem_setOf_eq, hneg y]; simp
      rw [this, closure_empty]
      simp [dcontains]
  · rw [if_neg hn, l1]
    have hm : (l.map some).mapM id = some l := by
      clear l1 l2 l3 l4
      induction l with
      | nil => rfl
      | cons a l ih => simp only [List.map_cons, List.mapM_cons, id, Option.pure_def, Option.bind_eq_bind, Option.bind_some, ih]
    simp only [hm]
    refine ⟨_, rfl, fun x => ?_⟩
    set s := l.mergeSort fun a b => decide (a ≤ b) with hs
    have hperm : s.Perm l := List.mergeSort_perm l _
    have hsorted : s.Pairwise (· < ·) := by
      have h3 : s.Pairwise fun a b => decide (a ≤ b) = true :=
        List.pairwise_mergeSort (fun a b c h1 h2 => by simp only [decide_eq_true_eq] at *; exact h1.trans h2)
          (fun a b => by simp [le_total]) l
      have h4 : s.Nodup := hperm.nodup_iff.2 l3
      refine (h3.and h4).imp ?_
      intro a b h
      exact lt_of_le_of_ne (by simpa using h.1) h.2
    have hmem : ∀ y, y ∈ s ↔ (poly P 3).eval y = 0 := fun y => by rw [hperm.mem_iff, l4]; rfl
    have hlen : s.length = n := by rw [hperm.length_eq, l2]
    have hs0 : s ≠ [] := fun h => hn (by rw [← hlen, h]; rfl)
    rw [subs_eq s hs0 (by omega)]
    have hCL : ∀ i ∈ (pairs ⊥ s).map (fun p => iv p.1 p.2), CL i := by
      intro i hi
      obtain ⟨p, _, rfl⟩ := List.mem_map.1 hi
      exact cl_mk _ _
    obtain ⟨f1, f2⟩ := fold_spec P _ hCL [] ⟨by simp, by simp⟩
    rw [dcontains_inv f1, f2, dpts_nil, Set.empty_union]
    obtain ⟨p1, p2⟩ := pairs_spec s ⊥ (by simp) hsorted (fun a _ => by simp)
    have hin : ∀ p ∈ pairs ⊥ s, ∀ a : ℝ, p.1 < (a : EReal) → (a : EReal) < p.2 → (poly P 3).eval a ≠ 0 := by
      intro p hp a ha hb h0
      exact (p1 p hp).2.2.2.2 a ((hmem a).2 h0) ⟨ha, hb⟩
    have key : ∀ y : ℝ, ((y : EReal) ∈ {x : EReal | ∃ i ∈ (pairs ⊥ s).map (fun p => iv p.1 p.2), evaluate P 3 (sample i) ≥ 0 ∧ x ∈ pts i}) ↔
        ∃ p ∈ pairs ⊥ s, (poly P 3).eval (sample (iv p.1 p.2)) ≥ 0 ∧ p.1 ≤ (y : EReal) ∧ (y : EReal) ≤ p.2 := by
      intro y
      simp only [Set.mem_setOf_eq, List.mem_map, C36_evaluate]
      constructor
      · rintro ⟨i, ⟨p, hp, rfl⟩, h3, h4⟩
        exact ⟨p, hp, h3, (mem_real _ (cl_mk _ _) y).1 h4⟩
      · rintro ⟨p, hp, h3, h4⟩
        exact ⟨_, ⟨p, hp, rfl⟩, h3, (mem_real _ (cl_mk _ _) y).2 h4⟩
    rw [key]
    have hpos : ∀ p ∈ pairs ⊥ s, (poly P 3).eval (sample (iv p.1 p.2)) ≥ 0 → ∀ y : ℝ, p.1 < (y : EReal) → (y : EReal) < p.2 →
        0 < (poly P 3).eval y := by
      intro p hp h3 y ha hb
      have hsm := sample_inside p.1 p.2 (p1 p hp).2.1
      exact same_sign (hin p hp) hsm ⟨ha, hb⟩ (lt_of_le_of_ne h3 (Ne.symm (hin p hp _ hsm.1 hsm.2)))
    constructor
    · rintro ⟨p, hp, h3, h4⟩
      exact mem_closure_open (hpos p hp h3) (sample_inside p.1 p.2 (p1 p hp).2.1) h4
    · intro hx
      have hclosed : IsClosed {y : ℝ | ∃ p ∈ pairs ⊥ s, (poly P 3).eval (sample (iv p.1 p.2)) ≥ 0 ∧ p.1 ≤ (y : EReal) ∧ (y : EReal) ≤ p.2} := by
        have : {y : ℝ | ∃ p ∈ pairs ⊥ s, (poly P 3).eval (sample (iv p.1 p.2)) ≥ 0 ∧ p.1 ≤ (y : EReal) ∧ (y : EReal) ≤ p.2} =
            ⋃ p ∈ {p | p ∈ pairs ⊥ s ∧ (poly P 3).eval (sample (iv p.1 p.2)) ≥ 0}, {y : ℝ | p.1 ≤ (y : EReal) ∧ (y : EReal) ≤ p.2} := by
          ext y; simp only [Set.mem_setOf_eq, Set.mem_iUnion, exists_prop, and_assoc]
        rw [this]
        apply Set.Finite.isClosed_biUnion
        · exact ((pairs ⊥ s).finite_toSet).subset fun p hp => hp.1
        · intro p _
          exact isClosed_Icc.preimage continuous_coe_real_ereal
      refine hclosed.closure_subset_iff.2 ?_ hx
      intro y hy
      have hy : 0 < (poly P 3).eval y := hy
      obtain ⟨p, hp, h4⟩ := p2 (y : EReal) bot_le
      have hne1 : ∀ q : EReal, (q = ⊥ ∨ q = ⊤ ∨ ∃ a ∈ s, q = (a : EReal)) → q ≠ (y : EReal) := by
        rintro q (rfl | rfl | ⟨a, ha, rfl⟩) h
        · simp at h
        · simp at h
        · have : a = y := by exact_mod_cast h
          rw [← this, (hmem a).1 ha] at hy
          exact lt_irrefl _ hy
      obtain ⟨_, q2, q3, q4, _⟩ := p1 p hp
      have ha : p.1 < (y : EReal) := lt_of_le_of_ne h4.1 (hne1 _ (q3.elim Or.inl fun h => Or.inr (Or.inr h)))
      have hb : (y : EReal) < p.2 := lt_of_le_of_ne h4.2 (hne1 _ (q4.elim (fun h => Or.inr (Or.inl h)) fun h => Or.inr (Or.inr h))).symm
      exact ⟨p, hp, (same_sign (hin p hp) ⟨ha, hb⟩ (sample_inside p.1 p.2 q2) hy).le, h4⟩

/-- C120: every reported real satisfies the inequality and every strict solution is reported. -/
theorem C120_cubic_sound (epsM eps : ℝ) (hM : 0 < epsM) (he : 0 ≤ eps) (P : ℕ → ℝ) (hP : ∀ i, NotTiny epsM eps (P i))
    (hne : poly P 3 ≠ 0) (hbad : ¬ (P 3 = 0 ∧ P 2 ≠ 0 ∧ P 0 = 0) ∧ ¬ (P 3 ≠ 0 ∧ P 0 = 0 ∧ P 1 = 0)) :
    ∃ d, cubicIneq epsM eps P = some d ∧ ∀ x : ℝ,
      (dcontains d (x : EReal) = true → (poly P 3).eval x ≥ 0) ∧ ((poly P 3).eval x > 0 → dcontains d (x : EReal) = true) := by
  obtain ⟨d, h1, h2⟩ := C120_cubic_partial epsM eps hM he P hP hne hbad
  refine ⟨d, h1, fun x => ⟨fun h => ?_, fun h => (h2 x).2 (subset_closure h)⟩⟩
  have hc : IsClosed {y : ℝ | 0 ≤ (poly P 3).eval y} := isClosed_le continuous_const (Polynomial.differentiable _).continuous
  have hsub : {y : ℝ | 0 < (poly P 3).eval y} ⊆ {y : ℝ | 0 ≤ (poly P 3).eval y} := by
    intro y hy
    rw [Set.mem_setOf_eq] at hy ⊢
    exact hy.le
  exact hc.closure_subset_iff.2 hsub ((h2 x).1 h)

/-- C120 (finding): a zero around which the polynomial is negative is a solution of `P(x) ≥ 0` that is not reported. -/
theorem C120_isolated_zero (epsM eps : ℝ) (hM : 0 < epsM) (he : 0 ≤ eps) (P : ℕ → ℝ) (hP : ∀ i, NotTiny epsM eps (P i))
    (hne : poly P 3 ≠ 0) (hbad : ¬ (P 3 = 0 ∧ P 2 ≠ 0 ∧ P 0 = 0) ∧ ¬ (P 3 ≠ 0 ∧ P 0 = 0 ∧ P 1 = 0))
    (x r : ℝ) (hr : 0 < r) (hx : (poly P 3).eval x = 0) (hn : ∀ y, |y - x| < r → (poly P 3).eval y ≤ 0) :
    ∃ d, cubicIneq epsM eps P = some d ∧ (poly P 3).eval x ≥ 0 ∧ dcontains d (x : EReal) = false := by
  obtain ⟨d, h1, h2⟩ := C120_cubic_partial epsM eps hM he P hP hne hbad
  refine ⟨d, h1, hx.ge, ?_⟩
  rw [Bool.eq_false_iff, ne_eq, h2, Metric.mem_closure_iff]
  intro h
  obtain ⟨y, hy, hd⟩ := h r hr
  rw [Set.mem_setOf_eq] at hy
  exact absurd hy (not_lt.2 (hn y (by rw [abs_sub_comm]; exact hd)))

/-- C120 (finding): for `P = p₃ x³ + p₂ x²` (`p₃ ≠ 0`) and for `P = p₂ x² + p₁ x` (`p₂ ≠ 0`) the solver sorts an array cell that was
never written. -/
theorem C120_undefined (epsM eps : ℝ) (hM : 0 < epsM) (he : 0 ≤ eps) (P : ℕ → ℝ) (hP : ∀ i, NotTiny epsM eps (P i))
    (h0 : P 0 = 0) (h : (P 3 ≠ 0 ∧ P 1 = 0) ∨ (P 3 = 0 ∧ P 2 ≠ 0)) : cubicIneq epsM eps P = none := by
  unfold cubicIneq
  rcases h with ⟨h3, h1⟩ | ⟨h3, h2⟩
  · rw [C67_cubic_uninitialised epsM eps hM he P hP h3 h0 h1]
    simp
  · have e : solveCubic epsM eps P [none, none, none] = solveQuadratic epsM eps P [none, none, none] := by
      unfold solveCubic
      rw [if_pos ((notTiny_le he (hP 3)).2 h3)]
    rw [e, (C67_quadratic_out_of_bounds epsM eps hM he P hP h2 h0 none none none).2]
    simp

/-! ### Concrete cases: `x³ - 6x² + 11x - 6` and `-(x-1)²(x+2) = -x³ + 3x - 2` -/

/-- the coefficient array with these integers -/
def coefs (a : List ℤ) : ℕ → ℝ := fun i => ((a.getD i 0 : ℤ) : ℝ)

theorem coefs_ne {a : List ℤ} (h : a.getD 0 0 ≠ 0) : poly (coefs a) 3 ≠ 0 := by
  intro h0
  have := coeff_poly (coefs a) 3 0
  rw [h0] at this
  simp only [coeff_zero, Nat.zero_le, if_true, coefs] at this
  exact h (by exact_mod_cast this.symm)

example : ∃ d, cubicIneq (1 / 2) (1 / 2) (coefs [-6, 11, -6, 1]) = some d ∧ dcontains d (((3 / 2 : ℝ)) : EReal) = true ∧
    dcontains d (((5 / 2 : ℝ)) : EReal) = false := by
  obtain ⟨d, h1, h2⟩ := C120_cubic_sound (1 / 2) (1 / 2) (by norm_num) (by norm_num) (coefs [-6, 11, -6, 1]) (fun i => notTiny_int _)
    (coefs_ne (by simp)) (by simp [coefs])
  refine ⟨d, h1, (h2 _).2 ?_, ?_⟩
  · rw [eval3]; simp only [coefs, List.getD_cons_zero, List.getD_cons_succ]; norm_num
  · rw [Bool.eq_false_iff]
    intro h
    have := (h2 _).1 h
    rw [eval3] at this
    simp only [coefs, List.getD_cons_zero, List.getD_cons_succ] at this
    norm_num at this

example : ∃ d, cubicIneq (1 / 2) (1 / 2) (coefs [-2, 3, 0, -1]) = some d ∧ (poly (coefs [-2, 3, 0, -1]) 3).eval 1 ≥ 0 ∧
    dcontains d (((1 : ℝ)) : EReal) = false := by
  refine C120_isolated_zero (1 / 2) (1 / 2) (by norm_num) (by norm_num) (coefs [-2, 3, 0, -1]) (fun i => notTiny_int _)
    (coefs_ne (by simp)) (by simp [coefs]) 1 1 (by norm_num) ?_ ?_
  · rw [eval3]; simp only [coefs, List.getD_cons_zero, List.getD_cons_succ]; norm_num
  · intro y hy
    rw [abs_lt] at hy
    rw [eval3]; simp only [coefs, List.getD_cons_zero, List.getD_cons_succ]
    push_cast
    nlinarith [mul_nonneg (sq_nonneg (y - 1)) (by linarith : 0 ≤ y + 2)]

example : cubicIneq (1 / 2) (1 / 2) (coefs [0, 0, 1, 1]) = none :=
  C120_undefined _ _ (by norm_num) (by norm_num) _ (fun i => notTiny_int _) (by simp [coefs]) (by simp [coefs])

end Verif.Ineq
