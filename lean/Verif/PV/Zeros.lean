import Verif.PV.Curve

/-!
# Edges in space (C140), zeros of trilinear and bilinear fields (C142)
-/

namespace Verif.PV

open Verif.Num Verif.Poly Matrix

variable {K : Type} [Field K] [LinearOrder K] [IsStrictOrderedRing K]

/-! ## C140 -/

theorem ev_edgeP (V W : Fin 2 → Fin 3 → K) (i : Fin 3) (l : K) : evaluate (edgeP V W i) 1 l = V 1 i - l * W 1 i := by
  rw [edgeP, ev_lin]; ring

theorem ev_edgeQ (V W : Fin 2 → Fin 3 → K) (i : Fin 3) (l : K) : evaluate (edgeQ V W i) 1 l = V 1 i - V 0 i - l * (W 1 i - W 0 i) := by
  rw [edgeQ, ev_lin]; ring

theorem ev_edgeH (V W : Fin 2 → Fin 3 → K) (i j : Fin 3) (l : K) : edgeH V W i j 0 + edgeH V W i j 1 * l + edgeH V W i j 2 * l ^ 2 =
    evaluate (edgeP V W i) 1 l * evaluate (edgeQ V W j) 1 l - evaluate (edgeP V W j) 1 l * evaluate (edgeQ V W i) 1 l := by
  rw [← ev_mul11 (edgeP V W i) (edgeQ V W j) 0, ← ev_mul11 (edgeP V W j) (edgeQ V W i) 0, ← ev_sub _ _ 0]
  simp only [edgeH, evaluate, fma]
  simp only [Fin.val_zero, Fin.val_one, Fin.val_two]
  ring

/-- C140 (part): a solution reported for an edge in space is one, in exact arithmetic with tolerance 0, if the third components of the interpolants of
`v - λw` at the two ends differ.  Missing: the case that they do not (`C140_false_solution`), and completeness (`C140_missed_solution`). -/
theorem C140_sound_partial {quadratic : (Fin 3 → K) → List K} (hq : ∀ P l, l ∈ quadratic P → P 0 + P 1 * l + P 2 * l ^ 2 = 0)
    (frob : (Fin 3 → Fin 2 → K) → K) {norm : (Fin 3 → K) → K} (hnorm : ∀ x, norm x ≤ 0 → x = 0)
    (hn0 : norm 0 = 0) (V W : Fin 2 → Fin 3 → K) (l : K) (mu : Fin 2 → K) {r : List (K × (Fin 2 → K))}
    (h : solve1v3 quadratic frob norm V W 0 = some r) (hm : (l, mu) ∈ r) (h2 : V 0 2 - l * W 0 2 ≠ V 1 2 - l * W 1 2) :
    ParallelAt V W l mu ∧ Inside 0 mu ∧ l ≠ 0 := by
  unfold solve1v3 at h
  dsimp only at h
  split_ifs at h with h1 h3
  swap
  · obtain rfl := Option.some.inj h
    simp at hm
  obtain rfl := Option.some.inj h
  rw [List.mem_filterMap] at hm
  obtain ⟨l', hl, hs⟩ := hm
  have hH0 := hq _ _ hl
  have hC := hnorm _ h3.2.2
  -- the second polynomial is a multiple of the first
  have hne : ∃ k, edgeH V W 1 2 k ≠ 0 := by
    by_contra hall
    push Not at hall
    have : edgeH V W 1 2 = 0 := funext hall
    rw [this, hn0] at h3
    exact lt_irrefl _ h3.1
  have hH1 : edgeH V W 0 2 0 + edgeH V W 0 2 1 * l' + edgeH V W 0 2 2 * l' ^ 2 = 0 := by
    have c0 := congrFun hC 0
    have c1 := congrFun hC 1
    have c2 := congrFun hC 2
    simp only [crossProduct, Matrix.cons_val, Pi.zero_apply] at c0 c1 c2
    generalize edgeH V W 1 2 = a at *
    generalize edgeH V W 0 2 = b at *
    obtain ⟨k, hk⟩ := hne
    apply mul_left_cancel₀ hk
    rw [mul_zero]
    fin_cases k
    · simp only [Fin.zero_eta]
      linear_combination b 0 * hH0 + l' * c2 - l' ^ 2 * c1
    · simp only [Fin.mk_one]
      linear_combination b 1 * hH0 - c2 + l' ^ 2 * c0
    · simp only [Fin.reduceFinMk]
      linear_combination b 2 * hH0 + c1 - l' * c0
  rw [ev_edgeH] at hH0 hH1
  unfold step1v3 at hs
  dsimp only at hs
  split_ifs at hs with g1 g2 g3
  simp only [Option.some.injEq, Prod.mk.injEq] at hs
  obtain ⟨rfl, rfl⟩ := hs
  simp only [ev_edgeP, ev_edgeQ] at hH0 hH1 g2 g3 ⊢
  rw [within_iff] at g3
  have hQ2 : V 1 2 - V 0 2 - l' * (W 1 2 - W 0 2) ≠ 0 := by
    intro h0
    apply h2
    linear_combination -h0
  have hx : (V 1 0 - l' * W 1 0) / (V 1 0 - V 0 0 - l' * (W 1 0 - W 0 0)) = (V 1 2 - l' * W 1 2) / (V 1 2 - V 0 2 - l' * (W 1 2 - W 0 2)) := by
    rw [div_eq_div_iff g2 hQ2]
    linear_combination hH1
  refine ⟨⟨by simp [Fin.sum_univ_two], ?_⟩, ?_, ?_⟩
  · intro k
    simp only [Fin.sum_univ_two, Matrix.cons_val_zero, Matrix.cons_val_one]
    fin_cases k
    · simp only [Fin.zero_eta]
      field_simp
      ring
    · simp only [Fin.mk_one]
      rw [hx]
      field_simp
      linear_combination hH0
    · simp only [Fin.reduceFinMk]
      rw [hx]
      field_simp
      ring
  · intro i
    fin_cases i
    · simpa using g3
    · simp only [Fin.mk_one, Matrix.cons_val_one, Matrix.cons_val_fin_one]
      constructor
      · linarith [g3.2]
      · linarith [g3.1]
  · rintro rfl
    simp at g1

/-- The sum of the absolute values: a norm. -/
def norm1 (x : Fin 3 → ℚ) : ℚ := |x 0| + |x 1| + |x 2|

/-- C140 (finding): a false solution. -/
theorem C140_false_solution : ∃ (V W : Fin 2 → Fin 3 → ℚ) (roots : (Fin 3 → ℚ) → List ℚ) (l : ℚ) (mu : Fin 2 → ℚ),
    (∀ x, x ∈ roots (edgeH V W 1 2) ↔ edgeH V W 1 2 0 + edgeH V W 1 2 1 * x + edgeH V W 1 2 2 * x ^ 2 = 0) ∧
    solve1v3 roots (fun _ => 1) norm1 V W (1 / 1000) = some [(l, mu)] ∧
    ¬ ∃ c : ℚ, ∀ k, ∑ i, mu i * V i k = c * ∑ i, mu i * W i k := by
  refine ⟨![![1, 1, 0], ![1, 1, 1]], ![![0, 0, 0], ![2, 3, 1]], fun _ => [1], 1, ![1 / 2, 1 / 2], ?_, ?_, ?_⟩
  · intro x
    rw [ev_edgeH]
    simp only [ev_edgeP, ev_edgeQ, List.mem_singleton]
    simp
    constructor
    · rintro rfl; norm_num
    · intro h; linear_combination -h
  · have hH0 : edgeH (![![1, 1, 0], ![1, 1, 1]] : Fin 2 → Fin 3 → ℚ) ![![0, 0, 0], ![2, 3, 1]] 1 2 = ![1, -1, 0] := by
      decide +kernel
    have hH1 : edgeH (![![1, 1, 0], ![1, 1, 1]] : Fin 2 → Fin 3 → ℚ) ![![0, 0, 0], ![2, 3, 1]] 0 2 = ![1, -1, 0] := by
      decide +kernel
    have hc : norm1 (crossProduct (![1, -1, 0] : Fin 3 → ℚ) ![1, -1, 0]) ≤ 1 / 1000 := by decide +kernel
    have hn : norm1 (![1, -1, 0] : Fin 3 → ℚ) > 1 / 1000 := by decide +kernel
    have hs : step1v3 (![![1, 1, 0], ![1, 1, 1]] : Fin 2 → Fin 3 → ℚ) ![![0, 0, 0], ![2, 3, 1]] (1 / 1000) 1 = some (1, ![1 / 2, 1 / 2]) := by
      decide +kernel
    unfold solve1v3
    dsimp only
    rw [if_neg (by norm_num), hH0, hH1, if_pos ⟨hn, hn, hc⟩]
    simp only [List.filterMap_cons, List.filterMap_nil, hs]
  · rintro ⟨c, h⟩
    have h0 := h 0
    have h1 := h 1
    simp [Fin.sum_univ_two] at h0 h1
    norm_num at h0 h1
    rw [← h0] at h1
    norm_num at h1

/-- C140 (finding): the fields are parallel with the same factor at exactly one point of the edge, and nothing is reported. -/
theorem C140_missed_solution : ∃ V W : Fin 2 → Fin 3 → ℚ, (∃! p : ℚ × (Fin 2 → ℚ), ParallelAt V W p.1 p.2) ∧
    ParallelAt V W 1 ![1 / 2, 1 / 2] ∧ ∀ roots, solve1v3 roots (fun _ => 1) norm1 V W (1 / 1000) = some [] := by
  have hp : ParallelAt (![![1, 0, 0], ![1, 2, 2]] : Fin 2 → Fin 3 → ℚ) ![![2, 1, 3], ![0, 1, -1]] 1 ![1 / 2, 1 / 2] := by
    refine ⟨by simp [Fin.sum_univ_two]; norm_num, fun k => ?_⟩
    fin_cases k <;> simp [Fin.sum_univ_two] <;> norm_num
  refine ⟨![![1, 0, 0], ![1, 2, 2]], ![![2, 1, 3], ![0, 1, -1]], ⟨(1, ![1 / 2, 1 / 2]), hp, ?_⟩, hp, ?_⟩
  · rintro ⟨l, mu⟩ ⟨hs, hk⟩
    have k0 := hk 0
    have k1 := hk 1
    have k2 := hk 2
    simp [Fin.sum_univ_two] at hs k0 k1 k2
    have hm : mu 1 = 1 - mu 0 := by linear_combination hs
    rw [hm] at k0 k1 k2
    have hl1 : l = 2 - 2 * mu 0 := by linear_combination -k1
    have e : (2 * mu 0 - 1) ^ 2 = 0 := by
      rw [hl1] at k0
      linear_combination k0
    have hm0 : mu 0 = 1 / 2 := by
      have := pow_eq_zero_iff (two_ne_zero) |>.1 e
      linear_combination this / 2
    have hl : l = 1 := by rw [hl1, hm0]; norm_num
    have hmu : mu = ![1 / 2, 1 / 2] := by
      funext i
      fin_cases i
      · simpa using hm0
      · simp [hm, hm0]; norm_num
    rw [hl, hmu]
  · intro roots
    have hH0 : edgeH (![![1, 0, 0], ![1, 2, 2]] : Fin 2 → Fin 3 → ℚ) ![![2, 1, 3], ![0, 1, -1]] 1 2 = ![0, 4, -4] := by
      decide +kernel
    have hH1 : edgeH (![![1, 0, 0], ![1, 2, 2]] : Fin 2 → Fin 3 → ℚ) ![![2, 1, 3], ![0, 1, -1]] 0 2 = ![2, 0, -2] := by
      decide +kernel
    have hc : ¬ norm1 (crossProduct (![0, 4, -4] : Fin 3 → ℚ) ![2, 0, -2]) ≤ 1 / 1000 := by decide +kernel
    unfold solve1v3
    dsimp only
    rw [if_neg (by norm_num), hH0, hH1, if_neg (fun h => hc h.2.2)]

/-! ## C142: bilinear -/

/-- C142: the zeros reported for a bilinear field on a square are zeros in the square. -/
theorem C142_bilinear_sound {sqrt : K → K} (hsq : ∀ d, 0 ≤ d → sqrt d * sqrt d = d) (u v : Fin 4 → K) (x y : K)
    (h : (x, y) ∈ inverseBilinear sqrt u v) : bilinear u x y = 0 ∧ bilinear v x y = 0 ∧ (0 ≤ x ∧ x ≤ 1) ∧ 0 ≤ y ∧ y ≤ 1 := by
  unfold inverseBilinear at h
  dsimp only at h
  split_ifs at h with h1 h2
  · simp at h
  · simp at h
  push Not at h2
  rw [List.mem_filterMap] at h
  obtain ⟨y', hy, h⟩ := h
  split_ifs at h with h3
  simp only [Option.some.injEq, Prod.mk.injEq] at h
  obtain ⟨hx, rfl⟩ := h
  generalize hA0 : u 0 - u 1 - u 3 + u 2 = A0 at *
  generalize hA1 : v 0 - v 1 - v 3 + v 2 = A1 at *
  generalize hD : A0 * (v 3 - v 0) - A1 * (u 3 - u 0) = D at *
  generalize hQ0 : (v 3 - v 0) / D * -(u 1 - u 0) + -(u 3 - u 0) / D * -(v 1 - v 0) = Q0 at *
  generalize hQ1 : (v 3 - v 0) / D * -u 0 + -(u 3 - u 0) / D * -v 0 = Q1 at *
  generalize hQ2 : -A1 / D * -(u 1 - u 0) + A0 / D * -(v 1 - v 0) = Q2 at *
  generalize hQ3 : -A1 / D * -u 0 + A0 / D * -v 0 = Q3 at *
  have hs := hsq _ h2.1
  have hy2 : y' * y' - (Q0 + Q3) * y' + (Q0 * Q3 - Q1 * Q2) = 0 := by
    simp only [List.mem_cons, List.not_mem_nil, or_false] at hy
    rcases hy with rfl | rfl <;> linear_combination hs
  have hxQ : Q2 * x = y' - Q3 := by rw [← hx]; field_simp [h2.2]
  have hxy : x * y' = Q0 * x + Q1 := by
    apply mul_left_cancel₀ h2.2
    linear_combination (y' - Q0) * hxQ + hy2
  have e0 : D * Q0 = (v 3 - v 0) * -(u 1 - u 0) + -(u 3 - u 0) * -(v 1 - v 0) := by rw [← hQ0]; field_simp
  have e1 : D * Q1 = (v 3 - v 0) * -u 0 + -(u 3 - u 0) * -v 0 := by rw [← hQ1]; field_simp
  have e2 : D * Q2 = -A1 * -(u 1 - u 0) + A0 * -(v 1 - v 0) := by rw [← hQ2]; field_simp
  have e3 : D * Q3 = -A1 * -u 0 + A0 * -v 0 := by rw [← hQ3]; field_simp
  rw [hx] at h3
  refine ⟨?_, ?_, ⟨h3.1, h3.2.1⟩, h3.2.2⟩
  all_goals
    apply mul_left_cancel₀ h1
    unfold bilinear
    dsimp only
    rw [mul_zero]
  · linear_combination A0 * D * hxy + A0 * x * e0 + A0 * e1 - (u 3 - u 0) * D * hxQ + (u 3 - u 0) * x * e2 + (u 3 - u 0) * e3 -
      ((u 1 - u 0) * x + u 0) * hD + D * x * y' * hA0
  · linear_combination A1 * D * hxy + A1 * x * e0 + A1 * e1 - (v 3 - v 0) * D * hxQ + (v 3 - v 0) * x * e2 + (v 3 - v 0) * e3 -
      ((v 1 - v 0) * x + v 0) * hD + D * x * y' * hA1

/-- C142 (part): every zero of a bilinear field in the square is reported if the two matrices the method divides by are regular.  Missing: the other
fields (`C142_bilinear_missed`). -/
theorem C142_bilinear_complete_partial {sqrt : K → K} (hsq : ∀ d, 0 ≤ d → sqrt d * sqrt d = d) (u v : Fin 4 → K) (x y : K)
    (hu : bilinear u x y = 0) (hv : bilinear v x y = 0) (hx : 0 ≤ x ∧ x ≤ 1) (hy : 0 ≤ y ∧ y ≤ 1)
    (h1 : (u 0 - u 1 - u 3 + u 2) * (v 3 - v 0) - (v 0 - v 1 - v 3 + v 2) * (u 3 - u 0) ≠ 0)
    (h2 : (u 0 - u 1 - u 3 + u 2) * (v 1 - v 0) - (v 0 - v 1 - v 3 + v 2) * (u 1 - u 0) ≠ 0) :
    (x, y) ∈ inverseBilinear sqrt u v := by
  unfold inverseBilinear
  dsimp only
  rw [if_neg h1]
  unfold bilinear at hu hv
  dsimp only at hu hv
  generalize hA0 : u 0 - u 1 - u 3 + u 2 = A0 at *
  generalize hA1 : v 0 - v 1 - v 3 + v 2 = A1 at *
  generalize hD : A0 * (v 3 - v 0) - A1 * (u 3 - u 0) = D at *
  generalize hQ0 : (v 3 - v 0) / D * -(u 1 - u 0) + -(u 3 - u 0) / D * -(v 1 - v 0) = Q0 at *
  generalize hQ1 : (v 3 - v 0) / D * -u 0 + -(u 3 - u 0) / D * -v 0 = Q1 at *
  generalize hQ2 : -A1 / D * -(u 1 - u 0) + A0 / D * -(v 1 - v 0) = Q2 at *
  generalize hQ3 : -A1 / D * -u 0 + A0 / D * -v 0 = Q3 at *
  have e0 : D * Q0 = (v 3 - v 0) * -(u 1 - u 0) + -(u 3 - u 0) * -(v 1 - v 0) := by rw [← hQ0]; field_simp
  have e1 : D * Q1 = (v 3 - v 0) * -u 0 + -(u 3 - u 0) * -v 0 := by rw [← hQ1]; field_simp
  have e2 : D * Q2 = -A1 * -(u 1 - u 0) + A0 * -(v 1 - v 0) := by rw [← hQ2]; field_simp
  have e3 : D * Q3 = -A1 * -u 0 + A0 * -v 0 := by rw [← hQ3]; field_simp
  have hq2 : Q2 ≠ 0 := by
    rintro rfl
    apply h2
    linear_combination e2
  have hxQ : y = Q2 * x + Q3 := by
    apply mul_left_cancel₀ h1
    linear_combination -x * e2 - e3 - A1 * hu + A0 * hv - y * hD + x * y * (A1 * hA0 - A0 * hA1)
  have hxy : x * y = Q0 * x + Q1 := by
    apply mul_left_cancel₀ h1
    linear_combination -x * e0 - e1 + (v 3 - v 0) * hu - (u 3 - u 0) * hv - x * y * hD - x * y * ((v 3 - v 0) * hA0 - (u 3 - u 0) * hA1)
  have hc : (y - (Q0 + Q3) / 2) * (y - (Q0 + Q3) / 2) = (Q0 + Q3) * (Q0 + Q3) / 4 - (Q0 * Q3 - Q1 * Q2) := by
    have : y * y - (Q0 + Q3) * y + (Q0 * Q3 - Q1 * Q2) = 0 := by
      linear_combination (y - Q0) * hxQ + Q2 * hxy
    linear_combination this
  have hd : 0 ≤ (Q0 + Q3) * (Q0 + Q3) / 4 - (Q0 * Q3 - Q1 * Q2) := by rw [← hc]; exact mul_self_nonneg _
  rw [if_neg (by push Not; exact ⟨hd, hq2⟩), List.mem_filterMap]
  refine ⟨y, ?_, ?_⟩
  · have hs := hsq _ hd
    rw [← hc] at hs
    rw [← hc]
    simp only [List.mem_cons, List.not_mem_nil, or_false]
    rcases mul_self_eq_mul_self_iff.1 hs with h | h
    · left; rw [h]; ring
    · right; rw [h]; ring
  · have : (y - Q3) / Q2 = x := by rw [hxQ]; field_simp; ring
    rw [this, if_pos ⟨hx.1, hx.2, hy.1, hy.2⟩]

/-- C142 (finding): no zero of an affine field is ever found. -/
theorem C142_bilinear_missed (sqrt : K → K) (u v : Fin 4 → K) (hu : u 0 + u 2 = u 1 + u 3) (hv : v 0 + v 2 = v 1 + v 3) :
    inverseBilinear sqrt u v = [] := by
  unfold inverseBilinear
  dsimp only
  rw [if_pos]
  have a : u 0 - u 1 - u 3 + u 2 = 0 := by linear_combination hu
  have b : v 0 - v 1 - v 3 + v 2 = 0 := by linear_combination hv
  rw [a, b]; ring

/-- `u = x - 1/2`, `v = y - 1/2` is such a field. -/
example : bilinear (![-1 / 2, 1 / 2, 1 / 2, -1 / 2] : Fin 4 → ℚ) (1 / 2) (1 / 2) = 0 ∧ bilinear (![-1 / 2, -1 / 2, 1 / 2, 1 / 2] : Fin 4 → ℚ) (1 / 2) (1 / 2) = 0 ∧
    (-1 / 2 : ℚ) + 1 / 2 = 1 / 2 + -1 / 2 := by decide +kernel

/-- A field with one zero in the square, `u = xy - 1/4`, `v = y - x`. -/
example : inverseBilinear (fun d : ℚ => if d = 1 / 4 then 1 / 2 else 0) ![-1 / 4, -1 / 4, 3 / 4, -1 / 4] ![0, -1, 0, 1] = [(1 / 2, 1 / 2)] := by
  decide +kernel

/-! ## C142: trilinear -/

theorem ev_ueQ (A B : Fin 3 → Fin 3 → K) (l : K) : evaluate (ueQ A B) 3 l = (Matrix.of fun i j => A i j - l * B i j).det := by
  rw [Matrix.det_fin_three]
  simp only [ueQ, ev_addin, ev_subin, ev_zero, m3, m2, ev_mul21, ev_mul11, aL, ev_lin, Matrix.of_apply]
  ring

theorem ev_ueP (A : Fin 3 → Fin 3 → K) (a : Fin 3 → K) (B : Fin 3 → Fin 3 → K) (b : Fin 3 → K) (i : Fin 3) (l : K) :
    evaluate (ueP A a B b i) 3 l = ((Matrix.of fun i j => A i j - l * B i j).adjugate).mulVec (fun k => -(a k - l * b k)) i := by
  unfold ueP
  simp only [ev_addin, ev_zero, ev_mul21, zero_add]
  simp only [Matrix.mulVec, dotProduct, Fin.sum_univ_three, ev_lin, Matrix.adjugate_fin_three]
  fin_cases i <;> simp only [ueAdj, s2, m2, ev_sub, ev_mul11, aL, ev_lin, Fin.zero_eta, Fin.mk_one, Fin.reduceFinMk, Matrix.cons_val, Matrix.of_apply] <;> ring

theorem ev_uePoly (A : Fin 3 → Fin 3 → K) (a : Fin 3 → K) (B : Fin 3 → Fin 3 → K) (b : Fin 3 → K) (l : K) : evaluate (uePoly A a B b) 6 l =
    evaluate (ueP A a B b 0) 3 l * evaluate (ueP A a B b 1) 3 l - evaluate (ueP A a B b 2) 3 l * evaluate (ueQ A B) 3 l := by
  rw [uePoly, ev_subin, ev_mul33, ev_mul33]

/-- Where `Q` does not vanish, the quotients solve the linear system. -/
theorem ue_system (A : Fin 3 → Fin 3 → K) (a : Fin 3 → K) (B : Fin 3 → Fin 3 → K) (b : Fin 3 → K) (l : K) (h : evaluate (ueQ A B) 3 l ≠ 0) (x : Fin 3 → K) :
    (∀ k, (A k 0 - l * B k 0) * x 0 + (A k 1 - l * B k 1) * x 1 + (A k 2 - l * B k 2) * x 2 = -(a k - l * b k)) ↔
      ∀ i, x i = evaluate (ueP A a B b i) 3 l / evaluate (ueQ A B) 3 l := by
  have hu : IsUnit (Matrix.of fun i j => A i j - l * B i j).det := by rw [← ev_ueQ]; exact isUnit_iff_ne_zero.2 h
  have hP : ∀ i, evaluate (ueP A a B b i) 3 l / evaluate (ueQ A B) 3 l = ((Matrix.of fun i j => A i j - l * B i j)⁻¹).mulVec (fun k => -(a k - l * b k)) i := by
    intro i
    rw [ev_ueP, Matrix.inv_def, Ring.inverse_eq_inv', Matrix.smul_mulVec, Pi.smul_apply, smul_eq_mul, ← ev_ueQ, div_eq_inv_mul]
  have hk : (∀ k, (A k 0 - l * B k 0) * x 0 + (A k 1 - l * B k 1) * x 1 + (A k 2 - l * B k 2) * x 2 = -(a k - l * b k)) ↔
      (Matrix.of fun i j => A i j - l * B i j).mulVec x = fun k => -(a k - l * b k) := by
    rw [funext_iff]
    simp only [Matrix.mulVec, dotProduct, Fin.sum_univ_three, Matrix.of_apply]
  rw [hk]
  simp only [hP]
  constructor
  · intro e i
    rw [← e, Matrix.mulVec_mulVec, Matrix.nonsing_inv_mul _ hu, Matrix.one_mulVec]
  · intro e
    rw [funext e, Matrix.mulVec_mulVec, Matrix.mul_nonsing_inv _ hu, Matrix.one_mulVec]

/-- At a root of the resultant they also satisfy the constraint. -/
theorem ue_root (A : Fin 3 → Fin 3 → K) (a : Fin 3 → K) (B : Fin 3 → Fin 3 → K) (b : Fin 3 → K) (l : K) (h : evaluate (ueQ A B) 3 l ≠ 0)
    (h0 : evaluate (uePoly A a B b) 6 l = 0) : ∃ x y, x = evaluate (ueP A a B b 0) 3 l / evaluate (ueQ A B) 3 l ∧
      y = evaluate (ueP A a B b 1) 3 l / evaluate (ueQ A B) 3 l ∧
      ∀ k, (A k 0 - l * B k 0) * x + (A k 1 - l * B k 1) * y + (A k 2 - l * B k 2) * (x * y) = -(a k - l * b k) := by
  refine ⟨_, _, rfl, rfl, fun k => ?_⟩
  rw [ev_uePoly] at h0
  have hs := (ue_system A a B b l h (fun i => evaluate (ueP A a B b i) 3 l / evaluate (ueQ A B) 3 l)).2 (fun _ => rfl)
  rw [← hs k]
  have : evaluate (ueP A a B b 0) 3 l / evaluate (ueQ A B) 3 l * (evaluate (ueP A a B b 1) 3 l / evaluate (ueQ A B) 3 l) =
      evaluate (ueP A a B b 2) 3 l / evaluate (ueQ A B) 3 l := by
    field_simp
    linear_combination h0
  rw [this]

/-- C142: the eigenproblem solver: what it reports with a position satisfies `(A - λB) (x, y, xy)ᵀ = -(a - λb)`. -/
theorem C142_eigen_sound {roots : Buf K → List K} (hr : ∀ P l, l ∈ roots P → evaluate P 6 l = 0) (A : Fin 3 → Fin 3 → K) (a : Fin 3 → K)
    (B : Fin 3 → Fin 3 → K) (b : Fin 3 → K) (x y l : K) (h : (some (x, y), l) ∈ ueSolve roots A a B b) :
    (∀ k, (A k 0 - l * B k 0) * x + (A k 1 - l * B k 1) * y + (A k 2 - l * B k 2) * (x * y) = -(a k - l * b k)) ∧
      (0 ≤ x ∧ x ≤ 1) ∧ (0 ≤ y ∧ y ≤ 1) ∧ 0 ≤ l ∧ l ≤ 1 := by
  unfold ueSolve at h
  dsimp only at h
  split_ifs at h with h1
  · simp at h
  rw [List.mem_filterMap] at h
  obtain ⟨l', hl, h⟩ := h
  have h0 := hr _ _ hl
  split_ifs at h with g1 g2 g3
  · simp at h
  simp only [Option.some.injEq, Prod.mk.injEq] at h
  obtain ⟨⟨rfl, rfl⟩, rfl⟩ := h
  refine ⟨?_, g3⟩
  obtain ⟨x, y, rfl, rfl, hk⟩ := ue_root A a B b l' g1 h0
  exact hk

/-- C142: and every solution in range is reported, if the root finder finds all real roots, where `Q` does not vanish and the resultant is not
identically zero. -/
theorem C142_eigen_complete {roots : Buf K → List K} (A : Fin 3 → Fin 3 → K) (a : Fin 3 → K) (B : Fin 3 → Fin 3 → K) (b : Fin 3 → K)
    (hr : ∀ l, evaluate (uePoly A a B b) 6 l = 0 → l ∈ roots (uePoly A a B b)) (hnz : ∃ l, evaluate (uePoly A a B b) 6 l ≠ 0)
    (x y l : K) (hx : 0 ≤ x ∧ x ≤ 1) (hy : 0 ≤ y ∧ y ≤ 1) (hl : 0 ≤ l ∧ l ≤ 1) (hQ : evaluate (ueQ A B) 3 l ≠ 0)
    (h : ∀ k, (A k 0 - l * B k 0) * x + (A k 1 - l * B k 1) * y + (A k 2 - l * B k 2) * (x * y) = -(a k - l * b k)) :
    (some (x, y), l) ∈ ueSolve roots A a B b := by
  have hs := (ue_system A a B b l hQ ![x, y, x * y]).1 (by simpa using h)
  have e0 : x = _ := hs 0
  have e1 : y = _ := hs 1
  have e2 : x * y = _ := hs 2
  have h0 : evaluate (uePoly A a B b) 6 l = 0 := by
    rw [ev_uePoly]
    rw [eq_div_iff hQ] at e0 e1 e2
    rw [← e0, ← e1, ← e2]; ring
  unfold ueSolve
  dsimp only
  rw [if_neg, List.mem_filterMap]
  · refine ⟨l, hr _ h0, ?_⟩
    rw [if_neg hQ, ← e0, ← e1, if_pos ⟨hx, hy, hl⟩]
  · rintro ⟨c1, c2, c3, c4, c5, c6⟩
    obtain ⟨l', hl'⟩ := hnz
    rw [C36_evaluate, eval_poly] at hl' h0
    simp only [Finset.sum_range_succ, Finset.sum_range_zero, c1, c2, c3, c4, c5, c6, zero_mul, add_zero, zero_add, pow_zero, mul_one] at hl' h0
    exact hl' h0

theorem trilinear_eq (V : Fin 8 → Fin 3 → K) (x y z : K) (k : Fin 3) : trilinear V x y z k =
    (-V 0 k + V 4 k) * x + (-V 0 k + V 2 k) * y + (V 0 k - V 2 k - V 4 k + V 6 k) * (x * y) + V 0 k +
    z * ((V 0 k - V 1 k - V 4 k + V 5 k) * x + (V 0 k - V 1 k - V 2 k + V 3 k) * y +
      (-V 0 k + V 1 k + V 2 k - V 3 k + V 4 k - V 5 k - V 6 k + V 7 k) * (x * y) + (-V 0 k + V 1 k)) := by
  unfold trilinear
  dsimp only
  ring

/-- C142: the positions reported for a trilinear field are zeros of it in the cube. -/
theorem C142_trilinear_sound {roots : Buf K → List K} (hr : ∀ P l, l ∈ roots P → evaluate P 6 l = 0) (V : Fin 8 → Fin 3 → K) (x y z : K)
    (h : (some (x, y), z) ∈ inverseTrilinear roots V) :
    trilinear V x y z = 0 ∧ (0 ≤ x ∧ x ≤ 1) ∧ (0 ≤ y ∧ y ≤ 1) ∧ 0 ≤ z ∧ z ≤ 1 := by
  obtain ⟨h1, h2⟩ := C142_eigen_sound hr _ _ _ _ _ _ _ h
  refine ⟨?_, h2⟩
  funext k
  rw [trilinear_eq, Pi.zero_apply]
  have := h1 k
  simp only [Matrix.cons_val] at this
  linear_combination this

/-- The determinant the method divides by: the derivatives along `x`, `y` and the mixed one, at height `z`. -/
def triDet (V : Fin 8 → Fin 3 → K) (z : K) : K := (Matrix.of fun k : Fin 3 =>
  ![trilinear V 1 0 z k - trilinear V 0 0 z k, trilinear V 0 1 z k - trilinear V 0 0 z k,
    trilinear V 1 1 z k - trilinear V 1 0 z k - trilinear V 0 1 z k + trilinear V 0 0 z k]).det

/-- C142 (part): every zero in the cube is reported where that determinant does not vanish, if the resultant is not identically zero and the root finder
finds its roots.  Missing: the other zeros (`C142_trilinear_missed`). -/
theorem C142_trilinear_complete_partial {roots : Buf K → List K} (V : Fin 8 → Fin 3 → K)
    (hr : ∀ P, (∃ l, evaluate P 6 l ≠ 0) → ∀ l, evaluate P 6 l = 0 → l ∈ roots P) (x y z : K)
    (hx : 0 ≤ x ∧ x ≤ 1) (hy : 0 ≤ y ∧ y ≤ 1) (hz : 0 ≤ z ∧ z ≤ 1) (hd : triDet V z ≠ 0)
    (hnz : ∃ z', triDet V z' ≠ 0 ∧ ∀ x y, trilinear V x y z' ≠ 0)
    (h : trilinear V x y z = 0) : (some (x, y), z) ∈ inverseTrilinear roots V := by
  have hQ : ∀ z, evaluate (ueQ (fun i => ![-V 0 i + V 4 i, -V 0 i + V 2 i, V 0 i - V 2 i - V 4 i + V 6 i])
      (fun i => ![-(V 0 i - V 1 i - V 4 i + V 5 i), -(V 0 i - V 1 i - V 2 i + V 3 i),
        -(-V 0 i + V 1 i + V 2 i - V 3 i + V 4 i - V 5 i - V 6 i + V 7 i)])) 3 z = triDet V z := by
    intro z
    rw [ev_ueQ, triDet]
    congr 1
    ext i j
    fin_cases j <;> simp only [Matrix.of_apply, trilinear, Fin.zero_eta, Fin.mk_one, Fin.reduceFinMk, Matrix.cons_val] <;> ring
  have hnz' : ∃ l, evaluate (uePoly (fun i => ![-V 0 i + V 4 i, -V 0 i + V 2 i, V 0 i - V 2 i - V 4 i + V 6 i]) (fun i => V 0 i)
      (fun i => ![-(V 0 i - V 1 i - V 4 i + V 5 i), -(V 0 i - V 1 i - V 2 i + V 3 i),
        -(-V 0 i + V 1 i + V 2 i - V 3 i + V 4 i - V 5 i - V 6 i + V 7 i)]) (fun i => -(-V 0 i + V 1 i))) 6 l ≠ 0 := by
    obtain ⟨z', h1, h2⟩ := hnz
    refine ⟨z', fun h0 => ?_⟩
    rw [← hQ] at h1
    obtain ⟨x, y, -, -, hs⟩ := ue_root _ _ _ _ z' h1 h0
    refine h2 x y (funext fun k => ?_)
    rw [trilinear_eq, Pi.zero_apply]
    have := hs k
    simp only [Matrix.cons_val] at this
    linear_combination this
  refine C142_eigen_complete _ _ _ _ (hr _ hnz') hnz' x y z hx hy hz (by rw [hQ]; exact hd) ?_
  intro k
  have := congrFun h k
  rw [trilinear_eq, Pi.zero_apply] at this
  simp only [Matrix.cons_val]
  linear_combination this

theorem coeff_zero {P : Buf K} {m : ℕ} (h : ∀ l, evaluate P m l = 0) : ∀ i ≤ m, P i = 0 := by
  intro i hi
  have h0 : poly P m = 0 := Polynomial.funext fun l => by rw [← C36_evaluate, h]; simp
  have := coeff_poly P m i
  rw [h0, if_pos hi] at this
  simpa using this.symm

/-- C142 (finding): nothing is reported for a field that is affine along `x` and `y` (in particular for an affine field), whatever zeros it has. -/
theorem C142_trilinear_missed (roots : Buf K → List K) (V : Fin 8 → Fin 3 → K)
    (h : ∀ k, V 0 k + V 6 k = V 2 k + V 4 k ∧ V 1 k + V 7 k = V 3 k + V 5 k) : inverseTrilinear roots V = [] := by
  unfold inverseTrilinear ueSolve
  dsimp only
  rw [if_pos]
  have hB : ∀ k, V 0 k - V 2 k - V 4 k + V 6 k = 0 := fun k => by linear_combination (h k).1
  have hA : ∀ k, -V 0 k + V 1 k + V 2 k - V 3 k + V 4 k - V 5 k - V 6 k + V 7 k = 0 := fun k => by linear_combination (h k).2 - (h k).1
  have hz := coeff_zero (P := uePoly (fun i => ![-V 0 i + V 4 i, -V 0 i + V 2 i, V 0 i - V 2 i - V 4 i + V 6 i]) (fun i => V 0 i)
      (fun i => ![-(V 0 i - V 1 i - V 4 i + V 5 i), -(V 0 i - V 1 i - V 2 i + V 3 i),
        -(-V 0 i + V 1 i + V 2 i - V 3 i + V 4 i - V 5 i - V 6 i + V 7 i)]) (fun i => -(-V 0 i + V 1 i))) (m := 6) (by
    intro l
    rw [ev_uePoly, ev_ueQ, ev_ueP, ev_ueP, Matrix.det_fin_three]
    simp only [Matrix.mulVec, dotProduct, Fin.sum_univ_three, Matrix.adjugate_fin_three, Matrix.cons_val, Matrix.of_apply, hA, hB]
    ring)
  exact ⟨hz 1 (by omega), hz 2 (by omega), hz 3 (by omega), hz 4 (by omega), hz 5 (by omega), hz 6 (by omega)⟩

/-- Such a field: `(x - 1/2, y - 1/2, z - 1/2)` vanishes at the centre. -/
example : ∃ V : Fin 8 → Fin 3 → ℚ, (∀ k, V 0 k + V 6 k = V 2 k + V 4 k ∧ V 1 k + V 7 k = V 3 k + V 5 k) ∧
    trilinear V (1 / 2) (1 / 2) (1 / 2) = 0 ∧ inverseTrilinear (fun _ => [1 / 2]) V = [] := by
  refine ⟨fun i => ![(i.val / 4 : ℕ) - 1 / 2, (i.val / 2 % 2 : ℕ) - 1 / 2, (i.val % 2 : ℕ) - 1 / 2], ?_, ?_, ?_⟩
  · decide +kernel
  · decide +kernel
  · exact C142_trilinear_missed _ _ (by decide +kernel)

/-- The corner values of `(z - 1/2, 1 + y + xy, 1 + x + 2xy)`. -/
def nanField : Fin 8 → Fin 3 → ℚ := ![![-1 / 2, 1, 1], ![1 / 2, 1, 1], ![-1 / 2, 2, 1], ![1 / 2, 2, 1], ![-1 / 2, 1, 2], ![1 / 2, 1, 2], ![-1 / 2, 3, 4], ![1 / 2, 3, 4]]

/-- C142 (finding): a zero with a position that is not a number is reported for a field without zeros. -/
theorem C142_trilinear_nan (roots : Buf ℚ → List ℚ) (hr : ∀ P, (∃ l, evaluate P 6 l ≠ 0) → ∀ l, evaluate P 6 l = 0 → l ∈ roots P) :
    (none, 1 / 2) ∈ inverseTrilinear roots nanField ∧
      ∀ x y z : ℚ, 0 ≤ x → 0 ≤ y → trilinear nanField x y z ≠ 0 := by
  constructor
  · unfold inverseTrilinear ueSolve
    dsimp only
    generalize hA : (fun i => ![-nanField 0 i + nanField 4 i, -nanField 0 i + nanField 2 i, nanField 0 i - nanField 2 i - nanField 4 i + nanField 6 i]) = A
    generalize hB : (fun i => ![-(nanField 0 i - nanField 1 i - nanField 4 i + nanField 5 i), -(nanField 0 i - nanField 1 i - nanField 2 i + nanField 3 i),
        -(-nanField 0 i + nanField 1 i + nanField 2 i - nanField 3 i + nanField 4 i - nanField 5 i - nanField 6 i + nanField 7 i)]) = B
    generalize ha : (fun i => nanField 0 i) = a
    generalize hb : (fun i => -(-nanField 0 i + nanField 1 i)) = b
    have hQ : ∀ l, evaluate (ueQ A B) 3 l = 0 := by
      intro l
      rw [ev_ueQ, ← hA, ← hB, Matrix.det_fin_three]
      simp [nanField]
    have hP : ∀ i l, evaluate (ueP A a B b i) 3 l = (![2, 1, -1] : Fin 3 → ℚ) i * (1 / 2 - l) := by
      intro i l
      rw [ev_ueP, ← hA, ← hB, ← ha, ← hb, Matrix.adjugate_fin_three]
      simp only [Matrix.mulVec, dotProduct, Fin.sum_univ_three]
      fin_cases i <;> simp [nanField] <;> ring
    have hev : ∀ l, evaluate (uePoly A a B b) 6 l = 2 * (1 / 2 - l) ^ 2 := by
      intro l
      rw [ev_uePoly, hQ, hP, hP, hP]
      simp
      ring
    rw [if_neg, List.mem_filterMap]
    · refine ⟨1 / 2, hr _ ⟨0, by rw [hev]; norm_num⟩ _ (by rw [hev]; norm_num), ?_⟩
      rw [if_pos (hQ _), if_pos]
      refine ⟨?_, ?_, by norm_num, by norm_num⟩
      · rw [hP]; norm_num
      · rw [hP]; norm_num
    · rintro ⟨c1, c2, c3, c4, c5, c6⟩
      have h0 := hev 0
      have h1 := hev (1 / 2)
      rw [C36_evaluate, eval_poly] at h0 h1
      simp only [Finset.sum_range_succ, Finset.sum_range_zero, c1, c2, c3, c4, c5, c6, zero_mul, add_zero, zero_add, pow_zero, mul_one] at h0 h1
      rw [h0] at h1
      norm_num at h1
  · intro x y z hx hy h
    have := congrFun h 1
    rw [trilinear_eq] at this
    simp [nanField] at this
    norm_num at this
    nlinarith [mul_nonneg hx hy]

/-- The corner values of `(x + z - 1, y - 1/2, xy - 1/4)`. -/
def goodField : Fin 8 → Fin 3 → ℚ := fun i => ![(i.val / 4 : ℕ) + (i.val % 2 : ℕ) - 1, (i.val / 2 % 2 : ℕ) - 1 / 2, (i.val / 4 : ℕ) * (i.val / 2 % 2 : ℕ) - 1 / 4]

/-- A field that meets the conditions, and its zero. -/
example (roots : Buf ℚ → List ℚ) (hr : ∀ P, (∃ l, evaluate P 6 l ≠ 0) → ∀ l, evaluate P 6 l = 0 → l ∈ roots P) :
    (some (1 / 2, 1 / 2), 1 / 2) ∈ inverseTrilinear roots goodField := by
  refine C142_trilinear_complete_partial _ hr _ _ _ (by norm_num) (by norm_num) (by norm_num) ?_ ⟨0, ?_, ?_⟩ (by decide +kernel)
  · rw [triDet, Matrix.det_fin_three]; decide +kernel
  · rw [triDet, Matrix.det_fin_three]; decide +kernel
  · intro x y h
    have h0 := congrFun h 0
    have h1 := congrFun h 1
    have h2 := congrFun h 2
    rw [trilinear_eq] at h0 h1 h2
    simp [goodField] at h0 h1 h2
    norm_num at h0 h1 h2
    have hx : x = 1 := by linarith
    have hy : y = 1 / 2 := by linarith
    rw [hx, hy] at h2
    norm_num at h2

end Verif.PV
