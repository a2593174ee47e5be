import Verif.RatIneq.Lemmas
import Verif.Poly.Props
import Mathlib.Analysis.Calculus.Deriv.Polynomial
import Mathlib.Topology.Order.IntermediateValue

/-!
# C203-C205: the quantised solvers of rational inequalities
-/

namespace Verif.RatIneq

open Verif.Interval Verif.Poly Polynomial

theorem foldl_setInsert (l : List E) : ∀ s : List E, s.Pairwise (· < ·) →
    (l.foldl (fun s v => setInsert v s) s).Pairwise (· < ·) ∧
      ∀ x, x ∈ l.foldl (fun s v => setInsert v s) s ↔ x ∈ l ∨ x ∈ s := by
  induction l with
  | nil => exact fun s hs => ⟨hs, by simp⟩
  | cons a l ih =>
    intro s hs
    obtain ⟨h1, h2⟩ := ih (setInsert a s) (StrictSorted.setInsert hs)
    rw [List.foldl_cons]
    refine ⟨h1, fun x => ?_⟩
    rw [h2 x, mem_setInsert, List.mem_cons]
    tauto

/-! ### C203: critical values and poles -/

section Scalar

variable {K : Type} [Field K] [LinearOrder K] [FloorRing K]

/-- C203: the critical values are the two infinities and exactly the cells in which the recorded multiplicities of P and
of Q differ; they are listed in increasing order. -/
theorem C203_critical (f : K) (rp rq : List (K × ℕ)) :
    (critical (quantMap f rp) (quantMap f rq)).Pairwise (· < ·) ∧
    (⊥ : E) ∈ critical (quantMap f rp) (quantMap f rq) ∧ (⊤ : E) ∈ critical (quantMap f rp) (quantMap f rq) ∧
    ∀ v : ℤ, fin v ∈ critical (quantMap f rp) (quantMap f rq) ↔ lastMult f rp v ≠ lastMult f rq v := by
  obtain ⟨hp1, hp2⟩ := quantMap_spec f rp
  obtain ⟨hq1, hq2⟩ := quantMap_spec f rq
  obtain ⟨h1, h2⟩ := foldl_setInsert ((live (residP (quantMap f rp) (quantMap f rq)) ++
    live (residQ (quantMap f rp) (quantMap f rq))).map fin ++ [⊥, ⊤]) [] List.Pairwise.nil
  refine ⟨h1, (h2 _).2 (by simp), (h2 _).2 (by simp), fun v => ?_⟩
  unfold critical
  rw [h2]
  have e : (fin v ∈ (live (residP (quantMap f rp) (quantMap f rq)) ++
      live (residQ (quantMap f rp) (quantMap f rq))).map fin) ↔ lastMult f rp v ≠ lastMult f rq v := by
    rw [List.mem_map]
    constructor
    · rintro ⟨u, hu, hv⟩
      obtain rfl := fin_inj hv
      rw [List.mem_append, live_residP hp1, live_residQ hq1, hp2, hq2] at hu
      omega
    · intro h
      refine ⟨v, ?_, rfl⟩
      rw [List.mem_append, live_residP hp1, live_residQ hq1, hp2, hq2]
      omega
  rw [List.mem_append, e]
  constructor
  · rintro ((h | h) | h)
    · exact h
    · simp only [List.mem_cons, List.not_mem_nil, or_false] at h
      rcases h with h | h
      · exact absurd h (fin_ne_bot v)
      · exact absurd h (fin_ne_top v)
    · simp at h
  · exact fun h => Or.inl (Or.inl h)

/-- C203: a cell is treated as a pole exactly when the recorded multiplicity in Q exceeds the one in P. -/
theorem C203_poles (f : K) (rp rq : List (K × ℕ)) (v : ℤ) :
    v ∈ singularities (quantMap f rp) (quantMap f rq) ↔ lastMult f rp v < lastMult f rq v := by
  unfold singularities
  rw [live_residQ (quantMap_spec f rq).1, (quantMap_spec f rp).2, (quantMap_spec f rq).2]

end Scalar

/-- Non-vacuity of C203: a double root of P and a simple root of Q at 1, a simple root of Q at 3/10. -/
example : critical (quantMap (10 : ℚ) [(1, 2)]) (quantMap (10 : ℚ) [(3 / 10, 1), (1, 1)]) = [⊥, fin 3, fin 10, ⊤] ∧
    singularities (quantMap (10 : ℚ) [(1, 2)]) (quantMap (10 : ℚ) [(3 / 10, 1), (1, 1)]) = [3] ∧
    quantize (10 : ℚ) (-17 / 100) = -1 := by decide +kernel

/-! ### C204: the solution set -/

theorem lastMult_none {f : ℝ} {l : List (ℝ × ℕ)} {v : ℤ} (h : ∀ kv ∈ l, quantize f kv.1 ≠ v) : lastMult f l v = 0 := by
  unfold lastMult
  rw [List.filter_eq_nil_iff.2 (by intro a ha; simpa using h a ha)]
  rfl

theorem lastMult_one {f : ℝ} {l : List (ℝ × ℕ)} (hn : (l.map fun kv => quantize f kv.1).Nodup) {r : ℝ} {m : ℕ}
    (h : (r, m) ∈ l) : lastMult f l (quantize f r) = m := by
  unfold lastMult
  have hm : (r, m) ∈ l.filter fun kv => decide (quantize f kv.1 = quantize f r) := List.mem_filter.2 ⟨h, by simp⟩
  have all : ∀ a ∈ l.filter (fun kv => decide (quantize f kv.1 = quantize f r)), a = (r, m) := by
    intro a ha
    rw [List.mem_filter] at ha
    exact List.inj_on_of_nodup_map hn ha.1 h (by simpa using ha.2)
  rcases hl : (l.filter fun kv => decide (quantize f kv.1 = quantize f r)).getLast? with _ | a
  · rw [List.getLast?_eq_none_iff] at hl
    rw [hl] at hm
    simp at hm
  · rw [hl, all a (List.mem_of_getLast? hl)]
    rfl

theorem quantize_between {f : ℝ} {r : ℝ} {a b : ℤ} (h1 : (a : ℝ) ≤ r * f) (h2 : r * f ≤ b) :
    a ≤ quantize f r ∧ quantize f r ≤ b := by
  unfold quantize
  by_cases h : 0 ≤ r * f
  · rw [if_pos h]
    refine ⟨Int.le_floor.2 h1, ?_⟩
    exact_mod_cast (Int.floor_le (r * f)).trans h2
  · rw [if_neg h]
    refine ⟨?_, Int.ceil_le.2 h2⟩
    exact_mod_cast h1.trans (Int.le_ceil (r * f))

/-- the sample of a gap that has an integer inside is inside as well -/
theorem sample_gap (sing : List ℤ) (p : E × E) (z : ℤ) (h1 : p.1 < fin z) (h2 : fin z < p.2) :
    p.1 < fin (sample (piece sing p)) ∧ fin (sample (piece sing p)) < p.2 := by
  obtain ⟨a, b⟩ := p
  dsimp only at h1 h2 ⊢
  have hs : (piece sing (a, b)).singleton = false := by
    unfold Iv.singleton piece
    simp [(h1.trans h2).ne]
  have hlo : (piece sing (a, b)).lo = a := rfl
  have hhi : (piece sing (a, b)).hi = b := rfl
  have top : ∀ u : ℤ, fin u < ⊤ := fun u => lt_top_iff_ne_top.2 (fin_ne_top u)
  have bot : ∀ u : ℤ, ⊥ < fin u := fun u => bot_lt_iff_ne_bot.2 (fin_ne_bot u)
  unfold sample
  rw [hlo, hhi, hs]
  rcases cases_E a with rfl | rfl | ⟨u, rfl⟩
  · rcases cases_E b with rfl | rfl | ⟨w, rfl⟩
    · exact absurd (h1.trans h2) (lt_irrefl _)
    · rw [if_pos ⟨rfl, rfl⟩]
      exact ⟨bot _, top _⟩
    · rw [if_neg (fun h => fin_ne_top w h.2), if_neg Bool.false_ne_true, if_neg (fin_ne_top w), if_pos rfl, toInt_fin]
      exact ⟨bot _, fin_lt.2 (by omega)⟩
  · exact absurd h1 (not_lt.2 le_top)
  · rcases cases_E b with rfl | rfl | ⟨w, rfl⟩
    · exact absurd h2 (not_lt.2 bot_le)
    · rw [if_neg (fun h => fin_ne_bot u h.1), if_neg Bool.false_ne_true, if_pos rfl, toInt_fin]
      exact ⟨fin_lt.2 (by omega), top _⟩
    · rw [if_neg (fun h => fin_ne_bot u h.1), if_neg Bool.false_ne_true, if_neg (fin_ne_top w), if_neg (fin_ne_bot u), toInt_fin,
        toInt_fin, fin_lt, fin_lt]
      rw [fin_lt] at h1 h2
      have hd := Int.tdiv_eq_ediv (a := w + u) (b := 2)
      have hsg : Int.sign 2 = 1 := rfl
      rw [hsg] at hd
      split at hd <;> constructor <;> omega

theorem no_sign_change {p : ℝ[X]} {s x : ℝ} (hr : ∀ a ∈ Set.uIcc s x, p.eval a ≠ 0) (h : 0 < p.eval s) : 0 < p.eval x := by
  by_contra hn
  have hc : ContinuousOn (fun y => p.eval y) (Set.uIcc s x) := (Polynomial.differentiable p).continuous.continuousOn
  have h0 : (0 : ℝ) ∈ Set.uIcc (p.eval s) (p.eval x) := by
    rw [Set.mem_uIcc]; right; exact ⟨not_lt.1 hn, h.le⟩
  obtain ⟨y, hy, hy0⟩ := intermediate_value_uIcc hc h0
  exact hr y hy hy0

theorem quot_nonneg {a b : ℝ} (ha : a ≠ 0) (hb : b ≠ 0) : 0 ≤ a / b ↔ 0 < a * b := by
  have h2 : 0 < b * b := mul_self_pos.2 hb
  rw [show a / b = (a * b) / (b * b) by field_simp, le_div_iff₀ h2, zero_mul]
  exact ⟨fun h => lt_of_le_of_ne h (mul_ne_zero ha hb).symm, le_of_lt⟩

theorem evalRational_some {eps : ℝ} {n : ℕ} {P Q : Buf ℝ} {x : ℝ} (h : eps ≤ |evaluate Q n x|) :
    evalRational eps n P Q x = some (evaluate P n x / evaluate Q n x) := by
  cases n with
  | zero => exact if_neg (not_lt.2 h)
  | succ n => exact if_neg (not_lt.2 h)

/-- the polynomial with the listed coefficients, lowest first -/
noncomputable def ofList (P : List ℝ) (n : ℕ) : ℝ[X] := poly (fun i => P.getD i 0) n

/-- What the solvers need: the root lists contain every real root of the two polynomials; no two listed roots fall into
the same cell of width `1/f`; the denominator is either zero or at least `eps` at the grid points. -/
structure Resolved (eps f : ℝ) (N D : ℝ[X]) (rp rq : List (ℝ × ℕ)) : Prop where
  rootsP : ∀ r, N.eval r = 0 → ∃ m, 0 < m ∧ (r, m) ∈ rp
  rootsQ : ∀ r, D.eval r = 0 → ∃ m, 0 < m ∧ (r, m) ∈ rq
  cells : ((rp ++ rq).map fun kv => quantize f kv.1).Nodup
  sharp : ∀ v : ℤ, D.eval ((v : ℝ) / f) ≠ 0 → eps ≤ |D.eval ((v : ℝ) / f)|

theorem solve_spec {eps f : ℝ} (hf : 0 < f) {n dP dQ : ℕ} {P Q : List ℝ} {rp rq : List (ℝ × ℕ)}
    (hP : eqZero P dP eps = some false) (hQ : eqZero Q dQ eps = some false)
    (h : Resolved eps f (ofList P n) (ofList Q n) rp rq) :
    ∃ d, solve dP dQ n eps f P Q rp rq = some d ∧
      ∀ z : ℤ, (∀ kv ∈ rp ++ rq, quantize f kv.1 ≠ z) →
        (dcontains d (fin z) = true ↔ 0 ≤ (ofList P n).eval ((z : ℝ) / f) / (ofList Q n).eval ((z : ℝ) / f)) := by
  obtain ⟨c1, c2, c3, c4⟩ := C203_critical f rp rq
  unfold solve
  rw [hP, hQ]
  refine ⟨_, rfl, fun z hz => ?_⟩
  have hnp : ∀ v, (∃ m, 0 < m ∧ ∃ r, (r, m) ∈ rp ∧ quantize f r = v) ∨ (∃ m, 0 < m ∧ ∃ r, (r, m) ∈ rq ∧ quantize f r = v) →
      fin v ∈ critical (quantMap f rp) (quantMap f rq) := by
    intro v hv
    have hc := h.cells
    rw [List.map_append, List.nodup_append] at hc
    obtain ⟨k1, k2, k3⟩ := hc
    rw [c4]
    rcases hv with ⟨m, hm, r, hr, rfl⟩ | ⟨m, hm, r, hr, rfl⟩
    · rw [lastMult_one k1 hr, lastMult_none (fun kv hkv e => k3 _ (List.mem_map.2 ⟨(r, m), hr, rfl⟩) _
        (List.mem_map.2 ⟨kv, hkv, rfl⟩) e.symm)]
      omega
    · rw [lastMult_one k2 hr, lastMult_none (fun kv hkv e => k3 _ (List.mem_map.2 ⟨kv, hkv, rfl⟩) _
        (List.mem_map.2 ⟨(r, m), hr, rfl⟩) e)]
      omega
  have hzc : fin z ∉ critical (quantMap f rp) (quantMap f rq) := by
    rw [c4, lastMult_none fun kv hkv => hz kv (List.mem_append_left _ hkv),
      lastMult_none fun kv hkv => hz kv (List.mem_append_right _ hkv)]
    simp
  rw [pieceLoop_spec _ _ _ c1 _ hzc]
  -- inside a gap, the sign at the sample is the sign at z
  have key : ∀ p ∈ (critical (quantMap f rp) (quantMap f rq)).zip (critical (quantMap f rp) (quantMap f rq)).tail,
      p.1 < fin z → fin z < p.2 → (Accepts (singularities (quantMap f rp) (quantMap f rq))
        (fun v => evalRational eps n (fun i => P.getD i 0) (fun i => Q.getD i 0) ((v : ℝ) / f)) p ↔
          0 ≤ (ofList P n).eval ((z : ℝ) / f) / (ofList Q n).eval ((z : ℝ) / f)) := by
    intro p hp hp1 hp2
    obtain ⟨s1, s2⟩ := sample_gap (singularities (quantMap f rp) (quantMap f rq)) p z hp1 hp2
    unfold Accepts
    generalize sample (piece (singularities (quantMap f rp) (quantMap f rq)) p) = s at s1 s2 ⊢
    obtain ⟨_, _, _, g4⟩ := gap_empty _ c1 p hp
    -- no root between the sample and z
    have out : ∀ r ∈ Set.uIcc ((s : ℝ) / f) ((z : ℝ) / f),
        fin (quantize f r) ∉ critical (quantMap f rp) (quantMap f rq) := by
      intro r hr hcr
      have b : ∀ a b : ℤ, (a : ℝ) / f ≤ r → r ≤ (b : ℝ) / f → a ≤ quantize f r ∧ quantize f r ≤ b := by
        intro a b ha hb
        exact quantize_between ((div_le_iff₀ hf).1 ha) ((le_div_iff₀ hf).1 hb)
      rw [Set.mem_uIcc] at hr
      rcases g4 _ hcr with h' | h'
      · rcases hr with hr | hr
        · have := (b s z hr.1 hr.2).1
          exact absurd (lt_of_lt_of_le (fin_lt.1 (lt_of_le_of_lt h' s1)) this) (lt_irrefl _)
        · have := (b z s hr.1 hr.2).1
          exact absurd (lt_of_lt_of_le (fin_lt.1 (lt_of_le_of_lt h' hp1)) this) (lt_irrefl _)
      · rcases hr with hr | hr
        · have := (b s z hr.1 hr.2).2
          exact absurd (lt_of_le_of_lt this (fin_lt.1 (lt_of_lt_of_le hp2 h'))) (lt_irrefl _)
        · have := (b z s hr.1 hr.2).2
          exact absurd (lt_of_le_of_lt this (fin_lt.1 (lt_of_lt_of_le s2 h'))) (lt_irrefl _)
    have nP : ∀ r ∈ Set.uIcc ((s : ℝ) / f) ((z : ℝ) / f), (ofList P n).eval r ≠ 0 := by
      intro r hr h0
      obtain ⟨m, hm, hmem⟩ := h.rootsP r h0
      exact out r hr (hnp _ (Or.inl ⟨m, hm, r, hmem, rfl⟩))
    have nQ : ∀ r ∈ Set.uIcc ((s : ℝ) / f) ((z : ℝ) / f), (ofList Q n).eval r ≠ 0 := by
      intro r hr h0
      obtain ⟨m, hm, hmem⟩ := h.rootsQ r h0
      exact out r hr (hnp _ (Or.inr ⟨m, hm, r, hmem, rfl⟩))
    have e : ∀ (L : List ℝ) (x : ℝ), evaluate (fun i => L.getD i 0) n x = (ofList L n).eval x := fun L x =>
      C36_evaluate _ _ _
    have hsQ := nQ _ Set.left_mem_uIcc
    have hsP := nP _ Set.left_mem_uIcc
    dsimp only
    rw [evalRational_some (by rw [e]; exact h.sharp s hsQ), e, e]
    rw [quot_nonneg (nP _ Set.right_mem_uIcc) (nQ _ Set.right_mem_uIcc)]
    have nPQ : ∀ r ∈ Set.uIcc ((s : ℝ) / f) ((z : ℝ) / f), (ofList P n * ofList Q n).eval r ≠ 0 := by
      intro r hr
      rw [eval_mul]
      exact mul_ne_zero (nP r hr) (nQ r hr)
    have i1 : (0 : ℝ) < (ofList P n * ofList Q n).eval ((s : ℝ) / f) ↔ 0 < (ofList P n * ofList Q n).eval ((z : ℝ) / f) :=
      ⟨no_sign_change nPQ, no_sign_change (by rw [Set.uIcc_comm]; exact nPQ)⟩
    rw [eval_mul, eval_mul] at i1
    rw [← i1, ← quot_nonneg hsP hsQ]
    constructor
    · rintro ⟨v, hv, h0⟩
      rw [Option.some.inj hv]
      exact h0
    · exact fun h0 => ⟨_, rfl, h0⟩
  constructor
  · rintro ⟨p, hp, ha, hp1, hp2⟩
    exact (key p hp hp1 hp2).1 ha
  · intro h0
    obtain ⟨p, hp, hp1, hp2⟩ := gap_exists _ (fin z) hzc ⟨⊥, c2, bot_lt_iff_ne_bot.2 (fin_ne_bot z)⟩
      ⟨⊤, c3, lt_top_iff_ne_top.2 (fin_ne_top z)⟩ c1
    exact ⟨p, hp, (key p hp hp1 hp2).2 h0, hp1, hp2⟩

theorem eqZeroFrom_false {K : Type} [Field K] [LinearOrder K] (P : List K) (eps : K) : ∀ (k i j : ℕ) (c : K), i ≤ j → j < i + k →
    P[j]? = some c → eps < |c| → eqZeroFrom P eps k i = some false
  | 0, i, j, c, h1, h2, _, _ => by omega
  | k + 1, i, j, c, h1, h2, hj, hc => by
    have hjl := (List.getElem?_eq_some_iff.1 hj).1
    have hi : i < P.length := by omega
    rw [show eqZeroFrom P eps (k + 1) i = (match P[i]? with
      | none => none
      | some c => if |c| > eps then some false else eqZeroFrom P eps k (i + 1)) from rfl, List.getElem?_eq_getElem hi]
    dsimp only
    by_cases h0 : |P[i]| > eps
    · rw [if_pos h0]
    · rw [if_neg h0]
      rcases Nat.eq_or_lt_of_le h1 with rfl | h
      · rw [List.getElem?_eq_getElem hi] at hj
        rw [Option.some.inj hj] at h0
        exact absurd hc h0
      · exact eqZeroFrom_false P eps k (i + 1) j c h (by omega) hj hc

theorem eqZero_false {K : Type} [Field K] [LinearOrder K] {P : List K} {eps : K} {m : ℕ} (h : ∃ c ∈ P, eps < |c|)
    (hl : P.length ≤ m + 1) : eqZero P m eps = some false := by
  obtain ⟨c, hc, h0⟩ := h
  obtain ⟨j, hj, rfl⟩ := List.getElem_of_mem hc
  exact eqZeroFrom_false P eps (m + 1) 0 j _ (by omega) (by omega) (List.getElem?_eq_getElem hj) h0

/-- C204 (cubic), partial: when the roots are resolved by the grid, the returned set contains a grid point outside the
cells of the roots exactly when P/Q is nonnegative there.  Missing: the cells of the roots themselves, and roots closer
than the grid spacing, where the claim is false (`C205_pole_in_result`, `C205_close_roots`). -/
theorem C204_cubic_partial {eps f : ℝ} (hf : 0 < f) {P Q : List ℝ} (lP : P.length = 4) (lQ : Q.length = 4)
    (hP : ∃ c ∈ P, eps < |c|) (hQ : ∃ c ∈ Q, eps < |c|) {rp rq : List (ℝ × ℕ)}
    (h : Resolved eps f (ofList P 3) (ofList Q 3) rp rq) :
    ∃ d, solveCubic eps f P Q rp rq = some d ∧
      ∀ z : ℤ, (∀ kv ∈ rp ++ rq, quantize f kv.1 ≠ z) →
        (dcontains d (fin z) = true ↔ 0 ≤ (ofList P 3).eval ((z : ℝ) / f) / (ofList Q 3).eval ((z : ℝ) / f)) :=
  solve_spec hf (eqZero_false hP (by omega)) (eqZero_false hQ (by omega)) h

/-- C204 (quadratic), partial: the same for the quadratic solver, whose test of the denominator does not reach the
missing fourth coefficient when one of the three coefficients is not zero. -/
theorem C204_quadratic_partial {eps f : ℝ} (hf : 0 < f) {P Q : List ℝ} (lP : P.length = 3) (lQ : Q.length = 3)
    (hP : ∃ c ∈ P, eps < |c|) (hQ : ∃ c ∈ Q, eps < |c|) {rp rq : List (ℝ × ℕ)}
    (h : Resolved eps f (ofList P 2) (ofList Q 2) rp rq) :
    ∃ d, solveQuadratic eps f P Q rp rq = some d ∧
      ∀ z : ℤ, (∀ kv ∈ rp ++ rq, quantize f kv.1 ≠ z) →
        (dcontains d (fin z) = true ↔ 0 ≤ (ofList P 2).eval ((z : ℝ) / f) / (ofList Q 2).eval ((z : ℝ) / f)) :=
  solve_spec hf (eqZero_false hP (by omega)) (eqZero_false hQ (by omega)) h

/-- Non-vacuity of C204: `x / (x - 1)` on the grid of integers. -/
example : Resolved (1 / 2 : ℝ) 1 (ofList [0, 1, 0, 0] 3) (ofList [-1, 1, 0, 0] 3) [(0, 1)] [(1, 1)] := by
  have eN : ∀ x : ℝ, (ofList [0, 1, 0, 0] 3).eval x = x := by
    intro x
    rw [ofList, ← C36_evaluate]
    simp [evaluate, fma]
  have eD : ∀ x : ℝ, (ofList [-1, 1, 0, 0] 3).eval x = x - 1 := by
    intro x
    rw [ofList, ← C36_evaluate]
    simp [evaluate, fma]
    ring
  refine ⟨?_, ?_, ?_, ?_⟩
  · intro r hr
    rw [eN] at hr
    exact ⟨1, one_pos, by simp [hr]⟩
  · intro r hr
    rw [eD] at hr
    exact ⟨1, one_pos, by simp [sub_eq_zero.1 hr]⟩
  · simp [quantize]
  · intro v hv
    rw [eD] at hv ⊢
    rw [div_one] at hv ⊢
    have h1 : v - 1 ≠ 0 := by
      intro e
      apply hv
      have := congrArg (fun t : ℤ => (t : ℝ)) e
      push_cast at this
      exact this
    have h2 : (1 : ℤ) ≤ |v - 1| := Int.one_le_abs h1
    have h3 : ((1 : ℤ) : ℝ) ≤ ((|v - 1| : ℤ) : ℝ) := by exact_mod_cast h2
    push_cast at h3
    linarith

/-! ### C205: degenerate input, and what the solvers get wrong -/

theorem eqZeroFrom_true {K : Type} [Field K] [LinearOrder K] (P : List K) (eps : K) (h : ∀ c ∈ P, |c| ≤ eps) : ∀ (k i : ℕ),
    i ≤ P.length → eqZeroFrom P eps k i = if i + k ≤ P.length then some true else none
  | 0, i, hi => by
    rw [if_pos (by omega)]
    rfl
  | k + 1, i, hi => by
    rw [show eqZeroFrom P eps (k + 1) i = (match P[i]? with
      | none => none
      | some c => if |c| > eps then some false else eqZeroFrom P eps k (i + 1)) from rfl]
    rcases Nat.lt_or_ge i P.length with hl | hl
    · rw [List.getElem?_eq_getElem hl]
      dsimp only
      rw [if_neg (not_lt.2 (h _ (List.getElem_mem hl))), eqZeroFrom_true P eps h k (i + 1) hl]
      rw [show i + 1 + k = i + (k + 1) by omega]
    · rw [List.getElem?_eq_none hl, if_neg (by omega)]

/-- C205: a zero numerator gives the whole line and a zero denominator gives the empty set, for the cubic solver; the
zero numerator is tested first, so 0/0 gives the whole line. -/
theorem C205_cubic_zero {K : Type} [Field K] [LinearOrder K] [FloorRing K] (eps f : K) (P Q : List K) (rp rq : List (K × ℕ))
    (lP : P.length = 4) (lQ : Q.length = 4) :
    ((∀ c ∈ P, |c| ≤ eps) → solveCubic eps f P Q rp rq = some [⟨⊥, ⊤, false, false⟩]) ∧
    ((∃ c ∈ P, eps < |c|) → (∀ c ∈ Q, |c| ≤ eps) → solveCubic eps f P Q rp rq = some []) := by
  constructor
  · intro h
    unfold solveCubic solve eqZero
    rw [eqZeroFrom_true P eps h 4 0 (by omega), if_pos (by omega)]
  · intro hP h
    unfold solveCubic solve
    rw [eqZero_false hP (by omega)]
    unfold eqZero
    rw [eqZeroFrom_true Q eps h 4 0 (by omega), if_pos (by omega)]

/-- C205 finding: the quadratic solver reads `Q[3]`, past the end of its three coefficients, exactly when it is given a
zero denominator (and a numerator that is not zero): the case its test is meant to catch. -/
theorem C205_quadratic_out_of_bounds {K : Type} [Field K] [LinearOrder K] [FloorRing K] (eps f : K) (P Q : List K)
    (rp rq : List (K × ℕ)) (lP : P.length = 3) (lQ : Q.length = 3) :
    solveQuadratic eps f P Q rp rq = none ↔ (∃ c ∈ P, eps < |c|) ∧ ∀ c ∈ Q, |c| ≤ eps := by
  unfold solveQuadratic solve
  by_cases hP : ∃ c ∈ P, eps < |c|
  · rw [eqZero_false hP (by omega)]
    by_cases hQ : ∃ c ∈ Q, eps < |c|
    · rw [eqZero_false hQ (by omega)]
      dsimp only
      constructor
      · intro h
        exact absurd h (by simp)
      · rintro ⟨_, h⟩
        obtain ⟨c, hc, h0⟩ := hQ
        exact absurd (h c hc) (not_le.2 h0)
    · have hQ' : ∀ c ∈ Q, |c| ≤ eps := fun c hc => not_lt.1 fun h => hQ ⟨c, hc, h⟩
      unfold eqZero
      rw [eqZeroFrom_true Q eps hQ' 4 0 (by omega), if_neg (by omega)]
      exact ⟨fun _ => ⟨hP, hQ'⟩, fun _ => rfl⟩
  · have hP' : ∀ c ∈ P, |c| ≤ eps := fun c hc => not_lt.1 fun h => hP ⟨c, hc, h⟩
    unfold eqZero
    rw [eqZeroFrom_true P eps hP' 3 0 (by omega), if_pos (by omega)]
    dsimp only
    constructor
    · intro h
      exact absurd h (by simp)
    · exact fun h => absurd h.1 hP

/-- C205 finding: `(x-1)² / x` is nonnegative on `(0, ∞)`; the returned set is `[0, ∞)`, it contains the pole, because
joining the pieces on both sides of the double root forgets that the lower end is open. -/
theorem C205_pole_in_result :
    (solveCubic (1 / 1000 : ℚ) 10 [1, -2, 1, 0] [0, 1, 0, 0] [(1, 2)] [(0, 1)]) = some [⟨fin 0, ⊤, false, false⟩] ∧
    dcontains [(⟨fin 0, ⊤, false, false⟩ : Iv E)] (fin 0) = true ∧
    0 ∈ singularities (quantMap (10 : ℚ) [(1, 2)]) (quantMap (10 : ℚ) [(0, 1)]) := by decide +kernel

/-- C205 finding: two roots of P in one cell are recorded as one; with a root of Q in the same cell everything cancels
and the whole line is returned, although `P/Q` is negative on the whole left half: here `(x - 1/10)(x - 1/5) / (x - 3/10)`
on the grid of integers, at -5. -/
theorem C205_close_roots :
    solveCubic (1 / 1000 : ℚ) 1 [1 / 50, -3 / 10, 1, 0] [-3 / 10, 1, 0, 0] [(1 / 10, 1), (1 / 5, 1)] [(3 / 10, 1)] =
      some [⟨⊥, ⊤, false, false⟩] ∧
    dcontains [(⟨⊥, ⊤, false, false⟩ : Iv E)] (fin (-5)) = true ∧
    ((-5 - 1 / 10) * (-5 - 1 / 5) / (-5 - 3 / 10) : ℚ) < 0 := by decide +kernel

/-- Non-vacuity of C205: the branches are taken. -/
example : solveQuadratic (1 / 1000 : ℚ) 10 [1, 0, 0] [0, 0, 0] [] [] = none ∧
    solveQuadratic (1 / 1000 : ℚ) 10 [-1, 1, 0] [1, 0, 0] [(1, 1)] [] = some [⟨fin 10, ⊤, false, false⟩] ∧
    solveCubic (1 / 1000 : ℚ) 10 [1, 0, 0, 0] [0, 0, 0, 0] [] [] = some [] := by decide +kernel

end Verif.RatIneq
