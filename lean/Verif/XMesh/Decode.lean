import Verif.XMesh.Base
import Mathlib.Algebra.Order.Ring.Int
import Mathlib.Tactic.Ring
import Mathlib.Tactic.Linarith

/-! Decoding of extruded simplex ids. -/

namespace Verif.XM

open Verif.UM

variable {n0 : Nat} {ts : List Tri} {m : M2}

theorem mod_good {k N : Int} (hN : 0 < N) (h : 0 ≤ k ∨ ¬ N ∣ k) : mod k N = some (k % N) := by
  unfold mod
  rw [if_neg (by omega)]
  congr 1
  split
  · rename_i hk
    have hnd : ¬ N ∣ k := by rcases h with h | h; omega; exact h
    have h1 : k.tmod N = - ((-k) % N) := by
      have := Int.neg_tmod k N
      rw [Int.tmod_eq_emod_of_nonneg (a := -k) (by omega)] at this
      omega
    have h2 : (-k) % N ≠ 0 := by
      intro h0
      exact hnd ((Int.dvd_neg).1 (Int.dvd_of_emod_eq_zero h0))
    have h3 := Int.emod_nonneg (-k) (show N ≠ 0 by omega)
    have h4 := Int.emod_lt_of_pos (-k) hN
    have h5 : k = (N - (-k) % N) + (-((-k) / N) - 1) * N := by
      have := Int.emod_add_mul_ediv (-k) N
      have e : (N - (-k) % N) + (-((-k) / N) - 1) * N = -((-k) % N + N * ((-k) / N)) := by ring
      rw [e, this]; ring
    have h6 : k % N = N - (-k) % N := by
      generalize (-k) % N = r at *
      generalize (-k) / N = q at *
      rw [h5, Int.add_mul_emod_self_right, Int.emod_eq_of_lt (by omega) (by omega)]
    omega
  · exact Int.tmod_eq_emod_of_nonneg (by omega)

theorem mod_of_nonneg {k N : Int} (hN : 0 < N) (h : 0 ≤ k) : mod k N = some (k % N) := mod_good hN (Or.inl h)

theorem mod_small {k N : Int} (h0 : 0 ≤ k) (h : k < N) : mod k N = some k := by
  rw [mod_of_nonneg (by omega) h0, Int.emod_eq_of_lt h0 h]

theorem rem_small {k N : Int} (h0 : 0 ≤ k) (h : k < N) : rem k N = some k := by
  unfold rem
  rw [if_neg (by omega), Int.tmod_eq_emod_of_nonneg h0, Int.emod_eq_of_lt h0 h]

theorem rem_add {k N c : Int} (hc : 0 ≤ c) (h0 : 0 ≤ k) (h : k < N) : rem (k + c * N) N = some k := by
  unfold rem
  have : 0 ≤ c * N := Int.mul_nonneg hc (by omega)
  rw [if_neg (by omega), Int.tmod_eq_emod_of_nonneg (by omega), Int.add_mul_emod_self_right, Int.emod_eq_of_lt h0 h]

theorem ediv_at {i t N : Int} (h0 : 0 ≤ i) (h : i < N) : (i + t * N) / N = t := by
  rw [Int.add_mul_ediv_right _ _ (by omega), Int.ediv_eq_zero_of_lt h0 h]; omega

theorem emod_at {i t N : Int} (h0 : 0 ≤ i) (h : i < N) : (i + t * N) % N = i := by
  rw [Int.add_mul_emod_self_right, Int.emod_eq_of_lt h0 h]

theorem at_eq {i i' t t' N : Int} (h0 : 0 ≤ i) (h : i < N) (h0' : 0 ≤ i') (h' : i' < N)
    (he : i + t * N = i' + t' * N) : i = i' ∧ t = t' := by
  constructor
  · rw [← emod_at h0 h (t := t), he, emod_at h0' h']
  · rw [← ediv_at h0 h (t := t), he, ediv_at h0' h']

/-- The simplices of one interval, by index: what `get_simplex` is to return at time 0. -/
inductive Dec (m : M2) : Nat → Int → List Int → Prop
  | v0 {i : Int} : 0 ≤ i → i < m.n 0 → Dec m 0 i [i]
  | e0 {j a b : Int} : m.getEdge j = some (a, b) → Dec m 1 j [a, b]
  | e1 {j a b : Int} : m.getEdge j = some (a, b) → Dec m 1 (j + m.n 1) [a, b + m.n 0]
  | e2 {i : Int} : 0 ≤ i → i < m.n 0 → Dec m 1 (i + 2 * m.n 1) [i, i + m.n 0]
  | t0 {j a b c : Int} : m.getTriangle j = some (a, b, c) → Dec m 2 j [a, b, c]
  | t1 {j a b c : Int} : m.getTriangle j = some (a, b, c) → Dec m 2 (j + m.n 2) [a, b, c + m.n 0]
  | t2 {j a b c : Int} : m.getTriangle j = some (a, b, c) → Dec m 2 (j + 2 * m.n 2) [a, b + m.n 0, c + m.n 0]
  | t3 {j a b : Int} : m.getEdge j = some (a, b) → Dec m 2 (j + 3 * m.n 2) [a, b, b + m.n 0]
  | t4 {j a b : Int} : m.getEdge j = some (a, b) → Dec m 2 (j + 3 * m.n 2 + m.n 1) [a, a + m.n 0, b + m.n 0]
  | k0 {j a b c : Int} : m.getTriangle j = some (a, b, c) → Dec m 3 j [a, b, c, c + m.n 0]
  | k1 {j a b c : Int} : m.getTriangle j = some (a, b, c) → Dec m 3 (j + m.n 2) [a, b, b + m.n 0, c + m.n 0]
  | k2 {j a b c : Int} : m.getTriangle j = some (a, b, c) → Dec m 3 (j + 2 * m.n 2) [a, a + m.n 0, b + m.n 0, c + m.n 0]

/-- Move a simplex to time `t`. -/
def shift (m : M2) (t : Int) (vs : List Int) : List Int := vs.map (· + t * m.n 0)

variable (B : Base n0 ts m)
include B

theorem Dec.range {d : Nat} {i : Int} {vs : List Int} (h : Dec m d i vs) : 0 ≤ i ∧ i < n m d := by
  cases h with
  | v0 h0 h1 => exact ⟨h0, h1⟩
  | e2 h0 h1 => simp only [n]; omega
  | e0 h => have := B.edge_ok h; simp only [n]; omega
  | e1 h => have := B.edge_ok h; simp only [n]; omega
  | t3 h => have := B.edge_ok h; simp only [n]; omega
  | t4 h => have := B.edge_ok h; simp only [n]; omega
  | t0 h => have := B.tri_ok h; simp only [n]; omega
  | t1 h => have := B.tri_ok h; simp only [n]; omega
  | t2 h => have := B.tri_ok h; simp only [n]; omega
  | k0 h => have := B.tri_ok h; simp only [n]; omega
  | k1 h => have := B.tri_ok h; simp only [n]; omega
  | k2 h => have := B.tri_ok h; simp only [n]; omega

theorem dec_total {d : Nat} (hd : d ≤ 3) {i : Int} (h0 : 0 ≤ i) (h1 : i < n m d) : ∃ vs, Dec m d i vs := by
  have key1 : ∀ x : Int, 0 ≤ x → x < m.n 1 → ∃ a b, m.getEdge x = some (a, b) := B.edge_def
  have key2 : ∀ x : Int, 0 ≤ x → x < m.n 2 → ∃ a b c, m.getTriangle x = some (a, b, c) := B.tri_def
  obtain rfl | rfl | rfl | rfl : d = 0 ∨ d = 1 ∨ d = 2 ∨ d = 3 := by omega
  · exact ⟨_, Dec.v0 h0 h1⟩
  · simp only [n] at h1
    by_cases c1 : i < m.n 1
    · obtain ⟨a, b, h⟩ := key1 i h0 c1; exact ⟨_, Dec.e0 h⟩
    by_cases c2 : i < 2 * m.n 1
    · obtain ⟨a, b, h⟩ := key1 (i - m.n 1) (by omega) (by omega)
      exact ⟨_, by simpa using Dec.e1 h⟩
    · exact ⟨_, by simpa using Dec.e2 (m := m) (i := i - 2 * m.n 1) (by omega) (by omega)⟩
  · simp only [n] at h1
    by_cases c1 : i < m.n 2
    · obtain ⟨a, b, c, h⟩ := key2 i h0 c1; exact ⟨_, Dec.t0 h⟩
    by_cases c2 : i < 2 * m.n 2
    · obtain ⟨a, b, c, h⟩ := key2 (i - m.n 2) (by omega) (by omega)
      exact ⟨_, by simpa using Dec.t1 h⟩
    by_cases c3 : i < 3 * m.n 2
    · obtain ⟨a, b, c, h⟩ := key2 (i - 2 * m.n 2) (by omega) (by omega)
      exact ⟨_, by simpa using Dec.t2 h⟩
    by_cases c4 : i < 3 * m.n 2 + m.n 1
    · obtain ⟨a, b, h⟩ := key1 (i - 3 * m.n 2) (by omega) (by omega)
      exact ⟨_, by simpa using Dec.t3 h⟩
    · obtain ⟨a, b, h⟩ := key1 (i - 3 * m.n 2 - m.n 1) (by omega) (by omega)
      have := Dec.t4 h
      rw [show i - 3 * m.n 2 - m.n 1 + 3 * m.n 2 + m.n 1 = i by omega] at this
      exact ⟨_, this⟩
  · simp only [n] at h1
    by_cases c1 : i < m.n 2
    · obtain ⟨a, b, c, h⟩ := key2 i h0 c1; exact ⟨_, Dec.k0 h⟩
    by_cases c2 : i < 2 * m.n 2
    · obtain ⟨a, b, c, h⟩ := key2 (i - m.n 2) (by omega) (by omega)
      exact ⟨_, by simpa using Dec.k1 h⟩
    · obtain ⟨a, b, c, h⟩ := key2 (i - 2 * m.n 2) (by omega) (by omega)
      exact ⟨_, by simpa using Dec.k2 h⟩

theorem simplexAt_dec {d : Nat} {i : Int} {vs : List Int} (h : Dec m d i vs) :
    ∃ ty, simplexType m d i = some ty ∧ simplexAt m d i ty = some (i, vs) := by
  have hr := h.range B
  have hm : mod i (n m d) = some i := mod_small hr.1 hr.2
  have e3 : ∀ x c : Int, 0 ≤ x → x < m.n 2 → 0 ≤ c → (x + c * m.n 2) / m.n 2 = c := fun x c h0 h1 _ => ediv_at h0 h1
  cases h with
  | v0 h0 h1 => exact ⟨0, by simp [simplexType, hm], rfl⟩
  | e0 h =>
    have := B.edge_ok h
    refine ⟨0, ?_, ?_⟩
    · simp [simplexType, hm]; omega
    · simp [simplexAt, edgeAt, rem_small this.1 this.2.1, h]
  | e1 h =>
    have := B.edge_ok h
    refine ⟨1, ?_, ?_⟩
    · simp [simplexType, hm]; omega
    · have hr := rem_add (N := m.n 1) (c := 1) (by omega) this.1 this.2.1
      rw [Int.one_mul] at hr
      simp [simplexAt, edgeAt, hr, h]
  | @e2 i h0 h1 =>
    refine ⟨2, ?_, ?_⟩
    · simp [simplexType, hm]; omega
    · simp [simplexAt, edgeAt]
  | t0 h =>
    have := B.tri_ok h
    refine ⟨0, ?_, ?_⟩
    · simp [simplexType, hm]; omega
    · simp [simplexAt, triAt, rem_small this.1 this.2.1, h]
  | t1 h =>
    have := B.tri_ok h
    refine ⟨1, ?_, ?_⟩
    · simp [simplexType, hm]; omega
    · have hr := rem_add (N := m.n 2) (c := 1) (by omega) this.1 this.2.1
      rw [Int.one_mul] at hr
      simp [simplexAt, triAt, hr, h]
  | t2 h =>
    have := B.tri_ok h
    refine ⟨2, ?_, ?_⟩
    · simp [simplexType, hm]; omega
    · have hr := rem_add (N := m.n 2) (c := 2) (by omega) this.1 this.2.1
      simp [simplexAt, triAt, hr, h]
  | t3 h =>
    have := B.edge_ok h
    refine ⟨3, ?_, ?_⟩
    · simp [simplexType, hm]; omega
    · simp [simplexAt, triAt, rem_small this.1 this.2.1, h]
  | @t4 j a b h =>
    have := B.edge_ok h
    refine ⟨4, ?_, ?_⟩
    · simp [simplexType, hm]; omega
    · have hr := rem_add (N := m.n 1) (c := 1) (by omega) this.1 this.2.1
      rw [Int.one_mul] at hr
      have e : j + 3 * m.n 2 + m.n 1 - 3 * m.n 2 = j + (m.n 1 : Int) := by omega
      simp [simplexAt, triAt, e, hr, h]
  | @k0 j a b c h =>
    have := B.tri_ok h
    refine ⟨0, ?_, ?_⟩
    · have := e3 i 0 (by omega) (by omega) (by omega)
      rw [Int.zero_mul, Int.add_zero] at this
      simp only [simplexType, hm, Option.bind_eq_bind, Option.bind_some]
      rw [if_neg (by omega), this]
    · simp [simplexAt, tetAt, rem_small this.1 this.2.1, h]
  | @k1 j a b c h =>
    have := B.tri_ok h
    refine ⟨1, ?_, ?_⟩
    · have := e3 j 1 (by omega) (by omega) (by omega)
      rw [Int.one_mul] at this
      simp only [simplexType, hm, Option.bind_eq_bind, Option.bind_some]
      rw [if_neg (by omega), this]
    · have hr := rem_add (N := m.n 2) (c := 1) (by omega) this.1 this.2.1
      rw [Int.one_mul] at hr
      simp [simplexAt, tetAt, hr, h]
  | @k2 j a b c h =>
    have := B.tri_ok h
    refine ⟨2, ?_, ?_⟩
    · have := e3 j 2 (by omega) (by omega) (by omega)
      simp only [simplexType, hm, Option.bind_eq_bind, Option.bind_some]
      rw [if_neg (by omega), this]
    · have hr := rem_add (N := m.n 2) (c := 2) (by omega) this.1 this.2.1
      simp [simplexAt, tetAt, hr, h]

theorem get_dec {d : Nat} {i t : Int} {vs : List Int} (h : Dec m d i vs) (hg : Good m d (i + t * n m d)) :
    getSimplex m d (i + t * n m d) = some (i + t * n m d, shift m t vs) := by
  have hr := h.range B
  obtain ⟨ty, h1, h2⟩ := simplexAt_dec B h
  unfold getSimplex
  rw [mod_good (by omega) hg, emod_at hr.1 hr.2, Int.fdiv_eq_ediv_of_nonneg _ (by omega), ediv_at hr.1 hr.2]
  simp only [Option.bind_eq_bind, Option.bind_some, h1, h2]
  rfl

omit B in
/-- Ids are split into index and time. -/
theorem split_id {d : Nat} (hN : 0 < n m d) (k : Int) : ∃ i t, k = i + t * n m d ∧ 0 ≤ i ∧ i < n m d ∧ t = k / n m d :=
  ⟨k % n m d, k / n m d, by rw [Int.mul_comm]; exact (Int.emod_add_mul_ediv k _).symm,
    Int.emod_nonneg _ (by omega), Int.emod_lt_of_pos _ hN, rfl⟩

theorem get_total {d : Nat} (hd : d ≤ 3) (hN : 0 < n m d) (k : Int) (hg : Good m d k) :
    ∃ i t vs, k = i + t * n m d ∧ t = k / n m d ∧ Dec m d i vs ∧ getSimplex m d k = some (k, shift m t vs) := by
  obtain ⟨i, t, rfl, h0, h1, h2⟩ := split_id hN k
  obtain ⟨vs, hvs⟩ := dec_total B hd h0 h1
  exact ⟨i, t, vs, rfl, h2, hvs, get_dec B hvs hg⟩

/-! ## Dec and Simplex -/

omit B in
theorem below_at (hn : m.n 0 = n0) {a t : Int} (h0 : 0 ≤ a) (h1 : a < m.n 0) :
    below n0 (a + t * m.n 0) = a ∧ time n0 (a + t * m.n 0) = t ∧
    below n0 (a + m.n 0 + t * m.n 0) = a ∧ time n0 (a + m.n 0 + t * m.n 0) = t + 1 := by
  unfold below time
  rw [← hn]
  have e : a + m.n 0 + t * m.n 0 = a + (t + 1) * m.n 0 := by ring
  rw [e]
  exact ⟨emod_at h0 h1, ediv_at h0 h1, emod_at h0 h1, ediv_at h0 h1⟩

theorem dec_simplex {d : Nat} {i t : Int} {vs : List Int} (h : Dec m d i vs) :
    (shift m t vs).length = d + 1 ∧ Simplex n0 ts (shift m t vs) ∧ ∃ v l, shift m t vs = v :: l ∧ time n0 v = t := by
  have key : ∀ {a : Int}, 0 ≤ a → a < m.n 0 → _ := fun {a} h0 h1 => below_at (t := t) B.hn0 (a := a) h0 h1
  cases h with
  | v0 h0 h1 =>
    have := key h0 h1
    refine ⟨rfl, ⟨?_, ?_, ?_⟩, _, _, rfl, this.2.1⟩
    · simp [shift]
    · simp [shift]
    · left; simp [shift]
  | e2 h0 h1 =>
    have := key h0 h1
    refine ⟨rfl, ⟨?_, ?_, ?_⟩, _, _, rfl, this.2.1⟩
    · simp [shift, this]; omega
    · simp [shift, this]; omega
    · left; simp [shift, this]
  | e0 h =>
    have ok := B.edge_ok h
    have ka := key (show 0 ≤ _ from ok.2.2.2.1) (by omega)
    have kb := key (show 0 ≤ _ from by omega) ok.2.2.2.2
    obtain ⟨tt, htt, g1, g2⟩ := B.edge_in h
    refine ⟨rfl, ⟨?_, ?_, ?_⟩, _, _, rfl, ka.2.1⟩
    · simp [shift, ka, kb]; omega
    · simp [shift, ka, kb]
    · right; exact ⟨tt, htt, by simp [shift, ka, kb, g1, g2]⟩
  | e1 h =>
    have ok := B.edge_ok h
    have ka := key (show 0 ≤ _ from ok.2.2.2.1) (by omega)
    have kb := key (show 0 ≤ _ from by omega) ok.2.2.2.2
    obtain ⟨tt, htt, g1, g2⟩ := B.edge_in h
    refine ⟨rfl, ⟨?_, ?_, ?_⟩, _, _, rfl, ka.2.1⟩
    · simp [shift, ka, kb]; omega
    · simp [shift, ka, kb]; omega
    · right; exact ⟨tt, htt, by simp [shift, ka, kb, g1, g2]⟩
  | t3 h =>
    have ok := B.edge_ok h
    have ka := key (show 0 ≤ _ from ok.2.2.2.1) (by omega)
    have kb := key (show 0 ≤ _ from by omega) ok.2.2.2.2
    obtain ⟨tt, htt, g1, g2⟩ := B.edge_in h
    refine ⟨rfl, ⟨?_, ?_, ?_⟩, _, _, rfl, ka.2.1⟩
    · simp [shift, ka, kb]; omega
    · simp [shift, ka, kb]; omega
    · right; exact ⟨tt, htt, by simp [shift, ka, kb, g1, g2]⟩
  | t4 h =>
    have ok := B.edge_ok h
    have ka := key (show 0 ≤ _ from ok.2.2.2.1) (by omega)
    have kb := key (show 0 ≤ _ from by omega) ok.2.2.2.2
    obtain ⟨tt, htt, g1, g2⟩ := B.edge_in h
    refine ⟨rfl, ⟨?_, ?_, ?_⟩, _, _, rfl, ka.2.1⟩
    · simp [shift, ka, kb]; omega
    · simp [shift, ka, kb]; omega
    · right; exact ⟨tt, htt, by simp [shift, ka, kb, g1, g2]⟩
  | t0 h | t1 h | t2 h | k0 h | k1 h | k2 h =>
    have ok := B.tri_ok h
    have ka := key (show 0 ≤ _ from ok.2.2.2.2.1) (by omega)
    have kb := key (a := _) (show 0 ≤ _ from le_of_lt (lt_of_le_of_lt ok.2.2.2.2.1 ok.2.2.1)) (by omega)
    have kc := key (show 0 ≤ _ from by omega) ok.2.2.2.2.2
    obtain ⟨tt, htt, hs⟩ := B.tri_in h
    have g1 := (hs _).1 (Or.inl rfl)
    have g2 := (hs _).1 (Or.inr (Or.inl rfl))
    have g3 := (hs _).1 (Or.inr (Or.inr rfl))
    simp only at g1 g2 g3
    refine ⟨rfl, ⟨?_, ?_, ?_⟩, _, _, rfl, ka.2.1⟩
    · simp [shift, ka, kb, kc]; omega
    · simp [shift, ka, kb, kc] <;> omega
    · right; exact ⟨tt, htt, by simp [shift, ka, kb, kc, g1, g2, g3]⟩

theorem dec_inj {d : Nat} {i i' : Int} {vs : List Int} (h : Dec m d i vs) (h' : Dec m d i' vs) : i = i' := by
  cases h with
  | v0 h0 h1 => cases h'; rfl
  | e0 h =>
    have := B.edge_ok h
    cases h' with
    | e0 h' => exact B.edge_inj h h'
    | e1 h' => have := B.edge_ok h'; omega
    | e2 _ _ => omega
  | @e1 j a b h =>
    have ok := B.edge_ok h
    generalize hw : b + (m.n 0 : Int) = w at h'
    cases h' with
    | e0 h' => have := B.edge_ok h'; omega
    | @e1 j' a' b' h' =>
      have : b = b' := by omega
      subst this
      rw [B.edge_inj h h']
    | e2 _ _ => omega
  | @e2 i h0 h1 =>
    generalize hw : i + (m.n 0 : Int) = w at h'
    cases h' with
    | e0 h' => have := B.edge_ok h'; omega
    | e1 h' => have := B.edge_ok h'; omega
    | e2 _ _ => rfl
  | t0 h =>
    have := B.tri_ok h
    cases h' with
    | t0 h' => exact B.tri_inj h h'
    | t1 h' => have := B.tri_ok h'; omega
    | t2 h' => have := B.tri_ok h'; omega
    | t3 h' => have := B.edge_ok h'; omega
    | t4 h' => have := B.edge_ok h'; omega
  | @t1 j a b c h =>
    have ok := B.tri_ok h
    generalize hw : c + (m.n 0 : Int) = w at h'
    cases h' with
    | t0 h' => have := B.tri_ok h'; omega
    | @t1 j' _ _ c' h' =>
      have : c = c' := by omega
      subst this
      rw [B.tri_inj h h']
    | t2 h' => have := B.tri_ok h'; omega
    | t3 h' => have := B.edge_ok h'; omega
    | t4 h' => have := B.edge_ok h'; omega
  | @t2 j a b c h =>
    have ok := B.tri_ok h
    generalize hw : c + (m.n 0 : Int) = w at h'
    generalize hx : b + (m.n 0 : Int) = x at h'
    cases h' with
    | t0 h' => have := B.tri_ok h'; omega
    | t1 h' => have := B.tri_ok h'; omega
    | @t2 j' _ b' c' h' =>
      have : c = c' := by omega
      subst this
      have : b = b' := by omega
      subst this
      rw [B.tri_inj h h']
    | t3 h' => have := B.edge_ok h'; omega
    | t4 h' => have := B.edge_ok h'; omega
  | @t3 j a b h =>
    have ok := B.edge_ok h
    generalize hw : b + (m.n 0 : Int) = w at h'
    cases h' with
    | t0 h' => have := B.tri_ok h'; omega
    | t1 h' => have := B.tri_ok h'; omega
    | t2 h' => have := B.tri_ok h'; omega
    | t3 h' => rw [B.edge_inj h h']
    | t4 h' => have := B.edge_ok h'; omega
  | @t4 j a b h =>
    have ok := B.edge_ok h
    generalize hw : b + (m.n 0 : Int) = w at h'
    generalize hx : a + (m.n 0 : Int) = x at h'
    cases h' with
    | t0 h' => have := B.tri_ok h'; omega
    | t1 h' => have := B.tri_ok h'; omega
    | t2 h' => have := B.tri_ok h'; omega
    | t3 h' => have := B.edge_ok h'; omega
    | @t4 _ _ b' h' =>
      have : b = b' := by omega
      subst this
      rw [B.edge_inj h h']
  | @k0 j a b c h =>
    have ok := B.tri_ok h
    generalize hw : c + (m.n 0 : Int) = w at h'
    cases h' with
    | k0 h' => exact B.tri_inj h h'
    | k1 h' => have := B.tri_ok h'; omega
    | k2 h' => have := B.tri_ok h'; omega
  | @k1 j a b c h =>
    have ok := B.tri_ok h
    generalize hw : c + (m.n 0 : Int) = w at h'
    generalize hx : b + (m.n 0 : Int) = x at h'
    cases h' with
    | k0 h' => have := B.tri_ok h'; omega
    | @k1 _ _ _ c' h' =>
      have : c = c' := by omega
      subst this
      rw [B.tri_inj h h']
    | k2 h' => have := B.tri_ok h'; omega
  | @k2 j a b c h =>
    have ok := B.tri_ok h
    generalize hw : c + (m.n 0 : Int) = w at h'
    generalize hx : b + (m.n 0 : Int) = x at h'
    generalize hy : a + (m.n 0 : Int) = y at h'
    cases h' with
    | k0 h' => have := B.tri_ok h'; omega
    | k1 h' => have := B.tri_ok h'; omega
    | @k2 _ _ b' c' h' =>
      have : c = c' := by omega
      subst this
      have : b = b' := by omega
      subst this
      rw [B.tri_inj h h']

theorem shift_inj {d : Nat} {i i' t t' : Int} {vs vs' : List Int} (h : Dec m d i vs) (h' : Dec m d i' vs')
    (he : shift m t vs = shift m t' vs') : t = t' ∧ i = i' := by
  obtain ⟨_, _, v, l, h1, h2⟩ := dec_simplex B (t := t) h
  obtain ⟨_, _, v', l', h1', h2'⟩ := dec_simplex B (t := t') h'
  have : t = t' := by
    rw [h1, h1'] at he
    simp at he
    rw [← h2, ← h2', he.1]
  subst this
  refine ⟨rfl, ?_⟩
  have : vs = vs' := by
    unfold shift at he
    exact List.map_injective_iff.2 (fun a b hab => by omega) he
  subst this
  exact dec_inj B h h'

end Verif.XM
