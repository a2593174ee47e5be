import Verif.X3Mesh.Decode
import Mathlib.Tactic.Ring

/-! `get_simplex` on the ids of the extruded 4-D mesh. -/

namespace Verif.X3

open Verif.U3
open Verif.XM (mod rem mod_good mod_small mod_of_nonneg rem_small rem_add ediv_at emod_at at_eq)

variable {n0 : Nat} {ts : List Tet} {m : M3}

theorem rem0 {j N : Int} (h0 : 0 ≤ j) (h1 : j < N) : rem j N = some j := rem_small h0 h1

theorem rem1 {j N : Int} (h0 : 0 ≤ j) (h1 : j < N) : rem (j + N) N = some j := by
  have := rem_add (c := 1) (by omega) h0 h1
  rwa [show j + 1 * N = j + N by omega] at this

theorem rem2 {j N : Int} (h0 : 0 ≤ j) (h1 : j < N) : rem (j + 2 * N) N = some j := rem_add (by omega) h0 h1

theorem rem3 {j N : Int} (h0 : 0 ≤ j) (h1 : j < N) : rem (j + 3 * N) N = some j := rem_add (by omega) h0 h1

theorem simplexAt_dec {d ty : Nat} {i : Int} {ps : List PV} (h : Dec m d ty i ps) (hne : ¬ (d = 4 ∧ ty = 3)) :
    simplexAt m d i ty = some (ps.map (enc m)) := by
  cases h with
  | v0 h => simp [simplexAt, enc]
  | e2 h => simp [simplexAt, enc]
  | e0 h => simp [simplexAt, enc, rem0 h.h0 h.h1, h.get, edgePat, vertsOf]
  | e1 h => simp [simplexAt, enc, rem1 h.h0 h.h1, h.get, edgePat, vertsOf]
  | t0 h => simp [simplexAt, enc, rem0 h.h0 h.h1, h.get, triPat, vertsOf]
  | t1 h => simp [simplexAt, enc, rem1 h.h0 h.h1, h.get, triPat, vertsOf]
  | t2 h => simp [simplexAt, enc, rem2 h.h0 h.h1, h.get, triPat, vertsOf]
  | @t3 j a b h =>
    simp [simplexAt, enc, rem0 h.h0 h.h1, h.get, triPat, vertsOf]
  | @t4 j a b h =>
    have e : j + (3 * m.n 2 + m.n 1) - 3 * m.n 2 = j + m.n 1 := by omega
    simp [simplexAt, enc, e, rem1 h.h0 h.h1, h.get, triPat, vertsOf]
  | k0 h => simp [simplexAt, enc, rem0 h.h0 h.h1, h.get, tetPat, vertsOf]
  | k1 h => simp [simplexAt, enc, rem1 h.h0 h.h1, h.get, tetPat, vertsOf]
  | k2 h => simp [simplexAt, enc, rem2 h.h0 h.h1, h.get, tetPat, vertsOf]
  | k3 h => simp [simplexAt, enc, rem3 h.h0 h.h1, h.get, tetPat, vertsOf]
  | @k4 j a b c h =>
    simp [simplexAt, enc, rem0 h.h0 h.h1, h.get, tetPat, vertsOf]
  | @k5 j a b c h =>
    have e : j + (4 * m.n 3 + m.n 2) - 4 * m.n 3 = j + m.n 2 := by omega
    simp [simplexAt, enc, e, rem1 h.h0 h.h1, h.get, tetPat, vertsOf]
  | @k6 j a b c h =>
    have e : j + (4 * m.n 3 + 2 * m.n 2) - 4 * m.n 3 = j + 2 * m.n 2 := by omega
    simp [simplexAt, enc, e, rem2 h.h0 h.h1, h.get, tetPat, vertsOf]
  | p0 h => simp [simplexAt, enc, rem0 h.h0 h.h1, h.get, pentPat, vertsOf]
  | p1 h => simp [simplexAt, enc, rem1 h.h0 h.h1, h.get, pentPat, vertsOf]
  | p2 h => simp [simplexAt, enc, rem2 h.h0 h.h1, h.get, pentPat, vertsOf]
  | p3 h => simp at hne

theorem simplexType_dec {d ty : Nat} {i : Int} {ps : List PV} (h : Dec m d ty i ps) : simplexType m d i = some (ty : Int) := by
  have hr := h.range
  unfold simplexType
  rw [mod_small hr.1 hr.2]
  exact h.type

theorem fdiv_at {i t N : Int} (h0 : 0 ≤ i) (h : i < N) : (i + t * N).fdiv N = t := by
  rw [Int.fdiv_eq_ediv_of_nonneg _ (by omega), ediv_at h0 h]

theorem enc_at (t : Int) (ps : List PV) : (ps.map (enc m)).map (· + t * n m 0) = (at_ t ps).map (enc m) := by
  unfold at_
  rw [List.map_map, List.map_map]
  apply List.map_congr_left
  intro p _
  simp [enc, n]; ring

theorem getSimplex_unfold {d ty : Nat} {i t : Int} {ps : List PV} (h : Dec m d ty i ps) (hg : Good m d (i + t * n m d)) :
    getSimplex m d (i + t * n m d) = (simplexAt m d i ty).map (fun vs => vs.map (· + t * n m 0)) := by
  have hr := h.range
  unfold getSimplex
  rw [mod_good (by omega) hg, emod_at hr.1 hr.2, fdiv_at hr.1 hr.2]
  simp only [Option.bind_eq_bind, Option.bind_some, simplexType_dec h]
  cases simplexAt m d i ty <;> rfl

theorem get_dec {d ty : Nat} {i t : Int} {ps : List PV} (h : Dec m d ty i ps) (hne : ¬ (d = 4 ∧ ty = 3))
    (hg : Good m d (i + t * n m d)) : getSimplex m d (i + t * n m d) = some ((at_ t ps).map (enc m)) := by
  rw [getSimplex_unfold h hg, simplexAt_dec h hne]
  simp only [Option.map_some, enc_at]

theorem get_dec0 {d ty : Nat} {i : Int} {ps : List PV} (h : Dec m d ty i ps) (hne : ¬ (d = 4 ∧ ty = 3)) :
    getSimplex m d i = some (ps.map (enc m)) := by
  have := get_dec (t := 0) h hne (Or.inl (by have := h.range; omega))
  simpa [at_] using this

/-- What `get_simplex` really returns for the last type of pentachora. -/
theorem get_p3 {j a b c d t : Int} (h : K m j a b c d) (hg : Good m 4 (j + 3 * m.n 3 + t * n m 4)) :
    getSimplex m 4 (j + 3 * m.n 3 + t * n m 4) = some ([(a, t), (b, t + 1), (b, t + 1), (c, t + 1), (d, t + 1)].map (enc m)) := by
  rw [getSimplex_unfold (Dec.p3 h) hg]
  have e : simplexAt m 4 (j + 3 * m.n 3) ((3 : Nat) : Int) = some ([(a, 0), (b, 1), (b, 1), (c, 1), (d, 1)].map (enc m)) := by
    simp [simplexAt, enc, rem3 h.h0 h.h1, h.get, pentPat, vertsOf]
  rw [e]
  simp only [Option.map_some, enc_at]
  simp [at_, Int.add_comm]

theorem get_p3_0 {j a b c d : Int} (h : K m j a b c d) :
    getSimplex m 4 (j + 3 * m.n 3) = some ([(a, 0), (b, 1), (b, 1), (c, 1), (d, 1)].map (enc m)) := by
  have h0 := h.h0
  have := get_p3 (t := 0) h (Or.inl (by omega))
  simpa using this

theorem split_id {d : Nat} (hN : 0 < n m d) (k : Int) : ∃ i t, k = i + t * n m d ∧ 0 ≤ i ∧ i < n m d ∧ t = k / n m d :=
  ⟨k % n m d, k / n m d, by rw [Int.mul_comm]; exact (Int.emod_add_mul_ediv k _).symm,
    Int.emod_nonneg _ (by omega), Int.emod_lt_of_pos _ hN, rfl⟩

/-- Every id stands for a simplex. -/
theorem is_total (B : Base n0 ts m) {d : Nat} (hd : d ≤ 4) (hN : 0 < n m d) (k : Int) :
    ∃ ty i t ps, Dec m d ty i ps ∧ k = i + t * n m d ∧ t = k / n m d := by
  obtain ⟨i, t, h1, h2, h3, h4⟩ := split_id hN k
  obtain ⟨ty, ps, h⟩ := dec_total B hd h2 h3
  exact ⟨ty, i, t, ps, h, h1, h4⟩

theorem at_head {t : Int} {ps : List PV} {a : Int} {l : List PV} (h : ps = (a, 0) :: l) : at_ t ps = (a, t) :: at_ t l := by
  subst h; simp [at_]

theorem at_inj {t : Int} {ps qs : List PV} (h : at_ t ps = at_ t qs) : ps = qs := by
  unfold at_ at h
  refine List.map_injective_iff.2 ?_ h
  rintro ⟨a, b⟩ ⟨c, d⟩ e
  simp at e ⊢; exact e

/-- An id stands for one simplex only. -/
theorem Is.func {d : Nat} {k : Int} {ps ps' : List PV} (h : Is m d k ps) (h' : Is m d k ps') : ps = ps' := by
  obtain ⟨ty, i, t, qs, h1, h2, rfl⟩ := h
  obtain ⟨ty', i', t', qs', h1', h2', rfl⟩ := h'
  have r := h1.range
  have r' := h1'.range
  obtain ⟨rfl, rfl⟩ := at_eq r.1 r.2 r'.1 r'.2 (h2.symm.trans h2')
  rw [(dec_fun h1 h1').2]

/-- A simplex has one id only. -/
theorem Is.inj (B : Base n0 ts m) {d : Nat} {k k' : Int} {ps : List PV} (h : Is m d k ps) (h' : Is m d k' ps) : k = k' := by
  obtain ⟨ty, i, t, qs, h1, h2, e⟩ := h
  obtain ⟨ty', i', t', qs', h1', h2', e'⟩ := h'
  obtain ⟨_, _, a, l, q1⟩ := dec_chain h1
  obtain ⟨_, _, a', l', q1'⟩ := dec_chain h1'
  have he := e.symm.trans e'
  have : t = t' := by
    rw [at_head q1, at_head q1'] at he
    simp at he
    exact he.1.2
  subst this
  rw [h2, h2', dec_inj B h1 h1' (at_inj he)]

theorem Is.facts {d : Nat} {k : Int} {ps : List PV} (h : Is m d k ps) :
    ps.length = d + 1 ∧ ps.Pairwise (fun p q => p ≠ q ∧ p.1 ≤ q.1 ∧ p.2 ≤ q.2) ∧
    (∀ p ∈ ps, 0 ≤ p.1 ∧ p.1 < m.n 0 ∧ (p.2 = k / n m d ∨ p.2 = k / n m d + 1)) ∧ ∃ a l, ps = (a, k / n m d) :: l := by
  obtain ⟨ty, i, t, qs, h1, h2, rfl⟩ := h
  have r := h1.range
  have ht : k / n m d = t := by rw [h2, ediv_at r.1 r.2]
  obtain ⟨c1, c2, a, l, c3⟩ := dec_chain h1
  refine ⟨by simp [at_, h1.dim.2], ?_, ?_, a, at_ t l, by rw [ht]; exact at_head c3⟩
  · unfold at_
    rw [List.pairwise_map]
    refine c1.imp ?_
    rintro ⟨p1, p2⟩ ⟨q1, q2⟩ ⟨h1, h2, h3⟩
    simp at h1 h2 h3 ⊢
    exact ⟨h1, h2, h3⟩
  · intro p hp
    unfold at_ at hp
    obtain ⟨q, hq, rfl⟩ := List.mem_map.1 hp
    have := c2 q hq
    simp only
    omega

theorem enc_facts (hn : m.n 0 = n0) {p : PV} (h0 : 0 ≤ p.1) (h1 : p.1 < m.n 0) :
    below n0 (enc m p) = p.1 ∧ time n0 (enc m p) = p.2 := by
  unfold below time enc
  rw [← hn]
  exact ⟨emod_at h0 h1, ediv_at h0 h1⟩

theorem enc_inj {p q : PV} (h0 : 0 ≤ p.1) (h1 : p.1 < m.n 0) (h0' : 0 ≤ q.1) (h1' : q.1 < m.n 0) (h : enc m p = enc m q) : p = q := by
  obtain ⟨e1, e2⟩ := at_eq h0 h1 h0' h1' h
  exact Prod.ext e1 e2

theorem Dec.over (B : Base n0 ts m) {d ty : Nat} {i : Int} {ps : List PV} (h : Dec m d ty i ps) :
    (∀ p ∈ ps, ∀ q ∈ ps, p.1 = q.1) ∨ ∃ t ∈ ts, ∀ p ∈ ps, OnTet p.1 t := by
  have key : ∀ {d j} {σ : Cell}, m.get d j = some σ → (∀ p ∈ ps, p.1 ∈ σ) → ∃ t ∈ ts, ∀ p ∈ ps, OnTet p.1 t := by
    intro d j σ hg hp
    obtain ⟨-, -, t, ht, ho⟩ := B.get_cell hg
    exact ⟨t, ht, fun p hp' => ho _ (hp p hp')⟩
  cases h with
  | v0 h | e2 h => left; simp
  | e0 h | e1 h | t3 h | t4 h => right; exact key h.get (by simp)
  | t0 h | t1 h | t2 h | k4 h | k5 h | k6 h => right; exact key h.get (by simp)
  | k0 h | k1 h | k2 h | k3 h | p0 h | p1 h | p2 h | p3 h => right; exact key h.get (by simp)

/-- The vertices an id stands for are a simplex of the extruded mesh. -/
theorem Is.simplex (B : Base n0 ts m) {d : Nat} {k : Int} {ps : List PV} (h : Is m d k ps) : Simplex n0 ts (ps.map (enc m)) := by
  obtain ⟨f1, f2, f3, f4⟩ := h.facts
  have hb : ∀ p ∈ ps, below n0 (enc m p) = p.1 ∧ time n0 (enc m p) = p.2 :=
    fun p hp => enc_facts B.hn0 (f3 p hp).1 (f3 p hp).2.1
  refine ⟨?_, ?_, ?_⟩
  · rw [List.pairwise_map]
    refine f2.imp_of_mem ?_
    rintro p q hp hq ⟨h1, h2, h3⟩
    rw [(hb p hp).1, (hb p hp).2, (hb q hq).1, (hb q hq).2]
    refine ⟨?_, h2, h3⟩
    intro e
    exact h1 (enc_inj (f3 p hp).1 (f3 p hp).2.1 (f3 q hq).1 (f3 q hq).2.1 e)
  · intro u hu v hv
    obtain ⟨p, hp, rfl⟩ := List.mem_map.1 hu
    obtain ⟨q, hq, rfl⟩ := List.mem_map.1 hv
    rw [(hb p hp).2, (hb q hq).2]
    have := (f3 p hp).2.2
    have := (f3 q hq).2.2
    omega
  · obtain ⟨ty, i, t, qs, h1, h2, rfl⟩ := h
    rcases h1.over B with h | ⟨T, hT, h⟩
    · left
      intro u hu v hv
      obtain ⟨p, hp, rfl⟩ := List.mem_map.1 hu
      obtain ⟨q, hq, rfl⟩ := List.mem_map.1 hv
      rw [(hb p hp).1, (hb q hq).1]
      unfold at_ at hp hq
      obtain ⟨p', hp', rfl⟩ := List.mem_map.1 hp
      obtain ⟨q', hq', rfl⟩ := List.mem_map.1 hq
      exact h p' hp' q' hq'
    · right
      refine ⟨T, hT, ?_⟩
      intro u hu
      obtain ⟨p, hp, rfl⟩ := List.mem_map.1 hu
      rw [(hb p hp).1]
      unfold at_ at hp
      obtain ⟨p', hp', rfl⟩ := List.mem_map.1 hp
      exact h p' hp'

end Verif.X3
