import Verif.X3Mesh.SideOf3

/-! `side_of(2, ·)` on the extruded 4-D mesh. -/

namespace Verif.X3

open Verif.U3
open Verif.XM (mod rem mod_good mod_small mod_of_nonneg rem_small rem_add ediv_at emod_at at_eq)

variable {n0 : Nat} {ts : List Tet} {m : M3}

theorem E_eq (B : Base n0 ts m) {j j' a b a' b' : Int} (h : E m j a b) (h' : E m j' a' b') (e : a = a' ∧ b = b') : j = j' := by
  obtain ⟨rfl, rfl⟩ := e
  exact get_inj B h.get h'.get

/-- Close one case of the search for cofaces over the base triangles around a base edge. -/
local macro "edgecase" h':ident E:ident t:ident t':ident : tactic => `(tactic|
  (simp [at_] at $E:ident
   first
   | (exfalso
      casesm* K _ _ _ _ _ _, T _ _ _ _ _, E _ _ _ _
      omega)
   | (have ht := mul_cast (N := n m 3) (show $t = $t' by omega)
      first
      | exact ⟨_, 0, .p0 (T_cast $h' ⟨rfl, by omega, by omega⟩), by simp [off]; omega⟩
      | exact ⟨_, 1, .p1 (T_cast $h' ⟨by omega, rfl, by omega⟩), by simp [off]; omega⟩
      | exact ⟨_, 2, .p2 (T_cast $h' ⟨by omega, by omega, rfl⟩), by simp [off]; omega⟩)))

theorem cof_t3 {j a b t y : Int} (h : E m j a b) :
    Cof m 3 y (at_ t [(a, 0), (b, 0), (b, 1)]) ↔ ∃ x pos, InT a b m x pos ∧ y = x + t * n m 3 + off m 3 (if pos = 2 then 5 else 4) := by
  constructor
  · rintro ⟨ps, q, ⟨ty, i, t', qs, D, rfl, rfl⟩, hq, E⟩
    have hq : q < 4 := by simpa [at_, D.dim.2] using hq
    have hE := h
    cases D with
    | @k0 j' a' b' c' d' h' | @k1 j' a' b' c' d' h' | @k2 j' a' b' c' d' h' | @k3 j' a' b' c' d' h' =>
      interval_cases q <;> edgecase h' E t t'
    | @k4 j' a' b' c' h' | @k5 j' a' b' c' h' | @k6 j' a' b' c' h' =>
      interval_cases q <;> edgecase h' E t t'
  · rintro ⟨x, pos, hp, rfl⟩
    cases hp with
    | p0 h => exact cof (Dec.k4 h) 0 (by omega) (by simp [off]; try omega) rfl
    | p1 h => exact cof (Dec.k4 h) 1 (by omega) (by simp [off]; try omega) rfl
    | p2 h => exact cof (Dec.k5 h) 3 (by omega) (by simp [off]; try omega) rfl

theorem cof_t4 {j a b t y : Int} (h : E m j a b) :
    Cof m 3 y (at_ t [(a, 0), (a, 1), (b, 1)]) ↔ ∃ x pos, InT a b m x pos ∧ y = x + t * n m 3 + off m 3 (if pos = 0 then 5 else 6) := by
  constructor
  · rintro ⟨ps, q, ⟨ty, i, t', qs, D, rfl, rfl⟩, hq, E⟩
    have hq : q < 4 := by simpa [at_, D.dim.2] using hq
    have hE := h
    cases D with
    | @k0 j' a' b' c' d' h' | @k1 j' a' b' c' d' h' | @k2 j' a' b' c' d' h' | @k3 j' a' b' c' d' h' =>
      interval_cases q <;> edgecase h' E t t'
    | @k4 j' a' b' c' h' | @k5 j' a' b' c' h' | @k6 j' a' b' c' h' =>
      interval_cases q <;> edgecase h' E t t'
  · rintro ⟨x, pos, hp, rfl⟩
    cases hp with
    | p0 h => exact cof (Dec.k5 h) 0 (by omega) (by simp [off]; try omega) rfl
    | p1 h => exact cof (Dec.k6 h) 2 (by omega) (by simp [off]; try omega) rfl
    | p2 h => exact cof (Dec.k6 h) 3 (by omega) (by simp [off]; try omega) rfl

theorem upE_3 (pos : Nat) : upE 3 pos = [.self (if pos = 2 then 5 else 4) 0] := by
  by_cases h : pos = 2 <;> simp [upE, h]

theorem upE_4 (pos : Nat) : upE 4 pos = [.self (if pos = 0 then 5 else 6) 0] := by
  by_cases h : pos = 0 <;> simp [upE, h]

theorem sideOf2_edge (B : Base n0 ts m) {ty : Nat} {i t j a b : Int} {ps : List PV} (D : Dec m 2 ty i ps) (hg : Good m 2 (i + t * n m 2))
    (h : E m j a b) {v : List Int} (hv : ps.map (·.1) = v) (f : Nat → List Add)
    (hr : sideOf2 m t ty v = (do let id ← must m 1 [a, b]; let S ← m.sideOf 1 id; cofaceLoop m 2 3 t [a, b] f S []))
    (u : Nat → Nat) (hu : ∀ pos, f pos = [.self (u pos) 0])
    (hc : ∀ y, Cof m 3 y (at_ t ps) ↔ ∃ x pos, InT a b m x pos ∧ y = x + t * n m 3 + off m 3 (u pos)) :
    SideOfSpec m 2 (i + t * n m 2) (at_ t ps) := by
  have hm := mods_enc (dec_chain D).2.1
  rw [hv] at hm
  obtain ⟨R, r1, r2, r3⟩ := loopT_self B h 3 t f u hu
  refine ⟨R, ?_, r2, fun y => (r3 y).trans (hc y).symm⟩
  rw [sideOf_dec2 D hg hm, hr, r1]

/-- What `side_of` returns when it misses cofaces. -/
def SoundSideOf (m : M3) (d : Nat) (k : Int) (fs : List PV) : Prop :=
  ∃ S, sideOf m d k = some S ∧ S.Pairwise (· < ·) ∧ S ≠ [] ∧ ∀ y, y ∈ S → Cof m (d + 1) y fs

theorem sideOf2_tri (B : Base n0 ts m) {ty : Nat} {i t j a b c : Int} {ps : List PV} (D : Dec m 2 ty i ps) (hg : Good m 2 (i + t * n m 2))
    (h : T m j a b c) {v : List Int} (hv : ps.map (·.1) = v) (f : Nat → List Add)
    (hr : sideOf2 m t ty v = (do let id ← must m 2 [a, b, c]; let S ← m.sideOf 2 id; cofaceLoop m 3 3 t [a, b, c] f S []))
    (hc : ∀ x pos, InK a b c m x pos → ∃ σ vs, m.get 3 x = some σ ∧ vals m 3 t x σ (f pos) = some vs ∧ vs ≠ [] ∧
      ∀ y ∈ vs, Cof m 3 y (at_ t ps)) :
    SoundSideOf m 2 (i + t * n m 2) (at_ t ps) := by
  have hm := mods_enc (dec_chain D).2.1
  rw [hv] at hm
  have hb : ∀ x pos, InK a b c m x pos → ∃ vs, Body m 3 3 t [a, b, c] f x vs ∧ vs ≠ [] ∧ ∀ y ∈ vs, Cof m 3 y (at_ t ps) := by
    intro x pos hp
    obtain ⟨σ, vs, g1, g2, g3, g4⟩ := hc x pos hp
    obtain ⟨σ', q1, q2⟩ := hp.position
    rw [g1] at q1
    obtain rfl := Option.some.inj q1
    exact ⟨vs, ⟨σ, pos, g1, q2, g2⟩, g3, g4⟩
  obtain ⟨R, r1, r2, r3⟩ := loopK B h 3 t f (fun x pos hp => (hb x pos hp).imp (fun _ h => h.1))
  refine ⟨R, by rw [sideOf_dec2 D hg hm, hr, r1], r2, ?_, ?_⟩
  · obtain ⟨S, s1, -, s3, s4⟩ := B.side (Or.inr rfl) h.get
    obtain ⟨x, hx⟩ := List.exists_mem_of_ne_nil S s3
    obtain ⟨σ, g1, g2⟩ := (s4 x).1 hx
    obtain ⟨pos, hp⟩ := inK_of B h g1 g2
    obtain ⟨vs, v1, v2, -⟩ := hb x pos hp
    obtain ⟨y, hy⟩ := List.exists_mem_of_ne_nil vs v2
    exact List.ne_nil_of_mem ((r3 y).2 ⟨x, pos, vs, hp, v1, hy⟩)
  · intro y hy
    obtain ⟨x, pos, vs, hp, v1, v2⟩ := (r3 y).1 hy
    obtain ⟨vs', w1, -, w3⟩ := hb x pos hp
    rw [v1.func w1] at v2
    exact w3 y v2

theorem vals_t0 (B : Base n0 ts m) {a b c t x : Int} {pos : Nat} (hp : InK a b c m x pos) :
    ∃ σ vs, m.get 3 x = some σ ∧ vals m 3 t x σ (up3 0 pos) = some vs ∧ vs ≠ [] ∧ ∀ y ∈ vs, Cof m 3 y (at_ t [(a, 0), (b, 0), (c, 0)]) := by
  cases hp with
    | @p0 z h =>
      obtain ⟨⟨x1, h1⟩, ⟨x2, h2⟩, ⟨x3, h3⟩, ⟨x4, h4⟩⟩ := h.faces B
      refine ⟨_, [x + (t + 0) * n m 3 + 0, x + (t + -1) * n m 3 + 3 * m.n 3], h.get, ?_, by simp, ?_⟩
      · simp [up3, vals, pick, must_of B h1.get, must_of B h2.get, must_of B h3.get, must_of B h4.get, off]
      intro y hy
      simp only [List.mem_cons, List.not_mem_nil, or_false] at hy
      rcases hy with rfl | rfl
      · exact cof (t := t) (Dec.k0 h) 0 (by omega) (by simp only [Int.add_zero]; try omega) rfl
      · exact cof (t := (t - 1)) (Dec.k3 h) 0 (by omega) (by simp only [Int.sub_eq_add_neg]; try omega) (by simp [at_])
    | @p1 z h =>
      obtain ⟨⟨x1, h1⟩, ⟨x2, h2⟩, ⟨x3, h3⟩, ⟨x4, h4⟩⟩ := h.faces B
      refine ⟨_, [x + (t + 0) * n m 3 + 0, x3 + (t + 0) * n m 3 + 4 * m.n 3], h.get, ?_, by simp, ?_⟩
      · simp [up3, vals, pick, must_of B h1.get, must_of B h2.get, must_of B h3.get, must_of B h4.get, off]
      intro y hy
      simp only [List.mem_cons, List.not_mem_nil, or_false] at hy
      rcases hy with rfl | rfl
      · exact cof (t := t) (Dec.k0 h) 1 (by omega) (by simp only [Int.add_zero]; try omega) rfl
      · exact cof (t := t) (Dec.k4 h3) 3 (by omega) (by simp only [Int.add_zero]; try omega) rfl
    | @p2 z h =>
      obtain ⟨⟨x1, h1⟩, ⟨x2, h2⟩, ⟨x3, h3⟩, ⟨x4, h4⟩⟩ := h.faces B
      refine ⟨_, [x + (t + 0) * n m 3 + 0, x2 + (t + 0) * n m 3 + 4 * m.n 3], h.get, ?_, by simp, ?_⟩
      · simp [up3, vals, pick, must_of B h1.get, must_of B h2.get, must_of B h3.get, must_of B h4.get, off]
      intro y hy
      simp only [List.mem_cons, List.not_mem_nil, or_false] at hy
      rcases hy with rfl | rfl
      · exact cof (t := t) (Dec.k0 h) 2 (by omega) (by simp only [Int.add_zero]; try omega) rfl
      · exact cof (t := t) (Dec.k4 h2) 3 (by omega) (by simp only [Int.add_zero]; try omega) rfl
    | @p3 z h =>
      obtain ⟨⟨x1, h1⟩, ⟨x2, h2⟩, ⟨x3, h3⟩, ⟨x4, h4⟩⟩ := h.faces B
      refine ⟨_, [x + (t + 0) * n m 3 + 0, x1 + (t + 0) * n m 3 + 4 * m.n 3, x + (t + 0) * n m 3 + m.n 3, x1 + (t + -1) * n m 3 + (4 * m.n 3 + 2 * m.n 2)], h.get, ?_, by simp, ?_⟩
      · simp [up3, vals, pick, must_of B h1.get, must_of B h2.get, must_of B h3.get, must_of B h4.get, off]
      intro y hy
      simp only [List.mem_cons, List.not_mem_nil, or_false] at hy
      rcases hy with rfl | rfl | rfl | rfl
      · exact cof (t := t) (Dec.k0 h) 3 (by omega) (by simp only [Int.add_zero]; try omega) rfl
      · exact cof (t := t) (Dec.k4 h1) 3 (by omega) (by simp only [Int.add_zero]; try omega) rfl
      · exact cof (t := t) (Dec.k1 h) 3 (by omega) (by simp only [Int.add_zero]; try omega) rfl
      · exact cof (t := (t - 1)) (Dec.k6 h1) 0 (by omega) (by simp only [Int.sub_eq_add_neg]; try omega) (by simp [at_])

theorem vals_t1 (B : Base n0 ts m) {a b c t x : Int} {pos : Nat} (hp : InK a b c m x pos) :
    ∃ σ vs, m.get 3 x = some σ ∧ vals m 3 t x σ (up3 1 pos) = some vs ∧ vs ≠ [] ∧ ∀ y ∈ vs, Cof m 3 y (at_ t [(a, 0), (b, 0), (c, 1)]) := by
  cases hp with
    | @p0 z h =>
      obtain ⟨⟨x1, h1⟩, ⟨x2, h2⟩, ⟨x3, h3⟩, ⟨x4, h4⟩⟩ := h.faces B
      refine ⟨_, [x + (t + 0) * n m 3 + m.n 3, x4 + (t + 0) * n m 3 + (4 * m.n 3 + m.n 2)], h.get, ?_, by simp, ?_⟩
      · simp [up3, vals, pick, must_of B h1.get, must_of B h2.get, must_of B h3.get, must_of B h4.get, off]
      intro y hy
      simp only [List.mem_cons, List.not_mem_nil, or_false] at hy
      rcases hy with rfl | rfl
      · exact cof (t := t) (Dec.k1 h) 0 (by omega) (by simp only [Int.add_zero]; try omega) rfl
      · exact cof (t := t) (Dec.k5 h4) 2 (by omega) (by simp only [Int.add_zero]; try omega) rfl
    | @p1 z h =>
      obtain ⟨⟨x1, h1⟩, ⟨x2, h2⟩, ⟨x3, h3⟩, ⟨x4, h4⟩⟩ := h.faces B
      refine ⟨_, [x + (t + 0) * n m 3 + m.n 3, x3 + (t + 0) * n m 3 + (4 * m.n 3 + m.n 2)], h.get, ?_, by simp, ?_⟩
      · simp [up3, vals, pick, must_of B h1.get, must_of B h2.get, must_of B h3.get, must_of B h4.get, off]
      intro y hy
      simp only [List.mem_cons, List.not_mem_nil, or_false] at hy
      rcases hy with rfl | rfl
      · exact cof (t := t) (Dec.k1 h) 1 (by omega) (by simp only [Int.add_zero]; try omega) rfl
      · exact cof (t := t) (Dec.k5 h3) 2 (by omega) (by simp only [Int.add_zero]; try omega) rfl
    | @p2 z h =>
      obtain ⟨⟨x1, h1⟩, ⟨x2, h2⟩, ⟨x3, h3⟩, ⟨x4, h4⟩⟩ := h.faces B
      refine ⟨_, [x2 + (t + 0) * n m 3 + (4 * m.n 3 + m.n 2), x2 + (t + 0) * n m 3 + 4 * m.n 3], h.get, ?_, by simp, ?_⟩
      · simp [up3, vals, pick, must_of B h1.get, must_of B h2.get, must_of B h3.get, must_of B h4.get, off]
      intro y hy
      simp only [List.mem_cons, List.not_mem_nil, or_false] at hy
      rcases hy with rfl | rfl
      · exact cof (t := t) (Dec.k5 h2) 2 (by omega) (by simp only [Int.add_zero]; try omega) rfl
      · exact cof (t := t) (Dec.k4 h2) 2 (by omega) (by simp only [Int.add_zero]; try omega) rfl
    | @p3 z h =>
      obtain ⟨⟨x1, h1⟩, ⟨x2, h2⟩, ⟨x3, h3⟩, ⟨x4, h4⟩⟩ := h.faces B
      refine ⟨_, [x1 + (t + 0) * n m 3 + 4 * m.n 3, x1 + (t + 0) * n m 3 + (4 * m.n 3 + m.n 2)], h.get, ?_, by simp, ?_⟩
      · simp [up3, vals, pick, must_of B h1.get, must_of B h2.get, must_of B h3.get, must_of B h4.get, off]
      intro y hy
      simp only [List.mem_cons, List.not_mem_nil, or_false] at hy
      rcases hy with rfl | rfl
      · exact cof (t := t) (Dec.k4 h1) 2 (by omega) (by simp only [Int.add_zero]; try omega) rfl
      · exact cof (t := t) (Dec.k5 h1) 2 (by omega) (by simp only [Int.add_zero]; try omega) rfl

theorem vals_t2 (B : Base n0 ts m) {a b c t x : Int} {pos : Nat} (hp : InK a b c m x pos) :
    ∃ σ vs, m.get 3 x = some σ ∧ vals m 3 t x σ (up3 2 pos) = some vs ∧ vs ≠ [] ∧ ∀ y ∈ vs, Cof m 3 y (at_ t [(a, 0), (b, 1), (c, 1)]) := by
  cases hp with
    | @p0 z h =>
      obtain ⟨⟨x1, h1⟩, ⟨x2, h2⟩, ⟨x3, h3⟩, ⟨x4, h4⟩⟩ := h.faces B
      refine ⟨_, [x + (t + 0) * n m 3 + 2 * m.n 3, x4 + (t + 0) * n m 3 + (4 * m.n 3 + 2 * m.n 2), x4 + (t + 0) * n m 3 + (4 * m.n 3 + m.n 2)], h.get, ?_, by simp, ?_⟩
      · simp [up3, vals, pick, must_of B h1.get, must_of B h2.get, must_of B h3.get, must_of B h4.get, off]
      intro y hy
      simp only [List.mem_cons, List.not_mem_nil, or_false] at hy
      rcases hy with rfl | rfl | rfl
      · exact cof (t := t) (Dec.k2 h) 0 (by omega) (by simp only [Int.add_zero]; try omega) rfl
      · exact cof (t := t) (Dec.k6 h4) 1 (by omega) (by simp only [Int.add_zero]; try omega) rfl
      · exact cof (t := t) (Dec.k5 h4) 1 (by omega) (by simp only [Int.add_zero]; try omega) rfl
    | @p1 z h =>
      obtain ⟨⟨x1, h1⟩, ⟨x2, h2⟩, ⟨x3, h3⟩, ⟨x4, h4⟩⟩ := h.faces B
      refine ⟨_, [x + (t + 0) * n m 3 + 2 * m.n 3, x + (t + 0) * n m 3 + 3 * m.n 3, x3 + (t + 0) * n m 3 + (4 * m.n 3 + m.n 2)], h.get, ?_, by simp, ?_⟩
      · simp [up3, vals, pick, must_of B h1.get, must_of B h2.get, must_of B h3.get, must_of B h4.get, off]
      intro y hy
      simp only [List.mem_cons, List.not_mem_nil, or_false] at hy
      rcases hy with rfl | rfl | rfl
      · exact cof (t := t) (Dec.k2 h) 1 (by omega) (by simp only [Int.add_zero]; try omega) rfl
      · exact cof (t := t) (Dec.k3 h) 1 (by omega) (by simp only [Int.add_zero]; try omega) rfl
      · exact cof (t := t) (Dec.k5 h3) 1 (by omega) (by simp only [Int.add_zero]; try omega) rfl
    | @p2 z h =>
      obtain ⟨⟨x1, h1⟩, ⟨x2, h2⟩, ⟨x3, h3⟩, ⟨x4, h4⟩⟩ := h.faces B
      refine ⟨_, [x2 + (t + 0) * n m 3 + (4 * m.n 3 + m.n 2), x2 + (t + 0) * n m 3 + (4 * m.n 3 + 2 * m.n 2), x + (t + 0) * n m 3 + 3 * m.n 3], h.get, ?_, by simp, ?_⟩
      · simp [up3, vals, pick, must_of B h1.get, must_of B h2.get, must_of B h3.get, must_of B h4.get, off]
      intro y hy
      simp only [List.mem_cons, List.not_mem_nil, or_false] at hy
      rcases hy with rfl | rfl | rfl
      · exact cof (t := t) (Dec.k5 h2) 1 (by omega) (by simp only [Int.add_zero]; try omega) rfl
      · exact cof (t := t) (Dec.k6 h2) 1 (by omega) (by simp only [Int.add_zero]; try omega) rfl
      · exact cof (t := t) (Dec.k3 h) 2 (by omega) (by simp only [Int.add_zero]; try omega) rfl
    | @p3 z h =>
      obtain ⟨⟨x1, h1⟩, ⟨x2, h2⟩, ⟨x3, h3⟩, ⟨x4, h4⟩⟩ := h.faces B
      refine ⟨_, [x1 + (t + 0) * n m 3 + (4 * m.n 3 + 2 * m.n 2), x1 + (t + 0) * n m 3 + (4 * m.n 3 + m.n 2), x + (t + 0) * n m 3 + 3 * m.n 3], h.get, ?_, by simp, ?_⟩
      · simp [up3, vals, pick, must_of B h1.get, must_of B h2.get, must_of B h3.get, must_of B h4.get, off]
      intro y hy
      simp only [List.mem_cons, List.not_mem_nil, or_false] at hy
      rcases hy with rfl | rfl | rfl
      · exact cof (t := t) (Dec.k6 h1) 1 (by omega) (by simp only [Int.add_zero]; try omega) rfl
      · exact cof (t := t) (Dec.k5 h1) 1 (by omega) (by simp only [Int.add_zero]; try omega) rfl
      · exact cof (t := t) (Dec.k3 h) 3 (by omega) (by simp only [Int.add_zero]; try omega) rfl

/-- `side_of(2, k)` for the triangles with an edge along the time axis. -/
theorem sideOf2_spec (B : Base n0 ts m) {k : Int} {fs : List PV} (h : Is m 2 k fs) (hg : Good m 2 k)
    (hv : ∃ p q, p ∈ fs ∧ q ∈ fs ∧ p ≠ q ∧ p.1 = q.1) : SideOfSpec m 2 k fs := by
  obtain ⟨ty, i, t, qs, D, rfl, rfl⟩ := h
  cases D with
  | t0 h | t1 h | t2 h =>
    exfalso
    obtain ⟨p, q, hp, hq, hne, he⟩ := hv
    have h1 := h.ab
    have h2 := h.bc
    simp [at_] at hp hq
    apply hne
    rcases hp with rfl | rfl | rfl <;> rcases hq with rfl | rfl | rfl <;> simp at he ⊢ <;> omega
  | t3 h => exact sideOf2_edge B (Dec.t3 h) hg h rfl (upE 3) rfl _ upE_3 (fun y => cof_t3 h)
  | t4 h => exact sideOf2_edge B (Dec.t4 h) hg h rfl (upE 4) rfl _ upE_4 (fun y => cof_t4 h)

/-- `side_of(2, k)`: only cofaces, and at least one. -/
theorem sideOf2_sound (B : Base n0 ts m) {k : Int} {fs : List PV} (h : Is m 2 k fs) (hg : Good m 2 k) : SoundSideOf m 2 k fs := by
  obtain ⟨ty, i, t, qs, D, rfl, rfl⟩ := h
  have key : ∀ {i : Int} {qs : List PV} {ty : Nat} {j a b : Int}, Dec m 2 ty i qs → E m j a b → SideOfSpec m 2 (i + t * n m 2) (at_ t qs) →
      (∀ x pos, InT a b m x pos → ∃ y, Cof m 3 y (at_ t qs)) → SoundSideOf m 2 (i + t * n m 2) (at_ t qs) := by
    intro i qs ty j a b D hE hs hc
    obtain ⟨S, s1, s2, s3⟩ := hs
    obtain ⟨S', g1, -, g3, g4⟩ := B.side (Or.inl rfl) hE.get
    obtain ⟨x, hx⟩ := List.exists_mem_of_ne_nil S' g3
    obtain ⟨σ, q1, q2⟩ := (g4 x).1 hx
    obtain ⟨pos, hp⟩ := inT_of B hE q1 q2
    obtain ⟨y, hy⟩ := hc x pos hp
    exact ⟨S, s1, s2, List.ne_nil_of_mem ((s3 y).2 hy), fun y h => (s3 y).1 h⟩
  cases D with
  | t0 h => exact sideOf2_tri B (Dec.t0 h) hg h rfl (up3 0) rfl (fun x pos hp => vals_t0 B hp)
  | t1 h => exact sideOf2_tri B (Dec.t1 h) hg h rfl (up3 1) rfl (fun x pos hp => vals_t1 B hp)
  | t2 h => exact sideOf2_tri B (Dec.t2 h) hg h rfl (up3 2) rfl (fun x pos hp => vals_t2 B hp)
  | t3 h => exact key (Dec.t3 h) h (sideOf2_edge B (Dec.t3 h) hg h rfl (upE 3) rfl _ upE_3 (fun y => cof_t3 h)) (fun x pos hp => ⟨_, (cof_t3 h).2 ⟨x, pos, hp, rfl⟩⟩)
  | t4 h => exact key (Dec.t4 h) h (sideOf2_edge B (Dec.t4 h) hg h rfl (upE 4) rfl _ upE_4 (fun y => cof_t4 h)) (fun x pos hp => ⟨_, (cof_t4 h).2 ⟨x, pos, hp, rfl⟩⟩)

end Verif.X3
