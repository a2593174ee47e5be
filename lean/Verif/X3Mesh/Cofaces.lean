import Verif.X3Mesh.SideOf
import Mathlib.Tactic.IntervalCases

/-! The cofaces of a simplex of the extruded 4-D mesh, and `side_of(3, ·)`. -/

namespace Verif.X3

open Verif.U3
open Verif.XM (mod rem mod_good mod_small mod_of_nonneg rem_small rem_add ediv_at emod_at at_eq)

variable {n0 : Nat} {ts : List Tet} {m : M3}

/-- Id `y` of dimension `d` stands for a simplex which, without one of its vertices, is `fs`. -/
def Cof (m : M3) (d : Nat) (y : Int) (fs : List PV) : Prop :=
  ∃ ps q, Is m d y ps ∧ q < ps.length ∧ ps.eraseIdx q = fs

theorem cof {d ty : Nat} {y i t : Int} {qs fs : List PV} (D : Dec m d ty i qs) (q : Nat) (hq : q ≤ d) (hy : y = i + t * n m d)
    (hf : (at_ t qs).eraseIdx q = fs) : Cof m d y fs :=
  ⟨_, q, ⟨ty, i, t, qs, D, hy, rfl⟩, by have := D.dim.2; simp [at_]; omega, hf⟩

theorem K_eq (B : Base n0 ts m) {j j' a b c d a' b' c' d' : Int} (h : K m j a b c d) (h' : K m j' a' b' c' d')
    (e : a = a' ∧ b = b' ∧ c = c' ∧ d = d') : j = j' := by
  obtain ⟨rfl, rfl, rfl, rfl⟩ := e
  exact get_inj B h.get h'.get

theorem T_eq (B : Base n0 ts m) {j j' a b c a' b' c' : Int} (h : T m j a b c) (h' : T m j' a' b' c')
    (e : a = a' ∧ b = b' ∧ c = c') : j = j' := by
  obtain ⟨rfl, rfl, rfl⟩ := e
  exact get_inj B h.get h'.get

theorem K_cast {j a b c d a' b' c' d' : Int} (h : K m j a b c d) (e : a = a' ∧ b = b' ∧ c = c' ∧ d = d') : K m j a' b' c' d' := by
  obtain ⟨rfl, rfl, rfl, rfl⟩ := e
  exact h

theorem T_cast {j a b c a' b' c' : Int} (h : T m j a b c) (e : a = a' ∧ b = b' ∧ c = c') : T m j a' b' c' := by
  obtain ⟨rfl, rfl, rfl⟩ := e
  exact h

theorem mul_cast {t t' N : Int} (h : t = t') : t * N = t' * N := by rw [h]

/-- Close one case of the search for cofaces over a fixed base tetrahedron. -/
local macro "tetcase" B:ident h:ident h':ident E:ident t:ident t':ident : tactic => `(tactic|
  (simp [at_] at $E:ident
   first
   | (exfalso
      casesm* K _ _ _ _ _ _
      omega)
   | (have hj := K_eq $B $h' $h (by omega)
      first
      | (have ht := mul_cast (N := n m 4) (show $t = $t' by omega)
         omega)
      | (have ht := mul_cast (N := n m 4) (show $t - 1 = $t' by omega)
         omega))))

theorem cof_k0 (B : Base n0 ts m) {j a b c d t y : Int} (h : K m j a b c d) :
    Cof m 4 y (at_ t [(a, 0), (b, 0), (c, 0), (d, 0)]) ↔ y = j + t * n m 4 ∨ y = j + 3 * m.n 3 + (t - 1) * n m 4 := by
  constructor
  · rintro ⟨ps, q, ⟨ty, i, t', qs, D, rfl, rfl⟩, hq, E⟩
    have hq : q < 5 := by simpa [at_, D.dim.2] using hq
    have hK := h
    cases D with
    | @p0 j' a' b' c' d' h' | @p1 j' a' b' c' d' h' | @p2 j' a' b' c' d' h' | @p3 j' a' b' c' d' h' =>
      interval_cases q <;> tetcase B h h' E t t'
  · rintro (rfl | rfl)
    · exact cof (Dec.p0 h) 4 (by omega) rfl rfl
    · exact cof (Dec.p3 h) 0 (by omega) rfl (by simp [at_])

theorem cof_k1 (B : Base n0 ts m) {j a b c d t y : Int} (h : K m j a b c d) :
    Cof m 4 y (at_ t [(a, 0), (b, 0), (c, 0), (d, 1)]) ↔ y = j + t * n m 4 ∨ y = j + m.n 3 + t * n m 4 := by
  constructor
  · rintro ⟨ps, q, ⟨ty, i, t', qs, D, rfl, rfl⟩, hq, E⟩
    have hq : q < 5 := by simpa [at_, D.dim.2] using hq
    have hK := h
    cases D with
    | @p0 j' a' b' c' d' h' | @p1 j' a' b' c' d' h' | @p2 j' a' b' c' d' h' | @p3 j' a' b' c' d' h' =>
      interval_cases q <;> tetcase B h h' E t t'
  · rintro (rfl | rfl)
    · exact cof (Dec.p0 h) 3 (by omega) rfl rfl
    · exact cof (Dec.p1 h) 3 (by omega) rfl rfl

theorem cof_k2 (B : Base n0 ts m) {j a b c d t y : Int} (h : K m j a b c d) :
    Cof m 4 y (at_ t [(a, 0), (b, 0), (c, 1), (d, 1)]) ↔ y = j + m.n 3 + t * n m 4 ∨ y = j + 2 * m.n 3 + t * n m 4 := by
  constructor
  · rintro ⟨ps, q, ⟨ty, i, t', qs, D, rfl, rfl⟩, hq, E⟩
    have hq : q < 5 := by simpa [at_, D.dim.2] using hq
    have hK := h
    cases D with
    | @p0 j' a' b' c' d' h' | @p1 j' a' b' c' d' h' | @p2 j' a' b' c' d' h' | @p3 j' a' b' c' d' h' =>
      interval_cases q <;> tetcase B h h' E t t'
  · rintro (rfl | rfl)
    · exact cof (Dec.p1 h) 2 (by omega) rfl rfl
    · exact cof (Dec.p2 h) 2 (by omega) rfl rfl

theorem cof_k3 (B : Base n0 ts m) {j a b c d t y : Int} (h : K m j a b c d) :
    Cof m 4 y (at_ t [(a, 0), (b, 1), (c, 1), (d, 1)]) ↔ y = j + 2 * m.n 3 + t * n m 4 ∨ y = j + 3 * m.n 3 + t * n m 4 := by
  constructor
  · rintro ⟨ps, q, ⟨ty, i, t', qs, D, rfl, rfl⟩, hq, E⟩
    have hq : q < 5 := by simpa [at_, D.dim.2] using hq
    have hK := h
    cases D with
    | @p0 j' a' b' c' d' h' | @p1 j' a' b' c' d' h' | @p2 j' a' b' c' d' h' | @p3 j' a' b' c' d' h' =>
      interval_cases q <;> tetcase B h h' E t t'
  · rintro (rfl | rfl)
    · exact cof (Dec.p2 h) 1 (by omega) rfl rfl
    · exact cof (Dec.p3 h) 1 (by omega) rfl rfl

/-- Close one case of the search for cofaces over the base tetrahedra around a base triangle. -/
local macro "tricase" h:ident h':ident E:ident t:ident t':ident : tactic => `(tactic|
  (simp [at_] at $E:ident
   first
   | (exfalso
      casesm* K _ _ _ _ _ _, T _ _ _ _ _
      omega)
   | (have ht := mul_cast (N := n m 4) (show $t = $t' by omega)
      first
      | exact ⟨_, 0, .p0 (K_cast $h' ⟨rfl, by omega, by omega, by omega⟩), by simp [off]; omega⟩
      | exact ⟨_, 1, .p1 (K_cast $h' ⟨by omega, rfl, by omega, by omega⟩), by simp [off]; omega⟩
      | exact ⟨_, 2, .p2 (K_cast $h' ⟨by omega, by omega, rfl, by omega⟩), by simp [off]; omega⟩
      | exact ⟨_, 3, .p3 (K_cast $h' ⟨by omega, by omega, by omega, rfl⟩), by simp [off]; omega⟩)))

theorem cof_k4 {j a b c t y : Int} (h : T m j a b c) :
    Cof m 4 y (at_ t [(a, 0), (b, 0), (c, 0), (c, 1)]) ↔ ∃ x pos, InK a b c m x pos ∧ y = x + t * n m 4 + off m 4 (if pos = 3 then 1 else 0) := by
  constructor
  · rintro ⟨ps, q, ⟨ty, i, t', qs, D, rfl, rfl⟩, hq, E⟩
    have hq : q < 5 := by simpa [at_, D.dim.2] using hq
    have hT := h
    cases D with
    | @p0 j' a' b' c' d' h' | @p1 j' a' b' c' d' h' | @p2 j' a' b' c' d' h' | @p3 j' a' b' c' d' h' =>
      interval_cases q <;> tricase h h' E t t'
  · rintro ⟨x, pos, hp, rfl⟩
    cases hp with
    | p0 h => exact cof (Dec.p0 h) 0 (by omega) (by simp [off]; try omega) rfl
    | p1 h => exact cof (Dec.p0 h) 1 (by omega) (by simp [off]; try omega) rfl
    | p2 h => exact cof (Dec.p0 h) 2 (by omega) (by simp [off]; try omega) rfl
    | p3 h => exact cof (Dec.p1 h) 4 (by omega) (by simp [off]; try omega) rfl

theorem cof_k5 {j a b c t y : Int} (h : T m j a b c) :
    Cof m 4 y (at_ t [(a, 0), (b, 0), (b, 1), (c, 1)]) ↔ ∃ x pos, InK a b c m x pos ∧ y = x + t * n m 4 + off m 4 (if pos = 0 ∨ pos = 1 then 1 else 2) := by
  constructor
  · rintro ⟨ps, q, ⟨ty, i, t', qs, D, rfl, rfl⟩, hq, E⟩
    have hq : q < 5 := by simpa [at_, D.dim.2] using hq
    have hT := h
    cases D with
    | @p0 j' a' b' c' d' h' | @p1 j' a' b' c' d' h' | @p2 j' a' b' c' d' h' | @p3 j' a' b' c' d' h' =>
      interval_cases q <;> tricase h h' E t t'
  · rintro ⟨x, pos, hp, rfl⟩
    cases hp with
    | p0 h => exact cof (Dec.p1 h) 0 (by omega) (by simp [off]; try omega) rfl
    | p1 h => exact cof (Dec.p1 h) 1 (by omega) (by simp [off]; try omega) rfl
    | p2 h => exact cof (Dec.p2 h) 3 (by omega) (by simp [off]; try omega) rfl
    | p3 h => exact cof (Dec.p2 h) 4 (by omega) (by simp [off]; try omega) rfl

theorem cof_k6 {j a b c t y : Int} (h : T m j a b c) :
    Cof m 4 y (at_ t [(a, 0), (a, 1), (b, 1), (c, 1)]) ↔ ∃ x pos, InK a b c m x pos ∧ y = x + t * n m 4 + off m 4 (if pos = 0 then 2 else 3) := by
  constructor
  · rintro ⟨ps, q, ⟨ty, i, t', qs, D, rfl, rfl⟩, hq, E⟩
    have hq : q < 5 := by simpa [at_, D.dim.2] using hq
    have hT := h
    cases D with
    | @p0 j' a' b' c' d' h' | @p1 j' a' b' c' d' h' | @p2 j' a' b' c' d' h' | @p3 j' a' b' c' d' h' =>
      interval_cases q <;> tricase h h' E t t'
  · rintro ⟨x, pos, hp, rfl⟩
    cases hp with
    | p0 h => exact cof (Dec.p2 h) 0 (by omega) (by simp [off]; try omega) rfl
    | p1 h => exact cof (Dec.p3 h) 2 (by omega) (by simp [off]; try omega) rfl
    | p2 h => exact cof (Dec.p3 h) 3 (by omega) (by simp [off]; try omega) rfl
    | p3 h => exact cof (Dec.p3 h) 4 (by omega) (by simp [off]; try omega) rfl

end Verif.X3
