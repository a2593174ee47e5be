import Verif.X3Mesh.Spec
import Verif.U3Mesh.Props
import Verif.XMesh.Sides

/-! Decoding of the ids of the extruded 4-D mesh. -/

namespace Verif.X3

open Verif.U3
open Verif.XM (mod rem mod_good mod_small mod_of_nonneg rem_small rem_add ediv_at emod_at at_eq)

variable {n0 : Nat} {ts : List Tet} {m : M3}

/-- Base tetrahedron `j` is `a b c d`. -/
structure K (m : M3) (j a b c d : Int) : Prop where
  get : m.get 3 j = some [a, b, c, d]
  h0 : 0 ≤ j
  h1 : j < m.n 3
  ab : a < b
  bc : b < c
  cd : c < d
  a0 : 0 ≤ a
  dn : d < m.n 0

/-- Base triangle `j` is `a b c`. -/
structure T (m : M3) (j a b c : Int) : Prop where
  get : m.get 2 j = some [a, b, c]
  h0 : 0 ≤ j
  h1 : j < m.n 2
  ab : a < b
  bc : b < c
  a0 : 0 ≤ a
  cn : c < m.n 0

/-- Base edge `j` is `a b`. -/
structure E (m : M3) (j a b : Int) : Prop where
  get : m.get 1 j = some [a, b]
  h0 : 0 ≤ j
  h1 : j < m.n 1
  ab : a < b
  a0 : 0 ≤ a
  bn : b < m.n 0

/-- Base vertex `j`. -/
structure V (m : M3) (j : Int) : Prop where
  h0 : 0 ≤ j
  h1 : j < m.n 0

/-- Base vertex and time. -/
abbrev PV := Int × Int

/-- The simplices of one interval: dimension, type, index in the interval, vertices (times relative to
the interval). -/
inductive Dec (m : M3) : Nat → Nat → Int → List PV → Prop
  | v0 {j : Int} : V m j → Dec m 0 0 j [(j, 0)]
  | e0 {j a b : Int} : E m j a b → Dec m 1 0 j [(a, 0), (b, 0)]
  | e1 {j a b : Int} : E m j a b → Dec m 1 1 (j + m.n 1) [(a, 0), (b, 1)]
  | e2 {j : Int} : V m j → Dec m 1 2 (j + 2 * m.n 1) [(j, 0), (j, 1)]
  | t0 {j a b c : Int} : T m j a b c → Dec m 2 0 j [(a, 0), (b, 0), (c, 0)]
  | t1 {j a b c : Int} : T m j a b c → Dec m 2 1 (j + m.n 2) [(a, 0), (b, 0), (c, 1)]
  | t2 {j a b c : Int} : T m j a b c → Dec m 2 2 (j + 2 * m.n 2) [(a, 0), (b, 1), (c, 1)]
  | t3 {j a b : Int} : E m j a b → Dec m 2 3 (j + 3 * m.n 2) [(a, 0), (b, 0), (b, 1)]
  | t4 {j a b : Int} : E m j a b → Dec m 2 4 (j + (3 * m.n 2 + m.n 1)) [(a, 0), (a, 1), (b, 1)]
  | k0 {j a b c d : Int} : K m j a b c d → Dec m 3 0 j [(a, 0), (b, 0), (c, 0), (d, 0)]
  | k1 {j a b c d : Int} : K m j a b c d → Dec m 3 1 (j + m.n 3) [(a, 0), (b, 0), (c, 0), (d, 1)]
  | k2 {j a b c d : Int} : K m j a b c d → Dec m 3 2 (j + 2 * m.n 3) [(a, 0), (b, 0), (c, 1), (d, 1)]
  | k3 {j a b c d : Int} : K m j a b c d → Dec m 3 3 (j + 3 * m.n 3) [(a, 0), (b, 1), (c, 1), (d, 1)]
  | k4 {j a b c : Int} : T m j a b c → Dec m 3 4 (j + 4 * m.n 3) [(a, 0), (b, 0), (c, 0), (c, 1)]
  | k5 {j a b c : Int} : T m j a b c → Dec m 3 5 (j + (4 * m.n 3 + m.n 2)) [(a, 0), (b, 0), (b, 1), (c, 1)]
  | k6 {j a b c : Int} : T m j a b c → Dec m 3 6 (j + (4 * m.n 3 + 2 * m.n 2)) [(a, 0), (a, 1), (b, 1), (c, 1)]
  | p0 {j a b c d : Int} : K m j a b c d → Dec m 4 0 j [(a, 0), (b, 0), (c, 0), (d, 0), (d, 1)]
  | p1 {j a b c d : Int} : K m j a b c d → Dec m 4 1 (j + m.n 3) [(a, 0), (b, 0), (c, 0), (c, 1), (d, 1)]
  | p2 {j a b c d : Int} : K m j a b c d → Dec m 4 2 (j + 2 * m.n 3) [(a, 0), (b, 0), (b, 1), (c, 1), (d, 1)]
  | p3 {j a b c d : Int} : K m j a b c d → Dec m 4 3 (j + 3 * m.n 3) [(a, 0), (a, 1), (b, 1), (c, 1), (d, 1)]

/-- Move to time `t`. -/
def at_ (t : Int) (ps : List PV) : List PV := ps.map (fun p => (p.1, p.2 + t))

/-- Id `k` of dimension `d` stands for the simplex with vertices `ps`. -/
def Is (m : M3) (d : Nat) (k : Int) (ps : List PV) : Prop :=
  ∃ ty i t qs, Dec m d ty i qs ∧ k = i + t * n m d ∧ ps = at_ t qs

/-- The number of a space-time vertex. -/
def enc (m : M3) (p : PV) : Int := p.1 + p.2 * m.n 0

/-! ### base simplices -/

theorem K_of (B : Base n0 ts m) {j : Int} {σ : Cell} (h : m.get 3 j = some σ) : ∃ a b c d, σ = [a, b, c, d] ∧ K m j a b c d := by
  obtain ⟨_, _, h3, h4⟩ := B.get_range h
  obtain ⟨hl, hi, t, ht, ho⟩ := B.get_cell h
  match σ, hl with
  | [a, b, c, d], _ =>
    have ra := B.inRange t ht a (ho a (by simp))
    have rd := B.inRange t ht d (ho d (by simp))
    have := B.hn0
    simp at hi
    exact ⟨a, b, c, d, rfl, h, h3, h4, by omega, by omega, by omega, by omega, by omega⟩

theorem T_of (B : Base n0 ts m) {j : Int} {σ : Cell} (h : m.get 2 j = some σ) : ∃ a b c, σ = [a, b, c] ∧ T m j a b c := by
  obtain ⟨_, _, h3, h4⟩ := B.get_range h
  obtain ⟨hl, hi, t, ht, ho⟩ := B.get_cell h
  match σ, hl with
  | [a, b, c], _ =>
    have ra := B.inRange t ht a (ho a (by simp))
    have rd := B.inRange t ht c (ho c (by simp))
    have := B.hn0
    simp at hi
    exact ⟨a, b, c, rfl, h, h3, h4, by omega, by omega, by omega, by omega⟩

theorem E_of (B : Base n0 ts m) {j : Int} {σ : Cell} (h : m.get 1 j = some σ) : ∃ a b, σ = [a, b] ∧ E m j a b := by
  obtain ⟨_, _, h3, h4⟩ := B.get_range h
  obtain ⟨hl, hi, t, ht, ho⟩ := B.get_cell h
  match σ, hl with
  | [a, b], _ =>
    have ra := B.inRange t ht a (ho a (by simp))
    have rd := B.inRange t ht b (ho b (by simp))
    have := B.hn0
    simp at hi
    exact ⟨a, b, rfl, h, h3, h4, by omega, by omega, by omega⟩

theorem K_def (B : Base n0 ts m) {j : Int} (h0 : 0 ≤ j) (h1 : j < m.n 3) : ∃ a b c d, K m j a b c d := by
  obtain ⟨σ, h⟩ := B.get_def (d := 3) (by omega) (by omega) h0 h1
  obtain ⟨a, b, c, d, -, h⟩ := K_of B h
  exact ⟨a, b, c, d, h⟩

theorem T_def (B : Base n0 ts m) {j : Int} (h0 : 0 ≤ j) (h1 : j < m.n 2) : ∃ a b c, T m j a b c := by
  obtain ⟨σ, h⟩ := B.get_def (d := 2) (by omega) (by omega) h0 h1
  obtain ⟨a, b, c, -, h⟩ := T_of B h
  exact ⟨a, b, c, h⟩

theorem E_def (B : Base n0 ts m) {j : Int} (h0 : 0 ≤ j) (h1 : j < m.n 1) : ∃ a b, E m j a b := by
  obtain ⟨σ, h⟩ := B.get_def (d := 1) (by omega) (by omega) h0 h1
  obtain ⟨a, b, -, h⟩ := E_of B h
  exact ⟨a, b, h⟩

theorem get_inj (B : Base n0 ts m) {d : Nat} {i j : Int} {c : Cell} (h1 : m.get d i = some c) (h2 : m.get d j = some c) : i = j := by
  obtain ⟨r, -, r2⟩ := B.find (d := d) c
  have g1 := (r2 i).2 h1
  have g2 := (r2 j).2 h2
  rw [g1] at g2; simpa using g2

theorem must_of (B : Base n0 ts m) {d : Nat} {i : Int} {c : Cell} (h : m.get d i = some c) : must m d c = some i := by
  obtain ⟨r, r1, r2⟩ := B.find (d := d) c
  unfold must
  rw [r1, (r2 i).2 h]; rfl

/-! ### ranges, totality, uniqueness -/

theorem Dec.range {d ty : Nat} {i : Int} {ps : List PV} (h : Dec m d ty i ps) : 0 ≤ i ∧ i < n m d := by
  cases h <;> casesm* K _ _ _ _ _ _, T _ _ _ _ _, E _ _ _ _, V _ _ <;> simp only [n] <;> omega

theorem Dec.dim {d ty : Nat} {i : Int} {ps : List PV} (h : Dec m d ty i ps) : d ≤ 4 ∧ ps.length = d + 1 := by
  cases h <;> simp

theorem dec_total (B : Base n0 ts m) {d : Nat} (hd : d ≤ 4) {i : Int} (h0 : 0 ≤ i) (h1 : i < n m d) : ∃ ty ps, Dec m d ty i ps := by
  obtain rfl | rfl | rfl | rfl | rfl : d = 0 ∨ d = 1 ∨ d = 2 ∨ d = 3 ∨ d = 4 := by omega
  all_goals simp only [n] at h1
  · exact ⟨_, _, Dec.v0 ⟨h0, h1⟩⟩
  · by_cases c1 : i < m.n 1
    · obtain ⟨a, b, h⟩ := E_def B h0 c1; exact ⟨_, _, Dec.e0 h⟩
    by_cases c2 : i < 2 * m.n 1
    · obtain ⟨a, b, h⟩ := E_def B (j := i - m.n 1) (by omega) (by omega)
      exact ⟨_, _, by simpa using Dec.e1 h⟩
    · exact ⟨_, _, by simpa using Dec.e2 (m := m) (j := i - 2 * m.n 1) ⟨by omega, by omega⟩⟩
  · by_cases c1 : i < m.n 2
    · obtain ⟨a, b, c, h⟩ := T_def B h0 c1; exact ⟨_, _, Dec.t0 h⟩
    by_cases c2 : i < 2 * m.n 2
    · obtain ⟨a, b, c, h⟩ := T_def B (j := i - m.n 2) (by omega) (by omega)
      exact ⟨_, _, by simpa using Dec.t1 h⟩
    by_cases c3 : i < 3 * m.n 2
    · obtain ⟨a, b, c, h⟩ := T_def B (j := i - 2 * m.n 2) (by omega) (by omega)
      exact ⟨_, _, by simpa using Dec.t2 h⟩
    by_cases c4 : i < 3 * m.n 2 + m.n 1
    · obtain ⟨a, b, h⟩ := E_def B (j := i - 3 * m.n 2) (by omega) (by omega)
      exact ⟨_, _, by simpa using Dec.t3 h⟩
    · obtain ⟨a, b, h⟩ := E_def B (j := i - (3 * m.n 2 + m.n 1)) (by omega) (by omega)
      exact ⟨_, _, by simpa using Dec.t4 h⟩
  · by_cases c1 : i < m.n 3
    · obtain ⟨a, b, c, d, h⟩ := K_def B h0 c1; exact ⟨_, _, Dec.k0 h⟩
    by_cases c2 : i < 2 * m.n 3
    · obtain ⟨a, b, c, d, h⟩ := K_def B (j := i - m.n 3) (by omega) (by omega)
      exact ⟨_, _, by simpa using Dec.k1 h⟩
    by_cases c3 : i < 3 * m.n 3
    · obtain ⟨a, b, c, d, h⟩ := K_def B (j := i - 2 * m.n 3) (by omega) (by omega)
      exact ⟨_, _, by simpa using Dec.k2 h⟩
    by_cases c4 : i < 4 * m.n 3
    · obtain ⟨a, b, c, d, h⟩ := K_def B (j := i - 3 * m.n 3) (by omega) (by omega)
      exact ⟨_, _, by simpa using Dec.k3 h⟩
    by_cases c5 : i < 4 * m.n 3 + m.n 2
    · obtain ⟨a, b, c, h⟩ := T_def B (j := i - 4 * m.n 3) (by omega) (by omega)
      exact ⟨_, _, by simpa using Dec.k4 h⟩
    by_cases c6 : i < 4 * m.n 3 + 2 * m.n 2
    · obtain ⟨a, b, c, h⟩ := T_def B (j := i - (4 * m.n 3 + m.n 2)) (by omega) (by omega)
      exact ⟨_, _, by simpa using Dec.k5 h⟩
    · obtain ⟨a, b, c, h⟩ := T_def B (j := i - (4 * m.n 3 + 2 * m.n 2)) (by omega) (by omega)
      exact ⟨_, _, by simpa using Dec.k6 h⟩
  · by_cases c1 : i < m.n 3
    · obtain ⟨a, b, c, d, h⟩ := K_def B h0 c1; exact ⟨_, _, Dec.p0 h⟩
    by_cases c2 : i < 2 * m.n 3
    · obtain ⟨a, b, c, d, h⟩ := K_def B (j := i - m.n 3) (by omega) (by omega)
      exact ⟨_, _, by simpa using Dec.p1 h⟩
    by_cases c3 : i < 3 * m.n 3
    · obtain ⟨a, b, c, d, h⟩ := K_def B (j := i - 2 * m.n 3) (by omega) (by omega)
      exact ⟨_, _, by simpa using Dec.p2 h⟩
    · obtain ⟨a, b, c, d, h⟩ := K_def B (j := i - 3 * m.n 3) (by omega) (by omega)
      exact ⟨_, _, by simpa using Dec.p3 h⟩

theorem div3 {j c N : Int} (h0 : 0 ≤ j) (h1 : j < N) : (j + c * N) / N = c := ediv_at h0 h1

/-- The type is the one `simplex_type` computes. -/
theorem Dec.type {d ty : Nat} {i : Int} {ps : List PV} (h : Dec m d ty i ps) : typeOf m d i = some (ty : Int) := by
  cases h with
  | p0 h | p1 h | p2 h | p3 h =>
    have h0 := h.h0
    have h1 := h.h1
    have e0 := ediv_at (t := 0) h0 h1
    have e1 := ediv_at (t := 1) h0 h1
    have e2 := ediv_at (t := 2) h0 h1
    have e3 := ediv_at (t := 3) h0 h1
    have hne : ¬ m.n 3 = 0 := by omega
    simp only [typeOf, hne, if_false]
    simp_all
  | _ =>
    casesm* K _ _ _ _ _ _, T _ _ _ _ _, E _ _ _ _, V _ _
    simp only [typeOf]
    try simp only [Option.some.injEq]
    repeat' split
    all_goals first | rfl | omega

theorem K.uniq {j j' a b c d a' b' c' d' : Int} (h : K m j a b c d) (h' : K m j' a' b' c' d') (e : j = j') :
    a = a' ∧ b = b' ∧ c = c' ∧ d = d' := by
  have h1 := h.get
  rw [e, h'.get] at h1
  simp at h1; omega

theorem T.uniq {j j' a b c a' b' c' : Int} (h : T m j a b c) (h' : T m j' a' b' c') (e : j = j') :
    a = a' ∧ b = b' ∧ c = c' := by
  have h1 := h.get
  rw [e, h'.get] at h1
  simp at h1; omega

theorem E.uniq {j j' a b a' b' : Int} (h : E m j a b) (h' : E m j' a' b') (e : j = j') : a = a' ∧ b = b' := by
  have h1 := h.get
  rw [e, h'.get] at h1
  simp at h1; omega

theorem dec_fun {d ty ty' : Nat} {i : Int} {ps ps' : List PV} (h : Dec m d ty i ps) (h' : Dec m d ty' i ps') :
    ty = ty' ∧ ps = ps' := by
  have e := h.type
  rw [h'.type] at e
  have : ty = ty' := by simpa using e.symm
  subst this
  refine ⟨rfl, ?_⟩
  clear e
  generalize hi : i = i' at h'
  cases h with
  | v0 h => cases h'; simp; omega
  | e2 h => cases h'; simp; omega
  | e0 h | e1 h | t3 h | t4 h =>
    cases h'; rename_i h'
    have := h.uniq h' (by omega)
    simp [this]
  | t0 h | t1 h | t2 h | k4 h | k5 h | k6 h =>
    cases h'; rename_i h'
    have := h.uniq h' (by omega)
    simp [this]
  | k0 h | k1 h | k2 h | k3 h | p0 h | p1 h | p2 h | p3 h =>
    cases h'; rename_i h'
    have := h.uniq h' (by omega)
    simp [this]

/-- Different indices stand for different simplices. -/
theorem dec_inj (B : Base n0 ts m) {d ty ty' : Nat} {i i' : Int} {ps ps' : List PV} (h : Dec m d ty i ps) (h' : Dec m d ty' i' ps')
    (e : ps = ps') : i = i' := by
  cases h <;> cases h' <;>
    first
    | (exfalso; simp at e; done)
    | (exfalso; casesm* K _ _ _ _ _ _, T _ _ _ _ _, E _ _ _ _, V _ _; simp at e; omega)
    | (simp at e; omega)
    | (simp at e
       rename_i h1 _ _ _ _ _ h2
       obtain ⟨rfl, rfl, rfl, rfl⟩ := e
       have := get_inj B h1.get h2.get
       omega)
    | (simp at e
       rename_i h1 _ _ _ _ h2
       obtain ⟨rfl, rfl, rfl⟩ := e
       have := get_inj B h1.get h2.get
       omega)
    | (simp at e
       rename_i h1 _ _ _ h2
       obtain ⟨rfl, rfl⟩ := e
       have := get_inj B h1.get h2.get
       omega)
    | (simp at e
       rename_i h1 _ _ _ _ h2
       obtain ⟨rfl, rfl, rfl, rfl⟩ := e
       have := get_inj B h1.get h2.get
       omega)
    | (simp at e
       rename_i h1 _ _ _ h2
       obtain ⟨rfl, rfl, rfl⟩ := e
       have := get_inj B h1.get h2.get
       omega)
    | (simp at e
       rename_i h1 _ _ h2
       obtain ⟨rfl, rfl⟩ := e
       have := get_inj B h1.get h2.get
       omega)

/-- The vertices of a simplex: a chain with base vertices in range, over one base simplex, starting at
relative time 0. -/
theorem dec_chain {d ty : Nat} {i : Int} {ps : List PV} (h : Dec m d ty i ps) :
    ps.Pairwise (fun p q => p ≠ q ∧ p.1 ≤ q.1 ∧ p.2 ≤ q.2) ∧ (∀ p ∈ ps, 0 ≤ p.1 ∧ p.1 < m.n 0 ∧ (p.2 = 0 ∨ p.2 = 1)) ∧
    ∃ a l, ps = (a, 0) :: l := by
  cases h <;> casesm* K _ _ _ _ _ _, T _ _ _ _ _, E _ _ _ _, V _ _ <;> simp <;> omega

end Verif.X3
