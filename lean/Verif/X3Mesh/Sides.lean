import Verif.X3Mesh.Complete

/-! `sides` on the extruded 4-D mesh. -/

namespace Verif.X3

open Verif.U3
open Verif.XM (mod rem mod_good mod_small mod_of_nonneg rem_small rem_add ediv_at emod_at at_eq)

variable {n0 : Nat} {ts : List Tet} {m : M3}

theorem modUp {a N : Int} (h0 : 0 ≤ a) (h1 : a < N) : mod (a + N) N = some a := by
  rw [mod_of_nonneg (by omega) (by omega)]
  have := emod_at (t := 1) h0 h1
  rw [Int.one_mul] at this
  rw [this]

/-- The faces of a base tetrahedron. -/
theorem K.faces (B : Base n0 ts m) {j a b c d : Int} (h : K m j a b c d) :
    (∃ f, T m f a b c) ∧ (∃ f, T m f a b d) ∧ (∃ f, T m f a c d) ∧ (∃ f, T m f b c d) := by
  obtain ⟨-, -, t, ht, ho⟩ := B.get_cell h.get
  have := ho a (by simp)
  have := ho b (by simp)
  have := ho c (by simp)
  have := ho d (by simp)
  have h1 := h.ab
  have h2 := h.bc
  have h3 := h.cd
  refine ⟨T_from B ht ?_ ?_ ?_ ?_ ?_, T_from B ht ?_ ?_ ?_ ?_ ?_, T_from B ht ?_ ?_ ?_ ?_ ?_, T_from B ht ?_ ?_ ?_ ?_ ?_⟩ <;>
    first | assumption | omega

/-- The edges of a base triangle. -/
theorem T.faces (B : Base n0 ts m) {j a b c : Int} (h : T m j a b c) :
    (∃ f, E m f a b) ∧ (∃ f, E m f a c) ∧ (∃ f, E m f b c) := by
  obtain ⟨-, -, t, ht, ho⟩ := B.get_cell h.get
  have := ho a (by simp)
  have := ho b (by simp)
  have := ho c (by simp)
  have h1 := h.ab
  have h2 := h.bc
  refine ⟨E_from B ht ?_ ?_ ?_, E_from B ht ?_ ?_ ?_, E_from B ht ?_ ?_ ?_⟩ <;> first | assumption | omega

/-- The ids `ys` stand, in this order, for `ps` without its first, second, … vertex. -/
def Faces (m : M3) (d : Nat) (ys : List Int) (ps : List PV) : Prop :=
  ys.length = ps.length ∧ ∀ q y, ys[q]? = some y → Is m d y (ps.eraseIdx q)

theorem faces5 {y0 y1 y2 y3 y4 : Int} {ps : List PV} (hl : ps.length = 5) {d : Nat} (h0 : Is m d y0 (ps.eraseIdx 0)) (h1 : Is m d y1 (ps.eraseIdx 1))
    (h2 : Is m d y2 (ps.eraseIdx 2)) (h3 : Is m d y3 (ps.eraseIdx 3)) (h4 : Is m d y4 (ps.eraseIdx 4)) :
    Faces m d [y0, y1, y2, y3, y4] ps := by
  refine ⟨by simp [hl], ?_⟩
  intro q y h
  match q with
  | 0 => simp at h; subst h; exact h0
  | 1 => simp at h; subst h; exact h1
  | 2 => simp at h; subst h; exact h2
  | 3 => simp at h; subst h; exact h3
  | 4 => simp at h; subst h; exact h4
  | q + 5 => simp at h

theorem faces4 {y0 y1 y2 y3 : Int} {ps : List PV} (hl : ps.length = 4) {d : Nat} (h0 : Is m d y0 (ps.eraseIdx 0)) (h1 : Is m d y1 (ps.eraseIdx 1))
    (h2 : Is m d y2 (ps.eraseIdx 2)) (h3 : Is m d y3 (ps.eraseIdx 3)) : Faces m d [y0, y1, y2, y3] ps := by
  refine ⟨by simp [hl], ?_⟩
  intro q y h
  match q with
  | 0 => simp at h; subst h; exact h0
  | 1 => simp at h; subst h; exact h1
  | 2 => simp at h; subst h; exact h2
  | 3 => simp at h; subst h; exact h3
  | q + 4 => simp at h

/-- What `sides` returns: exactly the ids of the faces. -/
structure SidesSpec (m : M3) (d : Nat) (k : Int) (ps : List PV) : Prop where
  spec : ∃ S, sides m d k = some S ∧ S.Pairwise (· < ·) ∧ ∃ ys, Faces m (d - 1) ys ps ∧ ∀ x, x ∈ S ↔ x ∈ ys

theorem sides_dec {d ty : Nat} {i t : Int} {ps : List PV} (h : Dec m d ty i ps) (hg : Good m d (i + t * n m d)) (L : List Look)
    (v : List Int) (hv : getSimplex m d i = some v) (hd : d = 4 ∧ L = sides4 ty ∨ d = 3 ∧ L = sides3 ty) :
    sides m d (i + t * n m d) = runLooks m (d - 1) t v L [] := by
  have hr := h.range
  unfold sides
  rw [mod_good (by omega) hg, emod_at hr.1 hr.2, fdiv_at hr.1 hr.2]
  rcases hd with ⟨rfl, rfl⟩ | ⟨rfl, rfl⟩ <;> simp only [Option.bind_eq_bind, Option.bind_some, hv, h.type]

theorem addTypes_sorted (e : Nat) (t id : Int) : ∀ (l : List (Nat × Int)) (acc : List Int), acc.Pairwise (· < ·) →
    (addTypes m e t id l acc).Pairwise (· < ·)
  | [], _, h => h
  | a :: l, acc, h => addTypes_sorted e t id l _ (StrictSorted.setInsert h)

theorem runLooks_sorted (e : Nat) (t : Int) (v : List Int) : ∀ (l : List Look) (acc S : List Int), acc.Pairwise (· < ·) →
    runLooks m e t v l acc = some S → S.Pairwise (· < ·)
  | [], _, _, h, hs => by simp only [runLooks, Option.some.injEq] at hs; exact hs ▸ h
  | L :: l, acc, S, h, hs => by
    simp only [runLooks, Option.bind_eq_bind] at hs
    obtain ⟨c, -, hs⟩ := Option.bind_eq_some_iff.1 hs
    obtain ⟨id, -, hs⟩ := Option.bind_eq_some_iff.1 hs
    exact runLooks_sorted e t v l _ _ (addTypes_sorted e t id _ _ h) hs

theorem isAt {d ty : Nat} {i : Int} {qs ps : List PV} (D : Dec m d ty i qs) (t : Int) (h : ps = at_ t qs) : Is m d (i + t * n m d) ps :=
  ⟨ty, i, t, qs, D, rfl, h⟩

theorem sides_spec_of {d ty : Nat} {i t : Int} {ps qs : List PV} (D : Dec m d ty i ps) (hg : Good m d (i + t * n m d)) (L : List Look)
    {v : List Int} (hv : getSimplex m d i = some v) (hd : d = 4 ∧ L = sides4 ty ∨ d = 3 ∧ L = sides3 ty) {S : List Int}
    (hS : runLooks m (d - 1) t v L [] = some S) {ys : List Int} (hf : Faces m (d - 1) ys qs) (hm : ∀ x, x ∈ S ↔ x ∈ ys) :
    SidesSpec m d (i + t * n m d) qs :=
  ⟨S, (sides_dec D hg L v hv hd).trans hS, runLooks_sorted _ _ _ _ _ _ List.Pairwise.nil hS, ys, hf, hm⟩

/-- Evaluate the blocks of a branch of `sides`. -/
local macro "run" l:term,* : tactic => `(tactic|
  (simp only [sides4, sides3, Int.ofNat_eq_natCast, Nat.cast_ofNat, runLooks, lookVerts, enc, List.map_cons, List.map_nil, Int.zero_mul, Int.one_mul, Int.add_zero,
    List.getElem?_cons_zero, List.getElem?_cons_succ, Option.bind_eq_bind, Option.bind_some, Bool.false_eq_true, if_true, if_false]
   all_goals simp only [$[$l:term],*, Option.bind_some]
   try rfl))

/-- Compare the ids inserted with those expected. -/
local macro "same" : tactic => `(tactic|
  (intro x
   simp only [Nat.reduceSub, addTypes, mem_setInsert, off, List.mem_cons, List.not_mem_nil, or_false, Int.add_mul, Int.zero_mul, Int.one_mul, Int.add_zero]
   all_goals omega))

theorem sides_spec_p0 (B : Base n0 ts m) {j a b c d t : Int} (h : K m j a b c d) (hg : Good m 4 (j + t * n m 4)) :
    SidesSpec m 4 (j + t * n m 4) (at_ t [(a, 0), (b, 0), (c, 0), (d, 0), (d, 1)]) := by
  obtain ⟨-, ⟨x1, h1⟩, ⟨x2, h2⟩, ⟨x3, h3⟩⟩ := h.faces B
  refine sides_spec_of (Dec.p0 h) hg (sides4 0) (get_dec0 (Dec.p0 h) (by omega)) (Or.inl ⟨rfl, rfl⟩) (by run must_of B h.get, must_of B h1.get, must_of B h2.get, must_of B h3.get)
    (faces5 rfl (isAt (Dec.k4 h3) t rfl) (isAt (Dec.k4 h2) t rfl) (isAt (Dec.k4 h1) t rfl) (isAt (Dec.k1 h) t rfl) (isAt (Dec.k0 h) t rfl)) (by same)

theorem sides_spec_p1 (B : Base n0 ts m) {j a b c d t : Int} (h : K m j a b c d) (hg : Good m 4 (j + m.n 3 + t * n m 4)) :
    SidesSpec m 4 (j + m.n 3 + t * n m 4) (at_ t [(a, 0), (b, 0), (c, 0), (c, 1), (d, 1)]) := by
  obtain ⟨⟨x1, h1⟩, -, ⟨x2, h2⟩, ⟨x3, h3⟩⟩ := h.faces B
  have md : mod (d + m.n 0) (m.n 0) = some d := modUp (by have := h2.a0; have := h.cd; have := h2.ab; omega) h.dn
  refine sides_spec_of (Dec.p1 h) hg (sides4 1) (get_dec0 (Dec.p1 h) (by omega)) (Or.inl ⟨rfl, rfl⟩) (by run md, must_of B h.get, must_of B h1.get, must_of B h2.get, must_of B h3.get)
    (faces5 rfl (isAt (Dec.k5 h3) t rfl) (isAt (Dec.k5 h2) t rfl) (isAt (Dec.k2 h) t rfl) (isAt (Dec.k1 h) t rfl) (isAt (Dec.k4 h1) t rfl)) (by same)

theorem sides_spec_p2 (B : Base n0 ts m) {j a b c d t : Int} (h : K m j a b c d) (hg : Good m 4 (j + 2 * m.n 3 + t * n m 4)) :
    SidesSpec m 4 (j + 2 * m.n 3 + t * n m 4) (at_ t [(a, 0), (b, 0), (b, 1), (c, 1), (d, 1)]) := by
  obtain ⟨⟨x1, h1⟩, ⟨x2, h2⟩, -, ⟨x3, h3⟩⟩ := h.faces B
  have md : mod (d + m.n 0) (m.n 0) = some d := modUp (by have := h2.a0; have := h2.ab; have := h2.bc; omega) h.dn
  have mc : mod (c + m.n 0) (m.n 0) = some c := modUp (by have := h1.a0; have := h1.ab; have := h1.bc; omega) h1.cn
  refine sides_spec_of (Dec.p2 h) hg (sides4 2) (get_dec0 (Dec.p2 h) (by omega)) (Or.inl ⟨rfl, rfl⟩) (by run md, mc, must_of B h.get, must_of B h1.get, must_of B h2.get, must_of B h3.get)
    (faces5 rfl (isAt (Dec.k6 h3) t rfl) (isAt (Dec.k3 h) t rfl) (isAt (Dec.k2 h) t rfl) (isAt (Dec.k5 h2) t rfl) (isAt (Dec.k5 h1) t rfl)) (by same)

theorem sides_spec_p3 (B : Base n0 ts m) {j a b c d t : Int} (h : K m j a b c d) (hg : Good m 4 (j + 3 * m.n 3 + t * n m 4)) :
    SidesSpec m 4 (j + 3 * m.n 3 + t * n m 4) (at_ t [(a, 0), (a, 1), (b, 1), (c, 1), (d, 1)]) := by
  obtain ⟨⟨x1, h1⟩, ⟨x2, h2⟩, ⟨x3, h3⟩, -⟩ := h.faces B
  have md : mod (d + m.n 0) (m.n 0) = some d := modUp (by have := h2.a0; have := h2.ab; have := h2.bc; omega) h.dn
  have mc : mod (c + m.n 0) (m.n 0) = some c := modUp (by have := h1.a0; have := h1.ab; have := h1.bc; omega) h1.cn
  have mb : mod (b + m.n 0) (m.n 0) = some b := modUp (by have := h1.a0; have := h1.ab; omega) (by have := h1.bc; have := h1.cn; omega)
  refine sides_spec_of (Dec.p3 h) hg (sides4 3) (get_p3_0 h) (Or.inl ⟨rfl, rfl⟩) (by run md, mc, mb, must_of B h.get, must_of B h1.get, must_of B h2.get, must_of B h3.get)
    (faces5 rfl (isAt (Dec.k0 h) (t + 1) (by simp [at_, Int.add_comm])) (isAt (Dec.k3 h) t rfl) (isAt (Dec.k6 h3) t rfl) (isAt (Dec.k6 h2) t rfl) (isAt (Dec.k6 h1) t rfl)) (by same)

/-- `sides(4, k)`. -/
theorem sides4_spec (B : Base n0 ts m) {k : Int} {ps : List PV} (h : Is m 4 k ps) (hg : Good m 4 k) : SidesSpec m 4 k ps := by
  obtain ⟨ty, i, t, qs, D, rfl, rfl⟩ := h
  cases D with
  | p0 h => exact sides_spec_p0 B h hg
  | p1 h => exact sides_spec_p1 B h hg
  | p2 h => exact sides_spec_p2 B h hg
  | p3 h => exact sides_spec_p3 B h hg

/-- `mod` on the corners of a base tetrahedron. -/
theorem K.mods {j a b c d : Int} (h : K m j a b c d) :
    mod a (m.n 0) = some a ∧ mod b (m.n 0) = some b ∧ mod c (m.n 0) = some c ∧ mod d (m.n 0) = some d ∧
    mod (a + m.n 0) (m.n 0) = some a ∧ mod (b + m.n 0) (m.n 0) = some b ∧ mod (c + m.n 0) (m.n 0) = some c ∧
    mod (d + m.n 0) (m.n 0) = some d := by
  obtain ⟨-, h0, h1, h2, h3, h4, h5, h6⟩ := h
  refine ⟨mod_small ?_ ?_, mod_small ?_ ?_, mod_small ?_ ?_, mod_small ?_ ?_, modUp ?_ ?_, modUp ?_ ?_, modUp ?_ ?_, modUp ?_ ?_⟩ <;> omega

/-- `mod` on the corners of a base triangle. -/
theorem T.mods {j a b c : Int} (h : T m j a b c) :
    mod a (m.n 0) = some a ∧ mod b (m.n 0) = some b ∧ mod c (m.n 0) = some c ∧
    mod (a + m.n 0) (m.n 0) = some a ∧ mod (b + m.n 0) (m.n 0) = some b ∧ mod (c + m.n 0) (m.n 0) = some c := by
  obtain ⟨-, h0, h1, h2, h3, h4, h5⟩ := h
  refine ⟨mod_small ?_ ?_, mod_small ?_ ?_, mod_small ?_ ?_, modUp ?_ ?_, modUp ?_ ?_, modUp ?_ ?_⟩ <;> omega

/-- `mod` on the corners of a base edge. -/
theorem E.mods {j a b : Int} (h : E m j a b) :
    mod a (m.n 0) = some a ∧ mod b (m.n 0) = some b ∧ mod (a + m.n 0) (m.n 0) = some a ∧ mod (b + m.n 0) (m.n 0) = some b := by
  obtain ⟨-, h0, h1, h2, h3, h4⟩ := h
  refine ⟨mod_small ?_ ?_, mod_small ?_ ?_, modUp ?_ ?_, modUp ?_ ?_⟩ <;> omega

theorem sides_spec_k0 (B : Base n0 ts m) {j a b c d t : Int} (h : K m j a b c d) (hg : Good m 3 (j + t * n m 3)) :
    SidesSpec m 3 (j + t * n m 3) (at_ t [(a, 0), (b, 0), (c, 0), (d, 0)]) := by
  obtain ⟨⟨x1, h1⟩, ⟨x2, h2⟩, ⟨x3, h3⟩, ⟨x4, h4⟩⟩ := h.faces B
  obtain ⟨ma, mb, mc, md, ma', mb', mc', md'⟩ := h.mods
  refine sides_spec_of (Dec.k0 h) hg (sides3 0) (get_dec0 (Dec.k0 h) (by omega)) (Or.inr ⟨rfl, rfl⟩) (by run ma, mb, mc, md, ma', mb', mc', md', must_of B h.get, must_of B h1.get, must_of B h2.get, must_of B h3.get, must_of B h4.get)
    (faces4 rfl (isAt (Dec.t0 h4) t rfl) (isAt (Dec.t0 h3) t rfl) (isAt (Dec.t0 h2) t rfl) (isAt (Dec.t0 h1) t rfl)) (by same)

theorem sides_spec_k1 (B : Base n0 ts m) {j a b c d t : Int} (h : K m j a b c d) (hg : Good m 3 (j + m.n 3 + t * n m 3)) :
    SidesSpec m 3 (j + m.n 3 + t * n m 3) (at_ t [(a, 0), (b, 0), (c, 0), (d, 1)]) := by
  obtain ⟨⟨x1, h1⟩, ⟨x2, h2⟩, ⟨x3, h3⟩, ⟨x4, h4⟩⟩ := h.faces B
  obtain ⟨ma, mb, mc, md, ma', mb', mc', md'⟩ := h.mods
  refine sides_spec_of (Dec.k1 h) hg (sides3 1) (get_dec0 (Dec.k1 h) (by omega)) (Or.inr ⟨rfl, rfl⟩) (by run ma, mb, mc, md, ma', mb', mc', md', must_of B h.get, must_of B h1.get, must_of B h2.get, must_of B h3.get, must_of B h4.get)
    (faces4 rfl (isAt (Dec.t1 h4) t rfl) (isAt (Dec.t1 h3) t rfl) (isAt (Dec.t1 h2) t rfl) (isAt (Dec.t0 h1) t rfl)) (by same)

theorem sides_spec_k2 (B : Base n0 ts m) {j a b c d t : Int} (h : K m j a b c d) (hg : Good m 3 (j + 2 * m.n 3 + t * n m 3)) :
    SidesSpec m 3 (j + 2 * m.n 3 + t * n m 3) (at_ t [(a, 0), (b, 0), (c, 1), (d, 1)]) := by
  obtain ⟨⟨x1, h1⟩, ⟨x2, h2⟩, ⟨x3, h3⟩, ⟨x4, h4⟩⟩ := h.faces B
  obtain ⟨ma, mb, mc, md, ma', mb', mc', md'⟩ := h.mods
  refine sides_spec_of (Dec.k2 h) hg (sides3 2) (get_dec0 (Dec.k2 h) (by omega)) (Or.inr ⟨rfl, rfl⟩) (by run ma, mb, mc, md, ma', mb', mc', md', must_of B h.get, must_of B h1.get, must_of B h2.get, must_of B h3.get, must_of B h4.get)
    (faces4 rfl (isAt (Dec.t2 h4) t rfl) (isAt (Dec.t2 h3) t rfl) (isAt (Dec.t1 h2) t rfl) (isAt (Dec.t1 h1) t rfl)) (by same)

theorem sides_spec_k3 (B : Base n0 ts m) {j a b c d t : Int} (h : K m j a b c d) (hg : Good m 3 (j + 3 * m.n 3 + t * n m 3)) :
    SidesSpec m 3 (j + 3 * m.n 3 + t * n m 3) (at_ t [(a, 0), (b, 1), (c, 1), (d, 1)]) := by
  obtain ⟨⟨x1, h1⟩, ⟨x2, h2⟩, ⟨x3, h3⟩, ⟨x4, h4⟩⟩ := h.faces B
  obtain ⟨ma, mb, mc, md, ma', mb', mc', md'⟩ := h.mods
  refine sides_spec_of (Dec.k3 h) hg (sides3 3) (get_dec0 (Dec.k3 h) (by omega)) (Or.inr ⟨rfl, rfl⟩) (by run ma, mb, mc, md, ma', mb', mc', md', must_of B h.get, must_of B h1.get, must_of B h2.get, must_of B h3.get, must_of B h4.get)
    (faces4 rfl (isAt (Dec.t0 h4) (t + 1) (by simp [at_, Int.add_comm])) (isAt (Dec.t2 h3) t rfl) (isAt (Dec.t2 h2) t rfl) (isAt (Dec.t2 h1) t rfl)) (by same)

theorem sides_spec_k4 (B : Base n0 ts m) {j a b c t : Int} (h : T m j a b c) (hg : Good m 3 (j + 4 * m.n 3 + t * n m 3)) :
    SidesSpec m 3 (j + 4 * m.n 3 + t * n m 3) (at_ t [(a, 0), (b, 0), (c, 0), (c, 1)]) := by
  obtain ⟨⟨x1, h1⟩, ⟨x2, h2⟩, ⟨x3, h3⟩⟩ := h.faces B
  obtain ⟨ma, mb, mc, ma', mb', mc'⟩ := h.mods
  refine sides_spec_of (Dec.k4 h) hg (sides3 4) (get_dec0 (Dec.k4 h) (by omega)) (Or.inr ⟨rfl, rfl⟩) (by run ma, mb, mc, ma', mb', mc', must_of B h.get, must_of B h1.get, must_of B h2.get, must_of B h3.get)
    (faces4 rfl (isAt (Dec.t3 h3) t rfl) (isAt (Dec.t3 h2) t rfl) (isAt (Dec.t1 h) t rfl) (isAt (Dec.t0 h) t rfl)) (by same)

theorem sides_spec_k5 (B : Base n0 ts m) {j a b c t : Int} (h : T m j a b c) (hg : Good m 3 (j + (4 * m.n 3 + m.n 2) + t * n m 3)) :
    SidesSpec m 3 (j + (4 * m.n 3 + m.n 2) + t * n m 3) (at_ t [(a, 0), (b, 0), (b, 1), (c, 1)]) := by
  obtain ⟨⟨x1, h1⟩, ⟨x2, h2⟩, ⟨x3, h3⟩⟩ := h.faces B
  obtain ⟨ma, mb, mc, ma', mb', mc'⟩ := h.mods
  refine sides_spec_of (Dec.k5 h) hg (sides3 5) (get_dec0 (Dec.k5 h) (by omega)) (Or.inr ⟨rfl, rfl⟩) (by run ma, mb, mc, ma', mb', mc', must_of B h.get, must_of B h1.get, must_of B h2.get, must_of B h3.get)
    (faces4 rfl (isAt (Dec.t4 h3) t rfl) (isAt (Dec.t2 h) t rfl) (isAt (Dec.t1 h) t rfl) (isAt (Dec.t3 h1) t rfl)) (by same)

theorem sides_spec_k6 (B : Base n0 ts m) {j a b c t : Int} (h : T m j a b c) (hg : Good m 3 (j + (4 * m.n 3 + 2 * m.n 2) + t * n m 3)) :
    SidesSpec m 3 (j + (4 * m.n 3 + 2 * m.n 2) + t * n m 3) (at_ t [(a, 0), (a, 1), (b, 1), (c, 1)]) := by
  obtain ⟨⟨x1, h1⟩, ⟨x2, h2⟩, ⟨x3, h3⟩⟩ := h.faces B
  obtain ⟨ma, mb, mc, ma', mb', mc'⟩ := h.mods
  refine sides_spec_of (Dec.k6 h) hg (sides3 6) (get_dec0 (Dec.k6 h) (by omega)) (Or.inr ⟨rfl, rfl⟩) (by run ma, mb, mc, ma', mb', mc', must_of B h.get, must_of B h1.get, must_of B h2.get, must_of B h3.get)
    (faces4 rfl (isAt (Dec.t0 h) (t + 1) (by simp [at_, Int.add_comm])) (isAt (Dec.t2 h) t rfl) (isAt (Dec.t4 h2) t rfl) (isAt (Dec.t4 h1) t rfl)) (by same)

/-- `sides(3, k)`. -/
theorem sides3_spec (B : Base n0 ts m) {k : Int} {ps : List PV} (h : Is m 3 k ps) (hg : Good m 3 k) : SidesSpec m 3 k ps := by
  obtain ⟨ty, i, t, qs, D, rfl, rfl⟩ := h
  cases D with
  | k0 h => exact sides_spec_k0 B h hg
  | k1 h => exact sides_spec_k1 B h hg
  | k2 h => exact sides_spec_k2 B h hg
  | k3 h => exact sides_spec_k3 B h hg
  | k4 h => exact sides_spec_k4 B h hg
  | k5 h => exact sides_spec_k5 B h hg
  | k6 h => exact sides_spec_k6 B h hg

end Verif.X3
