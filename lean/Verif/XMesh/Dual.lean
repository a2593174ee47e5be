import Verif.XMesh.Sides
import Mathlib.Data.List.Sublists
import Mathlib.Data.List.Sort

/-! Duality of `sides` and `side_of`, and faces by vertices. -/

namespace Verif.XM

open Verif.UM

variable {n0 : Nat} {ts : List Tri} {m : M2}

theorem onA {a b c : Int} : OnTri a (a, b, c) := Or.inl rfl
theorem onB {a b c : Int} : OnTri b (a, b, c) := Or.inr (Or.inl rfl)
theorem onC {a b c : Int} : OnTri c (a, b, c) := Or.inr (Or.inr rfl)

variable (B : Base n0 ts m)
include B

/-- Every tetrahedron found by `side_of` has the face among its sides. -/
theorem dual_fwd {i t : Int} {us : List Int} (D : Dec m 2 i us) (ht : 0 ≤ t) :
    ∃ R, sideOfRaw m (i + t * n m 2) = some R ∧ R.Pairwise (· < ·) ∧ (R.length = 1 ∨ R.length = 2) ∧
      ∀ e ∈ R, Good m 3 e ∧ ∃ S, sides m e = some S ∧ i + t * n m 2 ∈ S := by
  have e3 : n m 3 = 3 * m.n 2 := rfl
  have hs0 : StrictSorted ([] : List Int) := by simp [StrictSorted]
  have pos : ∀ i' : Int, 0 ≤ i' → Good m 3 (i' + t * n m 3) := fun i' h => Or.inl (id_nonneg (by omega) h ht)
  have len2 : ∀ x y : Int, x ≠ y → (setInsert x (setInsert y [])).length = 2 := by
    intro x y hxy
    rw [setInsert_length_of_not_mem _ _ (by simpa using hxy), setInsert_length_of_not_mem _ _ (by simp)]
    rfl
  cases D with
  | @t0 j a b c h =>
    have ok := B.tri_ok h
    obtain ⟨eab, ebc, eac, h1, h2, h3⟩ := B.tri_edges h
    have hne : i + t * n m 3 ≠ i + 2 * m.n 2 + (t - 1) * n m 3 := by rw [Int.sub_mul]; omega
    refine ⟨_, raw_t0 B h ht, hs0.setInsert.setInsert, Or.inr (len2 _ _ hne), ?_⟩
    intro e he
    simp only [mem_setInsert, List.not_mem_nil, or_false] at he
    rcases he with rfl | rfl
    · refine ⟨pos _ ok.1, _, sides_k0 B h h2 h3 (pos _ ok.1), ?_⟩
      rw [mem_set4]; omega
    · have hg : Good m 3 (i + 2 * m.n 2 + (t - 1) * n m 3) := Or.inr (not_dvd_at (by omega) (by omega))
      refine ⟨hg, _, sides_k2 B h h1 h3 hg, ?_⟩
      rw [mem_set4, Int.sub_add_cancel]; omega
  | @t1 j a b c h =>
    have ok := B.tri_ok h
    obtain ⟨eab, ebc, eac, h1, h2, h3⟩ := B.tri_edges h
    refine ⟨_, raw_t1 B h ht, hs0.setInsert.setInsert, Or.inr (len2 _ _ (by omega)), ?_⟩
    intro e he
    simp only [mem_setInsert, List.not_mem_nil, or_false] at he
    rcases he with rfl | rfl
    · have hg := pos (j + m.n 2) (by omega)
      refine ⟨hg, _, sides_k1 B h h1 h2 hg, ?_⟩
      rw [mem_set4]; omega
    · refine ⟨pos _ ok.1, _, sides_k0 B h h2 h3 (pos _ ok.1), ?_⟩
      rw [mem_set4]; omega
  | @t2 j a b c h =>
    have ok := B.tri_ok h
    obtain ⟨eab, ebc, eac, h1, h2, h3⟩ := B.tri_edges h
    refine ⟨_, raw_t2 B h ht, hs0.setInsert.setInsert, Or.inr (len2 _ _ (by omega)), ?_⟩
    intro e he
    simp only [mem_setInsert, List.not_mem_nil, or_false] at he
    rcases he with rfl | rfl
    · have hg := pos (j + 2 * m.n 2) (by omega)
      refine ⟨hg, _, sides_k2 B h h1 h3 hg, ?_⟩
      rw [mem_set4]; omega
    · have hg := pos (j + m.n 2) (by omega)
      refine ⟨hg, _, sides_k1 B h h1 h2 hg, ?_⟩
      rw [mem_set4]; omega
  | @t3 j u v h =>
    have okE := B.edge_ok h
    obtain ⟨R, r1, r2, r3, r4⟩ := raw_edge B (lower := true) h ht rfl (Dec.t3 h) (Or.inl rfl)
    refine ⟨R, r1, r2, r3, ?_⟩
    intro e he
    obtain ⟨x, ⟨a, b, c⟩, g1, g2, g3, rfl⟩ := (r4 e).1 he
    have ok := B.tri_ok g1
    have hp := posOf_tri ok.2.2.1 ok.2.2.2.1
    obtain ⟨eab, ebc, eac, h1, h2, h3⟩ := B.tri_edges g1
    rcases edge_of_tri ok.2.2.1 ok.2.2.2.1 okE.2.2.1 g2 g3 with ⟨rfl, rfl⟩ | ⟨rfl, rfl⟩ | ⟨rfl, rfl⟩
    · simp only [tetOver, hp, if_true]
      have hg := pos (x + m.n 2) (by omega)
      refine ⟨hg, _, sides_k1 B g1 h1 h2 hg, ?_⟩
      have := B.edge_inj h h1
      rw [mem_set4]; omega
    · simp only [tetOver, hp, if_true]
      have hg := pos x (by omega)
      refine ⟨hg, _, sides_k0 B g1 h2 h3 hg, ?_⟩
      have := B.edge_inj h h2
      rw [mem_set4]; omega
    · simp only [tetOver, hp, if_true]
      have hg := pos x (by omega)
      refine ⟨hg, _, sides_k0 B g1 h2 h3 hg, ?_⟩
      have := B.edge_inj h h3
      rw [mem_set4]; omega
  | @t4 j u v h =>
    have okE := B.edge_ok h
    obtain ⟨R, r1, r2, r3, r4⟩ := raw_edge B (lower := false) h ht rfl (Dec.t4 h) (Or.inr rfl)
    refine ⟨R, r1, r2, r3, ?_⟩
    intro e he
    obtain ⟨x, ⟨a, b, c⟩, g1, g2, g3, rfl⟩ := (r4 e).1 he
    have ok := B.tri_ok g1
    have hp := posOf_tri ok.2.2.1 ok.2.2.2.1
    obtain ⟨eab, ebc, eac, h1, h2, h3⟩ := B.tri_edges g1
    rcases edge_of_tri ok.2.2.1 ok.2.2.2.1 okE.2.2.1 g2 g3 with ⟨rfl, rfl⟩ | ⟨rfl, rfl⟩ | ⟨rfl, rfl⟩
    · simp only [tetOver, hp]
      have hg := pos (x + 2 * m.n 2) (by omega)
      refine ⟨hg, _, sides_k2 B g1 h1 h3 hg, ?_⟩
      have := B.edge_inj h h1
      rw [mem_set4]; omega
    · simp only [tetOver, hp]
      have hg := pos (x + m.n 2) (by omega)
      refine ⟨hg, _, sides_k1 B g1 h1 h2 hg, ?_⟩
      have := B.edge_inj h h2
      rw [mem_set4]; omega
    · simp only [tetOver, hp]
      have hg := pos (x + 2 * m.n 2) (by omega)
      refine ⟨hg, _, sides_k2 B g1 h1 h3 hg, ?_⟩
      have := B.edge_inj h h3
      rw [mem_set4]; omega

/-- Every tetrahedron having the face among its sides is found by `side_of`. -/
theorem dual_bwd {i t f : Int} {us S : List Int} (D : Dec m 3 i us) (hg : Good m 3 (i + t * n m 3))
    (hS : sides m (i + t * n m 3) = some S) (hf : f ∈ S) (hf0 : 0 ≤ f) :
    ∃ R, sideOfRaw m f = some R ∧ i + t * n m 3 ∈ R := by
  have e3 : n m 3 = 3 * m.n 2 := rfl
  have tn : ∀ {i' us'}, Dec m 2 i' us' → ∀ s : Int, f = i' + s * n m 2 → 0 ≤ s := by
    intro i' us' D' s hs
    have := D'.range B
    exact time_nonneg this.2 (by omega) this.1
  cases D with
  | @k0 j a b c h =>
    have ok := B.tri_ok h
    have hp := posOf_tri ok.2.2.1 ok.2.2.2.1
    obtain ⟨eab, ebc, eac, h1, h2, h3⟩ := B.tri_edges h
    rw [sides_k0 B h h2 h3 hg] at hS
    simp only [Option.some.injEq] at hS
    subst hS
    rw [mem_set4] at hf
    rcases hf with hf | hf | hf | hf
    · refine ⟨_, by rw [hf]; exact raw_t0 B h (tn (Dec.t0 h) t hf), by simp⟩
    · have hf' : f = i + m.n 2 + t * n m 2 := by omega
      refine ⟨_, by rw [hf']; exact raw_t1 B h (tn (Dec.t1 h) t hf'), by simp⟩
    · have hf' : f = ebc + 3 * m.n 2 + t * n m 2 := by omega
      obtain ⟨R, r1, _, _, r4⟩ := raw_edge B (lower := true) h2 (tn (Dec.t3 h2) t hf') rfl (Dec.t3 h2) (Or.inl rfl)
      refine ⟨R, by rw [hf']; exact r1, (r4 _).2 ⟨i, _, h, onB, onC, ?_⟩⟩
      simp [tetOver, hp]
    · have hf' : f = eac + 3 * m.n 2 + t * n m 2 := by omega
      obtain ⟨R, r1, _, _, r4⟩ := raw_edge B (lower := true) h3 (tn (Dec.t3 h3) t hf') rfl (Dec.t3 h3) (Or.inl rfl)
      refine ⟨R, by rw [hf']; exact r1, (r4 _).2 ⟨i, _, h, onA, onC, ?_⟩⟩
      simp [tetOver, hp]
  | @k1 j a b c h =>
    have ok := B.tri_ok h
    have hp := posOf_tri ok.2.2.1 ok.2.2.2.1
    obtain ⟨eab, ebc, eac, h1, h2, h3⟩ := B.tri_edges h
    rw [sides_k1 B h h1 h2 hg] at hS
    simp only [Option.some.injEq] at hS
    subst hS
    rw [mem_set4] at hf
    rcases hf with hf | hf | hf | hf
    · refine ⟨_, by rw [hf]; exact raw_t1 B h (tn (Dec.t1 h) t hf), by simp⟩
    · have hf' : f = j + 2 * m.n 2 + t * n m 2 := by omega
      refine ⟨_, by rw [hf']; exact raw_t2 B h (tn (Dec.t2 h) t hf'), by simp⟩
    · have hf' : f = eab + 3 * m.n 2 + t * n m 2 := by omega
      obtain ⟨R, r1, _, _, r4⟩ := raw_edge B (lower := true) h1 (tn (Dec.t3 h1) t hf') rfl (Dec.t3 h1) (Or.inl rfl)
      refine ⟨R, by rw [hf']; exact r1, (r4 _).2 ⟨j, _, h, onA, onB, ?_⟩⟩
      simp [tetOver, hp]
    · have hf' : f = ebc + 3 * m.n 2 + m.n 1 + t * n m 2 := by omega
      obtain ⟨R, r1, _, _, r4⟩ := raw_edge B (lower := false) h2 (tn (Dec.t4 h2) t hf') rfl (Dec.t4 h2) (Or.inr rfl)
      refine ⟨R, by rw [hf']; exact r1, (r4 _).2 ⟨j, _, h, onB, onC, ?_⟩⟩
      simp [tetOver, hp]
  | @k2 j a b c h =>
    have ok := B.tri_ok h
    have hp := posOf_tri ok.2.2.1 ok.2.2.2.1
    obtain ⟨eab, ebc, eac, h1, h2, h3⟩ := B.tri_edges h
    rw [sides_k2 B h h1 h3 hg] at hS
    simp only [Option.some.injEq] at hS
    subst hS
    rw [mem_set4] at hf
    rcases hf with hf | hf | hf | hf
    · refine ⟨_, by rw [hf]; exact raw_t0 B h (tn (Dec.t0 h) (t + 1) hf), by simp⟩
    · have hf' : f = j + 2 * m.n 2 + t * n m 2 := by omega
      refine ⟨_, by rw [hf']; exact raw_t2 B h (tn (Dec.t2 h) t hf'), by simp⟩
    · have hf' : f = eab + 3 * m.n 2 + m.n 1 + t * n m 2 := by omega
      obtain ⟨R, r1, _, _, r4⟩ := raw_edge B (lower := false) h1 (tn (Dec.t4 h1) t hf') rfl (Dec.t4 h1) (Or.inr rfl)
      refine ⟨R, by rw [hf']; exact r1, (r4 _).2 ⟨j, _, h, onA, onB, ?_⟩⟩
      simp [tetOver, hp]
    · have hf' : f = eac + 3 * m.n 2 + m.n 1 + t * n m 2 := by omega
      obtain ⟨R, r1, _, _, r4⟩ := raw_edge B (lower := false) h3 (tn (Dec.t4 h3) t hf') rfl (Dec.t4 h3) (Or.inr rfl)
      refine ⟨R, by rw [hf']; exact r1, (r4 _).2 ⟨j, _, h, onA, onC, ?_⟩⟩
      simp [tetOver, hp]

/-- The check at the end of `side_of` never fails. -/
theorem sideOf_eq {i t : Int} {us : List Int} (D : Dec m 2 i us) (ht : 0 ≤ t) :
    sideOf m (i + t * n m 2) = sideOfRaw m (i + t * n m 2) := by
  obtain ⟨R, r1, _, _, r4⟩ := dual_fwd B D ht
  unfold sideOf
  rw [r1]
  simp only [Option.bind_eq_bind, Option.bind_some]
  suffices h : ∀ l : List Int, (∀ e ∈ l, e ∈ R) → checkSides m (i + t * n m 2) l = some () by
    rw [h R (fun e he => he)]; rfl
  intro l
  induction l with
  | nil => intro _; rfl
  | cons e l ih =>
    intro hl
    obtain ⟨_, S, s1, s2⟩ := r4 e (hl e (by simp))
    simp only [checkSides, s1, Option.bind_eq_bind, Option.bind_some, if_pos s2]
    exact ih (fun x hx => hl x (by simp [hx]))

/-- The sides of a tetrahedron, by vertices. -/
theorem sides_faces {i t : Int} {us : List Int} (D : Dec m 3 i us) (hg : Good m 3 (i + t * n m 3)) :
    ∃ S u0 u1 u2 u3 f0 f1 f2 f3, us = [u0, u1, u2, u3] ∧ sides m (i + t * n m 3) = some S ∧ S.Pairwise (· < ·) ∧
      S.length = 4 ∧ (∀ f, f ∈ S ↔ f = f0 ∨ f = f1 ∨ f = f2 ∨ f = f3) ∧
      (∃ j s vs, Dec m 2 j vs ∧ f0 = j + s * n m 2 ∧ shift m s vs = shift m t [u1, u2, u3]) ∧
      (∃ j s vs, Dec m 2 j vs ∧ f1 = j + s * n m 2 ∧ shift m s vs = shift m t [u0, u2, u3]) ∧
      (∃ j s vs, Dec m 2 j vs ∧ f2 = j + s * n m 2 ∧ shift m s vs = shift m t [u0, u1, u3]) ∧
      (∃ j s vs, Dec m 2 j vs ∧ f3 = j + s * n m 2 ∧ shift m s vs = shift m t [u0, u1, u2]) := by
  cases D with
  | @k0 j a b c h =>
    have ok := B.tri_ok h
    obtain ⟨eab, ebc, eac, h1, h2, h3⟩ := B.tri_edges h
    have o1 := B.edge_ok h1
    have o2 := B.edge_ok h2
    have o3 := B.edge_ok h3
    have ne : ebc ≠ eac := by
      rintro rfl; rw [h2] at h3; simp at h3; omega
    refine ⟨_, a, b, c, c + m.n 0, ebc + 3 * m.n 2 + t * n m 2, eac + 3 * m.n 2 + t * n m 2, i + m.n 2 + t * n m 2,
      i + t * n m 2, rfl, sides_k0 B h h2 h3 hg, set4_sorted _ _ _ _, ?_, ?_,
      ⟨_, t, _, Dec.t3 h2, rfl, rfl⟩, ⟨_, t, _, Dec.t3 h3, rfl, rfl⟩, ⟨_, t, _, Dec.t1 h, rfl, rfl⟩,
      ⟨_, t, _, Dec.t0 h, rfl, rfl⟩⟩
    · apply set4_length <;> omega
    · intro f; rw [mem_set4]; omega
  | @k1 j a b c h =>
    have ok := B.tri_ok h
    obtain ⟨eab, ebc, eac, h1, h2, h3⟩ := B.tri_edges h
    have o1 := B.edge_ok h1
    have o2 := B.edge_ok h2
    have o3 := B.edge_ok h3
    refine ⟨_, a, b, b + m.n 0, c + m.n 0, ebc + 3 * m.n 2 + m.n 1 + t * n m 2, j + 2 * m.n 2 + t * n m 2,
      j + m.n 2 + t * n m 2, eab + 3 * m.n 2 + t * n m 2, rfl, sides_k1 B h h1 h2 hg, set4_sorted _ _ _ _, ?_, ?_,
      ⟨_, t, _, Dec.t4 h2, rfl, rfl⟩, ⟨_, t, _, Dec.t2 h, rfl, rfl⟩, ⟨_, t, _, Dec.t1 h, rfl, rfl⟩,
      ⟨_, t, _, Dec.t3 h1, rfl, rfl⟩⟩
    · apply set4_length <;> omega
    · intro f; rw [mem_set4]; omega
  | @k2 j a b c h =>
    have ok := B.tri_ok h
    obtain ⟨eab, ebc, eac, h1, h2, h3⟩ := B.tri_edges h
    have o1 := B.edge_ok h1
    have o2 := B.edge_ok h2
    have o3 := B.edge_ok h3
    have ne : eab ≠ eac := by
      rintro rfl; rw [h1] at h3; simp at h3; omega
    have e2 : n m 2 = m.n 2 + m.n 2 * 2 + m.n 1 * 2 := rfl
    refine ⟨_, a, a + m.n 0, b + m.n 0, c + m.n 0, j + (t + 1) * n m 2, j + 2 * m.n 2 + t * n m 2,
      eac + 3 * m.n 2 + m.n 1 + t * n m 2, eab + 3 * m.n 2 + m.n 1 + t * n m 2, rfl, sides_k2 B h h1 h3 hg,
      set4_sorted _ _ _ _, ?_, ?_,
      ⟨_, t + 1, _, Dec.t0 h, rfl, ?_⟩, ⟨_, t, _, Dec.t2 h, rfl, rfl⟩, ⟨_, t, _, Dec.t4 h3, rfl, rfl⟩,
      ⟨_, t, _, Dec.t4 h1, rfl, rfl⟩⟩
    · have : (t + 1) * n m 2 = t * n m 2 + n m 2 := by ring
      apply set4_length <;> omega
    · intro f; rw [mem_set4]; omega
    · simp only [shift, List.map_cons, List.map_nil]
      have : ∀ x : Int, x + (t + 1) * m.n 0 = x + m.n 0 + t * m.n 0 := by intro x; ring
      rw [this, this, this]

/-- The vertex list of a simplex is strictly increasing. -/
theorem dec_sorted {d : Nat} {i t : Int} {us : List Int} (D : Dec m d i us) : (shift m t us).Pairwise (· < ·) := by
  have hs : us.Pairwise (· < ·) := by
    cases D with
    | v0 h0 h1 => simp
    | e2 h0 h1 => simp; omega
    | e0 h | e1 h | t3 h | t4 h => have := B.edge_ok h; simp; omega
    | t0 h | t1 h | t2 h | k0 h | k1 h | k2 h => have := B.tri_ok h; simp; omega
  unfold shift
  rw [List.pairwise_map]
  exact hs.imp (fun h => by omega)

omit B in
theorem sublists3 {l : List Int} {a b c d : Int} (h : l.Sublist [a, b, c, d]) (hl : l.length = 3) :
    l = [b, c, d] ∨ l = [a, c, d] ∨ l = [a, b, d] ∨ l = [a, b, c] := by
  have := List.mem_sublistsLen.2 ⟨h, hl⟩
  simp [List.sublistsLen, List.sublistsLenAux] at this
  tauto

omit B in
theorem sublist_of_subset {l l' : List Int} (h : l.Pairwise (· < ·)) (h' : l'.Pairwise (· < ·)) (hs : l ⊆ l') : l.Sublist l' := by
  apply List.sublist_of_subperm_of_pairwise (r := (· ≤ ·))
  · exact List.subperm_of_subset (h.imp (fun h => ne_of_lt h)) hs
  · exact h.imp le_of_lt
  · exact h'.imp le_of_lt

end Verif.XM
