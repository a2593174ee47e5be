import Verif.XMesh.Find

/-! `sides` and `side_of` evaluated. -/

namespace Verif.XM

open Verif.UM

variable {n0 : Nat} {ts : List Tri} {m : M2}

theorem time_nonneg {i t N : Int} (hi : i < N) (h : 0 ≤ i + t * N) (h0 : 0 ≤ i) : 0 ≤ t := by
  by_contra hc
  have : t * N ≤ (-1) * N := Int.mul_le_mul_of_nonneg_right (by omega) (by omega)
  omega

theorem id_nonneg {i t N : Int} (hN : 0 ≤ N) (h0 : 0 ≤ i) (ht : 0 ≤ t) : 0 ≤ i + t * N := by
  have : 0 ≤ t * N := Int.mul_nonneg ht hN
  omega

theorem not_dvd_at {i t N : Int} (h0 : 0 < i) (h1 : i < N) : ¬ N ∣ i + t * N := by
  intro h
  have := Int.emod_eq_zero_of_dvd h
  rw [emod_at (by omega) h1] at this
  omega

theorem mem_set4 {a b c d x : Int} : x ∈ set4 a b c d ↔ x = a ∨ x = b ∨ x = c ∨ x = d := by
  simp only [set4, mem_setInsert, List.not_mem_nil, or_false]
  tauto

theorem set4_sorted (a b c d : Int) : (set4 a b c d).Pairwise (· < ·) := by
  have h0 : StrictSorted ([] : List Int) := by simp [StrictSorted]
  exact h0.setInsert.setInsert.setInsert.setInsert

theorem set4_length {a b c d : Int} (hab : a ≠ b) (hac : a ≠ c) (had : a ≠ d) (hbc : b ≠ c) (hbd : b ≠ d) (hcd : c ≠ d) :
    (set4 a b c d).length = 4 := by
  unfold set4
  rw [setInsert_length_of_not_mem, setInsert_length_of_not_mem, setInsert_length_of_not_mem,
    setInsert_length_of_not_mem]
  · rfl
  · simp
  · simp; omega
  · simp; omega
  · simp; omega

theorem mod_up {a : Int} (h0 : 0 ≤ a) (h1 : a < m.n 0) : mod (a + m.n 0) (m.n 0) = some a := by
  have := (flat_at h0 h1 (le_refl 0)).2.2.1
  simpa [flatId] using this

variable (B : Base n0 ts m)
include B

theorem get_dec0 {d : Nat} {i : Int} {vs : List Int} (h : Dec m d i vs) : getSimplex m d i = some (i, vs) := by
  have hr := h.range B
  have := get_dec B (t := 0) h (Or.inl (by omega))
  simpa [shift] using this

theorem sides_k0 {j a b c t e1 e2 : Int} (h : m.getTriangle j = some (a, b, c)) (h1 : m.getEdge e1 = some (b, c))
    (h2 : m.getEdge e2 = some (a, c)) (hg : Good m 3 (j + t * n m 3)) :
    sides m (j + t * n m 3) = some (set4 (j + t * n m 2) (j + t * n m 2 + m.n 2) (e1 + m.n 2 * 3 + t * n m 2)
      (e2 + m.n 2 * 3 + t * n m 2)) := by
  have hr := (Dec.k0 h).range B
  have ok := B.tri_ok h
  have hdiv : j / (m.n 2 : Int) = 0 := Int.ediv_eq_zero_of_lt ok.1 ok.2.1
  unfold sides
  rw [mod_good (by omega) hg, emod_at hr.1 hr.2, Int.fdiv_eq_ediv_of_nonneg _ (by omega), ediv_at hr.1 hr.2]
  simp only [Option.bind_eq_bind, Option.bind_some, get_dec0 B (Dec.k0 h)]
  rw [if_neg (by omega), hdiv]
  simp [sidesAt, B.mustTri h, B.mustEdge h1, B.mustEdge h2]

theorem sides_k1 {j a b c t e1 e2 : Int} (h : m.getTriangle j = some (a, b, c)) (h1 : m.getEdge e1 = some (a, b))
    (h2 : m.getEdge e2 = some (b, c)) (hg : Good m 3 (j + m.n 2 + t * n m 3)) :
    sides m (j + m.n 2 + t * n m 3) = some (set4 (j + m.n 2 + t * n m 2) (j + m.n 2 * 2 + t * n m 2)
      (e1 + m.n 2 * 3 + t * n m 2) (e2 + m.n 2 * 3 + m.n 1 + t * n m 2)) := by
  have hr := (Dec.k1 h).range B
  have ok := B.tri_ok h
  have hdiv : (j + m.n 2) / (m.n 2 : Int) = 1 := by
    have := ediv_at (t := 1) ok.1 ok.2.1
    rwa [Int.one_mul] at this
  unfold sides
  rw [mod_good (by omega) hg, emod_at hr.1 hr.2, Int.fdiv_eq_ediv_of_nonneg _ (by omega), ediv_at hr.1 hr.2]
  simp only [Option.bind_eq_bind, Option.bind_some, get_dec0 B (Dec.k1 h)]
  rw [if_neg (by omega), hdiv]
  have hm := mod_up (m := m) (a := c) (by omega) (by omega)
  simp [sidesAt, hm, B.mustTri h, B.mustEdge h1, B.mustEdge h2]

theorem sides_k2 {j a b c t e1 e2 : Int} (h : m.getTriangle j = some (a, b, c)) (h1 : m.getEdge e1 = some (a, b))
    (h2 : m.getEdge e2 = some (a, c)) (hg : Good m 3 (j + 2 * m.n 2 + t * n m 3)) :
    sides m (j + 2 * m.n 2 + t * n m 3) = some (set4 (j + (t + 1) * n m 2) (j + m.n 2 * 2 + t * n m 2)
      (e1 + m.n 2 * 3 + m.n 1 + t * n m 2) (e2 + m.n 2 * 3 + m.n 1 + t * n m 2)) := by
  have hr := (Dec.k2 h).range B
  have ok := B.tri_ok h
  have hdiv : (j + 2 * m.n 2) / (m.n 2 : Int) = 2 := ediv_at (t := 2) ok.1 ok.2.1
  unfold sides
  rw [mod_good (by omega) hg, emod_at hr.1 hr.2, Int.fdiv_eq_ediv_of_nonneg _ (by omega), ediv_at hr.1 hr.2]
  simp only [Option.bind_eq_bind, Option.bind_some, get_dec0 B (Dec.k2 h)]
  rw [if_neg (by omega), hdiv]
  have hm := mod_up (m := m) (a := c) (by omega) (by omega)
  have hm' := mod_up (m := m) (a := b) (by omega) (by omega)
  simp [sidesAt, hm, hm', B.mustTri h, B.mustEdge h1, B.mustEdge h2]

/-! ## `side_of` -/

theorem raw_t0 {j a b c t : Int} (h : m.getTriangle j = some (a, b, c)) (ht : 0 ≤ t) :
    sideOfRaw m (j + t * n m 2) =
      some (setInsert (j + t * n m 3) (setInsert (j + 2 * m.n 2 + (t - 1) * n m 3) [])) := by
  have D := Dec.t0 h
  have hr := D.range B
  have ok := B.tri_ok h
  have hg : Good m 2 (j + t * n m 2) := Or.inl (id_nonneg (by omega) hr.1 ht)
  have ka := (flat_at (m := m) (a := a) (by omega) (by omega) ht)
  have kb := (flat_at (m := m) (a := b) (by omega) (by omega) ht)
  have kc := (flat_at (m := m) (a := c) (by omega) (by omega) ht)
  simp only [flatId] at ka kb kc
  unfold sideOfRaw
  rw [mod_good (by omega) hg, emod_at hr.1 hr.2, Int.fdiv_eq_ediv_of_nonneg _ (by omega), ediv_at hr.1 hr.2]
  simp only [Option.bind_eq_bind, Option.bind_some, get_dec B D hg, shift, List.map_cons, List.map_nil, ka, kb, kc]
  rw [if_pos (by omega), B.mustTri h]
  simp only [Option.bind_some]
  rw [if_pos (by omega)]

theorem raw_t1 {j a b c t : Int} (h : m.getTriangle j = some (a, b, c)) (ht : 0 ≤ t) :
    sideOfRaw m (j + m.n 2 + t * n m 2) =
      some (setInsert (j + m.n 2 + t * n m 3) (setInsert (j + t * n m 3) [])) := by
  have D := Dec.t1 h
  have hr := D.range B
  have ok := B.tri_ok h
  have hg : Good m 2 (j + m.n 2 + t * n m 2) := Or.inl (id_nonneg (by omega) hr.1 ht)
  have ka := (flat_at (m := m) (a := a) (by omega) (by omega) ht)
  have kb := (flat_at (m := m) (a := b) (by omega) (by omega) ht)
  have kc := (flat_at (m := m) (a := c) (by omega) (by omega) ht)
  simp only [flatId] at ka kb kc
  unfold sideOfRaw
  rw [mod_good (by omega) hg, emod_at hr.1 hr.2, Int.fdiv_eq_ediv_of_nonneg _ (by omega), ediv_at hr.1 hr.2]
  simp only [Option.bind_eq_bind, Option.bind_some, get_dec B D hg, shift, List.map_cons, List.map_nil, ka, kb, kc]
  rw [if_pos (by omega), B.mustTri h]
  simp only [Option.bind_some]
  rw [if_neg (by omega), if_pos (by omega)]

theorem raw_t2 {j a b c t : Int} (h : m.getTriangle j = some (a, b, c)) (ht : 0 ≤ t) :
    sideOfRaw m (j + 2 * m.n 2 + t * n m 2) =
      some (setInsert (j + 2 * m.n 2 + t * n m 3) (setInsert (j + m.n 2 + t * n m 3) [])) := by
  have D := Dec.t2 h
  have hr := D.range B
  have ok := B.tri_ok h
  have hg : Good m 2 (j + 2 * m.n 2 + t * n m 2) := Or.inl (id_nonneg (by omega) hr.1 ht)
  have ka := (flat_at (m := m) (a := a) (by omega) (by omega) ht)
  have kb := (flat_at (m := m) (a := b) (by omega) (by omega) ht)
  have kc := (flat_at (m := m) (a := c) (by omega) (by omega) ht)
  simp only [flatId] at ka kb kc
  unfold sideOfRaw
  rw [mod_good (by omega) hg, emod_at hr.1 hr.2, Int.fdiv_eq_ediv_of_nonneg _ (by omega), ediv_at hr.1 hr.2]
  simp only [Option.bind_eq_bind, Option.bind_some, get_dec B D hg, shift, List.map_cons, List.map_nil, ka, kb, kc]
  rw [if_pos (by omega), B.mustTri h]
  simp only [Option.bind_some]
  rw [if_neg (by omega), if_neg (by omega)]

omit B in
/-- The tetrahedron over base triangle `tri` that has the face over edge `ve`. -/
def tetOver (m : M2) (lower : Bool) (t : Int) (ve : Edge) (tri : Int) (vc : Tri) : Int :=
  if lower then (if posOf ve vc = 2 then tri + m.n 2 + t * n m 3 else tri + t * n m 3)
  else (if posOf ve vc = 0 then tri + m.n 2 + t * n m 3 else tri + 2 * m.n 2 + t * n m 3)

omit B in
theorem posOf_tri {a b c : Int} (hab : a < b) (hbc : b < c) :
    posOf (a, b) (a, b, c) = 2 ∧ posOf (b, c) (a, b, c) = 0 ∧ posOf (a, c) (a, b, c) = 1 := by
  have h1 : ¬ b < a := by omega
  have h2 : ¬ c < a := by omega
  have h3 : ¬ c < b := by omega
  have h4 : a < c := by omega
  simp [posOf, posStep, h1, h2, h3, hab, hbc, h4]

omit B in
theorem edge_of_tri {a b c u v : Int} (hab : a < b) (hbc : b < c) (huv : u < v) (hu : OnTri u (a, b, c)) (hv : OnTri v (a, b, c)) :
    (u = a ∧ v = b) ∨ (u = b ∧ v = c) ∨ (u = a ∧ v = c) := by
  unfold OnTri at *
  simp only at *
  omega

theorem edgeSides_spec (lower : Bool) (t : Int) {u v : Int} (huv : u < v) : ∀ (S acc : List Int), StrictSorted acc →
    (∀ x ∈ S, ∃ vc, m.getTriangle x = some vc ∧ OnTri u vc ∧ OnTri v vc) →
    ∃ R, edgeSides m lower t (u, v) S acc = some R ∧ StrictSorted R ∧
      ∀ e, e ∈ R ↔ e ∈ acc ∨ ∃ x ∈ S, ∃ vc, m.getTriangle x = some vc ∧ e = tetOver m lower t (u, v) x vc := by
  intro S
  induction S with
  | nil => intro acc ha _; exact ⟨acc, rfl, ha, by simp⟩
  | cons x S ih =>
    intro acc ha hS
    obtain ⟨⟨a, b, c⟩, h1, h2, h3⟩ := hS x (by simp)
    have ok := B.tri_ok h1
    have hp := posOf_tri ok.2.2.1 ok.2.2.2.1
    have hpos : posOf (u, v) (a, b, c) ≠ -1 := by
      rcases edge_of_tri ok.2.2.1 ok.2.2.2.1 huv h2 h3 with ⟨rfl, rfl⟩ | ⟨rfl, rfl⟩ | ⟨rfl, rfl⟩ <;> omega
    obtain ⟨R, r1, r2, r3⟩ := ih (setInsert (tetOver m lower t (u, v) x (a, b, c)) acc) ha.setInsert (fun y hy => hS y (by simp [hy]))
    refine ⟨R, ?_, r2, ?_⟩
    · simp only [edgeSides, h1, Option.bind_eq_bind, Option.bind_some]
      rw [if_neg hpos]
      exact r1
    · intro e
      rw [r3, mem_setInsert]
      constructor
      · rintro ((rfl | h) | ⟨y, hy, vc, g⟩)
        · exact Or.inr ⟨x, by simp, _, h1, rfl⟩
        · exact Or.inl h
        · exact Or.inr ⟨y, by simp [hy], vc, g⟩
      · rintro (h | ⟨y, hy, vc, g1, g2⟩)
        · exact Or.inl (Or.inr h)
        · simp at hy
          rcases hy with rfl | hy
          · rw [h1] at g1; simp at g1; subst g1
            exact Or.inl (Or.inl g2)
          · exact Or.inr ⟨y, hy, vc, g1, g2⟩

theorem edgeSides_length (lower : Bool) (t : Int) (ve : Edge) : ∀ (S acc R : List Int), S.Nodup →
    edgeSides m lower t ve S acc = some R →
    (∀ x ∈ S, ∀ vc, m.getTriangle x = some vc → tetOver m lower t ve x vc ∉ acc) →
    R.length = acc.length + S.length := by
  intro S
  induction S with
  | nil => intro acc R _ h _; simp [edgeSides] at h; subst h; simp
  | cons x S ih =>
    intro acc R hn h hd
    simp only [edgeSides, Option.bind_eq_bind] at h
    cases hvc : m.getTriangle x with
    | none => rw [hvc] at h; simp at h
    | some vc =>
      rw [hvc] at h
      simp only [Option.bind_some] at h
      split at h
      · simp at h
      · have hx := hd x (by simp) vc hvc
        have := ih _ R (List.nodup_cons.1 hn).2 h ?_
        · rw [this, setInsert_length_of_not_mem]
          · simp; omega
          · exact hx
        · intro y hy vc' hvc'
          rw [mem_setInsert]
          rintro (he | he)
          · obtain ⟨a, b, c⟩ := vc
            obtain ⟨a', b', c'⟩ := vc'
            have ok := B.tri_ok hvc
            have ok' := B.tri_ok hvc'
            have hne : y ≠ x := by rintro rfl; exact (List.nodup_cons.1 hn).1 hy
            unfold tetOver at he
            have e3 : n m 3 = 3 * m.n 2 := rfl
            split at he <;> split at he <;> split at he <;> omega
          · exact hd y (by simp [hy]) vc' hvc' he

theorem raw_edge {lower : Bool} {j a b t i : Int} {us : List Int} (h : m.getEdge j = some (a, b)) (ht : 0 ≤ t)
    (hi : i = if lower then j + 3 * m.n 2 else j + 3 * m.n 2 + m.n 1)
    (D : Dec m 2 i us) (hus : us = [a, b, b + m.n 0] ∨ us = [a, a + m.n 0, b + m.n 0]) :
    ∃ R, sideOfRaw m (i + t * n m 2) = some R ∧ R.Pairwise (· < ·) ∧ (R.length = 1 ∨ R.length = 2) ∧
      ∀ e, e ∈ R ↔ ∃ x vc, m.getTriangle x = some vc ∧ OnTri a vc ∧ OnTri b vc ∧ e = tetOver m lower t (a, b) x vc := by
  have hr := D.range B
  have ok := B.edge_ok h
  have hg : Good m 2 (i + t * n m 2) := Or.inl (id_nonneg (by omega) hr.1 ht)
  have ka := (flat_at (m := m) (a := a) (by omega) (by omega) ht)
  have kb := (flat_at (m := m) (a := b) (by omega) (by omega) ht)
  simp only [flatId] at ka kb
  obtain ⟨S, s1, s2, s3, s4⟩ := B.side h
  obtain ⟨R, r1, r2, r3⟩ := edgeSides_spec B lower t ok.2.2.1 S [] (by simp [StrictSorted])
    (fun x hx => (s4 x).1 hx)
  have hdec : decide (i < 3 * m.n 2 + m.n 1) = lower := by
    cases lower <;> simp at hi ⊢ <;> omega
  have hi3 : ¬ i < 3 * m.n 2 := by cases lower <;> simp at hi <;> omega
  have hnd : S.Nodup := s2.imp (fun h => ne_of_lt h)
  have hlen := edgeSides_length B lower t (a, b) S [] R hnd r1 (by simp)
  refine ⟨R, ?_, r2, ?_, ?_⟩
  · unfold sideOfRaw
    rw [mod_good (by omega) hg, emod_at hr.1 hr.2, Int.fdiv_eq_ediv_of_nonneg _ (by omega), ediv_at hr.1 hr.2]
    simp only [Option.bind_eq_bind, Option.bind_some, get_dec B D hg]
    rcases hus with rfl | rfl
    · simp only [shift, List.map_cons, List.map_nil, ka, kb, Option.bind_some]
      rw [if_neg hi3, B.mustEdge h]
      simp only [Option.bind_some, s1, hdec, r1]
    · simp only [shift, List.map_cons, List.map_nil, ka, kb, Option.bind_some]
      rw [if_neg hi3, B.mustEdge h]
      simp only [Option.bind_some, s1, hdec, r1]
  · simp at hlen; omega
  · intro e
    rw [r3]
    simp only [List.not_mem_nil, false_or]
    constructor
    · rintro ⟨x, hx, vc, g1, g2⟩
      obtain ⟨vc', q1, q2, q3⟩ := (s4 x).1 hx
      rw [g1] at q1; simp at q1; subst q1
      exact ⟨x, vc, g1, q2, q3, g2⟩
    · rintro ⟨x, vc, g1, g2, g3, g4⟩
      exact ⟨x, (s4 x).2 ⟨vc, g1, g2, g3⟩, vc, g1, g4⟩

end Verif.XM
