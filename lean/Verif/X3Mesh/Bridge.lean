import Verif.X3Mesh.SideOf2
import Verif.XMesh.Dual

/-! From faces as lists of vertices to faces as sets of vertices. -/

namespace Verif.X3

open Verif.U3
open Verif.XM (mod rem mod_good mod_small mod_of_nonneg rem_small rem_add ediv_at emod_at at_eq not_dvd_at id_nonneg time_nonneg)

variable {n0 : Nat} {ts : List Tet} {m : M3}

theorem sublist_erase {α : Type} : ∀ {l l' : List α}, l.Sublist l' → l.length + 1 = l'.length → ∃ q, q < l'.length ∧ l = l'.eraseIdx q
  | _, _, .slnil, h => by simp at h
  | _, _, .cons (l₁ := l) (l₂ := l') a hs, h => by
    have : l = l' := hs.eq_of_length (by simpa using h)
    exact ⟨0, by simp, by simp [this]⟩
  | _, _, .cons_cons (l₁ := l) (l₂ := l') a hs, h => by
    obtain ⟨q, h1, h2⟩ := sublist_erase hs (by simpa using h)
    exact ⟨q + 1, by simpa using h1, by simp [← h2]⟩

/-- The vertex numbers of a chain increase. -/
theorem enc_sorted {ps : List PV} (h : ps.Pairwise (fun p q => p ≠ q ∧ p.1 ≤ q.1 ∧ p.2 ≤ q.2)) (hn : 0 < m.n 0) :
    (ps.map (enc m)).Pairwise (· < ·) := by
  rw [List.pairwise_map]
  refine h.imp ?_
  rintro ⟨a, s⟩ ⟨b, t⟩ ⟨h1, h2, h3⟩
  simp only [enc] at *
  have hn' : (0 : Int) < m.n 0 := by exact_mod_cast hn
  rcases Int.lt_or_eq_of_le h3 with h | h
  · have : s * m.n 0 < t * m.n 0 := Int.mul_lt_mul_of_pos_right h hn'
    omega
  · subst h
    have : a ≠ b := by rintro rfl; exact h1 rfl
    omega

theorem base_pos {d : Nat} {k : Int} {ps : List PV} (h : Is m d k ps) : 0 < m.n 0 := by
  obtain ⟨_, _, f3, a, l, f4⟩ := h.facts
  have := f3 (a, k / n m d) (by rw [f4]; simp)
  have h1 : (0 : Int) < m.n 0 := by simp at this; omega
  exact_mod_cast h1

theorem map_inj_on {α β : Type} {f : α → β} : ∀ {l l' : List α}, (∀ p ∈ l, ∀ q ∈ l', f p = f q → p = q) → l.map f = l'.map f → l = l'
  | [], [], _, _ => rfl
  | [], _ :: _, _, h => by simp at h
  | _ :: _, [], _, h => by simp at h
  | a :: l, b :: l', hf, h => by
    simp only [List.map_cons, List.cons.injEq] at h
    rw [hf a (by simp) b (by simp) h.1, map_inj_on (fun p hp q hq => hf p (List.mem_cons_of_mem _ hp) q (List.mem_cons_of_mem _ hq)) h.2]

/-- Vertex sets: `qs` is a facet of `ps` iff its vertices are among those of `ps`. -/
theorem face_iff {d : Nat} {k x : Int} {ps qs : List PV} (h : Is m (d + 1) k ps) (h' : Is m d x qs) :
    (∃ q, q < ps.length ∧ ps.eraseIdx q = qs) ↔ ∀ w ∈ qs.map (enc m), w ∈ ps.map (enc m) := by
  have hn := base_pos h
  obtain ⟨f1, f2, f3, -⟩ := h.facts
  obtain ⟨g1, g2, g3, -⟩ := h'.facts
  constructor
  · rintro ⟨q, -, rfl⟩ w hw
    obtain ⟨p, hp, rfl⟩ := List.mem_map.1 hw
    exact List.mem_map.2 ⟨p, List.mem_of_mem_eraseIdx hp, rfl⟩
  · intro hs
    have hsub := XM.sublist_of_subset (enc_sorted (m := m) g2 hn) (enc_sorted (m := m) f2 hn) hs
    obtain ⟨q, q1, q2⟩ := sublist_erase hsub (by simp [f1, g1])
    refine ⟨q, by simpa using q1, ?_⟩
    rw [List.eraseIdx_map] at q2
    symm
    refine map_inj_on ?_ q2
    intro p hp q hq e
    have hq := List.mem_of_mem_eraseIdx hq
    exact enc_inj (g3 p hp).1 (g3 p hp).2.1 (f3 q hq).1 (f3 q hq).2.1 e

theorem get_of_is {d : Nat} (hd : d ≤ 3) {k : Int} {ps : List PV} (h : Is m d k ps) (hg : Good m d k) :
    getSimplex m d k = some (ps.map (enc m)) := by
  obtain ⟨ty, i, t, qs, D, rfl, rfl⟩ := h
  exact get_dec D (by omega) hg

theorem is_of_get (B : Base n0 ts m) {d : Nat} (hd : d ≤ 3) (hN : 0 < n m d) {k : Int} {vs : List Int} (hg : Good m d k)
    (h : getSimplex m d k = some vs) : ∃ ps, Is m d k ps ∧ vs = ps.map (enc m) := by
  obtain ⟨ty, i, t, ps, D, e, -⟩ := is_total B (by omega) hN k
  have hi : Is m d k (at_ t ps) := ⟨ty, i, t, ps, D, e, rfl⟩
  refine ⟨_, hi, ?_⟩
  have := get_of_is hd hi hg
  rw [h] at this
  exact Option.some.inj this

theorem getSimplex_pos {d : Nat} {k : Int} {vs : List Int} (h : getSimplex m d k = some vs) : n m d ≠ 0 := by
  intro h0
  unfold getSimplex at h
  rw [h0] at h
  simp [mod, rem] at h

theorem n_nonneg (d : Nat) : 0 ≤ n m d := by
  unfold n
  split <;> omega

theorem counts (B : Base n0 ts m) (h : ts ≠ []) : 0 < (m.n 3 : Int) ∧ 0 < (m.n 2 : Int) ∧ 0 < (m.n 1 : Int) := by
  have h3 : 0 < (m.n 3 : Int) := by
    have := B.n3
    have := List.length_pos_of_ne_nil h
    omega
  obtain ⟨a, b, c, d, hk⟩ := K_def B (j := 0) (by omega) h3
  obtain ⟨⟨x, ht⟩, -⟩ := hk.faces B
  obtain ⟨⟨y, he⟩, -⟩ := ht.faces B
  have := ht.h0
  have := ht.h1
  have := he.h0
  have := he.h1
  omega

/-- Only the simplices of one time step can have an id the code decodes wrongly. -/
theorem bad_flat (B : Base n0 ts m) (hts : ts ≠ []) {d : Nat} (hd : d ≤ 3) {k : Int} {ps : List PV} (h : Is m d k ps) (hb : ¬ Good m d k) : ∀ p ∈ ps, p.2 < 0 := by
  unfold Good at hb
  push Not at hb
  obtain ⟨ty, i, t, qs, D, e, rfl⟩ := h
  have hr := D.range
  have hi : i = 0 := by
    by_contra hne
    exact not_dvd_at (t := t) (show 0 < i by omega) hr.2 (e ▸ hb.2)
  have ht : t < 0 := by
    by_contra hne
    have := id_nonneg (i := i) (t := t) (N := n m d) (by omega) hr.1 (by omega)
    omega
  intro p hp
  unfold at_ at hp
  obtain ⟨q, hq, rfl⟩ := List.mem_map.1 hp
  have := counts B hts
  have : q.2 = 0 := by
    cases D <;> casesm* K _ _ _ _ _ _, T _ _ _ _ _, E _ _ _ _, V _ _ <;> simp at hq <;> first | omega | (rcases hq with rfl | rfl | rfl | rfl <;> rfl) | (rcases hq with rfl | rfl | rfl <;> rfl) | (rcases hq with rfl | rfl <;> rfl) | (rw [hq])
  simp only [this]
  omega

/-- A simplex with a vertex at a non-negative time has an id the code decodes correctly. -/
theorem good_of_time (B : Base n0 ts m) (hts : ts ≠ []) {d : Nat} (hd : d ≤ 3) {k : Int} {ps : List PV} (h : Is m d k ps) {p : PV} (hp : p ∈ ps) (h0 : 0 ≤ p.2) : Good m d k := by
  by_contra hb
  have := bad_flat B hts hd h hb p hp
  omega

theorem nonneg_iff {d : Nat} {k : Int} {ps : List PV} (h : Is m d k ps) : 0 ≤ k ↔ ∀ p ∈ ps, 0 ≤ p.2 := by
  obtain ⟨f1, f2, f3, a, l, f4⟩ := h.facts
  obtain ⟨ty, i, t, qs, D, e, -⟩ := h
  have hr := D.range
  have hN : 0 < n m d := by omega
  constructor
  · intro hk p hp
    have := Int.ediv_nonneg hk (le_of_lt hN)
    have := (f3 p hp).2.2
    omega
  · intro hp
    have := hp (a, k / n m d) (by rw [f4]; simp)
    simp only at this
    rwa [Int.le_ediv_iff_mul_le hN, Int.zero_mul] at this

theorem Faces.nodup {d : Nat} {ys : List Int} {ps : List PV} (h : Faces m d ys ps) (hp : ps.Nodup) : ys.Nodup := by
  rw [List.nodup_iff_injective_get]
  intro i j e
  obtain ⟨h1, h2⟩ := h
  have hi := h2 i _ (List.getElem?_eq_getElem i.2)
  have hj := h2 j _ (List.getElem?_eq_getElem j.2)
  simp only [List.get_eq_getElem] at e
  rw [← e] at hj
  have he := hi.func hj
  have li : (i : Nat) < ps.length := by have := i.2; omega
  have lj : (j : Nat) < ps.length := by have := j.2; omega
  apply Fin.ext
  by_contra hne
  have hmem : ps[(i : Nat)] ∈ ps.eraseIdx j := by
    rw [List.mem_eraseIdx_iff_getElem]
    exact ⟨i, li, hne, rfl⟩
  rw [← he, List.mem_eraseIdx_iff_getElem] at hmem
  obtain ⟨r, hr, hne', e'⟩ := hmem
  exact hne' ((List.Nodup.getElem_inj_iff hp).1 e')

/-- `sides` in terms of vertex sets. -/
theorem sides_sets (B : Base n0 ts m) {d : Nat} (hd : d ≤ 3) {k : Int} {ps : List PV} (h : Is m (d + 1) k ps) (hk : 0 ≤ k)
    (hS : SidesSpec m (d + 1) k ps) :
    ∃ S, sides m (d + 1) k = some S ∧ S.Pairwise (· < ·) ∧ S.length = d + 2 ∧
    ∀ x, x ∈ S ↔ 0 ≤ x ∧ ∃ ws, getSimplex m d x = some ws ∧ ∀ w ∈ ws, w ∈ ps.map (enc m) := by
  obtain ⟨S, s1, s2, ys, s3, s4⟩ := hS.spec
  simp only [Nat.add_sub_cancel] at s3
  obtain ⟨f1, f2, f3, -⟩ := h.facts
  refine ⟨S, s1, s2, ?_, ?_⟩
  · have hn := s3.nodup (f2.imp (fun h => h.1))
    have hp := (List.perm_ext_iff_of_nodup (s2.imp (fun h => ne_of_lt h)) hn).2 s4
    rw [hp.length_eq, s3.1, f1]
  · intro x
    rw [s4]
    constructor
    · intro hx
      obtain ⟨q, hq, hq'⟩ := List.mem_iff_getElem.1 hx
      have hf := s3.2 q x (by rw [List.getElem?_eq_getElem hq, hq'])
      have h0 : 0 ≤ x := (nonneg_iff hf).2 (fun p hp => (nonneg_iff h).1 hk p (List.mem_of_mem_eraseIdx hp))
      refine ⟨h0, _, get_of_is hd hf (Or.inl h0), ?_⟩
      exact (face_iff h hf).1 ⟨q, by rw [← s3.1]; exact hq, rfl⟩
    · rintro ⟨h0, ws, g1, g2⟩
      have hN : 0 < n m d := by have := getSimplex_pos g1; have := n_nonneg (m := m) d; omega
      obtain ⟨qs, hq, rfl⟩ := is_of_get B hd hN (Or.inl h0) g1
      obtain ⟨q, q1, q2⟩ := (face_iff h hq).2 g2
      have hlt : q < ys.length := by rw [s3.1]; exact q1
      have hf := s3.2 q _ (List.getElem?_eq_getElem hlt)
      rw [q2] at hf
      rw [hq.inj B hf]
      exact List.getElem_mem hlt

end Verif.X3
