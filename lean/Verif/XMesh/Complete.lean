import Verif.XMesh.Decode

/-! Every simplex of the extruded mesh is decoded from some id. -/

namespace Verif.XM

open Verif.UM

variable {n0 : Nat} {ts : List Tri} {m : M2}

theorem vertex_rep (hn : 0 < n0) (v : Int) : v = below n0 v + time n0 v * n0 ∧ 0 ≤ below n0 v ∧ below n0 v < n0 := by
  unfold below time
  refine ⟨?_, Int.emod_nonneg _ (by omega), Int.emod_lt_of_pos _ (by omega)⟩
  have := Int.emod_add_mul_ediv v n0
  rw [Int.mul_comm] at this
  omega

theorem onTri3 {t : Tri} {a b c : Int} (hab : a ≠ b) (hac : a ≠ c) (hbc : b ≠ c)
    (ha : OnTri a t) (hb : OnTri b t) (hc : OnTri c t) : SameTri (a, b, c) t := by
  intro v
  unfold OnTri at *
  simp only
  omega

/-- No four different corners. -/
theorem onTri4 {t : Tri} {a b c d : Int} (hab : a < b) (hbc : b < c) (hcd : c < d)
    (ha : OnTri a t) (hb : OnTri b t) (hc : OnTri c t) (hd : OnTri d t) : False := by
  unfold OnTri at *
  omega

variable (B : Base n0 ts m)
include B

theorem Base.tri_from {t : Tri} (ht : t ∈ ts) {a b c : Int} (hab : a < b) (hbc : b < c)
    (ha : OnTri a t) (hb : OnTri b t) (hc : OnTri c t) : ∃ j, m.getTriangle j = some (a, b, c) := by
  obtain ⟨j, a', b', c', g1, g2⟩ := B.tri_of t ht
  obtain ⟨_, _, h1, h2, _⟩ := B.tri_ok g1
  have hs := onTri3 (by omega) (by omega) (by omega) ha hb hc
  have := incr3_ext (s := (a, b, c)) (t := (a', b', c')) ⟨hab, hbc⟩ ⟨h1, h2⟩ (fun v => (hs v).trans (g2 v).symm)
  rw [this]; exact ⟨j, g1⟩

omit B in
theorem rep_ne {bu bv tu tv u v : Int} (h1 : u = bu + tu * n0) (h2 : v = bv + tv * n0) (hne : u ≠ v) : ¬ (bu = bv ∧ tu = tv) := by
  rintro ⟨rfl, rfl⟩; exact hne (h1.trans h2.symm)

theorem dec_complete (hn : 0 < n0) {d : Nat} (hd : d ≤ 3) {vs : List Int} (hl : vs.length = d + 1)
    (hs : Simplex n0 ts vs) : ∃ i t us, Dec m d i us ∧ vs = shift m t us := by
  have hN : (m.n 0 : Int) = n0 := by rw [B.hn0]
  obtain ⟨hc, hth, hb⟩ := hs
  have up : ∀ b t : Int, b + (t + 1) * n0 = b + n0 + t * n0 := by intro b t; ring
  obtain rfl | rfl | rfl | rfl : d = 0 ∨ d = 1 ∨ d = 2 ∨ d = 3 := by omega
  · obtain ⟨v, rfl⟩ := List.length_eq_one_iff.1 hl
    obtain ⟨h1, h2, h3⟩ := vertex_rep hn v
    exact ⟨_, time n0 v, _, Dec.v0 h2 (by omega), by simp [shift, hN, ← h1]⟩
  · obtain ⟨u, v, rfl⟩ := List.length_eq_two.1 hl
    obtain ⟨u1, u2, u3⟩ := vertex_rep hn u
    obtain ⟨v1, v2, v3⟩ := vertex_rep hn v
    have th := hth u (by simp) v (by simp)
    have hb' : below n0 u = below n0 v ∨ ∃ t ∈ ts, OnTri (below n0 u) t ∧ OnTri (below n0 v) t := by
      rcases hb with h | ⟨t, ht, h⟩
      · exact Or.inl (h u (by simp) v (by simp))
      · exact Or.inr ⟨t, ht, h u (by simp), h v (by simp)⟩
    simp only [List.pairwise_cons, List.mem_cons, List.not_mem_nil, or_false, forall_eq, false_implies,
      implies_true, List.Pairwise.nil, and_true] at hc
    clear hb hth hl
    generalize below n0 u = bu at *
    generalize below n0 v = bv at *
    generalize time n0 u = tu at *
    generalize time n0 v = tv at *
    have nuv := rep_ne u1 v1 hc.1
    have ht : tv = tu ∨ tv = tu + 1 := by omega
    have hbb : bu = bv ∨ bu < bv := by omega
    rcases hbb with rfl | hbb
    · have : tv = tu + 1 := by omega
      subst this
      rw [up] at v1
      exact ⟨_, tu, _, Dec.e2 u2 (by omega), by simp [shift, hN, u1, v1]⟩
    · obtain ⟨tt, htt, hon⟩ : ∃ t ∈ ts, OnTri bu t ∧ OnTri bv t := by
        rcases hb' with h | h
        · omega
        · exact h
      obtain ⟨j, hj⟩ := B.edge_of hbb ⟨tt, htt, hon⟩
      rcases ht with rfl | rfl
      · exact ⟨_, tv, _, Dec.e0 hj, by simp [shift, hN, u1, v1]⟩
      · rw [up] at v1
        exact ⟨_, tu, _, Dec.e1 hj, by simp [shift, hN, u1, v1]⟩
  · obtain ⟨u, v, w, rfl⟩ := List.length_eq_three.1 hl
    obtain ⟨u1, u2, u3⟩ := vertex_rep hn u
    obtain ⟨v1, v2, v3⟩ := vertex_rep hn v
    obtain ⟨w1, w2, w3⟩ := vertex_rep hn w
    have thv := hth u (by simp) v (by simp)
    have thw := hth u (by simp) w (by simp)
    have hb' : (below n0 u = below n0 v ∧ below n0 u = below n0 w) ∨
        ∃ t ∈ ts, OnTri (below n0 u) t ∧ OnTri (below n0 v) t ∧ OnTri (below n0 w) t := by
      rcases hb with h | ⟨t, ht, h⟩
      · exact Or.inl ⟨h u (by simp) v (by simp), h u (by simp) w (by simp)⟩
      · exact Or.inr ⟨t, ht, h u (by simp), h v (by simp), h w (by simp)⟩
    simp only [List.pairwise_cons, List.mem_cons, List.not_mem_nil, or_false, forall_eq_or_imp, forall_eq,
      false_implies, implies_true, List.Pairwise.nil, and_true] at hc
    clear hb hth hl
    generalize below n0 u = bu at *
    generalize below n0 v = bv at *
    generalize below n0 w = bw at *
    generalize time n0 u = tu at *
    generalize time n0 v = tv at *
    generalize time n0 w = tw at *
    obtain ⟨⟨⟨p1, p2, p3⟩, q1, q2, q3⟩, r1, r2, r3⟩ := hc
    have nuv := rep_ne u1 v1 p1
    have nuw := rep_ne u1 w1 q1
    have nvw := rep_ne v1 w1 r1
    obtain ⟨tt, htt, ou, ov, ow⟩ : ∃ t ∈ ts, OnTri bu t ∧ OnTri bv t ∧ OnTri bw t := by
      rcases hb' with h | h
      · omega
      · exact h
    have hcase : (tv = tu ∧ tw = tu) ∨ (tv = tu ∧ tw = tu + 1) ∨ (tv = tu + 1 ∧ tw = tu + 1) := by omega
    rcases hcase with ⟨rfl, rfl⟩ | ⟨rfl, rfl⟩ | ⟨rfl, rfl⟩
    · obtain ⟨j, hj⟩ := B.tri_from htt (show bu < bv by omega) (show bv < bw by omega) ou ov ow
      exact ⟨_, tw, _, Dec.t0 hj, by simp [shift, hN, u1, v1, w1]⟩
    · rw [up] at w1
      by_cases h : bv = bw
      · subst h
        obtain ⟨j, hj⟩ := B.edge_of (show bu < bv by omega) ⟨tt, htt, ou, ov⟩
        exact ⟨_, tv, _, Dec.t3 hj, by simp [shift, hN, u1, v1, w1]⟩
      · obtain ⟨j, hj⟩ := B.tri_from htt (show bu < bv by omega) (show bv < bw by omega) ou ov ow
        exact ⟨_, tv, _, Dec.t1 hj, by simp [shift, hN, u1, v1, w1]⟩
    · rw [up] at w1 v1
      by_cases h : bu = bv
      · subst h
        obtain ⟨j, hj⟩ := B.edge_of (show bu < bw by omega) ⟨tt, htt, ou, ow⟩
        exact ⟨_, tu, _, Dec.t4 hj, by simp [shift, hN, u1, v1, w1]⟩
      · obtain ⟨j, hj⟩ := B.tri_from htt (show bu < bv by omega) (show bv < bw by omega) ou ov ow
        exact ⟨_, tu, _, Dec.t2 hj, by simp [shift, hN, u1, v1, w1]⟩
  · obtain ⟨u, v, w, x, rfl⟩ : ∃ u v w x, vs = [u, v, w, x] := by
      rcases vs with _ | ⟨u, _ | ⟨v, _ | ⟨w, _ | ⟨x, _ | ⟨y, l⟩⟩⟩⟩⟩ <;> simp at hl
      exact ⟨u, v, w, x, rfl⟩
    obtain ⟨u1, u2, u3⟩ := vertex_rep hn u
    obtain ⟨v1, v2, v3⟩ := vertex_rep hn v
    obtain ⟨w1, w2, w3⟩ := vertex_rep hn w
    obtain ⟨x1, x2, x3⟩ := vertex_rep hn x
    have thv := hth u (by simp) v (by simp)
    have thw := hth u (by simp) w (by simp)
    have thx := hth u (by simp) x (by simp)
    have hb' : (below n0 u = below n0 v ∧ below n0 u = below n0 w) ∨
        ∃ t ∈ ts, OnTri (below n0 u) t ∧ OnTri (below n0 v) t ∧ OnTri (below n0 w) t ∧ OnTri (below n0 x) t := by
      rcases hb with h | ⟨t, ht, h⟩
      · exact Or.inl ⟨h u (by simp) v (by simp), h u (by simp) w (by simp)⟩
      · exact Or.inr ⟨t, ht, h u (by simp), h v (by simp), h w (by simp), h x (by simp)⟩
    simp only [List.pairwise_cons, List.mem_cons, List.not_mem_nil, or_false, forall_eq_or_imp, forall_eq,
      false_implies, implies_true, List.Pairwise.nil, and_true] at hc
    clear hb hth hl
    generalize below n0 u = bu at *
    generalize below n0 v = bv at *
    generalize below n0 w = bw at *
    generalize below n0 x = bx at *
    generalize time n0 u = tu at *
    generalize time n0 v = tv at *
    generalize time n0 w = tw at *
    generalize time n0 x = tx at *
    obtain ⟨⟨⟨p1, p2, p3⟩, ⟨q1, q2, q3⟩, s1, s2, s3⟩, ⟨⟨r1, r2, r3⟩, y1, y2, y3⟩, z1, z2, z3⟩ := hc
    have nuv := rep_ne u1 v1 p1
    have nuw := rep_ne u1 w1 q1
    have nvw := rep_ne v1 w1 r1
    have nux := rep_ne u1 x1 s1
    have nvx := rep_ne v1 x1 y1
    have nwx := rep_ne w1 x1 z1
    obtain ⟨tt, htt, ou, ov, ow, ox⟩ : ∃ t ∈ ts, OnTri bu t ∧ OnTri bv t ∧ OnTri bw t ∧ OnTri bx t := by
      rcases hb' with h | h
      · omega
      · exact h
    have h4 : ¬ (bu < bv ∧ bv < bw ∧ bw < bx) := fun ⟨a, b, c⟩ => onTri4 a b c ou ov ow ox
    have hcase : (tv = tu ∧ tw = tu ∧ tx = tu + 1) ∨ (tv = tu ∧ tw = tu + 1 ∧ tx = tu + 1) ∨
        (tv = tu + 1 ∧ tw = tu + 1 ∧ tx = tu + 1) := by omega
    rcases hcase with ⟨rfl, rfl, rfl⟩ | ⟨rfl, rfl, rfl⟩ | ⟨rfl, rfl, rfl⟩
    · rw [up] at x1
      have : bw = bx := by omega
      subst this
      obtain ⟨j, hj⟩ := B.tri_from htt (show bu < bv by omega) (show bv < bw by omega) ou ov ow
      exact ⟨_, tw, _, Dec.k0 hj, by simp [shift, hN, u1, v1, w1, x1]⟩
    · rw [up] at x1 w1
      have : bv = bw := by omega
      subst this
      obtain ⟨j, hj⟩ := B.tri_from htt (show bu < bv by omega) (show bv < bx by omega) ou ov ox
      exact ⟨_, tv, _, Dec.k1 hj, by simp [shift, hN, u1, v1, w1, x1]⟩
    · rw [up] at x1 w1 v1
      have : bu = bv := by omega
      subst this
      obtain ⟨j, hj⟩ := B.tri_from htt (show bu < bw by omega) (show bw < bx by omega) ou ow ox
      exact ⟨_, tu, _, Dec.k2 hj, by simp [shift, hN, u1, v1, w1, x1]⟩

end Verif.XM
