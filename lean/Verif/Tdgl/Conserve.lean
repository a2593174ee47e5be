import Verif.Tdgl.Place
/-! C108: what the four faces of a tetrahedron have in common. -/
namespace Verif.Tdgl
open Verif.SRM
open Real (pi pi_pos)

/-- (specification) the phases of face number `i` of a tetrahedron, the face without vertex number `i` -/
def facePhi (u : Fin 4 → Val) (i : Fin 4) : Fin 3 → ℝ := fun k => (u (i.succAbove k)).phi

/-- (specification) the line integrals along the edges of face number `i` -/
noncomputable def faceInt (v : Fin 4 → Vtx) (u : Fin 4 → Val) (i : Fin 4) : Fin 3 → ℝ :=
  integrals (fun k => v (i.succAbove k)) fun k => u (i.succAbove k)

/-- (specification) face number `i` is found crossed -/
def FaceCrossed (v : Fin 4 → Vtx) (u : Fin 4 → Val) (i : Fin 4) : Prop := crossed (facePhi u i) (faceInt v u i) = true

/-- the angle along an edge -/
noncomputable def edgeAngle (v : Fin 4 → Vtx) (u : Fin 4 → Val) (i j : Fin 4) : ℝ :=
  mod2pi1 ((u j).phi - (u i).phi - edgeIntegral (v i) (v j) (u i) (u j))

theorem edgeIntegral_swap (a b : Vtx) (x y : Val) : edgeIntegral b a y x = -edgeIntegral a b x y := by
  unfold edgeIntegral lineIntegral
  ring

theorem delta_face (v : Fin 4 → Vtx) (u : Fin 4 → Val) (i : Fin 4) (k : Fin 3) :
    delta (facePhi u i) (faceInt v u i) k = edgeAngle v u (i.succAbove k) (i.succAbove (k + 1)) := rfl

theorem edge_swap {v : Fin 4 → Vtx} {u : Fin 4 → Val} {i j : Fin 4} (h : edgeAngle v u i j ≠ -pi) :
    edgeAngle v u j i = -edgeAngle v u i j := by
  refine mod2pi1_eq ?_
  have := (mod2pi1_angle ((u j).phi - (u i).phi - edgeIntegral (v i) (v j) (u i) (u j))).neg h
  rw [edgeIntegral_swap]
  have e : (u i).phi - (u j).phi - -edgeIntegral (v i) (v j) (u i) (u j) =
      -((u j).phi - (u i).phi - edgeIntegral (v i) (v j) (u i) (u j)) := by ring
  rw [e]
  exact this

theorem faces_angles (v : Fin 4 → Vtx) (u : Fin 4 → Val) (hT : ∀ i, ¬ Tie (facePhi u i) (faceInt v u i)) :
    (∀ i k, delta (facePhi u i) (faceInt v u i) k ≠ -pi) ∧
    edgeAngle v u 3 0 = -edgeAngle v u 0 3 ∧ edgeAngle v u 3 1 = -edgeAngle v u 1 3 ∧
    edgeAngle v u 2 0 = -edgeAngle v u 0 2 ∧
    edgeAngle v u 0 3 ≠ -pi := by
  have h := fun i => delta_tie (hT i)
  have h02 : edgeAngle v u 2 0 ≠ -pi := h 3 2
  have h30 : edgeAngle v u 3 0 ≠ -pi := h 2 2
  have h31 : edgeAngle v u 3 1 ≠ -pi := h 0 2
  have e1 := edge_swap h02
  have e2 := edge_swap h30
  have e3 := edge_swap h31
  have l := (mod2pi1_angle ((u 0).phi - (u 3).phi - edgeIntegral (v 3) (v 0) (u 3) (u 0))).2.1
  refine ⟨h, by rw [e2]; ring, by rw [e3]; ring, by rw [e1]; ring, ?_⟩
  intro hc
  rw [hc] at e2
  unfold edgeAngle at e2
  linarith

/-- the four sums of a tetrahedron -/
theorem sums (v : Fin 4 → Vtx) (u : Fin 4 → Val) (i : Fin 4) : delta (facePhi u i) (faceInt v u i) 0 + delta (facePhi u i) (faceInt v u i) 1 +
    delta (facePhi u i) (faceInt v u i) 2 = edgeAngle v u (i.succAbove 0) (i.succAbove 1) + edgeAngle v u (i.succAbove 1) (i.succAbove 2) +
      edgeAngle v u (i.succAbove 2) (i.succAbove 0) := rfl

/-- the circulations cancel -/
theorem circ_cancel (v : Fin 4 → Vtx) (u : Fin 4 → Val) : let F := fun i => faceInt v u i 0 + faceInt v u i 1 + faceInt v u i 2
    F 0 - F 1 + F 2 - F 3 = 0 := by
  have e : ∀ i : Fin 4, faceInt v u i 0 + faceInt v u i 1 + faceInt v u i 2 =
      edgeIntegral (v (i.succAbove 0)) (v (i.succAbove 1)) (u (i.succAbove 0)) (u (i.succAbove 1)) +
      edgeIntegral (v (i.succAbove 1)) (v (i.succAbove 2)) (u (i.succAbove 1)) (u (i.succAbove 2)) +
      edgeIntegral (v (i.succAbove 2)) (v (i.succAbove 0)) (u (i.succAbove 2)) (u (i.succAbove 0)) := fun i => rfl
  intro F
  show F 0 - F 1 + F 2 - F 3 = 0
  simp only [F, e]
  simp only [show (0 : Fin 4).succAbove 0 = 1 from rfl, show (0 : Fin 4).succAbove 1 = 2 from rfl, show (0 : Fin 4).succAbove 2 = 3 from rfl,
    show (1 : Fin 4).succAbove 0 = 0 from rfl, show (1 : Fin 4).succAbove 1 = 2 from rfl, show (1 : Fin 4).succAbove 2 = 3 from rfl,
    show (2 : Fin 4).succAbove 0 = 0 from rfl, show (2 : Fin 4).succAbove 1 = 1 from rfl, show (2 : Fin 4).succAbove 2 = 3 from rfl,
    show (3 : Fin 4).succAbove 0 = 0 from rfl, show (3 : Fin 4).succAbove 1 = 1 from rfl, show (3 : Fin 4).succAbove 2 = 2 from rfl]
  rw [edgeIntegral_swap (v 1) (v 3), edgeIntegral_swap (v 0) (v 3), edgeIntegral_swap (v 0) (v 2)]
  ring

/-- C108: vortices do not end in a tetrahedron: if no phase difference is exactly half a turn, the signed winding numbers of its
four faces cancel, whatever the field. -/
theorem C108_conserved (v : Fin 4 → Vtx) (u : Fin 4 → Val) (hT : ∀ i, ¬ Tie (facePhi u i) (faceInt v u i))
    (n : Fin 4 → ℤ) (hn : ∀ i, Winds (facePhi u i) (faceInt v u i) (n i)) : n 0 - n 1 + n 2 - n 3 = 0 := by
  obtain ⟨-, e1, e2, e3, -⟩ := faces_angles v u hT
  have h := fun i => (winds_iff _ _ _).1 (hn i)
  simp only [sums] at h
  have hc := circ_cancel v u
  simp only at hc
  have h0 := h 0
  have h1 := h 1
  have h2 := h 2
  have h3 := h 3
  simp only [show (0 : Fin 4).succAbove 0 = 1 from rfl, show (0 : Fin 4).succAbove 1 = 2 from rfl, show (0 : Fin 4).succAbove 2 = 3 from rfl,
    show (1 : Fin 4).succAbove 0 = 0 from rfl, show (1 : Fin 4).succAbove 1 = 2 from rfl, show (1 : Fin 4).succAbove 2 = 3 from rfl,
    show (2 : Fin 4).succAbove 0 = 0 from rfl, show (2 : Fin 4).succAbove 1 = 1 from rfl, show (2 : Fin 4).succAbove 2 = 3 from rfl,
    show (3 : Fin 4).succAbove 0 = 0 from rfl, show (3 : Fin 4).succAbove 1 = 1 from rfl, show (3 : Fin 4).succAbove 2 = 2 from rfl] at h0 h1 h2 h3
  rw [e2] at h0
  rw [e1] at h1 h2
  rw [e3] at h3
  have hp := pi_pos
  have : 2 * pi * ((n 0 : ℝ) - n 1 + n 2 - n 3) = 0 := by linarith
  rcases mul_eq_zero.1 this with h | h
  · linarith
  · exact_mod_cast h

/-- the signs of the angles of a crossed triangle without circulation and ties -/
theorem strict_signs {phi li : Fin 3 → ℝ} (hF : li 0 + li 1 + li 2 = 0) (hT : ¬ Tie phi li) (hc : crossed phi li = true) :
    (∀ i, 0 < delta phi li i) ∨ (∀ i, delta phi li i < 0) := by
  have hp := pi_pos
  rcases signs hF hc with h | h
  · exact .inl fun i => (h i).1
  · right
    have hlt := fun i => lt_of_le_of_ne (h i).1 (Ne.symm (delta_tie hT i))
    obtain ⟨n, hn⟩ := winds_delta phi li
    have hw := C104_winding phi li (by rw [hF, abs_zero]; exact hp) n ((winds_iff _ _ _).2 hn)
    have hne := hw.1.1 hc
    have hle := abs_le.1 hw.2
    rw [hF] at hn
    have l0 := hlt 0
    have l1 := hlt 1
    have l2 := hlt 2
    have u0 := (h 0).2
    have u1 := (h 1).2
    have u2 := (h 2).2
    have : n = 1 ∨ n = -1 := by omega
    rcases this with rfl | rfl
    · push_cast at hn
      linarith
    · push_cast at hn
      intro i
      fin_cases i <;> simp only [Fin.zero_eta, Fin.mk_one, Fin.reduceFinMk] <;> linarith

/-- C108: with less than half a turn of circulation around each face, an even number of the faces of a tetrahedron is found
crossed. -/
theorem C108_even (v : Fin 4 → Vtx) (u : Fin 4 → Val) (hT : ∀ i, ¬ Tie (facePhi u i) (faceInt v u i))
    (hF : ∀ i, |faceInt v u i 0 + faceInt v u i 1 + faceInt v u i 2| < pi) :
    Even ((List.finRange 4).countP fun i => crossed (facePhi u i) (faceInt v u i)) := by
  choose n hn hu hx using fun i => C104_contour (facePhi u i) (faceInt v u i)
  have hw := fun i => C104_winding _ _ (hF i) (n i) (hn i)
  have hs := C108_conserved v u hT n hn
  have hb : ∀ i, (crossed (facePhi u i) (faceInt v u i) = true ∧ (n i = 1 ∨ n i = -1)) ∨
      (crossed (facePhi u i) (faceInt v u i) = false ∧ n i = 0) := by
    intro i
    have hle := abs_le.1 (hw i).2
    by_cases hz : n i = 0
    · right
      refine ⟨?_, hz⟩
      rw [Bool.eq_false_iff]
      exact fun hc => (hw i).1.1 hc hz
    · left
      exact ⟨(hw i).1.2 hz, by omega⟩
  have e : (List.finRange 4) = [0, 1, 2, 3] := by decide
  rw [e]
  simp only [List.countP_cons, List.countP_nil]
  rcases hb 0 with ⟨c0, h0⟩ | ⟨c0, h0⟩ <;> rcases hb 1 with ⟨c1, h1⟩ | ⟨c1, h1⟩ <;> rcases hb 2 with ⟨c2, h2⟩ | ⟨c2, h2⟩ <;>
    rcases hb 3 with ⟨c3, h3⟩ | ⟨c3, h3⟩ <;> simp only [c0, c1, c2, c3] <;>
    first
    | (exfalso; omega)
    | (refine Nat.even_iff.2 ?_; rfl)

/-- C108: without circulation, none or exactly two faces of a tetrahedron are found crossed: a vortex that enters it leaves it. -/
theorem C108_two (v : Fin 4 → Vtx) (u : Fin 4 → Val) (hT : ∀ i, ¬ Tie (facePhi u i) (faceInt v u i))
    (hF : ∀ i, faceInt v u i 0 + faceInt v u i 1 + faceInt v u i 2 = 0) :
    (List.finRange 4).countP (fun i => crossed (facePhi u i) (faceInt v u i)) = 0 ∨
      (List.finRange 4).countP (fun i => crossed (facePhi u i) (faceInt v u i)) = 2 := by
  have hev := C108_even v u hT (fun i => by rw [hF i, abs_zero]; exact pi_pos)
  obtain ⟨-, e1, e2, e3, -⟩ := faces_angles v u hT
  have hno : ¬ (crossed (facePhi u 3) (faceInt v u 3) = true ∧ crossed (facePhi u 2) (faceInt v u 2) = true ∧
      crossed (facePhi u 0) (faceInt v u 0) = true) := by
    rintro ⟨c3, c2, c0⟩
    have g3 := strict_signs (hF 3) (hT 3) c3
    have g2 := strict_signs (hF 2) (hT 2) c2
    have g0 := strict_signs (hF 0) (hT 0) c0
    have a3 : (0 < edgeAngle v u 0 1 ∧ 0 < edgeAngle v u 1 2) ∨ (edgeAngle v u 0 1 < 0 ∧ edgeAngle v u 1 2 < 0) :=
      g3.imp (fun h => ⟨h 0, h 1⟩) fun h => ⟨h 0, h 1⟩
    have a2 : (0 < edgeAngle v u 0 1 ∧ 0 < edgeAngle v u 1 3) ∨ (edgeAngle v u 0 1 < 0 ∧ edgeAngle v u 1 3 < 0) :=
      g2.imp (fun h => ⟨h 0, h 1⟩) fun h => ⟨h 0, h 1⟩
    have a0 : (0 < edgeAngle v u 1 2 ∧ 0 < edgeAngle v u 3 1) ∨ (edgeAngle v u 1 2 < 0 ∧ edgeAngle v u 3 1 < 0) :=
      g0.imp (fun h => ⟨h 0, h 2⟩) fun h => ⟨h 0, h 2⟩
    rw [e2] at a0
    rcases a3 with h | h <;> rcases a2 with h' | h' <;> rcases a0 with h'' | h'' <;> linarith
  have e : (List.finRange 4) = [0, 1, 2, 3] := by decide
  rw [e] at hev ⊢
  simp only [List.countP_cons, List.countP_nil] at hev ⊢
  cases c0 : crossed (facePhi u 0) (faceInt v u 0) <;> cases c1 : crossed (facePhi u 1) (faceInt v u 1) <;>
    cases c2 : crossed (facePhi u 2) (faceInt v u 2) <;> cases c3 : crossed (facePhi u 3) (faceInt v u 3) <;>
    simp only [c0, c1, c2, c3] at hev hno ⊢ <;> revert hev hno <;> decide

/-- what the test answers, from the reduced angles -/
theorem crossed_of {phi li : Fin 3 → ℝ} (d0 d1 d2 : ℝ) (h0 : IsAngle (phi 1 - phi 0 - li 0) d0) (h1 : IsAngle (phi 2 - phi 1 - li 1) d1)
    (h2 : IsAngle (phi 0 - phi 2 - li 2) d2) : crossed phi li = true ↔ pi ≤ |d0 + d1 + d2| := by
  rw [crossed_iff]
  have e0 : delta phi li 0 = d0 := mod2pi1_eq h0
  have e1 : delta phi li 1 = d1 := mod2pi1_eq h1
  have e2 : delta phi li 2 = d2 := mod2pi1_eq h2
  rw [e0, e1, e2]

/-- no tie, from the reduced angles -/
theorem not_tie_of {phi li : Fin 3 → ℝ} {d0 d1 d2 : ℝ} (h0 : IsAngle (phi 1 - phi 0 - li 0) d0) (h1 : IsAngle (phi 2 - phi 1 - li 1) d1)
    (h2 : IsAngle (phi 0 - phi 2 - li 2) d2) (l0 : -pi < d0) (l1 : -pi < d1) (l2 : -pi < d2) : ¬ Tie phi li := by
  have hp := pi_pos
  have key : ∀ x d : ℝ, IsAngle x d → -pi < d → ∀ k : ℤ, x ≠ pi + 2 * pi * k := by
    intro x d hd hl k hx
    have : IsAngle x (-pi) := ⟨le_refl _, by linarith, k + 1, by rw [hx]; push_cast; ring⟩
    have := this.unique hd
    linarith
  rintro ⟨i, k, hk⟩
  fin_cases i
  · exact key _ _ h0 l0 k hk
  · exact key _ _ h1 l1 k hk
  · exact key _ _ h2 l2 k hk

/-- metadata of unit cells with origin 0 and no `kex` -/
def unitMeta (B : Fin 3 → ℝ) : Meta := ⟨fun _ => 1, 0, B, 0⟩

/-- a value of amplitude 1 in the field `B` along the third axis -/
def sample (B p : ℝ) : Val := ⟨1, p, unitMeta ![0, 0, B]⟩

/-- the line integrals in such a field -/
theorem sample_integral (B p q : ℝ) (a b : Vtx) : edgeIntegral a b (sample B p) (sample B q) =
    -(B / 2) * ((a.getD 1 0 : ℝ) + (b.getD 1 0 : ℝ)) * ((b.getD 0 0 : ℝ) - (a.getD 0 0 : ℝ)) := by
  simp [edgeIntegral, lineIntegral, potential, sample, unitMeta, coords]
  ring

/-- a tetrahedron of the mesh -/
def corner4 : Fin 4 → Vtx := ![[0, 0, 0, 0], [1, 0, 0, 0], [1, 1, 0, 0], [1, 1, 1, 0]]

theorem face_of (v : Fin 4 → Vtx) (u : Fin 4 → Val) (i a b c : Fin 4) (d0 d1 d2 : ℝ) (ha : i.succAbove 0 = a) (hb : i.succAbove 1 = b)
    (hc : i.succAbove 2 = c)
    (h0 : IsAngle ((u b).phi - (u a).phi - edgeIntegral (v a) (v b) (u a) (u b)) d0)
    (h1 : IsAngle ((u c).phi - (u b).phi - edgeIntegral (v b) (v c) (u b) (u c)) d1)
    (h2 : IsAngle ((u a).phi - (u c).phi - edgeIntegral (v c) (v a) (u c) (u a)) d2) :
    (crossed (facePhi u i) (faceInt v u i) = true ↔ pi ≤ |d0 + d1 + d2|) ∧
      (-pi < d0 → -pi < d1 → -pi < d2 → ¬ Tie (facePhi u i) (faceInt v u i)) := by
  subst ha hb hc
  exact ⟨crossed_of d0 d1 d2 h0 h1 h2, not_tie_of h0 h1 h2⟩

/-- the phases of `C108_tie` -/
noncomputable def tieVals : Fin 4 → Val := ![sample 0 (pi / 2), sample 0 0, sample 0 (pi / 4), sample 0 pi]

theorem tie_edges (i j : Fin 4) : edgeIntegral (corner4 i) (corner4 j) (tieVals i) (tieVals j) = 0 := by
  have : ∀ i, ∃ p, tieVals i = sample 0 p := by intro i; fin_cases i <;> exact ⟨_, rfl⟩
  obtain ⟨p, hp⟩ := this i
  obtain ⟨q, hq⟩ := this j
  rw [hp, hq, sample_integral]
  simp

/-- C108, a violation: without any field, but with a phase difference of exactly half a turn, exactly one face of a
tetrahedron is found crossed. -/
theorem C108_tie : (List.finRange 4).countP (fun i => crossed (facePhi tieVals i) (faceInt corner4 tieVals i)) = 1 := by
  have hp := pi_pos
  have A : ∀ (x : ℝ) (d : ℝ) (k : ℤ), -pi ≤ d → d < pi → x = d + 2 * pi * k → IsAngle x d := fun x d k a b c => ⟨a, b, k, c⟩
  have c0 : crossed (facePhi tieVals 0) (faceInt corner4 tieVals 0) = false := by
    rw [Bool.eq_false_iff, Ne, (face_of corner4 tieVals 0 1 2 3 (pi / 4) (3 * pi / 4) (-pi) rfl rfl rfl ?_ ?_ ?_).1]
    · rw [show pi / 4 + 3 * pi / 4 + -pi = 0 by ring, abs_zero]
      linarith
    · rw [tie_edges]; exact A _ _ 0 (by linarith) (by linarith) (by simp [tieVals, sample])
    · rw [tie_edges]; exact A _ _ 0 (by linarith) (by linarith) (by simp [tieVals, sample]; ring)
    · rw [tie_edges]; exact A _ _ 0 (by linarith) (by linarith) (by simp [tieVals, sample])
  have c1 : crossed (facePhi tieVals 1) (faceInt corner4 tieVals 1) = false := by
    rw [Bool.eq_false_iff, Ne, (face_of corner4 tieVals 1 0 2 3 (-(pi / 4)) (3 * pi / 4) (-(pi / 2)) rfl rfl rfl ?_ ?_ ?_).1]
    · rw [show -(pi / 4) + 3 * pi / 4 + -(pi / 2) = 0 by ring, abs_zero]
      linarith
    · rw [tie_edges]; exact A _ _ 0 (by linarith) (by linarith) (by simp [tieVals, sample]; ring)
    · rw [tie_edges]; exact A _ _ 0 (by linarith) (by linarith) (by simp [tieVals, sample]; ring)
    · rw [tie_edges]; exact A _ _ 0 (by linarith) (by linarith) (by simp [tieVals, sample]; ring)
  have c2 : crossed (facePhi tieVals 2) (faceInt corner4 tieVals 2) = true := by
    rw [(face_of corner4 tieVals 2 0 1 3 (-(pi / 2)) (-pi) (-(pi / 2)) rfl rfl rfl ?_ ?_ ?_).1]
    · rw [show -(pi / 2) + -pi + -(pi / 2) = -(2 * pi) by ring, abs_neg, abs_of_pos (by linarith)]
      linarith
    · rw [tie_edges]; exact A _ _ 0 (by linarith) (by linarith) (by simp [tieVals, sample])
    · rw [tie_edges]; exact A _ _ 1 (by linarith) (by linarith) (by simp [tieVals, sample]; ring)
    · rw [tie_edges]; exact A _ _ 0 (by linarith) (by linarith) (by simp [tieVals, sample]; ring)
  have c3 : crossed (facePhi tieVals 3) (faceInt corner4 tieVals 3) = false := by
    rw [Bool.eq_false_iff, Ne, (face_of corner4 tieVals 3 0 1 2 (-(pi / 2)) (pi / 4) (pi / 4) rfl rfl rfl ?_ ?_ ?_).1]
    · rw [show -(pi / 2) + pi / 4 + pi / 4 = 0 by ring, abs_zero]
      linarith
    · rw [tie_edges]; exact A _ _ 0 (by linarith) (by linarith) (by simp [tieVals, sample])
    · rw [tie_edges]; exact A _ _ 0 (by linarith) (by linarith) (by simp [tieVals, sample])
    · rw [tie_edges]; exact A _ _ 0 (by linarith) (by linarith) (by simp [tieVals, sample]; ring)
  rw [show (List.finRange 4) = [0, 1, 2, 3] by decide]
  simp only [List.countP_cons, List.countP_nil, c0, c1, c2, c3]
  rfl

/-- the phases of `C108_four` -/
noncomputable def fourVals : Fin 4 → Val :=
  ![sample (8 * pi / 5) 0, sample (8 * pi / 5) (4 * pi / 5), sample (8 * pi / 5) (8 * pi / 5), sample (8 * pi / 5) (12 * pi / 5)]

/-- C108, what the field changes: with a field and no phase difference of half a turn, all four faces of a tetrahedron can be found
crossed although less than half a turn circulates around each of them. -/
theorem C108_four : (∀ i, FaceCrossed corner4 fourVals i) ∧ (∀ i, ¬ Tie (facePhi fourVals i) (faceInt corner4 fourVals i)) ∧
    ∀ i, |faceInt corner4 fourVals i 0 + faceInt corner4 fourVals i 1 + faceInt corner4 fourVals i 2| < pi := by
  have hp := pi_pos
  have A : ∀ (x : ℝ) (d : ℝ) (k : ℤ), -pi ≤ d → d < pi → x = d + 2 * pi * k → IsAngle x d := fun x d k a b c => ⟨a, b, k, c⟩
  have E : ∀ i j, edgeIntegral (corner4 i) (corner4 j) (fourVals i) (fourVals j) = -(4 * pi / 5) *
      (((corner4 i).getD 1 0 : ℝ) + ((corner4 j).getD 1 0 : ℝ)) * (((corner4 j).getD 0 0 : ℝ) - ((corner4 i).getD 0 0 : ℝ)) := by
    have : ∀ i, ∃ p, fourVals i = sample (8 * pi / 5) p := by intro i; fin_cases i <;> exact ⟨_, rfl⟩
    intro i j
    obtain ⟨p, hp⟩ := this i
    obtain ⟨q, hq⟩ := this j
    rw [hp, hq, sample_integral]
    ring
  have P0 : (fourVals 0).phi = 0 := rfl
  have P1 : (fourVals 1).phi = 4 * pi / 5 := rfl
  have P2 : (fourVals 2).phi = 8 * pi / 5 := rfl
  have P3 : (fourVals 3).phi = 12 * pi / 5 := rfl
  have f0 := face_of corner4 fourVals 0 1 2 3 (4 * pi / 5) (4 * pi / 5) (2 * pi / 5) rfl rfl rfl
    (A _ _ 0 (by linarith) (by linarith) (by rw [E, P1, P2]; simp [corner4]; ring))
    (A _ _ 0 (by linarith) (by linarith) (by rw [E, P2, P3]; simp [corner4]; ring))
    (A _ _ (-1) (by linarith) (by linarith) (by rw [E, P3, P1]; simp [corner4]; ring))
  have f1 := face_of corner4 fourVals 1 0 2 3 (2 * pi / 5) (4 * pi / 5) (4 * pi / 5) rfl rfl rfl
    (A _ _ 1 (by linarith) (by linarith) (by rw [E, P0, P2]; simp [corner4]; ring))
    (A _ _ 0 (by linarith) (by linarith) (by rw [E, P2, P3]; simp [corner4]; ring))
    (A _ _ (-2) (by linarith) (by linarith) (by rw [E, P3, P0]; simp [corner4]; ring))
  have f2 := face_of corner4 fourVals 2 0 1 3 (4 * pi / 5) (-(2 * pi / 5)) (4 * pi / 5) rfl rfl rfl
    (A _ _ 0 (by linarith) (by linarith) (by rw [E, P0, P1]; simp [corner4]))
    (A _ _ 1 (by linarith) (by linarith) (by rw [E, P3, P1]; simp [corner4]; ring))
    (A _ _ (-2) (by linarith) (by linarith) (by rw [E, P3, P0]; simp [corner4]; ring))
  have f3 := face_of corner4 fourVals 3 0 1 2 (4 * pi / 5) (4 * pi / 5) (-(2 * pi / 5)) rfl rfl rfl
    (A _ _ 0 (by linarith) (by linarith) (by rw [E, P0, P1]; simp [corner4]))
    (A _ _ 0 (by linarith) (by linarith) (by rw [E, P2, P1]; simp [corner4]; ring))
    (A _ _ (-1) (by linarith) (by linarith) (by rw [E, P2, P0]; simp [corner4]; ring))
  refine ⟨?_, ?_, ?_⟩
  · intro i
    fin_cases i
    · refine f0.1.2 (le_abs.2 (.inl ?_)); linarith
    · refine f1.1.2 (le_abs.2 (.inl ?_)); linarith
    · refine f2.1.2 (le_abs.2 (.inl ?_)); linarith
    · refine f3.1.2 (le_abs.2 (.inl ?_)); linarith
  · intro i
    fin_cases i
    · exact f0.2 (by linarith) (by linarith) (by linarith)
    · exact f1.2 (by linarith) (by linarith) (by linarith)
    · exact f2.2 (by linarith) (by linarith) (by linarith)
    · exact f3.2 (by linarith) (by linarith) (by linarith)
  · have e : ∀ i : Fin 4, faceInt corner4 fourVals i 0 + faceInt corner4 fourVals i 1 + faceInt corner4 fourVals i 2 =
        edgeIntegral (corner4 (i.succAbove 0)) (corner4 (i.succAbove 1)) (fourVals (i.succAbove 0)) (fourVals (i.succAbove 1)) +
        edgeIntegral (corner4 (i.succAbove 1)) (corner4 (i.succAbove 2)) (fourVals (i.succAbove 1)) (fourVals (i.succAbove 2)) +
        edgeIntegral (corner4 (i.succAbove 2)) (corner4 (i.succAbove 0)) (fourVals (i.succAbove 2)) (fourVals (i.succAbove 0)) := fun i => rfl
    intro i
    rw [e, E, E, E, abs_lt]
    fin_cases i
    · simp only [Fin.zero_eta, show (0 : Fin 4).succAbove 0 = 1 from rfl, show (0 : Fin 4).succAbove 1 = 2 from rfl, show (0 : Fin 4).succAbove 2 = 3 from rfl]
      simp [corner4]
      exact hp
    · simp only [Fin.mk_one, show (1 : Fin 4).succAbove 0 = 0 from rfl, show (1 : Fin 4).succAbove 1 = 2 from rfl, show (1 : Fin 4).succAbove 2 = 3 from rfl]
      simp [corner4]
      exact hp
    · simp only [Fin.reduceFinMk, show (2 : Fin 4).succAbove 0 = 0 from rfl, show (2 : Fin 4).succAbove 1 = 1 from rfl, show (2 : Fin 4).succAbove 2 = 3 from rfl]
      simp [corner4]
      constructor <;> linarith
    · simp only [Fin.reduceFinMk, show (3 : Fin 4).succAbove 0 = 0 from rfl, show (3 : Fin 4).succAbove 1 = 1 from rfl, show (3 : Fin 4).succAbove 2 = 2 from rfl]
      simp [corner4]
      constructor <;> linarith

end Verif.Tdgl
