import Verif.Tdgl.Props
import Verif.CLine.Demo
/-! Concrete cases for C104–C110. -/
namespace Verif.Tdgl
open Verif.SRM
open Verif.Gen (Box InsideV Inside Shaped)
open Verif.Ctr (IsElem FaceOf)
open Real (pi pi_pos)
open Verif.CLT (box2 path path_inside path_faces inOrder drop2)

/-- the configuration of the examples -/
def demo : Cfg := { box := box2, degen := fun _ => 0 }

/-- the number of thirds of a turn of the phase at a place -/
def thirds (p : List Int) : ℤ := if p.getD 0 0 = 1 then (if p.getD 1 0 = 1 then 2 else 1) else 0

/-- a straight vortex along the third axis, without a field -/
noncomputable def straight : Snap := { md := unitMeta 0, dims := [2, 2, 2], rho := fun _ => 1, phi := fun p => 2 * pi / 3 * thirds p }

theorem demo_shaped : Shaped demo.box [straight, straight].length := CLT.demo_shaped

theorem demo_covers : ∀ s ∈ [straight, straight], Covers demo s := by
  intro s hs p hp
  have hd : s.dims = [2, 2, 2] := by
    simp only [List.mem_cons, List.not_mem_nil, or_false, or_self] at hs
    rw [hs]
    rfl
  obtain ⟨hl, h⟩ := hp
  rcases p with _ | ⟨x, _ | ⟨y, _ | ⟨z, _ | ⟨a, p⟩⟩⟩⟩ <;> simp [demo, box2] at hl
  have h0 := h 0 0 2 x rfl rfl rfl
  have h1 := h 1 0 2 y rfl rfl rfl
  have h2 := h 2 0 2 z rfl rfl rfl
  unfold Snap.read
  rw [hd]
  rw [if_pos]
  · rfl
  · simp only [demo, box2, List.zipWith_cons_cons, List.zipWith_nil_left, Trk.inDims, Nat.cast_zero, _root_.sub_zero]
    simp [Trk.inDims]
    omega

/-- the hypothesis of C110 is met -/
theorem demo_calm : Calm demo [straight, straight] := by
  refine C110_free demo _ demo_covers (unitMeta 0) ?_ rfl rfl ?_
  · intro s hs
    simp only [List.mem_cons, List.not_mem_nil, or_false, or_self] at hs
    rw [hs]
    rfl
  · intro s hs s' hs' p q k h
    simp only [List.mem_cons, List.not_mem_nil, or_false, or_self] at hs hs'
    rw [hs, hs'] at h
    simp only [straight] at h
    have hp := pi_pos
    have h1 : pi * (2 * ((thirds p : ℝ) - thirds q) - 3 * (1 + 2 * k)) = 0 := by linarith
    have h2 := (mul_eq_zero.1 h1).resolve_left (ne_of_gt hp)
    have h3 : 2 * (thirds p - thirds q) - 3 * (1 + 2 * k) = 0 := by exact_mod_cast h2
    omega

theorem demo_value (i : Fin 3) : (valueAt demo [straight, straight] ((![path 0, path 1, path 2] : Fin 3 → Vtx) i)) =
    ⟨1, 2 * pi / 3 * (i : ℕ), unitMeta 0⟩ := by
  have e : ∀ v : Vtx, (v.getD 3 0).toNat = 0 → Trk.inDims [2, 2, 2] (box2.place v) = true →
      valueAt demo [straight, straight] v = ⟨1, 2 * pi / 3 * thirds (box2.place v), unitMeta 0⟩ := by
    intro v h1 h2
    unfold valueAt
    rw [h1]
    show ((straight.read (box2.place v))).getD default = _
    unfold Snap.read
    rw [if_pos (show Trk.inDims straight.dims (box2.place v) = true from h2)]
    rfl
  fin_cases i
  · exact (e (path 0) (by decide) (by decide)).trans (by rw [show thirds (box2.place (path 0)) = 0 by decide]; simp)
  · exact (e (path 1) (by decide) (by decide)).trans (by rw [show thirds (box2.place (path 1)) = 1 by decide]; simp)
  · exact (e (path 2) (by decide) (by decide)).trans (by rw [show thirds (box2.place (path 2)) = 2 by decide]; simp)

theorem demo_angles (i : Fin 3) : IsAngle (phases demo [straight, straight] ![path 0, path 1, path 2] (i + 1) -
    phases demo [straight, straight] ![path 0, path 1, path 2] i -
    lineInts demo [straight, straight] ![path 0, path 1, path 2] i) (2 * pi / 3) := by
  have hp := pi_pos
  have hl : lineInts demo [straight, straight] ![path 0, path 1, path 2] i = 0 := by
    unfold lineInts integrals
    beta_reduce
    rw [demo_value, demo_value]
    simp [edgeIntegral, lineIntegral, potential, unitMeta]
  rw [hl]
  unfold phases
  rw [demo_value, demo_value]
  fin_cases i
  · exact ⟨by linarith, by linarith, 0, by simp⟩
  · refine ⟨by linarith, by linarith, 0, ?_⟩
    simp only [Fin.mk_one, show ((1 : Fin 3) + 1) = 2 from rfl]
    simp
    ring
  · refine ⟨by linarith, by linarith, -1, ?_⟩
    simp only [Fin.reduceFinMk, show ((2 : Fin 3) + 1) = 0 from rfl]
    simp
    ring

/-- a triangle is crossed -/
theorem demo_vortex : ∃ e, VortexAt demo [straight, straight] e ![path 0, path 1, path 2] := by
  have hp := pi_pos
  obtain ⟨x, T, D, hx, hin, hF⟩ := path_faces
  obtain ⟨t1, t2⟩ := hF.tri 3 4 (by decide)
  refine ⟨D 3 4, t1, t2, fun i => ?_, ?_⟩
  · fin_cases i
    · exact path_inside 0
    · exact path_inside 1
    · exact path_inside 2
  · rw [turns_iff, crossed_of _ _ _ (demo_angles 0) (demo_angles 1) (demo_angles 2)]
    refine le_abs.2 (.inl ?_)
    linarith

/-- C107 and C110 apply: the run records a triangle and builds the surface -/
example : ∃ st, Gen.run (tracker demo).prog (Gen.driveOps [straight, straight] fun _ => inOrder) Gen.St.init = some st ∧
    st.inter ≠ [] ∧ ∃ s, surfaces demo.box.bounds st.inter id = some s ∧ s.pts ≠ [] := by
  obtain ⟨st, s, h1, h2, h3, -⟩ := C110_surface_partial demo [straight, straight] (by simp) demo_calm demo_shaped demo_covers
    (fun _ => inOrder) (fun _ _ => List.Perm.refl _) id (fun _ => List.Perm.refl _)
  obtain ⟨st', h1', -, -, h4⟩ := C107_detects demo [straight, straight] (by simp) demo_shaped demo_covers
    (fun _ => inOrder) (fun _ _ => List.Perm.refl _)
  rw [h1] at h1'
  obtain rfl := Option.some.inj h1'
  have hne : st.inter ≠ [] := by
    intro hn
    obtain ⟨e, he⟩ := demo_vortex
    obtain ⟨t, ht, -⟩ := he.time
    have := (h4 e _).2 ⟨_, t, he, ht, rfl⟩
    rw [hn] at this
    cases this
  refine ⟨st, h1, hne, s, h2, ?_⟩
  intro hn
  rw [hn] at h3
  exact hne (List.length_eq_zero_iff.1 h3.symm)

/-- C110: a 4-simplex with a polygon -/
example : ∃ x, IsElem 4 4 x ∧ Inside demo.box [straight, straight].length x ∧
    ∃ ts fs, Ring (Vortex demo [straight, straight]) x ts fs ∧ fs ≠ [] := by
  have hp := pi_pos
  obtain ⟨x, T, D, hx, hin, hF⟩ := path_faces
  obtain ⟨ts, fs, hr⟩ := C110_ring demo _ demo_calm x hx hin
  refine ⟨x, hx, hin, ts, fs, hr, ?_⟩
  intro hn
  obtain ⟨t1, t2⟩ := hF.tri 3 4 (by decide)
  have : Vortex demo [straight, straight] (D 3 4) := by
    refine ⟨![path 0, path 1, path 2], t1, t2, fun i => ?_, ?_⟩
    · fin_cases i
      · exact path_inside 0
      · exact path_inside 1
      · exact path_inside 2
    · rw [turns_iff, crossed_of _ _ _ (demo_angles 0) (demo_angles 1) (demo_angles 2)]
      refine le_abs.2 (.inl ?_)
      linarith
  have := (hr.all (D 3 4)).2 ⟨t1, (hF.tris _ t1).2 ⟨3, 4, by decide, rfl⟩, this⟩
  rw [hn] at this
  cases this

/-- C104, C108 and C109: the hypotheses are met by the phases 0, 2π/3, 4π/3 -/
example : Winds (phases demo [straight, straight] ![path 0, path 1, path 2]) (lineInts demo [straight, straight] ![path 0, path 1, path 2]) 1 ∧
    ¬ Tie (phases demo [straight, straight] ![path 0, path 1, path 2]) (lineInts demo [straight, straight] ![path 0, path 1, path 2]) ∧
    lineInts demo [straight, straight] ![path 0, path 1, path 2] 0 + lineInts demo [straight, straight] ![path 0, path 1, path 2] 1 +
      lineInts demo [straight, straight] ![path 0, path 1, path 2] 2 = 0 := by
  have hp := pi_pos
  obtain ⟨e, he⟩ := demo_vortex
  obtain ⟨h1, h2⟩ := demo_calm e _ he.tri he.verts he.inside
  refine ⟨⟨fun _ => 2 * pi / 3, demo_angles, ?_⟩, h2, h1⟩
  rw [h1]
  push_cast
  ring

/-- C106: the hypothesis of `C106_place` is met -/
example : cross2 (psi (fun _ => 1) ![0, 2 * pi / 3, 4 * pi / 3] 0 0) (psi (fun _ => 1) ![0, 2 * pi / 3, 4 * pi / 3] 0 1) +
    cross2 (psi (fun _ => 1) ![0, 2 * pi / 3, 4 * pi / 3] 0 1) (psi (fun _ => 1) ![0, 2 * pi / 3, 4 * pi / 3] 0 2) +
    cross2 (psi (fun _ => 1) ![0, 2 * pi / 3, 4 * pi / 3] 0 2) (psi (fun _ => 1) ![0, 2 * pi / 3, 4 * pi / 3] 0 0) ≠ 0 := by
  have hp := pi_pos
  obtain ⟨x0, x1, x2⟩ := psi_cross (fun _ => 1) ![0, 2 * pi / 3, 4 * pi / 3] 0 (by simp)
  have d : ∀ i, delta ![0, 2 * pi / 3, 4 * pi / 3] 0 i = 2 * pi / 3 := by
    intro i
    refine mod2pi1_eq ?_
    fin_cases i
    · exact ⟨by linarith, by linarith, 0, by simp⟩
    · refine ⟨by linarith, by linarith, 0, ?_⟩
      simp only [Fin.mk_one, show ((1 : Fin 3) + 1) = 2 from rfl]
      simp
      ring
    · refine ⟨by linarith, by linarith, -1, ?_⟩
      simp only [Fin.reduceFinMk, show ((2 : Fin 3) + 1) = 0 from rfl]
      simp
      ring
  rw [x0, x1, x2, d, d, d]
  have := Real.sin_pos_of_pos_of_lt_pi (by linarith : 0 < 2 * pi / 3) (by linarith)
  linarith

end Verif.Tdgl
