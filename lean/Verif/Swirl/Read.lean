import Mathlib.Tactic.FinCases
import Mathlib.Data.Fintype.Basic
import Verif.Swirl.Spec
/-! The arrays computed by `push_field_data_snapshot`, read back. -/
namespace Verif.Swirl
open Verif.ND
open Verif.Grad

theorem runWrites_shaped {ws : List (W Rat)} : ∀ {g r : Nd Rat}, runWrites ws g = some r → ND.Shaped g → ND.Shaped r ∧ r.dims = g.dims := by
  induction ws with
  | nil =>
    intro g r h hg
    cases h
    exact ⟨hg, rfl⟩
  | cons w ws ih =>
    intro g r h hg
    unfold runWrites at h
    rw [List.foldlM_cons] at h
    cases hw : (w.2.bind fun v => wr g w.1 v) with
    | none => rw [hw] at h; cases h
    | some g' =>
      rw [hw] at h
      have hg' : ND.Shaped g' ∧ g'.dims = g.dims := by
        obtain ⟨v, -, h2⟩ := Option.bind_eq_some_iff.1 hw
        unfold wr at h2
        obtain ⟨k, -, h3⟩ := Option.bind_eq_some_iff.1 h2
        unfold Nd.setFlat at h3
        split at h3
        · cases h3
          exact ⟨hg.congr rfl rfl (by simp), rfl⟩
        · cases h3
      obtain ⟨a, b⟩ := ih (g := g') (r := r) h hg'.1
      exact ⟨a, b.trans hg'.2⟩

theorem runOp_shaped {d : List Nat} (hd : d ≠ []) {ws : List (W Rat)} {g : Nd Rat} (h : runOp d ws = some g) :
    ND.Shaped g ∧ g.dims = d := by
  obtain ⟨z, z0, z1, z2, -⟩ := zeros_spec (K := Rat) d hd
  rw [runOp, z0, Option.bind_some] at h
  obtain ⟨a, b⟩ := runWrites_shaped h z1
  exact ⟨a, b.trans z2⟩

theorem rdOff_zero (a : Nd Rat) (idx : List Int) : rdOff a idx 0 = rd a idx := by
  unfold rdOff rd pos
  simp only [Nat.cast_zero, add_zero]
  split <;> rfl

theorem rdOff_chan {a : Nd Rat} {D1 D2 D3 : Nat} (hs : ND.Shaped a) (hd : a.dims = [3, D1, D2, D3]) (i j k : Int) (c : Nat) :
    rdOff a [0, i, j, k] c = rd a [c, i, j, k] := by
  have hst : a.s = strides 1 [3, D1, D2, D3] := by rw [hs.str, hd]
  unfold rdOff rd pos
  have : flat [0, i, j, k] a.s + (c : Int) = flat [(c : Int), i, j, k] a.s := by
    rw [hst]
    simp only [strides, flat, Nat.cast_one]
    ring
  rw [this]
  simp only [List.length_cons, List.length_nil]
  split <;> rfl

theorem rdOff_mat {a : Nd Rat} {D1 D2 D3 : Nat} (hs : ND.Shaped a) (hd : a.dims = [3, 3, D1, D2, D3]) (i j k : Int) (c d n : Nat)
    (hn : n = 3 * d + c) : rdOff a [0, 0, i, j, k] n = rd a [c, d, i, j, k] := by
  have hst : a.s = strides 1 [3, 3, D1, D2, D3] := by rw [hs.str, hd]
  unfold rdOff rd pos
  have : flat [0, 0, i, j, k] a.s + (n : Int) = flat [(c : Int), (d : Int), i, j, k] a.s := by
    rw [hst, hn]
    simp only [strides, flat, Nat.cast_one]
    push_cast
    ring
  rw [this]
  simp only [List.length_cons, List.length_nil]
  split <;> rfl

theorem rd3_eq {a : Nd Rat} {D1 D2 D3 : Nat} (hs : ND.Shaped a) (hd : a.dims = [3, D1, D2, D3]) (i j k : Int) (x y z : Rat)
    (h0 : rd a [0, i, j, k] = some x) (h1 : rd a [1, i, j, k] = some y) (h2 : rd a [2, i, j, k] = some z) :
    rd3 a [0, i, j, k] = some ![x, y, z] := by
  unfold rd3
  rw [rdOff_chan hs hd, rdOff_chan hs hd, rdOff_chan hs hd]
  simp only [Nat.cast_zero, Nat.cast_one, Nat.cast_ofNat, h0, h1, h2]

theorem rd9_eq {a : Nd Rat} {D1 D2 D3 : Nat} (hs : ND.Shaped a) (hd : a.dims = [3, 3, D1, D2, D3]) (i j k : Int)
    (M : Int → Int → Rat) (h : ∀ c d : Int, 0 ≤ c → c < 3 → 0 ≤ d → d < 3 → rd a [c, d, i, j, k] = some (M c d)) :
    rd9 a [0, 0, i, j, k] = some ![![M 0 0, M 1 0, M 2 0], ![M 0 1, M 1 1, M 2 1], ![M 0 2, M 1 2, M 2 2]] := by
  unfold rd9
  rw [rdOff_mat hs hd i j k 0 0 0 rfl, rdOff_mat hs hd i j k 1 0 1 rfl, rdOff_mat hs hd i j k 2 0 2 rfl,
    rdOff_mat hs hd i j k 0 1 3 rfl, rdOff_mat hs hd i j k 1 1 4 rfl, rdOff_mat hs hd i j k 2 1 5 rfl,
    rdOff_mat hs hd i j k 0 2 6 rfl, rdOff_mat hs hd i j k 1 2 7 rfl, rdOff_mat hs hd i j k 2 2 8 rfl]
  simp only [Nat.cast_zero, Nat.cast_one, Nat.cast_ofNat]
  rw [h 0 0 (by decide) (by decide) (by decide) (by decide), h 1 0 (by decide) (by decide) (by decide) (by decide),
    h 2 0 (by decide) (by decide) (by decide) (by decide), h 0 1 (by decide) (by decide) (by decide) (by decide),
    h 1 1 (by decide) (by decide) (by decide) (by decide), h 2 1 (by decide) (by decide) (by decide) (by decide),
    h 0 2 (by decide) (by decide) (by decide) (by decide), h 1 2 (by decide) (by decide) (by decide) (by decide),
    h 2 2 (by decide) (by decide) (by decide) (by decide)]

theorem three_cases {c : Int} (h0 : 0 ≤ c) (h1 : c < 3) : c = 0 ∨ c = 1 ∨ c = 2 := by omega

/-- the values at distance 2 from the faces -/
def valSH (u : Field) (i j k : Int) : Val :=
  { w := ![cross u (acceleration u) 0 i j k, cross u (acceleration u) 1 i j k, cross u (acceleration u) 2 i j k],
    J := ![![jac u 0 0 i j k, jac u 1 0 i j k, jac u 2 0 i j k], ![jac u 0 1 i j k, jac u 1 1 i j k, jac u 2 1 i j k],
      ![jac u 0 2 i j k, jac u 1 2 i j k, jac u 2 2 i j k]] }

theorem jac_rd {g : Nd Rat} {u : Field} {i j k : Int} {c d : Int} (hd0 : 0 ≤ d) (hd1 : d < 3)
    (h : rd g [c, 0, i, j, k] = some (central (u c · j k) i) ∧ rd g [c, 1, i, j, k] = some (central (u c i · k) j) ∧
      rd g [c, 2, i, j, k] = some (central (u c i j ·) k)) : rd g [c, d, i, j, k] = some (jac u c d i j k) := by
  rcases three_cases hd0 hd1 with rfl | rfl | rfl
  · exact h.1
  · exact h.2.1
  · exact h.2.2

/-- (specification) `d` away from the faces of the array -/
def Away (d : Int) (DW DH DD : Nat) (i j k : Int) : Prop := d ≤ i ∧ i < DW - d ∧ d ≤ j ∧ j < DH - d ∧ d ≤ k ∧ k < DD - d

/-- (specification) decidability of `Away` -/
instance (d : Int) (DW DH DD : Nat) (i j k : Int) : Decidable (Away d DW DH DD i j k) := by unfold Away; infer_instance

/-- the values at any place of the array: on the outermost layer the cross product is left at zero, on the two outermost
layers the Jacobian is -/
def valAll (u : Field) (DW DH DD : Nat) (i j k : Int) : Val :=
  { w := if Away 1 DW DH DD i j k then (valSH u i j k).w else fun _ => 0,
    J := if Away 2 DW DH DD i j k then (valSH u i j k).J else fun _ _ => 0 }

theorem coreSnap_all (v : Nd Rat) (DW DH DD : Nat) (u : Field) (hv : Holds4 v 3 DW DH DD u) :
    ∃ s, coreSnap v DW DH DD = some s ∧ s.uv.dims = [3, DW, DH, DD] ∧
      ∀ i j k : Int, 0 ≤ i → i < DW → 0 ≤ j → j < DH → 0 ≤ k → k < DD →
        readSH s [i, j, k] = some (valAll u DW DH DD i j k) := by
  obtain ⟨J2, a0, a1, a2⟩ := C77_jacobian3D v 2 (by decide) DW DH DD u hv _ (List.Perm.refl _)
  obtain ⟨J1, b0, b1, b2⟩ := C77_jacobian3D v 1 (by decide) DW DH DD u hv _ (List.Perm.refl _)
  have hJ1 : ∀ c d i j k : Int, 0 ≤ c → c < 3 → 0 ≤ d → d < 3 → 0 ≤ i → i < DW → 0 ≤ j → j < DH → 0 ≤ k → k < DD →
      rd J1 [c, d, i, j, k] = some (if 1 ≤ i ∧ i < DW - 1 ∧ 1 ≤ j ∧ j < DH - 1 ∧ 1 ≤ k ∧ k < DD - 1 then jac u c d i j k else 0) := by
    intro c d i j k h1 h2 h3 h4 h5 h6 h7 h8 h9 h10
    have := b2 c i j k h1 h2 h5 h6 h7 h8 h9 h10
    split at this
    · rename_i h
      rw [if_pos h]
      exact jac_rd h3 h4 this
    · rename_i h
      rw [if_neg h]
      exact this d h3 h4
  obtain ⟨a, a', c0, -, c2⟩ := C77_Jv J1 v DW DH DD u _ hv hJ1
  have ha : Holds4 a 3 DW DH DD fun c i j k =>
      if 1 ≤ i ∧ i < DW - 1 ∧ 1 ≤ j ∧ j < DH - 1 ∧ 1 ≤ k ∧ k < DD - 1 then acceleration u c i j k else 0 := by
    refine ⟨fun c i j k h1 h2 h3 h4 h5 h6 h7 h8 => ?_⟩
    have := c2 c i j k h1 h2 h3 h4 h5 h6 h7 h8
    split at this
    · rename_i h
      rw [if_pos h]
      exact this.1
    · rename_i h
      rw [if_neg h]
      exact this.1
  obtain ⟨uv, d0, d1, d2⟩ := C77_cross_product3D v a DW DH DD u _ hv ha _ (List.Perm.refl _)
  refine ⟨{ uv := uv, J := J2 }, ?_, d1, ?_⟩
  · unfold coreSnap jvDotV
    rw [a0, b0]
    simp only [Option.bind_some, c0, d0, Option.map_some]
  · intro i j k h1 h2 h3 h4 h5 h6
    have hd := d2 i j k h1 h2 h3 h4 h5 h6
    have hw : rd3 uv [0, i, j, k] = some (valAll u DW DH DD i j k).w := by
      by_cases hin : 1 ≤ i ∧ i < (DW : Int) - 1 ∧ 1 ≤ j ∧ j < (DH : Int) - 1 ∧ 1 ≤ k ∧ k < (DD : Int) - 1
      · rw [if_pos hin] at hd
        simp only [if_pos hin] at hd
        obtain ⟨e0, e1, e2⟩ := hd
        rw [rd3_eq (runOp_shaped (by simp) d0).1 d1 i j k _ _ _ e0 e1 e2]
        simp only [valAll, if_pos (show Away 1 DW DH DD i j k from hin)]
        rfl
      · rw [if_neg hin] at hd
        rw [rd3_eq (runOp_shaped (by simp) d0).1 d1 i j k _ _ _ (hd 0 (by decide) (by decide)) (hd 1 (by decide) (by decide))
          (hd 2 (by decide) (by decide))]
        simp only [valAll, if_neg (show ¬ Away 1 DW DH DD i j k from hin)]
        congr 1
        funext c
        fin_cases c <;> rfl
    have hJ : rd9 J2 [0, 0, i, j, k] = some (valAll u DW DH DD i j k).J := by
      by_cases hin : 2 ≤ i ∧ i < (DW : Int) - 2 ∧ 2 ≤ j ∧ j < (DH : Int) - 2 ∧ 2 ≤ k ∧ k < (DD : Int) - 2
      · rw [rd9_eq (runOp_shaped (by simp) a0).1 a1 i j k (fun c d => jac u c d i j k) ?_]
        · simp only [valAll, if_pos (show Away 2 DW DH DD i j k from hin)]
          rfl
        · intro c d hc0 hc1 hd0 hd1
          have := a2 c i j k hc0 hc1 h1 h2 h3 h4 h5 h6
          rw [if_pos hin] at this
          exact jac_rd hd0 hd1 this
      · rw [rd9_eq (runOp_shaped (by simp) a0).1 a1 i j k (fun _ _ => 0) ?_]
        · simp only [valAll, if_neg (show ¬ Away 2 DW DH DD i j k from hin)]
          congr 1
          funext c d
          fin_cases c <;> fin_cases d <;> rfl
        · intro c d hc0 hc1 hd0 hd1
          have := a2 c i j k hc0 hc1 h1 h2 h3 h4 h5 h6
          rw [if_neg hin] at this
          exact this d hd0 hd1
    unfold readSH
    simp only
    rw [hw, hJ]
    rfl

theorem coreSnap_spec (v : Nd Rat) (DW DH DD : Nat) (u : Field) (hv : Holds4 v 3 DW DH DD u) :
    ∃ s, coreSnap v DW DH DD = some s ∧ s.uv.dims = [3, DW, DH, DD] ∧
      ∀ i j k : Int, 2 ≤ i → i < DW - 2 → 2 ≤ j → j < DH - 2 → 2 ≤ k → k < DD - 2 →
        readSH s [i, j, k] = some (valSH u i j k) := by
  obtain ⟨s, h1, h2, h3⟩ := coreSnap_all v DW DH DD u hv
  refine ⟨s, h1, h2, fun i j k g1 g2 g3 g4 g5 g6 => ?_⟩
  rw [h3 i j k (by omega) (by omega) (by omega) (by omega) (by omega) (by omega)]
  unfold valAll
  rw [if_pos (by unfold Away; omega), if_pos (by unfold Away; omega)]
  rfl

theorem snapSH_spec (v : Nd Rat) (DW DH DD : Nat) (u : Field) (hd : v.dims = [3, DW, DH, DD]) (hv : Holds4 v 3 DW DH DD u) :
    ∃ s, snapSH v = some s ∧
      ∀ i j k : Int, 2 ≤ i → i < DW - 2 → 2 ≤ j → j < DH - 2 → 2 ≤ k → k < DD - 2 →
        readSH s [i, j, k] = some (valSH u i j k) := by
  obtain ⟨s, h1, -, h2⟩ := coreSnap_spec v DW DH DD u hv
  refine ⟨s, ?_, h2⟩
  unfold snapSH
  rw [hd]
  exact h1

/-- the values at distance 1 from the faces -/
def valLDS (u : Field) (i j k : Int) : Val :=
  { w := ![cross u (curl2 u) 0 i j k, cross u (curl2 u) 1 i j k, cross u (curl2 u) 2 i j k],
    vort := ![curl2 u 0 i j k, curl2 u 1 i j k, curl2 u 2 i j k] }

theorem snapLDS_spec (v : Nd Rat) (DW DH DD : Nat) (u : Field) (hd : v.dims = [3, DW, DH, DD]) (hv : Holds4 v 3 DW DH DD u) :
    ∃ s, snapLDS v = some s ∧
      ∀ i j k : Int, 1 ≤ i → i < DW - 1 → 1 ≤ j → j < DH - 1 → 1 ≤ k → k < DD - 1 →
        readLDS s [i, j, k] = some (valLDS u i j k) := by
  obtain ⟨w, a0, a1, a2⟩ := C77_vorticity3D v DW DH DD u hv _ (List.Perm.refl _)
  have ha : Holds4 w 3 DW DH DD fun c i j k =>
      if 1 ≤ i ∧ i < DW - 1 ∧ 1 ≤ j ∧ j < DH - 1 ∧ 1 ≤ k ∧ k < DD - 1 then curl2 u c i j k else 0 := by
    refine ⟨fun c i j k h1 h2 h3 h4 h5 h6 h7 h8 => ?_⟩
    have := a2 i j k h3 h4 h5 h6 h7 h8
    split at this
    · rename_i h
      rw [if_pos h]
      rcases three_cases h1 h2 with rfl | rfl | rfl
      · exact this.1
      · exact this.2.1
      · exact this.2.2
    · rename_i h
      rw [if_neg h]
      exact this c h1 h2
  obtain ⟨uv, d0, d1, d2⟩ := C77_cross_product3D v w DW DH DD u _ hv ha _ (List.Perm.refl _)
  refine ⟨{ uv := uv, vorticity := w }, ?_, ?_⟩
  · unfold snapLDS
    rw [hd]
    simp only [a0, d0, Option.map_some]
  · intro i j k h1 h2 h3 h4 h5 h6
    have hdd := d2 i j k (by omega) (by omega) (by omega) (by omega) (by omega) (by omega)
    have hin : 1 ≤ i ∧ i < (DW : Int) - 1 ∧ 1 ≤ j ∧ j < (DH : Int) - 1 ∧ 1 ≤ k ∧ k < (DD : Int) - 1 := by omega
    rw [if_pos hin] at hdd
    simp only [if_pos hin] at hdd
    obtain ⟨e0, e1, e2⟩ := hdd
    have hr : ∀ c : Int, 0 ≤ c → c < 3 → rd w [c, i, j, k] = some (curl2 u c i j k) := by
      intro c hc0 hc1
      have := ha.read c i j k hc0 hc1 (by omega) (by omega) (by omega) (by omega) (by omega) (by omega)
      rw [if_pos hin] at this
      exact this
    unfold readLDS
    simp only
    rw [rd3_eq (runOp_shaped (by simp) d0).1 d1 i j k _ _ _ e0 e1 e2,
      rd3_eq (runOp_shaped (by simp) a0).1 a1 i j k _ _ _ (hr 0 (by decide) (by decide)) (hr 1 (by decide) (by decide))
        (hr 2 (by decide) (by decide))]
    rfl

theorem snapRV_spec (v : Nd Rat) (DW DH DD : Nat) (f : Int → Int → Int → Rat) (hd : v.dims = [DW, DH, DD])
    (hv : Holds3 v DW DH DD f) :
    ∃ s, snapRV v = some s ∧
      ∀ i j k : Int, 2 ≤ i → i < DW - 2 → 2 ≤ j → j < DH - 2 → 2 ≤ k → k < DD - 2 →
        readRV s [i, j, k] = some { valSH (fun c i j k => if 1 ≤ i ∧ i < DW - 1 ∧ 1 ≤ j ∧ j < DH - 1 ∧ 1 ≤ k ∧ k < DD - 1
          then grad f c i j k else 0) i j k with s := f i j k } := by
  obtain ⟨g, a0, a1, a2⟩ := C77_gradient3D v DW DH DD f hv _ (List.Perm.refl _)
  have ha : Holds4 g 3 DW DH DD fun c i j k =>
      if 1 ≤ i ∧ i < DW - 1 ∧ 1 ≤ j ∧ j < DH - 1 ∧ 1 ≤ k ∧ k < DD - 1 then grad f c i j k else 0 := by
    refine ⟨fun c i j k h1 h2 h3 h4 h5 h6 h7 h8 => ?_⟩
    have := a2 i j k h3 h4 h5 h6 h7 h8
    split at this
    · rename_i h
      rw [if_pos h]
      rcases three_cases h1 h2 with rfl | rfl | rfl
      · exact this.1
      · exact this.2.1
      · exact this.2.2
    · rename_i h
      rw [if_neg h]
      exact this c h1 h2
  obtain ⟨s, s0, -, s2⟩ := coreSnap_spec g DW DH DD _ ha
  refine ⟨{ s with scalar := v }, ?_, ?_⟩
  · unfold snapRV
    rw [hd]
    simp only [a0, s0, Option.map_some]
  · intro i j k h1 h2 h3 h4 h5 h6
    have := s2 i j k h1 h2 h3 h4 h5 h6
    unfold readRV
    have h' : readSH { s with scalar := v } [i, j, k] = readSH s [i, j, k] := rfl
    rw [h', this, rdOff_zero, hv.read i j k (by omega) (by omega) (by omega) (by omega) (by omega) (by omega)]

end Verif.Swirl
