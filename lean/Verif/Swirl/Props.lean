import Verif.Swirl.Track
import Verif.Swirl.Disc
/-! # C99–C102: vortex core lines (Sujudi–Haimes, Levy–Degani–Seginer), ridges and valleys -/
namespace Verif.Swirl
open Verif.SRM
open Verif.ND (Nd)
open Verif.Grad (Holds3 Holds4)
open Verif.Gen (Box InsideV mapAll)
open Verif.Ctr (IsElem)
open Verif.CLT (tracker inTriangle Complete)

theorem mapAll_exists {α β : Type} {f : α → Option β} : ∀ {l : List α}, (∀ a ∈ l, ∃ s, f a = some s) →
    ∃ ss, mapAll f l = some ss ∧ List.Forall₂ (fun a s => f a = some s) l ss := by
  intro l
  induction l with
  | nil => exact fun _ => ⟨[], rfl, .nil⟩
  | cons a l ih =>
    intro h
    obtain ⟨s, hs⟩ := h a (by simp)
    obtain ⟨ss, h1, h2⟩ := ih fun x hx => h x (by simp [hx])
    exact ⟨s :: ss, by simp only [mapAll, hs, h1], .cons hs h2⟩

theorem snaps_of {snap : Nd Rat → Option Snap} {data : List (Nd Rat)} {R : Nat → Snap → Prop}
    (h : ∀ n a, data[n]? = some a → ∃ s, snap a = some s ∧ R n s) :
    ∃ snaps, mapAll snap data = some snaps ∧ snaps.length = data.length ∧ ∀ n s, snaps[n]? = some s → R n s := by
  obtain ⟨snaps, h1, h2⟩ := mapAll_exists (f := snap) (l := data) fun a ha => by
    obtain ⟨n, hn⟩ := List.mem_iff_getElem?.1 ha
    obtain ⟨s, hs, -⟩ := h n a hn
    exact ⟨s, hs⟩
  refine ⟨snaps, h1, h2.length_eq.symm, fun n s hs => ?_⟩
  have hlt : n < snaps.length := by
    by_contra hn
    rw [List.getElem?_eq_none (by omega)] at hs
    cases hs
  have hlt' : n < data.length := by rw [h2.length_eq]; exact hlt
  have := (List.forall₂_iff_get.1 h2).2 n hlt' hlt
  obtain ⟨s', hs', hR⟩ := h n _ (List.getElem?_eq_getElem hlt')
  rw [List.getElem?_eq_getElem hlt] at hs
  simp only [List.get_eq_getElem] at this
  rw [this] at hs'
  rw [Option.some.inj hs] at hs'
  rw [Option.some.inj hs']
  exact hR

theorem lerpS2_interp (vs : Fin 3 → Vtx) (mu : Fin 3 → Rat) (f : Vtx → Rat) : lerpS2 (fun i => f (vs i)) mu = interp vs mu f := by
  unfold lerpS2 interp; ring

/-- (specification) the Jacobian of the series at the point with weights `mu` of the triangle `vs` -/
def jacobianAt (u : Nat → Field) (vs : Fin 3 → Vtx) (mu : Fin 3 → Rat) : Fin 3 → Fin 3 → Rat :=
  fun c d => interp vs mu (at4 fun t => jac (u t) (c : Nat) (d : Nat))

theorem lerp_jac (u : Nat → Field) (vs : Fin 3 → Vtx) (mu : Fin 3 → Rat) :
    lerpS2m3x3 (fun i => (valAt (fun n => valSH (u n)) (vs i)).J) mu = fun j k => jacobianAt u vs mu k j := by
  funext j k
  unfold lerpS2m3x3 jacobianAt interp
  fin_cases j <;> fin_cases k <;> simp [valAt, valSH, at4] <;> ring

theorem extraSH_eq (u : Nat → Field) (vs : Fin 3 → Vtx) (mu : Fin 3 → Rat) :
    extraSH (fun i => valAt (fun n => valSH (u n)) (vs i)) mu =
      [interp vs mu (at4 fun t => cross (u t) (acceleration (u t)) 2),
        cubicDiscriminant (Num.charPoly3 (jacobianAt u vs mu)) * 10 ^ 10] := by
  unfold extraSH
  rw [lerp_jac, charPoly3_transpose]
  have : (fun i => (valAt (fun n => valSH (u n)) (vs i)).w 2) = fun i => at4 (fun t => cross (u t) (acceleration (u t)) 2) (vs i) := rfl
  rw [this, lerpS2_interp]

/-- C99: the Sujudi–Haimes tracker.  Velocity data `u t` of any size, a series of any length, a domain at distance 2 from the
faces of the array, every order of the tasks: the pushes and the loop succeed, and a point is recorded for exactly the
triangles of the spacetime mesh in the domain where the first two components of velocity × acceleration (central
differences) cross zero.  The point lies in its triangle; its scalars are the third component there (`residue`) and `10¹⁰`
times the discriminant of the characteristic polynomial of the velocity gradient there. -/
theorem C99_sujudi_haimes (b : Box 3) (degen : (Fin 3 → Fin 2 → Rat) → Fin 3 → Rat) (DW DH DD : Nat) (data : List (Nd Rat))
    (u : Nat → Field) (hne : data ≠ []) (hdata : ∀ n a, data[n]? = some a → a.dims = [3, DW, DH, DD] ∧ Holds4 a 3 DW DH DD (u n))
    (hb : Gen.Shaped b data.length) (hm : Margin 2 b DW DH DD) (ord : Nat → Scope → List Int)
    (ho : ∀ k, Complete (cfg b extraSH degen) (ord k)) :
    ∃ snaps st, mapAll snapSH data = some snaps ∧
      Gen.run (tracker (cfg b extraSH degen) readSH).prog (Gen.driveOps snaps ord) Gen.St.init = some st ∧
      Ser.Sorted st.inter ∧
      (∀ e, (∃ p, (e, p) ∈ st.inter) ↔
        ∃ vs, Crossing b data.length (fun v c => at4 (fun t => cross (u t) (acceleration (u t)) (c : Nat)) v) e vs) ∧
      ∀ e p vs, (e, p) ∈ st.inter → e.vertices 4 = some [vs 0, vs 1, vs 2] →
        Found b (fun v c => at4 (fun t => cross (u t) (acceleration (u t)) (c : Nat)) v) vs e p fun mu =>
        [interp vs mu (at4 fun t => cross (u t) (acceleration (u t)) 2),
          cubicDiscriminant (Num.charPoly3 (jacobianAt u vs mu)) * 10 ^ 10] := by
  obtain ⟨snaps, h1, h2, h3⟩ := snaps_of (snap := snapSH) (data := data)
    (R := fun n s => ∀ i j k : Int, 2 ≤ i → i < DW - 2 → 2 ≤ j → j < DH - 2 → 2 ≤ k → k < DD - 2 →
      readSH s [i, j, k] = some (valSH (u n) i j k)) fun n a ha => snapSH_spec a DW DH DD (u n) (hdata n a ha).1 (hdata n a ha).2
  have hread : ∀ (n : Nat) s, snaps[n]? = some s → ∀ i j k, Lat.InBox b.domain [i, j, k] →
      readSH s [i, j, k] = some ((fun n => valSH (u n)) n i j k) := by
    intro n s hs i j k hin
    obtain ⟨g1, g2, g3, g4, g5, g6⟩ := hm.place i j k hin
    exact h3 n s hs i j k (by simpa using g1) (by simpa using g2) (by simpa using g3) (by simpa using g4) (by simpa using g5)
      (by simpa using g6)
  obtain ⟨st, k1, k2, k3, k4⟩ := track (extra := extraSH) (degen := degen) (snaps := snaps) (by
    intro h; rw [h] at h2; exact hne (List.length_eq_zero_iff.1 h2.symm)) (h2 ▸ hb) hm.start hread ord ho
  have hF : (fun v => (valAt (fun n => valSH (u n)) v).w) =
      fun v (c : Fin 3) => at4 (fun t => cross (u t) (acceleration (u t)) (c : Nat)) v := by
    funext v c
    fin_cases c <;> rfl
  refine ⟨snaps, st, h1, k1, k2, ?_, ?_⟩
  · intro e
    rw [k3 e, h2, hF]
  · intro e p vs hp hvs
    have := k4 e p vs hp hvs
    rw [hF] at this
    have hx := fun mu => extraSH_eq u vs mu
    exact { this with scal := this.scal.trans (hx _) }

/-- C100: the scalar `discJ` of every point is negative exactly if the velocity gradient at the point (interpolated) has an
eigenvalue that is not real, that is if the flow swirls there; and zero or positive exactly if all eigenvalues are real. -/
theorem C100_swirl (u : Nat → Field) (vs : Fin 3 → Vtx) (mu : Fin 3 → Rat) :
    cubicDiscriminant (Num.charPoly3 (jacobianAt u vs mu)) * 10 ^ 10 < 0 ↔
      ∃ z : ℂ, z.im ≠ 0 ∧ (z • (1 : Matrix (Fin 3) (Fin 3) ℂ) - Matrix.of fun c d => (jacobianAt u vs mu c d : ℂ)).det = 0 := by
  rw [← disc_eigenvalue]
  constructor
  · intro h
    by_contra hn
    push Not at hn
    have : (0 : Rat) ≤ cubicDiscriminant (Num.charPoly3 (jacobianAt u vs mu)) * 10 ^ 10 := mul_nonneg hn (by norm_num)
    linarith
  · intro h
    exact mul_neg_of_neg_of_pos h (by norm_num)

theorem extraLDS_eq (u : Nat → Field) (vs : Fin 3 → Vtx) (mu : Fin 3 → Rat) :
    extraLDS (fun i => valAt (fun n => valLDS (u n)) (vs i)) mu =
      [interp vs mu (at4 fun t => cross (u t) (curl2 (u t)) 2),
        interp vs mu (at4 fun t => curl2 (u t) 0) ^ 2 + interp vs mu (at4 fun t => curl2 (u t) 1) ^ 2] := by
  unfold extraLDS
  have h2 : (fun i => (valAt (fun n => valLDS (u n)) (vs i)).w 2) = fun i => at4 (fun t => cross (u t) (curl2 (u t)) 2) (vs i) := rfl
  have h0 : (fun i => (valAt (fun n => valLDS (u n)) (vs i)).vort 0) = fun i => at4 (fun t => curl2 (u t) 0) (vs i) := rfl
  have h1 : (fun i => (valAt (fun n => valLDS (u n)) (vs i)).vort 1) = fun i => at4 (fun t => curl2 (u t) 1) (vs i) := rfl
  rw [h2, h0, h1, lerpS2_interp, lerpS2_interp, lerpS2_interp]
  simp only [pow_two]

/-- C101, what holds of the Levy–Degani–Seginer tracker: as C99 with velocity × vorticity, and a domain at distance 1.  The
scalars are the third component there and (under a square root) the sum of the squares of the first two components of the
vorticity.  What is missing: the third component, so that `vortmag` is not the magnitude (`C101_vortmag_zero`). -/
theorem C101_levy_degani_seginer_partial (b : Box 3) (degen : (Fin 3 → Fin 2 → Rat) → Fin 3 → Rat) (DW DH DD : Nat)
    (data : List (Nd Rat)) (u : Nat → Field) (hne : data ≠ [])
    (hdata : ∀ n a, data[n]? = some a → a.dims = [3, DW, DH, DD] ∧ Holds4 a 3 DW DH DD (u n))
    (hb : Gen.Shaped b data.length) (hm : Margin 1 b DW DH DD) (ord : Nat → Scope → List Int)
    (ho : ∀ k, Complete (cfg b extraLDS degen) (ord k)) :
    ∃ snaps st, mapAll snapLDS data = some snaps ∧
      Gen.run (tracker (cfg b extraLDS degen) readLDS).prog (Gen.driveOps snaps ord) Gen.St.init = some st ∧
      Ser.Sorted st.inter ∧
      (∀ e, (∃ p, (e, p) ∈ st.inter) ↔
        ∃ vs, Crossing b data.length (fun v c => at4 (fun t => cross (u t) (curl2 (u t)) (c : Nat)) v) e vs) ∧
      ∀ e p vs, (e, p) ∈ st.inter → e.vertices 4 = some [vs 0, vs 1, vs 2] →
        Found b (fun v c => at4 (fun t => cross (u t) (curl2 (u t)) (c : Nat)) v) vs e p fun mu =>
        [interp vs mu (at4 fun t => cross (u t) (curl2 (u t)) 2),
          interp vs mu (at4 fun t => curl2 (u t) 0) ^ 2 + interp vs mu (at4 fun t => curl2 (u t) 1) ^ 2] := by
  obtain ⟨snaps, h1, h2, h3⟩ := snaps_of (snap := snapLDS) (data := data)
    (R := fun n s => ∀ i j k : Int, 1 ≤ i → i < DW - 1 → 1 ≤ j → j < DH - 1 → 1 ≤ k → k < DD - 1 →
      readLDS s [i, j, k] = some (valLDS (u n) i j k)) fun n a ha => snapLDS_spec a DW DH DD (u n) (hdata n a ha).1 (hdata n a ha).2
  have hread : ∀ (n : Nat) s, snaps[n]? = some s → ∀ i j k, Lat.InBox b.domain [i, j, k] →
      readLDS s [i, j, k] = some ((fun n => valLDS (u n)) n i j k) := by
    intro n s hs i j k hin
    obtain ⟨g1, g2, g3, g4, g5, g6⟩ := hm.place i j k hin
    exact h3 n s hs i j k (by simpa using g1) (by simpa using g2) (by simpa using g3) (by simpa using g4) (by simpa using g5)
      (by simpa using g6)
  obtain ⟨st, k1, k2, k3, k4⟩ := track (extra := extraLDS) (degen := degen) (snaps := snaps) (by
    intro h; rw [h] at h2; exact hne (List.length_eq_zero_iff.1 h2.symm)) (h2 ▸ hb) hm.start hread ord ho
  have hF : (fun v => (valAt (fun n => valLDS (u n)) v).w) =
      fun v (c : Fin 3) => at4 (fun t => cross (u t) (curl2 (u t)) (c : Nat)) v := by
    funext v c
    fin_cases c <;> rfl
  refine ⟨snaps, st, h1, k1, k2, ?_, ?_⟩
  · intro e
    rw [k3 e, h2, hF]
  · intro e p vs hp hvs
    have := k4 e p vs hp hvs
    rw [hF] at this
    exact { this with scal := this.scal.trans (extraLDS_eq u vs _) }

theorem valSH_masked (f : Int → Int → Int → Rat) (DW DH DD : Nat) (i j k : Int) (h : 2 ≤ i ∧ i < (DW : Int) - 2 ∧ 2 ≤ j ∧
    j < (DH : Int) - 2 ∧ 2 ≤ k ∧ k < (DD : Int) - 2) :
    valSH (fun c i j k => if 1 ≤ i ∧ i < (DW : Int) - 1 ∧ 1 ≤ j ∧ j < (DH : Int) - 1 ∧ 1 ≤ k ∧ k < (DD : Int) - 1
      then grad f c i j k else 0) i j k = valSH (grad f) i j k := by
  have hj : ∀ c d : Int, jac (fun c i j k => if 1 ≤ i ∧ i < (DW : Int) - 1 ∧ 1 ≤ j ∧ j < (DH : Int) - 1 ∧ 1 ≤ k ∧ k < (DD : Int) - 1
      then grad f c i j k else 0) c d i j k = jac (grad f) c d i j k := by
    intro c d
    unfold jac Grad.central
    split
    · beta_reduce; rw [if_pos (by omega), if_pos (by omega)]
    · split
      · beta_reduce; rw [if_pos (by omega), if_pos (by omega)]
      · beta_reduce; rw [if_pos (by omega), if_pos (by omega)]
  have hin : 1 ≤ i ∧ i < (DW : Int) - 1 ∧ 1 ≤ j ∧ j < (DH : Int) - 1 ∧ 1 ≤ k ∧ k < (DD : Int) - 1 := by omega
  simp only [valSH, cross, acceleration, hj, if_pos hin]

/-- C99: the ridge and valley tracker: as the Sujudi–Haimes tracker with the gradient of the scalar data for the velocity (so
the acceleration is the Hessian applied to the gradient); the third scalar is the data, interpolated. -/
theorem C99_ridge_valley (b : Box 3) (degen : (Fin 3 → Fin 2 → Rat) → Fin 3 → Rat) (DW DH DD : Nat) (data : List (Nd Rat))
    (f : Nat → Int → Int → Int → Rat) (hne : data ≠ [])
    (hdata : ∀ n a, data[n]? = some a → a.dims = [DW, DH, DD] ∧ Holds3 a DW DH DD (f n))
    (hb : Gen.Shaped b data.length) (hm : Margin 2 b DW DH DD) (ord : Nat → Scope → List Int)
    (ho : ∀ k, Complete (cfg b extraRV degen) (ord k)) :
    ∃ snaps st, mapAll snapRV data = some snaps ∧
      Gen.run (tracker (cfg b extraRV degen) readRV).prog (Gen.driveOps snaps ord) Gen.St.init = some st ∧
      Ser.Sorted st.inter ∧
      (∀ e, (∃ p, (e, p) ∈ st.inter) ↔
        ∃ vs, Crossing b data.length (fun v c => at4 (fun t => cross (grad (f t)) (acceleration (grad (f t))) (c : Nat)) v) e vs) ∧
      ∀ e p vs, (e, p) ∈ st.inter → e.vertices 4 = some [vs 0, vs 1, vs 2] →
        Found b (fun v c => at4 (fun t => cross (grad (f t)) (acceleration (grad (f t))) (c : Nat)) v) vs e p fun mu =>
        [interp vs mu (at4 fun t => cross (grad (f t)) (acceleration (grad (f t))) 2),
          cubicDiscriminant (Num.charPoly3 (jacobianAt (fun t => grad (f t)) vs mu)) * 10 ^ 10, interp vs mu (at4 f)] := by
  obtain ⟨snaps, h1, h2, h3⟩ := snaps_of (snap := snapRV) (data := data)
    (R := fun n s => ∀ i j k : Int, 2 ≤ i → i < DW - 2 → 2 ≤ j → j < DH - 2 → 2 ≤ k → k < DD - 2 →
      readRV s [i, j, k] = some { valSH (grad (f n)) i j k with s := f n i j k }) fun n a ha => by
    obtain ⟨s, s1, s2⟩ := snapRV_spec a DW DH DD (f n) (hdata n a ha).1 (hdata n a ha).2
    refine ⟨s, s1, fun i j k g1 g2 g3 g4 g5 g6 => ?_⟩
    rw [s2 i j k g1 g2 g3 g4 g5 g6, valSH_masked (f n) DW DH DD i j k ⟨g1, g2, g3, g4, g5, g6⟩]
  have hread : ∀ (n : Nat) s, snaps[n]? = some s → ∀ i j k, Lat.InBox b.domain [i, j, k] →
      readRV s [i, j, k] = some ((fun n i j k => { valSH (grad (f n)) i j k with s := f n i j k }) n i j k) := by
    intro n s hs i j k hin
    obtain ⟨g1, g2, g3, g4, g5, g6⟩ := hm.place i j k hin
    exact h3 n s hs i j k (by simpa using g1) (by simpa using g2) (by simpa using g3) (by simpa using g4) (by simpa using g5)
      (by simpa using g6)
  obtain ⟨st, k1, k2, k3, k4⟩ := track (extra := extraRV) (degen := degen) (snaps := snaps) (by
    intro h; rw [h] at h2; exact hne (List.length_eq_zero_iff.1 h2.symm)) (h2 ▸ hb) hm.start hread ord ho
  have hF : (fun v => (valAt (fun n i j k => { valSH (grad (f n)) i j k with s := f n i j k }) v).w) =
      fun v (c : Fin 3) => at4 (fun t => cross (grad (f t)) (acceleration (grad (f t))) (c : Nat)) v := by
    funext v c
    fin_cases c <;> rfl
  refine ⟨snaps, st, h1, k1, k2, ?_, ?_⟩
  · intro e
    rw [k3 e, h2, hF]
  · intro e p vs hp hvs
    have := k4 e p vs hp hvs
    rw [hF] at this
    refine { this with scal := this.scal.trans ?_ }
    unfold extraRV
    have hx := extraSH_eq (fun t => grad (f t)) vs p.mu
    have hs : (fun i => (valAt (fun n i j k => { valSH (grad (f n)) i j k with s := f n i j k }) (vs i)).s) =
        fun i => at4 f (vs i) := rfl
    rw [hs, lerpS2_interp]
    exact congrArg (· ++ [interp vs p.mu (at4 f)]) hx

theorem half_jac {u : Field} (hu : ∀ c i j k, ∃ z : Int, u c i j k = z) (c d i j k : Int) : ∃ z : Int, jac u c d i j k * 2 = z := by
  have key : ∀ x y : Rat, (∃ z : Int, x = z) → (∃ z : Int, y = z) → ∃ z : Int, (x - y) / 2 * 2 = z := by
    rintro x y ⟨a, rfl⟩ ⟨b, rfl⟩
    exact ⟨a - b, by push_cast; ring⟩
  unfold jac Grad.central
  split
  · exact key _ _ (hu _ _ _ _) (hu _ _ _ _)
  · split
    · exact key _ _ (hu _ _ _ _) (hu _ _ _ _)
    · exact key _ _ (hu _ _ _ _) (hu _ _ _ _)

theorem half_cross {u : Field} (hu : ∀ c i j k, ∃ z : Int, u c i j k = z) (c i j k : Int) :
    ∃ z : Int, cross u (acceleration u) c i j k * 2 ^ 21 = z := by
  have hacc : ∀ c : Int, ∃ z : Int, acceleration u c i j k * 2 = z := by
    intro c
    obtain ⟨a0, h0⟩ := half_jac hu c 0 i j k
    obtain ⟨a1, h1⟩ := half_jac hu c 1 i j k
    obtain ⟨a2, h2⟩ := half_jac hu c 2 i j k
    obtain ⟨b0, g0⟩ := hu 0 i j k
    obtain ⟨b1, g1⟩ := hu 1 i j k
    obtain ⟨b2, g2⟩ := hu 2 i j k
    refine ⟨a0 * b0 + a1 * b1 + a2 * b2, ?_⟩
    unfold acceleration
    push_cast
    rw [← h0, ← h1, ← h2, ← g0, ← g1, ← g2]
    ring
  have key : ∀ c d : Int, ∃ z : Int, (u c i j k * acceleration u d i j k - u d i j k * acceleration u c i j k) * 2 ^ 21 = z := by
    intro c d
    obtain ⟨a, ha⟩ := hacc c
    obtain ⟨b, hb⟩ := hacc d
    obtain ⟨x, hx⟩ := hu c i j k
    obtain ⟨y, hy⟩ := hu d i j k
    refine ⟨(x * b - y * a) * 2 ^ 20, ?_⟩
    push_cast
    rw [← ha, ← hb, ← hx, ← hy]
    ring
  unfold cross
  split
  · exact key 1 2
  · split
    · exact key 2 0
    · exact key 0 1

/-- C102, what holds of every point of the Sujudi–Haimes tracker (integer velocities): in the interpolation of velocity ×
acceleration over the triangle, the point is the only one where the first two components vanish; the third component there is
the scalar `residue`.  So the two vectors are parallel there exactly if `residue` is zero.  What is missing: `residue` need not
be zero (`C102_not_parallel`, for vorticity), and lines where the first two components vanish together are missed
(`C102_planar_none`). -/
theorem C102_parallel_partial (b : Box 3) (degen : (Fin 3 → Fin 2 → Rat) → Fin 3 → Rat) (DW DH DD : Nat) (data : List (Nd Rat))
    (u : Nat → Field) (hne : data ≠ []) (hdata : ∀ n a, data[n]? = some a → a.dims = [3, DW, DH, DD] ∧ Holds4 a 3 DW DH DD (u n))
    (hint : ∀ n c i j k, ∃ z : Int, u n c i j k = z)
    (hb : Gen.Shaped b data.length) (hm : Margin 2 b DW DH DD) (ord : Nat → Scope → List Int)
    (ho : ∀ k, Complete (cfg b extraSH degen) (ord k)) :
    ∃ snaps st, mapAll snapSH data = some snaps ∧
      Gen.run (tracker (cfg b extraSH degen) readSH).prog (Gen.driveOps snaps ord) Gen.St.init = some st ∧
      ∀ e p vs, (e, p) ∈ st.inter → e.vertices 4 = some [vs 0, vs 1, vs 2] →
        (∀ mu : Fin 3 → Rat, mu 0 + mu 1 + mu 2 = 1 →
          ((interp vs mu (at4 fun t => cross (u t) (acceleration (u t)) 0) = 0 ∧
            interp vs mu (at4 fun t => cross (u t) (acceleration (u t)) 1) = 0) ↔ mu = p.mu)) ∧
        p.scal.head? = some (interp vs p.mu (at4 fun t => cross (u t) (acceleration (u t)) 2)) ∧
        ((∀ c : Fin 3, interp vs p.mu (at4 fun t => cross (u t) (acceleration (u t)) (c : Nat)) = 0) ↔ p.scal.head? = some 0) := by
  obtain ⟨snaps, st, h1, h2, -, -, h5⟩ := C99_sujudi_haimes b degen DW DH DD data u hne hdata hb hm ord ho
  refine ⟨snaps, st, h1, h2, fun e p vs hp hvs => ?_⟩
  have hf := h5 e p vs hp hvs
  have hz := hf.zero fun i j => half_cross (hint _) _ _ _ _
  have hs : p.scal.head? = some (interp vs p.mu (at4 fun t => cross (u t) (acceleration (u t)) 2)) := by rw [hf.scal]; rfl
  refine ⟨hz, hs, ?_⟩
  obtain ⟨z0, z1⟩ := (hz p.mu hf.place.2.1).2 rfl
  rw [hs]
  constructor
  · intro h
    exact congrArg some (h 2)
  · intro h c
    have h' := Option.some.inj h
    fin_cases c
    · exact z0
    · exact z1
    · exact h'

/-- C103: the Sujudi–Haimes tracker on any domain inside the array: as C99, but with the cross product replaced by zero on the
outermost layer of the array, and the velocity gradient replaced by zero on the two outermost layers. -/
theorem C103_any_domain (b : Box 3) (degen : (Fin 3 → Fin 2 → Rat) → Fin 3 → Rat) (DW DH DD : Nat) (data : List (Nd Rat))
    (u : Nat → Field) (hne : data ≠ []) (hdata : ∀ n a, data[n]? = some a → a.dims = [3, DW, DH, DD] ∧ Holds4 a 3 DW DH DD (u n))
    (hb : Gen.Shaped b data.length) (hm : Margin 0 b DW DH DD) (ord : Nat → Scope → List Int)
    (ho : ∀ k, Complete (cfg b extraSH degen) (ord k)) :
    ∃ snaps st, mapAll snapSH data = some snaps ∧
      Gen.run (tracker (cfg b extraSH degen) readSH).prog (Gen.driveOps snaps ord) Gen.St.init = some st ∧
      Ser.Sorted st.inter ∧
      (∀ e, (∃ p, (e, p) ∈ st.inter) ↔
        ∃ vs, Crossing b data.length (fun v c => at4 (fun t i j k => if Away 1 DW DH DD i j k then
          cross (u t) (acceleration (u t)) (c : Nat) i j k else 0) v) e vs) ∧
      ∀ e p vs, (e, p) ∈ st.inter → e.vertices 4 = some [vs 0, vs 1, vs 2] →
        Found b (fun v c => at4 (fun t i j k => if Away 1 DW DH DD i j k then
          cross (u t) (acceleration (u t)) (c : Nat) i j k else 0) v) vs e p fun mu =>
        [interp vs mu (at4 fun t i j k => if Away 1 DW DH DD i j k then cross (u t) (acceleration (u t)) 2 i j k else 0),
          cubicDiscriminant (Num.charPoly3 fun c d => interp vs mu (at4 fun t i j k => if Away 2 DW DH DD i j k then
            jac (u t) ((c : Fin 3) : Nat) ((d : Fin 3) : Nat) i j k else 0)) * 10 ^ 10] := by
  obtain ⟨snaps, h1, h2, h3⟩ := snaps_of (snap := snapSH) (data := data)
    (R := fun n s => ∀ i j k : Int, 0 ≤ i → i < DW → 0 ≤ j → j < DH → 0 ≤ k → k < DD →
      readSH s [i, j, k] = some (valAll (u n) DW DH DD i j k)) fun n a ha => by
    obtain ⟨s, s1, -, s3⟩ := coreSnap_all a DW DH DD (u n) (hdata n a ha).2
    refine ⟨s, ?_, s3⟩
    unfold snapSH
    rw [(hdata n a ha).1]
    exact s1
  have hread : ∀ (n : Nat) s, snaps[n]? = some s → ∀ i j k, Lat.InBox b.domain [i, j, k] →
      readSH s [i, j, k] = some ((fun n => valAll (u n) DW DH DD) n i j k) := by
    intro n s hs i j k hin
    obtain ⟨g1, g2, g3, g4, g5, g6⟩ := hm.place i j k hin
    exact h3 n s hs i j k (by simpa using g1) (by simpa using g2) (by simpa using g3) (by simpa using g4) (by simpa using g5)
      (by simpa using g6)
  obtain ⟨st, k1, k2, k3, k4⟩ := track (extra := extraSH) (degen := degen) (snaps := snaps) (by
    intro h; rw [h] at h2; exact hne (List.length_eq_zero_iff.1 h2.symm)) (h2 ▸ hb) hm.start hread ord ho
  have hF : (fun v => (valAt (fun n => valAll (u n) DW DH DD) v).w) =
      fun v (c : Fin 3) => at4 (fun t i j k => if Away 1 DW DH DD i j k then cross (u t) (acceleration (u t)) (c : Nat) i j k else 0) v := by
    funext v c
    simp only [valAt, at4, valAll]
    split
    · fin_cases c <;> rfl
    · rfl
  refine ⟨snaps, st, h1, k1, k2, ?_, ?_⟩
  · intro e
    rw [k3 e, h2, hF]
  · intro e p vs hp hvs
    have := k4 e p vs hp hvs
    rw [hF] at this
    refine { this with scal := this.scal.trans ?_ }
    unfold extraSH
    have hw : ∀ i, (valAt (fun n => valAll (u n) DW DH DD) (vs i)).w 2 =
        at4 (fun t i j k => if Away 1 DW DH DD i j k then cross (u t) (acceleration (u t)) 2 i j k else 0) (vs i) := by
      intro i
      exact congrFun (congrFun hF (vs i)) 2
    have hJ : lerpS2m3x3 (fun i => (valAt (fun n => valAll (u n) DW DH DD) (vs i)).J) p.mu = fun j k =>
        (fun (c d : Fin 3) => interp vs p.mu (at4 fun t i j k => if Away 2 DW DH DD i j k then
            jac (u t) (c : Nat) (d : Nat) i j k else 0)) k j := by
      have hv : ∀ i (j k : Fin 3), (valAt (fun n => valAll (u n) DW DH DD) (vs i)).J j k =
          at4 (fun t x y z => if Away 2 DW DH DD x y z then jac (u t) (k : Nat) (j : Nat) x y z else 0) (vs i) := by
        intro i j k
        simp only [valAt, at4, valAll]
        split
        · fin_cases j <;> fin_cases k <;> rfl
        · rfl
      funext j k
      simp only [lerpS2m3x3, hv, interp]
      ring
    rw [hJ, charPoly3_transpose]
    simp only [hw]
    rw [lerpS2_interp]

end Verif.Swirl
