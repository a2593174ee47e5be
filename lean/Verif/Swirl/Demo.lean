import Verif.Swirl.Props
/-! Concrete cases for C99–C101, and the counterexamples (C101, C102). -/
namespace Verif.Swirl
open Verif.SRM
open Verif.ND (Nd)
open Verif.Grad (Holds3 Holds4 runOp runOp_spec loop3 loop4 irange mem_loop3 mem_loop4 mem_irange)
open Verif.Gen (Box InsideV mapAll)
open Verif.Ctr (IsElem)
open Verif.CLT (tracker inTriangle Complete)

/-- Every velocity field is stored in some array. -/
theorem array4 (u : Field) (D1 D2 D3 : Nat) : ∃ a : Nd Rat, a.dims = [3, D1, D2, D3] ∧ Holds4 a 3 D1 D2 D3 u := by
  obtain ⟨r, -, -, r2, -, r4, -⟩ := runOp_spec (K := Rat) [3, D1, D2, D3] (by simp) (fun
      | [c, i, j, k] => u c i j k
      | _ => 0) (loop4 (irange 0 3) (irange 0 D1) (irange 0 D2) (irange 0 D3) fun c i j k => [([c, i, j, k], some (u c i j k))])
      _ (List.Perm.refl _) (by
    intro w hw
    obtain ⟨c, i, j, k, hc, hi, hj, hk, h⟩ := mem_loop4.1 hw
    rw [mem_irange] at hc hi hj hk
    rw [List.mem_singleton] at h
    subst h
    exact ⟨Grad.valid4 ⟨hc, hi, hj, hk⟩, rfl⟩)
  refine ⟨r, r2, ⟨fun c i j k h1 h2 h3 h4 h5 h6 h7 h8 => ?_⟩⟩
  exact r4 ([c, i, j, k], some (u c i j k)) (mem_loop4.2 ⟨c, i, j, k, mem_irange.2 ⟨h1, h2⟩, mem_irange.2 ⟨h3, h4⟩,
    mem_irange.2 ⟨h5, h6⟩, mem_irange.2 ⟨h7, h8⟩, List.mem_singleton.2 rfl⟩)

/-- Every scalar field is stored in some array. -/
theorem array3 (f : Int → Int → Int → Rat) (D1 D2 D3 : Nat) : ∃ a : Nd Rat, a.dims = [D1, D2, D3] ∧ Holds3 a D1 D2 D3 f := by
  obtain ⟨r, -, -, r2, -, r4, -⟩ := runOp_spec (K := Rat) [D1, D2, D3] (by simp) (fun
      | [i, j, k] => f i j k
      | _ => 0) (loop3 (irange 0 D1) (irange 0 D2) (irange 0 D3) fun i j k => [([i, j, k], some (f i j k))])
      _ (List.Perm.refl _) (by
    intro w hw
    obtain ⟨i, j, k, hi, hj, hk, h⟩ := mem_loop3.1 hw
    rw [mem_irange] at hi hj hk
    rw [List.mem_singleton] at h
    subst h
    exact ⟨Grad.valid3 ⟨hi, hj, hk⟩, rfl⟩)
  refine ⟨r, r2, ⟨fun i j k h3 h4 h5 h6 h7 h8 => ?_⟩⟩
  exact r4 ([i, j, k], some (f i j k)) (mem_loop3.2 ⟨i, j, k, mem_irange.2 ⟨h3, h4⟩,
    mem_irange.2 ⟨h5, h6⟩, mem_irange.2 ⟨h7, h8⟩, List.mem_singleton.2 rfl⟩)

/-- a domain of 2 × 2 × 2 vertices at distance `s` from the faces of the array -/
def cube (s : Nat) : Box 3 :=
  { domain := ⟨[s, s, s], [2, 2, 2]⟩, core := ⟨[s, s, s], [2, 2, 2]⟩, astart := [0, 0, 0], t0 := 0, t1 := 100 }

theorem cube_shaped (s : Nat) : Gen.Shaped (cube s) 1 :=
  { pos := by decide, dlen := ⟨rfl, rfl⟩, core := rfl, alen := rfl, start := rfl, stop := by show (1 : Int) ≤ 100 + 1; decide }

theorem cube_place {s : Nat} {i j k : Int} (h : Lat.InBox (cube s).domain [i, j, k]) :
    ((s : Int) ≤ i ∧ i < s + 2) ∧ ((s : Int) ≤ j ∧ j < s + 2) ∧ (s : Int) ≤ k ∧ k < s + 2 :=
  ⟨h.2 0 s 2 i rfl rfl rfl, h.2 1 s 2 j rfl rfl rfl, h.2 2 s 2 k rfl rfl rfl⟩

theorem cube_margin (s : Nat) : Margin s (cube s) (2 * s + 2) (2 * s + 2) (2 * s + 2) where
  start := rfl
  place := by
    intro i j k h
    have := cube_place h
    push_cast
    omega

/-- a triangle in the lower face of the cube -/
def tri (s : Int) : Fin 3 → Vtx := ![[s, s, s, 0], [s + 1, s, s, 0], [s + 1, s + 1, s, 0]]

theorem tri_cell (s : Int) : Cell 4 2 [s, s, s, 0] (List.ofFn (tri s)) where
  len := rfl
  clen := rfl
  head := rfl
  chain := by simp [tri, VLt]
  cube := by simp [tri, Cube, sub]

theorem tri_inside (s : Nat) : ∀ i, InsideV (cube s) 1 (tri s i) := by
  have hb : ∀ x y z : Int, (s : Int) ≤ x → x < s + 2 → (s : Int) ≤ y → y < s + 2 → (s : Int) ≤ z → z < s + 2 →
      Lat.InBox (cube s).domain [x, y, z] := by
    intro x y z h1 h2 h3 h4 h5 h6
    refine ⟨rfl, fun d a n v p q r => ?_⟩
    rcases d with _ | _ | _ | d <;> simp [cube] at p q r <;> omega
  intro i
  fin_cases i
  · exact ⟨rfl, hb s s s (by omega) (by omega) (by omega) (by omega) (by omega) (by omega), 0, rfl, by decide⟩
  · exact ⟨rfl, hb (s + 1) s s (by omega) (by omega) (by omega) (by omega) (by omega) (by omega), 0, rfl, by decide⟩
  · exact ⟨rfl, hb (s + 1) (s + 1) s (by omega) (by omega) (by omega) (by omega) (by omega) (by omega), 0, rfl, by decide⟩

theorem tri_index (s : Nat) (i : Fin 3) :
    cornerIndex (tri s i) (cube s).bounds.lb (cube s).bounds.dimprod = (![0, 1, 3] : Fin 3 → Int) i := by
  have hb : (cube s).bounds.dimprod = [1, 2, 4, 8] := by
    have e : ((s : Int) + 2 - 1 - s + 1).toNat = 2 := by omega
    simp [Gen.Box.bounds, cube, Bounds.dimprod, Bounds.sizes, strides, e]
  rw [hb]
  fin_cases i <;> simp [Gen.Box.bounds, cube, tri, cornerIndex, dot]

theorem tri_crossing (s : Nat) (F : Vtx → Fin 3 → Rat) (G : Fin 3 → Fin 2 → Int)
    (hF : ∀ i (j : Fin 2), F (tri s i) (j.castLE (by decide)) = G i j)
    (hG : SoS.criticalPointInSimplex2 (fun i j => G i j * 2 ^ 21) ![0, 1, 3] = true) :
    ∃ e, Crossing (cube s) 1 F e (tri s) := by
  obtain ⟨e, he, hv⟩ := Ctr.isElem_of_cell (n := 4) (by omega) (by omega) (tri_cell s)
  refine ⟨e, he, hv, tri_inside s, ?_⟩
  have h1 : (fun i (j : Fin 2) => Trk.quant (2 ^ 21) (F (tri s i) (j.castLE (by decide)))) = fun i j => G i j * 2 ^ 21 := by
    funext i j
    rw [hF]
    apply Trk.quant_int
    push_cast
    ring
  have h2 : (fun i => cornerIndex (tri s i) (cube s).bounds.lb (cube s).bounds.dimprod) = (![0, 1, 3] : Fin 3 → Int) :=
    funext (tri_index s)
  rw [h1, h2]
  exact hG

/-! ### a vortex along the `z` axis with axial flow -/

/-- velocity `(-y', x', w)` around the axis through `(s + 2/3, s + 1/3)` -/
def vortex (s : Int) (w : Rat) : Field := fun c i j _ =>
  if c = 0 then -(3 * j - 3 * s - 1) else if c = 1 then 3 * i - 3 * s - 2 else w

/-- C99: the hypotheses hold for a vortex with axial flow, and a point is found on its axis. -/
example : ∃ (u : Field) (data : List (Nd Rat)), data ≠ [] ∧
    (∀ (n : Nat) a, data[n]? = some a → a.dims = [3, 6, 6, 6] ∧ Holds4 a 3 6 6 6 u) ∧ Gen.Shaped (cube 2) data.length ∧
    Margin 2 (cube 2) 6 6 6 ∧
    (∃ e vs, Crossing (cube 2) data.length (fun v c => at4 (fun _ => cross u (acceleration u) (c : Nat)) v) e vs) ∧
    ∃ z : ℂ, z.im ≠ 0 ∧ (z • (1 : Matrix (Fin 3) (Fin 3) ℂ) -
      Matrix.of fun c d => (jacobianAt (fun _ => u) (tri 2) ![1 / 3, 1 / 3, 1 / 3] c d : ℂ)).det = 0 := by
  obtain ⟨a, h1, h2⟩ := array4 (vortex 2 1) 6 6 6
  refine ⟨vortex 2 1, [a], by simp, ?_, cube_shaped 2, cube_margin 2, ?_, ?_⟩
  · intro n b hb
    rcases n with _ | n <;> simp at hb
    subst hb
    exact ⟨h1, h2⟩
  · obtain ⟨e, he⟩ := tri_crossing 2 (fun v c => at4 (fun _ => cross (vortex 2 1) (acceleration (vortex 2 1)) (c : Nat)) v)
      ![![-3, 6], ![-3, -3], ![6, -3]] (by
        intro i j
        fin_cases i <;> fin_cases j <;> norm_num [tri, at4, cross, acceleration, jac, vortex, Grad.central]) (by decide +kernel)
    exact ⟨e, _, he⟩
  · rw [← C100_swirl]
    have : jacobianAt (fun _ => vortex 2 1) (tri 2) ![1 / 3, 1 / 3, 1 / 3] = ![![0, -3, 0], ![3, 0, 0], ![0, 0, 0]] := by
      funext c d
      fin_cases c <;> fin_cases d <;> simp [jacobianAt, interp, tri, at4, jac, vortex, Grad.central, Matrix.cons_val] <;> norm_num
    rw [this]
    decide +kernel

/-- C99: a ridge line of `x'² + y'² + z` -/
example : ∃ (f : Int → Int → Int → Rat) (data : List (Nd Rat)), data ≠ [] ∧
    (∀ (n : Nat) a, data[n]? = some a → a.dims = [6, 6, 6] ∧ Holds3 a 6 6 6 f) ∧ Gen.Shaped (cube 2) data.length ∧
    Margin 2 (cube 2) 6 6 6 ∧
    ∃ e vs, Crossing (cube 2) data.length (fun v c => at4 (fun _ => cross (grad f) (acceleration (grad f)) (c : Nat)) v) e vs := by
  let f : Int → Int → Int → Rat := fun i j k => (3 * i - 8) ^ 2 + (3 * j - 7) ^ 2 + k
  obtain ⟨a, h1, h2⟩ := array3 f 6 6 6
  refine ⟨f, [a], by simp, ?_, cube_shaped 2, cube_margin 2, ?_⟩
  · intro n b hb
    rcases n with _ | n <;> simp at hb
    subst hb
    exact ⟨h1, h2⟩
  · obtain ⟨e, he⟩ := tri_crossing 2 (fun v c => at4 (fun _ => cross (grad f) (acceleration (grad f)) (c : Nat)) v)
      ![![108, -216], ![108, 108], ![-216, 108]] (by
        intro i j
        fin_cases i <;> fin_cases j <;> norm_num [tri, at4, cross, acceleration, jac, grad, f, Grad.central]) (by decide +kernel)
    exact ⟨e, _, he⟩

theorem single {R : Nd Rat → Prop} {a : Nd Rat} (h : R a) : ∀ (n : Nat) b, [a][n]? = some b → R b := by
  intro n b hb
  rcases n with _ | n <;> simp at hb
  subst hb
  exact h

/-- C101: for a vortex along the `z` axis (vorticity `(0, 0, 12)` at every vertex, no axial flow) a point of the axis is found,
with `vortmag` 0. -/
theorem C101_vortmag_zero (degen : (Fin 3 → Fin 2 → Rat) → Fin 3 → Rat) (ord : Nat → Scope → List Int)
    (ho : ∀ k, Complete (cfg (cube 1) extraLDS degen) (ord k)) :
    ∃ (a : Nd Rat) (u : Field) (s : Snap) (st : Gen.St Snap CLT.Pt) (e : Elem) (p : CLT.Pt),
      a.dims = [3, 4, 4, 4] ∧ Holds4 a 3 4 4 4 u ∧ (∀ i j k, curl2 u 0 i j k = 0 ∧ curl2 u 1 i j k = 0 ∧ curl2 u 2 i j k = 12) ∧
      snapLDS a = some s ∧
      Gen.run (tracker (cfg (cube 1) extraLDS degen) readLDS).prog (Gen.driveOps [s] ord) Gen.St.init = some st ∧
      (e, p) ∈ st.inter ∧ p.scal = [0, 0] := by
  obtain ⟨a, h1, h2⟩ := array4 (vortex 1 0) 4 4 4
  have hcurl : ∀ i j k, curl2 (vortex 1 0) 0 i j k = 0 ∧ curl2 (vortex 1 0) 1 i j k = 0 ∧ curl2 (vortex 1 0) 2 i j k = 12 := by
    intro i j k
    refine ⟨?_, ?_, ?_⟩ <;> simp [curl2, jac, vortex, Grad.central] <;> ring
  obtain ⟨snaps, st, k1, k2, -, k4, k5⟩ := C101_levy_degani_seginer_partial (cube 1) degen 4 4 4 [a] (fun _ => vortex 1 0)
    (by simp) (single (R := fun a => a.dims = [3, 4, 4, 4] ∧ Holds4 a 3 4 4 4 (vortex 1 0)) ⟨h1, h2⟩) (cube_shaped 1) (cube_margin 1) ord ho
  obtain ⟨e, he⟩ := tri_crossing 1 (fun v c => at4 (fun _ => cross (vortex 1 0) (curl2 (vortex 1 0)) (c : Nat)) v)
      ![![-24, -12], ![12, -12], ![12, 24]] (by
        intro i j
        fin_cases i <;> fin_cases j <;> norm_num [tri, at4, cross, curl2, jac, vortex, Grad.central]) (by decide +kernel)
  obtain ⟨p, hp⟩ := (k4 e).2 ⟨_, he⟩
  simp only [mapAll] at k1
  cases hs : snapLDS a with
  | none => rw [hs] at k1; cases k1
  | some s =>
    rw [hs] at k1
    simp only [Option.some.injEq] at k1
    subst k1
    refine ⟨a, vortex 1 0, s, st, e, p, h1, h2, hcurl, hs, k2, hp, ?_⟩
    have hf := (k5 e p _ hp he.verts).scal
    rw [hf]
    simp only [interp, at4, hcurl]
    simp [cross, hcurl, vortex]

/-! ### a point that is not on a vortex core line -/

/-- velocity `(100 - y'², 0, -x')` -/
def skew : Field := fun c i j _ => if c = 0 then 100 - (3 * j - 4) ^ 2 else if c = 1 then 0 else -(3 * i - 5)

/-- C102: only the first two components of the cross product are tested: for this velocity field a point is found although the
cross product of velocity and vorticity does not vanish anywhere in the domain; its `residue` is positive. -/
theorem C102_not_parallel (degen : (Fin 3 → Fin 2 → Rat) → Fin 3 → Rat) (ord : Nat → Scope → List Int)
    (ho : ∀ k, Complete (cfg (cube 1) extraLDS degen) (ord k)) :
    ∃ (a : Nd Rat) (u : Field) (s : Snap) (st : Gen.St Snap CLT.Pt) (e : Elem) (p : CLT.Pt) (r m : Rat),
      a.dims = [3, 4, 4, 4] ∧ Holds4 a 3 4 4 4 u ∧
      (∀ i j k : Int, Lat.InBox (cube 1).domain [i, j, k] → 500 ≤ cross u (curl2 u) 2 i j k) ∧ snapLDS a = some s ∧
      Gen.run (tracker (cfg (cube 1) extraLDS degen) readLDS).prog (Gen.driveOps [s] ord) Gen.St.init = some st ∧
      (e, p) ∈ st.inter ∧ p.scal = [r, m] ∧ 0 < r := by
  obtain ⟨a, h1, h2⟩ := array4 skew 4 4 4
  have hres : ∀ i j k : Int, cross skew (curl2 skew) 2 i j k = 6 * (100 - (3 * j - 4) ^ 2) := by
    intro i j k
    simp [cross, curl2, jac, skew, Grad.central]
    ring
  have hpos : ∀ i j k : Int, Lat.InBox (cube 1).domain [i, j, k] → 500 ≤ cross skew (curl2 skew) 2 i j k := by
    intro i j k hin
    rw [hres]
    have := (cube_place hin).2.1
    have hj : j = 1 ∨ j = 2 := by omega
    rcases hj with rfl | rfl <;> norm_num
  obtain ⟨snaps, st, k1, k2, -, k4, k5⟩ := C101_levy_degani_seginer_partial (cube 1) degen 4 4 4 [a] (fun _ => skew)
    (by simp) (single (R := fun a => a.dims = [3, 4, 4, 4] ∧ Holds4 a 3 4 4 4 skew) ⟨h1, h2⟩) (cube_shaped 1) (cube_margin 1) ord ho
  obtain ⟨e, he⟩ := tri_crossing 1 (fun v c => at4 (fun _ => cross skew (curl2 skew) (c : Nat)) v)
      ![![-12, 1188], ![6, 1188], ![6, -2304]] (by
        intro i j
        fin_cases i <;> fin_cases j <;> norm_num [tri, at4, cross, curl2, jac, skew, Grad.central]) (by decide +kernel)
  obtain ⟨p, hp⟩ := (k4 e).2 ⟨_, he⟩
  simp only [mapAll] at k1
  cases hs : snapLDS a with
  | none => rw [hs] at k1; cases k1
  | some s =>
    rw [hs] at k1
    simp only [Option.some.injEq] at k1
    subst k1
    have hf := k5 e p _ hp he.verts
    refine ⟨a, skew, s, st, e, p, _, _, h1, h2, hpos, hs, k2, hp, hf.scal, ?_⟩
    obtain ⟨m0, m1, -⟩ := hf.place
    have g0 := m0 0
    have g1 := m0 1
    have g2 := m0 2
    have e0 : at4 (fun _ => cross skew (curl2 skew) 2) (tri 1 0) = 594 := by rw [at4, hres]; simp [tri, Matrix.cons_val]; norm_num
    have e1 : at4 (fun _ => cross skew (curl2 skew) 2) (tri 1 1) = 594 := by rw [at4, hres]; simp [tri, Matrix.cons_val]; norm_num
    have e2 : at4 (fun _ => cross skew (curl2 skew) 2) (tri 1 2) = 576 := by rw [at4, hres]; simp [tri, Matrix.cons_val]; norm_num
    simp only [interp, Nat.cast_one, e0, e1, e2]
    linarith

/-- C102: what does not exist is not found, but a whole class of lines is not found either: if the third component of the
velocity is zero everywhere (a flow in planes `z = const`), there is no point at all, whatever the vortices.  (Here for the
Sujudi–Haimes tracker, any domain, any series.) -/
theorem C102_planar_none (b : Box 3) (T : Nat) (hb : Gen.Shaped b T) (u : Nat → Field) (h0 : ∀ t i j k, u t 2 i j k = 0) (e : Elem)
    (vs : Fin 3 → Vtx) : ¬ Crossing b T (fun v c => at4 (fun t => cross (u t) (acceleration (u t)) (c : Nat)) v) e vs := by
  intro h
  have hin : ∀ i, InBounds b.bounds (vs i) := fun i => Gen.insideV_bounds hb (Nat.le_refl _) (h.inside i)
  have hcell := cell_of_elem (n := 4) (by omega) (k := 2) (by omega) h.tri.dim h.tri.len h.verts
  have hnd : [vs 0, vs 1, vs 2].Nodup := hcell.chain.imp fun hh => hh.2
  have hinj : Function.Injective vs := by
    rw [show [vs 0, vs 1, vs 2] = List.ofFn vs by simp [List.ofFn_succ]] at hnd
    exact List.nodup_ofFn.1 hnd
  have h1 : Function.Injective (fun i => cornerIndex (vs i) b.bounds.lb b.bounds.dimprod) :=
    fun i j hij => hinj ((Gen.cornerIndex_facts hb (hin i)).2 _ (hin j) hij)
  have hz : (fun i (j : Fin 2) => Trk.quant (2 ^ 21) (at4 (fun t => cross (u t) (acceleration (u t))
      ((j.castLE (by decide : 2 ≤ 3) : Fin 3) : Nat)) (vs i))) = fun _ _ => 0 := by
    funext i j
    apply Trk.quant_int
    have hj : ∀ t d i j k, jac (u t) 2 d i j k = 0 := by
      intro t d i j k
      simp [jac, Grad.central, h0]
    fin_cases j <;> simp [at4, cross, acceleration, hj, h0]
  have hh := h.hit
  rw [hz] at hh
  have := (SoS.C95_hit2 _ _ h1 (fun i => (Gen.cornerIndex_facts hb (hin i)).1) hh).1
  exact this (by simp [SoS.orientZ, Matrix.det_fin_three, Fin.snoc])

/-- the vortex without axial flow is such a flow -/
example : ∀ (_ : Nat) (i j k : Int), vortex 1 0 2 i j k = 0 := fun _ _ _ _ => by simp [vortex]

/-- C102: the vortex with axial flow has integer velocities -/
example : ∀ (_ : Nat) (c i j k : Int), ∃ z : Int, vortex 2 1 c i j k = z := by
  intro _ c i j k
  unfold vortex
  split
  · exact ⟨-(3 * j - 3 * 2 - 1), by push_cast; ring⟩
  · split
    · exact ⟨3 * i - 3 * 2 - 2, by push_cast; ring⟩
    · exact ⟨1, by simp⟩

/-- the tasks in order are a complete scan -/
example : Complete (cfg (cube 1) extraLDS fun _ _ => 0) fun sc =>
    (List.range ((cube 1).core.sizes.prod * (scopeTypes 4 2 sc).length)).map Int.ofNat := fun _ => List.Perm.refl _

/-! ### the domain the command line program uses -/

/-- the domain of `ftk` for an array of 6 × 6 × 6 vertices: starts `(2, 2, 2)`, sizes `(6 - 2, 6 - 2, 6 - 2)`, that is the
vertices 2 to 5 of each axis (src/cli/ftk.cpp:712-713) -/
def cliBox : Box 3 :=
  { domain := ⟨[2, 2, 2], [4, 4, 4]⟩, core := ⟨[2, 2, 2], [4, 4, 4]⟩, astart := [0, 0, 0], t0 := 0, t1 := 0 }

/-- velocity `(a(x), b(x), 1)` -/
def bend : Field := fun c i _ _ =>
  if c = 0 then (if i = 5 then 3 else if i = 1 then -1 else 1) else if c = 1 then (if i = 4 then -2 else 0) else 1

/-- a triangle with one vertex on the face `z = 5` of the array -/
def wallTri : Fin 3 → Vtx := ![[3, 4, 4, 0], [4, 4, 4, 0], [4, 4, 5, 0]]

theorem wall_inside : ∀ i, InsideV cliBox 1 (wallTri i) := by
  have hb : ∀ x y z : Int, 2 ≤ x → x < 6 → 2 ≤ y → y < 6 → 2 ≤ z → z < 6 → Lat.InBox cliBox.domain [x, y, z] := by
    intro x y z h1 h2 h3 h4 h5 h6
    refine ⟨rfl, fun d a n v p q r => ?_⟩
    rcases d with _ | _ | _ | d <;> simp [cliBox] at p q r <;> omega
  intro i
  fin_cases i
  · exact ⟨rfl, hb 3 4 4 (by omega) (by omega) (by omega) (by omega) (by omega) (by omega), 0, rfl, by decide⟩
  · exact ⟨rfl, hb 4 4 4 (by omega) (by omega) (by omega) (by omega) (by omega) (by omega), 0, rfl, by decide⟩
  · exact ⟨rfl, hb 4 4 5 (by omega) (by omega) (by omega) (by omega) (by omega) (by omega), 0, rfl, by decide⟩

theorem cli_place {i j k : Int} (h : Lat.InBox cliBox.domain [i, j, k]) :
    (2 ≤ i ∧ i < 6) ∧ (2 ≤ j ∧ j < 6) ∧ 2 ≤ k ∧ k < 6 :=
  ⟨h.2 0 2 4 i rfl rfl rfl, h.2 1 2 4 j rfl rfl rfl, h.2 2 2 4 k rfl rfl rfl⟩

/-- C103: on the domain the command line program uses, the far layer of the array is included, where the cross product is
left at zero.  For this velocity field the sum of the first two components of velocity × acceleration is at least 1 wherever it
is computed in the domain, so they vanish together nowhere; yet a point is found, in a triangle with a vertex on the far layer. -/
theorem C103_cli_spurious (degen : (Fin 3 → Fin 2 → Rat) → Fin 3 → Rat) (ord : Nat → Scope → List Int)
    (ho : ∀ k, Complete (cfg cliBox extraSH degen) (ord k)) :
    ∃ (a : Nd Rat) (u : Field) (s : Snap) (st : Gen.St Snap CLT.Pt) (e : Elem) (p : CLT.Pt),
      a.dims = [3, 6, 6, 6] ∧ Holds4 a 3 6 6 6 u ∧
      (∀ i j k : Int, Lat.InBox cliBox.domain [i, j, k] → i < 5 → j < 5 → k < 5 →
        1 ≤ cross u (acceleration u) 0 i j k + cross u (acceleration u) 1 i j k) ∧
      snapSH a = some s ∧
      Gen.run (tracker (cfg cliBox extraSH degen) readSH).prog (Gen.driveOps [s] ord) Gen.St.init = some st ∧
      (e, p) ∈ st.inter ∧ e.vertices 4 = some [[3, 4, 4, 0], [4, 4, 4, 0], [4, 4, 5, 0]] := by
  obtain ⟨a, h1, h2⟩ := array4 bend 6 6 6
  have hpos : ∀ i j k : Int, Lat.InBox cliBox.domain [i, j, k] → i < 5 → j < 5 → k < 5 →
      1 ≤ cross bend (acceleration bend) 0 i j k + cross bend (acceleration bend) 1 i j k := by
    intro i j k hin hi hj hk
    have := (cli_place hin).1
    have hi : i = 2 ∨ i = 3 ∨ i = 4 := by omega
    rcases hi with rfl | rfl | rfl <;> norm_num [cross, acceleration, jac, bend, Grad.central]
  have hs : Gen.Shaped cliBox 1 :=
    { pos := by decide, dlen := ⟨rfl, rfl⟩, core := rfl, alen := rfl, start := rfl, stop := by show (1 : Int) ≤ 0 + 1; decide }
  have hm : Margin 0 cliBox 6 6 6 :=
    { start := rfl
      place := by
        intro i j k h
        have := cli_place h
        push_cast
        omega }
  obtain ⟨snaps, st, k1, k2, -, k4, -⟩ := C103_any_domain cliBox degen 6 6 6 [a] (fun _ => bend)
    (by simp) (single (R := fun a => a.dims = [3, 6, 6, 6] ∧ Holds4 a 3 6 6 6 bend) ⟨h1, h2⟩) hs hm ord ho
  have hcell : Cell 4 2 [3, 4, 4, 0] (List.ofFn wallTri) :=
    { len := rfl, clen := rfl, head := rfl, chain := by simp [wallTri, VLt], cube := by simp [wallTri, Cube, sub] }
  obtain ⟨e, he, hv⟩ := Ctr.isElem_of_cell (n := 4) (by omega) (by omega) hcell
  have hx : Crossing cliBox 1 (fun v c => at4 (fun _ i j k => if Away 1 6 6 6 i j k then
      cross bend (acceleration bend) (c : Nat) i j k else 0) v) e wallTri := by
    refine ⟨he, hv, wall_inside, ?_⟩
    have g1 : (fun i (j : Fin 2) => Trk.quant (2 ^ 21) ((fun v (c : Fin 3) => at4 (fun _ i j k => if Away 1 6 6 6 i j k then
        cross bend (acceleration bend) (c : Nat) i j k else 0) v) (wallTri i) (j.castLE (by decide)))) =
        fun i j => (![![1, 0], ![0, 1], ![0, 0]] : Fin 3 → Fin 2 → Int) i j * 2 ^ 21 := by
      funext i j
      apply Trk.quant_int
      fin_cases i <;> fin_cases j <;>
        norm_num [wallTri, at4, cross, acceleration, jac, bend, Grad.central, Away, Matrix.cons_val]
    rw [g1]
    decide +kernel
  obtain ⟨p, hp⟩ := (k4 e).2 ⟨_, hx⟩
  simp only [mapAll] at k1
  cases hs : snapSH a with
  | none => rw [hs] at k1; cases k1
  | some s =>
    rw [hs] at k1
    simp only [Option.some.injEq] at k1
    subst k1
    exact ⟨a, bend, s, st, e, p, h1, h2, hpos, hs, k2, hp, hv⟩

end Verif.Swirl
