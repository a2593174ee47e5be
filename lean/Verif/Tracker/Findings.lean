import Verif.Tracker.CurveProps
import Verif.Tracker.Online
/-! Concrete runs of the trackers: the hypotheses of C47, C48 and C72 can be met, and what happens when they
are not. -/
namespace Verif.Trk
open Verif.Ser (lookup mapPut Sorted)
open Verif.SRM
variable {d : Nat} {γ : Type}

/-- every task, in order -/
def inOrder (c : Cfg d γ) : Nat → Scope → List Int := fun _ sc => (List.range (ntasks c sc)).map Int.ofNat

theorem inOrder_complete (c : Cfg d γ) (k : Nat) : Complete c (inOrder c k) := fun _ => List.Perm.refl _

/-! ## one space dimension (the generic part of the code, on a mesh small enough to compute with) -/

/-- a line of four vertices, timesteps 0, 1, 2; the test of `robust_critical_point_in_simplex1` -/
def ex1 : Cfg 1 Unit :=
  { domain := ⟨[0], [4]⟩, core := ⟨[0], [4]⟩, astart := [0], t0 := 0, t1 := 2, streaming := false,
    test := fun V v => SoS.criticalPointInSimplex1 (fun i => V i 0) v, detail := fun _ _ => (), keep := fun _ => true }

/-- the same with streaming -/
def ex1s : Cfg 1 Unit := { ex1 with streaming := true }

/-- values on the line -/
def lin1 (f : List Rat) : Snap 1 :=
  { dims := [4], val := fun idx _ => some (f.getD (idx.getD 0 0).toNat 0), res := 1/4 }

/-- a zero that moves and closes, and one that leaves -/
def ser1 : List (Snap 1) := [lin1 [1, 1, -1, -1], lin1 [1, -1, 1, -1], lin1 [1, 1, 1, 1/2]]

theorem ex1_shaped : Shaped ex1 := ⟨by decide, by decide, by decide, by decide⟩
theorem ex1s_shaped : Shaped ex1s := ⟨by decide, by decide, by decide, by decide⟩

theorem lin1_covers (c : Cfg 1 Unit) (h1 : c.domain = ⟨[0], [4]⟩) (h2 : c.core = ⟨[0], [4]⟩) (h3 : c.astart = [0])
    (f : List Rat) : Covers c (lin1 f) where
  len := rfl
  lo := by
    intro i a st ha hs
    rw [h3] at ha; rw [h2] at hs
    rcases i with _ | i <;> simp at ha hs
    omega
  hi := by
    intro i a st m k cs cm ha hs hm hk hcs hcm
    rw [h3] at ha; rw [h1] at hs hm; rw [h2] at hcs hcm
    simp only [lin1] at hk
    rcases i with _ | i <;> simp at ha hs hm hk hcs hcm
    omega

theorem ser1_covers (c : Cfg 1 Unit) (h1 : c.domain = ⟨[0], [4]⟩) (h2 : c.core = ⟨[0], [4]⟩) (h3 : c.astart = [0]) :
    ∀ s ∈ ser1, Covers c s := by
  intro s hs
  simp only [ser1, List.mem_cons, List.not_mem_nil, or_false] at hs
  rcases hs with rfl | rfl | rfl <;> exact lin1_covers c h1 h2 h3 _

theorem ex1_zeroOrTwo : ZeroOrTwo ex1.test := by
  refine zeroOrTwo_of_card (d := 1) fun V v hv h0 => ?_
  exact SoS.C32_triangle (fun i => V i 0) v 0 (-1) hv fun i => by have := h0 i; omega

/-- C47: the hypotheses are met; pushes may run ahead of the advances. -/
example : ∃ st m, run ex1 ([.push (lin1 [1, 1, -1, -1]), .push (lin1 [1, -1, 1, -1]), .push (lin1 [1, 1, 1, 1/2]),
    .advance (inOrder ex1 0), .advance (inOrder ex1 1)] ++ [.update (inOrder ex1 2)]) St.init = some st ∧ st.calls.Nodup ∧
    (∀ e t, (e, t) ∈ st.calls ↔ Facet 1 e ∧ InCore ex1 e ∧ Spans 1 ser1.length e t) ∧ Sorted st.dcp ∧
    (∀ t < ser1.length, min (t + 2) ser1.length ≤ m t ∧ m t ≤ ser1.length) ∧
    (ex1.streaming = false → ∀ e cp, (e, cp) ∈ st.dcp ↔ Found ex1 ser1 m ser1.length e cp) := by
  refine C47_exactly_once ex1 ex1_shaped _ ser1 rfl rfl (by simp [Ahead]) (ser1_covers _ rfl rfl rfl) ?_ _ (inOrder_complete _ _)
  intro o ho
  simp only [List.mem_cons, List.not_mem_nil, or_false] at ho
  rcases ho with rfl | rfl | rfl | rfl | rfl <;> first | trivial | exact inOrder_complete _ _

/-- C72: the hypotheses are met, … -/
example : ∃ st gs, run ex1 (driveOps ser1 (inOrder ex1)) St.init = some st ∧ st.trajs = [] ∧
      offlineGroups (nbs 2) st.dcp = some gs ∧ ∀ gs' : List (Elem × List (Elem × CP Unit)), gs'.Perm gs →
        ∃ ts, offlineCurves (nbs 2) gs' = some ts ∧ Follows ex1 ser1 256 ts := by
  refine C72_follows ex1 ex1_shaped rfl (fun _ => rfl) ex1_zeroOrTwo rfl rfl ser1 (by simp [ser1]) (by decide)
    (ser1_covers _ rfl rfl rfl) ?_ 256 ?_ _ (inOrder_complete _)
  · intro s hs idx _ j
    simp only [ser1, List.mem_cons, List.not_mem_nil, or_false] at hs
    rcases hs with rfl | rfl | rfl <;> rfl
  · intro t ht
    have : ∀ t < 3, scale (ser1.take (t + 2)) = 256 := by decide +kernel
    exact this t ht

/-- … and the result is a closed curve and one that ends at the boundary (the facets are given by corner,
dimension and type). -/
theorem ser1_result : (track ex1 ser1 (inOrder ex1)).map (fun ts => ts.map fun t => (t.pts.map (elemOf ex1), t.loop)) =
    some [([⟨[0, 0], 1, 2⟩, ⟨[0, 1], 1, 1⟩, ⟨[1, 1], 1, 0⟩, ⟨[1, 1], 1, 2⟩, ⟨[1, 1], 1, 1⟩, ⟨[1, 0], 1, 0⟩], true),
      ([⟨[1, 0], 1, 1⟩, ⟨[2, 0], 1, 0⟩, ⟨[2, 1], 1, 1⟩, ⟨[3, 1], 1, 0⟩], false)] := by
  decide +kernel

/-- C48 (streaming): the hypotheses are met; the curves of the same series are cut into pieces, and the
points of the last timestep would be missing. -/
example : ∃ (ts : List (Traj (CP Unit))) (all lost : List (Elem × CP Unit)), track ex1s ser1 (inOrder ex1s) = some ts ∧
    (all.map Prod.fst).Nodup ∧ (∀ e cp, (e, cp) ∈ all ↔ Found ex1s ser1 (fun t => t + 2) (ser1.length - 1) e cp) ∧
    (ts.flatMap Traj.pts ++ lost.map Prod.snd).Perm (all.map Prod.snd) ∧
    (∀ kv ∈ lost, kv ∈ all ∧ 2 < deg (nbs 2) (all.map Prod.fst) kv.1) ∧
    (∀ kv ∈ all, elemOf ex1s kv.2 = kv.1) ∧ ∀ t ∈ ts, t.pts ≠ [] ∧ Chained (nbs 2) (elemOf ex1s) t.pts :=
  C48_streaming_tracker ex1s ex1s_shaped rfl ser1 (by simp [ser1]) (ser1_covers _ rfl rfl rfl) _ (inOrder_complete _)

/-- a zero standing still -/
def still : Snap 1 := lin1 [1, 1, -1, -1]

/-- points on the trajectories after a sequence of calls -/
def pointsAfter (c : Cfg 1 Unit) (os : List (Op 1)) : Option (List (List Int)) :=
  (run c os St.init).map fun st => st.trajs.map fun t => t.pts.map CP.tag

/-- **Finding** (C48): calling `update_timestep` and then `advance_timestep` in streaming mode, which tests the
same timestep twice, puts each of its points on a trajectory twice. -/
theorem C48_update_twice_duplicates :
    (pointsAfter ex1s [.push still, .push still, .update (inOrder ex1s 0), .advance (inOrder ex1s 0)]).map
        (fun ts => decide ts.flatten.Nodup) = some false ∧
    (pointsAfter ex1s [.push still, .push still, .advance (inOrder ex1s 0)]).map
        (fun ts => decide ts.flatten.Nodup) = some true := by
  decide +kernel

/-- **Finding** (C47): an advance made while only one snapshot is there skips the interval after it for ever:
the curve of a zero standing still has no point between timesteps 0 and 1. -/
theorem C47_early_advance_skips_interval :
    (run ex1 [.push still, .advance (inOrder ex1 0), .push still, .update (inOrder ex1 1)] St.init).map
        (fun st => st.calls.filter fun k => decide (k.2 = 0 ∧ k.1.type ∈ scopeTypes 2 1 .interval)) = some [] ∧
    ((run ex1 [.push still, .push still, .advance (inOrder ex1 0), .update (inOrder ex1 1)] St.init).map
        (fun st => (st.calls.filter fun k => decide (k.2 = 0 ∧ k.1.type ∈ scopeTypes 2 1 .interval)).length)) = some 8 := by
  decide +kernel

/-- **Finding** (C47): `advance_timestep` or `update_timestep` without a snapshot reads one that does not
exist. -/
theorem C47_no_snapshot_undefined :
    (run ex1 [.advance (inOrder ex1 0)] St.init).isNone = true ∧ (run ex1 [.update (inOrder ex1 0)] St.init).isNone = true := by
  decide +kernel

/-! ## two space dimensions: what breaks C72 -/

/-- two by two vertices, three timesteps -/
def ex2 : Cfg 2 Unit :=
  { domain := ⟨[0, 0], [2, 2]⟩, core := ⟨[0, 0], [2, 2]⟩, astart := [0, 0], t0 := 0, t1 := 2, streaming := false,
    test := SoS.criticalPointInSimplex2, detail := fun _ _ => (), keep := fun _ => true }

/-- values at (0,0), (1,0), (0,1), (1,1) -/
def tab (l : List (Option (Rat × Rat))) (r : Rat) : Snap 2 :=
  { dims := [2, 2],
    val := fun idx j => (l.getD ((idx.getD 0 0).toNat + 2 * (idx.getD 1 0).toNat) none).map fun p => if j = 0 then p.1 else p.2,
    res := r }

theorem ex2_shaped : Shaped ex2 := ⟨by decide, by decide, by decide, by decide⟩

theorem tab_covers (l : List (Option (Rat × Rat))) (r : Rat) : Covers ex2 (tab l r) where
  len := rfl
  lo := by
    intro i a st ha hs
    rcases i with _ | _ | i <;> simp [ex2] at ha hs <;> omega
  hi := by
    intro i a st m k cs cm ha hs hm hk hcs hcm
    rcases i with _ | _ | i <;> simp [ex2, tab] at ha hs hm hk hcs hcm <;> omega

/-- at timestep 1 three vectors almost on a line through zero; the last snapshot has small values, so the
scaling factor grows from 256 to 4096 -/
def serF : List (Snap 2) :=
  [tab [some (1, 5), some (1, 5), some (1, 5), some (1, 5)] 1,
   tab [some (1, 1/3), some (-1, 1/1000 - 1/3), some (0, 1), some (0, 1)] (997/3000),
   tab [some (1, 1/4096), some (1, 5), some (1, 5), some (1, 5)] (1/4096)]

/-- one value of timestep 0 is NaN -/
def serN : List (Snap 2) :=
  [tab [none, some (1, 5), some (1, 5), some (1, 5)] 1,
   tab [some (1, 1/3), some (-1, 1/1000 - 1/3), some (0, 1), some (0, 1)] (997/3000),
   tab [some (1, 5), some (1, 5), some (1, 5), some (1, 5)] 1]

/-- outcome of the test on a facet with vertices `vs` -/
def outcome (c : Cfg d γ) (series : List (Snap d)) (f : Int) (vs : List Vtx) : Bool :=
  vs.all (within c.bounds.lb c.bounds.ub) && match readAll (absRead c series) vs with
  | none => false
  | some vals => finite vals && c.test (vf f vals) (vindex c.bounds vs)

theorem detect_outcome {c : Cfg d γ} (hkeep : ∀ cp, c.keep cp = true) {series : List (Snap d)} {f : Int} {t : Nat} {e : Elem}
    {vs : List Vtx} (hv : e.vertices (d + 1) = some vs) : (detect c series f t e).isSome = outcome c series f vs := by
  unfold detect checkWith elemValid outcome
  simp only [hv]
  cases h1 : vs.all (within c.bounds.lb c.bounds.ub) with
  | false => rfl
  | true =>
    simp only [if_true, Bool.true_and]
    cases h2 : readAll (absRead c series) vs with
    | none => rfl
    | some vals =>
      simp only
      cases h3 : finite vals && c.test (vf f vals) (vindex c.bounds vs) with
      | false => simp
      | true => simp [hkeep]

/-- a cell between timesteps 0 and 1 -/
def cellE : Elem := ⟨[0, 0, 0], 3, 1⟩
/-- its face at timestep 1 -/
def faceTop : Elem := ⟨[0, 0, 1], 2, 8⟩

theorem cellE_vertices : cellE.vertices 3 = some [[0, 0, 0], [0, 0, 1], [1, 0, 1], [1, 1, 1]] := by decide +kernel
theorem faceTop_vertices : faceTop.vertices 3 = some [[0, 0, 1], [1, 0, 1], [1, 1, 1]] := by decide +kernel

theorem cellE_isCell : IsCell 2 cellE := ⟨rfl, rfl, type_lt_of_vertices cellE_vertices⟩

theorem cellE_inside (T : Nat) (hT : 2 ≤ T) : Inside ex2 T cellE := by
  refine ⟨_, cellE_vertices, ?_⟩
  have hb : ∀ x y : Int, 0 ≤ x → x < 2 → 0 ≤ y → y < 2 → Lat.InBox ex2.domain [x, y] := by
    intro x y a b c e
    refine ⟨rfl, ?_⟩
    intro i s n v hs hn hv
    rcases i with _ | _ | i <;> simp [ex2] at hs hn hv <;> omega
  have h : ∀ x y t : Int, 0 ≤ x → x < 2 → 0 ≤ y → y < 2 → 0 ≤ t → t < 2 → InsideV ex2 T [x, y, t] := by
    intro x y t a b c e f g
    refine ⟨rfl, hb x y a b c e, t.toNat, ?_, by omega⟩
    unfold AtTime
    simp [Int.toNat_of_nonneg f]
  intro v hv
  simp only [List.mem_cons, List.not_mem_nil, or_false] at hv
  rcases hv with rfl | rfl | rfl | rfl <;> apply h <;> omega

/-- the vertex lists of the four faces -/
theorem faces_cellE {f : Elem} (h : FaceOf 2 f cellE) :
    f.vertices 3 = some [[0, 0, 1], [1, 0, 1], [1, 1, 1]] ∨ f.vertices 3 = some [[0, 0, 0], [1, 0, 1], [1, 1, 1]] ∨
    f.vertices 3 = some [[0, 0, 0], [0, 0, 1], [1, 1, 1]] ∨ f.vertices 3 = some [[0, 0, 0], [0, 0, 1], [1, 0, 1]] := by
  obtain ⟨ve, vf, h1, h2, i, hi, rfl⟩ := h
  rw [cellE_vertices] at h1
  cases h1
  simp only [List.length_cons, List.length_nil] at hi
  rcases i with _ | _ | _ | _ | i
  · exact .inl h2
  · exact .inr (.inl h2)
  · exact .inr (.inr (.inl h2))
  · exact .inr (.inr (.inr h2))
  · omega

theorem corner_of_head {f : Elem} (hf : Facet 2 f) {v : Vtx} {vs : Simplex} (h : f.vertices 3 = some (v :: vs)) :
    f.corner = v := by
  have := (cell_of_elem (n := 3) (by omega) (by rw [hf.dim]; omega) rfl hf.len h).head
  simpa using this.symm

/-- which faces of the cell are recorded -/
theorem found_of_outcome {series : List (Snap 2)} {f : Elem} (hf : Facet 2 f) {v : Vtx} {vs : Simplex}
    (hv : f.vertices 3 = some (v :: vs)) {x y : Int} {t : Nat} (hvt : v = [x, y, (t : Int)]) (hx : 0 ≤ x ∧ x < 2) (hy : 0 ≤ y ∧ y < 2)
    (ht : t < series.length) :
    (∃ cp, Found ex2 series (fun t => t + 2) series.length f cp) ↔
      outcome ex2 series (scale (series.take (t + 2))) (v :: vs) = true := by
  have hc := corner_of_head hf hv
  have hat : AtTime (2 + 1) f.corner t := by rw [hc, hvt]; rfl
  have hcore : InCore ex2 f := by
    unfold InCore
    rw [hc, hvt]
    refine ⟨rfl, ?_⟩
    intro i s n w hs hn hw
    rcases i with _ | _ | i <;> simp [ex2] at hs hn hw <;> omega
  rw [← detect_outcome (c := ex2) (fun _ => rfl) (t := t) hv, Option.isSome_iff_exists]
  constructor
  · rintro ⟨cp, t', h1, h2, h3⟩
    have := own_time h2 ⟨hf, hat, hcore⟩
    subst this
    exact ⟨cp, h3⟩
  · rintro ⟨cp, h⟩
    exact ⟨cp, t, ht, ⟨hf, hat, hcore⟩, h⟩

theorem serF_factors : scale (serF.take 2) = 256 ∧ scale (serF.take 3) = 4096 := by decide +kernel

/-- **Violation** of C72 when the scaling factor changes during a run: all other hypotheses hold (2-D robust
test, single process, finite values, no filter), and after the driver's loop a cell inside the box has exactly one
recorded face — the curve of the zero ends in the middle of the box.  Its top face is tested with the
factor 4096, its other faces with 256. -/
theorem C72_factor_change_breaks_curves :
    ∃ st, run ex2 (driveOps serF (inOrder ex2)) St.init = some st ∧ (∀ s ∈ serF, AllFinite s) ∧
      IsCell 2 cellE ∧ Inside ex2 serF.length cellE ∧
      ∃ f, FaceOf 2 f cellE ∧ f ∈ st.dcp.map Prod.fst ∧ ∀ g, FaceOf 2 g cellE → g ∈ st.dcp.map Prod.fst → g = f := by
  obtain ⟨st, e, -, -, -, hoff⟩ := C47_driver ex2 ex2_shaped serF (by simp [serF]) (by
    intro s hs
    simp only [serF, List.mem_cons, List.not_mem_nil, or_false] at hs
    rcases hs with rfl | rfl | rfl <;> exact tab_covers _ _) (inOrder ex2) (inOrder_complete _)
  have hd := (hoff rfl).2
  have hrec : ∀ f, f ∈ st.dcp.map Prod.fst ↔ ∃ cp, Found ex2 serF (fun t => t + 2) serF.length f cp := by
    intro f
    constructor
    · intro hf
      obtain ⟨⟨f', cp⟩, hm, rfl⟩ := List.mem_map.1 hf
      exact ⟨cp, (hd _ _).1 hm⟩
    · rintro ⟨cp, hm⟩
      exact List.mem_map.2 ⟨(f, cp), (hd _ _).2 hm, rfl⟩
  have hfacet : ∀ {f vs}, f ∈ st.dcp.map Prod.fst → f.vertices 3 = some vs → Facet 2 f := by
    intro f vs hf _
    obtain ⟨cp, t, -, ho, -⟩ := (hrec f).1 hf
    exact ho.facet
  refine ⟨st, e, ?_, cellE_isCell, cellE_inside _ (by simp [serF]), ?_⟩
  · intro s hs idx hidx j
    have hlist : ∀ (a b c e : Rat × Rat) (r : Rat), AllFinite (tab [some a, some b, some c, some e] r) := by
      intro a b c e r idx hidx j
      rcases idx with _ | ⟨x, _ | ⟨y, _ | ⟨z, idx⟩⟩⟩ <;> simp [tab, inDims] at hidx
      simp only [tab, Option.isSome_map]
      have hx : x = 0 ∨ x = 1 := by omega
      have hy : y = 0 ∨ y = 1 := by omega
      rcases hx with rfl | rfl <;> rcases hy with rfl | rfl <;> rfl
    simp only [serF, List.mem_cons, List.not_mem_nil, or_false] at hs
    rcases hs with rfl | rfl | rfl
    · exact hlist _ _ _ _ _ idx hidx j
    · exact hlist _ _ _ _ _ idx hidx j
    · exact hlist _ _ _ _ _ idx hidx j
  · have o0 : outcome ex2 serF (scale (serF.take 3)) [[0, 0, 1], [1, 0, 1], [1, 1, 1]] = false := by
      rw [serF_factors.2]; decide +kernel
    have o1 : outcome ex2 serF (scale (serF.take 2)) [[0, 0, 0], [1, 0, 1], [1, 1, 1]] = false := by
      rw [serF_factors.1]; decide +kernel
    have o2 : outcome ex2 serF (scale (serF.take 2)) [[0, 0, 0], [0, 0, 1], [1, 1, 1]] = false := by
      rw [serF_factors.1]; decide +kernel
    have o3 : outcome ex2 serF (scale (serF.take 2)) [[0, 0, 0], [0, 0, 1], [1, 0, 1]] = true := by
      rw [serF_factors.1]; decide +kernel
    obtain ⟨f, hf, hfv⟩ := face_exists cellE_isCell cellE_vertices 3 (by omega)
    have hfv : f.vertices 3 = some [[0, 0, 0], [0, 0, 1], [1, 0, 1]] := hfv
    refine ⟨f, ⟨_, _, cellE_vertices, hfv, 3, by simp, rfl⟩, ?_, ?_⟩
    · rw [hrec, found_of_outcome hf hfv (t := 0) rfl (by omega) (by omega) (by simp [serF])]
      exact o3
    · intro g hg hr
      have hr' := (hrec g).1 hr
      rcases faces_cellE hg with h | h | h | h
      · rw [found_of_outcome (hfacet hr h) h (t := 1) rfl (by omega) (by omega) (by simp [serF]), o0] at hr'
        cases hr'
      · rw [found_of_outcome (hfacet hr h) h (t := 0) rfl (by omega) (by omega) (by simp [serF]), o1] at hr'
        cases hr'
      · rw [found_of_outcome (hfacet hr h) h (t := 0) rfl (by omega) (by omega) (by simp [serF]), o2] at hr'
        cases hr'
      · exact facet_ext (hfacet hr h) hf h hfv

/-- **Violation** of C72 with a NaN: one factor during the run, one NaN value, and a cell inside the box has
exactly one recorded face. -/
theorem C72_nan_breaks_curves :
    ∃ st, run ex2 (driveOps serN (inOrder ex2)) St.init = some st ∧
      (∀ t < serN.length, scale (serN.take (t + 2)) = 256) ∧
      IsCell 2 cellE ∧ Inside ex2 serN.length cellE ∧
      ∃ f, FaceOf 2 f cellE ∧ f ∈ st.dcp.map Prod.fst ∧ ∀ g, FaceOf 2 g cellE → g ∈ st.dcp.map Prod.fst → g = f := by
  obtain ⟨st, e, -, -, -, hoff⟩ := C47_driver ex2 ex2_shaped serN (by simp [serN]) (by
    intro s hs
    simp only [serN, List.mem_cons, List.not_mem_nil, or_false] at hs
    rcases hs with rfl | rfl | rfl <;> exact tab_covers _ _) (inOrder ex2) (inOrder_complete _)
  have hd := (hoff rfl).2
  have hrec : ∀ f, f ∈ st.dcp.map Prod.fst ↔ ∃ cp, Found ex2 serN (fun t => t + 2) serN.length f cp := by
    intro f
    constructor
    · intro hf
      obtain ⟨⟨f', cp⟩, hm, rfl⟩ := List.mem_map.1 hf
      exact ⟨cp, (hd _ _).1 hm⟩
    · rintro ⟨cp, hm⟩
      exact List.mem_map.2 ⟨(f, cp), (hd _ _).2 hm, rfl⟩
  have hsc : ∀ t < 3, scale (serN.take (t + 2)) = 256 := by decide +kernel
  have hfacet : ∀ {f vs}, f ∈ st.dcp.map Prod.fst → f.vertices 3 = some vs → Facet 2 f := by
    intro f vs hf _
    obtain ⟨cp, t, -, ho, -⟩ := (hrec f).1 hf
    exact ho.facet
  refine ⟨st, e, hsc, cellE_isCell, cellE_inside _ (by simp [serN]), ?_⟩
  have o0 : outcome ex2 serN (scale (serN.take (1 + 2))) [[0, 0, 1], [1, 0, 1], [1, 1, 1]] = true := by
    rw [hsc 1 (by omega)]; decide +kernel
  have o1 : outcome ex2 serN (scale (serN.take (0 + 2))) [[0, 0, 0], [1, 0, 1], [1, 1, 1]] = false := by
    rw [hsc 0 (by omega)]; decide +kernel
  have o2 : outcome ex2 serN (scale (serN.take (0 + 2))) [[0, 0, 0], [0, 0, 1], [1, 1, 1]] = false := by
    rw [hsc 0 (by omega)]; decide +kernel
  have o3 : outcome ex2 serN (scale (serN.take (0 + 2))) [[0, 0, 0], [0, 0, 1], [1, 0, 1]] = false := by
    rw [hsc 0 (by omega)]; decide +kernel
  obtain ⟨f, hf, hfv⟩ := face_exists cellE_isCell cellE_vertices 0 (by omega)
  have hfv : f.vertices 3 = some [[0, 0, 1], [1, 0, 1], [1, 1, 1]] := hfv
  refine ⟨f, ⟨_, _, cellE_vertices, hfv, 0, by simp, rfl⟩, ?_, ?_⟩
  · rw [hrec, found_of_outcome hf hfv (t := 1) rfl (by omega) (by omega) (by simp [serN])]
    exact o0
  · intro g hg hr
    have hr' := (hrec g).1 hr
    rcases faces_cellE hg with h | h | h | h
    · exact facet_ext (hfacet hr h) hf h hfv
    · rw [found_of_outcome (hfacet hr h) h (t := 0) rfl (by omega) (by omega) (by simp [serN]), o1] at hr'
      cases hr'
    · rw [found_of_outcome (hfacet hr h) h (t := 0) rfl (by omega) (by omega) (by simp [serN]), o2] at hr'
      cases hr'
    · rw [found_of_outcome (hfacet hr h) h (t := 0) rfl (by omega) (by omega) (by simp [serN]), o3] at hr'
      cases hr'

/-! ## C72 in two dimensions: the hypotheses can be met -/

theorem tab_finite (a b c e : Rat × Rat) (r : Rat) : AllFinite (tab [some a, some b, some c, some e] r) := by
  intro idx hidx j
  rcases idx with _ | ⟨x, _ | ⟨y, _ | ⟨z, idx⟩⟩⟩ <;> simp [tab, inDims] at hidx
  simp only [tab, Option.isSome_map]
  have hx : x = 0 ∨ x = 1 := by omega
  have hy : y = 0 ∨ y = 1 := by omega
  rcases hx with rfl | rfl <;> rcases hy with rfl | rfl <;> rfl

/-- a zero moving in a field of integers -/
def serI : List (Snap 2) :=
  [tab [some (-1, -2), some (3, -2), some (-1, 2), some (3, 2)] 1,
   tab [some (-3, -1), some (1, -1), some (-3, 3), some (1, 3)] 1]

theorem serI_finite : ∀ s ∈ serI, AllFinite s := by
  intro s hs
  simp only [serI, List.mem_cons, List.not_mem_nil, or_false] at hs
  rcases hs with rfl | rfl <;> exact tab_finite _ _ _ _ _

theorem serI_covers : ∀ s ∈ serI, Covers ex2 s := by
  intro s hs
  simp only [serI, List.mem_cons, List.not_mem_nil, or_false] at hs
  rcases hs with rfl | rfl <;> exact tab_covers _ _

theorem serI_dyadic : ∀ s ∈ serI, Dyadic s := by
  have key : ∀ (l : List (Option (Rat × Rat))) (r : Rat), (∀ p, some p ∈ l → ∃ x y : Int, p = ((x : Rat), (y : Rat))) →
      Dyadic (tab l r) := by
    intro l r hl idx j q hq
    simp only [tab, Option.map_eq_some_iff] at hq
    obtain ⟨p, hp, rfl⟩ := hq
    obtain ⟨x, y, rfl⟩ := hl p (by
      rw [List.getD_eq_getElem?_getD] at hp
      cases h : l[(idx.getD 0 0).toNat + 2 * (idx.getD 1 0).toNat]? with
      | none => rw [h] at hp; cases hp
      | some o =>
        rw [h, Option.getD_some] at hp
        subst hp
        exact List.mem_of_getElem? h)
    by_cases hj : j = 0
    · exact ⟨x * 256, by simp [hj]⟩
    · exact ⟨y * 256, by simp [hj]⟩
  intro s hs
  simp only [serI, List.mem_cons, List.not_mem_nil, or_false] at hs
  rcases hs with rfl | rfl <;> refine key _ _ ?_ <;> intro p hp <;>
    simp only [List.mem_cons, List.not_mem_nil, or_false, Option.some.injEq] at hp
  · rcases hp with rfl | rfl | rfl | rfl
    exacts [⟨-1, -2, by norm_num⟩, ⟨3, -2, by norm_num⟩, ⟨-1, 2, by norm_num⟩, ⟨3, 2, by norm_num⟩]
  · rcases hp with rfl | rfl | rfl | rfl
    exacts [⟨-3, -1, by norm_num⟩, ⟨1, -1, by norm_num⟩, ⟨-3, 3, by norm_num⟩, ⟨1, 3, by norm_num⟩]

/-- both versions of C72 apply … -/
example : ∃ ts, track ex2 serI (inOrder ex2) = some ts ∧ Follows ex2 serI 256 ts :=
  C72_tracker_2d_dyadic ex2 rfl ex2_shaped rfl (fun _ => rfl) rfl rfl serI (by simp [serI]) (by decide) serI_covers
    serI_finite serI_dyadic _ (inOrder_complete _)

example : ∃ ts, track ex2 serI (inOrder ex2) = some ts ∧ Follows ex2 serI 256 ts :=
  C72_tracker_2d ex2 rfl ex2_shaped rfl (fun _ => rfl) rfl rfl serI (by simp [serI]) (by decide) serI_covers
    serI_finite 256 (by
      have : ∀ t < 2, scale (serI.take (t + 2)) = 256 := by decide +kernel
      exact this) _ (inOrder_complete _)

/-- … and there is a punctured facet: a triangle at timestep 1. -/
example : Punctured ex2 serI 256 ⟨[0, 0, 1], 2, 8⟩ := by
  have hv : Elem.vertices 3 ⟨[0, 0, 1], 2, 8⟩ = some [[0, 0, 1], [1, 0, 1], [1, 1, 1]] := by decide +kernel
  have hf : Facet 2 ⟨[0, 0, 1], 2, 8⟩ := ⟨rfl, rfl, type_lt_of_vertices hv⟩
  refine (found_iff_punctured (m := fun t => t + 2) ex2_shaped rfl (fun _ => rfl) serI_covers serI_finite rfl (by decide) ?_ _).1 ?_
  · intro t ht e
    have : ∀ t < 2, scale (serI.take (t + 2)) = 256 := by decide +kernel
    rw [this t ht]
  · rw [found_of_outcome hf hv (t := 1) rfl (by omega) (by omega) (by simp [serI])]
    decide +kernel

end Verif.Trk
