import Verif.UTrk.Curves
/-! Concrete runs of the unstructured tracker: the hypotheses of C92, C93, C94 are met, and what breaks C94. -/
namespace Verif.UTrk
open Verif.Trk (Snap CP Traj Op scale)
open Verif.XM (squareMesh time)
open Verif.UM (square)
open Verif.SRM (Scope)

/-- positions of the vertices of the square (vertex 4 is isolated) -/
def exCoords (k : Int) : Fin 3 → Rat :=
  if k = 1 then ![1, 0, 0] else if k = 2 then ![0, 1, 0] else if k = 3 then ![1, 1, 0] else if k = 4 then ![9, 9, 0] else ![0, 0, 0]

/-- a tracker on the square of C69 -/
def exCfg : Cfg Unit :=
  { m := squareMesh, coords := exCoords, streaming := false, extra := fun _ _ _ => (), keep := fun _ => true }

/-- the field `(x - a, y - b)`: zero at `(a, b)` -/
def exAt (a b : Rat) : Snap 2 :=
  { dims := [5], res := 1 / 16,
    val := fun l j => match l with
      | [k] => some (if j = 0 then exCoords k 0 - a else exCoords k 1 - b)
      | _ => none }

/-- the zero moves from the first triangle into the second -/
def exSeries : List (Snap 2) := [exAt (1 / 4) (3 / 8), exAt (1 / 2) (5 / 16), exAt (7 / 8) (5 / 8)]

/-- tasks in order -/
def exOrd (_ : Nat) (sc : Scope) : List Int :=
  match sc with
  | .ordinal => (List.range (XM.nOrdinal squareMesh 2).toNat).map Int.ofNat
  | _ => (List.range (XM.nInterval squareMesh 2).toNat).map Int.ofNat

theorem exGeo : Geo 5 square squareMesh := ⟨UM.square_valid, ⟨_, UM.isOrder_id, XM.squareMesh_built⟩, by decide⟩

theorem exComplete (k : Nat) : Complete squareMesh (exOrd k) := ⟨List.Perm.refl _, List.Perm.refl _⟩

theorem exCovers (a b : Rat) : Covers 5 (exAt a b) where
  dims := rfl
  finite := by
    intro idx h j
    rcases idx with _ | ⟨k, _ | ⟨k', l⟩⟩
    · cases h
    · rfl
    · simp [exAt, Trk.inDims] at h

theorem exSeries_covers : ∀ s ∈ exSeries, Covers 5 s := by
  intro s hs
  simp only [exSeries, List.mem_cons, List.not_mem_nil, or_false] at hs
  rcases hs with rfl | rfl | rfl <;> exact exCovers _ _

/-- multiples of 1/16 -/
theorem exDyadic (a b : Int) : Trk.Dyadic (exAt (a / 16) (b / 16)) := by
  intro idx j r h
  have hc : ∀ k j, ∃ z : Int, exCoords k j = z := by
    intro k j
    unfold exCoords
    split
    · fin_cases j
      · exact ⟨1, by simp⟩
      · exact ⟨0, by simp⟩
      · exact ⟨0, by simp⟩
    · split
      · fin_cases j
        · exact ⟨0, by simp⟩
        · exact ⟨1, by simp⟩
        · exact ⟨0, by simp⟩
      · split
        · fin_cases j
          · exact ⟨1, by simp⟩
          · exact ⟨1, by simp⟩
          · exact ⟨0, by simp⟩
        · split
          · fin_cases j
            · exact ⟨9, by simp⟩
            · exact ⟨9, by simp⟩
            · exact ⟨0, by simp⟩
          · fin_cases j
            · exact ⟨0, by simp⟩
            · exact ⟨0, by simp⟩
            · exact ⟨0, by simp⟩
  rcases idx with _ | ⟨k, _ | ⟨k', l⟩⟩
  · simp [exAt] at h
  · simp only [exAt, Option.some.injEq] at h
    subst h
    split
    · obtain ⟨z, hz⟩ := hc k 0
      exact ⟨z * 256 - a * 16, by rw [hz]; push_cast; ring⟩
    · obtain ⟨z, hz⟩ := hc k 1
      exact ⟨z * 256 - b * 16, by rw [hz]; push_cast; ring⟩
  · simp [exAt] at h

theorem exSeries_dyadic : ∀ s ∈ exSeries, Trk.Dyadic s := by
  intro s hs
  simp only [exSeries, List.mem_cons, List.not_mem_nil, or_false] at hs
  rcases hs with rfl | rfl | rfl
  · have := exDyadic 4 6; norm_num at this; exact this
  · have := exDyadic 8 5; norm_num at this; exact this
  · have := exDyadic 14 10; norm_num at this; exact this

/-- Non-vacuity of C94 (and of C92, C93): the hypotheses hold, and the tracker finds one trajectory through seven
triangles, three of them at timesteps. -/
example : (∃ trs, track exCfg exSeries exOrd = some trs ∧ Follows 5 squareMesh exSeries 256 trs) ∧
    (track exCfg exSeries exOrd).map (fun trs => curvesOf trs) = some [[0, 2, 4, 16, 23, 21, 33]] := by
  refine ⟨C94_follows_dyadic exGeo exCfg rfl (fun _ => rfl) rfl exSeries (by decide) exSeries_covers exSeries_dyadic
    exOrd exComplete, by decide +kernel⟩

/-- the position of the point on triangle 2: between timesteps 0 and 1 -/
example : (track exCfg exSeries exOrd).map (fun trs => (trs.flatMap Traj.pts).map fun p => p.info.pos 3) =
    some [0, 6 / 17, 10 / 13, 1, 14 / 11, 16 / 11, 2] := by decide +kernel

/-- Non-vacuity of C92 for streaming, and the last timestep is there: same points. -/
example : (track { exCfg with streaming := true } exSeries exOrd).map (fun trs => curvesOf trs) =
    some [[0, 2, 4, 16, 23, 21, 33]] := by decide +kernel

/-- a field whose vectors at vertices 0, 1, 2 are on one line through zero, in floating point, while the quantised ones
are not; the smallest absolute value is 254/32768, so the scaling factor is 256 (all numbers here are exact doubles) -/
def exFlat : Snap 2 :=
  { dims := [5], res := 254 / 32768,
    val := fun l j => match l with
      | [k] => some (if k = 0 then ![-20 / 256, -2540 / 32768] j else if k = 1 then ![20 / 256, 2540 / 32768] j
          else if k = 2 then ![-2 / 256, -254 / 32768] j else ![1, 1] j)
      | _ => none }

/-- (violates C92 and C94 as "every punctured triangle yields a point") Triangle 0 of the first timestep is punctured, but
its vectors are degenerate before quantisation: the solver divides by zero, and the tracker returns trajectories without
it. -/
theorem C94_degenerate_dropped :
    scale [exFlat, exFlat] = 256 ∧ Data 5 squareMesh [exFlat, exFlat] 0 ![0, 1, 2] ![![-20 / 256, -2540 / 32768], ![20 / 256, 2540 / 32768], ![-2 / 256, -254 / 32768]] ∧
    Punctured 5 squareMesh [exFlat, exFlat] 256 0 ∧
    ∃ trs, track exCfg [exFlat, exFlat] exOrd = some trs ∧ (∀ k ∈ curvesOf trs, (0 : Int) ∉ k) ∧
      ¬ Follows 5 squareMesh [exFlat, exFlat] 256 trs := by
  have hd : Data 5 squareMesh [exFlat, exFlat] 0 ![0, 1, 2] ![![-20 / 256, -2540 / 32768], ![20 / 256, 2540 / 32768], ![-2 / 256, -254 / 32768]] := by
    refine ⟨by decide +kernel, fun i => ?_⟩
    fin_cases i
    · exact (by rfl : absRead 5 [exFlat, exFlat] 0 = some fun j => some (![-20 / 256, -2540 / 32768] j))
    · exact (by rfl : absRead 5 [exFlat, exFlat] 1 = some fun j => some (![20 / 256, 2540 / 32768] j))
    · exact (by rfl : absRead 5 [exFlat, exFlat] 2 = some fun j => some (![-2 / 256, -254 / 32768] j))
  have hp : Punctured 5 squareMesh [exFlat, exFlat] 256 0 := ⟨le_refl _, _, _, hd, by unfold Hit; decide +kernel⟩
  refine ⟨by decide +kernel, hd, hp, ?_⟩
  have h : (track exCfg [exFlat, exFlat] exOrd).map (fun trs => (curvesOf trs).all fun k => !k.contains 0) = some true := by
    decide +kernel
  rw [Option.map_eq_some_iff] at h
  obtain ⟨trs, h1, h2⟩ := h
  have h3 : ∀ k ∈ curvesOf trs, (0 : Int) ∉ k := by
    intro k hk hc
    have := List.all_eq_true.1 h2 k hk
    simp at this
    exact this hc
  refine ⟨trs, h1, h3, fun hf => ?_⟩
  obtain ⟨k, hk, hk0⟩ := List.mem_flatten.1 ((hf.all 0).2 hp)
  exact h3 k hk hk0

end Verif.UTrk
