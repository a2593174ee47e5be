import Verif.X3Trk.Lines
import Verif.X3Trk.Curves
import Mathlib.Tactic.FinCases
/-! Concrete runs of the trackers on unstructured 3-D meshes: the hypotheses of C126-C130 are met, and C127 fails. -/
namespace Verif.X3T
open Verif.U3 Verif.X3
open Verif.Trk (Snap CP Traj scale nbits)
open Verif.SRM (Scope)

/-- Positions of the vertices of the two tetrahedra of C122 (vertex 5 is isolated). -/
def exCoords (k : Int) : Fin 3 → Rat :=
  if k = 1 then ![1, 0, 0] else if k = 2 then ![0, 1, 0] else if k = 3 then ![0, 0, 1] else if k = 4 then ![1, 1, 1]
  else if k = 5 then ![9, 9, 9] else ![0, 0, 0]

/-- A critical point tracker on this mesh. -/
def exCfg : Cfg Unit := { m := pairMesh, coords := exCoords, extra := fun _ _ _ => (), keep := fun _ => true }

/-- The field `(x - a, y - b, z - c)`: zero at `(a, b, c)`. -/
def exAt (a b c : Rat) : Snap 3 :=
  { dims := [6], res := 1 / 16,
    val := fun l j => match l with
      | [k] => some (exCoords k j - ![a, b, c] j)
      | _ => none }

/-- The zero moves from the first tetrahedron into the second. -/
def exSeries : List (Snap 3) := [exAt (3 / 16) (4 / 16) (3 / 16), exAt (9 / 16) (8 / 16) (9 / 16)]

/-- Tasks in order. -/
def exOrd (d : Nat) (t : Nat) (sc : Scope) : List Int :=
  match sc with
  | .ordinal => ordinalIds pairMesh d t
  | _ => intervalIds pairMesh d t

theorem exGeo : Geo 6 pair pairMesh := ⟨pair_valid, pairMesh_built, by decide⟩

theorem exComplete (d k : Nat) : Complete pairMesh d k (exOrd d k) := ⟨List.Perm.refl _, List.Perm.refl _⟩

theorem exManifold : Manifold pair := by
  intro s hs t ht u hu
  simp only [pair, List.mem_cons, List.not_mem_nil, or_false] at hs ht hu
  rcases hs with rfl | rfl <;> rcases ht with rfl | rfl <;> rcases hu with rfl | rfl <;> simp

theorem exCovers (a b c : Rat) : VecField 6 (exAt a b c) where
  dims := rfl
  finite := by
    intro idx h j
    rcases idx with _ | ⟨k, _ | ⟨k', l⟩⟩
    · cases h
    · rfl
    · simp [exAt, Trk.inDims] at h

theorem exSeries_covers : ∀ s ∈ exSeries, VecField 6 s := by
  intro s hs
  simp only [exSeries, List.mem_cons, List.not_mem_nil, or_false] at hs
  rcases hs with rfl | rfl <;> exact exCovers _ _ _

theorem exCoords_int (k : Int) (j : Fin 3) : ∃ z : Int, exCoords k j = z := by
  unfold exCoords
  split_ifs <;> fin_cases j <;> first | (refine ⟨0, ?_⟩; simp; done) | (refine ⟨1, ?_⟩; simp; done) | (refine ⟨9, ?_⟩; simp; done)

/-- Multiples of 1/16. -/
theorem exDyadic (a b c : Int) : Trk.Dyadic (exAt (a / 16) (b / 16) (c / 16)) := by
  intro idx j r h
  rcases idx with _ | ⟨k, _ | ⟨k', l⟩⟩
  · simp [exAt] at h
  · simp only [exAt, Option.some.injEq] at h
    subst h
    obtain ⟨z, hz⟩ := exCoords_int k j
    rw [hz]
    fin_cases j
    · exact ⟨z * 256 - a * 16, by simp; ring⟩
    · exact ⟨z * 256 - b * 16, by simp; ring⟩
    · exact ⟨z * 256 - c * 16, by simp; ring⟩
  · simp [exAt] at h

theorem exSeries_dyadic : ∀ s ∈ exSeries, Trk.Dyadic s := by
  intro s hs
  simp only [exSeries, List.mem_cons, List.not_mem_nil, or_false] at hs
  rcases hs with rfl | rfl
  · have := exDyadic 3 4 3; push_cast at this; exact this
  · have := exDyadic 9 8 9; push_cast at this; exact this

/-- Non-vacuity of C126 and C128: the hypotheses hold, and the tracker finds one trajectory. -/
example : (∃ trs, track exCfg Op.push exSeries (exOrd 3) = some trs ∧ Follows 6 pair pairMesh exSeries 256 trs) ∧
    (track exCfg Op.push exSeries (exOrd 3)).map (fun trs => curvesOf trs) = some [[0, 2, 18, 7, 30]] :=
  ⟨C128_follows_dyadic exGeo exManifold exCfg rfl (fun _ => rfl) exSeries (by decide) exSeries_covers exSeries_dyadic
    (exOrd 3) (exComplete 3), by decide +kernel⟩

/-- Non-vacuity of C127_exact: the times of the points of this trajectory. -/
example : (track exCfg Op.push exSeries (exOrd 3)).map (fun trs => (trs.flatMap Traj.pts).map fun p => p.info.pos 3) =
    some [0, 3 / 10, 3 / 8, 5 / 7, 1] := by decide +kernel

/-- C126_push_lost on this series. -/
example : track exCfg Op.pushField exSeries (exOrd 3) = none :=
  C126_push_lost exGeo exCfg rfl exSeries (by decide) (exOrd 3) (exComplete 3)

/-- Vectors, multiples of 1/512 with smallest absolute value 1/256. -/
def badV : Fin 4 → Fin 3 → Rat := ![![4 / 512, -4 / 512, 2 / 512], ![-4 / 512, -3 / 512, 2 / 512], ![-5 / 512, 4 / 512, -3 / 512],
  ![-3 / 512, 4 / 512, -3 / 512]]

/-- C127 fails: a tetrahedron passes the robust test (the scaling factor is 256 for a field whose resolution is 1/256),
but the vectors have no zero in it, and the weights of the reported position sum up to 4: the position is outside of the
tetrahedron. -/
theorem C127_weights_wrong : nbits (1 / 256) = 8 ∧ (∀ i j, 1 / 256 ≤ |badV i j|) ∧ Hit (2 ^ 8) ![0, 1, 2, 3] badV ∧
    (mu badV).map (fun w => [w 0, w 1, w 2, w 3]) = some [0, 4 / 5, 1 / 5, 3] := by
  refine ⟨by decide +kernel, by decide +kernel, ?_, by decide +kernel⟩
  unfold Hit
  decide +kernel

/-- A field with these vectors in the first tetrahedron; zero is far away elsewhere. -/
def badSnap : Snap 3 :=
  { dims := [6], res := 1 / 256,
    val := fun l j => match l with
      | [k] => some (if k = 0 then badV 0 j else if k = 1 then badV 1 j else if k = 2 then badV 2 j else if k = 3 then badV 3 j else 5)
      | _ => none }

/-- C127 fails in a run: the reported point has `x + y + z = 4` in a tetrahedron where `x + y + z ≤ 1`. -/
theorem C127_position_wrong : (track exCfg Op.push [badSnap] (exOrd 3)).map (fun trs => (trs.flatMap Traj.pts).map
    fun p => (p.tag, p.info.pos 0, p.info.pos 1, p.info.pos 2)) = some [(0, 4 / 5, 1 / 5, 3)] := by decide +kernel

/-! ### critical lines -/

/-- The 2-vector `(x - a, y - b)`: zero on a vertical line. -/
def exUV (a b : Rat) : CLT.UV :=
  { dims := [6], val := fun l j => match l with
      | [k] => if j = 0 then exCoords k 0 - a else exCoords k 1 - b
      | _ => 0 }

/-- A line tracker on the same mesh. -/
def exL : LCfg := { m := pairMesh, coords := exCoords, degen := fun _ => 0 }

/-- Non-vacuity of C129 (two snapshots). -/
example : ((run (lineProg exL) (driveOps Op.push [exUV (5 / 16) (1 / 4), exUV (3 / 8) (1 / 4)] (exOrd 2)) (St.init ())).map
    fun st => st.found.map fun p => (p.1, p.2.pos 2, p.2.pos 3)) =
      some [(0, 0, 0), (3, 7 / 16, 0), (5, 15 / 16, 0), (7, 0, 1 / 4), (10, 7 / 17, 7 / 17), (12, 59 / 64, 1 / 4), (14, 0, 3 / 5),
        (17, 27 / 68, 11 / 17), (19, 15 / 17, 15 / 17), (39, 0, 1), (42, 3 / 8, 1), (44, 7 / 8, 1)] := by decide +kernel

theorem exUV_dyadic (a b : Int) : LDyadic (exUV (a / 16) (b / 16)) := by
  intro idx j
  rcases idx with _ | ⟨k, _ | ⟨k', l⟩⟩
  · exact ⟨0, by simp [exUV]⟩
  · simp only [exUV]
    split
    · obtain ⟨z, hz⟩ := exCoords_int k 0
      exact ⟨z * 2 ^ 21 - a * 2 ^ 17, by rw [hz]; push_cast; ring⟩
    · obtain ⟨z, hz⟩ := exCoords_int k 1
      exact ⟨z * 2 ^ 21 - b * 2 ^ 17, by rw [hz]; push_cast; ring⟩
  · exact ⟨0, by simp [exUV]⟩

/-- Non-vacuity of C130: one line through three triangles of the two tetrahedra. -/
example : (∃ st ks, run (lineProg exL) (driveOps Op.push [exUV (5 / 16) (1 / 4)] (exOrd 2)) (St.init ()) = some st ∧
      lines pairMesh st.found = some ks ∧ FollowsLines 6 pair pairMesh (exUV (5 / 16) (1 / 4)) ks) ∧
    ((run (lineProg exL) (driveOps Op.push [exUV (5 / 16) (1 / 4)] (exOrd 2)) (St.init ())).bind fun st => lines pairMesh st.found) =
      some [[0, 3, 5]] :=
  ⟨C130_lines exGeo exManifold exL rfl _ rfl (exOrd 2) (exComplete 2), by decide +kernel⟩

end Verif.X3T
