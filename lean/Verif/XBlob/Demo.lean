import Verif.XBlob.Props

/-!
# Cases of C136
-/

namespace Verif.XBlob

open Verif.XGC Verif.XM Verif.UM

/-- A field on the two actual planes of `wedge`, zero but at the vertices `i` and `j`. -/
def field (i j : Nat) : List Rat := ((List.replicate 10 (0 : Rat)).set i 4).set j 4

/-- Three snapshots; the third is pushed after the first step. -/
def hist : List (Op Rat) := [.push (field 0 1), .push (field 1 8), .advance, .push (field 8 9), .advance, .advance]

/-- The hypotheses of C136 hold of it. -/
theorem hist_setting : Setting (fun l => l) 5 square wedge wedgeLerp hist where
  ordered := isOrder_id
  valid := square_valid
  built := squareMesh_built
  pos := by decide
  nphi := by decide
  iphi := rfl
  vphi := by decide
  ready := wedge_ready
  full := by
    intro s hs
    simp only [hist, frames, List.mem_cons, List.not_mem_nil, or_false] at hs
    rcases hs with rfl | rfl | rfl <;> decide
  fed := by
    intro pre suf h
    unfold hist at h
    rcases pre with _ | ⟨a, _ | ⟨b, _ | ⟨c, _ | ⟨d, _ | ⟨e, _ | ⟨f, pre⟩⟩⟩⟩⟩⟩ <;> simp_all <;> (try obtain ⟨rfl, h⟩ := h) <;>
      (try (have h1 := h.1; subst h1)) <;> simp_all [advances, frames]
    · obtain ⟨rfl, rfl, -⟩ := h; decide
    · obtain ⟨rfl, rfl, rfl, -⟩ := h; decide
  fits := by decide +kernel

/-- The labels: one blob over the first two time steps and one over the last two.  Vertex 14 of the last time step is above the threshold, but alone,
and gets no label. -/
theorem C136_isolated : ∃ st, run wedge wedgeLerp 2 St.init hist = some st ∧
    getSliced wedge st 0 = some [0, 0, -1, -1, -1, -1, -1, -1, -1, -1, -1, -1, -1, -1, -1, -1, -1, -1, -1, -1] ∧
    getSliced wedge st 1 = some [-1, 0, -1, -1, -1, -1, -1, -1, -1, -1, -1, -1, -1, 33, -1, -1, -1, -1, -1, -1] ∧
    getSliced wedge st 2 = some [-1, -1, -1, -1, -1, -1, -1, -1, -1, -1, -1, -1, -1, 33, -1, -1, -1, -1, -1, -1] ∧
    Bright wedge wedgeLerp 2 hist (2, 14) := by
  obtain ⟨-, st, e, -⟩ := hist_setting.run (2 : Rat)
  refine ⟨st, e, ?_, ?_, ?_, ?_⟩
  · have : ((run wedge wedgeLerp 2 St.init hist).bind fun st => getSliced wedge st 0) = getSliced wedge st 0 := by rw [e]; rfl
    exact this.symm.trans (by decide +kernel)
  · have : ((run wedge wedgeLerp 2 St.init hist).bind fun st => getSliced wedge st 1) = getSliced wedge st 1 := by rw [e]; rfl
    exact this.symm.trans (by decide +kernel)
  · have : ((run wedge wedgeLerp 2 St.init hist).bind fun st => getSliced wedge st 2) = getSliced wedge st 2 := by rw [e]; rfl
    exact this.symm.trans (by decide +kernel)
  · exact ⟨by decide, by decide +kernel, field 8 9, 4, rfl, by decide +kernel, by norm_num⟩

/-- C136: a snapshot pushed only after the step before is not joined with it: the blob falls apart. -/
theorem C136_late_snapshot :
    ((run wedge wedgeLerp 2 St.init [.push (field 0 1), .advance, .push (field 0 1), .advance]).bind fun st => getSliced wedge st 1) =
      some [20, 20, -1, -1, -1, -1, -1, -1, -1, -1, -1, -1, -1, -1, -1, -1, -1, -1, -1, -1] := by decide +kernel

/-- C136: a step without a snapshot is undefined. -/
theorem C136_step_without_snapshot (g : G) (ls : List (List (Lerp Rat))) (thr : Rat) : run g ls thr St.init [.advance] = none := rfl

/-- C136: the numbers of the vertices of space-time overflow `int`: a mesh of twenty million vertices, 108 time steps. -/
theorem C136_overflow : code 20000000 107 7483647 = some 2147483647 ∧ code 20000000 107 7483648 = none := by decide

/-- A vertex below the threshold, and two of the same blob at different time steps. -/
example : SameBlob wedge wedgeLerp 2 hist (0, 0) (1, 1) := by
  have hb : ∀ t i : Nat, i < 20 → ((frames hist)[t]?.bind fun s => interpolate wedge wedgeLerp s i) = some 4 → Bright wedge wedgeLerp 2 hist (t, i) := by
    intro t i hi h
    cases hs : (frames hist)[t]? with
    | none => rw [hs] at h; cases h
    | some s =>
      rw [hs] at h
      have hn : wedge.n 0 = 20 := by decide +kernel
      exact ⟨by simp, by rw [hn]; simpa using hi, s, 4, hs, h, by norm_num⟩
  have b1 := hb 0 0 (by decide) (by decide +kernel)
  have b2 := hb 0 1 (by decide) (by decide +kernel)
  have b3 := hb 1 1 (by decide) (by decide +kernel)
  refine .trans _ (0, 1) _ (.rel _ _ ⟨b1, b2, .inl ⟨rfl, by decide, [1, 2, 5, 15], by decide +kernel, by decide⟩⟩) (.rel _ _ ⟨b2, b3, .inr ⟨rfl, rfl, ?_⟩⟩)
  exact ⟨[.push (field 0 1), .push (field 1 8)], _, rfl, rfl, by decide⟩

end Verif.XBlob
