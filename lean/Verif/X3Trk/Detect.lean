import Verif.X3Trk.Loop
import Verif.Num.Link
import Verif.SoS.Degenerate
import Verif.Tracker.CurveProps
import Mathlib.LinearAlgebra.Matrix.Nondegenerate
import Mathlib.LinearAlgebra.Matrix.ToLinearEquiv
/-! Lemmas for the critical points of an unstructured 3-D mesh. -/
namespace Verif.X3T
open Verif.U3 Verif.X3
open Verif.Ser (lookup mapPut Sorted)
open Verif.Trk (Snap CP Traj quant nbits scale minRes dblMax)
variable {γ : Type} {n0 : Nat} {ts : List Tet} {m : M3}

theorem vec4_eta {β : Type} (v : Fin 4 → β) : ![v 0, v 1, v 2, v 3] = v := by
  funext i
  fin_cases i <;> rfl

theorem finite3_some {x : Fin 3 → Option Rat} {y : Fin 3 → Rat} : finite3 x = some y ↔ x = fun j => some (y j) := by
  unfold finite3
  constructor
  · intro h
    split at h
    · rename_i a b c ha hb hc
      cases h
      funext j
      fin_cases j
      · simpa using ha
      · simpa using hb
      · simpa using hc
    · cases h
  · rintro rfl
    simp only [Option.some.injEq]
    funext j
    fin_cases j <;> rfl

theorem valueAt_cp (c : Cfg γ) (series : List (Snap 3)) (v : Int) (y : Fin 3 → Rat) :
    valueAt (cpProg c) n0 series v = some y ↔ vecAt n0 series v = some fun j => some (y j) := by
  unfold valueAt vecAt
  by_cases h0 : time n0 v < 0
  · simp [h0]
  · rw [if_neg h0, if_neg h0]
    cases series[(time n0 v).toNat]? with
    | none => simp
    | some s =>
      simp only [cpProg, readCP]
      cases s.read [below n0 v] with
      | none => simp
      | some x => simp only [Option.bind_some, finite3_some, Option.some.injEq]

theorem scales_cp (c : Cfg γ) : Scales (cpProg c) (minRes (d := 3)) := by
  intro Q j k hk hj
  show (Q.drop k).foldl (fun r s => min r s.res) (minRes (Q.take j)) = minRes Q
  apply Trk.ResInv.rescale
  intro x
  unfold minRes
  rw [Trk.le_foldl_min]
  constructor
  · rintro ⟨⟨h1, h2⟩, h3⟩
    refine ⟨h1, fun s hs => ?_⟩
    rw [← List.take_append_drop j Q, List.mem_append] at hs
    rcases hs with hs | hs
    · exact h2 s hs
    · refine h3 s ?_
      have : Q.drop j = (Q.drop k).drop (j - k) := by rw [List.drop_drop]; congr 1; omega
      rw [this] at hs
      exact List.mem_of_mem_drop hs
  · rintro ⟨h1, h2⟩
    exact ⟨⟨h1, fun s hs => h2 s (List.mem_of_mem_take hs)⟩, fun s hs => h2 s (List.mem_of_mem_drop hs)⟩

theorem covers_of (c : Cfg γ) {s : Snap 3} (h : VecField n0 s) : Covers (cpProg c) n0 s := by
  intro k h0 h1
  show ((s.read [k]).bind finite3).isSome = true
  have hin : Trk.inDims s.dims [k] = true := by rw [h.dims]; simp [Trk.inDims, h0, h1]
  have hr : s.read [k] = some (s.val [k]) := by unfold Snap.read; rw [if_pos hin]
  have hf : ∀ j, (s.val [k] j).isSome = true := fun j => h.finite [k] hin j
  have : finite3 (s.val [k]) = some fun j => (s.val [k] j).get (hf j) := by
    rw [finite3_some]
    funext j
    exact (Option.some_get _).symm
  rw [hr, Option.bind_some, this]
  rfl

/-- vertices of a tetrahedron are distinct and numbered from 0 -/
theorem tet_vertices (G : Geo n0 ts m) {e : Int} (he : 0 ≤ e) {v : Fin 4 → Int} (hd : getSimplex m 3 e = some [v 0, v 1, v 2, v 3]) :
    Function.Injective v ∧ (∀ i, 0 ≤ v i) ∧ (∀ i, flatTime m (v i) = some (time n0 (v i)) ∧ flatId m (v i) = some (below n0 (v i))) ∧
    ∀ i, time n0 (v i) = e / n m 3 ∨ time n0 (v i) = e / n m 3 + 1 := by
  have hN := G.pos (.inr rfl)
  have hq : 0 ≤ e / n m 3 := Int.ediv_nonneg he (by omega)
  obtain ⟨vs, F⟩ := G.facet (.inr rfl) (d := 3) (t := (e / n m 3).toNat) (e := e) (by omega) he
  obtain ⟨vs', g1, g2, g3, -⟩ := C123_get_simplex_partial G.valid G.built (d := 3) (by omega) hN e (.inl he) (by omega)
  obtain rfl := Option.some.inj (F.get.symm.trans hd)
  obtain rfl := Option.some.inj (g1.symm.trans hd)
  have hm : ∀ i, v i ∈ [v 0, v 1, v 2, v 3] := fun i => by fin_cases i <;> simp
  refine ⟨?_, fun i => (F.flat _ (hm i)).2.2, fun i => ⟨(F.flat _ (hm i)).1, (F.flat _ (hm i)).2.1⟩, fun i => ?_⟩
  · have hc := g3.chain
    simp only [List.pairwise_cons, List.mem_cons, List.not_mem_nil, or_false, forall_eq_or_imp, forall_eq] at hc
    intro i j hij
    fin_cases i <;> fin_cases j <;> simp at hij ⊢ <;> simp_all
  · have := F.times _ (hm i)
    omega

theorem four {vs : List Int} {g : Prog Rat (Snap 3) (Fin 3 → Rat) (CP (Info γ))} {series : List (Snap 3)} {vals : List (Fin 3 → Rat)}
    (hl : vs.length = 4) (h : Gen.mapAll (valueAt g n0 series) vs = some vals) :
    ∃ (v : Fin 4 → Int) (V : Fin 4 → Fin 3 → Rat), vs = [v 0, v 1, v 2, v 3] ∧ vals = [V 0, V 1, V 2, V 3] ∧
      ∀ i, valueAt g n0 series (v i) = some (V i) := by
  obtain ⟨v0, v1, v2, v3, rfl⟩ : ∃ v0 v1 v2 v3, vs = [v0, v1, v2, v3] := by
    rcases vs with _ | ⟨w0, _ | ⟨w1, _ | ⟨w2, _ | ⟨w3, _ | ⟨w4, ws⟩⟩⟩⟩⟩ <;> simp at hl
    exact ⟨w0, w1, w2, w3, rfl⟩
  simp only [Gen.mapAll] at h
  cases h0 : valueAt g n0 series v0 with
  | none => simp [h0] at h
  | some x0 =>
  cases h1 : valueAt g n0 series v1 with
  | none => simp [h0, h1] at h
  | some x1 =>
  cases h2 : valueAt g n0 series v2 with
  | none => simp [h0, h1, h2] at h
  | some x2 =>
  cases h3 : valueAt g n0 series v3 with
  | none => simp [h0, h1, h2, h3] at h
  | some x3 =>
  simp only [h0, h1, h2, h3, Option.some.injEq] at h
  refine ⟨![v0, v1, v2, v3], ![x0, x1, x2, x3], rfl, h.symm, fun i => ?_⟩
  fin_cases i
  · exact h0
  · exact h1
  · exact h2
  · exact h3

theorem mapAll_four {β : Type} {f : Int → Option β} {v : Fin 4 → Int} {V : Fin 4 → β} (h : ∀ i, f (v i) = some (V i)) :
    Gen.mapAll f [v 0, v 1, v 2, v 3] = some [V 0, V 1, V 2, V 3] := by
  simp only [Gen.mapAll, h]

theorem det_eq (V : Fin 4 → Fin 3 → Rat) : (Num.edges3 V).det = det V := by
  rw [Matrix.det_fin_three]
  unfold det Num.det3
  simp [Num.edges3]
  ring

theorem det_iff (V : Fin 4 → Fin 3 → Rat) : det V = 0 ↔ Degenerate V := by
  rw [← det_eq, ← Matrix.exists_mulVec_eq_zero_iff]
  constructor
  · rintro ⟨x, hx, h⟩
    refine ⟨![x 0, x 1, x 2, -(x 0 + x 1 + x 2)], ?_, by simp, ?_⟩
    · intro h0
      apply hx
      have a := congrFun h0 0
      have b := congrFun h0 1
      have c := congrFun h0 2
      simp at a b c
      funext j
      fin_cases j <;> assumption
    · intro j
      have := congrFun h j
      simp [Matrix.mulVec, dotProduct, Fin.sum_univ_three, Num.edges3] at this ⊢
      fin_cases j <;> simp at this ⊢ <;> linarith
  · rintro ⟨w, hw, h1, h2⟩
    refine ⟨![w 0, w 1, w 2], ?_, ?_⟩
    · intro h0
      apply hw
      have a := congrFun h0 0
      have b := congrFun h0 1
      have c := congrFun h0 2
      simp at a b c
      funext j
      fin_cases j
      · exact a
      · exact b
      · exact c
      · show w 3 = 0
        linarith
    · funext j
      have := h2 j
      have h3 : w 3 = -(w 0 + w 1 + w 2) := by linarith
      rw [h3] at this
      simp [Matrix.mulVec, dotProduct, Fin.sum_univ_three, Num.edges3] at this ⊢
      fin_cases j <;> simp at this ⊢ <;> linarith

theorem place_eq (c : Cfg γ) (hm : c.m = m) {v : Int} (h : flatTime m v = some (time n0 v) ∧ flatId m v = some (below n0 v)) :
    coordsOf c.m c.coords v = place c.coords n0 v := by
  unfold coordsOf place
  rw [hm, h.1, h.2]

/-- vectors that quantisation represents exactly: a punctured tetrahedron is never degenerate (C95) -/
theorem hit_nondegenerate {f : Int} (hf : 0 < f) {v : Fin 4 → Int} {V : Fin 4 → Fin 3 → Rat} (hv : Function.Injective v)
    (h0 : ∀ i, 0 ≤ v i) (hint : ∀ i j, ∃ z : Int, V i j * f = z) (hh : Hit f v V) : ¬ Degenerate V := by
  intro hdg
  have h1 := (SoS.C95_hit3 _ v hv h0 hh).1
  apply h1
  have hq : Num.castV (fun i j => Trk.quant f (V i j)) = fun i j => V i j * f := by
    funext i j
    obtain ⟨z, hz⟩ := hint i j
    show ((Trk.quant f (V i j) : Int) : Rat) = V i j * f
    rw [Trk.quant_int hz, hz]
  have h2 := Num.edges3_det (fun i j => Trk.quant f (V i j))
  rw [hq, det_eq] at h2
  have h3 : det (fun i j => V i j * f) = 0 := by
    have : det (fun i j => V i j * f) = det V * f * f * f := by unfold det Num.det3; simp; ring
    rw [this, (det_iff V).2 hdg]
    ring
  rw [h3] at h2
  exact_mod_cast h2.symm

end Verif.X3T
