import Verif.MPAS.Locate
import Verif.MPAS.Layers
import Verif.Cell.Wachspress
import Mathlib.Algebra.BigOperators.Group.List.Basic

/-!
# C154: the layer of a point and the interpolated values
-/

namespace Verif.MPAS

open Verif.Num Finset

variable {K : Type} [Field K] [LinearOrder K]

theorem downLoop_found (top : List K) (z : K) : ∀ (fuel layer : Nat) (upper : K) (l : Nat) (u lo : K),
    downLoop top z fuel layer upper = some (l, u, lo) →
    layer ≤ l ∧ top[l + 1]? = some lo ∧ lo < z ∧ z ≤ u ∧ ((l = layer ∧ u = upper) ∨ (layer < l ∧ top[l]? = some u)) := by
  intro fuel
  induction fuel with
  | zero => intro layer upper l u lo h; cases h
  | succ fuel ih =>
    intro layer upper l u lo h
    rw [downLoop] at h
    cases ht : top[layer + 1]? with
    | none => rw [ht] at h; cases h
    | some lower =>
      simp only [ht] at h
      split_ifs at h with h1
      · obtain ⟨rfl, rfl, rfl⟩ : layer = l ∧ upper = u ∧ lower = lo := by simpa using h
        exact ⟨Nat.le_refl _, ht, h1.2, h1.1, Or.inl ⟨rfl, rfl⟩⟩
      · obtain ⟨g1, g2, g3, g4, g5⟩ := ih _ _ _ _ _ h
        refine ⟨by omega, g2, g3, g4, Or.inr ⟨by omega, ?_⟩⟩
        rcases g5 with ⟨rfl, rfl⟩ | ⟨-, g5⟩
        · exact ht
        · exact g5

theorem upLoop_found (top : List K) (z : K) : ∀ (layer : Nat) (lower : K) (l : Nat) (u lo : K), top[layer]? = some lower →
    upLoop top z layer lower = some (l, u, lo) → l < layer ∧ top[l]? = some u ∧ top[l + 1]? = some lo ∧ lo < z ∧ z ≤ u := by
  intro layer
  induction layer with
  | zero => intro lower l u lo _ h; cases h
  | succ layer ih =>
    intro lower l u lo hl h
    rw [upLoop] at h
    cases ht : top[layer]? with
    | none => rw [ht] at h; cases h
    | some upper =>
      simp only [ht] at h
      split_ifs at h with h1
      · obtain ⟨rfl, rfl, rfl⟩ : layer = l ∧ upper = u ∧ lower = lo := by simpa using h
        exact ⟨by omega, ht, hl, h1.2, h1.1⟩
      · obtain ⟨g1, g2⟩ := ih _ _ _ _ ht h
        exact ⟨by omega, g2⟩

/-- C154: with a layer as hint, a layer that is found contains the depth and the two bounds are its tops. -/
theorem C154_found (top : List K) (z : K) (hint : Int) (h0 : 0 ≤ hint) (l : Nat) (u lo : K) (h : layerSearch top z hint = some (some (l, u, lo))) :
    InLayer top z l ∧ top[l]? = some u ∧ top[l + 1]? = some lo ∧ lo < z ∧ z ≤ u := by
  unfold layerSearch at h
  rw [if_pos h0] at h
  cases h1 : top[hint.toNat]? with
  | none => rw [h1] at h; cases h
  | some upper =>
    cases h2 : top[hint.toNat + 1]? with
    | none => simp only [h1, h2, Option.bind_eq_bind, Option.bind_some, Option.bind_none] at h; cases h
    | some lower =>
      simp only [h1, h2, Option.bind_eq_bind, Option.bind_some] at h
      suffices hs : top[l]? = some u ∧ top[l + 1]? = some lo ∧ lo < z ∧ z ≤ u from ⟨⟨u, lo, hs.1, hs.2.1, hs.2.2.1, hs.2.2.2⟩, hs⟩
      split_ifs at h with h3 h4
      · exact (upLoop_found top z _ _ _ _ _ h1 (Option.some.inj h)).2
      · obtain ⟨g1, g2, g3, g4, g5⟩ := downLoop_found top z _ _ _ _ _ _ (Option.some.inj h)
        refine ⟨?_, g2, g3, g4⟩
        rcases g5 with ⟨rfl, rfl⟩ | ⟨-, g5⟩
        · exact h2
        · exact g5
      · obtain ⟨rfl, rfl, rfl⟩ : hint.toNat = l ∧ upper = u ∧ lower = lo := by simpa using h
        exact ⟨h1, h2, not_le.1 h4, not_lt.1 h3⟩

theorem downLoop_complete (top : List K) (z : K) (hd : Descending top) : ∀ (fuel layer : Nat) (upper : K) (l : Nat), top.length ≤ fuel + layer →
    top[layer]? = some upper → layer ≤ l → InLayer top z l → ∃ u lo, downLoop top z fuel layer upper = some (l, u, lo) := by
  intro fuel
  induction fuel with
  | zero =>
    intro layer upper l h1 h2
    rw [List.getElem?_eq_none (by omega)] at h2; cases h2
  | succ fuel ih =>
    intro layer upper l h1 h2 h3 h4
    obtain ⟨a, b, g1, g2, g3, g4⟩ := id h4
    have hl : l + 1 < top.length := (List.getElem?_eq_some_iff.1 g2).1
    obtain ⟨lower, ht⟩ : ∃ c, top[layer + 1]? = some c := ⟨_, List.getElem?_eq_getElem (by omega)⟩
    simp only [downLoop, ht]
    by_cases hc : z ≤ upper ∧ z > lower
    · rw [if_pos hc]
      have : layer = l := C149_unique hd ⟨upper, lower, h2, ht, hc.2, hc.1⟩ h4
      subst this
      exact ⟨_, _, rfl⟩
    · rw [if_neg hc]
      refine ih (layer + 1) lower l (by omega) ht ?_ h4
      rcases Nat.lt_or_eq_of_le h3 with h | rfl
      · exact h
      · exfalso
        rw [h2] at g1; rw [ht] at g2
        obtain rfl := Option.some.inj g1
        obtain rfl := Option.some.inj g2
        exact hc ⟨g4, g3⟩

theorem upLoop_complete (top : List K) (z : K) (hd : Descending top) : ∀ (layer : Nat) (lower : K) (l : Nat),
    top[layer]? = some lower → l < layer → InLayer top z l → ∃ u lo, upLoop top z layer lower = some (l, u, lo) := by
  intro layer
  induction layer with
  | zero => intro lower l _ h; omega
  | succ layer ih =>
    intro lower l h2 h3 h4
    obtain ⟨a, b, g1, g2, g3, g4⟩ := id h4
    have hl := (List.getElem?_eq_some_iff.1 h2).1
    obtain ⟨upper, ht⟩ : ∃ c, top[layer]? = some c := ⟨_, List.getElem?_eq_getElem (by omega)⟩
    simp only [upLoop, ht]
    by_cases hc : z ≤ upper ∧ z > lower
    · rw [if_pos hc]
      have : layer = l := C149_unique hd ⟨upper, lower, ht, h2, hc.2, hc.1⟩ h4
      subst this
      exact ⟨_, _, rfl⟩
    · rw [if_neg hc]
      refine ih upper l ht ?_ h4
      rcases Nat.lt_or_eq_of_le (Nat.lt_succ_iff.1 h3) with h | rfl
      · exact h
      · exfalso
        rw [ht] at g1; rw [h2] at g2
        obtain rfl := Option.some.inj g1
        obtain rfl := Option.some.inj g2
        exact hc ⟨g4, g3⟩

/-- C154: for tops that do not increase, with any layer as hint: the layer that contains the depth is found, and nothing is found if there is
none. -/
theorem C154_complete (top : List K) (z : K) (hd : Descending top) (hint : Int) (h0 : 0 ≤ hint) (h1 : hint + 1 < top.length) :
    (∀ l, InLayer top z l → ∃ u lo, layerSearch top z hint = some (some (l, u, lo))) ∧
    ((∀ l, ¬ InLayer top z l) → layerSearch top z hint = some none) := by
  obtain ⟨upper, e1⟩ : ∃ c, top[hint.toNat]? = some c := ⟨_, List.getElem?_eq_getElem (by omega)⟩
  obtain ⟨lower, e2⟩ : ∃ c, top[hint.toNat + 1]? = some c := ⟨_, List.getElem?_eq_getElem (by omega)⟩
  have hdef : ∃ r, layerSearch top z hint = some r := by
    unfold layerSearch
    simp only [h0, if_true, e1, e2, Option.bind_eq_bind, Option.bind_some]
    split_ifs <;> exact ⟨_, rfl⟩
  constructor
  · intro l hl
    obtain ⟨a, b, g1, g2, g3, g4⟩ := id hl
    unfold layerSearch
    simp only [h0, if_true, e1, e2, Option.bind_eq_bind, Option.bind_some]
    split_ifs with h2 h3
    · have : l < hint.toNat := by
        by_contra hc
        exact absurd (le_trans g4 (hd.get (not_lt.1 hc) e1 g1)) (not_le.2 h2)
      obtain ⟨u, lo, h⟩ := upLoop_complete top z hd _ _ l e1 this hl
      exact ⟨u, lo, by rw [h]⟩
    · have : hint.toNat + 1 ≤ l := by
        by_contra hc
        have := hd.get (show l + 1 ≤ hint.toNat + 1 by omega) g2 e2
        exact absurd (le_trans h3 this) (not_le.2 g3)
      obtain ⟨u, lo, h⟩ := downLoop_complete top z hd top.length _ _ l (by omega) e2 this hl
      exact ⟨u, lo, by rw [h]⟩
    · have := C149_unique hd ⟨upper, lower, e1, e2, not_le.1 h3, not_lt.1 h2⟩ hl
      exact ⟨upper, lower, by rw [this]⟩
  · intro hn
    obtain ⟨r, hr⟩ := hdef
    rw [hr]
    rcases r with _ | ⟨l, u, lo⟩
    · rfl
    · exact absurd (C154_found top z hint h0 l u lo hr).1 (hn l)

/-- C154: without a hint (first evaluation of a particle) the layers from the second on are found for depths at or below the third top. -/
theorem C154_no_hint_partial (top : List K) (z c : K) (hd : Descending top) (hint : Int) (h0 : hint < 0) (h2 : top[2]? = some c) (hz : z ≤ c)
    (l : Nat) (hl : InLayer top z l) : ∃ u lo, layerSearch top z hint = some (some (l, u, lo)) ∧ top[l]? = some u ∧ top[l + 1]? = some lo := by
  obtain ⟨a, b, g1, g2, g3, g4⟩ := id hl
  have hl2 : 2 ≤ l := by
    by_contra hc
    have := hd.get (show l + 1 ≤ 2 by omega) g2 h2
    exact absurd (le_trans hz this) (not_le.2 g3)
  unfold layerSearch
  rw [if_neg (by omega)]
  have hlen : 2 < top.length := (List.getElem?_eq_some_iff.1 h2).1
  obtain ⟨n, hn⟩ : ∃ n, top.length = n + 1 := ⟨top.length - 1, by omega⟩
  rw [hn]
  simp only [downLoop, h2]
  rw [if_neg (fun h => absurd hz (not_le.2 h.2))]
  obtain ⟨u, lo, h⟩ := downLoop_complete top z hd n 2 c l (by omega) h2 hl2 hl
  obtain ⟨-, k1, -, -, k2⟩ := downLoop_found top z _ _ _ _ _ _ h
  refine ⟨u, lo, by rw [h], ?_, k1⟩
  rcases k2 with ⟨rfl, rfl⟩ | ⟨-, k2⟩
  · exact h2
  · exact k2

/-- C154 (finding): without a hint a depth between the third top and zero is placed in the second layer, with zero as its top, also if it is in
the first layer. -/
theorem C154_no_hint_first_layer (top : List K) (z c : K) (hint : Int) (h0 : hint < 0) (h2 : top[2]? = some c) (hz : c < z) (hz' : z ≤ 0) :
    layerSearch top z hint = some (some (1, 0, c)) := by
  unfold layerSearch
  rw [if_neg (by omega)]
  have hlen : 2 < top.length := (List.getElem?_eq_some_iff.1 h2).1
  obtain ⟨n, hn⟩ : ∃ n, top.length = n + 1 := ⟨top.length - 1, by omega⟩
  rw [hn]
  simp only [downLoop, h2]
  rw [if_pos ⟨hz', hz⟩]

/-- C154 (finding): a hint at or beyond the last layer is an access out of bounds. -/
theorem C154_bad_hint (top : List K) (z : K) (hint : Int) (h : (top.length : Int) ≤ hint + 1) (h0 : 0 ≤ hint) : layerSearch top z hint = none := by
  unfold layerSearch
  rw [if_pos h0, List.getElem?_eq_none (l := top) (i := hint.toNat + 1) (by omega)]
  cases top[hint.toNat]? <;> rfl

example : layerSearch [(0 : ℚ), -10, -30, -60, -100] (-20) 3 = some (some (1, -10, -30)) ∧
    layerSearch [(0 : ℚ), -10, -30, -60, -100] (-70) 0 = some (some (3, -60, -100)) ∧
    layerSearch [(0 : ℚ), -10, -30, -60, -100] (-5) (-1) = some (some (1, 0, -30)) ∧
    layerSearch [(0 : ℚ), -10, -30, -60, -100] (-5) 2 = some (some (0, 0, -10)) ∧
    layerSearch [(0 : ℚ), -10, -30, -60, -100] (-200) 2 = some none := by decide +kernel

/-! ### Evaluation -/

theorem wsum_eq (w : Nat → K) (verts : List Nat) (f : Nat → K) : wsum w verts f = ∑ i ∈ range verts.length, w i * f (verts.getD i 0) := by
  unfold wsum
  induction verts using List.reverseRecOn with
  | nil => rfl
  | append_singleton l a ih =>
    rw [List.zipIdx_append, List.foldl_append, ih, List.length_append]
    simp only [List.length_singleton, Finset.sum_range_succ]
    have e : ∀ i ∈ range l.length, w i * f ((l ++ [a]).getD i 0) = w i * f (l.getD i 0) := by
      intro i hi
      rw [List.getD_append _ _ _ _ (Finset.mem_range.1 hi)]
    rw [Finset.sum_congr rfl e]
    simp

variable [IsStrictOrderedRing K]

/-- (specification) the value at the weighted position in cell with vertices `vs`. -/
def cellValue (w : Nat → K) (vs : List Nat) (f : Nat → K) : K := ∑ i ∈ range vs.length, w i * f (vs.getD i 0)

/-- (specification) the positions of the corners of cell `c`. -/
def Mesh.cornerIds (m : Mesh K) (c : Nat) : List Nat := (List.range (m.nEdgesOnCell c)).map fun j => (m.vid2i (m.verticesOnCell j c)).toNat

omit [IsStrictOrderedRing K] in
theorem cellVerts_ids (m : Mesh K) (c : Nat) {vs : List (Nat × (Fin 3 → K))} (h : m.cellVerts c = some vs) : vs.map (·.1) = m.cornerIds c := by
  unfold Mesh.cellVerts at h
  split_ifs at h with h1
  apply mapM_inv _ _ _ _ _ _ h
  intro j _ b hb
  cases hi : idx m.nVerts (m.vid2i (m.verticesOnCell j c)) with
  | none => rw [hi] at hb; cases hb
  | some v =>
    rw [hi] at hb
    obtain rfl := Option.some.inj hb
    exact (idx_some hi).2.2

/-- C154: an evaluation with a layer as hint that succeeds: the new hints are a cell that contains the point and a layer; every value is
interpolated linearly between the values at the two tops of the layer at the depth of the point, which are combinations of the values at the
vertices of the cell with the Wachspress weights. -/
theorem C154_value {ch : Type} (m : Mesh K) (nearest : (Fin 3 → K) → Int) (sqrt : K → K) (radius : K) (nlayers : Nat)
    (zTop : Nat → Nat → K) (f : ch → Nat → Nat → K) (x : Fin 3 → K) (hint : Int × Int) (h2 : 0 ≤ hint.2) (c l : Int) (val : ch → K)
    (h : evalOcean m nearest sqrt radius nlayers zTop f x hint = some ((c, l), some val)) :
    m.Contains c x ∧ 0 ≤ l ∧ l + 1 < nlayers ∧ ∃ w a,
      Cell.wachspress sqrt (m.nEdgesOnCell c.toNat) (fun j => (m.corners c.toNat).getD j 0) x = some w ∧ 0 < a ∧ a ≤ 1 ∧
      sqrt (dot3 x x) - radius = a * cellValue w (m.cornerIds c.toNat) (zTop l.toNat) + (1 - a) * cellValue w (m.cornerIds c.toNat) (zTop (l.toNat + 1)) ∧
      ∀ k, val k = a * cellValue w (m.cornerIds c.toNat) (f k l.toNat) + (1 - a) * cellValue w (m.cornerIds c.toNat) (f k (l.toNat + 1)) := by
  unfold evalOcean at h
  cases hl : m.locateFrom nearest x hint.1 with
  | none => rw [hl] at h; cases h
  | some c' =>
    simp only [hl, Option.bind_eq_bind, Option.bind_some] at h
    split_ifs at h with hneg
    · simp at h
    cases hi : idx m.nCells c' with
    | none => rw [hi] at h; cases h
    | some ci =>
      obtain ⟨i0, i1, rfl⟩ := idx_some hi
      cases hv : m.cellVerts c'.toNat with
      | none => simp only [hi, hv, Option.bind_some, Option.bind_none] at h; cases h
      | some vs =>
        simp only [hi, hv, Option.bind_some] at h
        obtain ⟨e1, e2⟩ := cellVerts_corners m _ hv
        cases hw : Cell.wachspress sqrt vs.length (fun j => (vs.getD j (0, 0)).2) x with
        | none => rw [hw] at h; cases h
        | some w =>
          simp only [hw, Option.bind_some] at h
          cases hs : layerSearch ((List.range nlayers).map fun l => wsum w (vs.map (·.1)) (zTop l)) (sqrt (dot3 x x) - radius) hint.2 with
          | none => rw [hs] at h; cases h
          | some r =>
            rcases r with _ | ⟨l', u, lo⟩
            · simp only [hs, Option.bind_some] at h; simp at h
            · simp only [hs, Option.bind_some] at h
              obtain ⟨⟨rfl, rfl⟩, hval⟩ : (c' = c ∧ (l' : Int) = l) ∧ _ = val := by simpa using h
              obtain ⟨-, g1, g2, g3, g4⟩ := C154_found _ _ _ h2 _ _ _ hs
              have hlt : l' + 1 < nlayers := by
                have := (List.getElem?_eq_some_iff.1 g2).1
                simpa using this
              have hu : u = wsum w (vs.map (·.1)) (zTop l') := by
                rw [List.getElem?_map, List.getElem?_range (by omega)] at g1
                exact (Option.some.inj g1).symm
              have hlo : lo = wsum w (vs.map (·.1)) (zTop (l' + 1)) := by
                rw [List.getElem?_map, List.getElem?_range hlt] at g2
                exact (Option.some.inj g2).symm
              have hul : 0 < u - lo := by linarith
              refine ⟨(C151_sound m nearest x hint.1 c' hl).1 i0, by omega, by omega, w, (sqrt (dot3 x x) - radius - lo) / (u - lo), ?_,
                div_pos (by linarith) hul, (div_le_one hul).2 (by linarith), ?_, ?_⟩
              · have hlen : m.nEdgesOnCell c'.toNat = vs.length := by
                  have := congrArg List.length e1
                  simpa [Mesh.corners] using this.symm
                rw [hlen, ← hw]
                congr 1
                funext j
                rw [← e1]
                rcases Nat.lt_or_ge j vs.length with hj | hj
                · rw [List.getD_eq_getElem _ _ (by simpa using hj), List.getD_eq_getElem _ _ hj, List.getElem_map]
                · rw [List.getD_eq_default _ _ (by simpa using hj), List.getD_eq_default _ _ hj]
              · simp only [Int.toNat_natCast, cellValue, ← wsum_eq, ← cellVerts_ids m _ hv, ← hu, ← hlo]
                field_simp
                ring
              · intro k
                rw [← hval]
                simp only [Int.toNat_natCast, cellValue, ← wsum_eq, ← cellVerts_ids m _ hv]

theorem cellValue_bounds (w : Nat → K) (vs : List Nat) (hw : ∀ i < vs.length, 0 ≤ w i) (hs : ∑ i ∈ range vs.length, w i = 1) (a : K) (ha : 0 ≤ a) (ha' : a ≤ 1)
    (g0 g1 : Nat → K) (lo hi : K) (hg : ∀ v ∈ vs, (lo ≤ g0 v ∧ g0 v ≤ hi) ∧ lo ≤ g1 v ∧ g1 v ≤ hi) :
    lo ≤ a * cellValue w vs g0 + (1 - a) * cellValue w vs g1 ∧ a * cellValue w vs g0 + (1 - a) * cellValue w vs g1 ≤ hi := by
  have key : ∀ g : Nat → K, (∀ v ∈ vs, lo ≤ g v ∧ g v ≤ hi) → lo ≤ cellValue w vs g ∧ cellValue w vs g ≤ hi := by
    intro g hg
    have hm : ∀ i ∈ range vs.length, vs.getD i 0 ∈ vs := by
      intro i hi
      rw [List.getD_eq_getElem _ _ (Finset.mem_range.1 hi)]
      exact List.getElem_mem _
    unfold cellValue
    constructor
    · calc lo = ∑ i ∈ range vs.length, w i * lo := by rw [← Finset.sum_mul, hs, one_mul]
        _ ≤ _ := Finset.sum_le_sum fun i hi => mul_le_mul_of_nonneg_left (hg _ (hm i hi)).1 (hw i (Finset.mem_range.1 hi))
    · calc _ ≤ ∑ i ∈ range vs.length, w i * hi := Finset.sum_le_sum fun i hi => mul_le_mul_of_nonneg_left (hg _ (hm i hi)).2 (hw i (Finset.mem_range.1 hi))
        _ = hi := by rw [← Finset.sum_mul, hs, one_mul]
  obtain ⟨a1, a2⟩ := key g0 (fun v hv => (hg v hv).1)
  obtain ⟨b1, b2⟩ := key g1 (fun v hv => (hg v hv).2)
  constructor
  · nlinarith [mul_le_mul_of_nonneg_left a1 ha, mul_le_mul_of_nonneg_left b1 (sub_nonneg.2 ha')]
  · nlinarith [mul_le_mul_of_nonneg_left a2 ha, mul_le_mul_of_nonneg_left b2 (sub_nonneg.2 ha')]

/-- C154: for a point in a plane convex cell, the interpolated values lie within the range of the values at the vertices of the cell on the two
tops of the layer. -/
theorem C154_bounds {ch : Type} (m : Mesh K) (nearest : (Fin 3 → K) → Int) {sqrt : K → K} (hsq : ∀ d, 0 ≤ d → 0 ≤ sqrt d ∧ sqrt d * sqrt d = d)
    (radius : K) (nlayers : Nat) (zTop : Nat → Nat → K) (f : ch → Nat → Nat → K) (x : Fin 3 → K) (hint : Int × Int) (h2 : 0 ≤ hint.2) (c l : Int) (val : ch → K)
    (h : evalOcean m nearest sqrt radius nlayers zTop f x hint = some ((c, l), some val))
    (o e g : Fin 3 → K) (heg : ∃ k, crossProduct e g k ≠ 0) (hn : m.nEdgesOnCell c.toNat ≤ 10) {P : ℕ → Fin 2 → K} {q : Fin 2 → K}
    (hP : ∀ j, (m.corners c.toNat).getD j 0 = Cell.onPlane o e g (P j)) (hx : x = Cell.onPlane o e g q)
    (hc : Cell.ConvexAt (m.nEdgesOnCell c.toNat) P q) {i0 : ℕ} (h0 : Cell.Corner (m.nEdgesOnCell c.toNat) P q i0) (k : ch) (lo hi : K)
    (hf : ∀ v ∈ m.cornerIds c.toNat, (lo ≤ f k l.toNat v ∧ f k l.toNat v ≤ hi) ∧ lo ≤ f k (l.toNat + 1) v ∧ f k (l.toNat + 1) v ≤ hi) :
    lo ≤ val k ∧ val k ≤ hi := by
  obtain ⟨-, -, -, w, a, h3, h4, h5, -, h6⟩ := C154_value m nearest sqrt radius nlayers zTop f x hint h2 c l val h
  obtain ⟨w', g1, g2, g3, -⟩ := Cell.C144_weights hsq o e g heg hn hc h0
  rw [funext hP, hx, g1] at h3
  obtain rfl := Option.some.inj h3
  rw [h6]
  have hlen : (m.cornerIds c.toNat).length = m.nEdgesOnCell c.toNat := by simp [Mesh.cornerIds]
  exact cellValue_bounds w' _ (by rw [hlen]; exact g2) (by rw [hlen]; exact g3) a h4.le h5 _ _ lo hi hf

/-- C154: an evaluation that reports a failure leaves the hint for the layer unchanged; the hint for the cell becomes a cell that contains the
point, or `-1` when the point is in no cell of the walk. -/
theorem C154_failure {ch : Type} (m : Mesh K) (nearest : (Fin 3 → K) → Int) (sqrt : K → K) (radius : K) (nlayers : Nat)
    (zTop : Nat → Nat → K) (f : ch → Nat → Nat → K) (x : Fin 3 → K) (hint : Int × Int) (c l : Int)
    (h : evalOcean m nearest sqrt radius nlayers zTop f x hint = some ((c, l), none)) :
    l = hint.2 ∧ m.locateFrom nearest x hint.1 = some c ∧ (0 ≤ c → m.Contains c x) := by
  unfold evalOcean at h
  cases hl : m.locateFrom nearest x hint.1 with
  | none => rw [hl] at h; cases h
  | some c' =>
    simp only [hl, Option.bind_eq_bind, Option.bind_some] at h
    have hc := (C151_sound m nearest x hint.1 c' hl).1
    split_ifs at h with hneg
    · obtain ⟨rfl, rfl⟩ : c' = c ∧ hint.2 = l := by simpa using h
      exact ⟨rfl, rfl, hc⟩
    cases hi : idx m.nCells c' with
    | none => rw [hi] at h; cases h
    | some ci =>
      cases hv : m.cellVerts ci with
      | none => simp only [hi, hv, Option.bind_some, Option.bind_none] at h; cases h
      | some vs =>
        simp only [hi, hv, Option.bind_some] at h
        cases hw : Cell.wachspress sqrt vs.length (fun j => (vs.getD j (0, 0)).2) x with
        | none => rw [hw] at h; cases h
        | some w =>
          simp only [hw, Option.bind_some] at h
          cases hs : layerSearch ((List.range nlayers).map fun l => wsum w (vs.map (·.1)) (zTop l)) (sqrt (dot3 x x) - radius) hint.2 with
          | none => rw [hs] at h; cases h
          | some r =>
            rcases r with _ | ⟨l', u, lo⟩
            · simp only [hs, Option.bind_some] at h
              obtain ⟨rfl, rfl⟩ : c' = c ∧ hint.2 = l := by simpa using h
              exact ⟨rfl, rfl, hc⟩
            · simp only [hs, Option.bind_some] at h; simp at h

/-- A square root that is exact on the squares of multiples of one third. -/
def thirdsRoot (d : ℚ) : ℚ := (List.range 30).foldl (fun r n => if (n : ℚ) / 3 * ((n : ℚ) / 3) = d then (n : ℚ) / 3 else r) 0

/-- An evaluation in the mesh of two cells: the point is in cell 1 and between the first two tops. -/
example : (evalOcean (ch := Unit) twoCells twoNearest thirdsRoot 10 3 (fun l _ => -(8 + (l : ℚ))) (fun _ l v => (l : ℚ) + (v : ℚ)) ![4 / 3, 0, 1] (0, 1)).map
    (fun r => (r.1, r.2.map fun val => val ())) = some ((1, 0), some (23 / 6)) := by decide +kernel

/-- A point below all layers: failure, the hint for the layer is kept. -/
example : (evalOcean (ch := Unit) twoCells twoNearest thirdsRoot 10 3 (fun l _ => -(3 + (l : ℚ))) (fun _ l v => (l : ℚ) + (v : ℚ)) ![4 / 3, 0, 1] (0, 1)).map
    (fun r => (r.1, r.2.map fun val => val ())) = some ((1, 1), none) := by decide +kernel

end Verif.MPAS
