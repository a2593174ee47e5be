import Verif.CLine.Detect
import Verif.CLine.Cycle5
import Verif.Contour.Cells
/-! The pierced triangles of a 4-simplex. -/
namespace Verif.CLT
open Verif.SRM
open Verif.Gen (Box InsideV Inside Shaped)
open Verif.Ctr (IsElem FaceOf atTime_inj sub_cell isElem_of_cell elem_unique faceOf_iff)

/-! ### faces of a 4-simplex -/

/-- the faces of a 4-simplex: `T i` has all vertices but `i`, `D i j` all but `i` and `j` -/
structure Faces (x : Elem) (w : Fin 5 → Vtx) (T : Fin 5 → Elem) (D : Fin 5 → Fin 5 → Elem) : Prop where
  inj : Function.Injective w
  verts : x.vertices 4 = some (List.ofFn w)
  tet : ∀ i, IsElem 4 3 (T i) ∧ (T i).vertices 4 = some ((drop1 i).map w)
  tri : ∀ i j, i ≠ j → IsElem 4 2 (D i j) ∧ (D i j).vertices 4 = some ((drop2 i j).map w)
  tets : ∀ y, IsElem 4 3 y → (FaceOf 4 y x ↔ ∃ i, y = T i)
  tris : ∀ f, IsElem 4 2 f → (FaceOf 4 f x ↔ ∃ i j, i ≠ j ∧ f = D i j)
  comm : ∀ i j, i ≠ j → D i j = D j i
  dinj : ∀ i j k l, i ≠ j → k ≠ l → D i j = D k l → (i = k ∧ j = l) ∨ (i = l ∧ j = k)
  sub : ∀ i j k, i ≠ j → (FaceOf 4 (D i j) (T k) ↔ k = i ∨ k = j)

theorem drop1_sub (i : Fin 5) : (drop1 i).Sublist (List.finRange 5) := List.filter_sublist
theorem drop2_sub (i j : Fin 5) : (drop2 i j).Sublist (List.finRange 5) := List.filter_sublist
theorem drop1_len : ∀ i : Fin 5, (drop1 i).length = 4 := by decide
theorem drop2_len : ∀ i j : Fin 5, i ≠ j → (drop2 i j).length = 3 := by decide
theorem sub4 : ∀ s ∈ (List.finRange 5).sublists, s.length = 4 → ∃ i, s = drop1 i := by decide +kernel
theorem sub3 : ∀ s ∈ (List.finRange 5).sublists, s.length = 3 → ∃ i j, i ≠ j ∧ s = drop2 i j := by decide +kernel
theorem drop2_comm : ∀ i j : Fin 5, drop2 i j = drop2 j i := by decide
theorem mem_drop1 {i k : Fin 5} : k ∈ drop1 i ↔ k ≠ i := by simp [drop1]
theorem mem_drop2 {i j k : Fin 5} : k ∈ drop2 i j ↔ k ≠ i ∧ k ≠ j := by simp [drop2]

theorem faces_exist {x : Elem} (hx : IsElem 4 4 x) : ∃ w T D, Faces x w T D := by
  obtain ⟨w, hw, hinj, hcell⟩ := Ctr.verts_ofFn (n := 4) (by omega) (k := 4) (by omega) hx
  have hmk : ∀ (s : List (Fin 5)) (m : Nat), s.Sublist (List.finRange 5) → s.length = m + 1 → m ≤ 4 →
      ∃ f, IsElem 4 m f ∧ f.vertices 4 = some (s.map w) := by
    intro s m hs hl hm
    obtain ⟨c', hc'⟩ := sub_cell hcell (ws := s.map w) (by rw [List.ofFn_eq_map]; exact hs.map w) (m := m) (by simpa using hl)
    exact isElem_of_cell (by omega) hm hc'
  have h1 : ∀ i, ∃ f, IsElem 4 3 f ∧ f.vertices 4 = some ((drop1 i).map w) := fun i =>
    hmk _ 3 (drop1_sub i) (drop1_len i) (by omega)
  have h2 : ∀ i j, ∃ f, i ≠ j → IsElem 4 2 f ∧ f.vertices 4 = some ((drop2 i j).map w) := by
    intro i j
    by_cases hij : i = j
    · exact ⟨x, fun h => absurd hij h⟩
    · obtain ⟨f, hf⟩ := hmk _ 2 (drop2_sub i j) (drop2_len i j hij) (by omega)
      exact ⟨f, fun _ => hf⟩
  choose T hT using h1
  choose D hD using h2
  have hface : ∀ {y : Elem} {m : Nat}, m ≤ 4 → IsElem 4 m y → FaceOf 4 y x →
      ∃ s ∈ (List.finRange 5).sublists, s.length = m + 1 ∧ y.vertices 4 = some (s.map w) := by
    intro y m hm hy hf
    obtain ⟨vf, ve, a, b, s⟩ := (faceOf_iff (by omega) hm (by omega) hy hx).1 hf
    rw [hw] at b
    cases b
    rw [List.ofFn_eq_map] at s
    obtain ⟨t, ht, rfl⟩ := List.sublist_map_iff.1 s
    have := (cell_of_elem (n := 4) (by omega) hm hy.dim hy.len a).len
    exact ⟨t, List.mem_sublists.2 ht, by simpa using this, a⟩
  have hof : ∀ {y : Elem} (s : List (Fin 5)), y.vertices 4 = some (s.map w) → FaceOf 4 y x := by
    intro y s hy
    refine ⟨_, _, hy, hw, fun v hv => ?_⟩
    obtain ⟨i, -, rfl⟩ := List.mem_map.1 hv
    rw [List.ofFn_eq_map]
    exact List.mem_map.2 ⟨i, List.mem_finRange i, rfl⟩
  have hmapinj : ∀ {s t : List (Fin 5)}, s.map w = t.map w → s = t := fun h => List.map_injective_iff.2 hinj h
  refine ⟨w, T, D, hinj, hw, hT, fun i j hij => hD i j hij, ?_, ?_, ?_, ?_, ?_⟩
  · intro y hy
    constructor
    · intro hf
      obtain ⟨s, hs, hl, hv⟩ := hface (by omega) hy hf
      obtain ⟨i, rfl⟩ := sub4 s hs hl
      exact ⟨i, elem_unique (by omega) (by omega) hy (hT i).1 hv (hT i).2⟩
    · rintro ⟨i, rfl⟩
      exact hof _ (hT i).2
  · intro y hy
    constructor
    · intro hf
      obtain ⟨s, hs, hl, hv⟩ := hface (by omega) hy hf
      obtain ⟨i, j, hij, rfl⟩ := sub3 s hs hl
      exact ⟨i, j, hij, elem_unique (by omega) (by omega) hy (hD i j hij).1 hv (hD i j hij).2⟩
    · rintro ⟨i, j, hij, rfl⟩
      exact hof _ (hD i j hij).2
  · intro i j hij
    have h' := (hD j i (Ne.symm hij)).2
    rw [drop2_comm] at h'
    exact elem_unique (by omega) (by omega) (hD i j hij).1 (hD j i (Ne.symm hij)).1 (hD i j hij).2 h'
  · intro i j k l hij hkl he
    have a := (hD i j hij).2
    rw [he, (hD k l hkl).2] at a
    have hs := hmapinj (Option.some.inj a)
    have m : ∀ u, (u ≠ k ∧ u ≠ l) ↔ (u ≠ i ∧ u ≠ j) := fun u => by rw [← mem_drop2, ← mem_drop2, hs]
    have m1 := m i
    have m2 := m j
    have m3 := m k
    have m4 := m l
    simp only [ne_eq, not_true_eq_false, false_and, and_false, iff_false, not_and, not_not, false_iff] at m1 m2 m3 m4
    by_cases h : i = k
    · left
      refine ⟨h, ?_⟩
      by_contra h2
      have hjk : ¬ j = k := fun h3 => hij (h.trans h3.symm)
      exact h2 (m2 hjk)
    · right
      have hil := m1 h
      refine ⟨hil, ?_⟩
      by_contra h2
      have := m2 h2
      exact hij (hil.trans this.symm)
  · intro i j k hij
    constructor
    · rintro ⟨vf, ve, a, b, hsub⟩
      rw [(hD i j hij).2] at a
      rw [(hT k).2] at b
      cases a
      cases b
      by_contra hn
      push Not at hn
      have := hsub (w k) (List.mem_map.2 ⟨k, mem_drop2.2 ⟨hn.1, hn.2⟩, rfl⟩)
      obtain ⟨k', hk', he⟩ := List.mem_map.1 this
      exact mem_drop1.1 hk' (hinj he)
    · intro hk
      refine ⟨_, _, (hD i j hij).2, (hT k).2, fun v hv => ?_⟩
      obtain ⟨u, hu, rfl⟩ := List.mem_map.1 hv
      obtain ⟨u1, u2⟩ := mem_drop2.1 hu
      refine List.mem_map.2 ⟨u, mem_drop1.2 ?_, rfl⟩
      rcases hk with rfl | rfl
      · exact u1
      · exact u2

/-! ### parity of a tetrahedron -/

variable {S V : Type} [Inhabited V]

/-- the test of a triangle, on its list of vertices -/
def pb (c : Cfg V) (rd : S → List Int → Option V) (series : List S) : List Vtx → Bool
  | [p, q, r] => SoS.criticalPointInSimplex2
      (fun i j => Trk.quant (2 ^ 21) (c.uv (valueAt c rd series ((![p, q, r] : Fin 3 → Vtx) i)) j))
      (fun i => cornerIndex ((![p, q, r] : Fin 3 → Vtx) i) c.box.bounds.lb c.box.bounds.dimprod)
  | _ => false

theorem pierced_iff {c : Cfg V} {rd : S → List Int → Option V} {series : List S} {f : Elem} (hf : IsElem 4 2 f)
    {l : List Vtx} (hl : f.vertices 4 = some l) :
    Pierced c rd series f ↔ (∀ v ∈ l, InsideV c.box series.length v) ∧ pb c rd series l = true := by
  constructor
  · rintro ⟨vs, h⟩
    have := h.verts
    rw [hl] at this
    cases this
    constructor
    · intro v hv
      simp only [List.mem_cons, List.not_mem_nil, or_false] at hv
      rcases hv with rfl | rfl | rfl
      · exact h.inside 0
      · exact h.inside 1
      · exact h.inside 2
    · simp only [pb, vec3]
      exact h.hit
  · rintro ⟨hi, hp⟩
    have hlen := (cell_of_elem (n := 4) (by omega) (k := 2) (by omega) hf.dim hf.len hl).len
    rcases l with _ | ⟨p, _ | ⟨q, _ | ⟨r, _ | ⟨x, l⟩⟩⟩⟩ <;> simp at hlen
    refine ⟨![p, q, r], hf, hl, ?_, hp⟩
    intro i
    fin_cases i
    · exact hi p (by simp)
    · exact hi q (by simp)
    · exact hi r (by simp)

/-- zero or two of the triangles of a tetrahedron -/
theorem parity4 {c : Cfg V} {T : Nat} (hc : Shaped c.box T) (rd : S → List Int → Option V) (series : List S)
    (u : Fin 4 → Vtx) (hu : Function.Injective u) (hb : ∀ i, InBounds c.box.bounds (u i)) :
    (pb c rd series [u 1, u 2, u 3] = false ∧ pb c rd series [u 0, u 2, u 3] = false ∧ pb c rd series [u 0, u 1, u 3] = false ∧
      pb c rd series [u 0, u 1, u 2] = false) ∨
    [pb c rd series [u 1, u 2, u 3], pb c rd series [u 0, u 2, u 3], pb c rd series [u 0, u 1, u 3],
      pb c rd series [u 0, u 1, u 2]].countP id = 2 := by
  have h := Trk.zeroOrTwo_2d (fun i j => Trk.quant (2 ^ 21) (c.uv (valueAt c rd series (u i)) j))
    (fun i => cornerIndex (u i) c.box.bounds.lb c.box.bounds.dimprod)
    (fun i j hij => hu ((Gen.cornerIndex_facts hc (hb i)).2 _ (hb j) hij)) fun i => (Gen.cornerIndex_facts hc (hb i)).1
  have e : ∀ k : Fin 4, SoS.criticalPointInSimplex2
      (fun i j => Trk.quant (2 ^ 21) (c.uv (valueAt c rd series (u (Fin.succAbove k i))) j))
      (fun i => cornerIndex (u (Fin.succAbove k i)) c.box.bounds.lb c.box.bounds.dimprod) =
      pb c rd series [u (Fin.succAbove k 0), u (Fin.succAbove k 1), u (Fin.succAbove k 2)] := by
    intro k
    simp only [pb]
    rw [vec3 (fun i => u (Fin.succAbove k i))]
  simp only [e] at h
  have s0 : pb c rd series [u (Fin.succAbove 0 0), u (Fin.succAbove 0 1), u (Fin.succAbove 0 2)] = pb c rd series [u 1, u 2, u 3] := rfl
  have s1 : pb c rd series [u (Fin.succAbove 1 0), u (Fin.succAbove 1 1), u (Fin.succAbove 1 2)] = pb c rd series [u 0, u 2, u 3] := rfl
  have s2 : pb c rd series [u (Fin.succAbove 2 0), u (Fin.succAbove 2 1), u (Fin.succAbove 2 2)] = pb c rd series [u 0, u 1, u 3] := rfl
  have s3 : pb c rd series [u (Fin.succAbove 3 0), u (Fin.succAbove 3 1), u (Fin.succAbove 3 2)] = pb c rd series [u 0, u 1, u 2] := rfl
  rcases h with h | ⟨a, b, hab, h⟩
  · left
    refine ⟨s0 ▸ h 0, s1 ▸ h 1, s2 ▸ h 2, s3 ▸ h 3⟩
  · right
    have g0 := h 0
    have g1 := h 1
    have g2 := h 2
    have g3 := h 3
    rw [s0] at g0
    rw [s1] at g1
    rw [s2] at g2
    rw [s3] at g3
    generalize pb c rd series [u 1, u 2, u 3] = b0 at g0 ⊢
    generalize pb c rd series [u 0, u 2, u 3] = b1 at g1 ⊢
    generalize pb c rd series [u 0, u 1, u 3] = b2 at g2 ⊢
    generalize pb c rd series [u 0, u 1, u 2] = b3 at g3 ⊢
    clear h e s0 s1 s2 s3
    revert a b b0 b1 b2 b3
    decide

/-- the tetrahedron with vertices `w` at the indices `s` has zero or two pierced triangles; for all five tetrahedra of a
4-simplex inside the bounds -/
theorem parity5 {c : Cfg V} {T : Nat} (hc : Shaped c.box T) (rd : S → List Int → Option V) (series : List S)
    (w : Fin 5 → Vtx) (hw : Function.Injective w) (hb : ∀ i, InBounds c.box.bounds (w i)) (i : Fin 5) :
    (drop1 i).countP (fun j => pb c rd series ((drop2 i j).map w)) = 0 ∨
      (drop1 i).countP (fun j => pb c rd series ((drop2 i j).map w)) = 2 := by
  have key := parity4 hc rd series (fun k => w (Fin.succAbove i k)) (fun a b h => Fin.succAbove_right_injective (hw h))
    (fun k => hb _)
  have e : (drop1 i).countP (fun j => pb c rd series ((drop2 i j).map w)) =
      [pb c rd series [w (Fin.succAbove i 1), w (Fin.succAbove i 2), w (Fin.succAbove i 3)],
       pb c rd series [w (Fin.succAbove i 0), w (Fin.succAbove i 2), w (Fin.succAbove i 3)],
       pb c rd series [w (Fin.succAbove i 0), w (Fin.succAbove i 1), w (Fin.succAbove i 3)],
       pb c rd series [w (Fin.succAbove i 0), w (Fin.succAbove i 1), w (Fin.succAbove i 2)]].countP id := by
    fin_cases i <;> rfl
  rw [e]
  rcases key with ⟨h0, h1, h2, h3⟩ | h
  · left
    rw [h0, h1, h2, h3]
    rfl
  · right
    exact h

end Verif.CLT
