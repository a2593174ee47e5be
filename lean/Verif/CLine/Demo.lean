import Verif.CLine.Props
/-! Concrete cases for C96 and C97, and a counterexample. -/
namespace Verif.CLT
open Verif.SRM
open Verif.Gen (Box InsideV Inside Shaped)
open Verif.Ctr (IsElem FaceOf)

/-- a box of 2 × 2 × 2 vertices -/
def box2 : Box 3 := { domain := ⟨[0, 0, 0], [2, 2, 2]⟩, core := ⟨[0, 0, 0], [2, 2, 2]⟩, astart := [0, 0, 0], t0 := 0, t1 := 100 }

/-- the plain tracker -/
def demo : Cfg (Fin 2 → Rat) := { box := box2, uv := id, extra := fun _ _ => [], degen := fun _ _ => 0 }

/-- snapshot number `t` of the affine 2-vector field with the values `w 0 … w 4` at `0000`, `1000`, `1100`, `1110`, `1111` -/
def affine (w : Fin 5 → Fin 2 → Int) (t : Int) : UV :=
  { dims := [2, 2, 2], val := fun p j =>
      ((w 0 j + p.getD 0 0 * (w 1 j - w 0 j) + p.getD 1 0 * (w 2 j - w 1 j) + p.getD 2 0 * (w 3 j - w 2 j) + t * (w 4 j - w 3 j) : Int) : Rat) }

/-- two snapshots -/
def series2 (w : Fin 5 → Fin 2 → Int) : List UV := [affine w 0, affine w 1]

theorem demo_shaped : Shaped demo.box 2 :=
  { pos := by decide, dlen := by decide, core := rfl, alen := rfl, start := rfl, stop := by decide }

theorem demo_covers (w : Fin 5 → Fin 2 → Int) : ∀ s ∈ series2 w, Covers demo UV.read s := by
  intro s hs p hp
  have hd : s.dims = [2, 2, 2] := by
    simp only [series2, List.mem_cons, List.not_mem_nil, or_false] at hs
    rcases hs with rfl | rfl <;> rfl
  obtain ⟨hl, h⟩ := hp
  rcases p with _ | ⟨x, _ | ⟨y, _ | ⟨z, _ | ⟨a, p⟩⟩⟩⟩ <;> simp [demo, box2] at hl
  have h0 := h 0 0 2 x rfl rfl rfl
  have h1 := h 1 0 2 y rfl rfl rfl
  have h2 := h 2 0 2 z rfl rfl rfl
  unfold UV.read
  rw [hd]
  rw [if_pos]
  · rfl
  · simp only [demo, box2, List.zipWith_cons_cons, List.zipWith_nil_left, Trk.inDims, Nat.cast_zero, sub_zero]
    simp [Trk.inDims]
    omega

theorem demo_dyadic (w : Fin 5 → Fin 2 → Int) : ∀ s ∈ series2 w, Dyadic demo UV.read s := by
  intro s hs p v hv j
  have hs' : ∃ t, s = affine w t := by
    simp only [series2, List.mem_cons, List.not_mem_nil, or_false] at hs
    rcases hs with rfl | rfl <;> exact ⟨_, rfl⟩
  obtain ⟨t, rfl⟩ := hs'
  unfold UV.read at hv
  split at hv
  · cases hv
    refine ⟨(w 0 j + p.getD 0 0 * (w 1 j - w 0 j) + p.getD 1 0 * (w 2 j - w 1 j) + p.getD 2 0 * (w 3 j - w 2 j) + t * (w 4 j - w 3 j)) * 2 ^ 21, ?_⟩
    simp only [demo, affine, id]
    push_cast
    ring
  · cases hv

/-- the vertices of one 4-simplex -/
def path : Fin 5 → Vtx := ![[0, 0, 0, 0], [1, 0, 0, 0], [1, 1, 0, 0], [1, 1, 1, 0], [1, 1, 1, 1]]

theorem path_cell : Cell 4 4 [0, 0, 0, 0] (List.ofFn path) where
  len := rfl
  clen := rfl
  head := rfl
  chain := by simp [path, VLt]
  cube := by simp [path, Cube, sub]

theorem path_inside : ∀ i, InsideV demo.box 2 (path i) := by
  have hb : ∀ x y z : Int, 0 ≤ x → x < 2 → 0 ≤ y → y < 2 → 0 ≤ z → z < 2 → Lat.InBox demo.box.domain [x, y, z] := by
    intro x y z h1 h2 h3 h4 h5 h6
    refine ⟨rfl, fun d s n v a b c => ?_⟩
    rcases d with _ | _ | _ | d <;> simp [demo, box2] at a b c <;> omega
  intro i
  fin_cases i
  · exact ⟨rfl, hb 0 0 0 (by decide) (by decide) (by decide) (by decide) (by decide) (by decide), 0, rfl, by decide⟩
  · exact ⟨rfl, hb 1 0 0 (by decide) (by decide) (by decide) (by decide) (by decide) (by decide), 0, rfl, by decide⟩
  · exact ⟨rfl, hb 1 1 0 (by decide) (by decide) (by decide) (by decide) (by decide) (by decide), 0, rfl, by decide⟩
  · exact ⟨rfl, hb 1 1 1 (by decide) (by decide) (by decide) (by decide) (by decide) (by decide), 0, rfl, by decide⟩
  · exact ⟨rfl, hb 1 1 1 (by decide) (by decide) (by decide) (by decide) (by decide) (by decide), 1, rfl, by decide⟩

/-- four vectors around zero, and a fifth: four triangles are pierced -/
def four : Fin 5 → Fin 2 → Int := ![![-1, 2], ![0, -1], ![-1, -1], ![1, 0], ![-1, 1]]
/-- five vectors around zero: five triangles are pierced -/
def five : Fin 5 → Fin 2 → Int := ![![-1, 0], ![0, 1], ![1, 1], ![-1, -2], ![1, -1]]

/-- the pairs whose opposite triangle is pierced -/
def hits (w : Fin 5 → Fin 2 → Int) : List (Fin 5 × Fin 5) :=
  ((List.finRange 5).flatMap fun i => (List.finRange 5).map fun j => (i, j)).filter fun p =>
    decide (p.1 < p.2) && pb demo UV.read (series2 w) ((drop2 p.1 p.2).map path)

theorem hits_four : hits four = [(0, 1), (0, 2), (1, 4), (2, 4)] := by decide +kernel
theorem hits_five : (hits five).length = 5 := by decide +kernel

/-- the pierced triangles of the 4-simplex `path` -/
theorem path_pierced (w : Fin 5 → Fin 2 → Int) {x : Elem} {T D} (hF : Faces x path T D) {i j : Fin 5} (hij : i < j) :
    Pierced demo UV.read (series2 w) (D i j) ↔ (i, j) ∈ hits w := by
  rw [drop2_mem_inside hF (ne_of_lt hij)]
  unfold hits
  rw [List.mem_filter]
  simp only [List.mem_flatMap, List.mem_map, List.mem_finRange, true_and, Prod.mk.injEq, exists_eq_right_right, exists_eq, and_true,
    Bool.and_eq_true, decide_eq_true_eq, hij]
  exact ⟨fun h => ⟨⟨_, _, rfl, rfl⟩, h.2⟩, fun h => ⟨fun k _ _ => path_inside k, h.2⟩⟩

/-- a 4-simplex on `path` and its faces -/
theorem path_faces : ∃ x T D, IsElem 4 4 x ∧ Inside demo.box 2 x ∧ Faces x path T D := by
  obtain ⟨x, hx, hv⟩ := Ctr.isElem_of_cell (n := 4) (by omega) (by omega) path_cell
  obtain ⟨w, T, D, hF⟩ := faces_exist hx
  have hw : w = path := by
    have := hF.verts
    rw [hv] at this
    exact (List.ofFn_injective (Option.some.inj this)).symm
  subst hw
  refine ⟨x, T, D, hx, ⟨_, hv, fun v hv => ?_⟩, hF⟩
  obtain ⟨i, rfl⟩ := List.mem_ofFn.1 hv
  exact path_inside i

/-- the numbers of the points of the 4-simplex -/
theorem path_ids (w : Fin 5 → Fin 2 → Int) {inter : List (Elem × Pt)} (hk : Keys demo UV.read (series2 w) inter) {x : Elem}
    {T D} (hF : Faces x path T D) {ids : List Nat} (hnd : ids.Nodup)
    (hids : ∀ i, i ∈ ids ↔ ∃ f, (inter.map Prod.fst)[i]? = some f ∧ FaceOf 4 f x) : ids.length = (hits w).length := by
  have hlt : ∀ p ∈ hits w, p.1 < p.2 := by
    intro p hp
    unfold hits at hp
    simp only [List.mem_filter, Bool.and_eq_true, decide_eq_true_eq] at hp
    exact hp.2.1
  have hp : ids.Perm ((hits w).map fun p => num inter (D p.1 p.2)) := by
    refine (List.perm_ext_iff_of_nodup hnd (List.Nodup.map_on ?_ ?_)).2 fun i => ?_
    · rintro ⟨a, b⟩ h1 ⟨a', b'⟩ h2 he
      have l1 := hlt _ h1
      have l2 := hlt _ h2
      simp only at l1 l2
      have := num_inj hk ((path_pierced w hF l1).2 h1) he
      rcases hF.dinj _ _ _ _ (ne_of_lt l1) (ne_of_lt l2) this with ⟨rfl, rfl⟩ | ⟨rfl, rfl⟩
      · rfl
      · exact absurd l1 (lt_asymm l2)
    · unfold hits
      exact List.Nodup.filter _ (by decide)
    · rw [hids, List.mem_map]
      constructor
      · rintro ⟨f, hf, hfx⟩
        obtain ⟨hp, rfl⟩ := (num_get hk).1 hf
        have hf2 : IsElem 4 2 f := by obtain ⟨vs, h⟩ := hp; exact h.tri
        obtain ⟨a, b, hab, rfl⟩ := (hF.tris f hf2).1 hfx
        rcases lt_or_gt_of_ne hab with h | h
        · exact ⟨(a, b), (path_pierced w hF h).1 hp, rfl⟩
        · rw [hF.comm a b hab] at hp ⊢
          exact ⟨(b, a), (path_pierced w hF h).1 hp, rfl⟩
      · rintro ⟨⟨a, b⟩, hp, rfl⟩
        have l1 := hlt _ hp
        simp only at l1
        exact ⟨D a b, (num_get hk).2 ⟨(path_pierced w hF l1).2 hp, rfl⟩,
          (hF.tris _ (hF.tri a b (ne_of_lt l1)).1).2 ⟨a, b, ne_of_lt l1, rfl⟩⟩
  rw [hp.length_eq, List.length_map]

/-- C97, what fails: a 4-simplex with four pierced triangles contributes all four triangles on its four points, a closed
surface, instead of two triangles that fill the quadrilateral.  In the box `box2` with the two snapshots of an affine field,
whatever the orders. -/
theorem C97_quad_closed (ord : Nat → Scope → List Int) (ho : ∀ k, Complete demo (ord k)) (perm : List Elem → List Elem)
    (hperm : ∀ l, (perm l).Perm l) :
    ∃ st s, Gen.run (tracker demo UV.read).prog (Gen.driveOps (series2 four) ord) Gen.St.init = some st ∧
      surfaces demo.box.bounds st.inter perm = some s ∧
      ∃ i j k l, [i, j, k, l].Nodup ∧ (i, j, k) ∈ s.tris ∧ (i, j, l) ∈ s.tris ∧ (i, k, l) ∈ s.tris ∧ (j, k, l) ∈ s.tris ∧
        ∃ x, IsElem 4 4 x ∧ Inside demo.box 2 x ∧
          ∀ n, n ∈ [i, j, k, l] ↔ ∃ f, (st.inter.map Prod.fst)[n]? = some f ∧ FaceOf 4 f x := by
  obtain ⟨st, s, h1, h2, -, -, -, -, -, ⟨order, g, ht, -, hmem, hpat⟩, -⟩ :=
    C97_surface_partial demo UV.read (series2 four) (by simp [series2]) demo_shaped (demo_covers four) ord ho perm hperm
  obtain ⟨st', h1', hs, -, hi⟩ := C96_detects demo UV.read (series2 four) (by simp [series2]) demo_shaped (demo_covers four) ord ho
  rw [h1] at h1'
  obtain rfl := Option.some.inj h1'
  have hk := keys_of hs hi
  refine ⟨st, s, h1, h2, ?_⟩
  obtain ⟨x, T, D, hx, hin, hF⟩ := path_faces
  have hxo : x ∈ order := (hmem x).2 ⟨hx, hin, D 0 1, (path_pierced four hF (by decide)).2 (by rw [hits_four]; decide),
    (hF.tris _ (hF.tri 0 1 (by decide)).1).2 ⟨0, 1, by decide, rfl⟩⟩
  obtain ⟨ids, hnd, -, hp, hids⟩ := hpat x hxo
  have hlen : ids.length = 4 := by rw [path_ids four hk hF hnd hids, hits_four]; rfl
  rcases hp with ⟨h, -⟩ | ⟨-, i, j, k, l, rfl, hp⟩ | ⟨h, -⟩ | ⟨h, -⟩
  · omega
  · have hm : ∀ t ∈ [(i, j, k), (i, j, l), (i, k, l), (j, k, l)], t ∈ s.tris := fun t h => by
      rw [ht]
      exact List.mem_flatMap.2 ⟨x, hxo, hp.mem_iff.2 h⟩
    exact ⟨i, j, k, l, hnd, hm _ (by simp), hm _ (by simp), hm _ (by simp), hm _ (by simp), x, hx, hin, hids⟩
  · omega
  · omega

/-! ### the hypotheses are satisfiable -/

/-- the tasks in order -/
def inOrder (sc : Scope) : List Int := (List.range (box2.core.sizes.prod * (scopeTypes 4 2 sc).length)).map Int.ofNat

example : ∃ st, Gen.run (tracker demo UV.read).prog (Gen.driveOps (series2 five) fun _ => inOrder) Gen.St.init = some st ∧
    5 ≤ st.inter.length := by
  obtain ⟨st, h1, hs, -, hi⟩ := C96_detects demo UV.read (series2 five) (by simp [series2]) demo_shaped (demo_covers five)
    (fun _ => inOrder) (fun _ _ => List.Perm.refl _)
  have hk := keys_of hs hi
  refine ⟨st, h1, ?_⟩
  obtain ⟨x, T, D, hx, hin, hF⟩ := path_faces
  obtain ⟨gs, -, -, hnd, hgs⟩ := cellIds_spec hk hx
  have hids : ∀ i, i ∈ gs.map (num st.inter) ↔ ∃ f, (st.inter.map Prod.fst)[i]? = some f ∧ FaceOf 4 f x := by
    intro i
    constructor
    · intro h
      obtain ⟨f, hf, rfl⟩ := List.mem_map.1 h
      obtain ⟨-, a, b⟩ := (hgs f).1 hf
      exact ⟨f, (num_get hk).2 ⟨b, rfl⟩, a⟩
    · rintro ⟨f, hf, a⟩
      obtain ⟨hp, rfl⟩ := (num_get hk).1 hf
      have hf2 : IsElem 4 2 f := by obtain ⟨vs, h⟩ := hp; exact h.tri
      exact List.mem_map.2 ⟨f, (hgs f).2 ⟨hf2, a, hp⟩, rfl⟩
  have h5 := path_ids five hk hF hnd hids
  rw [hits_five] at h5
  have hlt : ∀ i ∈ gs.map (num st.inter), i ∈ List.range st.inter.length := by
    intro i h
    obtain ⟨f, hf, -⟩ := (hids i).1 h
    rw [List.mem_range]
    by_contra hn
    rw [List.getElem?_eq_none (by rw [List.length_map]; omega)] at hf
    cases hf
  have := (List.subperm_of_subset hnd hlt).length_le
  rw [List.length_range] at this
  omega

example : ∃ x vs, PiercedAt demo UV.read (series2 five) x vs := by
  obtain ⟨x, T, D, hx, hin, hF⟩ := path_faces
  have h : ∃ p, p ∈ hits five ∧ p.1 < p.2 := ⟨(hits five)[0]'(by rw [hits_five]; omega), List.getElem_mem _, by decide +kernel⟩
  obtain ⟨⟨a, b⟩, hp, hab⟩ := h
  exact ⟨D a b, (path_pierced five hF hab).2 hp⟩

example : ∀ s ∈ series2 five, Dyadic demo UV.read s := demo_dyadic five

example : ∃ x, IsElem 4 4 x ∧ Inside demo.box (series2 five).length x ∧ ∀ ts fs, Ring demo UV.read (series2 five) x ts fs → fs ≠ [] := by
  obtain ⟨x, T, D, hx, hin, hF⟩ := path_faces
  refine ⟨x, hx, hin, fun ts fs hr h => ?_⟩
  have h' : ∃ p, p ∈ hits five ∧ p.1 < p.2 := ⟨(hits five)[0]'(by rw [hits_five]; omega), List.getElem_mem _, by decide +kernel⟩
  obtain ⟨⟨a, b⟩, hp, hab⟩ := h'
  simp only at hab
  have := (hr.all (D a b)).2 ⟨(hF.tri a b (ne_of_lt hab)).1, (hF.tris _ (hF.tri a b (ne_of_lt hab)).1).2 ⟨a, b, ne_of_lt hab, rfl⟩,
    (path_pierced five hF hab).2 hp⟩
  rw [h] at this
  cases this

/-- C98: a single snapshot with a curve -/
example : ∃ st ks, Gen.run (tracker demo UV.read).prog (Gen.driveOps [affine four 0] fun _ => inOrder) Gen.St.init = some st ∧
    st.cur = 0 ∧ lines st.inter = some ks ∧ FollowsLines demo UV.read (affine four 0) ks ∧ ∃ k ∈ ks, 2 ≤ k.length := by
  have hc : Shaped demo.box 1 := { pos := by decide, dlen := by decide, core := rfl, alen := rfl, start := rfl, stop := by decide }
  obtain ⟨st, ks, h1, h2, h3, h4⟩ := C98_lines demo UV.read (affine four 0) hc (demo_covers four _ (by simp [series2]))
    (fun _ => inOrder) (fun _ _ => List.Perm.refl _)
  refine ⟨st, ks, h1, h2, h3, h4, ?_⟩
  obtain ⟨x, T, D, hx, hin, hF⟩ := path_faces
  have hp : ∀ j : Fin 5, (j = 1 ∨ j = 2) → Pierced demo UV.read [affine four 0] (D j 4) := by
    intro j hj
    have hj4 : j ≠ 4 := by rcases hj with rfl | rfl <;> decide
    refine (pierced_iff (hF.tri j 4 hj4).1 (hF.tri j 4 hj4).2).2 ⟨fun v hv => ?_, ?_⟩
    · obtain ⟨k, hk, rfl⟩ := List.mem_map.1 hv
      have hk4 := (mem_drop2.1 hk).2
      have hi := path_inside k
      refine ⟨hi.len, hi.place, 0, ?_, by decide⟩
      fin_cases k <;> first | rfl | exact absurd rfl hk4
    · rcases hj with rfl | rfl <;> decide +kernel
  have hT : Inside demo.box 1 (T 4) := by
    refine ⟨_, (hF.tet 4).2, fun v hv => ?_⟩
    obtain ⟨k, hk, rfl⟩ := List.mem_map.1 hv
    have hk4 := mem_drop1.1 hk
    have hi := path_inside k
    refine ⟨hi.len, hi.place, 0, ?_, by decide⟩
    fin_cases k <;> first | rfl | exact absurd rfl hk4
  rcases h4.tet (T 4) (hF.tet 4).1 hT with h | ⟨f, g, hfg, -, k, hk, hn⟩
  · exact absurd ((hF.sub 1 4 4 (by decide)).2 (.inr rfl)) (h _ (hp 1 (.inl rfl)))
  · refine ⟨k, hk, ?_⟩
    rcases hn with ⟨l, r, rfl⟩ | ⟨l, r, rfl⟩ | ⟨ha, hz⟩ | ⟨ha, hz⟩
    · simp; omega
    · simp; omega
    · rcases k with _ | ⟨a, _ | ⟨b, k⟩⟩
      · cases ha
      · simp at ha hz
        exact absurd (ha.symm.trans hz) hfg
      · simp
    · rcases k with _ | ⟨a, _ | ⟨b, k⟩⟩
      · cases ha
      · simp at ha hz
        exact absurd (hz.symm.trans ha) hfg
      · simp

end Verif.CLT
