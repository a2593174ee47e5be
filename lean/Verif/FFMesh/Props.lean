import Verif.FFMesh.Model
import Mathlib.Tactic.Linarith
/-! # Field-following XGC mesh (C196, C197) -/
namespace Verif.FF
open Verif.U3

/-! ## Specification -/

/-- Vertex `v` of the unit mesh placed between the planes `t` and `t + 1`: vertex `v % n0` of plane `t + v / n0`, the planes being
periodic. -/
def place (n0 np t : Nat) (v : Int) : Int := (((t : Int) + v / n0) % np) * n0 + v % n0

theorem place_eq (n0 np t : Nat) {v : Int} (hv : 0 ≤ v) :
    ((t : Int) * (n0 : Int) + v) % ((n0 * np : Nat) : Int) = place n0 np t v := by
  obtain ⟨k, rfl⟩ := Int.eq_ofNat_of_zero_le hv
  unfold place
  norm_cast
  rw [Nat.mod_mul]
  rcases Nat.eq_zero_or_pos n0 with rfl | h
  · simp
  · rw [Nat.mul_comm t n0, Nat.mul_add_mod, Nat.mul_add_div h, Nat.mul_comm n0, Nat.add_comm]

theorem place_range {n0 np : Nat} (h0 : 0 < n0) (h1 : 0 < np) (t : Nat) (v : Int) :
    0 ≤ place n0 np t v ∧ place n0 np t v < (n0 : Int) * np := by
  unfold place
  have a := Int.emod_nonneg ((t : Int) + v / n0) (show (np : Int) ≠ 0 by omega)
  have b := Int.emod_lt_of_pos ((t : Int) + v / n0) (show (0 : Int) < np by omega)
  have c := Int.emod_nonneg v (show (n0 : Int) ≠ 0 by omega)
  have d := Int.emod_lt_of_pos v (show (0 : Int) < n0 by omega)
  constructor <;> nlinarith

theorem place_div {n0 np : Nat} (h0 : 0 < n0) (t : Nat) (v : Int) :
    place n0 np t v / n0 = ((t : Int) + v / n0) % np ∧ place n0 np t v % n0 = v % n0 := by
  unfold place
  have c := Int.emod_nonneg v (show (n0 : Int) ≠ 0 by omega)
  have d := Int.emod_lt_of_pos v (show (0 : Int) < n0 by omega)
  constructor
  · rw [Int.add_comm, Int.add_mul_ediv_right _ _ (by omega), Int.ediv_eq_zero_of_lt c d, Int.zero_add]
  · rw [Int.add_comm, Int.add_mul_emod_self_right, Int.emod_emod_of_dvd _ (dvd_refl _)]

theorem half {n0 : Nat} (h0 : 0 < n0) {v : Int} (hv : 0 ≤ v) (hv2 : v < 2 * n0) :
    (v < n0 ∧ v / n0 = 0 ∧ v % n0 = v) ∨ ((n0 : Int) ≤ v ∧ v / n0 = 1 ∧ v % n0 = v - n0) := by
  by_cases h : v < n0
  · exact .inl ⟨h, Int.ediv_eq_zero_of_lt hv h, Int.emod_eq_of_lt hv h⟩
  · refine .inr ⟨by omega, ?_, ?_⟩
    · have : v = (v - n0) + 1 * n0 := by ring
      rw [this, Int.add_mul_ediv_right _ _ (by omega), Int.ediv_eq_zero_of_lt (by omega) (by omega)]; rfl
    · have : v = (v - n0) + 1 * n0 := by ring
      rw [this, Int.add_mul_emod_self_right, Int.emod_eq_of_lt (by omega) (by omega)]; ring

theorem succ_mod {np t : Nat} (ht : t < np) :
    (((t : Int) + 1) % np = t + 1 ∧ t + 1 < np) ∨ (((t : Int) + 1) % np = 0 ∧ t + 1 = np) := by
  by_cases h : t + 1 < np
  · exact .inl ⟨Int.emod_eq_of_lt (by omega) (by omega), h⟩
  · have : (t : Int) + 1 = np := by omega
    exact .inr ⟨by rw [this, Int.emod_self], by omega⟩

/-- With at least two planes the placement keeps the vertices of the unit mesh apart. -/
theorem place_inj {n0 np t : Nat} (h2 : 2 ≤ np) (ht : t < np) {v w : Int} (hv : 0 ≤ v) (hv2 : v < 2 * n0)
    (hw : 0 ≤ w) (hw2 : w < 2 * n0) (h : place n0 np t v = place n0 np t w) : v = w := by
  have h0 : 0 < n0 := by omega
  obtain ⟨a1, a2⟩ := place_div (np := np) h0 t v
  obtain ⟨b1, b2⟩ := place_div (np := np) h0 t w
  rw [h, b1] at a1
  rw [h, b2] at a2
  have e0 : ((t : Int) + 0) % np = t := by rw [Int.add_zero]; exact Int.emod_eq_of_lt (by omega) (by omega)
  rcases half h0 hv hv2 with ⟨c, d, e⟩ | ⟨c, d, e⟩ <;> rcases half h0 hw hw2 with ⟨c', d', e'⟩ | ⟨c', d', e'⟩ <;>
    rw [d, d'] at a1 <;> rw [e, e'] at a2 <;> rcases succ_mod ht with ⟨f, f'⟩ | ⟨f, f'⟩ <;> simp only [e0, f] at a1 <;> omega

variable {ts : List Tet} {u : M3} {n0 np : Nat}

/-- C196: the mesh has the vertices of all planes and one copy of each unit tetrahedron per plane, and tetrahedron
`t · |ts| + j` has exactly the corners of unit tetrahedron `j` placed between the planes `t` and `t + 1` (the last plane
is followed by the first), four different ones in ascending order.  (At least two planes.) -/
theorem C196_tetrahedra (hv : Valid (2 * n0) ts) (hb : build (2 * n0) ts = some u) (h2 : 2 ≤ np) :
    (Mesh.mk n0 np (some u)).n 0 = some (n0 * np) ∧ (Mesh.mk n0 np (some u)).n 3 = some (ts.length * np) ∧
    ∀ (t j : Nat) (T : Tet) (verts : List Int), t < np → ts[j]? = some T →
      ∃ c, (Mesh.mk n0 np (some u)).get 3 (t * ts.length + j) verts = some c ∧ c.length = 4 ∧ c.Pairwise (· < ·) ∧
        (∀ w ∈ c, 0 ≤ w ∧ w < (n0 : Int) * np) ∧ ∀ w, w ∈ c ↔ ∃ v, OnTet v T ∧ w = place n0 np t v := by
  obtain ⟨u', e, -, h3, hc⟩ := C122_build_partial hv
  rw [hb] at e
  obtain rfl := Option.some.inj e
  refine ⟨rfl, by simp [Mesh.n, h3], ?_⟩
  intro t j T verts ht hT
  obtain ⟨c, c1, c2, c3, c4⟩ := hc j T hT
  have hj : j < ts.length := (List.getElem?_eq_some_iff.1 hT).1
  have hr : ∀ v ∈ c, 0 ≤ v ∧ v < 2 * (n0 : Int) := fun v hv' => by
    have := hv.range T (List.mem_of_getElem? hT) v ((c4 v).1 hv')
    push_cast at this
    exact this
  have h0 : 0 < n0 := by
    rcases c with _ | ⟨v, c⟩
    · simp at c2
    · have := hr v (by simp); omega
  have e1 : (t * ts.length + j) % u.n 3 = j := by
    rw [h3, Nat.add_comm, Nat.add_mul_mod_self_right, Nat.mod_eq_of_lt hj]
  have e2 : (t * ts.length + j) / u.n 3 = t := by
    rw [h3, Nat.add_comm, Nat.add_mul_div_right _ _ (by omega), Nat.div_eq_of_lt hj, Nat.zero_add]
  have hp : 0 < n0 * np := Nat.mul_pos h0 (by omega)
  have e3 : (c.map fun (v : Int) => ((t : Int) * (n0 : Int) + v) % ((n0 * np : Nat) : Int)) = c.map (place n0 np t) :=
    List.map_congr_left fun v hv' => place_eq n0 np t (hr v hv').1
  have hnd : (c.map (place n0 np t)).Nodup := by
    refine List.Nodup.map_on ?_ (c3.imp fun h => by omega)
    intro v hv' w hw' h
    exact place_inj h2 ht (hr v hv').1 (hr v hv').2 (hr w hw').1 (hr w hw').2 h
  have hperm := XGC.sort_perm (c.map (place n0 np t))
  have hmem : ∀ w, w ∈ XGC.sort (c.map (place n0 np t)) ↔ ∃ v, OnTet v T ∧ w = place n0 np t v := by
    intro w
    rw [hperm.mem_iff, List.mem_map]
    exact ⟨fun ⟨v, a, b⟩ => ⟨v, (c4 v).1 a, b.symm⟩, fun ⟨v, a, b⟩ => ⟨v, (c4 v).2 a, b.symm⟩⟩
  refine ⟨XGC.sort (c.map (place n0 np t)), ?_, ?_, ?_, ?_, hmem⟩
  · unfold Mesh.get
    rw [if_pos rfl]
    dsimp only
    rw [if_neg (show ¬ u.n 3 = 0 by omega), e1, c1]
    dsimp only
    rw [if_neg (show ¬ n0 * np = 0 by omega), e2, e3]
  · rw [hperm.length_eq, List.length_map, c2]
  · have a := XGC.sort_sorted (c.map (place n0 np t))
    have b : (XGC.sort (c.map (place n0 np t))).Nodup := hperm.nodup_iff.2 hnd
    exact (a.and b).imp fun h => by omega
  · intro w hw
    obtain ⟨v, -, rfl⟩ := (hmem w).1 hw
    exact place_range h0 (by omega) t v

/-- C196: with at least three planes, if every unit tetrahedron has corners on both planes, different tetrahedron numbers give
different tetrahedra.  Missing: two planes (see `C196_two_planes_violated`). -/
theorem C196_distinct_partial (hv : Valid (2 * n0) ts) (hb : build (2 * n0) ts = some u) (h3 : 3 ≤ np)
    (hboth : ∀ T ∈ ts, (∃ v, OnTet v T ∧ v < n0) ∧ ∃ v, OnTet v T ∧ (n0 : Int) ≤ v)
    (t j t' j' : Nat) (ht : t < np) (ht' : t' < np) (hj : j < ts.length) (hj' : j' < ts.length)
    (h : (Mesh.mk n0 np (some u)).get 3 (t * ts.length + j) [] = (Mesh.mk n0 np (some u)).get 3 (t' * ts.length + j') []) :
    t = t' ∧ j = j' := by
  obtain ⟨-, -, hc⟩ := C196_tetrahedra (np := np) hv hb (by omega)
  have hT : ts[j]? = some ts[j] := List.getElem?_eq_getElem hj
  have hT' : ts[j']? = some ts[j'] := List.getElem?_eq_getElem hj'
  obtain ⟨c, c1, -, -, -, c2⟩ := hc t j _ [] ht hT
  obtain ⟨c', c1', -, -, -, c2'⟩ := hc t' j' _ [] ht' hT'
  rw [c1, c1'] at h
  obtain rfl := Option.some.inj h
  have R : ∀ v, OnTet v ts[j] → 0 ≤ v ∧ v < 2 * (n0 : Int) := fun v hv' => by
    have := hv.range _ (List.getElem_mem hj) v hv'
    push_cast at this; exact this
  have R' : ∀ v, OnTet v ts[j'] → 0 ≤ v ∧ v < 2 * (n0 : Int) := fun v hv' => by
    have := hv.range _ (List.getElem_mem hj') v hv'
    push_cast at this; exact this
  obtain ⟨⟨p, p1, p2⟩, q, q1, q2⟩ := hboth _ (List.getElem_mem hj)
  obtain ⟨⟨p', p1', p2'⟩, q', q1', q2'⟩ := hboth _ (List.getElem_mem hj')
  have h0 : 0 < n0 := by have := R p p1; omega
  -- planes touched
  have plane : ∀ (s : Nat) (v : Int), s < np → 0 ≤ v → v < 2 * (n0 : Int) →
      (v < n0 ∧ place n0 np s v / n0 = s) ∨ ((n0 : Int) ≤ v ∧ place n0 np s v / n0 = ((s : Int) + 1) % np) := by
    intro s v hs a b
    rcases half h0 a b with ⟨x, y, -⟩ | ⟨x, y, -⟩
    · refine .inl ⟨x, ?_⟩
      rw [(place_div h0 s v).1, y, Int.add_zero]; exact Int.emod_eq_of_lt (by omega) (by omega)
    · refine .inr ⟨x, ?_⟩
      rw [(place_div h0 s v).1, y]
  have tt : t = t' := by
    obtain ⟨a, a1, a2⟩ := (c2' _).1 ((c2 _).2 ⟨p, p1, rfl⟩)
    obtain ⟨b, b1, b2⟩ := (c2' _).1 ((c2 _).2 ⟨q, q1, rfl⟩)
    have P := plane t p ht (R p p1).1 (R p p1).2
    have Q := plane t q ht (R q q1).1 (R q q1).2
    have A := plane t' a ht' (R' a a1).1 (R' a a1).2
    have B := plane t' b ht' (R' b b1).1 (R' b b1).2
    rw [a2] at P
    rw [b2] at Q
    have S := succ_mod ht
    have S' := succ_mod ht'
    generalize place n0 np t' a / (n0 : Int) = X at *
    generalize place n0 np t' b / (n0 : Int) = Y at *
    generalize ((t : Int) + 1) % np = Z at *
    generalize ((t' : Int) + 1) % np = Z' at *
    omega
  subst tt
  refine ⟨rfl, hv.nodup j j' _ _ hT hT' fun v => ?_⟩
  constructor
  · intro hv'
    obtain ⟨w, w1, w2⟩ := (c2' _).1 ((c2 _).2 ⟨v, hv', rfl⟩)
    rw [place_inj (by omega) ht (R v hv').1 (R v hv').2 (R' w w1).1 (R' w w1).2 w2]; exact w1
  · intro hv'
    obtain ⟨w, w1, w2⟩ := (c2 _).1 ((c2' _).2 ⟨v, hv', rfl⟩)
    rw [place_inj (by omega) ht (R' v hv').1 (R' v hv').2 (R w w1).1 (R w w1).2 w2]; exact w1

/-- A unit mesh on two vertices per plane: the single tetrahedron 0 1 2 3 -/
def unit : List Tet := [(0, 1, 2, 3)]

theorem unit_valid : Valid (2 * 2) unit := by
  refine ⟨?_, by decide, ?_⟩
  · intro t ht v hv
    simp only [unit, List.mem_singleton] at ht
    subst ht
    simp only [OnTet] at hv
    omega
  · intro i j s t hi hj _
    have : i < 1 := (List.getElem?_eq_some_iff.1 hi).1
    have : j < 1 := (List.getElem?_eq_some_iff.1 hj).1
    omega

/-- C196 (violated with two planes): the copies of the tetrahedron 0 1 2 3 between the planes 0, 1 and 1, 0 are the same
tetrahedron. -/
theorem C196_two_planes_violated : ∃ u, build (2 * 2) unit = some u ∧
    (Mesh.mk 2 2 (some u)).get 3 0 [] = some [0, 1, 2, 3] ∧ (Mesh.mk 2 2 (some u)).get 3 1 [] = some [0, 1, 2, 3] := by
  have h : ((build (2 * 2) unit).map fun u => ((Mesh.mk 2 2 (some u)).get 3 0 [], (Mesh.mk 2 2 (some u)).get 3 1 [])) =
      some (some [0, 1, 2, 3], some [0, 1, 2, 3]) := by decide +kernel
  obtain ⟨u, hu, -⟩ := C122_build_partial unit_valid
  rw [hu, Option.map_some, Option.some.injEq, Prod.mk.injEq] at h
  exact ⟨u, hu, h.1, h.2⟩

/-- C196 (violated with one plane): a unit tetrahedron with the corners `v` and `v + n0` on top of each other becomes a
tetrahedron with a repeated corner. -/
theorem C196_one_plane_violated : ∃ u, build (2 * 2) unit = some u ∧
    (Mesh.mk 2 1 (some u)).get 3 0 [] = some [0, 0, 1, 1] := by
  have h : ((build (2 * 2) unit).map fun u => (Mesh.mk 2 1 (some u)).get 3 0 []) = some (some [0, 0, 1, 1]) := by
    decide +kernel
  obtain ⟨u, hu, -⟩ := C122_build_partial unit_valid
  rw [hu, Option.map_some, Option.some.injEq] at h
  exact ⟨u, hu, h⟩

/-- Non-vacuity: three planes of two vertices; the last tetrahedron wraps around. -/
example : ∃ u, Valid (2 * 2) unit ∧ build (2 * 2) unit = some u ∧
    (∀ T ∈ unit, (∃ v, OnTet v T ∧ v < (2 : Nat)) ∧ ∃ v, OnTet v T ∧ ((2 : Nat) : Int) ≤ v) ∧
    (Mesh.mk 2 3 (some u)).get 3 2 [] = some [0, 1, 4, 5] := by
  have h : ((build (2 * 2) unit).map fun u => (Mesh.mk 2 3 (some u)).get 3 2 []) = some (some [0, 1, 4, 5]) := by
    decide +kernel
  obtain ⟨u, hu, -⟩ := C122_build_partial unit_valid
  rw [hu, Option.map_some, Option.some.injEq] at h
  refine ⟨u, unit_valid, hu, ?_, h⟩
  intro T hT
  simp only [unit, List.mem_singleton] at hT
  subst hT
  exact ⟨⟨0, by simp [OnTet], by norm_num⟩, 2, by simp [OnTet], by norm_num⟩

/-! ## Looking up and initialising -/

/-- C197 (the part that holds): initialising from a file that exists gives the mesh of that file; from one that does not exist
the mesh is kept, if there was one. -/
theorem C197_init_partial (m : Mesh) (file : Option M3) (h : file.isSome = true ∨ m.um.isSome = true) :
    ∃ m', m.init file = some m' ∧ m'.n0 = m.n0 ∧ m'.np = m.np ∧ m'.um = (if file.isSome = true then file else m.um) := by
  rcases file with _ | u
  · rcases hu : m.um with _ | w
    · simp [hu] at h
    · exact ⟨m, by simp [Mesh.init, hu], rfl, rfl, by simp [hu]⟩
  · exact ⟨{ m with um := some u }, rfl, rfl, rfl, rfl⟩

/-- C197 (violated): initialising a new mesh from a file that does not exist, which should create the mesh and the file,
dereferences a null pointer. -/
theorem C197_init_violated (n0 np : Nat) : (Mesh.mk n0 np none).init none = none := rfl

/-- C197 (violated): no tetrahedron is ever found, although the mesh has some. -/
theorem C197_find_violated : (∀ (m : Mesh) (d : Nat) (v : List Int), m.find d v = none) ∧
    ∃ u, build (2 * 2) unit = some u ∧ (Mesh.mk 2 3 (some u)).n 3 = some 3 := by
  refine ⟨fun _ _ _ => rfl, ?_⟩
  obtain ⟨u, hu, -, h3, -⟩ := C122_build_partial unit_valid
  exact ⟨u, hu, by simp [Mesh.n, h3, unit]⟩

/-- C197 (violated): there are no edges and no triangles, and asking for a vertex leaves the caller's array as it was. -/
theorem C197_other_dimensions_violated (m : Mesh) (i : Nat) (verts : List Int) :
    m.n 1 = some 0 ∧ m.n 2 = some 0 ∧ m.get 0 i verts = some verts := ⟨rfl, rfl, rfl⟩

end Verif.FF
