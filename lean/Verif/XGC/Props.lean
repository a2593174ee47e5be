import Verif.XGC.Lemmas

/-!
# Properties of the periodic 3-D mesh (C131, C132)
-/

namespace Verif.XGC

open Verif.UM Verif.XM

variable {n0 : Nat} {ts : List Tri} {order : List (Edge × ℤ) → List (Edge × ℤ)} {g : G}

/-! ### Lifting -/

theorem n_pos (g : G) {d : Nat} (hN : 0 < XM.n g.m d) (hp : 0 < g.np) : 0 < g.n d := Int.mul_pos hN hp

theorem n_zero (B : Base n0 ts g.m) : g.n 0 = n0 * g.np := by
  have : (g.m.n 0 : Int) = n0 := by rw [B.hn0]
  simp only [G.n, XM.n, this]

/-- What `get_simplex` computes. -/
theorem get_at (B : Base n0 ts g.m) (hn : 0 < n0) {d : Nat} (hN : 0 < XM.n g.m d) (hp : 0 < g.np) {k : Int} {us : List Int}
    (h : At g.m d (k % g.n d) us) : g.getSimplex d k = some (sort (us.map (wrap n0 g.np))) := by
  have h0 : 0 < g.n d := n_pos g hN hp
  have hz : 0 < g.n 0 := by rw [n_zero B]; exact Int.mul_pos (by omega) hp
  unfold G.getSimplex
  rw [transform_eq h0, Option.bind_eq_bind, Option.bind_some, at_get B h (Int.emod_nonneg _ (by omega)), Option.bind_eq_bind,
    Option.bind_some, transforms_eq hz, n_zero B]
  rfl

theorem vertex_wrap (hn : 0 < n0) {np : Int} (hp : 0 < np) (u : Int) : IsVertex n0 np (wrap n0 np u) :=
  ⟨Int.emod_nonneg _ (by have := Int.mul_pos (by omega : 0 < (n0 : Int)) hp; omega), Int.emod_lt_of_pos _ (Int.mul_pos (by omega) hp)⟩

/-- Any lift can be moved to start in a plane of the torus. -/
theorem at_move (B : Base n0 ts g.m) (hn : 0 < n0) {d : Nat} (hd : d ≤ 3) (hN : 0 < XM.n g.m d) (hp : 0 < g.np) {us : List Int}
    (hl : us.length = d + 1) (hs : Simplex n0 ts us) :
    ∃ c k, At g.m d k (us.map (· + c * (n0 * g.np))) ∧ 0 ≤ k ∧ k < g.n d := by
  obtain ⟨k, hk⟩ := at_complete B hn hd hl hs
  refine ⟨-(k / g.n d), k % g.n d, ?_, Int.emod_nonneg _ (by have := n_pos g hN hp; omega), Int.emod_lt_of_pos _ (n_pos g hN hp)⟩
  have h := at_shift hk (-(k / g.n d) * g.np)
  have e1 : k + -(k / g.n d) * g.np * XM.n g.m d = k % g.n d := by
    have := Int.emod_add_mul_ediv k (g.n d)
    have e : -(k / g.n d) * g.np * XM.n g.m d = -(g.n d * (k / g.n d)) := by rw [G.n]; ring
    rw [e]; omega
  have e2 : (fun x : Int => x + -(k / g.n d) * g.np * (g.m.n 0 : Int)) = fun x => x + -(k / g.n d) * (n0 * g.np) := by
    funext x
    rw [B.hn0]; ring
  rw [e1, e2] at h
  exact h

theorem map_wrap_shift (us : List Int) (np c : Int) : (us.map (· + c * (n0 * np))).map (wrap n0 np) = us.map (wrap n0 np) := by
  rw [List.map_map]
  apply List.map_congr_left
  intro x _
  exact wrap_shift _ _ _ _

theorem at_moved (B : Base n0 ts g.m) {d : Nat} {k : Int} {us : List Int} (h : At g.m d k us) (c : Int) :
    At g.m d (k + c * g.n d) (us.map (· + c * (n0 * g.np))) := by
  have h1 := at_shift h (c * g.np)
  have e1 : k + c * g.np * XM.n g.m d = k + c * g.n d := by rw [G.n]; ring
  have e2 : (fun x : Int => x + c * g.np * (g.m.n 0 : Int)) = fun x => x + c * (n0 * g.np) := by
    funext x
    rw [B.hn0]; ring
  rw [e1, e2] at h1
  exact h1

/-! ## C131: ids -/

/-- C131: every integer is the id of a simplex of the torus (ids count modulo `n(d)`); `get_simplex` returns its vertices
in ascending order, all of them in the mesh, and pairwise different if there are two planes or more. -/
theorem C131_get_simplex (ho : IsOrder order) (hv : Valid n0 ts) (hb : build order n0 ts = some g.m) (hn : 0 < n0) {d : Nat} (hd : d ≤ 3)
    (hN : 0 < XM.n g.m d) (hp : 0 < g.np) (k : Int) :
    ∃ vs, g.getSimplex d k = some vs ∧ vs.length = d + 1 ∧ OnTorus n0 ts g.np vs ∧ (∀ v ∈ vs, IsVertex n0 g.np v) ∧
      vs.Pairwise (· ≤ ·) ∧ (2 ≤ g.np → vs.Pairwise (· < ·)) ∧ ∀ c, g.getSimplex d (k + c * g.n d) = some vs := by
  have B := base_of ho hv hb
  obtain ⟨us, hus⟩ := at_total B hd hN (k % g.n d)
  obtain ⟨f1, f2, -⟩ := at_facts B hus
  have hperm := sort_perm (us.map (wrap n0 g.np))
  refine ⟨_, get_at B hn hN hp hus, by rw [hperm.length_eq, List.length_map, f1], ⟨us, f2, hperm⟩, ?_, sort_sorted _, ?_, ?_⟩
  · intro v hv
    obtain ⟨u, -, rfl⟩ := List.mem_map.1 (hperm.mem_iff.1 hv)
    exact vertex_wrap hn hp u
  · intro h2
    have hnd : (us.map (wrap n0 g.np)).Nodup := by
      refine List.Nodup.map_on (fun x hx y hy e => wrap_inj hn h2 f2 hx hy e) ?_
      exact (simplex_sorted hn f2).imp (fun h => ne_of_lt h)
    have hnd' := hperm.nodup_iff.2 hnd
    have hs := sort_sorted (us.map (wrap n0 g.np))
    exact (hs.and hnd').imp (fun h => lt_of_le_of_ne h.1 h.2)
  · intro c
    exact get_at B hn hN hp (by rw [Int.add_mul_emod_self_right]; exact hus)

/-- C131: every simplex of the torus has an id in `0 … n(d)-1`. -/
theorem C131_every_simplex (ho : IsOrder order) (hv : Valid n0 ts) (hb : build order n0 ts = some g.m) (hn : 0 < n0) {d : Nat} (hd : d ≤ 3)
    (hN : 0 < XM.n g.m d) (hp : 0 < g.np) (vs : List Int) (hl : vs.length = d + 1) (hs : OnTorus n0 ts g.np vs) :
    ∃ k, 0 ≤ k ∧ k < g.n d ∧ g.getSimplex d k = some (sort vs) := by
  have B := base_of ho hv hb
  obtain ⟨us, u1, u2⟩ := hs
  obtain ⟨c, k, h1, h2, h3⟩ := at_move B hn hd hN hp (by rw [← hl, u2.length_eq, List.length_map]) u1
  refine ⟨k, h2, h3, ?_⟩
  rw [get_at B hn hN hp (by rw [Int.emod_eq_of_lt h2 h3]; exact h1), map_wrap_shift]
  congr 1
  exact List.Perm.eq_of_pairwise (fun a b _ _ h1 h2 => le_antisymm h1 h2) (sort_sorted _) (sort_sorted _)
    ((sort_perm _).trans (u2.symm.trans (sort_perm _).symm))

/-- C131: with three planes or more, ids of different classes modulo `n(d)` have different vertices. -/
theorem C131_unique (ho : IsOrder order) (hv : Valid n0 ts) (hb : build order n0 ts = some g.m) (hn : 0 < n0) {d : Nat} (hd : d ≤ 3)
    (hN : 0 < XM.n g.m d) (hp : 3 ≤ g.np) (k k' : Int) :
    g.getSimplex d k = g.getSimplex d k' ↔ k % g.n d = k' % g.n d := by
  have B := base_of ho hv hb
  have hp' : 0 < g.np := by omega
  obtain ⟨us, hus⟩ := at_total B hd hN (k % g.n d)
  obtain ⟨us', hus'⟩ := at_total B hd hN (k' % g.n d)
  rw [get_at B hn hN hp' hus, get_at B hn hN hp' hus']
  constructor
  · intro h
    have h1 : (us.map (wrap n0 g.np)).Perm (us'.map (wrap n0 g.np)) :=
      (sort_perm _).symm.trans ((Option.some.inj h) ▸ sort_perm _)
    obtain ⟨f1, f2, -⟩ := at_facts B hus
    obtain ⟨f1', f2', -⟩ := at_facts B hus'
    obtain ⟨c, hc⟩ := lift_subset hn hp f2 f2' (fun x hx => h1.mem_iff.1 hx)
    have hm := at_moved B hus c
    have h2 : us.map (· + c * (n0 * g.np)) = us' := by
      apply List.Sublist.eq_of_length _ (by rw [List.length_map, f1, f1'])
      have sh := simplex_shift hn f2 (c * g.np)
      have e : (fun x : Int => x + c * g.np * n0) = fun x => x + c * (n0 * g.np) := by funext x; ring
      rw [e] at sh
      refine sublist_of_subset (simplex_sorted hn sh) (simplex_sorted hn f2') ?_
      intro x hx
      obtain ⟨y, hy, rfl⟩ := List.mem_map.1 hx
      exact hc y hy
    rw [h2] at hm
    have h3 := at_inj B hm hus'
    rw [← Int.emod_emod_of_dvd k' (dvd_refl (g.n d)), ← h3, Int.add_mul_emod_self_right, Int.emod_emod_of_dvd k (dvd_refl (g.n d))]
  · intro h
    rw [h] at hus
    rw [at_func B hN hus hus']

theorem planes_eq (B : Base n0 ts g.m) (hn : 0 < n0) : ∀ l : List Int, (∀ v ∈ l, 0 ≤ v) → g.planes l = some (l.map (time n0))
  | [], _ => rfl
  | v :: l, h => by
    have h0 : ¬ n0 = 0 := by omega
    have hv := h v (by simp)
    simp only [G.planes, flatTime, B.hn0, h0, if_false, hv, if_true, Option.bind_eq_bind, Option.bind_some,
      planes_eq B hn l (fun w hw => h w (by simp [hw])), List.map_cons, time]

theorem lift_eq (N : Int) : ∀ l : List Int, lift N l (l.map (time n0)) = l.map (fun v => if time n0 v = 0 then v + N else v)
  | [] => rfl
  | v :: l => by simp only [List.map_cons, lift, lift_eq N l]

/-- C131: `find_simplex` recovers the id from the vertices, in whatever order they are given, for edges, triangles and
tetrahedra of a torus of three planes or more. -/
theorem C131_find_simplex_partial (ho : IsOrder order) (hv : Valid n0 ts) (hb : build order n0 ts = some g.m) (hn : 0 < n0) {d : Nat} (h1 : 1 ≤ d)
    (hd : d ≤ 3) (hN : 0 < XM.n g.m d) (hp : 3 ≤ g.np) (vs : List Int) (hl : vs.length = d + 1) (hs : OnTorus n0 ts g.np vs) :
    ∃ k, 0 ≤ k ∧ k < g.n d ∧ g.findSimplex d vs = some k ∧ g.getSimplex d k = some (sort vs) := by
  have B := base_of ho hv hb
  have hp' : 0 < g.np := by omega
  have hz : 0 < g.n 0 := by rw [n_zero B]; exact Int.mul_pos (by omega) hp'
  obtain ⟨us0, u1, u2⟩ := hs
  have hl0 : us0.length = d + 1 := by rw [← hl, u2.length_eq, List.length_map]
  obtain ⟨c, k, hk, k0, k1⟩ := at_move B hn hd hN hp' hl0 u1
  rw [← map_wrap_shift us0 g.np c] at u2
  generalize us0.map (· + c * (n0 * g.np)) = us at hk u2
  obtain ⟨f1, f2, v, l, rfl, f3⟩ := at_facts B hk
  have hft := first_time f2
  have t0 : 0 ≤ time n0 v := by rw [f3]; exact Int.ediv_nonneg k0 hN.le
  have t1 : time n0 v < g.np := by
    rw [f3]; apply Int.ediv_lt_of_lt_mul hN; rw [Int.mul_comm]; exact k1
  have hget : g.getSimplex d k = some (sort vs) := by
    rw [get_at B hn hN hp' (by rw [Int.emod_eq_of_lt k0 k1]; exact hk)]
    congr 1
    exact List.Perm.eq_of_pairwise (fun a b _ _ h1 h2 => le_antisymm h1 h2) (sort_sorted _) (sort_sorted _)
      ((sort_perm _).trans (u2.symm.trans (sort_perm _).symm))
  have nonneg : ∀ u ∈ v :: l, 0 ≤ u := by
    intro u hu
    have := (hft u hu).1
    obtain ⟨a, b, c⟩ := vertex_rep hn u
    have : 0 * (n0 : Int) ≤ time n0 u * n0 := Int.mul_le_mul_of_nonneg_right (by omega) (by omega)
    omega
  have hfind : XM.findSimplex g.m d (v :: l) = some (some k) := by
    obtain ⟨i, t, us, D, e1, e2⟩ := hk
    have : 0 ≤ t := by
      have hr := D.range B
      rw [e1, ediv_at hr.1 hr.2] at f3; omega
    rw [e2, find_dec B h1 D this, e1]
  have hver : ∀ x ∈ vs, IsVertex n0 g.np x := by
    intro x hx
    obtain ⟨u, -, rfl⟩ := List.mem_map.1 (u2.mem_iff.1 hx)
    exact vertex_wrap hn hp' u
  have htr : g.transforms 0 vs = some vs := by
    rw [transforms_eq hz]
    congr 1
    conv_rhs => rw [← List.map_id vs]
    apply List.map_congr_left
    intro x hx
    have := hver x hx
    rw [n_zero B, id, Int.emod_eq_of_lt this.1 this.2]
  have hsmall : ∀ u, 0 ≤ time n0 u → time n0 u < g.np → wrap n0 g.np u = u := by
    intro u h0 h1
    obtain ⟨a, b, c⟩ := vertex_rep hn u
    have e1 : 0 * (n0 : Int) ≤ time n0 u * n0 := Int.mul_le_mul_of_nonneg_right (by omega) (by omega)
    have e2 : time n0 u * (n0 : Int) ≤ (g.np - 1) * n0 := Int.mul_le_mul_of_nonneg_right (by omega) (by omega)
    have e3 : (g.np - 1) * (n0 : Int) = n0 * g.np - n0 := by ring
    exact Int.emod_eq_of_lt (by omega) (by omega)
  have hbig : ∀ u, time n0 u = g.np → wrap n0 g.np u = u - n0 * g.np ∧ time n0 (u - n0 * g.np) = 0 := by
    intro u h0
    have e : u - n0 * g.np = u + (-1) * (n0 * g.np) := by ring
    have e2 : time n0 (u - n0 * g.np) = 0 := by rw [e, time_shift hn, h0]; ring
    refine ⟨?_, e2⟩
    rw [← hsmall (u - n0 * g.np) (by omega) (by omega), e, wrap_shift]
  refine ⟨k, k0, k1, ?_, hget⟩
  have hfin : ∀ ws, ws.Perm (v :: l) → (do
      match ← XM.findSimplex g.m d (sort ws) with
      | none => none
      | some k => g.transform d k : Option Int) = some k := by
    intro ws hw
    rw [sort_eq hw (simplex_sorted hn f2), hfind]
    simp only [Option.bind_eq_bind, Option.bind_some]
    rw [transform_eq (n_pos g hN hp'), Int.emod_eq_of_lt k0 k1]
  unfold G.findSimplex
  rw [htr, planes_eq B hn vs (fun x hx => (hver x hx).1)]
  simp only [Option.bind_eq_bind, Option.bind_some]
  have hany : ∀ s : Int, ((vs.map (time n0)).any fun t => decide (t = s)) = true ↔ ∃ u ∈ v :: l, time n0 (wrap n0 g.np u) = s := by
    intro s
    simp only [List.any_map, List.any_eq_true, Function.comp, decide_eq_true_eq]
    constructor
    · rintro ⟨x, hx, e⟩
      obtain ⟨u, hu, rfl⟩ := List.mem_map.1 (u2.mem_iff.1 hx)
      exact ⟨u, hu, e⟩
    · rintro ⟨u, hu, e⟩
      exact ⟨_, u2.mem_iff.2 (List.mem_map_of_mem hu), e⟩
  by_cases hc : ∃ u ∈ v :: l, time n0 u = g.np
  · obtain ⟨u, hu, e⟩ := hc
    have hv' : time n0 v = g.np - 1 := by have := (hft u hu).2; omega
    have c1 : ((vs.map (time n0)).any fun t => decide (t = 0)) = true := (hany 0).2 ⟨u, hu, by rw [(hbig u e).1, (hbig u e).2]⟩
    have c2 : ((vs.map (time n0)).any fun t => decide (t = g.np - 1)) = true :=
      (hany _).2 ⟨v, by simp, by rw [hsmall v (by omega) (by omega), hv']⟩
    rw [c1, c2]
    simp only [Bool.and_self, if_true]
    apply hfin
    rw [lift_eq]
    have h3 := u2.map (fun x => if time n0 x = 0 then x + g.n 0 else x)
    refine h3.trans ?_
    rw [List.map_map]
    have e : (v :: l).map ((fun x => if time n0 x = 0 then x + g.n 0 else x) ∘ wrap n0 g.np) = v :: l := by
      conv_rhs => rw [← List.map_id (v :: l)]
      apply List.map_congr_left
      intro x hx
      have h4 := hft x hx
      simp only [Function.comp, id]
      by_cases hx' : time n0 x = g.np
      · rw [(hbig x hx').1, if_pos (hbig x hx').2, n_zero B]; omega
      · rw [hsmall x (by omega) (by omega), if_neg (by omega)]
    rw [e]
  · have hlt : ∀ u ∈ v :: l, time n0 u < g.np := by
      intro u hu
      have := hft u hu
      by_contra hcon
      exact hc ⟨u, hu, by omega⟩
    have hid : (v :: l).map (wrap n0 g.np) = v :: l := by
      conv_rhs => rw [← List.map_id (v :: l)]
      apply List.map_congr_left
      intro x hx
      have h4 := hft x hx
      exact hsmall x (by omega) (hlt x hx)
    have c1 : (((vs.map (time n0)).any fun t => decide (t = 0)) && ((vs.map (time n0)).any fun t => decide (t = g.np - 1))) = false := by
      rw [Bool.eq_false_iff]
      intro hcon
      rw [Bool.and_eq_true, hany, hany] at hcon
      obtain ⟨⟨u, hu, e⟩, w, hw, e'⟩ := hcon
      have h5 := hft u hu
      have h6 := hft w hw
      rw [hsmall u (by omega) (hlt u hu)] at e
      rw [hsmall w (by omega) (hlt w hw)] at e'
      omega
    rw [c1]
    simp only [Bool.false_eq_true, if_false]
    apply hfin
    rw [hid] at u2
    exact u2

/-- C131: `get_poloidal` is the plane the simplex starts in, `is_poloidal` says whether it lies in one plane, for ids in range. -/
theorem C131_poloidal (ho : IsOrder order) (hv : Valid n0 ts) (hb : build order n0 ts = some g.m) (hn : 0 < n0) {d : Nat} (hd : d ≤ 3)
    (hN : 0 < XM.n g.m d) (hp : 2 ≤ g.np) (k : Int) (h0 : 0 ≤ k) (h1 : k < g.n d) :
    ∃ vs p b, g.getSimplex d k = some vs ∧ g.getPoloidal d k = some p ∧ g.isPoloidal d k = some b ∧ 0 ≤ p ∧ p < g.np ∧
      (∃ v ∈ vs, plane n0 v = p) ∧ (∀ v ∈ vs, plane n0 v = p ∨ plane n0 v = (p + 1) % g.np) ∧
      (b = true ↔ ∀ v ∈ vs, plane n0 v = p) := by
  have B := base_of ho hv hb
  have hp' : 0 < g.np := by omega
  obtain ⟨us, hus⟩ := at_total B hd hN k
  obtain ⟨f1, f2, v, l, rfl, f3⟩ := at_facts B hus
  have hg := at_get B hus h0
  have hgg := get_at (us := v :: l) B hn hN hp' (by rw [Int.emod_eq_of_lt h0 h1]; exact hus)
  have hord := (C51_ordinal ho hv hb hd k k (v :: l) hN (Or.inl h0) hg).2
  have hft := first_time f2
  have t0 : 0 ≤ time n0 v := by rw [f3]; exact Int.ediv_nonneg h0 hN.le
  have t1 : time n0 v < g.np := by
    rw [f3]; apply Int.ediv_lt_of_lt_mul hN; rw [Int.mul_comm]; exact h1
  have hpl : ∀ u, plane n0 (wrap n0 g.np u) = time n0 u % g.np := by
    intro u
    have e : wrap n0 g.np u = u + (-(u / (n0 * g.np))) * (n0 * g.np) := by
      have := Int.emod_add_mul_ediv u (n0 * g.np)
      have e' : (-(u / (n0 * g.np))) * (n0 * g.np) = - (n0 * g.np * (u / (n0 * g.np))) := by ring
      unfold wrap; rw [e']; omega
    have h5 := time_shift hn u (-(u / (n0 * g.np))) g.np
    rw [← e] at h5
    have hw := vertex_wrap hn hp' u
    have h6 : plane n0 (wrap n0 g.np u) = time n0 (wrap n0 g.np u) := rfl
    have h7 : 0 ≤ time n0 (wrap n0 g.np u) := Int.ediv_nonneg hw.1 (by omega)
    have h8 : time n0 (wrap n0 g.np u) < g.np := by
      apply Int.ediv_lt_of_lt_mul (by omega); rw [Int.mul_comm]; exact hw.2
    rw [h6, ← Int.emod_eq_of_lt h7 h8, h5, Int.add_mul_emod_self_right]
  have hb' : ∃ b, g.isPoloidal d k = some b := by
    unfold G.isPoloidal XM.isOrdinal XM.mod
    rw [if_neg (by omega)]
    exact ⟨_, rfl⟩
  obtain ⟨b, hb'⟩ := hb'
  have hmem : ∀ x, x ∈ sort ((v :: l).map (wrap n0 g.np)) ↔ ∃ u ∈ v :: l, wrap n0 g.np u = x := by
    intro x
    rw [(sort_perm _).mem_iff, List.mem_map]
  refine ⟨_, time n0 v, b, hgg, ?_, hb', t0, t1, ⟨wrap n0 g.np v, (hmem _).2 ⟨v, by simp, rfl⟩, ?_⟩, ?_, ?_⟩
  · unfold G.getPoloidal
    rw [if_neg (by omega), f3, Int.tdiv_eq_ediv_of_nonneg h0]
  · rw [hpl, Int.emod_eq_of_lt t0 t1]
  · intro x hx
    obtain ⟨u, hu, rfl⟩ := (hmem x).1 hx
    rw [hpl]
    have := hft u hu
    rcases eq_or_lt_of_le this.1 with e | e
    · left; rw [← e, Int.emod_eq_of_lt t0 t1]
    · right; rw [show time n0 u = time n0 v + 1 by omega]
  · have hbt : b = true ↔ XM.isOrdinal g.m d k = some true := by
      unfold G.isPoloidal at hb'
      rw [hb']; simp
    rw [hbt, hord]
    constructor
    · intro h x hx
      obtain ⟨u, hu, rfl⟩ := (hmem x).1 hx
      rw [hpl, h u hu v (by simp), Int.emod_eq_of_lt t0 t1]
    · intro h
      have hall : ∀ u ∈ v :: l, time n0 u = time n0 v := by
        intro u hu
        have h9 := h _ ((hmem _).2 ⟨u, hu, rfl⟩)
        rw [hpl] at h9
        have := hft u hu
        by_contra hne
        have e : time n0 u = time n0 v + 1 := by omega
        rw [e] at h9
        by_cases hl : time n0 v + 1 < g.np
        · rw [Int.emod_eq_of_lt (by omega) hl] at h9; omega
        · rw [show time n0 v + 1 = g.np by omega, Int.emod_self] at h9; omega
      intro u hu w hw
      rw [hall u hu, hall w hw]

/-- C131: `is_actual_poloidal` says whether the simplex lies in one plane that is not virtual. -/
theorem C131_actual_poloidal (ho : IsOrder order) (hv : Valid n0 ts) (hb : build order n0 ts = some g.m) (hn : 0 < n0) {d : Nat} (hd : d ≤ 3)
    (hN : 0 < XM.n g.m d) (hp : 2 ≤ g.np) (hvp : g.vphi ≠ 0) (k : Int) (h0 : 0 ≤ k) (h1 : k < g.n d) :
    ∃ vs b, g.getSimplex d k = some vs ∧ g.isActualPoloidal d k = some b ∧
      (b = true ↔ ∃ p, (∀ v ∈ vs, plane n0 v = p) ∧ g.vphi ∣ p) := by
  have B := base_of ho hv hb
  obtain ⟨vs, p, b, a1, -, a3, a4, -, ⟨v, hv1, hv2⟩, -, a5⟩ := C131_poloidal ho hv hb hn hd hN hp k h0 h1
  obtain ⟨vs', c1, c2, -, c3, -⟩ := C131_get_simplex ho hv hb hn hd hN (by omega : 0 < g.np) k
  rw [a1] at c1
  obtain rfl := Option.some.inj c1
  unfold G.isPoloidal at a3
  cases b with
  | false =>
    refine ⟨vs, false, a1, ?_, ?_⟩
    · unfold G.isActualPoloidal
      rw [a3]; rfl
    · refine ⟨by simp, ?_⟩
      rintro ⟨p', h2, -⟩
      have : p' = p := by rw [← hv2, h2 v hv1]
      subst this
      exact absurd (a5.2 h2) (by simp)
  | true =>
    have hall := a5.1 rfl
    rcases vs with _ | ⟨w, l⟩
    · simp at c2
    have hw := hall w (by simp)
    have hw0 := (c3 w (by simp)).1
    have ht : flatTime g.m w = some p := by
      unfold flatTime
      rw [B.hn0, if_neg (by omega), if_pos hw0, ← hw]
      rfl
    refine ⟨w :: l, decide (p.tmod g.vphi = 0), a1, ?_, ?_⟩
    · unfold G.isActualPoloidal
      rw [a3, a1]
      simp only [Option.bind_eq_bind, Option.bind_some, if_true, ht, rem, hvp, if_false]
    · rw [decide_eq_true_iff, ← Int.dvd_iff_tmod_eq_zero]
      constructor
      · intro h
        exact ⟨p, hall, h⟩
      · rintro ⟨p', h2, h3⟩
        rw [← hw, h2 w (by simp)]; exact h3

/-! ## C132: sides and cofaces -/

/-- What `sides` computes. -/
theorem sides_eq (B : Base n0 ts g.m) (hN : 0 < XM.n g.m 3) (hp : 0 < g.np) (e : Int) : ∃ S, XM.sides g.m (e % g.n 3) = some S ∧
    g.sides e = some (toSet (S.map (· % g.n 2))) ∧ S.Pairwise (· < ·) ∧ S.length = 4 ∧
      ∀ f, f ∈ S ↔ ∃ vs ws, At g.m 2 f vs ∧ At g.m 3 (e % g.n 3) ws ∧ ∀ v ∈ vs, v ∈ ws := by
  have hN2 : 0 < XM.n g.m 2 := by simp only [XM.n] at *; omega
  have h3 := n_pos g hN hp
  obtain ⟨S, s1, s2, s3, s4⟩ := sides_at B hN (Int.emod_nonneg e (by omega : g.n 3 ≠ 0))
  refine ⟨S, s1, ?_, s2, s3, s4⟩
  unfold G.sides
  rw [transform_eq h3, Option.bind_eq_bind, Option.bind_some, s1, Option.bind_eq_bind, Option.bind_some, transforms_eq (n_pos g hN2 hp)]
  rfl

/-- What `side_of` computes. -/
theorem sideOf_eq (B : Base n0 ts g.m) (ho : IsOrder order) (hv : Valid n0 ts) (hb : build order n0 ts = some g.m) (hN : 0 < XM.n g.m 3)
    (hp : 0 < g.np) (f : Int) : ∃ R, XM.sideOf g.m (f % g.n 2) = some R ∧
    g.sideOf f = some (toSet (R.map (· % g.n 3))) ∧ R.Pairwise (· < ·) ∧ (R.length = 1 ∨ R.length = 2) ∧
      ∀ e, e ∈ R ↔ ∃ vs ws, At g.m 2 (f % g.n 2) vs ∧ At g.m 3 e ws ∧ ∀ v ∈ vs, v ∈ ws := by
  have hN2 : 0 < XM.n g.m 2 := by simp only [XM.n] at *; omega
  have h3 := n_pos g hN2 hp
  obtain ⟨S, s1, s2, s3, s4⟩ := sideOf_at B ho hv hb hN (Int.emod_nonneg f (by omega : g.n 2 ≠ 0))
  refine ⟨S, s1, ?_, s2, s3, s4⟩
  unfold G.sideOf
  rw [transform_eq h3, Option.bind_eq_bind, Option.bind_some, s1, Option.bind_eq_bind, Option.bind_some, transforms_eq (n_pos g hN hp)]
  rfl

theorem shift_sub {us ws : List Int} {c : Int} {np : Int} (h : ∀ v ∈ us, v ∈ ws) :
    ∀ v ∈ us.map (· + c * ((n0 : Int) * np)), v ∈ ws.map (· + c * ((n0 : Int) * np)) := by
  intro v hv
  obtain ⟨u, hu, rfl⟩ := List.mem_map.1 hv
  exact List.mem_map_of_mem (h u hu)

/-- C132: `sides` and `side_of` are dual, on every torus. -/
theorem C132_duality (ho : IsOrder order) (hv : Valid n0 ts) (hb : build order n0 ts = some g.m) (hN : 0 < XM.n g.m 3)
    (hp : 0 < g.np) (f e : Int) : ∃ R S, g.sideOf f = some R ∧ g.sides e = some S ∧ (e % g.n 3 ∈ R ↔ f % g.n 2 ∈ S) := by
  have B := base_of ho hv hb
  obtain ⟨S, -, s1, -, -, s2⟩ := sides_eq B hN hp e
  obtain ⟨R, -, r1, -, -, r2⟩ := sideOf_eq B ho hv hb hN hp f
  have hN2 : 0 < XM.n g.m 2 := by simp only [XM.n] at *; omega
  refine ⟨_, _, r1, s1, ?_⟩
  rw [mem_toSet, mem_toSet, List.mem_map, List.mem_map]
  have h3 := n_pos g hN hp
  have h2 := n_pos g hN2 hp
  constructor
  · rintro ⟨e', he', h⟩
    obtain ⟨vs, ws, a1, a2, a3⟩ := (r2 e').1 he'
    have hc : e' + (-(e' / g.n 3)) * g.n 3 = e % g.n 3 := by
      rw [← h, Int.emod_def]; ring
    have b2 := at_moved B a2 (-(e' / g.n 3))
    have b1 := at_moved B a1 (-(e' / g.n 3))
    rw [hc] at b2
    exact ⟨_, (s2 _).2 ⟨_, _, b1, b2, shift_sub a3⟩, by rw [Int.add_mul_emod_self_right, Int.emod_emod_of_dvd _ (dvd_refl _)]⟩
  · rintro ⟨f', hf', h⟩
    obtain ⟨vs, ws, a1, a2, a3⟩ := (s2 f').1 hf'
    have hc : f' + (-(f' / g.n 2)) * g.n 2 = f % g.n 2 := by
      rw [← h, Int.emod_def]; ring
    have b2 := at_moved B a2 (-(f' / g.n 2))
    have b1 := at_moved B a1 (-(f' / g.n 2))
    rw [hc] at b1
    exact ⟨_, (r2 _).2 ⟨_, _, b1, b2, shift_sub a3⟩, by rw [Int.add_mul_emod_self_right, Int.emod_emod_of_dvd _ (dvd_refl _)]⟩

/-- Lifts of nested simplices start less than two planes apart. -/
theorem start_close {m : M2} (B : Base n0 ts m) {d d' : Nat} {f e : Int} {vs ws : List Int} (hv : At m d f vs) (hw : At m d' e ws)
    (hs : ∀ v ∈ vs, v ∈ ws) : e / XM.n m d' ≤ f / XM.n m d ∧ f / XM.n m d ≤ e / XM.n m d' + 1 := by
  obtain ⟨-, -, v, l, rfl, h1⟩ := at_facts B hv
  obtain ⟨-, s2, w, l', rfl, h2⟩ := at_facts B hw
  have := first_time s2 v (hs v (by simp))
  omega

theorem emod_inj_close {N np a b : Int} (hN : 0 < N) (hp : 2 ≤ np) (h1 : a / N ≤ b / N + 1) (h2 : b / N ≤ a / N + 1)
    (h : a % (N * np) = b % (N * np)) : a = b := by
  have e : b = a + (b / (N * np) - a / (N * np)) * np * N := by
    have h3 := Int.emod_add_mul_ediv a (N * np)
    have h4 := Int.emod_add_mul_ediv b (N * np)
    have : (b / (N * np) - a / (N * np)) * np * N = N * np * (b / (N * np)) - N * np * (a / (N * np)) := by ring
    rw [this]; omega
  generalize b / (N * np) - a / (N * np) = c at e
  have h5 : b / N = a / N + c * np := by rw [e, Int.add_mul_ediv_right _ _ (by omega)]
  have : c = 0 := by
    by_contra hc
    rcases lt_or_gt_of_ne hc with hc | hc
    · have : c * np ≤ (-1) * np := Int.mul_le_mul_of_nonneg_right (by omega) (by omega)
      omega
    · have : 1 * np ≤ c * np := Int.mul_le_mul_of_nonneg_right (by omega) (by omega)
      omega
  rw [e, this]; ring

theorem toSet_length {l : List Int} (h : l.Nodup) : (toSet l).length = l.length := by
  have hp : (toSet l).Perm l := (List.perm_ext_iff_of_nodup ((toSet_sorted l).imp (fun h => ne_of_lt h)) h).2 (fun _ => mem_toSet)
  exact hp.length_eq

/-- C132: `sides` of a tetrahedron: ids in range, ascending, four of them, and (three planes or more) exactly the triangles
whose vertices are vertices of the tetrahedron. -/
theorem C132_sides_partial (ho : IsOrder order) (hv : Valid n0 ts) (hb : build order n0 ts = some g.m) (hn : 0 < n0) (hN : 0 < XM.n g.m 3)
    (hp : 2 ≤ g.np) (e : Int) : ∃ S, g.sides e = some S ∧ S.Pairwise (· < ·) ∧ S.length = 4 ∧ (∀ f ∈ S, 0 ≤ f ∧ f < g.n 2) ∧
      ∀ f, 0 ≤ f → f < g.n 2 → ∃ vs ws, g.getSimplex 2 f = some vs ∧ g.getSimplex 3 e = some ws ∧
        (f ∈ S → ∀ v ∈ vs, v ∈ ws) ∧ (3 ≤ g.np → (∀ v ∈ vs, v ∈ ws) → f ∈ S) := by
  have B := base_of ho hv hb
  have hN2 : 0 < XM.n g.m 2 := by simp only [XM.n] at *; omega
  have hp' : 0 < g.np := by omega
  have h3 := n_pos g hN hp'
  have h2 := n_pos g hN2 hp'
  obtain ⟨S, -, s1, s2, s3, s4⟩ := sides_eq B hN hp' e
  refine ⟨_, s1, toSet_sorted _, ?_, ?_, ?_⟩
  · rw [toSet_length, List.length_map, s3]
    refine List.Nodup.map_on ?_ (s2.imp (fun h => ne_of_lt h))
    intro x hx y hy h
    obtain ⟨vs, ws, a1, a2, a3⟩ := (s4 x).1 hx
    obtain ⟨vs', ws', b1, b2, b3⟩ := (s4 y).1 hy
    have c1 := start_close B a1 a2 a3
    have c2 := start_close B b1 b2 b3
    exact emod_inj_close hN2 hp (by omega) (by omega) h
  · intro f hf
    rw [mem_toSet, List.mem_map] at hf
    obtain ⟨x, -, rfl⟩ := hf
    exact ⟨Int.emod_nonneg _ (by omega), Int.emod_lt_of_pos _ h2⟩
  · intro f f0 f1
    obtain ⟨us, hus⟩ := at_total B (d := 2) (by omega) hN2 f
    obtain ⟨ws, hws⟩ := at_total B (d := 3) (by omega) hN (e % g.n 3)
    have hgf := get_at (us := us) B hn hN2 hp' (by rw [Int.emod_eq_of_lt f0 f1]; exact hus)
    have hge := get_at B hn hN hp' hws
    refine ⟨_, _, hgf, hge, ?_, ?_⟩
    · intro hf v hv
      rw [mem_toSet, List.mem_map] at hf
      obtain ⟨x, hx, rfl⟩ := hf
      obtain ⟨vs', ws', a1, a2, a3⟩ := (s4 x).1 hx
      rw [at_func B hN a2 hws] at a3
      have b1 := at_moved B hus (x / g.n 2)
      rw [show x % g.n 2 + x / g.n 2 * g.n 2 = x by rw [Int.mul_comm]; exact Int.emod_add_mul_ediv x (g.n 2)] at b1
      have b2 := at_func B hN2 a1 b1
      rw [(sort_perm _).mem_iff] at hv ⊢
      rw [← map_wrap_shift us g.np (x / g.n 2), ← b2] at hv
      obtain ⟨u, hu, rfl⟩ := List.mem_map.1 hv
      exact List.mem_map_of_mem (a3 u hu)
    · intro hp3 hsub
      obtain ⟨c, hc⟩ := lift_subset hn hp3 (at_facts B hus).2.1 (at_facts B hws).2.1
        (fun x hx => (sort_perm _).mem_iff.1 (hsub x ((sort_perm _).mem_iff.2 hx)))
      rw [mem_toSet, List.mem_map]
      refine ⟨f + c * g.n 2, (s4 _).2 ⟨_, _, at_moved B hus c, hws, ?_⟩, by rw [Int.add_mul_emod_self_right, Int.emod_eq_of_lt f0 f1]⟩
      intro v hv
      obtain ⟨u, hu, rfl⟩ := List.mem_map.1 hv
      exact hc u hu

/-- C132: `side_of` of a triangle: ids in range, ascending, one or two of them, and (three planes or more) exactly the
tetrahedra that have its vertices. -/
theorem C132_side_of_partial (ho : IsOrder order) (hv : Valid n0 ts) (hb : build order n0 ts = some g.m) (hn : 0 < n0) (hN : 0 < XM.n g.m 3)
    (hp : 2 ≤ g.np) (f : Int) : ∃ R, g.sideOf f = some R ∧ R.Pairwise (· < ·) ∧ (R.length = 1 ∨ R.length = 2) ∧
      (∀ e ∈ R, 0 ≤ e ∧ e < g.n 3) ∧
      ∀ e, 0 ≤ e → e < g.n 3 → ∃ vs ws, g.getSimplex 2 f = some vs ∧ g.getSimplex 3 e = some ws ∧
        (e ∈ R → ∀ v ∈ vs, v ∈ ws) ∧ (3 ≤ g.np → (∀ v ∈ vs, v ∈ ws) → e ∈ R) := by
  have B := base_of ho hv hb
  have hN2 : 0 < XM.n g.m 2 := by simp only [XM.n] at *; omega
  have hp' : 0 < g.np := by omega
  have h3 := n_pos g hN hp'
  have h2 := n_pos g hN2 hp'
  obtain ⟨R, -, r1, r2, r3, r4⟩ := sideOf_eq B ho hv hb hN hp' f
  refine ⟨_, r1, toSet_sorted _, ?_, ?_, ?_⟩
  · rw [toSet_length, List.length_map]
    · exact r3
    refine List.Nodup.map_on ?_ (r2.imp (fun h => ne_of_lt h))
    intro x hx y hy h
    obtain ⟨vs, ws, a1, a2, a3⟩ := (r4 x).1 hx
    obtain ⟨vs', ws', b1, b2, b3⟩ := (r4 y).1 hy
    have c1 := start_close B a1 a2 a3
    have c2 := start_close B b1 b2 b3
    exact emod_inj_close hN hp (by omega) (by omega) h
  · intro e he
    rw [mem_toSet, List.mem_map] at he
    obtain ⟨x, -, rfl⟩ := he
    exact ⟨Int.emod_nonneg _ (by omega), Int.emod_lt_of_pos _ h3⟩
  · intro e e0 e1
    obtain ⟨R', S, d1, d2, d3⟩ := C132_duality ho hv hb hN hp' f e
    obtain ⟨S', t1, -, -, -, t2⟩ := C132_sides_partial ho hv hb hn hN hp e
    rw [r1] at d1
    obtain rfl := Option.some.inj d1
    rw [d2] at t1
    obtain rfl := Option.some.inj t1
    obtain ⟨vs, ws, w1, w2, w3, w4⟩ := t2 (f % g.n 2) (Int.emod_nonneg _ (by omega)) (Int.emod_lt_of_pos _ h2)
    obtain ⟨vs', q1, -, -, -, -, -, q2⟩ := C131_get_simplex ho hv hb hn (d := 2) (by omega) hN2 hp' (f % g.n 2)
    rw [w1] at q1
    obtain rfl := Option.some.inj q1
    have q3 := q2 (f / g.n 2)
    rw [show f % g.n 2 + f / g.n 2 * g.n 2 = f by rw [Int.mul_comm]; exact Int.emod_add_mul_ediv f (g.n 2)] at q3
    rw [Int.emod_eq_of_lt e0 e1] at d3
    exact ⟨vs, ws, q3, w2, fun h => w3 (d3.1 h), fun hp3 h => d3.2 (w4 hp3 h)⟩

/-- C132: `get_vertex_edge_vertex` returns vertices of the torus joined to `i` by an edge of it. -/
theorem C132_neighbours_partial (ho : IsOrder order) (hv : Valid n0 ts) (hb : build order n0 ts = some g.m) (hn : 0 < n0) (hp : 0 < g.np)
    (i : Int) (hi : 0 ≤ i) : ∃ S, g.vertexEdgeVertex i = some S ∧ S.Pairwise (· < ·) ∧
      ∀ w ∈ S, IsVertex n0 g.np w ∧ OnTorus n0 ts g.np [wrap n0 g.np i, w] := by
  have B := base_of ho hv hb
  have hz : 0 < g.n 0 := by rw [n_zero B]; exact Int.mul_pos (by omega) hp
  obtain ⟨S, s1, -, s3⟩ := C52_neighbours_partial ho hv hb hn i hi
  refine ⟨toSet (S.map (· % g.n 0)), ?_, toSet_sorted _, ?_⟩
  · unfold G.vertexEdgeVertex
    rw [s1, Option.bind_eq_bind, Option.bind_some, transforms_eq hz]
    rfl
  · intro w hw
    rw [mem_toSet, List.mem_map] at hw
    obtain ⟨x, hx, rfl⟩ := hw
    rw [n_zero B]
    refine ⟨vertex_wrap hn hp x, ?_⟩
    rcases s3 x hx with h | h
    · exact ⟨_, h, by simp [wrap]⟩
    · exact ⟨_, h, by simpa [wrap] using List.Perm.swap _ _ _⟩

end Verif.XGC
