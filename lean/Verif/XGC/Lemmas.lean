import Verif.XGC.Spec
import Verif.XMesh.Props
import Mathlib.Tactic.Ring
import Mathlib.Tactic.Linarith

/-! Lemmas on the torus mesh. -/

namespace Verif.XGC

open Verif.UM Verif.XM

variable {n0 : Nat} {ts : List Tri} {m : M2} {order : List (Edge × ℤ) → List (Edge × ℤ)}

/-! ### transform -/

theorem up_eq {N : Int} (hN : 0 < N) : ∀ (k : Nat) (i : Int), -i ≤ k → ∃ c, 0 ≤ c ∧ up N k i = some (i + c * N) ∧ 0 ≤ i + c * N
  | 0, i, h => ⟨0, le_refl _, by simp [up]; omega, by simp; omega⟩
  | k + 1, i, h => by
    unfold up
    by_cases hi : 0 ≤ i
    · exact ⟨0, le_refl _, by simp [hi], by simpa using hi⟩
    · obtain ⟨c, c0, h1, h2⟩ := up_eq hN k (i + N) (by push_cast at h; omega)
      refine ⟨c + 1, by omega, ?_, ?_⟩
      · rw [if_neg hi, h1]; congr 1; ring
      · have : i + (c + 1) * N = i + N + c * N := by ring
        rw [this]; exact h2

theorem transform_eq {g : G} {d : Nat} (hN : 0 < g.n d) (i : Int) : g.transform d i = some (i % g.n d) := by
  obtain ⟨c, c0, h1, h2⟩ := up_eq hN (-i).toNat i (by omega)
  unfold G.transform
  rw [h1, Option.bind_some, rem, if_neg (by omega), Int.tmod_eq_emod_of_nonneg h2, Int.add_mul_emod_self_right]

theorem transforms_eq {g : G} {d : Nat} (hN : 0 < g.n d) : ∀ l : List Int, g.transforms d l = some (l.map (· % g.n d))
  | [] => rfl
  | v :: l => by simp [G.transforms, transform_eq hN, transforms_eq hN l]

theorem mem_toSet {l : List Int} {x : Int} : x ∈ toSet l ↔ x ∈ l := by
  have : ∀ (l acc : List Int), x ∈ l.foldl (fun s y => setInsert y s) acc ↔ x ∈ acc ∨ x ∈ l := by
    intro l
    induction l with
    | nil => simp
    | cons y l ih => intro acc; rw [List.foldl_cons, ih, mem_setInsert]; simp; tauto
  unfold toSet
  rw [this]; simp

theorem toSet_sorted (l : List Int) : (toSet l).Pairwise (· < ·) := by
  have : ∀ (l acc : List Int), StrictSorted acc → StrictSorted (l.foldl (fun s y => setInsert y s) acc) := by
    intro l
    induction l with
    | nil => intro acc h; exact h
    | cons y l ih => intro acc h; exact ih _ h.setInsert
  exact this l [] (by simp [StrictSorted])

theorem sort_perm (l : List Int) : (sort l).Perm l := List.perm_insertionSort _ _

theorem sort_sorted (l : List Int) : (sort l).Pairwise (· ≤ ·) := List.pairwise_insertionSort _ _

theorem sort_eq {l us : List Int} (h : l.Perm us) (hs : us.Pairwise (· < ·)) : sort l = us :=
  List.Perm.eq_of_pairwise (fun a b _ _ h1 h2 => le_antisymm h1 h2) (sort_sorted l) (hs.imp (fun h => le_of_lt h))
    ((sort_perm l).trans h)

/-! ### shifting simplices of the infinite stack -/

theorem below_add (v c : Int) : below n0 (v + c * n0) = below n0 v := by
  unfold below; rw [Int.add_mul_emod_self_right]

theorem time_add (hn : 0 < n0) (v c : Int) : time n0 (v + c * n0) = time n0 v + c := by
  unfold time; rw [Int.add_mul_ediv_right _ _ (by omega)]

theorem simplex_shift (hn : 0 < n0) {us : List Int} (h : Simplex n0 ts us) (c : Int) : Simplex n0 ts (us.map (· + c * n0)) := by
  refine ⟨?_, ?_, ?_⟩
  · rw [List.pairwise_map]
    refine h.chain.imp ?_
    intro a b hab
    rw [below_add, below_add, time_add hn, time_add hn]
    exact ⟨fun hh => hab.1 (by omega), hab.2.1, by omega⟩
  · intro u hu v hv
    obtain ⟨u', hu', rfl⟩ := List.mem_map.1 hu
    obtain ⟨v', hv', rfl⟩ := List.mem_map.1 hv
    have := h.thin u' hu' v' hv'
    rw [time_add hn, time_add hn]
    omega
  · rcases h.base with hb | ⟨t, ht, hb⟩
    · left
      intro u hu v hv
      obtain ⟨u', hu', rfl⟩ := List.mem_map.1 hu
      obtain ⟨v', hv', rfl⟩ := List.mem_map.1 hv
      rw [below_add, below_add]
      exact hb u' hu' v' hv'
    · right
      refine ⟨t, ht, ?_⟩
      intro v hv
      obtain ⟨v', hv', rfl⟩ := List.mem_map.1 hv
      rw [below_add]
      exact hb v' hv'

theorem simplex_sorted (hn : 0 < n0) {us : List Int} (h : Simplex n0 ts us) : us.Pairwise (· < ·) := by
  refine h.chain.imp ?_
  intro a b hab
  obtain ⟨ha, a0, a1⟩ := vertex_rep hn a
  obtain ⟨hb, b0, b1⟩ := vertex_rep hn b
  obtain ⟨h1, h2, h3⟩ := hab
  have : time n0 a * n0 ≤ time n0 b * n0 := Int.mul_le_mul_of_nonneg_right h3 (by omega)
  omega

theorem first_time {v : Int} {l : List Int} (h : Simplex n0 ts (v :: l)) :
    ∀ u ∈ v :: l, time n0 v ≤ time n0 u ∧ time n0 u ≤ time n0 v + 1 := by
  intro u hu
  refine ⟨?_, h.thin v (by simp) u hu⟩
  rcases List.mem_cons.1 hu with rfl | hu'
  · exact le_refl _
  · exact ((List.pairwise_cons.1 h.chain).1 u hu').2.2

theorem wrap_shift (n0 np v c : Int) : wrap n0 np (v + c * (n0 * np)) = wrap n0 np v := by
  unfold wrap; rw [Int.add_mul_emod_self_right]

theorem wrap_eq {np u w : Int} (h : wrap n0 np u = wrap n0 np w) : ∃ c, w = u + c * (n0 * np) := by
  unfold wrap at h
  refine ⟨w / (n0 * np) - u / (n0 * np), ?_⟩
  have h1 := Int.emod_add_mul_ediv u (n0 * np)
  have h2 := Int.emod_add_mul_ediv w (n0 * np)
  rw [h] at h1
  have : (w / (n0 * np) - u / (n0 * np)) * (n0 * np) = n0 * np * (w / (n0 * np)) - n0 * np * (u / (n0 * np)) := by ring
  rw [this]; omega

theorem time_shift (hn : 0 < n0) (v c np : Int) : time n0 (v + c * (n0 * np)) = time n0 v + c * np := by
  have : v + c * (n0 * np) = v + (c * np) * n0 := by ring
  rw [this, time_add hn]

/-- No simplex meets a vertex of the torus twice. -/
theorem wrap_inj (hn : 0 < n0) {np : Int} (hp : 2 ≤ np) {us : List Int} (h : Simplex n0 ts us) {u w : Int} (hu : u ∈ us) (hw : w ∈ us)
    (e : wrap n0 np u = wrap n0 np w) : u = w := by
  obtain ⟨c, rfl⟩ := wrap_eq e
  have h1 := h.thin u hu _ hw
  have h2 := h.thin _ hw u hu
  rw [time_shift hn] at h1 h2
  have : c = 0 := by
    by_contra hc
    rcases lt_or_gt_of_ne hc with hc | hc
    · have : c * np ≤ (-1) * np := Int.mul_le_mul_of_nonneg_right (by omega) (by omega)
      omega
    · have : 1 * np ≤ c * np := Int.mul_le_mul_of_nonneg_right (by omega) (by omega)
      omega
  simp [this]

/-- With three planes or more, inclusion on the torus comes from inclusion in the infinite stack. -/
theorem lift_subset (hn : 0 < n0) {np : Int} (hp : 3 ≤ np) {us ws : List Int} (h : Simplex n0 ts us) (h' : Simplex n0 ts ws)
    (hs : ∀ x ∈ us.map (wrap n0 np), x ∈ ws.map (wrap n0 np)) : ∃ c, ∀ u ∈ us, u + c * (n0 * np) ∈ ws := by
  rcases us with _ | ⟨v, us⟩
  · exact ⟨0, by simp⟩
  have key : ∀ u ∈ v :: us, ∃ c, u + c * (n0 * np) ∈ ws := by
    intro u hu
    obtain ⟨w, hw, e⟩ := List.mem_map.1 (hs _ (List.mem_map_of_mem hu))
    obtain ⟨c, rfl⟩ := wrap_eq e.symm
    exact ⟨c, hw⟩
  obtain ⟨c, hc⟩ := key v (by simp)
  refine ⟨c, ?_⟩
  intro u hu
  obtain ⟨c', hc'⟩ := key u hu
  have h1 := h'.thin _ hc _ hc'
  have h2 := h'.thin _ hc' _ hc
  rw [time_shift hn, time_shift hn] at h1 h2
  have h3 := h.thin v (by simp) u hu
  have h4 := h.thin u hu v (by simp)
  have : c' = c := by
    by_contra hne
    rcases lt_or_gt_of_ne hne with hc | hc
    · have : c' * np ≤ (c - 1) * np := Int.mul_le_mul_of_nonneg_right (by omega) (by omega)
      have e : (c - 1) * np = c * np - np := by ring
      omega
    · have : (c + 1) * np ≤ c' * np := Int.mul_le_mul_of_nonneg_right (by omega) (by omega)
      have e : (c + 1) * np = c * np + np := by ring
      omega
  rw [← this]; exact hc'

/-! ### ids of the infinite stack -/

/-- Id `k` of the infinite stack stands for the simplex `vs`. -/
def At (m : M2) (d : Nat) (k : Int) (vs : List Int) : Prop :=
  ∃ i t us, Dec m d i us ∧ k = i + t * XM.n m d ∧ vs = XM.shift m t us

variable (B : Base n0 ts m)
include B

theorem at_total {d : Nat} (hd : d ≤ 3) (hN : 0 < XM.n m d) (k : Int) : ∃ vs, At m d k vs := by
  obtain ⟨i, t, rfl, h0, h1, -⟩ := split_id hN k
  obtain ⟨vs, hvs⟩ := dec_total B hd h0 h1
  exact ⟨_, i, t, vs, hvs, rfl, rfl⟩

theorem at_facts {d : Nat} {k : Int} {vs : List Int} (h : At m d k vs) :
    vs.length = d + 1 ∧ Simplex n0 ts vs ∧ ∃ v l, vs = v :: l ∧ time n0 v = k / XM.n m d := by
  obtain ⟨i, t, us, D, rfl, rfl⟩ := h
  obtain ⟨h1, h2, v, l, h3, h4⟩ := dec_simplex B (t := t) D
  have hr := D.range B
  exact ⟨h1, h2, v, l, h3, by rw [h4, ediv_at hr.1 hr.2]⟩

theorem at_func {d : Nat} (hN : 0 < XM.n m d) {k : Int} {vs vs' : List Int} (h : At m d k vs) (h' : At m d k vs') : vs = vs' := by
  obtain ⟨i, t, us, D, rfl, rfl⟩ := h
  obtain ⟨i', t', us', D', e, rfl⟩ := h'
  have r := D.range B
  have r' := D'.range B
  obtain ⟨rfl, rfl⟩ := at_eq r.1 r.2 r'.1 r'.2 e
  have h1 := get_dec0 B D
  rw [get_dec0 B D'] at h1
  simp only [Option.some.injEq, Prod.mk.injEq, true_and] at h1
  rw [h1]

theorem at_inj {d : Nat} {k k' : Int} {vs : List Int} (h : At m d k vs) (h' : At m d k' vs) : k = k' := by
  obtain ⟨i, t, us, D, rfl, rfl⟩ := h
  obtain ⟨i', t', us', D', rfl, e⟩ := h'
  obtain ⟨rfl, rfl⟩ := shift_inj B D D' e
  rfl

theorem at_get {d : Nat} {k : Int} {vs : List Int} (h : At m d k vs) (hk : 0 ≤ k) : XM.getSimplex m d k = some (k, vs) := by
  obtain ⟨i, t, us, D, rfl, rfl⟩ := h
  exact get_dec B D (Or.inl hk)

omit B in
theorem at_shift {d : Nat} {k : Int} {vs : List Int} (h : At m d k vs) (c : Int) :
    At m d (k + c * XM.n m d) (vs.map (· + c * m.n 0)) := by
  obtain ⟨i, t, us, D, rfl, rfl⟩ := h
  refine ⟨i, t + c, us, D, by ring, ?_⟩
  unfold XM.shift
  rw [List.map_map]
  apply List.map_congr_left
  intro x _
  simp only [Function.comp]
  ring

theorem at_complete (hn : 0 < n0) {d : Nat} (hd : d ≤ 3) {vs : List Int} (hl : vs.length = d + 1) (hs : Simplex n0 ts vs) :
    ∃ k, At m d k vs := by
  obtain ⟨i, t, us, D, e⟩ := dec_complete B hn hd hl hs
  exact ⟨_, i, t, us, D, rfl, e⟩

/-- Sides of a tetrahedron, by vertices. -/
theorem sides_at (hN : 0 < XM.n m 3) {e : Int} (he : 0 ≤ e) :
    ∃ S, XM.sides m e = some S ∧ S.Pairwise (· < ·) ∧ S.length = 4 ∧
      ∀ f, f ∈ S ↔ ∃ vs ws, At m 2 f vs ∧ At m 3 e ws ∧ ∀ v ∈ vs, v ∈ ws := by
  have hN2 : 0 < XM.n m 2 := by simp only [XM.n] at *; omega
  obtain ⟨ws, hws⟩ := at_total B (d := 3) (by omega) hN e
  obtain ⟨i, t, us, D, e1, e2⟩ := hws
  obtain ⟨S, u0, u1, u2, u3, f0, f1, f2, f3, rfl, s1, s2, s3, s4, F0, F1, F2, F3⟩ := sides_faces B D (by rw [← e1]; exact Or.inl he)
  rw [← e1] at s1
  refine ⟨S, s1, s2, s3, ?_⟩
  have hA : At m 3 e (XM.shift m t [u0, u1, u2, u3]) := ⟨i, t, _, D, e1, rfl⟩
  intro f
  rw [s4]
  constructor
  · intro h
    have hm : ∀ l, (∀ y ∈ l, y ∈ [u0, u1, u2, u3]) → ∀ x ∈ XM.shift m t l, x ∈ XM.shift m t [u0, u1, u2, u3] := by
      intro l hl x hx
      simp only [XM.shift, List.mem_map] at hx ⊢
      obtain ⟨y, hy, rfl⟩ := hx
      exact ⟨y, hl y hy, rfl⟩
    rcases h with rfl | rfl | rfl | rfl
    · obtain ⟨j, s, vs, q1, q2, q3⟩ := F0
      exact ⟨_, _, ⟨j, s, vs, q1, q2, rfl⟩, hA, by rw [q3]; exact hm _ (by simp)⟩
    · obtain ⟨j, s, vs, q1, q2, q3⟩ := F1
      exact ⟨_, _, ⟨j, s, vs, q1, q2, rfl⟩, hA, by rw [q3]; exact hm _ (by simp)⟩
    · obtain ⟨j, s, vs, q1, q2, q3⟩ := F2
      exact ⟨_, _, ⟨j, s, vs, q1, q2, rfl⟩, hA, by rw [q3]; exact hm _ (by simp)⟩
    · obtain ⟨j, s, vs, q1, q2, q3⟩ := F3
      exact ⟨_, _, ⟨j, s, vs, q1, q2, rfl⟩, hA, by rw [q3]; exact hm _ (by simp)⟩
  · rintro ⟨vs, ws', hv, hw, hsub⟩
    rw [at_func B hN hw hA] at hsub
    obtain ⟨j, s, us', D', g1, rfl⟩ := hv
    have hsl := sublist_of_subset (dec_sorted B D') (dec_sorted B D) (fun v hv => hsub v hv)
    have hl := (dec_simplex B (t := s) D').1
    have h4 := sublists3 hsl hl
    have fin : ∀ f' us'' , (∃ j s vs, Dec m 2 j vs ∧ f' = j + s * XM.n m 2 ∧ XM.shift m s vs = XM.shift m t us'') →
        XM.shift m s us' = XM.shift m t us'' → f = f' := by
      rintro f' us'' ⟨j', s', vs', q1, q2, q3⟩ h
      obtain ⟨rfl, rfl⟩ := shift_inj B D' q1 (by rw [h, q3])
      rw [g1, q2]
    rcases h4 with h | h | h | h
    · exact Or.inl (fin _ _ F0 h)
    · exact Or.inr (Or.inl (fin _ _ F1 h))
    · exact Or.inr (Or.inr (Or.inl (fin _ _ F2 h)))
    · exact Or.inr (Or.inr (Or.inr (fin _ _ F3 h)))

/-- Faces of a simplex that starts in plane 0 or later start there, too. -/
theorem at_nonneg {d d' : Nat} (hN : 0 < XM.n m d) (hN' : 0 < XM.n m d') {f e : Int} {vs ws : List Int} (hv : At m d f vs) (hw : At m d' e ws)
    (hs : ∀ v ∈ vs, v ∈ ws) (he : 0 ≤ e) : 0 ≤ f := by
  obtain ⟨-, -, v, l, rfl, h1⟩ := at_facts B hv
  obtain ⟨-, s2, w, l', rfl, h2⟩ := at_facts B hw
  have h3 := (first_time s2 v (hs v (by simp))).1
  rw [h1, h2] at h3
  have h4 : 0 ≤ e / XM.n m d' := Int.ediv_nonneg he hN'.le
  by_contra hc
  have := Int.ediv_neg_of_neg_of_pos (by omega : f < 0) hN
  omega

/-- Cofaces of a triangle, by vertices. -/
theorem sideOf_at (ho : IsOrder order) (hv : Valid n0 ts) (hb : build order n0 ts = some m) (hN : 0 < XM.n m 3) {f : Int} (hf : 0 ≤ f) :
    ∃ R, XM.sideOf m f = some R ∧ R.Pairwise (· < ·) ∧ (R.length = 1 ∨ R.length = 2) ∧
      ∀ e, e ∈ R ↔ ∃ vs ws, At m 2 f vs ∧ At m 3 e ws ∧ ∀ v ∈ vs, v ∈ ws := by
  have hN2 : 0 < XM.n m 2 := by simp only [XM.n] at *; omega
  obtain ⟨R, r1, r2, r3, r4, r5⟩ := C52_side_of ho hv hb hN f hf
  refine ⟨R, r1, r2, r3, ?_⟩
  intro e
  obtain ⟨vs, hvs⟩ := at_total B (d := 2) (by omega) hN2 f
  obtain ⟨ws, hws⟩ := at_total B (d := 3) (by omega) hN e
  have hg := at_get B hvs hf
  have good : Good m 3 e → (e ∈ R ↔ ∀ v ∈ vs, v ∈ ws) := by
    intro he
    obtain ⟨vs', ws', g1, g2, g3⟩ := r5 e he
    rw [hg] at g1
    obtain ⟨i, t, us, D, rfl, rfl⟩ := hws
    rw [get_dec B D he] at g2
    simp only [Option.some.injEq, Prod.mk.injEq, true_and] at g1 g2
    rw [g3, g1, g2]
  constructor
  · intro h
    exact ⟨vs, ws, hvs, hws, (good (r4 e h)).1 h⟩
  · rintro ⟨vs', ws', h1, h2, h3⟩
    obtain rfl := at_func B hN2 hvs h1
    obtain rfl := at_func B hN hws h2
    by_cases he : Good m 3 e
    · exact (good he).2 h3
    · exfalso
      unfold Good at he
      push Not at he
      obtain ⟨e0, c, rfl⟩ := he
      obtain ⟨i, t, us, D, e1, rfl⟩ := hws
      have hr := D.range B
      rw [Int.mul_comm] at e1
      obtain ⟨rfl, rfl⟩ := at_eq (i := 0) (t := c) (le_refl _) hN hr.1 hr.2 (by rw [← e1]; ring)
      have hc : c < 0 := by
        by_contra hc
        have := Int.mul_nonneg hN.le (by omega : 0 ≤ c)
        omega
      have hn2 : 0 < (m.n 2 : Int) := by simp only [XM.n] at hN; omega
      have hnn : (m.n 0 : Int) = n0 := by rw [B.hn0]
      generalize h0 : (0 : Int) = i0 at D
      cases D with
      | k1 h => have := B.tri_ok h; omega
      | k2 h => have := B.tri_ok h; omega
      | @k0 j a b c' h =>
        have ok := B.tri_ok h
        obtain ⟨l1, l2, v, l, e2, l3⟩ := at_facts B hvs
        have t0 : 0 ≤ f / XM.n m 2 := Int.ediv_nonneg hf hN2.le
        have ha := (below_at (t := c) B.hn0 (a := a) (by omega) (by omega)).2.1
        have hb' := (below_at (t := c) B.hn0 (a := b) (by omega) (by omega)).2.1
        have hc' := (below_at (t := c) B.hn0 (a := c') (by omega) (by omega)).2.1
        have all : ∀ x ∈ vs, x = c' + m.n 0 + c * m.n 0 := by
          intro x hx
          have hxw := h3 x hx
          have := (first_time (e2 ▸ l2) x (e2 ▸ hx)).1
          simp only [XM.shift, List.map_cons, List.map_nil, List.mem_cons, List.not_mem_nil, or_false] at hxw
          rcases hxw with rfl | rfl | rfl | rfl
          · omega
          · omega
          · omega
          · rfl
        have hn : 0 < n0 := by omega
        have hss := simplex_sorted hn l2
        rcases vs with _ | ⟨x, _ | ⟨y, l⟩⟩
        · simp at l1
        · simp at l1
        · have h5 := all x (by simp)
          have h6 := all y (by simp)
          have := (List.pairwise_cons.1 hss).1 y (by simp)
          omega

end Verif.XGC
