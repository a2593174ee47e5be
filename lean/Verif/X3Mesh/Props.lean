import Verif.X3Mesh.Bridge
import Verif.XMesh.Props

/-!
# Properties of the extruded 3-D mesh (C123, C124, C125)
-/

namespace Verif.X3

open Verif.U3
open Verif.XM (mod rem mod_good mod_small mod_of_nonneg ediv_at emod_at at_eq map_add_nodup)

variable {n0 : Nat} {ts : List Tet} {m : M3}

/-! ## C123: ids -/

theorem type_dec {d ty : Nat} {i t : Int} {ps : List PV} (D : Dec m d ty i ps) (hg : Good m d (i + t * n m d)) :
    simplexType m d (i + t * n m d) = some (ty : Int) := by
  have hr := D.range
  unfold simplexType
  rw [mod_good (by omega) hg, emod_at hr.1 hr.2]
  exact D.type

/-- C123: an id decodes to the `d + 1` vertices of a simplex of the extruded mesh that starts at the
time the id says.  Missing: pentachora of type 3, for which it is false (`C123_pentachoron_wrong`), and
the negative multiples of `n(d)` (`C123_negative_multiple`). -/
theorem C123_get_simplex_partial (hv : Valid n0 ts) (hb : build n0 ts = some m) {d : Nat} (hd : d ≤ 4) (hN : 0 < n m d) (k : Int)
    (hg : Good m d k) (hne : ¬ (d = 4 ∧ simplexType m 4 k = some 3)) :
    ∃ vs, getSimplex m d k = some vs ∧ vs.length = d + 1 ∧ Simplex n0 ts vs ∧ ∃ v l, vs = v :: l ∧ time n0 v = k / n m d := by
  have B := base_of hv hb
  obtain ⟨ty, i, t, ps, D, rfl, -⟩ := is_total B hd hN k
  have hi : Is m d (i + t * n m d) (at_ t ps) := ⟨ty, i, t, ps, D, rfl, rfl⟩
  obtain ⟨f1, f2, f3, a, l, f4⟩ := hi.facts
  refine ⟨_, get_dec D ?_ hg, by simpa using f1, hi.simplex B, ?_⟩
  · rintro ⟨rfl, rfl⟩
    exact hne ⟨rfl, by simpa using type_dec D hg⟩
  · refine ⟨_, _, by rw [f4]; rfl, ?_⟩
    have := f3 _ (by rw [f4]; exact List.mem_cons_self)
    exact (enc_facts B.hn0 this.1 this.2.1).2

/-- C123 (violated): for every pentachoron of type 3 (a quarter of all of them) `get_simplex` returns a
vertex twice. -/
theorem C123_pentachoron_wrong (hv : Valid n0 ts) (hb : build n0 ts = some m) (k : Int) (hg : Good m 4 k) (hN : 0 < n m 4)
    (ht : simplexType m 4 k = some 3) : ∃ a b c d, getSimplex m 4 k = some [a, b, b, c, d] := by
  have B := base_of hv hb
  obtain ⟨ty, i, t, ps, D, rfl, -⟩ := is_total B (by omega) hN k
  have := type_dec D hg
  rw [ht] at this
  have hty : ty = 3 := by simp at this; omega
  subst hty
  cases D with
  | p3 h => exact ⟨_, _, _, _, get_p3 h hg⟩

/-- C123: conversely every simplex of the extruded mesh has an id, in the block of its time, and only
one.  Missing: the pentachora with the lowest corner at both times, which no id gives
(`C123_pentachoron_unreachable`). -/
theorem C123_every_simplex_partial (hv : Valid n0 ts) (hb : build n0 ts = some m) (hn : 0 < n0) {d : Nat} (hd : d ≤ 4) (v : Int) (l : List Int)
    (hl : l.length = d) (hs : Simplex n0 ts (v :: l)) (hne : d = 4 → ∀ w ∈ l, below n0 w ≠ below n0 v) :
    ∃ k, k / n m d = time n0 v ∧ (Good m d k → getSimplex m d k = some (v :: l)) ∧
      ∀ k', Good m d k' → getSimplex m d k' = some (v :: l) → k' = k := by
  have B := base_of hv hb
  obtain ⟨k, ps, h, e⟩ := is_complete B hn hd (by simp [hl]) hs
  obtain ⟨f1, f2, f3, a, l', f4⟩ := h.facts
  have h' := h
  obtain ⟨ty, i, t, qs, D, rfl, rfl⟩ := h'
  have hr := D.range
  have hty : ¬ (d = 4 ∧ ty = 3) := by
    rintro ⟨rfl, rfl⟩
    cases D with
    | @p3 j a b c d hk =>
      simp [at_] at e
      obtain ⟨rfl, rfl⟩ := e
      have hdn := hk.dn
      have h1 := hk.ab
      have h2 := hk.bc
      have h3 := hk.cd
      refine hne rfl _ List.mem_cons_self ?_
      have e1 := (enc_facts (m := m) (p := (a, 1 + t)) B.hn0 hk.a0 (by simp only; omega)).1
      have e2 := (enc_facts (m := m) (p := (a, t)) B.hn0 hk.a0 (by simp only; omega)).1
      rw [e1, e2]
  refine ⟨i + t * n m d, ?_, ?_, ?_⟩
  · have hm := f3 (a, (i + t * n m d) / n m d) (by rw [f4]; exact List.mem_cons_self)
    have := (enc_facts B.hn0 hm.1 hm.2.1).2
    rw [f4] at e
    simp only [List.map_cons, List.cons.injEq] at e
    rw [e.1, this]
  · intro hg
    rw [get_dec D hty hg, e]
  · intro k' hg' hk'
    have hN' : 0 < n m d := by omega
    obtain ⟨ty', i', t', qs', D', rfl, -⟩ := is_total B hd hN' k'
    by_cases hty' : d = 4 ∧ ty' = 3
    · exfalso
      obtain ⟨rfl, rfl⟩ := hty'
      cases D' with
      | p3 h' =>
        have := get_p3 h' hg'
        rw [hk'] at this
        have := Option.some.inj this
        have hc := hs.chain
        rw [this] at hc
        simp at hc
    · have hi' : Is m d (i' + t' * n m d) (at_ t' qs') := ⟨ty', i', t', qs', D', rfl, rfl⟩
      have hk2 := get_dec D' hty' hg'
      rw [hk', e] at hk2
      have := Option.some.inj hk2
      obtain ⟨_, _, g3, _⟩ := hi'.facts
      have hpq := map_inj_on (fun p hp q hq he => enc_inj (f3 p hp).1 (f3 p hp).2.1 (g3 q hq).1 (g3 q hq).2.1 he) this
      rw [← hpq] at hi'
      exact hi'.inj B h

/-- C123 (violated): no id gives a pentachoron with the lowest corner at both times, although each base
tetrahedron has one in each interval. -/
theorem C123_pentachoron_unreachable (hv : Valid n0 ts) (hb : build n0 ts = some m) (hN : 0 < n m 4) (v w : Int) (l : List Int)
    (hw : below n0 w = below n0 v) (hvw : v ≠ w) (k : Int) (hg : Good m 4 k) (hs : Simplex n0 ts (v :: w :: l)) :
    getSimplex m 4 k ≠ some (v :: w :: l) := by
  have B := base_of hv hb
  intro h
  obtain ⟨ty, i, t, ps, D, rfl, -⟩ := is_total B (by omega) hN k
  have key : ∀ {j a b c d : Int}, K m j a b c d → ∀ s s' : Int, ∀ {l' : List Int}, v :: w :: l = enc m (a, s) :: enc m (b, s') :: l' → False := by
    intro j a b c d hk s s' l' e
    simp only [List.cons.injEq] at e
    have h1 := hk.ab
    have h2 := hk.bc
    have h3 := hk.cd
    have h4 := hk.dn
    have h5 := hk.a0
    have e1 := (enc_facts (m := m) (p := (a, s)) B.hn0 h5 (by simp only; omega)).1
    have e2 := (enc_facts (m := m) (p := (b, s')) B.hn0 (by simp only; omega) (by simp only; omega)).1
    rw [← e.1] at e1
    rw [← e.2.1] at e2
    simp only at e1 e2
    omega
  cases D with
  | p0 hk => rw [get_dec (Dec.p0 hk) (by omega) hg] at h; exact key hk _ _ (Option.some.inj h).symm
  | p1 hk => rw [get_dec (Dec.p1 hk) (by omega) hg] at h; exact key hk _ _ (Option.some.inj h).symm
  | p2 hk => rw [get_dec (Dec.p2 hk) (by omega) hg] at h; exact key hk _ _ (Option.some.inj h).symm
  | p3 hk => rw [get_p3 hk hg] at h; exact key hk _ _ (Option.some.inj h).symm

theorem ordinalIds_mem {d : Nat} {t k : Int} : k ∈ ordinalIds m d t ↔ t * n m d ≤ k ∧ k < nOrdinal m d + t * n m d := by
  unfold ordinalIds
  simp only [List.mem_map, List.mem_range]
  constructor
  · rintro ⟨a, h1, rfl⟩; omega
  · rintro ⟨h1, h2⟩; exact ⟨(k - t * n m d).toNat, by omega, by omega⟩

theorem intervalIds_mem {d : Nat} {t k : Int} : k ∈ intervalIds m d t ↔
    nOrdinal m d + t * n m d ≤ k ∧ k < nInterval m d + nOrdinal m d + t * n m d := by
  unfold intervalIds
  simp only [List.mem_map, List.mem_range]
  constructor
  · rintro ⟨a, h1, rfl⟩; omega
  · rintro ⟨h1, h2⟩; exact ⟨(k - nOrdinal m d - t * n m d).toNat, by omega, by omega⟩

theorem nOrdinal_add (m : M3) {d : Nat} (hd : d ≤ 3) : nOrdinal m d + nInterval m d = n m d ∧ 0 ≤ nOrdinal m d ∧ 0 ≤ nInterval m d := by
  obtain rfl | rfl | rfl | rfl : d = 0 ∨ d = 1 ∨ d = 2 ∨ d = 3 := by omega
  all_goals simp only [nOrdinal, nInterval, n]; simp
  all_goals omega

theorem block {d : Nat} (hN : 0 < n m d) {k t : Int} : k / n m d = t ↔ t * n m d ≤ k ∧ k < n m d + t * n m d := by
  constructor
  · rintro rfl
    have e := Int.emod_add_mul_ediv k (n m d)
    rw [Int.mul_comm] at e
    have g1 := Int.emod_nonneg k (show n m d ≠ 0 by omega)
    have g2 := Int.emod_lt_of_pos k hN
    omega
  · intro h
    have : k = (k - t * n m d) + t * n m d := by omega
    rw [this, ediv_at (by omega) (by omega)]

/-- C123: for vertices, edges, triangles and tetrahedra `element_for_ordinal(d, t)` and
`element_for_interval(d, t)` together visit every id of block `t` exactly once and no other id.  Missing:
pentachora (`C123_interval_wrong`). -/
theorem C123_enumeration_partial {d : Nat} (hd : d ≤ 3) (hN : 0 < n m d) (t : Int) :
    (ordinalIds m d t ++ intervalIds m d t).Nodup ∧ ∀ k, k ∈ ordinalIds m d t ++ intervalIds m d t ↔ k / n m d = t := by
  obtain ⟨hadd, h0, h1⟩ := nOrdinal_add m hd
  constructor
  · rw [List.nodup_append]
    refine ⟨map_add_nodup _ (fun i => i + t * n m d) (fun a b h => by simpa using h),
      map_add_nodup _ (fun i => i + nOrdinal m d + t * n m d) (fun a b h => by simp at h; omega), ?_⟩
    intro a ha b hb
    rw [ordinalIds_mem] at ha
    rw [intervalIds_mem] at hb
    omega
  · intro k
    rw [List.mem_append, ordinalIds_mem, intervalIds_mem, block hN]
    omega

/-- C123: `element_for_ordinal(4, t)` alone visits every pentachoron of block `t` exactly once. -/
theorem C123_enumeration_pentachora (hN : 0 < n m 4) (t : Int) :
    (ordinalIds m 4 t).Nodup ∧ ∀ k, k ∈ ordinalIds m 4 t ↔ k / n m 4 = t := by
  refine ⟨map_add_nodup _ (fun i => i + t * n m 4) (fun a b h => by simpa using h), ?_⟩
  intro k
  rw [ordinalIds_mem, block hN]
  have : nOrdinal m 4 = n m 4 := by simp only [nOrdinal, n, if_true]; omega
  rw [this]

/-- C123 (violated): `element_for_interval(4, t)` visits the pentachora of the next interval instead of
those of interval `t`, so that visiting ordinal and interval elements of all time steps visits every
pentachoron twice. -/
theorem C123_interval_wrong (t : Int) : ∀ k, k ∈ intervalIds m 4 t ↔ k ∈ ordinalIds m 4 (t + 1) := by
  intro k
  rw [intervalIds_mem, ordinalIds_mem]
  have : nOrdinal m 4 = n m 4 := by simp only [nOrdinal, n, if_true]; omega
  have h2 : nInterval m 4 = n m 4 := rfl
  rw [this, h2, Int.add_mul, Int.one_mul]
  omega

/-- The vertex of the extruded mesh that stands for base vertex `v` at time `t` (which may be negative) is reported at time
`t`, and it is over `v`, except that for negative times vertex 0 is reported as vertex `n0`. -/
theorem C123_vertex (m : M3) (v t : Int) (h0 : 0 ≤ v) (h1 : v < m.n 0) :
    flatTime m (v + t * m.n 0) = some t ∧ flatId m (v + t * m.n 0) = some (if v = 0 ∧ t < 0 then (m.n 0 : Int) else v) := by
  have hn : 0 < (m.n 0 : Int) := by omega
  refine ⟨?_, ?_⟩
  · unfold flatTime
    rw [if_neg (by omega), Int.fdiv_eq_ediv_of_nonneg _ (by omega), Int.add_mul_ediv_right _ _ (by omega),
      Int.ediv_eq_zero_of_lt h0 h1, Int.zero_add]
  · unfold flatId mod
    have hs : v + t * m.n 0 < 0 ↔ t < 0 := by
      constructor
      · intro h
        by_contra hc
        have := Int.mul_nonneg (by omega : 0 ≤ t) hn.le
        omega
      · intro h
        have : t * m.n 0 ≤ (-1) * m.n 0 := Int.mul_le_mul_of_nonneg_right (by omega) hn.le
        omega
    have he : (v + t * m.n 0) % (m.n 0 : Int) = v := by
      rw [Int.add_mul_emod_self_right, Int.emod_eq_of_lt h0 h1]
    have hd : (m.n 0 : Int) ∣ v + t * m.n 0 ↔ v = 0 := by
      rw [Int.dvd_iff_emod_eq_zero, he]
    rw [if_neg (by omega), Int.tmod_eq_emod, he]
    simp only [hs, hd, Int.natAbs_natCast]
    by_cases ht : t < 0
    · have : ¬ 0 ≤ v + t * m.n 0 := by rw [Int.not_le, hs]; exact ht
      by_cases hv : v = 0
      · simp [ht, hv]
      · simp [ht, hv, this]
    · have : 0 ≤ v + t * m.n 0 := by rw [← Int.not_lt, hs]; exact ht
      simp [ht, this]

/-- C123: the ordinal ids are the simplices inside one time step, the interval ids those that span two;
`is_ordinal` tells them apart. -/
theorem C123_ordinal (hv : Valid n0 ts) (hb : build n0 ts = some m) {d : Nat} (hd : d ≤ 3) (k : Int) (vs : List Int) (hg : Good m d k)
    (h : getSimplex m d k = some vs) :
    (k ∈ ordinalIds m d (k / n m d) ↔ ∀ u ∈ vs, ∀ v ∈ vs, time n0 u = time n0 v) ∧
    (isOrdinal m d k = some true ↔ ∀ u ∈ vs, ∀ v ∈ vs, time n0 u = time n0 v) := by
  have B := base_of hv hb
  have hN : 0 < n m d := by have := getSimplex_pos h; have := n_nonneg (m := m) d; omega
  obtain ⟨ps, hi, rfl⟩ := is_of_get B hd hN hg h
  obtain ⟨f1, f2, f3, -⟩ := hi.facts
  have hb' : ∀ p ∈ ps, time n0 (enc m p) = p.2 := fun p hp => (enc_facts B.hn0 (f3 p hp).1 (f3 p hp).2.1).2
  have hall : (∀ u ∈ ps.map (enc m), ∀ v ∈ ps.map (enc m), time n0 u = time n0 v) ↔ ∀ p ∈ ps, ∀ q ∈ ps, p.2 = q.2 := by
    constructor
    · intro H p hp q hq
      have := H _ (List.mem_map.2 ⟨p, hp, rfl⟩) _ (List.mem_map.2 ⟨q, hq, rfl⟩)
      rwa [hb' p hp, hb' q hq] at this
    · intro H u hu v hv
      obtain ⟨p, hp, rfl⟩ := List.mem_map.1 hu
      obtain ⟨q, hq, rfl⟩ := List.mem_map.1 hv
      rw [hb' p hp, hb' q hq]
      exact H p hp q hq
  rw [hall]
  obtain ⟨ty, i, t, qs, D, rfl, rfl⟩ := hi
  have hr := D.range
  have hiff : i < nOrdinal m d ↔ ∀ p ∈ at_ t qs, ∀ q ∈ at_ t qs, p.2 = q.2 := by
    clear hall hb' f1 f2 f3 h hg
    cases D <;> casesm* K _ _ _ _ _ _, T _ _ _ _ _, E _ _ _ _, V _ _ <;> simp [at_, nOrdinal] <;> first | omega | (exfalso; omega)
  constructor
  · rw [← hiff, ordinalIds_mem, ediv_at hr.1 hr.2]; omega
  · rw [← hiff]
    unfold isOrdinal
    rw [mod_good (by omega) hg, emod_at hr.1 hr.2]
    simp

/-! ## C124: pentachora and their facets -/

theorem cof_iff (B : Base n0 ts m) {d : Nat} {y x : Int} {fs ps : List PV} (hx : Is m d x fs) (hy : Is m (d + 1) y ps) :
    Cof m (d + 1) y fs ↔ ∀ w ∈ fs.map (enc m), w ∈ ps.map (enc m) := by
  rw [← face_iff hy hx]
  constructor
  · rintro ⟨ps', q, h1, h2, h3⟩
    have := h1.func hy
    subst this
    exact ⟨q, h2, h3⟩
  · rintro ⟨q, h2, h3⟩
    exact ⟨ps, q, hy, h2, h3⟩

theorem sideOf3_ne_nil (B : Base n0 ts m) {k : Int} {fs : List PV} (h : Is m 3 k fs) : ∃ y, Cof m 4 y fs := by
  obtain ⟨ty, i, t, qs, D, rfl, rfl⟩ := h
  have tri : ∀ {j a b c : Int}, T m j a b c → ∃ x pos, InK a b c m x pos := by
    intro j a b c hT
    obtain ⟨S', g1, -, g3, g4⟩ := B.side (Or.inr rfl) hT.get
    obtain ⟨x, hx⟩ := List.exists_mem_of_ne_nil S' g3
    obtain ⟨σ, q1, q2⟩ := (g4 x).1 hx
    obtain ⟨pos, hp⟩ := inK_of B hT q1 q2
    exact ⟨x, pos, hp⟩
  cases D with
  | k0 h => exact ⟨_, (cof_k0 B h).2 (Or.inl rfl)⟩
  | k1 h => exact ⟨_, (cof_k1 B h).2 (Or.inl rfl)⟩
  | k2 h => exact ⟨_, (cof_k2 B h).2 (Or.inl rfl)⟩
  | k3 h => exact ⟨_, (cof_k3 B h).2 (Or.inl rfl)⟩
  | k4 h => obtain ⟨x, pos, hp⟩ := tri h; exact ⟨_, (cof_k4 h).2 ⟨x, pos, hp, rfl⟩⟩
  | k5 h => obtain ⟨x, pos, hp⟩ := tri h; exact ⟨_, (cof_k5 h).2 ⟨x, pos, hp, rfl⟩⟩
  | k6 h => obtain ⟨x, pos, hp⟩ := tri h; exact ⟨_, (cof_k6 h).2 ⟨x, pos, hp, rfl⟩⟩

theorem n_pos (B : Base n0 ts m) (hts : ts ≠ []) : 0 < n m 4 ∧ 0 < n m 3 ∧ 0 < n m 2 ∧ 0 < n0 := by
  obtain ⟨h3, h2, h1⟩ := counts B hts
  obtain ⟨t, ht⟩ := List.exists_mem_of_ne_nil ts hts
  have := B.inRange t ht t.1 (Or.inl rfl)
  simp only [n]
  omega

/-- C124: there is one numbering of all pentachora of the extruded mesh with which `get_simplex` (but
for type 3), `sides(4, ·)` and `side_of(3, ·)` agree: the sides of a pentachoron are exactly its five
facets, the cofaces of a tetrahedron exactly the pentachora that contain it. -/
theorem C124_numbering (hv : Valid n0 ts) (hb : build n0 ts = some m) (hts : ts ≠ []) : ∃ P, Numbering n0 ts m P := by
  have B := base_of hv hb
  obtain ⟨h4, h3, h2, hn⟩ := n_pos B hts
  have tot : ∀ k, ∃ ps, Is m 4 k ps := by
    intro k
    obtain ⟨ty, i, t, ps, D, rfl, -⟩ := is_total B (by omega) h4 k
    exact ⟨_, ty, i, t, ps, D, rfl, rfl⟩
  choose Q hQ using tot
  refine ⟨fun k => (Q k).map (enc m), ?_, ?_, ?_, ?_, ?_, ?_⟩
  · intro k
    obtain ⟨f1, f2, f3, a, l, f4⟩ := (hQ k).facts
    refine ⟨by simpa using f1, (hQ k).simplex B, _, _, by rw [f4]; rfl, ?_⟩
    have := f3 _ (by rw [f4]; exact List.mem_cons_self)
    exact (enc_facts B.hn0 this.1 this.2.1).2
  · intro vs hl hs
    obtain ⟨k, ps, h, e⟩ := is_complete B hn (by omega) hl hs
    exact ⟨k, by rw [e, (hQ k).func h]⟩
  · intro k k' e
    obtain ⟨_, _, f3, _⟩ := (hQ k).facts
    obtain ⟨_, _, g3, _⟩ := (hQ k').facts
    have hpq := map_inj_on (fun p hp q hq he => enc_inj (f3 p hp).1 (f3 p hp).2.1 (g3 q hq).1 (g3 q hq).2.1 he) e
    have := hQ k'
    rw [← hpq] at this
    exact (hQ k).inj B this
  · intro k hg ht
    obtain ⟨ty, i, t, ps, D, e1, e2⟩ := hQ k
    rw [e2]
    rw [e1] at hg ht ⊢
    refine get_dec D ?_ hg
    rintro ⟨-, rfl⟩
    exact ht (by simpa using type_dec D hg)
  · intro k hk
    exact sides_sets B (by omega) (hQ k) hk (sides4_spec B (hQ k) (Or.inl hk))
  · intro x ws hx hw
    obtain ⟨fs, hi, rfl⟩ := is_of_get B (by omega) h3 (Or.inl hx) hw
    obtain ⟨S, s1, s2, s3⟩ := sideOf3_spec B hi (Or.inl hx)
    obtain ⟨y, hy⟩ := sideOf3_ne_nil B hi
    refine ⟨S, s1, s2, List.ne_nil_of_mem ((s3 y).2 hy), ?_⟩
    intro k
    rw [s3, cof_iff B hi (hQ k)]

/-- C124: `sides(4, ·)` and `side_of(3, ·)` are inverse to each other. -/
theorem C124_duality (hv : Valid n0 ts) (hb : build n0 ts = some m) (hts : ts ≠ []) (x k : Int) (hx : 0 ≤ x) (hk : 0 ≤ k) :
    ∃ S S', sides m 4 k = some S ∧ sideOf m 3 x = some S' ∧ (x ∈ S ↔ k ∈ S') := by
  obtain ⟨P, hP⟩ := C124_numbering hv hb hts
  obtain ⟨S, s1, -, -, s4⟩ := hP.sides k hk
  obtain ⟨ws, g1, -⟩ := C123_get_simplex_partial hv hb (show 3 ≤ 4 by omega) (n_pos (base_of hv hb) hts).2.1 x (Or.inl hx) (by omega)
  obtain ⟨S', t1, -, -, t4⟩ := hP.sideOf x ws hx g1
  refine ⟨S, S', s1, t1, ?_⟩
  rw [s4, t4]
  constructor
  · rintro ⟨-, ws', g1', h⟩
    rw [g1] at g1'
    obtain rfl := Option.some.inj g1'
    exact h
  · intro h
    exact ⟨hx, ws, g1, h⟩

/-- C124: a tetrahedron over four different base vertices separates exactly two pentachora. -/
theorem C124_two_cofaces (hv : Valid n0 ts) (hb : build n0 ts = some m) (hts : ts ≠ []) (x : Int) (hx : 0 ≤ x) (ws : List Int)
    (hw : getSimplex m 3 x = some ws) (hd : (ws.map (below n0)).Nodup) : ∃ S, sideOf m 3 x = some S ∧ S.length = 2 := by
  have B := base_of hv hb
  obtain ⟨h4, h3, h2, hn⟩ := n_pos B hts
  obtain ⟨fs, hi, rfl⟩ := is_of_get B (by omega) h3 (Or.inl hx) hw
  obtain ⟨S, s1, s2, s3⟩ := sideOf3_spec B hi (Or.inl hx)
  refine ⟨S, s1, ?_⟩
  have two : ∀ y y' : Int, y ≠ y' → (∀ k, k ∈ S ↔ k = y ∨ k = y') → S.length = 2 := by
    intro y y' hne h
    have : S.Perm [y, y'] := (List.perm_ext_iff_of_nodup (s2.imp (fun h => ne_of_lt h)) (by simp [hne])).2 (fun k => by rw [h]; simp)
    rw [this.length_eq]; rfl
  have hbase : (fs.map (enc m)).map (below n0) = fs.map (·.1) := by
    obtain ⟨_, _, f3, _⟩ := hi.facts
    rw [List.map_map]
    apply List.map_congr_left
    intro p hp
    exact (enc_facts B.hn0 (f3 p hp).1 (f3 p hp).2.1).1
  rw [hbase] at hd
  have hne : ∀ {t N : Int}, 0 < N → (t - 1) * N + N = t * N := by intro t N _; rw [Int.sub_mul]; omega
  obtain ⟨c3, -, -⟩ := counts B hts
  obtain ⟨ty, i, t, qs, D, rfl, rfl⟩ := hi
  cases D with
  | @k0 j a b c d h =>
    refine two _ _ ?_ (fun k => (s3 k).trans (cof_k0 B h))
    have := hne (t := t) h4
    have : n m 4 = 4 * m.n 3 := rfl
    omega
  | k1 h => exact two _ _ (by omega) (fun k => (s3 k).trans (cof_k1 B h))
  | k2 h => exact two _ _ (by omega) (fun k => (s3 k).trans (cof_k2 B h))
  | k3 h => exact two _ _ (by omega) (fun k => (s3 k).trans (cof_k3 B h))
  | k4 h | k5 h | k6 h => simp [at_] at hd

/-! ## C125: tetrahedra and their triangles -/

/-- C125: `sides(3, k)` are exactly the four triangles of tetrahedron `k`. -/
theorem C125_sides (hv : Valid n0 ts) (hb : build n0 ts = some m) (k : Int) (hk : 0 ≤ k) (vs : List Int)
    (hg : getSimplex m 3 k = some vs) : ∃ S, sides m 3 k = some S ∧ S.Pairwise (· < ·) ∧ S.length = 4 ∧
    ∀ x, x ∈ S ↔ 0 ≤ x ∧ ∃ ws, getSimplex m 2 x = some ws ∧ ∀ w ∈ ws, w ∈ vs := by
  have B := base_of hv hb
  have hN : 0 < n m 3 := by have := getSimplex_pos hg; have := n_nonneg (m := m) 3; omega
  obtain ⟨ps, hi, rfl⟩ := is_of_get B (by omega) hN (Or.inl hk) hg
  exact sides_sets B (by omega) hi hk (sides3_spec B hi (Or.inl hk))

theorem ts_ne_nil (B : Base n0 ts m) {d : Nat} (hd : 2 ≤ d) {k : Int} {ps : List PV} (h : Is m d k ps) : ts ≠ [] := by
  rintro rfl
  have key : ∀ {d j} {σ : Cell}, m.get d j = some σ → False := by
    intro d j σ hg
    obtain ⟨-, -, t, ht, -⟩ := B.get_cell hg
    simp at ht
  obtain ⟨ty, i, t, qs, D, rfl, rfl⟩ := h
  cases D with
  | v0 h | e2 h => omega
  | e0 h | e1 h | t3 h | t4 h => exact key h.get
  | t0 h | t1 h | t2 h | k4 h | k5 h | k6 h => exact key h.get
  | k0 h | k1 h | k2 h | k3 h | p0 h | p1 h | p2 h | p3 h => exact key h.get

/-- C125: every id in `side_of(2, x)` is a tetrahedron that contains triangle `x`, and there is at least
one.  Missing: that all of them are there, which is false (`C125_side_of_incomplete`). -/
theorem C125_side_of_partial (hv : Valid n0 ts) (hb : build n0 ts = some m) (x : Int) (hx : 0 ≤ x) (ws : List Int)
    (hw : getSimplex m 2 x = some ws) : ∃ S, sideOf m 2 x = some S ∧ S.Pairwise (· < ·) ∧ S ≠ [] ∧
    ∀ k ∈ S, ∃ vs, getSimplex m 3 k = some vs ∧ ∀ w ∈ ws, w ∈ vs := by
  have B := base_of hv hb
  have hN : 0 < n m 2 := by have := getSimplex_pos hw; have := n_nonneg (m := m) 2; omega
  obtain ⟨fs, hi, rfl⟩ := is_of_get B (by omega) hN (Or.inl hx) hw
  have hts := ts_ne_nil B (by omega) hi
  obtain ⟨S, s1, s2, s3, s4⟩ := sideOf2_sound B hi (Or.inl hx)
  refine ⟨S, s1, s2, s3, ?_⟩
  intro k hk
  have hc := s4 k hk
  obtain ⟨ps, q, g1, g2, g3⟩ := hc
  obtain ⟨_, _, _, a, l, e⟩ := hi.facts
  have hmem : (a, x / n m 2) ∈ fs := by rw [e]; exact List.mem_cons_self
  have hgood := good_of_time B hts (by omega) g1 (List.mem_of_mem_eraseIdx (g3 ▸ hmem)) ((nonneg_iff hi).1 hx _ hmem)
  exact ⟨_, get_of_is (by omega) g1 hgood, (cof_iff B hi g1).1 ⟨ps, q, g1, g2, g3⟩⟩

/-- C125: for a triangle with an edge along the time axis `side_of(2, x)` is exact. -/
theorem C125_side_of_vertical (hv : Valid n0 ts) (hb : build n0 ts = some m) (x : Int) (hx : 0 ≤ x) (ws : List Int)
    (hw : getSimplex m 2 x = some ws) (u v : Int) (hu : u ∈ ws) (hv' : v ∈ ws) (huv : u ≠ v) (hbl : below n0 u = below n0 v) :
    ∃ S, sideOf m 2 x = some S ∧ S.Pairwise (· < ·) ∧
    ∀ k, k ∈ S ↔ 0 ≤ k ∧ ∃ vs, getSimplex m 3 k = some vs ∧ ∀ w ∈ ws, w ∈ vs := by
  have B := base_of hv hb
  have hN : 0 < n m 2 := by have := getSimplex_pos hw; have := n_nonneg (m := m) 2; omega
  obtain ⟨fs, hi, rfl⟩ := is_of_get B (by omega) hN (Or.inl hx) hw
  have hts := ts_ne_nil B (by omega) hi
  obtain ⟨_, f2, f3, _⟩ := hi.facts
  obtain ⟨p, hp, rfl⟩ := List.mem_map.1 hu
  obtain ⟨q, hq, rfl⟩ := List.mem_map.1 hv'
  rw [(enc_facts B.hn0 (f3 p hp).1 (f3 p hp).2.1).1, (enc_facts B.hn0 (f3 q hq).1 (f3 q hq).2.1).1] at hbl
  have hpq : p ≠ q := by rintro rfl; exact huv rfl
  have htq : p.2 ≠ q.2 := fun h => hpq (Prod.ext hbl h)
  obtain ⟨S, s1, s2, s3⟩ := sideOf2_spec B hi (Or.inl hx) ⟨p, q, hp, hq, hpq, hbl⟩
  refine ⟨S, s1, s2, ?_⟩
  have hp0 := (nonneg_iff hi).1 hx p hp
  have hq0 := (nonneg_iff hi).1 hx q hq
  intro k
  rw [s3]
  constructor
  · rintro ⟨ps, r, g1, g2, g3⟩
    obtain ⟨_, _, f3', a', l', e'⟩ := g1.facts
    have hk : 0 ≤ k := by
      rw [nonneg_iff g1]
      have h1 := (f3' p (List.mem_of_mem_eraseIdx (g3 ▸ hp))).2.2
      have h2 := (f3' q (List.mem_of_mem_eraseIdx (g3 ▸ hq))).2.2
      intro r hr
      have := (f3' r hr).2.2
      omega
    exact ⟨hk, _, get_of_is (by omega) g1 (Or.inl hk), (cof_iff B hi g1).1 ⟨ps, r, g1, g2, g3⟩⟩
  · rintro ⟨hk, vs, g1, g2⟩
    obtain ⟨ps, hi', rfl⟩ := is_of_get B (by omega) (n_pos B hts).2.1 (Or.inl hk) g1
    exact (cof_iff B hi hi').2 g2

/-! ## Witnesses -/

/-- C123 (violated): at the negative multiples of `n(d)` the decoding is wrong: vertex `-6` of the pair
(base vertex 0 at time -1) comes out as vertex 0, and triangle `-39` (triangle 0 one step earlier) as
another triangle. -/
theorem C123_negative_multiple : n pairMesh 0 = 6 ∧ getSimplex pairMesh 0 (-6) = some [0] ∧ flatId pairMesh (-6) = some 6 ∧
    n pairMesh 2 = 39 ∧ getSimplex pairMesh 2 0 = some [0, 1, 2] ∧ getSimplex pairMesh 2 (-39) = some [-5, -4, -2] := by decide +kernel

/-- C125 (violated): tetrahedron 2 contains triangle 8, but is not in `side_of(2, 8)`; as a consequence 8
is a neighbour of 0 (both are sides of tetrahedron 2, in `side_of(2, 0)`) although 0 is not one of 8. -/
theorem C125_side_of_incomplete : getSimplex pairMesh 3 2 = some [0, 1, 2, 9] ∧ getSimplex pairMesh 2 8 = some [0, 1, 9] ∧
    getSimplex pairMesh 2 0 = some [0, 1, 2] ∧ sides pairMesh 3 2 = some [0, 8, 9, 10] ∧
    sideOf pairMesh 2 0 = some [-7, 0, 2, 8] ∧ sideOf pairMesh 2 8 = some [9, 16] ∧
    sides pairMesh 3 9 = some [1, 8, 23, 25] ∧ sides pairMesh 3 16 = some [8, 15, 21, 34] := by decide +kernel

/-- Non-vacuity: the hypotheses of C123–C125 hold for two tetrahedra sharing a triangle, and the results
are not trivial: triangle 3 (the shared one) over vertices 1 2 3 at time 0. -/
example : Valid 6 pair ∧ build 6 pair = some pairMesh ∧ pair ≠ [] ∧ n pairMesh 4 = 8 ∧ n pairMesh 3 = 29 ∧
    getSimplex pairMesh 4 1 = some [1, 2, 3, 4, 10] ∧ simplexType pairMesh 4 6 = some 3 ∧ getSimplex pairMesh 4 6 = some [0, 7, 7, 8, 9] ∧
    sides pairMesh 4 6 = some [6, 22, 23, 24, 29] ∧ sideOf pairMesh 3 0 = some [-2, 0] ∧ sideOf pairMesh 3 11 = some [0, 3] ∧
    getSimplex pairMesh 3 11 = some [1, 2, 3, 9] ∧ getSimplex pairMesh 2 24 = some [1, 2, 8] ∧
    sideOf pairMesh 2 24 = some [8, 18, 19] ∧ getSimplex pairMesh 2 (39 + 3) = some [7, 8, 9] :=
  ⟨pair_valid, pairMesh_built, by decide +kernel⟩

/-- Non-vacuity: a pentachoron of the extruded pair that `get_simplex` does not give. -/
example : Simplex 6 pair [0, 6, 7, 8, 9] ∧ below 6 6 = below 6 0 := by
  refine ⟨⟨by simp [below, time], by simp [time], Or.inr ⟨(3, 1, 0, 2), by simp [pair], ?_⟩⟩, rfl⟩
  simp [below, OnTet]

end Verif.X3
