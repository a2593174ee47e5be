import Verif.X3Mesh.Get

/-! Every simplex of the extruded 4-D mesh has an id. -/

namespace Verif.X3

open Verif.U3
open Verif.XM (vertex_rep)

variable {n0 : Nat} {ts : List Tet} {m : M3}

theorem K_from (B : Base n0 ts m) {t : Tet} (ht : t ∈ ts) {a b c d : Int} (h1 : a < b) (h2 : b < c) (h3 : c < d)
    (ha : OnTet a t) (hb : OnTet b t) (hc : OnTet c t) (hd : OnTet d t) : ∃ j, K m j a b c d := by
  have hcell : IsCell ts 3 [a, b, c, d] := ⟨rfl, by simp; omega, t, ht, by simp; exact ⟨ha, hb, hc, hd⟩⟩
  obtain ⟨j, hj⟩ := B.get_of (by omega) (by omega) hcell
  obtain ⟨a', b', c', d', e, h⟩ := K_of B hj
  simp at e
  obtain ⟨rfl, rfl, rfl, rfl⟩ := e
  exact ⟨j, h⟩

theorem T_from (B : Base n0 ts m) {t : Tet} (ht : t ∈ ts) {a b c : Int} (h1 : a < b) (h2 : b < c)
    (ha : OnTet a t) (hb : OnTet b t) (hc : OnTet c t) : ∃ j, T m j a b c := by
  have hcell : IsCell ts 2 [a, b, c] := ⟨rfl, by simp; omega, t, ht, by simp; exact ⟨ha, hb, hc⟩⟩
  obtain ⟨j, hj⟩ := B.get_of (by omega) (by omega) hcell
  obtain ⟨a', b', c', e, h⟩ := T_of B hj
  simp at e
  obtain ⟨rfl, rfl, rfl⟩ := e
  exact ⟨j, h⟩

theorem E_from (B : Base n0 ts m) {t : Tet} (ht : t ∈ ts) {a b : Int} (h1 : a < b)
    (ha : OnTet a t) (hb : OnTet b t) : ∃ j, E m j a b := by
  have hcell : IsCell ts 1 [a, b] := ⟨rfl, by simp; omega, t, ht, by simp; exact ⟨ha, hb⟩⟩
  obtain ⟨j, hj⟩ := B.get_of (by omega) (by omega) hcell
  obtain ⟨a', b', e, h⟩ := E_of B hj
  simp at e
  obtain ⟨rfl, rfl⟩ := e
  exact ⟨j, h⟩

/-- No five different corners. -/
theorem onTet5 {t : Tet} {a b c d e : Int} (h1 : a < b) (h2 : b < c) (h3 : c < d) (h4 : d < e)
    (ha : OnTet a t) (hb : OnTet b t) (hc : OnTet c t) (hd : OnTet d t) (he : OnTet e t) : False := by
  unfold OnTet at *
  omega

theorem split01 {p : PV} (h : p.2 = 0 ∨ p.2 = 1) : ∃ a, p = (a, 0) ∨ p = (a, 1) := by
  obtain ⟨a, s⟩ := p
  rcases h with h | h
  · exact ⟨a, Or.inl (by simpa using h)⟩
  · exact ⟨a, Or.inr (by simpa using h)⟩

theorem dec_complete (B : Base n0 ts m) {d : Nat} (hd : d ≤ 4) {ps : List PV} (hl : ps.length = d + 1)
    (hc : ps.Pairwise (fun p q => p ≠ q ∧ p.1 ≤ q.1 ∧ p.2 ≤ q.2)) (hr : ∀ p ∈ ps, 0 ≤ p.1 ∧ p.1 < m.n 0 ∧ (p.2 = 0 ∨ p.2 = 1))
    (hh : ∃ a l, ps = (a, 0) :: l) (hb : (∀ p ∈ ps, ∀ q ∈ ps, p.1 = q.1) ∨ ∃ t ∈ ts, ∀ p ∈ ps, OnTet p.1 t) :
    ∃ ty i, Dec m d ty i ps := by
  obtain ⟨a, l, rfl⟩ := hh
  obtain rfl | rfl | rfl | rfl | rfl : d = 0 ∨ d = 1 ∨ d = 2 ∨ d = 3 ∨ d = 4 := by omega
  · obtain rfl : l = [] := by simpa using hl
    simp at hr
    exact ⟨_, _, Dec.v0 ⟨hr.1, hr.2⟩⟩
  · obtain ⟨p, rfl⟩ : ∃ p, l = [p] := List.length_eq_one_iff.1 (by simpa using hl)
    obtain ⟨b, hp⟩ := split01 (hr p (by simp)).2.2
    rcases hb with hb | ⟨t, ht, hb⟩
    · have hab := hb (a, 0) (by simp) p (by simp)
      rcases hp with rfl | rfl <;> simp at hab hc hr <;> subst hab
      · simp at hc
      · exact ⟨_, _, Dec.e2 ⟨hr.1.1, hr.1.2⟩⟩
    · have ha := hb (a, 0) (by simp)
      have hb := hb p (by simp)
      rcases hp with rfl | rfl <;> simp at ha hb hc hr
      · obtain ⟨j, h⟩ := E_from B ht (show a < b by omega) ha hb
        exact ⟨_, _, Dec.e0 h⟩
      · by_cases hab : a = b
        · subst hab
          exact ⟨_, _, Dec.e2 ⟨hr.1.1, hr.1.2⟩⟩
        · obtain ⟨j, h⟩ := E_from B ht (show a < b by omega) ha hb
          exact ⟨_, _, Dec.e1 h⟩
  · obtain ⟨p, q, rfl⟩ : ∃ p q, l = [p, q] := List.length_eq_two.1 (by simpa using hl)
    obtain ⟨b, hp⟩ := split01 (hr p (by simp)).2.2
    obtain ⟨c, hq⟩ := split01 (hr q (by simp)).2.2
    rcases hb with hb | ⟨t, ht, hb⟩
    · exfalso
      have hab := hb (a, 0) (by simp) p (by simp)
      have hac := hb (a, 0) (by simp) q (by simp)
      rcases hp with rfl | rfl <;> rcases hq with rfl | rfl <;> simp at hab hac hc hr <;> omega
    · have ha := hb (a, 0) (by simp)
      have hb' := hb p (by simp)
      have hc' := hb q (by simp)
      rcases hp with rfl | rfl <;> rcases hq with rfl | rfl <;> simp at ha hb' hc' hc hr
      · obtain ⟨j, h⟩ := T_from B ht (show a < b by omega) (show b < c by omega) ha hb' hc'
        exact ⟨_, _, Dec.t0 h⟩
      · by_cases hab : b = c
        · subst hab
          obtain ⟨j, h⟩ := E_from B ht (show a < b by omega) ha hb'
          exact ⟨_, _, Dec.t3 h⟩
        · obtain ⟨j, h⟩ := T_from B ht (show a < b by omega) (show b < c by omega) ha hb' hc'
          exact ⟨_, _, Dec.t1 h⟩
      · by_cases hab : a = b
        · subst hab
          obtain ⟨j, h⟩ := E_from B ht (show a < c by omega) ha hc'
          exact ⟨_, _, Dec.t4 h⟩
        · obtain ⟨j, h⟩ := T_from B ht (show a < b by omega) (show b < c by omega) ha hb' hc'
          exact ⟨_, _, Dec.t2 h⟩
  · obtain ⟨p, q, r, rfl⟩ : ∃ p q r, l = [p, q, r] := List.length_eq_three.1 (by simpa using hl)
    obtain ⟨b, hp⟩ := split01 (hr p (by simp)).2.2
    obtain ⟨c, hq⟩ := split01 (hr q (by simp)).2.2
    obtain ⟨e, hr'⟩ := split01 (hr r (by simp)).2.2
    rcases hb with hb | ⟨t, ht, hb⟩
    · exfalso
      have hab := hb (a, 0) (by simp) p (by simp)
      have hac := hb (a, 0) (by simp) q (by simp)
      rcases hp with rfl | rfl <;> rcases hq with rfl | rfl <;> simp at hab hac hc hr <;> omega
    · have ha := hb (a, 0) (by simp)
      have hb' := hb p (by simp)
      have hc' := hb q (by simp)
      have he' := hb r (by simp)
      rcases hp with rfl | rfl <;> rcases hq with rfl | rfl <;> rcases hr' with rfl | rfl <;> simp at ha hb' hc' he' hc hr
      · obtain ⟨j, h⟩ := K_from B ht (show a < b by omega) (show b < c by omega) (show c < e by omega) ha hb' hc' he'
        exact ⟨_, _, Dec.k0 h⟩
      · by_cases hab : c = e
        · subst hab
          obtain ⟨j, h⟩ := T_from B ht (show a < b by omega) (show b < c by omega) ha hb' hc'
          exact ⟨_, _, Dec.k4 h⟩
        · obtain ⟨j, h⟩ := K_from B ht (show a < b by omega) (show b < c by omega) (show c < e by omega) ha hb' hc' he'
          exact ⟨_, _, Dec.k1 h⟩
      · by_cases hab : b = c
        · subst hab
          obtain ⟨j, h⟩ := T_from B ht (show a < b by omega) (show b < e by omega) ha hb' he'
          exact ⟨_, _, Dec.k5 h⟩
        · obtain ⟨j, h⟩ := K_from B ht (show a < b by omega) (show b < c by omega) (show c < e by omega) ha hb' hc' he'
          exact ⟨_, _, Dec.k2 h⟩
      · by_cases hab : a = b
        · subst hab
          obtain ⟨j, h⟩ := T_from B ht (show a < c by omega) (show c < e by omega) ha hc' he'
          exact ⟨_, _, Dec.k6 h⟩
        · obtain ⟨j, h⟩ := K_from B ht (show a < b by omega) (show b < c by omega) (show c < e by omega) ha hb' hc' he'
          exact ⟨_, _, Dec.k3 h⟩
  · obtain ⟨p, q, r, s, rfl⟩ : ∃ p q r s, l = [p, q, r, s] := by
      rcases l with _ | ⟨u, _ | ⟨v, _ | ⟨w, _ | ⟨x, _ | ⟨y, l⟩⟩⟩⟩⟩ <;> simp at hl
      exact ⟨u, v, w, x, rfl⟩
    obtain ⟨b, hp⟩ := split01 (hr p (by simp)).2.2
    obtain ⟨c, hq⟩ := split01 (hr q (by simp)).2.2
    obtain ⟨e, hr'⟩ := split01 (hr r (by simp)).2.2
    obtain ⟨f, hs⟩ := split01 (hr s (by simp)).2.2
    rcases hb with hb | ⟨t, ht, hb⟩
    · exfalso
      have hab := hb (a, 0) (by simp) p (by simp)
      have hac := hb (a, 0) (by simp) q (by simp)
      rcases hp with rfl | rfl <;> rcases hq with rfl | rfl <;> simp at hab hac hc hr <;> omega
    · have ha := hb (a, 0) (by simp)
      have hb' := hb p (by simp)
      have hc' := hb q (by simp)
      have he' := hb r (by simp)
      have hf' := hb s (by simp)
      have h5 : ¬ (a < b ∧ b < c ∧ c < e ∧ e < f) := by
        rintro ⟨g1, g2, g3, g4⟩
        refine onTet5 g1 g2 g3 g4 ha ?_ ?_ ?_ ?_ (t := t)
        · rcases hp with rfl | rfl <;> exact hb'
        · rcases hq with rfl | rfl <;> exact hc'
        · rcases hr' with rfl | rfl <;> exact he'
        · rcases hs with rfl | rfl <;> exact hf'
      rcases hp with rfl | rfl <;> rcases hq with rfl | rfl <;> rcases hr' with rfl | rfl <;> rcases hs with rfl | rfl <;>
        simp at ha hb' hc' he' hf' hc hr
      · exfalso; omega
      · obtain rfl : e = f := by omega
        obtain ⟨j, h⟩ := K_from B ht (show a < b by omega) (show b < c by omega) (show c < e by omega) ha hb' hc' he'
        exact ⟨_, _, Dec.p0 h⟩
      · obtain rfl : c = e := by omega
        obtain ⟨j, h⟩ := K_from B ht (show a < b by omega) (show b < c by omega) (show c < f by omega) ha hb' hc' hf'
        exact ⟨_, _, Dec.p1 h⟩
      · obtain rfl : b = c := by omega
        obtain ⟨j, h⟩ := K_from B ht (show a < b by omega) (show b < e by omega) (show e < f by omega) ha hb' he' hf'
        exact ⟨_, _, Dec.p2 h⟩
      · obtain rfl : a = b := by omega
        obtain ⟨j, h⟩ := K_from B ht (show a < c by omega) (show c < e by omega) (show e < f by omega) ha hc' he' hf'
        exact ⟨_, _, Dec.p3 h⟩

/-- Every simplex of the extruded mesh has an id. -/
theorem is_complete (B : Base n0 ts m) (hn : 0 < n0) {d : Nat} (hd : d ≤ 4) {vs : List Int} (hl : vs.length = d + 1)
    (hs : Simplex n0 ts vs) : ∃ k ps, Is m d k ps ∧ vs = ps.map (enc m) := by
  obtain ⟨hc, hth, hb⟩ := hs
  obtain ⟨v0, vl, rfl⟩ := List.exists_cons_of_length_eq_add_one hl
  have hN := B.hn0
  generalize hvs : v0 :: vl = vs at *
  have hv0 : v0 ∈ vs := by rw [← hvs]; simp
  have hle : ∀ v ∈ vs, time n0 v0 ≤ time n0 v := by
    intro v hv
    rw [← hvs] at hc hv
    rcases List.mem_cons.1 hv with rfl | hv
    · exact le_refl _
    · exact ((List.pairwise_cons.1 hc).1 v hv).2.2
  have rep : ∀ v : Int, v = below n0 v + time n0 v * n0 ∧ 0 ≤ below n0 v ∧ below n0 v < n0 := fun v => by
    have := vertex_rep hn v
    exact this
  let rel : Int → PV := fun v => (below n0 v, time n0 v - time n0 v0)
  have c1 : (vs.map rel).Pairwise (fun p q => p ≠ q ∧ p.1 ≤ q.1 ∧ p.2 ≤ q.2) := by
    rw [List.pairwise_map]
    refine hc.imp ?_
    rintro u v ⟨h1, h2, h3⟩
    refine ⟨?_, h2, by simp only [rel]; omega⟩
    intro e
    simp only [rel, Prod.mk.injEq] at e
    apply h1
    rw [(rep u).1, (rep v).1, e.1, show time n0 u = time n0 v by omega]
  have c2 : ∀ p ∈ vs.map rel, 0 ≤ p.1 ∧ p.1 < m.n 0 ∧ (p.2 = 0 ∨ p.2 = 1) := by
    intro p hp
    obtain ⟨v, hv, rfl⟩ := List.mem_map.1 hp
    have := hle v hv
    have := hth v0 hv0 v hv
    have := rep v
    simp only [rel]
    omega
  have c3 : ∃ a l, vs.map rel = (a, 0) :: l := by
    rw [← hvs]
    exact ⟨below n0 v0, vl.map rel, by simp [rel]⟩
  have c4 : (∀ p ∈ vs.map rel, ∀ q ∈ vs.map rel, p.1 = q.1) ∨ ∃ t ∈ ts, ∀ p ∈ vs.map rel, OnTet p.1 t := by
    rcases hb with h | ⟨t, ht, h⟩
    · left
      intro p hp q hq
      obtain ⟨u, hu, rfl⟩ := List.mem_map.1 hp
      obtain ⟨v, hv, rfl⟩ := List.mem_map.1 hq
      exact h u hu v hv
    · right
      refine ⟨t, ht, ?_⟩
      intro p hp
      obtain ⟨u, hu, rfl⟩ := List.mem_map.1 hp
      exact h u hu
  obtain ⟨ty, i, h⟩ := dec_complete B hd (by simpa using hl) c1 c2 c3 c4
  refine ⟨i + time n0 v0 * n m d, at_ (time n0 v0) (vs.map rel), ⟨ty, i, _, _, h, rfl, rfl⟩, ?_⟩
  unfold at_
  rw [List.map_map, List.map_map]
  conv_lhs => rw [← List.map_id vs]
  apply List.map_congr_left
  intro v _
  simp [enc, rel, hN, ← (rep v).1]

end Verif.X3
