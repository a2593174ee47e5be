import Verif.XBlob.Lemmas
import Verif.XGC.Demo

/-!
# Labels of blobs (C136)
-/

namespace Verif.XBlob

open Relation Verif.UF Verif.XGC Verif.UM Verif.XM

variable {K : Type} [Field K] [LinearOrder K] {g : G} {ls : List (List (Lerp K))} {thr : K}

/-! ### Lemmas -/

theorem total [CharZero K] (hl : Ready g ls) {s : List K} (hlen : (s.length : Int) = g.m.n 0 * g.nphi)
    (i : Int) (h0 : 0 ≤ i) (h1 : i < g.m.n 0 * (g.nphi * g.vphi)) (hv : 0 < g.vphi) : ∃ x, interpolate g ls s i = some x := by
  have hs : Holds (g.m.n 0) g.nphi s (fun q v => s.getD (g.m.n 0 * q + v).toNat 0) := by
    intro q v q0 q1 v0 v1
    have hm : g.m.n 0 * q + g.m.n 0 ≤ g.m.n 0 * g.nphi := by
      have := Int.mul_le_mul_of_nonneg_left (show q + 1 ≤ g.nphi by omega) (show (0 : Int) ≤ g.m.n 0 by omega)
      rw [Int.mul_add] at this; omega
    have hq : 0 ≤ (g.m.n 0 : Int) * q := Int.mul_nonneg (by omega) q0
    unfold at?
    rw [if_neg (by omega)]
    have hlt : (g.m.n 0 * q + v : Int).toNat < s.length := by omega
    dsimp only
    rw [List.getElem?_eq_getElem hlt, List.getD_eq_getElem?_getD, List.getElem?_eq_getElem hlt]
    rfl
  have hn : 0 < (g.m.n 0 : Int) := by
    rcases Nat.eq_zero_or_pos (g.m.n 0) with h | h
    · rw [h] at h1; simp at h1; omega
    · omega
  have hp : 0 ≤ i / (g.m.n 0 : Int) := Int.ediv_nonneg h0 hn.le
  have hp1 : i / (g.m.n 0 : Int) < g.nphi * g.vphi := by apply Int.ediv_lt_of_lt_mul hn; rw [Int.mul_comm]; exact h1
  have hv0 := Int.emod_nonneg i (by omega : (g.m.n 0 : Int) ≠ 0)
  have hv1 := Int.emod_lt_of_pos i hn
  have hi : i = i % (g.m.n 0 : Int) + i / (g.m.n 0 : Int) * g.m.n 0 := by
    have := Int.emod_add_mul_ediv i (g.m.n 0); rw [Int.mul_comm] at this; omega
  generalize i / (g.m.n 0 : Int) = p at *
  generalize i % (g.m.n 0 : Int) = v at *
  have q0 : 0 ≤ p / g.vphi := Int.ediv_nonneg hp hv.le
  have q1 : p / g.vphi < g.nphi := Int.ediv_lt_of_lt_mul hv hp1
  have r0 := Int.emod_nonneg p (by omega : g.vphi ≠ 0)
  have r1 := Int.emod_lt_of_pos p hv
  have e : p = p / g.vphi * g.vphi + p % g.vphi := by
    have := Int.emod_add_mul_ediv p g.vphi; rw [Int.mul_comm] at this; omega
  generalize p / g.vphi = q at *
  generalize p % g.vphi = r at *
  rw [hi, e]
  rcases eq_or_lt_of_le r0 with h | h
  · rw [← h, Int.add_zero]
    exact ⟨_, C134_actual_plane hs hv0 hv1 q0 q1 hv⟩
  · obtain ⟨row, l, a1, a2, a3⟩ := C134_virtual_plane hl hs hv0 hv1 q0 q1 h r1
    exact ⟨_, a3⟩

theorem narrow_eq {x : Int} (h0 : 0 ≤ x) (h1 : x < 2147483648) : narrow x = x := by
  unfold narrow; omega

theorem Q.find {d : Duf Int} {E : Int → Int → Prop} (h : Q d E) {x : Int} {p : Int} (hp : d.par x = some p) :
    ∃ d' r, d.find x = some (d', r) ∧ Q d' E ∧ RootOf d.par x r ∧ ∀ a b, RootOf d.par a b → RootOf d'.par a b := by
  obtain ⟨d', r, e, h1, h2, h3⟩ := DSeq.find h x
  have hx : ∃ y, E x y ∨ E y x := (h.keys x).1 ((h.inv.dom x).2 ⟨p, hp⟩)
  refine ⟨d', r, e, h1.congr ?_ (fun _ _ => Iff.rfl), ?_, h3⟩
  · intro z
    constructor
    · rintro (rfl | h)
      · exact hx
      · exact h
    · exact .inr
  · obtain ⟨r0, hr0⟩ := h.inv.wf.exists_root hp
    rw [h2.unique (h3 _ _ hr0)]
    exact hr0

theorem sliced_spec {n : Int} {t : Nat} (hb : (t + 1) * n ≤ 2147483648) : ∀ (is : List Int) {d : Duf Int} {E : Int → Int → Prop}, Q d E → (∀ i ∈ is, 0 ≤ i ∧ i < n) →
    ∃ d' r, slicedLoop n t d is = some (d', r) ∧ r.length = is.length ∧ ∀ (k : Nat) (i : Int), is[k]? = some i → ∃ l, r[k]? = some l ∧
      ((¬ (∃ y, E (i + t * n) y ∨ E y (i + t * n)) ∧ l = -1) ∨ ((∃ y, E (i + t * n) y ∨ E y (i + t * n)) ∧ RootOf d.par (i + t * n) l))
  | [], d, E, h, _ => ⟨d, [], rfl, rfl, by simp⟩
  | i :: is, d, E, h, hi => by
    obtain ⟨i0, i1⟩ := hi i (by simp)
    have hn : 0 ≤ n := by omega
    have hnum : narrow (i + t * n) = i + t * n := by
      apply narrow_eq
      · have : 0 ≤ (t : Int) * n := Int.mul_nonneg (by omega) hn
        omega
      · rw [Int.add_mul] at hb; omega
    cases hp : d.par (i + t * n) with
    | none =>
      obtain ⟨d', r, e, h1, h2⟩ := sliced_spec hb is h (fun k hk => hi k (by simp [hk]))
      refine ⟨d', -1 :: r, ?_, by simp [h1], ?_⟩
      · simp only [slicedLoop, hnum, hp, e, Option.bind_eq_bind, Option.bind_some]
      · intro k j hk
        cases k with
        | zero =>
          obtain rfl : i = j := by simpa using hk
          refine ⟨-1, rfl, .inl ⟨?_, rfl⟩⟩
          intro hy
          obtain ⟨q, hq⟩ := (h.inv.dom _).1 ((h.keys _).2 hy)
          rw [hp] at hq; cases hq
        | succ k => simpa using h2 k j (by simpa using hk)
    | some p =>
      obtain ⟨d1, l, e1, q1, hr, hpres⟩ := h.find hp
      obtain ⟨d', r, e, h1, h2⟩ := sliced_spec hb is q1 (fun k hk => hi k (by simp [hk]))
      refine ⟨d', l :: r, ?_, by simp [h1], ?_⟩
      · simp only [slicedLoop, hnum, hp, e1, e, Option.bind_eq_bind, Option.bind_some]
      · intro k j hk
        cases k with
        | zero =>
          obtain rfl : i = j := by simpa using hk
          exact ⟨l, rfl, .inr ⟨(h.keys _).1 ((h.inv.dom _).2 ⟨p, hp⟩), hr⟩⟩
        | succ k =>
          obtain ⟨m, m1, m2⟩ := h2 k j (by simpa using hk)
          refine ⟨m, by simpa using m1, ?_⟩
          rcases m2 with m2 | ⟨m2, m3⟩
          · exact .inl m2
          · refine .inr ⟨m2, ?_⟩
            obtain ⟨q, hq⟩ := (h.inv.dom _).1 ((h.keys _).2 m2)
            obtain ⟨r0, hr0⟩ := h.inv.wf.exists_root hq
            rw [m3.unique (hpres _ _ hr0)]
            exact hr0

theorem root_least {d : Duf Int} {E : Int → Int → Prop} (h : Q d E) {x r : Int} (hr : RootOf d.par x r) :
    EqvGen E x r ∧ ∀ y, EqvGen E x y → r ≤ y := by
  refine ⟨h.rep.root_conn hr, ?_⟩
  have hle : ∀ {x y : Int}, RootOf d.par x y → y ≤ x := by
    intro x y hxy
    induction hxy with
    | root _ => exact le_refl _
    | step h1 _ _ ih => exact le_trans ih (h.inv.le _ _ h1)
  intro y hy
  rcases h.rep.conn_root hy with rfl | ⟨r', h1, h2⟩
  · exact hle hr
  · cases hr.unique h1
    exact hle h2

theorem num_inj {n : Int} {p q : Node} (p0 : 0 ≤ p.2) (p1 : p.2 < n) (q0 : 0 ≤ q.2) (q1 : q.2 < n) (h : num n p = num n q) : p = q := by
  unfold num at h
  have hn : 0 < n := by omega
  have a := congrArg (· % n) h
  simp only [Int.add_mul_emod_self_right, Int.emod_eq_of_lt p0 p1, Int.emod_eq_of_lt q0 q1] at a
  have b : (p.1 : Int) * n = q.1 * n := by omega
  have c := Int.eq_of_mul_eq_mul_right (by omega) b
  exact Prod.ext (by omega) a

theorem touch_range {H : List (Op K)} {p q : Node} (h : Touch g ls thr H p q) : (0 ≤ p.2 ∧ p.2 < g.n 0) ∧ 0 ≤ q.2 ∧ q.2 < g.n 0 :=
  ⟨⟨h.1.1, h.1.2.1⟩, h.2.1.1, h.2.1.2.1⟩

theorem conn_num {H : List (Op K)} {x y : Int} (h : EqvGen (E g ls thr H) x y) : x = y ∨ ∃ p q, x = num (g.n 0) p ∧ y = num (g.n 0) q ∧
    (0 ≤ p.2 ∧ p.2 < g.n 0) ∧ (0 ≤ q.2 ∧ q.2 < g.n 0) ∧ SameBlob g ls thr H p q := by
  induction h with
  | rel x y h =>
    obtain ⟨p, q, h, hx, hy⟩ := h
    exact .inr ⟨p, q, hx, hy, (touch_range h).1, (touch_range h).2, .rel _ _ h⟩
  | refl x => exact .inl rfl
  | symm x y _ ih =>
    rcases ih with rfl | ⟨p, q, hx, hy, hp, hq, h⟩
    · exact .inl rfl
    · exact .inr ⟨q, p, hy, hx, hq, hp, .symm _ _ h⟩
  | trans x y z _ _ ih1 ih2 =>
    rcases ih1 with rfl | ⟨p, q, hx, hy, hp, hq, h⟩
    · exact ih2
    · rcases ih2 with rfl | ⟨p', q', hx', hy', hp', hq', h'⟩
      · exact .inr ⟨p, q, hx, hy, hp, hq, h⟩
      · obtain rfl := num_inj hq.1 hq.2 hp'.1 hp'.2 (hy.symm.trans hx')
        exact .inr ⟨p, q', hx, hy', hp, hq', .trans _ _ _ h h'⟩

theorem num_conn {H : List (Op K)} {p q : Node} (h : SameBlob g ls thr H p q) : EqvGen (E g ls thr H) (num (g.n 0) p) (num (g.n 0) q) := by
  induction h with
  | rel p q h => exact .rel _ _ ⟨p, q, h, rfl, rfl⟩
  | refl => exact .refl _
  | symm _ _ _ ih => exact .symm _ _ ih
  | trans _ _ _ _ _ ih1 ih2 => exact .trans _ _ _ ih1 ih2

theorem tied_num {H : List (Op K)} {p : Node} (p0 : 0 ≤ p.2) (p1 : p.2 < g.n 0) :
    (∃ y, E g ls thr H (num (g.n 0) p) y ∨ E g ls thr H y (num (g.n 0) p)) ↔ Tied g ls thr H p := by
  constructor
  · rintro ⟨y, ⟨a, b, h, hx, hy⟩ | ⟨a, b, h, hx, hy⟩⟩
    · obtain rfl := num_inj p0 p1 (touch_range h).1.1 (touch_range h).1.2 hx
      exact ⟨b, .inl h⟩
    · obtain rfl := num_inj p0 p1 (touch_range h).2.1 (touch_range h).2.2 hy
      exact ⟨a, .inr h⟩
  · rintro ⟨q, h | h⟩
    · exact ⟨num (g.n 0) q, .inl ⟨p, q, h, rfl, rfl⟩⟩
    · exact ⟨num (g.n 0) q, .inr ⟨q, p, h, rfl, rfl⟩⟩

/-! ## C136 -/

/-- The setting: a torus built from a valid triangulation, its planes filling the whole circle (`iphi = 1`), the weights
of the virtual planes ready, every snapshot with a value per vertex of the actual planes; the tracker never advances
without a snapshot; and the vertices of all time steps can be numbered in `int`. -/
structure Setting (order : List (Edge × Int) → List (Edge × Int)) (n0 : Nat) (ts : List Tri) (g : G) (ls : List (List (Lerp K))) (H : List (Op K)) : Prop where
  ordered : IsOrder order
  valid : Valid n0 ts
  built : build order n0 ts = some g.m
  pos : 0 < n0
  nphi : 0 < g.nphi
  iphi : g.iphi = 1
  vphi : 0 < g.vphi
  ready : Ready g ls
  full : ∀ s ∈ frames H, (s.length : Int) = n0 * g.nphi
  fed : Fed H
  fits : (frames H).length * g.n 0 ≤ 2147483648

variable {order : List (Edge × Int) → List (Edge × Int)} {n0 : Nat} {ts : List Tri} {H : List (Op K)}

theorem Setting.run [CharZero K] (h : Setting order n0 ts g ls H) (thr : K) : 0 ≤ g.n 0 ∧
    ∃ st, run g ls thr St.init H = some st ∧ st.snaps = (frames H).drop (advances H) ∧ st.cur = advances H ∧ Q st.uf (E g ls thr H) := by
  have B := base_of h.ordered h.valid h.built
  have hp : 0 < g.np := by
    have e : g.np = g.nphi * g.vphi := by unfold G.np; rw [h.iphi, Int.mul_one]
    rw [e]; exact Int.mul_pos h.nphi h.vphi
  have hn0 := n_zero B
  have hn : 0 ≤ g.n 0 := by rw [hn0]; exact Int.mul_nonneg (by omega) hp.le
  refine ⟨hn, run_spec ?_ hn h.fed ?_ h.fits⟩
  · intro i i0 _
    obtain ⟨S, s1, -, s3⟩ := C132_neighbours_partial h.ordered h.valid h.built h.pos hp i i0
    refine ⟨S, s1, fun w hw => ?_⟩
    have := (s3 w hw).1
    rw [hn0]; exact this
  · intro s hs i i0 i1
    have e : g.np = g.nphi * g.vphi := by unfold G.np; rw [h.iphi, Int.mul_one]
    rw [hn0, e] at i1
    have hm : (g.m.n 0 : Int) = n0 := by rw [B.hn0]
    exact total h.ready (by rw [hm]; exact h.full s hs) i i0 (by rw [hm]; exact i1) h.vphi

/-- C136: for every history of snapshots and steps the tracker ends in a defined state, in which the slice of any time
step holds one label per vertex of the mesh: `-1` for a vertex that touches no other, otherwise the number (vertex plus
time step times number of vertices) of the first vertex of space-time in its blob. -/
theorem C136_labels [CharZero K] (h : Setting order n0 ts g ls H) (thr : K) :
    ∃ st, run g ls thr St.init H = some st ∧ ∀ t : Nat, (t + 1) * g.n 0 ≤ 2147483648 →
      ∃ A, getSliced g st t = some A ∧ (A.length : Int) = g.n 0 ∧ ∀ i : Nat, (i : Int) < g.n 0 →
        ∃ l, A[i]? = some l ∧
          (¬ Tied g ls thr H (t, i) → l = -1) ∧
          (Tied g ls thr H (t, i) → ∃ p : Node, SameBlob g ls thr H (t, i) p ∧ Tied g ls thr H p ∧ l = p.2 + p.1 * g.n 0 ∧
            ∀ q, SameBlob g ls thr H (t, i) q → l ≤ q.2 + q.1 * g.n 0) := by
  obtain ⟨hn, st, e, -, -, hq⟩ := h.run thr
  refine ⟨st, e, ?_⟩
  intro t ht
  obtain ⟨d', r, e1, e2, e3⟩ := sliced_spec (n := g.n 0) (t := t) ht (ids (g.n 0)) hq (fun i hi => mem_ids.1 hi)
  have hlen : ((ids (g.n 0)).length : Int) = g.n 0 := by unfold ids; rw [List.length_map, List.length_range]; omega
  refine ⟨r, ?_, by rw [e2, hlen], ?_⟩
  · unfold getSliced; rw [e1]; rfl
  · intro i hi
    have hget : (ids (g.n 0))[i]? = some (i : Int) := by
      unfold ids
      rw [List.getElem?_map, List.getElem?_range (by omega)]; rfl
    obtain ⟨l, hl, hc⟩ := e3 i i hget
    have tn := tied_num (g := g) (ls := ls) (thr := thr) (H := H) (p := (t, (i : Int))) (by simp) hi
    unfold num at tn
    dsimp only at tn
    refine ⟨l, hl, ?_, ?_⟩
    · intro hT
      rcases hc with hc | hc
      · exact hc.2
      · exact absurd (tn.1 hc.1) hT
    · intro hT
      rcases hc with hc | ⟨-, hc⟩
      · exact absurd (tn.2 hT) hc.1
      · obtain ⟨c1, c2⟩ := root_least hq hc
        have hmin : ∀ q, SameBlob g ls thr H (t, (i : Int)) q → l ≤ q.2 + q.1 * g.n 0 := fun q hq' => c2 _ (num_conn hq')
        rcases conn_num c1 with h1 | ⟨p, q, hp, hq', hp', hq'', hs⟩
        · exact ⟨(t, i), .refl _, hT, h1.symm, hmin⟩
        · obtain rfl := num_inj (p := (t, (i : Int))) (q := p) (by simp) hi hp'.1 hp'.2 hp
          refine ⟨q, hs, ?_, hq', hmin⟩
          have hk : ∃ y, E g ls thr H (num (g.n 0) q) y ∨ E g ls thr H y (num (g.n 0) q) := by
            rw [← hq']
            exact (hq.keys l).1 ((hq.inv.dom l).2 ⟨l, hc.isRoot⟩)
          exact (tied_num hq''.1 hq''.2).1 hk

/-- C136: two vertices of space-time, each touching another, have equal labels if and only if they are of the same blob. -/
theorem C136_same_label [CharZero K] (h : Setting order n0 ts g ls H) (thr : K) {st : St K} (hst : run g ls thr St.init H = some st)
    {t t' i j : Nat} {A B : List Int} (hA : getSliced g st t = some A) (hB : getSliced g st t' = some B)
    (ht : (t + 1) * g.n 0 ≤ 2147483648) (ht' : (t' + 1) * g.n 0 ≤ 2147483648) (hi : (i : Int) < g.n 0) (hj : (j : Int) < g.n 0)
    (hp : Tied g ls thr H (t, i)) (hq : Tied g ls thr H (t', j)) :
    A[i]? = B[j]? ↔ SameBlob g ls thr H (t, i) (t', j) := by
  obtain ⟨st', e, hk⟩ := C136_labels h thr
  rw [hst] at e
  obtain rfl := Option.some.inj e
  obtain ⟨A', a1, -, a3⟩ := hk t ht
  obtain ⟨B', b1, -, b3⟩ := hk t' ht'
  rw [hA] at a1; obtain rfl := Option.some.inj a1
  rw [hB] at b1; obtain rfl := Option.some.inj b1
  obtain ⟨l, l1, -, l2⟩ := a3 i hi
  obtain ⟨m, m1, -, m2⟩ := b3 j hj
  obtain ⟨p, p1, p2, p3, p4⟩ := l2 hp
  obtain ⟨q, q1, q2, q3, q4⟩ := m2 hq
  have range : ∀ {p : Node}, Tied g ls thr H p → 0 ≤ p.2 ∧ p.2 < g.n 0 := by
    rintro p ⟨q, h | h⟩
    · exact (touch_range h).1
    · exact (touch_range h).2
  rw [l1, m1]
  constructor
  · intro e
    obtain rfl := Option.some.inj e
    obtain rfl := num_inj (range p2).1 (range p2).2 (range q2).1 (range q2).2 (p3.symm.trans q3)
    exact .trans _ _ _ p1 (.symm _ _ q1)
  · intro hs
    have h1 := p4 q (.trans _ _ _ hs q1)
    have h2 := q4 p (.trans _ _ _ (.symm _ _ hs) p1)
    congr 1
    omega

/-- C136: a vertex below the threshold has no label. -/
theorem C136_dark [CharZero K] (h : Setting order n0 ts g ls H) (thr : K) {st : St K} (hst : run g ls thr St.init H = some st)
    {t i : Nat} {A : List Int} (hA : getSliced g st t = some A) (ht : (t + 1) * g.n 0 ≤ 2147483648) (hi : (i : Int) < g.n 0)
    {s : List K} {x : K} (hs : (frames H)[t]? = some s) (hx : interpolate g ls s i = some x) (hlt : x < thr) : A[i]? = some (-1) := by
  obtain ⟨st', e, hk⟩ := C136_labels h thr
  rw [hst] at e
  obtain rfl := Option.some.inj e
  obtain ⟨A', a1, -, a3⟩ := hk t ht
  rw [hA] at a1; obtain rfl := Option.some.inj a1
  obtain ⟨l, l1, l2, -⟩ := a3 i hi
  rw [l1, l2]
  have dark : ¬ Bright g ls thr H (t, (i : Int)) := by
    rintro ⟨-, -, s', x', h1, h2, h3⟩
    dsimp only at h1 h2
    rw [hs] at h1; obtain rfl := Option.some.inj h1
    rw [hx] at h2; obtain rfl := Option.some.inj h2
    exact absurd hlt (not_lt.2 h3)
  rintro ⟨q, h | h⟩
  · exact dark h.1
  · exact dark h.2.1

end Verif.XBlob
