import Verif.X3Trk.Spec
import Verif.X3Mesh.Props
import Verif.Gen.Loop

/-! What the time loop of the trackers on unstructured 3-D meshes records. -/

namespace Verif.X3T

open Verif.U3 Verif.X3
open Verif.Ser (lookup mapPut Sorted)
open Verif.Trk (lookup_of_mem lookup_some_mem)
open Verif.SRM (Scope)

variable {σ S V P : Type} {n0 : Nat} {ts : List Tet} {m : M3}

/-- A mesh built from valid input, with at least one tetrahedron. -/
structure Geo (n0 : Nat) (ts : List Tet) (m : M3) : Prop where
  valid : Valid n0 ts
  built : build n0 ts = some m
  ne : ts ≠ []

theorem Geo.base (G : Geo n0 ts m) : Base n0 ts m := base_of G.valid G.built

theorem Geo.pos (G : Geo n0 ts m) {d : Nat} (hd : d = 2 ∨ d = 3) : 0 < n m d := by
  obtain ⟨-, h3, h2, -⟩ := n_pos G.base G.ne
  rcases hd with rfl | rfl <;> assumption

theorem Geo.num (G : Geo n0 ts m) : m.n 0 = n0 ∧ 0 < n0 := ⟨G.base.hn0, (n_pos G.base G.ne).2.2.2⟩

/-- What is needed of the element with id `e` of block `t`. -/
structure Facet (n0 : Nat) (m : M3) (d t : Nat) (e : Int) (vs : List Int) : Prop where
  get : getSimplex m d e = some vs
  len : vs.length = d + 1
  times : ∀ v ∈ vs, time n0 v = t ∨ time n0 v = t + 1
  first : ∃ v l, vs = v :: l ∧ time n0 v = t
  flat : ∀ v ∈ vs, flatTime m v = some (time n0 v) ∧ flatId m v = some (below n0 v) ∧ 0 ≤ v
  ord : e ∈ ordinalIds m d t ↔ ∀ v ∈ vs, time n0 v = t

theorem flats (h0 : m.n 0 = n0) (hp : 0 < n0) {v : Int} (hv : 0 ≤ v) :
    flatTime m v = some (time n0 v) ∧ flatId m v = some (below n0 v) ∧ 0 ≤ v := by
  refine ⟨?_, ?_, hv⟩
  · unfold flatTime time
    rw [if_neg (by omega), h0, Int.fdiv_eq_ediv_of_nonneg _ (by omega)]
  · unfold flatId below
    rw [h0]
    exact XM.mod_of_nonneg (by omega) hv

theorem Geo.facet (G : Geo n0 ts m) {d t : Nat} (hd : d = 2 ∨ d = 3) {e : Int} (he : e / n m d = t) (h0 : 0 ≤ e) :
    ∃ vs, Facet n0 m d t e vs := by
  have hN := G.pos hd
  have hd3 : d ≤ 3 := by omega
  obtain ⟨hn, hp⟩ := G.num
  obtain ⟨vs, h1, h2, h3, v, l, h4, h5⟩ := C123_get_simplex_partial G.valid G.built (d := d) (by omega) hN e (.inl h0) (by omega)
  have hO := (C123_ordinal G.valid G.built hd3 e vs (.inl h0) h1).1
  rw [he] at h5 hO
  have hge : ∀ u ∈ vs, (t : Int) ≤ time n0 u := by
    subst h4
    intro u hu
    rcases List.mem_cons.1 hu with rfl | hu
    · omega
    · have := (List.rel_of_pairwise_cons h3.chain hu).2.2
      omega
  have hv : v ∈ vs := by rw [h4]; simp
  have ht : ∀ u ∈ vs, time n0 u = t ∨ time n0 u = t + 1 := by
    intro u hu
    have := hge u hu
    have := h3.thin v hv u hu
    omega
  refine ⟨vs, h1, h2, ht, ⟨v, l, h4, h5⟩, ?_, ?_⟩
  · intro u hu
    refine flats hn hp ?_
    have := hge u hu
    unfold time at this
    by_contra hneg
    have := Int.ediv_neg_of_neg_of_pos (a := u) (b := (n0 : Int)) (by omega) (by omega)
    omega
  · rw [hO]
    constructor
    · intro h u hu
      rw [h u hu v hv, h5]
    · intro h a ha b hb
      rw [h a ha, h b hb]

theorem visitAll_spec (g : Prog σ S V P) (chk : Int → Option P) : ∀ (es : List Int) (st : St σ S P),
    (∀ e ∈ es, g.chk st.sig st.cur st.snaps e = some (chk e)) → Sorted st.found →
    ∃ st', visitAll g es st = some st' ∧ st'.snaps = st.snaps ∧ st'.cur = st.cur ∧ st'.sig = st.sig ∧ Sorted st'.found ∧
      ∀ x, lookup x st'.found = if x ∈ es then (chk x).or (lookup x st.found) else lookup x st.found
  | [], st, _, h1 => ⟨st, rfl, rfl, rfl, rfl, h1, by simp⟩
  | e :: es, st, h, h1 => by
    have hck := h e (by simp)
    obtain ⟨st1, v1, s1, s2, s4, s3, s5⟩ : ∃ st1, visit g st e = some st1 ∧ st1.snaps = st.snaps ∧ st1.cur = st.cur ∧
        st1.sig = st.sig ∧ Sorted st1.found ∧
        ∀ x, lookup x st1.found = if x = e then (chk x).or (lookup x st.found) else lookup x st.found := by
      unfold visit
      rw [hck]
      cases hp : chk e with
      | none =>
        refine ⟨st, rfl, rfl, rfl, rfl, h1, fun x => ?_⟩
        by_cases hx : x = e
        · subst hx; simp [hp]
        · simp [hx]
      | some p =>
        refine ⟨_, rfl, rfl, rfl, rfl, Comm.sorted_mapPut _ _ _ h1, fun x => ?_⟩
        show lookup x (mapPut e p st.found) = _
        rw [Comm.lookup_mapPut]
        by_cases hx : x = e
        · subst hx; simp [hp]
        · simp [hx]
    obtain ⟨st', w, t1, t2, t4, t3, t5⟩ := visitAll_spec g chk es st1 (by
      intro x hx
      rw [s1, s2, s4]
      exact h x (by simp [hx])) s3
    refine ⟨st', by simp only [visitAll, v1, w], t1.trans s1, t2.trans s2, t4.trans s4, t3, fun x => ?_⟩
    rw [t5, s5]
    by_cases hx : x = e
    · subst hx
      by_cases hm : x ∈ es
      · simp only [hm, if_true, List.mem_cons, or_true]
        cases chk x <;> simp
      · simp [hm]
    · simp [hx]

theorem mapAll_congr {α β : Type} {f g : α → Option β} : ∀ {l : List α}, (∀ x ∈ l, f x = g x) → Gen.mapAll f l = Gen.mapAll g l
  | [], _ => rfl
  | x :: xs, h => by
    unfold Gen.mapAll
    rw [h x (by simp), mapAll_congr fun y hy => h y (by simp [hy])]

theorem mapAll_isSome {α β : Type} {f : α → Option β} : ∀ {l : List α}, (∀ x ∈ l, (f x).isSome = true) → ∃ r, Gen.mapAll f l = some r
  | [], _ => ⟨[], rfl⟩
  | x :: xs, h => by
    obtain ⟨y, hy⟩ := Option.isSome_iff_exists.1 (h x (by simp))
    obtain ⟨r, hr⟩ := mapAll_isSome (l := xs) fun y hy => h y (by simp [hy])
    exact ⟨y :: r, by unfold Gen.mapAll; rw [hy, hr]⟩

theorem mapAll_mem {α β : Type} {f : α → Option β} : ∀ {l : List α} {r : List β}, Gen.mapAll f l = some r → ∀ x ∈ l, (f x).isSome = true
  | [], _, _, x, hx => by simp at hx
  | a :: l, r, h, x, hx => by
    unfold Gen.mapAll at h
    cases ha : f a with
    | none => rw [ha] at h; cases h
    | some y =>
      cases hl : Gen.mapAll f l with
      | none => rw [ha, hl] at h; cases h
      | some ys =>
        rcases List.mem_cons.1 hx with rfl | hx
        · rw [ha]; rfl
        · exact mapAll_mem hl x hx

theorem valueAt_append {g : Prog σ S V P} {Q R : List S} {v : Int} (h : time n0 v < Q.length) :
    valueAt g n0 (Q ++ R) v = valueAt g n0 Q v := by
  unfold valueAt
  by_cases h0 : time n0 v < 0
  · rw [if_pos h0, if_pos h0]
  · rw [if_neg h0, if_neg h0, List.getElem?_append_left (by omega)]

theorem readVertex_eq {g : Prog σ S V P} {Q : List S} {cur : Nat} {v : Int}
    (hf : flatTime g.m v = some (time n0 v) ∧ flatId g.m v = some (below n0 v) ∧ 0 ≤ v)
    (ht : time n0 v = cur ∨ time n0 v = cur + 1) : g.readVertex (Q.drop cur) cur v = valueAt g n0 Q v := by
  unfold Prog.readVertex valueAt
  rw [hf.1, hf.2.1, if_neg (by omega)]
  simp only
  rcases ht with ht | ht
  · rw [if_pos ht, List.getElem?_drop, ht]
    simp only [Int.toNat_natCast, Nat.add_zero]
    cases Q[cur]? <;> rfl
  · rw [if_neg (by omega), List.getElem?_drop, ht, show ((cur : Int) + 1).toNat = cur + 1 from by omega]
    cases Q[cur + 1]? <;> rfl

theorem valueAt_some {g : Prog σ S V P} (hp : 0 < n0) {Q : List S} (hQ : ∀ s ∈ Q, Covers g n0 s) {v : Int} (h0 : 0 ≤ time n0 v)
    (h1 : time n0 v < Q.length) : (valueAt g n0 Q v).isSome = true := by
  unfold valueAt
  rw [if_neg (by omega), List.getElem?_eq_getElem (by omega)]
  exact hQ _ (List.getElem_mem _) _ (Int.emod_nonneg _ (by omega)) (Int.emod_lt_of_pos _ (by omega))

theorem valueAt_none {g : Prog σ S V P} {Q : List S} {v : Int} (h : (valueAt g n0 Q v).isSome = true) :
    0 ≤ time n0 v ∧ time n0 v < Q.length := by
  unfold valueAt at h
  by_cases h0 : time n0 v < 0
  · rw [if_pos h0] at h; cases h
  · rw [if_neg h0] at h
    refine ⟨by omega, ?_⟩
    by_contra h1
    rw [List.getElem?_eq_none (by omega)] at h
    cases h

/-- An element's earliest time is its block number. -/
theorem Geo.starts (G : Geo n0 ts m) {g : Prog σ S V P} (hm : g.m = m) (hd : g.d = 2 ∨ g.d = 3) {e : Int} {t : Nat} {vs : List Int} :
    Starts g n0 e t vs ↔ 0 ≤ e ∧ e / n m g.d = t ∧ getSimplex m g.d e = some vs := by
  subst hm
  constructor
  · rintro ⟨h0, h1, h2, u, hu, hut⟩
    refine ⟨h0, ?_, h1⟩
    have hq : 0 ≤ e / n g.m g.d := Int.ediv_nonneg h0 (by have := G.pos hd; omega)
    obtain ⟨vs', F⟩ := G.facet hd (t := (e / n g.m g.d).toNat) (by omega) h0
    obtain rfl := Option.some.inj (F.get.symm.trans h1)
    obtain ⟨v, l, f1, f2⟩ := F.first
    have := h2 v (by rw [f1]; simp)
    rcases F.times u hu with h | h <;> omega
  · rintro ⟨h0, h1, h2⟩
    obtain ⟨vs', F⟩ := G.facet hd h1 h0
    obtain rfl := Option.some.inj (F.get.symm.trans h2)
    obtain ⟨v, l, f1, f2⟩ := F.first
    refine ⟨h0, h2, fun u hu => ?_, v, by rw [f1]; simp, f2⟩
    rcases F.times u hu with h | h <;> omega

/-- The state when the snapshots `Q` have been pushed and the timesteps up to `cur` processed, timestep `t` after
`ks[t]` snapshots. -/
structure Inv (g : Prog σ S V P) (n0 : Nat) (sg : List S → σ) (Q : List S) (ks : List Nat) (st : St σ S P) : Prop where
  le : st.cur ≤ Q.length
  snaps : st.snaps = Q.drop st.cur
  sig : ∃ j, st.cur ≤ j ∧ j ≤ Q.length ∧ st.sig = sg (Q.take j)
  klen : ks.length = st.cur
  kb : ∀ t k, ks[t]? = some k → t + 2 ≤ k ∧ k ≤ Q.length
  sorted : Sorted st.found
  found : ∀ e p, (e, p) ∈ st.found ↔ ∃ t k, ks[t]? = some k ∧ Says g n0 Q (sg (Q.take k)) t e p

theorem mem_iff_lookup {M : List (Int × P)} (h : Sorted M) {e : Int} {p : P} : (e, p) ∈ M ↔ lookup e M = some p :=
  ⟨lookup_of_mem h, lookup_some_mem⟩

theorem says_block (G : Geo n0 ts m) {g : Prog σ S V P} (hm : g.m = m) (hd : g.d = 2 ∨ g.d = 3) {Q : List S} {s : σ} {t : Nat} {e : Int} {p : P}
    (h : Says g n0 Q s t e p) : 0 ≤ e ∧ e / n m g.d = t := by
  obtain ⟨vs, vals, h1, -⟩ := h
  have := (G.starts hm hd).1 h1
  exact ⟨this.1, this.2.1⟩

/-- One scan. -/
theorem scan_spec (G : Geo n0 ts m) {g : Prog σ S V P} (hm : g.m = m) (hd : g.d = 2 ∨ g.d = 3) {Q : List S}
    (hQ : ∀ s ∈ Q, Covers g n0 s) {s : σ} {t : Nat} {es : List Int} (st : St σ S P) (hc : st.cur = t) (hs : st.snaps = Q.drop t)
    (hg : st.sig = s) (hsort : Sorted st.found) (hes : ∀ e ∈ es, 0 ≤ e ∧ e / n m g.d = t)
    (hok : ∀ e ∈ es, t + 2 ≤ Q.length ∨ (e ∈ ordinalIds m g.d t ∧ t < Q.length)) :
    ∃ st', visitAll g es st = some st' ∧ st'.snaps = st.snaps ∧ st'.cur = t ∧ st'.sig = s ∧ Sorted st'.found ∧
      ∀ e p, (e, p) ∈ st'.found ↔ (e ∈ es ∧ Says g n0 Q s t e p) ∨ ((e, p) ∈ st.found ∧ ¬ (e ∈ es ∧ ∃ q, Says g n0 Q s t e q)) := by
  have hp := G.num.2
  subst hm
  have hck : ∀ e ∈ es, ∃ o, g.chk st.sig st.cur st.snaps e = some o ∧ ∀ p, o = some p ↔ Says g n0 Q s t e p := by
    intro e he
    obtain ⟨h0, hb⟩ := hes e he
    obtain ⟨vs, F⟩ := G.facet hd hb h0
    have htime : ∀ v ∈ vs, time n0 v < Q.length := by
      intro v hv
      rcases hok e he with h | ⟨h, h'⟩
      · rcases F.times v hv with h | h <;> omega
      · have := F.ord.1 h v hv; omega
    have hval : ∀ v ∈ vs, (valueAt g n0 Q v).isSome = true := fun v hv =>
      valueAt_some hp hQ (by rcases F.times v hv with h | h <;> omega) (htime v hv)
    obtain ⟨vals, hvals⟩ := mapAll_isSome hval
    refine ⟨g.test s t e vs vals, ?_, fun p => ?_⟩
    · unfold Prog.chk
      rw [F.get]
      simp only
      rw [mapAll_congr (g := valueAt g n0 Q), hvals, hg, hc]
      intro v hv
      rw [hs, hc]
      exact readVertex_eq (F.flat v hv) (F.times v hv)
    · constructor
      · intro h
        exact ⟨vs, vals, (G.starts rfl hd).2 ⟨h0, hb, F.get⟩, hvals, h⟩
      · rintro ⟨vs', vals', h1, h2, h3⟩
        obtain rfl := Option.some.inj (F.get.symm.trans h1.2.1)
        obtain rfl := Option.some.inj (hvals.symm.trans h2)
        exact h3
  obtain ⟨st', v1, v2, v3, v4, v5, v6⟩ := visitAll_spec g (fun e => (g.chk st.sig st.cur st.snaps e).getD none) es st (by
    intro e he
    obtain ⟨o, o1, -⟩ := hck e he
    rw [o1]; rfl) hsort
  refine ⟨st', v1, v2, v3.trans hc, v4.trans hg, v5, fun e p => ?_⟩
  rw [mem_iff_lookup v5, mem_iff_lookup hsort, v6]
  by_cases he : e ∈ es
  · obtain ⟨o, o1, o2⟩ := hck e he
    simp only [he, if_true, o1, Option.getD_some, true_and, ← o2]
    cases o <;> simp
  · simp [he]

/-- One `update_timestep`. -/
theorem update_inv (G : Geo n0 ts m) {g : Prog σ S V P} (hm : g.m = m) (hd : g.d = 2 ∨ g.d = 3) {sg : List S → σ} (hsc : Scales g sg)
    {Q : List S} (hQ : ∀ s ∈ Q, Covers g n0 s) {ks : List Nat} {st : St σ S P} (h : Inv g n0 sg Q ks st) {ord : Order}
    (ho : Complete m g.d st.cur ord) (h1 : st.cur < Q.length) :
    ∃ st', update g ord st = some st' ∧ st'.snaps = st.snaps ∧ st'.cur = st.cur ∧ st'.sig = sg Q ∧ Sorted st'.found ∧
      ∀ e p, (e, p) ∈ st'.found ↔ (e, p) ∈ st.found ∨ Says g n0 Q (sg Q) st.cur e p := by
  have hN := G.pos hd
  obtain ⟨j, j1, j2, j3⟩ := h.sig
  have hsig : g.pre st.sig st.snaps = sg Q := by rw [j3, h.snaps]; exact hsc Q j st.cur j1 j2
  have hmem : ∀ e, (e ∈ ordinalIds m g.d st.cur ∨ e ∈ intervalIds m g.d st.cur) ↔ e / n m g.d = st.cur := fun e => by
    rw [← List.mem_append]
    exact (C123_enumeration_partial (m := m) (d := g.d) (by omega) hN st.cur).2 e
  have hpos : ∀ e, e / n m g.d = (st.cur : Int) → 0 ≤ e := by
    intro e he
    by_contra hneg
    have := Int.ediv_neg_of_neg_of_pos (a := e) (b := n m g.d) (by omega) hN
    omega
  have hold : ∀ e p q, (e, p) ∈ st.found → ¬ Says g n0 Q (sg Q) st.cur e q := by
    intro e p q he hs
    obtain ⟨t, k, hk, hs'⟩ := (h.found e p).1 he
    have b1 := (says_block G hm hd hs').2
    have b2 := (says_block G hm hd hs).2
    have : t < ks.length := by
      by_contra hh
      rw [List.getElem?_eq_none (by omega)] at hk
      cases hk
    have := h.klen
    omega
  obtain ⟨st1, a1, a2, a3, a4, a5, a6⟩ := scan_spec G hm hd hQ (s := sg Q) (t := st.cur) (es := ord .ordinal)
    { st with sig := g.pre st.sig st.snaps } rfl h.snaps hsig h.sorted
    (fun e he => by
      have := (hmem e).1 (.inl (ho.1.mem_iff.1 he))
      exact ⟨hpos e this, this⟩)
    (fun e he => .inr ⟨ho.1.mem_iff.1 he, h1⟩)
  by_cases h2 : 2 ≤ st.snaps.length
  · have hlen : st.cur + 2 ≤ Q.length := by rw [h.snaps, List.length_drop] at h2; omega
    obtain ⟨st2, b1, b2, b3, b4, b5, b6⟩ := scan_spec G hm hd hQ (s := sg Q) (t := st.cur) (es := ord .interval) st1 a3
      (by rw [a2]; exact h.snaps) a4 a5
      (fun e he => by
        have := (hmem e).1 (.inr (ho.2.mem_iff.1 he))
        exact ⟨hpos e this, this⟩)
      (fun e he => .inl hlen)
    refine ⟨st2, ?_, by rw [b2, a2], b3, b4, b5, fun e p => ?_⟩
    · unfold update
      rw [a1]
      simp only
      rw [if_pos (by rw [a2]; exact h2), b1]
    · rw [b6, a6]
      constructor
      · rintro (⟨-, hs⟩ | ⟨⟨-, hs⟩ | ⟨hs, -⟩, -⟩)
        · exact .inr hs
        · exact .inr hs
        · exact .inl hs
      · rintro (hs | hs)
        · refine .inr ⟨.inr ⟨hs, ?_⟩, ?_⟩
          · rintro ⟨-, q, hq⟩; exact hold e p q hs hq
          · rintro ⟨-, q, hq⟩; exact hold e p q hs hq
        · by_cases hi : e ∈ ord .interval
          · exact .inl ⟨hi, hs⟩
          · refine .inr ⟨.inl ⟨?_, hs⟩, fun hh => hi hh.1⟩
            rcases (hmem e).2 (says_block G hm hd hs).2 with hh | hh
            · exact ho.1.mem_iff.2 hh
            · exact absurd (ho.2.mem_iff.2 hh) hi
  · have hlen : Q.length = st.cur + 1 := by rw [h.snaps, List.length_drop] at h2; omega
    refine ⟨st1, ?_, a2, a3, a4, a5, fun e p => ?_⟩
    · unfold update
      rw [a1]
      simp only
      rw [if_neg (by rw [a2]; exact h2)]
    · rw [a6]
      constructor
      · rintro (⟨-, hs⟩ | ⟨hs, -⟩)
        · exact .inr hs
        · exact .inl hs
      · rintro (hs | hs)
        · refine .inr ⟨hs, ?_⟩
          rintro ⟨-, q, hq⟩; exact hold e p q hs hq
        · refine .inl ⟨?_, hs⟩
          obtain ⟨h0, hb⟩ := says_block G hm hd hs
          obtain ⟨vs, F⟩ := G.facet hd hb h0
          refine ho.1.mem_iff.2 (F.ord.2 fun v hv => ?_)
          obtain ⟨vs', vals, q1, q2, -⟩ := hs
          have q1' := q1.2.1
          rw [hm, F.get] at q1'
          obtain rfl := Option.some.inj q1'
          have := (valueAt_none (mapAll_mem q2 v hv)).2
          rcases F.times v hv with hh | hh <;> omega

theorem says_append {g : Prog σ S V P} {Q R : List S} {s : σ} {t : Nat} {e : Int} {p : P} (G : Geo n0 ts m) (hm : g.m = m)
    (hd : g.d = 2 ∨ g.d = 3) (ht : t + 2 ≤ Q.length) : Says g n0 (Q ++ R) s t e p ↔ Says g n0 Q s t e p := by
  refine exists_congr fun vs => exists_congr fun vals => and_congr_right fun hst => ?_
  obtain ⟨h0, hb, hg⟩ := (G.starts hm hd).1 hst
  obtain ⟨vs', F⟩ := G.facet hd hb h0
  obtain rfl := Option.some.inj (F.get.symm.trans hg)
  rw [mapAll_congr (g := valueAt g n0 Q)]
  intro v hv
  exact valueAt_append (by rcases F.times v hv with h | h <;> omega)

theorem inv_push (G : Geo n0 ts m) {g : Prog σ S V P} (hm : g.m = m) (hd : g.d = 2 ∨ g.d = 3) {sg : List S → σ} {Q : List S} {ks : List Nat}
    {st : St σ S P} (h : Inv g n0 sg Q ks st) (s : S) : Inv g n0 sg (Q ++ [s]) ks (push s st) where
  le := by have := h.le; simp only [push, List.length_append, List.length_singleton]; omega
  snaps := by simp [push, h.snaps, List.drop_append_of_le_length h.le]
  sig := by
    obtain ⟨j, j1, j2, j3⟩ := h.sig
    exact ⟨j, j1, by simp only [List.length_append, List.length_singleton]; omega, by
      rw [List.take_append_of_le_length j2]; exact j3⟩
  klen := h.klen
  kb := fun t k hk => by
    have := h.kb t k hk
    simp only [List.length_append, List.length_singleton]; omega
  sorted := h.sorted
  found := fun e p => by
    rw [show (push s st).found = st.found from rfl, h.found]
    refine exists_congr fun t => exists_congr fun k => and_congr_right fun hk => ?_
    obtain ⟨k1, k2⟩ := h.kb t k hk
    rw [List.take_append_of_le_length k2, says_append G hm hd (by omega)]

theorem inv_advance (G : Geo n0 ts m) {g : Prog σ S V P} (hm : g.m = m) (hd : g.d = 2 ∨ g.d = 3) {sg : List S → σ} (hsc : Scales g sg)
    {Q : List S} (hQ : ∀ s ∈ Q, Covers g n0 s) {ks : List Nat} {st : St σ S P} (h : Inv g n0 sg Q ks st) {ord : Order}
    (ho : Complete m g.d st.cur ord) (h2 : 2 ≤ st.snaps.length) :
    ∃ st', advance g ord st = some st' ∧ st'.cur = st.cur + 1 ∧ st'.snaps.length + 1 = st.snaps.length ∧
      Inv g n0 sg Q (ks ++ [Q.length]) st' := by
  have hlen : st.cur + 2 ≤ Q.length := by rw [h.snaps, List.length_drop] at h2; omega
  obtain ⟨st', a1, a2, a3, a4, a5, a6⟩ := update_inv G hm hd hsc hQ h ho (by omega)
  refine ⟨{ st' with snaps := st'.snaps.tail, cur := st'.cur + 1 }, by unfold advance; rw [a1], by simp [a3],
    by simp [a2]; omega, ?_⟩
  have hkt : ∀ (t k : Nat), (ks ++ [Q.length])[t]? = some k ↔ ks[t]? = some k ∨ (t = st.cur ∧ k = Q.length) := by
    intro t k
    rw [← h.klen]
    rcases lt_trichotomy t ks.length with hlt | rfl | hgt
    · rw [List.getElem?_append_left hlt]
      constructor
      · exact .inl
      · rintro (h | ⟨h, -⟩)
        · exact h
        · omega
    · simp [eq_comm]
    · rw [List.getElem?_eq_none (by simp; omega), List.getElem?_eq_none (by omega)]
      simp; omega
  refine ⟨by simp only [a3]; omega, ?_, ⟨Q.length, by simp only [a3]; omega, by omega, by simp [a4]⟩, by simp [h.klen, a3], ?_, a5, ?_⟩
  · simp only [a2, a3, h.snaps, List.tail_drop]
  · intro t k hk
    rcases (hkt t k).1 hk with hk | ⟨rfl, rfl⟩
    · exact h.kb t k hk
    · omega
  · intro e p
    rw [a6, h.found]
    constructor
    · rintro (⟨t, k, hk, hs⟩ | hs)
      · exact ⟨t, k, (hkt t k).2 (.inl hk), hs⟩
      · exact ⟨st.cur, Q.length, (hkt _ _).2 (.inr ⟨rfl, rfl⟩), by simpa using hs⟩
    · rintro ⟨t, k, hk, hs⟩
      rcases (hkt t k).1 hk with hk | ⟨rfl, rfl⟩
      · exact .inl ⟨t, k, hk, hs⟩
      · exact .inr (by simpa using hs)

theorem run_append (g : Prog σ S V P) : ∀ (a b : List (Op S)) (st : St σ S P), run g (a ++ b) st = (run g a st).bind (run g b)
  | [], _, _ => rfl
  | o :: os, b, st => by
    simp only [List.cons_append, run]
    cases step g st o with
    | none => rfl
    | some st' => exact run_append g os b st'

theorem run_ahead (G : Geo n0 ts m) {g : Prog σ S V P} (hm : g.m = m) (hd : g.d = 2 ∨ g.d = 3) {sg : List S → σ} (hsc : Scales g sg) :
    ∀ (os : List (Op S)) (Q : List S) (ks : List Nat) (st : St σ S P), Inv g n0 sg Q ks st → (∀ s ∈ Q, Covers g n0 s) →
    (∀ s ∈ pushes os, Covers g n0 s) → AllComplete m g.d st.cur os → Ahead st.snaps.length os →
    ∃ st', run g os st = some st' ∧ Inv g n0 sg (Q ++ pushes os) (ks ++ seen Q.length os) st'
  | [], Q, ks, st, h, _, _, _, _ => ⟨st, rfl, by simpa [pushes, seen] using h⟩
  | .push s :: os, Q, ks, st, h, hQ, hp, hcm, ha => by
    obtain ⟨st', e, i⟩ := run_ahead G hm hd hsc os (Q ++ [s]) ks (push s st) (inv_push G hm hd h s)
      (by intro s' hs'; rcases List.mem_append.1 hs' with h1 | h1
          · exact hQ _ h1
          · simp only [List.mem_singleton] at h1; subst h1; exact hp s' (by simp [pushes]))
      (fun s' hs' => hp s' (by simp [pushes, hs'])) hcm
      (by have : (push s st).snaps.length = st.snaps.length + 1 := by simp [push]
          rw [this]; exact ha)
    refine ⟨st', by simp only [run, step, e], ?_⟩
    simpa [pushes, seen] using i
  | .advance ord :: os, Q, ks, st, h, hQ, hp, hcm, ha => by
    obtain ⟨st1, e1, hcur, hl, i1⟩ := inv_advance G hm hd hsc hQ h hcm.1 ha.1
    obtain ⟨st', e, i⟩ := run_ahead G hm hd hsc os Q _ st1 i1 hQ (fun s' hs' => hp s' (by simpa [pushes] using hs'))
      (by rw [hcur]; exact hcm.2) (by have := ha.2; rwa [show st1.snaps.length = st.snaps.length - 1 from by omega])
    refine ⟨st', by simp only [run, step, e1, e], ?_⟩
    simpa [pushes, seen] using i
  | .pushField s :: os, Q, ks, st, h, hQ, hp, hcm, ha => absurd ha id
  | .update ord :: os, Q, ks, st, h, hQ, hp, hcm, ha => absurd ha id

theorem inv_init (g : Prog σ S V P) (n0 : Nat) (sg : List S → σ) : Inv g n0 sg [] [] (St.init (sg [])) where
  le := by simp [St.init]
  snaps := by simp [St.init]
  sig := ⟨0, by simp [St.init], by simp, by simp [St.init]⟩
  klen := rfl
  kb := by simp
  sorted := List.Pairwise.nil
  found := by simp [St.init]

/-- Every push pattern, then a final `update_timestep`. -/
theorem run_all (G : Geo n0 ts m) {g : Prog σ S V P} (hm : g.m = m) (hd : g.d = 2 ∨ g.d = 3) {sg : List S → σ} (hsc : Scales g sg)
    (os : List (Op S)) (ord : Order) (hT : (seen 0 os).length + 1 = (pushes os).length) (hah : Ahead 0 os)
    (hcov : ∀ s ∈ pushes os, Covers g n0 s) (hcm : AllComplete m g.d 0 (os ++ [.update ord])) :
    ∃ st, run g (os ++ [.update ord]) (St.init (sg [])) = some st ∧ Sorted st.found ∧
      ∀ e p, (e, p) ∈ st.found ↔ ∃ t k, (seen 0 os ++ [(pushes os).length])[t]? = some k ∧
        Says g n0 (pushes os) (sg ((pushes os).take k)) t e p := by
  have hsplit : ∀ (l : List (Op S)) (j t : Nat), Ahead j l → AllComplete m g.d t (l ++ [Op.update ord]) → AllComplete m g.d t l ∧
      Complete m g.d (t + (seen 0 l).length) ord ∧ ∀ a, (seen a l).length = (seen 0 l).length := by
    intro l
    induction l with
    | nil => intro j t _ h; exact ⟨trivial, h.1, fun _ => rfl⟩
    | cons o l ih =>
      intro j t ha h
      cases o with
      | push s =>
        obtain ⟨i1, i2, i3⟩ := ih (j + 1) t ha h
        refine ⟨i1, by simp only [seen]; rw [i3]; exact i2, fun a => by simp only [seen]; rw [i3, i3 (0 + 1)]⟩
      | pushField s => exact absurd ha id
      | advance o =>
        obtain ⟨i1, i2, i3⟩ := ih (j - 1) (t + 1) ha.2 h.2
        refine ⟨⟨h.1, i1⟩, by simp only [seen, List.length_cons]; rw [show t + ((seen 0 l).length + 1) = t + 1 + (seen 0 l).length from by omega]; exact i2,
          fun a => by simp only [seen, List.length_cons]; rw [i3]⟩
      | update o => exact absurd ha id
  obtain ⟨c1, c2, -⟩ := hsplit os 0 0 hah hcm
  obtain ⟨st, e, i⟩ := run_ahead G hm hd hsc os [] [] (St.init (sg [])) (inv_init g n0 sg) (by simp) hcov c1 hah
  simp only [List.nil_append, List.length_nil] at i
  have hcur : st.cur = (seen 0 os).length := i.klen.symm
  obtain ⟨st', a1, a2, a3, a4, a5, a6⟩ := update_inv G hm hd hsc hcov i (ord := ord) (by rw [hcur]; simpa using c2) (by omega)
  refine ⟨st', by rw [run_append, e]; simp only [Option.bind_some, run, step, a1], a5, fun e p => ?_⟩
  have hlt : ∀ t k, (seen 0 os)[t]? = some k → t < (seen 0 os).length := fun t k hk => by
    by_contra hh
    rw [List.getElem?_eq_none (by omega)] at hk
    cases hk
  rw [a6, i.found]
  constructor
  · rintro (⟨t, k, hk, hs⟩ | hs)
    · exact ⟨t, k, by rw [List.getElem?_append_left (hlt t k hk)]; exact hk, hs⟩
    · exact ⟨st.cur, (pushes os).length, by rw [hcur]; simp, by simpa using hs⟩
  · rintro ⟨t, k, hk, hs⟩
    rcases lt_trichotomy t (seen 0 os).length with h | h | h
    · rw [List.getElem?_append_left h] at hk
      exact .inl ⟨t, k, hk, hs⟩
    · subst h
      simp at hk
      subst hk
      exact .inr (by rw [hcur]; simpa using hs)
    · rw [List.getElem?_eq_none (by simp; omega)] at hk
      cases hk

end Verif.X3T
