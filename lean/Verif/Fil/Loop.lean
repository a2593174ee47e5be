import Verif.Fil.Spec
import Verif.Comm.Props
import Verif.Tracker.Trace
import Verif.Graph.Cca
import Verif.XGC.InterpProps
/-! Proofs about the time loop of the filament tracker. -/
namespace Verif.Fil
open Verif.Ser (mapInsert lookup Sorted mapPut)
open Verif.Trk (lookup_some_mem lookup_of_mem)
variable {σ S V P : Type}

theorem mem_related (m : Mesh) (i c : Int) : c ∈ m.related i ↔ CofaceOf m i c := by
  have key : ∀ (l : List Int) (acc : List Int), c ∈ l.foldl (fun acc t => (m.pents t).foldl (fun acc p => setInsert p acc) acc) acc ↔
      c ∈ acc ∨ ∃ t ∈ l, c ∈ m.pents t := by
    intro l
    induction l with
    | nil => simp
    | cons a l ih =>
      intro acc
      rw [List.foldl_cons, ih, Gr.foldl_setInsert_mem]
      simp only [List.mem_cons, exists_eq_or_imp, or_assoc]
  unfold Mesh.related CofaceOf
  rw [key]
  simp

theorem mem_iff_lookup {M : List (Int × P)} (h : Sorted M) {e : Int} {p : P} : (e, p) ∈ M ↔ lookup e M = some p :=
  ⟨lookup_of_mem h, lookup_some_mem⟩

theorem sorted_mapInsert {M : List (Int × P)} (e : Int × P) (h : Sorted M) : Sorted (mapInsert M e) := by
  unfold mapInsert
  split
  · exact h
  · exact Comm.sorted_mapPut _ _ _ h

/-- The visits of a list of new ids. -/
theorem visitAll_spec (g : Prog σ S V P) (chk : Int → Option P) : ∀ (es : List Int) (st : St σ S P), es.Nodup →
    (∀ e ∈ es, g.chk st.sig st.cur st.snaps e = some (chk e)) → Sorted st.found → StrictSorted st.related →
    (∀ e ∈ es, ∀ p, (e, p) ∉ st.found) →
    ∃ st', visitAll g es st = some st' ∧ st'.snaps = st.snaps ∧ st'.cur = st.cur ∧ st'.sig = st.sig ∧ st'.lines = st.lines ∧
      Sorted st'.found ∧ StrictSorted st'.related ∧
      (∀ e p, (e, p) ∈ st'.found ↔ (e, p) ∈ st.found ∨ (e ∈ es ∧ chk e = some p)) ∧
      ∀ c, c ∈ st'.related ↔ c ∈ st.related ∨ ∃ e ∈ es, (∃ p, chk e = some p) ∧ CofaceOf g.m e c
  | [], st, _, _, h1, h2, _ => ⟨st, rfl, rfl, rfl, rfl, rfl, h1, h2, by simp, by simp⟩
  | i :: is, st, hn, h, h1, h2, h3 => by
    obtain ⟨hi, hn'⟩ := List.nodup_cons.1 hn
    have hck := h i (by simp)
    obtain ⟨st1, v1, s1, s2, s3, s4, s5, s6, s7, s8⟩ : ∃ st1, visit g st i = some st1 ∧ st1.snaps = st.snaps ∧
        st1.cur = st.cur ∧ st1.sig = st.sig ∧ st1.lines = st.lines ∧ Sorted st1.found ∧ StrictSorted st1.related ∧
        (∀ e p, (e, p) ∈ st1.found ↔ (e, p) ∈ st.found ∨ (e = i ∧ chk e = some p)) ∧
        ∀ c, c ∈ st1.related ↔ c ∈ st.related ∨ (∃ p, chk i = some p) ∧ CofaceOf g.m i c := by
      unfold visit
      rw [hck]
      cases hp : chk i with
      | none =>
        refine ⟨st, rfl, rfl, rfl, rfl, rfl, h1, h2, fun e p => ?_, fun c => by simp⟩
        constructor
        · exact Or.inl
        · rintro (h' | ⟨rfl, h'⟩)
          · exact h'
          · rw [hp] at h'; cases h'
      | some p0 =>
        refine ⟨_, rfl, rfl, rfl, rfl, rfl, sorted_mapInsert _ h1, Gr.foldl_setInsert_sorted _ _ h2, fun e p => ?_, fun c => ?_⟩
        · have hs : Sorted (mapInsert st.found (i, p0)) := sorted_mapInsert _ h1
          show (e, p) ∈ mapInsert st.found (i, p0) ↔ _
          rw [mem_iff_lookup hs, mem_iff_lookup h1, Comm.lookup_mapInsert]
          by_cases he : e = i
          · subst he
            have : lookup e st.found = none := by
              by_contra hne
              obtain ⟨q, hq⟩ := Option.ne_none_iff_exists'.1 hne
              exact h3 e (by simp) q (lookup_some_mem hq)
            rw [this, hp]; simp
          · simp [he]
        · show c ∈ (g.m.related i).foldl (fun acc c => setInsert c acc) st.related ↔ _
          rw [Gr.foldl_setInsert_mem, mem_related]
          simp
    obtain ⟨st', w, t1, t2, t3, t4, t5, t6, t7, t8⟩ := visitAll_spec g chk is st1 hn' (by
      intro x hx
      rw [s1, s2, s3]
      exact h x (by simp [hx])) s5 s6 (by
      intro e he p hm
      rcases (s7 e p).1 hm with hm | ⟨rfl, -⟩
      · exact h3 e (by simp [he]) p hm
      · exact hi he)
    refine ⟨st', by simp only [visitAll, v1, w], t1.trans s1, t2.trans s2, t3.trans s3, t4.trans s4, t5, t6, fun e p => ?_, fun c => ?_⟩
    · rw [t7, s7, List.mem_cons]
      constructor
      · rintro ((h | ⟨h, h'⟩) | ⟨h, h'⟩)
        · exact Or.inl h
        · exact Or.inr ⟨Or.inl h, h'⟩
        · exact Or.inr ⟨Or.inr h, h'⟩
      · rintro (h | ⟨h | h, h'⟩)
        · exact Or.inl (Or.inl h)
        · exact Or.inl (Or.inr ⟨h, h'⟩)
        · exact Or.inr ⟨h, h'⟩
    · rw [t8, s8]
      simp only [List.mem_cons, exists_eq_or_imp, or_assoc]

theorem mapM_isSome {α β : Type} {f : α → Option β} : ∀ {l : List α}, (∀ x ∈ l, (f x).isSome = true) → ∃ r, l.mapM f = some r
  | [], _ => ⟨[], rfl⟩
  | x :: xs, h => by
    obtain ⟨y, hy⟩ := Option.isSome_iff_exists.1 (h x (by simp))
    obtain ⟨r, hr⟩ := mapM_isSome (l := xs) fun y hy => h y (by simp [hy])
    exact ⟨y :: r, by rw [List.mapM_cons, hy, hr]; rfl⟩

theorem valueAt_append {g : Prog σ S V P} {Q R : List S} {v : Int} (h : v / g.m.n0 < Q.length) :
    valueAt g (Q ++ R) v = valueAt g Q v := by
  unfold valueAt
  by_cases h0 : v / (g.m.n0 : Int) < 0
  · rw [if_pos h0, if_pos h0]
  · rw [if_neg h0, if_neg h0, List.getElem?_append_left (by omega)]

theorem readVertex_eq {g : Prog σ S V P} {Q : List S} {cur : Nat} {v : Int}
    (ht : v / (g.m.n0 : Int) = cur ∨ v / (g.m.n0 : Int) = cur + 1) : g.readVertex (Q.drop cur) cur v = valueAt g Q v := by
  unfold Prog.readVertex valueAt
  have h0 : ¬ v / (g.m.n0 : Int) < 0 := by omega
  rw [if_neg h0]
  rcases ht with ht | ht
  · rw [if_pos ht, List.getElem?_drop, ht]
    simp
  · rw [if_neg (by omega), List.getElem?_drop, ht, show ((cur : Int) + 1).toNat = cur + 1 from by omega]

theorem valueAt_some {g : Prog σ S V P} {Q : List S} {v : Int} (h0 : 0 ≤ v / (g.m.n0 : Int))
    (h1 : v / (g.m.n0 : Int) < Q.length) : (valueAt g Q v).isSome = true := by
  unfold valueAt
  rw [if_neg (by omega), List.getElem?_eq_getElem (by omega)]
  rfl

theorem mapM_mem {α β : Type} {f : α → Option β} : ∀ {l : List α} {r : List β}, l.mapM f = some r → ∀ x ∈ l, (f x).isSome = true
  | [], _, _, x, hx => by simp at hx
  | a :: l, r, h, x, hx => by
    rw [List.mapM_cons] at h
    cases ha : f a with
    | none => rw [ha] at h; cases h
    | some y =>
      cases hl : l.mapM f with
      | none => rw [ha, hl] at h; cases h
      | some ys =>
        rcases List.mem_cons.1 hx with rfl | hx
        · rw [ha]; rfl
        · exact mapM_mem hl x hx

theorem says_append {g : Prog σ S V P} {Q R : List S} {s : σ} {t : Nat} {e : Int} {p : P}
    (h : ∀ v ∈ g.m.tri e, v / (g.m.n0 : Int) < Q.length) : Says g (Q ++ R) s t e p ↔ Says g Q s t e p := by
  unfold Says
  rw [XGC.mapM_congr (fun v hv => valueAt_append (h v hv))]

theorem slot_times {m : Mesh} (L : Layered m) {n t : Nat} {e : Int} (h : Slot m n t e) :
    ∀ v ∈ m.tri e, v / (m.n0 : Int) < n ∧ (v / (m.n0 : Int) = t ∨ v / (m.n0 : Int) = t + 1) := by
  obtain ⟨i, rfl, hi⟩ := h
  intro v hv
  by_cases ho : i < m.no
  · have := L.ordinal t i ho v hv
    rcases hi with hi | hi <;> omega
  · have := L.interval t (i - m.no) (by omega) v (by
      rw [show t * (m.no + m.ni) + m.no + (i - m.no) = t * (m.no + m.ni) + i from by omega]; exact hv)
    rcases hi with hi | hi <;> omega

/-- The check of a triangle whose snapshots are there. -/
theorem chk_eq {g : Prog σ S V P} {Q : List S} {t : Nat} {e : Int} (s : σ)
    (ht : ∀ v ∈ g.m.tri e, v / (g.m.n0 : Int) < Q.length ∧ (v / (g.m.n0 : Int) = t ∨ v / (g.m.n0 : Int) = t + 1)) :
    ∃ o, g.chk s t (Q.drop t) e = some o ∧ ∀ p, o = some p ↔ Says g Q s t e p := by
  obtain ⟨vals, hv⟩ := mapM_isSome (f := valueAt g Q) (l := g.m.tri e) (fun v hv => valueAt_some (by
    have := ht v hv; omega) (ht v hv).1)
  refine ⟨g.test s t e (g.m.tri e) vals, ?_, fun p => ?_⟩
  · unfold Prog.chk
    rw [XGC.mapM_congr (fun v hv => readVertex_eq (Q := Q) (ht v hv).2), hv]
    rfl
  · constructor
    · intro h; exact ⟨vals, hv, h⟩
    · rintro ⟨vals', h1, h2⟩
      obtain rfl := Option.some.inj (hv.symm.trans h1)
      exact h2

/-- Block numbers are determined by the id. -/
theorem slot_block {m : Mesh} {n n' t t' : Nat} {e : Int} (h : Slot m n t e) (h' : Slot m n' t' e) : t = t' := by
  obtain ⟨i, rfl, hi⟩ := h
  obtain ⟨i', he, hi'⟩ := h'
  have h1 : i < m.no + m.ni := by omega
  have h2 : i' < m.no + m.ni := by omega
  have he : t * (m.no + m.ni) + i = t' * (m.no + m.ni) + i' := by exact_mod_cast he
  have a := Nat.add_mul_div_right i t (z := m.no + m.ni) (by omega)
  have b := Nat.add_mul_div_right i' t' (z := m.no + m.ni) (by omega)
  rw [Nat.div_eq_of_lt h1] at a
  rw [Nat.div_eq_of_lt h2] at b
  rw [Nat.add_comm i, he, Nat.add_comm (t' * _), b] at a
  omega

/-- What has been found when the first `cur` timesteps have been processed. -/
structure Inv (g : Prog σ S V P) (s0 : σ) (Q : List S) (cur : Nat) (st : St σ S P) : Prop where
  snaps : st.snaps = Q.drop cur
  curEq : st.cur = cur
  sorted : Sorted st.found
  rsorted : StrictSorted st.related
  lines : st.lines = []
  found : ∀ e p, (e, p) ∈ st.found ↔ ∃ t, t < cur ∧ Slot g.m Q.length t e ∧ Says g Q (scaleAt g s0 Q t) t e p
  related : ∀ c, c ∈ st.related ↔ ∃ e, (∃ p, (e, p) ∈ st.found) ∧ CofaceOf g.m e c

/-- The scaling state before timestep `cur`. -/
def sigBefore (g : Prog σ S V P) (s0 : σ) (Q : List S) : Nat → σ
  | 0 => s0
  | t + 1 => scaleAt g s0 Q t

theorem scaleAt_eq (g : Prog σ S V P) (s0 : σ) (Q : List S) (t : Nat) :
    scaleAt g s0 Q t = g.pre (sigBefore g s0 Q t) ((Q.drop t).take 2) := by
  cases t <;> rfl

theorem nodup_ids {l : List Nat} {n : Nat} (h : l.Perm (List.range n)) (k : Int) : (l.map fun (i : Nat) => (i : Int) + k).Nodup := by
  refine List.Nodup.map ?_ (h.nodup_iff.2 List.nodup_range)
  intro a b hab
  have : (a : Int) + k = b + k := hab
  omega

/-- One `update_timestep`. -/
theorem update_inv {g : Prog σ S V P} (hg : g.ordinalOnly = false) (L : Layered g.m) {s0 : σ} {Q : List S} {cur : Nat} {st : St σ S P}
    (h : Inv g s0 Q cur st) (hs : st.sig = sigBefore g s0 Q cur) (h1 : cur < Q.length) (h2 : Q.length ≤ cur + 2) {ord : Order}
    (ho : Complete g.m ord) :
    ∃ st', update g ord st = some st' ∧ st'.sig = scaleAt g s0 Q cur ∧ st'.snaps = st.snaps ∧ st'.cur = cur ∧ st'.lines = [] ∧
      Sorted st'.found ∧ StrictSorted st'.related ∧
      (∀ e p, (e, p) ∈ st'.found ↔ ∃ t, t < cur + 1 ∧ Slot g.m Q.length t e ∧ Says g Q (scaleAt g s0 Q t) t e p) ∧
      ∀ c, c ∈ st'.related ↔ ∃ e, (∃ p, (e, p) ∈ st'.found) ∧ CofaceOf g.m e c := by
  have htake : (Q.drop cur).take 2 = Q.drop cur := List.take_of_length_le (by rw [List.length_drop]; omega)
  have hsig : g.pre st.sig st.snaps = scaleAt g s0 Q cur := by rw [scaleAt_eq, htake, hs, h.snaps]
  have hold : ∀ e p n, Slot g.m n cur e → (e, p) ∉ st.found := by
    intro e p n he hm
    obtain ⟨t, ht, hsl, -⟩ := (h.found e p).1 hm
    have := slot_block he hsl
    omega
  have f1 : firstIds g st.cur ord.ordinal = ord.ordinal.map fun (i : Nat) => (i : Int) + (cur * g.m.nd : Nat) := by
    unfold firstIds
    rw [h.curEq, hg]
    push_cast
    rfl
  have m1 : ∀ e, e ∈ firstIds g st.cur ord.ordinal ↔ ∃ i : Nat, e = ((cur * (g.m.no + g.m.ni) + i : Nat) : Int) ∧ i < g.m.no := by
    intro e
    rw [f1, List.mem_map]
    constructor
    · rintro ⟨i, hi, rfl⟩
      have := ho.1.mem_iff.1 hi
      rw [List.mem_range] at this
      exact ⟨i, by unfold Mesh.nd; push_cast; omega, this⟩
    · rintro ⟨i, rfl, hi⟩
      exact ⟨i, ho.1.mem_iff.2 (List.mem_range.2 hi), by unfold Mesh.nd; push_cast; omega⟩
  have s1 : ∀ e ∈ firstIds g st.cur ord.ordinal, Slot g.m Q.length cur e := by
    intro e he
    obtain ⟨i, rfl, hi⟩ := (m1 e).1 he
    exact ⟨i, rfl, Or.inl ⟨hi, h1⟩⟩
  -- the first loop
  have hck1 : ∀ e ∈ firstIds g st.cur ord.ordinal, ∃ o, g.chk (scaleAt g s0 Q cur) cur st.snaps e = some o ∧
      ∀ p, o = some p ↔ Says g Q (scaleAt g s0 Q cur) cur e p := by
    intro e he
    rw [h.snaps]
    exact chk_eq _ (slot_times L (s1 e he))
  obtain ⟨st1, v1, v2, v3, v4, v5, v6, v7, v8, v9⟩ := visitAll_spec g
    (fun e => (g.chk (scaleAt g s0 Q cur) cur st.snaps e).getD none) (firstIds g st.cur ord.ordinal)
    { st with sig := g.pre st.sig st.snaps } (by rw [f1]; exact nodup_ids ho.1 _) (by
      intro e he
      obtain ⟨o, o1, -⟩ := hck1 e he
      show g.chk (g.pre st.sig st.snaps) st.cur st.snaps e = _
      rw [hsig, h.curEq, o1]; rfl) h.sorted h.rsorted (fun e he p => hold e p _ (s1 e he))
  have F1 : ∀ e p, (e, p) ∈ st1.found ↔ (e, p) ∈ st.found ∨ (e ∈ firstIds g st.cur ord.ordinal ∧ Says g Q (scaleAt g s0 Q cur) cur e p) := by
    intro e p
    rw [v8]
    refine or_congr Iff.rfl ⟨?_, ?_⟩
    · rintro ⟨he, hc⟩
      obtain ⟨o, o1, o2⟩ := hck1 e he
      rw [o1] at hc
      exact ⟨he, (o2 p).1 hc⟩
    · rintro ⟨he, hc⟩
      obtain ⟨o, o1, o2⟩ := hck1 e he
      exact ⟨he, by rw [o1]; exact (o2 p).2 hc⟩
  have R1 : ∀ c, c ∈ st1.related ↔ ∃ e, (∃ p, (e, p) ∈ st1.found) ∧ CofaceOf g.m e c := by
    intro c
    rw [v9, h.related]
    constructor
    · rintro (⟨e, ⟨p, hp⟩, hc⟩ | ⟨e, he, ⟨p, hp⟩, hc⟩)
      · exact ⟨e, ⟨p, (v8 e p).2 (Or.inl hp)⟩, hc⟩
      · exact ⟨e, ⟨p, (v8 e p).2 (Or.inr ⟨he, hp⟩)⟩, hc⟩
    · rintro ⟨e, ⟨p, hp⟩, hc⟩
      rcases (v8 e p).1 hp with hp | ⟨he, hp⟩
      · exact Or.inl ⟨e, ⟨p, hp⟩, hc⟩
      · exact Or.inr ⟨e, he, ⟨p, hp⟩, hc⟩
  have hcur : st1.cur = cur := v3.trans h.curEq
  have hsn : st1.snaps = st.snaps := v2
  unfold update
  rw [v1]
  simp only [hg, Bool.false_eq_true, if_false]
  by_cases hl : st1.snaps.length ≥ 2
  · rw [if_pos hl]
    rw [hsn, h.snaps, List.length_drop] at hl
    have f2 : secondIds g st1.cur ord.interval = ord.interval.map fun (i : Nat) => (i : Int) + (g.m.no + cur * g.m.nd : Nat) := by
      unfold secondIds
      rw [hcur]
      refine List.map_congr_left fun i _ => ?_
      push_cast
      omega
    have m2 : ∀ e, e ∈ secondIds g st1.cur ord.interval ↔
        ∃ i : Nat, e = ((cur * (g.m.no + g.m.ni) + i : Nat) : Int) ∧ g.m.no ≤ i ∧ i < g.m.no + g.m.ni := by
      intro e
      rw [f2, List.mem_map]
      constructor
      · rintro ⟨i, hi, rfl⟩
        have := ho.2.mem_iff.1 hi
        rw [List.mem_range] at this
        exact ⟨g.m.no + i, by unfold Mesh.nd; push_cast; omega, by omega, by omega⟩
      · rintro ⟨i, rfl, hi, hi'⟩
        exact ⟨i - g.m.no, ho.2.mem_iff.2 (List.mem_range.2 (by omega)), by unfold Mesh.nd; push_cast; omega⟩
    have s2 : ∀ e ∈ secondIds g st1.cur ord.interval, Slot g.m Q.length cur e := by
      intro e he
      obtain ⟨i, rfl, hi, hi'⟩ := (m2 e).1 he
      exact ⟨i, rfl, Or.inr ⟨hi', by omega⟩⟩
    have hck2 : ∀ e ∈ secondIds g st1.cur ord.interval, ∃ o, g.chk (scaleAt g s0 Q cur) cur st.snaps e = some o ∧
        ∀ p, o = some p ↔ Says g Q (scaleAt g s0 Q cur) cur e p := by
      intro e he
      rw [h.snaps]
      exact chk_eq _ (slot_times L (s2 e he))
    obtain ⟨st2, w1, w2, w3, w4, w5, w6, w7, w8, w9⟩ := visitAll_spec g
      (fun e => (g.chk (scaleAt g s0 Q cur) cur st.snaps e).getD none) (secondIds g st1.cur ord.interval) st1
      (by rw [f2]; exact nodup_ids ho.2 _) (by
        intro e he
        obtain ⟨o, o1, -⟩ := hck2 e he
        show g.chk st1.sig st1.cur st1.snaps e = _
        rw [v4, hcur, hsn]
        show g.chk (g.pre st.sig st.snaps) cur st.snaps e = _
        rw [hsig, o1]; rfl) v6 v7 (by
        intro e he p hm
        rcases (F1 e p).1 hm with hm | ⟨hm, -⟩
        · exact hold e p _ (s2 e he) hm
        · obtain ⟨i, rfl, hi, hi'⟩ := (m2 e).1 he
          obtain ⟨j, hj, hj'⟩ := (m1 _).1 hm
          have : cur * (g.m.no + g.m.ni) + i = cur * (g.m.no + g.m.ni) + j := by exact_mod_cast hj
          omega)
    refine ⟨st2, w1, (w4.trans v4).trans hsig, w2.trans hsn, w3.trans hcur, (w5.trans v5).trans h.lines, w6, w7, fun e p => ?_, fun c => ?_⟩
    · rw [w8, F1, h.found]
      constructor
      · rintro ((⟨t, ht, hx⟩ | ⟨he, hx⟩) | ⟨he, hx⟩)
        · exact ⟨t, by omega, hx⟩
        · exact ⟨cur, by omega, s1 e he, hx⟩
        · obtain ⟨o, o1, o2⟩ := hck2 e he
          rw [o1] at hx
          exact ⟨cur, by omega, s2 e he, (o2 p).1 hx⟩
      · rintro ⟨t, ht, hsl, hx⟩
        by_cases htc : t < cur
        · exact Or.inl (Or.inl ⟨t, htc, hsl, hx⟩)
        · obtain rfl : t = cur := by omega
          obtain ⟨i, hi, hi'⟩ := hsl
          by_cases hio : i < g.m.no
          · exact Or.inl (Or.inr ⟨(m1 e).2 ⟨i, hi, hio⟩, hx⟩)
          · have he : e ∈ secondIds g st1.cur ord.interval := (m2 e).2 ⟨i, hi, by omega, by omega⟩
            obtain ⟨o, o1, o2⟩ := hck2 e he
            exact Or.inr ⟨he, by rw [o1]; exact (o2 p).2 hx⟩
    · rw [w9, R1]
      constructor
      · rintro (⟨e, ⟨p, hp⟩, hc⟩ | ⟨e, he, ⟨p, hp⟩, hc⟩)
        · exact ⟨e, ⟨p, (w8 e p).2 (Or.inl hp)⟩, hc⟩
        · exact ⟨e, ⟨p, (w8 e p).2 (Or.inr ⟨he, hp⟩)⟩, hc⟩
      · rintro ⟨e, ⟨p, hp⟩, hc⟩
        rcases (w8 e p).1 hp with hp | ⟨he, hp⟩
        · exact Or.inl ⟨e, ⟨p, hp⟩, hc⟩
        · exact Or.inr ⟨e, he, ⟨p, hp⟩, hc⟩
  · rw [if_neg hl]
    rw [hsn, h.snaps, List.length_drop] at hl
    refine ⟨st1, rfl, v4.trans hsig, hsn, hcur, v5.trans h.lines, v6, v7, fun e p => ?_, R1⟩
    rw [F1, h.found]
    constructor
    · rintro (⟨t, ht, hx⟩ | ⟨he, hx⟩)
      · exact ⟨t, by omega, hx⟩
      · exact ⟨cur, by omega, s1 e he, hx⟩
    · rintro ⟨t, ht, hsl, hx⟩
      by_cases htc : t < cur
      · exact Or.inl ⟨t, htc, hsl, hx⟩
      · obtain rfl : t = cur := by omega
        obtain ⟨i, hi, hi'⟩ := hsl
        exact Or.inr ⟨(m1 e).2 ⟨i, hi, by omega⟩, hx⟩

theorem scaleAt_append (g : Prog σ S V P) (s0 : σ) (Q R : List S) : ∀ t, t + 2 ≤ Q.length →
    scaleAt g s0 (Q ++ R) t = scaleAt g s0 Q t
  | 0, h => by
    unfold scaleAt
    rw [List.take_append_of_le_length (by omega)]
  | t + 1, h => by
    unfold scaleAt
    rw [scaleAt_append g s0 Q R t (by omega), List.drop_append_of_le_length (by omega),
      List.take_append_of_le_length (by rw [List.length_drop]; omega)]

/-- Pushing the next snapshot when all but the last of the present ones have been processed. -/
theorem inv_push {g : Prog σ S V P} (L : Layered g.m) {s0 : σ} {Q : List S} {cur : Nat} {st : St σ S P} (h : Inv g s0 Q cur st)
    (hc : cur + 1 = Q.length) (s : S) : Inv g s0 (Q ++ [s]) cur (push s st) where
  snaps := by
    show st.snaps ++ [s] = _
    rw [h.snaps, List.drop_append_of_le_length (by omega)]
  curEq := h.curEq
  sorted := h.sorted
  rsorted := h.rsorted
  lines := h.lines
  found := by
    intro e p
    rw [show (push s st).found = st.found from rfl, h.found]
    refine exists_congr fun t => and_congr_right fun ht => ?_
    have hsl : Slot g.m (Q ++ [s]).length t e ↔ Slot g.m Q.length t e := by
      unfold Slot
      rw [List.length_append]
      refine exists_congr fun i => and_congr_right fun _ => ?_
      constructor
      · rintro (⟨h1, h2⟩ | ⟨h1, h2⟩)
        · exact Or.inl ⟨h1, by omega⟩
        · exact Or.inr ⟨h1, by omega⟩
      · rintro (⟨h1, h2⟩ | ⟨h1, h2⟩)
        · exact Or.inl ⟨h1, by omega⟩
        · exact Or.inr ⟨h1, by omega⟩
    rw [hsl]
    refine and_congr_right fun hh => ?_
    rw [scaleAt_append _ _ _ _ _ (by omega), says_append fun v hv => (slot_times L hh v hv).1]
  related := h.related

/-- The rest of the series, after at least one snapshot. -/
theorem drive_inv {g : Prog σ S V P} (hg : g.ordinalOnly = false) (L : Layered g.m) (s0 : σ) (ord : Nat → Order)
    (ho : ∀ k, Complete g.m (ord k)) : ∀ (R Q : List S) (k : Nat) (st : St σ S P), R ≠ [] → Inv g s0 Q k st → st.sig = sigBefore g s0 Q k →
    k + 1 = Q.length →
    ∃ st', drive g ord (Q.length + R.length) (k + 1) R st = some st' ∧ st'.lines = [] ∧ Sorted st'.found ∧ StrictSorted st'.related ∧
      (∀ e p, (e, p) ∈ st'.found ↔ ∃ t, t < (Q ++ R).length ∧ Slot g.m (Q ++ R).length t e ∧
        Says g (Q ++ R) (scaleAt g s0 (Q ++ R) t) t e p) ∧
      ∀ c, c ∈ st'.related ↔ ∃ e, (∃ p, (e, p) ∈ st'.found) ∧ CofaceOf g.m e c := by
  intro R
  induction R with
  | nil => intro _ _ _ h; exact absurd rfl h
  | cons s R ih =>
    intro Q k st _ hI hs hk
    have hp := inv_push L hI hk s
    have hs' : (push s st).sig = sigBefore g s0 (Q ++ [s]) k := by
      show st.sig = _
      rw [hs]
      cases k with
      | zero => rfl
      | succ k => exact (scaleAt_append _ _ _ _ _ (by omega)).symm
    obtain ⟨st1, u1, u2, u3, u4, u5, u6, u7, u8, u9⟩ := update_inv hg L hp hs' (by rw [List.length_append]; omega)
      (by rw [List.length_append, List.length_singleton]; omega) (ho k)
    have hadv : advance g (ord k) (push s st) = some { st1 with snaps := st1.snaps.tail, cur := st1.cur + 1 } := by
      unfold advance; rw [u1]
    have hI' : Inv g s0 (Q ++ [s]) (k + 1) { st1 with snaps := st1.snaps.tail, cur := st1.cur + 1 } :=
      { snaps := by
          show st1.snaps.tail = _
          rw [u3, hp.snaps, List.tail_drop]
        curEq := by show st1.cur + 1 = _; rw [u4]
        sorted := u6
        rsorted := u7
        lines := u5
        found := u8
        related := u9 }
    have hlen : (Q ++ [s]).length = k + 2 := by rw [List.length_append, List.length_singleton]; omega
    unfold drive
    rw [if_pos (by omega), Nat.add_sub_cancel, hadv]
    simp only [List.length_cons]
    cases R with
    | nil =>
      rw [if_pos (by simp; omega)]
      obtain ⟨st2, x1, x2, x3, x4, x5, x6, x7, x8, x9⟩ := update_inv hg L hI' (by show st1.sig = _; exact u2) (by omega) (by omega) (ho (k + 1))
      rw [x1]
      refine ⟨st2, rfl, x5, x6, x7, ?_, x9⟩
      intro e p
      rw [x8, hlen]
    | cons s' R' =>
      rw [if_neg (by simp; omega)]
      simp only
      obtain ⟨st2, y1, y2⟩ := ih (Q ++ [s]) (k + 1) _ (by simp) hI' (by show st1.sig = _; exact u2) (by omega)
      rw [List.append_assoc, List.singleton_append] at y2
      refine ⟨st2, ?_, y2⟩
      rw [← y1]
      congr 1
      simp
      omega

end Verif.Fil
