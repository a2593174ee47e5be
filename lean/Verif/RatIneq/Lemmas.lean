import Verif.RatIneq.Model
import Mathlib.Data.List.Nodup
import Mathlib.Data.List.Induction
import Mathlib.Tactic.Linarith

/-!
# Lemmas for the quantised solvers of rational inequalities
-/

namespace Verif.RatIneq

open Verif.Interval Verif.Poly

theorem cancelPair_eq : ∀ p q, cancelPair p q = (p - q, q - p)
  | 0, 0 => rfl
  | 0, q + 1 => by simp [cancelPair]
  | p + 1, 0 => by simp [cancelPair]
  | p + 1, q + 1 => by
    rw [show cancelPair (p + 1) (q + 1) = cancelPair p q from rfl, cancelPair_eq p q]
    simp

theorem fin_inj {a b : ℤ} (h : fin a = fin b) : a = b := by
  unfold fin at h
  exact WithTop.coe_injective (WithBot.coe_injective h)

theorem fin_lt {a b : ℤ} : fin a < fin b ↔ a < b := by
  unfold fin
  rw [WithBot.coe_lt_coe, WithTop.coe_lt_coe]

theorem fin_ne_bot (a : ℤ) : fin a ≠ ⊥ := WithBot.coe_ne_bot

theorem fin_ne_top (a : ℤ) : fin a ≠ ⊤ := by
  intro h
  exact WithTop.coe_ne_top (WithBot.coe_injective h)

theorem toInt_fin (a : ℤ) : toInt (fin a) = a := rfl

theorem cases_E (e : E) : e = ⊥ ∨ e = ⊤ ∨ ∃ z, e = fin z := by
  rcases e with _ | e
  · exact Or.inl rfl
  · rcases e with _ | z
    · exact Or.inr (Or.inl rfl)
    · exact Or.inr (Or.inr ⟨z, rfl⟩)

/-! ### maps of quantised roots -/

theorem lookup_mem {q : List (ℤ × ℕ)} (hn : (q.map Prod.fst).Nodup) {v : ℤ} {m : ℕ} (h : (v, m) ∈ q) : multOf q v = m := by
  unfold multOf
  induction q with
  | nil => simp at h
  | cons a l ih =>
    rw [List.map_cons, List.nodup_cons] at hn
    rw [List.lookup_cons]
    rcases List.mem_cons.1 h with rfl | h'
    · simp
    · have : ¬ v = a.1 := by
        rintro rfl
        exact hn.1 (List.mem_map.2 ⟨(a.1, m), h', rfl⟩)
      rw [show (v == a.1) = false from by simpa using this]
      exact ih hn.2 h'

theorem mult_pos_mem {q : List (ℤ × ℕ)} {v : ℤ} (h : 0 < multOf q v) : (v, multOf q v) ∈ q := by
  unfold multOf at h ⊢
  induction q with
  | nil => simp at h
  | cons a l ih =>
    rw [List.lookup_cons] at h ⊢
    by_cases e : v = a.1
    · rw [show (v == a.1) = true from by simpa using e] at h ⊢
      subst e
      exact List.mem_cons_self
    · rw [show (v == a.1) = false from by simpa using e] at h ⊢
      exact List.mem_cons_of_mem _ (ih h)

theorem assign_spec (v : ℤ) (m : ℕ) : ∀ q : List (ℤ × ℕ), (q.map Prod.fst).Nodup →
    ((assign v m q).map Prod.fst).Nodup ∧ (∀ k, k ∈ (assign v m q).map Prod.fst ↔ k = v ∨ k ∈ q.map Prod.fst) ∧
      ∀ k, multOf (assign v m q) k = if k = v then m else multOf q k
  | [], _ => by
    refine ⟨by simp [assign], by simp [assign], fun k => ?_⟩
    unfold assign multOf
    rw [List.lookup_cons]
    by_cases h : k = v
    · simp [h]
    · rw [show (k == v) = false from by simpa using h]
      simp [h]
  | (a, n) :: l, hn => by
    rw [List.map_cons, List.nodup_cons] at hn
    have ih := assign_spec v m l hn.2
    rw [show assign v m ((a, n) :: l) = (if a = v then (a, m) :: l else (a, n) :: assign v m l) from rfl]
    by_cases h : a = v
    · rw [if_pos h]
      subst h
      refine ⟨by simpa using hn, by simp, fun k => ?_⟩
      unfold multOf
      rw [List.lookup_cons, List.lookup_cons]
      by_cases e : k = a
      · simp [e]
      · rw [show (k == a) = false from by simpa using e]
        simp [e]
    · rw [if_neg h]
      refine ⟨?_, ?_, fun k => ?_⟩
      · rw [List.map_cons, List.nodup_cons]
        refine ⟨?_, ih.1⟩
        intro hm
        rcases (ih.2.1 _).1 hm with e | e
        · exact h e
        · exact hn.1 e
      · intro k
        rw [List.map_cons, List.mem_cons, ih.2.1 k, List.map_cons, List.mem_cons]
        tauto
      · have := ih.2.2 k
        unfold multOf at this ⊢
        rw [List.lookup_cons, List.lookup_cons]
        by_cases e : k = a
        · subst e; simp [h]
        · rw [show (k == a) = false from by simpa using e]
          exact this

section Scalar

variable {K : Type} [Field K] [LinearOrder K] [FloorRing K]

/-- the multiplicity of the last listed root in the cell `v`, 0 when there is none -/
def lastMult (f : K) (roots : List (K × ℕ)) (v : ℤ) : ℕ :=
  ((roots.filter fun kv => decide (quantize f kv.1 = v)).getLast?.map Prod.snd).getD 0

theorem quantMap_spec (f : K) (roots : List (K × ℕ)) :
    ((quantMap f roots).map Prod.fst).Nodup ∧ ∀ v, multOf (quantMap f roots) v = lastMult f roots v := by
  induction roots using List.reverseRecOn with
  | nil => exact ⟨by simp [quantMap], fun v => by simp [quantMap, multOf, lastMult]⟩
  | append_singleton l a ih =>
    have e : quantMap f (l ++ [a]) = assign (quantize f a.1) a.2 (quantMap f l) := by
      unfold quantMap
      rw [List.foldl_append]
      rfl
    rw [e]
    obtain ⟨h1, _, h3⟩ := assign_spec (quantize f a.1) a.2 (quantMap f l) ih.1
    refine ⟨h1, fun v => ?_⟩
    rw [h3 v, ih.2 v]
    unfold lastMult
    rw [List.filter_append]
    by_cases h : v = quantize f a.1
    · rw [if_pos h, List.filter_singleton]
      simp [h]
    · rw [if_neg h, List.filter_singleton]
      simp [show ¬ quantize f a.1 = v from fun e => h e.symm]

end Scalar

theorem mem_live {q : List (ℤ × ℕ)} {v : ℤ} : v ∈ live q ↔ ∃ m, 0 < m ∧ (v, m) ∈ q := by
  unfold live
  rw [List.mem_map]
  constructor
  · rintro ⟨⟨k, m⟩, h, rfl⟩
    rw [List.mem_filter] at h
    exact ⟨m, by simpa using h.2, h.1⟩
  · rintro ⟨m, h, hm⟩
    exact ⟨(v, m), List.mem_filter.2 ⟨hm, by simpa using h⟩, rfl⟩

theorem live_residP {qp qq : List (ℤ × ℕ)} (hn : (qp.map Prod.fst).Nodup) (v : ℤ) :
    v ∈ live (residP qp qq) ↔ multOf qq v < multOf qp v := by
  rw [mem_live]
  unfold residP
  constructor
  · rintro ⟨m, hm, h⟩
    rw [List.mem_map] at h
    obtain ⟨⟨k, n⟩, hk, e⟩ := h
    rw [Prod.mk.injEq, cancelPair_eq] at e
    obtain ⟨e1, e2⟩ := e
    dsimp only at e1 e2
    subst e1
    rw [lookup_mem hn hk]
    omega
  · intro h
    refine ⟨multOf qp v - multOf qq v, by omega, List.mem_map.2 ⟨(v, multOf qp v), mult_pos_mem (by omega), ?_⟩⟩
    rw [cancelPair_eq]

theorem live_residQ {qp qq : List (ℤ × ℕ)} (hn : (qq.map Prod.fst).Nodup) (v : ℤ) :
    v ∈ live (residQ qp qq) ↔ multOf qp v < multOf qq v := by
  rw [mem_live]
  unfold residQ
  constructor
  · rintro ⟨m, hm, h⟩
    rw [List.mem_map] at h
    obtain ⟨⟨k, n⟩, hk, e⟩ := h
    rw [Prod.mk.injEq, cancelPair_eq] at e
    obtain ⟨e1, e2⟩ := e
    dsimp only at e1 e2
    subst e1
    rw [lookup_mem hn hk]
    omega
  · intro h
    refine ⟨multOf qq v - multOf qp v, by omega, List.mem_map.2 ⟨(v, multOf qq v), mult_pos_mem (by omega), ?_⟩⟩
    rw [cancelPair_eq]

/-! ### joining consecutive pieces -/

theorem joinScan_append (ii : Iv E) (m : DI E) : ∀ l : DI E, (∀ k ∈ l, k.overlaps ii = false) →
    joinScan ii (l ++ m) = ((joinScan ii m).1, l ++ (joinScan ii m).2)
  | [], _ => rfl
  | k :: l, h => by
    have ih := joinScan_append ii m l fun j hj => h j (List.mem_cons_of_mem _ hj)
    rw [List.cons_append, show joinScan ii (k :: (l ++ m)) = (if k.overlaps ii then joinScan (ii.join k).2 (l ++ m) else
      ((joinScan ii (l ++ m)).1, k :: (joinScan ii (l ++ m)).2)) from rfl, h k List.mem_cons_self, ih]
    rfl

theorem insertLo_end (i : Iv E) : ∀ l : DI E, (∀ k ∈ l, k.lo < i.lo) → insertLo i l = l ++ [i]
  | [], _ => rfl
  | k :: l, h => by
    have h0 := h k List.mem_cons_self
    rw [show insertLo i (k :: l) = (if i.lo < k.lo then i :: k :: l else if k.lo < i.lo then k :: insertLo i l else k :: l)
      from rfl, if_neg (not_lt.2 h0.le), if_pos h0, insertLo_end i l fun j hj => h j (List.mem_cons_of_mem _ hj)]
    rfl

/-- the state of the loop before the piece that starts at `v` -/
structure LInv (C : List E) (v : E) (d : DI E) : Prop where
  sorted : d.Pairwise fun i j => i.hi ≤ j.lo
  each : ∀ i ∈ d, i.lo < i.hi ∧ i.hi ≤ v ∧ i.lo ∈ C ∧ i.hi ∈ C

/-- strictly inside one of the intervals -/
def Inside (d : DI E) (x : E) : Prop := ∃ i ∈ d, i.lo < x ∧ x < i.hi

theorem not_overlaps {k ii : Iv E} (h : k.hi < ii.lo) : k.overlaps ii = false := by
  unfold Iv.overlaps
  rw [if_pos (Or.inr h)]

theorem djoin_next {C : List E} {v w : E} {d : DI E} (h : LInv C v d) (hvw : v < w) (hv : v ∈ C) (hw : w ∈ C) (ii : Iv E)
    (hlo : ii.lo = v) (hhi : ii.hi = w) :
    LInv C w (djoin d ii) ∧ ∀ x, x ∉ C → (Inside (djoin d ii) x ↔ Inside d x ∨ (v < x ∧ x < w)) := by
  subst hlo hhi
  have he : ii.empty = false := by
    unfold Iv.empty
    rw [if_neg (not_lt.2 hvw.le), if_neg (fun h => absurd h.1 hvw.ne)]
  unfold djoin
  rw [he]
  dsimp only [Bool.false_eq_true, if_false]
  -- a plain insertion at the end
  have plain : LInv C ii.hi (d ++ [ii]) ∧ ∀ x, x ∉ C → (Inside (d ++ [ii]) x ↔ Inside d x ∨ (ii.lo < x ∧ x < ii.hi)) := by
    refine ⟨⟨?_, ?_⟩, fun x _ => ?_⟩
    · rw [List.pairwise_append]
      refine ⟨h.sorted, List.pairwise_singleton _ _, fun a ha b hb => ?_⟩
      rw [List.mem_singleton] at hb
      subst hb
      exact (h.each a ha).2.1
    · intro i hi
      rw [List.mem_append, List.mem_singleton] at hi
      rcases hi with hi | rfl
      · obtain ⟨a, b, c⟩ := h.each i hi
        exact ⟨a, b.trans hvw.le, c⟩
      · exact ⟨hvw, le_refl _, hv, hw⟩
    · unfold Inside
      constructor
      · rintro ⟨i, hi, hx⟩
        rw [List.mem_append, List.mem_singleton] at hi
        rcases hi with hi | rfl
        · exact Or.inl ⟨i, hi, hx⟩
        · exact Or.inr hx
      · rintro (⟨i, hi, hx⟩ | hx)
        · exact ⟨i, List.mem_append_left _ hi, hx⟩
        · exact ⟨ii, List.mem_append_right _ (List.mem_singleton_self _), hx⟩
  have hlt : ∀ k ∈ d, k.lo < ii.lo := fun k hk => lt_of_lt_of_le (h.each k hk).1 (h.each k hk).2.1
  rcases List.eq_nil_or_concat d with rfl | ⟨l, j, rfl⟩
  · exact plain
  · rw [List.concat_eq_append] at *
    have hj := h.each j (by simp)
    have hp := List.pairwise_append.1 h.sorted
    have hl : ∀ k ∈ l, k.hi ≤ j.lo := fun k hk => hp.2.2 k hk j (List.mem_singleton_self _)
    have hno : ∀ k ∈ l, k.overlaps ii = false := fun k hk => not_overlaps (lt_of_le_of_lt (hl k hk) (lt_of_lt_of_le hj.1 hj.2.1))
    rw [joinScan_append ii [j] l hno]
    by_cases ho : j.overlaps ii = true
    · -- merged with the last interval
      have ej : joinScan ii [j] = ((ii.join j).2, []) := by
        show (if j.overlaps ii then joinScan (ii.join j).2 [] else _) = _
        rw [if_pos ho]
        rfl
      have hjv : j.hi = ii.lo := by
        rcases lt_or_eq_of_le hj.2.1 with hlt' | e
        · rw [not_overlaps hlt'] at ho
          exact absurd ho (by simp)
        · exact e
      have hflag : ¬ (j.upperOpen = true ∨ ii.lowerOpen = true) := by
        intro hc
        unfold Iv.overlaps at ho
        rw [if_neg (by rw [not_or]; exact ⟨not_lt.2 (hj.1.trans (hjv ▸ hvw)).le, not_lt.2 hjv.ge⟩), if_pos ⟨hjv, hc⟩] at ho
        exact absurd ho (by simp)
      have ejoin : (ii.join j).2 = { ii with lo := j.lo } := by
        unfold Iv.join
        rw [if_neg (by rw [not_or]; exact ⟨not_lt.2 hjv.ge, not_lt.2 (hj.1.trans (hjv ▸ hvw)).le⟩),
          if_neg (fun hc => absurd hc.1 (hj.1.trans (hjv ▸ hvw)).ne'), if_neg (fun hc => hflag (Or.inr hc.2.1))]
        rw [min_eq_right (hlt j (by simp)).le, max_eq_left (hjv ▸ hvw.le)]
      rw [ej, ejoin]
      dsimp only
      rw [if_neg Bool.false_ne_true, List.append_nil, insertLo_end { ii with lo := j.lo } l (fun k hk => lt_of_lt_of_le (h.each k (by simp [hk])).1 (hl k hk))]
      refine ⟨⟨?_, ?_⟩, fun x hx => ?_⟩
      · rw [List.pairwise_append]
        refine ⟨hp.1, List.pairwise_singleton _ _, fun a ha b hb => ?_⟩
        rw [List.mem_singleton] at hb
        subst hb
        exact hl a ha
      · intro i hi
        rw [List.mem_append, List.mem_singleton] at hi
        rcases hi with hi | rfl
        · obtain ⟨a, b, c⟩ := h.each i (by simp [hi])
          exact ⟨a, b.trans hvw.le, c⟩
        · exact ⟨(hlt j (by simp)).trans hvw, le_refl _, hj.2.2.1, hw⟩
      · unfold Inside
        constructor
        · rintro ⟨i, hi, hx1, hx2⟩
          rw [List.mem_append, List.mem_singleton] at hi
          rcases hi with hi | rfl
          · exact Or.inl ⟨i, by simp [hi], hx1, hx2⟩
          · dsimp only at hx1 hx2
            rcases lt_trichotomy x ii.lo with hc | hc | hc
            · exact Or.inl ⟨j, by simp, hx1, hjv ▸ hc⟩
            · exact absurd (hc ▸ hv) hx
            · exact Or.inr ⟨hc, hx2⟩
        · rintro (⟨i, hi, hx1, hx2⟩ | ⟨hx1, hx2⟩)
          · rw [List.mem_append, List.mem_singleton] at hi
            rcases hi with hi | rfl
            · exact ⟨i, by simp [hi], hx1, hx2⟩
            · exact ⟨_, List.mem_append_right _ (List.mem_singleton_self _), hx1, (hx2.trans_le hj.2.1).trans hvw⟩
          · exact ⟨_, List.mem_append_right _ (List.mem_singleton_self _), (hlt j (by simp)).trans hx1, hx2⟩
    · have ej : joinScan ii [j] = (ii, [j]) := by
        show (if j.overlaps ii then _ else _) = _
        rw [if_neg ho]
        rfl
      rw [ej]
      dsimp only
      rw [insertLo_end ii (l ++ [j]) hlt]
      exact plain

section Loop

variable {K : Type} [Field K] [LinearOrder K] [FloorRing K]

/-- the value at the sample of a piece is nonnegative (NaN is not) -/
def Accepts (sing : List ℤ) (y : ℤ → Option K) (p : E × E) : Prop := ∃ v, y (sample (piece sing p)) = some v ∧ 0 ≤ v

theorem step_spec {C : List E} {v w : E} {d : DI E} (sing : List ℤ) (y : ℤ → Option K) (h : LInv C v d) (hvw : v < w)
    (hv : v ∈ C) (hw : w ∈ C) : LInv C w (pieceStep sing y d (v, w)) ∧
      ∀ x, x ∉ C → (Inside (pieceStep sing y d (v, w)) x ↔ Inside d x ∨ (Accepts sing y (v, w) ∧ v < x ∧ x < w)) := by
  have keep : LInv C w d := ⟨h.sorted, fun i hi => by
    obtain ⟨a, b, c⟩ := h.each i hi
    exact ⟨a, b.trans hvw.le, c⟩⟩
  unfold pieceStep Accepts
  rcases hy : y (sample (piece sing (v, w))) with _ | r
  · exact ⟨keep, fun x _ => by simp⟩
  · dsimp only
    by_cases hr : r ≥ 0
    · rw [if_pos hr]
      obtain ⟨h1, h2⟩ := djoin_next h hvw hv hw (piece sing (v, w)) rfl rfl
      refine ⟨h1, fun x hx => ?_⟩
      rw [h2 x hx]
      have : ∃ u, some r = some u ∧ 0 ≤ u := ⟨r, rfl, hr⟩
      tauto
    · rw [if_neg hr]
      refine ⟨keep, fun x _ => ?_⟩
      have : ¬ ∃ u, some r = some u ∧ 0 ≤ u := by
        rintro ⟨u, hu, h0⟩
        exact hr (Option.some.inj hu ▸ h0)
      constructor
      · exact Or.inl
      · rintro (h0 | ⟨h0, _⟩)
        · exact h0
        · exact absurd h0 this

theorem loop_spec (C : List E) (sing : List ℤ) (y : ℤ → Option K) : ∀ (cs : List E) (v : E) (d : DI E),
    (v :: cs).Pairwise (· < ·) → (∀ c ∈ v :: cs, c ∈ C) → LInv C v d →
    let r := ((v :: cs).zip cs).foldl (pieceStep sing y) d
    (∃ w, LInv C w r) ∧ ∀ x, x ∉ C → (Inside r x ↔ Inside d x ∨
      ∃ p ∈ (v :: cs).zip cs, Accepts sing y p ∧ p.1 < x ∧ x < p.2)
  | [], v, d, _, _, h => by
    refine ⟨⟨v, h⟩, fun x _ => by simp⟩
  | w :: cs, v, d, hs, hC, h => by
    rw [List.pairwise_cons] at hs
    obtain ⟨k1, k2⟩ := step_spec sing y h (hs.1 w List.mem_cons_self) (hC v List.mem_cons_self)
      (hC w (List.mem_cons_of_mem _ List.mem_cons_self))
    obtain ⟨m1, m2⟩ := loop_spec C sing y cs w _ hs.2 (fun c hc => hC c (List.mem_cons_of_mem _ hc)) k1
    rw [List.zip_cons_cons, List.foldl_cons]
    refine ⟨m1, fun x hx => ?_⟩
    rw [m2 x hx, k2 x hx]
    simp only [List.mem_cons, exists_eq_or_imp]
    tauto

theorem contains_inside {i : Iv E} {x : E} (hlt : i.lo < i.hi) (h1 : x ≠ i.lo) (h2 : x ≠ i.hi) :
    i.contains x = true ↔ i.lo < x ∧ x < i.hi := by
  unfold Iv.contains Iv.singleton
  rw [if_neg (by simp [hlt.ne]), if_neg (fun h => h1 h.1), if_neg (fun h => h2 h.1)]
  simp

theorem dcontains_inside {C : List E} {w : E} {d : DI E} (h : LInv C w d) {x : E} (hx : x ∉ C) :
    dcontains d x = true ↔ Inside d x := by
  unfold dcontains Inside
  rw [List.any_eq_true]
  constructor
  · rintro ⟨i, hi, hc⟩
    obtain ⟨a, _, b, c⟩ := h.each i hi
    exact ⟨i, hi, (contains_inside a (fun e => hx (by rw [e]; exact b)) (fun e => hx (by rw [e]; exact c))).1 hc⟩
  · rintro ⟨i, hi, hc⟩
    obtain ⟨a, _, b, c⟩ := h.each i hi
    exact ⟨i, hi, (contains_inside a (fun e => hx (by rw [e]; exact b)) (fun e => hx (by rw [e]; exact c))).2 hc⟩

/-- membership in the result, at every integer that is not a critical value -/
theorem pieceLoop_spec (sing : List ℤ) (y : ℤ → Option K) (cs : List E) (hs : cs.Pairwise (· < ·)) (x : E) (hx : x ∉ cs) :
    dcontains (pieceLoop sing y cs) x = true ↔ ∃ p ∈ cs.zip cs.tail, Accepts sing y p ∧ p.1 < x ∧ x < p.2 := by
  cases cs with
  | nil => simp [pieceLoop, dcontains]
  | cons v cs =>
    obtain ⟨⟨w, h1⟩, h2⟩ := loop_spec (v :: cs) sing y cs v [] hs (fun c hc => hc) ⟨List.Pairwise.nil, by simp⟩
    rw [List.tail_cons]
    unfold pieceLoop
    rw [List.tail_cons, dcontains_inside h1 hx, h2 x hx]
    simp [Inside]

end Loop

/-- a value strictly between the first and the last of a strictly increasing list, and not in it, lies in exactly one gap -/
theorem gap_exists : ∀ (cs : List E) (x : E), x ∉ cs → (∃ a ∈ cs, a < x) → (∃ b ∈ cs, x < b) →
    cs.Pairwise (· < ·) → ∃ p ∈ cs.zip cs.tail, p.1 < x ∧ x < p.2
  | [], x, _, h, _, _ => by simp at h
  | [a], x, _, ⟨u, hu, hux⟩, ⟨b, hb, hxb⟩, _ => by
    rw [List.mem_singleton] at hu hb
    subst hu hb
    exact absurd (hux.trans hxb) (lt_irrefl _)
  | a :: b :: l, x, hx, ⟨u, hu, hux⟩, hb, hs => by
    have hs' := List.pairwise_cons.1 hs
    have hax : a < x := by
      rcases List.mem_cons.1 hu with rfl | hu
      · exact hux
      · exact (hs'.1 u hu).trans hux
    rw [List.tail_cons, List.zip_cons_cons]
    rcases lt_trichotomy x b with hc | hc | hc
    · exact ⟨(a, b), List.mem_cons_self, hax, hc⟩
    · exact absurd (hc ▸ List.mem_cons_of_mem _ List.mem_cons_self) hx
    · obtain ⟨c, hcm, hxc⟩ := hb
      have : c ∈ b :: l := by
        rcases List.mem_cons.1 hcm with rfl | h
        · exact absurd (hax.trans hxc) (lt_irrefl _)
        · exact h
      obtain ⟨p, hp, h1⟩ := gap_exists (b :: l) x (fun h => hx (List.mem_cons_of_mem _ h)) ⟨b, List.mem_cons_self, hc⟩ ⟨c, this, hxc⟩ hs'.2
      exact ⟨p, List.mem_cons_of_mem _ hp, h1⟩

/-- gaps of an increasing list contain no element of the list -/
theorem gap_empty : ∀ (cs : List E), cs.Pairwise (· < ·) → ∀ p ∈ cs.zip cs.tail, p.1 < p.2 ∧ p.1 ∈ cs ∧ p.2 ∈ cs ∧
    ∀ c ∈ cs, c ≤ p.1 ∨ p.2 ≤ c
  | [], _, p, h => by simp at h
  | [a], _, p, h => by simp at h
  | a :: b :: l, hs, p, hp => by
    have hs' := List.pairwise_cons.1 hs
    rw [List.tail_cons, List.zip_cons_cons] at hp
    rcases List.mem_cons.1 hp with rfl | hp
    · refine ⟨hs'.1 b List.mem_cons_self, List.mem_cons_self, List.mem_cons_of_mem _ List.mem_cons_self, fun c hc => ?_⟩
      rcases List.mem_cons.1 hc with rfl | hc
      · exact Or.inl (le_refl _)
      · rcases List.mem_cons.1 hc with rfl | hc
        · exact Or.inr (le_refl _)
        · exact Or.inr ((List.pairwise_cons.1 hs'.2).1 c hc).le
    · obtain ⟨h1, h2, h3, h4⟩ := gap_empty (b :: l) hs'.2 p hp
      refine ⟨h1, List.mem_cons_of_mem _ h2, List.mem_cons_of_mem _ h3, fun c hc => ?_⟩
      rcases List.mem_cons.1 hc with rfl | hc
      · exact Or.inl (hs'.1 p.1 h2).le
      · exact h4 c hc

end Verif.RatIneq
