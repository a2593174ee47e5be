import Verif.XBlob.Spec
import Verif.UnionFind.Refine
import Mathlib.Data.List.Induction

/-!
# Lemmas for the blob tracker
-/

namespace Verif.XBlob

open Relation Verif.UF Verif.XGC

variable {K : Type} [Field K] [LinearOrder K] {g : G} {ls : List (List (Lerp K))} {thr : K}

/-! ### The loops -/

/-- (proof device) `d` represents exactly the pairs `E`. -/
def Q (d : Duf Int) (E : Int → Int → Prop) : Prop := DSeq d (fun x => ∃ y, E x y ∨ E y x) E

theorem Q.congr {d : Duf Int} {E E' : Int → Int → Prop} (h : Q d E) (hE : ∀ x y, E x y ↔ E' x y) : Q d E' := by
  have : E = E' := funext fun x => funext fun y => propext (hE x y)
  rwa [← this]

theorem Q.unite {d : Duf Int} {E : Int → Int → Prop} (h : Q d E) (a b : Int) :
    ∃ d', d.unite a b = some d' ∧ Q d' (fun x y => E x y ∨ (x = a ∧ y = b)) := by
  obtain ⟨d', e, h'⟩ := DSeq.unite h a b
  refine ⟨d', e, h'.congr ?_ (fun _ _ => Iff.rfl)⟩
  intro x
  constructor
  · rintro (rfl | rfl | ⟨y, h | h⟩)
    · exact ⟨b, .inl (.inr ⟨rfl, rfl⟩)⟩
    · exact ⟨a, .inr (.inr ⟨rfl, rfl⟩)⟩
    · exact ⟨y, .inl (.inl h)⟩
    · exact ⟨y, .inr (.inl h)⟩
  · rintro ⟨y, (h | ⟨rfl, rfl⟩) | (h | ⟨rfl, rfl⟩)⟩
    · exact .inr (.inr ⟨y, .inl h⟩)
    · exact .inl rfl
    · exact .inr (.inr ⟨y, .inr h⟩)
    · exact .inr (.inl rfl)

theorem Q.init : Q Duf.init (fun _ _ => False) := ⟨DInv.init, by simp [Duf.init], by simp⟩

theorem code_eq {n : Int} {t : Nat} {i : Int} (h : i + t * n < 2147483648) : code n t i = some (i + t * n) := by
  unfold code; rw [if_pos h]

/-- (proof device) the value at `i` is at least `thr`. -/
def Br (val : Int → Option K) (thr : K) (i : Int) : Prop := ∃ x, val i = some x ∧ thr ≤ x

theorem br_iff {val : Int → Option K} {i : Int} {x : K} (h : val i = some x) : Br val thr i ↔ thr ≤ x := by
  constructor
  · rintro ⟨y, h1, h2⟩; rw [h] at h1; obtain rfl := Option.some.inj h1; exact h2
  · intro h2; exact ⟨x, h, h2⟩

theorem inner_spec {val : Int → Option K} {n : Int} {t : Nat} {ei : Int} : ∀ (js : List Int) {d : Duf Int} {E : Int → Int → Prop}, Q d E →
    (∀ j ∈ js, (∃ x, val j = some x) ∧ j + t * n < 2147483648) →
    ∃ d', inner val thr n t ei d js = some d' ∧ Q d' (fun x y => E x y ∨ (x = ei ∧ ∃ j ∈ js, Br val thr j ∧ y = j + t * n))
  | [], d, E, h, _ => ⟨d, rfl, h.congr (by simp)⟩
  | j :: js, d, E, h, hj => by
    obtain ⟨⟨x, hx⟩, hb⟩ := hj j (by simp)
    have hb' := br_iff (thr := thr) hx
    by_cases ht : thr ≤ x
    · obtain ⟨d1, e1, h1⟩ := h.unite ei (j + t * n)
      obtain ⟨d', e2, h2⟩ := inner_spec (ei := ei) js h1 (fun k hk => hj k (by simp [hk]))
      refine ⟨d', ?_, h2.congr ?_⟩
      · simp only [inner, hx, Option.bind_eq_bind, Option.bind_some, if_pos ht, code_eq hb, e1, e2]
      · intro x y
        simp only [List.mem_cons, exists_eq_or_imp, hb', ht, true_and]
        constructor
        · rintro ((h | ⟨h, h'⟩) | ⟨h, h'⟩)
          · exact .inl h
          · exact .inr ⟨h, .inl h'⟩
          · exact .inr ⟨h, .inr h'⟩
        · rintro (h | ⟨h, h' | h'⟩)
          · exact .inl (.inl h)
          · exact .inl (.inr ⟨h, h'⟩)
          · exact .inr ⟨h, h'⟩
    · obtain ⟨d', e2, h2⟩ := inner_spec (ei := ei) js h (fun k hk => hj k (by simp [hk]))
      refine ⟨d', ?_, h2.congr ?_⟩
      · rw [inner, hx, Option.bind_eq_bind, Option.bind_some, if_neg ht, e2]
      · intro x y
        simp only [List.mem_cons, exists_eq_or_imp, hb', ht, false_and, false_or]

theorem within_spec {val : Int → Option K} {t : Nat} (hS : ∀ i, 0 ≤ i → i < g.n 0 → ∃ S, g.vertexEdgeVertex i = some S ∧ ∀ w ∈ S, 0 ≤ w ∧ w < g.n 0)
    (hval : ∀ i, 0 ≤ i → i < g.n 0 → ∃ x, val i = some x) (hb : (t + 1) * g.n 0 ≤ 2147483648) :
    ∀ (is : List Int) {d : Duf Int} {E : Int → Int → Prop}, Q d E → (∀ i ∈ is, 0 ≤ i ∧ i < g.n 0) →
    ∃ d', within g val thr t d is = some d' ∧ Q d' (fun x y => E x y ∨ ∃ i ∈ is, Br val thr i ∧ x = i + t * g.n 0 ∧
      ∃ j, Near g i j ∧ Br val thr j ∧ y = j + t * g.n 0)
  | [], d, E, h, _ => ⟨d, rfl, h.congr (by simp)⟩
  | i :: is, d, E, h, hi => by
    obtain ⟨i0, i1⟩ := hi i (by simp)
    have hb2 : ∀ j, j < g.n 0 → j + t * g.n 0 < 2147483648 := fun j hj => by
      rw [Int.add_mul] at hb; omega
    obtain ⟨x, hx⟩ := hval i i0 i1
    obtain ⟨S, s1, s2⟩ := hS i i0 i1
    have hb' := br_iff (thr := thr) hx
    have near : ∀ j, Near g i j ↔ j ∈ S := fun j => by
      constructor
      · rintro ⟨S', a, b⟩; rw [s1] at a; obtain rfl := Option.some.inj a; exact b
      · intro h; exact ⟨S, s1, h⟩
    by_cases ht : thr ≤ x
    · obtain ⟨d1, e1, h1⟩ := inner_spec (val := val) (thr := thr) (n := g.n 0) (t := t) (ei := i + t * g.n 0) S h
        (fun j hj => ⟨hval j (s2 j hj).1 (s2 j hj).2, hb2 j (s2 j hj).2⟩)
      obtain ⟨d', e2, h2⟩ := within_spec hS hval hb is h1 (fun k hk => hi k (by simp [hk]))
      refine ⟨d', ?_, h2.congr ?_⟩
      · simp only [within, hx, Option.bind_eq_bind, Option.bind_some, if_neg (not_lt.2 ht), code_eq (hb2 i i1), s1, e1, e2]
      · intro x y
        simp only [List.mem_cons, exists_eq_or_imp, hb', ht, true_and, near]
        constructor
        · rintro ((h | ⟨h, h'⟩) | h)
          · exact .inl h
          · exact .inr (.inl ⟨h, h'⟩)
          · exact .inr (.inr h)
        · rintro (h | (⟨h, h'⟩ | h))
          · exact .inl (.inl h)
          · exact .inl (.inr ⟨h, h'⟩)
          · exact .inr h
    · obtain ⟨d', e2, h2⟩ := within_spec hS hval hb is h (fun k hk => hi k (by simp [hk]))
      refine ⟨d', ?_, h2.congr ?_⟩
      · rw [within, hx, Option.bind_eq_bind, Option.bind_some, if_pos (not_le.1 ht), e2]
      · intro x y
        simp only [List.mem_cons, exists_eq_or_imp, hb', ht, false_and, false_or]

theorem across_spec {n : Int} {val val1 : Int → Option K} {t : Nat}
    (hval : ∀ i, 0 ≤ i → i < n → ∃ x, val i = some x) (hval1 : ∀ i, 0 ≤ i → i < n → ∃ x, val1 i = some x) (hb : (t + 2) * n ≤ 2147483648) :
    ∀ (is : List Int) {d : Duf Int} {E : Int → Int → Prop}, Q d E → (∀ i ∈ is, 0 ≤ i ∧ i < n) →
    ∃ d', across n val val1 thr t d is = some d' ∧ Q d' (fun x y => E x y ∨ ∃ i ∈ is, (Br val thr i ∧ Br val1 thr i) ∧ x = i + t * n ∧
      y = i + ((t + 1 : Nat) : Int) * n)
  | [], d, E, h, _ => ⟨d, rfl, h.congr (by simp)⟩
  | i :: is, d, E, h, hi => by
    obtain ⟨i0, i1⟩ := hi i (by simp)
    have hn : 0 ≤ n := by omega
    have hc0 : i + t * n < 2147483648 := by rw [Int.add_mul] at hb; omega
    have hc1 : i + ((t + 1 : Nat) : Int) * n < 2147483648 := by push_cast; rw [Int.add_mul] at hb ⊢; omega
    obtain ⟨x, hx⟩ := hval i i0 i1
    obtain ⟨y, hy⟩ := hval1 i i0 i1
    have hb' := br_iff (thr := thr) hx
    have hb1 := br_iff (thr := thr) hy
    by_cases ht : thr ≤ x
    · by_cases hu : thr ≤ y
      · obtain ⟨d1, e1, h1⟩ := h.unite (i + t * n) (i + ((t + 1 : Nat) : Int) * n)
        obtain ⟨d', e2, h2⟩ := across_spec hval hval1 hb is h1 (fun k hk => hi k (by simp [hk]))
        refine ⟨d', ?_, h2.congr ?_⟩
        · simp only [across, hx, Option.bind_eq_bind, Option.bind_some, if_neg (not_lt.2 ht), hy, if_neg (not_lt.2 hu), code_eq hc0, code_eq hc1, e1, e2]
        · intro a b
          simp only [List.mem_cons, exists_eq_or_imp, hb', hb1, ht, hu, true_and]
          constructor
          · rintro ((h | ⟨h, h'⟩) | h)
            · exact .inl h
            · exact .inr (.inl ⟨h, h'⟩)
            · exact .inr (.inr h)
          · rintro (h | (⟨h, h'⟩ | h))
            · exact .inl (.inl h)
            · exact .inl (.inr ⟨h, h'⟩)
            · exact .inr h
      · obtain ⟨d', e2, h2⟩ := across_spec hval hval1 hb is h (fun k hk => hi k (by simp [hk]))
        refine ⟨d', ?_, h2.congr ?_⟩
        · simp only [across, hx, Option.bind_eq_bind, Option.bind_some, if_neg (not_lt.2 ht), hy, if_pos (not_le.1 hu), e2]
        · intro a b
          simp only [List.mem_cons, exists_eq_or_imp, hb', hb1, hu, and_false, false_and, false_or]
    · obtain ⟨d', e2, h2⟩ := across_spec hval hval1 hb is h (fun k hk => hi k (by simp [hk]))
      refine ⟨d', ?_, h2.congr ?_⟩
      · rw [across, hx, Option.bind_eq_bind, Option.bind_some, if_pos (not_le.1 ht), e2]
      · intro a b
        simp only [List.mem_cons, exists_eq_or_imp, hb', ht, false_and, false_or]

theorem mem_ids {n i : Int} : i ∈ ids n ↔ 0 ≤ i ∧ i < n := by
  unfold ids
  simp only [List.mem_map, List.mem_range]
  constructor
  · rintro ⟨k, h, rfl⟩; omega
  · intro h; exact ⟨i.toNat, by omega, by omega⟩

/-! ### Histories -/

theorem frames_append : ∀ a b : List (Op K), frames (a ++ b) = frames a ++ frames b
  | [], b => rfl
  | .push s :: a, b => by rw [List.cons_append, frames, frames, frames_append a b, List.cons_append]
  | .advance :: a, b => by rw [List.cons_append, frames, frames, frames_append a b]

theorem advances_append : ∀ a b : List (Op K), advances (a ++ b) = advances a + advances b
  | [], b => by simp [advances]
  | .push s :: a, b => by rw [List.cons_append, advances, advances, advances_append a b]
  | .advance :: a, b => by rw [List.cons_append, advances, advances, advances_append a b]; omega

theorem run_append : ∀ (a b : List (Op K)) (st : St K), run g ls thr st (a ++ b) = (run g ls thr st a).bind fun st' => run g ls thr st' b
  | [], b, st => rfl
  | o :: a, b, st => by
    rw [List.cons_append, run, run]
    cases h : step g ls thr st o with
    | none => rfl
    | some st' => exact run_append a b st'

theorem joined_snoc_push {H : List (Op K)} {s : List K} {t : Nat} : Joined (H ++ [.push s]) t ↔ Joined H t := by
  constructor
  · rintro ⟨pre, suf, h1, h2, h3⟩
    rcases List.eq_nil_or_concat suf with rfl | ⟨suf, o, rfl⟩
    · have := List.append_inj_right' h1 rfl
      simp at this
    · rw [List.concat_eq_append, ← List.cons_append, ← List.append_assoc] at h1
      exact ⟨pre, suf, List.append_inj_left' h1 rfl, h2, h3⟩
  · rintro ⟨pre, suf, rfl, h2, h3⟩
    exact ⟨pre, suf ++ [.push s], by simp, h2, h3⟩

theorem joined_snoc_advance {H : List (Op K)} {t : Nat} :
    Joined (H ++ [.advance]) t ↔ Joined H t ∨ (t = advances H ∧ t + 2 ≤ (frames H).length) := by
  constructor
  · rintro ⟨pre, suf, h1, h2, h3⟩
    rcases List.eq_nil_or_concat suf with rfl | ⟨suf, o, rfl⟩
    · have := List.append_inj_left' h1 rfl
      subst this
      exact .inr ⟨h2.symm, h3⟩
    · rw [List.concat_eq_append, ← List.cons_append, ← List.append_assoc] at h1
      exact .inl ⟨pre, suf, List.append_inj_left' h1 rfl, h2, h3⟩
  · rintro (⟨pre, suf, rfl, h2, h3⟩ | ⟨h2, h3⟩)
    · exact ⟨pre, suf ++ [.advance], by simp, h2, h3⟩
    · exact ⟨H, [], rfl, h2.symm, h3⟩

theorem joined_lt {H : List (Op K)} {t : Nat} (h : Joined H t) : t + 2 ≤ (frames H).length := by
  obtain ⟨pre, suf, rfl, h2, h3⟩ := h
  rw [frames_append, List.length_append]; omega

theorem fed_snoc {H : List (Op K)} {o : Op K} (h : Fed (H ++ [o])) : Fed H := by
  rintro pre suf rfl
  exact h pre (suf ++ [o]) (by simp)

theorem fed_le : ∀ {H : List (Op K)}, Fed H → advances H ≤ (frames H).length := by
  intro H
  induction H using List.reverseRecOn with
  | nil => intro _; simp [advances]
  | append_singleton H o ih =>
    intro h
    have := ih (fed_snoc h)
    rw [frames_append, advances_append, List.length_append]
    cases o with
    | push s => simp only [advances, frames, List.length_cons, List.length_nil]; omega
    | advance =>
      have := h H [] rfl
      simp only [advances, frames, List.length_nil]; omega

theorem bright_snoc {H : List (Op K)} {o : Op K} {p : Node} (h : p.1 < (frames H).length) :
    Bright g ls thr (H ++ [o]) p ↔ Bright g ls thr H p := by
  unfold Bright
  rw [frames_append, List.getElem?_append_left h]

theorem touch_snoc_push {H : List (Op K)} (hf : Fed H) {s : List K} {p q : Node} :
    Touch g ls thr (H ++ [.push s]) p q ↔ Touch g ls thr H p q := by
  have hle := fed_le hf
  have ha : advances (H ++ [Op.push s]) = advances H := by rw [advances_append]; rfl
  unfold Touch
  rw [joined_snoc_push, ha]
  constructor
  · rintro ⟨a, b, h⟩
    rcases h with ⟨h1, h2, h3⟩ | ⟨h1, h2, h3⟩
    · rw [bright_snoc (by omega)] at a b; exact ⟨a, b, .inl ⟨h1, h2, h3⟩⟩
    · have := joined_lt h3
      rw [bright_snoc (by omega)] at a b; exact ⟨a, b, .inr ⟨h1, h2, h3⟩⟩
  · rintro ⟨a, b, h⟩
    rcases h with ⟨h1, h2, h3⟩ | ⟨h1, h2, h3⟩
    · refine ⟨(bright_snoc (by omega)).2 a, (bright_snoc (by omega)).2 b, .inl ⟨h1, h2, h3⟩⟩
    · have := joined_lt h3
      refine ⟨(bright_snoc (by omega)).2 a, (bright_snoc (by omega)).2 b, .inr ⟨h1, h2, h3⟩⟩

theorem touch_snoc_advance {H : List (Op K)} {p q : Node} :
    Touch g ls thr (H ++ [.advance]) p q ↔ Touch g ls thr H p q ∨ (Bright g ls thr H p ∧ Bright g ls thr H q ∧ p.1 = advances H ∧
      ((q.1 = p.1 ∧ Near g p.2 q.2) ∨ (q.1 = p.1 + 1 ∧ q.2 = p.2 ∧ p.1 + 2 ≤ (frames H).length))) := by
  have ha : advances (H ++ [Op.advance]) = advances H + 1 := by rw [advances_append]; rfl
  have hb : ∀ p, Bright g ls thr (H ++ [.advance]) p ↔ Bright g ls thr H p := fun p => by
    unfold Bright; rw [frames_append]; simp [frames]
  unfold Touch
  rw [joined_snoc_advance, ha, hb, hb]
  constructor
  · rintro ⟨a, b, ⟨h1, h2, h3⟩ | ⟨h1, h2, h3 | h3⟩⟩
    · by_cases h : p.1 < advances H
      · exact .inl ⟨a, b, .inl ⟨h1, h, h3⟩⟩
      · exact .inr ⟨a, b, by omega, .inl ⟨h1, h3⟩⟩
    · exact .inl ⟨a, b, .inr ⟨h1, h2, h3⟩⟩
    · exact .inr ⟨a, b, h3.1, .inr ⟨h1, h2, h3.2⟩⟩
  · rintro (⟨a, b, ⟨h1, h2, h3⟩ | ⟨h1, h2, h3⟩⟩ | ⟨a, b, h0, ⟨h1, h3⟩ | ⟨h1, h2, h3⟩⟩)
    · exact ⟨a, b, .inl ⟨h1, by omega, h3⟩⟩
    · exact ⟨a, b, .inr ⟨h1, h2, .inl h3⟩⟩
    · exact ⟨a, b, .inl ⟨h1, by omega, h3⟩⟩
    · exact ⟨a, b, .inr ⟨h1, h2, .inr ⟨h0, h3⟩⟩⟩

/-- (proof device) the number of a vertex of space-time. -/
def num (n : Int) (p : Node) : Int := p.2 + p.1 * n

/-- (proof device) the pairs of numbers of vertices that touch. -/
def E (g : G) (ls : List (List (Lerp K))) (thr : K) (H : List (Op K)) (x y : Int) : Prop :=
  ∃ p q, Touch g ls thr H p q ∧ x = num (g.n 0) p ∧ y = num (g.n 0) q

/-- Every snapshot can be evaluated at every vertex of the mesh. -/
def Complete (g : G) (ls : List (List (Lerp K))) (H : List (Op K)) : Prop :=
  ∀ s ∈ frames H, ∀ i, 0 ≤ i → i < g.n 0 → ∃ x, interpolate g ls s i = some x

theorem bright_br {H : List (Op K)} {s : List K} {t : Nat} (h : (frames H)[t]? = some s) {i : Int} (h0 : 0 ≤ i) (h1 : i < g.n 0) :
    Bright g ls thr H (t, i) ↔ Br (interpolate g ls s) thr i := by
  constructor
  · rintro ⟨-, -, s', x, a, b, c⟩
    dsimp only at a
    rw [h] at a; obtain rfl := Option.some.inj a; exact ⟨x, b, c⟩
  · rintro ⟨x, b, c⟩; exact ⟨h0, h1, s, x, h, b, c⟩

theorem E_within {H : List (Op K)} (hS : ∀ i, 0 ≤ i → i < g.n 0 → ∃ S, g.vertexEdgeVertex i = some S ∧ ∀ w ∈ S, 0 ≤ w ∧ w < g.n 0)
    {s : List K} (hs : (frames H)[advances H]? = some s) (x y : Int) :
    (∃ i ∈ ids (g.n 0), Br (interpolate g ls s) thr i ∧ x = i + advances H * g.n 0 ∧ ∃ j, Near g i j ∧ Br (interpolate g ls s) thr j ∧ y = j + advances H * g.n 0) ↔
    ∃ p q, (Bright g ls thr H p ∧ Bright g ls thr H q ∧ p.1 = advances H ∧ q.1 = p.1 ∧ Near g p.2 q.2) ∧ x = num (g.n 0) p ∧ y = num (g.n 0) q := by
  constructor
  · rintro ⟨i, hi, a, rfl, j, b, c, rfl⟩
    rw [mem_ids] at hi
    obtain ⟨S, s1, s2⟩ := hS i hi.1 hi.2
    have hj : 0 ≤ j ∧ j < g.n 0 := by
      obtain ⟨S', a, b⟩ := b; rw [s1] at a; obtain rfl := Option.some.inj a; exact s2 j b
    exact ⟨(advances H, i), (advances H, j), ⟨(bright_br hs hi.1 hi.2).2 a, (bright_br hs hj.1 hj.2).2 c, rfl, rfl, b⟩, rfl, rfl⟩
  · rintro ⟨⟨t, i⟩, ⟨t', j⟩, ⟨a, b, h1, h2, h3⟩, rfl, rfl⟩
    dsimp only at h1 h2 h3
    obtain rfl : t = advances H := h1
    obtain rfl : t' = advances H := h2
    exact ⟨i, mem_ids.2 ⟨a.1, a.2.1⟩, (bright_br hs a.1 a.2.1).1 a, rfl, j, h3, (bright_br hs b.1 b.2.1).1 b, rfl⟩

theorem E_across {H : List (Op K)} {s s1 : List K} (hs : (frames H)[advances H]? = some s) (hs1 : (frames H)[advances H + 1]? = some s1) (x y : Int) :
    (∃ i ∈ ids (g.n 0), (Br (interpolate g ls s) thr i ∧ Br (interpolate g ls s1) thr i) ∧ x = i + advances H * g.n 0 ∧
      y = i + ((advances H + 1 : Nat) : Int) * g.n 0) ↔
    ∃ p q, (Bright g ls thr H p ∧ Bright g ls thr H q ∧ p.1 = advances H ∧ q.1 = p.1 + 1 ∧ q.2 = p.2) ∧ x = num (g.n 0) p ∧ y = num (g.n 0) q := by
  constructor
  · rintro ⟨i, hi, ⟨a, b⟩, rfl, rfl⟩
    rw [mem_ids] at hi
    exact ⟨(advances H, i), (advances H + 1, i), ⟨(bright_br hs hi.1 hi.2).2 a, (bright_br hs1 hi.1 hi.2).2 b, rfl, rfl, rfl⟩, rfl, rfl⟩
  · rintro ⟨⟨t, i⟩, ⟨t', j⟩, ⟨a, b, h1, h2, h3⟩, rfl, rfl⟩
    dsimp only at h1 h2 h3
    obtain rfl : t = advances H := h1
    obtain rfl : t' = advances H + 1 := h2
    obtain rfl : j = i := h3
    exact ⟨j, mem_ids.2 ⟨a.1, a.2.1⟩, ⟨(bright_br hs a.1 a.2.1).1 a, (bright_br hs1 b.1 b.2.1).1 b⟩, rfl, rfl⟩

theorem run_spec (hS : ∀ i, 0 ≤ i → i < g.n 0 → ∃ S, g.vertexEdgeVertex i = some S ∧ ∀ w ∈ S, 0 ≤ w ∧ w < g.n 0) (hn : 0 ≤ g.n 0) :
    ∀ {H : List (Op K)}, Fed H → Complete g ls H → (frames H).length * g.n 0 ≤ 2147483648 →
    ∃ st, run g ls thr St.init H = some st ∧ st.snaps = (frames H).drop (advances H) ∧ st.cur = advances H ∧ Q st.uf (E g ls thr H) := by
  intro H
  induction H using List.reverseRecOn with
  | nil =>
    intro _ _ _
    refine ⟨St.init, rfl, rfl, rfl, Q.init.congr ?_⟩
    intro x y
    constructor
    · exact False.elim
    · rintro ⟨p, q, ⟨⟨_, _, s, _, h, _⟩, _⟩, _⟩; simp [frames] at h
  | append_singleton H o ih =>
    intro hf hc hb
    have hf' := fed_snoc hf
    have hle : (frames H).length ≤ (frames (H ++ [o])).length := by rw [frames_append, List.length_append]; omega
    have hc' : Complete g ls H := fun s hs => hc s (by rw [frames_append, List.mem_append]; exact .inl hs)
    obtain ⟨st, e, k1, k2, k3⟩ := ih hf' hc' (Int.le_trans (Int.mul_le_mul_of_nonneg_right (by omega) hn) hb)
    rw [run_append, e, Option.bind_some, run]
    have hal := fed_le hf'
    cases o with
    | push s =>
      refine ⟨⟨st.snaps ++ [s], st.cur, st.uf⟩, rfl, ?_, ?_, k3.congr ?_⟩
      · rw [frames_append, advances_append]
        simp only [frames, advances, Nat.add_zero]
        rw [List.drop_append_of_le_length hal, k1]
      · rw [advances_append]; simpa [advances] using k2
      · intro x y
        unfold E
        simp only [touch_snoc_push hf']
    | advance =>
      have hlt := hf H [] rfl
      have hfr : frames (H ++ [Op.advance]) = frames H := by rw [frames_append]; simp [frames]
      have hav : advances (H ++ [Op.advance]) = advances H + 1 := by rw [advances_append]; rfl
      rw [hfr] at hb
      obtain ⟨s, hs⟩ : ∃ s, (frames H)[advances H]? = some s := ⟨_, List.getElem?_eq_getElem hlt⟩
      have hmem : s ∈ frames H := List.mem_of_getElem? hs
      have hb1 : ((advances H : Int) + 1) * g.n 0 ≤ 2147483648 :=
        Int.le_trans (Int.mul_le_mul_of_nonneg_right (by omega) hn) hb
      obtain ⟨d1, e1, h1⟩ := within_spec (g := g) (thr := thr) (t := advances H) hS (hc' s hmem) hb1 (ids (g.n 0)) k3 (fun i hi => mem_ids.1 hi)
      have h1' := h1.congr (fun x y => or_congr_right (E_within (thr := thr) hS hs x y))
      have hd : st.snaps = s :: (frames H).drop (advances H + 1) := by
        rw [k1, List.drop_eq_getElem_cons hlt]
        rw [List.getElem?_eq_getElem hlt] at hs
        obtain rfl := Option.some.inj hs
        rfl
      by_cases h2 : advances H + 1 < (frames H).length
      · obtain ⟨s1, hs1⟩ : ∃ s, (frames H)[advances H + 1]? = some s := ⟨_, List.getElem?_eq_getElem h2⟩
        have hmem1 : s1 ∈ frames H := List.mem_of_getElem? hs1
        have hd1 : (frames H).drop (advances H + 1) = s1 :: (frames H).drop (advances H + 2) := by
          rw [List.drop_eq_getElem_cons h2]
          rw [List.getElem?_eq_getElem h2] at hs1
          obtain rfl := Option.some.inj hs1
          rfl
        have hb2 : ((advances H : Int) + 2) * g.n 0 ≤ 2147483648 :=
          Int.le_trans (Int.mul_le_mul_of_nonneg_right (by omega) hn) hb
        obtain ⟨d2, e2, h3⟩ := across_spec (thr := thr) (t := advances H) (hc' s hmem) (hc' s1 hmem1) hb2 (ids (g.n 0)) h1' (fun i hi => mem_ids.1 hi)
        have h3' := h3.congr (fun x y => or_congr_right (E_across (thr := thr) hs hs1 x y))
        refine ⟨⟨st.snaps.drop 1, st.cur + 1, d2⟩, ?_, ?_, ?_, h3'.congr ?_⟩
        · unfold step update
          rw [hd, hd1]
          simp only [k2, e1, e2, Option.bind_eq_bind, Option.bind_some, List.drop_succ_cons, List.drop_zero]
          rfl
        · rw [hfr, hav, hd]; rfl
        · rw [hav]; simp only [k2]
        · intro x y
          unfold E
          simp only [touch_snoc_advance]
          constructor
          · rintro ((⟨p, q, h, hx, hy⟩ | ⟨p, q, ⟨a, b, c, d, e⟩, hx, hy⟩) | ⟨p, q, ⟨a, b, c, d, e⟩, hx, hy⟩)
            · exact ⟨p, q, .inl h, hx, hy⟩
            · exact ⟨p, q, .inr ⟨a, b, c, .inl ⟨d, e⟩⟩, hx, hy⟩
            · exact ⟨p, q, .inr ⟨a, b, c, .inr ⟨d, e, by omega⟩⟩, hx, hy⟩
          · rintro ⟨p, q, h | ⟨a, b, c, ⟨d, e⟩ | ⟨d, e, -⟩⟩, hx, hy⟩
            · exact .inl (.inl ⟨p, q, h, hx, hy⟩)
            · exact .inl (.inr ⟨p, q, ⟨a, b, c, d, e⟩, hx, hy⟩)
            · exact .inr ⟨p, q, ⟨a, b, c, d, e⟩, hx, hy⟩
      · have hd1 : (frames H).drop (advances H + 1) = [] := List.drop_eq_nil_iff.2 (by omega)
        refine ⟨⟨st.snaps.drop 1, st.cur + 1, d1⟩, ?_, ?_, ?_, h1'.congr ?_⟩
        · unfold step update
          rw [hd, hd1]
          simp only [k2, e1, Option.bind_eq_bind, Option.bind_some, List.drop_succ_cons, List.drop_zero]
          rfl
        · rw [hfr, hav, hd]; rfl
        · rw [hav]; simp only [k2]
        · intro x y
          unfold E
          simp only [touch_snoc_advance]
          constructor
          · rintro (⟨p, q, h, hx, hy⟩ | ⟨p, q, ⟨a, b, c, d, e⟩, hx, hy⟩)
            · exact ⟨p, q, .inl h, hx, hy⟩
            · exact ⟨p, q, .inr ⟨a, b, c, .inl ⟨d, e⟩⟩, hx, hy⟩
          · rintro ⟨p, q, h | ⟨a, b, c, ⟨d, e⟩ | ⟨d, e, f⟩⟩, hx, hy⟩
            · exact .inl ⟨p, q, h, hx, hy⟩
            · exact .inr ⟨p, q, ⟨a, b, c, d, e⟩, hx, hy⟩
            · omega

end Verif.XBlob
