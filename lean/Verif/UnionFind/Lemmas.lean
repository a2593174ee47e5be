import Verif.UnionFind.Model
import Mathlib.Logic.Relation
set_option linter.unusedSectionVars false
/-! Lemmas on parent forests. -/
namespace Verif.UF
open Relation

section Forest
variable {α : Type} [DecidableEq α]

/-- `r` is the root reached from `i` by following parents. -/
inductive RootOf (P : α → Option α) : α → α → Prop
  | root {r} : P r = some r → RootOf P r r
  | step {i p r} : P i = some p → p ≠ i → RootOf P p r → RootOf P i r

/-- strictly decreasing along non-trivial parent links -/
def Ranked (P : α → Option α) (rk : α → Nat) : Prop :=
  ∀ i p, P i = some p → p ≠ i → rk p < rk i

/-- (proof device) the parent relation is a forest: every present node has a root. -/
structure WF (P : α → Option α) : Prop where
  closed : ∀ i p, P i = some p → ∃ q, P p = some q
  rank : ∃ rk : α → Nat, Ranked P rk

theorem RootOf.isRoot {P : α → Option α} {i r : α} (h : RootOf P i r) : P r = some r := by
  induction h with
  | root h => exact h
  | step _ _ _ ih => exact ih

theorem RootOf.dom {P : α → Option α} {i r : α} (h : RootOf P i r) : ∃ p, P i = some p := by
  cases h with
  | root h => exact ⟨_, h⟩
  | step h _ _ => exact ⟨_, h⟩

theorem RootOf.unique {P : α → Option α} {i r r' : α} (h : RootOf P i r) (h' : RootOf P i r') :
    r = r' := by
  induction h with
  | root h =>
    cases h' with
    | root _ => rfl
    | step h1 h2 _ => rw [h] at h1; exact absurd (Option.some.inj h1).symm h2
  | step h1 h2 _ ih =>
    cases h' with
    | root h => rw [h] at h1; exact absurd (Option.some.inj h1).symm h2
    | step h3 h4 h5 =>
      rw [h1] at h3
      cases Option.some.inj h3
      exact ih h5

theorem WF.exists_root {P : α → Option α} (w : WF P) {i p : α} (h : P i = some p) :
    ∃ r, RootOf P i r := by
  obtain ⟨rk, hrk⟩ := w.rank
  generalize hn : rk i = n
  induction n using Nat.strongRecOn generalizing i p with
  | ind n ih =>
    by_cases hp : p = i
    · subst hp; exact ⟨p, .root h⟩
    · obtain ⟨q, hq⟩ := w.closed i p h
      obtain ⟨r, hr⟩ := ih (rk p) (hn ▸ hrk i p h hp) hq rfl
      exact ⟨r, .step h hp hr⟩

theorem put_same {β} (P : α → Option β) (k : α) (v : β) : put P k v k = some v := by simp [put]
theorem put_ne {β} (P : α → Option β) {k x : α} (v : β) (h : x ≠ k) : put P k v x = P x := by
  simp [put, h]

/-- Re-pointing `i` to a strictly lower-ranked node of the same tree changes nothing. -/
theorem repoint {P : α → Option α} {rk : α → Nat} (w : WF P) (hrk : Ranked P rk) {i q r : α}
    (hi : RootOf P i r) (hq : RootOf P q r) (hlt : q = i ∨ rk q < rk i)
    (hroot : q = i → P i = some i) :
    WF (put P i q) ∧ Ranked (put P i q) rk ∧
      (∀ x y, RootOf P x y → RootOf (put P i q) x y) ∧
      (∀ x, (∃ p, P x = some p) ↔ ∃ p, put P i q x = some p) := by
  have hrk' : Ranked (put P i q) rk := by
    intro a b hab hne
    by_cases ha : a = i
    · subst ha
      rw [put_same] at hab
      cases Option.some.inj hab
      rcases hlt with h | h
      · exact absurd h hne
      · exact h
    · rw [put_ne _ _ ha] at hab; exact hrk a b hab hne
  have hdom : ∀ x, (∃ p, P x = some p) ↔ ∃ p, put P i q x = some p := by
    intro x
    by_cases hx : x = i
    · subst hx; rw [put_same]; simp [hi.dom]
    · rw [put_ne _ _ hx]
  have hw : WF (put P i q) := by
    refine ⟨?_, rk, hrk'⟩
    intro a b hab
    rw [← hdom b]
    by_cases ha : a = i
    · subst ha
      rw [put_same] at hab
      cases Option.some.inj hab
      exact hq.dom
    · rw [put_ne _ _ ha] at hab
      exact w.closed a b hab
  refine ⟨hw, hrk', ?_, hdom⟩
  intro x y hxy
  generalize hn : rk x = n
  induction n using Nat.strongRecOn generalizing x with
  | ind n ih =>
    by_cases hx : x = i
    · subst hx
      have : y = r := hxy.unique hi
      subst this
      by_cases hqx : q = x
      · have := hroot hqx
        subst hqx
        cases hi.unique (.root this)
        exact .root (put_same _ _ _)
      · refine .step (put_same _ _ _) hqx ?_
        exact ih (rk q) (hn ▸ (hlt.resolve_left hqx)) q hq rfl
    · cases hxy with
      | root h => exact .root (by rw [put_ne _ _ hx]; exact h)
      | step h1 h2 h3 =>
        refine .step (by rw [put_ne _ _ hx]; exact h1) h2 ?_
        exact ih _ (hn ▸ hrk _ _ h1 h2) _ h3 rfl

/-- Linking root `j` below root `i`. -/
theorem link {P : α → Option α} (w : WF P) {i j : α} (hi : P i = some i) (hj : P j = some j)
    (hne : i ≠ j) :
    WF (put P j i) ∧
      (∀ x r, RootOf P x r → RootOf (put P j i) x (if r = j then i else r)) ∧
      (∀ x, (∃ p, P x = some p) ↔ ∃ p, put P j i x = some p) := by
  classical
  have hdom : ∀ x, (∃ p, P x = some p) ↔ ∃ p, put P j i x = some p := by
    intro x
    by_cases hx : x = j
    · subst hx; rw [put_same]; simp [hj]
    · rw [put_ne _ _ hx]
  have hii : RootOf (put P j i) i i := .root (by rw [put_ne _ _ hne]; exact hi)
  refine ⟨⟨?_, ?_⟩, ?_, hdom⟩
  · intro a b hab
    rw [← hdom b]
    by_cases ha : a = j
    · subst ha
      rw [put_same] at hab
      cases Option.some.inj hab
      exact ⟨_, hi⟩
    · rw [put_ne _ _ ha] at hab
      exact w.closed a b hab
  · obtain ⟨rk, hrk⟩ := w.rank
    refine ⟨fun x => if RootOf P x j then rk x + rk i + 1 else rk x, ?_⟩
    intro a b hab hbne
    by_cases ha : a = j
    · subst ha
      rw [put_same] at hab
      cases Option.some.inj hab
      have h1 : RootOf P a a := .root hj
      have h2 : ¬ RootOf P i a := fun h => hne ((RootOf.root hi).unique h)
      simp only [h1, h2, if_true, if_false]; omega
    · rw [put_ne _ _ ha] at hab
      have hlt := hrk a b hab hbne
      by_cases h1 : RootOf P b j
      · have h2 : RootOf P a j := .step hab hbne h1
        simp only [h1, h2, if_true]; omega
      · have h2 : ¬ RootOf P a j := by
          intro h
          cases h with
          | root h => exact ha rfl
          | step h3 h4 h5 =>
            rw [hab] at h3
            cases Option.some.inj h3
            exact h1 h5
        simp only [h1, h2, if_false]; exact hlt
  · intro x r hxr
    induction hxr with
    | root h =>
      rename_i r
      by_cases hr : r = j
      · subst hr
        rw [if_pos rfl]
        exact .step (put_same _ _ _) hne hii
      · rw [if_neg hr]
        exact .root (by rw [put_ne _ _ hr]; exact h)
    | step h1 h2 _ ih =>
      rename_i a b r _
      by_cases ha : a = j
      · subst ha
        rw [hj] at h1
        exact absurd (Option.some.inj h1).symm h2
      · exact .step (by rw [put_ne _ _ ha]; exact h1) h2 ih

/-- Ranks can be taken below the number of keys. -/
theorem bounded_rank {P : α → Option α} {els : List α} (hk : ∀ i p, P i = some p → i ∈ els)
    (w : WF P) : ∃ rk, Ranked P rk ∧ ∀ i p, P i = some p → rk i < els.length := by
  obtain ⟨rk, hrk⟩ := w.rank
  refine ⟨fun i => els.countP (fun x => decide (rk x < rk i)), ?_, ?_⟩
  · intro i p hip hne
    have hlt := hrk i p hip hne
    obtain ⟨q, hq⟩ := w.closed i p hip
    have hp := hk p q hq
    show els.countP _ < els.countP _
    clear hk
    induction els with
    | nil => simp at hp
    | cons a as ih =>
      rw [List.countP_cons, List.countP_cons]
      have hmono : as.countP (fun x => decide (rk x < rk p)) ≤
          as.countP (fun x => decide (rk x < rk i)) := by
        apply List.countP_mono_left
        intro x _ hx
        simp only [decide_eq_true_eq] at hx ⊢
        omega
      rcases List.mem_cons.1 hp with rfl | hp'
      · have h0 : ¬ rk p < rk p := by omega
        simp only [h0, hlt, decide_true, decide_false, if_true, Bool.false_eq_true, if_false]
        omega
      · have := ih hp'
        by_cases h1 : rk a < rk p
        · have h2 : rk a < rk i := by omega
          simp only [h1, h2, decide_true, if_true]; omega
        · simp only [h1, decide_false, Bool.false_eq_true, if_false]
          split <;> omega
  · intro i p hip
    have hi := hk i p hip
    show els.countP _ < els.length
    have hle : els.countP (fun x => decide (rk x < rk i)) ≤ els.length := List.countP_le_length
    rcases Nat.lt_or_eq_of_le hle with h | h
    · exact h
    · have := List.countP_eq_length.1 h i hi
      simp at this

/-- `findLoop` (with its aliasing reference) returns the root, terminates within the rank, and
preserves the forest. -/
theorem findLoop_spec {P : α → Option α} {rk : α → Nat} (w : WF P) (hrk : Ranked P rk)
    {i0 i r : α} (fuel : Nat) (hf : rk i ≤ fuel)
    (hinv : P i0 = P i) (hi0 : RootOf P i0 r) (hi : RootOf P i r)
    (hle : i = i0 ∨ rk i < rk i0) :
    ∃ P', findLoop i0 fuel P i = some (P', r) ∧ WF P' ∧
      (∀ x y, RootOf P x y → RootOf P' x y) ∧
      (∀ x, (∃ p, P x = some p) ↔ ∃ p, P' x = some p) ∧
      (∀ E : α → α → Prop, (∀ a b, P a = some b → EqvGen E a b) →
        ∀ a b, P' a = some b → EqvGen E a b) := by
  induction fuel generalizing P i with
  | zero =>
    obtain ⟨p, hp⟩ := hi.dom
    unfold findLoop
    rw [hinv, hp]
    by_cases hpi : i = p
    · subst hpi
      simp only [if_true]
      cases hi.unique (.root hp)
      exact ⟨P, rfl, w, fun _ _ h => h, fun _ => Iff.rfl, fun _ h => h⟩
    · have := hrk i p hp (fun h => hpi h.symm)
      omega
  | succ fuel ih =>
    obtain ⟨p, hp⟩ := hi.dom
    unfold findLoop
    rw [hinv, hp]
    by_cases hpi : i = p
    · subst hpi
      simp only [if_true]
      cases hi.unique (.root hp)
      exact ⟨P, rfl, w, fun _ _ h => h, fun _ => Iff.rfl, fun _ h => h⟩
    · simp only [if_neg hpi]
      have hpi' : p ≠ i := fun h => hpi h.symm
      obtain ⟨g, hg⟩ := w.closed i p hp
      have hrp : RootOf P p r := by
        cases hi with
        | root h => rw [hp] at h; exact absurd (Option.some.inj h) hpi'
        | step h1 h2 h3 => rw [hp] at h1; cases Option.some.inj h1; exact h3
      have hrg : RootOf P g r := by
        by_cases hgp : g = p
        · subst hgp; exact hrp
        · cases hrp with
          | root h => rw [hg] at h; exact absurd (Option.some.inj h) hgp
          | step h1 h2 h3 => rw [hg] at h1; cases Option.some.inj h1; exact h3
      have hlp : rk p < rk i := hrk i p hp hpi'
      have hlg : rk g ≤ rk p := by
        by_cases hgp : g = p
        · subst hgp; exact Nat.le_refl _
        · exact Nat.le_of_lt (hrk p g hg hgp)
      have hlgi : rk g < rk i := by omega
      have hgi : g ≠ i := fun h => by subst h; omega
      simp only [hg, put_same]
      -- first write: P[i] := g
      obtain ⟨w1, hrk1, hr1, hd1⟩ := repoint w hrk hi hrg (.inr hlgi) (fun h => absurd h hgi)
      -- read P1[g]
      have hP1g : put P i g g = P g := put_ne _ _ hgi
      obtain ⟨q, hq⟩ := hrg.dom
      rw [hP1g, hq]
      simp only []
      have hrq : RootOf P q r := by
        by_cases hqg : q = g
        · subst hqg; exact hrg
        · cases hrg with
          | root h => rw [hq] at h; exact absurd (Option.some.inj h) hqg
          | step h1 h2 h3 => rw [hq] at h1; cases Option.some.inj h1; exact h3
      have hlq : rk q ≤ rk g := by
        by_cases hqg : q = g
        · subst hqg; exact Nat.le_refl _
        · exact Nat.le_of_lt (hrk g q hq hqg)
      have hli0 : rk q < rk i0 := by
        rcases hle with h | h
        · subst h; omega
        · omega
      have hqi0 : q ≠ i0 := fun h => by subst h; omega
      have hgi0 : g ≠ i0 := by
        intro h; subst h
        rcases hle with h | h
        · exact hgi h.symm
        · omega
      -- second write: P[i0] := q
      obtain ⟨w2, hrk2, hr2, hd2⟩ := repoint (i := i0) (q := q) w1 hrk1 (hr1 _ _ hi0) (hr1 _ _ hrq)
        (.inr hli0) (fun h => absurd h hqi0)
      have hinv2 : put (put P i g) i0 q i0 = put (put P i g) i0 q g := by
        rw [put_same, put_ne _ _ hgi0, hP1g, hq]
      have hlgi0 : rk g < rk i0 := by
        rcases hle with h | h
        · subst h; omega
        · omega
      obtain ⟨P', he, hw', hr', hd', hE'⟩ := ih w2 hrk2 (i := g) (by omega) hinv2
        (hr2 _ _ (hr1 _ _ hi0)) (hr2 _ _ (hr1 _ _ hrg)) (.inr hlgi0)
      refine ⟨P', he, hw', fun x y h => hr' _ _ (hr2 _ _ (hr1 _ _ h)), ?_, ?_⟩
      · intro x; rw [hd1 x, hd2 x, hd' x]
      · intro E hE
        apply hE'
        have hroot : ∀ {x y : α}, RootOf P x y → EqvGen E x y := by
          intro x y h
          induction h with
          | root _ => exact .refl _
          | step h1 _ _ ih => exact .trans _ _ _ (hE _ _ h1) ih
        intro a b hab
        by_cases ha0 : a = i0
        · subst ha0
          rw [put_same] at hab
          cases Option.some.inj hab
          exact .trans _ _ _ (hroot hi0) (.symm _ _ (hroot hrq))
        · rw [put_ne _ _ ha0] at hab
          by_cases hai : a = i
          · subst hai
            rw [put_same] at hab
            cases Option.some.inj hab
            exact .trans _ _ _ (hroot hi) (.symm _ _ (hroot hrg))
          · rw [put_ne _ _ hai] at hab
            exact hE _ _ hab

theorem halveLoop_spec {P : α → Option α} {rk : α → Nat} (w : WF P) (hrk : Ranked P rk)
    {i r : α} (fuel : Nat) (hf : rk i ≤ fuel) (hi : RootOf P i r) :
    ∃ P', halveLoop fuel P i = some (P', r) ∧ WF P' ∧
      (∀ x y, RootOf P x y → RootOf P' x y) ∧
      (∀ x, (∃ p, P x = some p) ↔ ∃ p, P' x = some p) ∧
      (∀ E : α → α → Prop, (∀ a b, P a = some b → EqvGen E a b) →
        ∀ a b, P' a = some b → EqvGen E a b) ∧
      (∀ R : α → α → Prop, (∀ a b c, R a b → R b c → R a c) → (∀ a b, P a = some b → R a b) →
        ∀ a b, P' a = some b → R a b) := by
  induction fuel generalizing P i with
  | zero =>
    obtain ⟨p, hp⟩ := hi.dom
    unfold halveLoop
    rw [hp]
    by_cases hpi : i = p
    · subst hpi
      simp only [if_true]
      cases hi.unique (.root hp)
      exact ⟨P, rfl, w, fun _ _ h => h, fun _ => Iff.rfl, fun _ h => h, fun _ _ h => h⟩
    · have := hrk i p hp (fun h => hpi h.symm)
      omega
  | succ fuel ih =>
    obtain ⟨p, hp⟩ := hi.dom
    unfold halveLoop
    rw [hp]
    by_cases hpi : i = p
    · subst hpi
      simp only [if_true]
      cases hi.unique (.root hp)
      exact ⟨P, rfl, w, fun _ _ h => h, fun _ => Iff.rfl, fun _ h => h, fun _ _ h => h⟩
    · simp only [if_neg hpi]
      have hpi' : p ≠ i := fun h => hpi h.symm
      obtain ⟨g, hg⟩ := w.closed i p hp
      have hrp : RootOf P p r := by
        cases hi with
        | root h => rw [hp] at h; exact absurd (Option.some.inj h) hpi'
        | step h1 h2 h3 => rw [hp] at h1; cases Option.some.inj h1; exact h3
      have hrg : RootOf P g r := by
        by_cases hgp : g = p
        · subst hgp; exact hrp
        · cases hrp with
          | root h => rw [hg] at h; exact absurd (Option.some.inj h) hgp
          | step h1 h2 h3 => rw [hg] at h1; cases Option.some.inj h1; exact h3
      have hlp : rk p < rk i := hrk i p hp hpi'
      have hlg : rk g ≤ rk p := by
        by_cases hgp : g = p
        · subst hgp; exact Nat.le_refl _
        · exact Nat.le_of_lt (hrk p g hg hgp)
      have hlgi : rk g < rk i := by omega
      have hgi : g ≠ i := fun h => by subst h; omega
      simp only [hg]
      obtain ⟨w1, hrk1, hr1, hd1⟩ := repoint w hrk hi hrg (.inr hlgi) (fun h => absurd h hgi)
      obtain ⟨P', he, hw', hr', hd', hE', hR'⟩ := ih w1 hrk1 (i := g) (by omega) (hr1 _ _ hrg)
      refine ⟨P', he, hw', fun x y h => hr' _ _ (hr1 _ _ h), ?_, ?_, ?_⟩
      · intro x; rw [hd1 x, hd' x]
      · intro E hE
        apply hE'
        intro a b hab
        by_cases hai : a = i
        · subst hai
          rw [put_same] at hab
          cases Option.some.inj hab
          exact .trans _ _ _ (hE _ _ hp) (hE _ _ hg)
        · rw [put_ne _ _ hai] at hab
          exact hE _ _ hab
      · intro R ht hR
        apply hR' R ht
        intro a b hab
        by_cases hai : a = i
        · subst hai
          rw [put_same] at hab
          cases Option.some.inj hab
          exact ht _ _ _ (hR _ _ hp) (hR _ _ hg)
        · rw [put_ne _ _ hai] at hab
          exact hR _ _ hab

/-- Connection between a forest and a set `E` of united pairs over the carrier `D`. -/
structure Rep (P : α → Option α) (D : α → Prop) (E : α → α → Prop) : Prop where
  wf : WF P
  dom : ∀ x, D x ↔ ∃ p, P x = some p
  sound : ∀ a b, P a = some b → EqvGen E a b
  complete : ∀ a b, E a b → ∃ r, RootOf P a r ∧ RootOf P b r

theorem Rep.root_conn {P : α → Option α} {D : α → Prop} {E : α → α → Prop} (h : Rep P D E)
    {x r : α} (hx : RootOf P x r) : EqvGen E x r := by
  induction hx with
  | root _ => exact .refl _
  | step h1 _ _ ih => exact .trans _ _ _ (h.sound _ _ h1) ih

theorem Rep.conn_root {P : α → Option α} {D : α → Prop} {E : α → α → Prop} (h : Rep P D E)
    {x y : α} (hxy : EqvGen E x y) : x = y ∨ ∃ r, RootOf P x r ∧ RootOf P y r := by
  induction hxy with
  | rel a b hab => exact .inr (h.complete a b hab)
  | refl _ => exact .inl rfl
  | symm a b _ ih =>
    rcases ih with rfl | ⟨r, h1, h2⟩
    · exact .inl rfl
    · exact .inr ⟨r, h2, h1⟩
  | trans a b c _ _ ih1 ih2 =>
    rcases ih1 with rfl | ⟨r, h1, h2⟩
    · exact ih2
    · rcases ih2 with rfl | ⟨r', h3, h4⟩
      · exact .inr ⟨r, h1, h2⟩
      · cases h2.unique h3
        exact .inr ⟨r, h1, h4⟩

theorem Rep.same_root_iff {P : α → Option α} {D : α → Prop} {E : α → α → Prop} (h : Rep P D E)
    {x y rx ry : α} (hx : RootOf P x rx) (hy : RootOf P y ry) : rx = ry ↔ EqvGen E x y := by
  constructor
  · rintro rfl
    exact .trans _ _ _ (h.root_conn hx) (.symm _ _ (h.root_conn hy))
  · intro hc
    rcases h.conn_root hc with rfl | ⟨r, h1, h2⟩
    · exact hx.unique hy
    · rw [hx.unique h1, hy.unique h2]

/-- Linking two roots adds the pair of any two members to the relation. -/
theorem Rep.link {P : α → Option α} {D : α → Prop} {E : α → α → Prop} (h : Rep P D E)
    {a b i j : α} (ha : RootOf P a i) (hb : RootOf P b j) :
    Rep (put P j i) D (fun x y => E x y ∨ (x = a ∧ y = b)) := by
  have hmono : ∀ x y, EqvGen E x y → EqvGen (fun x y => E x y ∨ (x = a ∧ y = b)) x y := by
    intro x y hxy
    exact EqvGen.mono (fun _ _ h => Or.inl h) _ _ hxy
  by_cases hne : i = j
  · subst hne
    have : put P i i = P := by
      funext x
      by_cases hx : x = i
      · subst hx; rw [put_same]; exact ha.isRoot.symm
      · rw [put_ne _ _ hx]
    rw [this]
    refine ⟨h.wf, h.dom, fun x y hxy => hmono _ _ (h.sound x y hxy), ?_⟩
    rintro x y (hxy | ⟨rfl, rfl⟩)
    · exact h.complete x y hxy
    · exact ⟨i, ha, hb⟩
  · obtain ⟨hw, hr, hd⟩ := UF.link h.wf ha.isRoot hb.isRoot hne
    refine ⟨hw, fun x => (h.dom x).trans (hd x), ?_, ?_⟩
    · intro x y hxy
      by_cases hx : x = j
      · subst hx
        rw [put_same] at hxy
        cases Option.some.inj hxy
        have h1 := hmono _ _ (h.root_conn ha)
        have h2 := hmono _ _ (h.root_conn hb)
        have h3 : EqvGen (fun x y => E x y ∨ (x = a ∧ y = b)) a b := .rel _ _ (.inr ⟨rfl, rfl⟩)
        exact .trans _ _ _ (.symm _ _ h2) (.trans _ _ _ (.symm _ _ h3) h1)
      · rw [put_ne _ _ hx] at hxy
        exact hmono _ _ (h.sound x y hxy)
    · rintro x y (hxy | ⟨rfl, rfl⟩)
      · obtain ⟨r, h1, h2⟩ := h.complete x y hxy
        exact ⟨_, hr _ _ h1, hr _ _ h2⟩
      · have h1 := hr _ _ ha
        have h2 := hr _ _ hb
        rw [if_neg hne] at h1
        rw [if_pos rfl] at h2
        exact ⟨i, h1, h2⟩

theorem Rep.swap {P : α → Option α} {D : α → Prop} {E : α → α → Prop} {a b : α}
    (h : Rep P D (fun x y => E x y ∨ (x = b ∧ y = a))) :
    Rep P D (fun x y => E x y ∨ (x = a ∧ y = b)) := by
  refine ⟨h.wf, h.dom, ?_, ?_⟩
  · intro x y hxy
    have h0 := h.sound x y hxy
    clear hxy
    induction h0 with
    | rel u v huv =>
      rcases huv with huv | ⟨rfl, rfl⟩
      · exact .rel _ _ (.inl huv)
      · exact .symm _ _ (.rel _ _ (.inr ⟨rfl, rfl⟩))
    | refl _ => exact .refl _
    | symm _ _ _ ih => exact .symm _ _ ih
    | trans _ _ _ _ _ ih1 ih2 => exact .trans _ _ _ ih1 ih2
  · rintro x y (hxy | ⟨rfl, rfl⟩)
    · exact h.complete x y (.inl hxy)
    · obtain ⟨r, h1, h2⟩ := h.complete y x (.inr ⟨rfl, rfl⟩)
      exact ⟨r, h2, h1⟩

/-- Adding a fresh singleton. -/
theorem Rep.fresh {P : α → Option α} {D : α → Prop} {E : α → α → Prop} (h : Rep P D E)
    {i : α} (hi : P i = none) : Rep (put P i i) (fun x => x = i ∨ D x) E ∧
      (∀ x r, RootOf P x r → RootOf (put P i i) x r) := by
  have hP : ∀ x p, P x = some p → x ≠ i ∧ p ≠ i := by
    intro x p hx
    constructor
    · rintro rfl; rw [hi] at hx; cases hx
    · rintro rfl
      obtain ⟨q, hq⟩ := h.wf.closed x _ hx
      rw [hi] at hq; cases hq
  have hroot : ∀ x r, RootOf P x r → RootOf (put P i i) x r := by
    intro x r hx
    induction hx with
    | root h1 => exact .root (by rw [put_ne _ _ (hP _ _ h1).1]; exact h1)
    | step h1 h2 _ ih => exact .step (by rw [put_ne _ _ (hP _ _ h1).1]; exact h1) h2 ih
  refine ⟨⟨⟨?_, ?_⟩, ?_, ?_, ?_⟩, hroot⟩
  · intro a b hab
    by_cases ha : a = i
    · subst ha; rw [put_same] at hab; cases Option.some.inj hab; exact ⟨_, put_same _ _ _⟩
    · rw [put_ne _ _ ha] at hab
      obtain ⟨q, hq⟩ := h.wf.closed a b hab
      exact ⟨q, by rw [put_ne _ _ (hP _ _ hab).2]; exact hq⟩
  · obtain ⟨rk, hrk⟩ := h.wf.rank
    refine ⟨rk, ?_⟩
    intro a b hab hne
    by_cases ha : a = i
    · subst ha; rw [put_same] at hab; exact absurd (Option.some.inj hab).symm hne
    · rw [put_ne _ _ ha] at hab; exact hrk a b hab hne
  · intro x
    by_cases hx : x = i
    · subst hx; simp [put_same]
    · rw [put_ne _ _ hx, ← h.dom x]; simp [hx]
  · intro a b hab
    by_cases ha : a = i
    · subst ha; rw [put_same] at hab; cases Option.some.inj hab; exact .refl _
    · rw [put_ne _ _ ha] at hab; exact h.sound a b hab
  · intro a b hab
    obtain ⟨r, h1, h2⟩ := h.complete a b hab
    exact ⟨r, hroot _ _ h1, hroot _ _ h2⟩

theorem Rep.congr {P : α → Option α} {D D' : α → Prop} {E E' : α → α → Prop} (h : Rep P D E)
    (hD : ∀ x, D x ↔ D' x) (hE : ∀ x y, E x y ↔ E' x y) : Rep P D' E' := by
  have h1 : D = D' := funext fun x => propext (hD x)
  have h2 : E = E' := funext fun x => funext fun y => propext (hE x y)
  subst h1; subst h2; exact h

end Forest
end Verif.UF
