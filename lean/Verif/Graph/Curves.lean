import Verif.Graph.Cca
import Mathlib.Data.List.Chain
/-! Proofs for `connected_component_to_linear_components`. -/
namespace Verif.Gr
open Relation
variable {α : Type} [LinearOrder α]

/-- `y` is a neighbor of `x` inside `c` -/
def Adj (nb : α → List α) (c : List α) (x y : α) : Prop := y ∈ nb x ∧ y ≠ x ∧ y ∈ c

/-- a connected set of nodes of degree at most two -/
structure Thin (nb : α → List α) (c : List α) : Prop where
  symm : Symm nb
  nodup : c.Nodup
  deg : ∀ x ∈ c, ∀ y1 y2 y3, Adj nb c x y1 → Adj nb c x y2 → Adj nb c x y3 → y1 ≠ y2 → y3 = y1 ∨ y3 = y2
  conn : ∀ S : List α, S ≠ [] → (∀ x ∈ S, x ∈ c) → (∀ x ∈ S, ∀ y, Adj nb c x y → y ∈ S) → ∀ x ∈ c, x ∈ S

theorem nextNode_none {nb : α → List α} {c vis : List α} {cur : α} (h : nextNode nb c vis cur = none) :
    ∀ y, Adj nb c cur y → y ∈ vis := by
  intro y ⟨h1, h2, h3⟩
  unfold nextNode at h
  rw [List.find?_eq_none] at h
  have := h y h1
  simp only [decide_eq_true_eq, not_and, not_not] at this
  exact this h2 h3

theorem nextNode_some {nb : α → List α} {c vis : List α} {cur n : α} (h : nextNode nb c vis cur = some n) :
    Adj nb c cur n ∧ n ∉ vis := by
  unfold nextNode at h
  have h1 := List.find?_some h
  have h2 := List.mem_of_find?_eq_some h
  simp only [decide_eq_true_eq] at h1
  exact ⟨⟨h2, h1.1, h1.2.1⟩, h1.2.2⟩

theorem traceLoop_front (nb : α → List α) (c : List α) : ∀ (fuel : Nat) (cur : α) (t vis : List α),
    traceLoop nb c true fuel cur t vis =
      (traceLoop nb c false fuel cur t.reverse vis).map (fun p => (p.1.reverse, p.2)) := by
  intro fuel
  induction fuel with
  | zero => intro cur t vis; rfl
  | succ fuel ih =>
    intro cur t vis
    simp only [traceLoop, Bool.false_eq_true, if_false, if_true]
    by_cases hc : cur ∈ vis
    · simp only [hc, if_true]
      cases nextNode nb c vis cur with
      | none => simp
      | some n => simp only [ih]
    · simp only [hc, if_false]
      cases nextNode nb c (cur :: vis) cur with
      | none => simp
      | some n => simp only [ih]; simp

theorem walk {nb : α → List α} {c : List α} (hT : Thin nb c) : ∀ (fuel : Nat) (cur p : α) (t vis : List α),
    t.Nodup → (∀ x ∈ t, x ∈ c) → (∀ x, x ∈ vis ↔ x ∈ t) → List.IsChain (fun x y => y ∈ nb x) t →
    t.getLast? = some p → Adj nb c p cur → cur ∉ t → c.length + 1 ≤ fuel + t.length →
    ∃ w vis', traceLoop nb c false fuel cur t vis = some (t ++ cur :: w, vis') ∧
      (t ++ cur :: w).Nodup ∧ (∀ x ∈ t ++ cur :: w, x ∈ c) ∧ (∀ x, x ∈ vis' ↔ x ∈ t ++ cur :: w) ∧
      List.IsChain (fun x y => y ∈ nb x) (t ++ cur :: w) ∧
      (∀ x ∈ cur :: w, ∀ y, Adj nb c x y → y ∈ t ++ cur :: w) := by
  intro fuel
  induction fuel with
  | zero =>
    intro cur p t vis hn hsub hvis hch hlast hadj hcur hl
    exfalso
    have : (cur :: t).length ≤ c.length :=
      (List.subperm_of_subset (List.nodup_cons.2 ⟨hcur, hn⟩) (by
        intro x hx
        rcases List.mem_cons.1 hx with rfl | hx
        · exact hadj.2.2
        · exact hsub x hx)).length_le
    simp at this
    omega
  | succ fuel ih =>
    intro cur p t vis hn hsub hvis hch hlast hadj hcur hl
    have hcv : cur ∉ vis := fun h => hcur ((hvis cur).1 h)
    have hpt : p ∈ t := List.mem_of_getLast? hlast
    have hpc := hsub p hpt
    have hn1 : (t ++ [cur]).Nodup := by
      rw [List.nodup_append]
      refine ⟨hn, by simp, ?_⟩
      intro a ha b hb
      simp at hb; subst hb
      rintro rfl; exact hcur ha
    have hsub1 : ∀ x ∈ t ++ [cur], x ∈ c := by
      intro x hx
      rcases List.mem_append.1 hx with hx | hx
      · exact hsub x hx
      · simp at hx; subst hx; exact hadj.2.2
    have hch1 : List.IsChain (fun x y => y ∈ nb x) (t ++ [cur]) := by
      rw [List.isChain_append]
      refine ⟨hch, by simp, ?_⟩
      intro x hx y hy
      rw [hlast] at hx
      simp at hx hy
      subst hx; subst hy; exact hadj.1
    have hvis1 : ∀ x, x ∈ cur :: vis ↔ x ∈ t ++ [cur] := by
      intro x; simp only [List.mem_cons, hvis, List.mem_append, List.not_mem_nil, or_false]; tauto
    simp only [traceLoop, hcv, if_false, Bool.false_eq_true]
    cases hnx : nextNode nb c (cur :: vis) cur with
    | none =>
      refine ⟨[], cur :: vis, rfl, hn1, hsub1, hvis1, hch1, ?_⟩
      intro x hx y hy
      simp at hx; subst hx
      exact (hvis1 y).1 (nextNode_none hnx y hy)
    | some n =>
      obtain ⟨hna, hnv⟩ := nextNode_some hnx
      have hnt : n ∉ t ++ [cur] := fun h => hnv ((hvis1 n).2 h)
      obtain ⟨w, vis', e, h1, h2, h3, h4, h5⟩ := ih n cur (t ++ [cur]) (cur :: vis) hn1 hsub1 hvis1 hch1
        (by simp) hna hnt (by simp; omega)
      refine ⟨n :: w, vis', ?_, ?_, ?_, ?_, ?_, ?_⟩
      · simpa using e
      · simpa using h1
      · simpa using h2
      · simpa using h3
      · simpa using h4
      · intro x hx y hy
        rcases List.mem_cons.1 hx with rfl | hx
        · have hpx : Adj nb c x p := ⟨hT.symm _ _ hadj.1, hadj.2.1.symm, hpc⟩
          have hpn : p ≠ n := by rintro rfl; exact hnt (by simp [hpt])
          rcases hT.deg x hadj.2.2 p n y hpx hna hy hpn with rfl | rfl
          · simp [hpt]
          · simp
        · have := h5 x hx y hy
          simpa using this

theorem traceComponent_spec {nb : α → List α} {ord c : List α} (hT : Thin nb c) (hc : c ≠ [])
    (hnd : ∀ x, (nb x).Nodup) (hord : ∀ x ∈ c, ∀ y ∈ nb x, (y ∈ ord ↔ y ∈ c)) :
    ∃ out, traceComponent nb ord c = some out ∧ out.Perm c ∧ List.IsChain (fun x y => y ∈ nb x) out := by
  cases hcc : c with
  | nil => exact absurd hcc hc
  | cons seed rest =>
    have hseed : seed ∈ c := by rw [hcc]; simp
    have hsn : ∀ y, y ∈ (nb seed).filter (fun y => decide (y ≠ seed ∧ y ∈ ord)) ↔ Adj nb c seed y := by
      intro y
      rw [List.mem_filter]
      simp only [decide_eq_true_eq, Adj]
      constructor
      · rintro ⟨h1, h2, h3⟩; exact ⟨h1, h2, (hord seed hseed y h1).1 h3⟩
      · rintro ⟨h1, h2, h3⟩; exact ⟨h1, h2, (hord seed hseed y h1).2 h3⟩
    have hsnd : ((nb seed).filter (fun y => decide (y ≠ seed ∧ y ∈ ord))).Nodup := (hnd seed).filter _
    have fin : ∀ out : List α, out ≠ [] → out.Nodup → (∀ x ∈ out, x ∈ c) →
        (∀ x ∈ out, ∀ y, Adj nb c x y → y ∈ out) → out.Perm c := by
      intro out h0 h1 h2 h3
      exact (List.perm_ext_iff_of_nodup h1 hT.nodup).2 (fun x => ⟨h2 x, hT.conn out h0 h2 h3 x⟩)
    rw [← hcc]
    unfold traceComponent
    rw [hcc]
    simp only
    rw [← hcc]
    generalize (nb seed).filter (fun y => decide (y ≠ seed ∧ y ∈ ord)) = sn at *
    cases sn with
    | nil =>
      refine ⟨[seed], rfl, ?_, by simp⟩
      refine fin _ (by simp) (by simp) (by simpa using hseed) ?_
      intro x hx y hy
      simp at hx; subst hx
      exact absurd ((hsn y).2 hy) (by simp)
    | cons a sn' =>
      have haA : Adj nb c seed a := (hsn a).1 (by simp)
      simp only [List.head?_cons]
      obtain ⟨b, hb⟩ : ∃ b, (a :: sn').getLast? = some b := by
        rw [List.getLast?_eq_getLast_of_ne_nil (by simp)]; exact ⟨_, rfl⟩
      simp only [hb]
      have hbA : Adj nb c seed b := (hsn b).1 (List.mem_of_getLast? hb)
      obtain ⟨w, vis, e, h1, h2, h3, h4, h5⟩ := walk hT (c.length + 1) a seed [seed] [seed] (by simp)
        (by simpa using hseed) (by simp) (by simp) (by simp) haA (by simpa using haA.2.1) (by simp)
      rw [e]
      simp only
      by_cases hlen : (a :: sn').length = 1
      · rw [if_pos hlen]
        have hs' : sn' = [] := by simpa using hlen
        subst hs'
        refine ⟨_, rfl, fin _ (by simp) h1 h2 ?_, h4⟩
        intro x hx y hy
        simp only [List.singleton_append, List.mem_cons] at hx
        rcases hx with rfl | hx
        · have := (hsn y).2 hy
          simp at this; subst this; simp
        · exact h5 x (List.mem_cons.2 hx) y hy
      · rw [if_neg hlen]
        have hab : a ≠ b := by
          rintro rfl
          cases sn' with
          | nil => simp at hlen
          | cons d ds =>
            have : a ∈ d :: ds := by
              rw [List.getLast?_cons_cons] at hb
              exact List.mem_of_getLast? hb
            exact (List.nodup_cons.1 hsnd).1 this
        have hseedcl : ∀ (out : List α), a ∈ out → b ∈ out → ∀ y, Adj nb c seed y → y ∈ out := by
          intro out ha hb' y hy
          rcases hT.deg seed hseed a b y haA hbA hy hab with rfl | rfl
          · exact ha
          · exact hb'
        by_cases hbt : b ∈ [seed] ++ a :: w
        · have hbw : b ∈ a :: w := by
            rcases List.mem_append.1 hbt with h | h
            · simp at h; exact absurd h hbA.2.1
            · exact h
          have hnx : nextNode nb c vis b = none := by
            cases hnx : nextNode nb c vis b with
            | none => rfl
            | some n =>
              obtain ⟨p1, p2⟩ := nextNode_some hnx
              exact absurd ((h3 n).2 (h5 b hbw n p1)) p2
          have hbv : b ∈ vis := (h3 b).2 hbt
          refine ⟨[seed] ++ a :: w, ?_, fin _ (by simp) h1 h2 ?_, h4⟩
          · simp only [traceLoop, hbv, if_true, hnx, Option.map_some]
          · intro x hx y hy
            rcases List.mem_append.1 hx with hx | hx
            · simp at hx; subst hx
              exact hseedcl _ (by simp) hbt y hy
            · exact h5 x hx y hy
        · obtain ⟨w', vis', e', g1, g2, g3, g4, g5⟩ := walk hT (c.length + 1) b seed ([seed] ++ a :: w).reverse
            vis (List.nodup_reverse.2 h1) (by intro x hx; exact h2 x (List.mem_reverse.1 hx))
            (by intro x; rw [h3, List.mem_reverse])
            (by
              rw [List.isChain_reverse]
              exact h4.imp (fun _ _ h => hT.symm _ _ h))
            (by simp) hbA (by rw [List.mem_reverse]; exact hbt) (by simp)
          rw [traceLoop_front, e']
          refine ⟨_, rfl, ?_, ?_⟩
          · refine (List.reverse_perm _).trans (fin _ (by simp) g1 g2 ?_)
            intro x hx y hy
            rcases List.mem_append.1 hx with hx | hx
            · rw [List.mem_reverse] at hx
              rcases List.mem_append.1 hx with hx | hx
              · simp at hx; subst hx
                exact hseedcl _ (by simp) (by simp) y hy
              · have := h5 x hx y hy
                exact List.mem_append.2 (Or.inl (List.mem_reverse.2 this))
            · exact g5 x hx y hy
          · rw [List.isChain_reverse]
            exact g4.imp (fun _ _ h => hT.symm _ _ h)

theorem length_le_two_deg {l : List α} (hl : ¬ l.length > 2) {a b c : α} (ha : a ∈ l) (hb : b ∈ l)
    (hc : c ∈ l) (hab : a ≠ b) : c = a ∨ c = b := by
  by_contra h
  push Not at h
  have : [a, b, c].Nodup := by simp [hab, h.1.symm, h.2.symm]
  have := (List.subperm_of_subset this (l₂ := l) (by
    intro x hx; simp at hx; rcases hx with rfl | rfl | rfl <;> assumption)).length_le
  simp at this
  omega

theorem thin_of_class {nb : α → List α} (hs : Symm nb) {cc : List α}
    {sets : List (List α)}
    (hp : UF.IsPartition (· ∈ ordinary nb cc) (Linked (ordNbs nb cc) (ordinary nb cc)) sets)
    {c : List α} (hc : c ∈ sets) :
    Thin nb c ∧ ∀ x ∈ c, ∀ y ∈ nb x, (y ∈ ordinary nb cc ↔ y ∈ c) := by
  have hordcc : ∀ x ∈ ordinary nb cc, x ∈ cc := fun x hx => (List.mem_filter.1 hx).1
  have hordns : ∀ x ∈ ordinary nb cc, x ∉ special nb cc := by
    intro x hx hx'
    have h1 := (List.mem_filter.1 hx).2
    have h2 := (List.mem_filter.1 hx').2
    simp only [decide_eq_true_eq] at h1 h2
    exact h1 h2
  have hrel : ∀ x y, x ∈ ordinary nb cc → y ∈ ordinary nb cc → y ∈ nb x →
      Linked (ordNbs nb cc) (ordinary nb cc) x y := by
    intro x y hx hy hxy
    refine .rel _ _ ⟨hx, hy, ?_⟩
    unfold ordNbs
    rw [List.mem_filter]
    exact ⟨hxy, by simp [hordcc y hy, hordns y hy]⟩
  have hcl : ∀ x ∈ c, ∀ y ∈ nb x, (y ∈ ordinary nb cc ↔ y ∈ c) := by
    intro x hx y hy
    constructor
    · intro hyo
      exact (hp.classes c hc x hx y hyo).2 (hrel x y (hp.only c hc x hx) hyo hy)
    · intro hyc; exact hp.only c hc y hyc
  refine ⟨⟨hs, hp.nodup c hc, ?_, ?_⟩, hcl⟩
  · intro x hx y1 y2 y3 a1 a2 a3 hne
    have hxo := (List.mem_filter.1 (hp.only c hc x hx)).2
    simp only [decide_eq_true_eq] at hxo
    have hm : ∀ y, Adj nb c x y → y ∈ validNbs nb cc x := by
      intro y ⟨h1, h2, h3⟩
      unfold validNbs
      rw [List.mem_filter]
      exact ⟨h1, by simp [h2, hordcc y (hp.only c hc y h3)]⟩
    exact length_le_two_deg hxo (hm _ a1) (hm _ a2) (hm _ a3) hne
  · intro S hS hSc hScl x hx
    obtain ⟨s, hs'⟩ := List.exists_mem_of_ne_nil S hS
    have hlink := (hp.classes c hc s (hSc s hs') x (hp.only c hc x hx)).1 hx
    have : ∀ a b, Linked (ordNbs nb cc) (ordinary nb cc) a b → (a ∈ S ↔ b ∈ S) := by
      intro a b hab
      induction hab with
      | rel a b h =>
        obtain ⟨h1, h2, h3⟩ := h
        have h3' : b ∈ nb a := (List.mem_filter.1 h3).1
        have key : ∀ a b, b ∈ ordinary nb cc → b ∈ nb a → a ∈ S → b ∈ S := by
          intro a b hb hab ha
          by_cases he : b = a
          · rw [he]; exact ha
          · exact hScl a ha b ⟨hab, he, (hcl a (hSc a ha) b hab).1 hb⟩
        exact ⟨key a b h2 h3', key b a h1 (hs _ _ h3')⟩
      | refl a => exact Iff.rfl
      | symm a b _ ih => exact ih.symm
      | trans a b c _ _ i1 i2 => exact i1.trans i2
    exact (this s x hlink).1 hs'

theorem traceAll_spec {nb : α → List α} {ord : List α} : ∀ (cs : List (List α)),
    (∀ c ∈ cs, ∃ out, traceComponent nb ord c = some out ∧ out.Perm c ∧
      List.IsChain (fun x y => y ∈ nb x) out) →
    ∃ outs, traceAll nb ord cs = some outs ∧ List.Forall₂ (fun out c => out.Perm c ∧
      List.IsChain (fun x y => y ∈ nb x) out) outs cs := by
  intro cs
  induction cs with
  | nil => intro _; exact ⟨[], rfl, .nil⟩
  | cons c cs ih =>
    intro h
    obtain ⟨o, e, h1⟩ := h c (by simp)
    obtain ⟨os, e', h2⟩ := ih (fun c hc => h c (by simp [hc]))
    exact ⟨o :: os, by simp [traceAll, e, e'], .cons h1 h2⟩

end Verif.Gr
