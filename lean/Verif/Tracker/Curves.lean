import Verif.Tracker.Offline
/-! Combinatorics behind C72: a set of facets in which every facet has two cofaces and every inside cell
has no or two of the facets consists of closed curves and of curves ending at the boundary. -/
namespace Verif.Trk
open Verif.Gr (Symm)
variable {α κ : Type} [LinearOrder α]

/-- facets `K`, cells, the relation "is a face of", and which cells are inside -/
structure Strip (nb : α → List α) (face : α → κ → Prop) (inside : κ → Prop) (K : List α) : Prop where
  two : ∀ f ∈ K, ∃ a b, a ≠ b ∧ ∀ e, face f e ↔ e = a ∨ e = b
  cover : ∀ f ∈ K, ∀ g ∈ K, f ≠ g → ∀ e, face f e → face g e → inside e
  parity : ∀ e, inside e → ∀ f ∈ K, face f e → ∃ g ∈ K, g ≠ f ∧ face g e ∧ ∀ h ∈ K, face h e → h = f ∨ h = g
  one : ∀ f ∈ K, ∀ g ∈ K, f ≠ g → ∀ e e', face f e → face g e → face f e' → face g e' → e = e'
  adj : ∀ f ∈ K, ∀ g ∈ K, (g ∈ nb f ↔ ∃ e, face f e ∧ face g e)
  nodup : ∀ f, (nb f).Nodup
  symm : Symm nb

/-- `f` and `g` follow each other in `k`, or are its two ends -/
def NextTo {α : Type} (k : List α) (f g : α) : Prop :=
  (∃ l r, k = l ++ f :: g :: r) ∨ (∃ l r, k = l ++ g :: f :: r) ∨
  (k.head? = some f ∧ k.getLast? = some g) ∨ (k.head? = some g ∧ k.getLast? = some f)

namespace Strip
variable {nb : α → List α} {face : α → κ → Prop} {inside : κ → Prop} {K : List α}

theorem at_most (h : Strip nb face inside K) {f : α} (hf : f ∈ K) :
    ∃ x y, ∀ g ∈ K, g ≠ f → g ∈ nb f → g = x ∨ g = y := by
  obtain ⟨a, b, -, hab⟩ := h.two f hf
  have key : ∀ e, face f e → ∃ x, ∀ g ∈ K, g ≠ f → face g e → g = x := by
    intro e he
    by_cases hi : inside e
    · obtain ⟨x, -, -, -, hx⟩ := h.parity e hi f hf he
      exact ⟨x, fun g hg hgf hge => (hx g hg hge).resolve_left hgf⟩
    · exact ⟨f, fun g hg hgf hge => absurd (h.cover f hf g hg (Ne.symm hgf) e he hge) hi⟩
  obtain ⟨x, hx⟩ := key a ((hab a).2 (.inl rfl))
  obtain ⟨y, hy⟩ := key b ((hab b).2 (.inr rfl))
  refine ⟨x, y, fun g hg hgf hgn => ?_⟩
  obtain ⟨e, he, hge⟩ := (h.adj f hf g hg).1 hgn
  rcases (hab e).1 he with rfl | rfl
  · exact .inl (hx g hg hgf hge)
  · exact .inr (hy g hg hgf hge)

theorem deg_le_two (h : Strip nb face inside K) {f : α} (hf : f ∈ K) : deg nb K f ≤ 2 := by
  obtain ⟨x, y, hxy⟩ := h.at_most hf
  unfold deg
  have hn : ((nb f).filter fun y => decide (y ≠ f ∧ y ∈ K)).Nodup := (h.nodup f).filter _
  have hsub : ((nb f).filter fun y => decide (y ≠ f ∧ y ∈ K)) ⊆ [x, y] := by
    intro g hg
    simp only [List.mem_filter, decide_eq_true_eq] at hg
    have := hxy g hg.2.2 hg.2.1 hg.1
    simpa using this
  exact (hn.subperm hsub).length_le

/-- three different neighbors are too many -/
theorem no_three (h : Strip nb face inside K) {f a b c : α} (hf : f ∈ K) (ha : a ∈ K) (hb : b ∈ K) (hc : c ∈ K)
    (haf : a ≠ f) (hbf : b ≠ f) (hcf : c ≠ f) (na : a ∈ nb f) (nb' : b ∈ nb f) (nc : c ∈ nb f)
    (hab : a ≠ b) (hac : a ≠ c) (hbc : b ≠ c) : False := by
  obtain ⟨x, y, hxy⟩ := h.at_most hf
  have h1 := hxy a ha haf na
  have h2 := hxy b hb hbf nb'
  have h3 := hxy c hc hcf nc
  rcases h1 with rfl | rfl <;> rcases h2 with rfl | rfl <;> rcases h3 with rfl | rfl <;>
    first | exact hab rfl | exact hac rfl | exact hbc rfl

/-- what is known of a curve -/
structure Curve (nb : α → List α) (K k : List α) : Prop where
  sub : ∀ x ∈ k, x ∈ K
  nodup : k.Nodup
  chain : List.IsChain (fun x y => y ∈ nb x) k

theorem Curve.next {k l r : List α} {x y : α} (hk : Curve nb K k) (e : k = l ++ x :: y :: r) : y ∈ nb x := by
  have := hk.chain
  rw [e, List.isChain_append] at this
  exact (List.isChain_cons_cons.1 this.2.1).1

theorem next_of_before (h : Strip nb face inside K) {k : List α} (hk : Curve nb K k) {l m r : List α} {f g : α}
    (e : k = l ++ f :: (m ++ g :: r)) (hn : g ∈ nb f) :
    m = [] ∨ (l = [] ∧ r = []) := by
  rcases m with _ | ⟨s, m⟩
  · exact .inl rfl
  · right
    have hnd := hk.nodup
    have hsub := hk.sub
    rw [e] at hnd hsub
    constructor
    · rcases List.eq_nil_or_concat l with rfl | ⟨l', q, rfl⟩
      · rfl
      · exfalso
        rw [List.concat_eq_append] at e hnd hsub
        simp only [List.append_assoc, List.cons_append, List.nil_append] at e hnd hsub
        have n1 : f ∈ nb q := hk.next e
        have n2 : s ∈ nb f := hk.next (l := l' ++ [q]) (by rw [e]; simp; rfl)
        have hd := (List.nodup_append.1 hnd).2.1
        simp only [List.nodup_cons, List.mem_cons, List.mem_append, List.not_mem_nil, not_or] at hd
        obtain ⟨⟨d1, d2, d3, d4, d5⟩, ⟨d6, d7, d8, d9⟩, ⟨d10, d11, d12⟩, -⟩ := hd
        exact h.no_three (f := f) (a := q) (b := s) (c := g) (hsub _ (by simp)) (hsub _ (by simp)) (hsub _ (by simp))
          (hsub _ (by simp)) d1 (Ne.symm d6) (Ne.symm d8) (h.symm _ _ n1) n2 hn d2 d4 d11
    · rcases r with _ | ⟨t, r⟩
      · rfl
      · exfalso
        obtain ⟨m', p, hm⟩ : ∃ m' p, s :: m = m' ++ [p] := by
          rcases List.eq_nil_or_concat (s :: m) with h | ⟨m', p, h⟩
          · cases h
          · exact ⟨m', p, by rw [h, List.concat_eq_append]⟩
        rw [hm] at e hnd hsub
        simp only [List.append_assoc, List.cons_append, List.nil_append] at e hnd hsub
        have n1 : g ∈ nb p := hk.next (l := l ++ f :: m') (by rw [e]; simp; rfl)
        have n2 : t ∈ nb g := hk.next (l := l ++ f :: (m' ++ [p])) (by rw [e]; simp; rfl)
        have hd := (List.nodup_append.1 hnd).2.1
        obtain ⟨c1, c2⟩ := List.nodup_cons.1 hd
        have c3 := (List.nodup_append.1 c2).2.1
        simp only [List.mem_cons, List.mem_append, List.nodup_cons, not_or] at c1 c3
        obtain ⟨-, c4, c5, c6, -⟩ := c1
        obtain ⟨⟨c7, c8, -⟩, ⟨c9, -⟩, -⟩ := c3
        exact h.no_three (f := g) (a := p) (b := t) (c := f) (hsub _ (by simp)) (hsub _ (by simp)) (hsub _ (by simp))
          (hsub _ (by simp)) c7 (Ne.symm c9) c5 (h.symm _ _ n1) n2 (h.symm _ _ hn) c8 (Ne.symm c4) (Ne.symm c6)

/-- neighbors on one curve are next to each other on it -/
theorem nextTo (h : Strip nb face inside K) {k : List α} (hk : Curve nb K k) {f g : α} (hf : f ∈ k) (hg : g ∈ k)
    (hfg : f ≠ g) (hn : g ∈ nb f) : NextTo k f g := by
  obtain ⟨l, r, e⟩ := List.append_of_mem hf
  rw [e, List.mem_append, List.mem_cons] at hg
  rcases hg with hg | hg | hg
  · obtain ⟨l1, m, rfl⟩ := List.append_of_mem hg
    have e' : k = l1 ++ g :: (m ++ f :: r) := by rw [e]; simp
    rcases h.next_of_before hk e' (h.symm _ _ hn) with rfl | ⟨rfl, rfl⟩
    · exact .inr (.inl ⟨l1, r, by simpa using e'⟩)
    · refine .inr (.inr (.inr ⟨by rw [e']; simp, by rw [e']; simp [List.getLast?_cons]⟩))
  · exact absurd hg.symm hfg
  · obtain ⟨m, r', rfl⟩ := List.append_of_mem hg
    rcases h.next_of_before hk e hn with rfl | ⟨rfl, rfl⟩
    · exact .inl ⟨l, r', by simpa using e⟩
    · refine .inr (.inr (.inl ⟨by rw [e]; simp, by rw [e]; simp [List.getLast?_cons]⟩))

/-- a curve that does not close begins at the boundary -/
theorem head_boundary (h : Strip nb face inside K) {k : List α} (hk : Curve nb K k)
    (hcl : ∀ x ∈ k, ∀ y ∈ K, y ∈ nb x → y ∈ k) {a z : α} (ha : k.head? = some a) (hz : k.getLast? = some z)
    (ho : ¬ (3 ≤ k.length ∧ z ∈ nb a)) : ∃ e, face a e ∧ ¬ inside e := by
  by_contra hcon
  have hcon : ∀ e, face a e → inside e := by
    intro e he
    by_contra hi
    exact hcon ⟨e, he, hi⟩
  have hak : a ∈ k := List.mem_of_mem_head? ha
  have haK := hk.sub a hak
  obtain ⟨e1, e2, hne, hab⟩ := h.two a haK
  have f1 := (hab e1).2 (.inl rfl)
  have f2 := (hab e2).2 (.inr rfl)
  obtain ⟨g1, k1, n1, q1, -⟩ := h.parity e1 (hcon _ f1) a haK f1
  obtain ⟨g2, k2, n2, q2, -⟩ := h.parity e2 (hcon _ f2) a haK f2
  have hg : g1 ≠ g2 := by
    rintro rfl
    exact hne (h.one a haK g1 k1 (Ne.symm n1) e1 e2 f1 q1 f2 q2)
  have m1 : g1 ∈ nb a := (h.adj a haK g1 k1).2 ⟨e1, f1, q1⟩
  have m2 : g2 ∈ nb a := (h.adj a haK g2 k2).2 ⟨e2, f2, q2⟩
  have i1 := hcl a hak g1 k1 m1
  have i2 := hcl a hak g2 k2 m2
  rcases k with _ | ⟨a', k⟩
  · cases ha
  · simp only [List.head?_cons, Option.some.injEq] at ha
    subst ha
    have j1 : g1 ∈ k := (List.mem_cons.1 i1).resolve_left n1
    have j2 : g2 ∈ k := (List.mem_cons.1 i2).resolve_left n2
    obtain ⟨l1, r1, s1⟩ := List.append_of_mem j1
    obtain ⟨l2, r2, s2⟩ := List.append_of_mem j2
    have key : ∀ (l r : List α) (g : α), k = l ++ g :: r → g ∈ nb a' → l = [] := by
      intro l r g s m
      rcases h.next_of_before hk (l := []) (by rw [s]; simp; rfl) m with h' | ⟨-, rfl⟩
      · exact h'
      · by_contra hl
        apply ho
        rw [s] at hz ⊢
        rcases l with _ | ⟨x, l⟩
        · exact absurd rfl hl
        · refine ⟨by simp, ?_⟩
          have : z = g := by simpa [List.getLast?_cons] using hz.symm
          rw [this]; exact m
    have t1 := key l1 r1 g1 s1 m1
    have t2 := key l2 r2 g2 s2 m2
    subst t1 t2
    rw [s1] at s2
    simp only [List.nil_append, List.cons.injEq] at s2
    exact hg s2.1

theorem Curve.reverse (h : Symm nb) {k : List α} (hk : Curve nb K k) : Curve nb K k.reverse where
  sub := fun x hx => hk.sub x (by simpa using hx)
  nodup := List.nodup_reverse.2 hk.nodup
  chain := by
    rw [List.isChain_reverse]
    exact hk.chain.imp fun a b hab => h _ _ hab

/-- a curve closes, or both its ends are at the boundary -/
theorem closed_or_open (h : Strip nb face inside K) {k : List α} (hk : Curve nb K k)
    (hcl : ∀ x ∈ k, ∀ y ∈ K, y ∈ nb x → y ∈ k) {a z : α} (ha : k.head? = some a) (hz : k.getLast? = some z) :
    (3 ≤ k.length ∧ z ∈ nb a) ∨ ((∃ e, face a e ∧ ¬ inside e) ∧ ∃ e, face z e ∧ ¬ inside e) := by
  by_cases ho : 3 ≤ k.length ∧ z ∈ nb a
  · exact .inl ho
  · right
    refine ⟨h.head_boundary hk hcl ha hz ho, ?_⟩
    refine h.head_boundary (k := k.reverse) (hk.reverse h.symm) (fun x hx y hy hyx => ?_) (z := a) (by simpa using hz)
      (by simpa using ha) ?_
    · exact List.mem_reverse.2 (hcl x (List.mem_reverse.1 hx) y hy hyx)
    · rintro ⟨h1, h2⟩
      exact ho ⟨by simpa using h1, h.symm _ _ h2⟩

end Strip
end Verif.Trk
