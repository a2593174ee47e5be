import Verif.Surf.Spec
import Verif.UnionFind.Props
/-! C87: relabelling by connected components. -/
namespace Verif.Surf
open Relation Verif.UF
variable {δ : Type}

theorem labelFrom_spec {n : Nat} {E : Nat → Nat → Prop} : ∀ (ps : List (FPt δ)) (s : SimpleUF) (i : Nat), SInv n s E → i + ps.length ≤ n →
    ∃ l, labelFrom s i ps = some l ∧ List.Forall₂ (fun p q => q = { p with id := q.id }) ps l ∧
      ∀ (k : Nat) (q : FPt δ), l[k]? = some q → RootOf (vfun s.id2parent) (i + k) q.id := by
  intro ps
  induction ps with
  | nil => intro s i _ _; exact ⟨[], rfl, .nil, by simp⟩
  | cons p ps ih =>
    intro s i h hl
    rw [List.length_cons] at hl
    obtain ⟨r, hr⟩ := h.exists_root (i := i) (by omega)
    obtain ⟨s', e1, h1, -, h2⟩ := h.find hr
    obtain ⟨l, e2, l1, l2⟩ := ih s' (i + 1) h1 (by omega)
    refine ⟨{ p with id := r } :: l, by simp only [labelFrom, e1, e2, Option.map_some], .cons rfl l1, ?_⟩
    intro k q hk
    cases k with
    | zero =>
      simp only [List.getElem?_cons_zero, Option.some.injEq] at hk
      subst hk
      exact hr
    | succ k =>
      simp only [List.getElem?_cons_succ] at hk
      have := l2 k q hk
      obtain ⟨r', hr'⟩ := h.exists_root (i := i + (k + 1)) (by
        have := (List.getElem?_eq_some_iff.1 hk).1
        have := l1.length_eq
        omega)
      have h3 := h2 _ _ hr'
      rw [show i + 1 + k = i + (k + 1) by omega] at this
      rw [this.unique h3]
      exact hr'

theorem relabelPts_spec (us : List (Nat × Nat)) (pts : List (FPt δ)) (cells : List (List Nat))
    (hv : ∀ u ∈ us, u.1 < pts.length ∧ u.2 < pts.length)
    (hus : ∀ a b, EqvGen (fun x y => (x, y) ∈ us) a b ↔ Joined cells a b) :
    ∃ l, relabelPts us pts = some l ∧ Labelled cells pts l := by
  have hsv : SValid pts.length (us.map fun u => UF.SOp.unite u.1 u.2) := by
    intro o ho
    obtain ⟨u, hu, rfl⟩ := List.mem_map.1 ho
    exact hv u hu
  obtain ⟨s, e, hI⟩ := SInv.reach pts.length _ hsv
  have hE : ∀ x y, SUnited (us.map fun u => UF.SOp.unite u.1 u.2) x y ↔ (x, y) ∈ us := by
    intro x y
    unfold SUnited
    simp only [List.mem_map, SOp.unite.injEq]
    constructor
    · rintro ⟨u, hu, rfl, rfl⟩; exact hu
    · intro h; exact ⟨_, h, rfl, rfl⟩
  have hI := hI.congr hE
  obtain ⟨l, e2, l1, l2⟩ := labelFrom_spec pts s 0 hI (by omega)
  refine ⟨l, by simp only [relabelPts, e, e2], l1, ?_, ?_⟩
  · intro i j p q hp hq
    have a := l2 i p hp
    have b := l2 j q hq
    rw [Nat.zero_add] at a b
    rw [← hus]
    exact hI.rep.same_root_iff a b
  · intro i p hp
    have a := l2 i p hp
    rw [Nat.zero_add] at a
    exact ⟨hI.lt a, (hus _ _).1 (hI.rep.root_conn a)⟩

theorem eqvGen_iff {α : Type} {R S : α → α → Prop} (h1 : ∀ a b, R a b → EqvGen S a b) (h2 : ∀ a b, S a b → EqvGen R a b) (a b : α) :
    EqvGen R a b ↔ EqvGen S a b := by
  have key : ∀ {R S : α → α → Prop}, (∀ a b, R a b → EqvGen S a b) → ∀ {a b}, EqvGen R a b → EqvGen S a b := by
    intro R S h a b hab
    induction hab with
    | rel _ _ h' => exact h _ _ h'
    | refl _ => exact .refl _
    | symm _ _ _ ih => exact .symm _ _ ih
    | trans _ _ _ _ _ ih1 ih2 => exact .trans _ _ _ ih1 ih2
  exact ⟨key h1, key h2⟩

/-- uniting the first vertex of every cell with the others connects the cells' vertices -/
theorem star_joined (cells : List (List Nat)) (us : List (Nat × Nat))
    (hus : ∀ x y, (x, y) ∈ us ↔ ∃ c ∈ cells, ∃ z, c = x :: z ∧ y ∈ z) (a b : Nat) :
    EqvGen (fun x y => (x, y) ∈ us) a b ↔ Joined cells a b := by
  refine eqvGen_iff ?_ ?_ a b
  · intro x y h
    obtain ⟨c, hc, z, rfl, hy⟩ := (hus x y).1 h
    exact .rel _ _ ⟨_, hc, by simp, by simp [hy]⟩
  · rintro x y ⟨c, hc, hx, hy⟩
    cases c with
    | nil => simp at hx
    | cons v z =>
      have key : ∀ w ∈ v :: z, EqvGen (fun x y => (x, y) ∈ us) v w := by
        intro w hw
        rcases List.mem_cons.1 hw with rfl | hw
        · exact .refl _
        · exact .rel _ _ ((hus v w).2 ⟨_, hc, z, rfl, hw⟩)
      exact .trans _ _ _ (.symm _ _ (key x hx)) (key y hy)

/-- C87 (lines): after `relabel` two points have the same id exactly if they are connected; nothing else changes. -/
theorem C87_line (l : Line δ) (h : InRange l.pts.length l.cells) :
    ∃ l', l.relabel = some l' ∧ l'.edges = l.edges ∧ Labelled l.cells l.pts l'.pts := by
  obtain ⟨p, e, hp⟩ := relabelPts_spec l.edges l.pts l.cells (by
    intro u hu
    have := h [u.1, u.2] (List.mem_map.2 ⟨u, hu, rfl⟩)
    exact ⟨this _ (by simp), this _ (by simp)⟩) (fun a b => star_joined l.cells l.edges (by
      intro x y
      unfold Line.cells
      simp only [List.mem_map]
      constructor
      · intro h; exact ⟨_, ⟨_, h, rfl⟩, [y], rfl, by simp⟩
      · rintro ⟨_, ⟨u, hu, rfl⟩, z, hz, hy⟩
        simp only [List.cons.injEq] at hz
        obtain ⟨rfl, rfl⟩ := hz
        simp only [List.mem_singleton] at hy
        subst hy
        exact hu) a b)
  exact ⟨{ l with pts := p }, by unfold Line.relabel; rw [e]; rfl, rfl, hp⟩

/-- C87 (volumes): after `relabel` two points have the same id exactly if they are connected through tetrahedra; nothing else
changes. -/
theorem C87_volume (v : Volume δ) (h : InRange v.pts.length v.cells) :
    ∃ v', v.relabel = some v' ∧ v'.conn = v.conn ∧ Labelled v.cells v.pts v'.pts := by
  obtain ⟨p, e, hp⟩ := relabelPts_spec (v.conn.flatMap fun q => [(q.1, q.2.1), (q.1, q.2.2.1), (q.1, q.2.2.2)]) v.pts v.cells (by
    intro u hu
    obtain ⟨q, hq, hu⟩ := List.mem_flatMap.1 hu
    have := h (quadVs q) (List.mem_map.2 ⟨q, hq, rfl⟩)
    simp only [List.mem_cons, List.not_mem_nil, or_false] at hu
    simp only [quadVs, List.mem_cons, List.not_mem_nil, or_false] at this
    rcases hu with rfl | rfl | rfl <;> exact ⟨this _ (by simp), this _ (by simp)⟩) (fun a b => star_joined v.cells _ (by
      intro x y
      unfold Volume.cells
      simp only [List.mem_map, List.mem_flatMap]
      constructor
      · rintro ⟨q, hq, h⟩
        refine ⟨_, ⟨q, hq, rfl⟩, [q.2.1, q.2.2.1, q.2.2.2], ?_, ?_⟩
        · simp only [List.mem_cons, Prod.mk.injEq, List.not_mem_nil, or_false] at h
          unfold quadVs
          rcases h with ⟨rfl, -⟩ | ⟨rfl, -⟩ | ⟨rfl, -⟩ <;> rfl
        · simp only [List.mem_cons, Prod.mk.injEq, List.not_mem_nil, or_false] at h
          simp only [List.mem_cons, List.not_mem_nil, or_false]
          tauto
      · rintro ⟨_, ⟨q, hq, rfl⟩, z, hz, hy⟩
        simp only [quadVs, List.cons.injEq] at hz
        obtain ⟨rfl, rfl⟩ := hz
        refine ⟨q, hq, ?_⟩
        simp only [List.mem_cons, List.not_mem_nil, or_false] at hy
        rcases hy with rfl | rfl | rfl <;> simp) a b)
  exact ⟨{ v with pts := p }, by unfold Volume.relabel; rw [e]; rfl, rfl, hp⟩

/-- C87 (surfaces): after `relabel` two points have the same id exactly if they are connected through the triangles, the
quadrilaterals and the pentagons *without their fifth point*; nothing else changes.  Without pentagons this is connectivity. -/
theorem C87_surface_partial (s : Surface δ) (h : InRange s.pts.length s.cells) :
    ∃ s', s.relabel = some s' ∧ s'.tris = s.tris ∧ s'.quads = s.quads ∧ s'.pentagons = s.pentagons ∧
      Labelled (s.tris.map triVs ++ s.quads.map quadVs ++ s.pentagons.map fun p => [p.1, p.2.1, p.2.2.1, p.2.2.2.1]) s.pts s'.pts ∧
      (s.pentagons = [] → Labelled s.cells s.pts s'.pts) := by
  unfold InRange Surface.cells at h
  simp only [List.mem_append, List.mem_map] at h
  obtain ⟨p, e, hp⟩ := relabelPts_spec s.unions s.pts
    (s.tris.map triVs ++ s.quads.map quadVs ++ s.pentagons.map fun p => [p.1, p.2.1, p.2.2.1, p.2.2.2.1]) (by
    intro u hu
    unfold Surface.unions at hu
    simp only [List.mem_append, List.mem_flatMap] at hu
    rcases hu with (⟨t, ht, hu⟩ | ⟨q, hq, hu⟩) | ⟨q, hq, hu⟩
    · have := h (triVs t) (.inl (.inl ⟨t, ht, rfl⟩))
      simp only [triVs, List.mem_cons, List.not_mem_nil, or_false] at this hu
      rcases hu with rfl | rfl <;> exact ⟨this _ (by simp), this _ (by simp)⟩
    · have := h (quadVs q) (.inl (.inr ⟨q, hq, rfl⟩))
      simp only [quadVs, List.mem_cons, List.not_mem_nil, or_false] at this hu
      rcases hu with rfl | rfl | rfl <;> exact ⟨this _ (by simp), this _ (by simp)⟩
    · have := h (pentaVs q) (.inr ⟨q, hq, rfl⟩)
      simp only [pentaVs, List.mem_cons, List.not_mem_nil, or_false] at this hu
      rcases hu with rfl | rfl | rfl <;> exact ⟨this _ (by simp), this _ (by simp)⟩) (fun a b => star_joined _ _ (by
      intro x y
      unfold Surface.unions
      simp only [List.mem_append, List.mem_map, List.mem_flatMap, List.mem_cons, Prod.mk.injEq, List.not_mem_nil, or_false]
      constructor
      · rintro ((⟨t, ht, h⟩ | ⟨q, hq, h⟩) | ⟨q, hq, h⟩)
        · refine ⟨_, .inl (.inl ⟨t, ht, rfl⟩), [t.2.1, t.2.2], ?_, ?_⟩
          · rcases h with ⟨rfl, -⟩ | ⟨rfl, -⟩ <;> rfl
          · simp only [List.mem_cons, List.not_mem_nil, or_false]; tauto
        · refine ⟨_, .inl (.inr ⟨q, hq, rfl⟩), [q.2.1, q.2.2.1, q.2.2.2], ?_, ?_⟩
          · rcases h with ⟨rfl, -⟩ | ⟨rfl, -⟩ | ⟨rfl, -⟩ <;> rfl
          · simp only [List.mem_cons, List.not_mem_nil, or_false]; tauto
        · refine ⟨_, .inr ⟨q, hq, rfl⟩, [q.2.1, q.2.2.1, q.2.2.2.1], ?_, ?_⟩
          · rcases h with ⟨rfl, -⟩ | ⟨rfl, -⟩ | ⟨rfl, -⟩ <;> rfl
          · simp only [List.mem_cons, List.not_mem_nil, or_false]; tauto
      · rintro ⟨_, (⟨t, ht, rfl⟩ | ⟨q, hq, rfl⟩) | ⟨q, hq, rfl⟩, z, hz, hy⟩
        · simp only [triVs, List.cons.injEq] at hz
          obtain ⟨rfl, rfl⟩ := hz
          simp only [List.mem_cons, List.not_mem_nil, or_false] at hy
          exact .inl (.inl ⟨t, ht, by tauto⟩)
        · simp only [quadVs, List.cons.injEq] at hz
          obtain ⟨rfl, rfl⟩ := hz
          simp only [List.mem_cons, List.not_mem_nil, or_false] at hy
          exact .inl (.inr ⟨q, hq, by tauto⟩)
        · simp only [List.cons.injEq] at hz
          obtain ⟨rfl, rfl⟩ := hz
          simp only [List.mem_cons, List.not_mem_nil, or_false] at hy
          exact .inr ⟨q, hq, by tauto⟩) a b)
  refine ⟨{ s with pts := p }, by unfold Surface.relabel; rw [e]; rfl, rfl, rfl, rfl, hp, fun hn => ?_⟩
  unfold Surface.cells
  rw [hn] at hp ⊢
  exact hp

/-- five points with different payloads -/
def five : List (FPt Nat) := [⟨0, 0, true, 10⟩, ⟨0, 0, true, 11⟩, ⟨0, 0, true, 12⟩, ⟨0, 0, true, 13⟩, ⟨0, 0, true, 14⟩]

/-- C87, what fails: the fifth point of a pentagon gets an id of its own. -/
theorem C87_pentagon_fifth_point : ∃ s s' : Surface Nat, InRange s.pts.length s.cells ∧ s.relabel = some s' ∧
    s.pentagons = [(0, 1, 2, 3, 4)] ∧ ∃ p q : FPt Nat, s'.pts[0]? = some p ∧ s'.pts[4]? = some q ∧ p.id ≠ q.id := by
  refine ⟨⟨five, [], [], [(0, 1, 2, 3, 4)]⟩, _, ?_, (by decide : _ = some ⟨[⟨0, 0, true, 10⟩, ⟨0, 0, true, 11⟩, ⟨0, 0, true, 12⟩,
    ⟨0, 0, true, 13⟩, ⟨4, 0, true, 14⟩], [], [], [(0, 1, 2, 3, 4)]⟩), rfl, _, _, rfl, rfl, by decide⟩
  unfold InRange
  decide

/-- two components -/
example : ((⟨five, [(4, 1, 4)], [(0, 2, 3, 2)], []⟩ : Surface Nat).relabel).map (fun s => s.pts.map FPt.id) = some [0, 4, 0, 0, 4] := by
  decide +kernel
example : InRange five.length (⟨five, [(4, 1, 4)], [(0, 2, 3, 2)], []⟩ : Surface Nat).cells := by unfold InRange; decide
example : ((⟨five, [(1, 2, 3, 4)]⟩ : Volume Nat).relabel).map (fun s => s.pts.map FPt.id) = some [0, 1, 1, 1, 1] := by decide
example : InRange five.length (⟨five, [(1, 2, 3, 4)]⟩ : Volume Nat).cells := by unfold InRange; decide
example : ((⟨five, [(1, 0), (4, 3)]⟩ : Line Nat).relabel).map (fun s => s.pts.map FPt.id) = some [1, 1, 2, 4, 4] := by decide
example : InRange five.length (⟨five, [(1, 0), (4, 3)]⟩ : Line Nat).cells := by unfold InRange; decide

end Verif.Surf
