import Verif.RegMesh.Model
import Mathlib.Data.List.Nodup
import Mathlib.Data.List.Chain
import Mathlib.Tactic.Ring
import Mathlib.Order.Basic
/-! # C74: the hypercube mesh -/
namespace Verif.RM

/-- `v` is a vertex of `e`: on every axis the coordinate of `e`, or the next one where `e` extends. -/
def IsVertex (v : List Int) (e : Elem) : Prop :=
  List.Forall₂ (fun x a => x = a.1 ∨ (a.2 = true ∧ x = a.1 + 1)) v e

/-- `f` is a facet of `e`: its vertices are among those of `e`, and it has one dimension less. -/
def IsFacet (f e : Elem) : Prop := f.length = e.length ∧ dim f + 1 = dim e ∧ ∀ v, IsVertex v f → IsVertex v e

/-- `c`'s cell is within `a`'s on one axis -/
def AxisLe (a b : Int × Bool) : Prop := a = b ∨ (b.2 = true ∧ a.2 = false ∧ (a.1 = b.1 ∨ a.1 = b.1 + 1))

theorem dim_cons (c : Int) (s : Bool) (r : Elem) : dim ((c, s) :: r) = dim r + if s then 1 else 0 := by
  cases s <;> simp [dim]

theorem corner_vertex (e : Elem) : IsVertex (e.map Prod.fst) e := by
  induction e with
  | nil => exact .nil
  | cons a e ih => exact .cons (.inl rfl) ih

theorem subset_iff : ∀ (f e : Elem), f.length = e.length →
    ((∀ v, IsVertex v f → IsVertex v e) ↔ List.Forall₂ AxisLe f e)
  | [], [], _ => ⟨fun _ => .nil, fun _ _ h => h⟩
  | [], _ :: _, h => by simp at h
  | _ :: _, [], h => by simp at h
  | (c, s) :: f, (d, t) :: e, h => by
    have ih := subset_iff f e (by simpa using h)
    constructor
    · intro hv
      refine .cons ?_ (ih.1 fun v hvf => ?_)
      · have h1 := hv (c :: f.map Prod.fst) (.cons (.inl rfl) (corner_vertex f))
        cases h1 with
        | cons h1 _ =>
          cases s with
          | false =>
            rcases h1 with h1 | ⟨h1, h2⟩
            · cases t with
              | false => left; simp only at h1; rw [h1]
              | true => right; exact ⟨rfl, rfl, .inl h1⟩
            · right; exact ⟨h1, rfl, .inr h2⟩
          | true =>
            have h3 := hv ((c + 1) :: f.map Prod.fst) (.cons (.inr ⟨rfl, rfl⟩) (corner_vertex f))
            cases h3 with
            | cons h3 _ =>
              left
              simp only at h1 h3
              rcases h1 with h1 | ⟨ht, h1⟩
              · rcases h3 with h3 | ⟨ht, h3⟩
                · omega
                · rw [h1, ht]
              · rcases h3 with h3 | ⟨_, h3⟩ <;> omega
      · have h1 := hv (c :: v) (.cons (.inl rfl) hvf)
        cases h1 with
        | cons _ h1 => exact h1
    · intro hf v hv
      cases hf with
      | cons ha hr =>
        cases hv with
        | cons hx hvr =>
          refine .cons ?_ (ih.2 hr _ hvr)
          rcases ha with ha | ⟨h1, h2, h3⟩
          · rw [← ha]; exact hx
          · simp only at h1 h2 h3 hx ⊢
            rcases hx with hx | ⟨hx, _⟩
            · rcases h3 with h3 | h3
              · left; omega
              · right; exact ⟨h1, by omega⟩
            · rw [h2] at hx; cases hx

theorem dim_le {f e : Elem} (h : List.Forall₂ AxisLe f e) : dim f ≤ dim e ∧ (dim f = dim e → f = e) := by
  induction h with
  | nil => simp
  | @cons a b f e ha _ ih =>
    obtain ⟨c, s⟩ := a
    obtain ⟨d, t⟩ := b
    rw [dim_cons, dim_cons]
    rcases ha with ha | ⟨h1, h2, h3⟩
    · cases ha
      exact ⟨by omega, fun h => by rw [ih.2 (by omega)]⟩
    · simp only at h1 h2
      subst h1 h2
      simp only [Bool.false_eq_true, if_false, if_true]
      exact ⟨by omega, fun h => by omega⟩

theorem axisLe_refl (e : Elem) : List.Forall₂ AxisLe e e := by
  induction e with
  | nil => exact .nil
  | cons a e ih => exact .cons (.inl rfl) ih

theorem mem_sides : ∀ (e f : Elem), f ∈ sides e ↔ List.Forall₂ AxisLe f e ∧ dim f + 1 = dim e
  | [], f => by
    simp only [sides, List.not_mem_nil, false_iff]
    rintro ⟨h, hd⟩
    cases h
    simp [dim] at hd
  | (c, s) :: e, f => by
    have ih := mem_sides e
    simp only [sides, List.mem_append, List.mem_map]
    constructor
    · rintro (h | ⟨g, hg, rfl⟩)
      · cases s with
        | false => simp at h
        | true =>
          simp only [if_true, List.mem_cons, List.not_mem_nil, or_false] at h
          rcases h with rfl | rfl
          · exact ⟨.cons (.inr ⟨rfl, rfl, .inl rfl⟩) (axisLe_refl e), by simp [dim_cons]⟩
          · exact ⟨.cons (.inr ⟨rfl, rfl, .inr rfl⟩) (axisLe_refl e), by simp [dim_cons]⟩
      · obtain ⟨h1, h2⟩ := (ih g).1 hg
        exact ⟨.cons (.inl rfl) h1, by simp only [dim_cons]; omega⟩
    · rintro ⟨h, hd⟩
      cases h with
      | @cons a _ f _ ha hr =>
        obtain ⟨c', s'⟩ := a
        rw [dim_cons, dim_cons] at hd
        rcases ha with ha | ⟨h1, h2, h3⟩
        · cases ha
          exact .inr ⟨f, (ih f).2 ⟨hr, by omega⟩, rfl⟩
        · simp only at h1 h2 h3
          subst h1 h2
          simp only [Bool.false_eq_true, if_false, if_true] at hd
          have := (dim_le hr).2 (by omega)
          subst this
          left
          rcases h3 with rfl | rfl <;> simp

theorem mem_sideOf : ∀ (f e : Elem), e ∈ sideOf f ↔ f ∈ sides e
  | [], e => by
    rw [mem_sides]
    simp only [sideOf, List.not_mem_nil, false_iff]
    rintro ⟨h, hd⟩
    cases h
    simp [dim] at hd
  | (c, s) :: f, e => by
    have ih := mem_sideOf f
    rcases e with _ | ⟨⟨d, t⟩, e⟩
    · cases s <;> simp [sideOf, sides]
    simp only [sideOf, sides, List.mem_append, List.mem_map]
    constructor
    · rintro (h | ⟨g, hg, he⟩)
      · cases s with
        | true => simp at h
        | false =>
          left
          simp only [Bool.not_false, if_true, List.mem_cons, List.cons.injEq, Prod.mk.injEq, List.not_mem_nil,
            or_false] at h
          rcases h with ⟨⟨rfl, rfl⟩, rfl⟩ | ⟨⟨rfl, rfl⟩, rfl⟩
          · simp
          · simp
      · cases he
        exact .inr ⟨f, (ih e).1 hg, rfl⟩
    · rintro (h | ⟨g, hg, he⟩)
      · cases t with
        | false => simp at h
        | true =>
          left
          simp only [if_true, List.mem_cons, List.cons.injEq, Prod.mk.injEq, List.not_mem_nil, or_false] at h
          rcases h with ⟨⟨rfl, rfl⟩, rfl⟩ | ⟨⟨rfl, rfl⟩, rfl⟩
          · simp
          · simp
      · cases he
        exact .inr ⟨e, (ih e).2 hg, rfl⟩

theorem forall₂_axis_length {f e : Elem} (h : List.Forall₂ AxisLe f e) : f.length = e.length := h.length_eq

/-- The sides of an element are exactly its facets, in every dimension. -/
theorem C74_sides (e f : Elem) : f ∈ sides e ↔ IsFacet f e := by
  rw [mem_sides, IsFacet]
  constructor
  · rintro ⟨h, hd⟩
    exact ⟨h.length_eq, hd, (subset_iff f e h.length_eq).2 h⟩
  · rintro ⟨hl, hd, hv⟩
    exact ⟨(subset_iff f e hl).1 hv, hd⟩

/-- `side_of` lists exactly the elements of which `f` is a facet. -/
theorem C74_side_of (f e : Elem) : e ∈ sideOf f ↔ IsFacet f e := by rw [mem_sideOf, C74_sides]

/-- No side is listed twice; there are `n_sides` of them; `side_of` lists two elements per axis on which `e` does not
extend, none twice. -/
theorem C74_counts (e : Elem) : (sides e).Nodup ∧ (sides e).length = nSides e ∧
    (sideOf e).Nodup ∧ (sideOf e).length = 2 * (e.length - dim e) := by
  have hle : ∀ e : Elem, dim e ≤ e.length := by
    intro e; rw [dim]; exact (List.count_le_length).trans (by simp)
  induction e with
  | nil => simp [sides, sideOf, nSides, dim]
  | cons a e ih =>
    obtain ⟨c, s⟩ := a
    obtain ⟨h1, h2, h3, h4⟩ := ih
    have inj : Function.Injective (fun x : Elem => (c, s) :: x) := fun x y h => by simpa using h
    have m1 := h1.map inj
    have m3 := h3.map inj
    have := hle e
    cases s with
    | false =>
      simp only [sides, sideOf, nSides, dim_cons, Bool.false_eq_true, if_false, List.nil_append, Bool.not_false, if_true,
        List.length_map, List.length_append, List.length_cons, List.length_nil]
      refine ⟨m1, by rw [h2, nSides]; omega, ?_, by rw [h4]; omega⟩
      refine List.nodup_append.2 ⟨?_, m3, ?_⟩
      · simp only [List.nodup_cons, List.mem_singleton, List.cons.injEq, Prod.mk.injEq, and_true, List.not_mem_nil,
          not_false_eq_true, List.nodup_nil]
        omega
      · intro x hx y hy
        obtain ⟨z, _, rfl⟩ := List.mem_map.1 hy
        simp only [List.mem_cons, List.not_mem_nil, or_false] at hx
        rcases hx with rfl | rfl <;> simp
    | true =>
      simp only [sides, sideOf, nSides, dim_cons, Bool.false_eq_true, if_false, List.nil_append, Bool.not_true, if_true,
        List.length_map, List.length_append, List.length_cons, List.length_nil]
      refine ⟨?_, by rw [h2, nSides]; omega, m3, by rw [h4]; omega⟩
      refine List.nodup_append.2 ⟨?_, m1, ?_⟩
      · simp
      · intro x hx y hy
        obtain ⟨z, _, rfl⟩ := List.mem_map.1 hy
        simp only [List.mem_cons, List.not_mem_nil, or_false] at hx
        rcases hx with rfl | rfl <;> simp

/-! ## iteration -/

theorem types_spec : ∀ (N k : Nat), (types N k).Nodup ∧ ∀ t, t ∈ types N k ↔ t.length = N ∧ t.count true = k
  | 0, 0 => by
    refine ⟨by simp [types], fun t => ?_⟩
    simp only [types, List.mem_singleton]
    constructor
    · rintro rfl; simp
    · rintro ⟨h, _⟩; exact List.eq_nil_of_length_eq_zero h
  | 0, k + 1 => by
    refine ⟨by simp [types], fun t => ?_⟩
    simp only [types, List.not_mem_nil, false_iff]
    rintro ⟨h, h'⟩
    rw [List.eq_nil_of_length_eq_zero h] at h'
    simp at h'
  | N + 1, 0 => by
    obtain ⟨h1, h2⟩ := types_spec N 0
    refine ⟨h1.map (fun x y h => by simpa using h), fun t => ?_⟩
    simp only [types, List.mem_map, h2]
    constructor
    · rintro ⟨r, ⟨hl, hc⟩, rfl⟩; simp [hl, hc]
    · rintro ⟨hl, hc⟩
      rcases t with _ | ⟨b, t⟩
      · simp at hl
      · cases b with
        | true => simp at hc
        | false => exact ⟨t, ⟨by simpa using hl, by simpa using hc⟩, rfl⟩
  | N + 1, k + 1 => by
    obtain ⟨h1, h2⟩ := types_spec N k
    obtain ⟨h3, h4⟩ := types_spec N (k + 1)
    refine ⟨List.nodup_append.2 ⟨h1.map (fun x y h => by simpa using h), h3.map (fun x y h => by simpa using h), ?_⟩, fun t => ?_⟩
    · intro x hx y hy
      obtain ⟨_, _, rfl⟩ := List.mem_map.1 hx
      obtain ⟨_, _, rfl⟩ := List.mem_map.1 hy
      simp
    · simp only [types, List.mem_append, List.mem_map, h2, h4]
      constructor
      · rintro (⟨r, ⟨hl, hc⟩, rfl⟩ | ⟨r, ⟨hl, hc⟩, rfl⟩) <;> simp [hl, hc]
      · rintro ⟨hl, hc⟩
        rcases t with _ | ⟨b, t⟩
        · simp at hl
        · cases b with
          | true => exact .inl ⟨t, ⟨by simpa using hl, by simpa using hc⟩, rfl⟩
          | false => exact .inr ⟨t, ⟨by simpa using hl, by simpa using hc⟩, rfl⟩

theorem types_ne_nil (N k : Nat) (h : k ≤ N) : types N k ≠ [] := by
  intro h0
  have : List.replicate k true ++ List.replicate (N - k) false ∈ types N k := by
    rw [(types_spec N k).2]
    refine ⟨by simp; omega, ?_⟩
    rw [List.count_append, List.count_replicate_self, List.count_replicate]
    simp
  rw [h0] at this
  simp at this

/-- all positions, first axis fastest -/
def positions : List Int → List (List Int)
  | [] => [[]]
  | m :: ms => (positions ms).flatMap fun r => (List.range m.toNat).map fun (i : Nat) => (i : Int) :: r

theorem mem_positions : ∀ (rez c : List Int), c ∈ positions rez ↔ List.Forall₂ (fun x m => 0 ≤ x ∧ x < m) c rez
  | [], c => by
    simp only [positions, List.mem_singleton]
    constructor
    · rintro rfl; exact .nil
    · intro h; cases h; rfl
  | m :: ms, c => by
    simp only [positions, List.mem_flatMap, List.mem_map, List.mem_range, mem_positions ms]
    constructor
    · rintro ⟨r, hr, i, hi, rfl⟩
      exact .cons ⟨by omega, by omega⟩ hr
    · intro h
      cases h with
      | @cons x _ r _ hx hr => exact ⟨r, hr, x.toNat, by omega, by congr 1; omega⟩

theorem positions_nodup : ∀ rez : List Int, (positions rez).Nodup
  | [] => by simp [positions]
  | m :: ms => by
    rw [positions, List.nodup_flatMap]
    refine ⟨fun r _ => ?_, (positions_nodup ms).imp fun {a b} hab => ?_⟩
    · refine List.nodup_range.map fun i j h => ?_
      simp only [List.cons.injEq, and_true] at h
      omega
    · intro x hx hy
      obtain ⟨_, _, rfl⟩ := List.mem_map.1 hx
      obtain ⟨_, _, h⟩ := List.mem_map.1 hy
      exact hab (by simpa using (List.cons.inj h).2.symm)

/-- consecutive in a list: a predecessor/successor chain whose last element has no successor -/
structure Enumerates {α : Type} (next : α → Option α) (first last : α) (l : List α) : Prop where
  head : l.head? = some first
  ends : l.getLast? = some last
  chain : l.IsChain fun a b => next a = some b
  stop : next last = none
  nodup : l.Nodup

theorem positions_chain : ∀ rez : List Int, (∀ m ∈ rez, 0 < m) →
    (positions rez).head? = some (List.replicate rez.length 0) ∧ (positions rez).getLast? = some (rez.map (· - 1)) ∧
    (positions rez).IsChain (fun a b => carry a rez = some b) ∧ carry (rez.map (· - 1)) rez = none
  | [], _ => by simp [positions, carry]
  | m :: ms, h => by
    obtain ⟨h1, h2, h3, h4⟩ := positions_chain ms fun x hx => h x (List.mem_cons_of_mem _ hx)
    have hm : 0 < m := h m List.mem_cons_self
    obtain ⟨k, hk⟩ : ∃ k : Nat, m = (k : Int) + 1 := ⟨(m - 1).toNat, by omega⟩
    have hk' : m.toNat = k + 1 := by omega
    have blockHead : ∀ r : List Int, ((List.range m.toNat).map fun (i : Nat) => (i : Int) :: r).head? = some (0 :: r) := by
      intro r; rw [hk', List.range_succ_eq_map]; rfl
    have blockLast : ∀ r : List Int, ((List.range m.toNat).map fun (i : Nat) => (i : Int) :: r).getLast? =
        some ((m - 1) :: r) := by
      intro r; rw [hk', List.range_succ, List.map_append]; simp [hk]
    refine ⟨?_, ?_, ?_, ?_⟩
    · rcases hp : positions ms with _ | ⟨a, l⟩
      · rw [hp] at h1; simp at h1
      · rw [hp] at h1
        have ha : a = List.replicate ms.length 0 := by simpa using h1
        rw [positions, hp, List.flatMap_cons, List.head?_append, blockHead, ha]; rfl
    · rcases List.eq_nil_or_concat (positions ms) with hp | ⟨l, a, hp⟩
      · rw [hp] at h2; simp at h2
      · rw [List.concat_eq_append] at hp
        rw [hp] at h2
        have ha : a = ms.map (· - 1) := by simpa using h2
        rw [positions, hp, List.flatMap_append, List.flatMap_singleton, List.getLast?_append, blockLast, ha]; rfl
    · rw [positions, List.flatMap, List.isChain_flatten]
      · refine ⟨?_, ?_⟩
        · intro l hl
          obtain ⟨r, _, rfl⟩ := List.mem_map.1 hl
          rw [List.isChain_map, List.isChain_iff_getElem]
          intro i hi
          have hi' : i + 1 < m.toNat := by simpa using hi
          simp only [List.getElem_range, carry]
          rw [if_neg (by omega)]
          simp
        · rw [List.isChain_map]
          refine h3.imp fun {a b} hab => ?_
          intro x hx y hy
          rw [blockLast] at hx
          rw [blockHead] at hy
          cases hx; cases hy
          simp [carry, hab]
      · intro hc
        obtain ⟨r, _, hr⟩ := List.mem_map.1 hc
        have := blockHead r
        rw [hr] at this
        simp at this
    · simp [carry, h4]

theorem zip_fst {c : List Int} {t : List Bool} (h : c.length = t.length) : (c.zip t).map Prod.fst = c :=
  List.map_fst_zip (by omega)

theorem zip_snd {c : List Int} {t : List Bool} (h : c.length = t.length) : (c.zip t).map Prod.snd = t :=
  List.map_snd_zip (by omega)

theorem next_zip_type {rez c : List Int} {d i : Nat} {t u : List Bool} (hl : c.length = rez.length)
    (ht : (types rez.length d)[i]? = some t) (hu : (types rez.length d)[i + 1]? = some u) :
    next rez (c.zip t) = some (c.zip u) := by
  obtain ⟨hnd, hmem⟩ := types_spec rez.length d
  have htm := (hmem t).1 (List.mem_of_getElem? ht)
  have hlt : c.length = t.length := by rw [hl, htm.1]
  have hdim : dim (c.zip t) = d := by rw [dim, zip_snd hlt, htm.2]
  have hlen : (c.zip t).length = rez.length := by rw [List.length_zip, hlt, htm.1]; simp
  obtain ⟨hi, rfl⟩ := List.getElem?_eq_some_iff.1 ht
  obtain ⟨hi1, hu'⟩ := List.getElem?_eq_some_iff.1 hu
  have hidx : (types rez.length d).idxOf (types rez.length d)[i] = i := hnd.idxOf_getElem i hi
  simp only [next, hdim, hlen, zip_snd hlt, zip_fst hlt, hidx]
  rw [if_pos hi1, hu]; rfl

theorem next_zip_carry {rez c : List Int} {d : Nat} {t u : List Bool} (hl : c.length = rez.length)
    (ht : (types rez.length d).getLast? = some t) (hu : (types rez.length d)[0]? = some u) :
    next rez (c.zip t) = (carry c rez).map (·.zip u) := by
  obtain ⟨hnd, hmem⟩ := types_spec rez.length d
  have htm := (hmem t).1 (List.mem_of_getLast? ht)
  have hlt : c.length = t.length := by rw [hl, htm.1]
  have hdim : dim (c.zip t) = d := by rw [dim, zip_snd hlt, htm.2]
  have hlen : (c.zip t).length = rez.length := by rw [List.length_zip, hlt, htm.1]; simp
  rw [List.getLast?_eq_getElem?] at ht
  obtain ⟨hi, rfl⟩ := List.getElem?_eq_some_iff.1 ht
  have hidx : (types rez.length d).idxOf (types rez.length d)[(types rez.length d).length - 1] =
    (types rez.length d).length - 1 := hnd.idxOf_getElem _ hi
  simp only [next, hdim, hlen, zip_snd hlt, zip_fst hlt, hidx]
  rw [if_neg (by omega), hu]
  cases carry c rez <;> rfl

/-- Iteration from `begin(d)` with `++` visits every element of dimension `d` whose corner is in the grid exactly once,
`end(d)` last; incrementing `end(d)` runs out of the arrays. -/
theorem C74_iteration (rez : List Int) (d : Nat) (hr : ∀ m ∈ rez, 0 < m) (hd : d ≤ rez.length) :
    ∃ (first last : Elem) (l : List Elem), begin_ rez d = some first ∧ end_ rez d = some last ∧
      Enumerates (next rez) first last l ∧
      ∀ e, e ∈ l ↔ dim e = d ∧ List.Forall₂ (fun a m => 0 ≤ a.1 ∧ a.1 < m) e rez := by
  obtain ⟨h1, h2, h3, h4⟩ := positions_chain rez hr
  obtain ⟨hnd, hmem⟩ := types_spec rez.length d
  have hne := types_ne_nil rez.length d hd
  obtain ⟨u, hu⟩ : ∃ u, (types rez.length d)[0]? = some u :=
    ⟨_, List.getElem?_eq_getElem (List.length_pos_iff.2 hne)⟩
  obtain ⟨t, ht⟩ : ∃ t, (types rez.length d).getLast? = some t := by
    rw [List.getLast?_eq_some_getLast hne]; exact ⟨_, rfl⟩
  have hlenp : ∀ c ∈ positions rez, c.length = rez.length := fun c hc => ((mem_positions rez c).1 hc).length_eq
  have blockHead : ∀ c : List Int, ((types rez.length d).map (c.zip ·)).head? = some (c.zip u) := by
    intro c; rw [List.head?_map, List.head?_eq_getElem?, hu]; rfl
  have blockLast : ∀ c : List Int, ((types rez.length d).map (c.zip ·)).getLast? = some (c.zip t) := by
    intro c; rw [List.getLast?_map, ht]; rfl
  refine ⟨(List.replicate rez.length 0).zip u, (rez.map (· - 1)).zip t,
    (positions rez).flatMap (fun c => (types rez.length d).map (c.zip ·)), ?_, ?_, ⟨?_, ?_, ?_, ?_, ?_⟩, ?_⟩
  · rw [begin_, hu]; rfl
  · rw [end_, ht]; rfl
  · rcases hp : positions rez with _ | ⟨a, l⟩
    · rw [hp] at h1; simp at h1
    · rw [hp] at h1
      have ha : a = List.replicate rez.length 0 := by simpa using h1
      rw [List.flatMap_cons, List.head?_append, blockHead, ha]; rfl
  · rcases List.eq_nil_or_concat (positions rez) with hp | ⟨l, a, hp⟩
    · rw [hp] at h2; simp at h2
    · rw [List.concat_eq_append] at hp
      rw [hp] at h2
      have ha : a = rez.map (· - 1) := by simpa using h2
      rw [hp, List.flatMap_append, List.flatMap_singleton, List.getLast?_append, blockLast, ha]; rfl
  · rw [List.flatMap, List.isChain_flatten]
    · refine ⟨?_, ?_⟩
      · intro l hl
        obtain ⟨c, hc, rfl⟩ := List.mem_map.1 hl
        rw [List.isChain_map, List.isChain_iff_getElem]
        intro i hi
        exact next_zip_type (i := i) (hlenp c hc) (List.getElem?_eq_getElem _) (List.getElem?_eq_getElem _)
      · rw [List.isChain_map]
        have h3' : (positions rez).IsChain (fun a b => a ∈ positions rez ∧ carry a rez = some b) := by
          rw [List.isChain_iff_getElem] at h3 ⊢
          exact fun i hi => ⟨List.getElem_mem _, h3 i hi⟩
        refine h3'.imp fun {a b} hab => ?_
        intro x hx y hy
        rw [blockLast] at hx
        rw [blockHead] at hy
        cases hx; cases hy
        rw [next_zip_carry (hlenp a hab.1) ht hu, hab.2]; rfl
    · intro hc
      obtain ⟨c, _, hc'⟩ := List.mem_map.1 hc
      have := blockHead c
      rw [hc'] at this
      simp at this
  · rw [next_zip_carry (by simp) ht hu, h4]; rfl
  · rw [List.nodup_flatMap]
    refine ⟨fun c hc => ?_, ?_⟩
    · refine List.Nodup.map_on (fun x hx y hy hxy => ?_) hnd
      have hx' := ((hmem x).1 hx).1
      have hy' := ((hmem y).1 hy).1
      have hc' := hlenp c hc
      rw [← zip_snd (c := c) (t := x) (by omega), hxy, zip_snd (by omega)]
    · have : (positions rez).Pairwise fun a b => a ∈ positions rez ∧ b ∈ positions rez ∧ a ≠ b := by
        rw [List.pairwise_iff_getElem]
        exact fun i j hi hj hij => ⟨List.getElem_mem _, List.getElem_mem _,
          List.pairwise_iff_getElem.1 (positions_nodup rez) i j hi hj hij⟩
      refine this.imp fun {a b} hab => ?_
      intro x hx hy
      obtain ⟨s, hs, rfl⟩ := List.mem_map.1 hx
      obtain ⟨s', hs', he⟩ := List.mem_map.1 hy
      have e1 := ((hmem s).1 hs).1
      have e2 := ((hmem s').1 hs').1
      have e3 := hlenp a hab.1
      have e4 := hlenp b hab.2.1
      apply hab.2.2
      have := congrArg (List.map Prod.fst) he
      rw [zip_fst (by omega), zip_fst (by omega)] at this
      exact this.symm
  · intro e
    simp only [List.mem_flatMap, List.mem_map, mem_positions, hmem]
    constructor
    · rintro ⟨c, hc, s, ⟨hs1, hs2⟩, rfl⟩
      have hcl : c.length = s.length := by rw [hc.length_eq, hs1]
      refine ⟨by rw [dim, zip_snd hcl, hs2], ?_⟩
      rw [← zip_fst hcl, List.forall₂_map_left_iff] at hc
      exact hc
    · rintro ⟨hdim, hf⟩
      refine ⟨e.map Prod.fst, List.forall₂_map_left_iff.2 hf, e.map Prod.snd, ⟨by rw [List.length_map, hf.length_eq], hdim⟩, ?_⟩
      rw [List.zip_map', List.map_id'']
      intro x; rfl

/-! ## examples -/

/-- a square in a 2-D mesh, its four edges, and an edge's two squares -/
example : sides [(3, true), (5, true)] =
    [[(3, false), (5, true)], [(4, false), (5, true)], [(3, true), (5, false)], [(3, true), (6, false)]] := by decide
example : sideOf [(4, false), (5, true)] = [[(4, true), (5, true)], [(3, true), (5, true)]] := by decide
/-- hypotheses of `C74_iteration`, and one step of it over a carry -/
example : next [2, 3] [(1, false), (0, true)] = some [(0, true), (1, false)] := by decide
example : (∀ m ∈ [(2 : Int), 3], 0 < m) ∧ 1 ≤ [(2 : Int), 3].length := by decide

end Verif.RM
