import Verif.X3Mesh.Sides

/-! `side_of` on the extruded 4-D mesh. -/

namespace Verif.X3

open Verif.U3
open Verif.XM (mod rem mod_good mod_small mod_of_nonneg rem_small rem_add ediv_at emod_at at_eq)

variable {n0 : Nat} {ts : List Tet} {m : M3}

/-- The ids `addAll` inserts. -/
def vals (m : M3) (e : Nat) (t id : Int) (c : Cell) : List Add → Option (List Int)
  | [] => some []
  | .self type dt :: l => do
    let r ← vals m e t id c l
    some ((id + (t + dt) * n m e + off m e type) :: r)
  | .face js type dt :: l => do
    let f ← must m 2 (pick c js)
    let r ← vals m e t id c l
    some ((f + (t + dt) * n m e + off m e type) :: r)

theorem addAll_vals {e : Nat} {t id : Int} {c : Cell} : ∀ {L : List Add} {vs acc : List Int}, vals m e t id c L = some vs →
    acc.Pairwise (· < ·) → ∃ R, addAll m e t id c L acc = some R ∧ R.Pairwise (· < ·) ∧ ∀ y, y ∈ R ↔ y ∈ acc ∨ y ∈ vs
  | [], vs, acc, h, ha => by
    simp only [vals, Option.some.injEq] at h
    subst h
    exact ⟨acc, rfl, ha, by simp⟩
  | .self type dt :: l, vs, acc, h, ha => by
    simp only [vals, Option.bind_eq_bind] at h
    obtain ⟨r, h1, h2⟩ := Option.bind_eq_some_iff.1 h
    simp only [Option.some.injEq] at h2
    subst h2
    obtain ⟨R, g1, g2, g3⟩ := addAll_vals h1 (StrictSorted.setInsert (x := id + (t + dt) * n m e + off m e type) ha)
    refine ⟨R, by simpa only [addAll, addOne, Option.bind_eq_bind, Option.bind_some] using g1, g2, ?_⟩
    intro y
    rw [g3, mem_setInsert, List.mem_cons]
    tauto
  | .face js type dt :: l, vs, acc, h, ha => by
    simp only [vals, Option.bind_eq_bind] at h
    obtain ⟨f, h0, h⟩ := Option.bind_eq_some_iff.1 h
    obtain ⟨r, h1, h2⟩ := Option.bind_eq_some_iff.1 h
    simp only [Option.some.injEq] at h2
    subst h2
    obtain ⟨R, g1, g2, g3⟩ := addAll_vals h1 (StrictSorted.setInsert (x := f + (t + dt) * n m e + off m e type) ha)
    refine ⟨R, by simpa only [addAll, addOne, Option.bind_eq_bind, Option.bind_some, h0] using g1, g2, ?_⟩
    intro y
    rw [g3, mem_setInsert, List.mem_cons]
    tauto

/-- What the loop inserts for base coface `x`. -/
def Body (m : M3) (b e : Nat) (t : Int) (small : Cell) (f : Nat → List Add) (x : Int) (vs : List Int) : Prop :=
  ∃ c pos, m.get b x = some c ∧ position small c = some pos ∧ vals m e t x c (f pos) = some vs

theorem Body.func {b e : Nat} {t : Int} {small : Cell} {f : Nat → List Add} {x : Int} {vs vs' : List Int}
    (h : Body m b e t small f x vs) (h' : Body m b e t small f x vs') : vs = vs' := by
  obtain ⟨c, pos, h1, h2, h3⟩ := h
  obtain ⟨c', pos', h1', h2', h3'⟩ := h'
  rw [h1] at h1'; obtain rfl := Option.some.inj h1'
  rw [h2] at h2'; obtain rfl := Option.some.inj h2'
  rw [h3] at h3'; exact Option.some.inj h3'

theorem cofaceLoop_spec {b e : Nat} {t : Int} {small : Cell} {f : Nat → List Add} : ∀ {S acc : List Int}, acc.Pairwise (· < ·) →
    (∀ x ∈ S, ∃ vs, Body m b e t small f x vs) → ∃ R, cofaceLoop m b e t small f S acc = some R ∧ R.Pairwise (· < ·) ∧
    ∀ y, y ∈ R ↔ y ∈ acc ∨ ∃ x ∈ S, ∃ vs, Body m b e t small f x vs ∧ y ∈ vs
  | [], acc, ha, _ => ⟨acc, rfl, ha, by simp⟩
  | x :: S, acc, ha, hS => by
    obtain ⟨vs, c, pos, h1, h2, h3⟩ := hS x (by simp)
    obtain ⟨R1, g1, g2, g3⟩ := addAll_vals h3 ha
    obtain ⟨R, r1, r2, r3⟩ := cofaceLoop_spec (S := S) g2 (fun x hx => hS x (List.mem_cons_of_mem _ hx))
    refine ⟨R, by simpa only [cofaceLoop, h1, h2, g1, Option.bind_eq_bind, Option.bind_some] using r1, r2, ?_⟩
    intro y
    rw [r3, g3]
    constructor
    · rintro ((h | h) | ⟨x', hx', h⟩)
      · exact Or.inl h
      · exact Or.inr ⟨x, by simp, vs, ⟨c, pos, h1, h2, h3⟩, h⟩
      · exact Or.inr ⟨x', List.mem_cons_of_mem _ hx', h⟩
    · rintro (h | ⟨x', hx', vs', hb, h⟩)
      · exact Or.inl (Or.inl h)
      · rcases List.mem_cons.1 hx' with rfl | hx'
        · rw [Body.func hb ⟨c, pos, h1, h2, h3⟩] at h
          exact Or.inl (Or.inr h)
        · exact Or.inr ⟨x', hx', vs', hb, h⟩

/-- A base triangle in a base tetrahedron. -/
inductive InK (a b c : Int) (m : M3) (x : Int) : Nat → Prop
  | p0 {z : Int} : K m x z a b c → InK a b c m x 0
  | p1 {z : Int} : K m x a z b c → InK a b c m x 1
  | p2 {z : Int} : K m x a b z c → InK a b c m x 2
  | p3 {z : Int} : K m x a b c z → InK a b c m x 3

theorem inK_of (B : Base n0 ts m) {j x a b c : Int} {σ : Cell} (h : T m j a b c) (hx : m.get 3 x = some σ) (hs : ∀ v ∈ [a, b, c], v ∈ σ) :
    ∃ pos, InK a b c m x pos := by
  obtain ⟨p, q, r, s, rfl, hk⟩ := K_of B hx
  have h1 := h.ab
  have h2 := h.bc
  have g1 := hk.ab
  have g2 := hk.bc
  have g3 := hk.cd
  simp at hs
  have : (a = p ∧ b = q ∧ c = r) ∨ (a = p ∧ b = q ∧ c = s) ∨ (a = p ∧ b = r ∧ c = s) ∨ (a = q ∧ b = r ∧ c = s) := by omega
  rcases this with ⟨rfl, rfl, rfl⟩ | ⟨rfl, rfl, rfl⟩ | ⟨rfl, rfl, rfl⟩ | ⟨rfl, rfl, rfl⟩
  · exact ⟨3, .p3 hk⟩
  · exact ⟨2, .p2 hk⟩
  · exact ⟨1, .p1 hk⟩
  · exact ⟨0, .p0 hk⟩

theorem InK.position {a b c x : Int} {pos : Nat} (h : InK a b c m x pos) : ∃ σ, m.get 3 x = some σ ∧ position [a, b, c] σ = some pos := by
  cases h with
  | p0 h | p1 h | p2 h | p3 h =>
    refine ⟨_, h.get, ?_⟩
    have h1 := h.ab
    have h2 := h.bc
    have h3 := h.cd
    simp [X3.position]
    try omega

theorem InK.get {a b c x : Int} {pos : Nat} (h : InK a b c m x pos) : ∃ σ, m.get 3 x = some σ ∧ ∀ v ∈ [a, b, c], v ∈ σ := by
  cases h with
  | p0 h | p1 h | p2 h | p3 h => exact ⟨_, h.get, by simp⟩

/-- A base edge in a base triangle. -/
inductive InT (a b : Int) (m : M3) (x : Int) : Nat → Prop
  | p0 {z : Int} : T m x z a b → InT a b m x 0
  | p1 {z : Int} : T m x a z b → InT a b m x 1
  | p2 {z : Int} : T m x a b z → InT a b m x 2

theorem inT_of (B : Base n0 ts m) {j x a b : Int} {σ : Cell} (h : E m j a b) (hx : m.get 2 x = some σ) (hs : ∀ v ∈ [a, b], v ∈ σ) :
    ∃ pos, InT a b m x pos := by
  obtain ⟨p, q, r, rfl, hk⟩ := T_of B hx
  have h1 := h.ab
  have g1 := hk.ab
  have g2 := hk.bc
  simp at hs
  have : (a = p ∧ b = q) ∨ (a = p ∧ b = r) ∨ (a = q ∧ b = r) := by omega
  rcases this with ⟨rfl, rfl⟩ | ⟨rfl, rfl⟩ | ⟨rfl, rfl⟩
  · exact ⟨2, .p2 hk⟩
  · exact ⟨1, .p1 hk⟩
  · exact ⟨0, .p0 hk⟩

theorem InT.position {a b x : Int} {pos : Nat} (h : InT a b m x pos) : ∃ σ, m.get 2 x = some σ ∧ position [a, b] σ = some pos := by
  cases h with
  | p0 h | p1 h | p2 h =>
    refine ⟨_, h.get, ?_⟩
    have h1 := h.ab
    have h2 := h.bc
    simp [X3.position]
    try omega

theorem InT.get {a b x : Int} {pos : Nat} (h : InT a b m x pos) : ∃ σ, m.get 2 x = some σ ∧ ∀ v ∈ [a, b], v ∈ σ := by
  cases h with
  | p0 h | p1 h | p2 h => exact ⟨_, h.get, by simp⟩

/-- The loop over the base tetrahedra around a base triangle. -/
theorem loopK (B : Base n0 ts m) {j a b c : Int} (h : T m j a b c) (e : Nat) (t : Int) (f : Nat → List Add)
    (hf : ∀ x pos, InK a b c m x pos → ∃ vs, Body m 3 e t [a, b, c] f x vs) :
    ∃ R, (do let id ← must m 2 [a, b, c]; let S ← m.sideOf 2 id; cofaceLoop m 3 e t [a, b, c] f S []) = some R ∧ R.Pairwise (· < ·) ∧
    ∀ y, y ∈ R ↔ ∃ x pos vs, InK a b c m x pos ∧ Body m 3 e t [a, b, c] f x vs ∧ y ∈ vs := by
  obtain ⟨S, s1, -, -, s4⟩ := B.side (Or.inr rfl) h.get
  obtain ⟨R, r1, r2, r3⟩ := cofaceLoop_spec (m := m) (b := 3) (e := e) (t := t) (small := [a, b, c]) (f := f) (S := S) List.Pairwise.nil (by
    intro x hx
    obtain ⟨σ, g1, g2⟩ := (s4 x).1 hx
    obtain ⟨pos, hp⟩ := inK_of B h g1 g2
    exact hf x pos hp)
  refine ⟨R, by simpa only [must_of B h.get, s1, Option.bind_eq_bind, Option.bind_some] using r1, r2, ?_⟩
  intro y
  rw [r3]
  constructor
  · rintro (h' | ⟨x, hx, vs, hb, hy⟩)
    · simp at h'
    · obtain ⟨σ, g1, g2⟩ := (s4 x).1 hx
      obtain ⟨pos, hp⟩ := inK_of B h g1 g2
      exact ⟨x, pos, vs, hp, hb, hy⟩
  · rintro ⟨x, pos, vs, hp, hb, hy⟩
    exact Or.inr ⟨x, (s4 x).2 hp.get, vs, hb, hy⟩

/-- The loop over the base triangles around a base edge. -/
theorem loopT (B : Base n0 ts m) {j a b : Int} (h : E m j a b) (e : Nat) (t : Int) (f : Nat → List Add)
    (hf : ∀ x pos, InT a b m x pos → ∃ vs, Body m 2 e t [a, b] f x vs) :
    ∃ R, (do let id ← must m 1 [a, b]; let S ← m.sideOf 1 id; cofaceLoop m 2 e t [a, b] f S []) = some R ∧ R.Pairwise (· < ·) ∧
    ∀ y, y ∈ R ↔ ∃ x pos vs, InT a b m x pos ∧ Body m 2 e t [a, b] f x vs ∧ y ∈ vs := by
  obtain ⟨S, s1, -, -, s4⟩ := B.side (Or.inl rfl) h.get
  obtain ⟨R, r1, r2, r3⟩ := cofaceLoop_spec (m := m) (b := 2) (e := e) (t := t) (small := [a, b]) (f := f) (S := S) List.Pairwise.nil (by
    intro x hx
    obtain ⟨σ, g1, g2⟩ := (s4 x).1 hx
    obtain ⟨pos, hp⟩ := inT_of B h g1 g2
    exact hf x pos hp)
  refine ⟨R, by simpa only [must_of B h.get, s1, Option.bind_eq_bind, Option.bind_some] using r1, r2, ?_⟩
  intro y
  rw [r3]
  constructor
  · rintro (h' | ⟨x, hx, vs, hb, hy⟩)
    · simp at h'
    · obtain ⟨σ, g1, g2⟩ := (s4 x).1 hx
      obtain ⟨pos, hp⟩ := inT_of B h g1 g2
      exact ⟨x, pos, vs, hp, hb, hy⟩
  · rintro ⟨x, pos, vs, hp, hb, hy⟩
    exact Or.inr ⟨x, (s4 x).2 hp.get, vs, hb, hy⟩

end Verif.X3
