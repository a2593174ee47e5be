import Verif.MPAS.PointIn
import Mathlib.Tactic.IntervalCases

/-!
# C151: the cell that contains a point
-/

namespace Verif.MPAS

open Verif.Num

variable {K : Type} [Field K] [LinearOrder K]

/-- (specification) the corners of cell `c`, in the order of the file. -/
def Mesh.corners (m : Mesh K) (c : Nat) : List (Fin 3 → K) :=
  (List.range (m.nEdgesOnCell c)).map fun j => m.xyzVertices (m.vid2i (m.verticesOnCell j c)).toNat

/-- (specification) cell `c` contains `x`: it is on the inner side of all sides of the cell. -/
def Mesh.Contains (m : Mesh K) (c : Int) (x : Fin 3 → K) : Prop :=
  0 ≤ c ∧ c < m.nCells ∧ m.corners c.toNat ≠ [] ∧ ∀ p q, Sides (m.corners c.toNat) p q → 0 ≤ det p q x

/-- (specification) the identifiers in the arrays of the mesh are known (a missing neighbour has an unknown one) and no cell has more than ten
corners. -/
structure Mesh.Ok (m : Mesh K) : Prop where
  few : ∀ c < m.nCells, m.nEdgesOnCell c ≤ 10 ∧ m.nEdgesOnCell c ≤ m.maxEdges
  verts : ∀ c < m.nCells, ∀ j < m.nEdgesOnCell c, 0 ≤ m.vid2i (m.verticesOnCell j c) ∧ m.vid2i (m.verticesOnCell j c) < m.nVerts
  cells : ∀ c < m.nCells, ∀ j < m.nEdgesOnCell c, m.cid2i (m.cellsOnCell j c) < m.nCells

theorem idx_some {n : Nat} {i : Int} {k : Nat} (h : idx n i = some k) : 0 ≤ i ∧ i < n ∧ k = i.toNat := by
  unfold idx at h
  split_ifs at h with h1
  exact ⟨h1.1, h1.2, (Option.some.inj h).symm⟩

theorem idx_of {n : Nat} {i : Int} (h0 : 0 ≤ i) (h1 : i < n) : idx n i = some i.toNat := by
  unfold idx; rw [if_pos ⟨h0, h1⟩]

theorem mapM_some {α β : Type} (f : α → Option β) (g : α → β) : ∀ l : List α, (∀ a ∈ l, f a = some (g a)) → l.mapM f = some (l.map g) := by
  intro l
  induction l with
  | nil => intro _; rfl
  | cons a l ih =>
    intro h
    rw [List.mapM_cons, h a (List.mem_cons_self ..), ih fun b hb => h b (List.mem_cons_of_mem _ hb)]
    rfl

theorem mapM_inv {α β γ : Type} (f : α → Option β) (p : β → γ) (g : α → γ) : ∀ (l : List α) (r : List β),
    (∀ a ∈ l, ∀ b, f a = some b → p b = g a) → l.mapM f = some r → r.map p = l.map g := by
  intro l
  induction l with
  | nil => intro r _ h; rw [List.mapM_nil] at h; obtain rfl := Option.some.inj h; rfl
  | cons a l ih =>
    intro r hp h
    rw [List.mapM_cons] at h
    cases ha : f a with
    | none => rw [ha] at h; cases h
    | some b =>
      rw [ha] at h
      cases hl : l.mapM f with
      | none => rw [hl] at h; cases h
      | some bs =>
        rw [hl] at h
        obtain rfl := Option.some.inj h
        rw [List.map_cons, List.map_cons, hp a (List.mem_cons_self ..) b ha, ih bs (fun c hc => hp c (List.mem_cons_of_mem _ hc)) hl]

theorem cellVerts_corners (m : Mesh K) (c : Nat) {vs : List (Nat × (Fin 3 → K))} (h : m.cellVerts c = some vs) :
    vs.map (·.2) = m.corners c ∧ ∀ p ∈ vs, p.2 = m.xyzVertices p.1 := by
  unfold Mesh.cellVerts at h
  split_ifs at h with h1
  constructor
  · apply mapM_inv _ _ _ _ _ _ h
    intro j _ b hb
    cases hi : idx m.nVerts (m.vid2i (m.verticesOnCell j c)) with
    | none => rw [hi] at hb; cases hb
    | some v =>
      rw [hi] at hb
      obtain rfl := Option.some.inj hb
      rw [(idx_some hi).2.2]
  · have := mapM_inv _ (fun b => b.2 = m.xyzVertices b.1) (fun _ => True) _ _ (by
      intro j _ b hb
      cases hi : idx m.nVerts (m.vid2i (m.verticesOnCell j c)) with
      | none => rw [hi] at hb; cases hb
      | some v =>
        rw [hi] at hb
        obtain rfl := Option.some.inj hb
        simp) h
    intro p hp
    have h2 : (p.2 = m.xyzVertices p.1) ∈ vs.map (fun b => b.2 = m.xyzVertices b.1) := List.mem_map_of_mem hp
    rw [this] at h2
    obtain ⟨_, -, h3⟩ := List.mem_map.1 h2
    rw [← h3]; trivial

theorem cellVerts_ok (m : Mesh K) (hm : m.Ok) (c : Nat) (hc : c < m.nCells) : ∃ vs, m.cellVerts c = some vs := by
  unfold Mesh.cellVerts
  rw [if_pos (hm.few c hc)]
  refine ⟨_, mapM_some _ (fun j => ((m.vid2i (m.verticesOnCell j c)).toNat, m.xyzVertices (m.vid2i (m.verticesOnCell j c)).toNat)) _ ?_⟩
  intro j hj
  obtain ⟨h0, h1⟩ := hm.verts c hc j (List.mem_range.1 hj)
  rw [idx_of h0 h1]; rfl

theorem pointInCellI_true (m : Mesh K) (c : Int) (x : Fin 3 → K) (h : m.pointInCellI c x = some true) : m.Contains c x := by
  unfold Mesh.pointInCellI at h
  cases hi : idx m.nCells c with
  | none => rw [hi] at h; cases h
  | some k =>
    cases hv : m.cellVerts k with
    | none => simp only [hi, hv, Option.bind_eq_bind, Option.bind_some, Option.bind_none] at h; cases h
    | some vs =>
      simp only [hi, hv, Option.bind_eq_bind, Option.bind_some] at h
      have h := Option.some.inj h
      obtain ⟨h0, h1, rfl⟩ := idx_some hi
      rw [(cellVerts_corners m _ hv).1] at h
      obtain ⟨h2, h3⟩ := (C150_spec _ _).1 h
      exact ⟨h0, h1, h2, h3⟩

theorem pointInCellI_ok (m : Mesh K) (hm : m.Ok) (c : Int) (h0 : 0 ≤ c) (h1 : c < m.nCells) (x : Fin 3 → K) :
    ∃ b, m.pointInCellI c x = some b ∧ (b = true ↔ m.Contains c x) := by
  obtain ⟨vs, hv⟩ := cellVerts_ok m hm c.toNat (by omega)
  refine ⟨pointInCell (vs.map (·.2)) x, ?_, ?_⟩
  · unfold Mesh.pointInCellI
    simp only [idx_of h0 h1, hv, Option.bind_eq_bind, Option.bind_some]
  · rw [(cellVerts_corners m _ hv).1, C150_spec]
    exact ⟨fun h => ⟨h0, h1, h.1, h.2⟩, fun h => ⟨h.2.2.1, h.2.2.2⟩⟩

/-- The search without a hint: what it answers. -/
theorem locate_spec (m : Mesh K) (nearest : (Fin 3 → K) → Int) (x : Fin 3 → K) (r : Int) (h : m.locate nearest x = some r) :
    (0 ≤ r → r = nearest x ∧ m.Contains r x) ∧ (r < 0 → r = -1) := by
  unfold Mesh.locate at h
  cases hp : m.pointInCellI (nearest x) x with
  | none => rw [hp] at h; cases h
  | some b =>
    simp only [hp, Option.bind_eq_bind, Option.bind_some] at h
    have h := Option.some.inj h
    cases b with
    | true =>
      simp only [if_true] at h
      subst h
      have := pointInCellI_true m _ _ hp
      exact ⟨fun _ => ⟨rfl, this⟩, fun h => absurd this.1 (by omega)⟩
    | false =>
      simp only [Bool.false_eq_true, if_false] at h
      subst h
      exact ⟨fun h => by omega, fun _ => rfl⟩

theorem locate_ok (m : Mesh K) (hm : m.Ok) (nearest : (Fin 3 → K) → Int) (x : Fin 3 → K) (h0 : 0 ≤ nearest x) (h1 : nearest x < m.nCells) :
    ∃ r, m.locate nearest x = some r ∧ (m.Contains (nearest x) x → r = nearest x) ∧ (¬ m.Contains (nearest x) x → r = -1) := by
  obtain ⟨b, hb, hbc⟩ := pointInCellI_ok m hm _ h0 h1 x
  refine ⟨if b then nearest x else -1, ?_, ?_, ?_⟩
  · unfold Mesh.locate; simp only [hb, Option.bind_eq_bind, Option.bind_some]
  · intro h; rw [hbc.2 h]; rfl
  · intro h
    cases b with
    | true => exact absurd (hbc.1 rfl) h
    | false => rfl

theorem bestLoop_spec (m : Mesh K) (x : Fin 3 → K) (p : Nat) : ∀ (k i : Nat) (b r : Nat × K), b.1 < m.nCells → b.2 = dist2 (m.xyzCells b.1) x →
    m.bestLoop x p k i b = some r →
    r.1 < m.nCells ∧ r.2 = dist2 (m.xyzCells r.1) x ∧ r.2 ≤ b.2 ∧
      (∀ j, i ≤ j → j < i + k → 0 ≤ m.cid2i (m.cellsOnCell j p) → r.2 ≤ dist2 (m.xyzCells (m.cid2i (m.cellsOnCell j p)).toNat) x) ∧
      (r.1 = b.1 ∨ ∃ j, i ≤ j ∧ j < i + k ∧ m.cid2i (m.cellsOnCell j p) = (r.1 : Int)) := by
  intro k
  induction k with
  | zero =>
    intro i b r hb hd h
    obtain rfl := Option.some.inj h
    exact ⟨hb, hd, le_refl _, fun j h1 h2 => by omega, Or.inl rfl⟩
  | succ k ih =>
    intro i b r hb hd h
    rw [Mesh.bestLoop] at h
    split_ifs at h with h1
    dsimp only at h
    split_ifs at h with h2
    · obtain ⟨g1, g2, g3, g4, g5⟩ := ih (i + 1) b r hb hd h
      refine ⟨g1, g2, g3, ?_, ?_⟩
      · intro j hj1 hj2 hj3
        rcases Nat.lt_or_eq_of_le hj1 with hj | rfl
        · exact g4 j (by omega) (by omega) hj3
        · omega
      · rcases g5 with g | ⟨j, ga, gb, gc⟩
        · exact Or.inl g
        · exact Or.inr ⟨j, by omega, by omega, gc⟩
    · cases hi : idx m.nCells (m.cid2i (m.cellsOnCell i p)) with
      | none => rw [hi] at h; cases h
      | some c =>
        simp only [hi, Option.bind_eq_bind, Option.bind_some] at h
        obtain ⟨e1, e2, rfl⟩ := idx_some hi
        set c := (m.cid2i (m.cellsOnCell i p)).toNat with hc
        have key : ∀ b' : Nat × K, b'.1 < m.nCells → b'.2 = dist2 (m.xyzCells b'.1) x → b'.2 ≤ b.2 → b'.2 ≤ dist2 (m.xyzCells c) x →
            (b'.1 = b.1 ∨ b'.1 = c) → m.bestLoop x p k (i + 1) b' = some r →
            r.1 < m.nCells ∧ r.2 = dist2 (m.xyzCells r.1) x ∧ r.2 ≤ b.2 ∧
              (∀ j, i ≤ j → j < i + (k + 1) → 0 ≤ m.cid2i (m.cellsOnCell j p) → r.2 ≤ dist2 (m.xyzCells (m.cid2i (m.cellsOnCell j p)).toNat) x) ∧
              (r.1 = b.1 ∨ ∃ j, i ≤ j ∧ j < i + (k + 1) ∧ m.cid2i (m.cellsOnCell j p) = (r.1 : Int)) := by
          intro b' k1 k2 k3 k4 k5 k6
          obtain ⟨g1, g2, g3, g4, g5⟩ := ih (i + 1) b' r k1 k2 k6
          refine ⟨g1, g2, le_trans g3 k3, ?_, ?_⟩
          · intro j hj1 hj2 hj3
            rcases Nat.lt_or_eq_of_le hj1 with hj | rfl
            · exact g4 j (by omega) (by omega) hj3
            · exact le_trans g3 k4
          · rcases g5 with g | ⟨j, ga, gb, gc⟩
            · rcases k5 with k5 | k5
              · exact Or.inl (g.trans k5)
              · refine Or.inr ⟨i, Nat.le_refl _, by omega, ?_⟩
                rw [g, k5, hc]; omega
            · exact Or.inr ⟨j, by omega, by omega, gc⟩
        by_cases hlt : dist2 (m.xyzCells c) x < b.2
        · rw [if_pos hlt] at h
          exact key _ (by simp only [hc]; omega) rfl hlt.le (le_refl _) (Or.inr rfl) h
        · rw [if_neg hlt] at h
          exact key _ hb hd (le_refl _) (not_lt.1 hlt) (Or.inl rfl) h

theorem bestLoop_ok (m : Mesh K) (hm : m.Ok) (x : Fin 3 → K) (p : Nat) (hp : p < m.nCells) : ∀ (k i : Nat) (b : Nat × K), i + k = m.nEdgesOnCell p →
    ∃ r, m.bestLoop x p k i b = some r := by
  intro k
  induction k with
  | zero => intro i b _; exact ⟨b, rfl⟩
  | succ k ih =>
    intro i b hi
    rw [Mesh.bestLoop]
    have := (hm.few p hp).2
    rw [if_pos (by omega)]
    dsimp only
    split_ifs with h2
    · exact ih _ _ (by omega)
    · rw [idx_of (by omega) (hm.cells p hp i (by omega))]
      exact ih _ _ (by omega)

/-- C151: a cell that is returned contains the point, whatever the search tree answers, whatever the mesh and the hint; otherwise -1. -/
theorem C151_sound (m : Mesh K) (nearest : (Fin 3 → K) → Int) (x : Fin 3 → K) (hint r : Int) (h : m.locateFrom nearest x hint = some r) :
    (0 ≤ r → m.Contains r x) ∧ (r < 0 → r = -1) := by
  unfold Mesh.locateFrom at h
  split_ifs at h with h1
  · exact ⟨fun h' => ((locate_spec m nearest x r h).1 h').2, (locate_spec m nearest x r h).2⟩
  · cases hi : idx m.nCells hint with
    | none => rw [hi] at h; cases h
    | some p =>
      cases hb : m.bestLoop x p (m.nEdgesOnCell p) 0 (p, dist2 (m.xyzCells p) x) with
      | none => simp only [hi, hb, Option.bind_eq_bind, Option.bind_some, Option.bind_none] at h; cases h
      | some b =>
        cases hp : m.pointInCellI b.1 x with
        | none => simp only [hi, hb, hp, Option.bind_eq_bind, Option.bind_some, Option.bind_none] at h; cases h
        | some t =>
          simp only [hi, hb, hp, Option.bind_eq_bind, Option.bind_some] at h
          cases t with
          | true =>
            simp only [if_true] at h
            obtain rfl := Option.some.inj h
            have := pointInCellI_true m _ _ hp
            exact ⟨fun _ => this, fun h => absurd this.1 (by omega)⟩
          | false =>
            simp only [Bool.false_eq_true, if_false] at h
            exact ⟨fun h' => ((locate_spec m nearest x r h).1 h').2, (locate_spec m nearest x r h).2⟩

/-- C151: for a mesh with known identifiers, hints below the number of cells and a search tree that answers a cell, the search is defined, and
it fails only if the cell with the nearest centre does not contain the point. -/
theorem C151_complete (m : Mesh K) (hm : m.Ok) (nearest : (Fin 3 → K) → Int) (x : Fin 3 → K) (h0 : 0 ≤ nearest x) (h1 : nearest x < m.nCells)
    (hint : Int) (hh : hint < m.nCells) :
    ∃ r, m.locateFrom nearest x hint = some r ∧ (m.Contains (nearest x) x → m.Contains r x) := by
  obtain ⟨r0, e0, e1, e2⟩ := locate_ok m hm nearest x h0 h1
  have hr0 : m.Contains (nearest x) x → m.Contains r0 x := fun h => by rw [e1 h]; exact h
  unfold Mesh.locateFrom
  split_ifs with h2
  · exact ⟨r0, e0, hr0⟩
  · have hp : hint.toNat < m.nCells := by omega
    obtain ⟨b, hb⟩ := bestLoop_ok m hm x hint.toNat hp (m.nEdgesOnCell hint.toNat) 0 (hint.toNat, dist2 (m.xyzCells hint.toNat) x) (by omega)
    have hs := bestLoop_spec m x hint.toNat _ _ _ b hp rfl hb
    obtain ⟨t, ht, htc⟩ := pointInCellI_ok m hm b.1 (by omega) (by have := hs.1; omega) x
    simp only [idx_of (by omega) hh, hb, ht, Option.bind_eq_bind, Option.bind_some]
    cases t with
    | true => exact ⟨_, rfl, fun _ => htc.1 rfl⟩
    | false => exact ⟨r0, e0, hr0⟩

/-- C151: in a Voronoi mesh (a cell contains all points that are nearest to its centre), with a search tree that answers a nearest centre (C49),
every point is located, with every hint. -/
theorem C151_voronoi (m : Mesh K) (hm : m.Ok) (nearest : (Fin 3 → K) → Int) (x : Fin 3 → K)
    (hv : ∀ c : Nat, c < m.nCells → (∀ d < m.nCells, dist2 (m.xyzCells c) x ≤ dist2 (m.xyzCells d) x) → m.Contains c x)
    (h0 : 0 ≤ nearest x) (h1 : nearest x < m.nCells) (hk : ∀ d < m.nCells, dist2 (m.xyzCells (nearest x).toNat) x ≤ dist2 (m.xyzCells d) x)
    (hint : Int) (hh : hint < m.nCells) : ∃ r, m.locateFrom nearest x hint = some r ∧ m.Contains r x := by
  obtain ⟨r, hr, h⟩ := C151_complete m hm nearest x h0 h1 hint hh
  have := hv (nearest x).toNat (by omega) hk
  rw [Int.toNat_of_nonneg h0] at this
  exact ⟨r, hr, h this⟩

/-- C151: if the cell with the nearest centre is the only cell that contains the point, every hint gives that cell. -/
theorem C151_hint_independent (m : Mesh K) (hm : m.Ok) (nearest : (Fin 3 → K) → Int) (x : Fin 3 → K)
    (hc : m.Contains (nearest x) x) (hu : ∀ c, m.Contains c x → c = nearest x) (hint : Int) (hh : hint < m.nCells) :
    m.locateFrom nearest x hint = some (nearest x) := by
  obtain ⟨r, hr, h⟩ := C151_complete m hm nearest x hc.1 hc.2.1 hint hh
  rw [hr, hu r (h hc)]

/-- C151: with a hint the answer is the hint, one of its neighbours or the cell with the nearest centre. -/
theorem C151_local (m : Mesh K) (nearest : (Fin 3 → K) → Int) (x : Fin 3 → K) (hint r : Int) (hh : 0 ≤ hint)
    (h : m.locateFrom nearest x hint = some r) (hr : 0 ≤ r) :
    r = hint ∨ (∃ j < m.nEdgesOnCell hint.toNat, m.cid2i (m.cellsOnCell j hint.toNat) = r) ∨ r = nearest x := by
  unfold Mesh.locateFrom at h
  rw [if_neg (by omega)] at h
  cases hi : idx m.nCells hint with
  | none => rw [hi] at h; cases h
  | some p =>
    obtain ⟨h0, h1, rfl⟩ := idx_some hi
    cases hb : m.bestLoop x hint.toNat (m.nEdgesOnCell hint.toNat) 0 (hint.toNat, dist2 (m.xyzCells hint.toNat) x) with
    | none => simp only [hi, hb, Option.bind_eq_bind, Option.bind_some, Option.bind_none] at h; cases h
    | some b =>
      cases hp : m.pointInCellI b.1 x with
      | none => simp only [hi, hb, hp, Option.bind_eq_bind, Option.bind_some, Option.bind_none] at h; cases h
      | some t =>
        simp only [hi, hb, hp, Option.bind_eq_bind, Option.bind_some] at h
        cases t with
        | true =>
          simp only [if_true] at h
          obtain rfl := Option.some.inj h
          rcases (bestLoop_spec m x hint.toNat _ _ _ b (by show hint.toNat < _; omega) rfl hb).2.2.2.2 with g | ⟨j, -, g1, g2⟩
          · exact Or.inl (by rw [g]; omega)
          · exact Or.inr (Or.inl ⟨j, by omega, g2⟩)
        | false =>
          simp only [Bool.false_eq_true, if_false] at h
          exact Or.inr (Or.inr ((locate_spec m nearest x r h).1 hr).1)

/-- C151 (finding): a hint that is not below the number of cells is an access out of bounds. -/
theorem C151_bad_hint (m : Mesh K) (nearest : (Fin 3 → K) → Int) (x : Fin 3 → K) (hint : Int) (h : (m.nCells : Int) ≤ hint) :
    m.locateFrom nearest x hint = none := by
  unfold Mesh.locateFrom
  rw [if_neg (by omega)]
  have : idx m.nCells hint = none := by unfold idx; rw [if_neg (by omega)]
  rw [this]; rfl

/-! ### A mesh of two cells -/

/-- Two squares with a common side. -/
def twoCells : Mesh ℚ where
  nCells := 2
  nVerts := 6
  maxEdges := 4
  cid2i := fun i => i - 1
  vid2i := fun i => i - 1
  nEdgesOnCell := fun _ => 4
  cellsOnCell := fun j c => (([[0, 0, 0, 2], [0, 1, 0, 0]] : List (List Int)).getD c []).getD j 0
  verticesOnCell := fun j c => (([[1, 2, 3, 4], [6, 1, 4, 5]] : List (List Int)).getD c []).getD j 0
  cellsOnVertex := fun _ _ => 0
  xyzCells := fun c => ([![-1, 0, 1], ![1, 0, 1]] : List (Fin 3 → ℚ)).getD c 0
  xyzVertices := fun v => ([![0, 1, 1], ![-2, 1, 1], ![-2, -1, 1], ![0, -1, 1], ![2, -1, 1], ![2, 1, 1]] : List (Fin 3 → ℚ)).getD v 0

/-- The nearest centre of the two squares. -/
def twoNearest (x : Fin 3 → ℚ) : Int := if dist2 ![1, 0, 1] x < dist2 ![-1, 0, 1] x then 1 else 0

theorem twoCells_ok : twoCells.Ok := by
  constructor
  · intro c _; exact ⟨by show 4 ≤ 10; omega, by show 4 ≤ 4; omega⟩
  · intro c hc j hj
    have hc : c < 2 := hc
    have hj : j < 4 := hj
    interval_cases c <;> interval_cases j <;> decide +kernel
  · intro c hc j hj
    have hc : c < 2 := hc
    have hj : j < 4 := hj
    interval_cases c <;> interval_cases j <;> decide +kernel

example : twoCells.locateFrom twoNearest ![1, 1 / 2, 1] (-1) = some 1 ∧ twoCells.locateFrom twoNearest ![1, 1 / 2, 1] 0 = some 1 ∧
    twoCells.locateFrom twoNearest ![-1, 1 / 2, 1] 1 = some 0 ∧ twoCells.locateFrom twoNearest ![-1, 2, 1] 1 = some (-1) := by decide +kernel

/-- A point in one cell only meets the hypotheses of C151_hint_independent. -/
example : twoCells.Contains (twoNearest ![1, 1 / 2, 1]) ![1, 1 / 2, 1] ∧ ∀ c, twoCells.Contains c ![1, 1 / 2, 1] → c = twoNearest ![1, 1 / 2, 1] := by
  have e : twoNearest ![1, 1 / 2, 1] = 1 := by decide +kernel
  rw [e]
  refine ⟨pointInCellI_true _ _ _ (by decide +kernel), ?_⟩
  intro c hc
  have h0 := hc.1
  have h1 : c < 2 := hc.2.1
  obtain ⟨b, hb, hbc⟩ := pointInCellI_ok twoCells twoCells_ok c h0 hc.2.1 ![1, 1 / 2, 1]
  rw [hbc.2 hc] at hb
  have : c = 0 ∨ c = 1 := by omega
  rcases this with rfl | rfl
  · exact absurd hb (by decide +kernel)
  · rfl

/-- C151 (finding): for a point on the common side of two cells the answer depends on the hint. -/
theorem C151_border_depends_on_hint : twoCells.locateFrom twoNearest ![0, 0, 1] 0 = some 0 ∧ twoCells.locateFrom twoNearest ![0, 0, 1] 1 = some 1 := by
  decide +kernel

end Verif.MPAS
