import Verif.UMesh.Lemmas
import Mathlib.Data.List.Nodup

/-! Lemmas on `build_edges`. -/

namespace Verif.UM

/-- One call of `add_edge`. -/
structure Item where
  tid : Nat
  k : Nat
  v0 : Int
  v1 : Int

/-- the key it looks up -/
def Item.key (x : Item) : Edge := sort2 x.v0 x.v1

/-- the cell of `triangle_edges` it writes -/
def Item.pos (x : Item) : Nat := x.k + 3 * x.tid

/-- run a list of `add_edge` calls -/
def runItems (s : ES) : List Item → Option ES
  | [] => some s
  | x :: l => do
    let s ← addEdge s x.tid x.k x.v0 x.v1
    runItems s l

/-- the calls made for the triangles from index `i` on -/
def items (i : Nat) : List Tri → List Item
  | [] => []
  | t :: ts => ⟨i, 0, t.1, t.2.1⟩ :: ⟨i, 1, t.2.1, t.2.2⟩ :: ⟨i, 2, t.2.2, t.1⟩ :: items (i + 1) ts

theorem edgeLoop_eq : ∀ (ts : List Tri) (s : ES) (i : Nat), edgeLoop s i ts = runItems s (items i ts) := by
  intro ts
  induction ts with
  | nil => intro s i; rfl
  | cons t ts ih =>
    intro s i
    simp only [edgeLoop, items, runItems]
    congr 1; funext s1
    congr 1; funext s2
    congr 1; funext s3
    exact ih s3 (i + 1)

/-- What is true after the calls `L`. -/
structure EInv (N : Nat) (L : List Item) (s : ES) (ks : List Edge) : Prop where
  nodup : ks.Nodup
  map : s.edgeMap = entries ks 0
  len : s.side.length = ks.length
  mem : ∀ e, e ∈ ks ↔ ∃ x ∈ L, x.key = e
  side : ∀ (j : Nat) (e : Edge), ks[j]? = some e → ∃ S, s.side[j]? = some S ∧ StrictSorted S ∧
    ∀ t : Int, t ∈ S ↔ ∃ x ∈ L, x.key = e ∧ t = x.tid
  tlen : s.triEdges.length = N
  te : ∀ x ∈ L, ∃ j : Nat, ks[j]? = some x.key ∧ s.triEdges[x.pos]? = some (j : Int)
  sum : (s.side.map List.length).sum ≥ L.length

theorem setInsert_length_of_not_mem {α : Type} [LinearOrder α] (x : α) (l : List α) (h : x ∉ l) :
    (setInsert x l).length = l.length + 1 := by
  induction l with
  | nil => rfl
  | cons y ys ih =>
    unfold setInsert
    split
    · rfl
    · split
      · rename_i h1 h2; subst h2; simp at h
      · simp at h; simp [ih h.2]

theorem sum_modify (l : List (List Int)) (i : Nat) (x : Int) (S : List Int) (h : l[i]? = some S) (hx : x ∉ S) :
    ((l.modify i (setInsert x)).map List.length).sum = (l.map List.length).sum + 1 := by
  induction l generalizing i with
  | nil => simp at h
  | cons a l ih =>
    cases i with
    | zero => simp at h; subst h; simp [setInsert_length_of_not_mem x a hx]; omega
    | succ i => simp at h; simp [ih i h]; omega

theorem addEdge_spec {N : Nat} {L : List Item} {s : ES} {ks : List Edge} (h : EInv N L s ks)
    (x : Item) (hx : x.pos < N) (hpos : ∀ y ∈ L, y.pos ≠ x.pos)
    (hnew : ∀ y ∈ L, ¬ (y.key = x.key ∧ y.tid = x.tid)) :
    ∃ s' ks', addEdge s x.tid x.k x.v0 x.v1 = some s' ∧ EInv N (L ++ [x]) s' ks' := by
  -- the state after the lookup / insertion of the key
  obtain ⟨ks1, m1, side1, id, hid, q1, q2, q3, q4, q5, q6, q7⟩ :
      ∃ (ks1 : List Edge) (m1 : List (Edge × Int)) (side1 : List (List Int)) (id : Nat),
        edgeId s (sort2 x.v0 x.v1) = (m1, side1, (id : Int)) ∧
        ks1.Nodup ∧ m1 = entries ks1 0 ∧ side1.length = ks1.length ∧
        (∀ e, e ∈ ks1 ↔ e = x.key ∨ e ∈ ks) ∧
        ks1[id]? = some x.key ∧
        (∀ (j : Nat) (e : Edge), ks1[j]? = some e → ∃ S, side1[j]? = some S ∧ StrictSorted S ∧
          ∀ t : Int, t ∈ S ↔ ∃ x ∈ L, x.key = e ∧ t = x.tid) ∧
        ((∀ (j : Nat) (e : Edge), ks[j]? = some e → ks1[j]? = some e) ∧
          (side1.map List.length).sum = (s.side.map List.length).sum) := by
    unfold edgeId
    cases hf : find s.edgeMap (sort2 x.v0 x.v1) with
    | some y =>
      rw [h.map] at hf
      obtain ⟨j, hj, hy⟩ := (find_entries ks 0 h.nodup _ _).1 hf
      have hk : x.key ∈ ks := List.mem_of_getElem? hj
      refine ⟨ks, s.edgeMap, s.side, j, by simp at hy; simp [hy], h.nodup, h.map, h.len, ?_, hj, h.side, ?_, rfl⟩
      · intro e; constructor
        · exact Or.inr
        · rintro (rfl | he)
          · exact hk
          · exact he
      · exact fun j e hje => hje
    | none =>
      rw [h.map] at hf
      have hk : x.key ∉ ks := (find_entries_none ks 0 h.nodup _).1 hf
      refine ⟨ks ++ [x.key], s.edgeMap ++ [(sort2 x.v0 x.v1, (s.side.length : Int))], s.side ++ [[]],
        s.side.length, rfl, ?_, ?_, ?_, ?_, ?_, ?_, ?_, ?_⟩
      · rw [List.nodup_append]
        refine ⟨h.nodup, by simp, ?_⟩
        intro a ha b hb; simp at hb; subst hb
        rintro rfl; exact hk ha
      · rw [entries_append, h.map, h.len]; simp [Item.key]
      · simp [h.len]
      · intro e; simp; tauto
      · rw [List.getElem?_append_right (by rw [h.len])]; simp [h.len]
      · intro j e hje
        by_cases hj : j < ks.length
        · rw [List.getElem?_append_left hj] at hje
          rw [List.getElem?_append_left (by rw [h.len]; exact hj)]
          exact h.side j e hje
        · rw [List.getElem?_append_right (by omega)] at hje
          have hje' := hje
          have hj0 : j - ks.length = 0 := by
            have := (List.getElem?_eq_some_iff.1 hje).1
            simp at this; omega
          rw [hj0] at hje; simp at hje; subst hje
          refine ⟨[], ?_, by simp [StrictSorted], ?_⟩
          · rw [List.getElem?_append_right (by rw [h.len]; omega), h.len, hj0]; rfl
          · intro t
            constructor
            · intro ht; cases ht
            · rintro ⟨y, hy, hye, -⟩
              exact absurd ((h.mem _).2 ⟨y, hy, hye⟩) hk
      · intro j e hje
        have := (List.getElem?_eq_some_iff.1 hje).1
        rw [List.getElem?_append_left this]; exact hje
      · simp
  have hidlt : id < ks1.length := (List.getElem?_eq_some_iff.1 q5).1
  have haddAt : addAt side1 (id : Int) (x.tid : Int) = some (side1.modify id (setInsert (x.tid : Int))) := by
    unfold addAt
    rw [if_pos ⟨by omega, by omega⟩]
    simp
  have hwrite : write s.triEdges ((x.k : Int) + 3 * x.tid) (id : Int) = some (s.triEdges.set x.pos (id : Int)) := by
    unfold write
    have e1 : ((x.k : Int) + 3 * x.tid) = (x.pos : Int) := by unfold Item.pos; push_cast; rfl
    rw [e1, if_pos ⟨by omega, by rw [h.tlen]; omega⟩]
    simp
  obtain ⟨S0, hS0, hS0s, hS0m⟩ := q6 id x.key q5
  have hxS0 : (x.tid : Int) ∉ S0 := by
    rw [hS0m]
    rintro ⟨y, hy, h1, h2⟩
    exact hnew y hy ⟨h1, by omega⟩
  refine ⟨⟨m1, side1.modify id (setInsert (x.tid : Int)), s.triEdges.set x.pos (id : Int)⟩, ks1, ?_, ?_⟩
  · simp only [addEdge]
    rw [hid]
    simp only [haddAt, hwrite, Option.bind_eq_bind, Option.bind_some]
  · constructor
    · exact q1
    · exact q2
    · simp [q3]
    · intro e
      rw [q4]
      simp only [List.mem_append, List.mem_singleton]
      rw [h.mem]
      constructor
      · rintro (rfl | ⟨y, hy, hye⟩)
        · exact ⟨x, Or.inr rfl, rfl⟩
        · exact ⟨y, Or.inl hy, hye⟩
      · rintro ⟨y, hy | rfl, hye⟩
        · exact Or.inr ⟨y, hy, hye⟩
        · exact Or.inl hye.symm
    · intro j e hje
      obtain ⟨S, hS, hSs, hSm⟩ := q6 j e hje
      by_cases hj : j = id
      · subst hj
        rw [q5] at hje; simp at hje; subst hje
        refine ⟨setInsert (x.tid : Int) S, by simp [hS], hSs.setInsert, ?_⟩
        intro t
        rw [mem_setInsert, hSm]
        constructor
        · rintro (rfl | ⟨y, hy, h1, h2⟩)
          · exact ⟨x, by simp, rfl, rfl⟩
          · exact ⟨y, by simp [hy], h1, h2⟩
        · rintro ⟨y, hy, h1, h2⟩
          simp only [List.mem_append, List.mem_singleton] at hy
          rcases hy with hy | rfl
          · exact Or.inr ⟨y, hy, h1, h2⟩
          · exact Or.inl h2
      · refine ⟨S, ?_, hSs, ?_⟩
        · simp only; rw [List.getElem?_modify_ne]; exact hS; omega
        · intro t
          rw [hSm]
          have hne : x.key ≠ e := by
            rintro rfl
            apply hj
            have h1 := (List.getElem?_eq_some_iff.1 hje)
            have h2 := (List.getElem?_eq_some_iff.1 q5)
            exact (List.Nodup.getElem_inj_iff q1).1 (h1.2.trans h2.2.symm)
          constructor
          · rintro ⟨y, hy, h1, h2⟩; exact ⟨y, by simp [hy], h1, h2⟩
          · rintro ⟨y, hy, h1, h2⟩
            simp only [List.mem_append, List.mem_singleton] at hy
            rcases hy with hy | rfl
            · exact ⟨y, hy, h1, h2⟩
            · exact absurd h1 hne
    · simp [h.tlen]
    · intro y hy
      simp only [List.mem_append, List.mem_singleton] at hy
      rcases hy with hy | rfl
      · obtain ⟨j, g1, g2⟩ := h.te y hy
        refine ⟨j, q7.1 j _ g1, ?_⟩
        rw [List.getElem?_set_ne (fun h => hpos y hy h.symm)]; exact g2
      · refine ⟨id, q5, ?_⟩
        rw [List.getElem?_set_self (by rw [h.tlen]; exact hx)]
    · have := sum_modify side1 id (x.tid : Int) S0 hS0 hxS0
      simp only [List.length_append, List.length_cons, List.length_nil]
      rw [this, q7.2]
      have := h.sum
      omega

theorem runItems_spec {N : Nat} : ∀ (l L : List Item) (s : ES) (ks : List Edge), EInv N L s ks →
    (∀ x ∈ l, x.pos < N) → (L ++ l).Pairwise (fun x y => x.pos ≠ y.pos ∧ ¬ (x.key = y.key ∧ x.tid = y.tid)) →
    ∃ s' ks', runItems s l = some s' ∧ EInv N (L ++ l) s' ks' := by
  intro l
  induction l with
  | nil => intro L s ks h _ _; exact ⟨s, ks, rfl, by simpa using h⟩
  | cons x l ih =>
    intro L s ks h hN hp
    rw [List.pairwise_append] at hp
    obtain ⟨hp1, hp2, hp3⟩ := hp
    obtain ⟨s1, ks1, e1, e2⟩ := addEdge_spec h x (hN x (List.mem_cons_self ..))
      (fun y hy => (hp3 y hy x (List.mem_cons_self ..)).1) (fun y hy => (hp3 y hy x (List.mem_cons_self ..)).2)
    obtain ⟨s2, ks2, f1, f2⟩ := ih (L ++ [x]) s1 ks1 e2 (fun y hy => hN y (List.mem_cons_of_mem _ hy))
      (by
        rw [List.append_assoc, List.singleton_append, List.pairwise_append]
        exact ⟨hp1, hp2, hp3⟩)
    refine ⟨s2, ks2, by simp [runItems, e1, f1], by simpa using f2⟩

theorem mem_items : ∀ (ts : List Tri) (i : Nat) (x : Item), x ∈ items i ts ↔
    ∃ (j : Nat) (t : Tri), ts[j]? = some t ∧ x.tid = i + j ∧
      ((x.k = 0 ∧ x.v0 = t.1 ∧ x.v1 = t.2.1) ∨ (x.k = 1 ∧ x.v0 = t.2.1 ∧ x.v1 = t.2.2) ∨
       (x.k = 2 ∧ x.v0 = t.2.2 ∧ x.v1 = t.1)) := by
  intro ts
  induction ts with
  | nil => intro i x; simp [items]
  | cons t ts ih =>
    intro i x
    simp only [items, List.mem_cons, ih]
    constructor
    · rintro (rfl | rfl | rfl | ⟨j, t', h1, h2, h3⟩)
      · exact ⟨0, t, by simp, by simp, by simp⟩
      · exact ⟨0, t, by simp, by simp, by simp⟩
      · exact ⟨0, t, by simp, by simp, by simp⟩
      · exact ⟨j + 1, t', by simpa using h1, by omega, h3⟩
    · rintro ⟨j, t', h1, h2, h3⟩
      cases j with
      | zero =>
        simp at h1 h2; subst h1
        obtain ⟨a, b, c, d⟩ := x
        simp only at h2 h3
        subst h2
        rcases h3 with ⟨rfl, rfl, rfl⟩ | ⟨rfl, rfl, rfl⟩ | ⟨rfl, rfl, rfl⟩ <;> simp
      | succ j =>
        right; right; right
        exact ⟨j, t', by simpa using h1, by omega, h3⟩

theorem items_length : ∀ (ts : List Tri) (i : Nat), (items i ts).length = 3 * ts.length := by
  intro ts
  induction ts with
  | nil => intro i; rfl
  | cons t ts ih => intro i; simp [items, ih]; omega

theorem items_pairwise : ∀ (ts : List Tri) (i : Nat), (∀ t ∈ ts, Incr3 t) →
    (items i ts).Pairwise (fun x y => x.pos ≠ y.pos ∧ ¬ (x.key = y.key ∧ x.tid = y.tid)) := by
  intro ts
  induction ts with
  | nil => intro i _; exact List.Pairwise.nil
  | cons t ts ih =>
    intro i hi
    have hrest := ih (i + 1) (fun t' ht' => hi t' (List.mem_cons_of_mem _ ht'))
    have ht := hi t (List.mem_cons_self ..)
    unfold Incr3 at ht
    have hge : ∀ x ∈ items (i + 1) ts, i + 1 ≤ x.tid ∧ x.k ≤ 2 := by
      intro x hx
      obtain ⟨j, t', h1, h2, h3⟩ := (mem_items ts (i + 1) x).1 hx
      omega
    simp only [items, List.pairwise_cons, List.mem_cons]
    refine ⟨?_, ?_, ?_, hrest⟩
    · rintro x (rfl | rfl | hx)
      · simp [Item.pos, Item.key, sort2_eq]; omega
      · simp [Item.pos, Item.key, sort2_eq]; omega
      · have := hge x hx
        refine ⟨?_, ?_⟩
        · simp only [Item.pos]; omega
        · rintro ⟨_, h⟩; have h : i = x.tid := h; omega
    · rintro x (rfl | hx)
      · simp [Item.pos, Item.key, sort2_eq]; omega
      · have := hge x hx
        refine ⟨?_, ?_⟩
        · simp only [Item.pos]; omega
        · rintro ⟨_, h⟩; have h : i = x.tid := h; omega
    · intro x hx
      have := hge x hx
      refine ⟨?_, ?_⟩
      · simp only [Item.pos]; omega
      · rintro ⟨_, h⟩; have h : i = x.tid := h; omega

theorem edgeLoop_spec (ts : List Tri) (hts : ∀ t ∈ ts, Incr3 t) :
    ∃ s' ks, edgeLoop { edgeMap := [], side := [], triEdges := List.replicate (3 * ts.length) 0 } 0 ts = some s' ∧
      EInv (3 * ts.length) (items 0 ts) s' ks := by
  rw [edgeLoop_eq]
  have h0 : EInv (3 * ts.length) [] { edgeMap := [], side := [], triEdges := List.replicate (3 * ts.length) 0 } [] := by
    constructor <;> simp [entries]
  obtain ⟨s', ks, h1, h2⟩ := runItems_spec (items 0 ts) [] _ [] h0 (by
    intro x hx
    obtain ⟨j, t, g1, g2, g3⟩ := (mem_items ts 0 x).1 hx
    have := (List.getElem?_eq_some_iff.1 g1).1
    unfold Item.pos
    omega) (by simpa using items_pairwise ts 0 hts)
  exact ⟨s', ks, h1, by simpa using h2⟩

end Verif.UM
