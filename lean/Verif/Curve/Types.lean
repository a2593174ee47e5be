import Verif.Curve.Lemmas
import Mathlib.Data.List.Nodup
/-! `smooth_ordinal_types`, `smooth_interval_types`. -/
namespace Verif.Curve
variable {R : Type} {nv : Nat}

/-- only the type may differ -/
def OnlyType (p q : Point R nv) : Prop := q = { p with type := q.type }

theorem OnlyType.trans {p q r : Point R nv} (h : OnlyType p q) (h' : OnlyType q r) : OnlyType p r := by
  unfold OnlyType at *
  rw [h', h]

theorem mem_selectFrom (f : Point R nv → Bool) : ∀ (l : List (Point R nv)) (i k : Nat),
    k ∈ selectFrom f i l ↔ i ≤ k ∧ ∃ p, l[k - i]? = some p ∧ f p = true := by
  intro l
  induction l with
  | nil => intro i k; simp [selectFrom]
  | cons p ps ih =>
    intro i k
    have shift : (k ∈ selectFrom f (i + 1) ps) ↔ i + 1 ≤ k ∧ ∃ q, (p :: ps)[k - i]? = some q ∧ f q = true := by
      rw [ih]
      constructor
      · rintro ⟨h1, q, h2, h3⟩
        refine ⟨h1, q, ?_, h3⟩
        have : k - i = (k - (i + 1)) + 1 := by omega
        rw [this, List.getElem?_cons_succ]; exact h2
      · rintro ⟨h1, q, h2, h3⟩
        refine ⟨h1, q, ?_, h3⟩
        have : k - i = (k - (i + 1)) + 1 := by omega
        rw [this, List.getElem?_cons_succ] at h2; exact h2
    simp only [selectFrom]
    split
    · rename_i hp
      rw [List.mem_cons, shift]
      constructor
      · rintro (rfl | ⟨h1, h2⟩)
        · exact ⟨le_refl _, p, by simp, hp⟩
        · exact ⟨by omega, h2⟩
      · rintro ⟨h1, h2⟩
        rcases Nat.eq_or_lt_of_le h1 with rfl | h1
        · exact Or.inl rfl
        · exact Or.inr ⟨h1, h2⟩
    · rename_i hp
      rw [shift]
      constructor
      · rintro ⟨h1, h2⟩; exact ⟨by omega, h2⟩
      · rintro ⟨h1, q, h2, h3⟩
        rcases Nat.eq_or_lt_of_le h1 with rfl | h1
        · simp only [Nat.sub_self, List.getElem?_cons_zero, Option.some.injEq] at h2
          subst h2; exact absurd h3 hp
        · exact ⟨h1, q, h2, h3⟩

theorem selectFrom_sorted (f : Point R nv → Bool) : ∀ (l : List (Point R nv)) (i : Nat), (selectFrom f i l).Pairwise (· < ·) := by
  intro l
  induction l with
  | nil => intro i; simp [selectFrom]
  | cons p ps ih =>
    intro i
    simp only [selectFrom]
    split
    · refine List.pairwise_cons.2 ⟨?_, ih _⟩
      intro k hk
      have := ((mem_selectFrom f _ _ _).1 hk).1
      omega
    · exact ih _

theorem setType_length (ps : List (Point R nv)) (k ty : Nat) : (setType ps k ty).length = ps.length := by
  simp [setType]

theorem typeAt_setType (ps : List (Point R nv)) (k ty j : Nat) :
    typeAt (setType ps k ty) j = if j = k ∧ j < ps.length then ty else typeAt ps j := by
  unfold typeAt setType
  rw [List.getElem?_modify]
  by_cases hj : j < ps.length
  · rw [List.getElem?_eq_getElem hj]
    by_cases hk : k = j
    · subst hk; simp [hj]
    · have : ¬ (j = k) := fun e => hk e.symm
      simp [hk, this]
  · rw [List.getElem?_eq_none (by omega)]
    simp [hj]

theorem setType_only (k ty : Nat) : ∀ (ps : List (Point R nv)), List.Forall₂ OnlyType ps (setType ps k ty) := by
  intro ps
  induction ps generalizing k with
  | nil => cases k <;> simp [setType]
  | cons p ps ih =>
    cases k with
    | zero =>
      simp only [setType, List.modify_zero_cons]
      refine .cons rfl ?_
      clear ih
      induction ps with
      | nil => exact .nil
      | cons q qs ih => exact .cons rfl ih
    | succ k =>
      simp only [setType, List.modify_succ_cons]
      exact .cons rfl (ih k)

theorem only_refl (ps : List (Point R nv)) : List.Forall₂ OnlyType ps ps := by
  induction ps with
  | nil => exact .nil
  | cons q qs ih => exact .cons rfl ih

theorem only_trans {l l' l'' : List (Point R nv)} (h : List.Forall₂ OnlyType l l') (h' : List.Forall₂ OnlyType l' l'') :
    List.Forall₂ OnlyType l l'' := by
  induction h generalizing l'' with
  | nil => cases h'; exact .nil
  | cons h hh ih => cases h' with
    | cons h2 t2 => exact .cons (h.trans h2) (ih t2)

theorem foldSet_only : ∀ (kvs : List (Nat × Nat)) (ps : List (Point R nv)),
    List.Forall₂ OnlyType ps (kvs.foldl (fun ps kv => setType ps kv.1 kv.2) ps) := by
  intro kvs
  induction kvs with
  | nil => intro ps; exact only_refl ps
  | cons kv kvs ih => intro ps; exact only_trans (setType_only kv.1 kv.2 ps) (ih _)

theorem foldSet_length : ∀ (kvs : List (Nat × Nat)) (ps : List (Point R nv)),
    (kvs.foldl (fun ps kv => setType ps kv.1 kv.2) ps).length = ps.length := by
  intro kvs
  induction kvs with
  | nil => intro ps; rfl
  | cons kv kvs ih => intro ps; rw [List.foldl_cons, ih, setType_length]

theorem foldSet_typeAt : ∀ (kvs : List (Nat × Nat)) (ps : List (Point R nv)) (j : Nat), (kvs.map Prod.fst).Nodup → j < ps.length →
    (∀ ty, (j, ty) ∈ kvs → typeAt (kvs.foldl (fun ps kv => setType ps kv.1 kv.2) ps) j = ty) ∧
    ((∀ ty, (j, ty) ∉ kvs) → typeAt (kvs.foldl (fun ps kv => setType ps kv.1 kv.2) ps) j = typeAt ps j) := by
  intro kvs
  induction kvs with
  | nil => intro ps j _ _; simp
  | cons kv kvs ih =>
    obtain ⟨k, t0⟩ := kv
    intro ps j hn hj
    rw [List.map_cons, List.nodup_cons] at hn
    obtain ⟨i1, i2⟩ := ih (setType ps k t0) j hn.2 (by rw [setType_length]; exact hj)
    simp only [List.foldl_cons]
    constructor
    · intro ty h
      rcases List.mem_cons.1 h with h | h
      · cases h
        rw [i2, typeAt_setType, if_pos ⟨rfl, hj⟩]
        intro ty h'
        exact hn.1 (List.mem_map.2 ⟨_, h', rfl⟩)
      · exact i1 ty h
    · intro h
      rw [i2 (fun ty h' => h ty (List.mem_cons_of_mem _ h')), typeAt_setType, if_neg]
      rintro ⟨rfl, _⟩
      exact h t0 (by simp)

theorem fillType_eq (ps : List (Point R nv)) (a b ty : Nat) :
    fillType ps a b ty = (((List.range (b - a)).map (fun k => (a + k, ty))).foldl (fun ps kv => setType ps kv.1 kv.2) ps) := by
  unfold fillType
  rw [List.foldl_map, List.foldl_map]

theorem fillType_only (ps : List (Point R nv)) (a b ty : Nat) : List.Forall₂ OnlyType ps (fillType ps a b ty) := by
  rw [fillType_eq]; exact foldSet_only _ _

theorem fillType_length (ps : List (Point R nv)) (a b ty : Nat) : (fillType ps a b ty).length = ps.length := by
  rw [fillType_eq]; exact foldSet_length _ _

theorem fillType_typeAt (ps : List (Point R nv)) (a b ty j : Nat) (hj : j < ps.length) :
    typeAt (fillType ps a b ty) j = if a ≤ j ∧ j < b then ty else typeAt ps j := by
  rw [fillType_eq]
  have hn : (((List.range (b - a)).map (fun k => (a + k, ty))).map Prod.fst).Nodup := by
    rw [List.map_map]
    exact List.Nodup.map (fun x y h => by have : a + x = a + y := h; omega) List.nodup_range
  obtain ⟨h1, h2⟩ := foldSet_typeAt _ ps j hn hj
  split
  · rename_i h
    apply h1 ty
    rw [List.mem_map]
    exact ⟨j - a, List.mem_range.2 (by omega), by congr 1; omega⟩
  · rename_i h
    apply h2
    intro ty' h'
    obtain ⟨k, hk, e⟩ := List.mem_map.1 h'
    rw [List.mem_range] at hk
    cases e
    exact h ⟨by omega, by omega⟩

theorem firstDiff_spec (ps : List (Point R nv)) (ty : Nat) : ∀ (n a : Nat),
    a ≤ firstDiff ps ty a n ∧ firstDiff ps ty a n ≤ a + n ∧ (∀ j, a ≤ j → j < firstDiff ps ty a n → typeAt ps j = ty) := by
  intro n
  induction n with
  | zero => intro a; exact ⟨le_refl _, le_refl _, fun j h h' => by simp only [firstDiff] at h'; omega⟩
  | succ n ih =>
    intro a
    simp only [firstDiff]
    split
    · exact ⟨le_refl _, by omega, fun j h h' => by omega⟩
    · rename_i h
      obtain ⟨h1, h2, h3⟩ := ih (a + 1)
      refine ⟨by omega, by omega, ?_⟩
      intro j hj hj'
      rcases Nat.eq_or_lt_of_le hj with rfl | hj
      · simpa using h
      · exact h3 j hj hj'

/-- between `a` and `b` the types go from that of `a` to that of `b` in one step -/
def OneStep (ps : List (Point R nv)) (a b : Nat) (ta tb : Nat) : Prop :=
  ∃ k, a < k ∧ k ≤ b ∧ (∀ j, a ≤ j → j < k → typeAt ps j = ta) ∧ (∀ j, k ≤ j → j < b → typeAt ps j = tb)

/-- the effect of the body of the loop over consecutive ordinals -/
theorem pair_step (ps : List (Point R nv)) {a b : Nat} (hab : a < b) (hb : b < ps.length) :
    let ps' := if typeAt ps a = typeAt ps b then fillType ps a b (typeAt ps a)
      else fillType ps (firstDiff ps (typeAt ps a) a (b - a)) b (typeAt ps b)
    List.Forall₂ OnlyType ps ps' ∧ ps'.length = ps.length ∧ OneStep ps' a b (typeAt ps a) (typeAt ps b) ∧
      (∀ j, j < ps.length → ¬ (a < j ∧ j < b) → typeAt ps' j = typeAt ps j) := by
  intro ps'
  by_cases he : typeAt ps a = typeAt ps b
  · have e : ps' = fillType ps a b (typeAt ps a) := if_pos he
    rw [e]
    refine ⟨fillType_only _ _ _ _, fillType_length _ _ _ _, ⟨b, hab, le_refl _, ?_, ?_⟩, ?_⟩
    · intro j h1 h2
      rw [fillType_typeAt _ _ _ _ _ (by omega), if_pos ⟨h1, h2⟩]
    · intro j h1 h2; omega
    · intro j hj hn
      rw [fillType_typeAt _ _ _ _ _ hj]
      split
      · rename_i h
        have : j = a := by omega
        rw [this]
      · rfl
  · have e : ps' = fillType ps (firstDiff ps (typeAt ps a) a (b - a)) b (typeAt ps b) := if_neg he
    rw [e]
    obtain ⟨h1, h2, h3⟩ := firstDiff_spec ps (typeAt ps a) (b - a) a
    have hlt : a < firstDiff ps (typeAt ps a) a (b - a) := by
      obtain ⟨n, hn⟩ : ∃ n, b - a = n + 1 := ⟨b - a - 1, by omega⟩
      rw [hn]
      simp only [firstDiff, ne_eq, not_true_eq_false, if_false]
      have := (firstDiff_spec ps (typeAt ps a) n (a + 1)).1
      omega
    refine ⟨fillType_only _ _ _ _, fillType_length _ _ _ _, ⟨_, hlt, by omega, ?_, ?_⟩, ?_⟩
    · intro j hj hj'
      rw [fillType_typeAt _ _ _ _ _ (by omega), if_neg (by omega)]
      exact h3 j hj hj'
    · intro j hj hj'
      rw [fillType_typeAt _ _ _ _ _ (by omega), if_pos ⟨hj, hj'⟩]
    · intro j hj hn
      rw [fillType_typeAt _ _ _ _ _ hj, if_neg]
      rintro ⟨h, h'⟩
      exact hn ⟨by omega, h'⟩

theorem smoothPairs_spec : ∀ (os : List Nat) (ps : List (Point R nv)), os.Pairwise (· < ·) → (∀ o ∈ os, o < ps.length) →
    List.Forall₂ OnlyType ps (smoothPairs os ps) ∧ (smoothPairs os ps).length = ps.length ∧
    (∀ o ∈ os, typeAt (smoothPairs os ps) o = typeAt ps o) ∧
    (∀ j, j < ps.length → (∀ o ∈ os, j < o) ∨ (∀ o ∈ os, o ≤ j) → typeAt (smoothPairs os ps) j = typeAt ps j) ∧
    (∀ a b, a ∈ os → b ∈ os → a < b → (∀ o ∈ os, o ≤ a ∨ b ≤ o) →
      OneStep (smoothPairs os ps) a b (typeAt ps a) (typeAt ps b)) := by
  intro os
  induction os with
  | nil =>
    intro ps _ _
    rw [show smoothPairs [] ps = ps from rfl]
    exact ⟨only_refl ps, rfl, by simp, fun j _ _ => rfl, by simp⟩
  | cons a os ih =>
    intro ps hs hlt
    cases os with
    | nil =>
      rw [show smoothPairs [a] ps = ps from rfl]
      refine ⟨only_refl ps, rfl, fun _ _ => rfl, fun j _ _ => rfl, ?_⟩
      intro x y hx hy hxy
      simp only [List.mem_singleton] at hx hy
      omega
    | cons b os =>
      have hab : a < b := (List.pairwise_cons.1 hs).1 b (by simp)
      have hs' := (List.pairwise_cons.1 hs).2
      have hb' : ∀ o ∈ os, b < o := (List.pairwise_cons.1 hs').1
      have hbl : b < ps.length := hlt b (by simp)
      obtain ⟨s1, s2, s3, s4⟩ := pair_step ps hab hbl
      simp only [smoothPairs]
      generalize hps : (if typeAt ps a = typeAt ps b then fillType ps a b (typeAt ps a)
        else fillType ps (firstDiff ps (typeAt ps a) a (b - a)) b (typeAt ps b)) = ps' at s1 s2 s3 s4
      have hlt' : ∀ o ∈ b :: os, o < ps'.length := by
        intro o ho; rw [s2]; exact hlt o (List.mem_cons_of_mem _ ho)
      obtain ⟨i1, i2, i3, i4, i5⟩ := ih ps' hs' hlt'
      have hordty : ∀ o ∈ b :: os, typeAt ps' o = typeAt ps o := by
        intro o ho
        apply s4 o (hlt o (List.mem_cons_of_mem _ ho))
        rintro ⟨_, h⟩
        rcases List.mem_cons.1 ho with rfl | ho
        · omega
        · have := hb' o ho; omega
      have hbelow : ∀ j, j < b → typeAt (smoothPairs (b :: os) ps') j = typeAt ps' j := by
        intro j hj
        apply i4 j (by rw [s2]; omega)
        left
        intro o ho
        rcases List.mem_cons.1 ho with rfl | ho
        · exact hj
        · have := hb' o ho; omega
      refine ⟨only_trans s1 i1, by rw [i2, s2], ?_, ?_, ?_⟩
      · intro o ho
        rcases List.mem_cons.1 ho with rfl | ho
        · rw [hbelow o hab]; exact s4 o (by omega) (by omega)
        · rw [i3 o ho]; exact hordty o ho
      · intro j hj hor
        have hja : ¬ (a < j ∧ j < b) := by
          rcases hor with h | h
          · have := h a (by simp); omega
          · have := h b (by simp); omega
        rw [i4 j (by rw [s2]; exact hj) ?_, s4 j hj hja]
        rcases hor with h | h
        · exact Or.inl (fun o ho => h o (List.mem_cons_of_mem _ ho))
        · exact Or.inr (fun o ho => h o (List.mem_cons_of_mem _ ho))
      · intro x y hx hy hxy hcons
        rcases List.mem_cons.1 hx with rfl | hx1
        · have hyb : y = b := by
            rcases hcons b (by simp) with h | h
            · omega
            · rcases List.mem_cons.1 hy with rfl | hy
              · omega
              · rcases List.mem_cons.1 hy with rfl | hy
                · rfl
                · have := hb' y hy; omega
          subst hyb
          obtain ⟨k, k1, k2, k3, k4⟩ := s3
          refine ⟨k, k1, k2, ?_, ?_⟩
          · intro j hj hj'; rw [hbelow j (by omega)]; exact k3 j hj hj'
          · intro j hj hj'; rw [hbelow j hj']; exact k4 j hj hj'
        · have hy' : y ∈ b :: os := by
            rcases List.mem_cons.1 hy with rfl | hy
            · exfalso
              rcases List.mem_cons.1 hx1 with h | h
              · omega
              · have := hb' x h; omega
            · exact hy
          have := i5 x y hx1 hy' hxy (fun o ho => hcons o (List.mem_cons_of_mem _ ho))
          rw [hordty x hx1, hordty y hy'] at this
          exact this

end Verif.Curve
