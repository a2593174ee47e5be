import Verif.UMesh.Spec
import Verif.SoS.Sort
import Mathlib.Tactic.FinCases

/-! Lemmas on the building blocks of the mesh construction. -/

namespace Verif.UM

/-! ### arrays -/

theorem read_nat {α : Type} (a : List α) (i : Nat) : read a (i : Int) = a[i]? := by
  simp [read]

theorem read_eq_some {α : Type} {a : List α} {i : Int} {x : α} :
    read a i = some x ↔ 0 ≤ i ∧ a[i.toNat]? = some x := by
  unfold read
  split <;> simp_all

theorem read_lt {α : Type} {a : List α} {i : Int} {x : α} (h : read a i = some x) :
    0 ≤ i ∧ i < a.length := by
  rw [read_eq_some] at h
  obtain ⟨h0, h1⟩ := h
  have := (List.getElem?_eq_some_iff.1 h1).1
  omega

theorem read_of_lt {α : Type} {a : List α} {i : Int} (h0 : 0 ≤ i) (h1 : i < a.length) :
    ∃ x, read a i = some x := by
  have h : i.toNat < a.length := by omega
  exact ⟨a[i.toNat], by rw [read_eq_some]; exact ⟨h0, List.getElem?_eq_getElem h⟩⟩

theorem write_of_lt {a : List Int} {i : Int} (x : Int) (h0 : 0 ≤ i) (h1 : i < a.length) :
    ∃ b, write a i x = some b ∧ b.length = a.length ∧
      ∀ j, read b j = if j = i then some x else read a j := by
  refine ⟨a.set i.toNat x, by simp [write, h0, h1], by simp, ?_⟩
  intro j
  by_cases hj : j = i
  · subst hj
    simp only [if_true]
    rw [read_eq_some]
    refine ⟨h0, ?_⟩
    rw [List.getElem?_set_self]; omega
  · rw [if_neg hj]
    unfold read
    split
    · rw [List.getElem?_set_ne]; omega
    · rfl

theorem addAt_of_lt {a : List (List Int)} {i : Int} (x : Int) (h0 : 0 ≤ i) (h1 : i < a.length) :
    ∃ b, addAt a i x = some b ∧ b.length = a.length ∧
      ∀ j, read b j = if j = i then (read a j).map (setInsert x) else read a j := by
  refine ⟨a.modify i.toNat (setInsert x), by simp [addAt, h0, h1], by simp, ?_⟩
  intro j
  by_cases hj : j = i
  · subst hj
    simp [read, h0]
  · rw [if_neg hj]
    unfold read
    split
    · rw [List.getElem?_modify_ne]; omega
    · rfl

/-! ### sorting -/

theorem sort3_mem (t : Tri) (v : Int) : OnTri v (sort3 t) ↔ OnTri v t := by
  obtain ⟨σ, -, h2, -⟩ := SoS.bsInv_sort (n := 3) ![t.1, t.2.1, t.2.2]
  have key : ∀ f : Fin 3 → Int, OnTri v (f 0, f 1, f 2) ↔ ∃ i, v = f i := by
    intro f
    simp [OnTri, Fin.exists_fin_succ]
  have e1 : OnTri v (sort3 t) ↔ ∃ i, v = (SoS.bubbleSort (n := 3) ![t.1, t.2.1, t.2.2]).arr i := key _
  have e2 : OnTri v t ↔ ∃ i, v = (![t.1, t.2.1, t.2.2] : Fin 3 → Int) i := key ![t.1, t.2.1, t.2.2]
  rw [e1, e2]
  constructor
  · rintro ⟨i, hi⟩; exact ⟨σ i, by rw [hi, h2]⟩
  · rintro ⟨i, hi⟩; exact ⟨σ.symm i, by rw [hi, h2]; simp⟩

theorem sort3_le (t : Tri) : (sort3 t).1 ≤ (sort3 t).2.1 ∧ (sort3 t).2.1 ≤ (sort3 t).2.2 :=
  ⟨SoS.sort_sorted _ 0 1 (by decide), SoS.sort_sorted _ 1 2 (by decide)⟩

/-- three different corners -/
def Distinct3 (t : Tri) : Prop := t.1 ≠ t.2.1 ∧ t.1 ≠ t.2.2 ∧ t.2.1 ≠ t.2.2

/-- strictly increasing corners -/
def Incr3 (t : Tri) : Prop := t.1 < t.2.1 ∧ t.2.1 < t.2.2

theorem sort3_incr {t : Tri} (h : Distinct3 t) : Incr3 (sort3 t) := by
  have hl := sort3_le t
  have a := (sort3_mem t t.1).2 (Or.inl rfl)
  have b := (sort3_mem t t.2.1).2 (Or.inr (Or.inl rfl))
  have c := (sort3_mem t t.2.2).2 (Or.inr (Or.inr rfl))
  unfold OnTri at a b c
  unfold Distinct3 at h
  unfold Incr3
  omega

theorem incr3_ext {s t : Tri} (hs : Incr3 s) (ht : Incr3 t) (h : SameTri s t) : s = t := by
  have a := (h s.1).1 (Or.inl rfl)
  have b := (h s.2.1).1 (Or.inr (Or.inl rfl))
  have c := (h s.2.2).1 (Or.inr (Or.inr rfl))
  unfold OnTri at a b c
  unfold Incr3 at hs ht
  obtain ⟨s1, s2, s3⟩ := s
  obtain ⟨t1, t2, t3⟩ := t
  simp only at *
  have : s1 = t1 ∧ s2 = t2 ∧ s3 = t3 := by omega
  obtain ⟨rfl, rfl, rfl⟩ := this
  rfl

theorem sort3_same (t : Tri) : SameTri (sort3 t) t := fun v => sort3_mem t v

theorem sort3_eq_iff {s t : Tri} (hs : Distinct3 s) (ht : Distinct3 t) :
    sort3 s = sort3 t ↔ SameTri s t := by
  constructor
  · intro h v; rw [← sort3_mem s, h, sort3_mem]
  · intro h
    exact incr3_ext (sort3_incr hs) (sort3_incr ht) (fun v => by rw [sort3_mem, sort3_mem, h v])

theorem incr3_distinct {t : Tri} (h : Incr3 t) : Distinct3 t := by
  unfold Incr3 at h; unfold Distinct3; omega

theorem sort3_of_incr {t : Tri} (h : Incr3 t) : sort3 t = t :=
  incr3_ext (sort3_incr (incr3_distinct h)) h (sort3_same t)

theorem sort2_eq (u v : Int) : sort2 u v = (min u v, max u v) := by
  unfold sort2
  split
  · rw [min_eq_right, max_eq_left] <;> omega
  · rw [min_eq_left, max_eq_right] <;> omega

/-! ### maps -/

/-- The entries `(k₀, n), (k₁, n+1), …`. -/
def entries {K : Type} : List K → Int → List (K × Int)
  | [], _ => []
  | k :: ks, n => (k, n) :: entries ks (n + 1)

theorem entries_append {K : Type} (ks : List K) (k : K) (n : Int) :
    entries (ks ++ [k]) n = entries ks n ++ [(k, n + ks.length)] := by
  induction ks generalizing n with
  | nil => simp [entries]
  | cons a ks ih => simp [entries, ih]; omega

theorem entries_length {K : Type} (ks : List K) (n : Int) : (entries ks n).length = ks.length := by
  induction ks generalizing n with
  | nil => rfl
  | cons a ks ih => simp [entries, ih]

theorem mem_entries {K : Type} (ks : List K) (n : Int) (e : K) (x : Int) :
    (e, x) ∈ entries ks n ↔ ∃ j : Nat, ks[j]? = some e ∧ x = n + j := by
  induction ks generalizing n with
  | nil => simp [entries]
  | cons a ks ih =>
    simp only [entries, List.mem_cons, Prod.mk.injEq, ih]
    constructor
    · rintro (⟨rfl, rfl⟩ | ⟨j, h1, h2⟩)
      · exact ⟨0, by simp⟩
      · exact ⟨j + 1, by simpa using h1, by push_cast; omega⟩
    · rintro ⟨j, h1, h2⟩
      cases j with
      | zero => left; simp at h1; exact ⟨h1.symm, by simpa using h2⟩
      | succ j => right; exact ⟨j, by simpa using h1, by push_cast at h2; omega⟩

theorem find_append {K : Type} [DecidableEq K] (m : List (K × Int)) (k k' : K) (v : Int) :
    find (m ++ [(k', v)]) k =
      match find m k with
      | some x => some x
      | none => if k' = k then some v else none := by
  induction m with
  | nil => simp [find]
  | cons a m ih =>
    obtain ⟨a, w⟩ := a
    simp only [List.cons_append, find]
    split
    · rfl
    · exact ih

theorem find_insertNew {K : Type} [DecidableEq K] (m : List (K × Int)) (k k' : K) (v : Int) :
    find (insertNew m k' v) k =
      match find m k with
      | some x => some x
      | none => if k' = k then some v else none := by
  unfold insertNew
  split
  · rename_i y hy
    split
    · assumption
    · rename_i hk
      rw [if_neg (by rintro rfl; rw [hk] at hy; cases hy)]
      exact hk
  · exact find_append m k k' v

theorem find_entries {K : Type} [DecidableEq K] (ks : List K) (n : Int) (hn : ks.Nodup) (e : K) (x : Int) :
    find (entries ks n) e = some x ↔ ∃ j : Nat, ks[j]? = some e ∧ x = n + j := by
  induction ks generalizing n with
  | nil => simp [entries, find]
  | cons a ks ih =>
    rw [List.nodup_cons] at hn
    simp only [entries, find]
    split
    · rename_i h
      subst h
      constructor
      · rintro ⟨⟩; exact ⟨0, by simp⟩
      · rintro ⟨j, h1, h2⟩
        cases j with
        | zero => simp at h2; rw [h2]
        | succ j => exact absurd (List.mem_of_getElem? (by simpa using h1)) hn.1
    · rename_i h
      rw [ih _ hn.2]
      constructor
      · rintro ⟨j, h1, h2⟩
        exact ⟨j + 1, by simpa using h1, by push_cast; omega⟩
      · rintro ⟨j, h1, h2⟩
        cases j with
        | zero => simp at h1; exact absurd h1 h
        | succ j => exact ⟨j, by simpa using h1, by push_cast at h2; omega⟩

theorem find_entries_none {K : Type} [DecidableEq K] (ks : List K) (n : Int) (hn : ks.Nodup) (e : K) :
    find (entries ks n) e = none ↔ e ∉ ks := by
  rw [Option.eq_none_iff_forall_ne_some]
  constructor
  · intro h he
    obtain ⟨j, hj⟩ := List.getElem?_of_mem he
    exact h _ ((find_entries ks n hn e _).2 ⟨j, hj, rfl⟩)
  · intro h x hx
    obtain ⟨j, hj, -⟩ := (find_entries ks n hn e x).1 hx
    exact h (List.mem_of_getElem? hj)

/-! ### `build_triangles` -/

theorem triLoop_spec (n0 : Nat) : ∀ (ts : List Tri) (s : TS) (i : Nat), s.vtris.length = n0 →
    (∀ t ∈ ts, ∀ v, OnTri v t → 0 ≤ v ∧ v < n0) →
    ∃ s', triLoop s i ts = some s' ∧ s'.tris = s.tris ++ ts.map sort3 ∧
      s'.chi = s.chi ++ ts.map chi3 ∧ s'.vtris.length = n0 ∧
      (∀ k x, find s'.triMap k = some x ↔ find s.triMap k = some x ∨ (find s.triMap k = none ∧
        ∃ (j : Nat) (t : Tri), ts[j]? = some t ∧ sort3 t = k ∧ x = i + j ∧
          ∀ j' < j, ∀ t', ts[j']? = some t' → sort3 t' ≠ k)) ∧
      (∀ v S, read s.vtris v = some S → StrictSorted S →
        ∃ S', read s'.vtris v = some S' ∧ StrictSorted S' ∧
        ∀ x, x ∈ S' ↔ x ∈ S ∨ ∃ (j : Nat) (t : Tri), ts[j]? = some t ∧ x = i + j ∧ OnTri v t) := by
  intro ts
  induction ts with
  | nil =>
    intro s i hl _
    refine ⟨s, rfl, by simp, by simp, hl, ?_, ?_⟩
    · intro k x; simp
    · intro v S hS hs; exact ⟨S, hS, hs, by simp⟩
  | cons t ts ih =>
    intro s i hl hr
    have hrt := hr t (List.mem_cons_self ..)
    have h1 := hrt _ ((sort3_mem t _).1 (Or.inl rfl))
    have h2 := hrt _ ((sort3_mem t _).1 (Or.inr (Or.inl rfl)))
    have h3 := hrt _ ((sort3_mem t _).1 (Or.inr (Or.inr rfl)))
    obtain ⟨a, ha, hal, hra⟩ := addAt_of_lt (a := s.vtris) (i : Int) h1.1 (by omega)
    obtain ⟨b, hb, hbl, hrb⟩ := addAt_of_lt (a := a) (i : Int) h2.1 (by omega)
    obtain ⟨c, hc, hcl, hrc⟩ := addAt_of_lt (a := b) (i : Int) h3.1 (by omega)
    obtain ⟨s', e0, e1, e2, e3, e4, e5⟩ := ih
      { tris := s.tris ++ [sort3 t], chi := s.chi ++ [chi3 t],
        triMap := insertNew s.triMap (sort3 t) i, vtris := c } (i + 1) (by simp only; omega)
      (fun t' ht' => hr t' (List.mem_cons_of_mem _ ht'))
    refine ⟨s', ?_, ?_, ?_, e3, ?_, ?_⟩
    · simp [triLoop, triStep, ha, hb, hc, e0]
    · rw [e1]; simp
    · rw [e2]; simp
    · intro k x
      rw [e4]
      simp only [find_insertNew]
      cases hk : find s.triMap k with
      | some y => simp
      | none =>
        simp only [reduceCtorEq, false_or, true_and]
        by_cases hkt : sort3 t = k
        · simp only [hkt, if_true, Option.some.injEq, reduceCtorEq, false_and, or_false]
          constructor
          · rintro rfl
            exact ⟨0, t, by simp, hkt, by simp, by simp⟩
          · rintro ⟨j, t', g1, g2, g3, g4⟩
            cases j with
            | zero => simpa using g3.symm
            | succ j => exact absurd hkt (g4 0 (by omega) t (by simp))
        · simp only [hkt, if_false, reduceCtorEq, false_or, true_and]
          constructor
          · rintro ⟨j, t', g1, g2, g3, g4⟩
            refine ⟨j + 1, t', by simpa using g1, g2, by push_cast at g3 ⊢; omega, ?_⟩
            intro j' hj' t'' h''
            cases j' with
            | zero => simp at h''; subst h''; exact hkt
            | succ j' => exact g4 j' (by omega) t'' (by simpa using h'')
          · rintro ⟨j, t', g1, g2, g3, g4⟩
            cases j with
            | zero => simp at g1; subst g1; exact absurd g2 hkt
            | succ j =>
              refine ⟨j, t', by simpa using g1, g2, by push_cast at g3 ⊢; omega, ?_⟩
              intro j' hj' t'' h''
              exact g4 (j' + 1) (by omega) t'' (by simpa using h'')
    · intro v S hS hs
      have hc' : ∃ S', read c v = some S' ∧ StrictSorted S' ∧ ∀ x, x ∈ S' ↔ x ∈ S ∨ (x = i ∧ OnTri v t) := by
        have key : ∀ (l l' : List (List Int)) (w : Int) (T : List Int),
            (∀ j, read l' j = if j = w then (read l j).map (setInsert (i : Int)) else read l j) →
            read l v = some T → StrictSorted T →
            ∃ T', read l' v = some T' ∧ StrictSorted T' ∧ ∀ x, x ∈ T' ↔ x ∈ T ∨ (x = i ∧ v = w) := by
          intro l l' w T hh hT hTs
          by_cases hvw : v = w
          · refine ⟨setInsert (i : Int) T, by rw [hh, if_pos hvw, hT]; rfl, hTs.setInsert, ?_⟩
            intro x; simp [hvw]; tauto
          · exact ⟨T, by rw [hh, if_neg hvw, hT], hTs, by simp [hvw]⟩
        obtain ⟨A, hA, hAs, hAm⟩ := key _ _ _ _ hra hS hs
        obtain ⟨B, hB, hBs, hBm⟩ := key _ _ _ _ hrb hA hAs
        obtain ⟨C, hC, hCs, hCm⟩ := key _ _ _ _ hrc hB hBs
        refine ⟨C, hC, hCs, ?_⟩
        intro x
        rw [hCm, hBm, hAm, ← sort3_mem t v]
        unfold OnTri
        tauto
      obtain ⟨S1, g1, g2, g3⟩ := hc'
      obtain ⟨S2, f1, f2, f3⟩ := e5 v S1 g1 g2
      refine ⟨S2, f1, f2, ?_⟩
      intro x
      rw [f3, g3, or_assoc]
      refine or_congr_right ?_
      constructor
      · rintro (⟨rfl, h⟩ | ⟨j, t', p1, p2, p3⟩)
        · exact ⟨0, t, by simp, by simp, h⟩
        · exact ⟨j + 1, t', by simpa using p1, by push_cast at p2 ⊢; omega, p3⟩
      · rintro ⟨j, t', p1, p2, p3⟩
        cases j with
        | zero => simp at p1 p2; subst p1; exact Or.inl ⟨p2, p3⟩
        | succ j => exact Or.inr ⟨j, t', by simpa using p1, by push_cast at p2 ⊢; omega, p3⟩

end Verif.UM
