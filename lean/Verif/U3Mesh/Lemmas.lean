import Verif.U3Mesh.Spec
import Verif.UMesh.Build

/-! Lemmas on the construction of the tetrahedral mesh. -/

namespace Verif.U3

open Verif.UM (read read_nat read_eq_some read_lt read_of_lt entries mem_entries find_entries find_entries_none
  entries_append fillVerts fillVerts_spec read_replicate)

/-! ### the order of the keys -/

theorem lexLt_irrefl : ∀ a : Cell, lexLt a a = false
  | [] => rfl
  | a :: as => by simp [lexLt, lexLt_irrefl as]

theorem lexLt_trans : ∀ {a b c : Cell}, lexLt a b = true → lexLt b c = true → lexLt a c = true
  | [], _, _, h, _ => by simp [lexLt] at h
  | _ :: _, [], _, h, _ => by simp [lexLt] at h
  | _ :: _, _ :: _, [], _, h => by simp [lexLt] at h
  | a :: as, b :: bs, c :: cs, h1, h2 => by
    unfold lexLt at h1 h2 ⊢
    have ih := @lexLt_trans as bs cs
    split at h1
    · split at h2
      · rw [if_pos (by omega)]
      · split at h2
        · simp at h2
        · rw [if_pos (by omega)]
    · split at h1
      · simp at h1
      · split at h2
        · rw [if_pos (by omega)]
        · split at h2
          · simp at h2
          · rw [if_neg (by omega), if_neg (by omega)]
            exact ih h1 h2

theorem lexLt_total : ∀ {a b : Cell}, a.length = b.length → a ≠ b → lexLt a b = false → lexLt b a = true
  | [], [], _, h, _ => absurd rfl h
  | [], _ :: _, h, _, _ => by simp at h
  | _ :: _, [], h, _, _ => by simp at h
  | a :: as, b :: bs, hl, hne, h => by
    unfold lexLt at h ⊢
    split at h
    · simp at h
    · split at h
      · rw [if_pos (by assumption)]
      · have hab : a = b := by omega
        rw [if_neg (by omega), if_neg (by omega)]
        exact lexLt_total (by simpa using hl) (fun e => hne (by rw [hab, e])) h

theorem lexLt_before : ∀ {a b : Cell}, lexLt a b = true → Before a b
  | [], _, h => by simp [lexLt] at h
  | _ :: _, [], h => by simp [lexLt] at h
  | a :: as, b :: bs, h => by
    unfold lexLt at h
    split at h
    · exact ⟨[], a, b, as, bs, rfl, rfl, by assumption⟩
    · split at h
      · simp at h
      · have hab : a = b := by omega
        obtain ⟨p, x, y, q, q', h1, h2, h3⟩ := lexLt_before h
        exact ⟨a :: p, x, y, q, q', by simp [h1], by simp [h2, hab], h3⟩

/-! ### `map<tuple, set>` -/

/-- What holds of a `map<tuple, set>` filled by `map[k].insert(x)` with keys of length `L`. -/
structure KInv (L : Nat) (m : List (Cell × List Int)) : Prop where
  len : ∀ e ∈ m, e.1.length = L
  sorted : m.Pairwise (fun e e' => lexLt e.1 e'.1 = true)
  set : ∀ e ∈ m, StrictSorted e.2 ∧ e.2 ≠ []

/-- `x` is in the set of key `k`. -/
def Has (m : List (Cell × List Int)) (k : Cell) (x : Int) : Prop := ∃ S, (k, S) ∈ m ∧ x ∈ S

theorem kinv_nil (L : Nat) : KInv L [] := ⟨by simp, by simp, by simp⟩

theorem addKey_key {k : Cell} {x : Int} : ∀ {m : List (Cell × List Int)} {e : Cell × List Int},
    e ∈ addKey k x m → e.1 = k ∨ ∃ e' ∈ m, e'.1 = e.1
  | [], e, h => by simp [addKey] at h; exact Or.inl (by rw [h])
  | (k', S) :: m, e, h => by
    unfold addKey at h
    split at h
    · rcases List.mem_cons.1 h with rfl | h
      · exact Or.inr ⟨(k', S), by simp, rfl⟩
      · exact Or.inr ⟨e, by simp [h], rfl⟩
    · split at h
      · rcases List.mem_cons.1 h with rfl | h
        · exact Or.inl rfl
        · exact Or.inr ⟨e, h, rfl⟩
      · rcases List.mem_cons.1 h with rfl | h
        · exact Or.inr ⟨(k', S), by simp, rfl⟩
        · rcases addKey_key h with h | ⟨e', h1, h2⟩
          · exact Or.inl h
          · exact Or.inr ⟨e', by simp [h1], h2⟩

theorem setInsert_ne_nil (x : Int) (S : List Int) : setInsert x S ≠ [] := by
  intro h
  have : x ∈ setInsert x S := by rw [mem_setInsert]; exact Or.inl rfl
  rw [h] at this; cases this

theorem addKey_spec {L : Nat} {k : Cell} (hk : k.length = L) (x : Int) : ∀ {m : List (Cell × List Int)}, KInv L m →
    KInv L (addKey k x m) ∧ ∀ k' y, Has (addKey k x m) k' y ↔ Has m k' y ∨ (k' = k ∧ y = x)
  | [], _ => by
    refine ⟨⟨by simp [addKey, hk], by simp [addKey], by simp [addKey, StrictSorted]⟩, ?_⟩
    intro k' y
    simp [Has, addKey]
  | (k', S) :: m, h => by
    have hm : KInv L m := ⟨fun e he => h.len e (by simp [he]), (List.pairwise_cons.1 h.sorted).2, fun e he => h.set e (by simp [he])⟩
    have hhd := (List.pairwise_cons.1 h.sorted).1
    unfold addKey
    split
    · rename_i hkk
      subst hkk
      refine ⟨⟨?_, ?_, ?_⟩, ?_⟩
      · intro e he
        rcases List.mem_cons.1 he with rfl | he
        · exact hk
        · exact hm.len e he
      · exact List.pairwise_cons.2 ⟨hhd, hm.sorted⟩
      · intro e he
        rcases List.mem_cons.1 he with rfl | he
        · exact ⟨(h.set (k, S) (by simp)).1.setInsert, setInsert_ne_nil _ _⟩
        · exact hm.set e he
      · intro k'' y
        unfold Has
        constructor
        · rintro ⟨T, hT, hy⟩
          rcases List.mem_cons.1 hT with hT | hT
          · obtain ⟨rfl, rfl⟩ := Prod.mk.inj hT
            rcases (mem_setInsert _ _ _).1 hy with rfl | hy
            · exact Or.inr ⟨rfl, rfl⟩
            · exact Or.inl ⟨S, by simp, hy⟩
          · exact Or.inl ⟨T, by simp [hT], hy⟩
        · rintro (⟨T, hT, hy⟩ | ⟨rfl, rfl⟩)
          · rcases List.mem_cons.1 hT with hT | hT
            · obtain ⟨rfl, rfl⟩ := Prod.mk.inj hT
              exact ⟨_, by simp; left; rfl, (mem_setInsert _ _ _).2 (Or.inr hy)⟩
            · exact ⟨T, by simp [hT], hy⟩
          · exact ⟨_, by simp; left; rfl, (mem_setInsert _ _ _).2 (Or.inl rfl)⟩
    · rename_i hkk
      split
      · rename_i hlt
        refine ⟨⟨?_, ?_, ?_⟩, ?_⟩
        · intro e he
          rcases List.mem_cons.1 he with rfl | he
          · exact hk
          · exact h.len e he
        · refine List.pairwise_cons.2 ⟨?_, h.sorted⟩
          intro e he
          rcases List.mem_cons.1 he with rfl | he
          · exact hlt
          · exact lexLt_trans hlt (hhd e he)
        · intro e he
          rcases List.mem_cons.1 he with rfl | he
          · simp [StrictSorted]
          · exact h.set e he
        · intro k'' y
          unfold Has
          constructor
          · rintro ⟨T, hT, hy⟩
            rcases List.mem_cons.1 hT with hT | hT
            · obtain ⟨rfl, rfl⟩ := Prod.mk.inj hT
              exact Or.inr ⟨rfl, by simpa using hy⟩
            · exact Or.inl ⟨T, hT, hy⟩
          · rintro (⟨T, hT, hy⟩ | ⟨rfl, rfl⟩)
            · exact ⟨T, by simp at hT ⊢; tauto, hy⟩
            · exact ⟨[y], by simp, by simp⟩
      · rename_i hlt
        obtain ⟨i1, i2⟩ := addKey_spec hk x hm
        have hgt : lexLt k' k = true := lexLt_total (by rw [hk, h.len (k', S) (by simp)]) hkk (by simpa using hlt)
        refine ⟨⟨?_, ?_, ?_⟩, ?_⟩
        · intro e he
          rcases List.mem_cons.1 he with rfl | he
          · exact h.len (k', S) (by simp)
          · exact i1.len e he
        · refine List.pairwise_cons.2 ⟨?_, i1.sorted⟩
          intro e he
          rcases addKey_key he with h1 | ⟨e', h1, h2⟩
          · rw [h1]; exact hgt
          · rw [← h2]; exact hhd e' h1
        · intro e he
          rcases List.mem_cons.1 he with rfl | he
          · exact h.set (k', S) (by simp)
          · exact i1.set e he
        · intro k'' y
          have hc : ∀ M : List (Cell × List Int), Has ((k', S) :: M) k'' y ↔ (k'' = k' ∧ y ∈ S) ∨ Has M k'' y := by
            intro M
            unfold Has
            constructor
            · rintro ⟨T, hT, hy⟩
              rcases List.mem_cons.1 hT with hT | hT
              · obtain ⟨rfl, rfl⟩ := Prod.mk.inj hT
                exact Or.inl ⟨rfl, hy⟩
              · exact Or.inr ⟨T, hT, hy⟩
            · rintro (⟨rfl, hy⟩ | ⟨T, hT, hy⟩)
              · exact ⟨S, by simp, hy⟩
              · exact ⟨T, by simp [hT], hy⟩
          rw [hc, hc, i2]
          tauto

theorem addCell_spec {L : Nat} (i : Nat) (c : Cell) : ∀ (tbl : List (List Nat)) {m : List (Cell × List Int)},
    (∀ js ∈ tbl, js.length = L) → KInv L m →
    KInv L (addCell i c tbl m) ∧ ∀ k x, Has (addCell i c tbl m) k x ↔ Has m k x ∨ (x = i ∧ ∃ js ∈ tbl, k = pick c js)
  | [], m, _, h => ⟨h, by simp [addCell]⟩
  | js :: tbl, m, hl, h => by
    obtain ⟨a1, a2⟩ := addKey_spec (k := pick c js) (L := L) (by simp [pick, hl js (by simp)]) i h
    obtain ⟨b1, b2⟩ := addCell_spec i c tbl (fun js' h' => hl js' (by simp [h'])) a1
    refine ⟨b1, ?_⟩
    intro k x
    show Has (addCell i c tbl (addKey (pick c js) i m)) k x ↔ _
    rw [b2, a2]
    simp only [List.mem_cons, exists_eq_or_imp]
    tauto

theorem addCells_spec {L : Nat} {tbl : List (List Nat)} (hl : ∀ js ∈ tbl, js.length = L) :
    ∀ (l : List Cell) (i : Nat) {m : List (Cell × List Int)}, KInv L m →
    KInv L (addCells tbl i l m) ∧ ∀ k x, Has (addCells tbl i l m) k x ↔
      Has m k x ∨ ∃ (j : Nat) (c : Cell), l[j]? = some c ∧ x = (i : Int) + j ∧ ∃ js ∈ tbl, k = pick c js
  | [], i, m, h => ⟨h, by simp [addCells]⟩
  | c :: l, i, m, h => by
    obtain ⟨a1, a2⟩ := addCell_spec (L := L) i c tbl hl h
    obtain ⟨b1, b2⟩ := addCells_spec hl l (i + 1) a1
    refine ⟨b1, ?_⟩
    intro k x
    show Has (addCells tbl (i + 1) l (addCell i c tbl m)) k x ↔ _
    rw [b2, a2]
    constructor
    · rintro ((h | ⟨h1, h2⟩) | ⟨j, c', h1, h2, h3⟩)
      · exact Or.inl h
      · exact Or.inr ⟨0, c, rfl, by simpa using h1, h2⟩
      · exact Or.inr ⟨j + 1, c', by simpa using h1, by push_cast at h2 ⊢; omega, h3⟩
    · rintro (h | ⟨j, c', h1, h2, h3⟩)
      · exact Or.inl (Or.inl h)
      · cases j with
        | zero =>
          simp at h1; subst h1
          exact Or.inl (Or.inr ⟨by simpa using h2, h3⟩)
        | succ j => exact Or.inr ⟨j, c', by simpa using h1, by push_cast at h2 ⊢; omega, h3⟩

/-! ### `map<tuple, int>` -/

theorem assign_new {k : Cell} {x : Int} : ∀ {m : List (Cell × Int)}, (∀ e ∈ m, e.1 ≠ k) → assign k x m = m ++ [(k, x)]
  | [], _ => rfl
  | (k', y) :: m, h => by
    unfold assign
    rw [if_neg (fun e => h (k', y) (by simp) e.symm), assign_new (fun e he => h e (by simp [he]))]
    rfl

theorem idMap_append : ∀ (l : List Cell) (i : Nat) (p : List Cell), (p ++ l).Nodup → p.length = i →
    idMap i l (entries p 0) = entries (p ++ l) 0
  | [], i, p, _, _ => by simp [idMap]
  | c :: l, i, p, hn, hi => by
    have hc : ∀ e ∈ entries p 0, e.1 ≠ c := by
      rintro ⟨k, x⟩ he rfl
      obtain ⟨j, hj, _⟩ := (mem_entries p 0 k x).1 he
      exact (List.nodup_append.1 hn).2.2 k (List.mem_of_getElem? hj) k (by simp) rfl
    unfold idMap
    rw [assign_new hc, show entries p 0 ++ [(c, (i : Int))] = entries (p ++ [c]) 0 by rw [entries_append, hi]; simp]
    rw [idMap_append l (i + 1) (p ++ [c]) (by simpa using hn) (by simp [hi])]
    simp

theorem idMap_eq {l : List Cell} (h : l.Nodup) : idMap 0 l [] = entries l 0 := by
  have := idMap_append l 0 [] (by simpa using h) rfl
  simpa [entries] using this

/-! ### sorting -/

theorem sort4_shape (t : Tet) : ∃ a b c d, sort4 t = [a, b, c, d] ∧ a ≤ b ∧ b ≤ c ∧ c ≤ d ∧
    ∀ v, v ∈ [a, b, c, d] ↔ OnTet v t := by
  refine ⟨_, _, _, _, rfl, SoS.sort_sorted _ 0 1 (by decide), SoS.sort_sorted _ 1 2 (by decide), SoS.sort_sorted _ 2 3 (by decide), ?_⟩
  intro v
  obtain ⟨σ, -, h2, -⟩ := SoS.bsInv_sort (n := 4) ![t.1, t.2.1, t.2.2.1, t.2.2.2]
  have key : ∀ f : Fin 4 → Int, v ∈ [f 0, f 1, f 2, f 3] ↔ ∃ i, v = f i := by
    intro f
    simp [Fin.exists_fin_succ]
  have e2 : OnTet v t ↔ ∃ i, v = (![t.1, t.2.1, t.2.2.1, t.2.2.2] : Fin 4 → Int) i := by
    rw [← key]; simp [OnTet]
  rw [key, e2]
  constructor
  · rintro ⟨i, hi⟩; exact ⟨σ i, by rw [hi, h2]⟩
  · rintro ⟨i, hi⟩; exact ⟨σ.symm i, by rw [hi, h2]; simp⟩

theorem sort4_incr {t : Tet} (h : [t.1, t.2.1, t.2.2.1, t.2.2.2].Nodup) : ∃ a b c d, sort4 t = [a, b, c, d] ∧
    a < b ∧ b < c ∧ c < d ∧ ∀ v, v ∈ [a, b, c, d] ↔ OnTet v t := by
  obtain ⟨a, b, c, d, h1, h2, h3, h4, h5⟩ := sort4_shape t
  have g1 := (h5 t.1).2 (by simp [OnTet])
  have g2 := (h5 t.2.1).2 (by simp [OnTet])
  have g3 := (h5 t.2.2.1).2 (by simp [OnTet])
  have g4 := (h5 t.2.2.2).2 (by simp [OnTet])
  simp at h g1 g2 g3 g4
  exact ⟨a, b, c, d, h1, by omega, by omega, by omega, h5⟩

/-- Two increasing lists with the same members are equal. -/
theorem incr_ext {a b : List Int} (ha : a.Pairwise (· < ·)) (hb : b.Pairwise (· < ·)) (h : ∀ v, v ∈ a ↔ v ∈ b) : a = b :=
  StrictSorted.ext ha hb h

end Verif.U3
