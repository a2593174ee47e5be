import Verif.MPAS.Model
import Mathlib.Data.List.Nodup
import Mathlib.Data.List.Induction

/-!
# C152: identifiers and positions
-/

namespace Verif.MPAS

theorem idMap_append (ids : List Int) (a k : Int) : idMap (ids ++ [a]) k = if k = a then some ids.length else idMap ids k := by
  unfold idMap
  rw [List.zipIdx_append, List.foldl_append]
  simp

theorem idMap_some (ids : List Int) (k : Int) (i : Nat) (h : idMap ids k = some i) : ids[i]? = some k := by
  induction ids using List.reverseRecOn with
  | nil => cases h
  | append_singleton l a ih =>
    rw [idMap_append] at h
    split_ifs at h with h1
    · obtain rfl := Option.some.inj h
      subst h1
      simp
    · have := ih h
      rw [List.getElem?_append_left (List.getElem?_eq_some_iff.1 this).1]
      exact this

theorem idMap_none (ids : List Int) (k : Int) : idMap ids k = none ↔ k ∉ ids := by
  induction ids using List.reverseRecOn with
  | nil => simp [idMap]
  | append_singleton l a ih =>
    rw [idMap_append]
    by_cases h : k = a
    · simp [h]
    · rw [if_neg h, ih]; simp [h]

/-- C152: with the table of identifiers, an identifier of the file is mapped to a position at which it stands, any other one (0 for a missing
neighbour) to -1. -/
theorem C152_general (ids : List Int) (id : Int) :
    (id ∈ ids → ∃ i : Nat, id2i false ids id = (i : Int) ∧ ids[i]? = some id) ∧ (id ∉ ids → id2i false ids id = -1) := by
  unfold id2i
  rw [if_neg (by simp)]
  constructor
  · intro h
    cases he : idMap ids id with
    | none => exact absurd h ((idMap_none ids id).1 he)
    | some i => exact ⟨i, rfl, idMap_some ids id i he⟩
  · intro h
    rw [(idMap_none ids id).2 h]

/-- C152: for distinct identifiers the two maps are inverse to each other. -/
theorem C152_inverse (ids : List Int) (hn : ids.Nodup) :
    (∀ id ∈ ids, i2id false ids (id2i false ids id) = some id) ∧
    ∀ i : Nat, i < ids.length → ∃ id, i2id false ids i = some id ∧ id2i false ids id = (i : Int) := by
  constructor
  · intro id h
    obtain ⟨i, h1, h2⟩ := (C152_general ids id).1 h
    rw [h1]
    unfold i2id
    rw [if_neg (by simp), if_neg (by omega)]
    simpa using h2
  · intro i hi
    refine ⟨ids[i], ?_, ?_⟩
    · unfold i2id
      rw [if_neg (by simp), if_neg (by omega)]
      simp [hi]
    · obtain ⟨j, h1, h2⟩ := (C152_general ids ids[i]).1 (List.getElem_mem hi)
      rw [h1]
      obtain ⟨hj, e⟩ := List.getElem?_eq_some_iff.1 h2
      rw [(List.Nodup.getElem_inj_iff hn).1 e]

/-- C152: the shortcut is taken exactly if every identifier is its position plus one. -/
theorem C152_shortcut (cells edges verts : List Int) :
    simpleIdmap cells edges verts = true ↔ ∀ ids ∈ [cells, edges, verts], ∀ (i : Nat) (id : Int), ids[i]? = some id → id = (i : Int) + 1 := by
  have key : ∀ ids : List Int, isSimple ids = true ↔ ∀ (i : Nat) (id : Int), ids[i]? = some id → id = (i : Int) + 1 := by
    intro ids
    unfold isSimple
    rw [List.all_eq_true]
    constructor
    · intro h i id hi
      have := h (id, i) (List.mem_zipIdx_iff_getElem?.2 hi)
      simpa using this
    · rintro h ⟨id, i⟩ hp
      simpa using h i id (List.mem_zipIdx_iff_getElem?.1 hp)
  unfold simpleIdmap
  rw [Bool.and_eq_true, Bool.and_eq_true, key, key, key]
  simp [and_assoc]

/-- C152: on the identifiers of the file and on 0, and on the positions of the file, the shortcut agrees with the table. -/
theorem C152_agree_partial (ids : List Int) (h : isSimple ids = true) :
    (∀ id, id ∈ ids ∨ id = 0 → id2i true ids id = id2i false ids id) ∧
    ∀ i : Nat, i < ids.length → i2id true ids i = i2id false ids i := by
  unfold isSimple at h
  rw [List.all_eq_true] at h
  have hs : ∀ (i : Nat) (id : Int), ids[i]? = some id → id = (i : Int) + 1 := by
    intro i id hi
    have := h (id, i) (List.mem_zipIdx_iff_getElem?.2 hi)
    simpa using this
  constructor
  · intro id hid
    by_cases hm : id ∈ ids
    · obtain ⟨i, h1, h2⟩ := (C152_general ids id).1 hm
      rw [h1, hs i id h2]
      unfold id2i; rw [if_pos rfl]; omega
    · rcases hid with hid | rfl
      · exact absurd hid hm
      · rw [(C152_general ids 0).2 hm]
        unfold id2i; rw [if_pos rfl]; omega
  · intro i hi
    unfold i2id
    rw [if_pos rfl, if_neg (by simp), if_neg (by omega)]
    have := List.getElem?_eq_getElem hi
    rw [Int.toNat_natCast, this, hs i _ this]

/-- C152 (finding): with the shortcut an identifier that is too large gives a position beyond the arrays instead of -1. -/
theorem C152_shortcut_unknown (ids : List Int) (id : Int) (h : (ids.length : Int) < id) :
    (ids.length : Int) ≤ id2i true ids id := by
  unfold id2i; rw [if_pos rfl]; omega

/-- C152 (finding): the identifier of position -1 (no cell found) is an access out of bounds with the table, and 0 with the shortcut. -/
theorem C152_no_cell (ids : List Int) : i2id false ids (-1) = none ∧ i2id true ids (-1) = some 0 := by
  constructor
  · unfold i2id; rw [if_neg (by simp), if_pos (by omega)]
  · rfl

example : isSimple [1, 2, 3] = true ∧ isSimple [3, 1, 2] = false ∧ id2i false [30, 10, 20] 20 = 2 ∧ id2i false [30, 10, 20] 0 = -1 ∧
    i2id false [30, 10, 20] 2 = some 20 ∧ ([30, 10, 20] : List Int).Nodup := by decide +kernel

end Verif.MPAS
