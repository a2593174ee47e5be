import Verif.Str.Model
import Verif.Curve.Props
import Mathlib.Data.List.Infix
import Mathlib.Order.Lex
/-! C171 (strings and option lists), C172 (file formats), C173 (series of files). -/
namespace Verif.Str
open Verif.Curve (PPOp)

/-! ### C171 -/

theorem find_zero (v s : Str) : find v s = some 0 ↔ s <+: v := by
  cases v with
  | nil =>
    simp only [find, List.prefix_nil]
    split <;> simp_all
  | cons c v =>
    simp only [find]
    split
    · rename_i h; simpa using List.isPrefixOf_iff_prefix.1 h
    · rename_i h
      constructor
      · intro e
        cases hf : find v s <;> rw [hf] at e <;> simp at e
      · intro e; exact absurd (List.isPrefixOf_iff_prefix.2 e) h

/-- **C171.**  `starts_with` says whether the string begins with the other one. -/
theorem C171_starts_with (v s : Str) : startsWith v s = true ↔ ∃ rest, v = s ++ rest := by
  unfold startsWith
  rw [show (∃ rest, v = s ++ rest) ↔ s <+: v from ⟨fun ⟨r, h⟩ => ⟨r, h.symm⟩, fun ⟨r, h⟩ => ⟨r, h.symm⟩⟩, ← find_zero]
  split <;> simp_all

theorem endsWith_iff (v e : Str) : endsWith v e = true ↔ e <:+ v := by
  unfold endsWith
  split
  · rename_i h
    constructor
    · intro h'; cases h'
    · intro h'; have := h'.length_le; omega
  · rw [beq_iff_eq, ← List.length_reverse (as := e), ← List.prefix_iff_eq_take, List.reverse_prefix]

/-- **C171.**  `ends_with` says whether the string ends with the other one; `ends_with_lower` the same without regard to case. -/
theorem C171_ends_with (v e : Str) :
    (endsWith v e = true ↔ ∃ front, v = front ++ e) ∧
    (endsWithLower v e = true ↔ ∃ front e', v = front ++ e' ∧ e'.map Char.toLower = e.map Char.toLower) := by
  have key : ∀ v e : Str, e <:+ v ↔ ∃ front, v = front ++ e := fun v e => ⟨fun ⟨r, h⟩ => ⟨r, h.symm⟩, fun ⟨r, h⟩ => ⟨r, h.symm⟩⟩
  refine ⟨by rw [endsWith_iff, key], ?_⟩
  unfold endsWithLower
  rw [endsWith_iff]
  unfold toLower
  constructor
  · rintro ⟨r, h⟩
    refine ⟨v.take r.length, v.drop r.length, (List.take_append_drop _ _).symm, ?_⟩
    rw [List.map_drop, ← h, List.drop_left]
  · rintro ⟨front, e', rfl, h⟩
    exact ⟨front.map Char.toLower, by rw [List.map_append, h]⟩

/-- (specification) pieces with a comma between neighbours -/
def join : List Str → Str
  | [] => []
  | [p] => p
  | p :: q :: ps => p ++ ',' :: join (q :: ps)

theorem splitGo_piece (p cur rest : Str) (hp : ',' ∉ p) : splitGo cur (p ++ rest) = splitGo (cur ++ p) rest := by
  induction p generalizing cur with
  | nil => simp
  | cons c p ih =>
    have hc : c ≠ ',' := fun e => hp (by simp [e])
    rw [List.cons_append, splitGo, if_neg hc, ih _ (fun h => hp (by simp [h]))]
    simp

theorem splitGo_join (p : Str) (ps : List Str) (h : ∀ q ∈ p :: ps, ',' ∉ q) (hl : (p :: ps).getLast (by simp) ≠ []) :
    splitGo [] (join (p :: ps)) = p :: ps := by
  induction ps generalizing p with
  | nil =>
    have := splitGo_piece p [] [] (h p (by simp))
    simp only [List.append_nil, List.nil_append] at this
    rw [join, this, splitGo, if_neg (by simpa using hl)]
  | cons q ps ih =>
    rw [join, splitGo_piece p [] _ (h p (by simp)), splitGo, if_pos rfl, ih q (fun x hx => h x (by simp_all)) (by simpa using hl)]
    simp

/-- **C171.**  Splitting a list of pieces joined by commas gives the pieces: if no piece contains a comma and the last one is not empty,
or if there is only one piece. -/
theorem C171_split (p : Str) (ps : List Str) (h : ∀ q ∈ p :: ps, ',' ∉ q) (hl : ps = [] ∨ (p :: ps).getLast (by simp) ≠ []) :
    split (join (p :: ps)) = p :: ps := by
  cases ps with
  | nil => rw [join, split, if_neg (h p (by simp))]
  | cons q ps =>
    rw [split, if_pos (by simp [join])]
    exact splitGo_join p (q :: ps) h (by simpa using hl)

/-- a comma at the end is ignored -/
theorem C171_split_trailing (p : Str) (ps : List Str) (h : ∀ q ∈ p :: ps, ',' ∉ q) (hl : (p :: ps).getLast (by simp) ≠ []) :
    split (join (p :: ps) ++ [',']) = p :: ps := by
  have key : ∀ (p : Str) (ps : List Str), (∀ q ∈ p :: ps, ',' ∉ q) → splitGo [] (join (p :: ps) ++ [',']) = p :: ps := by
    intro p ps h
    induction ps generalizing p with
    | nil =>
      rw [join, splitGo_piece p [] _ (h p (by simp)), splitGo, if_pos rfl, splitGo, if_pos rfl]
      simp
    | cons q ps ih =>
      rw [join, List.append_assoc, splitGo_piece p [] _ (h p (by simp)), List.cons_append, splitGo, if_pos rfl, ih q (fun x hx => h x (by simp_all))]
      simp
  rw [split, if_pos (by simp)]
  exact key p ps h

example : split "smooth_types,rotate,split".toList = ["smooth_types".toList, "rotate".toList, "split".toList] ∧ split [] = [[]] ∧
    split "0,2,".toList = ["0".toList, "2".toList] ∧ split ",1".toList = [[], "1".toList] := by decide +kernel

/-- (specification) the name of an operation -/
def opName : PPOp → Str
  | .smoothTypes => "smooth_types".toList
  | .rotate => "rotate".toList
  | .durationPruning => "duration_pruning".toList
  | .split => "split".toList
  | .discardInterval => "discard_interval_points".toList
  | .reorder => "reorder".toList
  | .adjustTime => "adjust_time".toList
  | .deriveVelocity => "derive_velocity".toList
  | .unknown => "?".toList

/-- **C171.**  A list of known operations, written with commas between the names, is parsed to these operations in this order. -/
theorem C171_options (op : PPOp) (ops : List PPOp) : parseOps (join ((op :: ops).map opName)) = op :: ops := by
  have hname : ∀ o, ',' ∉ opName o ∧ opName o ≠ [] ∧ opOf (opName o) = o := by
    intro o; cases o <;> refine ⟨by decide +kernel, by decide +kernel, by rfl⟩
  unfold parseOps
  rw [List.map_cons, C171_split]
  · rw [← List.map_cons (f := opName), List.map_map]
    conv => rhs; rw [← List.map_id (op :: ops)]
    exact List.map_congr_left fun o _ => (hname o).2.2
  · intro q hq
    rw [← List.map_cons (f := opName), List.mem_map] at hq
    obtain ⟨o, _, rfl⟩ := hq
    exact (hname o).1
  · right
    intro e
    have : (opName op :: ops.map opName).getLast (by simp) ∈ (op :: ops).map opName := by rw [List.map_cons]; exact List.getLast_mem _
    rw [e, List.mem_map] at this
    obtain ⟨o, _, h⟩ := this
    exact (hname o).2.1 h

/-- **C171.**  A word that is none of the names, and does not begin with `duration_pruning`, anywhere in the list makes the run end with
an error, for every set of curves. -/
theorem C171_unknown_option {R : Type} [Field R] [LinearOrder R] {nv : Nat} (e : Verif.Curve.Env R) (fresh : Verif.Curve.Curve R nv)
    (s : Verif.Curve.CurveSet R nv) (str w : Str) (hw : w ∈ split str)
    (hn : ∀ op : PPOp, op ≠ .unknown → w ≠ opName op) (hd : ∀ rest, w ≠ "duration_pruning".toList ++ rest) :
    Verif.Curve.postProcess e fresh (parseOps str) s = none := by
  have hop : opOf w = .unknown := by
    unfold opOf
    have hs : startsWith w "duration_pruning".toList = false := by
      rw [Bool.eq_false_iff]
      intro h
      obtain ⟨rest, hr⟩ := (C171_starts_with _ _).1 h
      exact hd rest hr
    rw [if_neg (show ¬ w = "smooth_types".toList from hn .smoothTypes (by simp)), if_neg (show ¬ w = "rotate".toList from hn .rotate (by simp)), hs, if_neg (by simp), if_neg (show ¬ w = "split".toList from hn .split (by simp)),
      if_neg (show ¬ w = "discard_interval_points".toList from hn .discardInterval (by simp)), if_neg (show ¬ w = "reorder".toList from hn .reorder (by simp)), if_neg (show ¬ w = "adjust_time".toList from hn .adjustTime (by simp)), if_neg (show ¬ w = "derive_velocity".toList from hn .deriveVelocity (by simp))]
  have hmem : PPOp.unknown ∈ parseOps str := by rw [← hop]; exact List.mem_map_of_mem hw
  generalize parseOps str = ops at hmem
  induction ops generalizing s with
  | nil => simp at hmem
  | cons op ops ih =>
    simp only [Verif.Curve.postProcess]
    cases hst : Verif.Curve.ppStep e fresh s op with
    | none => rfl
    | some s' =>
      rcases List.mem_cons.1 hmem with h | h
      · rw [← h] at hst; cases hst
      · exact ih s' h

/-- **Violated:** `duration_pruning:2.0` is accepted and does nothing, whatever the threshold. -/
theorem C171_duration_pruning_ignored {R : Type} [Field R] [LinearOrder R] {nv : Nat} (e : Verif.Curve.Env R) (fresh : Verif.Curve.Curve R nv)
    (s : Verif.Curve.CurveSet R nv) (rest : Str) (hc : ',' ∉ rest) :
    Verif.Curve.postProcess e fresh (parseOps ("duration_pruning".toList ++ rest)) s = some s := by
  have hns : ',' ∉ "duration_pruning".toList ++ rest := by
    rw [List.mem_append]; rintro (h | h)
    · revert h; decide +kernel
    · exact hc h
  have hop : opOf ("duration_pruning".toList ++ rest) = .durationPruning := by
    unfold opOf
    rw [if_neg, if_neg, if_pos]
    · exact (C171_starts_with _ _).2 ⟨rest, rfl⟩
    · intro h; have := congrArg (fun l => l.head?) h; revert this; simp
    · intro h; have := congrArg (fun l => l.head?) h; revert this; simp
  unfold parseOps split
  rw [if_neg hns, List.map_singleton, hop]
  rfl

/-! ### C172 -/

theorem lower_table : ∀ g ∈ extTable, ∀ e ∈ g.1, toLower e = e := by decide +kernel

theorem table_disjoint : ∀ g ∈ extTable, ∀ g' ∈ extTable, ∀ e ∈ g.1, ∀ e' ∈ g'.1, e <:+ e' → g = g' := by decide +kernel

/-- (specification) the suffixes by which a format is recognised -/
def suffixesOf (k : Nat) : List Str := match k with
  | 1 => ["bin".toList, "binary".toList]
  | 3 => ["nc".toList, "netcdf".toList]
  | 4 => ["h5".toList, "hdf5".toList]
  | 5 => ["bp".toList, "adios2".toList]
  | 6 => ["npy".toList, "numpy".toList]
  | 7 => ["png".toList]
  | 8 => ["vti".toList]
  | 9 => ["vtp".toList]
  | 10 => ["vtu".toList]
  | 12 => ["vtk".toList]
  | 13 => ["ply".toList]
  | 14 => ["stl".toList]
  | _ => []

/-- **C172.**  The format of a file is `k ≠ 0` exactly if the name, in lower case, ends with one of the suffixes of `k`: no name is
recognised as two formats, so the order of the tests is irrelevant. -/
theorem C172_extension (f : Str) (k : Nat) (hk : k ≠ 0) :
    fileExtension f = k ↔ ∃ e ∈ suffixesOf k, ∃ front, f.map Char.toLower = front ++ e := by
  have hm : ∀ g ∈ extTable, (g.1.any (fun e => endsWithLower f e) = true ↔ ∃ e ∈ g.1, e <:+ toLower f) := by
    intro g hg
    simp only [List.any_eq_true]
    constructor
    · rintro ⟨e, he, h⟩
      unfold endsWithLower at h
      rw [endsWith_iff, lower_table g hg e he] at h
      exact ⟨e, he, h⟩
    · rintro ⟨e, he, h⟩
      refine ⟨e, he, ?_⟩
      unfold endsWithLower
      rw [endsWith_iff, lower_table g hg e he]; exact h
  have huniq : ∀ g ∈ extTable, ∀ g' ∈ extTable, (∃ e ∈ g.1, e <:+ toLower f) → (∃ e ∈ g'.1, e <:+ toLower f) → g = g' := by
    rintro g hg g' hg' ⟨e, he, h⟩ ⟨e', he', h'⟩
    rcases List.suffix_or_suffix_of_suffix h h' with s | s
    · exact table_disjoint g hg g' hg' e he e' he' s
    · exact (table_disjoint g' hg' g hg e' he' e he s).symm
  have hsuf : ∀ g ∈ extTable, suffixesOf g.2 = g.1 ∧ g.2 ≠ 0 := by decide +kernel
  have hall : suffixesOf k = [] ∨ ∃ g ∈ extTable, g.2 = k := by
    by_cases h : k < 15
    · have : ∀ k < 15, suffixesOf k = [] ∨ ∃ g ∈ extTable, g.2 = k := by decide +kernel
      exact this k h
    · left
      obtain ⟨j, rfl⟩ : ∃ j, k = j + 15 := ⟨k - 15, by omega⟩
      rfl
  have hfront : ∀ e : Str, (e <:+ toLower f ↔ ∃ front, f.map Char.toLower = front ++ e) :=
    fun e => ⟨fun ⟨r, h⟩ => ⟨r, h.symm⟩, fun ⟨r, h⟩ => ⟨r, h.symm⟩⟩
  simp only [← hfront]
  unfold fileExtension
  cases hf : extTable.find? (fun g => g.1.any (fun e => endsWithLower f e)) with
  | none =>
    dsimp only
    rw [List.find?_eq_none] at hf
    refine ⟨fun h => absurd h.symm hk, ?_⟩
    rintro ⟨e, he, h⟩
    rcases hall with h0 | ⟨g, hg, rfl⟩
    · rw [h0] at he; simp at he
    · rw [(hsuf g hg).1] at he
      exact absurd ((hm g hg).2 ⟨e, he, h⟩) (hf g hg)
  | some g =>
    have hg := List.mem_of_find?_eq_some hf
    have hgm := (hm g hg).1 (by simpa using List.find?_some hf)
    dsimp only
    constructor
    · rintro rfl
      rw [(hsuf g hg).1]; exact hgm
    · rintro ⟨e, he, h⟩
      rcases hall with h0 | ⟨g', hg', rfl⟩
      · rw [h0] at he; simp at he
      · rw [(hsuf g' hg').1] at he
        rw [huniq g hg g' hg' hgm ⟨e, he, h⟩]

/-- the user's format, if any, decides -/
theorem C172_given_format (filename format : Str) (h1 : format ≠ []) (h2 : format ≠ "auto".toList) :
    fileExtension2 filename format = fileExtension format ∧ polyFormat filename format = format ∧
    fileExtension2 filename [] = fileExtension filename ∧ fileExtension2 filename "auto".toList = fileExtension filename := by
  unfold fileExtension2 polyFormat
  rw [if_neg (by rintro (h | h); exacts [h2 h, h1 h]), if_neg (by rintro (h | h); exacts [h2 h, h1 h]), if_pos (Or.inr rfl), if_pos (Or.inl rfl)]
  exact ⟨rfl, rfl, rfl, rfl⟩

example : fileExtension "run/Data.NC".toList = 3 ∧ fileExtension "x.hdf5".toList = 4 ∧ fileExtension "a.json".toList = 0 := by decide +kernel

/-- **Violated: no dot is asked for.**  `cabin` is taken for a binary file, `sync` for NetCDF, and a parallel `pvtu` file for a serial one. -/
theorem C172_no_dot_needed : fileExtension "cabin".toList = 1 ∧ fileExtension "sync".toList = 3 ∧ fileExtension "a.pvtu".toList = 10 := by
  decide +kernel

/-- **C172.**  `write_polydata` takes the format from the file name: parallel files for `pvtp`. -/
theorem C172_polydata (f : Str) :
    polyFormat (f ++ ".ply".toList) [] = "ply".toList ∧ polyFormat (f ++ ".stl".toList) [] = "stl".toList ∧
    polyFormat (f ++ ".vtk".toList) [] = "legacy".toList ∧ polyFormat (f ++ ".pvtp".toList) [] = "pvtp".toList ∧
    polyFormat (f ++ ".vtp".toList) [] = "vtp".toList := by
  have hyes : ∀ x e : Str, e <:+ x → endsWith (f ++ x) e = true := fun x e h => (endsWith_iff _ _).2 (h.trans (List.suffix_append _ _))
  have hno : ∀ x e : Str, ¬ e <:+ x → ¬ x <:+ e → endsWith (f ++ x) e = false := by
    intro x e h1 h2
    rw [Bool.eq_false_iff]
    intro h
    rcases List.suffix_or_suffix_of_suffix ((endsWith_iff _ _).1 h) (List.suffix_append f x) with s | s
    · exact h1 s
    · exact h2 s
  unfold polyFormat
  refine ⟨?_, ?_, ?_, ?_, ?_⟩ <;> rw [if_pos (Or.inr rfl)]
  · rw [hyes _ _ (by decide +kernel)]; rfl
  · rw [hno _ _ (by decide +kernel) (by decide +kernel), hyes _ _ (by decide +kernel)]; rfl
  · rw [hno _ _ (by decide +kernel) (by decide +kernel), hno _ _ (by decide +kernel) (by decide +kernel), hyes _ _ (by decide +kernel)]; rfl
  · rw [hno _ _ (by decide +kernel) (by decide +kernel), hno _ _ (by decide +kernel) (by decide +kernel), hno _ _ (by decide +kernel) (by decide +kernel),
      hyes _ _ (by decide +kernel)]; rfl
  · rw [hno _ _ (by decide +kernel) (by decide +kernel), hno _ _ (by decide +kernel) (by decide +kernel), hno _ _ (by decide +kernel) (by decide +kernel),
      hno _ _ (by decide +kernel) (by decide +kernel)]; rfl

/-- **C172, the command line.**  Without a format, names that end with `vtp`, `txt` and `json` select the format they name, all others but
`pvtp` the binary one; a valid format given by the user is kept. -/
theorem C172_output_partial (f g : Str) :
    outputFormat none (f ++ ".vtp".toList) = "vtp".toList ∧ outputFormat none (f ++ ".txt".toList) = "text".toList ∧
    outputFormat none (f ++ ".json".toList) = "json".toList ∧
    ((∀ e ∈ ["vtp".toList, "txt".toList, "json".toList], ¬ e <:+ f) → outputFormat none f = "binary".toList) ∧
    (g ∈ validFormats → outputFormat (some g) f = g) := by
  have hyes : ∀ x e : Str, e <:+ x → endsWith (f ++ x) e = true := fun x e h => (endsWith_iff _ _).2 (h.trans (List.suffix_append _ _))
  have hno : ∀ x e : Str, ¬ e <:+ x → ¬ x <:+ e → endsWith (f ++ x) e = false := by
    intro x e h1 h2
    rw [Bool.eq_false_iff]
    intro h
    rcases List.suffix_or_suffix_of_suffix ((endsWith_iff _ _).1 h) (List.suffix_append f x) with s | s
    · exact h1 s
    · exact h2 s
  unfold outputFormat formatOfOutput
  refine ⟨?_, ?_, ?_, ?_, fun h => by dsimp only; rw [if_pos h]⟩
  · dsimp only; rw [hyes _ _ (by decide +kernel)]; rfl
  · dsimp only
    rw [hno _ _ (by decide +kernel) (by decide +kernel), hno _ _ (by decide +kernel) (by decide +kernel), hyes _ _ (by decide +kernel)]; rfl
  · dsimp only
    rw [hno _ _ (by decide +kernel) (by decide +kernel), hno _ _ (by decide +kernel) (by decide +kernel), hno _ _ (by decide +kernel) (by decide +kernel),
      hyes _ _ (by decide +kernel)]; rfl
  · intro h
    have n : ∀ e : Str, ¬ e <:+ f → endsWith f e = false := fun e he => by rw [Bool.eq_false_iff]; exact fun hh => he ((endsWith_iff _ _).1 hh)
    have hv := h "vtp".toList (by simp)
    have hp : ¬ "pvtp".toList <:+ f := fun hh => hv ((show "vtp".toList <:+ "pvtp".toList by decide +kernel).trans hh)
    dsimp only
    rw [n _ hv, n _ hp, n _ (h "txt".toList (by simp)), n _ (h "json".toList (by simp))]; rfl

/-- **Violated:** the name never selects the parallel format: `pvtp` is tested after `vtp`, which every such name ends with too. -/
theorem C172_pvtp_never (f : Str) : outputFormat none f ≠ "pvtp".toList ∧ outputFormat none (f ++ ".pvtp".toList) = "vtp".toList := by
  constructor
  · unfold outputFormat formatOfOutput
    dsimp only
    split
    · decide +kernel
    · split
      · rename_i h1 h2
        exact absurd ((endsWith_iff _ _).2 ((show "vtp".toList <:+ "pvtp".toList by decide +kernel).trans ((endsWith_iff _ _).1 h2))) h1
      · split
        · decide +kernel
        · split <;> decide +kernel
  · unfold outputFormat formatOfOutput
    dsimp only
    rw [(endsWith_iff _ _).2 ((show "vtp".toList <:+ ".pvtp".toList by decide +kernel).trans (List.suffix_append _ _))]; rfl

/-- **Violated:** the binary format, given explicitly, is overridden by the name; a misspelt format is not reported. -/
theorem C172_binary_overridden : outputFormat (some "binary".toList) "a.json".toList = "json".toList ∧
    outputFormat (some "jsn".toList) "a.txt".toList = "text".toList := by decide +kernel

/-- the extension is removed; a name without a dot is left as it is -/
theorem C172_remove_extension (p ext : Str) (h : '.' ∉ ext) : removeExt (p ++ '.' :: ext) = p ∧ ('.' ∉ p → removeExt p = p) := by
  constructor
  · have : (p ++ '.' :: ext).reverse.findIdx? (· == '.') = some ext.length := by
      rw [List.reverse_append, List.reverse_cons, List.findIdx?_eq_some_iff_getElem]
      refine ⟨by simp, by simp, ?_⟩
      intro j hj
      have hj' : j < ext.reverse.length := by simpa using hj
      have : (ext.reverse ++ ['.'] ++ p.reverse)[j]'(by simp; omega) = ext.reverse[j] := by
        rw [List.getElem_append_left (by simp; omega), List.getElem_append_left hj']
      rw [this]
      simp only [Bool.not_eq_true, beq_eq_false_iff_ne]
      intro e
      exact h (by rw [← e]; exact List.mem_reverse.1 (List.getElem_mem hj'))
    unfold removeExt lastDot
    rw [this]
    dsimp only
    rw [show (p ++ '.' :: ext).length - 1 - ext.length = p.length by simp, List.take_left]
  · intro hp
    unfold removeExt lastDot
    have : p.reverse.findIdx? (· == '.') = none := by
      rw [List.findIdx?_eq_none_iff]
      intro x hx
      simp only [beq_eq_false_iff_ne]
      rintro rfl
      exact hp (List.mem_reverse.1 hx)
    rw [this]

/-- **Violated:** the last dot may belong to a directory. -/
theorem C172_remove_extension_directory : removeExt "run.1/out".toList = "run".toList := by decide +kernel

/-! ### C173 -/

/-- (proof device) the number a list of digits stands for -/
def val (l : List Nat) : Nat := l.foldl (fun a d => a * 10 + d) 0

theorem val_append (l : List Nat) (d : Nat) : val (l ++ [d]) = val l * 10 + d := by simp [val]

theorem digits_val (fuel k : Nat) (h : k ≤ fuel) : val (digits fuel k) = k ∧ (∀ d ∈ digits fuel k, d < 10) := by
  induction fuel generalizing k with
  | zero =>
    have : k = 0 := by omega
    subst this
    simp [digits, val]
  | succ n ih =>
    rw [digits]
    split
    · rename_i hk; simp [val, hk]
    · obtain ⟨h1, h2⟩ := ih (k / 10) (by omega)
      rw [val_append, h1]
      refine ⟨by omega, fun d hd => ?_⟩
      rcases List.mem_append.1 hd with hd | hd
      · exact h2 d hd
      · rw [List.mem_singleton.1 hd]; omega

theorem val_zeros (n : Nat) (l : List Nat) : val (List.replicate n 0 ++ l) = val l := by
  unfold val
  rw [List.foldl_append]
  congr 1
  induction n with
  | zero => rfl
  | succ n ih => rw [List.replicate_succ, List.foldl_cons]; exact ih

theorem format0_spec (w k : Nat) : val (format0 w k) = k ∧ (∀ d ∈ format0 w k, d < 10) := by
  unfold format0
  obtain ⟨h1, h2⟩ := digits_val k k (Nat.le_refl k)
  refine ⟨by rw [val_zeros, h1], fun d hd => ?_⟩
  rcases List.mem_append.1 hd with hd | hd
  · rw [List.eq_of_mem_replicate hd]; omega
  · exact h2 d hd

theorem digitChar_inj : ∀ a < 10, ∀ b < 10, digitChar a = digitChar b → a = b := by decide +kernel

theorem digitChar_lt : ∀ a < 10, ∀ b < 10, a < b → digitChar a < digitChar b := by decide +kernel

theorem map_digitChar_inj (l l' : List Nat) (h : ∀ d ∈ l, d < 10) (h' : ∀ d ∈ l', d < 10) (e : l.map digitChar = l'.map digitChar) : l = l' := by
  induction l generalizing l' with
  | nil => cases l' with
    | nil => rfl
    | cons b l' => simp at e
  | cons a l ih => cases l' with
    | nil => simp at e
    | cons b l' =>
      simp only [List.map_cons, List.cons.injEq] at e
      rw [digitChar_inj a (h a (by simp)) b (h' b (by simp)) e.1, ih l' (fun d hd => h d (by simp [hd])) (fun d hd => h' d (by simp [hd])) e.2]

/-- **C173.**  Different timesteps have different file names, for every pattern and without a bound on the timestep. -/
theorem C173_names_differ (pre : Str) (w : Nat) (suf : Str) (j k : Nat) (h : seriesFilename pre w suf j = seriesFilename pre w suf k) : j = k := by
  unfold seriesFilename at h
  rw [List.append_assoc, List.append_assoc] at h
  have h1 := List.append_cancel_left h
  have h2 := List.append_cancel_right h1
  have := map_digitChar_inj _ _ (format0_spec w j).2 (format0_spec w k).2 h2
  rw [← (format0_spec w j).1, this, (format0_spec w k).1]

/-- the pieces of a parallel file have different names -/
theorem C173_pieces_differ (f : Str) (r r' : Nat) (h : pieceName f r = pieceName f r') : r = r' := by
  refine C173_names_differ (removeExt f ++ ['_']) 0 ".vtp".toList r r' ?_
  unfold seriesFilename
  exact h

theorem digits_length (fuel k w : Nat) (hw : 1 ≤ w) (h : k < 10 ^ w) : (digits fuel k).length ≤ w := by
  induction fuel generalizing k w with
  | zero => simp [digits]; omega
  | succ n ih =>
    rw [digits]
    split
    · simp; omega
    · rename_i hk
      obtain ⟨v, rfl⟩ : ∃ v, w = v + 1 := ⟨w - 1, by omega⟩
      have hv : 1 ≤ v := by
        by_contra h0
        have : v = 0 := by omega
        subst this
        simp at h; omega
      have := ih (k / 10) v hv (by rw [Nat.pow_succ] at h; omega)
      simp; omega

theorem val_lt (l : List Nat) (h : ∀ d ∈ l, d < 10) : val l < 10 ^ l.length := by
  induction l using List.reverseRecOn with
  | nil => simp [val]
  | append_singleton l d ih =>
    have h1 := ih (fun x hx => h x (by simp [hx]))
    have h2 := h d (by simp)
    rw [val_append, List.length_append, List.length_singleton, Nat.pow_succ]
    omega

theorem val_cons (a : Nat) (l : List Nat) : val (a :: l) = a * 10 ^ l.length + val l := by
  induction l using List.reverseRecOn with
  | nil => simp [val]
  | append_singleton l d ih =>
    rw [← List.cons_append, val_append, ih, val_append, List.length_append, List.length_singleton, Nat.pow_succ]
    have : a * (10 ^ l.length * 10) = a * 10 ^ l.length * 10 := by rw [Nat.mul_assoc]
    omega

theorem lex_of_val (suf : Str) (l l' : List Nat) (hlen : l.length = l'.length) (h : ∀ d ∈ l, d < 10) (h' : ∀ d ∈ l', d < 10) (hv : val l < val l') :
    l.map digitChar ++ suf < l'.map digitChar ++ suf := by
  induction l generalizing l' with
  | nil => cases l' with
    | nil => simp at hv
    | cons b l' => simp at hlen
  | cons a l ih => cases l' with
    | nil => simp at hlen
    | cons b l' =>
      have hl : l.length = l'.length := by simpa using hlen
      rw [val_cons, val_cons, hl] at hv
      have b1 := val_lt l (fun d hd => h d (by simp [hd]))
      have b2 := val_lt l' (fun d hd => h' d (by simp [hd]))
      rw [hl] at b1
      simp only [List.map_cons, List.cons_append]
      rcases Nat.lt_trichotomy a b with hab | hab | hab
      · exact List.Lex.rel (digitChar_lt a (h a (by simp)) b (h' b (by simp)) hab)
      · subst hab
        exact List.Lex.cons (ih l' hl (fun d hd => h d (by simp [hd])) (fun d hd => h' d (by simp [hd])) (by omega))
      · exfalso
        have : (b + 1) * 10 ^ l'.length ≤ a * 10 ^ l'.length := Nat.mul_le_mul_right _ hab
        rw [Nat.add_mul] at this
        omega

theorem lt_append_left (pre : Str) {a b : Str} (h : a < b) : pre ++ a < pre ++ b := by
  induction pre with
  | nil => exact h
  | cons c pre ih => exact List.Lex.cons ih

/-- **C173.**  As long as the timesteps fit the width of the pattern, the names sort (as `glob` returns them, by character) in the order
of the timesteps and all have the same length. -/
theorem C173_order_partial (pre : Str) (w : Nat) (suf : Str) (j k : Nat) (hjk : j < k) (hk : k < 10 ^ w) :
    seriesFilename pre w suf j < seriesFilename pre w suf k ∧
    (seriesFilename pre w suf j).length = pre.length + w + suf.length := by
  have hw : 1 ≤ w := by
    by_contra h
    have : w = 0 := by omega
    subst this
    simp at hk; omega
  have len : ∀ i < 10 ^ w, (format0 w i).length = w := by
    intro i hi
    have := digits_length i i w hw hi
    unfold format0
    simp; omega
  unfold seriesFilename
  refine ⟨?_, by simp [len j (by omega)]; omega⟩
  rw [List.append_assoc, List.append_assoc]
  refine lt_append_left pre (lex_of_val suf _ _ (by rw [len j (by omega), len k hk]) (format0_spec w j).2 (format0_spec w k).2 ?_)
  rw [(format0_spec w j).1, (format0_spec w k).1]; exact hjk

example : seriesFilename "xgc.3d.".toList 5 ".bp".toList 42 = "xgc.3d.00042.bp".toList := by decide +kernel

/-- **Violated beyond the width:** with `%03d` timestep 1000 sorts before timestep 999, so a series read with a glob pattern is out of order. -/
theorem C173_order_beyond_width : seriesFilename [] 3 ".nc".toList 1000 < seriesFilename [] 3 ".nc".toList 999 := by decide +kernel

end Verif.Str
