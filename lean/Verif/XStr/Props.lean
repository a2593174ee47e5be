import Verif.XStr.Model
import Mathlib.Tactic.Linarith
/-! C180 (units file), C181 (input file), C182 (steps of XGC and MPAS runs). -/
namespace Verif.XStr
open Verif.Str

/-! ### C180 -/

/-- what a list of assignments says about a name: the last value given -/
def lastValue {V : Type} (as : List (Str × V)) (f : Str) : Option V := (as.filter fun a => a.1 = f).getLast?.map (·.2)

/-- a line of a file that assigns the text `txt` to `name`, with blanks anywhere and a semicolon at the end -/
def IsAssignment (name txt line : Str) : Prop := noSpaces line = name ++ '=' :: txt ++ [';']

theorem splitGo_end (c : Char) (cur p : Str) (h : c ∉ p) (hne : cur ++ p ≠ []) : splitGo c cur p = [cur ++ p] := by
  induction p generalizing cur with
  | nil => simp only [List.append_nil] at hne; simp [splitGo, hne]
  | cons d p ih =>
    rw [splitGo, if_neg (by rintro rfl; exact h (by simp)), ih _ (fun hm => h (by simp [hm])) (by simp)]
    simp

theorem splitGo_first (c : Char) (cur p rest : Str) (h : c ∉ p) : splitGo c cur (p ++ c :: rest) = (cur ++ p) :: splitGo c [] rest := by
  induction p generalizing cur with
  | nil => simp [splitGo]
  | cons d p ih =>
    rw [List.cons_append, splitGo, if_neg (by rintro rfl; exact h (by simp)), ih _ (fun hm => h (by simp [hm]))]
    simp

theorem splitAt_pair (c : Char) (p q : Str) (hp : c ∉ p) (hq : c ∉ q) (hne : q ≠ []) : splitAt c (p ++ c :: q) = [p, q] := by
  rw [splitAt, if_pos (by simp), splitGo_first c [] p q hp, splitGo_end c [] q hq (by simpa using hne)]
  simp

theorem unitsLine_assignment (stod : Str → Option ℚ) (u : Units) (name txt line : Str) (h : IsAssignment name txt line)
    (hn : '=' ∉ name) (ht : '=' ∉ txt) (hne : txt ≠ []) (v : ℚ) (hv : stod txt = some v) :
    unitsLine stod u line = if name ∈ accepted then .ok (u.assign name v, true) else .ok (u, false) := by
  unfold unitsLine
  rw [h, if_neg (by simp), List.dropLast_concat, splitAt_pair '=' name txt hn ht hne]
  simp only [hv]

/-- (proof device) one more assignment in front -/
theorem step_last {V W : Type} (g : V → W) (name f : Str) (v : V) (as : List (Str × V)) (d d' : W) (hd : d' = if name = f then g v else d) :
    ((lastValue as f).map g).getD d' = ((lastValue ((name, v) :: as) f).map g).getD d := by
  subst hd
  unfold lastValue
  by_cases hf : name = f
  · subst hf
    rw [List.filter_cons_of_pos (by simp), if_pos rfl]
    generalize as.filter (fun a => decide (a.1 = name)) = l
    rcases l with _ | ⟨b, bs⟩
    · simp
    · rw [List.getLast?_cons_cons]
      obtain ⟨z, hz⟩ : ∃ z, (b :: bs).getLast? = some z := ⟨_, List.getLast?_eq_getLast_of_ne_nil (by simp)⟩
      rw [hz]; rfl
  · rw [List.filter_cons_of_neg (by simpa using hf), if_neg hf]

theorem assign_lastValue (u : Units) (name : Str) (v : ℚ) (as : List (Str × ℚ)) (f : Str) :
    ((lastValue ((name, v) :: as) f).map fun v => if f ∈ intFields then trunc v else v).getD (u f) =
      ((lastValue as f).map fun v => if f ∈ intFields then trunc v else v).getD (u.assign name v f) := by
  refine (step_last _ name f v as (u f) _ ?_).symm
  unfold Units.assign
  by_cases hf : name = f
  · subst hf; simp
  · rw [if_neg hf, if_neg (fun h => hf h.symm)]

/-- Each line assigns, in this order, the values `as`, and the names and texts are without an equality sign. -/
def Assigns (stod : Str → Option ℚ) (as : List (Str × ℚ)) (lines : List Str) : Prop :=
  List.Forall₂ (fun a line => ∃ txt, IsAssignment a.1 txt line ∧ '=' ∉ a.1 ∧ '=' ∉ txt ∧ txt ≠ [] ∧ stod txt = some a.2) as lines

theorem readUnits_prefix (stod : Str → Option ℚ) (u : Units) (as : List (Str × ℚ)) (lines rest : List Str)
    (h : Assigns stod as lines) (ha : ∀ a ∈ as, a.1 ∈ accepted) :
    ∃ u', readUnits stod u (lines ++ rest) = readUnits stod u' rest ∧
      ∀ f, u' f = ((lastValue as f).map fun v => if f ∈ intFields then trunc v else v).getD (u f) := by
  induction h generalizing u with
  | nil => exact ⟨u, rfl, fun f => rfl⟩
  | @cons a line as lines h1 h2 ih =>
    obtain ⟨txt, b1, b2, b3, b4, b5⟩ := h1
    obtain ⟨u', e1, e2⟩ := ih (u.assign a.1 a.2) (fun x hx => ha x (by simp [hx]))
    refine ⟨u', ?_, fun f => ?_⟩
    · rw [List.cons_append, readUnits, unitsLine_assignment stod u a.1 txt line b1 b2 b3 b4 a.2 b5, if_pos (ha a (by simp))]
      exact e1
    · rw [e2 f]
      exact (assign_lastValue u a.1 a.2 as f).symm

/-- C180: a units file in which every line is an assignment `name = number;` of a known name is read successfully; every
member that is assigned gets the last value given (whole numbers are cut towards zero), every other one keeps its default. -/
theorem C180_units_partial (stod : Str → Option ℚ) (u : Units) (as : List (Str × ℚ)) (lines : List Str)
    (h : Assigns stod as lines) (ha : ∀ a ∈ as, a.1 ∈ accepted) :
    ∃ u', readUnits stod u lines = .ok (u', true) ∧ ∀ f,
      (∀ v, lastValue as f = some v → u' f = if f ∈ intFields then trunc v else v) ∧ (lastValue as f = none → u' f = u f) := by
  obtain ⟨u', e1, e2⟩ := readUnits_prefix stod u as lines [] h ha
  rw [List.append_nil] at e1
  refine ⟨u', e1, fun f => ⟨fun v hv => by rw [e2 f, hv]; rfl, fun hn => by rw [e2 f, hn]; rfl⟩⟩

/-- C180: the first name that is not known ends the reading with `false`; the assignments before it have been made, those
after it have not. -/
theorem C180_unknown_name (stod : Str → Option ℚ) (u : Units) (as : List (Str × ℚ)) (lines rest : List Str)
    (h : Assigns stod as lines) (ha : ∀ a ∈ as, a.1 ∈ accepted) (b : Str × ℚ) (line : Str) (hb : Assigns stod [b] [line])
    (hu : b.1 ∉ accepted) :
    ∃ u', readUnits stod u (lines ++ line :: rest) = .ok (u', false) ∧ ∀ f,
      (∀ v, lastValue as f = some v → u' f = if f ∈ intFields then trunc v else v) ∧ (lastValue as f = none → u' f = u f) := by
  obtain ⟨u', e1, e2⟩ := readUnits_prefix stod u as lines (line :: rest) h ha
  cases hb with
  | cons h1 _ =>
    obtain ⟨txt, b1, b2, b3, b4, b5⟩ := h1
    refine ⟨u', ?_, fun f => ⟨fun v hv => by rw [e2 f, hv]; rfl, fun hn => by rw [e2 f, hn]; rfl⟩⟩
    rw [e1, readUnits, unitsLine_assignment stod u' b.1 txt line b1 b2 b3 b4 b.2 b5, if_neg hu]
    rfl

/-- Four members of `xgc_units_t` are not known to `read`: a file that sets them is not read to its end. -/
theorem C180_members_not_read : ∀ f ∈ ["eq_den_v1".toList, "ptl_charge_eu".toList, "sml_wedge_n".toList, "ptl_mass_au".toList],
    f ∉ accepted := by decide +kernel

/-- Without the semicolon the last character of the number is lost. -/
theorem C180_no_semicolon (stod : Str → Option ℚ) (u : Units) (name txt line : Str) (d : Char) (h : noSpaces line = name ++ '=' :: txt ++ [d])
    (hn : '=' ∉ name) (ht : '=' ∉ txt) (hne : txt ≠ []) (ha : name ∈ accepted) (v : ℚ) (hv : stod txt = some v) :
    unitsLine stod u line = .ok (u.assign name v, true) := by
  unfold unitsLine
  rw [h, if_neg (by simp), List.dropLast_concat, splitAt_pair '=' name txt hn ht hne]
  simp only [hv, ha, if_true]

/-- A blank line anywhere is undefined behaviour (`pop_back` of an empty string), after assignments that are in order. -/
theorem C180_blank_line (stod : Str → Option ℚ) (u : Units) (as : List (Str × ℚ)) (lines rest : List Str)
    (h : Assigns stod as lines) (ha : ∀ a ∈ as, a.1 ∈ accepted) (n : Nat) :
    readUnits stod u (lines ++ List.replicate n ' ' :: rest) = .ub := by
  obtain ⟨u', e1, -⟩ := readUnits_prefix stod u as lines (List.replicate n ' ' :: rest) h ha
  have hb : noSpaces (List.replicate n ' ') = [] := by simp [noSpaces]
  rw [e1, readUnits, unitsLine, if_pos hb]
  rfl

/-- A small `stod` for the examples. -/
def stodEx (s : Str) : Option ℚ :=
  if s = "12".toList then some 12 else if s = "0.25".toList then some (1 / 4) else if s = "0.2".toList then some (1 / 5) else if s = "7.9".toList then some (79 / 10) else none

example : ∃ u', readUnits stodEx 0 ["psi_x = 12;".toList, "ptl_num=7.9;".toList, " psi_x =0.25 ;".toList] = .ok (u', true) ∧
    u' "psi_x".toList = 1 / 4 ∧ u' "ptl_num".toList = 7 ∧ u' "vth".toList = 0 := by
  obtain ⟨u', e, h⟩ := C180_units_partial stodEx 0 [("psi_x".toList, 12), ("ptl_num".toList, 79 / 10), ("psi_x".toList, 1 / 4)]
    ["psi_x = 12;".toList, "ptl_num=7.9;".toList, " psi_x =0.25 ;".toList]
    (.cons ⟨"12".toList, by unfold IsAssignment; decide +kernel, by decide +kernel, by decide +kernel, by decide +kernel, by decide +kernel⟩
      (.cons ⟨"7.9".toList, by unfold IsAssignment; decide +kernel, by decide +kernel, by decide +kernel, by decide +kernel, by decide +kernel⟩
        (.cons ⟨"0.25".toList, by unfold IsAssignment; decide +kernel, by decide +kernel, by decide +kernel, by decide +kernel, by decide +kernel⟩ .nil)))
    (by decide +kernel)
  refine ⟨u', e, ?_, ?_, ?_⟩
  · rw [(h _).1 (1 / 4) (by decide +kernel)]; decide +kernel
  · rw [(h _).1 (79 / 10) (by decide +kernel)]; decide +kernel
  · rw [(h _).2 (by decide +kernel)]; rfl

example : (match unitsLine stodEx 0 "psi_x=0.25".toList with | .ok (u, b) => some (u "psi_x".toList, b) | _ => none) = some (1 / 5, true) := by
  decide +kernel

/-! ### C181 -/

/-- what one line of the input file gives: nothing, or a name with a text -/
inductive InputLine : Str → Option (Str × Str) → Prop where
  /-- a section begins or ends, or a comment -/
  | skip (c : Char) (s : Str) : c = '&' ∨ c = '/' ∨ c = '!' → InputLine (c :: s) none
  /-- no equality sign -/
  | plain (s : Str) : '=' ∉ s → InputLine s none
  /-- an assignment -/
  | pair (line name txt : Str) : noSpaces line = name ++ '=' :: txt → '!' ∉ line → '=' ∉ name → '=' ∉ txt → txt ≠ [] →
      (∀ c s, line = c :: s → c ≠ '&' ∧ c ≠ '/') → InputLine line (some (name, txt))
  /-- an assignment followed by a comment -/
  | comment (line name txt c : Str) : noSpaces line = name ++ '=' :: txt → '!' ∉ line → '=' ∉ name → '=' ∉ txt → txt ≠ [] →
      (∀ c s, line = c :: s → c ≠ '&' ∧ c ≠ '/') → InputLine (line ++ '!' :: c) (some (name, txt))

theorem find_char_zero (s : Str) (c : Char) : find s [c] = some 0 ↔ ∃ r, s = c :: r := by
  rw [find_zero]
  constructor
  · rintro ⟨r, rfl⟩; exact ⟨r, rfl⟩
  · rintro ⟨r, rfl⟩; exact ⟨r, rfl⟩

theorem find_char_none (s : Str) (c : Char) (h : c ∉ s) : find s [c] = none := by
  induction s with
  | nil => simp [find]
  | cons d s ih =>
    rw [find, if_neg, ih (fun hm => h (by simp [hm]))]
    · rfl
    · intro hp
      have := List.isPrefixOf_iff_prefix.1 hp
      obtain ⟨r, hr⟩ := this
      simp only [List.cons_append, List.nil_append, List.cons.injEq] at hr
      exact h (by simp [hr.1])

theorem find_char_append (s r : Str) (c : Char) (h : c ∉ s) : find (s ++ c :: r) [c] = some s.length := by
  induction s with
  | nil => simp [find]
  | cons d s ih =>
    rw [List.cons_append, find, if_neg, ih (fun hm => h (by simp [hm]))]
    · simp
    · intro hp
      obtain ⟨r', hr⟩ := List.isPrefixOf_iff_prefix.1 hp
      simp only [List.cons_append, List.nil_append, List.cons.injEq] at hr
      exact h (by simp [hr.1])

/-- the effect of a name with a text -/
def effect (stod : Str → Option ℚ) (p : Planes) (g : Option (Str × Str)) : Planes := match g with
  | none => p
  | some (name, txt) => match stod txt with
    | none => p
    | some v => if name = "sml_wedge_n".toList then { p with iphi := toInt v } else if name = "sml_nphi_total".toList then { p with nphi := toInt v } else p

theorem effect_some (stod : Str → Option ℚ) (p : Planes) (name txt : Str) (v : ℚ) (hs : stod txt = some v) :
    (effect stod p (some (name, txt))).nphi = (if name = "sml_nphi_total".toList then toInt v else p.nphi) ∧
    (effect stod p (some (name, txt))).iphi = (if name = "sml_wedge_n".toList then toInt v else p.iphi) := by
  have hd : "sml_wedge_n".toList ≠ "sml_nphi_total".toList := by decide +kernel
  simp only [effect, hs]
  split_ifs with h1 h2 h3
  · exact absurd (h1.symm.trans h2) hd
  all_goals exact ⟨rfl, rfl⟩

theorem inputPair_effect (stod : Str → Option ℚ) (p : Planes) (line name txt : Str) (h : noSpaces (cutComment line) = name ++ '=' :: txt)
    (hn : '=' ∉ name) (ht : '=' ∉ txt) (hne : txt ≠ []) : inputPair stod p line = .ok (effect stod p (some (name, txt))) := by
  unfold inputPair effect
  rw [h, splitAt_pair '=' name txt hn ht hne]
  dsimp only
  cases stod txt with
  | none => rfl
  | some v => dsimp only; split_ifs <;> rfl

theorem mem_of_noSpaces {line : Str} {c : Char} (h : c ∈ noSpaces line) : c ∈ line := (List.mem_filter.1 h).1

theorem inputLine_effect (stod : Str → Option ℚ) (p : Planes) (line : Str) (g : Option (Str × Str)) (h : InputLine line g) :
    inputLine stod p line = .ok (effect stod p g) := by
  cases h with
  | skip c s hc =>
    unfold inputLine
    rcases hc with rfl | rfl | rfl
    · rw [if_pos ((find_char_zero _ _).2 ⟨s, rfl⟩)]; rfl
    · rw [if_neg (fun h => by obtain ⟨r, hr⟩ := (find_char_zero _ _).1 h; simp at hr), if_pos ((find_char_zero _ _).2 ⟨s, rfl⟩)]; rfl
    · rw [if_neg (fun h => by obtain ⟨r, hr⟩ := (find_char_zero _ _).1 h; simp at hr),
        if_neg (fun h => by obtain ⟨r, hr⟩ := (find_char_zero _ _).1 h; simp at hr), if_pos ((find_char_zero _ _).2 ⟨s, rfl⟩)]; rfl
  | plain s hs =>
    unfold inputLine
    split_ifs <;> rfl
  | pair _ name txt e hb hn ht hne hf =>
    have hl : '=' ∈ line := mem_of_noSpaces (by rw [e]; simp)
    unfold inputLine
    rw [if_neg (fun h => by obtain ⟨r, hr⟩ := (find_char_zero _ _).1 h; exact (hf _ _ hr).1 rfl),
      if_neg (fun h => by obtain ⟨r, hr⟩ := (find_char_zero _ _).1 h; exact (hf _ _ hr).2 rfl),
      if_neg (fun h => by obtain ⟨r, hr⟩ := (find_char_zero _ _).1 h; exact hb (by rw [hr]; simp)), if_pos hl]
    apply inputPair_effect _ _ _ _ _ _ hn ht hne
    rw [cutComment, find_char_none _ _ hb]; exact e
  | comment ln name txt c e hb hn ht hne hf =>
    have hl : '=' ∈ ln := mem_of_noSpaces (by rw [e]; simp)
    have hnn : ln ≠ [] := by rintro rfl; simp at hl
    obtain ⟨a, r, rfl⟩ := List.exists_cons_of_ne_nil hnn
    unfold inputLine
    rw [if_neg (fun h => by
        obtain ⟨r', hr⟩ := (find_char_zero _ _).1 h
        simp only [List.cons_append, List.cons.injEq] at hr
        exact (hf _ _ rfl).1 hr.1),
      if_neg (fun h => by
        obtain ⟨r', hr⟩ := (find_char_zero _ _).1 h
        simp only [List.cons_append, List.cons.injEq] at hr
        exact (hf _ _ rfl).2 hr.1),
      if_neg (fun h => by
        obtain ⟨r', hr⟩ := (find_char_zero _ _).1 h
        simp only [List.cons_append, List.cons.injEq] at hr
        exact hb (by simp [hr.1])), if_pos (by simp only [List.mem_append]; exact Or.inl hl)]
    apply inputPair_effect _ _ _ _ _ _ hn ht hne
    rw [cutComment, find_char_append _ _ _ hb]
    dsimp only
    rw [List.take_left]; exact e

/-- C181: for an input file of sections, comments at the beginning of a line, lines without an equality sign, and
assignments with or without a comment, the numbers of planes are the last numeric values given to `sml_nphi_total` and
`sml_wedge_n`; without one they stay what they were. -/
theorem C181_probe_partial (stod : Str → Option ℚ) (p : Planes) (lines : List Str) (gs : List (Option (Str × Str)))
    (h : List.Forall₂ InputLine lines gs) :
    ∃ q, probe stod p lines = .ok q ∧
      q.nphi = ((lastValue ((gs.filterMap id).filterMap fun a => (stod a.2).map fun v => (a.1, v)) "sml_nphi_total".toList).map toInt).getD p.nphi ∧
      q.iphi = ((lastValue ((gs.filterMap id).filterMap fun a => (stod a.2).map fun v => (a.1, v)) "sml_wedge_n".toList).map toInt).getD p.iphi := by
  induction h generalizing p with
  | nil => exact ⟨p, rfl, rfl, rfl⟩
  | @cons line g lines gs h1 h2 ih =>
    obtain ⟨q, e1, e2, e3⟩ := ih (effect stod p g)
    refine ⟨q, by rw [probe, inputLine_effect stod p line g h1]; exact e1, ?_, ?_⟩
    · rw [e2]
      rcases g with _ | ⟨name, txt⟩
      · rfl
      · simp only [List.filterMap_cons, id]
        cases hs : stod txt with
        | none => simp [effect, hs]
        | some v =>
          rw [(effect_some stod p name txt v hs).1]
          exact step_last toInt _ _ v _ _ _ rfl
    · rw [e3]
      rcases g with _ | ⟨name, txt⟩
      · rfl
      · simp only [List.filterMap_cons, id]
        cases hs : stod txt with
        | none => simp [effect, hs]
        | some v =>
          rw [(effect_some stod p name txt v hs).2]
          exact step_last toInt _ _ v _ _ _ rfl

/-- An indented comment that contains an equality sign reads beyond the end of the list of pieces. -/
theorem C181_indented_comment (stod : Str → Option ℚ) (p : Planes) (n : Nat) (c : Str) (h : '=' ∈ c) :
    inputLine stod p (List.replicate (n + 1) ' ' ++ '!' :: c) = .ub := by
  have hz : ∀ d : Char, d ≠ ' ' → find (List.replicate (n + 1) ' ' ++ '!' :: c) [d] ≠ some 0 := by
    intro d hd hf
    obtain ⟨r, hr⟩ := (find_char_zero _ _).1 hf
    rw [List.replicate_succ, List.cons_append, List.cons.injEq] at hr
    exact hd hr.1.symm
  unfold inputLine
  rw [if_neg (hz _ (by decide)), if_neg (hz _ (by decide)), if_neg (hz _ (by decide)), if_pos (by simp [h])]
  unfold inputPair
  rw [cutComment, find_char_append _ _ _ (by simp)]
  dsimp only
  rw [List.take_left]
  have : noSpaces (List.replicate (n + 1) ' ') = [] := by simp [noSpaces]
  rw [this]
  rfl

/-- So does a name without a value. -/
theorem C181_no_value (stod : Str → Option ℚ) (p : Planes) (name : Str) (h : ∀ c ∈ name, c ≠ ' ' ∧ c ≠ '=' ∧ c ≠ '!')
    (h1 : ∀ c s, name = c :: s → c ≠ '&' ∧ c ≠ '/') : inputLine stod p (name ++ ['=']) = .ub := by
  have hz : ∀ d : Char, d ≠ '=' → (∀ s, name ≠ d :: s) → find (name ++ ['=']) [d] ≠ some 0 := by
    intro d hd hn hf
    obtain ⟨r, hr⟩ := (find_char_zero _ _).1 hf
    rcases name with _ | ⟨a, name⟩
    · simp only [List.nil_append, List.cons.injEq] at hr; exact hd hr.1.symm
    · rw [List.cons_append, List.cons.injEq] at hr; exact hn name (by rw [hr.1])
  unfold inputLine
  rw [if_neg (hz _ (by decide) fun s e => (h1 _ _ e).1 rfl), if_neg (hz _ (by decide) fun s e => (h1 _ _ e).2 rfl),
    if_neg (hz _ (by decide) fun s e => (h '!' (by rw [e]; simp)).2.2 rfl), if_pos (by simp)]
  unfold inputPair
  have hx : '!' ∉ name ++ ['='] := by
    intro hm
    rcases List.mem_append.1 hm with hm | hm
    · exact (h _ hm).2.2 rfl
    · exact absurd (List.mem_singleton.1 hm) (by decide)
  rw [cutComment, find_char_none _ _ hx]
  have hn : noSpaces (name ++ ['=']) = name ++ '=' :: [] := by
    unfold noSpaces
    rw [List.filter_eq_self]
    intro c hc
    rcases List.mem_append.1 hc with hc | hc
    · simpa using (h c hc).1
    · rw [List.mem_singleton.1 hc]; decide
  dsimp only
  rw [hn, splitAt, if_pos (by simp), splitGo_first '=' [] name [] (fun hm => (h _ hm).2.1 rfl)]
  rfl

example : ∃ q, probe stodEx ⟨1, 1⟩ ["&sml_param".toList, " sml_nphi_total = 12 ! planes".toList, "sml_wedge_n=7.9".toList, "/".toList] = .ok q ∧
    q.nphi = 12 ∧ q.iphi = 7 := by
  obtain ⟨q, e1, e2, e3⟩ := C181_probe_partial stodEx ⟨1, 1⟩
    ["&sml_param".toList, " sml_nphi_total = 12 ! planes".toList, "sml_wedge_n=7.9".toList, "/".toList]
    [none, some ("sml_nphi_total".toList, "12".toList), some ("sml_wedge_n".toList, "7.9".toList), none]
    (.cons (.skip '&' "sml_param".toList (by decide))
      (.cons (.comment " sml_nphi_total = 12 ".toList _ _ " planes".toList (by decide +kernel) (by decide +kernel) (by decide +kernel) (by decide +kernel)
          (by decide +kernel) (by
            intro c s e
            have := (List.cons.inj (show ' ' :: _ = c :: s from e)).1
            subst this; decide))
        (.cons (.pair _ _ _ (by decide +kernel) (by decide +kernel) (by decide +kernel) (by decide +kernel) (by decide +kernel) (by
            intro c s e
            have := (List.cons.inj (show 's' :: _ = c :: s from e)).1
            subst this; decide))
          (.cons (.skip '/' [] (by decide)) .nil))))
  refine ⟨q, e1, ?_, ?_⟩
  · rw [e2]; decide +kernel
  · rw [e3]; decide +kernel

/-! ### C182 -/

theorem val_append_list (a b : List Nat) : val (a ++ b) = val a * 10 ^ b.length + val b := by
  induction b using List.reverseRecOn with
  | nil => simp [val]
  | append_singleton b d ih =>
    rw [← List.append_assoc, val_append, ih, val_append, List.length_append, List.length_singleton, Nat.pow_succ]
    have : (val a * (10 ^ b.length * 10)) = val a * 10 ^ b.length * 10 := by rw [Nat.mul_assoc]
    omega

theorem digitChar_spec : ∀ d < 10, (digitChar d).isDigit = true ∧ (digitChar d).toNat - 48 = d ∧ isSpace (digitChar d) = false ∧
    digitChar d ≠ '-' ∧ digitChar d ≠ '+' := by decide +kernel

theorem leadingDigits_map (l : List Nat) (h : ∀ d ∈ l, d < 10) : leadingDigits (l.map digitChar) = l := by
  induction l with
  | nil => rfl
  | cons d l ih =>
    obtain ⟨h1, h2, -⟩ := digitChar_spec d (h d (by simp))
    rw [List.map_cons, leadingDigits, if_pos h1, h2, ih fun x hx => h x (by simp [hx])]

theorem signOf_digit (c : Char) (s : Str) (h1 : c ≠ '-') (h2 : c ≠ '+') : signOf (c :: s) = (false, c :: s) := by
  unfold signOf
  split
  · rename_i he; simp only [List.cons.injEq] at he; exact absurd he.1 h1
  · rename_i he; simp only [List.cons.injEq] at he; exact absurd he.1 h2
  · rfl

theorem stoi_digits (l : List Nat) (h : ∀ d ∈ l, d < 10) (hne : l ≠ []) : stoi (l.map digitChar) = some (val l : Int) := by
  obtain ⟨d, r, rfl⟩ := List.exists_cons_of_ne_nil hne
  obtain ⟨-, -, h3, h4, h5⟩ := digitChar_spec d (h d (by simp))
  have ht : ((d :: r).map digitChar).dropWhile isSpace = (d :: r).map digitChar := by
    rw [List.map_cons, List.dropWhile_cons_of_neg (by simp [h3])]
  unfold stoi
  rw [ht]
  have hl := leadingDigits_map (d :: r) h
  rw [List.map_cons] at hl ⊢
  rw [signOf_digit _ _ h4 h5]
  dsimp only
  rw [hl]
  rfl

theorem findLastOf_postfix (pre post : Str) (h : post = ".h5".toList ∨ post = ".bp".toList) : findLastOf (pre ++ post) = some pre.length := by
  rcases h with rfl | rfl
  · unfold findLastOf
    rw [List.reverse_append, show ".h5".toList.reverse = ['5', 'h', '.'] by decide +kernel]
    simp [List.findIdx?_cons]
  · unfold findLastOf
    rw [List.reverse_append, show ".bp".toList.reverse = ['p', 'b', '.'] by decide +kernel]
    simp [List.findIdx?_cons]

/-- C182: the step of a file name made by `filename_step` is found again; of a step with more than five digits only the last
five are read. -/
theorem C182_step (path post : Str) (h : post = ".h5".toList ∨ post = ".bp".toList) (k : Nat) :
    filename2step (filenameStep path post k) = .ok ((k % 10 ^ 5 : Nat) : Int) := by
  obtain ⟨hv, hd⟩ := format0_spec 5 k
  have hlen : 5 ≤ (format0 5 k).length := by unfold format0; simp; omega
  obtain ⟨a, b, hab, hb⟩ : ∃ a b, format0 5 k = a ++ b ∧ b.length = 5 :=
    ⟨_, _, (List.take_append_drop ((format0 5 k).length - 5) _).symm, by rw [List.length_drop]; omega⟩
  have hbd : ∀ d ∈ b, d < 10 := fun d hd' => hd d (by rw [hab]; simp [hd'])
  have hvb : val b = k % 10 ^ 5 := by
    have h1 := val_lt b hbd
    rw [hb] at h1
    rw [← hv, hab, val_append_list, hb, Nat.mul_comm, Nat.mul_add_mod, Nat.mod_eq_of_lt h1]
  unfold filename2step filenameStep seriesFilename
  rw [findLastOf_postfix _ post h]
  dsimp only
  rw [hab, List.map_append]
  have hl : (path ++ "/xgc.3d.".toList ++ (a.map digitChar ++ b.map digitChar)).length = (path ++ "/xgc.3d.".toList ++ a.map digitChar).length + 5 := by
    simp [hb]; omega
  rw [hl, if_neg (by omega), Nat.add_sub_cancel]
  have hs : path ++ "/xgc.3d.".toList ++ (a.map digitChar ++ b.map digitChar) ++ post =
      (path ++ "/xgc.3d.".toList ++ a.map digitChar) ++ (b.map digitChar ++ post) := by simp
  rw [hs, List.drop_left, List.take_append_of_le_length (by simp [hb]), List.take_of_length_le (by simp [hb]),
    stoi_digits b hbd (by rintro rfl; simp at hb), hvb]
  rfl

/-- C182: the available steps of a directory of such files with steps below 100000 are these steps. -/
theorem C182_available (path post : Str) (h : post = ".h5".toList ∨ post = ".bp".toList) (ks : List Nat) (hk : ∀ k ∈ ks, k < 10 ^ 5) :
    availableSteps (ks.map (filenameStep path post)) = .ok (ks.map fun k => (k : Int)) := by
  induction ks with
  | nil => rfl
  | cons k ks ih =>
    rw [List.map_cons, availableSteps, C182_step path post h, ih (fun x hx => hk x (by simp [hx])), Nat.mod_eq_of_lt (hk k (by simp))]
    simp [Out.bind]

/-- A suffix with one of the characters `x g c . 3 d` misleads the search: the step of `xgc.3d.00100.bp.dir` is 0. -/
theorem C182_step_suffix : filename2step "run/xgc.3d.00100.bp.dir".toList = .ok 0 := by decide +kernel

/-- the calls of the callback for the files from `s` on -/
def calls (files : List Str) (s n : Nat) : List (Int × Str) :=
  (List.range n).map fun (i : Nat) => (((s + i : Nat) : Int), files.getD (s + i) [])

theorem drain_calls (path post : Str) (there : Str → Bool) (files : List Str) (ht : ∀ f ∈ files, there f = true)
    (st nt : Int) (s n : Nat) (hn : s + n ≤ files.length) (he : ((s + n : Nat) : Int) ≤ st + nt) (k : Nat) :
    XS.drain path post there (n + k) ⟨files, st, s, nt⟩ = (XS.drain path post there k ⟨files, st, ((s + n : Nat) : Int), nt⟩).map fun l => calls files s n ++ l := by
  induction n generalizing s with
  | zero => simp [calls]
  | succ n ih =>
    have hs : s < files.length := by omega
    have hne : files ≠ [] := by rintro rfl; simp at hs
    have hadv : XS.advance path post there ⟨files, st, s, nt⟩ = some (⟨files, st, ((s + 1 : Nat) : Int), nt⟩, some ((s : Int), files[s]), true) := by
      unfold XS.advance XS.filename
      dsimp only
      rw [if_neg (by omega), if_neg hne, if_pos (by omega), Int.toNat_natCast, List.getElem?_eq_getElem hs]
      dsimp only
      rw [if_pos (ht _ (List.getElem_mem hs))]
      rfl
    rw [show n + 1 + k = (n + k) + 1 by omega, XS.drain, hadv]
    dsimp only
    rw [ih (s + 1) (by omega) (by omega), show s + 1 + n = s + (n + 1) by omega, Option.map_map]
    congr 1
    funext l
    simp only [Function.comp, calls, List.range_succ_eq_map, List.map_cons, List.map_map, Option.toList_some, List.singleton_append, List.cons_append]
    have hg : files.getD (s + 0) [] = files[s] := by rw [Nat.add_zero, List.getD_eq_getElem?_getD, List.getElem?_eq_getElem hs]; rfl
    rw [hg]
    refine congrArg₂ List.cons rfl (congrArg (· ++ l) (List.map_congr_left fun i _ => ?_))
    have : s + 1 + i = s + (i + 1) := by omega
    simp only [Function.comp, this, Nat.succ_eq_add_one]

theorem drain_end (path post : Str) (there : Str → Bool) (x : XS) (h : x.cur ≥ x.start + x.nt) (k : Nat) : x.drain path post there k = some [] := by
  cases k with
  | zero => rfl
  | succ k => rw [XS.drain, XS.advance, if_pos h]

/-- C182: if the steps asked for are within the files found, an XGC stream delivers exactly the files from the start on, each
once, in order, with its index. -/
theorem C182_delivers_partial (path post : Str) (there : Str → Bool) (files : List Str) (ht : ∀ f ∈ files, there f = true)
    (s n : Nat) (hn : 0 < n) (hs : s + n ≤ files.length) (fuel : Nat) (hf : n ≤ fuel) :
    (initXS files s n).drain path post there fuel = some (calls files s n) := by
  obtain ⟨k, rfl⟩ : ∃ k, fuel = n + k := ⟨fuel - n, by omega⟩
  have hi : initXS files s n = ⟨files, s, s, n⟩ := by
    unfold initXS
    rw [if_pos (by omega), min_eq_left (by omega)]
  rw [hi, drain_calls path post there files ht s n s n hs (by omega), drain_end _ _ _ _ (by dsimp only; omega)]
  simp

/-- C182: started from 0 without a number of steps, the stream delivers all files. -/
theorem C182_from_zero (path post : Str) (there : Str → Bool) (files : List Str) (ht : ∀ f ∈ files, there f = true)
    (nt : Int) (hnt : nt ≤ 0) (fuel : Nat) (hf : files.length ≤ fuel) :
    (initXS files 0 nt).drain path post there fuel = some (calls files 0 files.length) := by
  obtain ⟨k, rfl⟩ : ∃ k, fuel = files.length + k := ⟨fuel - files.length, by omega⟩
  have hi : initXS files 0 nt = ⟨files, 0, ((0 : Nat) : Int), files.length⟩ := by
    unfold initXS
    rw [if_neg (by omega)]
    rfl
  rw [hi, drain_calls path post there files ht 0 _ 0 files.length (by omega) (by omega), drain_end _ _ _ _ (by dsimp only; omega)]
  simp

/-- With the default start, 1, and all files asked for, the first file is never delivered, and after the last file the stream
reads beyond the end of the list of files. -/
theorem C182_default_start_wrong (path post : Str) (there : Str → Bool) (files : List Str) (hne : files ≠ [])
    (ht : ∀ f ∈ files, there f = true) (nt : Int) (hnt : nt ≤ 0 ∨ (files.length : Int) ≤ nt) :
    (initXS files 1 nt).drain path post there (files.length - 1) = some (calls files 1 (files.length - 1)) ∧
    ∀ fuel, files.length ≤ fuel → (initXS files 1 nt).drain path post there fuel = none := by
  have hl : 0 < files.length := List.length_pos_of_ne_nil hne
  have hi : initXS files 1 nt = ⟨files, 1, ((1 : Nat) : Int), files.length⟩ := by
    unfold initXS
    split_ifs with h0
    · rw [min_eq_right (by omega)]; rfl
    · rfl
  rw [hi]
  constructor
  · have := drain_calls path post there files ht 1 files.length 1 (files.length - 1) (by omega) (by omega) 0
    simpa [XS.drain] using this
  · intro fuel hf
    obtain ⟨k, rfl⟩ : ∃ k, fuel = files.length - 1 + (k + 1) := ⟨fuel - files.length, by omega⟩
    rw [drain_calls path post there files ht 1 files.length 1 (files.length - 1) (by omega) (by omega), XS.drain, XS.advance]
    dsimp only
    rw [if_neg (by omega), XS.filename]
    dsimp only
    rw [if_neg hne, if_pos (by omega), List.getElem?_eq_none (by omega)]
    rfl

/-- A file that is gone stops the stream: nothing is delivered from there on, also in later calls. -/
theorem C182_missing_file (path post : Str) (there : Str → Bool) (x : XS) (f : Str) (h : x.filename path post x.cur = some f) (hm : there f = false) :
    x.advance path post there = some (x, none, false) := by
  unfold XS.advance
  split_ifs
  · rfl
  · rw [h]; simp [hm]

/-- Without files nothing is delivered. -/
theorem C182_no_files (path post : Str) (there : Str → Bool) (s nt : Int) (fuel : Nat) : (initXS [] s nt).drain path post there fuel = some [] := by
  apply drain_end
  unfold initXS
  dsimp only
  split_ifs with h
  · simp
  · simp

example : (initXS ["a".toList, "b".toList, "c".toList] 1 2).drain [] [] (fun _ => true) 5 = some [(1, "b".toList), (2, "c".toList)] := by decide +kernel

theorem ms_drain (n : Nat) (c t : Nat) (ht : c + t ≤ n) (nt : Nat) (he : c + t ≤ nt) (k : Nat) :
    MS.drain n (t + k) ⟨c, nt⟩ = (MS.drain n k ⟨c + t, nt⟩).map fun l => (List.range t).map (c + ·) ++ l := by
  induction t generalizing c with
  | zero => simp
  | succ t ih =>
    rw [show t + 1 + k = (t + k) + 1 by omega, MS.drain, MS.advance]
    dsimp only
    rw [if_neg (by omega), if_pos (by omega)]
    dsimp only
    rw [ih (c + 1) (by omega) (by omega), Option.map_map, show c + 1 + t = c + (t + 1) by omega]
    congr 1
    funext l
    simp only [Function.comp, List.range_succ_eq_map, List.map_cons, List.map_map, List.cons_append, Nat.add_zero]
    refine congrArg (c :: ·) (congrArg (· ++ l) (List.map_congr_left fun i _ => ?_))
    simp only [Function.comp, Nat.succ_eq_add_one]; omega

/-- C182: an MPAS stream delivers the steps of the file in order, each once, whatever number was set before `initialize`; a
smaller number set afterwards delivers the first steps. -/
theorem C182_mpas (n nt0 k fuel : Nat) (hk : k ≤ n) (hf : k ≤ fuel) :
    ((⟨0, nt0⟩ : MS).setup n) = ⟨0, n⟩ ∧ MS.drain n fuel ⟨0, k⟩ = some (List.range k) := by
  refine ⟨rfl, ?_⟩
  obtain ⟨j, rfl⟩ : ∃ j, fuel = k + j := ⟨fuel - k, by omega⟩
  rw [ms_drain n 0 k (by omega) k (by omega)]
  have : MS.drain n j ⟨0 + k, k⟩ = some [] := by
    cases j with
    | zero => rfl
    | succ j => rw [MS.drain, MS.advance]; dsimp only; rw [if_pos (by omega)]
  rw [this]
  simp

/-- A larger number set afterwards fails on the first step that the file does not have. -/
theorem C182_mpas_beyond (n k fuel : Nat) (hk : n < k) (hf : n < fuel) : MS.drain n fuel ⟨0, k⟩ = none := by
  obtain ⟨j, rfl⟩ : ∃ j, fuel = n + (j + 1) := ⟨fuel - n - 1, by omega⟩
  rw [ms_drain n 0 n (by omega) k (by omega), MS.drain, MS.advance]
  dsimp only
  rw [if_neg (by omega), if_neg (by omega)]
  rfl

example : MS.drain 3 9 ⟨0, 3⟩ = some [0, 1, 2] := by decide +kernel

end Verif.XStr
