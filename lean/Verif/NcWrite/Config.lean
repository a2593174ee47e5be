import Verif.NcWrite.Model
/-!
# Configuring the writer (C190) and groups of arrays (C193)
-/
namespace Verif.NcW

/-- The documented form of every field that is present; `nd`, `filename` and `format` are present. -/
structure Sound (j : Conf) : Prop where
  /-- dimensionality -/
  nd : ∃ n, j "nd" = some (.num n)
  /-- file name pattern -/
  filename : ∃ s, j "filename" = some (.str s)
  /-- format -/
  format : ∃ s, (s = "nc" ∨ s = "vti" ∨ s = "float32" ∨ s = "float64") ∧ j "format" = some (.str s)
  /-- number of components -/
  components : ∀ v, j "n_components" = some v → ∃ n, v = .num n
  /-- names of the dimensions -/
  dimensions : ∀ v, j "dimensions" = some v → ∃ l : List String, v = .arr (l.map .str) ∧ (l.length = 2 ∨ l.length = 3)
  /-- time -/
  time : ∀ v, j "unlimited_time" = some v → j "format" = some (.str "nc") → ∃ b, v = .bool b
  /-- variables -/
  vars : ∀ v, j "variable" = some v → (∃ s, v = .str s) ∨ ∃ l : List String, v = .arr (l.map .str)
  /-- separate variables -/
  separate : ∀ v, j "separate_variables" = some v → ∃ b, v = .bool b

theorem isNum_iff (v : Js) : v.isNum = true ↔ ∃ n, v = .num n := by cases v <;> simp [Js.isNum]
theorem isStr_iff (v : Js) : v.isStr = true ↔ ∃ s, v = .str s := by cases v <;> simp [Js.isStr]
theorem isBool_iff (v : Js) : v.isBool = true ↔ ∃ b, v = .bool b := by cases v <;> simp [Js.isBool]

theorem allStr_iff : ∀ l : List Js, l.all Js.isStr = true ↔ ∃ t : List String, l = t.map .str
  | [] => by simp
  | v :: l => by
    rw [List.all_cons, Bool.and_eq_true, allStr_iff l, isStr_iff]
    constructor
    · rintro ⟨⟨s, rfl⟩, t, rfl⟩; exact ⟨s :: t, rfl⟩
    · rintro ⟨t, h⟩
      cases t with
      | nil => cases h
      | cons s t => simp only [List.map_cons, List.cons.injEq] at h; exact ⟨⟨s, h.1⟩, t, h.2⟩

theorem is_iff (j : Conf) (k s : String) : j.is k s = true ↔ j k = some (.str s) := by
  unfold Conf.is
  split
  · rename_i t h; rw [h]; simp
  · rename_i h
    constructor
    · intro h'; cases h'
    · intro h'; exact absurd h' (h s)

theorem any_iff (o : Option Js) (p : Js → Bool) : o.any p = true ↔ ∃ v, o = some v ∧ p v = true := by
  cases o <;> simp

theorem required_iff (j : Conf) : checkRequired j = true ↔ (∃ n, j "nd" = some (.num n)) ∧
    (∃ s, j "filename" = some (.str s)) ∧ ∃ s, (s = "nc" ∨ s = "vti" ∨ s = "float32" ∨ s = "float64") ∧ j "format" = some (.str s) := by
  unfold checkRequired
  rw [Bool.and_eq_true, Bool.and_eq_true, any_iff, any_iff, any_iff, and_assoc]
  refine and_congr ?_ (and_congr ?_ ?_)
  · constructor
    · rintro ⟨v, h, hv⟩; obtain ⟨n, rfl⟩ := (isNum_iff v).1 hv; exact ⟨n, h⟩
    · rintro ⟨n, h⟩; exact ⟨_, h, rfl⟩
  · constructor
    · rintro ⟨v, h, hv⟩; obtain ⟨n, rfl⟩ := (isStr_iff v).1 hv; exact ⟨n, h⟩
    · rintro ⟨n, h⟩; exact ⟨_, h, rfl⟩
  · constructor
    · rintro ⟨v, h, hv⟩
      rw [Bool.and_eq_true] at hv
      obtain ⟨n, rfl⟩ := (isStr_iff v).1 hv.1
      refine ⟨n, ?_, h⟩
      simpa [formats, Js.text] using hv.2
    · rintro ⟨n, hn, h⟩
      refine ⟨_, h, ?_⟩
      rw [Bool.and_eq_true]
      exact ⟨rfl, by simpa [formats, Js.text] using hn⟩

theorem components_iff (j : Conf) : (∃ j', confComponents j = some j') ↔ ∀ v, j "n_components" = some v → ∃ n, v = .num n := by
  unfold confComponents
  cases h : j "n_components" with
  | none => simp
  | some v => cases v <;> simp [Js.isNum]

theorem components_eq {j j' : Conf} (h : confComponents j = some j') : ∀ k, k ≠ "n_components" → j' k = j k := by
  unfold confComponents at h
  intro k hk
  split at h
  · split at h
    · rw [← Option.some.inj h]
    · cases h
  · rw [← Option.some.inj h]; simp [Conf.put, hk]

theorem dimensions_iff (j : Conf) : (∃ j', confDimensions j = some j') ↔
    ∀ v, j "dimensions" = some v → ∃ l : List String, v = .arr (l.map .str) ∧ (l.length = 2 ∨ l.length = 3) := by
  unfold confDimensions
  split
  · rename_i l h
    split
    · rename_i hlen
      simp only [reduceCtorEq, exists_false, false_iff, h]
      intro hn
      obtain ⟨t, ht, hl⟩ := hn _ rfl
      obtain rfl := Js.arr.inj ht
      rw [List.length_map] at hlen; omega
    · split
      · rename_i hlen hall
        refine ⟨fun _ v hv => ?_, fun _ => ⟨_, rfl⟩⟩
        obtain ⟨t, rfl⟩ := (allStr_iff l).1 hall
        rw [h] at hv
        obtain rfl := Option.some.inj hv
        rw [List.length_map] at hlen
        exact ⟨t, rfl, by omega⟩
      · rename_i hlen hall
        simp only [reduceCtorEq, exists_false, false_iff, h]
        intro hn
        obtain ⟨t, ht, hl⟩ := hn _ rfl
        obtain rfl := Js.arr.inj ht
        exact hall ((allStr_iff _).2 ⟨t, rfl⟩)
  · rename_i v hna hv
    simp only [reduceCtorEq, exists_false, false_iff]
    intro hn
    obtain ⟨t, ht, hl⟩ := hn _ hv
    exact hna _ ht
  · rename_i h
    simp [h]

theorem dimensions_eq {j j' : Conf} (h : confDimensions j = some j') : ∀ k, k ≠ "dimensions" → j' k = j k := by
  unfold confDimensions at h
  intro k hk
  split at h
  · split at h
    · cases h
    · split at h
      · rw [← Option.some.inj h]
      · cases h
  · cases h
  · dsimp only at h; rw [← Option.some.inj h]; simp [Conf.put, hk]

theorem unlimited_iff (j : Conf) : (∃ j', confUnlimited j = some j') ↔
    ∀ v, j "unlimited_time" = some v → j "format" = some (.str "nc") → ∃ b, v = .bool b := by
  unfold confUnlimited
  split
  · rename_i v h
    by_cases hf : j.is "format" "nc" = true
    · rw [if_neg (by simp [hf])]
      have hf' := (is_iff j _ _).1 hf
      rw [h]
      split
      · rename_i hb
        refine ⟨fun _ w hw _ => ?_, fun _ => ⟨_, rfl⟩⟩
        obtain rfl := Option.some.inj hw
        exact (isBool_iff _).1 hb
      · rename_i hb
        simp only [reduceCtorEq, exists_false, false_iff]
        intro hn
        exact hb ((isBool_iff _).2 (hn _ rfl hf'))
    · rw [if_pos hf]
      refine ⟨fun _ w _ hf' => absurd ((is_iff j _ _).2 hf') hf, fun _ => ⟨_, rfl⟩⟩
  · rename_i h
    split <;> simp [h]

theorem unlimited_eq {j j' : Conf} (h : confUnlimited j = some j') : ∀ k, k ≠ "unlimited_time" → j' k = j k := by
  unfold confUnlimited at h
  intro k hk
  split at h
  · split at h
    · rw [← Option.some.inj h]
    · split at h
      · rw [← Option.some.inj h]
      · cases h
  · split at h
    · rw [← Option.some.inj h]; simp [Conf.put, hk]
    · rw [← Option.some.inj h]

theorem variable_iff (j : Conf) : (∃ j', confVariable j = some j') ↔
    (∀ v, j "variable" = some v → (∃ s, v = .str s) ∨ ∃ l : List String, v = .arr (l.map .str)) ∧
    (j "variable" = none → j "foramt" ≠ some (.str "nc")) := by
  unfold confVariable
  split
  · rename_i s h; simp [h]
  · rename_i l h
    rw [h]
    split
    · rename_i hall
      obtain ⟨t, rfl⟩ := (allStr_iff l).1 hall
      refine ⟨fun _ => ⟨fun v hv => ?_, fun h => by cases h⟩, fun _ => ⟨_, rfl⟩⟩
      obtain rfl := Option.some.inj hv
      exact .inr ⟨t, rfl⟩
    · rename_i hall
      simp only [reduceCtorEq, exists_false, false_iff]
      rintro ⟨hn, -⟩
      rcases hn _ rfl with ⟨s, hs⟩ | ⟨t, ht⟩
      · cases hs
      · obtain rfl := Js.arr.inj ht
        exact hall ((allStr_iff _).2 ⟨t, rfl⟩)
  · rename_i v hs ha hv
    simp only [reduceCtorEq, exists_false, false_iff]
    rintro ⟨hn, -⟩
    rcases hn _ hv with ⟨s, rfl⟩ | ⟨t, rfl⟩
    · exact hs s rfl
    · exact ha _ rfl
  · rename_i h
    by_cases hf : j.is "foramt" "nc" = true
    · rw [if_pos hf, h, (is_iff j _ _).1 hf]; simp
    · rw [if_neg hf, h]
      exact ⟨fun _ => ⟨fun v hv => absurd hv (by simp), fun _ hf' => hf ((is_iff j _ _).2 hf')⟩, fun _ => ⟨_, rfl⟩⟩

theorem variable_eq {j j' : Conf} (h : confVariable j = some j') : ∀ k, k ≠ "variable" → k ≠ "foramt" → j' k = j k := by
  unfold confVariable at h
  intro k hk hk'
  split at h
  · rw [← Option.some.inj h]; simp [Conf.put, hk]
  · split at h
    · rw [← Option.some.inj h]
    · cases h
  · cases h
  · split at h
    · cases h
    · rw [← Option.some.inj h]
      split
      · rfl
      · simp [Conf.put, hk']

theorem separate_iff (j : Conf) : (∃ j', confSeparate j = some j') ↔
    ∀ v, j "separate_variables" = some v → ∃ b, v = .bool b := by
  unfold confSeparate
  cases h : j "separate_variables" with
  | none => simp
  | some v => cases v <;> simp [Js.isBool]

theorem separate_eq {j j' : Conf} (h : confSeparate j = some j') : j' = j := by
  unfold confSeparate at h
  split at h
  · split at h
    · exact (Option.some.inj h).symm
    · cases h
  · exact (Option.some.inj h).symm

/-- The intermediate configurations -/
theorem configure_some {j j' : Conf} : configure j = some j' ↔ ∃ j1 j2 j3, checkRequired j = true ∧ confComponents j = some j1 ∧
    confDimensions j1 = some j2 ∧ confUnlimited j2 = some j3 ∧ confVariable j3 = some j' ∧ ∃ j'', confSeparate j' = some j'' := by
  unfold configure
  by_cases h0 : checkRequired j = true
  swap
  · rw [if_neg h0]
    constructor
    · intro h; cases h
    · rintro ⟨_, _, _, h, -⟩; exact absurd h h0
  rw [if_pos h0]
  simp only [Option.bind_eq_bind, Option.bind_eq_some_iff]
  constructor
  · rintro ⟨j1, h1, j2, h2, j3, h3, j4, h4, h5⟩
    obtain rfl := separate_eq h5
    exact ⟨j1, j2, j3, h0, h1, h2, h3, h4, _, h5⟩
  · rintro ⟨j1, j2, j3, h0, h1, h2, h3, h4, j'', h5⟩
    obtain rfl := separate_eq h5
    exact ⟨j1, h1, j2, h2, j3, h3, _, h4, h5⟩

/-- C190: a configuration is accepted exactly if all its fields have the documented form; that the format `nc` needs a variable is
only tested if there is a field `foramt` with the value `nc`. -/
theorem C190_accepted_partial (j : Conf) :
    (∃ j', configure j = some j') ↔ Sound j ∧ (j "variable" = none → j "foramt" ≠ some (.str "nc")) := by
  constructor
  · rintro ⟨j', h⟩
    obtain ⟨j1, j2, j3, h0, h1, h2, h3, h4, h5⟩ := configure_some.1 h
    have e1 := components_eq h1
    have e2 := dimensions_eq h2
    have e3 := unlimited_eq h3
    have e4 := variable_eq h4
    obtain ⟨r1, r2, r3⟩ := (required_iff j).1 h0
    have d := (dimensions_iff j1).1 ⟨_, h2⟩
    have t := (unlimited_iff j2).1 ⟨_, h3⟩
    obtain ⟨v1, v2⟩ := (variable_iff j3).1 ⟨_, h4⟩
    have s := (separate_iff j').1 h5
    rw [e1 _ (by decide)] at d
    rw [e2 _ (by decide), e1 _ (by decide), e2 "format" (by decide), e1 _ (by decide)] at t
    rw [e3 _ (by decide), e2 _ (by decide), e1 _ (by decide)] at v1
    rw [e3 _ (by decide), e2 _ (by decide), e1 _ (by decide), e3 "foramt" (by decide), e2 _ (by decide), e1 _ (by decide)] at v2
    rw [e4 _ (by decide) (by decide), e3 _ (by decide), e2 _ (by decide), e1 _ (by decide)] at s
    exact ⟨⟨r1, r2, r3, (components_iff j).1 ⟨_, h1⟩, d, t, v1, s⟩, v2⟩
  · rintro ⟨hs, hv⟩
    have h0 := (required_iff j).2 ⟨hs.nd, hs.filename, hs.format⟩
    obtain ⟨j1, h1⟩ := (components_iff j).2 hs.components
    have e1 := components_eq h1
    obtain ⟨j2, h2⟩ := (dimensions_iff j1).2 (by rw [e1 _ (by decide)]; exact hs.dimensions)
    have e2 := dimensions_eq h2
    obtain ⟨j3, h3⟩ := (unlimited_iff j2).2 (by
      rw [e2 _ (by decide), e1 _ (by decide), e2 "format" (by decide), e1 _ (by decide)]; exact hs.time)
    have e3 := unlimited_eq h3
    obtain ⟨j4, h4⟩ := (variable_iff j3).2 (by
      rw [e3 _ (by decide), e2 _ (by decide), e1 _ (by decide), e3 "foramt" (by decide), e2 _ (by decide), e1 _ (by decide)]
      exact ⟨hs.vars, hv⟩)
    have e4 := variable_eq h4
    obtain ⟨j5, h5⟩ := (separate_iff j4).2 (by
      rw [e4 _ (by decide) (by decide), e3 _ (by decide), e2 _ (by decide), e1 _ (by decide)]; exact hs.separate)
    exact ⟨j4, configure_some.2 ⟨j1, j2, j3, h0, h1, h2, h3, h4, j5, h5⟩⟩

/-- C190: fields that have no default are kept. -/
theorem C190_kept {j j' : Conf} (h : configure j = some j') (k : String)
    (hk : k ∉ ["n_components", "dimensions", "unlimited_time", "variable", "foramt"]) : j' k = j k := by
  obtain ⟨j1, j2, j3, h0, h1, h2, h3, h4, -⟩ := configure_some.1 h
  simp only [List.mem_cons, not_or, List.not_mem_nil, not_false_eq_true, and_true] at hk
  rw [variable_eq h4 k hk.2.2.2.1 hk.2.2.2.2, unlimited_eq h3 k hk.2.2.1, dimensions_eq h2 k hk.2.1, components_eq h1 k hk.1]

/-- The defaults: what `write_netcdf` will use -/
def wantedArgs (j : Conf) : Bool × List String × List String :=
  ((match j "unlimited_time" with
    | some (.bool b) => b
    | _ => true),
   (match j "dimensions" with
    | some v => v.elems.map Js.text
    | none => (match j "nd" with
      | some (.num 2) => ["x", "y"]
      | _ => ["x", "y", "z"])),
   (match j "variable" with
    | some (.str s) => [s]
    | some v => v.elems.map Js.text
    | none => []))

/-- C190: for the format `nc`, time is unlimited unless said otherwise, the dimensions are those given, by default x, y for 2D and x, y, z
otherwise; one variable given as a string is a list of one. -/
theorem C190_defaults {j j' : Conf} (h : configure j = some j') (hf : j "format" = some (.str "nc")) : ncArgs j' = wantedArgs j := by
  have hs := ((C190_accepted_partial j).1 ⟨j', h⟩).1
  obtain ⟨j1, j2, j3, h0, h1, h2, h3, h4, -⟩ := configure_some.1 h
  have e1 := components_eq h1
  have e2 := dimensions_eq h2
  have e3 := unlimited_eq h3
  have e4 := variable_eq h4
  unfold ncArgs wantedArgs
  congr 1
  · rw [e4 _ (by decide) (by decide)]
    have hf2 : j2.is "format" "nc" = true := by rw [is_iff, e2 _ (by decide), e1 _ (by decide), hf]
    have hu : j2 "unlimited_time" = j "unlimited_time" := by rw [e2 _ (by decide), e1 _ (by decide)]
    unfold confUnlimited at h3
    rw [hu] at h3
    cases hj : j "unlimited_time" with
    | none =>
      rw [hj] at h3
      simp only [hf2, if_true, Option.some.injEq] at h3
      rw [← h3]; simp [Conf.put]
    | some v =>
      obtain ⟨b, rfl⟩ := hs.time v hj hf
      rw [hj] at h3
      simp only [hf2, Js.isBool, if_true, not_true_eq_false, if_false, Option.some.injEq] at h3
      rw [← h3, hu, hj]
  · congr 1
    · rw [e4 _ (by decide) (by decide), e3 _ (by decide)]
      have hd : j1 "dimensions" = j "dimensions" := e1 _ (by decide)
      have hn : j1 "nd" = j "nd" := e1 _ (by decide)
      unfold confDimensions at h2
      rw [hd, hn] at h2
      cases hj : j "dimensions" with
      | none =>
        rw [hj] at h2
        simp only [Option.some.injEq] at h2
        rw [← h2]
        obtain ⟨n, hn'⟩ := hs.nd
        rw [hn']
        by_cases h2 : n = 2
        · subst h2; simp [Conf.put, Js.elems, Js.text]
        · have e : ∀ {α : Type} (a b : α), (match some (Js.num n) with
            | some (.num 2) => a
            | _ => b) = b := by
            intro α a b
            split
            · rename_i heq; exact absurd (by simpa using heq) h2
            · rfl
          have e' := e false true
          simp [h2, Conf.put, Js.elems, Js.text]
      | some v =>
        obtain ⟨l, rfl, hl⟩ := hs.dimensions v hj
        rw [hj] at h2
        have hlen : ¬ ((l.map Js.str).length < 2 ∨ (l.map Js.str).length > 3) := by rw [List.length_map]; omega
        have hall := (allStr_iff (l.map Js.str)).2 ⟨l, rfl⟩
        simp only [if_neg hlen, hall, if_true, Option.some.injEq] at h2
        rw [← h2, hd, hj]; rfl
    · have hv : j3 "variable" = j "variable" := by rw [e3 _ (by decide), e2 _ (by decide), e1 _ (by decide)]
      unfold confVariable at h4
      rw [hv] at h4
      cases hj : j "variable" with
      | none =>
        rw [hj] at h4
        dsimp only at h4
        split at h4
        · cases h4
        · rw [← Option.some.inj h4]
          have : (if (j3 "foramt").isSome = true then j3 else j3.put "foramt" .null) "variable" = none := by
            split
            · rw [hv, hj]
            · simp [Conf.put, hv, hj]
          rw [this]; rfl
      | some v =>
        rw [hj] at h4
        rcases hs.vars v hj with ⟨s, rfl⟩ | ⟨l, rfl⟩
        · simp only [Option.some.injEq] at h4
          rw [← h4]; simp [Conf.put, Js.elems, Js.text]
        · have hall := (allStr_iff (l.map Js.str)).2 ⟨l, rfl⟩
          simp only [hall, if_true, Option.some.injEq] at h4
          rw [← h4, hv, hj]; rfl

/-- A configuration for NetCDF without a variable -/
def noVariable : Conf := fun k => if k = "nd" then some (.num 2) else if k = "filename" then some (.str "out-%04d.nc")
  else if k = "format" then some (.str "nc") else none

/-- Non-vacuity: a complete configuration is accepted. -/
def complete : Conf := noVariable.put "variable" (.str "u")

/-- C190, violated: a NetCDF configuration without any variable is accepted, and every file written has the dimensions but no
variable: the data are lost. -/
theorem C190_violated : Sound noVariable ∧ ∃ j', configure noVariable = some j' ∧ ncArgs j' = (true, ["x", "y"], []) ∧
    ∀ (V : Type) (dx dy : Nat) (p : List V), ∃ f, writeNc true ["x", "y"] [] (⟨[dx, dy], p⟩ : Arr V) = some f ∧ f.vars = [] := by
  have hs : Sound noVariable := by
    constructor <;> simp [noVariable]
  refine ⟨hs, ?_⟩
  obtain ⟨j', h⟩ := (C190_accepted_partial noVariable).2 ⟨hs, fun _ => by simp [noVariable]⟩
  refine ⟨j', h, ?_, fun V dx dy p => ⟨_, rfl, rfl⟩⟩
  rw [C190_defaults h (by simp [noVariable])]
  simp [wantedArgs, noVariable]

/-- Non-vacuity: the same configuration with a variable. -/
example : ∃ j', configure complete = some j' ∧ ncArgs j' = (true, ["x", "y"], ["u"]) := by
  obtain ⟨j', h⟩ := (C190_accepted_partial complete).2 ⟨by constructor <;> simp [complete, noVariable, Conf.put], by simp [complete, Conf.put]⟩
  refine ⟨j', h, ?_⟩
  rw [C190_defaults h (by simp [complete, noVariable, Conf.put])]
  simp [wantedArgs, complete, noVariable, Conf.put]

/-! ### groups -/

variable {V : Type}

/-- The calls of `set` on an empty group -/
def build (l : List (String × Nat × V)) : Group V := l.foldl (fun g e => g.set e.1 e.2.1 e.2.2) []

theorem at_set (g : Group V) (k k' : String) (ty : Nat) (v : V) :
    (g.set k ty v).at? k' = if (g.at? k').isSome then g.at? k' else if k' = k then some (ty, v) else none := by
  unfold Group.set
  split
  · rename_i h
    split
    · rfl
    · rename_i hn
      have hn' : g.at? k' = none := by simpa using hn
      rw [hn']
      split
      · rename_i hk
        subst hk
        unfold Group.has at h
        unfold Group.at? at hn'
        rw [Option.map_eq_none_iff, List.find?_eq_none] at hn'
        rw [List.any_eq_true] at h
        obtain ⟨e, he, hk⟩ := h
        exact absurd hk (hn' e he)
      · rfl
  · unfold Group.at?
    rw [List.find?_append]
    cases hf : g.find? fun e => e.1 == k' with
    | some e => simp
    | none =>
      by_cases hk : k' = k
      · subst hk; simp
      · have hk' : ¬ k = k' := fun h => hk h.symm
        simp [hk, hk']

theorem at_build_go (l : List (String × Nat × V)) (k : String) : ∀ g : Group V,
    (l.foldl (fun g e => g.set e.1 e.2.1 e.2.2) g).at? k =
      if (g.at? k).isSome then g.at? k else (l.find? fun e => e.1 == k).map fun e => e.2 := by
  induction l with
  | nil => intro g; cases h : g.at? k <;> simp [h]
  | cons e l ih =>
    intro g
    rw [List.foldl_cons, ih, at_set]
    by_cases hg : (g.at? k).isSome
    · simp [hg]
    · simp only [hg, Bool.false_eq_true, if_false]
      by_cases hk : k = e.1
      · subst hk; simp
      · have : (e.1 == k) = false := by simpa using fun h => hk (Eq.symm h)
        simp [hk, List.find?_cons, this]

/-- C193: a group holds, for each key, the array that was set *first*; reading it as the type it was set with gives it back. -/
theorem C193_first_partial (l : List (String × Nat × V)) (k : String) (ty : Nat) :
    (build l).get k ty = match l.find? fun e => e.1 == k with
      | none => .error 0
      | some e => if e.2.1 = ty then .ok e.2.2 else .error 1 := by
  unfold Group.get build
  rw [at_build_go]
  have : Group.at? ([] : Group V) k = none := rfl
  rw [this]
  cases h : l.find? fun e => e.1 == k <;> simp [h]

/-- C193: if every key is set once, the group is the map one would expect. -/
theorem C193_once_partial (l : List (String × Nat × V)) (hl : (l.map fun e => e.1).Nodup) (e : String × Nat × V) (he : e ∈ l) :
    (build l).get e.1 e.2.1 = .ok e.2.2 := by
  rw [C193_first_partial]
  have : l.find? (fun x => x.1 == e.1) = some e := by
    induction l with
    | nil => cases he
    | cons a l ih =>
      rw [List.map_cons, List.nodup_cons] at hl
      rw [List.find?_cons]
      rcases List.mem_cons.1 he with rfl | h
      · simp
      · have : (a.1 == e.1) = false := by
          rw [beq_eq_false_iff_ne]
          intro hae
          exact hl.1 (hae ▸ List.mem_map_of_mem h)
        rw [this]; exact ih hl.2 h
  rw [this]; simp

/-- C193, violated: setting a key again has no effect: the old array stays. -/
theorem C193_violated (g : Group V) (k : String) (ty ty' : Nat) (v w : V) : (g.set k ty v).set k ty' w = g.set k ty v := by
  unfold Group.set
  split
  · rename_i h; simp [h]
  · have : (Group.has (g ++ [(k, ty, v)]) k) = true := by unfold Group.has; simp
    rw [if_pos this]

/-- Non-vacuity: velocity set twice, temperature once. -/
example : (build [("v", 0, 1), ("t", 1, 5), ("v", 0, 2)]).get "v" 0 = .ok 1 ∧ (build [("v", 0, 1), ("t", 1, 5)]).get "t" 1 = .ok 5 ∧
    (build [("v", 0, 1), ("t", 1, 5)]).get "t" 0 = .error 1 := by
  refine ⟨?_, ?_, ?_⟩ <;> rw [C193_first_partial] <;> simp

end Verif.NcW
