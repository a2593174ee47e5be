import Verif.Mesh.Enum
namespace Verif.SRM

theorem unit_get {n k t : Nat} {s : Simplex} (hn : 1 ≤ n) (hk : k ≤ n)
    (h : (unitSimplices n k)[t]? = some s) : Kuhn n k s :=
  (mem_unitSimplices hn hk s).1 (List.mem_of_getElem? h)

theorem unit_inj {n k t t' : Nat} {s : Simplex} (h : (unitSimplices n k)[t]? = some s)
    (h' : (unitSimplices n k)[t']? = some s) : t = t' := by
  obtain ⟨h1, h2⟩ := List.getElem?_eq_some_iff.1 h
  obtain ⟨h3, h4⟩ := List.getElem?_eq_some_iff.1 h'
  exact (List.Nodup.getElem_inj_iff (unitSimplices_nodup n k)).1 (h2.trans h4.symm)

/-! ### vertices -/

theorem translate_inj {n : Nat} {c u v : Vtx} (hc : c.length = n) (hu : u.length = n)
    (hv : v.length = n) (h : translate c u = translate c v) : u = v := by
  rw [← sub_translate (o := c) (v := u) (by omega), h, sub_translate (by omega)]

theorem map_translate_inj {n : Nat} {c : Vtx} (hc : c.length = n) : ∀ {s t : Simplex},
    (∀ v ∈ s, v.length = n) → (∀ v ∈ t, v.length = n) →
    s.map (translate c) = t.map (translate c) → s = t := by
  intro s
  induction s with
  | nil => intro t _ _ h; simp at h; exact h.symm
  | cons a as ih =>
    intro t h1 h2 h
    cases t with
    | nil => simp at h
    | cons b bs =>
      simp only [List.map_cons, List.cons.injEq] at h
      rw [translate_inj hc (h1 a (by simp)) (h2 b (by simp)) h.1,
        ih (fun v hv => h1 v (by simp [hv])) (fun v hv => h2 v (by simp [hv])) h.2]

theorem translate_length {n : Nat} {c v : Vtx} (hc : c.length = n) (hv : v.length = n) :
    (translate c v).length = n := by simp [translate, hc, hv]

theorem Kuhn.translate_chain {n k : Nat} {s : Simplex} (h : Kuhn n k s) {c : Vtx} (hc : c.length = n) :
    (s.map (translate c)).Pairwise VLt := by
  rw [List.pairwise_map]
  refine h.chain.imp_of_mem ?_
  intro a b ha hb hab
  exact vlt_translate hab (by rw [(h.cube a ha).1, hc]) (by rw [(h.cube b hb).1, hc])

theorem Kuhn.translate_head {n k : Nat} {s : Simplex} (h : Kuhn n k s) {c : Vtx} (hc : c.length = n) :
    (s.map (translate c)).head? = some c := by
  rw [List.head?_map, h.head]
  simp [translate_zero_right hc]

theorem map_translate_translate (c o : Vtx) (s : Simplex) :
    s.map (translate (translate c o)) = (s.map (translate o)).map (translate c) := by
  rw [List.map_map]
  apply List.map_congr_left
  intro v _
  simp [translate_assoc]

/-! ### sides -/

theorem mem_unitSides {n k t : Nat} {s : Simplex} (hn : 1 ≤ n) (hk : k + 1 ≤ n)
    (hs : (unitSimplices n (k + 1))[t]? = some s) :
    ∃ l, unitSides n (k + 1) t = some l ∧ l.Nodup ∧ ∀ t' o, (t', o) ∈ l ↔
      ∃ i, i < s.length ∧ reduce n (s.eraseIdx i) = ((reduce n (s.eraseIdx i)).1, o) ∧
        (unitSimplices n k)[t']? = some (reduce n (s.eraseIdx i)).1 := by
  have hK := unit_get hn hk hs
  have hst := chain_strict hK.chain
  unfold unitSides
  rw [if_neg (by omega), hs]
  refine ⟨_, rfl, ?_, ?_⟩
  · refine List.Nodup.map ?_ (toSet_sorted _).nodup
    exact fun a b h => ofLex.injective h
  · intro t' o
    rw [List.mem_map]
    have : (∃ a ∈ toSet (List.flatMap (fun p =>
        let r := reduce n (List.take (s.length - 1) p)
        List.map (fun t' => toLex (t', r.2))
          (List.filter (fun t' => (unitSimplices n (k + 1 - 1))[t']? == some (sort r.1))
            (List.range (ntypes n (k + 1 - 1))))) (permsFrom s)), ofLex a = (t', o)) ↔
        ∃ p : Simplex, p.Perm s ∧ (reduce n (p.take (s.length - 1))).2 = o ∧
          (unitSimplices n k)[t']? = some (sort (reduce n (p.take (s.length - 1))).1) := by
      simp only [mem_toSet, List.mem_flatMap, List.mem_map, List.mem_filter, List.mem_range, beq_iff_eq,
        Nat.add_sub_cancel]
      constructor
      · rintro ⟨a, ⟨p, hp, t1, ⟨h1, h2⟩, rfl⟩, h3⟩
        simp only [ofLex_toLex, Prod.mk.injEq] at h3
        obtain ⟨rfl, h4⟩ := h3
        exact ⟨p, (mem_permsFrom hst).1 hp, h4, h2⟩
      · rintro ⟨p, hp, rfl, h2⟩
        refine ⟨toLex (t', _), ⟨p, (mem_permsFrom hst).2 hp, t', ⟨?_, h2⟩, rfl⟩, rfl⟩
        exact (List.getElem?_eq_some_iff.1 h2).1
    refine this.trans ?_
    constructor
    · rintro ⟨p, hp, h1, h2⟩
      obtain ⟨i, hi, hq⟩ := perm_dropLast hp hK.ne_nil
      refine ⟨i, hi, ?_, ?_⟩
      · rw [← h1, (reduce_perm hq).2]
      · rw [h2]
        congr 1
        obtain ⟨o', rest, _, e2, e3, _⟩ := hK.face i hi
        apply sort_perm (reduce_perm hq).1
        rw [e2]; exact chain_strict e3.chain
    · rintro ⟨i, hi, h1, h2⟩
      obtain ⟨p, hp, e⟩ := exists_perm_dropLast s i hi
      refine ⟨p, hp, ?_, ?_⟩
      · rw [e, h1]
      · rw [e, h2]
        congr 1
        obtain ⟨o', rest, _, e2, e3, _⟩ := hK.face i hi
        symm
        apply StrictSorted.sort
        rw [e2]; exact chain_strict e3.chain

/-- the same with vertices: the offset and type describe the face -/
theorem mem_unitSides' {n k t : Nat} {s : Simplex} (hn : 1 ≤ n) (hk : k + 1 ≤ n)
    (hs : (unitSimplices n (k + 1))[t]? = some s) :
    ∃ l, unitSides n (k + 1) t = some l ∧ l.Nodup ∧ ∀ t' o, (t', o) ∈ l ↔
      o.length = n ∧ ∃ i s', i < s.length ∧ (unitSimplices n k)[t']? = some s' ∧
        s'.map (translate o) = s.eraseIdx i := by
  obtain ⟨l, h1, h2, h3⟩ := mem_unitSides hn hk hs
  have hK := unit_get hn hk hs
  refine ⟨l, h1, h2, fun t' o => (h3 t' o).trans ?_⟩
  constructor
  · rintro ⟨i, hi, e1, e2⟩
    obtain ⟨o', rest, e3, e4, e5, e6, _⟩ := hK.face i hi
    rw [e4] at e1 e2
    simp only [Prod.mk.injEq, true_and] at e1
    subst e1
    have ho : o'.length = n := (e6 o' (by rw [e3]; simp)).1
    refine ⟨ho, i, _, hi, e2, ?_⟩
    rw [List.map_map]
    conv_rhs => rw [← List.map_id (s.eraseIdx i)]
    apply List.map_congr_left
    intro v hv
    simp only [Function.comp, id]
    exact translate_sub (by rw [(e6 v hv).1, ho])
  · rintro ⟨ho, i, s', hi, e1, e2⟩
    refine ⟨i, hi, ?_⟩
    obtain ⟨o', rest, e3, e4, e5, e6, _⟩ := hK.face i hi
    have hs' := unit_get hn (by omega) e1
    have hh := hs'.translate_head ho
    rw [e2, e3] at hh
    simp only [List.head?_cons, Option.some.injEq] at hh
    subst hh
    rw [e4]
    refine ⟨rfl, ?_⟩
    rw [e1, ← e2, List.map_map]
    congr 1
    conv_lhs => rw [← List.map_id s']
    apply List.map_congr_left
    intro v hv
    simp only [Function.comp, id]
    exact (sub_translate (by rw [(hs'.cube v hv).1, ho])).symm

theorem eraseIdx_inj {α : Type} : ∀ {s : List α} {i j : Nat}, s.Nodup → i < s.length → j < s.length →
    s.eraseIdx i = s.eraseIdx j → i = j := by
  intro s i j hn hi hj h
  by_contra hne
  have hmem : ∀ {i j : Nat} (hi : i < s.length), i ≠ j → j < s.length → s[i] ∈ s.eraseIdx j := by
    intro i j hi hne hj
    by_cases hlt : i < j
    · rw [List.mem_iff_getElem?]
      exact ⟨i, by rw [List.getElem?_eraseIdx_of_lt hlt, List.getElem?_eq_getElem hi]⟩
    · rw [List.mem_iff_getElem?]
      refine ⟨i - 1, ?_⟩
      rw [List.getElem?_eraseIdx_of_ge (by omega), show i - 1 + 1 = i by omega,
        List.getElem?_eq_getElem hi]
  have h1 := hmem hi hne hj
  rw [← h] at h1
  have h2 : (s[i] :: s.eraseIdx i).Nodup := (List.getElem_cons_eraseIdx_perm hi).nodup_iff.2 hn
  exact (List.nodup_cons.1 h2).1 h1

/-- sides of an element -/
theorem sides_spec {n : Nat} (hn : 1 ≤ n) {e : Elem} {ve : Simplex} {k : Nat} (hd : e.dim = k + 1)
    (hk : k + 1 ≤ n) (hc : e.corner.length = n) (hv : e.vertices n = some ve) :
    ∃ S, e.sides n = some S ∧ S.Nodup ∧ S.length = k + 2 ∧
      ∀ f : Elem, f ∈ S ↔ f.corner.length = n ∧ f.dim = k ∧
        ∃ vf, f.vertices n = some vf ∧ DropsOne ve vf := by
  unfold Elem.vertices at hv
  split at hv
  · cases hv
  next s hs =>
    simp only [Option.some.injEq] at hv
    subst hv
    rw [hd] at hs
    obtain ⟨l, h1, h2, h3⟩ := mem_unitSides' hn hk hs
    have hK := unit_get hn hk hs
    have hlen := hK.len
    unfold Elem.sides
    rw [hd, h1]
    have hinj : ∀ x ∈ l, ∀ y ∈ l,
        ({ corner := translate e.corner x.2, dim := k + 1 - 1, type := x.1 } : Elem) =
        { corner := translate e.corner y.2, dim := k + 1 - 1, type := y.1 } → x = y := by
      rintro ⟨t1, o1⟩ hx ⟨t2, o2⟩ hy hxy
      simp only [Elem.mk.injEq, true_and] at hxy
      have ho1 := ((h3 t1 o1).1 hx).1
      have ho2 := ((h3 t2 o2).1 hy).1
      rw [hxy.2, translate_inj hc ho1 ho2 hxy.1]
    refine ⟨_, rfl, h2.map_on hinj, ?_, ?_⟩
    · -- count: the vertex lists are exactly the erasures
      rw [List.length_map]
      let V : Nat × Vtx → Option Simplex := fun x =>
        match (unitSimplices n k)[x.1]? with
        | none => none
        | some s' => some (s'.map (translate x.2))
      have hperm : (l.map V).Perm ((List.range (k + 2)).map (fun i => some (s.eraseIdx i))) := by
        rw [List.perm_ext_iff_of_nodup]
        · intro x
          simp only [List.mem_map, List.mem_range]
          constructor
          · rintro ⟨⟨t1, o1⟩, hx, rfl⟩
            obtain ⟨_, i, s', hi, e1, e2⟩ := (h3 t1 o1).1 hx
            refine ⟨i, by omega, ?_⟩
            simp only [V, e1, e2]
          · rintro ⟨i, hi, rfl⟩
            obtain ⟨o', rest, e3, e4, e5, e6, _⟩ := hK.face i (by omega)
            have hmem := (mem_unitSimplices hn (by omega) _).2 e5
            obtain ⟨t', ht'⟩ := List.mem_iff_getElem?.1 hmem
            have ho : o'.length = n := (e6 o' (by rw [e3]; simp)).1
            have hback : ((s.eraseIdx i).map (fun v => sub v o')).map (translate o') = s.eraseIdx i := by
              rw [List.map_map]
              conv_rhs => rw [← List.map_id (s.eraseIdx i)]
              apply List.map_congr_left
              intro v hv
              simp only [Function.comp, id]
              exact translate_sub (by rw [(e6 v hv).1, ho])
            refine ⟨(t', o'), (h3 t' o').2 ⟨ho, i, _, by omega, ht', hback⟩, ?_⟩
            simp only [V, ht', hback]
        · refine h2.map_on ?_
          rintro ⟨t1, o1⟩ hx ⟨t2, o2⟩ hy hxy
          obtain ⟨ho1, i1, s1, _, e1, e2⟩ := (h3 t1 o1).1 hx
          obtain ⟨ho2, i2, s2, _, e3, e4⟩ := (h3 t2 o2).1 hy
          simp only [V, e1, e3, Option.some.injEq] at hxy
          have hs1 := unit_get hn (by omega) e1
          have hs2 := unit_get hn (by omega) e3
          have hh1 := hs1.translate_head ho1
          rw [hxy, hs2.translate_head ho2] at hh1
          simp only [Option.some.injEq] at hh1
          subst hh1
          have := map_translate_inj ho1 (fun v hv => (hs1.cube v hv).1)
            (fun v hv => (hs2.cube v hv).1) hxy
          subst this
          rw [unit_inj e1 e3]
        · refine List.nodup_range.map_on ?_
          intro i hi j hj hij
          rw [List.mem_range] at hi hj
          simp only [Option.some.injEq] at hij
          exact eraseIdx_inj (chain_strict hK.chain).nodup (by omega) (by omega) hij
      have := hperm.length_eq
      simpa using this
    · intro f
      rw [List.mem_map]
      constructor
      · rintro ⟨⟨t', o⟩, hx, rfl⟩
        obtain ⟨ho, i, s', hi, e1, e2⟩ := (h3 t' o).1 hx
        refine ⟨translate_length hc ho, rfl, s'.map (translate (translate e.corner o)), ?_, i, by simpa using hi, ?_⟩
        · unfold Elem.vertices
          simp only [Nat.add_sub_cancel]
          rw [e1]
        · rw [map_translate_translate, e2, List.eraseIdx_map]
      · rintro ⟨hfc, hfd, vf, hvf, i, hi, rfl⟩
        unfold Elem.vertices at hvf
        split at hvf
        · cases hvf
        next s' hs' =>
          rw [hfd] at hs'
          simp only [Option.some.injEq] at hvf
          rw [List.length_map] at hi
          have hK' := unit_get hn (by omega) hs'
          rw [List.eraseIdx_map] at hvf
          obtain ⟨o', rest, e3, e4, e5, e6, _⟩ := hK.face i hi
          have ho : o'.length = n := (e6 o' (by rw [e3]; simp)).1
          have hh := hK'.translate_head hfc
          rw [hvf, e3] at hh
          simp only [List.map_cons, List.head?_cons, Option.some.injEq] at hh
          refine ⟨(f.type, o'), (h3 _ _).2 ⟨ho, i, s', hi, hs', ?_⟩, ?_⟩
          · rw [← hh, map_translate_translate] at hvf
            refine map_translate_inj hc ?_ ?_ hvf
            · intro v hv
              obtain ⟨w, hw, rfl⟩ := List.mem_map.1 hv
              exact translate_length ho (hK'.cube w hw).1
            · intro v hv; exact (e6 v hv).1
          · cases f
            simp only [Elem.mk.injEq, Nat.add_sub_cancel, and_true] at *
            exact ⟨hh, hfd.symm⟩

/-! ### the scan over corners -/

/-- (proof device) a candidate corner offset: every coordinate is -1, 0 or 1. -/
def VC (n : Nat) (c : Vtx) : Prop := c.length = n ∧ ∀ x ∈ c, x = -1 ∨ x = 0 ∨ x = 1

/-- (proof device) base-3 value of a corner offset, the measure of the scan. -/
def val : Vtx → Nat
  | [] => 0
  | c :: cs => (c + 1).toNat + 3 * val cs

theorem val_lt : ∀ {n : Nat} {c : Vtx}, VC n c → val c < 3 ^ n := by
  intro n c
  induction c generalizing n with
  | nil => intro h; have := h.1; simp at this; subst this; simp [val]
  | cons a as ih =>
    intro h
    obtain ⟨m, rfl⟩ : ∃ m, n = m + 1 := ⟨as.length, by have := h.1; simp at this; omega⟩
    have h1 : VC m as := ⟨by have := h.1; simpa using this, fun x hx => h.2 x (by simp [hx])⟩
    have := ih h1
    have ha := h.2 a (by simp)
    simp only [val]
    rw [Nat.pow_succ]
    omega

theorem val_inj : ∀ {n : Nat} {c d : Vtx}, VC n c → VC n d → val c = val d → c = d := by
  intro n c
  induction c generalizing n with
  | nil =>
    intro d h h' _
    have := h.1; have := h'.1
    simp at *; subst n; exact (List.length_eq_zero_iff.1 ‹_›)
  | cons a as ih =>
    intro d h h' he
    cases d with
    | nil => have := h.1; have := h'.1; simp at *; omega
    | cons b bs =>
      obtain ⟨m, rfl⟩ : ∃ m, n = m + 1 := ⟨as.length, by have := h.1; simp at this; omega⟩
      have h1 : VC m as := ⟨by have := h.1; simpa using this, fun x hx => h.2 x (by simp [hx])⟩
      have h2 : VC m bs := ⟨by have := h'.1; simpa using this, fun x hx => h'.2 x (by simp [hx])⟩
      have ha := h.2 a (by simp)
      have hb := h'.2 b (by simp)
      simp only [val] at he
      have hab : a = b ∧ val as = val bs := by omega
      rw [hab.1, ih h1 h2 hab.2]

theorem all_ones_val : ∀ {n : Nat} {c : Vtx}, VC n c → (c.all (fun x => x == 1) = true ↔ val c + 1 = 3 ^ n) := by
  intro n c
  induction c generalizing n with
  | nil => intro h; have := h.1; simp at this; subst this; simp [val]
  | cons a as ih =>
    intro h
    obtain ⟨m, rfl⟩ : ∃ m, n = m + 1 := ⟨as.length, by have := h.1; simp at this; omega⟩
    have h1 : VC m as := ⟨by have := h.1; simpa using this, fun x hx => h.2 x (by simp [hx])⟩
    have ha := h.2 a (by simp)
    have := ih h1
    have hlt := val_lt h1
    rw [List.all_cons, Bool.and_eq_true, this, beq_iff_eq]
    simp only [val]
    rw [Nat.pow_succ]
    omega

theorem inc_val : ∀ {n : Nat} {c : Vtx}, VC n c → ¬ c.all (fun x => x == 1) = true →
    VC n (incCorner c) ∧ val (incCorner c) = val c + 1 := by
  intro n c
  induction c generalizing n with
  | nil => intro h hn; simp at hn
  | cons a as ih =>
    intro h hn
    obtain ⟨m, rfl⟩ : ∃ m, n = m + 1 := ⟨as.length, by have := h.1; simp at this; omega⟩
    have h1 : VC m as := ⟨by have := h.1; simpa using this, fun x hx => h.2 x (by simp [hx])⟩
    have ha := h.2 a (by simp)
    unfold incCorner
    by_cases ha1 : a + 1 > 1
    · rw [if_pos ha1]
      have hae : a = 1 := by omega
      subst hae
      obtain ⟨h2, h3⟩ := ih h1 (by simpa using hn)
      refine ⟨⟨by simp [h2.1], ?_⟩, ?_⟩
      · intro x hx
        rcases List.mem_cons.1 hx with rfl | hx
        · omega
        · exact h2.2 x hx
      · simp only [val, h3]; omega
    · rw [if_neg ha1]
      refine ⟨⟨by simp [h1.1], ?_⟩, ?_⟩
      · intro x hx
        rcases List.mem_cons.1 hx with rfl | hx
        · omega
        · exact h1.2 x hx
      · simp only [val]; omega

theorem mem_scan {n nt : Nat} (hnt : 0 < nt) : ∀ (fuel t : Nat) (c : Vtx), VC n c → t < nt →
    fuel + (val c * nt + t) = 3 ^ n * nt → ∀ t' c', (t', c') ∈ scan nt fuel t c ↔
      VC n c' ∧ t' < nt ∧ val c * nt + t ≤ val c' * nt + t' := by
  intro fuel
  induction fuel with
  | zero =>
    intro t c hc ht hf
    have h1 := val_lt hc
    have h2 : (val c + 1) * nt ≤ 3 ^ n * nt := Nat.mul_le_mul_right _ h1
    rw [Nat.add_mul] at h2
    omega
  | succ fuel ih =>
    intro t c hc ht hf t' c'
    have huniq : ∀ {t1 : Nat} {c1 : Vtx}, VC n c1 → t1 < nt → val c * nt + t = val c1 * nt + t1 →
        t1 = t ∧ c1 = c := by
      intro t1 c1 h1 h2 h3
      have e1 : (val c * nt + t) % nt = t := by
        rw [Nat.mul_comm, Nat.mul_add_mod, Nat.mod_eq_of_lt ht]
      have e2 : (val c1 * nt + t1) % nt = t1 := by
        rw [Nat.mul_comm, Nat.mul_add_mod, Nat.mod_eq_of_lt h2]
      have e3 : t1 = t := by rw [← e1, ← e2, h3]
      subst e3
      have e4 : val c = val c1 := Nat.eq_of_mul_eq_mul_right hnt (by omega)
      exact ⟨rfl, (val_inj hc h1 e4).symm⟩
    have hsplit : ∀ (P : Prop), (P ↔ VC n c' ∧ t' < nt ∧ val c * nt + t + 1 ≤ val c' * nt + t') →
        ((t', c') = (t, c) ∨ P ↔ VC n c' ∧ t' < nt ∧ val c * nt + t ≤ val c' * nt + t') := by
      intro P hP
      rw [hP]
      constructor
      · rintro (h | h)
        · cases h; exact ⟨hc, ht, le_refl _⟩
        · exact ⟨h.1, h.2.1, by omega⟩
      · rintro ⟨h1, h2, h3⟩
        rcases Nat.lt_or_eq_of_le h3 with h | h
        · exact Or.inr ⟨h1, h2, h⟩
        · obtain ⟨rfl, rfl⟩ := huniq h1 h2 h
          exact Or.inl rfl
    unfold scan
    rw [List.mem_cons]
    apply hsplit
    by_cases hlast : t + 1 = nt
    · by_cases hall : c.all (fun x => x == 1) = true
      · rw [if_pos ⟨hlast, hall⟩]
        simp only [List.not_mem_nil, false_iff, not_and]
        intro h1 h2 h3
        have hv := (all_ones_val hc).1 hall
        have h4 := val_lt h1
        have h5 : (val c' + 1) * nt ≤ 3 ^ n * nt := Nat.mul_le_mul_right _ h4
        rw [Nat.add_mul, ← hv, Nat.add_mul] at h5
        omega
      · rw [if_neg (fun h => hall h.2), if_pos hlast]
        obtain ⟨h1, h2⟩ := inc_val hc hall
        have h3 : val (incCorner c) * nt = val c * nt + nt := by rw [h2, Nat.add_mul, Nat.one_mul]
        rw [ih 0 (incCorner c) h1 hnt (by omega) t' c', h3]
        have : val c * nt + nt + 0 = val c * nt + t + 1 := by omega
        rw [this]
    · rw [if_neg (fun h => hlast h.1), if_neg hlast]
      exact ih (t + 1) c hc (by omega) (by omega) t' c'

theorem mem_scan_all {n nt : Nat} (hnt : 0 < nt) (t' : Nat) (c' : Vtx) :
    (t', c') ∈ scan nt (3 ^ n * nt) 0 (List.replicate n (-1)) ↔ VC n c' ∧ t' < nt := by
  have hvc : VC n (List.replicate n (-1)) :=
    ⟨by simp, fun x hx => Or.inl (List.eq_of_mem_replicate hx)⟩
  have hv : val (List.replicate n (-1)) = 0 := by
    induction n with
    | zero => rfl
    | succ n ih => 
      rw [List.replicate_succ]
      simp only [val]
      have := ih ⟨by simp, fun x hx => Or.inl (List.eq_of_mem_replicate hx)⟩
      rw [this]; rfl
  rw [mem_scan hnt _ 0 _ hvc hnt (by rw [hv]; omega)]
  rw [hv]
  constructor
  · rintro ⟨a, b, _⟩; exact ⟨a, b⟩
  · rintro ⟨a, b⟩; exact ⟨a, b, by omega⟩

/-! ### std::includes -/

theorem includes_iff : ∀ {a b : Simplex}, StrictSorted a → StrictSorted b →
    (includes a b = true ↔ ∀ x ∈ b, x ∈ a) := by
  intro a
  induction a with
  | nil =>
    intro b _ _
    cases b with
    | nil => simp [includes]
    | cons c cs =>
      simp only [includes, Bool.false_eq_true, false_iff]
      intro h
      exact absurd (h c (by simp)) (by simp)
  | cons a as ih =>
    intro b ha hb
    have ha' := ha; have hb' := hb
    unfold StrictSorted at ha'
    rw [List.pairwise_cons] at ha'
    cases b with
    | nil => simp [includes]
    | cons c cs =>
      unfold StrictSorted at hb'
      rw [List.pairwise_cons] at hb'
      unfold includes
      by_cases h1 : c < a
      · rw [if_pos h1]
        simp only [Bool.false_eq_true, false_iff]
        intro h
        rcases List.mem_cons.1 (h c (by simp)) with rfl | h2
        · exact lt_irrefl _ h1
        · exact lt_irrefl _ (lt_trans h1 (ha'.1 c h2))
      · rw [if_neg h1]
        by_cases h2 : a < c
        · rw [if_pos h2, ih ha'.2 hb]
          constructor
          · intro h x hx; exact List.mem_cons_of_mem _ (h x hx)
          · intro h x hx
            rcases List.mem_cons.1 (h x hx) with rfl | h3
            · rcases List.mem_cons.1 hx with rfl | h4
              · exact absurd h2 (lt_irrefl _)
              · exact absurd (lt_trans h2 (hb'.1 x h4)) (lt_irrefl _)
            · exact h3
        · rw [if_neg h2, ih ha'.2 hb'.2]
          have hac : a = c := le_antisymm (not_lt.1 h1) (not_lt.1 h2)
          subst hac
          constructor
          · intro h x hx
            rcases List.mem_cons.1 hx with rfl | hx
            · simp
            · exact List.mem_cons_of_mem _ (h x hx)
          · intro h x hx
            rcases List.mem_cons.1 (h x (List.mem_cons_of_mem _ hx)) with rfl | h3
            · exact absurd (hb'.1 x hx) (lt_irrefl _)
            · exact h3

/-- a strictly sorted subset with one element less is the list with one element erased -/
theorem subset_dropsOne : ∀ {m l : Simplex}, StrictSorted m → StrictSorted l →
    m.length = l.length + 1 → (∀ x ∈ l, x ∈ m) → DropsOne m l := by
  intro m
  induction m with
  | nil => intro l _ _ h; simp at h
  | cons a as ih =>
    intro l hm hl hlen hsub
    have hm' := hm
    unfold StrictSorted at hm'
    rw [List.pairwise_cons] at hm'
    by_cases hal : a ∈ l
    · cases l with
      | nil => simp at hal
      | cons b bs =>
        have hl' := hl
        unfold StrictSorted at hl'
        rw [List.pairwise_cons] at hl'
        have hab : a = b := by
          rcases List.mem_cons.1 hal with h | h
          · exact h
          · rcases List.mem_cons.1 (hsub b (by simp)) with h2 | h2
            · exact h2.symm
            · exact absurd (lt_trans (hl'.1 a h) (hm'.1 b h2)) (lt_irrefl _)
        subst hab
        obtain ⟨i, hi, e⟩ := ih hm'.2 hl'.2 (by simpa using hlen) (by
          intro x hx
          rcases List.mem_cons.1 (hsub x (by simp [hx])) with rfl | h
          · exact absurd (hl'.1 x hx) (lt_irrefl _)
          · exact h)
        exact ⟨i + 1, by simpa using hi, by rw [List.eraseIdx_cons_succ, e]⟩
    · refine ⟨0, by simp, ?_⟩
      rw [List.eraseIdx_cons_zero]
      have hsub' : ∀ x ∈ l, x ∈ as := by
        intro x hx
        rcases List.mem_cons.1 (hsub x hx) with rfl | h
        · exact absurd hx hal
        · exact h
      apply StrictSorted.ext hl hm'.2
      have hp : l.Perm as := by
        apply List.Subperm.perm_of_length_le (List.subperm_of_subset hl.nodup hsub')
        simp at hlen; omega
      intro x
      exact hp.mem_iff

/-- `side_of` of an element -/
theorem sideOf_spec {n : Nat} (hn : 1 ≤ n) {f : Elem} {vf : Simplex} {k : Nat} (hd : f.dim = k)
    (hk : k + 1 ≤ n) (hc : f.corner.length = n) (hv : f.vertices n = some vf) :
    ∃ S, f.sideOf n = some S ∧ S.Nodup ∧
      ∀ e : Elem, e ∈ S ↔ e.corner.length = n ∧ e.dim = k + 1 ∧
        ∃ ve, e.vertices n = some ve ∧ DropsOne ve vf := by
  unfold Elem.vertices at hv
  split at hv
  · cases hv
  next s hs =>
    simp only [Option.some.injEq] at hv
    subst hv
    rw [hd] at hs
    have hK := unit_get hn (by omega) hs
    have hnt : 0 < ntypes n (k + 1) := by
      obtain ⟨t, i, ht, _⟩ := kuhn_extend (by omega) hK
      exact List.length_pos_of_mem ((mem_unitSimplices hn hk t).2 ht)
    -- the unit table
    have hz : s.map (translate (List.replicate n 0)) = s := by
      conv_rhs => rw [← List.map_id s]
      apply List.map_congr_left
      intro v hv
      exact translate_zero (hK.cube v hv).1
    unfold Elem.sideOf unitSideOf
    rw [hd, if_neg (by omega), hs]
    simp only [hz]
    generalize hl : List.map (⇑(ofLex (α := Nat × Vtx))) (toSet (List.map (⇑toLex) (List.filter _ _))) = l
    have hmem : ∀ t' c', (t', c') ∈ l ↔ VC n c' ∧ ∃ s', (unitSimplices n (k + 1))[t']? = some s' ∧
        ∀ x ∈ s, x ∈ s'.map (translate c') := by
      intro t' c'
      rw [← hl, List.mem_map]
      constructor
      · rintro ⟨a, ha, e⟩
        rw [mem_toSet, List.mem_map] at ha
        obtain ⟨⟨t1, c1⟩, h1, rfl⟩ := ha
        simp only [ofLex_toLex, Prod.mk.injEq] at e
        obtain ⟨rfl, rfl⟩ := e
        rw [List.mem_filter, mem_scan_all hnt] at h1
        obtain ⟨⟨h1, h2⟩, h3⟩ := h1
        refine ⟨h1, ?_⟩
        simp only at h3
        split at h3
        · cases h3
        next s' hs' =>
          refine ⟨s', hs', ?_⟩
          have hK' := unit_get hn hk hs'
          exact (includes_iff (chain_strict (hK'.translate_chain h1.1)) (chain_strict hK.chain)).1 h3
      · rintro ⟨h1, s', hs', h2⟩
        refine ⟨toLex (t', c'), ?_, rfl⟩
        rw [mem_toSet, List.mem_map]
        refine ⟨(t', c'), ?_, rfl⟩
        rw [List.mem_filter, mem_scan_all hnt]
        refine ⟨⟨h1, (List.getElem?_eq_some_iff.1 hs').1⟩, ?_⟩
        simp only [hs']
        have hK' := unit_get hn hk hs'
        exact (includes_iff (chain_strict (hK'.translate_chain h1.1)) (chain_strict hK.chain)).2 h2
    have hnd : l.Nodup := by
      rw [← hl]
      exact List.Nodup.map (fun a b h => ofLex.injective h) (toSet_sorted _).nodup
    refine ⟨_, rfl, ?_, ?_⟩
    · refine hnd.map_on ?_
      rintro ⟨t1, o1⟩ hx ⟨t2, o2⟩ hy hxy
      simp only [Elem.mk.injEq, true_and] at hxy
      have ho1 := ((hmem t1 o1).1 hx).1.1
      have ho2 := ((hmem t2 o2).1 hy).1.1
      rw [hxy.2, translate_inj hc ho1 ho2 hxy.1]
    · intro e
      rw [List.mem_map]
      constructor
      · rintro ⟨⟨t', c'⟩, hx, rfl⟩
        obtain ⟨hvc, s', hs', hsub⟩ := (hmem t' c').1 hx
        have hK' := unit_get hn hk hs'
        refine ⟨translate_length hc hvc.1, rfl, s'.map (translate (translate f.corner c')), ?_, ?_⟩
        · unfold Elem.vertices
          simp only
          rw [hs']
        · apply subset_dropsOne (chain_strict (hK'.translate_chain (translate_length hc hvc.1)))
            (chain_strict (hK.translate_chain hc))
          · simp [hK'.len, hK.len]
          · intro x hx
            obtain ⟨v, hv, rfl⟩ := List.mem_map.1 hx
            rw [map_translate_translate]
            exact List.mem_map.2 ⟨v, hsub v hv, rfl⟩
      · rintro ⟨hec, hed, ve, hve, i, hi, hdrop⟩
        unfold Elem.vertices at hve
        split at hve
        · cases hve
        next s' hs' =>
          rw [hed] at hs'
          simp only [Option.some.injEq] at hve
          subst hve
          have hK' := unit_get hn hk hs'
          -- offset
          have hlo : e.corner.length = f.corner.length := by rw [hec, hc]
          have hfe : f.corner ∈ s'.map (translate e.corner) := by
            have h1 := hK.translate_head hc
            have h2 : f.corner ∈ s.map (translate f.corner) := List.mem_of_mem_head? h1
            rw [hdrop] at h2
            exact List.mem_of_mem_eraseIdx h2
          obtain ⟨w, hw, hwe⟩ := List.mem_map.1 hfe
          have hwc := hK'.cube w hw
          have hvc : VC n (sub e.corner f.corner) := by
            refine ⟨by simp [sub, hec, hc], ?_⟩
            intro x hx
            obtain ⟨j, hj, rfl⟩ := List.mem_iff_getElem.1 hx
            have hjn : j < n := by simpa [sub, hec, hc] using hj
            have h01 := hwc.2 _ (List.getElem_mem (by rw [hwc.1]; exact hjn : j < w.length))
            have h3 : f.corner[j]'(by omega) = e.corner[j]'(by omega) + w[j]'(by rw [hwc.1]; exact hjn) := by
              simp [← hwe, translate]
            have h4 : (sub e.corner f.corner)[j] = e.corner[j]'(by omega) - f.corner[j]'(by omega) := by
              simp [sub]
            omega
          have hte : translate f.corner (sub e.corner f.corner) = e.corner := translate_sub hlo
          refine ⟨(e.type, sub e.corner f.corner), (hmem _ _).2 ⟨hvc, s', hs', ?_⟩, ?_⟩
          · intro x hx
            have h1 : translate f.corner x ∈ s'.map (translate e.corner) := by
              have : translate f.corner x ∈ s.map (translate f.corner) := List.mem_map.2 ⟨x, hx, rfl⟩
              rw [hdrop] at this
              exact List.mem_of_mem_eraseIdx this
            obtain ⟨y, hy, hye⟩ := List.mem_map.1 h1
            refine List.mem_map.2 ⟨y, hy, ?_⟩
            rw [← hte, translate_assoc] at hye
            exact translate_inj hc (translate_length hvc.1 (hK'.cube y hy).1) (hK.cube x hx).1 hye
          · cases e
            simp only [Elem.mk.injEq, and_true] at *
            exact ⟨hte, hed.symm⟩

end Verif.SRM
