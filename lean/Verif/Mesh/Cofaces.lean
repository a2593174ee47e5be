import Verif.Mesh.Props
import Mathlib.Data.List.GetD
/-! Every facet of Kuhn's triangulation of the lattice lies on exactly two cells. -/
namespace Verif.SRM

/-! ### coordinates -/

theorem vle_iff {u v : Vtx} : List.Forall₂ (· ≤ ·) u v ↔
    u.length = v.length ∧ ∀ j, u.getD j 0 ≤ v.getD j 0 := by
  constructor
  · intro h
    refine ⟨h.length_eq, fun j => ?_⟩
    induction h generalizing j with
    | nil => simp
    | cons hab _ ih => cases j with
      | zero => simpa using hab
      | succ j => simpa using ih j
  · rintro ⟨hl, h⟩
    induction u generalizing v with
    | nil => cases v with
      | nil => exact List.Forall₂.nil
      | cons => simp at hl
    | cons a as ih => cases v with
      | nil => simp at hl
      | cons b bs =>
        refine List.Forall₂.cons (by simpa using h 0) (ih (by simpa using hl) fun j => ?_)
        simpa using h (j + 1)

theorem ext_getD {u v : Vtx} (hl : u.length = v.length) (h : ∀ j, u.getD j 0 = v.getD j 0) : u = v := by
  apply List.ext_getElem hl
  intro j h1 h2
  have := h j
  rwa [List.getD_eq_getElem _ _ h1, List.getD_eq_getElem _ _ h2] at this

theorem cube_iff {n : Nat} {v : Vtx} : Cube n v ↔ v.length = n ∧ ∀ j, v.getD j 0 = 0 ∨ v.getD j 0 = 1 := by
  constructor
  · rintro ⟨hl, h⟩
    refine ⟨hl, fun j => ?_⟩
    by_cases hj : j < v.length
    · rw [List.getD_eq_getElem _ _ hj]; exact h _ (List.getElem_mem hj)
    · left; rw [List.getD_eq_default _ _ (by omega)]
  · rintro ⟨hl, h⟩
    refine ⟨hl, fun x hx => ?_⟩
    obtain ⟨j, hj, rfl⟩ := List.getElem_of_mem hx
    have := h j
    rwa [List.getD_eq_getElem _ _ hj] at this

theorem getD_translate {u v : Vtx} (hl : u.length = v.length) (j : Nat) :
    (translate u v).getD j 0 = u.getD j 0 + v.getD j 0 := by
  unfold translate
  by_cases hj : j < u.length
  · rw [List.getD_eq_getElem _ _ (by simp; omega), List.getD_eq_getElem _ _ hj,
      List.getD_eq_getElem _ _ (by omega)]
    simp
  · rw [List.getD_eq_default _ _ (by simp; omega), List.getD_eq_default _ _ (by omega),
      List.getD_eq_default _ _ (by omega)]
    rfl

theorem getD_sub {u v : Vtx} (hl : u.length = v.length) (j : Nat) :
    (sub u v).getD j 0 = u.getD j 0 - v.getD j 0 := by
  unfold sub
  by_cases hj : j < u.length
  · rw [List.getD_eq_getElem _ _ (by simp; omega), List.getD_eq_getElem _ _ hj,
      List.getD_eq_getElem _ _ (by omega)]
    simp
  · rw [List.getD_eq_default _ _ (by simp; omega), List.getD_eq_default _ _ (by omega),
      List.getD_eq_default _ _ (by omega)]
    rfl

theorem sub_length {n : Nat} {u v : Vtx} (hu : u.length = n) (hv : v.length = n) : (sub u v).length = n := by
  simp [sub, hu, hv]

theorem sum_sub {u v : Vtx} (hl : u.length = v.length) : (sub u v).sum = u.sum - v.sum := by
  unfold sub
  induction u generalizing v with
  | nil => cases v with
    | nil => simp
    | cons => simp at hl
  | cons a as ih => cases v with
    | nil => simp at hl
    | cons b bs =>
      have := ih (v := bs) (by simpa using hl)
      simp only [List.zipWith_cons_cons, List.sum_cons]
      omega

theorem sum_translate {u v : Vtx} (hl : u.length = v.length) : (translate u v).sum = u.sum + v.sum := by
  unfold translate
  induction u generalizing v with
  | nil => cases v with
    | nil => simp
    | cons => simp at hl
  | cons a as ih => cases v with
    | nil => simp at hl
    | cons b bs =>
      have := ih (v := bs) (by simpa using hl)
      simp only [List.zipWith_cons_cons, List.sum_cons]
      omega

theorem getD_ones (n j : Nat) : (List.replicate n (1 : Int)).getD j 0 = if j < n then 1 else 0 := by
  by_cases hj : j < n
  · rw [List.getD_eq_getElem _ _ (by simpa using hj)]; simp [hj]
  · rw [List.getD_eq_default _ _ (by simpa using hj)]; simp [hj]

/-! ### vertex lists of elements -/

/-- The vertex lists of the elements of dimension `k`: chains of lattice points within the unit cube
above the first one. -/
structure Cell (n k : Nat) (c : Vtx) (vs : Simplex) : Prop where
  len : vs.length = k + 1
  clen : c.length = n
  head : vs.head? = some c
  chain : vs.Pairwise VLt
  cube : ∀ v ∈ vs, v.length = n ∧ Cube n (sub v c)

theorem elem_ext {n : Nat} {e f : Elem} {vs : Simplex} (hn : 1 ≤ n) (hk : e.dim ≤ n) (hd : e.dim = f.dim)
    (he : e.corner.length = n) (hf : f.corner.length = n) (h1 : e.vertices n = some vs)
    (h2 : f.vertices n = some vs) : e = f := by
  obtain ⟨s, hs, e1⟩ := vertices_unit h1
  obtain ⟨t, ht, e2⟩ := vertices_unit h2
  have hc : e.corner = f.corner := by
    have a := (unit_get hn hk hs).translate_head he
    have b := (unit_get hn (hd ▸ hk) ht).translate_head hf
    rw [← e1] at a
    rw [← e2, a] at b
    exact Option.some.inj b
  have hst : s = t := by
    rw [e1, hc] at e2
    refine map_translate_inj hf ?_ ?_ e2
    · exact fun v hv => ((unit_get hn hk hs).cube v hv).1
    · exact fun v hv => ((unit_get hn (hd ▸ hk) ht).cube v hv).1
  have htt : e.type = f.type := by
    subst hst
    rw [← hd] at ht
    exact unit_inj hs ht
  cases e; cases f
  simp only at hc hd htt
  subst hc hd htt
  rfl

theorem cell_of_elem {n k : Nat} (hn : 1 ≤ n) (hk : k ≤ n) {e : Elem} {vs : Simplex} (hd : e.dim = k)
    (hc : e.corner.length = n) (hv : e.vertices n = some vs) : Cell n k e.corner vs := by
  obtain ⟨s, hs, rfl⟩ := vertices_unit hv
  rw [hd] at hs
  have hK := unit_get hn hk hs
  refine ⟨by simp [hK.len], hc, hK.translate_head hc, hK.translate_chain hc, ?_⟩
  intro v hv
  obtain ⟨u, hu, rfl⟩ := List.mem_map.1 hv
  have hul := (hK.cube u hu).1
  refine ⟨translate_length hc hul, ?_⟩
  rw [sub_translate (by omega)]
  exact hK.cube u hu

theorem elem_of_cell {n k : Nat} (hn : 1 ≤ n) (hk : k ≤ n) {c : Vtx} {vs : Simplex} (h : Cell n k c vs) :
    ∃ e : Elem, e.corner = c ∧ e.dim = k ∧ e.vertices n = some vs := by
  have hK : Kuhn n k (vs.map (fun v => sub v c)) := by
    refine ⟨by simp [h.len], ?_, ?_, ?_⟩
    · intro v hv
      obtain ⟨u, hu, rfl⟩ := List.mem_map.1 hv
      exact (h.cube u hu).2
    · rw [List.head?_map, h.head]
      simp [sub_self h.clen]
    · rw [List.pairwise_map]
      refine h.chain.imp_of_mem ?_
      intro a b ha hb hab
      exact vlt_sub hab (by rw [(h.cube a ha).1, h.clen]) (by rw [(h.cube b hb).1, h.clen])
  obtain ⟨t, ht, e⟩ := List.getElem_of_mem ((mem_unitSimplices hn hk _).2 hK)
  refine ⟨⟨c, k, t⟩, rfl, rfl, ?_⟩
  unfold Elem.vertices
  simp only [List.getElem?_eq_getElem ht, e]
  congr 1
  rw [List.map_map]
  conv_rhs => rw [← List.map_id vs]
  apply List.map_congr_left
  intro v hv
  exact translate_sub (by rw [(h.cube v hv).1, h.clen])

/-! ### heights -/

theorem chain_sum_lower : ∀ {vs : Simplex} {c : Vtx} (j : Nat) (v : Vtx), vs.Pairwise VLt → vs.head? = some c →
    vs[j]? = some v → c.sum + j ≤ v.sum := by
  intro vs c j
  induction j generalizing vs c with
  | zero =>
    intro v _ hh hv
    cases vs with
    | nil => simp at hv
    | cons a as => simp at hh hv; subst hh hv; simp
  | succ j ih =>
    intro v hp hh hv
    cases vs with
    | nil => simp at hv
    | cons a as =>
      simp only [List.head?_cons, Option.some.injEq] at hh
      subst hh
      rw [List.pairwise_cons] at hp
      cases as with
      | nil => simp at hv
      | cons b bs =>
        have h1 := ih v hp.2 rfl (by simpa using hv)
        have h2 := hp.1 b (by simp)
        have := vlt_sum h2.1 h2.2
        push_cast
        omega

theorem chain_sum_upper {vs : Simplex} (hp : vs.Pairwise VLt) {i j : Nat} {u v : Vtx} (hij : i ≤ j)
    (hu : vs[i]? = some u) (hv : vs[j]? = some v) : u.sum + (j - i : Nat) ≤ v.sum := by
  have h1 : (vs.drop i).Pairwise VLt := hp.drop
  exact chain_sum_lower (j - i) v h1 (by rw [List.head?_drop, hu]) (by
    rw [List.getElem?_drop]; rw [show i + (j - i) = j by omega]; exact hv)

/-- in a cell of full dimension every vertex is one higher than the one before -/
theorem Cell.height {n : Nat} {c : Vtx} {vs : Simplex} (h : Cell n n c vs) {j : Nat} {v : Vtx}
    (hv : vs[j]? = some v) : v.sum = c.sum + j := by
  have hj : j < n + 1 := by rw [← h.len]; exact (List.getElem?_eq_some_iff.1 hv).1
  have h1 := chain_sum_lower j v h.chain h.head hv
  have hl : n < vs.length := by rw [h.len]; omega
  have h2 := chain_sum_upper h.chain (by omega : j ≤ n) hv (List.getElem?_eq_getElem hl)
  have h3 := (h.cube _ (List.getElem_mem hl))
  have h4 := cube_sum_le h3.2
  rw [sum_sub (by rw [h3.1, h.clen])] at h4
  omega

/-- the last vertex of a cell of full dimension is the corner plus one in every direction -/
theorem Cell.last {n : Nat} {c : Vtx} {vs : Simplex} (h : Cell n n c vs) {v : Vtx} (hv : vs[n]? = some v) :
    v = translate c (List.replicate n 1) := by
  have h1 := h.height hv
  have h3 := h.cube _ (List.mem_of_getElem? hv)
  have h4 := cube_eq_ones h3.2 (by rw [sum_sub (by rw [h3.1, h.clen])]; omega)
  rw [← h4, translate_sub (by rw [h3.1, h.clen])]

theorem zero_of_sum_zero : ∀ {x : List Int}, (∀ j, x.getD j 0 = 0 ∨ x.getD j 0 = 1) → x.sum = 0 →
    (∀ j, x.getD j 0 = 0) ∧ 0 ≤ x.sum := by
  intro x
  induction x with
  | nil => intro _ _; simp
  | cons a as ih =>
    intro h hs
    have hnn : ∀ (l : List Int), (∀ j, l.getD j 0 = 0 ∨ l.getD j 0 = 1) → 0 ≤ l.sum := by
      intro l
      induction l with
      | nil => simp
      | cons b bs ihb =>
        intro hb
        have h0 := hb 0
        have := ihb (fun j => by simpa using hb (j + 1))
        simp at h0
        simp only [List.sum_cons]
        omega
    have h0 := h 0
    have h1 := hnn as (fun j => by simpa using h (j + 1))
    simp at h0
    simp only [List.sum_cons] at hs
    obtain ⟨h2, -⟩ := ih (fun j => by simpa using h (j + 1)) (by omega)
    refine ⟨fun j => ?_, by simp only [List.sum_cons]; omega⟩
    cases j with
    | zero => simp; omega
    | succ j => simpa using h2 j

/-- two 0/1 lists of sum 1 are equal or have no common 1 -/
theorem single_ones : ∀ {x y : List Int}, x.length = y.length → (∀ j, x.getD j 0 = 0 ∨ x.getD j 0 = 1) →
    (∀ j, y.getD j 0 = 0 ∨ y.getD j 0 = 1) → x.sum = 1 → y.sum = 1 →
    x = y ∨ ∀ j, x.getD j 0 = 0 ∨ y.getD j 0 = 0 := by
  intro x
  induction x with
  | nil => intro y _ _ _ h; simp at h
  | cons a as ih =>
    intro y hl hx hy sx sy
    cases y with
    | nil => simp at hl
    | cons b bs =>
      have ha := hx 0
      have hb := hy 0
      simp at ha hb
      have hx' : ∀ j, as.getD j 0 = 0 ∨ as.getD j 0 = 1 := fun j => by simpa using hx (j + 1)
      have hy' : ∀ j, bs.getD j 0 = 0 ∨ bs.getD j 0 = 1 := fun j => by simpa using hy (j + 1)
      simp only [List.sum_cons] at sx sy
      have hl' : as.length = bs.length := by simpa using hl
      rcases ha with rfl | rfl
      · rcases hb with rfl | rfl
        · rcases ih hl' hx' hy' (by omega) (by omega) with h | h
          · left; rw [h]
          · right
            intro j
            cases j with
            | zero => simp
            | succ j => simpa using h j
        · right
          intro j
          cases j with
          | zero => simp
          | succ j =>
            right
            simpa using (zero_of_sum_zero hy' (by omega)).1 j
      · rcases hb with rfl | rfl
        · right
          intro j
          cases j with
          | zero => simp
          | succ j =>
            left
            simpa using (zero_of_sum_zero hx' (by omega)).1 j
        · left
          have h1 := (zero_of_sum_zero hx' (by omega)).1
          have h2 := (zero_of_sum_zero hy' (by omega)).1
          rw [ext_getD hl' (fun j => by rw [h1, h2])]

/-- between two points two apart there are at most two points, each the reflection of the other -/
theorem middle_two {n : Nat} {u u' w w' : Vtx} (hu : u.length = n) (hw1 : List.Forall₂ (· ≤ ·) u w)
    (hw2 : List.Forall₂ (· ≤ ·) w u') (hw1' : List.Forall₂ (· ≤ ·) u w') (hw2' : List.Forall₂ (· ≤ ·) w' u')
    (hD : Cube n (sub u' u)) (s1 : w.sum = u.sum + 1) (s2 : w'.sum = u.sum + 1) (s3 : u'.sum = u.sum + 2)
    (hne : w ≠ w') : w' = sub (translate u u') w := by
  rw [vle_iff] at hw1 hw2 hw1' hw2'
  obtain ⟨l1, a1⟩ := hw1
  obtain ⟨l2, a2⟩ := hw2
  obtain ⟨l3, a3⟩ := hw1'
  obtain ⟨l4, a4⟩ := hw2'
  have hd : ∀ j, u'.getD j 0 - u.getD j 0 = 0 ∨ u'.getD j 0 - u.getD j 0 = 1 := by
    intro j
    have := (cube_iff.1 hD).2 j
    rwa [getD_sub (by omega)] at this
  have key := single_ones (x := sub w u) (y := sub w' u)
    (by rw [sub_length (n := n) (by omega) (by omega), sub_length (n := n) (by omega) (by omega)])
    (fun j => by
      rw [getD_sub (by omega)]
      have := a1 j; have := a2 j; have := hd j; omega)
    (fun j => by
      rw [getD_sub (by omega)]
      have := a3 j; have := a4 j; have := hd j; omega)
    (by rw [sum_sub (by omega)]; omega) (by rw [sum_sub (by omega)]; omega)
  rcases key with h | h
  · exfalso
    apply hne
    rw [← translate_sub (o := u) (v := w) (by omega), h, translate_sub (by omega)]
  · -- u + (w - u) + (w' - u) = u'
    have hle : List.Forall₂ (· ≤ ·) (translate w (sub w' u)) u' := by
      rw [vle_iff]
      refine ⟨by simp [translate, sub]; omega, fun j => ?_⟩
      rw [getD_translate (by simp [sub]; omega), getD_sub (by omega)]
      have := h j
      rw [getD_sub (by omega), getD_sub (by omega)] at this
      have := a1 j; have := a2 j; have := a3 j; have := a4 j; have := hd j
      omega
    have heq : translate w (sub w' u) = u' := by
      by_contra hc
      have := vlt_sum hle hc
      rw [sum_translate (by simp [sub]; omega), sum_sub (by omega)] at this
      omega
    apply ext_getD (by simp [sub, translate]; omega)
    intro j
    rw [getD_sub (by simp [translate]; omega), getD_translate (by omega), ← heq,
      getD_translate (by simp [sub]; omega), getD_sub (by omega)]
    omega


/-! ### the two cells of a facet -/

theorem dropsOne_iff {ve vf : Simplex} : DropsOne ve vf ↔ ∃ a w b, ve = a ++ w :: b ∧ vf = a ++ b := by
  constructor
  · rintro ⟨i, hi, rfl⟩
    refine ⟨ve.take i, ve[i], ve.drop (i + 1), ?_, ?_⟩
    · rw [List.getElem_cons_drop, List.take_append_drop]
    · rw [List.eraseIdx_eq_take_drop_succ]
  · rintro ⟨a, w, b, rfl, rfl⟩
    refine ⟨a.length, by simp, ?_⟩
    rw [List.eraseIdx_append_of_length_le (by simp)]
    simp

theorem get_left {a b : Simplex} {w : Vtx} {j : Nat} (hj : j < a.length) :
    (a ++ b)[j]? = (a ++ w :: b)[j]? := by
  rw [List.getElem?_append_left hj, List.getElem?_append_left hj]

theorem get_right {a b : Simplex} {w : Vtx} {j : Nat} (hj : a.length ≤ j) :
    (a ++ b)[j]? = (a ++ w :: b)[j + 1]? := by
  rw [List.getElem?_append_right hj, List.getElem?_append_right (by omega),
    show j + 1 - a.length = (j - a.length) + 1 by omega, List.getElem?_cons_succ]

theorem Cell.height_left {n : Nat} {c w v : Vtx} {a b : Simplex} (h : Cell n n c (a ++ w :: b)) {j : Nat}
    (hj : j < a.length) (hv : (a ++ b)[j]? = some v) : v.sum = c.sum + j :=
  h.height (by rw [← get_left (b := b) hj]; exact hv)

theorem Cell.height_right {n : Nat} {c w v : Vtx} {a b : Simplex} (h : Cell n n c (a ++ w :: b)) {j : Nat}
    (hj : a.length ≤ j) (hv : (a ++ b)[j]? = some v) : v.sum = c.sum + j + 1 := by
  have := h.height (j := j + 1) (v := v) (by rw [← get_right (b := b) hj]; exact hv)
  push_cast at this
  omega

/-- where the missing vertex of a facet can be: at one end or the other, or at one fixed inner place -/
theorem Cell.place {n : Nat} (hn : 1 ≤ n) {c c' w w' : Vtx} {a b a' b' : Simplex}
    (h : Cell n n c (a ++ w :: b)) (h' : Cell n n c' (a' ++ w' :: b')) (hf : a ++ b = a' ++ b') :
    a.length = a'.length ∨ (a.length = 0 ∧ a'.length = n) ∨ (a.length = n ∧ a'.length = 0) := by
  have key : ∀ {c c' w w' : Vtx} {a b a' b' : Simplex}, Cell n n c (a ++ w :: b) →
      Cell n n c' (a' ++ w' :: b') → a ++ b = a' ++ b' → a.length < a'.length → a.length = 0 ∧ a'.length = n := by
    intro c c' w w' a b a' b' h h' hf hlt
    have hl := h.len
    have hl' := h'.len
    simp only [List.length_append, List.length_cons] at hl hl'
    have hflen : (a ++ b).length = n := by rw [List.length_append]; omega
    by_cases h0 : a.length = 0
    · refine ⟨h0, ?_⟩
      by_contra hne
      have e0 : (a ++ b)[0]? = some (a ++ b)[0] := List.getElem?_eq_getElem (by omega)
      have e1 : (a ++ b)[a'.length]? = some ((a ++ b)[a'.length]'(by omega)) := List.getElem?_eq_getElem (by omega)
      have i0 := h.height_right (by omega) e0
      have i1 := h.height_right (by omega) e1
      have i0' := h'.height_left (j := 0) (by omega) (by rw [← hf]; exact e0)
      have i1' := h'.height_right (j := a'.length) (by omega) (by rw [← hf]; exact e1)
      push_cast at *
      omega
    · exfalso
      have e0 : (a ++ b)[0]? = some ((a ++ b)[0]'(by omega)) := List.getElem?_eq_getElem (by omega)
      have e1 : (a ++ b)[a.length]? = some ((a ++ b)[a.length]'(by omega)) := List.getElem?_eq_getElem (by omega)
      have i0 := h.height_left (by omega) e0
      have i1 := h.height_right (by omega) e1
      have i0' := h'.height_left (j := 0) (by omega) (by rw [← hf]; exact e0)
      have i1' := h'.height_left (j := a.length) (by omega) (by rw [← hf]; exact e1)
      omega
  rcases Nat.lt_trichotomy a.length a'.length with hlt | he | hlt
  · exact Or.inr (Or.inl (key h h' hf hlt))
  · exact Or.inl he
  · have := key h' h hf.symm hlt
    exact Or.inr (Or.inr ⟨this.2, this.1⟩)

theorem translate_ones_inj {n : Nat} {u v : Vtx} (hu : u.length = n) (hv : v.length = n)
    (h : translate u (List.replicate n 1) = translate v (List.replicate n 1)) : u = v := by
  apply ext_getD (by omega)
  intro j
  have := congrArg (fun l => l.getD j 0) h
  rw [getD_translate (by simp [hu]), getD_translate (by simp [hv])] at this
  omega

/-- two cells on a facet with the missing vertex at the same place -/
theorem Cell.same_place {n : Nat} (hn : 1 ≤ n) {c c' w w' : Vtx} {a b a' b' : Simplex}
    (h : Cell n n c (a ++ w :: b)) (h' : Cell n n c' (a' ++ w' :: b')) (hf : a ++ b = a' ++ b')
    (hl : a.length = a'.length) (hne : a ++ w :: b ≠ a' ++ w' :: b') :
    a' = a ∧ b' = b ∧ ∃ u u', a.getLast? = some u ∧ b.head? = some u' ∧ w' = sub (translate u u') w := by
  obtain ⟨rfl, rfl⟩ := List.append_inj hf hl
  refine ⟨rfl, rfl, ?_⟩
  have hww : w ≠ w' := fun e => hne (by rw [e])
  have hlen := h.len
  simp only [List.length_append, List.length_cons] at hlen
  rcases List.eq_nil_or_concat a with rfl | ⟨a0, u, rfl⟩
  · -- missing vertex first: the corners are determined by the last vertex
    exfalso
    simp only [List.nil_append] at h h' hlen
    have hcw : c = w := by have := h.head; simpa using this.symm
    have hcw' : c' = w' := by have := h'.head; simpa using this.symm
    subst hcw hcw'
    have hb : n - 1 < b.length := by simp at hlen; omega
    have e1 := h.last (v := b[n - 1]) (by
      rw [List.getElem?_cons, if_neg (by omega)]; exact List.getElem?_eq_getElem hb)
    have e2 := h'.last (v := b[n - 1]) (by
      rw [List.getElem?_cons, if_neg (by omega)]; exact List.getElem?_eq_getElem hb)
    exact hww (translate_ones_inj h.clen h'.clen (e1.symm.trans e2))
  · cases b with
    | nil =>
      exfalso
      simp only [List.concat_eq_append] at h h' hlen
      have hc : c = c' := by
        have h1 := h.head
        have h2 := h'.head
        rw [List.head?_append] at h1 h2
        cases a0 with
        | nil => simp at h1 h2; rw [← h1, h2]
        | cons x xs => simp at h1 h2; rw [← h1, h2]
      subst hc
      have hla : n = (a0 ++ [u]).length := by simpa using hlen.symm
      have e1 := h.last (v := w) (by rw [hla]; simp)
      have e2 := h'.last (v := w') (by rw [hla]; simp)
      exact hww (e1.trans e2.symm)
    | cons u' b0 =>
      refine ⟨u, u', by simp, rfl, ?_⟩
      simp only [List.concat_eq_append] at h h' hlen
      have hmem : ∀ (x : Vtx), x ∈ a0 ++ [u] ++ w :: u' :: b0 → x.length = n := fun x hx => (h.cube x hx).1
      have hp := h.chain
      have hp' := h'.chain
      rw [List.pairwise_append] at hp hp'
      have p1 : VLt u w := hp.2.2 u (by simp) w (by simp)
      have p2 : VLt w u' := (List.pairwise_cons.1 hp.2.1).1 u' (by simp)
      have p1' : VLt u w' := hp'.2.2 u (by simp) w' (by simp)
      have p2' : VLt w' u' := (List.pairwise_cons.1 hp'.2.1).1 u' (by simp)
      have ul : u.length = n := hmem u (by simp)
      have ul' : u'.length = n := hmem u' (by simp)
      have hu : u.sum = c.sum + a0.length := h.height (j := a0.length) (by simp)
      have hw : w.sum = c.sum + (a0.length + 1 : Nat) := h.height (j := a0.length + 1) (by simp)
      have hu' : u'.sum = c.sum + (a0.length + 2 : Nat) := h.height (j := a0.length + 2) (by
        rw [List.getElem?_append_right (by simp)]; simp)
      have hcc : c.sum = c'.sum := by
        have : u.sum = c'.sum + a0.length := h'.height (j := a0.length) (by simp)
        omega
      have hw' : w'.sum = c'.sum + (a0.length + 1 : Nat) := h'.height (j := a0.length + 1) (by simp)
      push_cast at hw hu' hw'
      refine middle_two ul p1.1 p2.1 p1'.1 p2'.1 ?_ (by omega) (by omega) (by omega) hww
      -- u' - u is 0/1
      rw [cube_iff]
      refine ⟨sub_length ul' ul, fun j => ?_⟩
      rw [getD_sub (by omega)]
      have c1 := (cube_iff.1 (h.cube u (by simp)).2).2 j
      have c2 := (cube_iff.1 (h.cube u' (by simp)).2).2 j
      rw [getD_sub (by rw [ul, h.clen])] at c1
      rw [getD_sub (by rw [ul', h.clen])] at c2
      have := (vle_iff.1 (p1.trans p2).1).2 j
      omega

/-- at most two cells on a facet -/
theorem Cell.at_most_two {n : Nat} (hn : 1 ≤ n) {f v1 v2 v3 : Simplex} {c1 c2 c3 : Vtx}
    (h1 : Cell n n c1 v1) (h2 : Cell n n c2 v2) (h3 : Cell n n c3 v3)
    (d1 : DropsOne v1 f) (d2 : DropsOne v2 f) (d3 : DropsOne v3 f) : v1 = v2 ∨ v1 = v3 ∨ v2 = v3 := by
  by_contra hne
  push Not at hne
  obtain ⟨n12, n13, n23⟩ := hne
  obtain ⟨a1, w1, b1, rfl, rfl⟩ := dropsOne_iff.1 d1
  obtain ⟨a2, w2, b2, rfl, e2⟩ := dropsOne_iff.1 d2
  obtain ⟨a3, w3, b3, rfl, e3⟩ := dropsOne_iff.1 d3
  have p12 := h1.place hn h2 e2
  have p13 := h1.place hn h3 e3
  have p23 := h2.place hn h3 (e2.symm.trans e3)
  by_cases q12 : a1.length = a2.length
  · obtain ⟨r1, r2, u, u', r3, r4, r5⟩ := h1.same_place hn h2 e2 q12 n12
    by_cases q13 : a1.length = a3.length
    · obtain ⟨s1, s2, x, x', s3, s4, s5⟩ := h1.same_place hn h3 e3 q13 n13
      rw [r3] at s3; rw [r4] at s4
      cases s3; cases s4
      exact n23 (by rw [r1, r2, s1, s2, r5, s5])
    · -- a3 at the other end, a1 at an end, but then no middle
      have hlen := h1.len
      simp only [List.length_append, List.length_cons] at hlen
      rcases p13 with p | ⟨p, _⟩ | ⟨p, _⟩
      · exact q13 p
      · have : a1 = [] := by simpa using p
        rw [this] at r3; simp at r3
      · have : b1 = [] := by
          have : b1.length = 0 := by omega
          simpa using this
        rw [this] at r4; simp at r4
  · by_cases q13 : a1.length = a3.length
    · obtain ⟨s1, s2, x, x', s3, s4, s5⟩ := h1.same_place hn h3 e3 q13 n13
      have hlen := h1.len
      simp only [List.length_append, List.length_cons] at hlen
      rcases p12 with p | ⟨p, _⟩ | ⟨p, _⟩
      · exact q12 p
      · have : a1 = [] := by simpa using p
        rw [this] at s3; simp at s3
      · have : b1 = [] := by
          have : b1.length = 0 := by omega
          simpa using this
        rw [this] at s4; simp at s4
    · have q23 : a2.length = a3.length := by omega
      obtain ⟨s1, s2, x, x', s3, s4, s5⟩ := h2.same_place hn h3 (e2.symm.trans e3) q23 n23
      have hlen := h2.len
      simp only [List.length_append, List.length_cons] at hlen
      rcases p12 with p | ⟨_, p⟩ | ⟨_, p⟩
      · exact q12 p
      · have : b2 = [] := by
          have : b2.length = 0 := by omega
          simpa using this
        rw [this] at s4; simp at s4
      · have : a2 = [] := by simpa using p
        rw [this] at s3; simp at s3

/-- the other cell on a facet (Freudenthal's pivot) -/
theorem Cell.pivot {n : Nat} (hn : 1 ≤ n) {c w : Vtx} {a b : Simplex} (h : Cell n n c (a ++ w :: b)) :
    ∃ c' v, Cell n n c' v ∧ DropsOne v (a ++ b) ∧ v ≠ a ++ w :: b := by
  have hlen := h.len
  simp only [List.length_append, List.length_cons] at hlen
  have hcub : ∀ v ∈ a ++ w :: b, ∀ j, v.getD j 0 - c.getD j 0 = 0 ∨ v.getD j 0 - c.getD j 0 = 1 := by
    intro v hv j
    have := (cube_iff.1 (h.cube v hv).2).2 j
    rwa [getD_sub (by rw [(h.cube v hv).1, h.clen])] at this
  have hvl : ∀ v ∈ a ++ w :: b, v.length = n := fun v hv => (h.cube v hv).1
  have hend : ∀ v : Vtx, v.length = n → ∀ j, n ≤ j → v.getD j 0 = 0 := by
    intro v hv j hj; exact List.getD_eq_default _ _ (by omega)
  rcases List.eq_nil_or_concat a with rfl | ⟨a0, u, rfl⟩
  · simp only [List.nil_append] at *
    have hcw : c = w := by have := h.head; simpa using this.symm
    subst hcw
    cases b with
    | nil => simp at hlen; omega
    | cons u b0 =>
      have hpc := List.pairwise_cons.1 h.chain
      have hpu := List.pairwise_cons.1 hpc.2
      have ul := hvl u (by simp)
      have hule : ∀ v ∈ u :: b0, ∀ j, u.getD j 0 ≤ v.getD j 0 := by
        intro v hv j
        rcases List.mem_cons.1 hv with rfl | hv
        · exact Int.le_refl _
        · exact (vle_iff.1 (hpu.1 v hv).1).2 j
      have hvsum : ∀ v ∈ u :: b0, v.sum ≤ c.sum + n := by
        intro v hv
        have hv' := h.cube v (by simp at hv ⊢; tauto)
        have := cube_sum_le hv'.2
        rw [sum_sub (by rw [hv'.1, h.clen])] at this
        omega
      have husum : u.sum = c.sum + (1 : Nat) := h.height (j := 1) (by simp)
      refine ⟨u, (u :: b0) ++ [translate u (List.replicate n 1)], ⟨by simp at hlen ⊢; omega, ul, by simp, ?_, ?_⟩, ?_, ?_⟩
      · rw [List.pairwise_append]
        refine ⟨hpc.2, by simp, ?_⟩
        intro v hv x hx
        simp only [List.mem_singleton] at hx
        subst hx
        have hvl' := hvl v (by simp at hv ⊢; tauto)
        refine ⟨vle_iff.2 ⟨by rw [translate_length ul (by simp)]; exact hvl', fun j => ?_⟩, ?_⟩
        · rw [getD_translate (by simp [ul]), getD_ones]
          have h1 := hcub v (by simp at hv ⊢; tauto) j
          have h2 := (vle_iff.1 (hpc.1 u (by simp)).1).2 j
          split
          · omega
          · rw [hend v hvl' j (by omega), hend u ul j (by omega)]; rfl
        · intro e
          have hs := hvsum v hv
          rw [e, sum_translate (by simp [ul])] at hs
          simp at hs
          push_cast at husum
          omega
      · intro v hv
        rcases List.mem_append.1 hv with hv | hv
        · have hvl' := hvl v (by simp at hv ⊢; tauto)
          refine ⟨hvl', cube_iff.2 ⟨sub_length hvl' ul, fun j => ?_⟩⟩
          rw [getD_sub (by omega)]
          have h1 := hcub v (by simp at hv ⊢; tauto) j
          have h2 := (vle_iff.1 (hpc.1 u (by simp)).1).2 j
          have h3 := hule v hv j
          omega
        · simp only [List.mem_singleton] at hv
          subst hv
          refine ⟨translate_length ul (by simp), ?_⟩
          rw [sub_translate (by simp [ul])]
          exact cube_ones n
      · exact dropsOne_iff.2 ⟨u :: b0, _, [], rfl, by simp⟩
      · intro e
        have := congrArg List.head? e
        simp at this
        rw [this] at husum
        push_cast at husum
        omega
  · simp only [List.concat_eq_append] at *
    have ul := hvl u (by simp)
    cases b with
    | nil =>
      have hca : (a0 ++ [u]).head? = some c := by
        have := h.head
        rw [List.head?_append] at this
        cases a0 with
        | nil => simpa using this
        | cons x xs => simpa using this
      have hpc := (List.pairwise_append.1 h.chain).1
      have hule : ∀ v ∈ a0 ++ [u], ∀ j, v.getD j 0 ≤ u.getD j 0 := by
        intro v hv j
        rcases List.mem_append.1 hv with hv | hv
        · exact (vle_iff.1 ((List.pairwise_append.1 hpc).2.2 v hv u (by simp)).1).2 j
        · simp at hv; subst hv; exact Int.le_refl _
      have hlu : a0.length + 1 = n := by simp at hlen; omega
      have husum : u.sum = c.sum + a0.length := h.height (j := a0.length) (by simp)
      have hmem : ∀ v ∈ a0 ++ [u], v ∈ a0 ++ [u] ++ [w] := by
        intro v hv; simp at hv ⊢; tauto
      have hsum : ∀ v ∈ a0 ++ [u], c.sum ≤ v.sum := by
        intro v hv
        obtain ⟨j, hj, rfl⟩ := List.getElem_of_mem hv
        have := chain_sum_lower j _ hpc hca (List.getElem?_eq_getElem hj)
        omega
      have hxl : (sub u (List.replicate n 1)).length = n := sub_length ul (by simp)
      have hxs : (sub u (List.replicate n 1)).sum = u.sum - n := by
        rw [sum_sub (by simp [ul])]; simp
      refine ⟨sub u (List.replicate n 1), sub u (List.replicate n 1) :: (a0 ++ [u]),
        ⟨by simp; omega, hxl, by simp, ?_, ?_⟩, ?_, ?_⟩
      · rw [List.pairwise_cons]
        refine ⟨fun v hv => ?_, hpc⟩
        have hvl' := hvl v (hmem v hv)
        refine ⟨vle_iff.2 ⟨by omega, fun j => ?_⟩, ?_⟩
        · rw [getD_sub (by simp [ul]), getD_ones]
          have h1 := hcub v (hmem v hv) j
          have h2 := hcub u (by simp) j
          split
          · omega
          · rw [hend v hvl' j (by omega), hend u ul j (by omega)]; rfl
        · intro e
          have hs := hsum v hv
          rw [← e, hxs] at hs
          omega
      · intro v hv
        rcases List.mem_cons.1 hv with rfl | hv
        · exact ⟨hxl, by rw [sub_self hxl]; exact ⟨by simp, fun x hx => Or.inl (List.eq_of_mem_replicate hx)⟩⟩
        · have hvl' := hvl v (hmem v hv)
          refine ⟨hvl', cube_iff.2 ⟨sub_length hvl' hxl, fun j => ?_⟩⟩
          rw [getD_sub (by omega), getD_sub (by simp [ul]), getD_ones]
          have h1 := hcub v (hmem v hv) j
          have h2 := hcub u (by simp) j
          have h3 := hule v hv j
          split
          · omega
          · left; rw [hend v hvl' j (by omega), hend u ul j (by omega)]; rfl
      · exact dropsOne_iff.2 ⟨[], _, a0 ++ [u], rfl, by simp⟩
      · intro e
        have := congrArg List.head? e
        rw [List.head?_append, hca] at this
        simp at this
        have hs := hxs
        rw [this] at hs
        omega
    | cons u' b0 =>
      have hp := h.chain
      rw [List.pairwise_append] at hp
      have hpb := List.pairwise_cons.1 hp.2.1
      have p1 : VLt u w := hp.2.2 u (by simp) w (by simp)
      have p2 : VLt w u' := hpb.1 u' (by simp)
      have wl := hvl w (by simp)
      have ul' := hvl u' (by simp)
      have htl : (translate u u').length = n := translate_length ul ul'
      have hxl : (sub (translate u u') w).length = n := sub_length htl wl
      have hx : ∀ j, (sub (translate u u') w).getD j 0 = u.getD j 0 + u'.getD j 0 - w.getD j 0 := by
        intro j; rw [getD_sub (by omega), getD_translate (by omega)]
      have q1 := (vle_iff.1 p1.1).2
      have q2 := (vle_iff.1 p2.1).2
      have v1 : VLt u (sub (translate u u') w) := by
        refine ⟨vle_iff.2 ⟨by omega, fun j => ?_⟩, fun e => p2.2 ?_⟩
        · rw [hx]; have := q2 j; omega
        · apply ext_getD (by omega)
          intro j
          have := congrArg (fun l => l.getD j 0) e
          rw [hx] at this
          omega
      have v2 : VLt (sub (translate u u') w) u' := by
        refine ⟨vle_iff.2 ⟨by omega, fun j => ?_⟩, fun e => p1.2 ?_⟩
        · rw [hx]; have := q1 j; omega
        · apply ext_getD (by omega)
          intro j
          have := congrArg (fun l => l.getD j 0) e
          rw [hx] at this
          omega
      have hin : ∀ v, v ∈ a0 ++ [u] ++ (sub (translate u u') w) :: u' :: b0 →
          v = sub (translate u u') w ∨ v ∈ a0 ++ [u] ++ w :: u' :: b0 := by
        intro v hv
        simp at hv ⊢
        tauto
      refine ⟨c, (a0 ++ [u]) ++ (sub (translate u u') w) :: (u' :: b0), ⟨?_, h.clen, ?_, ?_, ?_⟩, ?_, ?_⟩
      · simp at hlen ⊢; omega
      · have := h.head
        rw [List.head?_append] at this ⊢
        cases a0 with
        | nil => simpa using this
        | cons x xs => simpa using this
      · apply insert_chain
        · rw [List.pairwise_append]
          refine ⟨hp.1, hpb.2, ?_⟩
          intro x hx y hy
          exact hp.2.2 x hx y (by simp at hy ⊢; tauto)
        · intro v hv
          rcases List.mem_append.1 hv with hv | hv
          · exact ((List.pairwise_append.1 hp.1).2.2 v hv u (by simp)).trans v1
          · simp at hv; subst hv; exact v1
        · intro v hv
          rcases List.mem_cons.1 hv with rfl | hv
          · exact v2
          · exact v2.trans ((List.pairwise_cons.1 hpb.2).1 v hv)
      · intro v hv
        rcases hin v hv with rfl | hv
        · refine ⟨hxl, cube_iff.2 ⟨sub_length hxl h.clen, fun j => ?_⟩⟩
          rw [getD_sub (by rw [hxl, h.clen]), hx]
          have h1 := hcub u (by simp) j
          have h2 := hcub u' (by simp) j
          have := q1 j; have := q2 j
          omega
        · exact h.cube v hv
      · exact dropsOne_iff.2 ⟨a0 ++ [u], _, u' :: b0, rfl, rfl⟩
      · intro e
        have e' : sub (translate u u') w = w := by
          have := List.append_cancel_left e
          exact (List.cons.inj this).1
        apply (p1.trans p2).2
        apply ext_getD (by omega)
        intro j
        have h0 := congrArg (fun l => l.getD j 0) e'
        rw [hx] at h0
        have h1 := hcub u (by simp) j
        have h2 := hcub u' (by simp) j
        have := q1 j; have := q2 j
        omega

/-- C14: every facet (element of dimension `n-1`) of the space-time mesh is a side of exactly two
cells. -/
theorem C14_facet_has_two_cofaces (n : Nat) (hn : 1 ≤ n) (f : Elem) (hd : f.dim + 1 = n)
    (hc : f.corner.length = n) (ht : f.type < ntypes n f.dim) :
    ∃ a b, a ≠ b ∧ f.sideOf n = some [a, b] := by
  obtain ⟨vf, hvf⟩ := vertices_exists ht
  obtain ⟨S, hS, hnd, hmem⟩ := sideOf_spec hn (rfl : f.dim = f.dim) (by omega) hc hvf
  -- one coface
  obtain ⟨s, hs, hvs⟩ := vertices_unit hvf
  obtain ⟨t, i, hK, -, hi, he⟩ := kuhn_extend (by omega) (unit_get hn (by omega) hs)
  obtain ⟨tt, htt, hte⟩ := List.getElem_of_mem ((mem_unitSimplices hn (by omega) _).2 hK)
  have hA : (⟨f.corner, f.dim + 1, tt⟩ : Elem) ∈ S := by
    refine (hmem _).2 ⟨hc, rfl, t.map (translate f.corner), ?_, i, by simpa using hi, ?_⟩
    · unfold Elem.vertices
      simp only [List.getElem?_eq_getElem htt, hte]
    · rw [hvs, ← he, List.eraseIdx_map]
  have toCell : ∀ e ∈ S, ∃ ve, e.vertices n = some ve ∧ DropsOne ve vf ∧ e.corner.length = n ∧ e.dim = n ∧
      Cell n n e.corner ve := by
    intro e he
    obtain ⟨h1, h2, ve, h3, h4⟩ := (hmem e).1 he
    exact ⟨ve, h3, h4, h1, by omega, cell_of_elem hn le_rfl (by omega) h1 h3⟩
  -- another one
  obtain ⟨va, ha1, ha2, ha3, ha4, hca⟩ := toCell _ hA
  obtain ⟨a, w, b, rfl, rfl⟩ := dropsOne_iff.1 ha2
  obtain ⟨c', v, hcell, hdr, hne⟩ := hca.pivot hn
  obtain ⟨e', e1, e2, e3⟩ := elem_of_cell hn le_rfl hcell
  have hB : e' ∈ S := (hmem _).2 ⟨by rw [e1]; exact hcell.clen, by omega, v, e3, hdr⟩
  have hAB : (⟨f.corner, f.dim + 1, tt⟩ : Elem) ≠ e' := by
    intro e
    rw [e, e3] at ha1
    exact hne (Option.some.inj ha1)
  -- no third
  have h3 : ∀ x ∈ S, ∀ y ∈ S, ∀ z ∈ S, x = y ∨ x = z ∨ y = z := by
    intro x hx y hy z hz
    obtain ⟨vx, x1, x2, x3, x4, x5⟩ := toCell x hx
    obtain ⟨vy, y1, y2, y3, y4, y5⟩ := toCell y hy
    obtain ⟨vz, z1, z2, z3, z4, z5⟩ := toCell z hz
    rcases Cell.at_most_two hn x5 y5 z5 x2 y2 z2 with h | h | h
    · left; subst h; exact elem_ext hn (by omega) (by omega) x3 y3 x1 y1
    · right; left; subst h; exact elem_ext hn (by omega) (by omega) x3 z3 x1 z1
    · right; right; subst h; exact elem_ext hn (by omega) (by omega) y3 z3 y1 z1
  match S, hnd, hA, hB, h3, hS with
  | [], _, hA, _, _, _ => simp at hA
  | [x], _, hA, hB, _, _ => simp at hA hB; exact absurd (hA.trans hB.symm) hAB
  | [x, y], hnd, _, _, _, hS => exact ⟨x, y, by simpa using hnd, hS⟩
  | x :: y :: z :: r, hnd, _, _, h3, _ =>
    exfalso
    simp only [List.nodup_cons, List.mem_cons, not_or] at hnd
    rcases h3 x (by simp) y (by simp) z (by simp) with h | h | h
    · exact hnd.1.1 h
    · exact hnd.1.2.1 h
    · exact hnd.2.1.1 h

example : Elem.sideOf 3 ⟨[3, 6, 2], 2, 1⟩ = some [⟨[3, 6, 2], 3, 1⟩, ⟨[3, 5, 2], 3, 2⟩] := by decide +kernel

end Verif.SRM
