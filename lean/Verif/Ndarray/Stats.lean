import Verif.Ndarray.Lemmas
import Mathlib.Algebra.Order.Group.Abs
import Mathlib.Algebra.Order.Ring.Rat
import Mathlib.Algebra.Order.Ring.Int
/-! C42 (min_max, maxabs, resolution, clamp) and C68 (element-wise arithmetic) of `ndarray`. -/
namespace Verif.ND
variable {T : Type}

/-- A loop reading `p[0..n)` in bounds is a fold over the data. -/
theorem foldlM_read {R : Type} (g : R → T → R) (p : List T) (r : R) :
    (List.range p.length).foldlM (fun r i => (p[i]?).map fun x => g r x) r = some (p.foldl g r) := by
  have key : ∀ k ≤ p.length, (List.range k).foldlM (fun r i => (p[i]?).map fun x => g r x) r =
      some ((p.take k).foldl g r) := by
    intro k
    induction k with
    | zero => intro _; simp
    | succ k ih =>
      intro hk
      rw [List.range_succ, List.foldlM_append, ih (by omega)]
      have hk' : k < p.length := by omega
      simp only [Option.bind_eq_bind, Option.bind_some, List.foldlM_cons, List.foldlM_nil,
        List.getElem?_eq_getElem hk', Option.map_some]
      rw [List.take_add_one, List.getElem?_eq_getElem hk', List.foldl_append]
      rfl
  simpa using key p.length (le_refl _)

section Order
variable [LinearOrder T]

theorem minmax_fold (p : List T) (m : T × T) (x : T) :
    (x ∈ p → (p.foldl (fun (m : T × T) x => (min m.1 x, max m.2 x)) m).1 ≤ x ∧
      x ≤ (p.foldl (fun (m : T × T) x => (min m.1 x, max m.2 x)) m).2) ∧
    (p.foldl (fun (m : T × T) x => (min m.1 x, max m.2 x)) m).1 ≤ m.1 ∧
    m.2 ≤ (p.foldl (fun (m : T × T) x => (min m.1 x, max m.2 x)) m).2 ∧
    ((p.foldl (fun (m : T × T) x => (min m.1 x, max m.2 x)) m).1 = m.1 ∨
      (p.foldl (fun (m : T × T) x => (min m.1 x, max m.2 x)) m).1 ∈ p) ∧
    ((p.foldl (fun (m : T × T) x => (min m.1 x, max m.2 x)) m).2 = m.2 ∨
      (p.foldl (fun (m : T × T) x => (min m.1 x, max m.2 x)) m).2 ∈ p) := by
  induction p generalizing m with
  | nil => simp
  | cons a p ih =>
    obtain ⟨h1, h2, h3, h4, h5⟩ := ih (min m.1 a, max m.2 a)
    rw [List.foldl_cons]
    simp only at h2 h3 h4 h5
    refine ⟨?_, le_trans h2 (min_le_left _ _), le_trans (le_max_left _ _) h3, ?_, ?_⟩
    · intro hx
      rcases List.mem_cons.1 hx with rfl | hx
      · exact ⟨le_trans h2 (min_le_right _ _), le_trans (le_max_right _ _) h3⟩
      · exact h1 hx
    · rcases h4 with h4 | h4
      · rcases min_choice m.1 a with h | h
        · exact Or.inl (h4.trans h)
        · exact Or.inr (by rw [h4, h]; simp)
      · exact Or.inr (by simp [h4])
    · rcases h5 with h5 | h5
      · rcases max_choice m.2 a with h | h
        · exact Or.inl (h5.trans h)
        · exact Or.inr (by rw [h5, h]; simp)
      · exact Or.inr (by simp [h5])

theorem minMax_eq (tmax tmin : T) (a : Nd T) (h : Shaped a) :
    a.minMax tmax tmin = some (a.p.foldl (fun (m : T × T) x => (min m.1 x, max m.2 x)) (tmax, tmin)) := by
  unfold Nd.minMax
  rw [h.nelem, ← h.len]
  exact foldlM_read (fun (m : T × T) x => (min m.1 x, max m.2 x)) a.p (tmax, tmin)

/-- **C42 (partial: needs `numeric_limits<T>::min()` to be the least value, i.e. integral `T`).** On a nonempty array
whose elements lie between the limits, `min_max()` returns two elements of the array that bound all elements. -/
theorem C42_min_max_partial (tmax tmin : T) (a : Nd T) (h : Shaped a) (hne : a.nelem ≠ 0)
    (hlim : ∀ x ∈ a.p, tmin ≤ x ∧ x ≤ tmax) :
    ∃ lo hi, a.minMax tmax tmin = some (lo, hi) ∧ lo ∈ a.p ∧ hi ∈ a.p ∧ ∀ x ∈ a.p, lo ≤ x ∧ x ≤ hi := by
  refine ⟨_, _, minMax_eq tmax tmin a h, ?_⟩
  have hp : a.p ≠ [] := by
    intro he; apply hne; rw [h.nelem, ← h.len, he]; rfl
  obtain ⟨y, hy⟩ := List.exists_mem_of_ne_nil _ hp
  obtain ⟨h1, h2, h3, h4, h5⟩ := minmax_fold a.p (tmax, tmin) y
  refine ⟨?_, ?_, fun x hx => (minmax_fold a.p (tmax, tmin) x).1 hx⟩
  · rcases h4 with h4 | h4
    · have : y = tmax := le_antisymm (hlim y hy).2 (by rw [← show _ = tmax from h4]; exact (h1 hy).1)
      rw [h4]; show tmax ∈ a.p; rw [← this]; exact hy
    · exact h4
  · rcases h5 with h5 | h5
    · have : y = tmin := le_antisymm (by rw [← show _ = tmin from h5]; exact (h1 hy).2) (hlim y hy).1
      rw [h5]; show tmin ∈ a.p; rw [← this]; exact hy
    · exact h5

/-- **C42 (the minimum is right for every `T`).** Whatever `numeric_limits<T>::min()` is, the first component is the
least element, and the second is the greatest of the elements and `numeric_limits<T>::min()`. -/
theorem C42_min_max_any (tmax tmin : T) (a : Nd T) (h : Shaped a) (hne : a.nelem ≠ 0) (hlim : ∀ x ∈ a.p, x ≤ tmax) :
    ∃ lo hi, a.minMax tmax tmin = some (lo, hi) ∧ (lo ∈ a.p ∧ ∀ x ∈ a.p, lo ≤ x) ∧
      (hi = tmin ∨ hi ∈ a.p) ∧ tmin ≤ hi ∧ ∀ x ∈ a.p, x ≤ hi := by
  refine ⟨_, _, minMax_eq tmax tmin a h, ⟨?_, fun x hx => ((minmax_fold a.p (tmax, tmin) x).1 hx).1⟩, ?_⟩
  · have hp : a.p ≠ [] := by
      intro he; apply hne; rw [h.nelem, ← h.len, he]; rfl
    obtain ⟨y, hy⟩ := List.exists_mem_of_ne_nil _ hp
    obtain ⟨h1, h2, h3, h4, h5⟩ := minmax_fold a.p (tmax, tmin) y
    rcases h4 with h4 | h4
    · have : y = tmax := le_antisymm (hlim y hy) (by rw [← show _ = tmax from h4]; exact (h1 hy).1)
      rw [h4]; show tmax ∈ a.p; rw [← this]; exact hy
    · exact h4
  · obtain ⟨h1, h2, h3, h4, h5⟩ := minmax_fold a.p (tmax, tmin) tmin
    exact ⟨h5, h3, fun x hx => ((minmax_fold a.p (tmax, tmin) x).1 hx).2⟩

/-- **C42 (finding).** When `numeric_limits<T>::min()` is greater than every element, as for floating-point arrays of
negative numbers, the reported maximum is that limit and not an element of the array. -/
theorem C42_max_of_negative_floats (tmax tmin : T) (a : Nd T) (h : Shaped a) (hneg : ∀ x ∈ a.p, x < tmin) :
    ∃ lo hi, a.minMax tmax tmin = some (lo, hi) ∧ hi = tmin ∧ hi ∉ a.p := by
  refine ⟨_, _, minMax_eq tmax tmin a h, ?_⟩
  obtain ⟨-, -, h3, -, h5⟩ := minmax_fold a.p (tmax, tmin) tmin
  rcases h5 with h5 | h5
  · refine ⟨h5, ?_⟩
    rw [h5]
    exact fun hm => lt_irrefl _ (hneg _ hm)
  · exact absurd (hneg _ h5) (not_lt.2 h3)

/-- A two-element float array of negative numbers: the code reports a positive maximum. -/
example : ({ dims := [2], s := [1], p := [-3, -1] } : Nd ℚ).minMax 1000 (1 / 1000) = some (-3, 1 / 1000) := by
  decide +kernel

example : ({ dims := [2], s := [1], p := [-3, -1] } : Nd ℤ).minMax 2147483647 (-2147483648) = some (-3, -1) := by
  decide +kernel

/-- **C42 (clamp).** `clamp(lo, hi)` with `lo ≤ hi` keeps the shape and replaces each element by the nearest value in
`[lo, hi]`. -/
theorem C42_clamp (lo hi : T) (hle : lo ≤ hi) (a : Nd T) (h : Shaped a) :
    ∃ b, a.clamp lo hi = some b ∧ Shaped b ∧ b.dims = a.dims ∧ b.ncd = a.ncd ∧ b.tv = a.tv ∧
      ∀ (k : Nat) (x : T), a.p[k]? = some x → ∃ y, b.p[k]? = some y ∧ lo ≤ y ∧ y ≤ hi ∧
        (lo ≤ x → x ≤ hi → y = x) ∧ (x < lo → y = lo) ∧ (hi < x → y = hi) := by
  have hn : a.nelem = a.p.length := by rw [h.nelem, h.len]
  obtain ⟨b, h0, h1, h2, h3, h4, h5, h6⟩ := fillFrom_eq (fun i => (a.p[i]?).map fun x => clampVal x lo hi) a.nelem a
    (by rw [hn]) (fun i hi => by
      rw [List.getElem?_eq_getElem (by omega)]; rfl)
  refine ⟨b, h0, h.congr h1 h2 h5, h1, h3, h4, ?_⟩
  intro k x hx
  have hk : k < a.p.length := by
    by_contra hc; rw [List.getElem?_eq_none (by omega)] at hx; cases hx
  refine ⟨clampVal x lo hi, by rw [h6, if_pos (by omega), hx]; rfl, ?_⟩
  unfold clampVal
  refine ⟨le_min (le_max_left _ _) hle, min_le_right _ _, ?_, ?_, ?_⟩
  · intro h1 h2; rw [max_eq_right h1, min_eq_left h2]
  · intro h1; rw [max_eq_left h1.le, min_eq_left hle]
  · intro h1; rw [max_eq_right (hle.trans h1.le), min_eq_right h1.le]

end Order

section Abs
variable [LinearOrder T] [AddCommGroup T] [IsOrderedAddMonoid T]

/-- **C42 (maxabs).** `maxabs()` of a nonempty array is the greatest absolute value, attained by some element. -/
theorem C42_maxabs (a : Nd T) (h : Shaped a) (hne : a.nelem ≠ 0) :
    ∃ r, a.maxabs = some r ∧ (∃ x ∈ a.p, r = |x|) ∧ ∀ x ∈ a.p, |x| ≤ r := by
  have he : a.maxabs = some (a.p.foldl (fun r x => max r |x|) 0) := by
    unfold Nd.maxabs
    rw [h.nelem, ← h.len]
    exact foldlM_read (fun r x => max r |x|) a.p 0
  have hp : a.p ≠ [] := by
    intro he; apply hne; rw [h.nelem, ← h.len, he]; rfl
  have key : ∀ (p : List T) (r : T), (∀ x ∈ p, |x| ≤ p.foldl (fun r x => max r |x|) r) ∧
      r ≤ p.foldl (fun r x => max r |x|) r ∧
      (p.foldl (fun r x => max r |x|) r = r ∨ ∃ x ∈ p, p.foldl (fun r x => max r |x|) r = |x|) := by
    intro p
    induction p with
    | nil => intro r; simp
    | cons y p ih =>
      intro r
      obtain ⟨h1, h2, h3⟩ := ih (max r |y|)
      rw [List.foldl_cons]
      refine ⟨?_, le_trans (le_max_left _ _) h2, ?_⟩
      · intro x hx
        rcases List.mem_cons.1 hx with rfl | hx
        · exact le_trans (le_max_right _ _) h2
        · exact h1 x hx
      · rcases h3 with h3 | ⟨x, hx, h3⟩
        · rcases max_choice r |y| with h | h
          · exact Or.inl (h3.trans h)
          · exact Or.inr ⟨y, by simp, h3.trans h⟩
        · exact Or.inr ⟨x, by simp [hx], h3⟩
  obtain ⟨h1, h2, h3⟩ := key a.p 0
  refine ⟨_, he, ?_, h1⟩
  rcases h3 with h3 | h3
  · obtain ⟨y, hy⟩ := List.exists_mem_of_ne_nil _ hp
    refine ⟨y, hy, ?_⟩
    rw [h3]
    have := h1 y hy
    rw [h3] at this
    exact le_antisymm (abs_nonneg y) this
  · exact h3

/-- **C42 (resolution).** `resolution()` is the least absolute value of the nonzero elements (attained), if there is a
nonzero element and the limit bounds them. -/
theorem C42_resolution (tmax : T) (a : Nd T) (h : Shaped a) (hlim : ∀ x ∈ a.p, |x| ≤ tmax)
    (hnz : ∃ x ∈ a.p, x ≠ 0) :
    ∃ r, a.resolution tmax = some r ∧ 0 < r ∧ (∃ x ∈ a.p, x ≠ 0 ∧ r = |x|) ∧ ∀ x ∈ a.p, x ≠ 0 → r ≤ |x| := by
  set g : T → T → T := fun r x => if x ≠ 0 then min r |x| else r with hg
  have he : a.resolution tmax = some (a.p.foldl g tmax) := by
    unfold Nd.resolution
    rw [h.nelem, ← h.len]
    exact foldlM_read g a.p tmax
  have key : ∀ (p : List T) (r : T), (∀ x ∈ p, x ≠ 0 → p.foldl g r ≤ |x|) ∧ p.foldl g r ≤ r ∧
      (p.foldl g r = r ∨ ∃ x ∈ p, x ≠ 0 ∧ p.foldl g r = |x|) := by
    intro p
    induction p with
    | nil => intro r; simp
    | cons y p ih =>
      intro r
      rw [List.foldl_cons]
      obtain ⟨h1, h2, h3⟩ := ih (g r y)
      have hgr : g r y ≤ r := by
        simp only [hg]; split
        · exact min_le_left _ _
        · exact le_refl _
      refine ⟨?_, le_trans h2 hgr, ?_⟩
      · intro x hx hx0
        rcases List.mem_cons.1 hx with rfl | hx
        · refine le_trans h2 ?_
          simp only [hg]; rw [if_pos hx0]; exact min_le_right _ _
        · exact h1 x hx hx0
      · rcases h3 with h3 | ⟨x, hx, hx0, h3⟩
        · by_cases hy : y = 0
          · left; rw [h3]; simp [hg, hy]
          · have e : g r y = min r |y| := by simp [hg, hy]
            rcases min_choice r |y| with h | h
            · left; rw [h3, e, h]
            · right; exact ⟨y, by simp, hy, by rw [h3, e, h]⟩
        · exact Or.inr ⟨x, by simp [hx], hx0, h3⟩
  obtain ⟨h1, h2, h3⟩ := key a.p tmax
  have hatt : ∃ x ∈ a.p, x ≠ 0 ∧ a.p.foldl g tmax = |x| := by
    rcases h3 with h3 | h3
    · obtain ⟨y, hy, hy0⟩ := hnz
      refine ⟨y, hy, hy0, le_antisymm (h1 y hy hy0) ?_⟩
      rw [h3]; exact hlim y hy
    · exact h3
  refine ⟨_, he, ?_, hatt, h1⟩
  obtain ⟨x, -, hx0, hx⟩ := hatt
  rw [hx]; exact abs_pos.2 hx0

end Abs

example : ({ dims := [2, 2], s := [1, 2], p := [0, -3, 2, 1] } : Nd ℤ).maxabs = some 3 := by decide +kernel
example : ({ dims := [2, 2], s := [1, 2], p := [0, -3, 2, 0] } : Nd ℤ).resolution 100 = some 2 := by decide +kernel
example : (({ dims := [2, 2], s := [1, 2], p := [0, -3, 2, 9] } : Nd ℤ).clamp 0 5).map (·.p) = some [0, 0, 2, 5] := by
  decide +kernel

/-! ### C68: arithmetic -/
section Arith
variable [Inhabited T]

/-- **C68 (sum).** The sum of two arrays of one shape is defined, has that shape and is the element-wise sum. -/
theorem C68_add (op : T → T → T) (l r : Nd T) (hl : Shaped l) (hr : Shaped r) (hd : r.dims = l.dims) :
    ∃ b, add op l r = some b ∧ Shaped b ∧ b.dims = l.dims ∧
      ∀ idx, ValidIdx idx l.dims → ∃ x y, l.get idx = some x ∧ r.get idx = some y ∧ b.get idx = some (op x y) := by
  unfold add
  rw [reshape_eq _ _ hl.ne, Option.bind_some]
  set c : Nd T := { ({} : Nd T) with dims := l.dims, s := strides 1 l.dims, p := resize l.dims.prod [] } with hc
  have hcs : Shaped c := ⟨hl.ne, rfl, resize_length _ _⟩
  have hn : c.nelem = l.dims.prod := hcs.nelem
  have hdef : ∀ i < l.dims.prod, ∃ x y, l.p[i]? = some x ∧ r.p[i]? = some y := by
    intro i hi
    exact ⟨l.p[i]'(by rw [hl.len]; exact hi), r.p[i]'(by rw [hr.len, hd]; exact hi), List.getElem?_eq_getElem _,
      List.getElem?_eq_getElem _⟩
  obtain ⟨b, h0, h1, h2, h3, h4, h5, h6⟩ := fillFrom_eq
    (fun i => (l.p[i]?).bind fun x => (r.p[i]?).map (op x)) c.nelem c (by rw [hcs.nelem, hcs.len]) (fun i hi => by
      obtain ⟨x, y, hx, hy⟩ := hdef i (by omega)
      simp [hx, hy])
  have hbs : Shaped b := hcs.congr h1 h2 h5
  have hbd : b.dims = l.dims := h1
  refine ⟨b, h0, hbs, h1, ?_⟩
  intro idx hv
  have hlt := dot_lt _ _ _ rfl hv
  obtain ⟨x, y, hx, hy⟩ := hdef _ hlt
  refine ⟨x, y, by rw [get_valid hl hv, hx], by rw [get_valid hr (hd ▸ hv), hd, hy], ?_⟩
  rw [get_valid hbs (hbd ▸ hv), hbd, h6, if_pos (by omega), hx, hy]; rfl

omit [Inhabited T] in
/-- **C68 (accumulate).** `a += x` on a nonempty array of the same shape is the element-wise sum and keeps the flags of
`a`; on an array without data it is a copy of `x`. -/
theorem C68_add_assign (op : T → T → T) (a x : Nd T) (ha : Shaped a) (hx : Shaped x) (hd : x.dims = a.dims) :
    ∃ b, a.addAssign op x = some b ∧ Shaped b ∧ b.dims = a.dims ∧
      (a.p ≠ [] → b.ncd = a.ncd ∧ b.tv = a.tv) ∧
      ∀ idx, ValidIdx idx a.dims → ∃ u v, a.get idx = some u ∧ x.get idx = some v ∧ b.get idx = some (op u v) := by
  have hdef : ∀ i < a.dims.prod, ∃ u v, a.p[i]? = some u ∧ x.p[i]? = some v := by
    intro i hi
    exact ⟨a.p[i]'(by rw [ha.len]; exact hi), x.p[i]'(by rw [hx.len, hd]; exact hi), List.getElem?_eq_getElem _,
      List.getElem?_eq_getElem _⟩
  unfold Nd.addAssign
  by_cases hp : a.p = []
  · rw [if_pos hp]
    refine ⟨x, rfl, hx, hd, fun h => absurd hp h, ?_⟩
    intro idx hv
    have hlt := dot_lt _ _ _ rfl hv
    have := ha.len
    rw [hp] at this
    simp at this
    omega
  · rw [if_neg hp, if_pos hd.symm]
    obtain ⟨b, h0, h1, h2, h3, h4, h5, h6⟩ := fillFrom_eq
      (fun i => (a.p[i]?).bind fun u => (x.p[i]?).map (op u)) a.p.length a (le_refl _) (fun i hi => by
        obtain ⟨u, v, hu, hv⟩ := hdef i (by rw [← ha.len]; exact hi)
        simp [hu, hv])
    have hbs : Shaped b := ha.congr h1 h2 h5
    refine ⟨b, h0, hbs, h1, fun _ => ⟨h3, h4⟩, ?_⟩
    intro idx hv
    have hlt := dot_lt _ _ _ rfl hv
    obtain ⟨u, v, hu, hv'⟩ := hdef _ hlt
    refine ⟨u, v, by rw [get_valid ha hv, hu], by rw [get_valid hx (hd ▸ hv), hd, hv'], ?_⟩
    rw [get_valid hbs (h1 ▸ hv), h1, h6, if_pos (by rw [ha.len]; exact hlt), hu, hv']; rfl

/-- **C68 (conversion).** Converting an array to another element type keeps shape, strides and flags and converts
element by element. -/
theorem C68_from_array {T1 : Type} (cast : T1 → T) (a : Nd T) (b : Nd T1) (hb : Shaped b) :
    ∃ c, a.fromArray cast b = some c ∧ Shaped c ∧ c.dims = b.dims ∧ c.s = b.s ∧ c.ncd = b.ncd ∧ c.tv = b.tv ∧
      c.p = b.p.map cast := by
  unfold Nd.fromArray
  rw [reshape_eq _ _ hb.ne, Option.bind_some]
  set r : Nd T := { a with dims := b.dims, s := strides 1 b.dims, p := resize b.dims.prod a.p } with hr
  have hrs : Shaped r := ⟨hb.ne, rfl, resize_length _ _⟩
  have hlen : r.p.length = b.p.length := by rw [hrs.len, hb.len]
  obtain ⟨c, h0, h1, h2, h3, h4, h5, h6⟩ := fillFrom_eq (fun i => (b.p[i]?).map cast) r.p.length r (le_refl _)
    (fun i hi => by rw [List.getElem?_eq_getElem (by omega)]; rfl)
  refine ⟨{ c with ncd := b.ncd, tv := b.tv }, by rw [h0]; rfl, hrs.congr h1 h2 h5, h1, ?_, rfl, rfl, ?_⟩
  · show c.s = b.s
    rw [h2, hb.str]
  · show c.p = b.p.map cast
    apply List.ext_getElem?
    intro k
    rw [h6, List.getElem?_map]
    split
    · rfl
    · rw [List.getElem?_eq_none (by omega), List.getElem?_eq_none (by omega)]; rfl

/-- **C68 (finding).** Adding a smaller right operand is not detected: the sum reads outside its data. -/
theorem C68_add_shape_mismatch : ∃ l r : Nd Nat, Shaped l ∧ Shaped r ∧ add (· + ·) l r = none :=
  ⟨⟨[2], [1], 0, false, [1, 2]⟩, ⟨[1], [1], 0, false, [1]⟩, ⟨by decide, by decide, by decide⟩,
    ⟨by decide, by decide, by decide⟩, by decide⟩

example : (add (· + ·) (⟨[2, 1], [1, 2], 0, false, [1, 2]⟩ : Nd Nat) ⟨[2, 1], [1, 2], 0, false, [5, 6]⟩).map (·.p) =
    some [6, 8] := by decide

end Arith
end Verif.ND
