import Verif.Ndarray.Lemmas
/-! C38 (indexing), C39 (transpose), C40 (slice, slice_time, stack, concat) of `ndarray`. -/
namespace Verif.ND
variable {T : Type} [Inhabited T]

/-! ### C38: indexing -/

/-- (specification) The public operations that change an array (each may abort or be undefined). -/
inductive Op (T : Type) where
  | reshape (d : List Nat)
  | reshapeFill (d : List Nat) (v : T)
  | reset
  | write (idx : List Nat) (v : T)
  | writeFlat (i : Nat) (v : T)
  | fill (v : T)
  | copyVector (v : List T)
  | fromVector (v : List T)
  | fromArray (b : Nd T)
  | scale (f : T → T)
  | makeMulticomponents
  | transpose
  | setMulticomponents (c : Nat)
  | setHasTime (t : Bool)

/-- (specification) The effect of one operation, in terms of the model functions. -/
def Op.apply : Op T → Nd T → Option (Nd T)
  | .reshape d, a => a.reshape d
  | .reshapeFill d v, a => a.reshapeFill d v
  | .reset, a => some a.reset
  | .write idx v, a => a.set idx v
  | .writeFlat i v, a => a.setFlat i v
  | .fill v, a => some (a.fill v)
  | .copyVector v, a => a.copyVector v
  | .fromVector v, a => some (a.fromVector v)
  | .fromArray b, a => a.fromArray id b
  | .scale f, a => some (a.mapAssign f)
  | .makeMulticomponents, a => a.makeMulticomponents
  | .transpose, a => a.getTranspose
  | .setMulticomponents c, a => some { a with ncd := c }
  | .setHasTime t, a => some { a with tv := t }

/-- (specification) Running a history of operations; undefined as soon as one step is. -/
def run (ops : List (Op T)) (a : Nd T) : Option (Nd T) := ops.foldlM (fun a o => o.apply a) a

/-- (specification) A default-constructed (or reset) array: no shape, no data. -/
def Blank (a : Nd T) : Prop := a.dims = [] ∧ a.s = [] ∧ a.p = []

omit [Inhabited T] in
theorem fromVector_length (a : Nd T) (v : List T) : (a.fromVector v).p.length = a.p.length := by
  unfold Nd.fromVector
  simp only
  generalize List.range a.nelem = L
  generalize a.p = p
  induction L generalizing p with
  | nil => rfl
  | cons x xs ih =>
    rw [List.foldl_cons, ih]
    split <;> simp

omit [Inhabited T] in
theorem foldlM_set_shape {ι : Type} (idx : ι → List Nat) (val : ι → Option T) (L : List ι) (a b : Nd T)
    (h : L.foldlM (fun b i => (val i).bind fun v => Nd.set b (idx i) v) a = some b) :
    b.dims = a.dims ∧ b.s = a.s ∧ b.ncd = a.ncd ∧ b.tv = a.tv ∧ b.p.length = a.p.length := by
  induction L generalizing a with
  | nil => cases h; simp
  | cons x xs ih =>
    simp only [List.foldlM_cons] at h
    cases hv : val x with
    | none => simp [hv] at h
    | some v =>
      simp only [hv, Option.bind_some] at h
      cases hc : a.set (idx x) v with
      | none => simp [hc] at h
      | some c =>
        rw [hc] at h
        have h1 := ih c h
        unfold Nd.set at hc
        cases hi : a.index (idx x) with
        | none => simp [hi] at hc
        | some k =>
          simp only [hi, Option.bind_some] at hc
          obtain ⟨hk, rfl⟩ := setFlat_some hc
          simpa using h1

/-- Every step keeps the array blank or well shaped. -/
theorem step_shaped (o : Op T) (a b : Nd T) (h : Blank a ∨ Shaped a) (ho : o.apply a = some b) :
    Blank b ∨ Shaped b := by
  cases o with
  | reshape d => exact Or.inr (shaped_reshape ho)
  | reshapeFill d v =>
    simp only [Op.apply, Nd.reshapeFill, Option.map_eq_some_iff] at ho
    obtain ⟨c, hc, rfl⟩ := ho
    exact Or.inr ((shaped_reshape hc).congr rfl rfl (by simp))
  | reset => cases ho; exact Or.inl ⟨rfl, rfl, rfl⟩
  | write idx v =>
    simp only [Op.apply, Nd.set] at ho
    cases hi : a.index idx with
    | none => simp [hi] at ho
    | some k =>
      simp only [hi, Option.bind_some] at ho
      obtain ⟨hk, rfl⟩ := setFlat_some ho
      rcases h with h | h
      · simp [h.2.2] at hk
      · exact Or.inr (h.congr rfl rfl (by simp))
  | writeFlat i v =>
    simp only [Op.apply] at ho
    obtain ⟨hk, rfl⟩ := setFlat_some ho
    rcases h with h | h
    · simp [h.2.2] at hk
    · exact Or.inr (h.congr rfl rfl (by simp))
  | fill v =>
    cases ho
    rcases h with h | h
    · exact Or.inl ⟨h.1, h.2.1, by simp [Nd.fill, h.2.2]⟩
    · exact Or.inr (h.congr rfl rfl (by simp [Nd.fill]))
  | copyVector v => exact Or.inr (shaped_reshape (a := { a with p := v }) (d := [v.length]) ho)
  | fromVector v =>
    cases ho
    have hl := fromVector_length a v
    rcases h with h | h
    · refine Or.inl ⟨h.1, h.2.1, ?_⟩
      rw [h.2.2] at hl
      exact List.length_eq_zero_iff.1 hl
    · exact Or.inr (h.congr rfl rfl hl)
  | fromArray c =>
    simp only [Op.apply, Nd.fromArray] at ho
    cases hr : a.reshape c.dims with
    | none => simp [hr] at ho
    | some r =>
      simp only [hr, Option.bind_some, Option.map_eq_some_iff] at ho
      obtain ⟨d, hd, rfl⟩ := ho
      obtain ⟨h1, h2, -, -, h5⟩ := fillFrom_shape _ _ _ _ hd
      exact Or.inr ((shaped_reshape hr).congr h1 h2 h5)
  | scale f =>
    cases ho
    rcases h with h | h
    · exact Or.inl ⟨h.1, h.2.1, by simp [Nd.mapAssign, h.2.2]⟩
    · exact Or.inr (h.congr rfl rfl (by simp [Nd.mapAssign]))
  | makeMulticomponents =>
    simp only [Op.apply, Nd.makeMulticomponents, Option.map_eq_some_iff] at ho
    obtain ⟨c, hc, rfl⟩ := ho
    exact Or.inr ((shaped_reshape hc).congr rfl rfl rfl)
  | transpose =>
    simp only [Op.apply, Nd.getTranspose] at ho
    split at ho
    · cases ho; exact Or.inl ⟨rfl, rfl, rfl⟩
    split at ho
    · cases ho; exact h
    split at ho
    · cases hr : ({} : Nd T).reshape a.dims.reverse with
      | none => simp [hr] at ho
      | some r =>
        simp only [hr, Option.bind_some] at ho
        obtain ⟨h1, h2, -, -, h5⟩ := foldlM_set_shape _ _ _ _ _ ho
        exact Or.inr ((shaped_reshape hr).congr h1 h2 h5)
    · cases ho
  | setMulticomponents c =>
    cases ho
    exact h.imp (fun h => ⟨h.1, h.2.1, h.2.2⟩) (fun h => h.congr rfl rfl rfl)
  | setHasTime t =>
    cases ho
    exact h.imp (fun h => ⟨h.1, h.2.1, h.2.2⟩) (fun h => h.congr rfl rfl rfl)

/-- **C38 (reachable arrays).** After any history of public operations starting from a default-constructed array,
the array is blank or has one data element per multi-index of a nonempty shape. -/
theorem C38_reachable (ops : List (Op T)) (a : Nd T) (h : run ops {} = some a) : Blank a ∨ Shaped a := by
  have key : ∀ (ops : List (Op T)) (a0 a : Nd T), Blank a0 ∨ Shaped a0 → run ops a0 = some a → Blank a ∨ Shaped a := by
    intro ops
    induction ops with
    | nil => intro a0 a h0 h; cases h; exact h0
    | cons o os ih =>
      intro a0 a h0 h
      simp only [run, List.foldlM_cons] at h
      cases hb : o.apply a0 with
      | none => simp [hb] at h
      | some b =>
        rw [hb] at h
        exact ih b a (step_shaped o a0 b h0 hb) h
  exact key ops {} a (Or.inl ⟨rfl, rfl, rfl⟩) h

omit [Inhabited T] in
/-- **C38 (indexing is a bijection).** On a well-shaped array the valid multi-indices are mapped one-to-one onto
`[0, nelem())`, which is exactly the range of the data buffer. -/
theorem C38_index_bijective (a : Nd T) (h : Shaped a) :
    a.p.length = a.nelem ∧
    (∀ idx, ValidIdx idx a.dims → ∃ k, a.index idx = some k ∧ k < a.nelem) ∧
    (∀ i j, ValidIdx i a.dims → ValidIdx j a.dims → a.index i = a.index j → i = j) ∧
    (∀ k < a.nelem, ∃ idx, ValidIdx idx a.dims ∧ a.index idx = some k) := by
  refine ⟨h.len.trans h.nelem.symm, ?_, ?_, ?_⟩
  · intro idx hv
    exact ⟨_, index_valid h hv, by rw [h.nelem, ← h.len]; exact index_lt h hv⟩
  · intro i j hi hj he
    rw [index_valid h hi, index_valid h hj] at he
    exact dot_inj h.ne hi hj (Option.some.inj he)
  · intro k hk
    rw [h.nelem] at hk
    obtain ⟨idx, hv, he⟩ := exists_idx h.ne hk
    exact ⟨idx, hv, by rw [index_valid h hv, he]⟩

omit [Inhabited T] in
/-- **C38 (read and write).** On a well-shaped array, reads and writes with valid indices are defined; a written value
is read back at its index and at every other valid index nothing changes; the shape and flags stay. -/
theorem C38_read_write (a : Nd T) (h : Shaped a) (i : List Nat) (hi : ValidIdx i a.dims) (v : T) :
    (∃ x, a.get i = some x) ∧
    ∃ b, a.set i v = some b ∧ Shaped b ∧ b.dims = a.dims ∧ b.ncd = a.ncd ∧ b.tv = a.tv ∧
      b.get i = some v ∧ ∀ j, ValidIdx j a.dims → j ≠ i → b.get j = a.get j := by
  have hlt := index_lt h hi
  refine ⟨⟨a.p[dot i (strides 1 a.dims)], by rw [get_valid h hi]; exact List.getElem?_eq_getElem hlt⟩, ?_⟩
  have hset : a.set i v = some { a with p := a.p.set (dot i (strides 1 a.dims)) v } := by
    unfold Nd.set; rw [index_valid h hi, Option.bind_some, setFlat_eq v hlt]
  have hb : Shaped { a with p := a.p.set (dot i (strides 1 a.dims)) v } := h.congr rfl rfl (by simp)
  refine ⟨_, hset, hb, rfl, rfl, rfl, ?_, ?_⟩
  · rw [get_valid hb hi]; simp [List.getElem?_set_self hlt]
  · intro j hj hne
    rw [get_valid hb hj, get_valid h hj]
    apply List.getElem?_set_ne
    intro he
    exact hne (dot_inj h.ne hj hi he.symm)

/-- **C38 (reshape keeps the data).** `reshape` is defined exactly for nonempty shapes; the flat data is kept, cut off
or padded at the end; reshaping to a shape with the same number of elements keeps all of it. -/
theorem C38_reshape (a : Nd T) (d : List Nat) :
    ((a.reshape d).isSome ↔ d ≠ []) ∧
    ∀ b, a.reshape d = some b → Shaped b ∧ b.dims = d ∧ b.ncd = a.ncd ∧ b.tv = a.tv ∧
      (∀ k < min d.prod a.p.length, b.p[k]? = a.p[k]?) ∧ (d.prod = a.p.length → b.p = a.p) := by
  constructor
  · constructor
    · intro h hd; subst hd; rw [reshape_nil] at h; cases h
    · intro h; rw [reshape_eq a d h]; rfl
  · intro b hb
    have hs := shaped_reshape hb
    obtain ⟨hd, rfl⟩ := reshape_some hb
    refine ⟨hs, rfl, rfl, rfl, ?_, ?_⟩
    · intro k hk
      show (resize _ _)[k]? = _
      unfold resize
      rw [List.getElem?_append_left (by simp; omega), List.getElem?_take_of_lt (by omega)]
    · intro he
      show resize _ _ = _
      rw [he, resize_self]

/-- **C38 (finding).** `fill(vector)` replaces the data without touching the shape: afterwards an in-range index is
read outside the buffer, and `nelem()` is not the number of elements. -/
theorem C38_fill_vector_breaks_shape : ∃ (a : Nd Nat) (b : Nd Nat) (v : List Nat),
    ({} : Nd Nat).reshape [2, 2] = some a ∧ b = a.fillVec v ∧ ValidIdx [1, 1] b.dims ∧ b.get [1, 1] = none ∧
    b.nelem ≠ b.p.length :=
  ⟨_, _, [7], rfl, rfl, by simp [ValidIdx, Nd.fillVec], by decide, by decide⟩

/-- A 2 x 3 array built by a history, with its elements. -/
example : ∃ a : Nd Nat, run [.reshape [2, 3], .write [1, 2] 9, .write [0, 1] 4, .reshape [3, 2], .transpose] {} = some a ∧
    a.dims = [2, 3] ∧ a.get [1, 2] = some 9 ∧ a.get [0, 2] = some 4 ∧ a.get [0, 0] = some 0 := ⟨_, rfl, by decide⟩

/-! ### C39: transpose -/

theorem transpose_spec (a : Nd T) (h : Shaped a) (h2 : 2 ≤ a.nd) (h4 : a.nd ≤ 4) :
    ∃ b, a.getTranspose = some b ∧ Shaped b ∧ b.dims = a.dims.reverse ∧ b.ncd = 0 ∧ b.tv = false ∧
      ∀ idx, ValidIdx idx a.dims → b.get idx.reverse = a.get idx := by
  have hne : a.dims.reverse ≠ [] := by simpa using h.ne
  unfold Nd.getTranspose
  rw [if_neg (by omega), if_neg (by omega), if_pos h4, reshape_eq _ _ hne, Option.bind_some]
  set r : Nd T := { ({} : Nd T) with dims := a.dims.reverse, s := strides 1 a.dims.reverse,
                                      p := resize a.dims.reverse.prod [] } with hr
  have hrs : Shaped r := ⟨hne, rfl, resize_length _ _⟩
  have hstr : r.dims = a.dims.reverse := rfl
  -- the loop is a loop of flat writes
  have hloop : ∀ (L : List (List Nat)) (c : Nd T), (∀ i ∈ L, ValidIdx i a.dims) → Shaped c → c.dims = a.dims.reverse →
      L.foldlM (fun b idx => (a.get idx).bind fun v => b.set idx.reverse v) c =
      L.foldlM (fun b idx => (a.get idx).bind fun v => b.setFlat (dot idx.reverse (strides 1 a.dims.reverse)) v) c := by
    intro L
    induction L with
    | nil => intros; rfl
    | cons x xs ih =>
      intro c hL hc hcd
      simp only [List.foldlM_cons]
      cases hx : a.get x with
      | none => rfl
      | some v =>
        have hval : ValidIdx x.reverse c.dims := by rw [hcd]; exact validIdx_reverse (hL x (by simp))
        simp only [Option.bind_some, Nd.set, index_valid hc hval, hcd]
        rw [setFlat_eq v (by rw [← hcd]; exact index_lt hc hval)]
        simp only [Option.bind_eq_bind, Option.bind_some]
        exact ih _ (fun i hi => hL i (by simp [hi])) (hc.congr rfl rfl (by simp)) hcd
  rw [hloop _ r (fun i hi => (mem_allIdx _ _).1 hi) hrs rfl]
  obtain ⟨b, hb, h1, h2', h3, h4', h5, h6⟩ := foldlM_writes
    (fun idx : List Nat => dot idx.reverse (strides 1 a.dims.reverse)) (fun idx => a.get idx)
    (fun k => a.get (decode (strides 1 a.dims.reverse) k).reverse) (allIdx a.dims) r
    (fun i hi => by
      have hv := validIdx_reverse ((mem_allIdx _ _).1 hi)
      exact index_lt hrs hv)
    (fun i hi => by
      have hv := validIdx_reverse ((mem_allIdx _ _).1 hi)
      obtain ⟨n, hn⟩ := dims_len_succ hrs
      show a.get i = a.get _
      rw [decode_dot n _ _ hn hv, List.reverse_reverse])
    (fun i hi => by
      have hv := (mem_allIdx _ _).1 hi
      rw [get_valid h hv, List.getElem?_eq_getElem (index_lt h hv)]; rfl)
  have hbs : Shaped b := hrs.congr h1 h2' h5
  refine ⟨b, hb, hbs, h1, h3, h4', ?_⟩
  intro idx hv
  have hvr := validIdx_reverse hv
  have hbd : b.dims = a.dims.reverse := h1
  rw [get_valid hbs (by rw [hbd]; exact hvr), h6, if_pos ⟨idx, (mem_allIdx _ _).2 hv, by rw [hbd]⟩, hbd]
  obtain ⟨n, hn⟩ := dims_len_succ hrs
  rw [decode_dot n _ _ hn hvr, List.reverse_reverse]

/-- **C39 (transpose reverses indices).** For arrays of at most four dimensions `get_transpose` is defined, has the
reversed shape and holds at the reversed index the element of the original. -/
theorem C39_transpose (a : Nd T) (h : Shaped a) (h4 : a.nd ≤ 4) :
    ∃ b, a.getTranspose = some b ∧ Shaped b ∧ b.dims = a.dims.reverse ∧
      ∀ idx, ValidIdx idx a.dims → b.get idx.reverse = a.get idx := by
  have hnd : 1 ≤ a.nd := List.length_pos_iff.2 h.ne
  by_cases h1 : a.nd = 1
  · obtain ⟨d, hd⟩ := List.length_eq_one_iff.1 h1
    refine ⟨a, by simp [Nd.getTranspose, h1], h, by simp [hd], fun idx hv => ?_⟩
    have := hv.length
    rw [hd] at this
    obtain ⟨i, rfl⟩ := List.length_eq_one_iff.1 this
    rfl
  · obtain ⟨b, h1, h2, h3, -, -, h5⟩ := transpose_spec a h (by omega) h4
    exact ⟨b, h1, h2, h3, h5⟩

/-- **C39 (involution).** Transposing twice gives back the shape, the strides and the data. -/
theorem C39_involution (a : Nd T) (h : Shaped a) (h4 : a.nd ≤ 4) :
    ∃ b c, a.getTranspose = some b ∧ b.getTranspose = some c ∧ c.dims = a.dims ∧ c.s = a.s ∧ c.p = a.p := by
  obtain ⟨b, hb, hbs, hbd, hbg⟩ := C39_transpose a h h4
  have hb4 : b.nd ≤ 4 := by simpa [Nd.nd, hbd] using h4
  obtain ⟨c, hc, hcs, hcd, hcg⟩ := C39_transpose b hbs hb4
  have hcd' : c.dims = a.dims := by rw [hcd, hbd, List.reverse_reverse]
  have := shaped_ext h hcs hcd' (fun idx hv => by
    have hvr : ValidIdx idx.reverse b.dims := by rw [hbd]; exact validIdx_reverse hv
    have h1 := hcg _ hvr
    rw [List.reverse_reverse] at h1
    rw [h1, hbg idx hv])
  exact ⟨b, c, hb, hc, hcd', this.2, this.1⟩

/-- **C39 (finding).** The transpose forgets the number of component dimensions and the time flag (for two or more
dimensions), so transposing twice does not give back a multicomponent array. -/
theorem C39_transpose_drops_flags (a : Nd T) (h : Shaped a) (h2 : 2 ≤ a.nd) (h4 : a.nd ≤ 4) :
    ∃ b, a.getTranspose = some b ∧ b.ncd = 0 ∧ b.tv = false := by
  obtain ⟨b, h1, -, -, h4, h5, -⟩ := transpose_spec a h h2 h4
  exact ⟨b, h1, h4, h5⟩

/-- **C39 (finding).** Arrays of five or more dimensions cannot be transposed. -/
theorem C39_transpose_5d (a : Nd T) (h5 : 5 ≤ a.nd) : a.getTranspose = none := by
  unfold Nd.getTranspose
  rw [if_neg (by omega), if_neg (by omega), if_neg (by omega)]

example : ∃ a b : Nd Nat, run [.copyVector [1, 2, 3, 4, 5, 6], .reshape [3, 2]] {} = some a ∧ Shaped a ∧ a.nd ≤ 4 ∧
    a.getTranspose = some b ∧ b.dims = [2, 3] ∧ b.p = [1, 4, 2, 5, 3, 6] :=
  ⟨_, _, rfl, ⟨by decide, by decide, by decide⟩, by decide, rfl, by decide⟩

/-! ### C40: slice, slice_time, stack, concat -/

/-- **C40 (slice).** If the lattice lies inside the array, the slice has its sizes and holds at each index `x` the
element of the source at `start + x`. -/
theorem C40_slice (a : Nd T) (h : Shaped a) (l : Lat.Lattice) (hl : l.starts.length = l.sizes.length)
    (hin : List.Forall₂ (· ≤ ·) (List.zipWith (· + ·) l.starts l.sizes) a.dims) :
    ∃ b, a.slice l = some b ∧ Shaped b ∧ b.dims = l.sizes ∧
      ∀ x, ValidIdx x l.sizes → b.get x = a.get (List.zipWith (· + ·) x l.starts) := by
  have hlen := hin.length_eq
  have hnd : l.sizes.length = a.dims.length := by simpa [hl] using hlen
  have hne : l.sizes ≠ [] := by
    intro he; rw [he] at hnd; exact h.ne (List.length_eq_zero_iff.1 hnd.symm)
  have hndne : l.nd ≠ 0 := by unfold Lat.Lattice.nd; simpa using hne
  unfold Nd.slice
  rw [reshape_eq _ _ hne, Option.bind_some]
  set r : Nd T := { ({} : Nd T) with dims := l.sizes, s := strides 1 l.sizes, p := resize l.sizes.prod [] } with hr
  have hrs : Shaped r := ⟨hne, rfl, resize_length _ _⟩
  obtain ⟨m, hm⟩ := dims_len_succ hrs
  have hm' : l.sizes.length = m + 1 := hm
  have hn : l.n = some l.sizes.prod := by
    obtain ⟨ts, t, hts, htl⟩ := exists_snoc hm'
    unfold Lat.Lattice.n Lat.Lattice.prod Lat.Lattice.nd
    rw [hts, strides_append]
    simp only [List.length_append, List.length_singleton, Nat.add_sub_cancel]
    rw [List.getElem?_append_right (by simp [strides_length]), List.getElem?_append_right (by simp)]
    simp [strides_length]
  rw [hn, Option.bind_some]
  -- decoding
  have hdec : ∀ x, ValidIdx x l.sizes →
      l.fromInteger (dot x (strides 1 l.sizes)) =
        some (List.zipWith (fun (p q : Nat) => (p : Int) + q) x l.starts) := by
    intro x hx
    unfold Lat.Lattice.fromInteger
    rw [if_neg hndne]
    show some (List.zipWith _ (decode (strides 1 l.sizes) _) _) = _
    rw [decode_dot m _ _ hm' hx]
  have hmap : ∀ x : List Nat, (List.zipWith (fun (p q : Nat) => (p : Int) + q) x l.starts).map Int.toNat =
      List.zipWith (· + ·) x l.starts := by
    intro x
    rw [List.map_zipWith]
    congr 1
  have hvalid : ∀ x, ValidIdx x l.sizes → ValidIdx (List.zipWith (· + ·) x l.starts) a.dims := by
    intro x hx
    clear_value r
    clear hdec hmap hn hm hm' hndne hne hrs hr hlen h
    generalize l.starts = ss at *
    generalize l.sizes = zs at *
    generalize a.dims = ds at *
    induction hx generalizing ss ds with
    | nil => cases ss with
      | nil => cases hin; exact List.Forall₂.nil
      | cons => simp at hl
    | cons hab _ ih =>
      cases ss with
      | nil => simp at hl
      | cons s ss =>
        cases ds with
        | nil => simp at hnd
        | cons d ds =>
          simp only [List.zipWith_cons_cons, List.forall₂_cons] at hin ⊢
          exact List.Forall₂.cons (by omega) (ih ss (by simpa using hl) ds (by simpa using hnd) hin.2)
  have hfi : ∀ i < l.sizes.prod, ∃ x, ValidIdx x l.sizes ∧ dot x (strides 1 l.sizes) = i ∧
      (l.fromInteger i).bind (fun idx => a.get (idx.map Int.toNat)) = a.get (List.zipWith (· + ·) x l.starts) := by
    intro i hi
    obtain ⟨x, hx, hxi⟩ := exists_idx hne hi
    exact ⟨x, hx, hxi, by rw [← hxi, hdec x hx, Option.bind_some, hmap]⟩
  obtain ⟨b, hb, h1, h2, -, -, h5, h6⟩ := fillFrom_eq
    (fun i => (l.fromInteger i).bind fun idx => a.get (idx.map Int.toNat)) l.sizes.prod r
    (by rw [hrs.len]) (fun i hi => by
      obtain ⟨x, hx, -, he⟩ := hfi i hi
      show (Option.bind _ _).isSome
      rw [he, get_valid h (hvalid x hx), List.getElem?_eq_getElem (index_lt h (hvalid x hx))]; rfl)
  have hbs : Shaped b := hrs.congr h1 h2 h5
  refine ⟨b, hb, hbs, h1, ?_⟩
  intro x hx
  have hbd : b.dims = l.sizes := h1
  rw [get_valid hbs (by rw [hbd]; exact hx), hbd, h6, if_pos (dot_lt _ _ _ rfl hx)]
  show (l.fromInteger _).bind _ = _
  rw [hdec x hx, Option.bind_some, hmap]

/-- (specification) A nonempty list of well-shaped arrays of one shape. -/
def SameShape (as : List (Nd T)) (d : List Nat) : Prop := as ≠ [] ∧ ∀ a ∈ as, Shaped a ∧ a.dims = d

omit [Inhabited T] in
theorem SameShape.head {as : List (Nd T)} {d : List Nat} (h : SameShape as d) :
    ∃ a0, as.head? = some a0 ∧ Shaped a0 ∧ a0.dims = d := by
  cases as with
  | nil => exact absurd rfl h.1
  | cons a0 as => exact ⟨a0, rfl, h.2 a0 (by simp)⟩

theorem stack_flat (as : List (Nd T)) (d : List Nat) (h : SameShape as d) :
    ∃ r, stack as = some r ∧ Shaped r ∧ r.dims = d ++ [as.length] ∧ r.ncd = 0 ∧ r.tv = false ∧
      ∀ (j : Nat) (a : Nd T), as[j]? = some a → ∀ i < d.prod, r.p[i + j * d.prod]? = a.p[i]? := by
  obtain ⟨a0, ha0, hs0, hd0⟩ := h.head
  have hne : d ++ [as.length] ≠ [] := by simp
  unfold stack
  rw [ha0, Option.bind_some, hd0, reshape_eq _ _ hne, Option.bind_some, hs0.nelem, hd0]
  set r : Nd T := { ({} : Nd T) with dims := d ++ [as.length], s := strides 1 (d ++ [as.length]),
                                      p := resize (d ++ [as.length]).prod [] } with hr
  have hrs : Shaped r := ⟨hne, rfl, resize_length _ _⟩
  have hlen : r.p.length = d.prod * as.length := by rw [hrs.len]; simp [hr]
  have hval : ∀ i j, i < d.prod → j < as.length → ∃ a v, as[j]? = some a ∧ a.p[i]? = some v := by
    intro i j hi hj
    have ha := h.2 as[j] (List.getElem_mem hj)
    refine ⟨as[j], as[j].p[i]'(by rw [ha.1.len, ha.2]; exact hi), List.getElem?_eq_getElem hj, List.getElem?_eq_getElem _⟩
  have hmem : ∀ ij : Nat × Nat,
      ij ∈ ((List.range as.length).flatMap fun j => (List.range d.prod).map fun i => (i, j)) ↔
      ij.1 < d.prod ∧ ij.2 < as.length := by
    rintro ⟨i, j⟩
    simp only [List.mem_flatMap, List.mem_range, List.mem_map, Prod.mk.injEq]
    constructor
    · rintro ⟨x, hx, y, hy, rfl, rfl⟩; exact ⟨hy, hx⟩
    · rintro ⟨h1, h2⟩; exact ⟨j, h2, i, h1, rfl, rfl⟩
  have hdm : ∀ i j, i < d.prod → (i + j * d.prod) % d.prod = i ∧ (i + j * d.prod) / d.prod = j := by
    intro i j hi
    rw [Nat.add_mul_mod_self_right, Nat.mod_eq_of_lt hi, Nat.add_mul_div_right _ _ (by omega), Nat.div_eq_of_lt hi]
    simp
  obtain ⟨b, hb, h1, h2, h3, h4, h5, h6⟩ := foldlM_writes
    (fun ij : Nat × Nat => ij.1 + ij.2 * d.prod) (fun ij => (as[ij.2]?).bind fun a => a.p[ij.1]?)
    (fun k => (as[k / d.prod]?).bind fun a => a.p[k % d.prod]?)
    ((List.range as.length).flatMap fun j => (List.range d.prod).map fun i => (i, j)) r
    (fun ij hij => by
      obtain ⟨hi, hj⟩ := (hmem ij).1 hij
      rw [hlen]
      have : (ij.2 + 1) * d.prod ≤ as.length * d.prod := Nat.mul_le_mul_right _ hj
      rw [Nat.add_mul, Nat.one_mul] at this
      rw [Nat.mul_comm d.prod]
      omega)
    (fun ij hij => by
      obtain ⟨hi, hj⟩ := (hmem ij).1 hij
      obtain ⟨e1, e2⟩ := hdm ij.1 ij.2 hi
      simp only [e1, e2])
    (fun ij hij => by
      obtain ⟨hi, hj⟩ := (hmem ij).1 hij
      obtain ⟨a, v, e1, e2⟩ := hval ij.1 ij.2 hi hj
      simp [e1, e2])
  refine ⟨b, ?_, hrs.congr h1 h2 h5, h1, h3, h4, ?_⟩
  · rw [← hb]
    congr 1
    funext c ij
    cases h : as[ij.2]? <;> simp
  · intro j a hj i hi
    have hjl : j < as.length := by
      by_contra hc; rw [List.getElem?_eq_none (by omega)] at hj; cases hj
    obtain ⟨e1, e2⟩ := hdm i j hi
    rw [h6, if_pos ⟨(i, j), (hmem _).2 ⟨hi, hjl⟩, rfl⟩]
    simp only [e1, e2, hj, Option.bind_some]

/-- **C40 (stack).** Stacking arrays of one shape appends a last dimension; element `(x, j)` of the result is element
`x` of the `j`-th array. -/
theorem C40_stack (as : List (Nd T)) (d : List Nat) (h : SameShape as d) :
    ∃ r, stack as = some r ∧ Shaped r ∧ r.dims = d ++ [as.length] ∧
      ∀ (j : Nat) (a : Nd T), as[j]? = some a → ∀ x, ValidIdx x d → r.get (x ++ [j]) = a.get x := by
  obtain ⟨r, hr, hrs, hrd, -, -, hv⟩ := stack_flat as d h
  refine ⟨r, hr, hrs, hrd, ?_⟩
  intro j a hj x hx
  have hjl : j < as.length := by
    by_contra hc; rw [List.getElem?_eq_none (by omega)] at hj; cases hj
  have ha := h.2 a (List.mem_of_getElem? hj)
  have hxl := hx.length
  have hvx : ValidIdx (x ++ [j]) r.dims := by rw [hrd]; exact (validIdx_append hxl).2 ⟨hx, hjl⟩
  rw [get_valid hrs hvx, hrd, strides_append, dot_append _ _ _ _ (by rw [strides_length, hxl]), one_mul,
    hv j a hj _ (dot_lt _ _ _ rfl hx), get_valid ha.1 (by rw [ha.2]; exact hx), ha.2]

/-- **C40 (concat).** Concatenating arrays of one shape prepends a component dimension; element `(j, x)` of the result
is element `x` of the `j`-th array. -/
theorem C40_concat (as : List (Nd T)) (d : List Nat) (h : SameShape as d) :
    ∃ r, concat as = some r ∧ Shaped r ∧ r.dims = as.length :: d ∧
      ∀ (j : Nat) (a : Nd T), as[j]? = some a → ∀ x, ValidIdx x d → r.get (j :: x) = a.get x := by
  obtain ⟨a0, ha0, hs0, hd0⟩ := h.head
  have hne : as.length :: d ≠ [] := by simp
  have hn0 : 0 < as.length := List.length_pos_iff.2 h.1
  unfold concat
  rw [ha0, Option.bind_some, hd0, reshape_eq _ _ hne, Option.bind_some, hs0.nelem, hd0]
  set r : Nd T := { ({} : Nd T) with dims := as.length :: d, s := strides 1 (as.length :: d),
                                      p := resize (as.length :: d).prod [] } with hr
  have hrs : Shaped r := ⟨hne, rfl, resize_length _ _⟩
  have hlen : r.p.length = as.length * d.prod := by rw [hrs.len]; simp [hr]
  have hval : ∀ i j, i < d.prod → j < as.length → ∃ a v, as[j]? = some a ∧ a.p[i]? = some v := by
    intro i j hi hj
    have ha := h.2 as[j] (List.getElem_mem hj)
    refine ⟨as[j], as[j].p[i]'(by rw [ha.1.len, ha.2]; exact hi), List.getElem?_eq_getElem hj, List.getElem?_eq_getElem _⟩
  have hmem : ∀ ij : Nat × Nat,
      ij ∈ ((List.range d.prod).flatMap fun i => (List.range as.length).map fun j => (i, j)) ↔
      ij.1 < d.prod ∧ ij.2 < as.length := by
    rintro ⟨i, j⟩
    simp only [List.mem_flatMap, List.mem_range, List.mem_map, Prod.mk.injEq]
    constructor
    · rintro ⟨x, hx, y, hy, rfl, rfl⟩; exact ⟨hx, hy⟩
    · rintro ⟨h1, h2⟩; exact ⟨i, h1, j, h2, rfl, rfl⟩
  have hdm : ∀ i j, j < as.length → (i * as.length + j) % as.length = j ∧ (i * as.length + j) / as.length = i := by
    intro i j hj
    rw [Nat.add_comm, Nat.add_mul_mod_self_right, Nat.mod_eq_of_lt hj, Nat.add_mul_div_right _ _ hn0,
      Nat.div_eq_of_lt hj]
    simp
  obtain ⟨b, hb, h1, h2, h3, h4, h5, h6⟩ := foldlM_writes
    (fun ij : Nat × Nat => ij.1 * as.length + ij.2) (fun ij => (as[ij.2]?).bind fun a => a.p[ij.1]?)
    (fun k => (as[k % as.length]?).bind fun a => a.p[k / as.length]?)
    ((List.range d.prod).flatMap fun i => (List.range as.length).map fun j => (i, j)) r
    (fun ij hij => by
      obtain ⟨hi, hj⟩ := (hmem ij).1 hij
      rw [hlen]
      have : (ij.1 + 1) * as.length ≤ d.prod * as.length := Nat.mul_le_mul_right _ hi
      rw [Nat.add_mul, Nat.one_mul, Nat.mul_comm d.prod] at this
      omega)
    (fun ij hij => by
      obtain ⟨hi, hj⟩ := (hmem ij).1 hij
      obtain ⟨e1, e2⟩ := hdm ij.1 ij.2 hj
      simp only [e1, e2])
    (fun ij hij => by
      obtain ⟨hi, hj⟩ := (hmem ij).1 hij
      obtain ⟨a, v, e1, e2⟩ := hval ij.1 ij.2 hi hj
      simp [e1, e2])
  have hbs := hrs.congr h1 h2 h5
  have hbd : b.dims = as.length :: d := h1
  refine ⟨b, ?_, hbs, h1, ?_⟩
  · rw [← hb]
    congr 1
    funext c ij
    cases h : as[ij.2]? <;> simp
  · intro j a hj x hx
    have hjl : j < as.length := by
      by_contra hc; rw [List.getElem?_eq_none (by omega)] at hj; cases hj
    have ha := h.2 a (List.mem_of_getElem? hj)
    have hvx : ValidIdx (j :: x) b.dims := by rw [hbd]; exact List.Forall₂.cons hjl hx
    have hscale : ∀ (p : Nat) (xs ss : List Nat), dot xs (strides (p) ss) = p * dot xs (strides 1 ss) := by
      intro p xs ss
      have key : ∀ (xs ss : List Nat) (p q : Nat), dot xs (strides (p * q) ss) = p * dot xs (strides q ss) := by
        intro xs
        induction xs with
        | nil => intros; simp [dot]
        | cons x xs ih =>
          intro ss p q
          cases ss with
          | nil => simp [dot, strides]
          | cons s ss =>
            simp only [strides, dot, Nat.mul_assoc, ih, Nat.mul_add]
            congr 1
            rw [Nat.mul_left_comm]
      simpa using key xs ss p 1
    have hdot : dot (j :: x) (strides 1 (as.length :: d)) = dot x (strides 1 d) * as.length + j := by
      simp only [strides, dot, one_mul, mul_one, hscale as.length]
      rw [Nat.mul_comm, Nat.add_comm]
    obtain ⟨e1, e2⟩ := hdm (dot x (strides 1 d)) j hjl
    rw [get_valid hbs hvx, hbd, hdot, h6,
      if_pos ⟨(dot x (strides 1 d), j), (hmem _).2 ⟨dot_lt _ _ _ rfl hx, hjl⟩, rfl⟩]
    simp only [e1, e2, hj, Option.bind_some]
    rw [get_valid ha.1 (by rw [ha.2]; exact hx), ha.2]

/-- **C40 (slice_time).** For an array whose last dimension has size `nt`, `slice_time(t)` with `t < nt` drops that
dimension and holds at `x` the element at `(x, t)`. -/
theorem C40_slice_time (a : Nd T) (h : Shaped a) (d : List Nat) (nt : Nat) (hd : a.dims = d ++ [nt]) (hne : d ≠ [])
    (t : Nat) (ht : t < nt) :
    ∃ b, a.sliceTime t = some b ∧ Shaped b ∧ b.dims = d ∧ b.ncd = 0 ∧ b.tv = false ∧
      ∀ x, ValidIdx x d → b.get x = a.get (x ++ [t]) := by
  have hnd : a.nd - 1 = d.length := by simp [Nd.nd, hd]
  have hdl : a.dims.take (a.nd - 1) = d := by rw [hnd, hd]; simp
  have hsl : a.s[a.nd - 1]? = some d.prod := by
    rw [h.str, hd, strides_append, hnd, List.getElem?_append_right (by rw [strides_length])]
    simp [strides_length]
  have hal : a.p.length = d.prod * nt := by rw [h.len, hd]; simp
  have hbound : t * d.prod + d.prod ≤ a.p.length := by
    have : (t + 1) * d.prod ≤ nt * d.prod := Nat.mul_le_mul_right _ ht
    rw [Nat.add_mul, Nat.one_mul] at this
    rw [hal, Nat.mul_comm d.prod]; exact this
  unfold Nd.sliceTime
  rw [hdl, reshape_eq _ _ hne, Option.bind_some, hsl, Option.bind_some]
  have hrl : (resize d.prod ([] : List T)).length = d.prod := resize_length _ _
  rw [if_pos ⟨hbound, by simp [hrl]⟩]
  set b : Nd T := { ({} : Nd T) with dims := d, s := strides 1 d,
                                      p := (a.p.drop (t * d.prod)).take d.prod ++ (resize d.prod []).drop d.prod } with hb
  have hbp : b.p = (a.p.drop (t * d.prod)).take d.prod := by
    simp only [hb]
    have e : (resize d.prod ([] : List T)).drop d.prod = [] := List.drop_eq_nil_of_le (by rw [hrl])
    rw [e, List.append_nil]
  have hbs : Shaped b := ⟨hne, rfl, by rw [hbp]; simp [hb]; omega⟩
  refine ⟨b, rfl, hbs, rfl, rfl, rfl, ?_⟩
  intro x hx
  have hxl := hx.length
  have hlt := dot_lt _ _ _ rfl hx
  have hvx : ValidIdx (x ++ [t]) a.dims := by rw [hd]; exact (validIdx_append hxl).2 ⟨hx, ht⟩
  rw [get_valid hbs hx, get_valid h hvx, hbp, hd, strides_append, dot_append _ _ _ _ (by rw [strides_length, hxl]),
    List.getElem?_take_of_lt hlt, List.getElem?_drop, one_mul, Nat.add_comm]

/-- **C40 (slice_time undoes stack).** `slice_time(j)` of a stack of arrays of one shape has the shape and the data of
the `j`-th array. -/
theorem C40_stack_slice_time (as : List (Nd T)) (d : List Nat) (h : SameShape as d) :
    ∃ r, stack as = some r ∧
      ∀ (j : Nat) (a : Nd T), as[j]? = some a →
        ∃ b, r.sliceTime j = some b ∧ b.dims = a.dims ∧ b.s = a.s ∧ b.p = a.p := by
  obtain ⟨r, hr, hrs, hrd, hv⟩ := C40_stack as d h
  refine ⟨r, hr, ?_⟩
  intro j a hj
  have hjl : j < as.length := by
    by_contra hc; rw [List.getElem?_eq_none (by omega)] at hj; cases hj
  have ha := h.2 a (List.mem_of_getElem? hj)
  have hne : d ≠ [] := ha.2 ▸ ha.1.ne
  obtain ⟨b, hb, hbs, hbd, -, -, hbg⟩ := C40_slice_time r hrs d as.length hrd hne j hjl
  have hbd' : b.dims = a.dims := by rw [hbd, ha.2]
  have := shaped_ext ha.1 hbs hbd' (fun idx hx => by
    rw [ha.2] at hx
    rw [hbg idx hx, hv j a hj idx hx])
  exact ⟨b, hb, hbd', this.2, this.1⟩

/-- **C40 (finding).** A one-dimensional array cannot be sliced in time: `slice_time` aborts. -/
theorem C40_slice_time_1d (a : Nd T) (h : a.nd = 1) (t : Nat) : a.sliceTime t = none := by
  simp [Nd.sliceTime, h, reshape_nil]

/-- **C40 (finding).** `subarray` of a multicomponent array by a spatial lattice is undefined, whatever the lattice. -/
theorem C40_subarray_multicomponent (a : Nd T) (hc : 0 < a.ncd) (l : Lat.Lattice) (hl : l.ndCuttable < a.nd) :
    a.subarray l = none := by
  simp [Nd.subarray, hc, hl]

/-- Stacking two 2 x 2 arrays and slicing in time; slicing a 3 x 3 array. -/
example : SameShape [({ dims := [2, 2], s := [1, 2], p := [1, 2, 3, 4] } : Nd Nat),
      { dims := [2, 2], s := [1, 2], p := [5, 6, 7, 8] }] [2, 2] := by
  refine ⟨by simp, ?_⟩
  intro a ha
  simp only [List.mem_cons, List.not_mem_nil, or_false] at ha
  rcases ha with rfl | rfl <;> exact ⟨⟨by simp, by simp [strides], by simp⟩, rfl⟩

example : ((stack [({ dims := [2, 2], s := [1, 2], p := [1, 2, 3, 4] } : Nd Nat),
      { dims := [2, 2], s := [1, 2], p := [5, 6, 7, 8] }]).bind fun r => r.sliceTime 1).map (·.p) = some [5, 6, 7, 8] := by
  decide

example : ((({ dims := [3, 3], s := [1, 3], p := [0, 1, 2, 3, 4, 5, 6, 7, 8] } : Nd Nat).slice ⟨[1, 0], [2, 2]⟩).map
    (·.p)) = some [1, 2, 4, 5] := by decide

end Verif.ND
