import Verif.Mesh.Index
/-! C12-C16, C56: the simplicial mesh of a regular grid. -/
namespace Verif.SRM

/-! ### C15 -/

/-- C15: `subdivide_unit_cube(n)` returns `n!` simplices, all distinct, and they are exactly the
chains of `n+1` cube vertices that start at the origin and rise strictly (hence, there being only `n`
coordinates, by one coordinate at a time up to `1...1`). -/
theorem C15_subdivision_is_kuhn (n : Nat) (hn : 1 ≤ n) :
    (subdivide n).length = n.factorial ∧ (subdivide n).Nodup ∧
    ∀ s, s ∈ subdivide n ↔ Kuhn n n s :=
  ⟨subdivide_length n hn, subdivide_nodup n, fun s => ⟨subdivide_kuhn n s, kuhn_subdivide n s hn⟩⟩

/-- C15: the types of dimension `k` are exactly the `k`-dimensional faces, attached to the origin, of
that triangulation, each once. -/
theorem C15_unit_simplices (n k : Nat) (hn : 1 ≤ n) (hk : k ≤ n) :
    (unitSimplices n k).Nodup ∧ ∀ s, s ∈ unitSimplices n k ↔ Kuhn n k s :=
  ⟨unitSimplices_nodup n k, mem_unitSimplices hn hk⟩

example : [[0,0],[0,1],[1,1]] ∈ subdivide 2 := by decide
example : subdivide 2 = [[[0,0],[0,1],[1,1]], [[0,0],[1,0],[1,1]]] := by decide
example : unitSimplices 2 1 = [[[0,0],[0,1]], [[0,0],[1,0]], [[0,0],[1,1]]] := by decide

/-! ### C14 -/

/-- C14: `sides()` of an element of dimension `k+1` lists, without repetition, exactly the `k+2`
elements whose vertex lists are its own with one vertex left out. -/
theorem C14_sides (n : Nat) (hn : 1 ≤ n) (e : Elem) (ve : Simplex) (k : Nat) (hd : e.dim = k + 1)
    (hk : k + 1 ≤ n) (hc : e.corner.length = n) (hv : e.vertices n = some ve) :
    ∃ S, e.sides n = some S ∧ S.Nodup ∧ S.length = k + 2 ∧
      ∀ f : Elem, f ∈ S ↔ f.corner.length = n ∧ f.dim = k ∧
        ∃ vf, f.vertices n = some vf ∧ DropsOne ve vf :=
  sides_spec hn hd hk hc hv

/-- C14: `side_of()` of an element of dimension `k` lists, without repetition, exactly the elements of
dimension `k+1` that have it as a face. -/
theorem C14_side_of (n : Nat) (hn : 1 ≤ n) (f : Elem) (vf : Simplex) (k : Nat) (hd : f.dim = k)
    (hk : k + 1 ≤ n) (hc : f.corner.length = n) (hv : f.vertices n = some vf) :
    ∃ S, f.sideOf n = some S ∧ S.Nodup ∧
      ∀ e : Elem, e ∈ S ↔ e.corner.length = n ∧ e.dim = k + 1 ∧
        ∃ ve, e.vertices n = some ve ∧ DropsOne ve vf :=
  sideOf_spec hn hd hk hc hv

theorem vertices_exists {n : Nat} {e : Elem} (h : e.type < ntypes n e.dim) :
    ∃ v, e.vertices n = some v := by
  unfold ntypes at h
  unfold Elem.vertices
  rw [List.getElem?_eq_getElem h]
  exact ⟨_, rfl⟩

theorem type_lt_of_vertices {n : Nat} {e : Elem} {v : Simplex} (h : e.vertices n = some v) :
    e.type < ntypes n e.dim := by
  unfold Elem.vertices at h
  split at h
  · cases h
  · rename_i s hs
    exact (List.getElem?_eq_some_iff.1 hs).1

/-- C14: duality.  For all elements `e` of dimension `k+1` and `f` of dimension `k`, both calls
succeed and `f` is among the sides of `e` iff `e` is among the elements `f` is a side of. -/
theorem C14_sides_side_of_dual (n : Nat) (hn : 1 ≤ n) (e f : Elem) (k : Nat) (hk : k + 1 ≤ n)
    (hed : e.dim = k + 1) (hfd : f.dim = k) (hec : e.corner.length = n) (hfc : f.corner.length = n)
    (het : e.type < ntypes n e.dim) (hft : f.type < ntypes n f.dim) :
    ∃ S T, e.sides n = some S ∧ f.sideOf n = some T ∧ (f ∈ S ↔ e ∈ T) := by
  obtain ⟨ve, hve⟩ := vertices_exists het
  obtain ⟨vf, hvf⟩ := vertices_exists hft
  obtain ⟨S, hS, -, -, hS'⟩ := sides_spec hn hed hk hec hve
  obtain ⟨T, hT, -, hT'⟩ := sideOf_spec hn hfd hk hfc hvf
  refine ⟨S, T, hS, hT, ?_⟩
  rw [hS', hT']
  constructor
  · rintro ⟨-, -, vf', h1, h2⟩
    rw [hvf] at h1; cases h1
    exact ⟨hec, hed, ve, hve, h2⟩
  · rintro ⟨-, -, ve', h1, h2⟩
    rw [hve] at h1; cases h1
    exact ⟨hfc, hfd, vf, hvf, h2⟩

/-- C14: vertices have no sides and full-dimensional elements are sides of nothing. -/
theorem C14_extreme_dimensions (n : Nat) (e : Elem) :
    (e.dim = 0 → e.sides n = some []) ∧ (e.dim = n → e.sideOf n = some []) := by
  constructor
  · intro h; simp [Elem.sides, unitSides, h]
  · intro h; simp [Elem.sideOf, unitSideOf, h]

example : Elem.sides 2 ⟨[3, 5], 2, 0⟩ = some [⟨[3, 5], 1, 0⟩, ⟨[3, 6], 1, 1⟩, ⟨[3, 5], 1, 2⟩] := by decide
example : Elem.sideOf 2 ⟨[3, 6], 1, 1⟩ = some [⟨[3, 5], 2, 0⟩, ⟨[3, 6], 2, 1⟩] := by decide

/-! ### C12 -/

/-- C12: `to_integer` of a valid element is a number below `n(d)` from which `from_integer` rebuilds
the element. -/
theorem C12_from_to (n : Nat) (hn : 1 ≤ n) (b : Bounds) (hl : b.lb.length = n) (hu : b.ub.length = n)
    (e : Elem) (he : Valid n b e) :
    ∃ i : Nat, e.toInteger n b = (i : Int) ∧ i < ntypes n e.dim * b.sizes.prod ∧
      fromInteger n b e.dim i = e := by
  obtain ⟨hd, ht, hc⟩ := he
  obtain ⟨lb, ub⟩ := b
  obtain ⟨c, d, t⟩ := e
  simp only at hl hu hd ht hc
  obtain ⟨ys, hv, rfl⟩ := (inBounds_iff lb ub c (by omega)).1 hc
  have hlen : ys.length = lb.length := shiftI_inj_valid (b := ⟨lb, ub⟩) hv (by simp; omega)
  have hlt := dot_lt _ ys _ rfl hv
  refine ⟨dot ys (strides 1 (Bounds.sizes ⟨lb, ub⟩)) * ntypes n d + t, ?_, ?_, ?_⟩
  · simp only [Elem.toInteger, Bounds.dimprod]
    rw [cornerIndex_shiftI _ _ _ hlen]
    push_cast; rfl
  · have : (dot ys (strides 1 (Bounds.sizes ⟨lb, ub⟩)) + 1) * ntypes n d ≤
        (Bounds.sizes ⟨lb, ub⟩).prod * ntypes n d := Nat.mul_le_mul_right _ hlt
    rw [Nat.add_mul] at this
    simp only
    rw [Nat.mul_comm (ntypes n d)]
    omega
  · have hpos : 0 < ntypes n d := by omega
    have hdiv : (dot ys (strides 1 (Bounds.sizes ⟨lb, ub⟩)) * ntypes n d + t) / ntypes n d =
        dot ys (strides 1 (Bounds.sizes ⟨lb, ub⟩)) := by
      rw [Nat.add_comm, Nat.add_mul_div_right _ _ hpos, Nat.div_eq_of_lt ht, Nat.zero_add]
    have hmod : (dot ys (strides 1 (Bounds.sizes ⟨lb, ub⟩)) * ntypes n d + t) % ntypes n d = t := by
      rw [Nat.add_comm, Nat.add_mul_mod_self_right, Nat.mod_eq_of_lt ht]
    have hsl : (Bounds.sizes ⟨lb, ub⟩).length = n - 1 + 1 := by
      rw [sizes_length (by simp; omega)]; simp; omega
    simp only [fromInteger, hdiv, hmod, Bounds.dimprod]
    rw [divRev_strides _ (by intro e; rw [e] at hsl; simp at hsl), decode_dot _ _ _ hsl hv]
    rfl

/-- C12: every number below `n(d)` is the integer of exactly the element `from_integer` builds, which
is valid. -/
theorem C12_to_from (n : Nat) (hn : 1 ≤ n) (b : Bounds) (hl : b.lb.length = n) (hu : b.ub.length = n)
    (d : Nat) (hd : d ≤ n) (i : Nat) (hi : i < ntypes n d * b.sizes.prod) :
    Valid n b (fromInteger n b d i) ∧ (fromInteger n b d i).toInteger n b = (i : Int) := by
  have hpos := ntypes_pos hn hd
  have hsl : b.sizes.length = n - 1 + 1 := by rw [sizes_length (by omega)]; omega
  have hne : b.sizes ≠ [] := by intro e; rw [e] at hsl; simp at hsl
  obtain ⟨hv, he⟩ := dot_decode _ b.sizes (i / ntypes n d) hsl (Nat.div_lt_of_lt_mul hi)
  have hc : (fromInteger n b d i).corner = shiftI (decode (strides 1 b.sizes) (i / ntypes n d)) b.lb := by
    simp only [fromInteger, Bounds.dimprod]
    rw [divRev_strides _ hne]; rfl
  refine ⟨⟨hd, Nat.mod_lt _ hpos, ?_⟩, ?_⟩
  · obtain ⟨lb, ub⟩ := b
    simp only at hl hu
    rw [inBounds_iff lb ub _ (by omega)]
    exact ⟨_, hv, hc⟩
  · unfold Elem.toInteger
    rw [hc, Bounds.dimprod, cornerIndex_shiftI _ _ _ (shiftI_inj_valid hv (by omega)), he]
    simp only [fromInteger]
    have := Nat.mod_add_div i (ntypes n d)
    rw [Nat.mul_comm] at this
    omega

/-- C12: distinct elements of one dimension get distinct integers. -/
theorem C12_to_integer_injective (n : Nat) (hn : 1 ≤ n) (b : Bounds) (hl : b.lb.length = n)
    (hu : b.ub.length = n) (e f : Elem) (he : Valid n b e) (hf : Valid n b f) (hd : e.dim = f.dim)
    (h : e.toInteger n b = f.toInteger n b) : e = f := by
  obtain ⟨i, h1, -, h2⟩ := C12_from_to n hn b hl hu e he
  obtain ⟨j, h3, -, h4⟩ := C12_from_to n hn b hl hu f hf
  have : i = j := by omega
  subst this
  rw [← h2, ← h4, hd]

example : Valid 2 ⟨[-1, 2], [3, 6]⟩ ⟨[2, 5], 1, 2⟩ := by
  refine ⟨by decide, by decide, by decide, ?_⟩
  intro i l u x e1 e2 e3
  match i with
  | 0 => simp at e1 e2 e3; omega
  | 1 => simp at e1 e2 e3; omega
  | i + 2 => simp at e1
example : Elem.toInteger 2 ⟨[-1, 2], [3, 6]⟩ ⟨[2, 5], 1, 2⟩ = 56 ∧
    fromInteger 2 ⟨[-1, 2], [3, 6]⟩ 1 56 = ⟨[2, 5], 1, 2⟩ := by decide

/-- C12 (limit): elements of different dimensions may share an integer: the key of a distributed map
must be used for one dimension only. -/
theorem C12_dimensions_collide (n : Nat) (b : Bounds) :
    Elem.toInteger n b ⟨b.lb, 0, 0⟩ = Elem.toInteger n b ⟨b.lb, 1, 0⟩ := by
  have : ∀ (l : List Int) (ps : List Nat), cornerIndex l l ps = 0 := by
    intro l
    induction l with
    | nil => intro ps; simp [cornerIndex]
    | cons a l ih => intro ps; cases ps <;> simp [cornerIndex, ih]
  simp [Elem.toInteger, this]

/-! ### C16 -/

theorem cube_last {n : Nat} {v : Vtx} (hn : 1 ≤ n) (h : Cube n v) :
    ∃ x, v[n - 1]? = some x ∧ (x = 0 ∨ x = 1) ∧ v.getD (n - 1) 0 = x := by
  have : n - 1 < v.length := by rw [h.1]; omega
  refine ⟨v[n - 1], List.getElem?_eq_getElem this, h.2 _ (List.getElem_mem this), ?_⟩
  simp [List.getD, List.getElem?_eq_getElem this]

theorem timeSum_nonneg {n : Nat} (hn : 1 ≤ n) : ∀ {s : Simplex}, (∀ v ∈ s, Cube n v) → 0 ≤ timeSum n s ∧
    (timeSum n s = 0 ↔ ∀ v ∈ s, AtTime n v 0) := by
  intro s
  induction s with
  | nil => intro _; simp [timeSum]
  | cons a as ih =>
    intro h
    obtain ⟨h1, h2⟩ := ih (fun v hv => h v (by simp [hv]))
    obtain ⟨x, hx, hx01, hg⟩ := cube_last hn (h a (by simp))
    have hs : timeSum n (a :: as) = x + timeSum n as := by
      unfold timeSum; rw [List.map_cons, List.sum_cons, hg]
    rw [hs]
    refine ⟨by omega, ?_⟩
    simp only [List.mem_cons, forall_eq_or_imp, ← h2]
    unfold AtTime
    rw [hx, Option.some_inj]
    omega

theorem isOrdinal_iff {n d t : Nat} {s : Simplex} (hn : 1 ≤ n) (hd : d ≤ n)
    (hs : (unitSimplices n d)[t]? = some s) :
    isOrdinalType n d t = true ↔ ∀ v ∈ s, AtTime n v 0 := by
  have hK := unit_get hn hd hs
  unfold isOrdinalType
  by_cases h0 : d = 0
  · subst h0
    simp only [if_pos]
    have hlen := hK.len
    have : s = [List.replicate n 0] := by
      have hh := hK.head
      match s, hlen with
      | [a], _ => simp at hh; rw [hh]
    have h1 : (unitSimplices n 0)[0]? = some [List.replicate n 0] := by
      have hp := ntypes_pos (k := 0) hn (by omega)
      unfold ntypes at hp
      have hK' := unit_get hn (Nat.zero_le n) (List.getElem?_eq_getElem hp)
      rw [List.getElem?_eq_getElem hp]
      have hl := hK'.len
      have hh := hK'.head
      generalize (unitSimplices n 0)[0] = q at *
      match q, hl with
      | [a], _ => simp at hh; rw [hh]
    subst this
    have ht : t = 0 := unit_inj hs h1
    subst ht
    simp only [beq_self_eq_true, true_iff]
    intro v hv
    simp at hv; subst hv
    unfold AtTime
    rw [List.getElem?_replicate, if_pos (by omega)]
  · rw [if_neg h0, hs]
    simp only [beq_iff_eq]
    exact (timeSum_nonneg hn hK.cube).2

theorem ntypes_zero {n : Nat} (hn : 1 ≤ n) : ntypes n 0 = 1 := by
  have hp := ntypes_pos (k := 0) hn (by omega)
  by_contra hne
  have h1 : 1 < ntypes n 0 := by omega
  unfold ntypes at hp h1
  have hK0 := unit_get hn (Nat.zero_le n) (List.getElem?_eq_getElem hp)
  have hK1 := unit_get hn (Nat.zero_le n) (List.getElem?_eq_getElem h1)
  have key : ∀ q : Simplex, Kuhn n 0 q → q = [List.replicate n 0] := by
    intro q hq
    have hl := hq.len
    have hh := hq.head
    match q, hl with
    | [a], _ => simp at hh; rw [hh]
  have e : (unitSimplices n 0)[0]? = (unitSimplices n 0)[1]? := by
    rw [List.getElem?_eq_getElem hp, List.getElem?_eq_getElem h1, key _ hK0, key _ hK1]
  have := unit_inj (List.getElem?_eq_getElem hp) (e ▸ List.getElem?_eq_getElem hp)
  omega

theorem mem_scopeTypes {n d : Nat} (hn : 1 ≤ n) (sc : Scope) (t : Nat) :
    t ∈ scopeTypes n d sc ↔ t < ntypes n d ∧
      match sc with
      | .all => True
      | .ordinal => isOrdinalType n d t = true
      | .interval => isOrdinalType n d t = false := by
  cases sc with
  | all => simp [scopeTypes]
  | ordinal =>
    unfold scopeTypes
    by_cases h : d = 0
    · subst h; simp [isOrdinalType, ntypes_zero hn]
    · simp [h]
  | interval =>
    unfold scopeTypes
    by_cases h : d = 0
    · subst h; simp [isOrdinalType, ntypes_zero hn]
    · simp [h]

theorem scopeTypes_nodup (n d : Nat) (sc : Scope) : (scopeTypes n d sc).Nodup := by
  cases sc with
  | all => exact List.nodup_range
  | ordinal =>
    simp only [scopeTypes]
    split
    · simp
    · exact List.nodup_range.filter _
  | interval =>
    simp only [scopeTypes]
    split
    · simp
    · exact List.nodup_range.filter _

/-- C16: every type of a dimension is in exactly one of the ordinal and the interval table, and the
tables contain nothing else and nothing twice. -/
theorem C16_ordinal_interval_partition (n d : Nat) (hn : 1 ≤ n) :
    (scopeTypes n d .ordinal).Nodup ∧ (scopeTypes n d .interval).Nodup ∧
    ∀ t, ((t ∈ scopeTypes n d .ordinal ∨ t ∈ scopeTypes n d .interval) ↔ t < ntypes n d) ∧
      ¬ (t ∈ scopeTypes n d .ordinal ∧ t ∈ scopeTypes n d .interval) := by
  refine ⟨scopeTypes_nodup _ _ _, scopeTypes_nodup _ _ _, fun t => ?_⟩
  rw [mem_scopeTypes hn, mem_scopeTypes hn]
  simp only
  cases h : isOrdinalType n d t <;> simp

theorem translate_get {c v : Vtx} {n : Nat} {x t : Int} {i : Nat} (hc : c[i]? = some t) (hv : v[i]? = some x)
    (_ : i < n) : (translate c v)[i]? = some (t + x) := by
  unfold translate
  rw [List.getElem?_zipWith, hc, hv]

theorem vertices_unit {n : Nat} {e : Elem} {ve : Simplex} (h : e.vertices n = some ve) :
    ∃ s, (unitSimplices n e.dim)[e.type]? = some s ∧ ve = s.map (translate e.corner) := by
  unfold Elem.vertices at h
  split at h
  · cases h
  · rename_i s hs
    cases h
    exact ⟨s, hs, rfl⟩

/-- C16: an element whose corner is at time `t` has an ordinal type iff all its vertices are at time
`t`, and an interval type iff its vertices are at `t` and `t+1`, both occurring. -/
theorem C16_times (n : Nat) (hn : 1 ≤ n) (e : Elem) (hd : e.dim ≤ n) (hc : e.corner.length = n)
    (t : Int) (ht : AtTime n e.corner t) (ve : Simplex) (hv : e.vertices n = some ve) :
    (e.type ∈ scopeTypes n e.dim .ordinal ↔ ∀ v ∈ ve, AtTime n v t) ∧
    (e.type ∈ scopeTypes n e.dim .interval ↔
      (∀ v ∈ ve, AtTime n v t ∨ AtTime n v (t + 1)) ∧ (∃ v ∈ ve, AtTime n v t) ∧
        ∃ v ∈ ve, AtTime n v (t + 1)) := by
  obtain ⟨s, hs, rfl⟩ := vertices_unit hv
  have hlt := type_lt_of_vertices hv
  have hK := unit_get hn hd hs
  have hio := isOrdinal_iff hn hd hs
  have key : ∀ v ∈ s, ∀ x : Int, AtTime n v x ↔ AtTime n (translate e.corner v) (t + x) := by
    intro v hv x
    obtain ⟨y, hy, -, -⟩ := cube_last hn (hK.cube v hv)
    unfold AtTime at *
    rw [translate_get (n := n) ht hy (by omega), hy, Option.some_inj, Option.some_inj]
    omega
  rw [mem_scopeTypes hn, mem_scopeTypes hn]
  simp only [hlt, true_and]
  have hord : isOrdinalType n e.dim e.type = true ↔ ∀ v ∈ s.map (translate e.corner), AtTime n v t := by
    rw [hio]
    simp only [List.mem_map, forall_exists_index, and_imp, forall_apply_eq_imp_iff₂]
    constructor
    · intro h v hv; have := (key v hv 0).1 (h v hv); simpa using this
    · intro h v hv; exact (key v hv 0).2 (by simpa using h v hv)
  refine ⟨hord, ?_⟩
  constructor
  · intro h
    have hall : ∀ v ∈ s, AtTime n v 0 ∨ AtTime n v 1 := by
      intro v hv
      obtain ⟨x, hx, h01, -⟩ := cube_last hn (hK.cube v hv)
      rcases h01 with rfl | rfl
      · exact Or.inl hx
      · exact Or.inr hx
    refine ⟨?_, ?_, ?_⟩
    · intro v hv
      obtain ⟨u, hu, rfl⟩ := List.mem_map.1 hv
      rcases hall u hu with h' | h'
      · exact Or.inl (by simpa using (key u hu 0).1 h')
      · exact Or.inr ((key u hu 1).1 h')
    · have hh := hK.head
      cases s with
      | nil => simp at hh
      | cons a as =>
        refine ⟨translate e.corner a, by simp, ?_⟩
        simp at hh
        have : AtTime n a 0 := by
          unfold AtTime; rw [hh, List.getElem?_replicate, if_pos (by omega)]
        simpa using (key a (by simp) 0).1 this
    · have : ¬ ∀ v ∈ s, AtTime n v 0 := by rw [← hio]; simp [h]
      push Not at this
      obtain ⟨v, hv, hv0⟩ := this
      refine ⟨translate e.corner v, List.mem_map.2 ⟨v, hv, rfl⟩, ?_⟩
      rcases hall v hv with h' | h'
      · exact absurd h' hv0
      · exact (key v hv 1).1 h'
  · rintro ⟨-, -, v, hv, hv1⟩
    cases hb : isOrdinalType n e.dim e.type with
    | false => rfl
    | true =>
      have := hord.1 hb v hv
      unfold AtTime at this hv1
      rw [this, Option.some_inj] at hv1
      omega

example : scopeTypes 2 1 .ordinal = [1] ∧ scopeTypes 2 1 .interval = [0, 2] := by decide
example : (⟨[3, 9], 1, 2⟩ : Elem).vertices 2 = some [[3, 9], [4, 10]] := by decide

/-! ### C13 -/

/-- number of types of a scope: `ntypes(d, scope)`; `from_work_index` succeeds on every task -/
theorem fromWorkIndex_spec {n d : Nat} {l : Lat.Lattice} (hl : l.Wf) (sc : Scope) {i : Nat}
    (hi : i < l.sizes.prod * (scopeTypes n d sc).length) :
    ∃ t c, (scopeTypes n d sc)[i % (scopeTypes n d sc).length]? = some t ∧
      l.fromInteger (i / (scopeTypes n d sc).length) = some c ∧ Lat.InBox l c ∧
      l.toInteger c = some ((i / (scopeTypes n d sc).length : Nat) : Int) ∧
      fromWorkIndex n d i l sc = some ⟨c, d, t⟩ := by
  have hpos : 0 < (scopeTypes n d sc).length := by
    rcases Nat.eq_zero_or_pos (scopeTypes n d sc).length with h | h
    · rw [h] at hi; omega
    · exact h
  have h1 := Nat.mod_lt i hpos
  obtain ⟨c, hc1, hc2, hc3⟩ := (Lat.C08_lattice_index_bijection l hl).2.2 (i / (scopeTypes n d sc).length)
    (Nat.div_lt_of_lt_mul (by rw [Nat.mul_comm]; exact hi))
  refine ⟨_, c, List.getElem?_eq_getElem h1, hc1, hc2, hc3, ?_⟩
  unfold fromWorkIndex
  simp only [List.getElem?_eq_getElem h1, hc1]

/-- C13: `element_for(d, l, scope, f)`, for every lattice, scope, thread count and schedule, once all
threads have finished, has called `f` exactly once on every element of dimension `d` whose corner is
in `l` and whose type is of the scope, and on nothing else. -/
theorem C13_element_for_exactly_once (n d : Nat) (l : Lat.Lattice) (hl : l.Wf) (sc : Scope)
    (ntasks : Nat) (hnt : elementForTasks n d l sc = some ntasks)
    (nthreads : Int) (hth : 1 ≤ nthreads) (sched : List Nat)
    (hfin : (Par.PF.run ntasks nthreads (Par.PF.init ntasks nthreads) sched).Finished ntasks) :
    let calls := elementForCalls n d l sc (Par.PF.run ntasks nthreads (Par.PF.init ntasks nthreads) sched).trace
    calls.Nodup ∧ ∀ c, c ∈ calls ↔ ∃ e : Elem, c = some e ∧ Lat.InBox l e.corner ∧ e.dim = d ∧
      e.type ∈ scopeTypes n d sc := by
  have hN : ntasks = l.sizes.prod * (scopeTypes n d sc).length := by
    unfold elementForTasks at hnt
    rw [(Lat.C08_lattice_index_bijection l hl).1] at hnt
    simpa using hnt.symm
  have hperm := Par.C07_parallel_for_exactly_once ntasks nthreads hth sched hfin
  have hcalls : (elementForCalls n d l sc
      (Par.PF.run ntasks nthreads (Par.PF.init ntasks nthreads) sched).trace).Perm
      ((List.range ntasks).map (fun i => fromWorkIndex n d i l sc)) := by
    unfold elementForCalls
    refine (hperm.map _).trans (List.Perm.of_eq ?_)
    rw [List.map_map]
    simp only [Int.toNat_natCast]
    apply List.map_congr_left
    intro i _
    simp
  intro calls
  have hlen : ∀ i, i < ntasks → 0 < (scopeTypes n d sc).length := by
    intro i hi
    rcases Nat.eq_zero_or_pos (scopeTypes n d sc).length with h | h
    · rw [h] at hN; omega
    · exact h
  constructor
  · refine hcalls.nodup_iff.2 ?_
    rw [List.nodup_map_iff_inj_on List.nodup_range]
    intro i hi j hj hij
    simp only [List.mem_range] at hi hj
    obtain ⟨t, c, h1, h2, -, h3, h4⟩ := fromWorkIndex_spec (n := n) (d := d) hl sc (hN ▸ hi)
    obtain ⟨t', c', h1', h2', -, h3', h4'⟩ := fromWorkIndex_spec (n := n) (d := d) hl sc (hN ▸ hj)
    rw [h4, h4'] at hij
    simp only [Option.some.injEq, Elem.mk.injEq] at hij
    obtain ⟨rfl, -, rfl⟩ := hij
    rw [h3] at h3'
    simp only [Option.some.injEq, Int.natCast_inj] at h3'
    obtain ⟨a1, b1⟩ := List.getElem?_eq_some_iff.1 h1
    obtain ⟨a2, b2⟩ := List.getElem?_eq_some_iff.1 h1'
    have hm := (List.Nodup.getElem_inj_iff (scopeTypes_nodup n d sc)).1 (b1.trans b2.symm)
    rw [← Nat.mod_add_div i (scopeTypes n d sc).length, ← Nat.mod_add_div j (scopeTypes n d sc).length,
      hm, h3']
  · intro x
    rw [hcalls.mem_iff]
    simp only [List.mem_map, List.mem_range]
    constructor
    · rintro ⟨i, hi, rfl⟩
      obtain ⟨t, c, h1, h2, h3, -, h4⟩ := fromWorkIndex_spec (n := n) (d := d) hl sc (hN ▸ hi)
      exact ⟨_, h4, h3, rfl, List.mem_of_getElem? h1⟩
    · rintro ⟨⟨c, d', t⟩, rfl, hc, hd', ht⟩
      simp only at hc hd' ht
      subst hd'
      obtain ⟨k, hk1, hk2, hk3⟩ := (Lat.C08_lattice_index_bijection l hl).2.1 c hc
      obtain ⟨j, hj, hj'⟩ := List.getElem_of_mem ht
      refine ⟨k * (scopeTypes n d' sc).length + j, ?_, ?_⟩
      · rw [hN]
        have : (k + 1) * (scopeTypes n d' sc).length ≤ l.sizes.prod * (scopeTypes n d' sc).length :=
          Nat.mul_le_mul_right _ hk2
        rw [Nat.add_mul] at this
        omega
      · have hpos : 0 < (scopeTypes n d' sc).length := by omega
        unfold fromWorkIndex
        simp only
        rw [Nat.add_comm, Nat.add_mul_mod_self_right, Nat.add_mul_div_right _ _ hpos,
          Nat.mod_eq_of_lt hj, Nat.div_eq_of_lt hj, Nat.zero_add, hk3, List.getElem?_eq_getElem hj, hj']

theorem timeSlab_wf {l : Lat.Lattice} (hl : l.Wf) (t : Nat) : (timeSlab l t).Wf := by
  obtain ⟨h1, h2⟩ := hl
  exact ⟨by simp [timeSlab, h1], by simpa [timeSlab] using h2⟩

/-- a corner is in the slab iff it is at time `t` and its spatial coordinates are in the lattice -/
theorem inBox_timeSlab {l : Lat.Lattice} (hl : l.Wf) (t : Nat) (c : Vtx) :
    Lat.InBox (timeSlab l t) c ↔ c.length = l.nd ∧ AtTime l.nd c t ∧
      ∀ (i s m : Nat) (x : Int), i + 1 < l.nd → l.starts[i]? = some s → l.sizes[i]? = some m → c[i]? = some x →
        (s : Int) ≤ x ∧ x < s + m := by
  obtain ⟨hw1, hw2⟩ := hl
  have hnd : l.nd = l.sizes.length := rfl
  constructor
  · rintro ⟨h1, h2⟩
    have hlen : c.length = l.nd := by simpa [timeSlab, Lat.Lattice.nd] using h1
    refine ⟨hlen, ?_, ?_⟩
    · have hlt : l.nd - 1 < c.length := by omega
      have := h2 (l.nd - 1) t 1 c[l.nd - 1] (by simp [timeSlab, List.getElem?_set]; omega)
        (by simp [timeSlab, List.getElem?_set]; omega) (List.getElem?_eq_getElem hlt)
      unfold AtTime
      rw [List.getElem?_eq_getElem hlt, Option.some_inj]
      omega
    · intro i s m x hi e1 e2 e3
      refine h2 i s m x ?_ ?_ e3
      · simp only [timeSlab, List.getElem?_set]; rw [if_neg (by omega)]; exact e1
      · simp only [timeSlab, List.getElem?_set]; rw [if_neg (by omega)]; exact e2
  · rintro ⟨h1, h2, h3⟩
    refine ⟨by simp [timeSlab, h1, hnd], ?_⟩
    intro i s m x e1 e2 e3
    simp only [timeSlab, List.getElem?_set] at e1 e2
    by_cases hi : l.nd - 1 = i
    · rw [if_pos hi, if_pos (by omega)] at e1 e2
      simp at e1 e2
      unfold AtTime at h2
      rw [hi, e3] at h2
      simp at h2
      omega
    · rw [if_neg hi] at e1 e2
      have : i < c.length := (List.getElem?_eq_some_iff.1 e3).1
      exact h3 i s m x (by omega) e1 e2 e3

/-- C13: `element_for_ordinal(d, t, f)` calls `f` exactly once on every element of dimension `d` that
lies, with all its vertices, in timestep `t` and whose spatial corner is in the mesh's lattice, and on
nothing else. -/
theorem C13_element_for_ordinal (n d : Nat) (hn : 1 ≤ n) (hd : d ≤ n) (l : Lat.Lattice) (hl : l.Wf)
    (hln : l.nd = n) (t : Nat)
    (ntasks : Nat) (hnt : elementForTasks n d (timeSlab l t) .ordinal = some ntasks)
    (nthreads : Int) (hth : 1 ≤ nthreads) (sched : List Nat)
    (hfin : (Par.PF.run ntasks nthreads (Par.PF.init ntasks nthreads) sched).Finished ntasks) :
    let calls := elementForCalls n d (timeSlab l t) .ordinal
      (Par.PF.run ntasks nthreads (Par.PF.init ntasks nthreads) sched).trace
    calls.Nodup ∧ ∀ c, c ∈ calls ↔ ∃ e : Elem, c = some e ∧ e.dim = d ∧ e.corner.length = n ∧
      (∃ ve, e.vertices n = some ve ∧ ∀ v ∈ ve, AtTime n v t) ∧
      ∀ (i s m : Nat) (x : Int), i + 1 < n → l.starts[i]? = some s → l.sizes[i]? = some m →
        e.corner[i]? = some x → (s : Int) ≤ x ∧ x < s + m := by
  intro calls
  obtain ⟨h1, h2⟩ := C13_element_for_exactly_once n d (timeSlab l t) (timeSlab_wf hl t) .ordinal ntasks
    hnt nthreads hth sched hfin
  refine ⟨h1, fun c => (h2 c).trans ?_⟩
  constructor
  · rintro ⟨e, rfl, hb, rfl, ht⟩
    rw [inBox_timeSlab hl] at hb
    obtain ⟨b1, b2, b3⟩ := hb
    rw [hln] at b1 b2 b3
    obtain ⟨ve, hve⟩ := vertices_exists ((mem_scopeTypes hn _ _).1 ht).1
    exact ⟨e, rfl, rfl, b1, ⟨ve, hve, ((C16_times n hn e hd b1 t b2 ve hve).1.1 ht)⟩, b3⟩
  · rintro ⟨e, rfl, rfl, hlen, ⟨ve, hve, hv⟩, hsp⟩
    obtain ⟨s, hs, rfl⟩ := vertices_unit hve
    have hK := unit_get hn hd hs
    have hat : AtTime n e.corner t := by
      have := hK.translate_head hlen
      exact hv _ (List.mem_of_mem_head? this)
    refine ⟨e, rfl, ?_, rfl, (C16_times n hn e hd hlen t hat _ hve).1.2 hv⟩
    rw [inBox_timeSlab hl, hln]
    exact ⟨hlen, hat, hsp⟩

/-- C13: `element_for_interval(d, t, t1, f)` calls `f` exactly once on every element of dimension `d`
with vertices in both timesteps `t` and `t+1` whose spatial corner is in the mesh's lattice, and on
nothing else; the argument `t1` has no effect. -/
theorem C13_element_for_interval (n d : Nat) (hn : 1 ≤ n) (hd : d ≤ n) (l : Lat.Lattice) (hl : l.Wf)
    (hln : l.nd = n) (t : Nat)
    (ntasks : Nat) (hnt : elementForTasks n d (timeSlab l t) .interval = some ntasks)
    (nthreads : Int) (hth : 1 ≤ nthreads) (sched : List Nat)
    (hfin : (Par.PF.run ntasks nthreads (Par.PF.init ntasks nthreads) sched).Finished ntasks) :
    let calls := elementForCalls n d (timeSlab l t) .interval
      (Par.PF.run ntasks nthreads (Par.PF.init ntasks nthreads) sched).trace
    calls.Nodup ∧ ∀ c, c ∈ calls ↔ ∃ e : Elem, c = some e ∧ e.dim = d ∧ e.corner.length = n ∧
      (∃ ve, e.vertices n = some ve ∧ (∃ v ∈ ve, AtTime n v t) ∧ (∃ v ∈ ve, AtTime n v (t + 1))) ∧
      ∀ (i s m : Nat) (x : Int), i + 1 < n → l.starts[i]? = some s → l.sizes[i]? = some m →
        e.corner[i]? = some x → (s : Int) ≤ x ∧ x < s + m := by
  intro calls
  obtain ⟨h1, h2⟩ := C13_element_for_exactly_once n d (timeSlab l t) (timeSlab_wf hl t) .interval ntasks
    hnt nthreads hth sched hfin
  refine ⟨h1, fun c => (h2 c).trans ?_⟩
  constructor
  · rintro ⟨e, rfl, hb, rfl, ht⟩
    rw [inBox_timeSlab hl] at hb
    obtain ⟨b1, b2, b3⟩ := hb
    rw [hln] at b1 b2 b3
    obtain ⟨ve, hve⟩ := vertices_exists ((mem_scopeTypes hn _ _).1 ht).1
    exact ⟨e, rfl, rfl, b1, ⟨ve, hve, ((C16_times n hn e hd b1 t b2 ve hve).2.1 ht).2⟩, b3⟩
  · rintro ⟨e, rfl, rfl, hlen, ⟨ve, hve, hv⟩, hsp⟩
    have hlt : n - 1 < e.corner.length := by omega
    -- the corner's own time
    obtain ⟨tc, htc⟩ : ∃ tc, AtTime n e.corner tc := ⟨e.corner[n - 1], List.getElem?_eq_getElem hlt⟩
    have h16 := C16_times n hn e hd hlen tc htc ve hve
    have htype : e.type ∈ scopeTypes n e.dim .interval := by
      obtain ⟨⟨v, hv1, hv2⟩, w, hw1, hw2⟩ := hv
      rcases ((C16_ordinal_interval_partition n e.dim hn).2.2 e.type).1.2 (type_lt_of_vertices hve) with ho | hi
      · have a := h16.1.1 ho v hv1
        have b := h16.1.1 ho w hw1
        unfold AtTime at *
        rw [a, Option.some_inj] at hv2
        rw [b, Option.some_inj] at hw2
        omega
      · exact hi
    obtain ⟨ha, hb, hc⟩ := h16.2.1 htype
    have hat : tc = t := by
      obtain ⟨⟨v, hv1, hv2⟩, w, hw1, hw2⟩ := hv
      unfold AtTime at *
      have a1 := ha v hv1
      have a2 := ha w hw1
      rw [hv2, Option.some_inj, Option.some_inj] at a1
      rw [hw2, Option.some_inj, Option.some_inj] at a2
      omega
    subst hat
    refine ⟨e, rfl, ?_, rfl, htype⟩
    rw [inBox_timeSlab hl, hln]
    exact ⟨hlen, htc, hsp⟩

example : elementForTasks 2 1 (timeSlab ⟨[1, 0], [4, 10]⟩ 3) .interval = some 8 := by decide
example : fromWorkIndex 2 1 5 (timeSlab ⟨[1, 0], [4, 10]⟩ 3) .interval = some ⟨[3, 3], 1, 2⟩ := by decide

/-- C13 (finding): `to_work_index` is not the inverse of `from_work_index`: it forgets the type, so
two elements of one corner get the same work index whatever their types. -/
theorem C13_to_work_index_forgets_type (n d : Nat) (l : Lat.Lattice) (sc : Scope) (c : Vtx) (t t' : Nat) :
    Elem.toWorkIndex n ⟨c, d, t⟩ l sc = Elem.toWorkIndex n ⟨c, d, t'⟩ l sc := rfl

/-! ### C56 -/

/-- C56: on elements of one dimension, `operator<` is a strict total order consistent with
`operator==`, so sets and maps keyed by elements of one dimension identify exactly equal elements. -/
theorem C56_element_order (d : Nat) (a b c : Elem) (ha : a.dim = d) (hb : b.dim = d) :
    (a.lt a = false) ∧ (a.lt b = true → b.lt c = true → a.lt c = true) ∧
    (a.eq b = true ∨ a.lt b = true ∨ b.lt a = true) ∧
    (a.eq b = true ↔ a.lt b = false ∧ b.lt a = false) ∧ (a.eq b = true ↔ a = b) := by
  obtain ⟨ac, ad, at'⟩ := a
  obtain ⟨bc, bd, bt⟩ := b
  obtain ⟨cc, cd, ct⟩ := c
  simp only at ha hb
  subst ha hb
  refine ⟨?_, ?_, ?_, ?_, ?_⟩
  · simp [Elem.lt]
  · simp only [Elem.lt]
    intro h1 h2
    split at h1 <;> split at h2 <;> split <;> simp_all <;> try omega
    · rename_i h3 h4; exact absurd (lt_trans h1 h2) (lt_irrefl _)
    · exact lt_trans h1 h2
  · simp only [Elem.lt, Elem.eq]
    rcases lt_trichotomy ac bc with h | h | h
    · right; left; simp [ne_of_lt h, h]
    · subst h; simp; omega
    · right; right; simp [ne_of_lt h, h]
  · simp only [Elem.lt, Elem.eq]
    rcases lt_trichotomy ac bc with h | h | h
    · simp [ne_of_lt h, h]
    · subst h; simp; omega
    · simp [ne_of_lt h, (ne_of_lt h).symm, h]
  · simp only [Elem.eq, Elem.mk.injEq, decide_eq_true_eq]
    constructor
    · rintro ⟨-, h1, h2⟩; exact ⟨h2, trivial, h1⟩
    · rintro ⟨h2, -, h1⟩; exact ⟨trivial, h1, h2⟩

example : Elem.lt ⟨[1, 5], 1, 2⟩ ⟨[2, 0], 1, 0⟩ = true := by decide

/-- C56 (finding): across dimensions the order is not consistent with equality: elements of different
dimensions with the same corner and type are unequal yet neither is less, so an ordered set holding
elements of several dimensions silently drops one. -/
theorem C56_order_ignores_dimension (c : Vtx) (t d d' : Nat) (h : d ≠ d') :
    Elem.lt ⟨c, d, t⟩ ⟨c, d', t⟩ = false ∧ Elem.lt ⟨c, d', t⟩ ⟨c, d, t⟩ = false ∧
    Elem.eq ⟨c, d, t⟩ ⟨c, d', t⟩ = false := by
  simp [Elem.lt, Elem.eq, h]

end Verif.SRM
