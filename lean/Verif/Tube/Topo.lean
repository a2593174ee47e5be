import Verif.Tube.Model
import Mathlib.Tactic.Linarith
import Mathlib.Tactic.Ring
import Mathlib.Data.List.Nodup
/-!
# The triangles of the tube (C183)

Vertex `p` of ring `s` has index `s * npatches + p`.
-/
namespace Verif.Tube

/-- The index of vertex `p` of ring `s` -/
def ix (np s p : Nat) : Int := ((s * np + p : Nat) : Int)

/-- The two triangles between patch `p` of rings `s` and `s + 1` -/
def quad (np s p : Nat) : List (Int × Int × Int) :=
  [(ix np (s + 1) p, ix np s ((p + 1) % np), ix np s p),
   (ix np (s + 1) p, ix np (s + 1) ((p + 1) % np), ix np s ((p + 1) % np))]

/-- The three directed edges of each triangle -/
def edges (ts : List (Int × Int × Int)) : List (Int × Int) :=
  ts.flatMap fun t => [(t.1, t.2.1), (t.2.1, t.2.2), (t.2.2, t.1)]

theorem ring_length (N B : Option V3) (C c : V3) (np : Nat) (r : ℝ) : (ring N B C c np r).length = np := by
  simp [ring]

theorem rings_length (j np : Nat) (r : ℝ) (F) (P0 P c : V3) :
    (rings j np r F P0 P c).length = if j = 1 then np + np else np := by
  unfold rings; split <;> simp [ring_length]

/-- The states of the loop -/
noncomputable def run (cv cc : List ℝ) (np : Nat) (radius : ℝ) (m : Nat) : Option St :=
  ((List.range m).map (· + 1)).foldlM (step cv cc np radius) ⟨[], [], some ⟨0, 0, 0⟩⟩

theorem run_succ (cv cc : List ℝ) (np : Nat) (radius : ℝ) (m : Nat) :
    run cv cc np radius (m + 1) = (run cv cc np radius m).bind fun st => step cv cc np radius st (m + 1) := by
  simp [run, List.range_succ]

theorem step_some {cv cc : List ℝ} {np : Nat} {radius : ℝ} {st st' : St} {j : Nat}
    (h : step cv cc np radius st j = some st') :
    ∃ color P0 P, read3 cc j = some color ∧ read3 cv (j - 1) = some P0 ∧ read3 cv j = some P ∧
      st'.verts = st.verts ++ rings j np radius (frame j st.n0 P0 P) P0 P color ∧
      st'.tris = st.tris ++ (List.range np).flatMap (patch st'.verts.length np) ∧
      st'.n0 = (frame j st.n0 P0 P).1 := by
  unfold step at h
  cases h1 : read3 cc j with
  | none => simp [h1] at h
  | some c =>
    cases h2 : read3 cv (j - 1) with
    | none => simp [h1, h2] at h
    | some P0 =>
      cases h3 : read3 cv j with
      | none => simp [h1, h2, h3] at h
      | some P =>
        simp only [h1, h2, h3, Option.bind_eq_bind, Option.bind_some, Option.some.injEq] at h
        subst h
        exact ⟨c, P0, P, rfl, rfl, rfl, rfl, rfl, rfl⟩

theorem patch_eq_quad (np s p : Nat) : patch ((s + 2) * np) np p = quad np s p := by
  unfold patch quad ix
  simp only [Nat.cast_add, Nat.cast_mul, Nat.cast_one, List.cons.injEq, Prod.mk.injEq, and_true]
  refine ⟨⟨?_, ?_, ?_⟩, ?_, ?_, ?_⟩ <;> push_cast <;> ring

theorem run_spec {cv cc : List ℝ} {np : Nat} {radius : ℝ} : ∀ {m : Nat} {st : St}, run cv cc np radius m = some st →
    st.verts.length = (if m = 0 then 0 else (m + 1) * np) ∧
    st.tris = (List.range m).flatMap fun s => (List.range np).flatMap (quad np s)
  | 0, st, h => by
    have : st = ⟨[], [], some ⟨0, 0, 0⟩⟩ := by simpa [run] using h.symm
    subst this; simp
  | m + 1, st, h => by
    rw [run_succ] at h
    cases h0 : run cv cc np radius m with
    | none => simp [h0] at h
    | some s0 =>
      rw [h0, Option.bind_some] at h
      obtain ⟨ih1, ih2⟩ := run_spec h0
      obtain ⟨c, P0, P, -, -, -, hv, ht, -⟩ := step_some h
      have hl : st.verts.length = (m + 2) * np := by
        rw [hv, List.length_append, ih1, rings_length]
        by_cases hm : m = 0
        · subst hm; simp; ring
        · rw [if_neg hm, if_neg (by omega)]; ring
      refine ⟨by rw [if_neg (by omega), hl], ?_⟩
      rw [ht, hl, ih2, List.range_succ, List.flatMap_append]
      congr 1
      simp only [List.flatMap_cons, List.flatMap_nil, List.append_nil]
      congr 1
      funext p
      exact patch_eq_quad np m p

theorem tube_run (cv cc : List ℝ) (np : Int) (r : ℝ) (h : 2 ≤ cv.length / 3) :
    tube cv cc np r = run cv cc np.toNat r (cv.length / 3 - 1) := by
  unfold tube run
  dsimp only
  rw [if_neg (by omega)]

/-- The number of vertices is one ring of `npatches` per curve vertex, with as many normals and colours (one entry each),
and there are two triangles per patch and segment. -/
theorem C183_counts (cv cc : List ℝ) (np : Nat) (r : ℝ) (out : St) (h2 : 2 ≤ cv.length / 3)
    (h : tube cv cc np r = some out) :
    out.verts.length = cv.length / 3 * np ∧ out.tris.length = 2 * np * (cv.length / 3 - 1) := by
  rw [tube_run _ _ _ _ h2] at h
  obtain ⟨h1, ht⟩ := run_spec h
  refine ⟨?_, ?_⟩
  · rw [h1, if_neg (by omega), Nat.sub_add_cancel (by omega), Int.toNat_natCast]
  · rw [ht]
    simp [List.length_flatMap, quad]
    ring

/-- A curve with fewer than two vertices gives an empty tube. -/
theorem C183_short (cv cc : List ℝ) (np : Int) (r : ℝ) (h2 : cv.length / 3 < 2) :
    ∃ out, tube cv cc np r = some out ∧ out.verts = [] ∧ out.tris = [] := by
  refine ⟨⟨[], [], some ⟨0, 0, 0⟩⟩, ?_, rfl, rfl⟩
  unfold tube; dsimp only; rw [if_pos h2]

/-- A number of patches that is not positive gives no vertices and no triangles. -/
theorem C183_no_patches (cv cc : List ℝ) (np : Int) (r : ℝ) (hnp : np ≤ 0) (out : St)
    (h : tube cv cc np r = some out) : out.verts = [] ∧ out.tris = [] := by
  by_cases h2 : cv.length / 3 < 2
  · obtain ⟨o, ho, h3⟩ := C183_short cv cc np r h2
    rw [ho] at h; obtain rfl := Option.some.inj h; exact h3
  · rw [tube_run _ _ _ _ (by omega)] at h
    obtain ⟨h1, ht⟩ := run_spec h
    have h0 : np.toNat = 0 := by omega
    rw [h0] at h1 ht
    exact ⟨List.length_eq_zero_iff.1 (by rw [h1]; simp), by rw [ht]; simp⟩

theorem read3_some_iff (l : List ℝ) (j : Nat) : (read3 l j).isSome ↔ j * 3 + 2 < l.length := by
  unfold read3
  rcases Nat.lt_or_ge (j * 3 + 2) l.length with h | h
  · rw [List.getElem?_eq_getElem (show j * 3 < l.length by omega),
      List.getElem?_eq_getElem (show j * 3 + 1 < l.length by omega), List.getElem?_eq_getElem h]
    simp [h]
  · rw [List.getElem?_eq_none h]
    simp only [Option.bind_eq_bind, Option.bind_none, Option.bind_fun_none]
    simp; omega

theorem run_isSome (cv cc : List ℝ) (np : Nat) (r : ℝ) : ∀ m : Nat, m ≤ cv.length / 3 - 1 →
    ((run cv cc np r m).isSome ↔ m = 0 ∨ m * 3 + 2 < cc.length)
  | 0, _ => by simp [run]
  | m + 1, hm => by
    have ih := run_isSome cv cc np r m (by omega)
    rw [run_succ]
    have hP0 := (read3_some_iff cv (m + 1 - 1)).2 (by omega)
    have hP := (read3_some_iff cv (m + 1)).2 (by omega)
    obtain ⟨P0, hP0⟩ := Option.isSome_iff_exists.1 hP0
    obtain ⟨P, hP⟩ := Option.isSome_iff_exists.1 hP
    cases h0 : run cv cc np r m with
    | none =>
      rw [h0] at ih
      simp only [Option.isSome_none, Bool.false_eq_true, false_iff] at ih
      simp; omega
    | some s =>
      rw [Option.bind_some]
      unfold step
      have hc := read3_some_iff cc (m + 1)
      cases h1 : read3 cc (m + 1) with
      | none => rw [h1] at hc; simp at hc ⊢; omega
      | some c =>
        rw [h1] at hc
        simp only [hP0, hP, Option.bind_eq_bind, Option.bind_some, Option.isSome_some, true_iff] at hc ⊢
        right; omega

/-- The function only reads the arrays inside their bounds exactly if every vertex of the curve has a colour (three
numbers); otherwise it reads past the end. -/
theorem C183_colors_needed (cv cc : List ℝ) (np : Int) (r : ℝ) (h2 : 2 ≤ cv.length / 3) :
    (tube cv cc np r).isSome ↔ 3 * (cv.length / 3) ≤ cc.length := by
  rw [tube_run _ _ _ _ h2, run_isSome _ _ _ _ _ (Nat.le_refl _)]
  omega

/-- The triangles: for each segment `s` and patch `p`, the two halves of the quadrilateral between patches `p` and
`p + 1` (cyclically) of the rings `s` and `s + 1`. -/
theorem C183_triangles (cv cc : List ℝ) (np : Nat) (r : ℝ) (out : St) (h2 : 2 ≤ cv.length / 3)
    (h : tube cv cc np r = some out) (t : Int × Int × Int) :
    t ∈ out.tris ↔ ∃ s < cv.length / 3 - 1, ∃ p < np,
      t = (ix np (s + 1) p, ix np s ((p + 1) % np), ix np s p) ∨
      t = (ix np (s + 1) p, ix np (s + 1) ((p + 1) % np), ix np s ((p + 1) % np)) := by
  rw [tube_run _ _ _ _ h2] at h
  rw [(run_spec h).2, Int.toNat_natCast]
  simp [quad]

/-- Every index refers to a vertex of the output. -/
theorem C183_in_range (cv cc : List ℝ) (np : Nat) (r : ℝ) (out : St) (h2 : 2 ≤ cv.length / 3)
    (h : tube cv cc np r = some out) (t : Int × Int × Int) (ht : t ∈ out.tris) :
    (0 ≤ t.1 ∧ t.1 < out.verts.length) ∧ (0 ≤ t.2.1 ∧ t.2.1 < out.verts.length) ∧
      0 ≤ t.2.2 ∧ t.2.2 < out.verts.length := by
  rw [(C183_counts cv cc np r out h2 h).1]
  obtain ⟨s, hs, p, hp, ht⟩ := (C183_triangles cv cc np r out h2 h t).1 ht
  have hn : 0 < np := by omega
  have hpn : (p + 1) % np < np := Nat.mod_lt _ hn
  have key : ∀ a q, a ≤ s + 1 → q < np → a * np + q < cv.length / 3 * np := by
    intro a q ha hq
    calc a * np + q < a * np + np := by omega
      _ = (a + 1) * np := by ring
      _ ≤ _ := Nat.mul_le_mul_right _ (by omega)
  have e : ∀ a q, a ≤ s + 1 → q < np → (0 : Int) ≤ ix np a q ∧
      ix np a q < ((cv.length / 3 * np : Nat) : Int) :=
    fun a q ha hq => ⟨Int.natCast_nonneg _, Int.ofNat_lt.2 (key a q ha hq)⟩
  rcases ht with rfl | rfl
  · exact ⟨e _ _ (Nat.le_refl _) hp, e _ _ (by omega) hpn, e _ _ (by omega) hp⟩
  · exact ⟨e _ _ (Nat.le_refl _) hp, e _ _ (Nat.le_refl _) hpn, e _ _ (by omega) hpn⟩

/-! ## Orientability -/

/-- A vertex as the pair (ring, patch) -/
def code (np : Nat) (v : Nat × Nat) : Int := ix np v.1 v.2

theorem code_inj {np : Nat} {v w : Nat × Nat} (hv : v.2 < np) (hw : w.2 < np) (h : code np v = code np w) : v = w := by
  unfold code ix at h
  have h : v.1 * np + v.2 = w.1 * np + w.2 := by exact_mod_cast h
  have hn : 0 < np := by omega
  have h1 : (v.1 * np + v.2) / np = v.1 := by
    rw [Nat.add_comm, Nat.add_mul_div_right _ _ hn, Nat.div_eq_of_lt hv]; omega
  have h2 : (w.1 * np + w.2) / np = w.1 := by
    rw [Nat.add_comm, Nat.add_mul_div_right _ _ hn, Nat.div_eq_of_lt hw]; omega
  have h3 : v.1 = w.1 := by rw [← h1, h, h2]
  rw [h3] at h
  exact Prod.ext h3 (by omega)

/-- The directed edges of `quad`, as pairs (ring, patch) -/
def quadEdges (np s p : Nat) : List ((Nat × Nat) × (Nat × Nat)) :=
  let q := (p + 1) % np
  [((s + 1, p), (s, q)), ((s, q), (s, p)), ((s, p), (s + 1, p)),
   ((s + 1, p), (s + 1, q)), ((s + 1, q), (s, q)), ((s, q), (s + 1, p))]

/-- All directed edges, as pairs (ring, patch) -/
def allEdges (np m : Nat) : List ((Nat × Nat) × (Nat × Nat)) :=
  (List.range m).flatMap fun s => (List.range np).flatMap (quadEdges np s)

theorem next_inj {np p p' : Nat} (hp : p < np) (hp' : p' < np) (h : (p + 1) % np = (p' + 1) % np) : p = p' := by
  rcases Nat.lt_or_ge (p + 1) np with h1 | h1 <;> rcases Nat.lt_or_ge (p' + 1) np with h2 | h2
  · rw [Nat.mod_eq_of_lt h1, Nat.mod_eq_of_lt h2] at h; omega
  · have : p' + 1 = np := by omega
    rw [Nat.mod_eq_of_lt h1, this, Nat.mod_self] at h; omega
  · have : p + 1 = np := by omega
    rw [Nat.mod_eq_of_lt h2, this, Nat.mod_self] at h; omega
  · omega

theorem next_cases {np p : Nat} (hp : p < np) : ((p + 1) % np = p + 1 ∧ p + 1 < np) ∨ ((p + 1) % np = 0 ∧ p + 1 = np) := by
  rcases Nat.lt_or_ge (p + 1) np with h1 | h1
  · exact .inl ⟨Nat.mod_eq_of_lt h1, h1⟩
  · have : p + 1 = np := by omega
    exact .inr ⟨by rw [this, Nat.mod_self], this⟩

theorem edges_code (np m : Nat) :
    edges ((List.range m).flatMap fun s => (List.range np).flatMap (quad np s)) =
      (allEdges np m).map fun e => (code np e.1, code np e.2) := by
  unfold edges allEdges
  rw [List.flatMap_assoc, List.map_flatMap]
  congr 1; funext s
  rw [List.flatMap_assoc, List.map_flatMap]
  congr 1

theorem mem_allEdges {np m : Nat} {e : (Nat × Nat) × (Nat × Nat)} :
    e ∈ allEdges np m ↔ ∃ s < m, ∃ p < np, e ∈ quadEdges np s p := by
  simp [allEdges]

theorem mem6 {np s p : Nat} {a b c d : Nat} : ((a, b), (c, d)) ∈ quadEdges np s p ↔
    (a = s + 1 ∧ b = p) ∧ c = s ∧ d = (p + 1) % np ∨ (a = s ∧ b = (p + 1) % np) ∧ c = s ∧ d = p ∨
    (a = s ∧ b = p) ∧ c = s + 1 ∧ d = p ∨ (a = s + 1 ∧ b = p) ∧ c = s + 1 ∧ d = (p + 1) % np ∨
    (a = s + 1 ∧ b = (p + 1) % np) ∧ c = s ∧ d = (p + 1) % np ∨
    (a = s ∧ b = (p + 1) % np) ∧ c = s + 1 ∧ d = p := by
  simp only [quadEdges, List.mem_cons, List.not_mem_nil, or_false, Prod.mk.injEq]

theorem quadEdges_nodup {np : Nat} (s : Nat) {p : Nat} (hnp : 2 ≤ np) (hp : p < np) : (quadEdges np s p).Nodup := by
  have hne : (p + 1) % np ≠ p := by
    rcases next_cases hp with h | h <;> omega
  have hne' : p ≠ (p + 1) % np := fun h => hne h.symm
  simp [quadEdges, hne, hne']

theorem quadEdges_disjoint {np s s' p p' : Nat} (hnp : 2 ≤ np) (hp : p < np) (hp' : p' < np)
    {e : (Nat × Nat) × (Nat × Nat)} (h : e ∈ quadEdges np s p) (h' : e ∈ quadEdges np s' p') (hd : np ≠ 2 ∨ s = s') :
    s = s' ∧ p = p' := by
  obtain ⟨⟨a, b⟩, c, d⟩ := e
  have n1 := next_cases hp
  have n2 := next_cases hp'
  simp only [quadEdges, List.mem_cons, List.not_mem_nil, or_false, Prod.mk.injEq] at h h'
  generalize (p + 1) % np = q at *
  generalize (p' + 1) % np = q' at *
  omega

theorem C183_nodup_aux {np m : Nat} (hnp : 3 ≤ np) : (allEdges np m).Nodup := by
  unfold allEdges
  rw [List.nodup_flatMap]
  refine ⟨fun s _ => ?_, ?_⟩
  · rw [List.nodup_flatMap]
    refine ⟨fun p hp => quadEdges_nodup s (by omega) (List.mem_range.1 hp), ?_⟩
    refine List.Pairwise.imp_of_mem ?_ (List.nodup_range (n := np))
    intro p p' hp hp' hne e he he'
    exact hne (quadEdges_disjoint (by omega) (List.mem_range.1 hp) (List.mem_range.1 hp') he he' (.inr rfl)).2
  · refine List.Pairwise.imp_of_mem ?_ (List.nodup_range (n := m))
    intro s s' hs hs' hne e he he'
    simp only [List.mem_flatMap, List.mem_range] at he he'
    obtain ⟨p, hp, he⟩ := he
    obtain ⟨p', hp', he'⟩ := he'
    exact hne (quadEdges_disjoint (by omega) hp hp' he he' (.inl (by omega))).1

theorem mem_lt {np s p : Nat} {e : (Nat × Nat) × (Nat × Nat)} (hp : p < np) (h : e ∈ quadEdges np s p) :
    e.1.2 < np ∧ e.2.2 < np := by
  have hq : (p + 1) % np < np := Nat.mod_lt _ (by omega)
  simp only [quadEdges, List.mem_cons, List.not_mem_nil, or_false] at h
  rcases h with rfl | rfl | rfl | rfl | rfl | rfl <;> exact ⟨by assumption, by assumption⟩

/-- With at least three patches, no directed edge is used by two triangles: the triangles are consistently oriented and
no edge belongs to more than two of them. -/
theorem C183_oriented (cv cc : List ℝ) (np : Nat) (r : ℝ) (out : St) (h2 : 2 ≤ cv.length / 3) (hnp : 3 ≤ np)
    (h : tube cv cc np r = some out) : (edges out.tris).Nodup := by
  rw [tube_run _ _ _ _ h2] at h
  rw [(run_spec h).2, Int.toNat_natCast, edges_code]
  refine (C183_nodup_aux hnp).map_on ?_
  intro e he e' he' heq
  obtain ⟨s, -, p, hp, he⟩ := mem_allEdges.1 he
  obtain ⟨s', -, p', hp', he'⟩ := mem_allEdges.1 he'
  simp only [Prod.mk.injEq] at heq
  exact Prod.ext (code_inj (mem_lt hp he).1 (mem_lt hp' he').1 heq.1) (code_inj (mem_lt hp he).2 (mem_lt hp' he').2 heq.2)

theorem pred_exists {np p : Nat} (hp : p < np) : ∃ q < np, (q + 1) % np = p := by
  cases p with
  | zero => exact ⟨np - 1, by omega, by rw [Nat.sub_add_cancel (by omega), Nat.mod_self]⟩
  | succ p => exact ⟨p, by omega, Nat.mod_eq_of_lt hp⟩

/-- The surface is a cylinder: an edge of a triangle is shared with a second triangle, which runs through it the other way,
unless it lies on the first or on the last ring. -/
theorem C183_closed (cv cc : List ℝ) (np : Nat) (r : ℝ) (out : St) (h2 : 2 ≤ cv.length / 3) (hnp : 3 ≤ np)
    (h : tube cv cc np r = some out) (e : Int × Int) (he : e ∈ edges out.tris) :
    (e.2, e.1) ∈ edges out.tris ↔
      ¬ (e.1 < np ∧ e.2 < np) ∧
      ¬ (((cv.length / 3 - 1 : Nat) : Int) * np ≤ e.1 ∧ ((cv.length / 3 - 1 : Nat) : Int) * np ≤ e.2) := by
  rw [tube_run _ _ _ _ h2] at h
  rw [(run_spec h).2, Int.toNat_natCast, edges_code] at *
  generalize hm : cv.length / 3 - 1 = m at *
  have hm1 : 1 ≤ m := by omega
  obtain ⟨⟨⟨a, b⟩, c, d⟩, he1, rfl⟩ := List.mem_map.1 he
  clear he
  obtain ⟨s, hs, p, hp, he⟩ := mem_allEdges.1 he1
  have hb := mem_lt hp he
  dsimp only at hb
  have low : ∀ (a b : Nat), b < np → (code np (a, b) < np ↔ a = 0) := by
    intro a b hb
    unfold code ix
    dsimp only
    constructor
    · intro h
      have h : a * np + b < np := by exact_mod_cast h
      by_contra hne
      have := Nat.mul_le_mul_right np (show 1 ≤ a by omega)
      omega
    · rintro rfl
      push_cast; omega
  have high : ∀ (a b : Nat), b < np → (((m : Nat) : Int) * np ≤ code np (a, b) ↔ m ≤ a) := by
    intro a b hb
    unfold code ix
    dsimp only
    constructor
    · intro h
      have h : m * np ≤ a * np + b := by exact_mod_cast h
      by_contra hne
      have := Nat.mul_le_mul_right np (show a + 1 ≤ m by omega)
      rw [Nat.add_mul] at this
      omega
    · intro h
      have := Nat.mul_le_mul_right np h
      exact_mod_cast (by omega : m * np ≤ a * np + b)
  dsimp only
  rw [low a b hb.1, low c d hb.2, high a b hb.1, high c d hb.2]
  have hrev : (code np (c, d), code np (a, b)) ∈ (allEdges np m).map (fun e => (code np e.1, code np e.2)) ↔
      ((c, d), (a, b)) ∈ allEdges np m := by
    constructor
    · intro hmem
      obtain ⟨e', he', heq⟩ := List.mem_map.1 hmem
      obtain ⟨s', hs', p', hp', he''⟩ := mem_allEdges.1 he'
      simp only [Prod.mk.injEq] at heq
      have hl := mem_lt hp' he''
      have e1 := code_inj hl.1 hb.2 heq.1
      have e2 := code_inj hl.2 hb.1 heq.2
      have : e' = ((c, d), (a, b)) := Prod.ext e1 e2
      rw [← this]; exact he'
    · intro hmem; exact List.mem_map.2 ⟨_, hmem, rfl⟩
  rw [hrev, mem_allEdges]
  have hq := next_cases hp
  constructor
  · rintro ⟨s', hs', p', hp', he'⟩
    have hq' := next_cases hp'
    simp only [quadEdges, List.mem_cons, List.not_mem_nil, or_false, Prod.mk.injEq] at he he'
    generalize (p + 1) % np = q at *
    generalize (p' + 1) % np = q' at *
    omega
  · rintro ⟨n1, n2⟩
    simp only [quadEdges, List.mem_cons, List.not_mem_nil, or_false, Prod.mk.injEq] at he
    rcases he with he | he | he | he | he | he
    · -- the diagonal
      exact ⟨s, hs, p, hp, mem6.2 (by omega)⟩
    · -- the edge of ring `s`: used by the previous segment
      refine ⟨s - 1, by omega, p, hp, mem6.2 ?_⟩
      generalize (p + 1) % np = q at *
      omega
    · -- the side: used by the previous patch
      obtain ⟨p', hp', hpp⟩ := pred_exists hp
      refine ⟨s, hs, p', hp', mem6.2 ?_⟩
      rw [hpp]; omega
    · -- the edge of ring `s + 1`: used by the next segment
      refine ⟨s + 1, by omega, p, hp, mem6.2 ?_⟩
      generalize (p + 1) % np = q at *
      omega
    · have hq'' : (p + 1) % np < np := Nat.mod_lt _ (by omega)
      refine ⟨s, hs, (p + 1) % np, hq'', mem6.2 ?_⟩
      omega
    · exact ⟨s, hs, p, hp, mem6.2 (by omega)⟩

/-- A straight curve of three vertices satisfies the hypotheses: twelve triangles on nine vertices. -/
example : ∃ out, tube [0, 0, 0, 1, 0, 0, 2, 0, 0] [1, 0, 0, 0, 1, 0, 0, 0, 1] (3 : Nat) 1 = some out ∧
    out.verts.length = 9 ∧ out.tris.length = 12 ∧ (edges out.tris).Nodup ∧ (4, 3) ∈ edges out.tris := by
  obtain ⟨out, h⟩ := Option.isSome_iff_exists.1 ((C183_colors_needed [0, 0, 0, 1, 0, 0, 2, 0, 0]
    [1, 0, 0, 0, 1, 0, 0, 0, 1] (3 : Nat) 1 (by simp)).2 (by simp))
  refine ⟨out, h, (C183_counts _ _ _ _ _ (by simp) h).1, (C183_counts _ _ _ _ _ (by simp) h).2,
    C183_oriented _ _ _ _ _ (by simp) (by omega) h, ?_⟩
  refine List.mem_flatMap.2 ⟨(6, 4, 3), ?_, by simp⟩
  exact (C183_triangles _ _ _ _ _ (by simp) h _).2 ⟨1, by simp, 0, by omega, .inl (by simp [ix])⟩

end Verif.Tube
