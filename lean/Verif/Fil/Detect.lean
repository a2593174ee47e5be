import Verif.Fil.Loop
/-! C157, C158, C160: which triangles of the space-time mesh the filament tracker finds. -/
namespace Verif.Fil
open Verif.Ser (mapInsert lookup Sorted mapPut)
variable {σ S V P : Type}

theorem inv_first (g : Prog σ S V P) (s0 : σ) (s : S) : Inv g s0 [s] 0 (push s (St.init s0) : St σ S P) where
  snaps := rfl
  curEq := rfl
  sorted := List.Pairwise.nil
  rsorted := List.Pairwise.nil
  lines := rfl
  found := by intro e p; simp [push, St.init]
  related := by intro c; simp [push, St.init]

/-- C157.  For every series and every order of execution the run is defined, and at its end the table of intersections
contains, once each, exactly the triangles (those inside a timestep, and those between two timesteps) on which the data, each
vertex read from the snapshot of its own time, pass the test.  The related cells are exactly the cofaces of those triangles. -/
theorem C157_driver (g : Prog σ S V P) (hg : g.ordinalOnly = false) (L : Layered g.m) (s0 : σ) (series : List S)
    (hne : series ≠ []) (ord : Nat → Order) (ho : ∀ k, Complete g.m (ord k)) :
    ∃ st, drive g ord series.length 0 series (St.init s0) = some st ∧ (st.found.map Prod.fst).Nodup ∧
      (∀ e p, (e, p) ∈ st.found ↔ ∃ t, Slot g.m series.length t e ∧ Says g series (scaleAt g s0 series t) t e p) ∧
      (∀ c, c ∈ st.related ↔ ∃ e p, (e, p) ∈ st.found ∧ CofaceOf g.m e c) ∧ StrictSorted st.related ∧ Sorted st.found := by
  have fin : ∀ {st : St σ S P}, Sorted st.found →
      (∀ e p, (e, p) ∈ st.found ↔ ∃ t, t < series.length ∧ Slot g.m series.length t e ∧ Says g series (scaleAt g s0 series t) t e p) →
      (∀ c, c ∈ st.related ↔ ∃ e, (∃ p, (e, p) ∈ st.found) ∧ CofaceOf g.m e c) →
      (st.found.map Prod.fst).Nodup ∧
      (∀ e p, (e, p) ∈ st.found ↔ ∃ t, Slot g.m series.length t e ∧ Says g series (scaleAt g s0 series t) t e p) ∧
      (∀ c, c ∈ st.related ↔ ∃ e p, (e, p) ∈ st.found ∧ CofaceOf g.m e c) := by
    intro st h1 h2 h3
    refine ⟨?_, fun e p => ?_, fun c => ?_⟩
    · refine List.Pairwise.map Prod.fst (fun a b hab => ?_) h1
      exact ne_of_lt hab
    · rw [h2]
      refine exists_congr fun t => ⟨fun h => h.2, fun h => ⟨?_, h⟩⟩
      obtain ⟨⟨i, -, hi⟩, -⟩ := h
      omega
    · rw [h3]
      constructor
      · rintro ⟨e, ⟨p, hp⟩, hc⟩; exact ⟨e, p, hp, hc⟩
      · rintro ⟨e, p, hp, hc⟩; exact ⟨e, ⟨p, hp⟩, hc⟩
  cases series with
  | nil => exact absurd rfl hne
  | cons s R =>
    unfold drive
    rw [if_neg (by simp)]
    simp only [List.length_cons]
    have hI := inv_first g s0 s
    cases R with
    | nil =>
      rw [if_pos (by simp)]
      obtain ⟨st2, x1, x2, x3, x4, x5, x6, x7, x8, x9⟩ := update_inv hg L hI rfl (by simp) (by simp) (ho 0)
      rw [x1]
      obtain ⟨f1, f2, f3⟩ := fin x6 x8 x9
      exact ⟨st2, rfl, f1, f2, f3, x7, x6⟩
    | cons s' R' =>
      rw [if_neg (by simp)]
      simp only
      obtain ⟨st2, y1, y2, y3, y4, y5, y6⟩ := drive_inv hg L s0 ord ho (s' :: R') [s] 0 _ (by simp) hI rfl rfl
      obtain ⟨f1, f2, f3⟩ := fin y3 y5 y6
      refine ⟨st2, ?_, f1, f2, f3, y4, y3⟩
      rw [← y1]
      congr 1
      simp
      omega

/-- Two sorted maps with the same entries are equal. -/
theorem sorted_ext {a b : List (Int × P)} (ha : Sorted a) (hb : Sorted b) (h : ∀ e p, (e, p) ∈ a ↔ (e, p) ∈ b) : a = b := by
  induction a generalizing b with
  | nil =>
    cases b with
    | nil => rfl
    | cons y b => have := (h y.1 y.2).2 (by simp); simp at this
  | cons x a ih =>
    cases b with
    | nil => have := (h x.1 x.2).1 (by simp); simp at this
    | cons y b =>
      unfold Ser.Sorted at ha hb
      rw [List.pairwise_cons] at ha hb
      have hxy : x = y := by
        have h1 := (h x.1 x.2).1 (by simp)
        have h2 := (h y.1 y.2).2 (by simp)
        rcases List.mem_cons.1 h1 with h1 | h1
        · exact h1
        · rcases List.mem_cons.1 h2 with h2 | h2
          · exact h2.symm
          · have a1 : y.1 < x.1 := hb.1 _ h1
            have a2 : x.1 < y.1 := ha.1 _ h2
            omega
      subst hxy
      congr 1
      refine ih ha.2 hb.2 fun e p => ?_
      constructor
      · intro hm
        rcases List.mem_cons.1 ((h e p).1 (by simp [hm])) with he | he
        · have : x.1 < e := ha.1 _ hm
          rw [← he] at this
          exact absurd this (lt_irrefl _)
        · exact he
      · intro hm
        rcases List.mem_cons.1 ((h e p).2 (by simp [hm])) with he | he
        · have : x.1 < e := hb.1 _ hm
          rw [← he] at this
          exact absurd this (lt_irrefl _)
        · exact he

/-- C157.  The result does not depend on the order of execution. -/
theorem C157_schedule_independent (g : Prog σ S V P) (hg : g.ordinalOnly = false) (L : Layered g.m) (s0 : σ) (series : List S)
    (hne : series ≠ []) (ord ord' : Nat → Order) (ho : ∀ k, Complete g.m (ord k)) (ho' : ∀ k, Complete g.m (ord' k)) :
    (drive g ord series.length 0 series (St.init s0)).map (fun st => (st.found, st.related)) =
      (drive g ord' series.length 0 series (St.init s0)).map (fun st => (st.found, st.related)) := by
  obtain ⟨st, h1, -, h3, h4, h5, h6⟩ := C157_driver g hg L s0 series hne ord ho
  obtain ⟨st', k1, -, k3, k4, k5, k6⟩ := C157_driver g hg L s0 series hne ord' ho'
  have hf : st.found = st'.found := sorted_ext h6 k6 fun e p => (h3 e p).trans (k3 e p).symm
  have hr : st.related = st'.related := StrictSorted.ext h5 k5 fun c => by rw [h4, k4, hf]
  rw [h1, k1, Option.map_some, Option.map_some, hf, hr]

/-- C160.  Intersections written to an archive and read back give the same related cells, hence the same surfaces, provided
the tag of a point is the id under which it is stored (`xft:414`: `cp.tag = i`). -/
theorem C160_archive (g : Prog σ S V P) (hg : g.ordinalOnly = false) (L : Layered g.m) (s0 : σ) (series : List S)
    (hne : series ≠ []) (ord : Nat → Order) (ho : ∀ k, Complete g.m (ord k)) (tag : P → Int)
    (htag : ∀ s t e vs vals p, g.test s t e vs vals = some p → tag p = e) :
    ∃ st, drive g ord series.length 0 series (St.init s0) = some st ∧ relatedOfArchive g.m tag st.found = st.related := by
  obtain ⟨st, h1, -, h3, h4, h5, h6⟩ := C157_driver g hg L s0 series hne ord ho
  refine ⟨st, h1, ?_⟩
  have hs : ∀ (l : List (Int × P)) (acc : List Int), StrictSorted acc →
      StrictSorted (l.foldl (fun acc kv => (g.m.related (tag kv.2)).foldl (fun acc c => setInsert c acc) acc) acc) := by
    intro l
    induction l with
    | nil => intro acc h; exact h
    | cons a l ih => intro acc h; exact ih _ (Gr.foldl_setInsert_sorted _ _ h)
  have hm : ∀ (l : List (Int × P)) (acc : List Int) (c : Int),
      c ∈ l.foldl (fun acc kv => (g.m.related (tag kv.2)).foldl (fun acc c => setInsert c acc) acc) acc ↔
      c ∈ acc ∨ ∃ kv ∈ l, CofaceOf g.m (tag kv.2) c := by
    intro l
    induction l with
    | nil => intro acc c; simp
    | cons a l ih =>
      intro acc c
      rw [List.foldl_cons, ih, Gr.foldl_setInsert_mem, mem_related]
      simp only [List.mem_cons, exists_eq_or_imp, or_assoc]
  refine StrictSorted.ext (hs _ _ List.Pairwise.nil) h5 fun c => ?_
  unfold relatedOfArchive
  rw [hm, h4]
  simp only [List.not_mem_nil, false_or]
  have ht : ∀ kv ∈ st.found, tag kv.2 = kv.1 := by
    intro kv hkv
    obtain ⟨t, -, vals, -, hv⟩ := (h3 kv.1 kv.2).1 hkv
    exact htag _ _ _ _ _ _ hv
  constructor
  · rintro ⟨kv, hkv, hc⟩
    rw [ht kv hkv] at hc
    exact ⟨kv.1, kv.2, hkv, hc⟩
  · rintro ⟨e, p, hp, hc⟩
    refine ⟨(e, p), hp, ?_⟩
    rw [ht _ hp]; exact hc

/-! ### ordinal output -/

/-- Several snapshots pushed. -/
def push' (l : List S) (st : St σ S P) : St σ S P := l.foldl (fun st s => push s st) st

theorem push'_snaps (l : List S) (st : St σ S P) : push' l st = { st with snaps := st.snaps ++ l } := by
  unfold push'
  induction l generalizing st with
  | nil => simp
  | cons a l ih => rw [List.foldl_cons, ih]; simp [push]

/-- C158, the part that holds: at timestep 0 the lines written in ordinal mode are built from exactly the triangles of
timestep 0 that are pierced.  Missing: the other timesteps, see `C158_next_step_data` and `C158_last_step_undefined`. -/
theorem C158_first_step_partial (g : Prog σ S V P) (hg : g.ordinalOnly = true) (L : Layered g.m) (s0 : σ) (a : S) (R : List S)
    (ord : Order) (ho : Complete g.m ord) :
    ∃ st pts, update g ord (push' (a :: R) (St.init s0)) = some st ∧ st.lines = [(0, pts)] ∧ st.found = [] ∧
      ∀ e p, (e, p) ∈ pts ↔ ∃ i : Nat, e = i ∧ i < g.m.no ∧ Says g (a :: R) (g.pre s0 (a :: R)) 0 e p := by
  have f1 : firstIds g 0 ord.ordinal = ord.ordinal.map fun (i : Nat) => (i : Int) := by
    unfold firstIds; rw [hg]; rfl
  have hmem : ∀ e, e ∈ firstIds g 0 ord.ordinal ↔ ∃ i : Nat, e = i ∧ i < g.m.no := by
    intro e
    rw [f1, List.mem_map]
    constructor
    · rintro ⟨i, hi, rfl⟩
      exact ⟨i, rfl, List.mem_range.1 (ho.1.mem_iff.1 hi)⟩
    · rintro ⟨i, rfl, hi⟩
      exact ⟨i, ho.1.mem_iff.2 (List.mem_range.2 hi), rfl⟩
  have hck : ∀ e ∈ firstIds g 0 ord.ordinal, ∃ o, g.chk (g.pre s0 (a :: R)) 0 (a :: R) e = some o ∧
      ∀ p, o = some p ↔ Says g (a :: R) (g.pre s0 (a :: R)) 0 e p := by
    intro e he
    obtain ⟨i, rfl, hi⟩ := (hmem e).1 he
    have := L.ordinal 0 i hi
    rw [Nat.zero_mul, Nat.zero_add] at this
    refine chk_eq (Q := a :: R) (t := 0) _ fun v hv => ?_
    have := this v hv
    refine ⟨?_, Or.inl this⟩
    rw [this]; simp
  obtain ⟨st1, v1, v2, v3, v4, v5, v6, v7, v8, v9⟩ := visitAll_spec g
    (fun e => (g.chk (g.pre s0 (a :: R)) 0 (a :: R) e).getD none) (firstIds g 0 ord.ordinal)
    { (St.init s0 : St σ S P) with snaps := a :: R, sig := g.pre s0 (a :: R) } (by
      have := nodup_ids ho.1 0
      simp only [Int.add_zero] at this
      rw [f1]; exact this) (by
      intro e he
      obtain ⟨o, o1, -⟩ := hck e he
      show g.chk (g.pre s0 (a :: R)) 0 (a :: R) e = _
      rw [o1]; rfl) List.Pairwise.nil List.Pairwise.nil (by simp [St.init])
  refine ⟨{ st1 with lines := st1.lines ++ [(st1.cur, st1.found)], found := [] }, st1.found, ?_, ?_, rfl, fun e p => ?_⟩
  · rw [push'_snaps]
    unfold update
    simp only [St.init, List.nil_append] at v1 ⊢
    rw [v1]
    simp only [hg, if_true]
  · show st1.lines ++ [(st1.cur, st1.found)] = _
    rw [v5, v3]; rfl
  · rw [v8]
    constructor
    · rintro (h | ⟨he, hc⟩)
      · simp [St.init] at h
      · obtain ⟨o, o1, o2⟩ := hck e he
        rw [o1] at hc
        obtain ⟨i, rfl, hi⟩ := (hmem e).1 he
        exact ⟨i, rfl, hi, (o2 p).1 hc⟩
    · rintro ⟨i, rfl, hi, hs⟩
      have he := (hmem i).2 ⟨i, rfl, hi⟩
      obtain ⟨o, o1, o2⟩ := hck _ he
      exact Or.inr ⟨he, by rw [o1]; exact (o2 p).2 hs⟩

/-- C158 is violated: at a later timestep `t`, the tracker holding the snapshots of `t` and `t+1`, the triangles of timestep
0 are tested on the data of snapshot `t+1`, not `t`. -/
theorem C158_next_step_data (g : Prog σ S V P) (L : Layered g.m) (a b : S) (R : List S) (s : σ) (t : Nat) (ht : t ≠ 0) (i : Nat)
    (hi : i < g.m.no) :
    g.chk s t (a :: b :: R) i = some (g.test s t i (g.m.tri i) ((g.m.tri i).map fun v => g.rd b (v % g.m.n0))) := by
  unfold Prog.chk
  have h := L.ordinal 0 i hi
  rw [Nat.zero_mul, Nat.zero_add] at h
  rw [XGC.mapM_congr (h := fun v => some (g.rd b (v % g.m.n0))), XGC.mapM_map_some]
  · rfl
  · intro v hv
    unfold Prog.readVertex
    rw [h v hv, if_neg (by simp; omega)]
    rfl

/-- C158 is violated: at the last timestep (if it is not the only one) one snapshot is left, and the tracker reads a second
one that is not there. -/
theorem C158_last_step_undefined (g : Prog σ S V P) (hg : g.ordinalOnly = true) (L : Layered g.m) (a : S) (s : σ) (t : Nat) (ht : t ≠ 0)
    (hno : 0 < g.m.no) (hv : ∀ i < g.m.no, g.m.tri (i : Nat) ≠ []) (ord : Order) (ho : Complete g.m ord) (st : St σ S P)
    (h1 : st.snaps = [a]) (h2 : st.cur = t) (h3 : st.sig = s) : update g ord st = none := by
  unfold update firstIds
  rw [hg]
  simp only [if_true]
  cases hl : ord.ordinal with
  | nil =>
    have := ho.1.length_eq
    rw [hl, List.length_range] at this
    simp at this
    omega
  | cons i l =>
    have hi : i < g.m.no := List.mem_range.1 (ho.1.mem_iff.1 (by rw [hl]; simp))
    have hc : g.chk (g.pre s [a]) t [a] (i : Nat) = none := by
      unfold Prog.chk
      have h := L.ordinal 0 i hi
      rw [Nat.zero_mul, Nat.zero_add] at h
      cases ht' : g.m.tri (i : Nat) with
      | nil => exact absurd ht' (hv i hi)
      | cons v vs =>
        have h0 := h v (by rw [ht']; simp)
        rw [List.mapM_cons]
        have : g.readVertex [a] t v = none := by
          unfold Prog.readVertex
          rw [h0, if_neg (by simp; omega)]
          rfl
        rw [this]; rfl
    rw [List.map_cons]
    unfold visitAll visit
    dsimp only
    rw [h1, h2, h3, hc]

/-! ### an example: triangles with one vertex -/

/-- One vertex; per timestep one triangle inside it and one to the next timestep (as lists of vertices). -/
def demoMesh : Mesh where
  n0 := 1
  no := 1
  ni := 1
  tri := fun e => if e % 2 = 0 then [e / 2] else [e / 2, e / 2 + 1]
  tets := fun e => [e - 1, e]
  pents := fun t => [t - 1, t]
  cell := fun c => [c, c + 1]
  facets := fun c => [c, c + 1]
  tris := fun t => [t, t + 1]

/-- Pierced if the values sum to an even number. -/
def demoProg (o : Bool) : Prog Unit Int Int (Int × List Int) where
  m := demoMesh
  ordinalOnly := o
  pre := fun _ _ => ()
  rd := fun s _ => s
  test := fun _ _ e _ vals => if vals.sum % 2 = 0 then some (e, vals) else none

theorem demo_layered : Layered demoMesh where
  pos := by decide
  ordinal := by
    intro t i hi v hv
    have hi : i < 1 := hi
    obtain rfl : i = 0 := by omega
    have e : ((t * (demoMesh.no + demoMesh.ni) + 0 : Nat) : Int) = 2 * t := by
      show ((t * (1 + 1) + 0 : Nat) : Int) = _; omega
    rw [e] at hv
    have : (demoMesh.tri (2 * (t : Int))) = [(2 * t : Int) / 2] := by
      unfold demoMesh; dsimp only; rw [if_pos (by omega)]
    rw [this, List.mem_singleton] at hv
    rw [hv]
    show (2 * (t : Int)) / 2 / (1 : Nat) = t
    omega
  interval := by
    intro t i hi v hv
    have hi : i < 1 := hi
    obtain rfl : i = 0 := by omega
    have e : ((t * (demoMesh.no + demoMesh.ni) + demoMesh.no + 0 : Nat) : Int) = 2 * t + 1 := by
      show ((t * (1 + 1) + 1 + 0 : Nat) : Int) = _; omega
    rw [e] at hv
    have : (demoMesh.tri (2 * (t : Int) + 1)) = [(2 * t + 1 : Int) / 2, (2 * t + 1 : Int) / 2 + 1] := by
      unfold demoMesh; dsimp only; rw [if_neg (by omega)]
    rw [this] at hv
    simp only [List.mem_cons, List.not_mem_nil, or_false] at hv
    show v / ((1 : Nat) : Int) = t ∨ v / ((1 : Nat) : Int) = t + 1
    rcases hv with rfl | rfl <;> omega

example : Layered demoMesh ∧ Complete demoMesh ⟨[0], [0]⟩ ∧
    (drive (demoProg false) (fun _ => ⟨[0], [0]⟩) 3 0 [4, 2, 7] (St.init ())).map (fun st => (st.found, st.related)) =
      some ([(0, (0, [4])), (1, (1, [4, 2])), (2, (2, [2]))], [-2, -1, 0, 1, 2]) ∧
    relatedOfArchive demoMesh Prod.fst [(0, ((0 : Int), [(4 : Int)])), (1, (1, [4, 2])), (2, (2, [2]))] = [-2, -1, 0, 1, 2] := by
  refine ⟨demo_layered, ⟨.refl _, .refl _⟩, by decide +kernel, by decide +kernel⟩

/-- ordinal mode: right at timestep 0, undefined in the end -/
example : (update (demoProg true) ⟨[0], [0]⟩ (push' [4, 6] (St.init ()))).map
      (fun st => st.lines) = (some [(0, [(0, (0, [4]))])] : Option (List (Nat × List (Int × Int × List Int)))) ∧
    (drive (demoProg true) (fun _ => ⟨[0], [0]⟩) 1 0 [4] (St.init ())).map (fun st => st.lines) =
      (some [(0, [(0, (0, [4]))])] : Option (List (Nat × List (Int × Int × List Int)))) ∧
    (drive (demoProg true) (fun _ => ⟨[0], [0]⟩) 2 0 [4, 6] (St.init ())).isNone = true ∧
    0 < demoMesh.no ∧ (∀ i < demoMesh.no, demoMesh.tri (i : Nat) ≠ []) ∧
    ∀ s t e vs vals p, (demoProg false).test s t e vs vals = some p → p.1 = e := by
  refine ⟨by rfl, by rfl, by decide +kernel, by decide, ?_, ?_⟩
  · intro i hi
    have hi : i < 1 := hi
    obtain rfl : i = 0 := by omega
    decide
  · intro s t e vs vals p h
    unfold demoProg at h
    dsimp only at h
    split at h
    · cases h; rfl
    · cases h

end Verif.Fil
