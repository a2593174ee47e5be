import Verif.XG2.Model
import Verif.Smooth.Grad
/-! # The region-of-interest mesh (C174) -/
namespace Verif.XG2
open Verif.UM Verif.Smooth

variable {K : Type} [Field K] [LinearOrder K] {n0 : Nat}

/-- The vertex is in the region: angle and normalised flux are inside the bounds. -/
def InRegion (s : Sel K) (x : Int → Fin 2 → K) (psi : Int → K) (v : Int) : Prop :=
  s.thetaMinDeg * s.pi / 180 ≤ s.theta (x v) ∧ s.theta (x v) ≤ s.thetaMaxDeg * s.pi / 180 ∧
  s.psinMin ≤ psi v / s.psiX ∧ psi v / s.psiX ≤ s.psinMax

theorem roiLoop_spec (s : Sel K) (x : Int → Fin 2 → K) (psi : Int → K) : ∀ (l : List Nat) (roi nodes : List Int),
    (∀ i ∈ l, i < n0) → roi.length = n0 →
    ∃ roi', roiLoop s (field n0 x) (field n0 psi) l (roi, nodes) =
        some (roi', nodes ++ (open Classical in l.filter fun (i : Nat) => InRegion s x psi i).map fun (i : Nat) => (i : Int)) ∧
      roi'.length = n0 ∧ ∀ j : Nat, roi'[j]? = (open Classical in if j ∈ l ∧ j < n0 ∧ InRegion s x psi j then some 1 else roi[j]?) := by
  classical
  intro l
  induction l with
  | nil => intro roi nodes _ hr; exact ⟨roi, by simp [roiLoop], hr, by simp⟩
  | cons i l ih =>
    intro roi nodes hl hr
    have hi : i < n0 := hl i (by simp)
    have hl' : ∀ j ∈ l, j < n0 := fun j hj => hl j (by simp [hj])
    unfold roiLoop
    rw [read_field x (by omega) (by omega), Option.bind_eq_bind, Option.bind_some]
    dsimp only
    by_cases h1 : s.theta (x i) < s.thetaMinDeg * s.pi / 180 ∨ s.theta (x i) > s.thetaMaxDeg * s.pi / 180
    · have hn : ¬ InRegion s x psi i := by
        rintro ⟨a, b, -, -⟩
        rcases h1 with h | h
        · exact absurd h (not_lt.2 a)
        · exact absurd h (not_lt.2 b)
      rw [if_pos h1]
      obtain ⟨roi', e1, e2, e3⟩ := ih roi nodes hl' hr
      refine ⟨roi', by rw [e1, List.filter_cons_of_neg (by simpa using hn)], e2, fun j => ?_⟩
      rw [e3]
      by_cases hj : j = i
      · subst hj; simp [hn]
      · simp [hj]
    · rw [if_neg h1, read_field psi (by omega) (by omega), Option.bind_eq_bind, Option.bind_some]
      by_cases h2 : psi i / s.psiX < s.psinMin ∨ psi i / s.psiX > s.psinMax
      · have hn : ¬ InRegion s x psi i := by
          rintro ⟨-, -, a, b⟩
          rcases h2 with h | h
          · exact absurd h (not_lt.2 a)
          · exact absurd h (not_lt.2 b)
        rw [if_pos h2]
        obtain ⟨roi', e1, e2, e3⟩ := ih roi nodes hl' hr
        refine ⟨roi', by rw [e1, List.filter_cons_of_neg (by simpa using hn)], e2, fun j => ?_⟩
        rw [e3]
        by_cases hj : j = i
        · subst hj; simp [hn]
        · simp [hj]
      · have hn : InRegion s x psi i := by
          push Not at h1 h2
          exact ⟨h1.1, h1.2, h2.1, h2.2⟩
        rw [if_neg h2]
        have hw : write roi i 1 = some (roi.set i 1) := by
          unfold write
          rw [if_pos ⟨by omega, by rw [hr]; omega⟩]; simp
        rw [hw, Option.bind_eq_bind, Option.bind_some]
        obtain ⟨roi', e1, e2, e3⟩ := ih (roi.set i 1) (nodes ++ [(i : Int)]) hl' (by simpa using hr)
        refine ⟨roi', by rw [e1, List.filter_cons_of_pos (by simpa using hn)]; simp, e2, fun j => ?_⟩
        rw [e3]
        by_cases hj : j = i
        · subst hj; simp [hn, hi, hr]
        · simp [hj, Ne.symm hj]

/-- C174: `initialize_roi` on a mesh with `n0` vertices, flux and next nodes for each: the region consists of exactly the
vertices inside the bounds, in ascending order, each once; the mask is 1 there, and elsewhere it is what it was before. -/
theorem C174_region (s : Sel K) (x : Int → Fin 2 → K) (psi : Int → K) (roi0 : List Int) :
    ∃ roi nodes, initRoi s (field n0 x) (field n0 psi) n0 roi0 = some (roi, nodes) ∧ nodes.Pairwise (· < ·) ∧
      (∀ v : Int, v ∈ nodes ↔ 0 ≤ v ∧ v < n0 ∧ InRegion s x psi v) ∧ roi.length = n0 ∧
      (∀ j < n0, InRegion s x psi (j : Nat) → roi[j]? = some 1) ∧
      (∀ j < n0, ¬ InRegion s x psi (j : Nat) → roi[j]? = some (roi0[j]?.getD 0)) := by
  classical
  have hrl : (resize n0 0 roi0).length = n0 := by simp [resize]; omega
  obtain ⟨roi, e1, e2, e3⟩ := roiLoop_spec (n0 := n0) s x psi (List.range n0) (resize n0 0 roi0) []
    (fun i hi => List.mem_range.1 hi) hrl
  refine ⟨roi, ((List.range n0).filter fun (i : Nat) => InRegion s x psi i).map fun (i : Nat) => (i : Int), ?_, ?_, ?_, e2, ?_, ?_⟩
  · unfold initRoi
    rw [show (field n0 psi).length = n0 by simp [field], e1]; simp
  · rw [List.pairwise_map]
    exact (List.pairwise_lt_range.filter _).imp fun h => by exact_mod_cast h
  · intro v
    simp only [List.mem_map, List.mem_filter, List.mem_range, decide_eq_true_eq]
    constructor
    · rintro ⟨i, ⟨h1, h2⟩, rfl⟩; exact ⟨by omega, by omega, h2⟩
    · rintro ⟨h0, h1, h2⟩
      refine ⟨v.toNat, ⟨by omega, ?_⟩, by omega⟩
      rw [Int.toNat_of_nonneg h0]; exact h2
  · intro j hj hr; rw [e3, if_pos ⟨List.mem_range.2 hj, hj, hr⟩]
  · intro j hj hr
    rw [e3, if_neg (fun h => hr h.2.2)]
    unfold resize
    by_cases hl : j < roi0.length
    · rw [List.getElem?_append_left (by simp; omega), List.getElem?_take_of_lt hj, List.getElem?_eq_getElem hl]; rfl
    · rw [List.getElem?_append_right (by simp; omega), List.getElem?_eq_none (by omega : roi0.length ≤ j)]
      rw [List.getElem?_replicate, if_pos (by simp; omega)]; rfl

/-- Without next nodes (the two-argument constructor) the mask is empty and the first vertex found in the region is written
outside of it. -/
theorem C174_no_nextnodes (s : Sel ℚ) (h : InRegion s (fun _ => ![1, 0]) (fun _ => 1) 0) :
    initRoi s (field 1 fun _ => ![1, 0]) (field 1 fun _ => (1 : ℚ)) 0 [] = none := by
  obtain ⟨a, b, c, d⟩ := h
  have h1 : ¬ (s.theta ![1, 0] < s.thetaMinDeg * s.pi / 180 ∨ s.theta ![1, 0] > s.thetaMaxDeg * s.pi / 180) := by
    push Not; exact ⟨a, b⟩
  have h2 : ¬ (1 / s.psiX < s.psinMin ∨ 1 / s.psiX > s.psinMax) := by push Not; exact ⟨c, d⟩
  simp [initRoi, field, List.range_succ, roiLoop, UM.read, h1, write, resize]
  simp only [one_div] at h2
  push Not at h2
  exact h2

/-! ## The new mesh -/

theorem lastIndex_sorted {nodes : List Int} (hs : nodes.Pairwise (· < ·)) {v : Int} {k : Nat} :
    lastIndex nodes v = some k ↔ nodes[k]? = some v := by
  have uniq : ∀ {i j : Nat}, nodes[i]? = some v → nodes[j]? = some v → i = j := by
    intro i j hi hj
    obtain ⟨i1, i2⟩ := List.getElem?_eq_some_iff.1 hi
    obtain ⟨j1, j2⟩ := List.getElem?_eq_some_iff.1 hj
    rw [List.pairwise_iff_getElem] at hs
    rcases Nat.lt_trichotomy i j with h | h | h
    · have := hs i j i1 j1 h; omega
    · exact h
    · have := hs j i j1 i1 h; omega
  unfold lastIndex
  constructor
  · intro h
    have := List.mem_of_getLast? h
    simpa using (List.mem_filter.1 this).2
  · intro h
    have hk : k ∈ (List.range nodes.length).filter fun i => decide (nodes[i]? = some v) := by
      rw [List.mem_filter]
      exact ⟨List.mem_range.2 (List.getElem?_eq_some_iff.1 h).1, by simpa using h⟩
    rcases e : ((List.range nodes.length).filter fun i => decide (nodes[i]? = some v)).getLast? with _ | j
    · rw [List.getLast?_eq_none_iff] at e; rw [e] at hk; simp at hk
    · have := List.mem_of_getLast? e
      have := (List.mem_filter.1 this).2
      rw [decide_eq_true_eq] at this
      rw [uniq this h]

theorem lastIndex_none {nodes : List Int} (hs : nodes.Pairwise (· < ·)) {v : Int} : lastIndex nodes v = none ↔ v ∉ nodes := by
  constructor
  · intro h hv
    obtain ⟨k, hk⟩ := List.getElem?_of_mem hv
    rw [(lastIndex_sorted hs).2 hk] at h; simp at h
  · intro h
    rcases e : lastIndex nodes v with _ | k
    · rfl
    · exact absurd (List.mem_of_getElem? ((lastIndex_sorted hs).1 e)) h

theorem nodeLoop_spec {nodes : List Int} (hs : nodes.Pairwise (· < ·)) : ∀ (l : List Nat) (nm inv : List Int),
    l.Nodup → (∀ i ∈ l, i < n0) → nm.length = n0 → inv.length = nodes.length →
    ∃ nm' inv', nodeLoop nodes l (nm, inv) = some (nm', inv') ∧ nm'.length = n0 ∧ inv'.length = nodes.length ∧
      (∀ j : Nat, nm'[j]? = if j ∈ l then (match lastIndex nodes j with | some k => some (k : Int) | none => nm[j]?) else nm[j]?) ∧
      (∀ k : Nat, inv'[k]? = if ∃ i ∈ l, nodes[k]? = some (i : Int) then nodes[k]? else inv[k]?) := by
  intro l
  induction l with
  | nil => intro nm inv _ _ h1 h2; exact ⟨nm, inv, rfl, h1, h2, by simp, by simp⟩
  | cons i l ih =>
    intro nm inv hnd hl h1 h2
    have hi : i < n0 := hl i (by simp)
    have hl' : ∀ j ∈ l, j < n0 := fun j hj => hl j (by simp [hj])
    obtain ⟨hil, hnd⟩ := List.nodup_cons.1 hnd
    unfold nodeLoop
    rcases e : lastIndex nodes (i : Int) with _ | k
    · dsimp only
      obtain ⟨nm', inv', a, b, c, d, f⟩ := ih nm inv hnd hl' h1 h2
      refine ⟨nm', inv', a, b, c, fun j => ?_, fun k => ?_⟩
      · rw [d]
        by_cases hj : j = i
        · subst hj; simp [hil, e]
        · simp [hj]
      · rw [f]
        have : nodes[k]? ≠ some (i : Int) := fun h => by rw [(lastIndex_sorted hs).2 h] at e; simp at e
        simp [this]
    · dsimp only
      have hk := (lastIndex_sorted hs).1 e
      have hkl := (List.getElem?_eq_some_iff.1 hk).1
      have w1 : write nm i k = some (nm.set i k) := by
        unfold write; rw [if_pos ⟨by omega, by rw [h1]; omega⟩]; simp
      have w2 : write inv k i = some (inv.set k i) := by
        unfold write; rw [if_pos ⟨by omega, by rw [h2]; omega⟩]; simp
      simp only [w1, w2, Option.bind_eq_bind, Option.bind_some]
      obtain ⟨nm', inv', a, b, c, d, f⟩ := ih (nm.set i k) (inv.set k i) hnd hl' (by simpa using h1) (by simpa using h2)
      refine ⟨nm', inv', a, b, c, fun j => ?_, fun k' => ?_⟩
      · rw [d]
        by_cases hj : j = i
        · subst hj; simp [hil, e, hi, h1]
        · simp only [List.mem_cons, hj, false_or, List.getElem?_set_ne (Ne.symm hj)]
      · rw [f]
        by_cases hk' : k' = k
        · subst hk'
          rw [hk]
          simp only [Option.some.injEq, List.mem_cons, exists_eq_or_imp, true_or, if_true]
          split
          · rfl
          · simp [h2, hkl]
        · have hne : nodes[k']? ≠ some (i : Int) := fun h => by
            have := (lastIndex_sorted hs).2 h
            rw [e] at this
            exact hk' (Option.some.inj this).symm
          simp only [List.mem_cons, exists_eq_or_imp, hne, false_or, List.getElem?_set_ne (Ne.symm hk')]

/-- All corners in the set. -/
def Inside (nodes : List Int) (t : Tri) : Prop := t.1 ∈ nodes ∧ t.2.1 ∈ nodes ∧ t.2.2 ∈ nodes

/-- `Inside` can be decided. -/
instance (nodes : List Int) (t : Tri) : Decidable (Inside nodes t) := by unfold Inside; infer_instance

/-- The triangle with its corners translated by a list. -/
def through (l : List Int) (t : Tri) : Option Tri := do
  let a ← read l t.1
  let b ← read l t.2.1
  let c ← read l t.2.2
  some (a, b, c)

theorem triLoop_spec {nodes nm : List Int} (hs : nodes.Pairwise (· < ·)) (hl : nm.length = n0)
    (hnm : ∀ j < n0, nm[j]? = some (match lastIndex nodes (j : Nat) with | some k => (k : Int) | none => -1)) :
    ∀ ts : List Tri, (∀ t ∈ ts, ∀ v, OnTri v t → 0 ≤ v ∧ v < (n0 : Int)) →
    ∃ r, triLoop nodes nm ts = some r ∧ r.mapM (through nodes) = some (ts.filter fun t => Inside nodes t) := by
  have hread : ∀ v : Int, 0 ≤ v → v < n0 → ∃ a : Int, read nm v = some a ∧ (a < 0 ↔ v ∉ nodes) := by
    intro v h0 h1
    obtain ⟨k, rfl⟩ := Int.eq_ofNat_of_zero_le h0
    refine ⟨_, by unfold UM.read; rw [if_pos h0]; exact hnm k (by omega), ?_⟩
    rw [← lastIndex_none hs]
    rcases lastIndex nodes (k : Int) with _ | j <;> simp
  have hback : ∀ v : Int, v ∈ nodes → read nodes (newId nodes v) = some v := by
    intro v hv
    obtain ⟨k, hk⟩ := List.getElem?_of_mem hv
    simp [UM.read, newId, (lastIndex_sorted hs).2 hk, hk]
  intro ts
  induction ts with
  | nil => intro _; exact ⟨[], rfl, rfl⟩
  | cons t ts ih =>
    intro h
    obtain ⟨r, r1, r2⟩ := ih fun t ht => h t (by simp [ht])
    have ht := h t (by simp)
    obtain ⟨a, a1, a2⟩ := hread t.1 (ht _ (Or.inl rfl)).1 (ht _ (Or.inl rfl)).2
    obtain ⟨b, b1, b2⟩ := hread t.2.1 (ht _ (Or.inr (Or.inl rfl))).1 (ht _ (Or.inr (Or.inl rfl))).2
    obtain ⟨c, c1, c2⟩ := hread t.2.2 (ht _ (Or.inr (Or.inr rfl))).1 (ht _ (Or.inr (Or.inr rfl))).2
    unfold triLoop
    simp only [a1, b1, c1, r1, Option.bind_eq_bind, Option.bind_some]
    by_cases hin : Inside nodes t
    · have hneg : ¬ (a < 0 ∨ b < 0 ∨ c < 0) := by
        rw [a2, b2, c2]; obtain ⟨p, q, s⟩ := hin; simp [p, q, s]
      refine ⟨_, rfl, ?_⟩
      rw [if_neg hneg, List.mapM_cons, List.filter_cons_of_pos (by simpa using hin), r2]
      have : through nodes (newId nodes t.1, newId nodes t.2.1, newId nodes t.2.2) = some t := by
        unfold through
        simp only [hback _ hin.1, hback _ hin.2.1, hback _ hin.2.2, Option.bind_eq_bind, Option.bind_some]
      rw [this]; rfl
    · have hpos : a < 0 ∨ b < 0 ∨ c < 0 := by
        rw [a2, b2, c2]; unfold Inside at hin; tauto
      refine ⟨_, rfl, ?_⟩
      rw [if_pos hpos, List.filter_cons_of_neg (by simpa using hin), r2]

theorem mapM_read_field {α : Type} (f : Int → α) (nodes : List Int) (h : ∀ v ∈ nodes, 0 ≤ v ∧ v < (n0 : Int)) :
    nodes.mapM (read (field n0 f)) = some (nodes.map f) :=
  MPAS.mapM_some _ _ _ fun v hv => read_field f (h v hv).1 (h v hv).2

omit [LinearOrder K] in
/-- C174: `new_roi_mesh` with an empty `node_map`, for a region given by ascending existing vertices, a mesh with flux: the
positions, flux and field of the new vertices are those of the region's vertices in order; `inverse_node_map` is the list of
the region's vertices; `node_map` sends a vertex to its new number or `-1`; the triangles of the new mesh, translated back,
are exactly the triangles with all corners in the region, in order. -/
theorem C174_new_mesh_partial (x : Int → Fin 2 → K) (tris : List Tri) (psi : Int → K) (B : Option (Int → Fin 3 → K))
    (nodes inv0 : List Int) (hs : nodes.Pairwise (· < ·)) (hn : ∀ v ∈ nodes, 0 ≤ v ∧ v < (n0 : Int))
    (ht : ∀ t ∈ tris, ∀ v, OnTri v t → 0 ≤ v ∧ v < (n0 : Int)) :
    ∃ r, newRoiMesh n0 (field n0 x) tris (field n0 psi) ((B.map (field n0)).getD []) nodes [] inv0 = some r ∧
      r.xy = nodes.map x ∧ r.psi = nodes.map psi ∧ (∀ b, B = some b → r.bfield = nodes.map b) ∧ (B = none → r.bfield = []) ∧
      r.inverse = nodes ∧ r.nodeMap.length = n0 ∧
      (∀ (v k : Nat), r.nodeMap[v]? = some (k : Int) ↔ v < n0 ∧ nodes[k]? = some (v : Int)) ∧
      (∀ v < n0, ((v : Nat) : Int) ∉ nodes → r.nodeMap[v]? = some (-1)) ∧
      r.tris.mapM (through nodes) = some (tris.filter fun t => Inside nodes t) := by
  obtain ⟨nm, inv, e1, e2, e3, e4, e5⟩ := nodeLoop_spec (n0 := n0) hs (List.range n0) (resize n0 (-1) [])
    (resize nodes.length 0 inv0) List.nodup_range (fun i hi => List.mem_range.1 hi) (by simp [resize]) (by simp [resize]; omega)
  have hnm : ∀ j < n0, nm[j]? = some (match lastIndex nodes (j : Nat) with | some k => (k : Int) | none => -1) := by
    intro j hj
    rw [e4, if_pos (List.mem_range.2 hj)]
    rcases lastIndex nodes (j : Int) with _ | k
    · simp [resize, hj]
    · rfl
  have hinv : inv = nodes := by
    apply List.ext_getElem?
    intro k
    rw [e5]
    by_cases hk : k < nodes.length
    · rw [if_pos]
      have h := hn _ (List.getElem_mem hk)
      exact ⟨nodes[k].toNat, List.mem_range.2 (by omega), by rw [List.getElem?_eq_getElem hk]; congr 1; omega⟩
    · rw [if_neg]
      · rw [List.getElem?_eq_none (by simp [resize]; omega), List.getElem?_eq_none (by omega)]
      · rintro ⟨i, -, h⟩
        exact hk (List.getElem?_eq_some_iff.1 h).1
  obtain ⟨r, r1, r2⟩ := triLoop_spec hs e2 hnm tris ht
  have hpsi : copyPsi (field n0 psi) nodes = some (nodes.map psi) := by
    unfold copyPsi
    by_cases h0 : n0 = 0
    · subst h0
      have : nodes = [] := by
        cases nodes with
        | nil => rfl
        | cons a l => have := hn a (by simp); omega
      subst this; rfl
    · rw [if_neg (by simp [field, h0]), mapM_read_field psi nodes hn]
  have hb : copyField (nodes.map psi) ((B.map (field n0)).getD []) nodes =
      some ((B.map fun b => nodes.map b).getD []) := by
    unfold copyField
    rcases B with _ | b
    · rfl
    · simp only [Option.map_some, Option.getD_some]
      by_cases h0 : n0 = 0
      · subst h0
        have : nodes = [] := by
          cases nodes with
          | nil => rfl
          | cons a l => have := hn a (by simp); omega
        subst this; rfl
      · rw [if_neg (by simp [field, h0]), if_neg (by simp), mapM_read_field b nodes hn]
  refine ⟨⟨nodes.map x, r, nodes.map psi, (B.map fun b => nodes.map b).getD [], nm, inv⟩, ?_, rfl, rfl, ?_, ?_, hinv, e2,
    ?_, ?_, r2⟩
  · unfold newRoiMesh
    rw [mapM_read_field x nodes hn, Option.bind_eq_bind, Option.bind_some, e1, Option.bind_eq_bind, Option.bind_some]
    dsimp only
    rw [r1, Option.bind_eq_bind, Option.bind_some, hpsi, Option.bind_eq_bind, Option.bind_some, hb, Option.bind_eq_bind,
      Option.bind_some]
  · rintro b rfl; rfl
  · rintro rfl; rfl
  · intro v k
    dsimp only
    constructor
    · intro h
      have hv : v < n0 := by rw [← e2]; exact (List.getElem?_eq_some_iff.1 h).1
      refine ⟨hv, ?_⟩
      rw [hnm v hv] at h
      rcases e : lastIndex nodes (v : Int) with _ | j
      · rw [e] at h; simp at h
      · rw [e] at h
        simp only [Option.some.injEq, Nat.cast_inj] at h
        subst h
        exact (lastIndex_sorted hs).1 e
    · rintro ⟨hv, h⟩
      rw [hnm v hv, (lastIndex_sorted hs).2 h]
  · intro v hv h
    dsimp only
    rw [hnm v hv, (lastIndex_none hs).2 h]

/-- A `node_map` that already has entries keeps them: a second extraction (here from the region `[0, 1, 2]` to `[2]`, with the
maps of the first) keeps the old triangle with its missing corners replaced by the new vertex 0, and the map keeps sending
the vertices 0 and 1 to new numbers that do not exist. -/
theorem C174_stale_node_map : ∃ r, newRoiMesh 3 (field 3 fun v => ![(v : ℚ), 0]) [(0, 1, 2)] [1, 1, 1] [] [2] [0, 1, 2]
    [0, 1, 2] = some r ∧ r.tris = [(0, 0, 0)] ∧ r.nodeMap = [0, 1, 0] ∧ r.xy = [![2, 0]] := by
  exact ⟨⟨[![2, 0]], [(0, 0, 0)], [1], [], [0, 1, 0], [2]⟩, rfl, rfl, rfl, rfl⟩

/-- A mesh with a magnetic field but without flux: the copy writes the flux of the new mesh outside its (empty) array. -/
theorem C174_field_without_flux : newRoiMesh 1 (field 1 fun _ => ![(0 : ℚ), 0]) [] [] [fun _ => 1] [0] [] [] = none := rfl

/-- non-trivial instance: vertices 1, 2, 3 of the square; only its second triangle is kept. -/
example : ([1, 2, 3] : List Int).Pairwise (· < ·) ∧ (∀ v ∈ ([1, 2, 3] : List Int), 0 ≤ v ∧ v < ((4 : Nat) : Int)) ∧
    (∃ r, newRoiMesh 4 (field 4 sqX) [(0, 1, 2), (1, 2, 3)] [5, 6, 7, 8] [] [1, 2, 3] [] [] = some r ∧
      r.tris = [(0, 1, 2)] ∧ r.nodeMap = [-1, 0, 1, 2] ∧ r.psi = [6, 7, 8]) :=
  ⟨by decide, by decide, _, rfl, rfl, rfl, rfl⟩

/-- The default selection of the code with a made-up angle function: vertex 0 is in the region. -/
example : InRegion (K := ℚ) ⟨fun x => x 1, 3, -60, 60, 9/10, 21/20, 2⟩ (fun _ => ![1, 0]) (fun _ => 2) 0 := by
  refine ⟨?_, ?_, ?_, ?_⟩ <;> norm_num

end Verif.XG2
