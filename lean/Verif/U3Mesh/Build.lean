import Verif.U3Mesh.Lemmas

/-! The facts about a built tetrahedral mesh. -/

namespace Verif.U3

open Verif.UM (read read_nat read_eq_some read_lt read_of_lt entries mem_entries find_entries find_entries_none
  entries_append fillVerts fillVerts_spec read_replicate)

variable {n0 : Nat} {ts : List Tet} {m : M3}

/-- The facts about a built mesh everything else uses. -/
structure Base (n0 : Nat) (ts : List Tet) (m : M3) : Prop where
  hn0 : m.n 0 = n0
  n3 : m.n 3 = ts.length
  inRange : ∀ t ∈ ts, ∀ v, OnTet v t → 0 ≤ v ∧ v < n0
  tet : ∀ (i : Nat) (t : Tet), ts[i]? = some t → ∃ c, m.get 3 i = some c ∧ ∀ v, v ∈ c ↔ OnTet v t
  get_def : ∀ {d : Nat} {i : Int}, 1 ≤ d → d ≤ 3 → 0 ≤ i → i < m.n d → ∃ c, m.get d i = some c
  get_range : ∀ {d : Nat} {i : Int} {c : Cell}, m.get d i = some c → 1 ≤ d ∧ d ≤ 3 ∧ 0 ≤ i ∧ i < m.n d
  get_cell : ∀ {d : Nat} {i : Int} {c : Cell}, m.get d i = some c → IsCell ts d c
  get_of : ∀ {d : Nat} {c : Cell}, 1 ≤ d → d ≤ 3 → IsCell ts d c → ∃ i, m.get d i = some c
  find : ∀ {d : Nat} (c : Cell), ∃ r, m.find d c = some r ∧ ∀ i, r = some i ↔ m.get d i = some c
  order : ∀ {d : Nat} {i j : Int} {c c' : Cell}, d = 1 ∨ d = 2 → m.get d i = some c → m.get d j = some c' → i < j → Before c c'
  side : ∀ {d : Nat} {i : Int} {c : Cell}, d = 1 ∨ d = 2 → m.get d i = some c → ∃ S, m.sideOf d i = some S ∧
    S.Pairwise (· < ·) ∧ S ≠ [] ∧ ∀ x, x ∈ S ↔ ∃ c', m.get (d + 1) x = some c' ∧ ∀ v ∈ c, v ∈ c'
  vside : ∀ {v : Int}, 0 ≤ v → v < n0 → ∃ S, m.sideOf 0 v = some S ∧ S.Pairwise (· < ·) ∧
    ∀ x, x ∈ S ↔ ∃ c, m.get 1 x = some c ∧ v ∈ c
  vev : ∀ {v : Int}, 0 ≤ v → v < n0 → ∃ S, read m.vev v = some S ∧ S.Pairwise (· < ·) ∧
    ∀ x, x ∈ S ↔ x ≠ v ∧ ∃ t ∈ ts, OnTet v t ∧ OnTet x t

/-- One layer: the faces of the cells `l` according to `tbl`. -/
theorem layer_spec {L : Nat} {tbl : List (List Nat)} (hl : ∀ js ∈ tbl, js.length = L) (l : List Cell) :
    ((addCells tbl 0 l []).map (fun e => e.1)).Nodup ∧
    (∀ k, k ∈ (addCells tbl 0 l []).map (fun e => e.1) ↔ ∃ c ∈ l, ∃ js ∈ tbl, k = pick c js) ∧
    (∀ (j : Nat) (k : Cell), ((addCells tbl 0 l []).map (fun e => e.1))[j]? = some k →
      ∃ S, ((addCells tbl 0 l []).map (fun e => e.2))[j]? = some S ∧ S.Pairwise (· < ·) ∧ S ≠ [] ∧
        ∀ x, x ∈ S ↔ ∃ (i : Nat) (c : Cell), l[i]? = some c ∧ x = i ∧ ∃ js ∈ tbl, k = pick c js) ∧
    (∀ (i j : Nat) (c c' : Cell), ((addCells tbl 0 l []).map (fun e => e.1))[i]? = some c →
      ((addCells tbl 0 l []).map (fun e => e.1))[j]? = some c' → i < j → Before c c') := by
  obtain ⟨h1, h2⟩ := addCells_spec hl l 0 (kinv_nil L)
  have h2' : ∀ k x, Has (addCells tbl 0 l []) k x ↔ ∃ (i : Nat) (c : Cell), l[i]? = some c ∧ x = i ∧ ∃ js ∈ tbl, k = pick c js := by
    intro k x
    rw [h2]
    constructor
    · rintro (⟨S, h, -⟩ | ⟨j, c, g1, g2, g3⟩)
      · simp at h
      · exact ⟨j, c, g1, by simpa using g2, g3⟩
    · rintro ⟨j, c, g1, g2, g3⟩
      exact Or.inr ⟨j, c, g1, by simpa using g2, g3⟩
  have hsort : ((addCells tbl 0 l []).map (fun e => e.1)).Pairwise (fun a b => lexLt a b = true) := by
    rw [List.pairwise_map]; exact h1.sorted
  have hnd : ((addCells tbl 0 l []).map (fun e => e.1)).Nodup := by
    refine hsort.imp ?_
    intro a b hab e
    rw [e, lexLt_irrefl] at hab; cases hab
  have huniq : ∀ {k S T}, (k, S) ∈ addCells tbl 0 l [] → (k, T) ∈ addCells tbl 0 l [] → S = T := by
    intro k S T hS hT
    have := List.inj_on_of_nodup_map hnd hS hT rfl
    exact (Prod.mk.inj this).2
  refine ⟨hnd, ?_, ?_, ?_⟩
  · intro k
    rw [List.mem_map]
    constructor
    · rintro ⟨⟨k', S⟩, he, rfl⟩
      obtain ⟨x, hx⟩ := List.exists_mem_of_ne_nil S (h1.set _ he).2
      obtain ⟨i, c, g1, _, g3⟩ := (h2' k' x).1 ⟨S, he, hx⟩
      exact ⟨c, List.mem_of_getElem? g1, g3⟩
    · rintro ⟨c, hc, hjs⟩
      obtain ⟨i, hi⟩ := List.getElem?_of_mem hc
      obtain ⟨S, hS, _⟩ := (h2' k i).2 ⟨i, c, hi, rfl, hjs⟩
      exact ⟨(k, S), hS, rfl⟩
  · intro j k hj
    rw [List.getElem?_map] at hj
    cases he : (addCells tbl 0 l [])[j]? with
    | none => rw [he] at hj; cases hj
    | some e =>
      rw [he] at hj
      obtain ⟨k', S⟩ := e
      simp at hj; subst hj
      have hm := List.mem_of_getElem? he
      refine ⟨S, by rw [List.getElem?_map, he]; rfl, (h1.set _ hm).1, (h1.set _ hm).2, ?_⟩
      intro x
      rw [← h2']
      constructor
      · intro hx; exact ⟨S, hm, hx⟩
      · rintro ⟨T, hT, hx⟩; rw [huniq hm hT]; exact hx
  · intro i j c c' hi hj hij
    obtain ⟨i1, i2⟩ := List.getElem?_eq_some_iff.1 hi
    obtain ⟨j1, j2⟩ := List.getElem?_eq_some_iff.1 hj
    have := List.pairwise_iff_getElem.1 hsort i j i1 j1 hij
    rw [i2, j2] at this
    exact lexLt_before this

set_option maxHeartbeats 1600000 in
theorem build_base (hv : Valid n0 ts) : ∃ m, build n0 ts = some m ∧ Base n0 ts m := by
  obtain ⟨t1, t2, t3, t4⟩ := layer_spec (L := 3) (tbl := triOf) (by decide) (ts.map sort4)
  obtain ⟨e1, e2, e3, e4⟩ := layer_spec (L := 2) (tbl := edgeOf) (by decide)
    ((addCells triOf 0 (ts.map sort4) []).map (fun e => e.1))
  unfold build
  dsimp only
  revert t1 t2 t3 t4 e1 e2 e3 e4
  generalize addCells edgeOf 0 ((addCells triOf 0 (ts.map sort4) []).map (fun e => e.1)) [] = EM
  generalize addCells triOf 0 (ts.map sort4) [] = TM
  generalize hEL : EM.map (fun e => e.1) = EL
  generalize hES : EM.map (fun e => e.2) = ES
  generalize hTL : TM.map (fun e => e.1) = TL
  generalize hTS : TM.map (fun e => e.2) = TS
  intro t1 t2 t3 t4 e1 e2 e3 e4
  -- the tetrahedra
  have hsort : ∀ t ∈ ts, ∃ a b c d, sort4 t = [a, b, c, d] ∧ a < b ∧ b < c ∧ c < d ∧ ∀ v, v ∈ [a, b, c, d] ↔ OnTet v t :=
    fun t ht => sort4_incr (hv.distinct t ht)
  have hnd3 : (ts.map sort4).Nodup := by
    rw [List.nodup_iff_pairwise_ne, List.pairwise_iff_getElem]
    intro i j hi hj hij he
    simp only [List.length_map] at hi hj
    simp only [List.getElem_map] at he
    obtain ⟨a, b, c, d, g1, _, _, _, g5⟩ := hsort _ (List.getElem_mem hi)
    obtain ⟨a', b', c', d', k1, _, _, _, k5⟩ := hsort _ (List.getElem_mem hj)
    rw [g1, k1] at he
    have := hv.nodup i j _ _ (List.getElem?_eq_getElem hi) (List.getElem?_eq_getElem hj)
      (fun v => by rw [← g5, ← k5, he])
    omega
  have cell3 : ∀ c, c ∈ ts.map sort4 ↔ IsCell ts 3 c := by
    intro c
    rw [List.mem_map]
    constructor
    · rintro ⟨t, ht, rfl⟩
      obtain ⟨a, b, c, d, g1, g2, g3, g4, g5⟩ := hsort t ht
      rw [g1]
      refine ⟨rfl, ?_, t, ht, fun v hv' => (g5 v).1 hv'⟩
      simp; omega
    · rintro ⟨hl, hi, t, ht, ho⟩
      obtain ⟨a, b, c', d, g1, g2, g3, g4, g5⟩ := hsort t ht
      refine ⟨t, ht, ?_⟩
      rw [g1]
      match c, hl with
      | [x, y, z, w], _ =>
        have q1 := (g5 x).2 (ho x (by simp))
        have q2 := (g5 y).2 (ho y (by simp))
        have q3 := (g5 z).2 (ho z (by simp))
        have q4 := (g5 w).2 (ho w (by simp))
        simp at q1 q2 q3 q4 hi
        simp; omega
  have pick3 : ∀ (a b c d : Int) (k : Cell), (∃ js ∈ triOf, k = pick [a, b, c, d] js) ↔
      k = [a, b, c] ∨ k = [a, b, d] ∨ k = [a, c, d] ∨ k = [b, c, d] := by
    intro a b c d k; simp [triOf, pick]
  have pick2 : ∀ (a b c : Int) (k : Cell), (∃ js ∈ edgeOf, k = pick [a, b, c] js) ↔
      k = [a, b] ∨ k = [a, c] ∨ k = [b, c] := by
    intro a b c k; simp [edgeOf, pick]
  have cell2 : ∀ c, c ∈ TL ↔ IsCell ts 2 c := by
    intro k
    rw [t2]
    constructor
    · rintro ⟨c, hc, hjs⟩
      obtain ⟨t, ht, rfl⟩ := List.mem_map.1 hc
      obtain ⟨a, b, c, d, g1, g2, g3, g4, g5⟩ := hsort t ht
      rw [g1, pick3] at hjs
      have : k.length = 3 ∧ k.Pairwise (· < ·) ∧ ∀ v ∈ k, v ∈ [a, b, c, d] := by
        rcases hjs with rfl | rfl | rfl | rfl <;> simp <;> omega
      exact ⟨this.1, this.2.1, t, ht, fun v hv' => (g5 v).1 (this.2.2 v hv')⟩
    · rintro ⟨hl, hi, t, ht, ho⟩
      obtain ⟨a, b, c', d, g1, g2, g3, g4, g5⟩ := hsort t ht
      refine ⟨sort4 t, List.mem_map.2 ⟨t, ht, rfl⟩, ?_⟩
      rw [g1, pick3]
      match k, hl with
      | [x, y, z], _ =>
        have q1 := (g5 x).2 (ho x (by simp))
        have q2 := (g5 y).2 (ho y (by simp))
        have q3 := (g5 z).2 (ho z (by simp))
        simp at q1 q2 q3 hi
        simp; omega
  have cell1 : ∀ c, c ∈ EL ↔ IsCell ts 1 c := by
    intro k
    rw [e2]
    constructor
    · rintro ⟨c, hc, hjs⟩
      obtain ⟨hl, hi, t, ht, ho⟩ := (cell2 c).1 hc
      match c, hl with
      | [a, b, c], _ =>
        rw [pick2] at hjs
        simp at hi
        have : k.length = 2 ∧ k.Pairwise (· < ·) ∧ ∀ v ∈ k, v ∈ [a, b, c] := by
          rcases hjs with rfl | rfl | rfl <;> simp <;> omega
        exact ⟨this.1, this.2.1, t, ht, fun v hv' => ho v (this.2.2 v hv')⟩
    · rintro ⟨hl, hi, t, ht, ho⟩
      obtain ⟨a, b, c', d, g1, g2, g3, g4, g5⟩ := hsort t ht
      match k, hl with
      | [x, y], _ =>
        have q1 := (g5 x).2 (ho x (by simp))
        have q2 := (g5 y).2 (ho y (by simp))
        simp at q1 q2 hi
        have hin : ∀ p q r, (p ∈ [a, b, c', d] ∧ q ∈ [a, b, c', d] ∧ r ∈ [a, b, c', d]) → p < q → q < r → [p, q, r] ∈ TL := by
          rintro p q r ⟨h1, h2, h3⟩ h4 h5
          rw [cell2]
          refine ⟨rfl, by simp; omega, t, ht, ?_⟩
          intro v hv'
          simp only [List.mem_cons, List.not_mem_nil, or_false] at hv'
          rcases hv' with rfl | rfl | rfl
          · exact (g5 _).1 h1
          · exact (g5 _).1 h2
          · exact (g5 _).1 h3
        have : (∃ z, z ∈ [a, b, c', d] ∧ ((x < y ∧ y < z) ∨ (x < z ∧ z < y) ∨ (z < x ∧ x < y))) := by
          by_cases h1 : a ≠ x ∧ a ≠ y
          · exact ⟨a, by simp, by omega⟩
          · by_cases h2 : b ≠ x ∧ b ≠ y
            · exact ⟨b, by simp, by omega⟩
            · exact ⟨c', by simp, by omega⟩
        obtain ⟨z, hz, h | h | h⟩ := this
        · exact ⟨_, hin x y z ⟨by simpa using q1, by simpa using q2, hz⟩ h.1 h.2, (pick2 _ _ _ _).2 (Or.inl rfl)⟩
        · exact ⟨_, hin x z y ⟨by simpa using q1, hz, by simpa using q2⟩ h.1 h.2, (pick2 _ _ _ _).2 (Or.inr (Or.inl rfl))⟩
        · exact ⟨_, hin z x y ⟨hz, by simpa using q1, by simpa using q2⟩ h.1 h.2, (pick2 _ _ _ _).2 (Or.inr (Or.inr rfl))⟩
  -- the vertices
  obtain ⟨vs, vv, f1, f2, f3, f4, f5⟩ := fillVerts_spec n0
    ((idMap 0 EL []).map (fun e => ((e.1.getD 0 0, e.1.getD 1 0), e.2))) (List.replicate n0 []) (List.replicate n0 [])
    (by simp) (by simp) (by
      intro kv hkv
      rw [idMap_eq e1] at hkv
      obtain ⟨⟨k, x⟩, hk, rfl⟩ := List.mem_map.1 hkv
      obtain ⟨j, hj, _⟩ := (mem_entries EL 0 k x).1 hk
      obtain ⟨hl, hi, t, ht, ho⟩ := (cell1 k).1 (List.mem_of_getElem? hj)
      match k, hl with
      | [u, v], _ =>
        have r1 := hv.range t ht u (ho u (by simp))
        have r2 := hv.range t ht v (ho v (by simp))
        exact ⟨r1.1, r1.2, r2.1, r2.2⟩)
  have hvm : ∀ kv, kv ∈ (idMap 0 EL []).map (fun e => ((e.1.getD 0 0, e.1.getD 1 0), e.2)) ↔
      ∃ (j : Nat) (u v : Int), EL[j]? = some [u, v] ∧ kv = ((u, v), (j : Int)) := by
    intro kv
    rw [idMap_eq e1, List.mem_map]
    constructor
    · rintro ⟨⟨k, x⟩, hk, rfl⟩
      obtain ⟨j, hj, hx⟩ := (mem_entries EL 0 k x).1 hk
      obtain ⟨hl, -⟩ := (cell1 k).1 (List.mem_of_getElem? hj)
      match k, hl with
      | [u, v], _ => exact ⟨j, u, v, hj, by simp [hx]⟩
    · rintro ⟨j, u, v, hj, rfl⟩
      exact ⟨([u, v], (j : Int)), (mem_entries EL 0 _ _).2 ⟨j, hj, by simp⟩, rfl⟩
  rw [f1]
  refine ⟨_, rfl, ?_⟩
  have hget : ∀ {d : Nat} {i : Int} {c : Cell}, M3.get ⟨n0, ts.map sort4, idMap 0 (ts.map sort4) [], TL, TS, idMap 0 TL [], EL, ES, idMap 0 EL [], vs, vv⟩ d i = some c ↔
      (d = 1 ∧ 0 ≤ i ∧ EL[i.toNat]? = some c) ∨ (d = 2 ∧ 0 ≤ i ∧ TL[i.toNat]? = some c) ∨ (d = 3 ∧ 0 ≤ i ∧ (ts.map sort4)[i.toNat]? = some c) := by
    intro d i c
    unfold M3.get
    split <;> simp [read_eq_some]
    rename_i h1 h2 h3
    exact ⟨fun h => absurd h h1, fun h => absurd h h2, fun h => absurd h h3⟩
  have hfind : ∀ {l : List Cell}, l.Nodup → ∀ c i, UM.find (idMap 0 l []) c = some i ↔ 0 ≤ i ∧ l[i.toNat]? = some c := by
    intro l hl c i
    rw [idMap_eq hl, find_entries _ _ hl]
    constructor
    · rintro ⟨j, hj, rfl⟩; exact ⟨by omega, by simpa using hj⟩
    · rintro ⟨h0, h1⟩; exact ⟨i.toNat, h1, by omega⟩
  refine
    { hn0 := rfl, n3 := by simp [M3.n], inRange := hv.range
      tet := ?_, get_def := ?_, get_range := ?_, get_cell := ?_, get_of := ?_, find := ?_, order := ?_
      side := ?_, vside := ?_, vev := ?_ }
  · intro i t hi
    obtain ⟨a, b, c, d, g1, g2, g3, g4, g5⟩ := hsort t (List.mem_of_getElem? hi)
    exact ⟨[a, b, c, d], hget.2 (Or.inr (Or.inr ⟨rfl, by omega, by simp [hi, g1]⟩)), g5⟩
  · intro d i h1 h2 h3 h4
    obtain rfl | rfl | rfl : d = 1 ∨ d = 2 ∨ d = 3 := by omega
    all_goals exact read_of_lt h3 h4
  · intro d i c h
    rcases hget.1 h with ⟨rfl, h0, h1⟩ | ⟨rfl, h0, h1⟩ | ⟨rfl, h0, h1⟩
    all_goals
      have := (List.getElem?_eq_some_iff.1 h1).1
      refine ⟨by omega, by omega, h0, ?_⟩
      simp only [M3.n]; omega
  · intro d i c h
    rcases hget.1 h with ⟨rfl, h0, h1⟩ | ⟨rfl, h0, h1⟩ | ⟨rfl, h0, h1⟩
    · exact (cell1 c).1 (List.mem_of_getElem? h1)
    · exact (cell2 c).1 (List.mem_of_getElem? h1)
    · exact (cell3 c).1 (List.mem_of_getElem? h1)
  · intro d c h1 h2 hc
    obtain rfl | rfl | rfl : d = 1 ∨ d = 2 ∨ d = 3 := by omega
    · obtain ⟨j, hj⟩ := List.getElem?_of_mem ((cell1 c).2 hc)
      exact ⟨j, hget.2 (Or.inl ⟨rfl, by omega, by simpa using hj⟩)⟩
    · obtain ⟨j, hj⟩ := List.getElem?_of_mem ((cell2 c).2 hc)
      exact ⟨j, hget.2 (Or.inr (Or.inl ⟨rfl, by omega, by simpa using hj⟩))⟩
    · obtain ⟨j, hj⟩ := List.getElem?_of_mem ((cell3 c).2 hc)
      exact ⟨j, hget.2 (Or.inr (Or.inr ⟨rfl, by omega, by simpa using hj⟩))⟩
  · intro d c
    unfold M3.find
    split
    · refine ⟨_, rfl, ?_⟩
      intro i
      rw [hfind e1, hget]; simp
    · refine ⟨_, rfl, ?_⟩
      intro i
      rw [hfind t1, hget]; simp
    · have hf := hfind hnd3 c
      split
      · rename_i hnone
        refine ⟨_, rfl, ?_⟩
        intro i
        rw [hget]
        constructor
        · intro h; cases h
        · rintro (⟨h, -⟩ | ⟨h, -⟩ | ⟨-, h0, h1⟩)
          · omega
          · omega
          · have := (hf i).2 ⟨h0, h1⟩
            have hn : UM.find (idMap 0 (ts.map sort4) []) c = none := hnone
            rw [hn] at this; cases this
      · rename_i i hi
        have h := (hf i).1 hi
        have hr : read (ts.map sort4) i = some c := read_eq_some.2 h
        rw [if_pos hr]
        refine ⟨_, rfl, ?_⟩
        intro j
        rw [hget, ← hf j]
        have hi' : UM.find (idMap 0 (ts.map sort4) []) c = some i := hi
        simp [hi']
    · rename_i h1 h2 h3
      refine ⟨_, rfl, ?_⟩
      intro i
      rw [hget]
      constructor
      · intro h; cases h
      · rintro (⟨h, -⟩ | ⟨h, -⟩ | ⟨h, -⟩)
        · exact absurd h h1
        · exact absurd h h2
        · exact absurd h h3
  · intro d i j c c' hd hi hj hij
    rw [hget] at hi hj
    rcases hd with rfl | rfl
    · obtain ⟨i0, i1⟩ : 0 ≤ i ∧ EL[i.toNat]? = some c := by simpa using hi
      obtain ⟨j0, j1⟩ : 0 ≤ j ∧ EL[j.toNat]? = some c' := by simpa using hj
      exact e4 _ _ _ _ i1 j1 (by omega)
    · obtain ⟨i0, i1⟩ : 0 ≤ i ∧ TL[i.toNat]? = some c := by simpa using hi
      obtain ⟨j0, j1⟩ : 0 ≤ j ∧ TL[j.toNat]? = some c' := by simpa using hj
      exact t4 _ _ _ _ i1 j1 (by omega)
  · intro d i c hd hi
    rw [hget] at hi
    rcases hd with rfl | rfl
    · obtain ⟨i0, i1⟩ : 0 ≤ i ∧ EL[i.toNat]? = some c := by simpa using hi
      obtain ⟨S, s1, s2, s3, s4⟩ := e3 _ _ i1
      refine ⟨S, read_eq_some.2 ⟨i0, s1⟩, s2, s3, ?_⟩
      intro x
      rw [s4]
      have hc := (cell1 c).1 (List.mem_of_getElem? i1)
      constructor
      · rintro ⟨j, c', h1, rfl, hjs⟩
        refine ⟨c', hget.2 (Or.inr (Or.inl ⟨rfl, by omega, by simpa using h1⟩)), ?_⟩
        obtain ⟨hl, -⟩ := (cell2 c').1 (List.mem_of_getElem? h1)
        match c', hl with
        | [p, q, r], _ =>
          rw [pick2] at hjs
          rcases hjs with rfl | rfl | rfl <;> simp
      · rintro ⟨c', h1, h2⟩
        obtain ⟨j0, j1⟩ : 0 ≤ x ∧ TL[x.toNat]? = some c' := by simpa using hget.1 h1
        refine ⟨x.toNat, c', j1, by omega, ?_⟩
        obtain ⟨hl, hi, -⟩ := (cell2 c').1 (List.mem_of_getElem? j1)
        obtain ⟨hl', hi', -⟩ := hc
        match c', hl, c, hl' with
        | [p, q, r], _, [u, v], _ =>
          rw [pick2]
          have h3 := h2 u (by simp)
          have h4 := h2 v (by simp)
          simp at h3 h4 hi hi' ⊢
          omega
    · obtain ⟨i0, i1⟩ : 0 ≤ i ∧ TL[i.toNat]? = some c := by simpa using hi
      obtain ⟨S, s1, s2, s3, s4⟩ := t3 _ _ i1
      refine ⟨S, read_eq_some.2 ⟨i0, s1⟩, s2, s3, ?_⟩
      intro x
      rw [s4]
      have hc := (cell2 c).1 (List.mem_of_getElem? i1)
      constructor
      · rintro ⟨j, c', h1, rfl, hjs⟩
        refine ⟨c', hget.2 (Or.inr (Or.inr ⟨rfl, by omega, by simpa using h1⟩)), ?_⟩
        obtain ⟨hl, -⟩ := (cell3 c').1 (List.mem_of_getElem? h1)
        match c', hl with
        | [p, q, r, s], _ =>
          rw [pick3] at hjs
          rcases hjs with rfl | rfl | rfl | rfl <;> simp
      · rintro ⟨c', h1, h2⟩
        obtain ⟨j0, j1⟩ : 0 ≤ x ∧ (ts.map sort4)[x.toNat]? = some c' := by
          rcases hget.1 h1 with ⟨h, -⟩ | ⟨h, -⟩ | ⟨-, h⟩
          · omega
          · omega
          · exact h
        refine ⟨x.toNat, c', j1, by omega, ?_⟩
        obtain ⟨hl, hi, -⟩ := (cell3 c').1 (List.mem_of_getElem? j1)
        obtain ⟨hl', hi', -⟩ := hc
        match c', hl, c, hl' with
        | [p, q, r, s], _, [u, v, w], _ =>
          rw [pick3]
          have h3 := h2 u (by simp)
          have h4 := h2 v (by simp)
          have h5 := h2 w (by simp)
          simp at h3 h4 h5 hi hi' ⊢
          omega
  · intro v h0 h1
    obtain ⟨S, s1, s2, s3⟩ := f4 v [] (by rw [read_replicate, if_pos ⟨h0, h1⟩]) (by simp [StrictSorted])
    refine ⟨S, s1, s2, ?_⟩
    intro x
    rw [s3]
    constructor
    · rintro (h | ⟨kv, hkv, rfl, h⟩)
      · cases h
      · obtain ⟨j, u, w, hj, rfl⟩ := (hvm kv).1 hkv
        exact ⟨[u, w], hget.2 (Or.inl ⟨rfl, by simp, by simpa using hj⟩), by simpa using h⟩
    · rintro ⟨c, hc, hvc⟩
      obtain ⟨j0, j1⟩ : 0 ≤ x ∧ EL[x.toNat]? = some c := by simpa using hget.1 hc
      obtain ⟨hl, -⟩ := (cell1 c).1 (List.mem_of_getElem? j1)
      match c, hl with
      | [u, w], _ =>
        exact Or.inr ⟨((u, w), x), (hvm _).2 ⟨x.toNat, u, w, j1, by simp; omega⟩, rfl, by simpa using hvc⟩
  · intro v h0 h1
    obtain ⟨S, s1, s2, s3⟩ := f5 v [] (by rw [read_replicate, if_pos ⟨h0, h1⟩]) (by simp [StrictSorted])
    refine ⟨S, s1, s2, ?_⟩
    intro x
    rw [s3]
    constructor
    · rintro (h | ⟨kv, hkv, h⟩)
      · cases h
      · obtain ⟨j, u, w, hj, rfl⟩ := (hvm kv).1 hkv
        obtain ⟨-, hi, t, ht, ho⟩ := (cell1 _).1 (List.mem_of_getElem? hj)
        have h3 := ho u (by simp)
        have h4 := ho w (by simp)
        simp at hi h
        rcases h with ⟨rfl, rfl⟩ | ⟨rfl, rfl⟩
        · exact ⟨by omega, t, ht, h3, h4⟩
        · exact ⟨by omega, t, ht, h4, h3⟩
    · rintro ⟨hne, t, ht, h3, h4⟩
      have hc : ∀ u w : Int, u < w → OnTet u t → OnTet w t → ∃ j : Nat, EL[j]? = some [u, w] := by
        intro u w huw h5 h6
        refine List.getElem?_of_mem ((cell1 _).2 ⟨rfl, by simp; omega, t, ht, ?_⟩)
        intro y hy
        simp at hy
        rcases hy with rfl | rfl
        · exact h5
        · exact h6
      rcases lt_or_gt_of_ne hne with h | h
      · obtain ⟨j, hj⟩ := hc x v h h4 h3
        exact Or.inr ⟨_, (hvm _).2 ⟨j, x, v, hj, rfl⟩, Or.inr ⟨rfl, rfl⟩⟩
      · obtain ⟨j, hj⟩ := hc v x h h3 h4
        exact Or.inr ⟨_, (hvm _).2 ⟨j, v, x, hj, rfl⟩, Or.inl ⟨rfl, rfl⟩⟩

end Verif.U3
