import Verif.UMesh.Props
import Verif.XMesh.Spec

/-! The facts about the base mesh that the extrusion needs. -/

namespace Verif.XM

open Verif.UM

variable {order : List (Edge × Int) → List (Edge × Int)} {n0 : Nat} {ts : List Tri} {m : M2}

/-- What C69/C70 say about the base mesh, in the form used below. -/
structure Base (n0 : Nat) (ts : List Tri) (m : M2) : Prop where
  hn0 : m.n 0 = n0
  tri_def : ∀ i : Int, 0 ≤ i → i < m.n 2 → ∃ a b c, m.getTriangle i = some (a, b, c)
  tri_ok : ∀ {i a b c : Int}, m.getTriangle i = some (a, b, c) → 0 ≤ i ∧ i < m.n 2 ∧ a < b ∧ b < c ∧ 0 ≤ a ∧ c < m.n 0
  tri_in : ∀ {i a b c : Int}, m.getTriangle i = some (a, b, c) → ∃ t ∈ ts, SameTri (a, b, c) t
  tri_of : ∀ t ∈ ts, ∃ i a b c, m.getTriangle i = some (a, b, c) ∧ SameTri (a, b, c) t
  tri_find : ∀ {a b c : Int}, a < b → b < c → ∀ i, m.findTriangle (a, b, c) = some (some i) ↔ m.getTriangle i = some (a, b, c)
  edge_def : ∀ i : Int, 0 ≤ i → i < m.n 1 → ∃ u v, m.getEdge i = some (u, v)
  edge_ok : ∀ {i u v : Int}, m.getEdge i = some (u, v) → 0 ≤ i ∧ i < m.n 1 ∧ u < v ∧ 0 ≤ u ∧ v < m.n 0
  edge_in : ∀ {i u v : Int}, m.getEdge i = some (u, v) → ∃ t ∈ ts, OnTri u t ∧ OnTri v t
  edge_of : ∀ {u v : Int}, u < v → (∃ t ∈ ts, OnTri u t ∧ OnTri v t) → ∃ i, m.getEdge i = some (u, v)
  edge_find : ∀ {u v : Int}, u < v → ∀ i, m.findEdge (u, v) = some (some i) ↔ m.getEdge i = some (u, v)
  side : ∀ {e u v : Int}, m.getEdge e = some (u, v) → ∃ S, m.sideOf1 e = some S ∧ S.Pairwise (· < ·) ∧
    (S.length = 1 ∨ S.length = 2) ∧
    ∀ x : Int, x ∈ S ↔ ∃ t, m.getTriangle x = some t ∧ OnTri u t ∧ OnTri v t

theorem base_of (ho : IsOrder order) (hv : Valid n0 ts) (hb : build order n0 ts = some m) : Base n0 ts m := by
  obtain ⟨hn0, hn2, hget, hout⟩ := C69_get_triangle ho hv hb
  obtain ⟨e1, e2, e3⟩ := C70_edges ho hv hb
  have hrange : ∀ i : Int, (∃ t, m.getTriangle i = some t) → 0 ≤ i ∧ i < ts.length := by
    rintro i ⟨t, ht⟩
    by_contra hcon
    rw [hout i (by omega)] at ht
    cases ht
  have hat : ∀ i t, m.getTriangle i = some t → ∃ t', ts[i.toNat]? = some t' ∧ t' ∈ ts ∧ t.1 < t.2.1 ∧ t.2.1 < t.2.2 ∧ SameTri t t' := by
    intro i t ht
    obtain ⟨h0, h1⟩ := hrange i ⟨t, ht⟩
    have hl : i.toNat < ts.length := by omega
    obtain ⟨a, b, c, g1, g2, g3, g4⟩ := hget i.toNat _ (List.getElem?_eq_getElem hl)
    have : ((i.toNat : Nat) : Int) = i := by omega
    rw [this, ht] at g1
    simp at g1; subst g1
    exact ⟨_, List.getElem?_eq_getElem hl, List.getElem_mem hl, g2, g3, g4⟩
  have hedge : ∀ i u v, m.getEdge i = some (u, v) → 0 ≤ i ∧ i < m.n 1 ∧ u < v ∧ Joined ts u v := by
    intro i u v h
    have h01 : 0 ≤ i ∧ i < m.n 1 := by
      by_contra hcon
      rw [e2 i (by omega)] at h
      cases h
    obtain ⟨u', v', g1, g2, g3⟩ := e1 i h01.1 h01.2
    rw [h] at g1; simp at g1; obtain ⟨rfl, rfl⟩ := g1
    exact ⟨h01.1, h01.2, g2, g3⟩
  refine
    { hn0 := hn0
      tri_def := ?_, tri_ok := ?_, tri_in := ?_, tri_of := ?_, tri_find := ?_
      edge_def := ?_, edge_ok := ?_, edge_in := ?_, edge_of := ?_, edge_find := ?_, side := ?_ }
  · intro i h0 h1
    have hl : i.toNat < ts.length := by omega
    obtain ⟨a, b, c, g1, -⟩ := hget i.toNat _ (List.getElem?_eq_getElem hl)
    have : ((i.toNat : Nat) : Int) = i := by omega
    rw [this] at g1
    exact ⟨a, b, c, g1⟩
  · intro i a b c h
    obtain ⟨h0, h1⟩ := hrange i ⟨_, h⟩
    obtain ⟨t', _, hm, h2, h3, h4⟩ := hat i _ h
    have ra := hv.range t' hm a ((h4 a).1 (by simp [OnTri]))
    have rc := hv.range t' hm c ((h4 c).1 (by simp [OnTri]))
    simp only at h2 h3
    exact ⟨h0, by omega, h2, h3, ra.1, by omega⟩
  · intro i a b c h
    obtain ⟨t', _, hm, h2, h3, h4⟩ := hat i _ h
    exact ⟨t', hm, h4⟩
  · intro t ht
    obtain ⟨j, hj⟩ := List.getElem?_of_mem ht
    obtain ⟨a, b, c, g1, -, -, g4⟩ := hget j t hj
    exact ⟨j, a, b, c, g1, g4⟩
  · intro a b c hab hbc i
    rw [(C69_find_triangle ho hv hb (a, b, c) ⟨by simp; omega, by simp; omega, by simp; omega⟩).1]
    constructor
    · rintro ⟨j, t, rfl, h1, h2⟩
      obtain ⟨a', b', c', g1, g2, g3, g4⟩ := hget j t h1
      have := incr3_ext (s := (a, b, c)) (t := (a', b', c')) ⟨hab, hbc⟩ ⟨g2, g3⟩ (fun v => (h2 v).trans (g4 v).symm)
      rw [this]; exact g1
    · intro h
      obtain ⟨t', h1, hm, h2, h3, h4⟩ := hat i _ h
      obtain ⟨h0, h1'⟩ := hrange i ⟨_, h⟩
      exact ⟨i.toNat, t', by omega, h1, h4⟩
  · intro i h0 h1
    obtain ⟨u, v, h, -⟩ := e1 i h0 h1
    exact ⟨u, v, h⟩
  · intro i u v h
    obtain ⟨h0, h1, h2, h3, t, ht, hu, hv'⟩ := hedge i u v h
    have := hv.range t ht u hu
    have := hv.range t ht v hv'
    exact ⟨h0, h1, h2, by omega, by omega⟩
  · intro i u v h
    exact (hedge i u v h).2.2.2.2
  · intro u v huv h
    obtain ⟨i, h1, -⟩ := e3 u v huv ⟨by omega, h⟩
    exact ⟨i, h1⟩
  · intro u v huv i
    rw [(C70_find_edge ho hv hb u v (by omega)).1]
    constructor
    · rintro (h | h)
      · exact h
      · have := (hedge i v u h).2.2.1; omega
    · exact Or.inl
  · intro e u v h
    obtain ⟨S, s1, s2, s3, s4⟩ := C70_side_of ho hv hb e u v h
    refine ⟨S, s1, s2, s3, ?_⟩
    intro x
    rw [s4]
    constructor
    · rintro ⟨i, t, rfl, h1, h2, h3⟩
      obtain ⟨a, b, c, g1, -, -, g4⟩ := hget i t h1
      exact ⟨_, g1, (g4 u).2 h2, (g4 v).2 h3⟩
    · rintro ⟨t, h1, h2, h3⟩
      obtain ⟨t', g1, -, -, -, g4⟩ := hat x t h1
      obtain ⟨h0, -⟩ := hrange x ⟨_, h1⟩
      exact ⟨x.toNat, t', by omega, g1, (g4 u).1 h2, (g4 v).1 h3⟩

variable (B : Base n0 ts m)
include B

theorem Base.tri_inj {i j a b c : Int} (h1 : m.getTriangle i = some (a, b, c)) (h2 : m.getTriangle j = some (a, b, c)) : i = j := by
  obtain ⟨_, _, hab, hbc, _⟩ := B.tri_ok h1
  have g1 := (B.tri_find hab hbc i).2 h1
  have g2 := (B.tri_find hab hbc j).2 h2
  rw [g1] at g2; simpa using g2

theorem Base.edge_inj {i j a b : Int} (h1 : m.getEdge i = some (a, b)) (h2 : m.getEdge j = some (a, b)) : i = j := by
  obtain ⟨_, _, hab, _⟩ := B.edge_ok h1
  have g1 := (B.edge_find hab i).2 h1
  have g2 := (B.edge_find hab j).2 h2
  rw [g1] at g2; simpa using g2

theorem Base.mustTri {i a b c : Int} (h : m.getTriangle i = some (a, b, c)) : mustTri m (a, b, c) = some i := by
  obtain ⟨_, _, hab, hbc, _⟩ := B.tri_ok h
  unfold XM.mustTri
  rw [(B.tri_find hab hbc i).2 h]; rfl

theorem Base.mustEdge {i a b : Int} (h : m.getEdge i = some (a, b)) : mustEdge m (a, b) = some i := by
  obtain ⟨_, _, hab, _⟩ := B.edge_ok h
  unfold XM.mustEdge
  rw [(B.edge_find hab i).2 h]; rfl

/-- The three edges of a triangle. -/
theorem Base.tri_edges {i a b c : Int} (h : m.getTriangle i = some (a, b, c)) :
    ∃ eab ebc eac, m.getEdge eab = some (a, b) ∧ m.getEdge ebc = some (b, c) ∧ m.getEdge eac = some (a, c) := by
  obtain ⟨_, _, hab, hbc, _⟩ := B.tri_ok h
  obtain ⟨t, ht, hs⟩ := B.tri_in h
  have ha := (hs a).1 (by simp [OnTri])
  have hb := (hs b).1 (by simp [OnTri])
  have hc := (hs c).1 (by simp [OnTri])
  obtain ⟨x, hx⟩ := B.edge_of hab ⟨t, ht, ha, hb⟩
  obtain ⟨y, hy⟩ := B.edge_of hbc ⟨t, ht, hb, hc⟩
  obtain ⟨z, hz⟩ := B.edge_of (show a < c by omega) ⟨t, ht, ha, hc⟩
  exact ⟨x, y, z, hx, hy, hz⟩

end Verif.XM
