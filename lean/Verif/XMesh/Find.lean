import Verif.XMesh.Complete

/-! `find_simplex` on the vertices of a simplex. -/

namespace Verif.XM

open Verif.UM

variable {n0 : Nat} {ts : List Tri} {m : M2}

theorem flat_at {a t : Int} (h0 : 0 ≤ a) (h1 : a < m.n 0) (ht : 0 ≤ t) :
    flatId m (a + t * m.n 0) = some a ∧ flatTime m (a + t * m.n 0) = some t ∧
    flatId m (a + m.n 0 + t * m.n 0) = some a ∧ flatTime m (a + m.n 0 + t * m.n 0) = some (t + 1) := by
  have e : a + m.n 0 + t * m.n 0 = a + (t + 1) * m.n 0 := by ring
  have key : ∀ s : Int, 0 ≤ s → flatId m (a + s * m.n 0) = some a ∧ flatTime m (a + s * m.n 0) = some s := by
    intro s hs
    have hp : 0 ≤ s * (m.n 0 : Int) := Int.mul_nonneg hs (by omega)
    constructor
    · unfold flatId
      rw [mod_of_nonneg (by omega) (by omega), emod_at h0 h1]
    · unfold flatTime
      rw [if_neg (by omega), if_pos (by omega), ediv_at h0 h1]
  rw [e]
  exact ⟨(key t ht).1, (key t ht).2, (key (t + 1) (by omega)).1, (key (t + 1) (by omega)).2⟩

variable (B : Base n0 ts m)
include B

theorem Base.findT {i a b c : Int} (h : m.getTriangle i = some (a, b, c)) : m.findTriangle (a, b, c) = some (some i) := by
  obtain ⟨_, _, hab, hbc, _⟩ := B.tri_ok h
  exact (B.tri_find hab hbc i).2 h

theorem Base.findE {i a b : Int} (h : m.getEdge i = some (a, b)) : m.findEdge (a, b) = some (some i) := by
  obtain ⟨_, _, hab, _⟩ := B.edge_ok h
  exact (B.edge_find hab i).2 h

theorem find_dec {d : Nat} (hd : 1 ≤ d) {i t : Int} {us : List Int} (h : Dec m d i us) (ht : 0 ≤ t) :
    findSimplex m d (shift m t us) = some (some (i + t * n m d)) := by
  have key : ∀ {a : Int}, 0 ≤ a → a < m.n 0 → _ := fun {a} h0 h1 => flat_at (m := m) (t := t) (a := a) h0 h1 ht
  have m2 : min t (t + 1) = t := by omega
  have d1 : t + 1 - t = 1 := by omega
  have d0 : t - t = 0 := by omega
  cases h with
  | v0 _ _ => omega
  | @e2 a h0 h1 =>
    have ka := key h0 h1
    simp only [findSimplex, shift, List.map_cons, List.map_nil, flats, ka, Option.bind_eq_bind, Option.bind_some, find1]
    simp only [vset, List.foldl_cons, List.foldl_nil, setInsert, lt_irrefl, if_false, if_true, m2]
    congr 2; omega
  | @e0 j a b h | @e1 j a b h =>
    have ok := B.edge_ok h
    have ka := key (show 0 ≤ a by omega) (by omega)
    have kb := key (show 0 ≤ b by omega) (by omega)
    have n1 : ¬ b < a := by omega
    have n2 : ¬ b = a := by omega
    simp only [findSimplex, shift, List.map_cons, List.map_nil, flats, ka, kb, Option.bind_eq_bind, Option.bind_some, find1]
    simp [vset, setInsert, n1, n2, B.findE h, d1]
  | @t3 j a b h | @t4 j a b h =>
    have ok := B.edge_ok h
    have ka := key (show 0 ≤ a by omega) (by omega)
    have kb := key (show 0 ≤ b by omega) (by omega)
    have n1 : ¬ b < a := by omega
    have n2 : ¬ b = a := by omega
    simp only [findSimplex, shift, List.map_cons, List.map_nil, flats, ka, kb, Option.bind_eq_bind, Option.bind_some, find2]
    simp [vset, setInsert, n1, n2, B.findE h, d1]
  | @t0 j a b c h | @t1 j a b c h | @t2 j a b c h =>
    have ok := B.tri_ok h
    have ka := key (show 0 ≤ a by omega) (by omega)
    have kb := key (show 0 ≤ b by omega) (by omega)
    have kc := key (show 0 ≤ c by omega) (by omega)
    have n1 : ¬ b < a := by omega
    have n2 : ¬ b = a := by omega
    have n3 : ¬ c < a := by omega
    have n4 : ¬ c = a := by omega
    have n5 : ¬ c < b := by omega
    have n6 : ¬ c = b := by omega
    simp only [findSimplex, shift, List.map_cons, List.map_nil, flats, ka, kb, kc, Option.bind_eq_bind, Option.bind_some, find2]
    simp [vset, setInsert, n1, n2, n3, n4, n5, n6, B.findT h, addType, d1]
  | @k0 j a b c h | @k1 j a b c h | @k2 j a b c h =>
    have ok := B.tri_ok h
    have ka := key (show 0 ≤ a by omega) (by omega)
    have kb := key (show 0 ≤ b by omega) (by omega)
    have kc := key (show 0 ≤ c by omega) (by omega)
    have n1 : ¬ b < a := by omega
    have n2 : ¬ b = a := by omega
    have n3 : ¬ c < a := by omega
    have n4 : ¬ c = a := by omega
    have n5 : ¬ c < b := by omega
    have n6 : ¬ c = b := by omega
    simp only [findSimplex, shift, List.map_cons, List.map_nil, flats, ka, kb, kc, Option.bind_eq_bind, Option.bind_some, find3]
    simp [vset, setInsert, n1, n2, n3, n4, n5, n6, B.findT h, addType, d1]

end Verif.XM
