import Verif.UMesh.Edges
import Mathlib.Data.List.Perm.Basic

/-! The result of `build` on a legal input. -/

namespace Verif.UM

theorem writeSides_spec (a : List Int) (e : Int) (S : List Int) (h0 : 0 ≤ e) (h1 : 2 * e + 1 < a.length)
    (hS : S.length ≤ 2) : ∃ a', writeSides a e 0 S = some a' ∧ a'.length = a.length ∧
      (∀ i, i ≠ 2 * e → i ≠ 2 * e + 1 → read a' i = read a i) ∧
      read a' (2 * e) = (S[0]?).or (read a (2 * e)) ∧ read a' (2 * e + 1) = (S[1]?).or (read a (2 * e + 1)) := by
  rcases S with _ | ⟨x, _ | ⟨y, _ | ⟨z, S⟩⟩⟩
  · exact ⟨a, rfl, rfl, fun _ _ _ => rfl, by simp, by simp⟩
  · obtain ⟨b, hb, hbl, hbr⟩ := write_of_lt (a := a) (i := 0 + 2 * e) x (by omega) (by omega)
    refine ⟨b, by simp [writeSides] at hb ⊢; exact hb, hbl, ?_, ?_, ?_⟩
    · intro i h2 h3; rw [hbr, if_neg (by omega)]
    · rw [hbr, if_pos (by omega)]; rfl
    · rw [hbr, if_neg (by omega)]; rfl
  · obtain ⟨b, hb, hbl, hbr⟩ := write_of_lt (a := a) (i := 0 + 2 * e) x (by omega) (by omega)
    obtain ⟨c, hc, hcl, hcr⟩ := write_of_lt (a := b) (i := 1 + 2 * e) y (by omega) (by omega)
    refine ⟨c, ?_, by omega, ?_, ?_, ?_⟩
    · simp at hb
      simp [writeSides, hb, hc]
    · intro i h2 h3; rw [hcr, if_neg (by omega), hbr, if_neg (by omega)]
    · rw [hcr, if_neg (by omega), hbr, if_pos (by omega)]; rfl
    · rw [hcr, if_pos (by omega)]; rfl
  · simp at hS

theorem fillEdges_spec (side : List (List Int)) (n1 : Nat) : ∀ (l : List (Edge × Int)) (ed so : List Int),
    ed.length = 2 * n1 → so.length = 2 * n1 → (l.map Prod.snd).Nodup →
    (∀ kv ∈ l, 0 ≤ kv.2 ∧ kv.2 < n1 ∧ ∃ S, read side kv.2 = some S ∧ S.length ≤ 2) →
    ∃ ed' so', fillEdges side l ed so = some (ed', so') ∧ ed'.length = 2 * n1 ∧ so'.length = 2 * n1 ∧
      (∀ i, (∀ kv ∈ l, i ≠ 2 * kv.2 ∧ i ≠ 2 * kv.2 + 1) → read ed' i = read ed i ∧ read so' i = read so i) ∧
      (∀ kv ∈ l, read ed' (2 * kv.2) = some kv.1.1 ∧ read ed' (2 * kv.2 + 1) = some kv.1.2 ∧
        ∀ S, read side kv.2 = some S → read so' (2 * kv.2) = (S[0]?).or (read so (2 * kv.2)) ∧
          read so' (2 * kv.2 + 1) = (S[1]?).or (read so (2 * kv.2 + 1))) := by
  intro l
  induction l with
  | nil => intro ed so h1 h2 _ _; exact ⟨ed, so, rfl, h1, h2, fun _ _ => ⟨rfl, rfl⟩, by simp⟩
  | cons kv l ih =>
    intro ed so h1 h2 hn hs
    obtain ⟨g1, g2, S, g3, g4⟩ := hs kv (List.mem_cons_self ..)
    rw [List.map_cons, List.nodup_cons] at hn
    obtain ⟨a, ha, hal, har⟩ := write_of_lt (a := ed) (i := 0 + 2 * kv.2) kv.1.1 (by omega) (by omega)
    obtain ⟨b, hb, hbl, hbr⟩ := write_of_lt (a := a) (i := 1 + 2 * kv.2) kv.1.2 (by omega) (by omega)
    obtain ⟨c, hc, hcl, hc1, hc2, hc3⟩ := writeSides_spec so kv.2 S g1 (by omega) g4
    obtain ⟨ed', so', e1, e2, e3, e4, e5⟩ := ih b c (by omega) (by omega) hn.2
      (fun kv' h' => hs kv' (List.mem_cons_of_mem _ h'))
    have hother : ∀ kv' ∈ l, kv'.2 ≠ kv.2 := by
      intro kv' h' he
      exact hn.1 (he ▸ List.mem_map_of_mem h')
    refine ⟨ed', so', ?_, e2, e3, ?_, ?_⟩
    · simp only [fillEdges, ha, hb, g3, hc, e1, Option.bind_eq_bind, Option.bind_some]
    · intro i hi
      have hi0 := hi kv (List.mem_cons_self ..)
      obtain ⟨f1, f2⟩ := e4 i (fun kv' h' => hi kv' (List.mem_cons_of_mem _ h'))
      rw [f1, f2, hc1 i hi0.1 hi0.2, hbr, if_neg (by omega), har, if_neg (by omega)]
      exact ⟨rfl, rfl⟩
    · intro kv' h'
      rcases List.mem_cons.1 h' with rfl | h'
      · have fr : ∀ kv'' ∈ l, 2 * kv'.2 ≠ 2 * kv''.2 ∧ 2 * kv'.2 ≠ 2 * kv''.2 + 1 := by
          intro kv'' h''; have := hother kv'' h''; omega
        have fr' : ∀ kv'' ∈ l, 2 * kv'.2 + 1 ≠ 2 * kv''.2 ∧ 2 * kv'.2 + 1 ≠ 2 * kv''.2 + 1 := by
          intro kv'' h''; have := hother kv'' h''; omega
        obtain ⟨f1, f2⟩ := e4 _ fr
        obtain ⟨f3, f4⟩ := e4 _ fr'
        refine ⟨?_, ?_, ?_⟩
        · rw [f1, hbr, if_neg (by omega), har, if_pos (by omega)]
        · rw [f3, hbr, if_pos (by omega)]
        · intro S' hS'
          rw [g3] at hS'; simp at hS'; subst hS'
          exact ⟨by rw [f2, hc2], by rw [f4, hc3]⟩
      · obtain ⟨f1, f2, f3⟩ := e5 kv' h'
        have := hother kv' h'
        refine ⟨f1, f2, ?_⟩
        intro S' hS'
        obtain ⟨f4, f5⟩ := f3 S' hS'
        rw [f4, f5, hc1 _ (by omega) (by omega), hc1 _ (by omega) (by omega)]
        exact ⟨rfl, rfl⟩

/-- adding to a cell, in terms of membership -/
theorem addAt_mem {a : List (List Int)} {w : Int} (x : Int) (h0 : 0 ≤ w) (h1 : w < a.length) :
    ∃ b, addAt a w x = some b ∧ b.length = a.length ∧ ∀ v S, read a v = some S → StrictSorted S →
      ∃ S', read b v = some S' ∧ StrictSorted S' ∧ ∀ y, y ∈ S' ↔ y ∈ S ∨ (y = x ∧ v = w) := by
  obtain ⟨b, hb, hbl, hbr⟩ := addAt_of_lt x h0 h1
  refine ⟨b, hb, hbl, ?_⟩
  intro v S hS hs
  by_cases hv : v = w
  · refine ⟨setInsert x S, by rw [hbr, if_pos hv, hS]; rfl, hs.setInsert, ?_⟩
    intro y; rw [mem_setInsert]; simp [hv]; tauto
  · exact ⟨S, by rw [hbr, if_neg hv, hS], hs, by simp [hv]⟩

theorem fillVerts_spec (n0 : Nat) : ∀ (l : List (Edge × Int)) (vs vv : List (List Int)),
    vs.length = n0 → vv.length = n0 →
    (∀ kv ∈ l, 0 ≤ kv.1.1 ∧ kv.1.1 < n0 ∧ 0 ≤ kv.1.2 ∧ kv.1.2 < n0) →
    ∃ vs' vv', fillVerts l vs vv = some (vs', vv') ∧ vs'.length = n0 ∧ vv'.length = n0 ∧
      (∀ v S, read vs v = some S → StrictSorted S → ∃ S', read vs' v = some S' ∧ StrictSorted S' ∧
        ∀ x, x ∈ S' ↔ x ∈ S ∨ ∃ kv ∈ l, x = kv.2 ∧ (v = kv.1.1 ∨ v = kv.1.2)) ∧
      (∀ v S, read vv v = some S → StrictSorted S → ∃ S', read vv' v = some S' ∧ StrictSorted S' ∧
        ∀ x, x ∈ S' ↔ x ∈ S ∨ ∃ kv ∈ l, (v = kv.1.1 ∧ x = kv.1.2) ∨ (v = kv.1.2 ∧ x = kv.1.1)) := by
  intro l
  induction l with
  | nil =>
    intro vs vv h1 h2 _
    exact ⟨vs, vv, rfl, h1, h2, fun v S h hs => ⟨S, h, hs, by simp⟩, fun v S h hs => ⟨S, h, hs, by simp⟩⟩
  | cons kv l ih =>
    intro vs vv h1 h2 hr
    have h := hr kv (List.mem_cons_self ..)
    obtain ⟨a, ha, hal, ham⟩ := addAt_mem (a := vs) (w := kv.1.1) kv.2 (by omega) (by omega)
    obtain ⟨b, hb, hbl, hbm⟩ := addAt_mem (a := a) (w := kv.1.2) kv.2 (by omega) (by omega)
    obtain ⟨c, hc, hcl, hcm⟩ := addAt_mem (a := vv) (w := kv.1.1) kv.1.2 (by omega) (by omega)
    obtain ⟨d, hd, hdl, hdm⟩ := addAt_mem (a := c) (w := kv.1.2) kv.1.1 (by omega) (by omega)
    obtain ⟨vs', vv', e1, e2, e3, e4, e5⟩ := ih b d (by omega) (by omega)
      (fun kv' h' => hr kv' (List.mem_cons_of_mem _ h'))
    refine ⟨vs', vv', by simp [fillVerts, ha, hb, hc, hd, e1], e2, e3, ?_, ?_⟩
    · intro v S hS hs
      obtain ⟨S1, p1, p2, p3⟩ := ham v S hS hs
      obtain ⟨S2, q1, q2, q3⟩ := hbm v S1 p1 p2
      obtain ⟨S3, r1, r2, r3⟩ := e4 v S2 q1 q2
      refine ⟨S3, r1, r2, ?_⟩
      intro x
      rw [r3, q3, p3]
      constructor
      · rintro (((h | h) | h) | ⟨kv', h', h''⟩)
        · exact Or.inl h
        · exact Or.inr ⟨kv, List.mem_cons_self .., h.1, Or.inl h.2⟩
        · exact Or.inr ⟨kv, List.mem_cons_self .., h.1, Or.inr h.2⟩
        · exact Or.inr ⟨kv', List.mem_cons_of_mem _ h', h''⟩
      · rintro (h | ⟨kv', h', h''⟩)
        · exact Or.inl (Or.inl (Or.inl h))
        · rcases List.mem_cons.1 h' with rfl | h'
          · rcases h'' with ⟨g, g' | g'⟩
            · exact Or.inl (Or.inl (Or.inr ⟨g, g'⟩))
            · exact Or.inl (Or.inr ⟨g, g'⟩)
          · exact Or.inr ⟨kv', h', h''⟩
    · intro v S hS hs
      obtain ⟨S1, p1, p2, p3⟩ := hcm v S hS hs
      obtain ⟨S2, q1, q2, q3⟩ := hdm v S1 p1 p2
      obtain ⟨S3, r1, r2, r3⟩ := e5 v S2 q1 q2
      refine ⟨S3, r1, r2, ?_⟩
      intro x
      rw [r3, q3, p3]
      constructor
      · rintro (((h | h) | h) | ⟨kv', h', h''⟩)
        · exact Or.inl h
        · exact Or.inr ⟨kv, List.mem_cons_self .., Or.inl ⟨h.2, h.1⟩⟩
        · exact Or.inr ⟨kv, List.mem_cons_self .., Or.inr ⟨h.2, h.1⟩⟩
        · exact Or.inr ⟨kv', List.mem_cons_of_mem _ h', h''⟩
      · rintro (h | ⟨kv', h', h''⟩)
        · exact Or.inl (Or.inl (Or.inl h))
        · rcases List.mem_cons.1 h' with rfl | h'
          · rcases h'' with ⟨g, g'⟩ | ⟨g, g'⟩
            · exact Or.inl (Or.inl (Or.inr ⟨g', g⟩))
            · exact Or.inl (Or.inr ⟨g', g⟩)
          · exact Or.inr ⟨kv', h', h''⟩

theorem fillTet_spec (so : List Int) (n2 : Nat) (hso : ∀ i x, read so i = some x → x < n2) :
    ∀ (l : List Nat) (tt : List (List Int)), tt.length = n2 → (∀ i ∈ l, 2 * i + 1 < so.length) →
    ∃ tt', fillTet so l tt = some tt' ∧ tt'.length = n2 ∧
      (∀ v S, read tt v = some S → StrictSorted S → ∃ S', read tt' v = some S' ∧ StrictSorted S' ∧
        ∀ x, x ∈ S' ↔ x ∈ S ∨ ∃ i ∈ l, ∃ t0 t1, read so (2 * (i : Int)) = some t0 ∧
          read so (2 * (i : Int) + 1) = some t1 ∧ 0 ≤ t0 ∧ 0 ≤ t1 ∧
          ((v = t0 ∧ x = t1) ∨ (v = t1 ∧ x = t0))) := by
  intro l
  induction l with
  | nil => intro tt h _; exact ⟨tt, rfl, h, fun v S h hs => ⟨S, h, hs, by simp⟩⟩
  | cons i l ih =>
    intro tt h hl
    have hi := hl i (List.mem_cons_self ..)
    obtain ⟨t0, ht0⟩ := read_of_lt (a := so) (i := 2 * (i : Int)) (by omega) (by omega)
    obtain ⟨t1, ht1⟩ := read_of_lt (a := so) (i := 2 * (i : Int) + 1) (by omega) (by omega)
    have hadd : (1 : Int) + 2 * (i : Int) = 2 * i + 1 := by omega
    by_cases hpos : 0 ≤ t0 ∧ 0 ≤ t1
    · obtain ⟨a, ha, hal, ham⟩ := addAt_mem (a := tt) (w := t0) t1 hpos.1 (by have := hso _ _ ht0; omega)
      obtain ⟨b, hb, hbl, hbm⟩ := addAt_mem (a := a) (w := t1) t0 hpos.2 (by have := hso _ _ ht1; omega)
      obtain ⟨tt', e1, e2, e3⟩ := ih b (by omega) (fun j hj => hl j (List.mem_cons_of_mem _ hj))
      refine ⟨tt', by simp [fillTet, hadd, ht0, ht1, hpos, ha, hb, e1], e2, ?_⟩
      intro v S hS hs
      obtain ⟨S1, p1, p2, p3⟩ := ham v S hS hs
      obtain ⟨S2, q1, q2, q3⟩ := hbm v S1 p1 p2
      obtain ⟨S3, r1, r2, r3⟩ := e3 v S2 q1 q2
      refine ⟨S3, r1, r2, ?_⟩
      intro x
      rw [r3, q3, p3]
      constructor
      · rintro (((h | h) | h) | ⟨j, h', h''⟩)
        · exact Or.inl h
        · exact Or.inr ⟨i, List.mem_cons_self .., t0, t1, ht0, ht1, hpos.1, hpos.2, Or.inl ⟨h.2, h.1⟩⟩
        · exact Or.inr ⟨i, List.mem_cons_self .., t0, t1, ht0, ht1, hpos.1, hpos.2, Or.inr ⟨h.2, h.1⟩⟩
        · exact Or.inr ⟨j, List.mem_cons_of_mem _ h', h''⟩
      · rintro (h | ⟨j, h', h''⟩)
        · exact Or.inl (Or.inl (Or.inl h))
        · rcases List.mem_cons.1 h' with rfl | h'
          · obtain ⟨u0, u1, w0, w1, -, -, h''⟩ := h''
            rw [ht0] at w0; rw [ht1] at w1; simp at w0 w1; subst w0; subst w1
            rcases h'' with ⟨g, g'⟩ | ⟨g, g'⟩
            · exact Or.inl (Or.inl (Or.inr ⟨g', g⟩))
            · exact Or.inl (Or.inr ⟨g', g⟩)
          · exact Or.inr ⟨j, h', h''⟩
    · obtain ⟨tt', e1, e2, e3⟩ := ih tt h (fun j hj => hl j (List.mem_cons_of_mem _ hj))
      refine ⟨tt', by simp [fillTet, hadd, ht0, ht1, hpos, e1], e2, ?_⟩
      intro v S hS hs
      obtain ⟨S3, r1, r2, r3⟩ := e3 v S hS hs
      refine ⟨S3, r1, r2, ?_⟩
      intro x
      rw [r3]
      constructor
      · rintro (h | ⟨j, h', h''⟩)
        · exact Or.inl h
        · exact Or.inr ⟨j, List.mem_cons_of_mem _ h', h''⟩
      · rintro (h | ⟨j, h', h''⟩)
        · exact Or.inl h
        · rcases List.mem_cons.1 h' with rfl | h'
          · obtain ⟨u0, u1, w0, w1, z0, z1, h''⟩ := h''
            rw [ht0] at w0; rw [ht1] at w1; simp at w0 w1; subst w0; subst w1
            exact absurd ⟨z0, z1⟩ hpos
          · exact Or.inr ⟨j, h', h''⟩

theorem read_replicate {α : Type} (n : Nat) (x : α) (v : Int) : read (List.replicate n x) v =
    if 0 ≤ v ∧ v < n then some x else none := by
  unfold read
  split
  · rw [List.getElem?_replicate]
    split <;> split <;> first | rfl | omega
  · rw [if_neg (by omega)]

/-- The facts about a built mesh everything else uses; `ks` lists the edges by id. -/
structure Built (n0 : Nat) (ts : List Tri) (m : M2) (ks : List Edge) : Prop where
  hn0 : m.n0 = n0
  tris : m.tris = ts.map sort3
  chi : m.chi = ts.map chi3
  triMap : ∀ k x, find m.triMap k = some x ↔ ∃ (j : Nat) (t : Tri), ts[j]? = some t ∧ sort3 t = k ∧ x = j
  vtris : ∀ v : Int, 0 ≤ v → v < n0 → ∃ S, read m.vtris v = some S ∧ StrictSorted S ∧
    ∀ x, x ∈ S ↔ ∃ (j : Nat) (t : Tri), ts[j]? = some t ∧ x = j ∧ OnTri v t
  nodup : ks.Nodup
  edgeMap : m.edgeMap = entries ks 0
  mem : ∀ e : Edge, e ∈ ks ↔ e.1 < e.2 ∧ ∃ t ∈ ts, OnTri e.1 t ∧ OnTri e.2 t
  elen : m.edges.length = 2 * ks.length
  slen : m.sideOf.length = 2 * ks.length
  edge : ∀ (j : Nat) (e : Edge), ks[j]? = some e → read m.edges (2 * (j : Int)) = some e.1 ∧
    read m.edges (2 * (j : Int) + 1) = some e.2
  side : ∀ (j : Nat) (e : Edge), ks[j]? = some e → ∃ S : List Int, StrictSorted S ∧ S.length ≤ 2 ∧
    (∀ x, x ∈ S ↔ ∃ (i : Nat) (t : Tri), ts[i]? = some t ∧ x = i ∧ OnTri e.1 t ∧ OnTri e.2 t) ∧
    read m.sideOf (2 * (j : Int)) = (S[0]?).or (some (-1)) ∧
    read m.sideOf (2 * (j : Int) + 1) = (S[1]?).or (some (-1))
  tlen : m.triEdges.length = 3 * ts.length
  te : ∀ (i : Nat) (t : Tri), ts[i]? = some t → ∃ a b c : Nat,
    ks[a]? = some ((sort3 t).1, (sort3 t).2.1) ∧ ks[b]? = some ((sort3 t).2.1, (sort3 t).2.2) ∧
    ks[c]? = some ((sort3 t).1, (sort3 t).2.2) ∧ read m.triEdges (3 * (i : Int)) = some (a : Int) ∧
    read m.triEdges (3 * (i : Int) + 1) = some (b : Int) ∧ read m.triEdges (3 * (i : Int) + 2) = some (c : Int)
  vside : ∀ v : Int, 0 ≤ v → v < n0 → ∃ S, read m.vside v = some S ∧ StrictSorted S ∧
    ∀ x, x ∈ S ↔ ∃ (j : Nat) (e : Edge), ks[j]? = some e ∧ x = j ∧ (v = e.1 ∨ v = e.2)
  vev : ∀ v : Int, 0 ≤ v → v < n0 → ∃ S, read m.vev v = some S ∧ StrictSorted S ∧
    ∀ x, x ∈ S ↔ ∃ e ∈ ks, (v = e.1 ∧ x = e.2) ∨ (v = e.2 ∧ x = e.1)
  tet : ∀ v : Int, 0 ≤ v → v < ts.length → ∃ S, read m.tet v = some S ∧ StrictSorted S ∧
    ∀ x, x ∈ S ↔ ∃ i : Nat, i < ts.length ∧ ∃ t0 t1, read m.sideOf (2 * (i : Int)) = some t0 ∧
      read m.sideOf (2 * (i : Int) + 1) = some t1 ∧ 0 ≤ t0 ∧ 0 ≤ t1 ∧
      ((v = t0 ∧ x = t1) ∨ (v = t1 ∧ x = t0))

theorem sum_le {l : List (List Int)} (h : ∀ S ∈ l, S.length ≤ 2) : (l.map List.length).sum ≤ 2 * l.length := by
  induction l with
  | nil => simp
  | cons a l ih =>
    have h1 := h a (List.mem_cons_self ..)
    have h2 := ih (fun S hS => h S (List.mem_cons_of_mem _ hS))
    simp; omega

theorem build_spec {order : List (Edge × Int) → List (Edge × Int)} (ho : IsOrder order) {n0 : Nat}
    {ts : List Tri} (hv : Valid n0 ts) : ∃ m ks, build order n0 ts = some m ∧ Built n0 ts m ks := by
  -- triangles
  obtain ⟨s, s0, s1, s2, s3, s4, s5⟩ := triLoop_spec n0 ts
    { tris := [], chi := [], triMap := [], vtris := List.replicate n0 [] } 0 (by simp) hv.range
  simp only [List.nil_append] at s1 s2
  have hdist : ∀ t ∈ ts, Distinct3 t := hv.distinct
  have hincr : ∀ t ∈ s.tris, Incr3 t := by
    intro t ht
    rw [s1, List.mem_map] at ht
    obtain ⟨t', h1, rfl⟩ := ht
    exact sort3_incr (hdist t' h1)
  -- edges
  obtain ⟨e, ks, e1, e2⟩ := edgeLoop_spec s.tris hincr
  have hlen : s.tris.length = ts.length := by rw [s1, List.length_map]
  have hget : ∀ (j : Nat) (t' : Tri), s.tris[j]? = some t' ↔ ∃ t, ts[j]? = some t ∧ sort3 t = t' := by
    intro j t'
    rw [s1, List.getElem?_map, Option.map_eq_some_iff]
  have hitem : ∀ (ed : Edge) (i : Nat), (∃ x ∈ items 0 s.tris, x.key = ed ∧ x.tid = i) ↔
      ed.1 < ed.2 ∧ ∃ t, ts[i]? = some t ∧ OnTri ed.1 t ∧ OnTri ed.2 t := by
    intro ed i
    constructor
    · rintro ⟨x, hx, hk, hi⟩
      obtain ⟨j, t', h1, h2, h3⟩ := (mem_items s.tris 0 x).1 hx
      obtain ⟨t, h4, rfl⟩ := (hget j t').1 h1
      have hinc := hincr _ (List.mem_of_getElem? h1)
      have hj : j = i := by omega
      subst hj
      unfold Item.key at hk
      rw [sort2_eq] at hk
      unfold Incr3 at hinc
      subst hk
      refine ⟨?_, t, h4, ?_, ?_⟩
      · show min _ _ < max _ _
        rcases h3 with ⟨_, a, b⟩ | ⟨_, a, b⟩ | ⟨_, a, b⟩ <;> rw [a, b] <;> omega
      · rw [← sort3_mem]; unfold OnTri
        show min _ _ = _ ∨ min _ _ = _ ∨ min _ _ = _
        rcases h3 with ⟨_, a, b⟩ | ⟨_, a, b⟩ | ⟨_, a, b⟩ <;> rw [a, b] <;> omega
      · rw [← sort3_mem]; unfold OnTri
        show max _ _ = _ ∨ max _ _ = _ ∨ max _ _ = _
        rcases h3 with ⟨_, a, b⟩ | ⟨_, a, b⟩ | ⟨_, a, b⟩ <;> rw [a, b] <;> omega
    · rintro ⟨hlt, t, h1, h2, h3⟩
      obtain ⟨u, w⟩ := ed
      simp only at hlt h2 h3
      rw [← sort3_mem] at h2 h3
      have h4 : s.tris[i]? = some (sort3 t) := (hget i _).2 ⟨t, h1, rfl⟩
      have hinc := hincr _ (List.mem_of_getElem? h4)
      unfold Incr3 at hinc
      unfold OnTri at h2 h3
      have cases3 : (u = (sort3 t).1 ∧ w = (sort3 t).2.1) ∨ (u = (sort3 t).2.1 ∧ w = (sort3 t).2.2) ∨
          (u = (sort3 t).1 ∧ w = (sort3 t).2.2) := by omega
      rcases cases3 with ⟨a, b⟩ | ⟨a, b⟩ | ⟨a, b⟩
      · refine ⟨⟨i, 0, (sort3 t).1, (sort3 t).2.1⟩, (mem_items _ 0 _).2 ⟨i, _, h4, by simp, by simp⟩, ?_, rfl⟩
        simp only [Item.key, sort2_eq, Prod.mk.injEq]; omega
      · refine ⟨⟨i, 1, (sort3 t).2.1, (sort3 t).2.2⟩, (mem_items _ 0 _).2 ⟨i, _, h4, by simp, by simp⟩, ?_, rfl⟩
        simp only [Item.key, sort2_eq, Prod.mk.injEq]; omega
      · refine ⟨⟨i, 2, (sort3 t).2.2, (sort3 t).1⟩, (mem_items _ 0 _).2 ⟨i, _, h4, by simp, by simp⟩, ?_, rfl⟩
        simp only [Item.key, sort2_eq, Prod.mk.injEq]; omega
  have hmem : ∀ ed : Edge, ed ∈ ks ↔ ed.1 < ed.2 ∧ ∃ t ∈ ts, OnTri ed.1 t ∧ OnTri ed.2 t := by
    intro ed
    rw [e2.mem]
    constructor
    · rintro ⟨x, hx, hk⟩
      obtain ⟨h1, t, h2, h3⟩ := (hitem ed x.tid).1 ⟨x, hx, hk, rfl⟩
      exact ⟨h1, t, List.mem_of_getElem? h2, h3⟩
    · rintro ⟨h1, t, h2, h3⟩
      obtain ⟨i, hi⟩ := List.getElem?_of_mem h2
      obtain ⟨x, hx, hk, -⟩ := (hitem ed i).2 ⟨h1, t, hi, h3⟩
      exact ⟨x, hx, hk⟩
  have hside : ∀ (j : Nat) (ed : Edge), ks[j]? = some ed → ∃ S, e.side[j]? = some S ∧ StrictSorted S ∧
      (∀ x : Int, x ∈ S ↔ ∃ (i : Nat) (t : Tri), ts[i]? = some t ∧ x = i ∧ OnTri ed.1 t ∧ OnTri ed.2 t) ∧
      S.length ≤ 2 := by
    intro j ed hj
    obtain ⟨S, g1, g2, g3⟩ := e2.side j ed hj
    have hlt := ((hmem ed).1 (List.mem_of_getElem? hj)).1
    have g3' : ∀ x : Int, x ∈ S ↔ ∃ (i : Nat) (t : Tri), ts[i]? = some t ∧ x = i ∧ OnTri ed.1 t ∧ OnTri ed.2 t := by
      intro x
      rw [g3]
      constructor
      · rintro ⟨y, hy, hk, hx⟩
        obtain ⟨-, t, h2, h3⟩ := (hitem ed y.tid).1 ⟨y, hy, hk, rfl⟩
        exact ⟨y.tid, t, h2, hx, h3⟩
      · rintro ⟨i, t, h2, hx, h3⟩
        obtain ⟨y, hy, hk, hi⟩ := (hitem ed i).2 ⟨hlt, t, h2, h3⟩
        exact ⟨y, hy, hk, by rw [hx, hi]⟩
    refine ⟨S, g1, g2, g3', ?_⟩
    by_contra hgt
    rcases S with _ | ⟨a, _ | ⟨b, _ | ⟨c, S⟩⟩⟩
    · simp at hgt
    · simp at hgt
    · simp at hgt
    · unfold StrictSorted at g2
      simp only [List.pairwise_cons, List.mem_cons, forall_eq_or_imp] at g2
      obtain ⟨i1, t1, a1, a2, a3, a4⟩ := (g3' a).1 (by simp)
      obtain ⟨i2, t2, b1, b2, b3, b4⟩ := (g3' b).1 (by simp)
      obtain ⟨i3, t3, c1, c2, c3, c4⟩ := (g3' c).1 (by simp)
      exact hv.manifold i1 i2 i3 t1 t2 t3 ed.1 ed.2 (by omega) (by omega) a1 b1 c1 (by omega)
        ⟨a3, a4, b3, b4, c3, c4⟩
  have hperm : (order e.edgeMap).Perm (entries ks 0) := by
    have := ho e.edgeMap
    rwa [e2.map] at this ⊢
  have hmemOrd : ∀ kv, kv ∈ order e.edgeMap ↔ ∃ j : Nat, ks[j]? = some kv.1 ∧ kv.2 = j := by
    intro kv
    rw [hperm.mem_iff]
    have := mem_entries ks 0 kv.1 kv.2
    simpa using this
  have hsnd : ∀ (l : List Edge) (n : Int), (entries l n).map Prod.snd = (List.range l.length).map (fun i => n + (i : Nat)) := by
    intro l
    induction l with
    | nil => intro n; rfl
    | cons a l ih =>
      intro n
      simp only [entries, List.map_cons, ih, List.length_cons, List.range_succ_eq_map, List.map_map]
      congr 1
      · simp
      · apply List.map_congr_left
        intro i _
        simp only [Function.comp]; push_cast; omega
  have hnodupOrd : ((order e.edgeMap).map Prod.snd).Nodup := by
    rw [(hperm.map Prod.snd).nodup_iff, hsnd]
    refine List.Nodup.map ?_ List.nodup_range
    intro a b h; simp at h; exact h
  have hn1 : e.edgeMap.length = ks.length := by rw [e2.map, entries_length]
  obtain ⟨ed, so, f1, f2, f3, f4, f5⟩ := fillEdges_spec e.side ks.length (order e.edgeMap)
    (List.replicate (2 * ks.length) 0) (List.replicate (2 * ks.length) (-1)) (by simp) (by simp) hnodupOrd (by
      intro kv hkv
      obtain ⟨j, h1, h2⟩ := (hmemOrd kv).1 hkv
      have := (List.getElem?_eq_some_iff.1 h1).1
      obtain ⟨S, g1, g2, g3, g4⟩ := hside j kv.1 h1
      exact ⟨by omega, by omega, S, by rw [h2, read_nat]; exact g1, g4⟩)
  obtain ⟨vs, vv, v1, v2, v3, v4, v5⟩ := fillVerts_spec n0 (order e.edgeMap) (List.replicate n0 [])
    (List.replicate n0 []) (by simp) (by simp) (by
      intro kv hkv
      obtain ⟨j, h1, h2⟩ := (hmemOrd kv).1 hkv
      obtain ⟨-, t, h3, h4, h5⟩ := (hmem kv.1).1 (List.mem_of_getElem? h1)
      have a := hv.range t h3 _ h4
      have b := hv.range t h3 _ h5
      exact ⟨a.1, a.2, b.1, b.2⟩)
  have hsum : 3 * ts.length ≤ 2 * ks.length := by
    have h1 := e2.sum
    rw [items_length, hlen] at h1
    have h2 : (e.side.map List.length).sum ≤ 2 * e.side.length := by
      apply sum_le
      intro S hS
      obtain ⟨j, hj⟩ := List.getElem?_of_mem hS
      have hjl := (List.getElem?_eq_some_iff.1 hj).1
      rw [e2.len] at hjl
      obtain ⟨S', g1, -, -, g4⟩ := hside j ks[j] (List.getElem?_eq_getElem hjl)
      rw [hj] at g1; simp at g1; subst g1; exact g4
    rw [e2.len] at h2
    omega
  have hsoval : ∀ (j : Nat) (e' : Edge), ks[j]? = some e' → ∃ S : List Int, StrictSorted S ∧ S.length ≤ 2 ∧
      (∀ x, x ∈ S ↔ ∃ (i : Nat) (t : Tri), ts[i]? = some t ∧ x = i ∧ OnTri e'.1 t ∧ OnTri e'.2 t) ∧
      read so (2 * (j : Int)) = (S[0]?).or (some (-1)) ∧ read so (2 * (j : Int) + 1) = (S[1]?).or (some (-1)) := by
    intro j e' hj
    obtain ⟨S, g1, g2, g3, g4⟩ := hside j e' hj
    obtain ⟨p1, p2, p3⟩ := f5 (e', (j : Int)) ((hmemOrd _).2 ⟨j, hj, rfl⟩)
    have hjl := (List.getElem?_eq_some_iff.1 hj).1
    obtain ⟨p4, p5⟩ := p3 S (by rw [read_nat]; exact g1)
    refine ⟨S, g2, g4, g3, ?_, ?_⟩
    · rw [p4, read_replicate, if_pos (by omega)]
    · rw [p5, read_replicate, if_pos (by omega)]
  have hsolt : ∀ i x, read so i = some x → x < s.tris.length := by
    intro i x hx
    have hi := read_lt hx
    rw [f3] at hi
    have hjl : i.toNat / 2 < ks.length := by omega
    obtain ⟨S, q1, q2, q3, q4, q5⟩ := hsoval (i.toNat / 2) _ (List.getElem?_eq_getElem hjl)
    have hS : ∀ (p : Nat) (y : Int), S[p]? = some y → y < s.tris.length := by
      intro p y hy
      obtain ⟨i', t', h1, h2, -⟩ := (q3 y).1 (List.mem_of_getElem? hy)
      have := (List.getElem?_eq_some_iff.1 h1).1
      omega
    have hcase : i = 2 * ((i.toNat / 2 : Nat) : Int) ∨ i = 2 * ((i.toNat / 2 : Nat) : Int) + 1 := by omega
    rcases hcase with hc | hc
    · rw [hc, q4] at hx
      cases hS0 : S[0]? with
      | none => rw [hS0] at hx; simp at hx; omega
      | some y => rw [hS0] at hx; simp at hx; subst hx; exact hS 0 _ hS0
    · rw [hc, q5] at hx
      cases hS0 : S[1]? with
      | none => rw [hS0] at hx; simp at hx; omega
      | some y => rw [hS0] at hx; simp at hx; subst hx; exact hS 1 _ hS0
  obtain ⟨tt, t1, t2, t3⟩ := fillTet_spec so s.tris.length hsolt (List.range s.tris.length)
    (List.replicate s.tris.length []) (by simp) (by
      intro i hi
      rw [List.mem_range] at hi
      rw [f3]; omega)
  refine ⟨⟨n0, s.tris, s.chi, s.triMap, s.vtris, e.edgeMap, e.triEdges, ed, so, vs, vv, tt⟩, ks, ?_, ?_⟩
  · simp only [build, s0, e1, hn1, f1, v1, t1, Option.bind_eq_bind, Option.bind_some]
  · constructor
    · rfl
    · exact s1
    · exact s2
    · intro k x
      show find s.triMap k = some x ↔ _
      rw [s4]
      simp only [find, reduceCtorEq, false_or, true_and]
      constructor
      · rintro ⟨j, t, h1, h2, h3, -⟩
        exact ⟨j, t, h1, h2, by simpa using h3⟩
      · rintro ⟨j, t, h1, h2, h3⟩
        refine ⟨j, t, h1, h2, by simpa using h3, ?_⟩
        intro j' hj' t' h' h''
        have := hv.nodup j j' t t' h1 h' ((sort3_eq_iff (hdist t (List.mem_of_getElem? h1))
          (hdist t' (List.mem_of_getElem? h'))).1 (h2.trans h''.symm))
        omega
    · intro v h0 h1
      obtain ⟨S, g1, g2, g3⟩ := s5 v [] (by rw [read_replicate, if_pos ⟨h0, h1⟩]) (by simp [StrictSorted])
      exact ⟨S, g1, g2, by intro x; rw [g3]; simp⟩
    · exact e2.nodup
    · exact e2.map
    · exact hmem
    · exact f2
    · exact f3
    · intro j e' hj
      obtain ⟨p1, p2, -⟩ := f5 (e', (j : Int)) ((hmemOrd _).2 ⟨j, hj, rfl⟩)
      exact ⟨p1, p2⟩
    · exact hsoval
    · show e.triEdges.length = _
      rw [e2.tlen, hlen]
    · intro i t hi
      have h4 : s.tris[i]? = some (sort3 t) := (hget i _).2 ⟨t, hi, rfl⟩
      have hinc := hincr _ (List.mem_of_getElem? h4)
      unfold Incr3 at hinc
      obtain ⟨a, a1, a2⟩ := e2.te ⟨i, 0, (sort3 t).1, (sort3 t).2.1⟩ ((mem_items _ 0 _).2 ⟨i, _, h4, by simp, by simp⟩)
      obtain ⟨b, b1, b2⟩ := e2.te ⟨i, 1, (sort3 t).2.1, (sort3 t).2.2⟩ ((mem_items _ 0 _).2 ⟨i, _, h4, by simp, by simp⟩)
      obtain ⟨c, c1, c2⟩ := e2.te ⟨i, 2, (sort3 t).2.2, (sort3 t).1⟩ ((mem_items _ 0 _).2 ⟨i, _, h4, by simp, by simp⟩)
      have k1 : ∀ k : Nat, (3 * (i : Int) + k) = ((k + 3 * i : Nat) : Int) := by intro k; push_cast; omega
      refine ⟨a, b, c, ?_, ?_, ?_, ?_, ?_, ?_⟩
      · rw [a1]; simp only [Item.key, sort2_eq, Option.some.injEq, Prod.mk.injEq]; omega
      · rw [b1]; simp only [Item.key, sort2_eq, Option.some.injEq, Prod.mk.injEq]; omega
      · rw [c1]; simp only [Item.key, sort2_eq, Option.some.injEq, Prod.mk.injEq]; omega
      · have := k1 0; simp only [Nat.cast_zero, add_zero] at this
        rw [this, read_nat]; exact a2
      · have := k1 1; simp only [Nat.cast_one] at this
        rw [this, read_nat]; exact b2
      · have := k1 2; simp only [Nat.cast_ofNat] at this
        rw [this, read_nat]; exact c2
    · intro v h0 h1
      obtain ⟨S, g1, g2, g3⟩ := v4 v [] (by rw [read_replicate, if_pos ⟨h0, h1⟩]) (by simp [StrictSorted])
      refine ⟨S, g1, g2, ?_⟩
      intro x; rw [g3]
      simp only [List.not_mem_nil, false_or]
      constructor
      · rintro ⟨kv, hkv, h2, h3⟩
        obtain ⟨j, p1, p2⟩ := (hmemOrd kv).1 hkv
        exact ⟨j, kv.1, p1, by rw [h2, p2], h3⟩
      · rintro ⟨j, e', p1, p2, p3⟩
        exact ⟨(e', (j : Int)), (hmemOrd _).2 ⟨j, p1, rfl⟩, p2, p3⟩
    · intro v h0 h1
      obtain ⟨S, g1, g2, g3⟩ := v5 v [] (by rw [read_replicate, if_pos ⟨h0, h1⟩]) (by simp [StrictSorted])
      refine ⟨S, g1, g2, ?_⟩
      intro x; rw [g3]
      simp only [List.not_mem_nil, false_or]
      constructor
      · rintro ⟨kv, hkv, h3⟩
        obtain ⟨j, p1, p2⟩ := (hmemOrd kv).1 hkv
        exact ⟨kv.1, List.mem_of_getElem? p1, h3⟩
      · rintro ⟨e', he', p3⟩
        obtain ⟨j, p1⟩ := List.getElem?_of_mem he'
        exact ⟨(e', (j : Int)), (hmemOrd _).2 ⟨j, p1, rfl⟩, p3⟩
    · intro v h0 h1
      obtain ⟨S, g1, g2, g3⟩ := t3 v [] (by rw [read_replicate, if_pos (by omega)]) (by simp [StrictSorted])
      refine ⟨S, g1, g2, ?_⟩
      intro x; rw [g3]
      simp only [List.not_mem_nil, false_or, List.mem_range, hlen]

end Verif.UM
