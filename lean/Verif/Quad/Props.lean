import Verif.Quad.Lemmas
import Mathlib.Data.List.Perm.Subperm
/-! # Properties of the point locator (C73) -/
namespace Verif.Quad

/-! ## locating in a tree -/

/-- total size of a stack -/
def stackSize (S : List QTree) : Nat := (S.map QTree.size).sum

theorem stackSize_cons (q : QTree) (S : List QTree) : stackSize (q :: S) = q.size + stackSize S := rfl

theorem stackSize_push (c : QTree) (S : List QTree) : stackSize (pushChild c S) = c.size + stackSize S := by
  cases c <;> simp [pushChild, stackSize, QTree.size]

theorem mem_push {c q : QTree} {S : List QTree} (h : q ∈ pushChild c S) : q = c ∧ c ≠ .nil ∨ q ∈ S := by
  cases c with
  | nil => exact .inr h
  | leaf => simpa [pushChild] using h
  | node => simpa [pushChild] using h

theorem push_leaves (c : QTree) (S : List QTree) :
    (pushChild c S).flatMap QTree.leaves = c.leaves ++ S.flatMap QTree.leaves := by
  cases c <;> simp [pushChild, QTree.leaves]

theorem size_pos {q : QTree} (h : q ≠ .nil) : 0 < q.size := by
  cases q with
  | nil => exact absurd rfl h
  | leaf => simp [QTree.size]
  | node => simp only [QTree.size]; omega

theorem locateLoop_spec (tris : List Tri) (x : P2) : ∀ (fuel : Nat) (S : List QTree), stackSize S ≤ fuel →
    (∀ q ∈ S, q ≠ .nil) → (∀ q ∈ S, q.Bounded) → (∀ e ∈ S.flatMap QTree.leaves, e.id < tris.length) →
    ∃ r, locateLoop tris x fuel S = some r ∧
      (∀ id mu, r = some (id, mu) → ∃ t, tris[id]? = some t ∧ insideTriangle x t = true ∧ mu = baryMu x t) ∧
      (r = none → ∀ e ∈ S.flatMap QTree.leaves, e.contains x = true → ∀ t, tris[e.id]? = some t →
        insideTriangle x t = false) := by
  intro fuel
  induction fuel with
  | zero =>
    intro S hf hn _ _
    rcases S with _ | ⟨q, S⟩
    · exact ⟨none, rfl, by simp, by simp⟩
    · have := size_pos (hn q List.mem_cons_self)
      rw [stackSize_cons] at hf; omega
  | succ fuel ih =>
    intro S hf hn hb hi
    rcases S with _ | ⟨q, S⟩
    · exact ⟨none, rfl, by simp, by simp⟩
    rw [stackSize_cons] at hf
    have hnS : ∀ q ∈ S, q ≠ .nil := fun q h => hn q (List.mem_cons_of_mem _ h)
    have hbS : ∀ q ∈ S, q.Bounded := fun q h => hb q (List.mem_cons_of_mem _ h)
    have hiS : ∀ e ∈ S.flatMap QTree.leaves, e.id < tris.length := fun e h => hi e (by
      rw [List.flatMap_cons]; exact List.mem_append_right _ h)
    rcases q with _ | ⟨bb, e⟩ | ⟨bb, c0, c1, c2, c3⟩
    · exact absurd rfl (hn _ List.mem_cons_self)
    · have he := hi e (by simp [QTree.leaves])
      have ht : tris[e.id]? = some tris[e.id] := List.getElem?_eq_getElem he
      by_cases hin : insideTriangle x tris[e.id] = true
      · refine ⟨some (e.id, baryMu x tris[e.id]), by simp only [locateLoop, ht, hin, if_true], ?_, by simp⟩
        rintro id mu h
        cases h
        exact ⟨_, ht, hin, rfl⟩
      · obtain ⟨r, hr, h1, h2⟩ := ih S (by simp [QTree.size] at hf; omega) hnS hbS hiS
        refine ⟨r, by simp only [locateLoop, ht, hin]; exact hr, h1, ?_⟩
        intro hrn e' he' hc t htt
        rw [List.flatMap_cons] at he'
        rcases List.mem_append.1 he' with he' | he'
        · have : e' = e := by simpa [QTree.leaves] using he'
          subst this
          rw [ht] at htt
          cases htt
          simpa using hin
        · exact h2 hrn e' he' hc t htt
    · have hbq := hb _ List.mem_cons_self
      simp only [QTree.size] at hf
      by_cases hcon : bb.contains x = true
      · obtain ⟨r, hr, h1, h2⟩ := ih (pushChild c3 (pushChild c2 (pushChild c1 (pushChild c0 S))))
          (by simp only [stackSize_push]; omega)
          (by
            intro q hq
            rcases mem_push hq with ⟨rfl, h⟩ | hq
            · exact h
            rcases mem_push hq with ⟨rfl, h⟩ | hq
            · exact h
            rcases mem_push hq with ⟨rfl, h⟩ | hq
            · exact h
            rcases mem_push hq with ⟨rfl, h⟩ | hq
            · exact h
            · exact hnS q hq)
          (by
            intro q hq
            rcases mem_push hq with ⟨rfl, h⟩ | hq
            · exact hbq.2.2.2.2
            rcases mem_push hq with ⟨rfl, h⟩ | hq
            · exact hbq.2.2.2.1
            rcases mem_push hq with ⟨rfl, h⟩ | hq
            · exact hbq.2.2.1
            rcases mem_push hq with ⟨rfl, h⟩ | hq
            · exact hbq.2.1
            · exact hbS q hq)
          (by
            intro e he
            apply hi e
            simp only [push_leaves, List.flatMap_cons, QTree.leaves, List.mem_append] at he ⊢
            tauto)
        refine ⟨r, by simp only [locateLoop, hcon, if_true]; exact hr, h1, ?_⟩
        intro hrn e he
        refine h2 hrn e ?_
        simp only [push_leaves, List.flatMap_cons, QTree.leaves, List.mem_append] at he ⊢
        tauto
      · obtain ⟨r, hr, h1, h2⟩ := ih S (by omega) hnS hbS hiS
        refine ⟨r, by simp only [locateLoop, hcon]; exact hr, h1, ?_⟩
        intro hrn e he hc t ht
        rw [List.flatMap_cons] at he
        rcases List.mem_append.1 he with he | he
        · exact absurd (contains_of_le (hbq.1 e he) hc) hcon
        · exact h2 hrn e he hc t ht

theorem locateRec_spec (tris : List Tri) (x : P2) : ∀ (q : QTree), q.Bounded →
    (∀ e ∈ q.leaves, e.id < tris.length) →
    ∃ r, locateRec tris x q = some r ∧
      (∀ id mu, r = some (id, mu) → ∃ t, tris[id]? = some t ∧ insideTriangle x t = true ∧ mu = baryMu x t) ∧
      (r = none → ∀ e ∈ q.leaves, e.contains x = true → ∀ t, tris[e.id]? = some t →
        insideTriangle x t = false) := by
  intro q
  induction q with
  | nil => intro _ _; exact ⟨none, rfl, by simp, by simp [QTree.leaves]⟩
  | leaf bb e =>
    intro hb hi
    have he := hi e (by simp [QTree.leaves])
    have ht : tris[e.id]? = some tris[e.id] := List.getElem?_eq_getElem he
    by_cases hcon : bb.contains x = true
    · by_cases hin : insideTriangle x tris[e.id] = true
      · refine ⟨some (e.id, baryMu x tris[e.id]), by simp only [locateRec, ht, hcon, hin, if_true], ?_, by simp⟩
        rintro id mu h
        cases h
        exact ⟨_, ht, hin, rfl⟩
      · refine ⟨none, by simp only [locateRec, ht, hcon, hin, if_true]; rfl, by simp, ?_⟩
        intro _ e' he' _ t htt
        have : e' = e := by simpa [QTree.leaves] using he'
        subst this
        rw [ht] at htt
        cases htt
        simpa using hin
    · refine ⟨none, by simp only [locateRec, hcon]; rfl, by simp, ?_⟩
      intro _ e' he' hc
      have : e' = e := by simpa [QTree.leaves] using he'
      subst this
      exact absurd (contains_of_le hb hc) hcon
  | node bb c0 c1 c2 c3 i0 i1 i2 i3 =>
    intro hb hi
    by_cases hcon : bb.contains x = true
    · obtain ⟨r0, e0, s0, n0⟩ := i0 hb.2.1 fun e he => hi e (by simp [QTree.leaves, he])
      obtain ⟨r1, e1, s1, n1⟩ := i1 hb.2.2.1 fun e he => hi e (by simp [QTree.leaves, he])
      obtain ⟨r2, e2, s2, n2⟩ := i2 hb.2.2.2.1 fun e he => hi e (by simp [QTree.leaves, he])
      obtain ⟨r3, e3, s3, n3⟩ := i3 hb.2.2.2.2 fun e he => hi e (by simp [QTree.leaves, he])
      rcases r0 with _ | r0
      · rcases r1 with _ | r1
        · rcases r2 with _ | r2
          · refine ⟨r3, by simp only [locateRec, hcon, if_true, e0, e1, e2, e3], s3, ?_⟩
            intro hr e he
            simp only [QTree.leaves, List.mem_append] at he
            rcases he with ((he | he) | he) | he
            · exact n0 rfl e he
            · exact n1 rfl e he
            · exact n2 rfl e he
            · exact n3 hr e he
          · exact ⟨some r2, by simp only [locateRec, hcon, if_true, e0, e1, e2], s2, by simp⟩
        · exact ⟨some r1, by simp only [locateRec, hcon, if_true, e0, e1], s1, by simp⟩
      · exact ⟨some r0, by simp only [locateRec, hcon, if_true, e0], s0, by simp⟩
    · refine ⟨none, by simp only [locateRec, hcon]; rfl, by simp, ?_⟩
      intro _ e he hc
      exact absurd (contains_of_le (hb.1 e he) hc) hcon

/-! ## the elements of a mesh -/

theorem rootBox_le (verts : List P2) : ∀ p ∈ verts,
    (rootBox verts).A.1 ≤ p.1 ∧ (rootBox verts).A.2 ≤ p.2 ∧ p.1 ≤ (rootBox verts).B.1 ∧ p.2 ≤ (rootBox verts).B.2 := by
  have key : ∀ (l : List P2) (b : Box), b.le (l.foldl (fun b p => b.join p p) b) ∧
      ∀ p ∈ l, (Box.mk p p p 0).le (l.foldl (fun b p => b.join p p) b) := by
    intro l
    induction l with
    | nil => intro b; exact ⟨⟨le_refl _, le_refl _, le_refl _, le_refl _⟩, by simp⟩
    | cons a l ih =>
      intro b
      obtain ⟨h1, h2⟩ := ih (b.join a a)
      have tr : ∀ {x y z : Box}, x.le y → y.le z → x.le z := fun h h' =>
        ⟨h'.1.trans h.1, h'.2.1.trans h.2.1, h.2.2.1.trans h'.2.2.1, h.2.2.2.trans h'.2.2.2⟩
      refine ⟨tr (join_le b _ _) h1, ?_⟩
      intro e he
      rcases List.mem_cons.1 he with rfl | he
      · exact tr ⟨min_le_right _ _, min_le_right _ _, le_max_right _ _, le_max_right _ _⟩ h1
      · exact h2 e he
  intro p hp
  exact (key verts Box.empty).2 p hp

theorem resolve_mem {verts : List P2} : ∀ {conn : List (Nat × Nat × Nat)} {tris : List Tri},
    resolve verts conn = some tris → ∀ t ∈ tris, t.p1 ∈ verts ∧ t.p2 ∈ verts ∧ t.p3 ∈ verts
  | [], tris, h, t, ht => by
    simp only [resolve, Option.some.injEq] at h
    subst h; simp at ht
  | (a, b, c) :: r, tris, h, t, ht => by
    simp only [resolve] at h
    split at h
    · rename_i p q s ts ha hb hc hr
      simp only [Option.some.injEq] at h
      subst h
      rcases List.mem_cons.1 ht with rfl | ht
      · exact ⟨List.mem_of_getElem? ha, List.mem_of_getElem? hb, List.mem_of_getElem? hc⟩
      · exact resolve_mem hr t ht
    · cases h

theorem mem_elems {tris : List Tri} {e : Box} : e ∈ elems tris ↔ ∃ i t, tris[i]? = some t ∧ e = triBox i t := by
  constructor
  · intro h
    obtain ⟨n, hn⟩ := List.mem_iff_getElem?.1 h
    rw [elems, List.getElem?_zipWith] at hn
    have hlt : n < tris.length := by
      by_contra hlt
      rw [List.getElem?_eq_none (l := tris) (not_lt.1 hlt)] at hn
      revert hn
      cases (List.range tris.length)[n]? <;> simp
    rw [List.getElem?_range hlt, List.getElem?_eq_getElem hlt] at hn
    exact ⟨n, tris[n], List.getElem?_eq_getElem hlt, (Option.some.inj hn).symm⟩
  · rintro ⟨i, t, ht, rfl⟩
    obtain ⟨hlt, rfl⟩ := List.getElem?_eq_some_iff.1 ht
    refine List.mem_iff_getElem?.2 ⟨i, ?_⟩
    rw [elems, List.getElem?_zipWith, List.getElem?_range hlt, ht]

theorem elems_ids (tris : List Tri) : (elems tris).map Box.id = List.range tris.length := by
  apply List.ext_getElem?
  intro i
  rw [List.getElem?_map, elems, List.getElem?_zipWith]
  by_cases hlt : i < tris.length
  · rw [List.getElem?_range hlt, List.getElem?_eq_getElem hlt]; rfl
  · rw [List.getElem?_eq_none (by simpa using hlt)]; rfl

theorem elems_centroids (tris : List Tri) : (elems tris).map Box.C = tris.map centroid := by
  apply List.ext_getElem?
  intro i
  rw [List.getElem?_map, List.getElem?_map, elems, List.getElem?_zipWith]
  by_cases hlt : i < tris.length
  · rw [List.getElem?_range hlt, List.getElem?_eq_getElem hlt]; rfl
  · rw [List.getElem?_eq_none (by simpa using hlt), List.getElem?_eq_none (l := tris) (by simpa using hlt)]; rfl

theorem le_max3 (x y z : Rat) : x ≤ max3 x y z ∧ y ≤ max3 x y z ∧ z ≤ max3 x y z :=
  ⟨(le_max_left _ _).trans (le_max_left _ _), (le_max_right _ _).trans (le_max_left _ _), le_max_right _ _⟩

theorem min3_le (x y z : Rat) : min3 x y z ≤ x ∧ min3 x y z ≤ y ∧ min3 x y z ≤ z :=
  ⟨(min_le_left _ _).trans (min_le_left _ _), (min_le_left _ _).trans (min_le_right _ _), min_le_right _ _⟩

theorem mean_lt_max3 {x y z : Rat} (h : ¬ (x = y ∧ y = z)) : (x + y + z) / 3 < max3 x y z := by
  obtain ⟨h1, h2, h3⟩ := le_max3 x y z
  rw [div_lt_iff₀ (by norm_num)]
  by_contra hc
  push Not at hc
  apply h
  constructor <;> linarith

theorem nondeg_strict {t : Tri} (h : Nondeg t) : ¬ (t.p1.1 = t.p2.1 ∧ t.p2.1 = t.p3.1) ∧
    ¬ (t.p1.2 = t.p2.2 ∧ t.p2.2 = t.p3.2) := by
  constructor
  · rintro ⟨h1, h2⟩
    apply h
    rw [h1, h2]; ring
  · rintro ⟨h1, h2⟩
    apply h
    rw [h1, h2]; ring

theorem elem_ok {verts : List P2} {t : Tri} (i : Nat) (h : t.p1 ∈ verts ∧ t.p2 ∈ verts ∧ t.p3 ∈ verts) :
    (triBox i t).le (rootBox verts) ∧ (Nondeg t → (rootBox verts).contains (triBox i t).C = true) := by
  obtain ⟨a1, a2, a3, a4⟩ := rootBox_le verts _ h.1
  obtain ⟨b1, b2, b3, b4⟩ := rootBox_le verts _ h.2.1
  obtain ⟨c1, c2, c3, c4⟩ := rootBox_le verts _ h.2.2
  have hle : (triBox i t).le (rootBox verts) :=
    ⟨le_min (le_min a1 b1) c1, le_min (le_min a2 b2) c2, max_le (max_le a3 b3) c3, max_le (max_le a4 b4) c4⟩
  refine ⟨hle, fun hn => (contains_iff _ _).2 ?_⟩
  obtain ⟨s1, s2⟩ := nondeg_strict hn
  refine ⟨?_, (mean_lt_max3 s1).trans_le hle.2.2.1, ?_, (mean_lt_max3 s2).trans_le hle.2.2.2⟩
  · simp only [triBox]; rw [le_div_iff₀ (by norm_num)]; linarith
  · simp only [triBox]; rw [le_div_iff₀ (by norm_num)]; linarith

theorem exists_sep : ∀ (l : List P2), l.Pairwise (· ≠ ·) → ∃ δ : Rat, 0 < δ ∧ l.Pairwise (Sep δ)
  | [], _ => ⟨1, one_pos, .nil⟩
  | p :: l, h => by
    obtain ⟨h1, h2⟩ := List.pairwise_cons.1 h
    obtain ⟨δ, hδ, hs⟩ := exists_sep l h2
    have : ∀ m : List P2, (∀ q ∈ m, p ≠ q) → ∃ ε : Rat, 0 < ε ∧ ∀ q ∈ m, Sep ε p q := by
      intro m
      induction m with
      | nil => intro _; exact ⟨1, one_pos, by simp⟩
      | cons q m ih =>
        intro hm
        obtain ⟨ε, hε, he⟩ := ih fun q hq => hm q (List.mem_cons_of_mem _ hq)
        have hq := hm q List.mem_cons_self
        have hpos : 0 < max |p.1 - q.1| |p.2 - q.2| := by
          by_contra hc
          have h0 := not_lt.1 hc
          have e1 : p.1 - q.1 = 0 := abs_nonpos_iff.1 ((le_max_left _ _).trans h0)
          have e2 : p.2 - q.2 = 0 := abs_nonpos_iff.1 ((le_max_right _ _).trans h0)
          exact hq (Prod.ext (by linarith) (by linarith))
        refine ⟨min ε (max |p.1 - q.1| |p.2 - q.2|), lt_min hε hpos, ?_⟩
        intro r hr
        rcases List.mem_cons.1 hr with rfl | hr
        · rcases le_total |p.1 - r.1| |p.2 - r.2| with h | h
          · exact .inr ((min_le_right _ _).trans (max_le h (le_refl _)))
          · exact .inl ((min_le_right _ _).trans (max_le (le_refl _) h))
        · exact (he r hr).imp ((min_le_left _ _).trans ·) ((min_le_left _ _).trans ·)
    obtain ⟨ε, hε, he⟩ := this l h1
    refine ⟨min δ ε, lt_min hδ hε, List.pairwise_cons.2 ⟨fun q hq => ?_, hs.imp fun hs => ?_⟩⟩
    · exact (he q hq).imp ((min_le_right _ _).trans ·) ((min_le_right _ _).trans ·)
    · exact hs.imp ((min_le_left _ _).trans ·) ((min_le_left _ _).trans ·)

theorem exists_pow (w δ : Rat) (hδ : 0 < δ) : ∃ k : Nat, w ≤ δ * 2 ^ k := by
  have h2 : ∀ n : Nat, (n : Rat) ≤ 2 ^ n := by
    intro n
    induction n with
    | zero => simp
    | succ n ih =>
      have : (1 : Rat) ≤ 2 ^ n := one_le_pow₀ (by norm_num)
      rw [pow_succ]; push_cast; linarith
  obtain ⟨n, hn⟩ : ∃ n : Nat, w / δ ≤ n := ⟨(w / δ).num.natAbs, by
    have h1 : w / δ ≤ ((w / δ).num : Rat) ∨ w / δ ≤ 0 := by
      rcases le_total (w / δ) 0 with h | h
      · exact .inr h
      · left
        have hd : (1 : Rat) ≤ ((w / δ).den : Rat) := by exact_mod_cast (w / δ).den_pos
        have hm : (w / δ) * ((w / δ).den : Rat) = (w / δ).num := Rat.mul_den_eq_num _
        nlinarith
    rcases h1 with h1 | h1
    · refine h1.trans ?_
      rw [Nat.cast_natAbs]
      exact_mod_cast le_abs_self _
    · exact h1.trans (by positivity)⟩
  refine ⟨n, ?_⟩
  rw [div_le_iff₀ hδ] at hn
  have := mul_le_mul_of_nonneg_right (h2 n) hδ.le
  linarith

/-! ## C73 -/

/-- Building the tree terminates, and every triangle of the mesh is in exactly one leaf. -/
theorem C73_build {verts : List P2} {conn : List (Nat × Nat × Nat)} {tris : List Tri} (h : Mesh verts conn tris) :
    ∃ (N : Nat) (q : QTree), (∀ fuel ≥ N, init fuel verts tris = some q) ∧ q.ids.Perm (List.range tris.length) := by
  have hmem := resolve_mem h.resolved
  have hin : ∀ e ∈ elems tris, (rootBox verts).contains e.C = true := by
    intro e he
    obtain ⟨i, t, ht, rfl⟩ := mem_elems.1 he
    exact (elem_ok i (hmem t (List.mem_of_getElem? ht))).2 (h.nondeg t (List.mem_of_getElem? ht))
  have hle : ∀ e ∈ elems tris, e.le (rootBox verts) := by
    intro e he
    obtain ⟨i, t, ht, rfl⟩ := mem_elems.1 he
    exact (elem_ok i (hmem t (List.mem_of_getElem? ht))).1
  obtain ⟨δ, hδ, hs⟩ := exists_sep (tris.map centroid) (List.pairwise_map.2 h.centroids)
  rw [← elems_centroids, List.pairwise_map] at hs
  obtain ⟨k, hk⟩ := exists_pow (max ((rootBox verts).B.1 - (rootBox verts).A.1) ((rootBox verts).B.2 - (rootBox verts).A.2)) δ hδ
  obtain ⟨q, hq⟩ := subdivide_terminates δ k true (rootBox verts) (elems tris) rfl ((le_max_left _ _).trans hk)
    ((le_max_right _ _).trans hk) hin hs
  refine ⟨k + 1, q, fun fuel hf => subdivide_mono _ _ _ _ _ _ hf hq, ?_⟩
  have := (subdivide_spec _ _ _ _ _ hin (fun _ => hle) hq).1.map Box.id
  rw [← ids_eq, elems_ids] at this
  exact this

theorem init_spec {verts : List P2} {conn : List (Nat × Nat × Nat)} {tris : List Tri} (h : Mesh verts conn tris)
    {fuel : Nat} {q : QTree} (hq : init fuel verts tris = some q) : q.leaves.Perm (elems tris) ∧ q.Bounded := by
  have hmem := resolve_mem h.resolved
  refine subdivide_spec _ _ _ _ _ ?_ (fun _ => ?_) hq
  · intro e he
    obtain ⟨i, t, ht, rfl⟩ := mem_elems.1 he
    exact (elem_ok i (hmem t (List.mem_of_getElem? ht))).2 (h.nondeg t (List.mem_of_getElem? ht))
  · intro e he
    obtain ⟨i, t, ht, rfl⟩ := mem_elems.1 he
    exact (elem_ok i (hmem t (List.mem_of_getElem? ht))).1

theorem inTri_bounds {x : P2} {t : Tri} (h : InTri x t) (hx : NotMax x t) (i : Nat) :
    (triBox i t).contains x = true := by
  obtain ⟨⟨a, b, c⟩, ha, hb, hc, hs, h1, h2⟩ := h
  simp only at ha hb hc hs h1 h2
  obtain ⟨l1, l2, l3⟩ := min3_le t.p1.1 t.p2.1 t.p3.1
  obtain ⟨k1, k2, k3⟩ := min3_le t.p1.2 t.p2.2 t.p3.2
  obtain ⟨u1, u2, u3⟩ := le_max3 t.p1.1 t.p2.1 t.p3.1
  obtain ⟨v1, v2, v3⟩ := le_max3 t.p1.2 t.p2.2 t.p3.2
  rw [contains_iff]
  refine ⟨?_, ?_, ?_, ?_⟩
  · simp only [triBox]
    have e : min3 t.p1.1 t.p2.1 t.p3.1 = (a + b + c) * min3 t.p1.1 t.p2.1 t.p3.1 := by rw [hs, one_mul]
    rw [h1, e, add_mul, add_mul]
    have := mul_le_mul_of_nonneg_left l1 ha
    have := mul_le_mul_of_nonneg_left l2 hb
    have := mul_le_mul_of_nonneg_left l3 hc
    linarith
  · simp only [triBox]
    rcases hx.1 with h | h | h
    · exact h.trans_le u1
    · exact h.trans_le u2
    · exact h.trans_le u3
  · simp only [triBox]
    have e : min3 t.p1.2 t.p2.2 t.p3.2 = (a + b + c) * min3 t.p1.2 t.p2.2 t.p3.2 := by rw [hs, one_mul]
    rw [h2, e, add_mul, add_mul]
    have := mul_le_mul_of_nonneg_left k1 ha
    have := mul_le_mul_of_nonneg_left k2 hb
    have := mul_le_mul_of_nonneg_left k3 hc
    linarith
  · simp only [triBox]
    rcases hx.2 with h | h | h
    · exact h.trans_le v1
    · exact h.trans_le v2
    · exact h.trans_le v3

/-- `locate` always returns; an id it returns is that of a triangle containing the point, and `mu` are the barycentric
coordinates of the point in it. -/
theorem C73_locate_sound {verts : List P2} {conn : List (Nat × Nat × Nat)} {tris : List Tri} (h : Mesh verts conn tris)
    {fuel : Nat} {q : QTree} (hq : init fuel verts tris = some q) (x : P2) :
    ∃ r, locate tris q x = some r ∧ ∀ id mu, r = some (id, mu) → ∃ t, tris[id]? = some t ∧ IsBary x t mu := by
  obtain ⟨hp, hb⟩ := init_spec h hq
  have hne : q ≠ .nil := by
    rintro rfl
    have hnil := hp.symm.eq_nil
    rcases tris with _ | ⟨t, tris⟩
    · cases fuel <;> cases hq
    · have : (triBox 0 t) ∈ elems (t :: tris) := mem_elems.2 ⟨0, t, rfl, rfl⟩
      rw [hnil] at this
      simp at this
  obtain ⟨r, hr, h1, _⟩ := locateLoop_spec tris x q.size [q] (by simp [stackSize]) (by simpa using hne) (by simpa using hb) (by
    intro e he
    rw [List.flatMap_singleton] at he
    obtain ⟨i, t, ht, rfl⟩ := mem_elems.1 (hp.mem_iff.1 he)
    exact (List.getElem?_eq_some_iff.1 ht).1)
  refine ⟨r, hr, fun id mu hrm => ?_⟩
  obtain ⟨t, ht, hin, rfl⟩ := h1 id mu hrm
  exact ⟨t, ht, bary_of_inside hin⟩

/-- A point of a triangle is located unless it is the rightmost or the topmost of that triangle. -/
theorem C73_locate_complete_partial {verts : List P2} {conn : List (Nat × Nat × Nat)} {tris : List Tri}
    (h : Mesh verts conn tris) {fuel : Nat} {q : QTree} (hq : init fuel verts tris = some q) (x : P2)
    {t : Tri} (ht : t ∈ tris) (hx : InTri x t) (hm : NotMax x t) :
    ∃ id mu s, locate tris q x = some (some (id, mu)) ∧ tris[id]? = some s ∧ IsBary x s mu := by
  obtain ⟨hp, hb⟩ := init_spec h hq
  obtain ⟨r, hr, h1⟩ := C73_locate_sound h hq x
  obtain ⟨i, hi⟩ := List.mem_iff_getElem?.1 ht
  have hel : triBox i t ∈ q.leaves := hp.mem_iff.2 (mem_elems.2 ⟨i, t, hi, rfl⟩)
  have hne : q ≠ .nil := by rintro rfl; simp [QTree.leaves] at hel
  rcases r with _ | ⟨id, mu⟩
  · exfalso
    obtain ⟨r', hr', _, h2⟩ := locateLoop_spec tris x q.size [q] (by simp [stackSize]) (by simpa using hne) (by simpa using hb) (by
      intro e he
      rw [List.flatMap_singleton] at he
      obtain ⟨i, t, ht, rfl⟩ := mem_elems.1 (hp.mem_iff.1 he)
      exact (List.getElem?_eq_some_iff.1 ht).1)
    rw [locate] at hr
    rw [hr] at hr'
    obtain ⟨m, hm'⟩ := hx
    have h3 := h2 (Option.some.inj hr').symm (triBox i t) (by simpa using hel) (inTri_bounds ⟨m, hm'⟩ hm i) t hi
    rw [(inside_of_bary (h.nondeg t ht) hm').1] at h3
    cases h3
  · obtain ⟨s, hs, hmu⟩ := h1 id mu rfl
    exact ⟨id, mu, s, hr, hs, hmu⟩

/-- The recursive variant gives the same guarantees. -/
theorem C73_locate_recursive {verts : List P2} {conn : List (Nat × Nat × Nat)} {tris : List Tri}
    (h : Mesh verts conn tris) {fuel : Nat} {q : QTree} (hq : init fuel verts tris = some q) (x : P2) :
    ∃ r, locateRec tris x q = some r ∧ (∀ id mu, r = some (id, mu) → ∃ t, tris[id]? = some t ∧ IsBary x t mu) ∧
      ∀ t ∈ tris, InTri x t → NotMax x t → r ≠ none := by
  obtain ⟨hp, hb⟩ := init_spec h hq
  obtain ⟨r, hr, h1, h2⟩ := locateRec_spec tris x q hb (by
    intro e he
    obtain ⟨i, t, ht, rfl⟩ := mem_elems.1 (hp.mem_iff.1 he)
    exact (List.getElem?_eq_some_iff.1 ht).1)
  refine ⟨r, hr, ?_, ?_⟩
  · intro id mu hrm
    obtain ⟨t, ht, hin, rfl⟩ := h1 id mu hrm
    exact ⟨t, ht, bary_of_inside hin⟩
  · intro t ht hx hm hrn
    obtain ⟨i, hi⟩ := List.mem_iff_getElem?.1 ht
    obtain ⟨m, hm'⟩ := hx
    have h3 := h2 hrn (triBox i t) (hp.mem_iff.2 (mem_elems.2 ⟨i, t, hi, rfl⟩)) (inTri_bounds ⟨m, hm'⟩ hm i) t hi
    rw [(inside_of_bary (h.nondeg t ht) hm').1] at h3
    cases h3

theorem small_neg {c : Rat} (hc : c < 0) (g : Rat) : ∃ ε : Rat, 0 < ε ∧ ∀ t, 0 < t → t < ε → c + t * g < 0 := by
  have hg : (0 : Rat) < |g| + 1 := by have := abs_nonneg g; linarith
  refine ⟨-c / (|g| + 1), div_pos (by linarith) hg, fun t h0 ht => ?_⟩
  rw [lt_div_iff₀ hg] at ht
  have := mul_le_mul_of_nonneg_left (le_abs_self g) h0.le
  linarith

theorem mu_shift (x : P2) (t : Tri) : ∃ g : Rat × Rat × Rat, ∀ s : Rat,
    (baryMu (x.1 + s, x.2 + s) t).1 = (baryMu x t).1 + s * g.1 ∧
    (baryMu (x.1 + s, x.2 + s) t).2.1 = (baryMu x t).2.1 + s * g.2.1 ∧
    (baryMu (x.1 + s, x.2 + s) t).2.2 = (baryMu x t).2.2 + s * g.2.2 := by
  refine ⟨(((t.p2.2 - t.p3.2) + (t.p3.1 - t.p2.1)) / den t, ((t.p3.2 - t.p1.2) + (t.p1.1 - t.p3.1)) / den t,
    - (((t.p2.2 - t.p3.2) + (t.p3.1 - t.p2.1)) / den t) - ((t.p3.2 - t.p1.2) + (t.p1.1 - t.p3.1)) / den t), fun s => ?_⟩
  simp only [baryMu, div_eq_mul_inv]
  refine ⟨by ring, by ring, by ring⟩

theorem closed_at {x : P2} {t : Tri} (hn : Nondeg t) (hx : ¬ InTri x t) :
    ∃ ε : Rat, 0 < ε ∧ ∀ s, 0 < s → s < ε → ¬ InTri (x.1 + s, x.2 + s) t := by
  obtain ⟨g, hg⟩ := mu_shift x t
  have hneg : (baryMu x t).1 < 0 ∨ (baryMu x t).2.1 < 0 ∨ (baryMu x t).2.2 < 0 := by
    by_contra hc
    push Not at hc
    apply hx
    refine ⟨baryMu x t, bary_of_inside ?_⟩
    rw [insideTriangle, if_neg (den_ne hn)]
    simp [hc.1, hc.2.1, hc.2.2]
  rcases hneg with h | h | h
  · obtain ⟨ε, hε, he⟩ := small_neg h g.1
    refine ⟨ε, hε, fun s h0 hs ⟨m, hm⟩ => ?_⟩
    have e := (inside_of_bary hn hm).2
    have := he s h0 hs
    rw [← (hg s).1, e] at this
    exact absurd hm.1 (not_le.2 this)
  · obtain ⟨ε, hε, he⟩ := small_neg h g.2.1
    refine ⟨ε, hε, fun s h0 hs ⟨m, hm⟩ => ?_⟩
    have e := (inside_of_bary hn hm).2
    have := he s h0 hs
    rw [← (hg s).2.1, e] at this
    exact absurd hm.2.1 (not_le.2 this)
  · obtain ⟨ε, hε, he⟩ := small_neg h g.2.2
    refine ⟨ε, hε, fun s h0 hs ⟨m, hm⟩ => ?_⟩
    have e := (inside_of_bary hn hm).2
    have := he s h0 hs
    rw [← (hg s).2.2, e] at this
    exact absurd hm.2.2.1 (not_le.2 this)

/-- Every point inside the meshed region is located: if all points a little up and right of `x` are in some triangle, so
is `x`, and `locate` finds a triangle containing it.  Only points of the upper and right boundary can be missed. -/
theorem C73_locate_interior {verts : List P2} {conn : List (Nat × Nat × Nat)} {tris : List Tri}
    (h : Mesh verts conn tris) {fuel : Nat} {q : QTree} (hq : init fuel verts tris = some q) (x : P2)
    (δ : Rat) (hδ : 0 < δ) (hx : ∀ s : Rat, 0 < s → s < δ → ∃ t ∈ tris, InTri (x.1 + s, x.2 + s) t) :
    ∃ id mu s, locate tris q x = some (some (id, mu)) ∧ tris[id]? = some s ∧ IsBary x s mu := by
  have key : ∀ l : List Tri, (∀ t ∈ l, Nondeg t) → ∃ ε : Rat, 0 < ε ∧ ∀ t ∈ l, ∀ s, 0 < s → s < ε →
      InTri (x.1 + s, x.2 + s) t → InTri x t := by
    intro l
    induction l with
    | nil => intro _; exact ⟨1, one_pos, by simp⟩
    | cons a l ih =>
      intro hl
      obtain ⟨ε, hε, he⟩ := ih fun t ht => hl t (List.mem_cons_of_mem _ ht)
      by_cases ha : InTri x a
      · refine ⟨ε, hε, fun t ht s h0 hs hi => ?_⟩
        rcases List.mem_cons.1 ht with rfl | ht
        · exact ha
        · exact he t ht s h0 hs hi
      · obtain ⟨ε', hε', he'⟩ := closed_at (hl a List.mem_cons_self) ha
        refine ⟨min ε ε', lt_min hε hε', fun t ht s h0 hs hi => ?_⟩
        rcases List.mem_cons.1 ht with rfl | ht
        · exact absurd hi (he' s h0 (hs.trans_le (min_le_right _ _)))
        · exact he t ht s h0 (hs.trans_le (min_le_left _ _)) hi
  obtain ⟨ε, hε, he⟩ := key tris h.nondeg
  have hmpos : 0 < min ε δ / 2 := by have := lt_min hε hδ; linarith
  have hmlt : min ε δ / 2 < min ε δ := by linarith
  obtain ⟨t, ht, hi⟩ := hx (min ε δ / 2) hmpos (hmlt.trans_le (min_le_right _ _))
  refine C73_locate_complete_partial h hq x ht (he t ht _ hmpos (hmlt.trans_le (min_le_left _ _)) hi) ?_
  obtain ⟨⟨a, b, c⟩, ha, hb, hc, hs, h1, h2⟩ := hi
  simp only at ha hb hc hs h1 h2
  constructor
  · by_contra hn
    push Not at hn
    have := mul_le_mul_of_nonneg_left hn.1 ha
    have := mul_le_mul_of_nonneg_left hn.2.1 hb
    have := mul_le_mul_of_nonneg_left hn.2.2 hc
    have e : x.1 = a * x.1 + b * x.1 + c * x.1 := by rw [← add_mul, ← add_mul, hs, one_mul]
    linarith
  · by_contra hn
    push Not at hn
    have := mul_le_mul_of_nonneg_left hn.1 ha
    have := mul_le_mul_of_nonneg_left hn.2.1 hb
    have := mul_le_mul_of_nonneg_left hn.2.2 hc
    have e : x.2 = a * x.2 + b * x.2 + c * x.2 := by rw [← add_mul, ← add_mul, hs, one_mul]
    linarith

/-- Two triangles with the same centre of gravity make the constructor recurse for ever. -/
theorem C73_same_centroid_diverges {verts : List P2} {conn : List (Nat × Nat × Nat)} {tris : List Tri}
    (hr : resolve verts conn = some tris) (hn : ∀ t ∈ tris, Nondeg t) {i j : Nat} (hij : i ≠ j) {s t : Tri}
    (hi : tris[i]? = some s) (hj : tris[j]? = some t) (hc : centroid s = centroid t) (fuel : Nat) :
    init fuel verts tris = none := by
  have hs := List.mem_of_getElem? hi
  refine subdivide_diverges fuel true _ _ (centroid s) ((elem_ok i (resolve_mem hr s hs)).2 (hn s hs)) ?_
  have hsub : [triBox i s, triBox j t].Subperm ((elems tris).filter fun e => decide (e.C = centroid s)) := by
    refine List.Nodup.subperm ?_ ?_
    · refine List.nodup_cons.2 ⟨?_, List.nodup_singleton _⟩
      rw [List.mem_singleton]
      intro he
      exact hij (congrArg Box.id he)
    · intro e he
      simp only [List.mem_cons, List.not_mem_nil, or_false] at he
      rcases he with rfl | rfl
      · exact List.mem_filter.2 ⟨mem_elems.2 ⟨i, s, hi, rfl⟩, by simp [triBox, centroid]⟩
      · refine List.mem_filter.2 ⟨mem_elems.2 ⟨j, t, hj, rfl⟩, ?_⟩
        rw [decide_eq_true_eq, hc]; rfl
  exact hsub.length_le

/-! ## a concrete mesh: the unit square cut along its diagonal -/

/-- the corners of the unit square -/
def sqV : List P2 := [(0, 0), (1, 0), (1, 1), (0, 1)]
/-- its two triangles -/
def sqC : List (Nat × Nat × Nat) := [(0, 1, 2), (0, 2, 3)]
/-- and their vertices -/
def sqT : List Tri := [⟨(0, 0), (1, 0), (1, 1)⟩, ⟨(0, 0), (1, 1), (0, 1)⟩]

theorem sq_mesh : Mesh sqV sqC sqT := by
  refine ⟨by decide +kernel, ?_, ?_⟩
  · intro t ht
    simp only [sqT, List.mem_cons, List.not_mem_nil, or_false] at ht
    rcases ht with rfl | rfl <;> norm_num [Nondeg]
  · simp only [sqT, List.pairwise_cons, List.mem_singleton, forall_eq, List.not_mem_nil, false_imp_iff, implies_true,
      List.Pairwise.nil, and_true, centroid]
    norm_num

/-- two levels suffice for it, and the centre of the square, on the common edge, is located with its coordinates -/
example : (init 2 sqV sqT).map QTree.ids = some [0, 1] := by decide +kernel
example : ((init 2 sqV sqT).bind (fun q => locate sqT q (1/2, 1/2))) =
    some (some (1, (1/2, 1/2, 0))) := by decide +kernel

/-- hypotheses of `C73_locate_interior` are met there -/
example : ∀ s : Rat, 0 < s → s < 1/2 → ∃ t ∈ sqT, InTri (1/2 + s, 1/2 + s) t := by
  intro s h0 h1
  refine ⟨_, List.mem_cons_self, (1/2 - s, 0, 1/2 + s), ?_, le_refl _, ?_, ?_, ?_, ?_⟩ <;> simp only <;> linarith

/-- The upper right corner of the meshed square is a point of both triangles, but `locate` does not find it: bounding boxes
are half open. -/
theorem C73_upper_boundary_missed : Mesh sqV sqC sqT ∧ (∀ t ∈ sqT, InTri (1, 1) t) ∧
    ∃ q, init 2 sqV sqT = some q ∧ locate sqT q (1, 1) = some none := by
  refine ⟨sq_mesh, ?_, ?_⟩
  · intro t ht
    simp only [sqT, List.mem_cons, List.not_mem_nil, or_false] at ht
    rcases ht with rfl | rfl
    · exact ⟨(0, 0, 1), by norm_num [IsBary]⟩
    · exact ⟨(0, 1, 0), by norm_num [IsBary]⟩
  · have h : (init 2 sqV sqT).map (fun q => locate sqT q (1, 1)) = some (some none) := by decide +kernel
    rcases hq : init 2 sqV sqT with _ | q
    · rw [hq] at h; cases h
    · rw [hq] at h
      exact ⟨q, rfl, Option.some.inj h⟩

/-- hypotheses of `C73_same_centroid_diverges`: a triangle and the triangle of its reflected corners -/
example : resolve [(0, 0), (3, 0), (0, 3), (2, 2), (-1, 2), (2, -1)] [(0, 1, 2), (3, 4, 5)] =
      some [⟨(0, 0), (3, 0), (0, 3)⟩, ⟨(2, 2), (-1, 2), (2, -1)⟩] ∧
    centroid ⟨(0, 0), (3, 0), (0, 3)⟩ = centroid ⟨(2, 2), (-1, 2), (2, -1)⟩ ∧
    Nondeg ⟨(0, 0), (3, 0), (0, 3)⟩ ∧ Nondeg ⟨(2, 2), (-1, 2), (2, -1)⟩ := by
  refine ⟨by decide +kernel, by decide +kernel, by norm_num [Nondeg], by norm_num [Nondeg]⟩

end Verif.Quad
