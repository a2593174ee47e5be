import Verif.Surf.Slice
import Verif.Tracker.Offline
import Verif.Curve.Lemmas
import Verif.Graph.Props
/-! C89: curves of lines and of slices of surfaces. -/
namespace Verif.Surf
open Verif.Gr (Symm Linked)
open Verif.Curve (mmInsert mem_mmInsert mmInsert_sorted mmInsert_perm KeysSorted)
open Relation
variable {δ : Type}

theorem fetch_spec {pts : List (FPt δ)} : ∀ {g : List Nat}, (∀ i ∈ g, i < pts.length) →
    ∃ ps, fetch pts g = some ps ∧ List.Forall₂ (fun i p => pts[i]? = some p) g ps := by
  intro g
  induction g with
  | nil => intro _; exact ⟨[], rfl, .nil⟩
  | cons i g ih =>
    intro h
    obtain ⟨ps, e, h1⟩ := ih fun j hj => h j (by simp [hj])
    have hi := List.getElem?_eq_getElem (h i (by simp))
    exact ⟨pts[i]'(h i (by simp)) :: ps, by simp only [fetch, hi, e], .cons hi h1⟩

/-- adding one curve -/
theorem addCurve_spec {nb : Nat → List Nat} {pts : List (FPt δ)} (acc : List (Int × CurveOut δ)) {g : List Nat} (hne : g ≠ [])
    (h : ∀ i ∈ g, i < pts.length) :
    ∃ e, addCurve nb pts acc g = some (mmInsert e.1 e.2 acc) ∧ CurveThrough (fun a b => b ∈ nb a) pts g e := by
  obtain ⟨ps, ef, h1⟩ := fetch_spec h
  rcases h1 with _ | @⟨i, p, is, ps, hi, hr⟩
  · exact absurd rfl hne
  · refine ⟨(p.id, _), by simp only [addCurve, ef]; rfl, ?_, ?_⟩
    · refine ⟨i, p, rfl, hi, rfl, ?_⟩
      have : List.Forall₂ (fun i p => pts[i]? = some p) (i :: is) (p :: ps) := .cons hi hr
      rw [List.forall₂_map_right_iff]
      exact this.imp fun a b hab => ⟨b, hab, rfl⟩
    · simp only
      unfold Gr.isLoop
      cases hl : (i :: is).getLast? with
      | none => simp at hl
      | some b =>
        simp only [List.head?_cons, Option.some.injEq]
        by_cases h1 : (i :: is).length = 1
        · simp only [h1, if_true]; simp
        · have h2 : 2 ≤ (i :: is).length := by simp only [List.length_cons] at h1 ⊢; omega
          simp only [h1, if_false, decide_eq_true_eq, h2, true_and]
          exact ⟨fun h => ⟨i, b, rfl, rfl, h⟩, by rintro ⟨_, _, rfl, rfl, h⟩; exact h⟩

theorem addCurves_spec {nb : Nat → List Nat} {pts : List (FPt δ)} : ∀ {gs : List (List Nat)} (acc : List (Int × CurveOut δ)),
    (∀ g ∈ gs, g ≠ [] ∧ ∀ i ∈ g, i < pts.length) →
    ∃ es out, gs.foldlM (addCurve nb pts) acc = some out ∧ out.Perm (es ++ acc) ∧ (KeysSorted acc → KeysSorted out) ∧
      List.Forall₂ (CurveThrough (fun a b => b ∈ nb a) pts) gs es := by
  intro gs
  induction gs with
  | nil => intro acc _; exact ⟨[], acc, rfl, .refl _, id, .nil⟩
  | cons g gs ih =>
    intro acc h
    obtain ⟨e, he, hc⟩ := addCurve_spec (nb := nb) acc (h g (by simp)).1 (h g (by simp)).2
    obtain ⟨es, out, ho, hp, hs, hf⟩ := ih (mmInsert e.1 e.2 acc) fun g hg => h g (by simp [hg])
    refine ⟨e :: es, out, ?_, ?_, fun ha => hs (mmInsert_sorted _ _ _ ha), .cons hc hf⟩
    · rw [List.foldlM_cons, he]; exact ho
    · refine hp.trans (((mmInsert_perm e.1 e.2 acc).append_left es).trans ?_)
      exact List.perm_middle

/-- the loop over the components -/
theorem addComps_spec {nb : Nat → List Nat} (hsy : Symm nb) (hnd : ∀ x, (nb x).Nodup) {pts : List (FPt δ)} {keys : List Nat}
    (hkeys : ∀ i ∈ keys, i < pts.length) : ∀ {cs : List (List Nat)} (acc : List (Int × CurveOut δ)),
    (∀ c ∈ cs, ∀ x ∈ c, x ∈ keys) → cs.Pairwise (fun s t => ∀ x, x ∈ s → x ∉ t) →
    (∀ c ∈ cs, ∀ x ∈ c, ∀ y ∈ keys, y ∈ nb x → y ∈ c) →
    ∃ gs es out, cs.foldlM (addComp nb pts) acc = some out ∧ out.Perm (es ++ acc) ∧ (KeysSorted acc → KeysSorted out) ∧
      List.Forall₂ (CurveThrough (fun a b => b ∈ nb a) pts) gs es ∧
      (∀ k ∈ gs, k ≠ [] ∧ List.IsChain (fun x y => y ∈ nb x) k) ∧ gs.flatten.Nodup ∧
      (∀ x, x ∈ gs.flatten ↔ (∃ c ∈ cs, x ∈ c) ∧ Trk.deg nb keys x ≤ 2) ∧
      ∀ k ∈ gs, ∀ x ∈ k, ∀ y ∈ gs.flatten, (y ∈ k ↔ Linked nb (Trk.ordKeys nb keys) x y) := by
  intro cs
  induction cs with
  | nil => intro acc _ _ _; exact ⟨[], [], acc, rfl, .refl _, id, .nil, by simp, by simp, by simp, by simp⟩
  | cons c cs ih =>
    intro acc hsub hp hcl
    have hp' := List.pairwise_cons.1 hp
    have hsubc := hsub c (by simp)
    have hclc := hcl c (by simp)
    obtain ⟨ls, el, l1, l2, l3, l4⟩ := Gr.C21_linear_components nb hsy hnd c
    obtain ⟨es0, acc1, e0, p0, s0, f0⟩ := addCurves_spec (nb := nb) (pts := pts) (gs := ls) acc
      (fun g hg => ⟨(l1 g hg).1, fun i hi => hkeys i (hsubc i ((l3 i).1 (List.mem_flatten.2 ⟨g, hg, hi⟩)).1)⟩)
    obtain ⟨gs, es, out, eo, po, so, fo, h2, h3, h4, h5⟩ := ih acc1 (fun d hd => hsub d (by simp [hd])) hp'.2
      (fun d hd => hcl d (by simp [hd]))
    have l3' : ∀ x, x ∈ ls.flatten ↔ x ∈ c ∧ Trk.deg nb keys x ≤ 2 := by
      intro x
      rw [l3 x]
      refine and_congr_right fun hx => ?_
      rw [← Trk.deg_class nb hsubc hclc x hx]
      rfl
    have hdis : ∀ x, x ∈ ls.flatten → x ∉ gs.flatten := by
      intro x hx hx'
      obtain ⟨⟨g', hg', hxg'⟩, -⟩ := (h4 x).1 hx'
      exact hp'.1 _ hg' x ((l3' x).1 hx).1 hxg'
    refine ⟨ls ++ gs, es0 ++ es, out, ?_, ?_, fun h => so (s0 h), Trk.forall₂_append f0 fo, ?_, ?_, ?_, ?_⟩
    · rw [List.foldlM_cons]
      have : addComp nb pts acc c = some acc1 := by unfold addComp; rw [el]; exact e0
      rw [this]
      exact eo
    · refine po.trans ((p0.append_left es).trans ?_)
      rw [← List.append_assoc]
      exact List.perm_append_comm.append_right acc
    · intro k hk
      rcases List.mem_append.1 hk with hk | hk
      · exact l1 k hk
      · exact h2 k hk
    · rw [List.flatten_append, List.nodup_append]
      refine ⟨l2, h3, ?_⟩
      intro a ha b hb hab
      subst hab
      exact hdis a ha hb
    · intro x
      rw [List.flatten_append, List.mem_append, h4, l3']
      simp only [List.mem_cons, exists_eq_or_imp]
      constructor
      · rintro (⟨a, b⟩ | ⟨a, b⟩)
        · exact ⟨.inl a, b⟩
        · exact ⟨.inr a, b⟩
      · rintro ⟨a | a, b⟩
        · exact .inl ⟨a, b⟩
        · exact .inr ⟨a, b⟩
    · intro k hk x hx y hy
      rcases List.mem_append.1 hk with hk | hk
      · have hxg := ((l3 x).1 (List.mem_flatten.2 ⟨k, hk, hx⟩)).1
        rw [Trk.linked_class nb hsy hsubc hclc hxg]
        rw [List.flatten_append, List.mem_append] at hy
        rcases hy with hy | hy
        · rw [l4 k hk x hx y hy]
          constructor
          · intro h; exact ⟨((l3 y).1 hy).1, h⟩
          · rintro ⟨-, h⟩; exact h
        · constructor
          · intro h
            exact absurd hy (hdis y (List.mem_flatten.2 ⟨k, hk, h⟩))
          · rintro ⟨h, -⟩
            obtain ⟨⟨g', hg', hyg'⟩, -⟩ := (h4 y).1 hy
            exact absurd hyg' (hp'.1 _ hg' y h)
      · rw [List.flatten_append, List.mem_append] at hy
        rcases hy with hy | hy
        · constructor
          · intro h
            exact absurd (List.mem_flatten.2 ⟨k, hk, h⟩) (hdis y hy)
          · intro h
            have hyg := ((l3 y).1 hy).1
            have := ((Trk.linked_class nb hsy hsubc hclc hyg).1 h.symm).1
            obtain ⟨⟨g', hg', hxg'⟩, -⟩ := (h4 x).1 (List.mem_flatten.2 ⟨k, hk, hx⟩)
            exact absurd hxg' (hp'.1 _ hg' x this)
        · exact h5 k hk x hx y hy

theorem degree_eq {nb : Nat → List Nat} (hnd : ∀ x, (nb x).Nodup) (n i : Nat) :
    Trk.deg nb (List.range n) i = degree (fun a b => b ∈ nb a) n i := by
  unfold Trk.deg degree
  apply List.Perm.length_eq
  rw [List.perm_ext_iff_of_nodup ((hnd i).filter _) (List.nodup_range.filter _)]
  intro j
  simp only [List.mem_filter, decide_eq_true_eq, List.mem_range]
  tauto

/-- the curves of a neighbour relation -/
theorem curveSet_spec {nb : Nat → List Nat} (hsy : Symm nb) (hnd : ∀ x, (nb x).Nodup) (pts : List (FPt δ)) :
    ∃ out, curveSet nb pts = some out ∧ CurvesOf (fun a b => b ∈ nb a) pts out := by
  obtain ⟨cs, ec, hP⟩ := Gr.C18_components nb (List.range pts.length)
  obtain ⟨gs, es, out, eo, po, so, fo, h2, h3, h4, h5⟩ := addComps_spec hsy hnd (pts := pts) (keys := List.range pts.length)
    (fun i hi => List.mem_range.1 hi) (cs := cs) [] hP.only hP.disjoint (by
      intro c hc x hx y hy hn
      exact (hP.classes c hc x hx y hy).2 (.rel _ _ ⟨hP.only c hc x hx, hy, hn⟩))
  have hcov : ∀ i, i ∈ gs.flatten ↔ i < pts.length ∧ degree (fun a b => b ∈ nb a) pts.length i ≤ 2 := by
    intro i
    rw [h4, degree_eq hnd]
    refine and_congr_left fun _ => ?_
    constructor
    · rintro ⟨c, hc, hx⟩; exact List.mem_range.1 (hP.only c hc i hx)
    · intro h; exact hP.cover i (List.mem_range.2 h)
  refine ⟨out, by unfold curveSet; rw [ec]; exact eo, gs, es, by simpa using po.symm, so (by simp [KeysSorted]), fo, h2, h3, hcov, ?_⟩
  intro g hg x hx y hy
  rw [h5 g hg x hx y hy]
  unfold Linked
  have hrel : (fun a b => a ∈ Trk.ordKeys nb (List.range pts.length) ∧ b ∈ Trk.ordKeys nb (List.range pts.length) ∧ b ∈ nb a) =
      fun a b => (a ∈ gs.flatten ∧ b ∈ gs.flatten) ∧ b ∈ nb a := by
    funext a b
    have hm : ∀ a, a ∈ Trk.ordKeys nb (List.range pts.length) ↔ a ∈ gs.flatten := by
      intro a
      rw [hcov, ← degree_eq hnd]
      unfold Trk.ordKeys
      simp
    rw [hm, hm, and_assoc]
  rw [hrel]

theorem mem_lineLinks : ∀ (es : List (Nat × Nat)) (links : Nat → List Nat) (a b : Nat),
    b ∈ lineLinks es links a ↔ b ∈ links a ∨ (a, b) ∈ es ∨ (b, a) ∈ es := by
  intro es
  induction es with
  | nil => intro links a b; simp [lineLinks]
  | cons e es ih =>
    intro links a b
    obtain ⟨v, w⟩ := e
    rw [lineLinks, ih]
    have h1 : b ∈ addLink (addLink links v w) w v a ↔ b ∈ links a ∨ (a = v ∧ b = w) ∨ (a = w ∧ b = v) := by
      unfold addLink
      split <;> split <;> (try simp only [mem_setInsert]) <;> tauto
    rw [h1]
    simp only [List.mem_cons, Prod.mk.injEq]
    tauto

theorem lineLinks_nodup : ∀ (es : List (Nat × Nat)) (links : Nat → List Nat), (∀ x, StrictSorted (links x)) →
    ∀ x, (lineLinks es links x).Nodup := by
  intro es
  induction es with
  | nil => intro links h x; exact (h x).nodup
  | cons e es ih =>
    intro links h x
    obtain ⟨v, w⟩ := e
    rw [lineLinks]
    apply ih
    have : ∀ (links : Nat → List Nat) (v w : Nat), (∀ x, StrictSorted (links x)) → ∀ x, StrictSorted (addLink links v w x) := by
      intro links v w h x
      unfold addLink
      split
      · exact (h x).setInsert
      · exact h x
    exact this _ _ _ (this _ _ _ h)

/-- C89: `to_curve_set` of a line cuts it into curves along its edges: every point with at most two adjacent points is on
exactly one curve once, the others are on none, and a curve is a connected class of such points. -/
theorem C89_line (l : Line δ) : ∃ out, l.toCurveSet = some out ∧ CurvesOf l.Adj l.pts out := by
  have hadj : (fun a b => b ∈ lineLinks l.edges (fun _ => []) a) = l.Adj := by
    funext a b
    rw [mem_lineLinks]
    simp [Line.Adj]
  have := curveSet_spec (nb := lineLinks l.edges fun _ => []) (by
    intro a b h
    rw [mem_lineLinks] at h ⊢
    tauto) (lineLinks_nodup _ _ (by simp [StrictSorted])) l.pts
  rw [hadj] at this
  exact this

theorem mem_triLinks {sel : List Nat} {t : Tri} {x : Nat} : x ∈ triLinks sel t ↔ ∃ i ∈ triVs t, newIndex sel i = some x := by
  unfold triLinks
  rw [Gr.foldl_setInsert_mem]
  simp

theorem mem_sliceLinks {sel : List Nat} : ∀ (ts : List Tri) (links : Nat → List Nat) (a b : Nat),
    b ∈ sliceLinks sel ts links a ↔ b ∈ links a ∨ ∃ t ∈ ts, a ∈ triLinks sel t ∧ b ∈ triLinks sel t := by
  intro ts
  induction ts with
  | nil => intro links a b; simp [sliceLinks]
  | cons t ts ih =>
    intro links a b
    rw [sliceLinks, ih]
    simp only [List.mem_cons, exists_eq_or_imp]
    by_cases h : a ∈ triLinks sel t
    · simp only [h, if_true, true_and]
      rw [Gr.foldl_setInsert_mem]
      tauto
    · simp only [h, if_false, false_and, false_or]

theorem foldl_setInsert_sorted {l acc : List Nat} (h : StrictSorted acc) : StrictSorted (l.foldl (fun acc x => setInsert x acc) acc) := by
  induction l generalizing acc with
  | nil => exact h
  | cons x l ih => exact ih h.setInsert

theorem sliceLinks_nodup {sel : List Nat} : ∀ (ts : List Tri) (links : Nat → List Nat), (∀ x, StrictSorted (links x)) →
    ∀ x, (sliceLinks sel ts links x).Nodup := by
  intro ts
  induction ts with
  | nil => intro links h x; exact (h x).nodup
  | cons t ts ih =>
    intro links h x
    rw [sliceLinks]
    apply ih
    intro k
    split
    · exact foldl_setInsert_sorted (h k)
    · exact h k

/-- C89: `slice_time(t)` of a surface: the points in slice `t` in order, cut into curves along the triangles. -/
theorem C89_slice_time (s : Surface δ) (t : Int) :
    ∃ out sel pts, s.sliceTime t = some out ∧ Kept (fun p => decide (p.timestep = t ∧ p.ordinal = true)) s.pts pts sel ∧
      CurvesOf (s.SliceAdj sel) pts out := by
  have hk := kept_selected (atTime t) s.pts
  have hf : (fun p : FPt δ => decide (p.timestep = t ∧ p.ordinal = true)) = atTime t := by
    funext p
    unfold atTime
    simp [Bool.decide_and]
  generalize hS : selected (atTime t) s.pts = sel at hk
  have hadj : (fun a b => b ∈ sliceLinks sel s.tris (fun _ => []) a) = s.SliceAdj sel := by
    funext a b
    rw [mem_sliceLinks]
    simp only [List.not_mem_nil, false_or, mem_triLinks, Surface.SliceAdj]
    have hget : ∀ i x, newIndex sel i = some x ↔ sel[x]? = some i := by
      intro i x
      unfold newIndex
      constructor
      · intro h
        split at h
        · rename_i hi
          simp only [Option.some.injEq] at h
          rw [← h, List.getElem?_eq_getElem (List.idxOf_lt_length_iff.2 hi), List.getElem_idxOf]
        · simp at h
      · intro h
        obtain ⟨h1, h2⟩ := List.getElem?_eq_some_iff.1 h
        have hm : i ∈ sel := h2 ▸ List.getElem_mem h1
        rw [if_pos hm, ← h2, List.Nodup.idxOf_getElem hk.nodup x h1]
    simp only [hget]
    apply propext
    constructor
    · rintro ⟨t, ht, ⟨i, hi, h1⟩, ⟨j, hj, h2⟩⟩; exact ⟨i, j, h1, h2, t, ht, hi, hj⟩
    · rintro ⟨i, j, h1, h2, t, ht, hi, hj⟩; exact ⟨t, ht, ⟨i, hi, h1⟩, ⟨j, hj, h2⟩⟩
  obtain ⟨out, e, h⟩ := curveSet_spec (nb := sliceLinks sel s.tris fun _ => []) (by
    intro a b h
    rw [mem_sliceLinks] at h ⊢
    simp only [List.not_mem_nil, false_or] at h ⊢
    obtain ⟨t, h1, h2, h3⟩ := h
    exact ⟨t, h1, h3, h2⟩) (sliceLinks_nodup _ _ (by simp [StrictSorted])) (s.pts.filter (atTime t))
  rw [hadj] at h
  refine ⟨out, sel, _, ?_, by rw [hf]; exact hk, h⟩
  unfold Surface.sliceTime
  rw [hS]
  exact e

/-- points for the examples: point `i` has identifier `i` -/
def exPts (n : Nat) : List (FPt Unit) := (List.range n).map fun i => ⟨i, 0, true, ()⟩

/-- C89 (finding): a line of one edge is reported as a closed loop. -/
theorem C89_two_point_line_is_a_loop :
    (⟨exPts 2, [(0, 1)]⟩ : Line Unit).toCurveSet.map (·.map fun e => (e.1, e.2.loop, e.2.pts.map FPt.id)) =
      some [(0, true, [0, 0])] := by decide +kernel

-- a path 0-1-2 and a cycle 3-4-5; a star with three arms
example : (⟨exPts 6, [(0, 1), (2, 1), (3, 4), (4, 5), (5, 3)]⟩ : Line Unit).toCurveSet.map (·.map fun e => (e.1, e.2.loop, e.2.pts.map FPt.id)) =
    some [(0, false, [0, 0, 0]), (3, true, [3, 3, 3])] := by decide +kernel
example : (⟨exPts 4, [(0, 1), (0, 2), (0, 3)]⟩ : Line Unit).toCurveSet.map (·.map fun e => (e.1, e.2.loop, e.2.pts.map FPt.id)) =
    some [(1, false, [1]), (2, false, [2]), (3, false, [3])] := by decide +kernel
-- two triangles sharing an edge, the slice is a path through three of the four points
example : ((⟨[⟨0, 5, true, ()⟩, ⟨1, 5, true, ()⟩, ⟨2, 5, false, ()⟩, ⟨3, 5, true, ()⟩], [(0, 1, 2), (1, 2, 3)], [], []⟩ : Surface Unit).sliceTime 5).map
    (·.map fun e => (e.1, e.2.loop, e.2.pts.map FPt.id)) = some [(0, false, [0, 0, 0])] := by decide +kernel

end Verif.Surf
