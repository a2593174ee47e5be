import Verif.Tracker.Trace
/-! # C48: online tracing

`Verif.Trk.traceOnline` is generic in the elements `α`, the points `β`, the neighbor function `nb` and
`elemOf` (`tag_to_element`). -/
namespace Verif.Trk
open Verif.Ser (lookup Sorted)
open Verif.Gr (Symm)

variable {α : Type} [LinearOrder α] {β : Type}

/-! ## specification -/

/-- consecutive points of a trajectory lie on neighboring elements -/
def Chained (nb : α → List α) (elemOf : β → α) (ps : List β) : Prop :=
  ps.IsChain fun p q => elemOf q ∈ nb (elemOf p)

/-- what one call may do to an existing trajectory: nothing if it is complete, else extend it at both
ends, and mark it complete exactly if nothing was added -/
structure Extends (t t' : Traj β) : Prop where
  frozen : t.complete = true → t' = t
  loop : t'.loop = t.loop
  ext : ∃ a b, t'.pts = a ++ t.pts ++ b ∧ (t.complete = false → (t'.complete = true ↔ a = [] ∧ b = []))

/-- repeated calls of `trace_critical_points_online`, one per set of discrete critical points -/
def onlineAll (nb : α → List α) (elemOf : β → α) : List (List (α × β)) → List (Traj β) → Option (List (Traj β))
  | [], ts => some ts
  | dcp :: h, ts =>
    match traceOnline nb elemOf ts dcp with
    | none => none
    | some ts' => onlineAll nb elemOf h ts'

/-! ## lemmas -/

omit [LinearOrder α] in
theorem isChain_reverse_append (nb : α → List α) (hsy : Symm nb) (elemOf : β → α) (bs ps : List β)
    (h1 : ∀ a, ps.head? = some a → (a :: bs).IsChain fun p q => elemOf q ∈ nb (elemOf p))
    (hne : ps ≠ []) (h2 : Chained nb elemOf ps) : Chained nb elemOf (bs.reverse ++ ps) := by
  obtain ⟨a, ps', rfl⟩ := List.exists_cons_of_ne_nil hne
  have h := h1 a rfl
  unfold Chained at *
  rw [List.isChain_append]
  have h' : (bs.reverse ++ [a]).IsChain fun p q => elemOf q ∈ nb (elemOf p) := by
    have := (List.isChain_reverse (R := fun p q => elemOf p ∈ nb (elemOf q)) (l := a :: bs)).2 h
    simp only [List.reverse_cons] at this
    exact this.imp fun p q hpq => hsy _ _ hpq
  rw [List.isChain_append] at h'
  refine ⟨h'.1, h2, ?_⟩
  intro x hx y hy
  simp only [List.head?_cons, Option.mem_def, Option.some.injEq] at hy
  subst hy
  exact h'.2.2 x hx a (by simp)

omit [LinearOrder α] in
theorem isChain_map_elem {nb : α → List α} {elemOf : β → α} {l : List (α × β)} (hl : ∀ kv ∈ l, elemOf kv.2 = kv.1)
    (b : β) (h : List.IsChain (fun x y => y ∈ nb x) (elemOf b :: l.map Prod.fst)) :
    (b :: l.map Prod.snd).IsChain fun p q => elemOf q ∈ nb (elemOf p) := by
  induction l generalizing b with
  | nil => simp
  | cons kv l ih =>
    simp only [List.map_cons, List.isChain_cons_cons] at h ⊢
    have e := hl kv (by simp)
    refine ⟨by rw [e]; exact h.1, ih (fun q hq => hl q (by simp [hq])) kv.2 (by rw [e]; exact h.2)⟩

omit [LinearOrder α] in
theorem forall₂_right {γ δ : Type} {R : γ → δ → Prop} {a : List γ} {b : List δ} (h : List.Forall₂ R a b) {y : δ}
    (hy : y ∈ b) : ∃ x ∈ a, R x y := by
  induction h with
  | nil => cases hy
  | cons hr _ ih =>
    rcases List.mem_cons.1 hy with rfl | hy
    · exact ⟨_, by simp, hr⟩
    · obtain ⟨x, hx, hxr⟩ := ih hy
      exact ⟨x, by simp [hx], hxr⟩

omit [LinearOrder α] in
theorem chained_grown {nb : α → List α} (hsy : Symm nb) {elemOf : β → α} {t t' : Traj β} {bs fs : List (α × β)}
    (hg : Grown nb elemOf t t' bs fs) (hb : ∀ kv ∈ bs, elemOf kv.2 = kv.1) (hf : ∀ kv ∈ fs, elemOf kv.2 = kv.1)
    (hne : t.pts ≠ []) (hc : Chained nb elemOf t.pts) : t'.pts ≠ [] ∧ Chained nb elemOf t'.pts := by
  rw [hg.pts]
  refine ⟨by simp [hne], ?_⟩
  have h1 : Chained nb elemOf (t.pts ++ fs.map Prod.snd) := by
    unfold Chained
    rw [List.isChain_append]
    obtain ⟨b, hb'⟩ : ∃ b, t.pts.getLast? = some b := by
      rw [← Option.isSome_iff_exists]
      simpa using hne
    have h := isChain_map_elem hf b (hg.fwd b hb')
    rw [List.isChain_cons] at h
    refine ⟨hc, h.2, ?_⟩
    intro x hx y hy
    rw [Option.mem_def, hb'] at hx
    cases hx
    exact h.1 y hy
  rw [List.append_assoc]
  refine isChain_reverse_append nb hsy elemOf _ _ ?_ (by simp [hne]) h1
  intro a ha
  refine isChain_map_elem hb a (hg.bwd a ?_)
  obtain ⟨x, xs, hx⟩ := List.exists_cons_of_ne_nil hne
  rw [hx] at ha ⊢
  simpa using ha

theorem chained_made {nb : α → List α} {elemOf : β → α} {dcp : List (α × β)} (hcons : ∀ kv ∈ dcp, elemOf kv.2 = kv.1) :
    ∀ {ks : List α} {ps : List β}, ps.map some = ks.map (fun k => lookup k dcp) →
    List.IsChain (fun x y => y ∈ nb x) ks → ps.map elemOf = ks ∧ Chained nb elemOf ps := by
  intro ks ps h hch
  have hmap : ps.map elemOf = ks := by
    clear hch
    induction ks generalizing ps with
    | nil => simpa using h
    | cons k ks ih =>
      rcases ps with _ | ⟨p, ps⟩
      · simp at h
      simp only [List.map_cons, List.cons.injEq] at h ⊢
      exact ⟨hcons _ (lookup_some_mem h.1.symm), ih h.2⟩
  refine ⟨hmap, ?_⟩
  unfold Chained
  rw [← hmap, List.isChain_map] at hch
  exact hch

/-! ## theorems -/

/-- C48, one call: on trajectories that are non-empty chains and on a set of points stored under their
own elements, the call succeeds; every point of the set goes to exactly one place of one trajectory or is
dropped; a dropped point has more than two neighbors in the set; no point already on a trajectory is lost,
moved or duplicated; complete trajectories are unchanged; all trajectories are again non-empty chains. -/
theorem C48_online_step (nb : α → List α) (hsy : Symm nb) (hnd : ∀ x, (nb x).Nodup) (elemOf : β → α)
    (trajs : List (Traj β)) (hok : ∀ t ∈ trajs, t.pts ≠ [] ∧ Chained nb elemOf t.pts)
    (dcp : List (α × β)) (hs : Sorted dcp) (hcons : ∀ kv ∈ dcp, elemOf kv.2 = kv.1) :
    ∃ (old new : List (Traj β)) (kept lost : List (α × β)), traceOnline nb elemOf trajs dcp = some (old ++ new) ∧
      (kept ++ lost).Perm dcp ∧
      ((old ++ new).flatMap Traj.pts).Perm (trajs.flatMap Traj.pts ++ kept.map Prod.snd) ∧
      (∀ kv ∈ lost, 2 < deg nb (dcp.map Prod.fst) kv.1) ∧
      List.Forall₂ Extends trajs old ∧
      (∀ t ∈ old ++ new, t.pts ≠ [] ∧ Chained nb elemOf t.pts) := by
  obtain ⟨old, new, kept, lost, gs, rest, h1, h2, h3, h4, h5, h6, h7, h8, h9⟩ :=
    online_spec nb hsy hnd elemOf trajs (fun t ht => (hok t ht).1) dcp hs
  refine ⟨old, new, kept, lost, h1, h2, h3, h4, ?_, ?_⟩
  · refine h5.imp ?_
    rintro t t' ⟨bs, fs, hg, -, -⟩
    refine ⟨hg.done, hg.loop, (bs.map Prod.snd).reverse, fs.map Prod.snd, hg.pts, ?_⟩
    intro hc
    rw [hg.stop hc]
    simp
  · intro t ht
    rcases List.mem_append.1 ht with ht | ht
    · obtain ⟨t0, ht0, bs, fs, hg, hb, hf⟩ := forall₂_right h5 ht
      obtain ⟨a, b⟩ := hok t0 ht0
      exact chained_grown hsy hg (fun kv h => hcons kv (hb kv h)) (fun kv h => hcons kv (hf kv h)) a b
    · obtain ⟨g, hg, hm⟩ := forall₂_right h8 ht
      obtain ⟨hg1, hg2⟩ := h9 g hg
      obtain ⟨a, b⟩ := chained_made (fun kv h => hcons kv (h7 kv h)) hm.pts hg2
      refine ⟨?_, b⟩
      intro hnil
      rw [hnil] at a
      exact hg1 a.symm

/-- C48, every history: from no trajectories, over any sequence of sets of points, every point ever
given is on exactly one place of one trajectory or was dropped; a point is dropped only if it had more
than two neighbors in its own set; every trajectory is a chain of neighbors. -/
theorem C48_online_history (nb : α → List α) (hsy : Symm nb) (hnd : ∀ x, (nb x).Nodup) (elemOf : β → α)
    (h : List (List (α × β))) (hs : ∀ dcp ∈ h, Sorted dcp) (hcons : ∀ dcp ∈ h, ∀ kv ∈ dcp, elemOf kv.2 = kv.1) :
    ∃ (ts : List (Traj β)) (kept lost : List (α × β)), onlineAll nb elemOf h [] = some ts ∧
      (kept ++ lost).Perm h.flatten ∧
      (ts.flatMap Traj.pts).Perm (kept.map Prod.snd) ∧
      (∀ kv ∈ lost, ∃ dcp ∈ h, kv ∈ dcp ∧ 2 < deg nb (dcp.map Prod.fst) kv.1) ∧
      (∀ t ∈ ts, t.pts ≠ [] ∧ Chained nb elemOf t.pts) := by
  have key : ∀ (h : List (List (α × β))), (∀ dcp ∈ h, Sorted dcp) → (∀ dcp ∈ h, ∀ kv ∈ dcp, elemOf kv.2 = kv.1) →
      ∀ trajs : List (Traj β), (∀ t ∈ trajs, t.pts ≠ [] ∧ Chained nb elemOf t.pts) →
      ∃ (ts : List (Traj β)) (kept lost : List (α × β)), onlineAll nb elemOf h trajs = some ts ∧
      (kept ++ lost).Perm h.flatten ∧
      (ts.flatMap Traj.pts).Perm (trajs.flatMap Traj.pts ++ kept.map Prod.snd) ∧
      (∀ kv ∈ lost, ∃ dcp ∈ h, kv ∈ dcp ∧ 2 < deg nb (dcp.map Prod.fst) kv.1) ∧
      (∀ t ∈ ts, t.pts ≠ [] ∧ Chained nb elemOf t.pts) := by
    intro h
    induction h with
    | nil => intro _ _ trajs ht; exact ⟨trajs, [], [], rfl, .refl _, by simp, by simp, ht⟩
    | cons dcp h ih =>
      intro hs hcons trajs ht
      obtain ⟨old, new, kept, lost, e, p1, p2, p3, -, p5⟩ := C48_online_step nb hsy hnd elemOf trajs ht dcp
        (hs dcp (by simp)) (hcons dcp (by simp))
      obtain ⟨ts, kept', lost', e', q1, q2, q3, q4⟩ := ih (fun c hc => hs c (by simp [hc]))
        (fun c hc => hcons c (by simp [hc])) (old ++ new) p5
      refine ⟨ts, kept ++ kept', lost ++ lost', by simp only [onlineAll, e, e'], ?_, ?_, ?_, q4⟩
      · rw [List.flatten_cons]
        refine List.Perm.trans ?_ (p1.append q1)
        rw [List.append_assoc, List.append_assoc]
        refine List.Perm.append_left _ ?_
        rw [← List.append_assoc, ← List.append_assoc]
        exact List.perm_append_comm.append_right _
      · refine q2.trans ?_
        rw [List.map_append, ← List.append_assoc]
        exact p2.append_right _
      · intro kv hkv
        rcases List.mem_append.1 hkv with hkv | hkv
        · exact ⟨dcp, by simp, p1.mem_iff.1 (by simp [hkv]), p3 kv hkv⟩
        · obtain ⟨c, hc, a, b⟩ := q3 kv hkv
          exact ⟨c, by simp [hc], a, b⟩
  obtain ⟨ts, kept, lost, a, b, g, e, f⟩ := key h hs hcons [] (by simp)
  exact ⟨ts, kept, lost, a, b, by simpa using g, e, f⟩

/-- Corollary: if no point ever has more than two neighbors in its set (what the tracker's parity
property C72 gives), nothing is lost: the trajectories hold exactly the points given, each once. -/
theorem C48_online_nothing_lost (nb : α → List α) (hsy : Symm nb) (hnd : ∀ x, (nb x).Nodup) (elemOf : β → α)
    (h : List (List (α × β))) (hs : ∀ dcp ∈ h, Sorted dcp) (hcons : ∀ dcp ∈ h, ∀ kv ∈ dcp, elemOf kv.2 = kv.1)
    (hdeg : ∀ dcp ∈ h, ∀ kv ∈ dcp, deg nb (dcp.map Prod.fst) kv.1 ≤ 2) :
    ∃ ts : List (Traj β), onlineAll nb elemOf h [] = some ts ∧
      (ts.flatMap Traj.pts).Perm (h.flatten.map Prod.snd) := by
  obtain ⟨ts, kept, lost, h1, h2, h3, h4, -⟩ := C48_online_history nb hsy hnd elemOf h hs hcons
  refine ⟨ts, h1, h3.trans ?_⟩
  have : lost = [] := by
    rcases lost with _ | ⟨kv, lost⟩
    · rfl
    · obtain ⟨dcp, hd, hm, hgt⟩ := h4 kv (by simp)
      have := hdeg dcp hd kv hm
      omega
  subst this
  rw [List.append_nil] at h2
  exact h2.map _

/-- a path 1 – 2 – 3 – 4 – 5 of elements -/
def pathNb (x : Nat) : List Nat := if x = 0 ∨ 5 < x then [] else ([x - 1, x, x + 1].filter fun y => decide (1 ≤ y ∧ y ≤ 5))

/-- Non-vacuity, and the loss of connectivity of online tracing: the points of one connected path, given
in three sets, end up on two trajectories (1-2, complete, and 3-4-5) although every set is traced
without loss; given at once they make one trajectory. -/
theorem C48_joining_trajectories_stay_split :
    Symm pathNb ∧ (∀ x, (pathNb x).Nodup) ∧
    onlineAll pathNb (fun p : Nat => p) [[(1, 1), (2, 2)], [(4, 4), (5, 5)], [(3, 3)]] [] =
      some [⟨[1, 2], true, true⟩, ⟨[3, 4, 5], true, false⟩] ∧
    onlineAll pathNb (fun p : Nat => p) [[(1, 1), (2, 2), (3, 3), (4, 4), (5, 5)]] [] =
      some [⟨[1, 2, 3, 4, 5], false, false⟩] := by
  refine ⟨?_, ?_, by decide +kernel, by decide +kernel⟩
  · intro a b h
    unfold pathNb at *
    split at h
    · cases h
    · simp only [List.mem_filter, List.mem_cons, List.not_mem_nil, or_false, decide_eq_true_eq] at h
      rw [if_neg (by omega)]
      simp only [List.mem_filter, List.mem_cons, List.not_mem_nil, or_false, decide_eq_true_eq]
      omega
  · intro x
    unfold pathNb
    split
    · exact List.nodup_nil
    · refine List.Nodup.filter _ ?_
      simp
      omega

end Verif.Trk
