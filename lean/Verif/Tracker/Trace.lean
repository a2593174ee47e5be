import Verif.Tracker.TraceModel
import Verif.Graph.Props
import Verif.Comm.Redist
import Mathlib.Data.List.Perm.Basic
/-! Lemmas on the tracing templates. -/
namespace Verif.Trk
open Verif.Ser (lookup mapPut mapInsert Sorted)
open Verif.Gr (Symm Linked)

variable {α : Type} [LinearOrder α] {β : Type}

/-! ### maps -/

theorem sorted_nodup {m : List (α × β)} (h : Sorted m) : (m.map Prod.fst).Nodup := by
  unfold List.Nodup
  rw [List.pairwise_map]
  exact h.imp fun hlt => ne_of_lt hlt

theorem lookup_some_mem {m : List (α × β)} {k : α} {v : β} (h : lookup k m = some v) : (k, v) ∈ m := by
  induction m with
  | nil => simp [lookup] at h
  | cons e m ih =>
    obtain ⟨k', v'⟩ := e
    simp only [lookup] at h
    split at h
    · rename_i hk; cases h; subst hk; simp
    · exact List.mem_cons_of_mem _ (ih h)

theorem lookup_of_mem {m : List (α × β)} (hs : Sorted m) {k : α} {v : β} (h : (k, v) ∈ m) : lookup k m = some v := by
  induction m with
  | nil => simp at h
  | cons e m ih =>
    obtain ⟨k', v'⟩ := e
    have hs' := List.pairwise_cons.1 hs
    rcases List.mem_cons.1 h with h | h
    · cases h; simp [lookup]
    · have hne : k ≠ k' := ne_of_gt (hs'.1 _ h)
      simp only [lookup, if_neg hne]
      exact ih hs'.2 h

theorem lookup_isSome {m : List (α × β)} {k : α} : (lookup k m).isSome = true ↔ k ∈ m.map Prod.fst := by
  induction m with
  | nil => simp [lookup]
  | cons e m ih =>
    obtain ⟨k', v'⟩ := e
    simp only [lookup]
    split
    · rename_i h; simp [h]
    · rename_i h; rw [ih]; simp [h]

theorem eraseKey_sorted {m : List (α × β)} (k : α) (h : Sorted m) : Sorted (eraseKey k m) :=
  Comm.filter_sorted _ _ h

theorem perm_eraseKey {m : List (α × β)} (hs : Sorted m) {k : α} {v : β} (h : lookup k m = some v) :
    m.Perm ((k, v) :: eraseKey k m) := by
  induction m with
  | nil => simp [lookup] at h
  | cons e m ih =>
    obtain ⟨k', v'⟩ := e
    have hs' := List.pairwise_cons.1 hs
    simp only [lookup] at h
    split at h
    · rename_i hk
      cases h; subst hk
      have : eraseKey k ((k, v) :: m) = m := by
        unfold eraseKey
        rw [List.filter_cons, if_neg (by simp), List.filter_eq_self]
        intro a ha
        exact decide_eq_true (ne_of_gt (hs'.1 _ ha))
      rw [this]
    · rename_i hk
      have : eraseKey k ((k', v') :: m) = (k', v') :: eraseKey k m := by
        unfold eraseKey
        rw [List.filter_cons, if_pos (by simpa using Ne.symm hk)]
      rw [this]
      exact ((ih hs'.2 h).cons _).trans (List.Perm.swap _ _ _)

/-! ### growing -/

theorem nextKey_some {nb : α → List α} {dcp : List (α × β)} {cur i : α} {v : β}
    (h : nextKey nb dcp cur = some (i, v)) : i ∈ nb cur ∧ lookup i dcp = some v := by
  unfold nextKey at h
  obtain ⟨j, hj, e⟩ := List.exists_of_findSome?_eq_some h
  cases hl : lookup j dcp with
  | none => rw [hl] at e; cases e
  | some w =>
    rw [hl] at e
    simp only [Option.map_some, Option.some.injEq, Prod.mk.injEq] at e
    obtain ⟨rfl, rfl⟩ := e
    exact ⟨hj, hl⟩

theorem nextKey_none {nb : α → List α} {dcp : List (α × β)} {cur : α}
    (h : nextKey nb dcp cur = none) : ∀ i ∈ nb cur, i ∉ dcp.map Prod.fst := by
  unfold nextKey at h
  rw [List.findSome?_eq_none_iff] at h
  intro i hi hm
  have := h i hi
  rw [← lookup_isSome] at hm
  cases hl : lookup i dcp with
  | none => rw [hl] at hm; cases hm
  | some w => rw [hl] at this; cases this

/-- one direction: what is added is a chain of neighbors from the terminal, taken out of the entries; no
entry that remains is a neighbor of the new terminal -/
theorem growLoop_spec (nb : α → List α) : ∀ (fuel : Nat) (cur : α) (dcp : List (α × β)), Sorted dcp →
    dcp.length < fuel → ∃ ks rest, growLoop nb fuel cur dcp = some (ks.map Prod.snd, rest) ∧
      (ks ++ rest).Perm dcp ∧ Sorted rest ∧ List.IsChain (fun x y => y ∈ nb x) (cur :: ks.map Prod.fst) ∧
      ∀ z, (cur :: ks.map Prod.fst).getLast? = some z → ∀ y ∈ nb z, y ∉ rest.map Prod.fst := by
  intro fuel
  induction fuel with
  | zero => intro cur dcp _ h; omega
  | succ fuel ih =>
    intro cur dcp hs hl
    unfold growLoop
    split
    · rename_i hn
      refine ⟨[], dcp, rfl, by simp, hs, by simp, ?_⟩
      intro z hz
      simp at hz; subst hz
      exact nextKey_none hn
    · rename_i i v hn
      obtain ⟨hi, hv⟩ := nextKey_some hn
      have hp := perm_eraseKey hs hv
      have hlen : (eraseKey i dcp).length < fuel := by
        have := hp.length_eq
        simp at this; omega
      obtain ⟨ks, rest, e, h1, h2, h3, h4⟩ := ih i (eraseKey i dcp) (eraseKey_sorted i hs) hlen
      rw [e]
      refine ⟨(i, v) :: ks, rest, rfl, ?_, h2, ?_, ?_⟩
      · exact (h1.cons _).trans hp.symm
      · simp only [List.map_cons]
        exact List.IsChain.cons_cons hi h3
      · intro z hz
        apply h4
        simpa [List.getLast?_cons_cons] using hz

theorem growOne_spec (nb : α → List α) (elemOf : β → α) (t : Traj β) (ht : t.pts ≠ []) (dcp : List (α × β))
    (hs : Sorted dcp) : ∃ t' bs fs rest, growOne nb elemOf t dcp = some (t', rest) ∧
      (bs ++ fs ++ rest).Perm dcp ∧ Sorted rest ∧ t'.pts = (bs.map Prod.snd).reverse ++ t.pts ++ fs.map Prod.snd ∧
      t'.loop = t.loop ∧ (t.complete = true → t' = t ∧ bs = [] ∧ fs = []) ∧
      (t.complete = false → (t'.complete = true ↔ bs = [] ∧ fs = [])) ∧
      (∀ b, t.pts.getLast? = some b → List.IsChain (fun x y => y ∈ nb x) (elemOf b :: fs.map Prod.fst)) ∧
      (∀ a, t.pts.head? = some a → List.IsChain (fun x y => y ∈ nb x) (elemOf a :: bs.map Prod.fst)) := by
  unfold growOne
  split
  · rename_i hc
    exact ⟨t, [], [], dcp, rfl, by simp, hs, by simp, rfl, fun _ => ⟨rfl, rfl, rfl⟩, fun h => by simp [hc] at h,
      by simp, by simp⟩
  · rename_i hc
    obtain ⟨b, hb⟩ : ∃ b, t.pts.getLast? = some b := by
      rw [← Option.isSome_iff_exists]; simpa using ht
    obtain ⟨a, ha⟩ : ∃ a, t.pts.head? = some a := by
      rw [← Option.isSome_iff_exists]; simpa using ht
    rw [hb]
    simp only
    obtain ⟨fs, rest1, e1, p1, s1, c1, -⟩ := growLoop_spec nb (dcp.length + 1) (elemOf b) dcp hs (by omega)
    rw [e1]
    simp only
    have ha' : (t.pts ++ fs.map Prod.snd).head? = some a := by
      rw [List.head?_append, ha]; rfl
    rw [ha']
    simp only
    obtain ⟨bs, rest2, e2, p2, s2, c2, -⟩ := growLoop_spec nb (rest1.length + 1) (elemOf a) rest1 s1 (by omega)
    rw [e2]
    refine ⟨_, bs, fs, rest2, rfl, ?_, s2, by simp, rfl, fun h => absurd h hc, ?_, ?_, ?_⟩
    · have h1 : (bs ++ fs ++ rest2).Perm (fs ++ (bs ++ rest2)) := by
        rw [List.append_assoc]
        exact List.perm_append_comm_assoc bs fs rest2
      exact h1.trans ((p2.append_left fs).trans p1)
    · intro _
      simp [and_comm]
    · intro b' hb'; cases hb'; exact c1
    · intro a' ha''; rw [ha] at ha''; cases ha''; exact c2

/-- what one call does to one trajectory -/
structure Grown (nb : α → List α) (elemOf : β → α) (t t' : Traj β) (bs fs : List (α × β)) : Prop where
  pts : t'.pts = (bs.map Prod.snd).reverse ++ t.pts ++ fs.map Prod.snd
  loop : t'.loop = t.loop
  done : t.complete = true → t' = t
  stop : t.complete = false → (t'.complete = true ↔ bs = [] ∧ fs = [])
  fwd : ∀ b, t.pts.getLast? = some b → List.IsChain (fun x y => y ∈ nb x) (elemOf b :: fs.map Prod.fst)
  bwd : ∀ a, t.pts.head? = some a → List.IsChain (fun x y => y ∈ nb x) (elemOf a :: bs.map Prod.fst)

theorem growAll_spec (nb : α → List α) (elemOf : β → α) : ∀ (ts : List (Traj β)) (dcp : List (α × β)),
    (∀ t ∈ ts, t.pts ≠ []) → Sorted dcp →
    ∃ ts' kept rest, growAll nb elemOf ts dcp = some (ts', rest) ∧ (kept ++ rest).Perm dcp ∧ Sorted rest ∧
      (ts'.flatMap Traj.pts).Perm (ts.flatMap Traj.pts ++ kept.map Prod.snd) ∧
      List.Forall₂ (fun t t' => ∃ bs fs, Grown nb elemOf t t' bs fs ∧ (∀ kv ∈ bs, kv ∈ dcp) ∧ ∀ kv ∈ fs, kv ∈ dcp)
        ts ts' := by
  intro ts
  induction ts with
  | nil => intro dcp _ hs; exact ⟨[], [], dcp, rfl, by simp, hs, by simp, .nil⟩
  | cons t ts ih =>
    intro dcp hne hs
    obtain ⟨t', bs, fs, rest, e, p, s, h1, h2, h3, h4, h5, h6⟩ := growOne_spec nb elemOf t (hne t (by simp)) dcp hs
    obtain ⟨ts', kept, rest', e', p', s', q', f'⟩ := ih rest (fun t ht => hne t (by simp [ht])) s
    have hsub : ∀ kv, kv ∈ rest → kv ∈ dcp := fun kv h => p.mem_iff.1 (by simp [h])
    refine ⟨t' :: ts', bs ++ fs ++ kept, rest', by simp only [growAll, e, e'], ?_, s', ?_, ?_⟩
    · rw [List.append_assoc]
      exact (p'.append_left _).trans p
    · simp only [List.flatMap_cons, h1, List.map_append]
      have hperm : ((bs.map Prod.snd).reverse ++ t.pts ++ fs.map Prod.snd).Perm
          (t.pts ++ (bs.map Prod.snd ++ fs.map Prod.snd)) := by
        refine List.Perm.trans ?_ (List.perm_append_comm_assoc _ _ _)
        rw [List.append_assoc]
        exact (List.reverse_perm _).append_right _
      refine (hperm.append q').trans ?_
      simp only [List.append_assoc]
      refine List.Perm.append_left _ ?_
      rw [← List.append_assoc, ← List.append_assoc (bs.map Prod.snd)]
      exact List.perm_append_comm_assoc _ _ _
    · refine .cons ⟨bs, fs, ⟨h1, h2, fun hc => (h3 hc).1, h4, h5, h6⟩, ?_, ?_⟩ (f'.imp ?_)
      · intro kv h; exact p.mem_iff.1 (by simp [h])
      · intro kv h; exact p.mem_iff.1 (by simp [h])
      · rintro t t' ⟨bs, fs, hg, hb, hf⟩
        exact ⟨bs, fs, hg, fun kv h => hsub kv (hb kv h), fun kv h => hsub kv (hf kv h)⟩

/-! ### curves of a component -/

/-- number of neighbors of `x`, other than itself, among `keys` -/
def deg (nb : α → List α) (keys : List α) (x : α) : Nat :=
  ((nb x).filter (fun y => decide (y ≠ x ∧ y ∈ keys))).length

theorem curvePts_spec {dcp : List (α × β)} : ∀ {ks : List α}, (∀ k ∈ ks, k ∈ dcp.map Prod.fst) →
    ∃ ps, curvePts dcp ks = some ps ∧ ps.map some = ks.map (fun k => lookup k dcp) := by
  intro ks
  induction ks with
  | nil => intro _; exact ⟨[], rfl, rfl⟩
  | cons k ks ih =>
    intro h
    obtain ⟨ps, e, h1⟩ := ih fun k hk => h k (by simp [hk])
    obtain ⟨v, hv⟩ := Option.isSome_iff_exists.1 (lookup_isSome.2 (h k (by simp)))
    exact ⟨v :: ps, by simp only [curvePts, hv, e], by simp [hv, h1]⟩

/-- the trajectory `t` is made of the curve of elements `ks` -/
structure MadeOf (nb : α → List α) (dcp : List (α × β)) (ks : List α) (t : Traj β) : Prop where
  pts : t.pts.map some = ks.map (fun k => lookup k dcp)
  loop : t.loop = Gr.isLoop nb ks
  complete : t.complete = false

omit [LinearOrder α] in
theorem forall₂_append {γ δ : Type} {R : γ → δ → Prop} {a c : List γ} {b d : List δ} (h : List.Forall₂ R a b)
    (h' : List.Forall₂ R c d) : List.Forall₂ R (a ++ c) (b ++ d) := by
  induction h with
  | nil => exact h'
  | cons h1 _ ih => exact .cons h1 ih

theorem curveTrajs_spec (nb : α → List α) {dcp : List (α × β)} : ∀ {gs : List (List α)},
    (∀ g ∈ gs, ∀ k ∈ g, k ∈ dcp.map Prod.fst) →
    ∃ ts, curveTrajs nb dcp gs = some ts ∧ List.Forall₂ (MadeOf nb dcp) gs ts := by
  intro gs
  induction gs with
  | nil => intro _; exact ⟨[], rfl, .nil⟩
  | cons g gs ih =>
    intro h
    obtain ⟨ts, e, h1⟩ := ih fun g hg => h g (by simp [hg])
    obtain ⟨ps, e', h2⟩ := curvePts_spec (h g (by simp))
    exact ⟨⟨ps, Gr.isLoop nb g, false⟩ :: ts, by simp only [curveTrajs, e, e'], .cons ⟨h2, rfl, rfl⟩ h1⟩

theorem madeOf_flatten {nb : α → List α} {dcp : List (α × β)} {gs : List (List α)} {ts : List (Traj β)}
    (h : List.Forall₂ (MadeOf nb dcp) gs ts) :
    (ts.flatMap Traj.pts).map some = gs.flatten.map (fun k => lookup k dcp) := by
  induction h with
  | nil => rfl
  | cons h1 _ ih => simp only [List.flatMap_cons, List.flatten_cons, List.map_append, h1.pts, ih]

/-- loop over components: curves of elements, covering exactly the elements with at most two neighbors -/
theorem compTrajs_spec (nb : α → List α) (hsy : Symm nb) (hnd : ∀ x, (nb x).Nodup) {dcp : List (α × β)} :
    ∀ {comps : List (List α)}, (∀ c ∈ comps, ∀ k ∈ c, k ∈ dcp.map Prod.fst) →
      comps.Pairwise (fun s t => ∀ x, x ∈ s → x ∉ t) →
    ∃ gs ts, compTrajs nb dcp comps = some ts ∧ List.Forall₂ (MadeOf nb dcp) gs ts ∧
      (∀ g ∈ gs, g ≠ [] ∧ List.IsChain (fun x y => y ∈ nb x) g) ∧ gs.flatten.Nodup ∧
      ∀ x, x ∈ gs.flatten ↔ ∃ c ∈ comps, x ∈ c ∧ deg nb c x ≤ 2 := by
  intro comps
  induction comps with
  | nil => intro _ _; exact ⟨[], [], rfl, .nil, by simp, by simp, by simp⟩
  | cons c cs ih =>
    intro h hp
    have hp' := List.pairwise_cons.1 hp
    obtain ⟨gs, ts, e, h1, h2, h3, h4⟩ := ih (fun c hc => h c (by simp [hc])) hp'.2
    obtain ⟨ls, el, l1, l2, l3, -⟩ := Gr.C21_linear_components nb hsy hnd c
    have hmem : ∀ g ∈ ls, ∀ k ∈ g, k ∈ dcp.map Prod.fst := by
      intro g hg k hk
      exact h c (by simp) k ((l3 k).1 (List.mem_flatten.2 ⟨g, hg, hk⟩)).1
    obtain ⟨ts0, e0, m0⟩ := curveTrajs_spec nb hmem
    refine ⟨ls ++ gs, ts0 ++ ts, by simp only [compTrajs, el, e0, e], forall₂_append m0 h1, ?_, ?_, ?_⟩
    · intro g hg
      rcases List.mem_append.1 hg with hg | hg
      · exact l1 g hg
      · exact h2 g hg
    · rw [List.flatten_append, List.nodup_append]
      refine ⟨l2, h3, ?_⟩
      intro a ha b hb hab
      subst hab
      obtain ⟨c', hc', hx, -⟩ := (h4 a).1 hb
      exact hp'.1 c' hc' a ((l3 a).1 ha).1 hx
    · intro x
      rw [List.flatten_append, List.mem_append, h4, l3]
      simp only [List.mem_cons, exists_eq_or_imp]
      rfl

/-- turning a permutation of keys into one of values -/
theorem values_perm {dcp sel : List (α × β)} (hs : Sorted dcp) (hsel : sel.Sublist dcp) {ks : List α} {ps : List β}
    (h : ps.map some = ks.map (fun k => lookup k dcp)) (hk : ks.Nodup) (hm : ∀ x, x ∈ ks ↔ x ∈ sel.map Prod.fst) :
    ps.Perm (sel.map Prod.snd) := by
  have hnd : (sel.map Prod.fst).Nodup := sorted_nodup (hs.sublist hsel)
  have hp : ks.Perm (sel.map Prod.fst) := (List.perm_ext_iff_of_nodup hk hnd).2 hm
  have h2 := hp.map (fun k => lookup k dcp)
  rw [← h, List.map_map] at h2
  have h3 : List.map ((fun k => lookup k dcp) ∘ Prod.fst) sel = (sel.map Prod.snd).map some := by
    rw [List.map_map]
    apply List.map_congr_left
    rintro ⟨k, v⟩ hkv
    simp only [Function.comp]
    exact lookup_of_mem hs (hsel.subset hkv)
  rw [h3] at h2
  have h4 := h2.filterMap id
  simpa [List.filterMap_map] using h4

/-! ### online -/

theorem deg_mono (nb : α → List α) {k1 k2 : List α} (h : ∀ y ∈ k1, y ∈ k2) (x : α) : deg nb k1 x ≤ deg nb k2 x := by
  unfold deg
  rw [← List.countP_eq_length_filter, ← List.countP_eq_length_filter]
  apply List.countP_mono_left
  intro y _ hy
  simp only [decide_eq_true_eq] at hy ⊢
  exact ⟨hy.1, h y hy.2⟩

/-- within a class of the linked relation, the neighbors among all keys are those in the class -/
theorem deg_class (nb : α → List α) {keys c : List α} (hsub : ∀ x ∈ c, x ∈ keys)
    (hcl : ∀ x ∈ c, ∀ y ∈ keys, y ∈ nb x → y ∈ c) (x : α) (hx : x ∈ c) : deg nb c x = deg nb keys x := by
  unfold deg
  congr 1
  apply List.filter_congr
  intro y hy
  rw [decide_eq_decide]
  constructor
  · rintro ⟨h1, h2⟩; exact ⟨h1, hsub y h2⟩
  · rintro ⟨h1, h2⟩; exact ⟨h1, hcl x hx y h2 hy⟩

theorem online_spec (nb : α → List α) (hsy : Symm nb) (hnd : ∀ x, (nb x).Nodup) (elemOf : β → α)
    (trajs : List (Traj β)) (hne : ∀ t ∈ trajs, t.pts ≠ []) (dcp : List (α × β)) (hs : Sorted dcp) :
    ∃ (old new : List (Traj β)) (kept lost : List (α × β)) (gs : List (List α)) (rest : List (α × β)), traceOnline nb elemOf trajs dcp = some (old ++ new) ∧
      (kept ++ lost).Perm dcp ∧
      ((old ++ new).flatMap Traj.pts).Perm (trajs.flatMap Traj.pts ++ kept.map Prod.snd) ∧
      (∀ kv ∈ lost, 2 < deg nb (dcp.map Prod.fst) kv.1) ∧
      List.Forall₂ (fun t t' => ∃ bs fs, Grown nb elemOf t t' bs fs ∧ (∀ kv ∈ bs, kv ∈ dcp) ∧ ∀ kv ∈ fs, kv ∈ dcp)
        trajs old ∧
      Sorted rest ∧ (∀ kv ∈ rest, kv ∈ dcp) ∧ List.Forall₂ (MadeOf nb rest) gs new ∧
      ∀ g ∈ gs, g ≠ [] ∧ List.IsChain (fun x y => y ∈ nb x) g := by
  obtain ⟨ts', kept, rest, e, p, s, q, f⟩ := growAll_spec nb elemOf trajs dcp hne hs
  obtain ⟨comps, ec, hP⟩ := Gr.C18_components nb (rest.map Prod.fst)
  obtain ⟨gs, new, en, m1, m2, m3, m4⟩ := compTrajs_spec nb hsy hnd (dcp := rest) hP.only hP.disjoint
  let ok : α × β → Bool := fun kv => decide (deg nb (rest.map Prod.fst) kv.1 ≤ 2)
  have hsub : ∀ kv ∈ rest, kv ∈ dcp := fun kv h => p.mem_iff.1 (by simp [h])
  have hval := values_perm s (List.filter_sublist (p := ok)) (madeOf_flatten m1) m3 (by
    intro x
    rw [m4]
    constructor
    · rintro ⟨c, hc, hx, hd⟩
      have hxr := hP.only c hc x hx
      obtain ⟨kv, hkv, rfl⟩ := List.mem_map.1 hxr
      refine List.mem_map.2 ⟨kv, List.mem_filter.2 ⟨hkv, ?_⟩, rfl⟩
      rw [deg_class nb (hP.only c hc) ?_ _ hx] at hd
      · exact decide_eq_true hd
      · intro x hx y hy hyx
        exact (hP.classes c hc x hx y hy).2 (.rel _ _ ⟨hP.only c hc x hx, hy, hyx⟩)
    · intro hx
      obtain ⟨kv, hkv, rfl⟩ := List.mem_map.1 hx
      obtain ⟨h1, h2⟩ := List.mem_filter.1 hkv
      obtain ⟨c, hc, hxc⟩ := hP.cover kv.1 (List.mem_map_of_mem h1)
      refine ⟨c, hc, hxc, ?_⟩
      rw [deg_class nb (hP.only c hc) ?_ _ hxc]
      · exact of_decide_eq_true h2
      · intro x hx y hy hyx
        exact (hP.classes c hc x hx y hy).2 (.rel _ _ ⟨hP.only c hc x hx, hy, hyx⟩))
  refine ⟨ts', new, kept ++ rest.filter ok, rest.filter (fun kv => !ok kv), gs, rest,
    by simp only [traceOnline, e, ec, en], ?_, ?_, ?_, f, s, hsub, m1, m2⟩
  · rw [List.append_assoc]
    exact ((List.filter_append_perm ok rest).append_left _).trans p
  · rw [List.flatMap_append, List.map_append, ← List.append_assoc]
    exact q.append hval
  · intro kv hkv
    obtain ⟨h1, h2⟩ := List.mem_filter.1 hkv
    have h3 : ¬ deg nb (rest.map Prod.fst) kv.1 ≤ 2 := by simpa [ok] using h2
    have h4 := deg_mono nb (k1 := rest.map Prod.fst) (k2 := dcp.map Prod.fst) (by
      intro y hy
      obtain ⟨w, hw, rfl⟩ := List.mem_map.1 hy
      exact List.mem_map_of_mem (hsub w hw)) kv.1
    omega

end Verif.Trk
