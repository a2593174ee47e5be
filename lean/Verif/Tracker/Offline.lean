import Verif.Tracker.Trace
import Verif.UnionFind.Props
/-! Offline tracing: the groups are the connected components, the curves cover them. -/
namespace Verif.Trk
open Verif.Ser (lookup mapPut mapInsert Sorted)
open Verif.Gr (Symm Linked)
open Relation

variable {α : Type} [LinearOrder α] {β : Type}

theorem offline_united (nb : α → List α) (dcp : List (α × β)) (a b : α) :
    UF.DUnited (offlineOps nb dcp) a b ↔ a ∈ dcp.map Prod.fst ∧ b ∈ dcp.map Prod.fst ∧ b ∈ nb a := by
  unfold UF.DUnited offlineOps
  simp only [List.mem_flatMap, List.mem_map, List.mem_filter, UF.DOp.unite.injEq]
  constructor
  · rintro ⟨kv, hkv, n, ⟨h1, h2⟩, rfl, rfl⟩
    exact ⟨⟨kv, hkv, rfl⟩, by simpa using lookup_isSome.1 h2, h1⟩
  · rintro ⟨⟨kv, hkv, rfl⟩, h2, h3⟩
    exact ⟨kv, hkv, b, ⟨h3, lookup_isSome.2 (by simpa using h2)⟩, rfl, rfl⟩

theorem offline_connected (nb : α → List α) (dcp : List (α × β)) :
    UF.DConnected (offlineOps nb dcp) = Linked nb (dcp.map Prod.fst) := by
  unfold UF.DConnected Linked
  congr 1
  funext a b
  exact propext (offline_united nb dcp a b)

theorem run_append (s : UF.Duf α) (h1 h2 : List (UF.DOp α)) :
    s.run (h1 ++ h2) = (s.run h1).bind fun s' => s'.run h2 := by
  induction h1 generalizing s with
  | nil => rfl
  | cons o h1 ih =>
    simp only [List.cons_append, UF.Duf.run]
    cases s.step o with
    | none => rfl
    | some s' => exact ih s'

omit [LinearOrder α] in
theorem dconnected_finds (h : List (UF.DOp α)) (fs : List α) :
    UF.DConnected (h ++ fs.map UF.DOp.find) = UF.DConnected h := by
  unfold UF.DConnected
  congr 1
  funext a b
  unfold UF.DUnited
  simp

/-- every state reached from the unions by finds answers with one representative function -/
theorem exists_rep (h : List (UF.DOp α)) : ∃ rep : α → α,
    (∀ i j, rep i = rep j ↔ UF.DConnected h i j) ∧
    ∀ fs : List α, ∃ s, UF.Duf.init.run (h ++ fs.map UF.DOp.find) = some s ∧
      ∀ i, ∃ s', s.find i = some (s', rep i) ∧ UF.Duf.init.run (h ++ (fs ++ [i]).map UF.DOp.find) = some s' := by
  obtain ⟨s0, -, h0⟩ := UF.C05_duf_find_is_least_connected h
  have hex : ∀ i, ∃ r, UF.DConnected h i r ∧ ∀ x, UF.DConnected h i x → r ≤ x := by
    intro i
    obtain ⟨_, r, _, h1, h2⟩ := h0 i
    exact ⟨r, h1, h2⟩
  choose rep hr1 hr2 using hex
  refine ⟨rep, ?_, ?_⟩
  · intro i j
    constructor
    · intro e
      exact (hr1 i).trans _ _ _ (e ▸ (hr1 j).symm)
    · intro e
      apply le_antisymm
      · exact hr2 i _ (e.trans _ _ _ (hr1 j))
      · exact hr2 j _ ((e.symm).trans _ _ _ (hr1 i))
  · intro fs
    obtain ⟨s, e, hs⟩ := UF.C05_duf_find_is_least_connected (h ++ fs.map UF.DOp.find)
    refine ⟨s, e, fun i => ?_⟩
    obtain ⟨s', r, e', c1, c2⟩ := hs i
    rw [dconnected_finds] at c1 c2
    have hrr : r = rep i := le_antisymm (c2 _ (hr1 i)) (hr2 i _ c1)
    subst hrr
    refine ⟨s', e', ?_⟩
    rw [List.map_append, ← List.append_assoc, run_append, e]
    simp [UF.Duf.run, UF.Duf.step, e']

theorem groupLoop_spec (h : List (UF.DOp α)) (rep : α → α)
    (hrep : ∀ fs : List α, ∃ s, UF.Duf.init.run (h ++ fs.map UF.DOp.find) = some s ∧
      ∀ i, ∃ s', s.find i = some (s', rep i) ∧ UF.Duf.init.run (h ++ (fs ++ [i]).map UF.DOp.find) = some s') :
    ∀ (m : List (α × β)) (fs : List α) (s : UF.Duf α) (done : List (α × β)) (ccs : List (α × List (α × β))),
      UF.Duf.init.run (h ++ fs.map UF.DOp.find) = some s → Sorted (done ++ m) → Sorted ccs →
      (∀ r, lookup r ccs = if done.filter (fun kv => decide (rep kv.1 = r)) = [] then none
        else some (done.filter (fun kv => decide (rep kv.1 = r)))) →
      ∃ gs, groupLoop s m ccs = some gs ∧ Sorted gs ∧
        ∀ r, lookup r gs = if (done ++ m).filter (fun kv => decide (rep kv.1 = r)) = [] then none
          else some ((done ++ m).filter (fun kv => decide (rep kv.1 = r))) := by
  intro m
  induction m with
  | nil =>
    intro fs s done ccs _ _ hc hl
    refine ⟨ccs, rfl, hc, fun r => ?_⟩
    rw [List.append_nil]
    exact hl r
  | cons kv m ih =>
    intro fs s done ccs hr hs hc hl
    obtain ⟨s1, e1, h1⟩ := hrep fs
    rw [hr] at e1
    cases Option.some.inj e1
    obtain ⟨s', e', hr'⟩ := h1 kv.1
    have hs' : Sorted ((done ++ [kv]) ++ m) := by simpa using hs
    have hget : (lookup (rep kv.1) ccs).getD [] = done.filter (fun kv' => decide (rep kv'.1 = rep kv.1)) := by
      rw [hl]
      split
      · rename_i he; rw [he]; rfl
      · rfl
    have hlt : ∀ e ∈ done, e.1 < kv.1 := by
      intro e he
      exact (List.pairwise_append.1 hs).2.2 e he kv (by simp)
    have hins : mapInsert (done.filter (fun kv' => decide (rep kv'.1 = rep kv.1))) kv =
        (done ++ [kv]).filter (fun kv' => decide (rep kv'.1 = rep kv.1)) := by
      unfold mapInsert
      rw [Ser.lookup_none _ _ (fun e he => ne_of_lt (hlt e (List.mem_filter.1 he).1))]
      simp only
      rw [Ser.mapPut_last _ _ _ (fun e he => hlt e (List.mem_filter.1 he).1), List.filter_append]
      simp
    have hstep : groupLoop s (kv :: m) ccs = groupLoop s' m
        (mapPut (rep kv.1) ((done ++ [kv]).filter (fun kv' => decide (rep kv'.1 = rep kv.1))) ccs) := by
      simp only [groupLoop, e', hget, hins]
    rw [hstep]
    obtain ⟨gs, eg, hsg, hlg⟩ := ih (fs ++ [kv.1]) s' (done ++ [kv])
      (mapPut (rep kv.1) ((done ++ [kv]).filter (fun kv' => decide (rep kv'.1 = rep kv.1))) ccs) hr' hs'
      (Comm.sorted_mapPut _ _ _ hc) (by
        intro r
        rw [Comm.lookup_mapPut]
        by_cases hrr : r = rep kv.1
        · subst hrr
          rw [if_pos rfl, if_neg]
          intro he
          have : kv ∈ (done ++ [kv]).filter (fun kv' => decide (rep kv'.1 = rep kv.1)) := by simp
          rw [he] at this; cases this
        · have hf : (done ++ [kv]).filter (fun kv' => decide (rep kv'.1 = r)) =
              done.filter (fun kv' => decide (rep kv'.1 = r)) := by
            rw [List.filter_append]
            have : decide (rep kv.1 = r) = false := decide_eq_false (fun e => hrr e.symm)
            simp [this]
          rw [if_neg hrr, hf, hl])
    refine ⟨gs, eg, hsg, fun r => ?_⟩
    have h := hlg r
    rw [List.append_assoc, List.singleton_append] at h
    exact h

/-- the groups of `trace_critical_points_offline` are the connected components -/
theorem offlineGroups_spec (nb : α → List α) (dcp : List (α × β)) (hs : Sorted dcp) :
    ∃ gs, offlineGroups nb dcp = some gs ∧ (∀ g ∈ gs, g.2.Sublist dcp) ∧
      UF.IsPartition (· ∈ dcp.map Prod.fst) (Linked nb (dcp.map Prod.fst)) (gs.map fun g => g.2.map Prod.fst) := by
  obtain ⟨rep, hrep, hst⟩ := exists_rep (offlineOps nb dcp)
  rw [offline_connected] at hrep
  obtain ⟨s, es, -⟩ := hst []
  obtain ⟨gs, eg, hsg, hlg⟩ := groupLoop_spec (offlineOps nb dcp) rep hst dcp [] s [] [] es (by simpa using hs)
    List.Pairwise.nil (by intro r; simp [lookup])
  simp only [List.nil_append] at hlg
  have hmem : ∀ g ∈ gs, g.2 = dcp.filter (fun kv => decide (rep kv.1 = g.1)) ∧ g.2 ≠ [] := by
    rintro ⟨r, l⟩ hg
    have := lookup_of_mem hsg hg
    rw [hlg] at this
    split at this
    · cases this
    · rename_i hne
      cases this
      exact ⟨rfl, hne⟩
  have hin : ∀ g ∈ gs, ∀ x, x ∈ g.2.map Prod.fst ↔ x ∈ dcp.map Prod.fst ∧ rep x = g.1 := by
    intro g hg x
    rw [(hmem g hg).1]
    simp only [List.mem_map, List.mem_filter, decide_eq_true_eq]
    constructor
    · rintro ⟨kv, ⟨h1, h2⟩, rfl⟩; exact ⟨⟨kv, h1, rfl⟩, h2⟩
    · rintro ⟨⟨kv, h1, rfl⟩, h2⟩; exact ⟨kv, ⟨h1, h2⟩, rfl⟩
  refine ⟨gs, ?_, ?_, ?_, ?_, ?_, ?_, ?_, ?_⟩
  · simp only [List.map_nil, List.append_nil] at es
    simp only [offlineGroups, es, eg]
  · intro g hg
    rw [(hmem g hg).1]
    exact List.filter_sublist
  · simp only [List.mem_map]
    rintro c ⟨g, hg, rfl⟩ hnil
    exact (hmem g hg).2 (List.map_eq_nil_iff.1 hnil)
  · simp only [List.mem_map]
    rintro c ⟨g, hg, rfl⟩ x hx
    have := ((hin g hg x).1 hx).1
    simpa using this
  · intro x hx
    obtain ⟨kv, hkv, rfl⟩ := List.mem_map.1 hx
    have hk : kv ∈ dcp.filter (fun kv' => decide (rep kv'.1 = rep kv.1)) := by simp [hkv]
    have hl := hlg (rep kv.1)
    rw [if_neg (by intro he; rw [he] at hk; cases hk)] at hl
    refine ⟨_, List.mem_map.2 ⟨_, lookup_some_mem hl, rfl⟩, ?_⟩
    exact List.mem_map_of_mem hk
  · intro c hc x hx y hy
    obtain ⟨g, hg, rfl⟩ := List.mem_map.1 hc
    rw [hin g hg, ← hrep x y]
    rw [hin g hg] at hx
    rw [hx.2]
    constructor
    · rintro ⟨-, h⟩; exact h.symm
    · intro h; exact ⟨hy, h.symm⟩
  · rw [List.pairwise_map]
    refine List.Pairwise.imp_of_mem ?_ hsg
    intro g g' hg hg' hlt x hx hx'
    rw [hin g hg] at hx
    rw [hin g' hg'] at hx'
    exact absurd (hx.2.symm.trans hx'.2) (ne_of_lt hlt)
  · intro c hc
    obtain ⟨g, hg, rfl⟩ := List.mem_map.1 hc
    rw [(hmem g hg).1]
    exact sorted_nodup (Comm.filter_sorted _ _ hs)

/-- nodes with at most two neighbors among `keys` -/
def ordKeys (nb : α → List α) (keys : List α) : List α := keys.filter fun x => decide (deg nb keys x ≤ 2)

theorem linked_class (nb : α → List α) (hsy : Symm nb) {keys c : List α} (hsub : ∀ x ∈ c, x ∈ keys)
    (hcl : ∀ x ∈ c, ∀ y ∈ keys, y ∈ nb x → y ∈ c) {x y : α} (hx : x ∈ c) :
    Linked nb (ordKeys nb keys) x y ↔ y ∈ c ∧ Linked nb (ordKeys nb c) x y := by
  have hmem : ∀ z, z ∈ ordKeys nb c ↔ z ∈ c ∧ z ∈ ordKeys nb keys := by
    intro z
    unfold ordKeys
    simp only [List.mem_filter, decide_eq_true_eq]
    constructor
    · rintro ⟨h1, h2⟩
      rw [deg_class nb hsub hcl z h1] at h2
      exact ⟨h1, hsub z h1, h2⟩
    · rintro ⟨h1, -, h2⟩
      rw [← deg_class nb hsub hcl z h1] at h2
      exact ⟨h1, h2⟩
  constructor
  · intro h
    have key : ∀ a b, Linked nb (ordKeys nb keys) a b → (a ∈ c ↔ b ∈ c) ∧ (a ∈ c → Linked nb (ordKeys nb c) a b) := by
      intro a b hab
      induction hab with
      | rel a b h =>
        obtain ⟨h1, h2, h3⟩ := h
        have ka := (List.mem_filter.1 h1).1
        have kb := (List.mem_filter.1 h2).1
        have hiff : a ∈ c ↔ b ∈ c := ⟨fun ha => hcl a ha b kb h3, fun hb => hcl b hb a ka (hsy _ _ h3)⟩
        refine ⟨hiff, fun ha => .rel _ _ ⟨(hmem a).2 ⟨ha, h1⟩, (hmem b).2 ⟨hiff.1 ha, h2⟩, h3⟩⟩
      | refl a => exact ⟨Iff.rfl, fun _ => .refl _⟩
      | symm a b _ ih => exact ⟨ih.1.symm, fun hb => (ih.2 (ih.1.2 hb)).symm⟩
      | trans a b d _ _ ih1 ih2 =>
        exact ⟨ih1.1.trans ih2.1, fun ha => (ih1.2 ha).trans _ _ _ (ih2.2 (ih1.1.1 ha))⟩
    obtain ⟨h1, h2⟩ := key x y h
    exact ⟨h1.1 hx, h2 hx⟩
  · rintro ⟨-, h⟩
    clear hx
    induction h with
    | rel a b hab => exact .rel _ _ ⟨((hmem a).1 hab.1).2, ((hmem b).1 hab.2.1).2, hab.2.2⟩
    | refl a => exact .refl _
    | symm a b _ ih => exact ih.symm
    | trans a b d _ _ ih1 ih2 => exact ih1.trans _ _ _ ih2

theorem offlineCurves_spec (nb : α → List α) (hsy : Symm nb) (hnd : ∀ x, (nb x).Nodup) (dcp : List (α × β))
    (hs : Sorted dcp) : ∀ {gs : List (α × List (α × β))}, (∀ g ∈ gs, g.2.Sublist dcp) →
    (gs.map fun g => g.2.map Prod.fst).Pairwise (fun s t => ∀ x, x ∈ s → x ∉ t) →
    (∀ g ∈ gs, ∀ x ∈ g.2.map Prod.fst, ∀ y ∈ dcp.map Prod.fst, y ∈ nb x → y ∈ g.2.map Prod.fst) →
    ∃ cs ts, offlineCurves nb gs = some ts ∧ List.Forall₂ (MadeOf nb dcp) cs ts ∧
      (∀ k ∈ cs, k ≠ [] ∧ List.IsChain (fun x y => y ∈ nb x) k) ∧ cs.flatten.Nodup ∧
      (∀ x, x ∈ cs.flatten ↔ (∃ g ∈ gs, x ∈ g.2.map Prod.fst) ∧ deg nb (dcp.map Prod.fst) x ≤ 2) ∧
      ∀ k ∈ cs, ∀ x ∈ k, ∀ y ∈ cs.flatten, (y ∈ k ↔ Linked nb (ordKeys nb (dcp.map Prod.fst)) x y) := by
  intro gs
  induction gs with
  | nil => intro _ _ _; exact ⟨[], [], rfl, .nil, by simp, by simp, by simp, by simp⟩
  | cons g gs ih =>
    intro hsl hp hcl
    simp only [List.map_cons, List.pairwise_cons] at hp
    obtain ⟨cs, ts, e, h1, h2, h3, h4, h5⟩ := ih (fun c hc => hsl c (by simp [hc])) hp.2
      (fun c hc => hcl c (by simp [hc]))
    have hslg := hsl g (by simp)
    have hsubg : ∀ x ∈ g.2.map Prod.fst, x ∈ dcp.map Prod.fst := (hslg.map _).subset
    have hclg := hcl g (by simp)
    obtain ⟨ls, el, l1, l2, l3, l4⟩ := Gr.C21_linear_components nb hsy hnd (g.2.map Prod.fst)
    obtain ⟨ts0, e0, m0⟩ := curveTrajs_spec nb (dcp := g.2) (gs := ls)
      (fun c hc k hk => ((l3 k).1 (List.mem_flatten.2 ⟨c, hc, hk⟩)).1)
    have hlook : ∀ k ∈ g.2.map Prod.fst, lookup k g.2 = lookup k dcp := by
      intro k hk
      obtain ⟨⟨k', v⟩, hkv, rfl⟩ := List.mem_map.1 hk
      rw [lookup_of_mem (hs.sublist hslg) hkv, lookup_of_mem hs (hslg.subset hkv)]
    have m0' : List.Forall₂ (MadeOf nb dcp) ls ts0 := by
      have hk : ∀ c ∈ ls, ∀ k ∈ c, k ∈ g.2.map Prod.fst :=
        fun c hc k hk => ((l3 k).1 (List.mem_flatten.2 ⟨c, hc, hk⟩)).1
      clear l1 l2 l3 l4 el e0
      induction m0 with
      | nil => exact .nil
      | cons hm _ ih' =>
        refine .cons ⟨?_, hm.loop, hm.complete⟩ (ih' fun c hc => hk c (by simp [hc]))
        rw [hm.pts]
        apply List.map_congr_left
        intro k hkk
        exact hlook k (hk _ (by simp) k hkk)
    have l3' : ∀ x, x ∈ ls.flatten ↔ x ∈ g.2.map Prod.fst ∧ deg nb (dcp.map Prod.fst) x ≤ 2 := by
      intro x
      rw [l3 x]
      refine and_congr_right fun hx => ?_
      rw [← deg_class nb hsubg hclg x hx]
      rfl
    have hdis : ∀ x, x ∈ ls.flatten → x ∉ cs.flatten := by
      intro x hx hx'
      obtain ⟨⟨g', hg', hxg'⟩, -⟩ := (h4 x).1 hx'
      exact hp.1 _ (List.mem_map.2 ⟨g', hg', rfl⟩) x ((l3' x).1 hx).1 hxg'
    refine ⟨ls ++ cs, ts0 ++ ts, by simp only [offlineCurves, el, e0, e], forall₂_append m0' h1, ?_, ?_, ?_, ?_⟩
    · intro k hk
      rcases List.mem_append.1 hk with hk | hk
      · exact l1 k hk
      · exact h2 k hk
    · rw [List.flatten_append, List.nodup_append]
      refine ⟨l2, h3, ?_⟩
      intro a ha b hb hab
      subst hab
      exact hdis a ha hb
    · intro x
      rw [List.flatten_append, List.mem_append, h4, l3']
      simp only [List.mem_cons, exists_eq_or_imp]
      constructor
      · rintro (⟨a, b⟩ | ⟨a, b⟩)
        · exact ⟨.inl a, b⟩
        · exact ⟨.inr a, b⟩
      · rintro ⟨a | a, b⟩
        · exact .inl ⟨a, b⟩
        · exact .inr ⟨a, b⟩
    · intro k hk x hx y hy
      rcases List.mem_append.1 hk with hk | hk
      · have hxg := ((l3 x).1 (List.mem_flatten.2 ⟨k, hk, hx⟩)).1
        rw [linked_class nb hsy hsubg hclg hxg]
        rw [List.flatten_append, List.mem_append] at hy
        rcases hy with hy | hy
        · rw [l4 k hk x hx y hy]
          constructor
          · intro h; exact ⟨((l3 y).1 hy).1, h⟩
          · rintro ⟨-, h⟩; exact h
        · constructor
          · intro h
            exact absurd hy (hdis y (List.mem_flatten.2 ⟨k, hk, h⟩))
          · rintro ⟨h, -⟩
            obtain ⟨⟨g', hg', hyg'⟩, -⟩ := (h4 y).1 hy
            exact absurd hyg' (hp.1 _ (List.mem_map.2 ⟨g', hg', rfl⟩) y h)
      · rw [List.flatten_append, List.mem_append] at hy
        rcases hy with hy | hy
        · constructor
          · intro h
            exact absurd (List.mem_flatten.2 ⟨k, hk, h⟩) (hdis y hy)
          · intro h
            have hyg := ((l3 y).1 hy).1
            have := ((linked_class nb hsy hsubg hclg hyg).1 h.symm).1
            obtain ⟨⟨g', hg', hxg'⟩, -⟩ := (h4 x).1 (List.mem_flatten.2 ⟨k, hk, hx⟩)
            exact absurd hxg' (hp.1 _ (List.mem_map.2 ⟨g', hg', rfl⟩) x this)
        · exact h5 k hk x hx y hy

/-- `trace_critical_points_offline`, whatever the order in which the threads finish the components -/
theorem offline_spec (nb : α → List α) (hsy : Symm nb) (hnd : ∀ x, (nb x).Nodup) (dcp : List (α × β))
    (hs : Sorted dcp) : ∃ gs, offlineGroups nb dcp = some gs ∧ ∀ gs' : List (α × List (α × β)), gs'.Perm gs →
    ∃ cs ts, offlineCurves nb gs' = some ts ∧ List.Forall₂ (MadeOf nb dcp) cs ts ∧
      (∀ k ∈ cs, k ≠ [] ∧ List.IsChain (fun x y => y ∈ nb x) k) ∧ cs.flatten.Nodup ∧
      (∀ x, x ∈ cs.flatten ↔ x ∈ dcp.map Prod.fst ∧ deg nb (dcp.map Prod.fst) x ≤ 2) ∧
      ∀ k ∈ cs, ∀ x ∈ k, ∀ y ∈ cs.flatten, (y ∈ k ↔ Linked nb (ordKeys nb (dcp.map Prod.fst)) x y) := by
  obtain ⟨gs, e, hsl, hP⟩ := offlineGroups_spec nb dcp hs
  refine ⟨gs, e, fun gs' hperm => ?_⟩
  have hpair : (gs'.map fun g => g.2.map Prod.fst).Pairwise (fun s t => ∀ x, x ∈ s → x ∉ t) := by
    refine List.Perm.pairwise (hperm.map _).symm hP.disjoint ?_
    intro s t h x hx hx'
    exact h x hx' hx
  obtain ⟨cs, ts, h1, h2, h3, h4, h5, h6⟩ := offlineCurves_spec nb hsy hnd dcp hs (gs := gs')
    (fun g hg => hsl g (hperm.mem_iff.1 hg)) hpair (by
      intro g hg x hx y hy hyx
      have hc : g.2.map Prod.fst ∈ gs.map (fun g => g.2.map Prod.fst) :=
        List.mem_map.2 ⟨g, hperm.mem_iff.1 hg, rfl⟩
      exact (hP.classes _ hc x hx y hy).2 (.rel _ _ ⟨hP.only _ hc x hx, hy, hyx⟩))
  refine ⟨cs, ts, h1, h2, h3, h4, ?_, h6⟩
  intro x
  rw [h5]
  refine and_congr_left fun _ => ?_
  constructor
  · rintro ⟨g, hg, hx⟩
    exact ((hsl g (hperm.mem_iff.1 hg)).map _).subset hx
  · intro hx
    obtain ⟨c, hc, hxc⟩ := hP.cover x hx
    obtain ⟨g, hg, rfl⟩ := List.mem_map.1 hc
    exact ⟨g, hperm.mem_iff.2 hg, hxc⟩

end Verif.Trk
