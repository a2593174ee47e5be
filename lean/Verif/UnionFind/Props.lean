import Verif.UnionFind.Concurrent
/-! # Properties C01-C06: union-find structures -/
namespace Verif.UF
open Relation
variable {α : Type} [LinearOrder α]

/-- **C01.** After any valid history, no call ever hit undefined behaviour or failed to terminate
(`run` is `some`), and `same_set(i,j)` answers exactly "connected by united pairs". -/
theorem C01_same_set_iff_connected (h : List (Op α)) (hv : ValidFrom [] h) :
    ∃ s, UnionFind.init.run h = some s ∧
      ∀ i j, i ∈ added h → j ∈ added h →
        ∃ s' v, s.sameSet i j = some (s', v) ∧ (v = true ↔ Connected h i j) := by
  obtain ⟨s, e, hI, hm⟩ := UInv.reach h hv
  refine ⟨s, e, fun i j hi hj => ?_⟩
  obtain ⟨s', v, e', _, _, hv⟩ := hI.sameSet ((hm i).2 hi) ((hm j).2 hj)
  exact ⟨s', v, e', hv⟩

/-- a concrete valid history and the two answers (the hypotheses of C01 are satisfiable). -/
example : ValidFrom [] [Op.add 1, .add 2, .add 3, .add 4, .unite 1 2, .unite 3 4, .find 4, .unite 2 4]
    ∧ 1 ∈ added [Op.add 1, .add 2, .add 3, .add 4, .unite 1 2] := by
  simp [ValidFrom, added]

example : ((UnionFind.init.run [Op.add 1, .add 2, .add 3, .unite 1 2]).bind
    (fun s => s.sameSet 1 2)).map Prod.snd = some true ∧
    ((UnionFind.init.run [Op.add 1, .add 2, .add 3, .unite 1 2]).bind
    (fun s => s.sameSet 1 3)).map Prod.snd = some false := by decide

/-- **C01, error branch.** `find` on an element that was not added dereferences `end()`:
undefined behaviour (despite the comment in union_find.hh:84 promising the element itself). -/
theorem C01_find_absent_is_undefined (h : List (Op α)) (hv : ValidFrom [] h) (s : UnionFind α)
    (hs : UnionFind.init.run h = some s) (i : α) (hi : i ∉ added h) : s.find i = none := by
  obtain ⟨s', e, hI, hm⟩ := UInv.reach h hv
  rw [hs] at e
  cases Option.some.inj e
  have hp : s.par i = none := by
    cases hp : s.par i with
    | none => rfl
    | some p => exact absurd ((hm i).1 ((hI.rep.dom i).2 ⟨p, hp⟩)) hi
  unfold UnionFind.find
  have : findLoop i s.eles.length s.par i = none := by
    unfold findLoop
    rw [hp]
  rw [this]

example : (3 : Nat) ∉ added [Op.add 1, .add 2] := by simp [added]

/-- **C02.** In every reachable state `find i` terminates and returns a representative `r` which is
itself an added element connected to `i` and a fixed point of `find`; two elements get the same
representative iff they are connected; and the compression done by `find` changes no later
`find` result. -/
theorem C02_find_canonical_and_pure (h : List (Op α)) (hv : ValidFrom [] h) (s : UnionFind α)
    (hs : UnionFind.init.run h = some s) (i : α) (hi : i ∈ added h) :
    ∃ s' r, s.find i = some (s', r) ∧ r ∈ added h ∧ Connected h i r ∧
      (s'.find r).map Prod.snd = some r ∧ s'.eles = s.eles ∧ s'.sz = s.sz ∧
      (∀ j ∈ added h, (s'.find j).map Prod.snd = (s.find j).map Prod.snd ∧
        ((s.find j).map Prod.snd = some r ↔ Connected h i j)) := by
  obtain ⟨s0, e, hI, hm⟩ := UInv.reach h hv
  rw [hs] at e
  cases Option.some.inj e
  obtain ⟨r, hr⟩ := hI.exists_root ((hm i).2 hi)
  obtain ⟨s', e', hI', hel, hsz, hroot⟩ := hI.find hr
  refine ⟨s', r, e', (hm r).1 ((hI.rep.dom r).2 ⟨_, hr.isRoot⟩), hI.rep.root_conn hr, ?_, hel, hsz, ?_⟩
  · obtain ⟨s2, e2, _⟩ := hI'.find (hroot _ _ (.root hr.isRoot))
    rw [e2]; rfl
  · intro j hj
    obtain ⟨rj, hrj⟩ := hI.exists_root ((hm j).2 hj)
    obtain ⟨s2, e2, _⟩ := hI.find hrj
    obtain ⟨s3, e3, _⟩ := hI'.find (hroot _ _ hrj)
    rw [e2, e3]
    refine ⟨rfl, ?_⟩
    have := hI.rep.same_root_iff hr hrj
    show some rj = some r ↔ EqvGen (United h) i j
    rw [← this, Option.some.injEq]
    exact eq_comm

example : ((UnionFind.init.run [Op.add 1, .add 2, .add 3, .unite 1 2]).bind
    (fun s => s.find 2)).map Prod.snd = some 1 := by decide

/-- **C03.** `get_sets()` returns the partition of the added elements into connectivity classes. -/
theorem C03_get_sets_partition (h : List (Op α)) (hv : ValidFrom [] h) (s : UnionFind α)
    (hs : UnionFind.init.run h = some s) :
    ∃ s' sets, s.getSets = some (s', sets) ∧ IsPartition (· ∈ added h) (Connected h) sets ∧
      (∀ j ∈ added h, (s'.find j).map Prod.snd = (s.find j).map Prod.snd) := by
  obtain ⟨s0, e, hI, hm⟩ := UInv.reach h hv
  rw [hs] at e
  cases Option.some.inj e
  obtain ⟨s', sets, e', hI', hel, hroot, hp⟩ := hI.getSets
  refine ⟨s', sets, e', ?_, ?_⟩
  · have : (fun x => x ∈ added h) = (fun x => x ∈ s.eles) :=
      funext fun x => propext (hm x).symm
    rw [this]; exact hp
  · intro j hj
    obtain ⟨rj, hrj⟩ := hI.exists_root ((hm j).2 hj)
    obtain ⟨s2, e2, _⟩ := hI.find hrj
    obtain ⟨s3, e3, _⟩ := hI'.find (hroot _ _ hrj)
    rw [e2, e3]
    rfl

example : ((UnionFind.init.run [Op.add 5, .add 2, .add 3, .unite 5 2]).bind
    (fun s => s.getSets)).map Prod.snd = some [[3], [2, 5]] := by decide

/-- **C04.** `simple_union_find(n)`: after any history with indices below `n`, `same_set` answers
exactly connectivity. -/
theorem C04_simple_same_set_iff_connected (n : Nat) (h : List SOp) (hv : SValid n h) :
    ∃ s, (SimpleUF.init n).run h = some s ∧
      ∀ i j, i < n → j < n →
        ∃ s' v, s.sameSet i j = some (s', v) ∧ (v = true ↔ SConnected h i j) := by
  obtain ⟨s, e, hI⟩ := SInv.reach n h hv
  refine ⟨s, e, fun i j hi hj => ?_⟩
  obtain ⟨s', v, e', _, hv⟩ := hI.sameSet hi hj
  exact ⟨s', v, e', hv⟩

example : SValid 4 [.unite 0 3, .find 3, .unite 3 2, .sameSet 0 2] := by
  intro o ho
  simp at ho
  rcases ho with rfl | rfl | rfl | rfl <;> simp

example : (((SimpleUF.init 4).run [.unite 0 3, .unite 3 2]).bind (fun s => s.sameSet 0 2)).map Prod.snd
    = some true ∧
    (((SimpleUF.init 4).run [.unite 0 3, .unite 3 2]).bind (fun s => s.sameSet 0 1)).map Prod.snd
    = some false := by decide

/-- **C04, error branch.** An index at or above the size is an out-of-bounds access. -/
theorem C04_out_of_range_is_undefined (n : Nat) (h : List SOp) (hv : SValid n h) (s : SimpleUF)
    (hs : (SimpleUF.init n).run h = some s) (i : Nat) (hi : n ≤ i) : s.find i = none := by
  obtain ⟨s0, e, hI⟩ := SInv.reach n h hv
  rw [hs] at e
  cases Option.some.inj e
  have : s.id2parent[i]? = none := List.getElem?_eq_none (by rw [hI.len]; exact hi)
  unfold SimpleUF.find
  have h2 : sufLoop s.id2parent.length s.id2parent i = none := by
    unfold sufLoop; rw [this]
  rw [h2]

/-- **C05.** Sequential `duf`: no call fails, and afterwards `find(i)` returns the least element
connected to `i` (for an element never mentioned: itself). -/
theorem C05_duf_find_is_least_connected (h : List (DOp α)) :
    ∃ s, Duf.init.run h = some s ∧ ∀ i, ∃ s' r, s.find i = some (s', r) ∧
      DConnected h i r ∧ ∀ x, DConnected h i x → r ≤ x := by
  obtain ⟨s, e, hI⟩ := DSeq.reach h
  refine ⟨s, e, fun i => ?_⟩
  obtain ⟨s', r, e', hI', hr, hroot⟩ := hI.find i
  refine ⟨s', r, e', hI'.rep.root_conn hr, ?_⟩
  intro x hx
  have hle : ∀ {x y : α}, RootOf s'.par x y → y ≤ x := by
    intro x y hxy
    induction hxy with
    | root _ => exact le_refl _
    | step h1 _ _ ih => exact le_trans ih (hI'.inv.le _ _ h1)
  rcases hI'.rep.conn_root hx with rfl | ⟨r', h1, h2⟩
  · exact hle hr
  · cases hr.unique h1
    exact hle h2

/-- **C05 (order independence).** Two histories with the same united pairs, whatever the order of
calls and the interspersed finds, give the same `find` results. -/
theorem C05_duf_order_independent (h₁ h₂ : List (DOp α)) (hsame : ∀ a b, DUnited h₁ a b ↔ DUnited h₂ a b)
    (s₁ s₂ : Duf α) (e₁ : Duf.init.run h₁ = some s₁) (e₂ : Duf.init.run h₂ = some s₂) (i : α) :
    (s₁.find i).map Prod.snd = (s₂.find i).map Prod.snd := by
  have hE : DUnited h₁ = DUnited h₂ := funext fun a => funext fun b => propext (hsame a b)
  obtain ⟨t₁, f₁, g₁⟩ := C05_duf_find_is_least_connected h₁
  obtain ⟨t₂, f₂, g₂⟩ := C05_duf_find_is_least_connected h₂
  rw [e₁] at f₁; rw [e₂] at f₂
  cases Option.some.inj f₁; cases Option.some.inj f₂
  obtain ⟨_, r₁, k₁, c₁, l₁⟩ := g₁ i
  obtain ⟨_, r₂, k₂, c₂, l₂⟩ := g₂ i
  rw [k₁, k₂]
  unfold DConnected at *
  rw [hE] at c₁ l₁
  simp only [Option.map_some, Option.some.injEq]
  exact le_antisymm (l₁ _ c₂) (l₂ _ c₁)

example : ((Duf.init.run [DOp.unite 5 3, .unite 7 5, .find 9]).bind (fun s => s.find 7)).map Prod.snd
    = some 3 := by decide

/-- **C05 (roots).** `get_roots()` returns exactly the mentioned elements that are the least of
their component. -/
theorem C05_duf_get_roots (h : List (DOp α)) (s : Duf α) (hs : Duf.init.run h = some s) :
    ∃ s' roots, s.getRoots = some (s', roots) ∧ roots.Nodup ∧
      ∀ x, x ∈ roots ↔ DMentioned h x ∧ ∀ y, DConnected h x y → x ≤ y := by
  obtain ⟨s0, e, hI⟩ := DSeq.reach h
  rw [hs] at e
  cases Option.some.inj e
  obtain ⟨s', out, e', hI', hso, hroot, hout⟩ := dufRootsLoop_spec (E := DUnited h) (RootOf s.par)
    (fun x a b h1 h2 => h1.unique h2) s.keys s [] hI.inv (fun _ h => h) (fun _ _ h => h)
    (fun x hx => by
      obtain ⟨p, hp⟩ := (hI.inv.dom x).1 hx
      exact hI.inv.wf.exists_root hp) (by simp [StrictSorted])
  refine ⟨s', out, e', hso.nodup, ?_⟩
  intro x
  have hle : ∀ {x y : α}, RootOf s.par x y → y ≤ x := by
    intro x y hxy
    induction hxy with
    | root _ => exact le_refl _
    | step h1 _ _ ih => exact le_trans ih (hI.inv.le _ _ h1)
  rw [hout, hI.keys]
  simp only [List.not_mem_nil, false_or]
  constructor
  · rintro ⟨hx, hr⟩
    refine ⟨hx, fun y hy => ?_⟩
    rcases hI.rep.conn_root hy with rfl | ⟨r', h1, h2⟩
    · exact le_refl _
    · cases hr.unique h1
      exact hle h2
  · rintro ⟨hx, hmin⟩
    refine ⟨hx, ?_⟩
    obtain ⟨p, hp⟩ := (hI.inv.dom x).1 ((hI.keys x).2 hx)
    obtain ⟨r, hr⟩ := hI.inv.wf.exists_root hp
    have : r = x := le_antisymm (hle hr) (hmin r (hI.rep.root_conn hr))
    subst this
    exact hr

example : ((Duf.init.run [DOp.unite 5 3, .unite 7 5, .find 9]).bind Duf.getRoots).map Prod.snd
    = some [3, 9] := by decide

/-- **C06 (what holds of the full property).** Full property: under every interleaving, finds
terminate and two elements end in one component *iff* united pairs connect them.  Proved here, for
every number of threads and every schedule: no step fails, and afterwards `find` terminates for
every element with a result that is `≤` it and connected to it by united pairs — so components never
merge elements that were not asked to be united.  Missing: the converse, which is false
(`C06_concurrent_unite_loses_update`). -/
theorem C06_concurrent_unite_sound_partial (us : List (α × α)) (sched : List Nat) :
    ∃ c, (Conc.init us).run sched = some c ∧ ∀ i, ∃ d r, c.duf.find i = some (d, r) ∧
      r ≤ i ∧ EqvGen (PairsOf us) i r := by
  obtain ⟨c, e, h⟩ := (CInv.init False us).run sched (fun f => f.elim)
  refine ⟨c, e, fun i => ?_⟩
  obtain ⟨d, r, e', _, _, hle, hE, _⟩ := h.inv.find i
  exact ⟨d, r, e', hle, hE⟩

/-- **C06 (completeness, conditional).** If no locked write ever overwrites an existing link
(`FreshRun`), every pair whose `unite` has returned ends with equal representatives.  `FreshRun` is
exactly what the missing re-check under the lock would guarantee. -/
theorem C06_concurrent_unite_complete_partial (us : List (α × α)) (sched : List Nat)
    (hf : FreshRun (Conc.init us) sched) (c : Conc α) (hc : (Conc.init us).run sched = some c)
    (t : Nat) (a b : α) (ht : us[t]? = some (a, b)) (hdone : c.pcs[t]? = some .done) :
    (c.duf.find a).map Prod.snd = (c.duf.find b).map Prod.snd ∧ ∃ d r, c.duf.find a = some (d, r) := by
  obtain ⟨c', e, h⟩ := (CInv.init True us).run sched (fun _ => hf)
  rw [hc] at e
  cases Option.some.inj e
  obtain ⟨r, h1, h2⟩ := h.pcs t a b .done ht hdone trivial
  obtain ⟨d, q, e1, _, hq, _, _, _, hroot⟩ := h.inv.find a
  obtain ⟨d', q', e2, _, hq', _, _, _, hroot'⟩ := h.inv.find b
  cases hq.unique (hroot _ _ h1)
  cases hq'.unique (hroot' _ _ h2)
  rw [e1, e2]
  exact ⟨rfl, d, _, rfl⟩

/-- a two-thread interleaved schedule that is fresh: both finds of thread 0, all of thread 1 on
other elements, then the write of thread 0. -/
example : FreshRun (Conc.init [((1 : Nat), 3), (5, 6)]) [0, 0, 1, 1, 1, 0] := by
  refine ⟨?_, ?_⟩
  · intro ri rj h; simp [Conc.init] at h
  · intro c' h'
    have : c' = { duf := ⟨[1], put (fun _ => none) 1 1⟩,
                  pcs := [.found1 1 3, .start 5 6] } := by
      simpa [Conc.init, Conc.step, Duf.find, Duf.init, setInsert] using h'.symm
    subst this
    refine ⟨?_, ?_⟩
    · intro ri rj h; simp at h
    · intro c' h'
      simp [Conc.step, Duf.find, setInsert, put] at h'
      subst h'
      refine ⟨?_, ?_⟩
      · intro ri rj h; simp at h
      · intro c' h'
        simp [Conc.step, Duf.find, setInsert, put] at h'
        subst h'
        refine ⟨?_, ?_⟩
        · intro ri rj h; simp at h
        · intro c' h'
          simp [Conc.step, Duf.find, setInsert, put] at h'
          subst h'
          refine ⟨?_, ?_⟩
          · intro ri rj h hne
            simp at h
            obtain ⟨rfl, rfl⟩ := h
            decide
          · intro c' h'
            simp [Conc.step, Duf.link, setInsert] at h'
            subst h'
            refine ⟨?_, fun _ _ => trivial⟩
            intro ri rj h hne
            simp at h
            obtain ⟨rfl, rfl⟩ := h
            decide

/-- **C06 (violation).** Two threads, `unite(1,3)` and `unite(2,3)`: after both returned, 2 and 3
are in different components although they were united — the second locked write overwrote the first
(find and link are not one critical section). -/
theorem C06_concurrent_unite_loses_update :
    ∃ (us : List (Nat × Nat)) (sched : List Nat) (c : Conc Nat),
      (Conc.init us).run sched = some c ∧ (∀ pc ∈ c.pcs, pc = .done) ∧
      PairsOf us 2 3 ∧ (c.duf.find 2).map Prod.snd = some 2 ∧ (c.duf.find 3).map Prod.snd = some 1 := by
  have h : ∃ c, (Conc.init [((1 : Nat), 3), (2, 3)]).run [0, 0, 1, 1, 1, 0] = some c := by
    obtain ⟨c, e, _⟩ := C06_concurrent_unite_sound_partial [((1 : Nat), 3), (2, 3)] [0, 0, 1, 1, 1, 0]
    exact ⟨c, e⟩
  obtain ⟨c, e⟩ := h
  refine ⟨_, _, c, e, ?_⟩
  have k : ((Conc.init [((1 : Nat), 3), (2, 3)]).run [0, 0, 1, 1, 1, 0]).map (fun c =>
      (c.pcs, (c.duf.find 2).map Prod.snd, (c.duf.find 3).map Prod.snd)) =
      some ([.done, .done], some 2, some 1) := by decide
  rw [e] at k
  simp only [Option.map_some, Option.some.injEq, Prod.mk.injEq] at k
  refine ⟨?_, by simp [PairsOf], k.2.1, k.2.2⟩
  rw [k.1]
  simp

end Verif.UF
