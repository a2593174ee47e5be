import Verif.UnionFind.Lemmas
import Verif.UnionFind.Spec
import Mathlib.Order.Nat
import Mathlib.Data.Nat.Basic
import Mathlib.Tactic.Tauto
/-! Refinement lemmas for the three union-find structures. -/
namespace Verif.UF
open Relation
variable {α : Type} [LinearOrder α]

/-- state invariant: the forest represents the united pairs, on exactly the added elements. -/
structure UInv (s : UnionFind α) (E : α → α → Prop) : Prop where
  rep : Rep s.par (· ∈ s.eles) E
  sorted : StrictSorted s.eles

theorem UInv.init : UInv (UnionFind.init : UnionFind α) (fun _ _ => False) := by
  refine ⟨⟨⟨?_, ⟨fun _ => 0, ?_⟩⟩, ?_, ?_, ?_⟩, by simp [UnionFind.init, StrictSorted]⟩
  · intro i p h; simp [UnionFind.init] at h
  · intro i p h; simp [UnionFind.init] at h
  · intro x; simp [UnionFind.init]
  · intro a b h; simp [UnionFind.init] at h
  · intro a b h; exact h.elim

theorem UInv.add {s : UnionFind α} {E : α → α → Prop} (h : UInv s E) (i : α) :
    UInv (s.add i) E ∧ (∀ x, x ∈ (s.add i).eles ↔ x = i ∨ x ∈ s.eles) := by
  unfold UnionFind.add UnionFind.has
  by_cases hi : i ∈ s.eles
  · simp only [hi, decide_true, if_true]
    refine ⟨h, ?_⟩
    intro x
    constructor
    · exact .inr
    · rintro (rfl | h)
      · exact hi
      · exact h
  · simp only [hi, decide_false, Bool.false_eq_true, if_false]
    have hn : s.par i = none := by
      cases hp : s.par i with
      | none => rfl
      | some p => exact absurd ((h.rep.dom i).2 ⟨p, hp⟩) hi
    rw [hn]
    refine ⟨⟨?_, h.sorted.setInsert⟩, fun x => mem_setInsert _ _ _⟩
    refine (h.rep.fresh hn).1.congr ?_ (fun _ _ => Iff.rfl)
    intro x
    exact (mem_setInsert _ _ _).symm

theorem UInv.exists_root {s : UnionFind α} {E : α → α → Prop} (h : UInv s E) {i : α}
    (hi : i ∈ s.eles) : ∃ r, RootOf s.par i r := by
  obtain ⟨p, hp⟩ := (h.rep.dom i).1 hi
  exact h.rep.wf.exists_root hp

theorem UInv.find {s : UnionFind α} {E : α → α → Prop} (h : UInv s E) {i r : α}
    (hr : RootOf s.par i r) :
    ∃ s', s.find i = some (s', r) ∧ UInv s' E ∧ s'.eles = s.eles ∧ s'.sz = s.sz ∧
      (∀ x y, RootOf s.par x y → RootOf s'.par x y) := by
  obtain ⟨rk, hrk, hb⟩ := bounded_rank (els := s.eles)
    (fun i p hp => (h.rep.dom i).2 ⟨p, hp⟩) h.rep.wf
  obtain ⟨p, hp⟩ := hr.dom
  obtain ⟨P', he, hw, hroot, hd, hE⟩ := findLoop_spec h.rep.wf hrk (i0 := i) (i := i)
    s.eles.length (le_of_lt (hb i p hp)) rfl hr hr (.inl rfl)
  refine ⟨{ s with par := P' }, ?_, ⟨⟨hw, ?_, ?_, ?_⟩, h.sorted⟩, rfl, rfl, hroot⟩
  · unfold UnionFind.find; rw [he]
  · intro x; exact (h.rep.dom x).trans (hd x)
  · exact hE E h.rep.sound
  · intro a b hab
    obtain ⟨r', h1, h2⟩ := h.rep.complete a b hab
    exact ⟨r', hroot _ _ h1, hroot _ _ h2⟩

theorem UInv.unite {s : UnionFind α} {E : α → α → Prop} (h : UInv s E) {a b : α}
    (ha : a ∈ s.eles) (hb : b ∈ s.eles) :
    ∃ s', s.unite a b = some s' ∧ UInv s' (fun x y => E x y ∨ (x = a ∧ y = b)) ∧
      s'.eles = s.eles := by
  obtain ⟨ri, hri⟩ := h.exists_root ha
  obtain ⟨s1, e1, h1, hel1, hsz1, hroot1⟩ := h.find hri
  obtain ⟨rj, hrj⟩ := h.exists_root hb
  obtain ⟨s2, e2, h2, hel2, hsz2, hroot2⟩ := h1.find (hroot1 _ _ hrj)
  have ha2 := hroot2 _ _ (hroot1 _ _ hri)
  have hb2 := hroot2 _ _ (hroot1 _ _ hrj)
  unfold UnionFind.unite
  rw [e1]; simp only []; rw [e2]; simp only []
  split
  · rw [ha2.isRoot]
    refine ⟨_, rfl, ⟨?_, h2.sorted⟩, by simp [hel1, hel2]⟩
    exact (h2.rep.link hb2 ha2).swap
  · rw [hb2.isRoot]
    refine ⟨_, rfl, ⟨?_, h2.sorted⟩, by simp [hel1, hel2]⟩
    exact h2.rep.link ha2 hb2

theorem UInv.sameSet {s : UnionFind α} {E : α → α → Prop} (h : UInv s E) {a b : α}
    (ha : a ∈ s.eles) (hb : b ∈ s.eles) :
    ∃ s' v, s.sameSet a b = some (s', v) ∧ UInv s' E ∧ s'.eles = s.eles ∧
      (v = true ↔ EqvGen E a b) := by
  obtain ⟨ri, hri⟩ := h.exists_root ha
  obtain ⟨s1, e1, h1, hel1, hsz1, hroot1⟩ := h.find hri
  obtain ⟨rj, hrj⟩ := h.exists_root hb
  obtain ⟨s2, e2, h2, hel2, hsz2, hroot2⟩ := h1.find (hroot1 _ _ hrj)
  unfold UnionFind.sameSet
  rw [e1]; simp only []; rw [e2]; simp only []
  refine ⟨_, _, rfl, h2, by rw [hel2, hel1], ?_⟩
  rw [decide_eq_true_eq]
  exact h.rep.same_root_iff hri hrj

theorem UInv.congr {s : UnionFind α} {E E' : α → α → Prop} (h : UInv s E)
    (hE : ∀ x y, E x y ↔ E' x y) : UInv s E' := ⟨h.rep.congr (fun _ => Iff.rfl) hE, h.sorted⟩

theorem UInv.run {s : UnionFind α} {E : α → α → Prop} (h : UInv s E) (ops : List (Op α))
    (hv : ValidFrom s.eles ops) :
    ∃ s', s.run ops = some s' ∧ UInv s' (fun x y => E x y ∨ United ops x y) ∧
      (∀ x, x ∈ s'.eles ↔ x ∈ s.eles ∨ x ∈ added ops) := by
  induction ops generalizing s E with
  | nil => exact ⟨s, rfl, h.congr (by simp [United]), by simp [added]⟩
  | cons o ops ih =>
    have hvmono : ∀ (l l' : List α) (ops : List (Op α)), (∀ x, x ∈ l → x ∈ l') →
        ValidFrom l ops → ValidFrom l' ops := by
      intro l l' ops
      induction ops generalizing l l' with
      | nil => intros; trivial
      | cons o ops ih =>
        intro hl hv
        cases o with
        | add i =>
          refine ih (i :: l) (i :: l') ?_ hv
          intro x hx
          rcases List.mem_cons.1 hx with rfl | hx
          · exact List.mem_cons_self ..
          · exact List.mem_cons_of_mem _ (hl x hx)
        | unite i j => exact ⟨hl _ hv.1, hl _ hv.2.1, ih _ _ hl hv.2.2⟩
        | find i => exact ⟨hl _ hv.1, ih _ _ hl hv.2⟩
        | sameSet i j => exact ⟨hl _ hv.1, hl _ hv.2.1, ih _ _ hl hv.2.2⟩
    cases o with
    | add i =>
      obtain ⟨h1, hm⟩ := h.add i
      have hv' : ValidFrom (s.add i).eles ops :=
        hvmono _ _ _ (fun x hx => by rw [hm]; simpa using hx) hv
      obtain ⟨s', e, h2, hm2⟩ := ih h1 hv'
      refine ⟨s', by simp only [UnionFind.run, UnionFind.step]; exact e, ?_, ?_⟩
      · exact h2.congr (by intro x y; simp [United])
      · intro x; rw [hm2, hm]; simp [added]; tauto
    | unite i j =>
      obtain ⟨s1, e1, h1, hel⟩ := h.unite hv.1 hv.2.1
      obtain ⟨s', e, h2, hm2⟩ := ih h1 (by rw [hel]; exact hv.2.2)
      refine ⟨s', by simp only [UnionFind.run, UnionFind.step, e1]; exact e, ?_, ?_⟩
      · refine h2.congr ?_
        intro x y; simp [United]; tauto
      · intro x; rw [hm2, hel]; simp [added]
    | find i =>
      obtain ⟨r, hr⟩ := h.exists_root hv.1
      obtain ⟨s1, e1, h1, hel, _⟩ := h.find hr
      obtain ⟨s', e, h2, hm2⟩ := ih h1 (by rw [hel]; exact hv.2)
      refine ⟨s', by simp only [UnionFind.run, UnionFind.step, e1, Option.map_some]; exact e, ?_, ?_⟩
      · exact h2.congr (by intro x y; simp [United])
      · intro x; rw [hm2, hel]; simp [added]
    | sameSet i j =>
      obtain ⟨s1, v, e1, h1, hel, _⟩ := h.sameSet hv.1 hv.2.1
      obtain ⟨s', e, h2, hm2⟩ := ih h1 (by rw [hel]; exact hv.2.2)
      refine ⟨s', by simp only [UnionFind.run, UnionFind.step, e1, Option.map_some]; exact e, ?_, ?_⟩
      · exact h2.congr (by intro x y; simp [United])
      · intro x; rw [hm2, hel]; simp [added]

/-- Reachable states. -/
theorem UInv.reach (ops : List (Op α)) (hv : ValidFrom [] ops) :
    ∃ s, (UnionFind.init : UnionFind α).run ops = some s ∧ UInv s (United ops) ∧
      (∀ x, x ∈ s.eles ↔ x ∈ added ops) := by
  obtain ⟨s, e, h, hm⟩ := UInv.init.run ops hv
  exact ⟨s, e, h.congr (by simp), by simpa [UnionFind.init] using hm⟩

/-! get_sets -/

theorem mapAddTo_keys (m : List (α × List α)) (r x : α) :
    (mapAddTo m r x).map Prod.fst = setInsert r (m.map Prod.fst) := by
  induction m with
  | nil => rfl
  | cons kv m ih =>
    obtain ⟨k, v⟩ := kv
    unfold mapAddTo
    simp only [List.map_cons]
    unfold setInsert
    split
    · rfl
    · split
      · rfl
      · simp only [List.map_cons, ih]

theorem mapAddTo_mem {m : List (α × List α)} (hs : StrictSorted (m.map Prod.fst)) {r x : α}
    {k : α} {v : List α} (h : (k, v) ∈ mapAddTo m r x) :
      (k ≠ r ∧ (k, v) ∈ m) ∨ (k = r ∧ v = [x] ∧ r ∉ m.map Prod.fst) ∨
        (k = r ∧ ∃ w, (r, w) ∈ m ∧ v = setInsert x w) := by
  induction m with
  | nil =>
    simp only [mapAddTo, List.mem_singleton, Prod.mk.injEq] at h
    exact .inr (.inl ⟨h.1, h.2, by simp⟩)
  | cons kv m ih =>
    obtain ⟨k0, v0⟩ := kv
    have hs' := hs
    unfold StrictSorted at hs'
    rw [List.map_cons, List.pairwise_cons] at hs'
    unfold mapAddTo at h
    split at h
    · rename_i hr
      rcases List.mem_cons.1 h with h | h
      · cases h
        refine .inr (.inl ⟨rfl, rfl, ?_⟩)
        intro hm
        rcases List.mem_cons.1 hm with hm | hm
        · exact absurd hm (ne_of_lt hr)
        · exact absurd (lt_trans hr (hs'.1 _ hm)) (lt_irrefl _)
      · refine .inl ⟨?_, h⟩
        have hk : k ∈ (((k0, v0) :: m).map Prod.fst) := List.mem_map.2 ⟨_, h, rfl⟩
        rcases List.mem_cons.1 hk with hk | hk
        · intro e; rw [hk] at e; exact absurd e (ne_of_gt hr)
        · intro e; subst e; exact absurd (lt_trans hr (hs'.1 _ hk)) (lt_irrefl _)
    · split at h
      · rename_i h1 h2
        subst h2
        rcases List.mem_cons.1 h with h | h
        · cases h
          exact .inr (.inr ⟨rfl, v0, List.mem_cons_self .., rfl⟩)
        · refine .inl ⟨?_, List.mem_cons_of_mem _ h⟩
          intro e
          have := hs'.1 k (List.mem_map.2 ⟨(k, v), h, rfl⟩)
          rw [e] at this
          exact absurd this (lt_irrefl _)
      · rename_i h1 h2
        rcases List.mem_cons.1 h with h | h
        · cases h
          exact .inl ⟨fun e => h2 e.symm, List.mem_cons_self ..⟩
        · rcases ih hs'.2 h with ⟨a, b⟩ | ⟨a, b, c⟩ | ⟨a, w, b, c⟩
          · exact .inl ⟨a, List.mem_cons_of_mem _ b⟩
          · refine .inr (.inl ⟨a, b, ?_⟩)
            intro hm
            rcases List.mem_cons.1 hm with hm | hm
            · exact h2 hm
            · exact c hm
          · exact .inr (.inr ⟨a, w, List.mem_cons_of_mem _ b, c⟩)

/-- invariant of the `root2set` map after the elements `dn` were processed -/
structure MInv (root : α → α → Prop) (dn : α → Prop) (m : List (α × List α)) : Prop where
  keys : StrictSorted (m.map Prod.fst)
  entry : ∀ k v, (k, v) ∈ m → v ≠ [] ∧ StrictSorted v ∧ ∀ x, x ∈ v ↔ dn x ∧ root x k
  cover : ∀ x, dn x → ∃ k, k ∈ m.map Prod.fst ∧ root x k

theorem setInsert_ne_nil (x : α) (l : List α) : setInsert x l ≠ [] := by
  cases l with
  | nil => simp [setInsert]
  | cons y ys => unfold setInsert; split <;> [simp; (split <;> simp)]

theorem MInv.add {root : α → α → Prop} {dn : α → Prop} {m : List (α × List α)}
    (hu : ∀ x a b, root x a → root x b → a = b)
    (h : MInv root dn m) {x r : α} (hx : root x r) :
    MInv root (fun y => dn y ∨ y = x) (mapAddTo m r x) := by
  refine ⟨by rw [mapAddTo_keys]; exact h.keys.setInsert, ?_, ?_⟩
  · intro k v hkv
    rcases mapAddTo_mem h.keys hkv with ⟨hk, hm⟩ | ⟨rfl, rfl, hno⟩ | ⟨rfl, w, hm, rfl⟩
    · obtain ⟨h1, h2, h3⟩ := h.entry k v hm
      refine ⟨h1, h2, ?_⟩
      intro y
      rw [h3]
      constructor
      · rintro ⟨a, b⟩; exact ⟨.inl a, b⟩
      · rintro ⟨a | rfl, b⟩
        · exact ⟨a, b⟩
        · exact absurd (hu _ _ _ b hx) hk
    · refine ⟨by simp, by simp [StrictSorted], ?_⟩
      intro y
      simp only [List.mem_singleton]
      constructor
      · rintro rfl; exact ⟨.inr rfl, hx⟩
      · rintro ⟨a | rfl, b⟩
        · obtain ⟨k', hk', hr'⟩ := h.cover y a
          cases hu _ _ _ b hr'
          exact absurd hk' hno
        · rfl
    · obtain ⟨h1, h2, h3⟩ := h.entry _ w hm
      refine ⟨setInsert_ne_nil _ _, h2.setInsert, ?_⟩
      intro y
      rw [mem_setInsert, h3]
      constructor
      · rintro (rfl | ⟨a, b⟩)
        · exact ⟨.inr rfl, hx⟩
        · exact ⟨.inl a, b⟩
      · rintro ⟨a | rfl, b⟩
        · exact .inr ⟨a, b⟩
        · exact .inl rfl
  · intro y hy
    rw [mapAddTo_keys]
    rcases hy with hy | rfl
    · obtain ⟨k, hk, hr⟩ := h.cover y hy
      exact ⟨k, (mem_setInsert _ _ _).2 (.inr hk), hr⟩
    · exact ⟨r, (mem_setInsert _ _ _).2 (.inl rfl), hx⟩

theorem getSetsLoop_spec {E : α → α → Prop} (root : α → α → Prop)
    (hu : ∀ x a b, root x a → root x b → a = b) (xs : List α) :
    ∀ (s : UnionFind α) (m : List (α × List α)) (dn : α → Prop), UInv s E →
      (∀ x ∈ xs, x ∈ s.eles) → (∀ x y, root x y → RootOf s.par x y) →
      (∀ x ∈ s.eles, ∃ y, root x y) → MInv root dn m →
      ∃ s' m', getSetsLoop s m xs = some (s', m') ∧ UInv s' E ∧ s'.eles = s.eles ∧
        (∀ x y, RootOf s.par x y → RootOf s'.par x y) ∧
        MInv root (fun y => dn y ∨ y ∈ xs) m' := by
  induction xs with
  | nil =>
    intro s m dn h _ _ _ hm
    refine ⟨s, m, rfl, h, rfl, fun _ _ h => h, ?_⟩
    have : (fun y => dn y ∨ y ∈ ([] : List α)) = dn := by funext y; simp
    rw [this]; exact hm
  | cons x xs ih =>
    intro s m dn h hxs hroot hex hm
    have hx := hxs x (List.mem_cons_self ..)
    obtain ⟨r, hr⟩ := hex x hx
    obtain ⟨s1, e1, h1, hel, _, hr1⟩ := h.find (hroot _ _ hr)
    obtain ⟨s', m', e, h', hel', hr', hm'⟩ := ih s1 (mapAddTo m r x) (fun y => dn y ∨ y = x) h1
      (fun y hy => by rw [hel]; exact hxs y (List.mem_cons_of_mem _ hy))
      (fun a b hab => hr1 _ _ (hroot _ _ hab))
      (fun y hy => hex y (by rw [← hel]; exact hy)) (hm.add hu hr)
    refine ⟨s', m', ?_, h', by rw [hel', hel], fun a b hab => hr' _ _ (hr1 _ _ hab), ?_⟩
    · unfold getSetsLoop; rw [e1]; exact e
    · have : (fun y => dn y ∨ y ∈ x :: xs) = (fun y => (dn y ∨ y = x) ∨ y ∈ xs) := by
        funext y; simp [or_assoc]
      rw [this]; exact hm'

theorem UInv.getSets {s : UnionFind α} {E : α → α → Prop} (h : UInv s E) :
    ∃ s' sets, s.getSets = some (s', sets) ∧ UInv s' E ∧ s'.eles = s.eles ∧
      (∀ x y, RootOf s.par x y → RootOf s'.par x y) ∧
      IsPartition (· ∈ s.eles) (EqvGen E) sets := by
  obtain ⟨s', m, e, h', hel, hr, hm⟩ := getSetsLoop_spec (E := E) (RootOf s.par)
    (fun x a b h1 h2 => h1.unique h2) s.eles s [] (fun _ => False) h (fun _ hx => hx)
    (fun _ _ h => h) (fun x hx => h.exists_root hx)
    ⟨by simp [StrictSorted], by simp, by simp⟩
  refine ⟨s', m.map Prod.snd, by unfold UnionFind.getSets; rw [e], h', hel, hr, ?_⟩
  have hent : ∀ t ∈ m.map Prod.snd, ∃ k, (k, t) ∈ m := by
    intro t ht
    obtain ⟨⟨k, v⟩, hkv, rfl⟩ := List.mem_map.1 ht
    exact ⟨k, hkv⟩
  constructor
  · intro t ht
    obtain ⟨k, hk⟩ := hent t ht
    exact (hm.entry k t hk).1
  · intro t ht x hx
    obtain ⟨k, hk⟩ := hent t ht
    have := ((hm.entry k t hk).2.2 x).1 hx
    simpa using this.1
  · intro x hx
    obtain ⟨k, hk, hr⟩ := hm.cover x (by simp [hx])
    obtain ⟨⟨k', v⟩, hkv, rfl⟩ := List.mem_map.1 hk
    exact ⟨v, List.mem_map.2 ⟨_, hkv, rfl⟩, ((hm.entry _ v hkv).2.2 x).2 ⟨by simp [hx], hr⟩⟩
  · intro t ht x hx y hy
    obtain ⟨k, hk⟩ := hent t ht
    have hE := (hm.entry k t hk).2.2
    have hxr := ((hE x).1 hx).2
    obtain ⟨ry, hry⟩ := h.exists_root hy
    rw [hE y, ← h.rep.same_root_iff hxr hry]
    constructor
    · rintro ⟨_, hyk⟩; exact hyk.unique hry
    · rintro rfl; exact ⟨by simp [hy], hry⟩
  · rw [List.pairwise_map]
    have hk := hm.keys
    unfold StrictSorted at hk
    rw [List.pairwise_map] at hk
    refine List.Pairwise.imp_of_mem ?_ hk
    rintro ⟨k1, v1⟩ ⟨k2, v2⟩ hm1 hm2 hlt x hx1 hx2
    have h1 := (((hm.entry k1 v1 hm1).2.2 x).1 hx1).2
    have h2 := (((hm.entry k2 v2 hm2).2.2 x).1 hx2).2
    exact absurd (h1.unique h2) (ne_of_lt hlt)
  · intro t ht
    obtain ⟨k, hk⟩ := hent t ht
    exact (hm.entry k t hk).2.1.nodup

/-! simple_union_find -/

/-- the vector as a partial function -/
def vfun (l : List Nat) : Nat → Option Nat := fun i => l[i]?

theorem vfun_set {l : List Nat} {i v : Nat} (h : i < l.length) :
    vfun (l.set i v) = put (vfun l) i v := by
  funext x
  unfold vfun put
  rw [List.getElem?_set]
  by_cases hx : x = i
  · subst hx; simp [h]
  · simp [hx, Ne.symm hx]

theorem sufLoop_eq (fuel : Nat) : ∀ (l : List Nat) (i : Nat),
    (∀ P' r, halveLoop fuel (vfun l) i = some (P', r) →
      ∃ l', sufLoop fuel l i = some (l', r) ∧ vfun l' = P' ∧ l'.length = l.length) := by
  induction fuel with
  | zero =>
    intro l i P' r h
    unfold halveLoop at h
    unfold sufLoop
    simp only [show vfun l i = l[i]? from rfl] at h
    cases hp : l[i]? with
    | none => rw [hp] at h; cases h
    | some p =>
      rw [hp] at h
      simp only [] at h ⊢
      by_cases hpi : i = p
      · rw [if_pos hpi] at h ⊢
        cases h
        exact ⟨l, rfl, rfl, rfl⟩
      · rw [if_neg hpi] at h; cases h
  | succ fuel ih =>
    intro l i P' r h
    unfold halveLoop at h
    unfold sufLoop
    simp only [show vfun l i = l[i]? from rfl] at h
    cases hp : l[i]? with
    | none => rw [hp] at h; cases h
    | some p =>
      rw [hp] at h
      simp only [] at h ⊢
      have hi : i < l.length := by
        by_contra hn
        rw [List.getElem?_eq_none (not_lt.1 hn)] at hp
        cases hp
      by_cases hpi : i = p
      · rw [if_pos hpi] at h ⊢
        cases h
        exact ⟨l, rfl, rfl, rfl⟩
      · rw [if_neg hpi] at h ⊢
        simp only [show vfun l p = l[p]? from rfl] at h
        cases hg : l[p]? with
        | none => rw [hg] at h; cases h
        | some g =>
          rw [hg] at h
          simp only [] at h ⊢
          rw [← vfun_set hi] at h
          obtain ⟨l', e, e1, e2⟩ := ih _ _ _ _ h
          exact ⟨l', e, e1, by rw [e2, List.length_set]⟩

/-- (proof device) simulation between a `simple_union_find` state and an equivalence `E` on `0..n-1`. -/
structure SInv (n : Nat) (s : SimpleUF) (E : Nat → Nat → Prop) : Prop where
  len : s.id2parent.length = n
  lensz : s.sz.length = n
  rep : Rep (vfun s.id2parent) (· < n) E

theorem SInv.init (n : Nat) : SInv n (SimpleUF.init n) (fun _ _ => False) := by
  have hv : ∀ i p, vfun (List.range n) i = some p ↔ i < n ∧ p = i := by
    intro i p
    unfold vfun
    rw [List.getElem?_eq_some_iff]
    simp only [List.getElem_range, List.length_range]
    constructor
    · rintro ⟨h, rfl⟩; exact ⟨h, rfl⟩
    · rintro ⟨h, rfl⟩; exact ⟨h, rfl⟩
  refine ⟨by simp [SimpleUF.init], by simp [SimpleUF.init], ⟨⟨?_, fun _ => 0, ?_⟩, ?_, ?_, ?_⟩⟩
  · intro i p h
    obtain ⟨h1, rfl⟩ := (hv i p).1 h
    exact ⟨p, h⟩
  · intro i p h hne
    exact absurd ((hv i p).1 h).2 hne
  · intro x
    constructor
    · intro hx; exact ⟨x, (hv x x).2 ⟨hx, rfl⟩⟩
    · rintro ⟨p, hp⟩; exact ((hv x p).1 hp).1
  · intro a b h
    obtain ⟨_, rfl⟩ := (hv a b).1 h
    exact .refl _
  · intro a b h; exact h.elim

theorem SInv.exists_root {n : Nat} {s : SimpleUF} {E : Nat → Nat → Prop} (h : SInv n s E) {i : Nat}
    (hi : i < n) : ∃ r, RootOf (vfun s.id2parent) i r := by
  obtain ⟨p, hp⟩ := (h.rep.dom i).1 hi
  exact h.rep.wf.exists_root hp

theorem SInv.find {n : Nat} {s : SimpleUF} {E : Nat → Nat → Prop} (h : SInv n s E) {i r : Nat}
    (hr : RootOf (vfun s.id2parent) i r) :
    ∃ s', s.find i = some (s', r) ∧ SInv n s' E ∧ s'.sz = s.sz ∧
      (∀ x y, RootOf (vfun s.id2parent) x y → RootOf (vfun s'.id2parent) x y) := by
  obtain ⟨rk, hrk, hb⟩ := bounded_rank (els := List.range n)
    (fun i p hp => List.mem_range.2 ((h.rep.dom i).2 ⟨p, hp⟩)) h.rep.wf
  obtain ⟨p, hp⟩ := hr.dom
  have hf : rk i ≤ s.id2parent.length := by
    have := hb i p hp
    rw [List.length_range] at this
    rw [h.len]; exact le_of_lt this
  obtain ⟨P', he, hw, hroot, hd, hE, _⟩ := halveLoop_spec h.rep.wf hrk (i := i)
    s.id2parent.length hf hr
  obtain ⟨l', e, e1, e2⟩ := sufLoop_eq _ _ _ _ _ he
  subst e1
  refine ⟨{ s with id2parent := l' }, ?_, ⟨by simpa using e2.trans h.len, h.lensz, ⟨hw, ?_, ?_, ?_⟩⟩,
    rfl, hroot⟩
  · unfold SimpleUF.find; rw [e]
  · intro x; exact (h.rep.dom x).trans (hd x)
  · exact hE E h.rep.sound
  · intro a b hab
    obtain ⟨r', h1, h2⟩ := h.rep.complete a b hab
    exact ⟨r', hroot _ _ h1, hroot _ _ h2⟩

theorem SInv.lt {n : Nat} {s : SimpleUF} {E : Nat → Nat → Prop} (h : SInv n s E) {i r : Nat}
    (hr : RootOf (vfun s.id2parent) i r) : r < n := (h.rep.dom r).2 ⟨_, hr.isRoot⟩

theorem SInv.unite {n : Nat} {s : SimpleUF} {E : Nat → Nat → Prop} (h : SInv n s E) {a b : Nat}
    (ha : a < n) (hb : b < n) :
    ∃ s', s.unite a b = some (s', true) ∧ SInv n s' (fun x y => E x y ∨ (x = a ∧ y = b)) := by
  obtain ⟨ri, hri⟩ := h.exists_root ha
  obtain ⟨s1, e1, h1, hsz1, hroot1⟩ := h.find hri
  obtain ⟨rj, hrj⟩ := h.exists_root hb
  obtain ⟨s2, e2, h2, hsz2, hroot2⟩ := h1.find (hroot1 _ _ hrj)
  have ha2 := hroot2 _ _ (hroot1 _ _ hri)
  have hb2 := hroot2 _ _ (hroot1 _ _ hrj)
  have hli := h2.lt ha2
  have hlj := h2.lt hb2
  have hli' : ri < s2.sz.length := by rw [h2.lensz]; exact hli
  have hlj' : rj < s2.sz.length := by rw [h2.lensz]; exact hlj
  have gi : s2.sz[ri]? = some s2.sz[ri] := List.getElem?_eq_getElem hli'
  have gj : s2.sz[rj]? = some s2.sz[rj] := List.getElem?_eq_getElem hlj'
  unfold SimpleUF.unite
  rw [e1]; simp only []; rw [e2]; simp only [gi, gj]
  split
  · refine ⟨_, rfl, ⟨by simp [h2.len], by simp [h2.lensz], ?_⟩⟩
    show Rep (vfun (s2.id2parent.set ri rj)) _ _
    rw [vfun_set (by rw [h2.len]; exact hli)]
    exact (h2.rep.link hb2 ha2).swap
  · refine ⟨_, rfl, ⟨by simp [h2.len], by simp [h2.lensz], ?_⟩⟩
    show Rep (vfun (s2.id2parent.set rj ri)) _ _
    rw [vfun_set (by rw [h2.len]; exact hlj)]
    exact h2.rep.link ha2 hb2

theorem SInv.sameSet {n : Nat} {s : SimpleUF} {E : Nat → Nat → Prop} (h : SInv n s E) {a b : Nat}
    (ha : a < n) (hb : b < n) :
    ∃ s' v, s.sameSet a b = some (s', v) ∧ SInv n s' E ∧ (v = true ↔ EqvGen E a b) := by
  obtain ⟨ri, hri⟩ := h.exists_root ha
  obtain ⟨s1, e1, h1, hsz1, hroot1⟩ := h.find hri
  obtain ⟨rj, hrj⟩ := h.exists_root hb
  obtain ⟨s2, e2, h2, hsz2, hroot2⟩ := h1.find (hroot1 _ _ hrj)
  unfold SimpleUF.sameSet
  rw [e1]; simp only []; rw [e2]; simp only []
  refine ⟨_, _, rfl, h2, ?_⟩
  rw [decide_eq_true_eq]
  exact h.rep.same_root_iff hri hrj

theorem SInv.congr {n : Nat} {s : SimpleUF} {E E' : Nat → Nat → Prop} (h : SInv n s E)
    (hE : ∀ x y, E x y ↔ E' x y) : SInv n s E' :=
  ⟨h.len, h.lensz, h.rep.congr (fun _ => Iff.rfl) hE⟩

theorem SInv.run {n : Nat} {s : SimpleUF} {E : Nat → Nat → Prop} (h : SInv n s E) (ops : List SOp)
    (hv : SValid n ops) :
    ∃ s', s.run ops = some s' ∧ SInv n s' (fun x y => E x y ∨ SUnited ops x y) := by
  induction ops generalizing s E with
  | nil => exact ⟨s, rfl, h.congr (by simp [SUnited])⟩
  | cons o ops ih =>
    have ho := hv o (List.mem_cons_self ..)
    have hv' : SValid n ops := fun o' ho' => hv o' (List.mem_cons_of_mem _ ho')
    cases o with
    | unite i j =>
      obtain ⟨s1, e1, h1⟩ := h.unite ho.1 ho.2
      obtain ⟨s', e, h2⟩ := ih h1 hv'
      refine ⟨s', by simp only [SimpleUF.run, SimpleUF.step, e1, Option.map_some]; exact e, ?_⟩
      refine h2.congr ?_
      intro x y; simp [SUnited]; tauto
    | find i =>
      obtain ⟨r, hr⟩ := h.exists_root ho
      obtain ⟨s1, e1, h1, _⟩ := h.find hr
      obtain ⟨s', e, h2⟩ := ih h1 hv'
      refine ⟨s', by simp only [SimpleUF.run, SimpleUF.step, e1, Option.map_some]; exact e, ?_⟩
      exact h2.congr (by intro x y; simp [SUnited])
    | sameSet i j =>
      obtain ⟨s1, v, e1, h1, _⟩ := h.sameSet ho.1 ho.2
      obtain ⟨s', e, h2⟩ := ih h1 hv'
      refine ⟨s', by simp only [SimpleUF.run, SimpleUF.step, e1, Option.map_some]; exact e, ?_⟩
      exact h2.congr (by intro x y; simp [SUnited])

theorem SInv.reach (n : Nat) (ops : List SOp) (hv : SValid n ops) :
    ∃ s, (SimpleUF.init n).run ops = some s ∧ SInv n s (SUnited ops) := by
  obtain ⟨s, e, h⟩ := (SInv.init n).run ops hv
  exact ⟨s, e, h.congr (by simp)⟩

/-! duf -/

/-- (proof device) simulation between a `duf` state and an equivalence `E`. -/
structure DInv (s : Duf α) (E : α → α → Prop) : Prop where
  dom : ∀ x, x ∈ s.keys ↔ ∃ p, s.par x = some p
  closed : ∀ i p, s.par i = some p → ∃ q, s.par p = some q
  le : ∀ i p, s.par i = some p → p ≤ i
  sound : ∀ a b, s.par a = some b → EqvGen E a b

/-- parent ≤ self over a finite key set is acyclic -/
theorem DInv.wf {s : Duf α} {E : α → α → Prop} (h : DInv s E) : WF s.par := by
  refine ⟨h.closed, fun i => s.keys.countP (fun x => decide (x < i)), ?_⟩
  intro i p hip hne
  have hlt : p < i := lt_of_le_of_ne (h.le i p hip) hne
  have hp : p ∈ s.keys := by
    rw [h.dom]
    exact h.closed i p hip
  show List.countP _ _ < List.countP _ _
  generalize s.keys = els at hp
  induction els with
  | nil => simp at hp
  | cons a as ih =>
    rw [List.countP_cons, List.countP_cons]
    have hmono : as.countP (fun x => decide (x < p)) ≤ as.countP (fun x => decide (x < i)) := by
      apply List.countP_mono_left
      intro x _ hx
      simp only [decide_eq_true_eq] at hx ⊢
      exact lt_trans hx hlt
    rcases List.mem_cons.1 hp with rfl | hp'
    · simp only [hlt, lt_irrefl, decide_true, decide_false, if_true, Bool.false_eq_true, if_false]
      omega
    · have := ih hp'
      by_cases h1 : a < p
      · have h2 : a < i := lt_trans h1 hlt
        simp only [h1, h2, decide_true, if_true]; omega
      · simp only [h1, decide_false, Bool.false_eq_true, if_false]
        split <;> omega

theorem DInv.init : DInv (Duf.init : Duf α) (fun _ _ => False) := by
  constructor <;> simp [Duf.init]

/-- `find` never fails, keeps the invariant, keeps all roots, returns the root (the element itself
if it was absent). -/
theorem DInv.find {s : Duf α} {E : α → α → Prop} (h : DInv s E) (i : α) :
    ∃ s' r, s.find i = some (s', r) ∧ DInv s' E ∧ RootOf s'.par i r ∧ r ≤ i ∧ EqvGen E i r ∧
      (∀ x, x ∈ s'.keys ↔ x = i ∨ x ∈ s.keys) ∧
      (∀ x y, RootOf s.par x y → RootOf s'.par x y) := by
  cases hp : s.par i with
  | none =>
    have hR : Rep s.par (· ∈ s.keys) (fun a b => s.par a = some b) :=
      ⟨h.wf, h.dom, fun a b hab => .rel _ _ hab, fun a b hab => by
        obtain ⟨r, hr⟩ := h.wf.exists_root hab
        refine ⟨r, hr, ?_⟩
        by_cases hba : b = a
        · subst hba; exact hr
        · cases hr with
          | root h1 => rw [hab] at h1; exact absurd (Option.some.inj h1) hba
          | step h1 _ h3 => rw [hab] at h1; cases Option.some.inj h1; exact h3⟩
    obtain ⟨hf, hfr⟩ := hR.fresh hp
    refine ⟨_, i, by unfold Duf.find; rw [hp], ⟨?_, ?_, ?_, ?_⟩, .root (put_same _ _ _), le_refl _,
      .refl _, fun x => mem_setInsert _ _ _, hfr⟩
    · intro x
      rw [mem_setInsert]
      exact hf.dom x
    · exact hf.wf.closed
    · intro a b hab
      change put s.par i i a = some b at hab
      by_cases ha : a = i
      · subst ha; rw [put_same] at hab; cases Option.some.inj hab; exact le_refl _
      · rw [put_ne _ _ ha] at hab; exact h.le a b hab
    · intro a b hab
      change put s.par i i a = some b at hab
      by_cases ha : a = i
      · subst ha; rw [put_same] at hab; cases Option.some.inj hab; exact .refl _
      · rw [put_ne _ _ ha] at hab; exact h.sound a b hab
  | some p =>
    obtain ⟨rk, hrk, hb⟩ := bounded_rank (els := s.keys)
      (fun i p hp => (h.dom i).2 ⟨p, hp⟩) h.wf
    obtain ⟨r, hr⟩ := h.wf.exists_root hp
    obtain ⟨P', he, hw, hroot, hd, hE, hR⟩ := halveLoop_spec h.wf hrk (i := i)
      s.keys.length (le_of_lt (hb i p hp)) hr
    have hrle : ∀ {x y : α}, RootOf s.par x y → y ≤ x ∧ EqvGen E x y := by
      intro x y hxy
      induction hxy with
      | root _ => exact ⟨le_refl _, .refl _⟩
      | step h1 _ _ ih => exact ⟨le_trans ih.1 (h.le _ _ h1), .trans _ _ _ (h.sound _ _ h1) ih.2⟩
    refine ⟨{ s with par := P' }, r, ?_, ⟨?_, hw.closed, ?_, ?_⟩, hroot _ _ hr, (hrle hr).1,
      (hrle hr).2, ?_, hroot⟩
    · unfold Duf.find; rw [hp]; simp only []; rw [he]
    · intro x; exact (h.dom x).trans (hd x)
    · exact hR (fun a b => b ≤ a) (fun a b c h1 h2 => le_trans h2 h1) h.le
    · exact hE E h.sound
    · intro x
      constructor
      · exact .inr
      · rintro (rfl | hx)
        · exact (h.dom x).2 ⟨p, hp⟩
        · exact hx

/-- the locked write keeps the invariant whatever happened since the finds, as long as the two
values are known elements connected to the arguments. -/
theorem DInv.link {s : Duf α} {E : α → α → Prop} (h : DInv s E) {i j : α}
    (hi : i ∈ s.keys) (hj : j ∈ s.keys) (hne : i ≠ j) (hE : EqvGen E i j) :
    DInv (s.link i j) E ∧ ∀ x, x ∈ (s.link i j).keys ↔ x ∈ s.keys := by
  have key : ∀ lo hi : α, lo ∈ s.keys → hi ∈ s.keys → lo ≤ hi → EqvGen E hi lo →
      DInv { keys := setInsert hi s.keys, par := put s.par hi lo } E ∧
      ∀ x, x ∈ setInsert hi s.keys ↔ x ∈ s.keys := by
    intro lo hi hlo hhi hle hE
    have hk : ∀ x, x ∈ setInsert hi s.keys ↔ x ∈ s.keys := by
      intro x
      rw [mem_setInsert]
      constructor
      · rintro (rfl | h)
        · exact hhi
        · exact h
      · exact .inr
    have hd : ∀ x, (∃ p, s.par x = some p) ↔ ∃ p, put s.par hi lo x = some p := by
      intro x
      by_cases hx : x = hi
      · subst hx; rw [put_same]; simp [(h.dom x).1 hhi]
      · rw [put_ne _ _ hx]
    refine ⟨⟨?_, ?_, ?_, ?_⟩, hk⟩
    · intro x; rw [hk, h.dom, hd]
    · intro a b hab
      change put s.par hi lo a = some b at hab
      rw [← hd b]
      by_cases ha : a = hi
      · subst ha; rw [put_same] at hab; cases Option.some.inj hab; exact (h.dom _).1 hlo
      · rw [put_ne _ _ ha] at hab; exact h.closed a b hab
    · intro a b hab
      change put s.par hi lo a = some b at hab
      by_cases ha : a = hi
      · subst ha; rw [put_same] at hab; cases Option.some.inj hab; exact hle
      · rw [put_ne _ _ ha] at hab; exact h.le a b hab
    · intro a b hab
      change put s.par hi lo a = some b at hab
      by_cases ha : a = hi
      · subst ha; rw [put_same] at hab; cases Option.some.inj hab; exact hE
      · rw [put_ne _ _ ha] at hab; exact h.sound a b hab
  unfold Duf.link
  by_cases hgt : i > j
  · simp only [if_pos hgt]
    exact key j i hj hi (le_of_lt hgt) hE
  · simp only [if_neg hgt]
    exact key i j hi hj (not_lt.1 hgt) (.symm _ _ hE)

/-- sequential invariant: additionally every united pair shares a root -/
structure DSeq (s : Duf α) (D : α → Prop) (E : α → α → Prop) : Prop where
  inv : DInv s E
  keys : ∀ x, x ∈ s.keys ↔ D x
  complete : ∀ a b, E a b → ∃ r, RootOf s.par a r ∧ RootOf s.par b r

theorem DSeq.rep {s : Duf α} {D : α → Prop} {E : α → α → Prop} (h : DSeq s D E) :
    Rep s.par (· ∈ s.keys) E := ⟨h.inv.wf, h.inv.dom, h.inv.sound, h.complete⟩

theorem DSeq.find {s : Duf α} {D : α → Prop} {E : α → α → Prop} (h : DSeq s D E) (i : α) :
    ∃ s' r, s.find i = some (s', r) ∧ DSeq s' (fun x => x = i ∨ D x) E ∧ RootOf s'.par i r ∧
      (∀ x y, RootOf s.par x y → RootOf s'.par x y) := by
  obtain ⟨s', r, e, h1, h2, _, _, hk, hr⟩ := h.inv.find i
  refine ⟨s', r, e, ⟨h1, ?_, ?_⟩, h2, hr⟩
  · intro x; rw [hk, h.keys]
  · intro a b hab
    obtain ⟨r', h1, h2⟩ := h.complete a b hab
    exact ⟨r', hr _ _ h1, hr _ _ h2⟩

theorem DInv.mono {s : Duf α} {E E' : α → α → Prop} (h : DInv s E) (hE : ∀ a b, E a b → E' a b) :
    DInv s E' := ⟨h.dom, h.closed, h.le, fun a b hab =>
      EqvGen.mono (fun _ _ h => hE _ _ h) _ _ (h.sound a b hab)⟩

theorem DSeq.unite {s : Duf α} {D : α → Prop} {E : α → α → Prop} (h : DSeq s D E) (a b : α) :
    ∃ s', s.unite a b = some s' ∧
      DSeq s' (fun x => x = a ∨ x = b ∨ D x) (fun x y => E x y ∨ (x = a ∧ y = b)) := by
  obtain ⟨s1, ri, e1, h1, hr1, hroot1⟩ := h.find a
  obtain ⟨s2, rj, e2, h2, hr2, hroot2⟩ := h1.find b
  have ha2 := hroot2 _ _ hr1
  unfold Duf.unite
  rw [e1]; simp only []; rw [e2]; simp only []
  have hkeys : ∀ x, x ∈ s2.keys ↔ (x = a ∨ x = b ∨ D x) := by
    intro x; rw [h2.keys]; tauto
  have hin : ∀ {x r : α}, RootOf s2.par x r → r ∈ s2.keys := fun hx =>
    (h2.inv.dom _).2 ⟨_, hx.isRoot⟩
  by_cases hne : ri = rj
  · rw [if_pos hne]
    subst hne
    refine ⟨s2, rfl, ⟨h2.inv.mono (fun _ _ h => .inl h), hkeys, ?_⟩⟩
    rintro x y (hxy | ⟨rfl, rfl⟩)
    · exact h2.complete x y hxy
    · exact ⟨ri, ha2, hr2⟩
  · rw [if_neg hne]
    refine ⟨_, rfl, ?_⟩
    have hab : EqvGen (fun x y => E x y ∨ (x = a ∧ y = b)) ri rj := by
      have m := fun {x y} (h : EqvGen E x y) =>
        EqvGen.mono (p := fun x y => E x y ∨ (x = a ∧ y = b)) (fun _ _ h => Or.inl h) _ _ h
      exact .trans _ _ _ (.symm _ _ (m (h2.rep.root_conn ha2)))
        (.trans _ _ _ (.rel _ _ (.inr ⟨rfl, rfl⟩)) (m (h2.rep.root_conn hr2)))
    obtain ⟨hl, hlk⟩ := (h2.inv.mono (E' := fun x y => E x y ∨ (x = a ∧ y = b))
      (fun _ _ h => .inl h)).link (hin ha2) (hin hr2) hne hab
    refine ⟨hl, fun x => (hlk x).trans (hkeys x), ?_⟩
    unfold Duf.link
    by_cases hgt : ri > rj
    · simp only [if_pos hgt]
      exact (h2.rep.link hr2 ha2).swap.complete
    · simp only [if_neg hgt]
      exact (h2.rep.link ha2 hr2).complete

theorem DSeq.congr {s : Duf α} {D D' : α → Prop} {E E' : α → α → Prop} (h : DSeq s D E)
    (hD : ∀ x, D x ↔ D' x) (hE : ∀ x y, E x y ↔ E' x y) : DSeq s D' E' := by
  have h1 : D = D' := funext fun x => propext (hD x)
  have h2 : E = E' := funext fun x => funext fun y => propext (hE x y)
  subst h1; subst h2; exact h

theorem DSeq.run {s : Duf α} {D : α → Prop} {E : α → α → Prop} (h : DSeq s D E)
    (ops : List (DOp α)) :
    ∃ s', s.run ops = some s' ∧
      DSeq s' (fun x => D x ∨ DMentioned ops x) (fun x y => E x y ∨ DUnited ops x y) := by
  induction ops generalizing s D E with
  | nil => exact ⟨s, rfl, h.congr (by simp [DMentioned]) (by simp [DUnited])⟩
  | cons o ops ih =>
    cases o with
    | unite i j =>
      obtain ⟨s1, e1, h1⟩ := h.unite i j
      obtain ⟨s', e, h2⟩ := ih h1
      refine ⟨s', by simp only [Duf.run, Duf.step, e1]; exact e, h2.congr ?_ ?_⟩
      · intro x
        simp only [DMentioned, List.mem_cons, DOp.unite.injEq, reduceCtorEq, false_or]
        constructor
        · rintro ((rfl | rfl | h) | h | ⟨y, h | h⟩)
          · exact .inr (.inr ⟨j, .inl (.inl ⟨rfl, rfl⟩)⟩)
          · exact .inr (.inr ⟨i, .inr (.inl ⟨rfl, rfl⟩)⟩)
          · exact .inl h
          · exact .inr (.inl h)
          · exact .inr (.inr ⟨y, .inl (.inr h)⟩)
          · exact .inr (.inr ⟨y, .inr (.inr h)⟩)
        · rintro (h | h | ⟨y, (⟨rfl, rfl⟩ | h) | (⟨rfl, rfl⟩ | h)⟩)
          · exact .inl (.inr (.inr h))
          · exact .inr (.inl h)
          · exact .inl (.inl rfl)
          · exact .inr (.inr ⟨y, .inl h⟩)
          · exact .inl (.inr (.inl rfl))
          · exact .inr (.inr ⟨y, .inr h⟩)
      · intro x y; simp [DUnited]; tauto
    | find i =>
      obtain ⟨s1, r, e1, h1, _⟩ := h.find i
      obtain ⟨s', e, h2⟩ := ih h1
      refine ⟨s', by simp only [Duf.run, Duf.step, e1, Option.map_some]; exact e, h2.congr ?_ ?_⟩
      · intro x
        simp only [DMentioned, List.mem_cons, DOp.find.injEq, reduceCtorEq, false_or]
        generalize (∃ y, DOp.unite x y ∈ ops ∨ DOp.unite y x ∈ ops) = q
        tauto
      · intro x y; simp [DUnited]

theorem DSeq.reach (ops : List (DOp α)) :
    ∃ s, (Duf.init : Duf α).run ops = some s ∧ DSeq s (DMentioned ops) (DUnited ops) := by
  obtain ⟨s, e, h⟩ := (DSeq.run (D := fun _ => False) (E := fun _ _ => False)
    (s := (Duf.init : Duf α)) ⟨DInv.init, by simp [Duf.init], by simp⟩) ops
  exact ⟨s, e, h.congr (by simp) (by simp)⟩

theorem dufRootsLoop_spec {E : α → α → Prop} (root : α → α → Prop)
    (hu : ∀ x a b, root x a → root x b → a = b) (ks : List α) :
    ∀ (s : Duf α) (acc : List α), DInv s E → (∀ x ∈ ks, x ∈ s.keys) →
      (∀ x y, root x y → RootOf s.par x y) → (∀ x ∈ s.keys, ∃ y, root x y) → StrictSorted acc →
      ∃ s' out, dufRootsLoop s acc ks = some (s', out) ∧ DInv s' E ∧ StrictSorted out ∧
        (∀ x y, RootOf s.par x y → RootOf s'.par x y) ∧
        ∀ x, x ∈ out ↔ x ∈ acc ∨ (x ∈ ks ∧ root x x) := by
  induction ks with
  | nil =>
    intro s acc h _ _ _ hs
    exact ⟨s, acc, rfl, h, hs, fun _ _ h => h, by simp⟩
  | cons k ks ih =>
    intro s acc h hks hroot hex hs
    have hk := hks k (List.mem_cons_self ..)
    obtain ⟨p, hp⟩ := (h.dom k).1 hk
    obtain ⟨s1, r, e1, h1, hr1, _, _, hkeys, hroot1⟩ := h.find p
    have hpk : p ∈ s.keys := (h.dom p).2 (h.closed k p hp)
    have hkeys' : ∀ x, x ∈ s1.keys ↔ x ∈ s.keys := by
      intro x; rw [hkeys]
      constructor
      · rintro (rfl | h)
        · exact hpk
        · exact h
      · exact .inr
    obtain ⟨rk, hrk⟩ := hex k hk
    have hkr : rk = r := by
      have h2 : RootOf s.par k rk := hroot _ _ hrk
      have h3 : RootOf s.par p rk := by
        by_cases hpk' : p = k
        · subst hpk'; exact h2
        · cases h2 with
          | root h4 => rw [hp] at h4; exact absurd (Option.some.inj h4) hpk'
          | step h4 _ h5 => rw [hp] at h4; cases Option.some.inj h4; exact h5
      exact (hroot1 _ _ h3).unique hr1
    subst hkr
    obtain ⟨s', out, e, h', hs', hr', hout⟩ := ih s1 (if k = rk then setInsert k acc else acc) h1
      (fun x hx => (hkeys' x).2 (hks x (List.mem_cons_of_mem _ hx)))
      (fun x y hxy => hroot1 _ _ (hroot _ _ hxy))
      (fun x hx => hex x ((hkeys' x).1 hx)) (by split <;> [exact hs.setInsert; exact hs])
    refine ⟨s', out, ?_, h', hs', fun x y hxy => hr' _ _ (hroot1 _ _ hxy), ?_⟩
    · unfold dufRootsLoop; rw [hp]; simp only []; rw [e1]; exact e
    · intro x
      rw [hout]
      by_cases hkrk : k = rk
      · rw [if_pos hkrk, mem_setInsert, List.mem_cons]
        constructor
        · rintro ((rfl | h) | ⟨h1, h2⟩)
          · exact .inr ⟨.inl rfl, by rw [← hkrk] at hrk; exact hrk⟩
          · exact .inl h
          · exact .inr ⟨.inr h1, h2⟩
        · rintro (h | ⟨rfl | h1, h2⟩)
          · exact .inl (.inr h)
          · exact .inl (.inl rfl)
          · exact .inr ⟨h1, h2⟩
      · rw [if_neg hkrk, List.mem_cons]
        constructor
        · rintro (h | ⟨h1, h2⟩)
          · exact .inl h
          · exact .inr ⟨.inr h1, h2⟩
        · rintro (h | ⟨rfl | h1, h2⟩)
          · exact .inl h
          · exact absurd (hu _ _ _ h2 hrk) hkrk
          · exact .inr ⟨h1, h2⟩

end Verif.UF
