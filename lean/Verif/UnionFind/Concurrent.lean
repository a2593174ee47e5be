import Verif.UnionFind.Refine
/-! Invariants of concurrent `duf::unite`. -/
namespace Verif.UF
open Relation
variable {α : Type} [LinearOrder α]

/-- (specification) `a` and `b` reach the same root following parents. -/
def SameRoot (P : α → Option α) (a b : α) : Prop := ∃ r, RootOf P a r ∧ RootOf P b r

/-- What a thread uniting `(a,b)` knows at each point; `F` switches on the completeness part. -/
def PcOk (F : Prop) (d : Duf α) (E : α → α → Prop) (a b : α) : Pc α → Prop
  | .start a' b' => a' = a ∧ b' = b
  | .found1 ri b' => b' = b ∧ ri ∈ d.keys ∧ EqvGen E a ri ∧ (F → SameRoot d.par a ri)
  | .found2 ri rj => ri ∈ d.keys ∧ rj ∈ d.keys ∧ EqvGen E a ri ∧ EqvGen E b rj ∧
      (F → SameRoot d.par a ri ∧ SameRoot d.par b rj)
  | .done => F → SameRoot d.par a b

theorem PcOk.mono {F : Prop} {d d' : Duf α} {E : α → α → Prop} {a b : α} {pc : Pc α}
    (hk : ∀ x, x ∈ d.keys → x ∈ d'.keys)
    (hs : F → ∀ x y, SameRoot d.par x y → SameRoot d'.par x y)
    (h : PcOk F d E a b pc) : PcOk F d' E a b pc := by
  cases pc with
  | start a' b' => exact h
  | found1 ri b' => exact ⟨h.1, hk _ h.2.1, h.2.2.1, fun f => hs f _ _ (h.2.2.2 f)⟩
  | found2 ri rj =>
    exact ⟨hk _ h.1, hk _ h.2.1, h.2.2.1, h.2.2.2.1, fun f =>
      ⟨hs f _ _ (h.2.2.2.2 f).1, hs f _ _ (h.2.2.2.2 f).2⟩⟩
  | done => exact fun f => hs f _ _ (h f)

/-- (proof device) invariant of the concurrent machine. -/
structure CInv (F : Prop) (us : List (α × α)) (c : Conc α) : Prop where
  inv : DInv c.duf (PairsOf us)
  len : c.pcs.length = us.length
  pcs : ∀ (t : Nat) (a b : α) (pc : Pc α), us[t]? = some (a, b) → c.pcs[t]? = some pc →
    PcOk F c.duf (PairsOf us) a b pc

theorem CInv.init (F : Prop) (us : List (α × α)) : CInv F us (Conc.init us) := by
  refine ⟨DInv.init.mono (fun _ _ h => h.elim), by simp [Conc.init], ?_⟩
  intro t a b pc h1 h2
  simp only [Conc.init, List.getElem?_map, h1, Option.map_some, Option.some.injEq] at h2
  subst h2
  exact ⟨rfl, rfl⟩

/-- linking a root below a (possibly non-root) node of another tree -/
theorem link_under {P : α → Option α} {hi lo r : α} (hhi : P hi = some hi) (hlo : RootOf P lo r)
    (hne : r ≠ hi) (hne2 : lo ≠ hi) {x y : α} (h : RootOf P x y) :
    RootOf (put P hi lo) x (if y = hi then r else y) := by
  have step : ∀ {x y}, RootOf P x y → y ≠ hi → RootOf (put P hi lo) x y := by
    intro x y h
    induction h with
    | root h => intro hy; exact .root (by rw [put_ne _ _ hy]; exact h)
    | step h1 h2 _ ih =>
      rename_i a b r _
      intro hy
      have ha : a ≠ hi := by
        rintro rfl
        rw [hhi] at h1
        exact h2 (Option.some.inj h1).symm
      exact .step (by rw [put_ne _ _ ha]; exact h1) h2 (ih hy)
  induction h with
  | root h =>
    rename_i y
    by_cases hy : y = hi
    · subst hy
      rw [if_pos rfl]
      exact .step (put_same _ _ _) hne2 (step hlo hne)
    · rw [if_neg hy]
      exact .root (by rw [put_ne _ _ hy]; exact h)
  | step h1 h2 _ ih =>
    rename_i a b r' _
    have ha : a ≠ hi := by
      rintro rfl
      rw [hhi] at h1
      exact h2 (Option.some.inj h1).symm
    exact .step (by rw [put_ne _ _ ha]; exact h1) h2 ih

theorem link_same {d : Duf α} {E : α → α → Prop} (h : DInv d E) {ri rj : α}
    (hi : ri ∈ d.keys) (hj : rj ∈ d.keys) (hne : ri ≠ rj)
    (hf : d.par (max ri rj) = some (max ri rj)) :
    (∀ x y, SameRoot d.par x y → SameRoot (d.link ri rj).par x y) ∧
      SameRoot (d.link ri rj).par ri rj := by
  have hle : ∀ {x y : α}, RootOf d.par x y → y ≤ x := by
    intro x y hxy
    induction hxy with
    | root _ => exact le_refl _
    | step h1 _ _ ih => exact le_trans ih (h.le _ _ h1)
  have key : ∀ lo hi : α, lo ∈ d.keys → lo < hi → d.par hi = some hi →
      (∀ x y, SameRoot d.par x y → SameRoot (put d.par hi lo) x y) ∧
      SameRoot (put d.par hi lo) lo hi := by
    intro lo hi hlo hlt hhi
    obtain ⟨p, hp⟩ := (h.dom lo).1 hlo
    obtain ⟨r, hr⟩ := h.wf.exists_root hp
    have hrne : r ≠ hi := ne_of_lt (lt_of_le_of_lt (hle hr) hlt)
    have hl := fun {x y : α} (hx : RootOf d.par x y) => link_under hhi hr hrne (ne_of_lt hlt) hx
    refine ⟨?_, ?_⟩
    · rintro x y ⟨r', h1, h2⟩
      exact ⟨_, hl h1, hl h2⟩
    · have h1 := hl hr
      rw [if_neg hrne] at h1
      have h2 := hl (.root hhi)
      rw [if_pos rfl] at h2
      exact ⟨r, h1, h2⟩
  unfold Duf.link
  by_cases hgt : ri > rj
  · simp only [if_pos hgt]
    rw [max_eq_left (le_of_lt hgt)] at hf
    obtain ⟨h1, r, h2, h3⟩ := key rj ri hj hgt hf
    exact ⟨h1, r, h3, h2⟩
  · have hlt : ri < rj := lt_of_le_of_ne (not_lt.1 hgt) hne
    simp only [if_neg hgt]
    rw [max_eq_right (le_of_lt hlt)] at hf
    exact key ri rj hi hlt hf

theorem getElem?_set_pc {l : List (Pc α)} {t u : Nat} {v pc : Pc α} (h : (l.set t v)[u]? = some pc) :
    (t = u ∧ pc = v) ∨ (t ≠ u ∧ l[u]? = some pc) := by
  rw [List.getElem?_set] at h
  by_cases htu : t = u
  · rw [if_pos htu] at h
    split at h
    · exact .inl ⟨htu, (Option.some.inj h).symm⟩
    · cases h
  · rw [if_neg htu] at h
    exact .inr ⟨htu, h⟩

theorem CInv.step {F : Prop} {us : List (α × α)} {c : Conc α} (h : CInv F us c) (t : Nat)
    (hf : F → FreshWrite c t) : ∃ c', c.step t = some c' ∧ CInv F us c' := by
  unfold Conc.step
  cases hpc : c.pcs[t]? with
  | none => exact ⟨c, rfl, h⟩
  | some pc =>
    have ht : t < us.length := by
      rw [← h.len]
      by_contra hn
      rw [List.getElem?_eq_none (not_lt.1 hn)] at hpc
      cases hpc
    obtain ⟨⟨a, b⟩, hus⟩ : ∃ p, us[t]? = some p := ⟨_, List.getElem?_eq_getElem ht⟩
    have hab : PairsOf us a b := List.mem_of_getElem? hus
    have hok := h.pcs t a b pc hus hpc
    -- shared step for a `find`
    have afterFind : ∀ (x : α) (d : Duf α) (r : α) (npc : Pc α),
        c.duf.find x = some (d, r) → DInv d (PairsOf us) → (∀ y, y ∈ d.keys ↔ y = x ∨ y ∈ c.duf.keys) →
        (∀ x y, RootOf c.duf.par x y → RootOf d.par x y) → PcOk F d (PairsOf us) a b npc →
        CInv F us { duf := d, pcs := c.pcs.set t npc } := by
      intro x d r npc _ hd hk hr hnpc
      refine ⟨hd, by simp [h.len], ?_⟩
      intro u a' b' pc' hu hpc'
      rcases getElem?_set_pc hpc' with ⟨rfl, rfl⟩ | ⟨_, hpc'⟩
      · rw [hus] at hu
        cases Option.some.inj hu
        exact hnpc
      · refine (h.pcs u a' b' pc' hu hpc').mono (fun y hy => (hk y).2 (.inr hy)) ?_
        rintro _ x y ⟨r, h1, h2⟩
        exact ⟨r, hr _ _ h1, hr _ _ h2⟩
    cases pc with
    | done => exact ⟨c, rfl, h⟩
    | start a' b' =>
      obtain ⟨rfl, rfl⟩ := hok
      obtain ⟨d, r, e, hd, hr, hle, hE, hk, hroot⟩ := h.inv.find a'
      refine ⟨_, by simp only []; rw [e], afterFind _ _ _ _ e hd hk hroot ?_⟩
      refine ⟨rfl, (hd.dom r).2 ⟨_, hr.isRoot⟩, hE, fun _ => ⟨r, hr, .root hr.isRoot⟩⟩
    | found1 ri b' =>
      obtain ⟨rfl, hri, hEri, hsr⟩ := hok
      obtain ⟨d, r, e, hd, hr, hle, hE, hk, hroot⟩ := h.inv.find b'
      refine ⟨_, by simp only []; rw [e], afterFind _ _ _ _ e hd hk hroot ?_⟩
      refine ⟨(hk _).2 (.inr hri), (hd.dom r).2 ⟨_, hr.isRoot⟩, hEri, hE, fun f => ⟨?_, ?_⟩⟩
      · obtain ⟨q, h1, h2⟩ := hsr f
        exact ⟨q, hroot _ _ h1, hroot _ _ h2⟩
      · exact ⟨r, hr, .root hr.isRoot⟩
    | found2 ri rj =>
      obtain ⟨hi, hj, hEi, hEj, hs⟩ := hok
      refine ⟨_, rfl, ?_⟩
      by_cases hne : ri = rj
      · subst hne
        simp only [if_true]
        refine ⟨h.inv, by simp [h.len], ?_⟩
        intro u a' b' pc' hu hpc'
        rcases getElem?_set_pc hpc' with ⟨rfl, rfl⟩ | ⟨_, hpc'⟩
        · rw [hus] at hu
          cases Option.some.inj hu
          intro f
          obtain ⟨⟨q, h1, h2⟩, ⟨q', h3, h4⟩⟩ := hs f
          cases h2.unique h4
          exact ⟨q, h1, h3⟩
        · exact h.pcs u a' b' pc' hu hpc'
      · simp only [if_neg hne]
        have hEij : EqvGen (PairsOf us) ri rj :=
          .trans _ _ _ (.symm _ _ hEi) (.trans _ _ _ (.rel _ _ hab) hEj)
        obtain ⟨hd, hk⟩ := h.inv.link hi hj hne hEij
        have hsame : F → ∀ x y, SameRoot c.duf.par x y → SameRoot (c.duf.link ri rj).par x y :=
          fun f => (link_same h.inv hi hj hne (hf f ri rj hpc hne)).1
        refine ⟨hd, by simp [h.len], ?_⟩
        intro u a' b' pc' hu hpc'
        rcases getElem?_set_pc hpc' with ⟨rfl, rfl⟩ | ⟨_, hpc'⟩
        · rw [hus] at hu
          cases Option.some.inj hu
          intro f
          have h0 := (link_same h.inv hi hj hne (hf f ri rj hpc hne)).2
          obtain ⟨h1, h2⟩ := hs f
          obtain ⟨q, h1, h2, h3⟩ : ∃ q, RootOf _ a q ∧ RootOf _ ri q ∧ True := by
            obtain ⟨q, x, y⟩ := hsame f _ _ h1; exact ⟨q, x, y, trivial⟩
          obtain ⟨q', h4, h5⟩ := hsame f _ _ (hs f).2
          obtain ⟨q'', h6, h7⟩ := h0
          cases h2.unique h6
          cases h5.unique h7
          exact ⟨_, h1, h4⟩
        · exact (h.pcs u a' b' pc' hu hpc').mono (fun y hy => (hk y).2 hy) hsame

theorem CInv.run {F : Prop} {us : List (α × α)} (ts : List Nat) :
    ∀ {c : Conc α}, CInv F us c → (F → FreshRun c ts) → ∃ c', c.run ts = some c' ∧ CInv F us c' := by
  induction ts with
  | nil => intro c h _; exact ⟨c, rfl, h⟩
  | cons t ts ih =>
    intro c h hf
    obtain ⟨c', e, h'⟩ := h.step t (fun f => (hf f).1)
    obtain ⟨c'', e', h''⟩ := ih h' (fun f => (hf f).2 c' e)
    exact ⟨c'', by simp only [Conc.run, e]; exact e', h''⟩

end Verif.UF
