import Verif.Lattice.Lemmas
namespace Verif.Lat

/-! cutting along one dimension -/

/-- (proof device) replace the extent of dimension `d` by start `a`, size `z`. -/
def setDim (l : Lattice) (d a z : Nat) : Lattice :=
  { starts := l.starts.set d a, sizes := l.sizes.set d z }

/-- (proof device) `x` is inside `l` in every dimension except possibly `d`. -/
def Others (l : Lattice) (d : Nat) (x : List Int) : Prop :=
  x.length = l.sizes.length ∧ ∀ (d' : Nat) (s n : Nat) (v : Int), d' ≠ d → l.starts[d']? = some s →
    l.sizes[d']? = some n → x[d']? = some v → (s : Int) ≤ v ∧ v < s + n

theorem inBox_setDim {l : Lattice} {d : Nat} (hs : d < l.starts.length) (hn : d < l.sizes.length)
    (a z : Nat) (x : List Int) : InBox (setDim l d a z) x ↔
      Others l d x ∧ ∀ v, x[d]? = some v → (a : Int) ≤ v ∧ v < a + z := by
  unfold InBox Others setDim
  simp only [List.length_set]
  constructor
  · rintro ⟨h1, h2⟩
    refine ⟨⟨h1, fun d' s n v hne h3 h4 h5 => ?_⟩, fun v hv => ?_⟩
    · exact h2 d' s n v (by rw [List.getElem?_set_ne (Ne.symm hne)]; exact h3)
        (by rw [List.getElem?_set_ne (Ne.symm hne)]; exact h4) h5
    · exact h2 d a z v (List.getElem?_set_self hs) (List.getElem?_set_self hn) hv
  · rintro ⟨⟨h1, h2⟩, h3⟩
    refine ⟨h1, fun d' s n v e1 e2 e3 => ?_⟩
    by_cases hd : d' = d
    · subst hd
      rw [List.getElem?_set_self hs] at e1
      rw [List.getElem?_set_self hn] at e2
      cases e1; cases e2
      exact h3 v e3
    · rw [List.getElem?_set_ne (Ne.symm hd)] at e1 e2
      exact h2 d' s n v hd e1 e2 e3

theorem setDim_self {l : Lattice} {d s n : Nat} (hs : l.starts[d]? = some s)
    (hn : l.sizes[d]? = some n) : setDim l d s n = l := by
  have e1 : l.starts.set d s = l.starts := by
    apply List.ext_getElem?
    intro i
    by_cases h : d = i
    · subst h
      rw [hs, List.getElem?_set_self]
      exact (List.getElem?_eq_some_iff.1 hs).1
    · rw [List.getElem?_set_ne h]
  have e2 : l.sizes.set d n = l.sizes := by
    apply List.ext_getElem?
    intro i
    by_cases h : d = i
    · subst h
      rw [hn, List.getElem?_set_self]
      exact (List.getElem?_eq_some_iff.1 hn).1
    · rw [List.getElem?_set_ne h]
  unfold setDim
  rw [e1, e2]

/-- one-dimensional slices tile the interval -/
structure Tiles1 (s sz : Nat) (ps : List (Nat × Nat)) : Prop where
  pos : ∀ p ∈ ps, 0 < p.2
  iff : ∀ v : Int, ((s : Int) ≤ v ∧ v < s + sz) ↔ ∃ p ∈ ps, (p.1 : Int) ≤ v ∧ v < p.1 + p.2
  disj : ps.Pairwise (fun p q => p.1 + p.2 ≤ q.1)

theorem slicesGo_spec (sz ns nslice : Nat) (hns : 0 < ns) (hle : ns * nslice ≤ sz) :
    ∀ (k s : Nat), k + 1 ≤ nslice →
      let ps := slicesGo sz ns nslice k s
      Tiles1 s (ns * k + (sz - ns * (nslice - 1))) ps ∧ (∀ p ∈ ps, s ≤ p.1) ∧ ps.length = k + 1 := by
  have hlast : 0 < sz - ns * (nslice - 1) ∨ nslice = 0 := by
    rcases Nat.eq_zero_or_pos nslice with h | h
    · exact Or.inr h
    · left
      obtain ⟨m, rfl⟩ : ∃ m, nslice = m + 1 := ⟨nslice - 1, by omega⟩
      have : ns * (m + 1) = ns * m + ns := by ring
      simp only [Nat.add_sub_cancel]
      omega
  intro k
  induction k with
  | zero =>
    intro s hk
    simp only [slicesGo]
    refine ⟨⟨?_, ?_, ?_⟩, ?_, ?_⟩
    · intro p hp; simp at hp; subst hp; simp; omega
    · intro v; simp
    · simp
    · intro p hp; simp at hp; subst hp; simp
    · simp
  | succ k ih =>
    intro s hk
    obtain ⟨⟨h1, h2, h3⟩, h4, h5⟩ := ih (s + ns) (by omega)
    simp only [slicesGo]
    refine ⟨⟨?_, ?_, ?_⟩, ?_, ?_⟩
    · intro p hp
      rcases List.mem_cons.1 hp with rfl | hp
      · exact hns
      · exact h1 p hp
    · intro v
      simp only [List.mem_cons, exists_eq_or_imp]
      rw [← h2 v]
      have : ns * (k + 1) = ns * k + ns := by ring
      rw [this]
      push_cast
      constructor
      · intro h
        by_cases hv : v < s + ns
        · left; omega
        · right; omega
      · have h0 : (0 : Int) ≤ (ns : Int) * k := by positivity
        rintro (h | h) <;> omega
    · rw [List.pairwise_cons]
      exact ⟨fun q hq => h4 q hq, h3⟩
    · intro p hp
      rcases List.mem_cons.1 hp with rfl | hp
      · exact le_refl _
      · have := h4 p hp; omega
    · simp [h5]

theorem slices_spec {s sz nslice : Nat} (h : 0 < nslice) (hle : nslice ≤ sz) :
    Tiles1 s sz (slices s sz nslice) ∧ (slices s sz nslice).length = nslice := by
  unfold slices
  have hns : 0 < sz / nslice := Nat.div_pos hle h
  have hm : sz / nslice * nslice ≤ sz := Nat.div_mul_le_self sz nslice
  obtain ⟨h1, h2, h3⟩ := slicesGo_spec sz (sz / nslice) nslice hns hm (nslice - 1) s (by omega)
  have hm2 : sz / nslice * (nslice - 1) ≤ sz :=
    le_trans (Nat.mul_le_mul_left _ (Nat.sub_le _ _)) hm
  rw [Nat.add_sub_of_le hm2] at h1
  exact ⟨h1, by omega⟩

theorem cutBlock_tiles {curr nslice : Nat} {p : Lattice} {qs : List Lattice} (h : 0 < nslice)
    (hp : p.Pos) (e : cutBlock curr nslice p = some (some qs)) :
    Tiles p qs ∧ qs.length = nslice := by
  unfold cutBlock at e
  split at e
  next s sz es ez =>
    split at e
    · cases e
    next hge =>
      have hd1 := (List.getElem?_eq_some_iff.1 es).1
      have hd2 := (List.getElem?_eq_some_iff.1 ez).1
      simp only [Option.some.injEq] at e
      obtain ⟨ht, hl⟩ := slices_spec (s := s) h (Nat.le_of_not_lt hge)
      change (slices s sz nslice).map (fun ab => setDim p curr ab.1 ab.2) = qs at e
      subst e
      refine ⟨⟨?_, ?_, ?_, ?_, ?_⟩, by simp [hl]⟩
      · intro c hc
        obtain ⟨ab, _, rfl⟩ := List.mem_map.1 hc
        simp [setDim]
      · intro c hc
        obtain ⟨ab, hab, rfl⟩ := List.mem_map.1 hc
        intro z hz
        rcases List.mem_or_eq_of_mem_set hz with hz | rfl
        · exact hp z hz
        · exact ht.pos ab hab
      · intro c hc x hx
        obtain ⟨ab, hab, rfl⟩ := List.mem_map.1 hc
        rw [inBox_setDim hd1 hd2] at hx
        rw [← setDim_self es ez, inBox_setDim hd1 hd2]
        exact ⟨hx.1, fun v hv => (ht.iff v).2 ⟨ab, hab, hx.2 v hv⟩⟩
      · intro x hx
        rw [← setDim_self es ez, inBox_setDim hd1 hd2] at hx
        have hlx : curr < x.length := by rw [hx.1.1]; exact hd2
        obtain ⟨ab, hab, h3⟩ := (ht.iff x[curr]).1 (hx.2 _ (List.getElem?_eq_getElem hlx))
        refine ⟨_, List.mem_map.2 ⟨ab, hab, rfl⟩, ?_⟩
        rw [inBox_setDim hd1 hd2]
        refine ⟨hx.1, fun v hv => ?_⟩
        rw [List.getElem?_eq_getElem hlx] at hv
        cases hv; exact h3
      · rw [List.pairwise_map]
        refine ht.disj.imp ?_
        intro a b hab x hx hx'
        rw [inBox_setDim hd1 hd2] at hx hx'
        have hlx : curr < x.length := by rw [hx.1.1]; exact hd2
        have h1 := hx.2 _ (List.getElem?_eq_getElem hlx)
        have h2 := hx'.2 _ (List.getElem?_eq_getElem hlx)
        omega
  · cases e

/-- tilings compose -/
theorem Tiles.append_cons {l p : Lattice} {pre ps qs : List Lattice} (h : Tiles l (pre ++ p :: ps))
    (hq : Tiles p qs) : Tiles l (pre ++ (qs ++ ps)) := by
  have hpm : p ∈ pre ++ p :: ps := by simp
  have hsub : ∀ c ∈ pre ++ (qs ++ ps), c ∈ qs ∨ c ∈ pre ++ p :: ps := by
    intro c hc
    simp only [List.mem_append, List.mem_cons] at hc ⊢
    tauto
  refine ⟨?_, ?_, ?_, ?_, ?_⟩
  · intro c hc
    rcases hsub c hc with hc | hc
    · have := hq.wf c hc
      have := h.wf p hpm
      omega
    · exact h.wf c hc
  · intro c hc
    rcases hsub c hc with hc | hc
    · exact hq.pos c hc
    · exact h.pos c hc
  · intro c hc x hx
    rcases hsub c hc with hc | hc
    · exact h.inside p hpm x (hq.inside c hc x hx)
    · exact h.inside c hc x hx
  · intro x hx
    obtain ⟨c, hc, hcx⟩ := h.cover x hx
    simp only [List.mem_append, List.mem_cons] at hc ⊢
    rcases hc with hc | rfl | hc
    · exact ⟨c, Or.inl hc, hcx⟩
    · obtain ⟨c', hc', hcx'⟩ := hq.cover x hcx
      exact ⟨c', Or.inr (Or.inl hc'), hcx'⟩
    · exact ⟨c, Or.inr (Or.inr hc), hcx⟩
  · have h0 := h.disjoint
    simp only [List.pairwise_append, List.pairwise_cons] at h0 ⊢
    obtain ⟨a1, ⟨a2, a3⟩, a4⟩ := h0
    refine ⟨a1, ⟨hq.disjoint, a3, ?_⟩, ?_⟩
    · intro a ha b hb x hx
      exact a2 b hb x (hq.inside a ha x hx)
    · intro a ha b hb x hx hx'
      rcases List.mem_append.1 hb with hb | hb
      · exact a4 a ha p (by simp) x hx (hq.inside b hb x hx')
      · exact a4 a ha b (by simp [hb]) x hx hx'

theorem cutRound_tiles {l : Lattice} {curr nslice : Nat} (h : 0 < nslice) :
    ∀ (q : List Lattice) (pre q' : List Lattice), Tiles l (pre ++ q) →
      cutRound curr nslice q = some (some q') →
      Tiles l (pre ++ q') ∧ q'.length = q.length * nslice := by
  intro q
  induction q with
  | nil =>
    intro pre q' ht e
    simp only [cutRound, Option.some.injEq] at e
    subst e
    exact ⟨ht, by simp⟩
  | cons p ps ih =>
    intro pre q' ht e
    unfold cutRound at e
    split at e
    · cases e
    · cases e
    next qs e1 =>
      split at e
      · cases e
      · cases e
      next rs e2 =>
        simp only [Option.some.injEq] at e
        subst e
        obtain ⟨t1, l1⟩ := cutBlock_tiles h (ht.pos p (by simp)) e1
        have t2 := ht.append_cons t1
        rw [← List.append_assoc] at t2
        obtain ⟨t3, l3⟩ := ih (pre ++ qs) rs t2 e2
        rw [List.append_assoc] at t3
        refine ⟨t3, ?_⟩
        rw [List.length_append, l1, l3, List.length_cons]
        ring

theorem cutDim_tiles {l : Lattice} {curr : Nat} : ∀ (fs : List Nat) (q q' : List Lattice),
    (∀ f ∈ fs, 0 < f) → Tiles l q → cutDim curr fs q = some (some q') →
    Tiles l q' ∧ q'.length = q.length * fs.prod := by
  intro fs
  induction fs with
  | nil =>
    intro q q' _ ht e
    simp only [cutDim, Option.some.injEq] at e
    subst e
    exact ⟨ht, by simp⟩
  | cons f fs ih =>
    intro q q' hf ht e
    unfold cutDim at e
    split at e
    · cases e
    · cases e
    next q1 e1 =>
      obtain ⟨t1, l1⟩ := cutRound_tiles (hf f (by simp)) q [] q1 ht e1
      obtain ⟨t2, l2⟩ := ih q1 q' (fun g hg => hf g (by simp [hg])) t1 e
      refine ⟨t2, ?_⟩
      rw [l2, l1, List.prod_cons]; ring

theorem cutDims_tiles {l : Lattice} : ∀ (dims : List (List Nat)) (curr : Nat) (q q' : List Lattice),
    (∀ fs ∈ dims, ∀ f ∈ fs, 0 < f) → Tiles l q → cutDims curr dims q = some (some q') →
    Tiles l q' ∧ q'.length = q.length * (dims.map List.prod).prod := by
  intro dims
  induction dims with
  | nil =>
    intro curr q q' _ ht e
    simp only [cutDims, Option.some.injEq] at e
    subst e
    exact ⟨ht, by simp⟩
  | cons fs rest ih =>
    intro curr q q' hf ht e
    unfold cutDims at e
    split at e
    · cases e
    · cases e
    next q1 e1 =>
      obtain ⟨t1, l1⟩ := cutDim_tiles fs q q1 (hf fs (by simp)) ht e1
      obtain ⟨t2, l2⟩ := ih (curr + 1) q1 q' (fun g hg => hf g (by simp [hg])) t1 e
      refine ⟨t2, ?_⟩
      rw [l2, l1, List.map_cons, List.prod_cons]; ring

theorem tiles_self {l : Lattice} (hp : l.Pos) : Tiles l [l] :=
  ⟨by simp, by simpa using hp, by simp, fun x hx => ⟨l, by simp, hx⟩, by simp⟩

/-! the factors -/

theorem prod_pos' {fs : List Nat} (h : ∀ f ∈ fs, 0 < f) : 0 < fs.prod := by
  induction fs with
  | nil => simp
  | cons a as ih =>
    rw [List.prod_cons]
    exact Nat.mul_pos (h a (by simp)) (ih (fun f hf => h f (by simp [hf])))

/-- (proof device) total number of pieces of a list of per-dimension slice counts. -/
def tot (dims : List (List Nat)) : Nat := (dims.map List.prod).prod

theorem prod_map_set (dims : List (List Nat)) (i : Nat) (fs gs : List Nat)
    (h : dims[i]? = some gs) : tot (dims.set i fs) * gs.prod = tot dims * fs.prod := by
  induction dims generalizing i with
  | nil => simp at h
  | cons a as ih =>
    cases i with
    | zero =>
      simp at h; subst h
      simp [tot]; ring
    | succ i =>
      have := ih i (by simpa using h)
      simp only [tot, List.set_cons_succ, List.map_cons, List.prod_cons] at this ⊢
      calc _ = a.prod * ((List.map List.prod (as.set i fs)).prod * gs.prod) := by ring
        _ = _ := by rw [this]; ring

theorem givenLoop_spec : ∀ (g : List Nat) (np : Nat) (hz : Bool) (np' : Nat) (hz' : Bool), 0 < np →
    givenLoop g np hz = some (np', hz') → 0 < np' ∧
      np = np' * (g.filter (· > 1)).prod ∧ (hz' = true ↔ hz = true ∨ 0 ∈ g) := by
  intro g
  induction g with
  | nil =>
    intro np hz np' hz' h e
    simp only [givenLoop, Option.some.injEq, Prod.mk.injEq] at e
    obtain ⟨rfl, rfl⟩ := e
    simp [h]
  | cons a as ih =>
    intro np hz np' hz' h e
    unfold givenLoop at e
    split at e
    next ha =>
      split at e
      · cases e
      next hm =>
        have hdvd : a ∣ np := Nat.dvd_of_mod_eq_zero (by simpa using hm)
        have hpos : 0 < np / a := Nat.div_pos (Nat.le_of_dvd h hdvd) (by omega)
        obtain ⟨h1, h2, h3⟩ := ih (np / a) hz np' hz' hpos e
        refine ⟨h1, ?_, by rw [h3]; simp [Ne.symm ha]⟩
        have h4 : np = np / a * a := (Nat.div_mul_cancel hdvd).symm
        by_cases h1a : a > 1
        · rw [List.filter_cons_of_pos (by simpa using h1a), List.prod_cons, h4, h2]; ring
        · rw [List.filter_cons_of_neg (by simpa using h1a)]
          have : a = 1 := by omega
          subst this
          simpa using h2
    next ha =>
      have : a = 0 := by simpa using ha
      subst this
      obtain ⟨h1, h2, h3⟩ := ih np true np' hz' h e
      refine ⟨h1, by simpa using h2, by rw [h3]; simp⟩

theorem givenFactors_spec : ∀ (g : List Nat) (i : Nat) (dims dims' : List (List Nat)),
    (∀ (j : Nat) (fs : List Nat), i ≤ j → dims[j]? = some fs → fs = []) →
    (∀ fs ∈ dims, ∀ f ∈ fs, 0 < f) →
    givenFactors g i dims = some dims' →
    tot dims' = tot dims * (g.filter (· > 1)).prod ∧ (∀ fs ∈ dims', ∀ f ∈ fs, 0 < f) ∧
      dims'.length = dims.length := by
  intro g
  induction g with
  | nil =>
    intro i dims dims' h0 hp e
    simp only [givenFactors, Option.some.injEq] at e
    subst e
    simp; exact hp
  | cons a as ih =>
    intro i dims dims' h0 hp e
    unfold givenFactors at e
    split at e
    next ha =>
      obtain ⟨fs, e1, e2, e3, _⟩ := primeFactorization_spec (n := a) (by omega)
      rw [e1] at e
      simp only [] at e
      split at e
      next hi =>
        have hgi : dims[i]? = some dims[i] := List.getElem?_eq_getElem hi
        have hnil := h0 i _ (le_refl _) hgi
        obtain ⟨h1, h2, h3⟩ := ih (i + 1) (dims.set i fs) dims' (by
          intro j gs hj hgs
          rw [List.getElem?_set_ne (by omega)] at hgs
          exact h0 j gs (by omega) hgs) (by
          intro gs hgs f hf
          rcases List.mem_or_eq_of_mem_set hgs with hgs | rfl
          · exact hp gs hgs f hf
          · exact (e3 f hf).pos) e
        refine ⟨?_, h2, by simpa using h3⟩
        have hset := prod_map_set dims i fs _ hgi
        rw [hnil, List.prod_nil, Nat.mul_one, e2] at hset
        rw [h1, hset, List.filter_cons_of_pos (by simpa using ha), List.prod_cons]; ring
      · cases e
    next ha =>
      obtain ⟨h1, h2, h3⟩ := ih (i + 1) dims dims' (fun j gs hj => h0 j gs (by omega)) hp e
      refine ⟨?_, h2, h3⟩
      rw [h1, List.filter_cons_of_neg (by simpa using ha)]

theorem distribute_spec (given : List Nat) (ndim : Nat) : ∀ (ps : List Nat) (curr : Nat)
    (dims dims' : List (List Nat)), (∀ p ∈ ps, 0 < p) → (∀ fs ∈ dims, ∀ f ∈ fs, 0 < f) →
    distribute given ndim ps curr dims = some dims' →
    tot dims' = tot dims * ps.prod ∧ (∀ fs ∈ dims', ∀ f ∈ fs, 0 < f) ∧
      dims'.length = dims.length := by
  intro ps
  induction ps with
  | nil =>
    intro curr dims dims' _ hp e
    simp only [distribute, Option.some.injEq] at e
    subst e
    simp; exact hp
  | cons p ps ih =>
    intro curr dims dims' hps hp e
    unfold distribute at e
    split at e
    · cases e
    next c _ =>
      split at e
      · cases e
      next fs hfs =>
        obtain ⟨h1, h2, h3⟩ := ih _ _ dims' (fun q hq => hps q (by simp [hq])) (by
          intro gs hgs f hf
          rcases List.mem_or_eq_of_mem_set hgs with hgs | rfl
          · exact hp gs hgs f hf
          · rcases List.mem_append.1 hf with hf | hf
            · exact hp fs (List.mem_of_getElem? hfs) f hf
            · rw [List.mem_singleton.1 hf]; exact hps p (by simp)) e
        refine ⟨?_, h2, by simpa using h3⟩
        have hset := prod_map_set dims c (fs ++ [p]) fs hfs
        rw [List.prod_append, List.prod_singleton] at hset
        have hfp : 0 < fs.prod := by
          exact prod_pos' (hp fs (List.mem_of_getElem? hfs))
        have : tot (dims.set c (fs ++ [p])) = tot dims * p := by
          apply Nat.eq_of_mul_eq_mul_right hfp
          rw [hset]; ring
        rw [h1, this, List.prod_cons]; ring

theorem tot_replicate (n : Nat) : tot (List.replicate n []) = 1 := by
  simp [tot]

theorem factorDims_spec {ndim np : Nat} {given : List Nat} {dims : List (List Nat)} (hnp : 0 < np)
    (e : factorDims ndim np given = some (some dims)) :
    tot dims = np ∧ (∀ fs ∈ dims, ∀ f ∈ fs, 0 < f) ∧ dims.length = ndim := by
  have key : ∀ (np' : Nat) (d0 : List (List Nat)), 0 < np' → tot d0 * np' = np →
      (∀ fs ∈ d0, ∀ f ∈ fs, 0 < f) → d0.length = ndim →
      (if np' > 1 then
        match primeFactorization np' with
        | none => none
        | some ps =>
          match distribute given ndim ps 0 d0 with
          | none => none
          | some dims' => some (some dims')
      else some (some d0)) = some (some dims) →
      tot dims = np ∧ (∀ fs ∈ dims, ∀ f ∈ fs, 0 < f) ∧ dims.length = ndim := by
    intro np' d0 hp ht h0 hl e
    split at e
    next h1 =>
      obtain ⟨ps, e1, e2, e3, _⟩ := primeFactorization_spec hp
      rw [e1] at e
      simp only [] at e
      split at e
      · cases e
      next dims' e4 =>
        simp only [Option.some.injEq] at e
        subst e
        obtain ⟨a, b, c⟩ := distribute_spec given ndim ps 0 d0 dims' (fun p hp => (e3 p hp).pos) h0 e4
        exact ⟨by rw [a, e2, ht], b, by omega⟩
    next h1 =>
      simp only [Option.some.injEq] at e
      subst e
      have : np' = 1 := by omega
      subst this
      exact ⟨by simpa using ht, h0, hl⟩
  have hrep : ∀ fs ∈ List.replicate ndim ([] : List Nat), ∀ f ∈ fs, 0 < f := by
    intro fs hfs
    rw [List.eq_of_mem_replicate hfs]; simp
  unfold factorDims at e
  simp only [] at e
  by_cases hz : isVectorZero given = true
  · rw [if_pos hz] at e
    exact key np _ hnp (by rw [tot_replicate, one_mul]) hrep (by simp) e
  · rw [if_neg hz] at e
    cases h1 : givenLoop given np false with
    | none => rw [h1] at e; simp at e
    | some r =>
      obtain ⟨np', hz'⟩ := r
      rw [h1] at e
      simp only [] at e
      by_cases h2 : (!hz' && decide (np' > 1)) = true
      · rw [if_pos h2] at e; simp at e
      · rw [if_neg h2] at e
        cases h3 : givenFactors given 0 (List.replicate ndim []) with
        | none => rw [h3] at e; simp at e
        | some d0 =>
          rw [h3] at e
          obtain ⟨a1, a2, _⟩ := givenLoop_spec given np false np' hz' hnp h1
          obtain ⟨b1, b2, b3⟩ := givenFactors_spec given 0 _ d0 (by
            intro j fs _ hfs
            exact List.eq_of_mem_replicate (List.mem_of_getElem? hfs)) hrep h3
          refine key np' d0 a1 ?_ b2 (by simpa using b3) e
          rw [b1, tot_replicate, one_mul, a2]; ring

theorem partitionCores_tiles {l : Lattice} {np : Nat} {given : List Nat} {cores : List Lattice}
    (hp : l.Pos) (e : partitionCores l np given = some cores) (hne : cores ≠ []) :
    Tiles l cores ∧ cores.length = np := by
  unfold partitionCores at e
  split at e
  · simp at e; exact absurd e (by first | exact hne | exact Ne.symm hne)
  next hnp =>
    split at e
    · cases e
    · simp at e; exact absurd e (by first | exact hne | exact Ne.symm hne)
    next dims e1 =>
      obtain ⟨h1, h2, _⟩ := factorDims_spec (by omega) e1
      unfold partitionPrimes at e
      split at e
      · cases e
      · simp at e; exact absurd e (by first | exact hne | exact Ne.symm hne)
      next q e2 =>
        simp only [Option.some.injEq] at e
        subst e
        obtain ⟨t, hl⟩ := cutDims_tiles dims 0 [l] q h2 (tiles_self hp) e2
        refine ⟨t, ?_⟩
        rw [hl]
        change _ * tot dims = np
        rw [h1]; simp

end Verif.Lat
