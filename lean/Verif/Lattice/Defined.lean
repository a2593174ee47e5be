import Verif.Lattice.Cut
namespace Verif.Lat

/-! when the partition is defined and when it succeeds -/

/-- (specification) the lattice has `nd` starts and `nd` sizes. -/
def Shape (nd : Nat) (c : Lattice) : Prop := c.starts.length = nd ∧ c.sizes.length = nd

theorem slices_ge {s sz f m : Nat} (hf : 0 < f) (h : m * f ≤ sz) : ∀ p ∈ slices s sz f, m ≤ p.2 := by
  have hm : m ≤ sz / f := (Nat.le_div_iff_mul_le hf).2 h
  have hm2 : sz / f * f ≤ sz := Nat.div_mul_le_self sz f
  unfold slices
  generalize sz / f = ns at hm hm2
  have : ∀ k s, ∀ p ∈ slicesGo sz ns f k s, m ≤ p.2 := by
    intro k
    induction k with
    | zero =>
      intro s p hp
      simp [slicesGo] at hp
      subst hp
      simp only
      obtain ⟨j, rfl⟩ : ∃ j, f = j + 1 := ⟨f - 1, by omega⟩
      have : ns * (j + 1) = ns * j + ns := by ring
      simp only [Nat.add_sub_cancel]
      omega
    | succ k ih =>
      intro s p hp
      simp only [slicesGo, List.mem_cons] at hp
      rcases hp with rfl | hp
      · exact hm
      · exact ih _ p hp
  exact this _ _

/-- a round never reads out of bounds -/
theorem cutRound_def {curr f nd : Nat} (hc : curr < nd) : ∀ (q : List Lattice),
    (∀ c ∈ q, Shape nd c) → cutRound curr f q = some none ∨
      ∃ q', cutRound curr f q = some (some q') ∧ ∀ c ∈ q', Shape nd c := by
  intro q
  induction q with
  | nil => intro _; exact Or.inr ⟨[], rfl, by simp⟩
  | cons p ps ih =>
    intro h
    obtain ⟨h1, h2⟩ := h p (by simp)
    have e1 : p.starts[curr]? = some p.starts[curr] := List.getElem?_eq_getElem (by omega)
    have e2 : p.sizes[curr]? = some p.sizes[curr] := List.getElem?_eq_getElem (by omega)
    unfold cutRound cutBlock
    rw [e1, e2]
    simp only
    split
    next heq =>
      split at heq <;> cases heq
    · exact Or.inl rfl
    next qs heq =>
      split at heq
      · cases heq
      · simp only [Option.some.injEq] at heq
        rcases ih (fun c hc => h c (by simp [hc])) with e | ⟨q', e, hq'⟩
        · rw [e]; exact Or.inl rfl
        · rw [e]
          refine Or.inr ⟨_, rfl, ?_⟩
          intro c hc
          rcases List.mem_append.1 hc with hc | hc
          · rw [← heq] at hc
            obtain ⟨ab, _, rfl⟩ := List.mem_map.1 hc
            exact ⟨by simp [h1], by simp [h2]⟩
          · exact hq' c hc

theorem cutDim_def {curr nd : Nat} (hc : curr < nd) : ∀ (fs : List Nat) (q : List Lattice),
    (∀ c ∈ q, Shape nd c) → cutDim curr fs q = some none ∨
      ∃ q', cutDim curr fs q = some (some q') ∧ ∀ c ∈ q', Shape nd c := by
  intro fs
  induction fs with
  | nil => intro q h; exact Or.inr ⟨q, rfl, h⟩
  | cons f fs ih =>
    intro q h
    unfold cutDim
    rcases cutRound_def hc q h with e | ⟨q', e, hq'⟩
    · rw [e]; exact Or.inl rfl
    · rw [e]; exact ih q' hq'

theorem cutDims_def {nd : Nat} : ∀ (dims : List (List Nat)) (curr : Nat) (q : List Lattice),
    curr + dims.length ≤ nd → (∀ c ∈ q, Shape nd c) → cutDims curr dims q = some none ∨
      ∃ q', cutDims curr dims q = some (some q') := by
  intro dims
  induction dims with
  | nil => intro curr q _ _; exact Or.inr ⟨q, rfl⟩
  | cons fs rest ih =>
    intro curr q hl h
    simp only [List.length_cons] at hl
    unfold cutDims
    rcases cutDim_def (nd := nd) (curr := curr) (by omega) fs q h with e | ⟨q', e, hq'⟩
    · rw [e]; exact Or.inl rfl
    · rw [e]; exact ih (curr + 1) q' (by omega) hq'

theorem ndCuttable_le (l : Lattice) : l.ndCuttable ≤ l.nd := by
  unfold Lattice.ndCuttable
  split
  · split <;> omega
  · exact le_refl _

theorem partitionPrimes_def {l : Lattice} (hw : l.Wf) {dims : List (List Nat)}
    (h : dims.length ≤ l.nd) : ∃ cores, partitionPrimes l dims = some cores := by
  unfold partitionPrimes
  rcases cutDims_def (nd := l.nd) dims 0 [l] (by omega) (by
    intro c hc
    rw [List.mem_singleton] at hc
    subst hc
    exact ⟨hw.1, rfl⟩) with e | ⟨q', e⟩
  · rw [e]; exact ⟨[], rfl⟩
  · rw [e]; exact ⟨q', rfl⟩

theorem skipGiven_def {given : List Nat} {ndim : Nat} (hn : 0 < ndim)
    (h : isVectorZero given = true ∨ (given.length = ndim ∧ 0 ∈ given)) {curr : Nat}
    (hc : curr < ndim) : ∃ c, skipGiven given ndim ndim curr = some c ∧ c < ndim := by
  rcases h with h | ⟨hl, h0⟩
  · unfold skipGiven; rw [if_pos h]; exact ⟨curr, rfl, hc⟩
  · by_cases hz : isVectorZero given = true
    · unfold skipGiven; rw [if_pos hz]; exact ⟨curr, rfl, hc⟩
    -- distance to the next zero
    obtain ⟨z, hzl, hz0⟩ := List.mem_iff_getElem.1 h0
    have key : ∀ (k fuel curr : Nat), curr < ndim → (curr + k) % ndim = z → k ≤ fuel →
        ∃ c, skipGiven given ndim fuel curr = some c ∧ c < ndim := by
      intro k
      induction k with
      | zero =>
        intro fuel curr hc hk _
        rw [Nat.add_zero, Nat.mod_eq_of_lt hc] at hk
        subst hk
        unfold skipGiven
        rw [if_neg hz, List.getElem?_eq_getElem hzl, hz0]
        simp; exact hc
      | succ k ih =>
        intro fuel curr hc hk hf
        unfold skipGiven
        rw [if_neg hz, List.getElem?_eq_getElem (by omega)]
        simp only []
        split
        · exact ⟨curr, rfl, hc⟩
        · cases fuel with
          | zero => omega
          | succ fuel =>
            refine ih fuel _ (Nat.mod_lt _ hn) ?_ (by omega)
            rw [Nat.mod_add_mod, ← hk]
            congr 1; omega
    have hzn : z < ndim := by omega
    by_cases hcz : curr ≤ z
    · exact key (z - curr) ndim curr hc (by rw [Nat.add_sub_of_le hcz, Nat.mod_eq_of_lt hzn]) (by omega)
    · refine key (ndim + z - curr) ndim curr hc ?_ (by omega)
      rw [Nat.add_sub_of_le (by omega), Nat.add_mod_left, Nat.mod_eq_of_lt hzn]

theorem distribute_def {given : List Nat} {ndim : Nat} (hn : 0 < ndim)
    (h : isVectorZero given = true ∨ (given.length = ndim ∧ 0 ∈ given)) :
    ∀ (ps : List Nat) (curr : Nat) (dims : List (List Nat)), curr < ndim → dims.length = ndim →
      ∃ dims', distribute given ndim ps curr dims = some dims' := by
  intro ps
  induction ps with
  | nil => intro curr dims _ _; exact ⟨dims, rfl⟩
  | cons p ps ih =>
    intro curr dims hc hl
    obtain ⟨c, e, hcn⟩ := skipGiven_def hn h hc
    unfold distribute
    rw [e]; simp only []
    rw [List.getElem?_eq_getElem (by omega)]
    exact ih _ _ (Nat.mod_lt _ hn) (by simpa using hl)

theorem givenFactors_def : ∀ (g : List Nat) (i : Nat) (dims : List (List Nat)),
    i + g.length ≤ dims.length → ∃ dims', givenFactors g i dims = some dims' ∧
      dims'.length = dims.length := by
  intro g
  induction g with
  | nil => intro i dims _; exact ⟨dims, rfl, rfl⟩
  | cons a as ih =>
    intro i dims h
    simp only [List.length_cons] at h
    unfold givenFactors
    split
    next ha =>
      obtain ⟨fs, e1, _⟩ := primeFactorization_spec (n := a) (by omega)
      rw [e1]; simp only []
      rw [if_pos (by omega)]
      obtain ⟨d, e, hd⟩ := ih (i + 1) (dims.set i fs) (by simpa using by omega)
      exact ⟨d, e, by simpa using hd⟩
    · exact ih (i + 1) dims (by omega)

theorem factorDims_def {ndim np : Nat} {given : List Nat} (hn : 0 < ndim) (hnp : 0 < np)
    (hg : isVectorZero given = true ∨ given.length = ndim) :
    ∃ r, factorDims ndim np given = some r := by
  have key : ∀ (np' : Nat) (d0 : List (List Nat)), d0.length = ndim →
      (np' > 1 → isVectorZero given = true ∨ (given.length = ndim ∧ 0 ∈ given)) →
      ∃ r, (if np' > 1 then
        match primeFactorization np' with
        | none => none
        | some ps =>
          match distribute given ndim ps 0 d0 with
          | none => none
          | some dims' => some (some dims')
      else some (some d0)) = some r := by
    intro np' d0 hl h
    split
    next h1 =>
      obtain ⟨ps, e1, _⟩ := primeFactorization_spec (n := np') (by omega)
      rw [e1]; simp only []
      obtain ⟨d', e⟩ := distribute_def hn (h h1) ps 0 d0 hn hl
      rw [e]; exact ⟨_, rfl⟩
    · exact ⟨_, rfl⟩
  unfold factorDims
  simp only []
  by_cases hz : isVectorZero given = true
  · rw [if_pos hz]
    exact key np _ (by simp) (fun _ => Or.inl hz)
  · rw [if_neg hz]
    have hl : given.length = ndim := by tauto
    cases h1 : givenLoop given np false with
    | none => exact ⟨none, rfl⟩
    | some r =>
      obtain ⟨np', hz'⟩ := r
      simp only []
      by_cases h2 : (!hz' && decide (np' > 1)) = true
      · rw [if_pos h2]; exact ⟨none, rfl⟩
      · rw [if_neg h2]
        obtain ⟨d0, e0, hl0⟩ := givenFactors_def given 0 (List.replicate ndim []) (by simp; omega)
        rw [e0]
        simp only []
        obtain ⟨a1, a2, a3⟩ := givenLoop_spec given np false np' hz' hnp h1
        refine key np' d0 (by simpa using hl0) (fun hp => Or.inr ⟨hl, ?_⟩)
        have : hz' = true := by
          cases hz' with
          | true => rfl
          | false => simp at h2; omega
        simpa using a3.1 this

theorem partitionCores_def {l : Lattice} {np : Nat} {given : List Nat} (hw : l.Wf)
    (hn : 0 < l.ndCuttable) (hg : isVectorZero given = true ∨ given.length = l.ndCuttable) :
    ∃ cores, partitionCores l np given = some cores := by
  unfold partitionCores
  split
  · exact ⟨[], rfl⟩
  next hnp =>
    obtain ⟨r, e⟩ := factorDims_def (np := np) hn (by omega) hg
    rw [e]
    cases r with
    | none => exact ⟨[], rfl⟩
    | some dims =>
      obtain ⟨_, _, hl⟩ := factorDims_spec (by omega) e
      exact partitionPrimes_def hw (by rw [hl]; exact ndCuttable_le l)

/-! success -/

/-- block of shape `nd` whose sizes from dimension `d` on are at least the demands -/
def Room (nd d : Nat) (dims : List (List Nat)) (c : Lattice) : Prop :=
  Shape nd c ∧ ∀ (k : Nat) (fs : List Nat), dims[k]? = some fs → ∀ z, c.sizes[d + k]? = some z →
    fs.prod ≤ z

theorem cutRound_room {curr f nd : Nat} {fs : List Nat} {rest : List (List Nat)} (hc : curr < nd)
    (hf : 0 < f) (hpos : 0 < fs.prod) : ∀ (q : List Lattice),
    (∀ c ∈ q, Room nd curr ((f :: fs) :: rest) c) →
      ∃ q', cutRound curr f q = some (some q') ∧ ∀ c ∈ q', Room nd curr (fs :: rest) c := by
  intro q
  induction q with
  | nil => intro _; exact ⟨[], rfl, by simp⟩
  | cons p ps ih =>
    intro h
    obtain ⟨⟨h1, h2⟩, h3⟩ := h p (by simp)
    have e1 : p.starts[curr]? = some p.starts[curr] := List.getElem?_eq_getElem (by omega)
    have e2 : p.sizes[curr]? = some p.sizes[curr] := List.getElem?_eq_getElem (by omega)
    have h4 := h3 0 (f :: fs) (by simp) p.sizes[curr] e2
    rw [List.prod_cons] at h4
    have h5 : f ≤ f * fs.prod := Nat.le_mul_of_pos_right f hpos
    unfold cutRound cutBlock
    rw [e1, e2]
    simp only []
    rw [if_neg (by omega)]
    simp only []
    obtain ⟨q', e, hq'⟩ := ih (fun c hc => h c (by simp [hc]))
    rw [e]
    refine ⟨_, rfl, ?_⟩
    intro c hc'
    rcases List.mem_append.1 hc' with hc' | hc'
    · obtain ⟨ab, hab, rfl⟩ := List.mem_map.1 hc'
      refine ⟨⟨by simp [h1], by simp [h2]⟩, ?_⟩
      intro k gs hk z hz
      simp only at hz
      cases k with
      | zero =>
        simp at hk; subst hk
        rw [Nat.add_zero, List.getElem?_set_self (by omega)] at hz
        cases hz
        exact slices_ge hf (by rw [Nat.mul_comm]; exact h4) ab hab
      | succ k =>
        rw [List.getElem?_set_ne (by omega)] at hz
        exact h3 (k + 1) gs (by simpa using hk) z hz
    · exact hq' c hc'

theorem cutDim_room {curr nd : Nat} {rest : List (List Nat)} (hc : curr < nd) :
    ∀ (fs : List Nat) (q : List Lattice), (∀ f ∈ fs, 0 < f) →
    (∀ c ∈ q, Room nd curr (fs :: rest) c) →
      ∃ q', cutDim curr fs q = some (some q') ∧ ∀ c ∈ q', Room nd (curr + 1) rest c := by
  intro fs
  induction fs with
  | nil =>
    intro q _ h
    refine ⟨q, rfl, ?_⟩
    intro c hc'
    refine ⟨(h c hc').1, fun k gs hk z hz => ?_⟩
    exact (h c hc').2 (k + 1) gs (by simpa using hk) z (by rw [← hz]; congr 1; omega)
  | cons f fs ih =>
    intro q hp h
    obtain ⟨q', e, hq'⟩ := cutRound_room hc (hp f (by simp))
      (prod_pos' fun g hg => hp g (by simp [hg])) q h
    unfold cutDim
    rw [e]
    exact ih q' (fun g hg => hp g (by simp [hg])) hq'

theorem cutDims_room {nd : Nat} : ∀ (dims : List (List Nat)) (curr : Nat) (q : List Lattice),
    curr + dims.length ≤ nd → (∀ fs ∈ dims, ∀ f ∈ fs, 0 < f) → (∀ c ∈ q, Room nd curr dims c) →
      ∃ q', cutDims curr dims q = some (some q') := by
  intro dims
  induction dims with
  | nil => intro curr q _ _ _; exact ⟨q, rfl⟩
  | cons fs rest ih =>
    intro curr q hl hp h
    simp only [List.length_cons] at hl
    obtain ⟨q', e, hq'⟩ := cutDim_room (by omega) fs q (hp fs (by simp)) h
    unfold cutDims
    rw [e]
    exact ih (curr + 1) q' (by omega) (fun g hg => hp g (by simp [hg])) hq'

theorem prod_le_tot {dims : List (List Nat)} (hp : ∀ fs ∈ dims, ∀ f ∈ fs, 0 < f) {fs : List Nat}
    (h : fs ∈ dims) : fs.prod ≤ tot dims := by
  have : ∀ (ds : List (List Nat)), (∀ gs ∈ ds, ∀ f ∈ gs, 0 < f) → 0 < tot ds := by
    intro ds hd
    apply prod_pos'
    intro f hf
    obtain ⟨gs, hgs, rfl⟩ := List.mem_map.1 hf
    exact prod_pos' (hd gs hgs)
  induction dims with
  | nil => simp at h
  | cons a as ih =>
    have hpa : 0 < tot as := this as (fun g hg => hp g (by simp [hg]))
    have hpa' : 0 < a.prod := prod_pos' (hp a (by simp))
    have e : tot (a :: as) = a.prod * tot as := by simp [tot]
    rw [e]
    rcases List.mem_cons.1 h with rfl | h
    · exact Nat.le_mul_of_pos_right _ hpa
    · exact le_trans (ih (fun g hg => hp g (by simp [hg])) h) (Nat.le_mul_of_pos_left _ hpa')

theorem partitionCores_success {l : Lattice} {np : Nat} {given : List Nat} (hw : l.Wf)
    (hn : 0 < l.ndCuttable) (hnp : 0 < np) (hg : isVectorZero given = true)
    (hroom : ∀ (d z : Nat), d < l.ndCuttable → l.sizes[d]? = some z → np ≤ z) :
    ∃ cores, partitionCores l np given = some cores ∧ cores.length = np := by
  unfold partitionCores
  rw [if_neg (by omega)]
  obtain ⟨r, e⟩ := factorDims_def (np := np) hn (by omega) (Or.inl hg)
  cases r with
  | none =>
    unfold factorDims at e
    simp only [] at e
    rw [if_pos hg] at e
    simp only [] at e
    split at e
    · split at e
      · cases e
      · split at e <;> cases e
    · cases e
  | some dims =>
    rw [e]
    simp only []
    obtain ⟨h1, h2, hl⟩ := factorDims_spec (by omega) e
    unfold partitionPrimes
    obtain ⟨q, eq⟩ := cutDims_room (nd := l.nd) dims 0 [l] (by
      have := ndCuttable_le l; omega) h2 (by
      intro c hc
      rw [List.mem_singleton] at hc
      subst hc
      refine ⟨⟨hw.1, rfl⟩, ?_⟩
      intro k fs hk z hz
      have hk' := (List.getElem?_eq_some_iff.1 hk).1
      refine le_trans (prod_le_tot h2 (List.mem_of_getElem? hk)) ?_
      rw [h1]
      exact hroom (0 + k) z (by omega) hz)
    rw [eq]
    refine ⟨q, rfl, ?_⟩
    have hlen : ∀ (dims : List (List Nat)) (curr : Nat) (q q' : List Lattice),
        cutDims curr dims q = some (some q') → (∀ fs ∈ dims, ∀ f ∈ fs, 0 < f) →
        q'.length = q.length * tot dims := by
      intro dims
      induction dims with
      | nil => intro c q q' e _; simp [cutDims] at e; subst e; simp [tot]
      | cons fs rest ih =>
        intro c q q' e hp
        unfold cutDims at e
        split at e
        · cases e
        · cases e
        next q1 e1 =>
          have h1 := ih _ _ _ e (fun g hg => hp g (by simp [hg]))
          have h2 : q1.length = q.length * fs.prod := by
            have hfs := hp fs (by simp)
            clear ih h1 e hp
            induction fs generalizing q with
            | nil => simp [cutDim] at e1; subst e1; simp
            | cons f fs ih2 =>
              unfold cutDim at e1
              split at e1
              · cases e1
              · cases e1
              next q2 e2 =>
                have := ih2 q2 e1 (fun g hg => hfs g (by simp [hg]))
                rw [this, List.prod_cons]
                have h3 : q2.length = q.length * f := by
                  have hf := hfs f (by simp)
                  clear this ih2 e1
                  induction q generalizing q2 with
                  | nil => simp [cutRound] at e2; subst e2; simp
                  | cons p ps ih3 =>
                    unfold cutRound at e2
                    split at e2
                    · cases e2
                    · cases e2
                    next qs e4 =>
                      split at e2
                      · cases e2
                      · cases e2
                      next rs e5 =>
                        simp only [Option.some.injEq] at e2
                        subst e2
                        have := ih3 rs e5
                        have h6 : qs.length = f := by
                          unfold cutBlock at e4
                          split at e4
                          · split at e4
                            · cases e4
                            next hge =>
                              simp only [Option.some.injEq] at e4
                              rw [← e4, List.length_map]
                              exact (slices_spec hf (Nat.le_of_not_lt hge)).2
                          · cases e4
                        rw [List.length_append, this, h6, List.length_cons]; ring
                rw [h3]; ring
          rw [h1, h2]; simp [tot]; ring
    rw [hlen dims 0 [l] q eq h2, h1]; simp

/-! ghosts -/

theorem ghostLoop_spec {l : Lattice} {gl gh : List Nat} : ∀ (k d : Nat) (b : Lattice),
    Shape l.nd b → l.starts.length = l.nd → d + k ≤ l.nd → d + k ≤ gl.length → d + k ≤ gh.length →
    ∃ e, ghostLoop l gl gh k d b = some e ∧ Shape l.nd e ∧
      ∀ (i ls lz s z a c : Nat), l.starts[i]? = some ls → l.sizes[i]? = some lz →
        b.starts[i]? = some s → b.sizes[i]? = some z → 
        (d ≤ i ∧ i < d + k → gl[i]? = some a → gh[i]? = some c →
          e.starts[i]? = some (ghost1 ls lz s z a c).1 ∧ e.sizes[i]? = some (ghost1 ls lz s z a c).2) ∧
        (¬ (d ≤ i ∧ i < d + k) → e.starts[i]? = some s ∧ e.sizes[i]? = some z) := by
  intro k
  induction k with
  | zero =>
    intro d b hb _ _ _ _
    refine ⟨b, rfl, hb, ?_⟩
    intro i ls lz s z a c h1 h2 h3 h4
    exact ⟨fun h => by omega, fun _ => ⟨h3, h4⟩⟩
  | succ k ih =>
    intro d b hb hls h1 h2 h3
    have hnd : l.nd = l.sizes.length := rfl
    have get : ∀ (xs : List Nat), d < xs.length → ∃ v, xs[d]? = some v :=
      fun xs h => ⟨xs[d], List.getElem?_eq_getElem h⟩
    obtain ⟨v1, w1⟩ := get l.starts (by omega)
    obtain ⟨v2, w2⟩ := get l.sizes (by omega)
    obtain ⟨v3, w3⟩ := get b.starts (by have := hb.1; omega)
    obtain ⟨v4, w4⟩ := get b.sizes (by have := hb.2; omega)
    obtain ⟨v5, w5⟩ := get gl (by omega)
    obtain ⟨v6, w6⟩ := get gh (by omega)
    unfold ghostLoop
    rw [w1, w2, w3, w4, w5, w6]
    simp only []
    generalize hr : ghost1 v1 v2 v3 v4 v5 v6 = r
    obtain ⟨e, e1, e2, e3⟩ := ih (d + 1) { starts := b.starts.set d r.1, sizes := b.sizes.set d r.2 }
      ⟨by rw [List.length_set]; exact hb.1, by rw [List.length_set]; exact hb.2⟩ hls
      (by omega) (by omega) (by omega)
    refine ⟨e, e1, e2, ?_⟩
    intro i ls lz s z a c f1 f2 f3 f4
    by_cases hi : i = d
    · subst hi
      have := e3 i ls lz _ _ a c f1 f2 (List.getElem?_set_self (by have := hb.1; omega))
        (List.getElem?_set_self (by have := hb.2; omega))
      refine ⟨fun _ g1 g2 => ?_, fun h => by omega⟩
      have h5 := this.2 (by omega)
      rw [f1] at w1; rw [f2] at w2; rw [f3] at w3; rw [f4] at w4; rw [g1] at w5; rw [g2] at w6
      cases w1; cases w2; cases w3; cases w4; cases w5; cases w6
      rw [hr]
      exact h5
    · have := e3 i ls lz s z a c f1 f2 (by simp only; rw [List.getElem?_set_ne (Ne.symm hi)]; exact f3)
        (by simp only; rw [List.getElem?_set_ne (Ne.symm hi)]; exact f4)
      refine ⟨fun h g1 g2 => this.1 (by omega) g1 g2, fun h => this.2 (by omega)⟩

end Verif.Lat
