import Verif.Surf.Slice
import Verif.Graph.Cca
/-! C90: discarding points of a surface. -/
namespace Verif.Surf
variable {δ : Type}

theorem neighborSets_spec : ∀ (ps : List (Nat × Nat)) (ns : List (List Nat)), (∀ p ∈ ps, p.1 < ns.length) →
    ∃ out, neighborSets ps ns = some out ∧ out.length = ns.length ∧
      ∀ v w : Nat, (∃ s, out[v]? = some s ∧ w ∈ s) ↔ (∃ s, ns[v]? = some s ∧ w ∈ s) ∨ (v, w) ∈ ps := by
  intro ps
  induction ps with
  | nil => intro ns _; exact ⟨ns, rfl, rfl, by simp⟩
  | cons p ps ih =>
    intro ns h
    obtain ⟨v0, w0⟩ := p
    have hv : v0 < ns.length := h (v0, w0) (by simp)
    have hg := List.getElem?_eq_getElem hv
    obtain ⟨out, e, hl, hm⟩ := ih (ns.set v0 (setInsert w0 ns[v0])) (by
      intro p hp; rw [List.length_set]; exact h p (by simp [hp]))
    refine ⟨out, by simp only [neighborSets, hg, e], by rw [hl, List.length_set], ?_⟩
    intro v w
    rw [hm]
    by_cases hvv : v = v0
    · subst hvv
      rw [List.getElem?_set_self hv, hg]
      simp only [Option.some.injEq, exists_eq_left', mem_setInsert, List.mem_cons, Prod.mk.injEq, true_and]
      tauto
    · rw [List.getElem?_set_ne (Ne.symm hvv)]
      simp only [List.mem_cons, Prod.mk.injEq, hvv, false_and, false_or]

theorem nearestLoop_spec (dist : FPt δ → FPt δ → Rat) (pts : List (FPt δ)) (p : FPt δ) : ∀ (js : List Nat) (best : Option (Rat × Nat)),
    (∀ j ∈ js, j < pts.length) → ∃ b, nearestLoop dist pts p js best = some b ∧
      (b.isSome = (best.isSome || !js.isEmpty)) ∧ ∀ d j, b = some (d, j) → best = some (d, j) ∨ j ∈ js := by
  intro js
  induction js with
  | nil => intro best _; exact ⟨best, rfl, by simp, fun d j h => .inl h⟩
  | cons j js ih =>
    intro best h
    have hj := List.getElem?_eq_getElem (h j (by simp))
    obtain ⟨b, e, h1, h2⟩ := ih (match best with
        | none => some (dist p (pts[j]'(h j (by simp))), j)
        | some (m, k) => if dist p (pts[j]'(h j (by simp))) < m then some (dist p (pts[j]'(h j (by simp))), j) else some (m, k)) (fun j hj => h j (by simp [hj]))
    refine ⟨b, ?_, ?_, ?_⟩
    · simp only [nearestLoop, hj]
      exact e
    · rw [h1]
      cases best with
      | none => simp
      | some mk =>
        obtain ⟨m, k⟩ := mk
        simp only
        split <;> simp
    · intro d k hb
      rcases h2 d k hb with h3 | h3
      · cases best with
        | none => simp only [Option.some.injEq, Prod.mk.injEq] at h3; exact .inr (by simp [h3.2])
        | some mk =>
          obtain ⟨m, k'⟩ := mk
          simp only at h3
          split at h3
          · simp only [Option.some.injEq, Prod.mk.injEq] at h3; exact .inr (by simp [h3.2])
          · exact .inl h3
      · exact .inr (by simp [h3])

/-- state of the loop before point `m` of `n`; `b i` says that point `i` is to be discarded -/
structure FInv (n m : Nat) (b : Nat → Prop) (F : Forest) : Prop where
  plen : F.parent.length = n
  clen : F.children.length = n
  todo : ∀ k, m ≤ k → k < n → F.parent[k]? = some (some k)
  below : ∀ k p : Nat, F.parent[k]? = some (some p) → p < n
  root : ∀ k p : Nat, F.parent[k]? = some (some p) → p ≠ k → F.parent[p]? = some (some p) ∨ F.parent[p]? = some none
  child : ∀ j k : Nat, m ≤ j → F.parent[k]? = some (some j) → k ≠ j → ∃ s, F.children[j]? = some s ∧ k ∈ s
  own : ∀ (x k : Nat) (s : List Nat), F.children[x]? = some s → k ∈ s → k < m ∧ k ≠ x ∧ F.parent[k]? = some (some x)
  keep : ∀ k, k < n → ¬ b k → F.parent[k]? = some (some k)

theorem setParents_spec (j : Nat) : ∀ (ks : List Nat) (par : List (Option Nat)), (∀ k ∈ ks, k < par.length) →
    ∃ par', setParents j ks par = some par' ∧ par'.length = par.length ∧
      ∀ k : Nat, par'[k]? = if k ∈ ks then some (some j) else par[k]? := by
  intro ks
  induction ks with
  | nil => intro par _; exact ⟨par, rfl, rfl, by simp⟩
  | cons x ks ih =>
    intro par h
    have hx := h x (by simp)
    obtain ⟨par', e, hl, hm⟩ := ih (par.set x (some j)) (by intro k hk; rw [List.length_set]; exact h k (by simp [hk]))
    refine ⟨par', by simp only [setParents, hx, if_true, e], by rw [hl, List.length_set], ?_⟩
    intro k
    rw [hm]
    by_cases h1 : k ∈ ks
    · simp [h1]
    · by_cases h2 : k = x
      · subst h2; simp [h1, List.getElem?_set_self hx]
      · simp [h1, h2, List.getElem?_set_ne (Ne.symm h2)]

theorem chase_spec {n m : Nat} {b : Nat → Prop} {F : Forest} (h : FInv n m b F) (hn : 0 < n) (j : Option Nat) (hj : ∀ x, j = some x → x < n) :
    ∃ r, chase F.parent (n + 2) j = some r ∧ (∀ x, r = some x → x < n ∧ F.parent[x]? = some (some x)) ∧
      (∀ x, j = some x → F.parent[x]? = some (some x) → r = some x) ∧ (j = none → r = none) := by
  cases j with
  | none => exact ⟨none, rfl, by simp, by simp, fun _ => rfl⟩
  | some x =>
    have hx := hj x rfl
    obtain ⟨n', rfl⟩ : ∃ n', n = n' + 1 := ⟨n - 1, by omega⟩
    have hp := List.getElem?_eq_getElem (l := F.parent) (i := x) (by rw [h.plen]; exact hx)
    cases hpx : F.parent[x]'(by rw [h.plen]; exact hx) with
    | none =>
      rw [hpx] at hp
      refine ⟨none, by simp [chase, hp], by simp, ?_, by simp⟩
      rintro y hy hy2
      simp only [Option.some.injEq] at hy
      subst hy
      rw [hp] at hy2
      simp at hy2
    | some p =>
      rw [hpx] at hp
      by_cases hpe : p = x
      · subst hpe
        refine ⟨some p, by simp [chase, hp], ?_, ?_, by simp⟩
        · rintro y hy
          simp only [Option.some.injEq] at hy
          subst hy
          exact ⟨hx, hp⟩
        · rintro y hy -
          exact hy
      · have hne : (some p : Option Nat) ≠ some x := by simpa using hpe
        have hno : ∀ y, (some x : Option Nat) = some y → F.parent[y]? = some (some y) → False := by
          rintro y hy hy2
          simp only [Option.some.injEq] at hy
          subst hy
          rw [hp] at hy2
          simp only [Option.some.injEq] at hy2
          exact hpe hy2
        rcases h.root x p hp hpe with h2 | h2
        · refine ⟨some p, by simp [chase, hp, hne, h2], ?_, fun y hy hy2 => (hno y hy hy2).elim, by simp⟩
          intro y hy
          simp only [Option.some.injEq] at hy
          subst hy
          exact ⟨h.below x p hp, h2⟩
        · exact ⟨none, by simp [chase, hp, hne, h2], by simp, fun y hy hy2 => (hno y hy hy2).elim, by simp⟩

/-- a point that is not discarded -/
theorem FInv.skip {n m : Nat} {b : Nat → Prop} {F : Forest} (h : FInv n m b F) : FInv n (m + 1) b F :=
  ⟨h.plen, h.clen, fun k hk hkn => h.todo k (by omega) hkn, h.below, h.root, fun j k hj => h.child j k (by omega),
    fun x k s hs hk => ⟨by have := (h.own x k s hs hk).1; omega, (h.own x k s hs hk).2⟩, h.keep⟩

/-- a discarded point `m` -/
theorem merge_spec {n m : Nat} {b : Nat → Prop} {F : Forest} (h : FInv n m b F) (hm : m < n) (hb : b m) (j : Option Nat)
    (hj : ∀ x, j = some x → x < n ∧ F.parent[x]? = some (some x)) :
    ∃ F', mergeInto m j F = some F' ∧ FInv n (m + 1) b F' ∧ F'.parent[m]? = some j ∧
      (∀ k, k < m → F.parent[k]? ≠ some (some k) → F'.parent[k]? ≠ some (some k)) := by
  have hpm : m < F.parent.length := by rw [h.plen]; exact hm
  have hroot := h.todo m (le_refl m) hm
  cases j with
  | none =>
    have hp' : ∀ k : Nat, (F.parent.set m none)[k]? = if k = m then some none else F.parent[k]? := by
      intro k
      by_cases hk : k = m
      · subst hk; simp [List.getElem?_set_self hpm]
      · simp [hk, List.getElem?_set_ne (Ne.symm hk)]
    refine ⟨{ F with parent := F.parent.set m none }, by simp only [mergeInto, hpm, if_true], ?_, by rw [hp' m]; simp, ?_⟩
    · refine ⟨by rw [List.length_set, h.plen], h.clen, ?_, ?_, ?_, ?_, ?_, ?_⟩
      · intro k hk hkn
        simp only [hp']
        rw [if_neg (by omega)]
        exact h.todo k (by omega) hkn
      · intro k p hk
        simp only [hp'] at hk
        split at hk
        · simp at hk
        · exact h.below k p hk
      · intro k p hk hne
        simp only [hp'] at hk ⊢
        split at hk
        · simp at hk
        · by_cases hpm : p = m
          · simp [hpm]
          · simp only [hpm, if_false]; exact h.root k p hk hne
      · intro j k hj hk hne
        simp only [hp'] at hk
        split at hk
        · simp at hk
        · exact h.child j k (by omega) hk hne
      · intro x k s hs hk
        obtain ⟨h1, h2, h3⟩ := h.own x k s hs hk
        refine ⟨by omega, h2, ?_⟩
        simp only [hp']
        rw [if_neg (by omega)]
        exact h3
      · intro k hk hbk
        simp only [hp']
        rw [if_neg (by rintro rfl; exact hbk hb)]
        exact h.keep k hk hbk
    · intro k hk hne
      simp only [hp']
      rw [if_neg (by omega)]
      exact hne
  | some j =>
    obtain ⟨hjn, hjr⟩ := hj j rfl
    have hcj : j < F.children.length := by rw [h.clen]; exact hjn
    have hcm : m < F.children.length := by rw [h.clen]; exact hm
    have gj := List.getElem?_eq_getElem hcj
    have gm := List.getElem?_eq_getElem hcm
    generalize hCj : F.children[j] = Cj at gj
    generalize hCm : F.children[m] = Cm at gm
    by_cases hjm : j = m
    · -- merged into itself: nothing changes but the set of children
      subst hjm
      rw [gm] at gj
      obtain rfl : Cm = Cj := by simpa using gj
      have hown := h.own j
      have hcs : ∀ k, k ∈ (setInsert j Cm).foldl (fun acc x => setInsert x acc) (setInsert j Cm) ↔ k = j ∨ k ∈ Cm := by
        intro k
        rw [Gr.foldl_setInsert_mem, mem_setInsert]
        tauto
      obtain ⟨par, ep, pl, pg⟩ := setParents_spec j ((setInsert j Cm).foldl (fun acc x => setInsert x acc) (setInsert j Cm)) F.parent (by
        intro k hk
        rw [h.plen]
        rcases (hcs k).1 hk with rfl | hk
        · exact hm
        · have := (hown k Cm gm hk).1; omega)
      have hpar : ∀ k : Nat, (par.set j (some j))[k]? = F.parent[k]? := by
        intro k
        by_cases hk : k = j
        · subst hk; rw [List.getElem?_set_self (by rw [pl]; exact hpm), hroot]
        · rw [List.getElem?_set_ne (Ne.symm hk), pg]
          split
          · rename_i hkc
            rcases (hcs k).1 hkc with h1 | h1
            · exact absurd h1 hk
            · exact ((hown k Cm gm h1).2.2).symm
          · rfl
      have hch : ∀ x : Nat, ((((F.children.set j (setInsert j Cm)).set j ((setInsert j Cm).foldl (fun acc x => setInsert x acc) (setInsert j Cm)))).set j [])[x]? =
          if x = j then some [] else F.children[x]? := by
        intro x
        by_cases hx : x = j
        · subst hx; rw [List.getElem?_set_self (by simpa using hcm)]; simp
        · rw [List.getElem?_set_ne (Ne.symm hx), List.getElem?_set_ne (Ne.symm hx), List.getElem?_set_ne (Ne.symm hx)]; simp [hx]
      refine ⟨⟨par.set j (some j), (((F.children.set j (setInsert j Cm)).set j ((setInsert j Cm).foldl (fun acc x => setInsert x acc) (setInsert j Cm)))).set j []⟩, ?_, ?_, by rw [hpar]; exact hroot, ?_⟩
      rotate_left
      · refine ⟨by rw [List.length_set, pl, h.plen], ?_, ?_, ?_, ?_, ?_, ?_, ?_⟩
        rotate_left
        · intro k hk hkn; simp only [hpar]; exact h.todo k (by omega) hkn
        · intro k p; simp only [hpar]; exact h.below k p
        · intro k p; simp only [hpar]; exact h.root k p
        · intro j' k hj'
          simp only [hpar, hch]
          rw [if_neg (by omega)]
          exact h.child j' k (by omega)
        · intro x k s hs hk
          rw [hch] at hs
          split at hs
          · simp only [Option.some.injEq] at hs; subst hs; simp at hk
          · simp only [hpar]
            obtain ⟨h1, h2⟩ := h.own x k s hs hk
            exact ⟨by omega, h2⟩
        · intro k; simp only [hpar]; exact h.keep k
        · simpa using h.clen
      · intro k _ hne; simp only [hpar]; exact hne
      · simp only [mergeInto, gm, List.getElem?_set_self hcm, List.getElem?_set_self (show j < (F.children.set j (setInsert j Cm)).length by simpa using hcm), ep, pl, hpm, if_true]
    · -- merged into another point
      have hmj : m ≠ j := fun e => hjm e.symm
      have hown := h.own m
      have hjC : j ∉ Cm := by
        intro hk
        have := (hown j Cm gm hk).2.2
        rw [hjr] at this
        simp only [Option.some.injEq] at this
        exact hjm this
      have hmC : m ∉ Cm := fun hk => (hown m Cm gm hk).2.1 rfl
      have hcs : ∀ k, k ∈ Cm.foldl (fun acc x => setInsert x acc) (setInsert m Cj) ↔ k = m ∨ k ∈ Cj ∨ k ∈ Cm := by
        intro k
        rw [Gr.foldl_setInsert_mem, mem_setInsert]
        tauto
      obtain ⟨par, ep, pl, pg⟩ := setParents_spec j Cm F.parent (by
        intro k hk
        rw [h.plen]
        have := (hown k Cm gm hk).1; omega)
      have hpar : ∀ k : Nat, (par.set m (some j))[k]? = if k = m ∨ k ∈ Cm then some (some j) else F.parent[k]? := by
        intro k
        by_cases hk : k = m
        · subst hk; rw [List.getElem?_set_self (by rw [pl]; exact hpm)]; simp
        · rw [List.getElem?_set_ne (Ne.symm hk), pg]
          simp only [hk, false_or]
      have hch : ∀ x : Nat, (((F.children.set j (setInsert m Cj)).set j (Cm.foldl (fun acc x => setInsert x acc) (setInsert m Cj))).set m [])[x]? =
          if x = m then some [] else if x = j then some (Cm.foldl (fun acc x => setInsert x acc) (setInsert m Cj)) else F.children[x]? := by
        intro x
        by_cases hx : x = m
        · subst hx; rw [List.getElem?_set_self (by simpa using hcm)]; simp
        · rw [List.getElem?_set_ne (Ne.symm hx)]
          by_cases hx2 : x = j
          · subst hx2; rw [List.getElem?_set_self (by simpa using hcj)]; simp [hx]
          · rw [List.getElem?_set_ne (Ne.symm hx2), List.getElem?_set_ne (Ne.symm hx2)]; simp [hx, hx2]
      have hjset : ¬ (j = m ∨ j ∈ Cm) := by rintro (h1 | h1); exacts [hjm h1, hjC h1]
      refine ⟨⟨par.set m (some j), ((F.children.set j (setInsert m Cj)).set j (Cm.foldl (fun acc x => setInsert x acc) (setInsert m Cj))).set m []⟩, ?_, ?_, by rw [hpar]; simp, ?_⟩
      rotate_left
      · refine ⟨by rw [List.length_set, pl, h.plen], ?_, ?_, ?_, ?_, ?_, ?_, ?_⟩
        rotate_left
        · intro k hk hkn
          simp only [hpar]
          rw [if_neg]
          · exact h.todo k (by omega) hkn
          · rintro (h1 | h1)
            · omega
            · have := (hown k Cm gm h1).1; omega
        · intro k p hk
          simp only [hpar] at hk
          split at hk
          · simp only [Option.some.injEq] at hk; subst hk; exact hjn
          · exact h.below k p hk
        · intro k p hk hne
          simp only [hpar] at hk ⊢
          split at hk
          · simp only [Option.some.injEq] at hk
            subst hk
            rw [if_neg hjset]
            exact .inl hjr
          · rename_i hks
            have hps : ¬ (p = m ∨ p ∈ Cm) := by
              rintro (h1 | h1)
              · subst h1
                obtain ⟨s, hs, hk2⟩ := h.child p k (le_refl p) hk (Ne.symm hne)
                rw [gm] at hs
                simp only [Option.some.injEq] at hs
                subst hs
                exact hks (.inr hk2)
              · obtain ⟨-, h2, h3⟩ := hown p Cm gm h1
                rcases h.root k p hk hne with h4 | h4
                · rw [h3] at h4; simp only [Option.some.injEq] at h4; exact h2 h4.symm
                · rw [h3] at h4; simp at h4
            rw [if_neg hps]
            exact h.root k p hk hne
        · intro j' k hj' hk hne
          simp only [hpar] at hk
          simp only [hch]
          rw [if_neg (by omega)]
          split at hk
          · rename_i hks
            simp only [Option.some.injEq] at hk
            subst hk
            rw [if_pos rfl]
            exact ⟨_, rfl, (hcs k).2 (hks.elim .inl fun h => .inr (.inr h))⟩
          · obtain ⟨s, hs, hks⟩ := h.child j' k (by omega) hk hne
            by_cases hjj : j' = j
            · subst hjj
              rw [gj] at hs
              simp only [Option.some.injEq] at hs
              subst hs
              rw [if_pos rfl]
              exact ⟨_, rfl, (hcs k).2 (.inr (.inl hks))⟩
            · rw [if_neg hjj]; exact ⟨s, hs, hks⟩
        · intro x k s hs hk
          rw [hch] at hs
          simp only [hpar]
          split at hs
          · simp only [Option.some.injEq] at hs; subst hs; simp at hk
          · rename_i hxm
            split at hs
            · rename_i hxj
              subst hxj
              simp only [Option.some.injEq] at hs
              subst hs
              rcases (hcs k).1 hk with h1 | h1 | h1
              · subst h1; exact ⟨by omega, hmj, by simp⟩
              · obtain ⟨h2, h3, h4⟩ := h.own x k Cj gj h1
                refine ⟨by omega, h3, ?_⟩
                split
                · rfl
                · exact h4
              · refine ⟨by have := (hown k Cm gm h1).1; omega, ?_, by simp [h1]⟩
                rintro rfl; exact hjC h1
            · obtain ⟨h2, h3, h4⟩ := h.own x k s hs hk
              refine ⟨by omega, h3, ?_⟩
              rw [if_neg]
              · exact h4
              · rintro (h5 | h5)
                · omega
                · have := (hown k Cm gm h5).2.2
                  rw [h4] at this
                  simp only [Option.some.injEq] at this
                  exact hxm this
        · intro k hk hbk
          simp only [hpar]
          have h1 := h.keep k hk hbk
          rw [if_neg]
          · exact h1
          · rintro (h5 | h5)
            · subst h5; exact hbk hb
            · obtain ⟨-, h6, h7⟩ := hown k Cm gm h5
              rw [h1] at h7
              simp only [Option.some.injEq] at h7
              exact h6 h7
        · simpa using h.clen
      · intro k hk hne
        simp only [hpar]
        split
        · rename_i hks
          intro e
          simp only [Option.some.injEq] at e
          subst e
          exact hjset hks
        · exact hne
      · simp only [mergeInto, gj, List.getElem?_set_ne hjm, gm, List.getElem?_set_self hcj, ep, pl, hpm, if_true]

/-- point `i` is to be discarded -/
def Flagged (f : FPt δ → Bool) (pts : List (FPt δ)) (i : Nat) : Prop := ∃ p, pts[i]? = some p ∧ f p = true

/-- no two points to be discarded share a triangle, and no triangle is degenerate -/
def Apart (f : FPt δ → Bool) (s : Surface δ) : Prop :=
  ∀ t ∈ s.tris, (triVs t).Nodup ∧ ∀ i ∈ triVs t, ∀ j ∈ triVs t, Flagged f s.pts i → Flagged f s.pts j → i = j

theorem discardLoop_spec (dist : FPt δ → FPt δ → Rat) (f : FPt δ → Bool) (pts : List (FPt δ)) (nbs : List (List Nat))
    (hlen : nbs.length = pts.length) (hnb : ∀ (v : Nat) (s : List Nat) (w : Nat), nbs[v]? = some s → w ∈ s → w < pts.length) :
    ∀ (l pre : List (FPt δ)) (F : Forest), pre ++ l = pts → FInv pts.length pre.length (Flagged f pts) F →
    ∃ F', discardLoop dist f pts nbs pre.length l F = some F' ∧ FInv pts.length pts.length (Flagged f pts) F' ∧
      ((∀ (v : Nat) (s : List Nat) (w : Nat), nbs[v]? = some s → w ∈ s → Flagged f pts v → ¬ Flagged f pts w) →
        (∀ k, k < pre.length → Flagged f pts k → F.parent[k]? ≠ some (some k)) →
        ∀ k, k < pts.length → Flagged f pts k → F'.parent[k]? ≠ some (some k)) := by
  intro l
  induction l with
  | nil =>
    intro pre F hp h
    rw [List.append_nil] at hp
    subst hp
    exact ⟨F, rfl, h, fun _ h => h⟩
  | cons p l ih =>
    intro pre F hp h
    have hp' : (pre ++ [p]) ++ l = pts := by rw [← hp]; simp
    have hl' : (pre ++ [p]).length = pre.length + 1 := by simp
    have hm : pre.length < pts.length := by rw [← hp]; simp
    have hpm : pts[pre.length]? = some p := by rw [← hp]; simp
    rw [discardLoop]
    by_cases hf : f p = true
    · rw [if_pos hf]
      have hfl : Flagged f pts pre.length := ⟨p, hpm, hf⟩
      have gn := List.getElem?_eq_getElem (l := nbs) (i := pre.length) (by omega)
      generalize nbs[pre.length]'(by omega) = ns at gn
      obtain ⟨best, eb, -, hb⟩ := nearestLoop_spec dist pts p ns none (fun j hj => hnb _ ns j gn hj)
      have hbr : ∀ x, best.map Prod.snd = some x → x ∈ ns := by
        intro x hx
        cases best with
        | none => simp at hx
        | some dj =>
          obtain ⟨d, j⟩ := dj
          simp only [Option.map_some, Option.some.injEq] at hx
          subst hx
          rcases hb d j rfl with h1 | h1
          · simp at h1
          · exact h1
      obtain ⟨j, ec, c1, c2, c3⟩ := chase_spec h (by omega) (best.map Prod.snd) (fun x hx => hnb _ ns x gn (hbr x hx))
      obtain ⟨F1, em, h1, h2, h3⟩ := merge_spec h hm hfl j c1
      obtain ⟨F', e', h4, h5⟩ := ih (pre ++ [p]) F1 hp' (by rw [hl']; exact h1)
      rw [hl'] at e'
      refine ⟨F', by rw [gn]; simp only [eb, ec, em, e'], h4, ?_⟩
      intro hap hF
      apply h5 hap
      intro k hk hkf
      rw [hl'] at hk
      by_cases hkm : k = pre.length
      · subst hkm
        rw [h2]
        intro e
        simp only [Option.some.injEq] at e
        cases hbm : best.map Prod.snd with
        | none => rw [c3 hbm] at e; simp at e
        | some x =>
          have hx := hbr x hbm
          have hxf : ¬ Flagged f pts x := hap _ ns x gn hx hfl
          have := c2 x hbm (h.keep x (hnb _ ns x gn hx) hxf)
          rw [this] at e
          simp only [Option.some.injEq] at e
          subst e
          exact hxf hfl
      · exact h3 k (by omega) (hF k (by omega) hkf)
    · rw [if_neg hf]
      obtain ⟨F', e', h4, h5⟩ := ih (pre ++ [p]) F hp' (by rw [hl']; exact h.skip)
      rw [hl'] at e'
      refine ⟨F', e', h4, ?_⟩
      intro hap hF
      apply h5 hap
      intro k hk hkf
      rw [hl'] at hk
      by_cases hkm : k = pre.length
      · subst hkm
        obtain ⟨q, hq, hqf⟩ := hkf
        rw [hpm] at hq
        simp only [Option.some.injEq] at hq
        subst hq
        exact absurd hqf hf
      · exact hF k (by omega) hkf

theorem finv_init (n : Nat) (b : Nat → Prop) : FInv n 0 b { parent := (List.range n).map some, children := List.replicate n [] } := by
  have hp : ∀ k : Nat, ((List.range n).map some)[k]? = if k < n then some (some k) else none := by
    intro k
    rw [List.getElem?_map]
    split
    · rename_i h; rw [List.getElem?_range h]; rfl
    · rename_i h; rw [List.getElem?_eq_none (by simpa using h)]; rfl
  have hp2 : ∀ k p : Nat, ((List.range n).map some)[k]? = some (some p) → p = k ∧ k < n := by
    intro k p h
    rw [hp] at h
    split at h
    · simp only [Option.some.injEq] at h; exact ⟨h.symm, by assumption⟩
    · simp at h
  refine ⟨by simp, by simp, ?_, ?_, ?_, ?_, ?_, ?_⟩
  · intro k _ hk; simp only [hp, hk, if_true]
  · intro k p h; obtain ⟨rfl, h⟩ := hp2 k p h; exact h
  · intro k p h hne; exact absurd (hp2 k p h).1 hne
  · intro j k _ h hne; exact absurd (hp2 k j h).1.symm hne
  · intro x k s hs hk
    simp only [List.getElem?_replicate] at hs
    split at hs
    · simp only [Option.some.injEq] at hs; subst hs; simp at hk
    · simp at hs
  · intro k hk _; simp only [hp, hk, if_true]

theorem keepTri_iff {kept : List Nat} (hn : kept.Nodup) {t u : Tri} : keepTri kept t = some u ↔
    kept[u.1]? = some t.1 ∧ kept[u.2.1]? = some t.2.1 ∧ kept[u.2.2]? = some t.2.2 := by
  have hget : ∀ i x, newIndex kept i = some x ↔ kept[x]? = some i := by
    intro i x
    unfold newIndex
    constructor
    · intro h
      split at h
      · rename_i hi
        simp only [Option.some.injEq] at h
        rw [← h, List.getElem?_eq_getElem (List.idxOf_lt_length_iff.2 hi), List.getElem_idxOf]
      · simp at h
    · intro h
      obtain ⟨h1, h2⟩ := List.getElem?_eq_some_iff.1 h
      have hm : i ∈ kept := h2 ▸ List.getElem_mem h1
      rw [if_pos hm, ← h2, List.Nodup.idxOf_getElem hn x h1]
  obtain ⟨a, b, c⟩ := u
  simp only [← hget]
  unfold keepTri
  constructor
  · intro h
    split at h
    · rename_i x y z h1 h2 h3
      simp only [Option.some.injEq, Prod.mk.injEq] at h
      obtain ⟨rfl, rfl, rfl⟩ := h
      exact ⟨h1, h2, h3⟩
    · simp at h
  · rintro ⟨h1, h2, h3⟩
    rw [h1, h2, h3]

theorem keepTri_isSome {kept : List Nat} {t : Tri} : (keepTri kept t).isSome = true ↔ ∀ i ∈ triVs t, i ∈ kept := by
  have h : ∀ i, i ∈ kept ∨ i ∉ kept := fun i => em _
  unfold keepTri newIndex triVs
  rcases h t.1 with h1 | h1 <;> rcases h t.2.1 with h2 | h2 <;> rcases h t.2.2 with h3 | h3 <;> simp [h1, h2, h3]

/-- the triangles of a surface after dropping points: those with all three points left (`sel` lists the points left), in
order, with the new point numbers -/
def TrisLeft (old new : List Tri) (sel : List Nat) : Prop :=
  List.Forall₂ (fun t u : Tri => sel[u.1]? = some t.1 ∧ sel[u.2.1]? = some t.2.1 ∧ sel[u.2.2]? = some t.2.2)
    (old.filter fun t => (triVs t).all fun i => decide (i ∈ sel)) new

theorem trisLeft_filterMap {kept : List Nat} (hn : kept.Nodup) (old : List Tri) : TrisLeft old (old.filterMap (keepTri kept)) kept := by
  unfold TrisLeft
  induction old with
  | nil => exact .nil
  | cons t old ih =>
    rw [List.filterMap_cons, List.filter_cons]
    cases h : keepTri kept t with
    | none =>
      have : ¬ ((triVs t).all fun i => decide (i ∈ kept)) = true := by
        intro h2
        have := keepTri_isSome.2 (by simpa using h2 : ∀ i ∈ triVs t, i ∈ kept)
        rw [h] at this
        simp at this
      rw [if_neg this]
      exact ih
    | some u =>
      have : ((triVs t).all fun i => decide (i ∈ kept)) = true := by
        have := keepTri_isSome.1 (by rw [h]; rfl : (keepTri kept t).isSome = true)
        simpa using this
      rw [if_pos this]
      exact .cons ((keepTri_iff hn).1 h) ih

theorem mem_triPairs {t : Tri} {v w : Nat} (h : (v, w) ∈ triPairs t) : v ∈ triVs t ∧ w ∈ triVs t ∧ ((triVs t).Nodup → v ≠ w) := by
  obtain ⟨a, b, c⟩ := t
  simp only [triPairs, triVs, List.mem_cons, List.not_mem_nil, or_false, Prod.mk.injEq, List.nodup_cons, not_or, not_false_eq_true, List.nodup_nil, and_true] at h ⊢
  rcases h with ⟨rfl, rfl⟩ | ⟨rfl, rfl⟩ | ⟨rfl, rfl⟩ | ⟨rfl, rfl⟩ | ⟨rfl, rfl⟩ | ⟨rfl, rfl⟩ <;> simp <;> tauto

theorem discard_spec (dist : FPt δ → FPt δ → Rat) (s : Surface δ) (f : FPt δ → Bool) (hr : InRange s.pts.length s.cells) :
    ∃ s' sel, s.discard dist f = some s' ∧ sel.Pairwise (· < ·) ∧ (∀ i ∈ sel, i < s.pts.length) ∧
      (∀ i p, s.pts[i]? = some p → f p = false → i ∈ sel) ∧ s'.pts.map some = sel.map (s.pts[·]?) ∧ TrisLeft s.tris s'.tris sel ∧
      s'.quads = s.quads ∧ s'.pentagons = s.pentagons ∧ (Apart f s → ∀ i ∈ sel, ¬ Flagged f s.pts i) := by
  have htri : ∀ t ∈ s.tris, ∀ i ∈ triVs t, i < s.pts.length := by
    intro t ht i hi
    exact hr (triVs t) (by unfold Surface.cells; simp only [List.mem_append, List.mem_map]; exact .inl (.inl ⟨t, ht, rfl⟩)) i hi
  have hpair : ∀ v w : Nat, (v, w) ∈ s.tris.flatMap triPairs → ∃ t ∈ s.tris, (v, w) ∈ triPairs t := by
    intro v w h
    obtain ⟨t, ht, h⟩ := List.mem_flatMap.1 h
    exact ⟨t, ht, h⟩
  obtain ⟨nbs, en, hl, hnb⟩ := neighborSets_spec (s.tris.flatMap triPairs) (List.replicate s.pts.length []) (by
    rintro ⟨v, w⟩ hp
    obtain ⟨t, ht, h⟩ := hpair v w hp
    rw [List.length_replicate]
    exact htri t ht v (mem_triPairs h).1)
  rw [List.length_replicate] at hl
  have hnb' : ∀ (v : Nat) (l : List Nat) (w : Nat), nbs[v]? = some l → w ∈ l → (v, w) ∈ s.tris.flatMap triPairs := by
    intro v l w hl hw
    rcases (hnb v w).1 ⟨l, hl, hw⟩ with ⟨x, h1, h2⟩ | h
    · simp only [List.getElem?_replicate] at h1
      split at h1
      · simp only [Option.some.injEq] at h1; subst h1; simp at h2
      · simp at h1
    · exact h
  obtain ⟨F, eF, hF, hap⟩ := discardLoop_spec dist f s.pts nbs hl (by
    intro v l w hvl hw
    obtain ⟨t, ht, h⟩ := hpair v w (hnb' v l w hvl hw)
    exact htri t ht w (mem_triPairs h).2.1) s.pts [] _ rfl (finv_init s.pts.length (Flagged f s.pts))
  have hsorted : (keptIndices F).Pairwise (· < ·) := List.Pairwise.sublist List.filter_sublist List.pairwise_lt_range
  have hmem : ∀ i, i ∈ keptIndices F ↔ i < s.pts.length ∧ F.parent[i]? = some (some i) := by
    intro i
    unfold keptIndices
    simp [hF.plen]
  refine ⟨{ s with pts := (keptIndices F).filterMap (s.pts[·]?), tris := s.tris.filterMap (keepTri (keptIndices F)) }, keptIndices F, ?_, hsorted,
    fun i hi => ((hmem i).1 hi).1, ?_, ?_, trisLeft_filterMap (hsorted.imp fun h => Nat.ne_of_lt h) s.tris, rfl, rfl, ?_⟩
  · unfold Surface.discard
    simp only [en]
    rw [show (0 : Nat) = ([] : List (FPt δ)).length from rfl, eF]
  · intro i p hp hfp
    rw [hmem]
    have hi := (List.getElem?_eq_some_iff.1 hp).1
    refine ⟨hi, hF.keep i hi ?_⟩
    rintro ⟨q, hq, hqf⟩
    rw [hp] at hq
    simp only [Option.some.injEq] at hq
    subst hq
    rw [hfp] at hqf
    simp at hqf
  · have : ∀ l : List Nat, (∀ i ∈ l, i < s.pts.length) → (l.filterMap (s.pts[·]?)).map some = l.map (s.pts[·]?) := by
      intro l
      induction l with
      | nil => intro _; rfl
      | cons i l ih =>
        intro h
        rw [List.filterMap_cons, List.getElem?_eq_getElem (h i (by simp)), List.map_cons, List.map_cons, ih fun j hj => h j (by simp [hj])]
        rw [List.getElem?_eq_getElem (h i (by simp))]
    exact this _ fun i hi => ((hmem i).1 hi).1
  · intro hA i hi hfl
    obtain ⟨hin, hpi⟩ := (hmem i).1 hi
    refine hap ?_ (by simp) i hin hfl hpi
    intro v l w hvl hw hv hwf
    obtain ⟨t, ht, h⟩ := hpair v w (hnb' v l w hvl hw)
    obtain ⟨h1, h2, h3⟩ := mem_triPairs h
    exact h3 (hA t ht).1 ((hA t ht).2 v h1 w h2 hv hwf)

/-- C90: `discard(f)` keeps, in order, every point not satisfying `f` and possibly some satisfying it, and the triangles
with three points left, renumbered.  Missing: that no point satisfying `f` is left (see `C90_keeps_flagged`), and that
quadrilaterals and pentagons are renumbered. -/
theorem C90_discard_partial (dist : FPt δ → FPt δ → Rat) (s : Surface δ) (f : FPt δ → Bool) (hr : InRange s.pts.length s.cells) :
    ∃ s' sel, s.discard dist f = some s' ∧ sel.Pairwise (· < ·) ∧ (∀ i ∈ sel, i < s.pts.length) ∧
      (∀ i p, s.pts[i]? = some p → f p = false → i ∈ sel) ∧ s'.pts.map some = sel.map (s.pts[·]?) ∧ TrisLeft s.tris s'.tris sel := by
  obtain ⟨s', sel, h1, h2, h3, h4, h5, h6, -⟩ := discard_spec dist s f hr
  exact ⟨s', sel, h1, h2, h3, h4, h5, h6⟩

/-- C90: if no two points satisfying `f` share a triangle and no triangle is degenerate, `discard(f)` leaves exactly the
points not satisfying `f`. -/
theorem C90_discard_apart (dist : FPt δ → FPt δ → Rat) (s : Surface δ) (f : FPt δ → Bool) (hr : InRange s.pts.length s.cells)
    (ha : Apart f s) : ∃ s' sel, s.discard dist f = some s' ∧ Kept (fun p => !f p) s.pts s'.pts sel ∧ TrisLeft s.tris s'.tris sel := by
  obtain ⟨s', sel, h1, h2, h3, h4, h5, h6, -, -, h7⟩ := discard_spec dist s f hr
  refine ⟨s', sel, h1, ⟨h2, ?_, ?_, ?_⟩, h6⟩
  · intro i
    constructor
    · intro hi
      have := List.getElem?_eq_getElem (h3 i hi)
      refine ⟨_, this, ?_⟩
      cases hf : f (s.pts[i]'(h3 i hi)) with
      | false => rfl
      | true => exact absurd ⟨_, this, hf⟩ (h7 ha i hi)
    · rintro ⟨p, hp, hf⟩
      exact h4 i p hp (by simpa using hf)
  · have := congrArg List.length h5
    simpa using this
  · intro k i hk
    have := congrArg (·[k]?) h5
    simp only [List.getElem?_map, hk, Option.map_some] at this
    cases h : s'.pts[k]? with
    | none => rw [h] at this; simp at this
    | some p => rw [h] at this; simp only [Option.map_some, Option.some.injEq] at this; exact this

/-- one triangle -/
def exTri : Surface Unit := ⟨[⟨0, 0, true, ()⟩, ⟨1, 0, true, ()⟩, ⟨2, 0, true, ()⟩], [(0, 1, 2)], [], []⟩

/-- C90 (finding): of two adjacent points that are to be discarded the second is left if it is the nearest neighbour of
the first and the first the nearest neighbour of it. -/
theorem C90_keeps_flagged : (exTri.discard (fun _ _ => 1) fun p => decide (p.id ≤ 1)).map (fun s => s.pts.map FPt.id) = some [1, 2] := by
  decide +kernel

/-- C90 (finding): quadrilaterals keep their old point numbers, which may refer to no point. -/
theorem C90_stale_quads :
    ((⟨[⟨0, 0, true, ()⟩, ⟨1, 0, true, ()⟩, ⟨2, 0, true, ()⟩, ⟨3, 0, true, ()⟩], [], [(0, 1, 2, 3)], []⟩ : Surface Unit).discard
      (fun _ _ => 1) fun p => decide (p.id = 0)).map (fun s => (s.pts.map FPt.id, s.quads)) = some ([1, 2, 3], [(0, 1, 2, 3)]) := by
  decide +kernel

/-- two triangles with a common edge -/
def exTwo : Surface Unit :=
  ⟨[⟨0, 0, true, ()⟩, ⟨1, 0, true, ()⟩, ⟨2, 0, true, ()⟩, ⟨3, 0, true, ()⟩, ⟨4, 0, true, ()⟩], [(0, 1, 2), (1, 2, 3)], [], []⟩

example : InRange exTwo.pts.length exTwo.cells := by
  intro c hc i hi
  simp only [Surface.cells, exTwo, List.map_cons, List.map_nil, List.append_nil, List.mem_cons, List.not_mem_nil, or_false, triVs] at hc
  rcases hc with rfl | rfl <;> simp only [List.mem_cons, List.not_mem_nil, or_false] at hi <;>
    rcases hi with rfl | rfl | rfl <;> decide
example : Apart (fun p : FPt Unit => decide (p.id = 0 ∨ p.id = 3 ∨ p.id = 4)) exTwo := by
  have hno : ∀ (i : Nat) (p : FPt Unit), exTwo.pts[i]? = some p → p.id = i := by
    intro i p h
    rcases i with _ | _ | _ | _ | _ | i <;> simp [exTwo] at h <;> subst h <;> rfl
  intro t ht
  simp only [exTwo, List.mem_cons, List.not_mem_nil, or_false] at ht
  refine ⟨by rcases ht with rfl | rfl <;> decide, ?_⟩
  rintro i hi j hj ⟨p, hp, hpf⟩ ⟨q, hq, hqf⟩
  rw [decide_eq_true_eq, hno i p hp] at hpf
  rw [decide_eq_true_eq, hno j q hq] at hqf
  rcases ht with rfl | rfl <;> simp only [triVs, List.mem_cons, List.not_mem_nil, or_false] at hi hj <;> omega
example : (exTwo.discard (fun _ _ => 1) fun p => decide (p.id = 0 ∨ p.id = 3 ∨ p.id = 4)).map (fun s => (s.pts.map FPt.id, s.tris)) =
    some ([1, 2], []) := by decide +kernel
example : (exTwo.discard (fun _ _ => 1) fun p => decide (p.id = 0)).map (fun s => (s.pts.map FPt.id, s.tris)) =
    some ([1, 2, 3, 4], [(0, 1, 2)]) := by decide +kernel

end Verif.Surf
