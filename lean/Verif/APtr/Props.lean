import Verif.APtr.Model
import Mathlib.Data.List.Basic
import Mathlib.Tactic.Common
/-! C169: histories and schedules of `async_ptr`. -/
namespace Verif.APtr

/-- (specification) handle number `i` exists and has not been destroyed -/
def Live (s : State) (i : Nat) : Prop := ∃ h, s.hs[i]? = some (some h)

/-- (specification) the handles an operation names are live -/
def Args (s : State) : Op → Prop
  | .copy i | .destroy i | .reset i => Live s i
  | .assign i j | .swap i j => Live s i ∧ Live s j
  | _ => True

/-- (specification) the number of live handles that use counter `c` -/
def users (s : State) (c : Nat) : Nat := s.hs.countP (fun h => match h with | some h => h.c == c | none => false)

/-- (proof device) does an entry use counter `c`? -/
def uses (c : Nat) : Option Handle → Bool := fun h => match h with | some h => h.c == c | none => false

theorem users_eq (s : State) (c : Nat) : users s c = s.hs.countP (uses c) := rfl

/-- (proof device) `K` says which allocations have an object -/
structure Inv (exact : Prop) (k : Nat) (K : List Bool) (s : State) : Prop where
  lenC : s.ctrs.length = K.length
  lenO : s.objs.length = K.length
  wf : ∀ (i : Nat) h, s.hs[i]? = some (some h) → ∃ b, K[h.c]? = some b ∧ h.p = if b then some h.c else none
  objk : ∀ c : Nat, K[c]? = some true →
    (∃ n, s.ctrs[c]? = some (some n) ∧ s.objs[c]? = some true ∧ 1 ≤ n ∧ users s c ≤ n ∧ n ≤ k ∧ (exact → n = users s c)) ∨
    (s.ctrs[c]? = some none ∧ s.objs[c]? = some false ∧ users s c = 0)
  nullk : ∀ c : Nat, K[c]? = some false → s.objs[c]? = some false ∧ ∃ n, s.ctrs[c]? = some (some n) ∧ n < wrap ∧ (n = 0 ∨ wrap ≤ n + k)

theorem countP_set' {α : Type} (p : α → Bool) (l : List α) (i : Nat) (a b : α) (h : l[i]? = some b) :
    (l.set i a).countP p + (if p b then 1 else 0) = l.countP p + (if p a then 1 else 0) := by
  induction l generalizing i with
  | nil => simp at h
  | cons x l ih =>
    cases i with
    | zero =>
      simp only [List.getElem?_cons_zero, Option.some.injEq] at h
      subst h
      simp only [List.set_cons_zero, List.countP_cons]; omega
    | succ i =>
      simp only [List.getElem?_cons_succ] at h
      have := ih i h
      simp only [List.set_cons_succ, List.countP_cons]; omega

theorem users_pos {s : State} {i : Nat} {h : Handle} (hh : s.hs[i]? = some (some h)) : 1 ≤ users s h.c := by
  have := List.countP_pos_iff (p := uses h.c) (l := s.hs) |>.2 ⟨some h, List.mem_of_getElem? hh, by simp [uses]⟩
  exact this

/-- what a live handle points to -/
theorem Inv.handle {exact : Prop} {k : Nat} {K : List Bool} {s : State} (I : Inv exact k K s) {i : Nat} {h : Handle} (hh : s.hs[i]? = some (some h)) :
    (h.p = some h.c ∧ K[h.c]? = some true ∧ ∃ n, s.ctrs[h.c]? = some (some n) ∧ s.objs[h.c]? = some true ∧ 1 ≤ n ∧ users s h.c ≤ n ∧ n ≤ k ∧
      (exact → n = users s h.c)) ∨
    (h.p = none ∧ K[h.c]? = some false ∧ s.objs[h.c]? = some false ∧ ∃ n, s.ctrs[h.c]? = some (some n) ∧ n < wrap ∧ (n = 0 ∨ wrap ≤ n + k)) := by
  obtain ⟨b, hb, hp⟩ := I.wf i h hh
  cases b with
  | true =>
    left
    refine ⟨by simpa using hp, hb, ?_⟩
    rcases I.objk h.c hb with h1 | ⟨_, _, h3⟩
    · exact h1
    · have := users_pos hh; omega
  | false => right; exact ⟨by simpa using hp, hb, I.nullk h.c hb⟩

theorem getElem?_set' {α : Type} {l : List α} {c d : Nat} {a : α} (hc : c < l.length) :
    (l.set c a)[d]? = if c = d then some a else l[d]? := by
  rw [List.getElem?_set]; split <;> simp_all

theorem lt_of_some {α : Type} {l : List α} {c : Nat} {a : α} (h : l[c]? = some a) : c < l.length := (List.getElem?_eq_some_iff.1 h).1

/-- the effect of one more allocation -/
theorem Inv.push {exact : Prop} {k : Nat} {K : List Bool} {s : State} (I : Inv exact k K s) (b : Bool) :
    Inv exact (k + 1) (K ++ [b])
      { hs := s.hs ++ [some ⟨if b then some s.objs.length else none, s.ctrs.length⟩]
        ctrs := s.ctrs ++ [some (if b then 1 else 0)], objs := s.objs ++ [b] } := by
  have hu0 : users s K.length = 0 := by
    rw [users_eq, List.countP_eq_zero]
    intro x hx
    cases x with
    | none => simp [uses]
    | some h =>
      obtain ⟨i, hi⟩ := List.getElem?_of_mem hx
      obtain ⟨b, hb, _⟩ := I.wf i h hi
      have := lt_of_some hb
      simp only [uses, beq_iff_eq]; omega
  have hu : ∀ c, users { hs := s.hs ++ [some ⟨if b then some s.objs.length else none, s.ctrs.length⟩]
                         ctrs := s.ctrs ++ [some (if b then 1 else 0)], objs := s.objs ++ [b] } c =
      users s c + (if c = K.length then 1 else 0) := by
    intro c
    rw [users_eq, users_eq, List.countP_append]
    rw [List.countP_singleton]
    by_cases hc : c = K.length
    · simp [uses, I.lenC, hc]
    · have : ¬ K.length = c := fun e => hc e.symm
      simp [uses, I.lenC, hc, this]
  refine ⟨by simp [I.lenC], by simp [I.lenO], ?_, ?_, ?_⟩
  · intro i h hh
    simp only [List.getElem?_append] at hh
    split at hh
    · obtain ⟨b', hb, hp⟩ := I.wf i h hh
      exact ⟨b', by rw [List.getElem?_append_left (lt_of_some hb)]; exact hb, hp⟩
    · rename_i hi
      have hi0 : i - s.hs.length = 0 := by
        by_contra hne
        rw [List.getElem?_eq_none (by simp; omega)] at hh; cases hh
      rw [hi0] at hh
      simp only [List.getElem?_cons_zero, Option.some.injEq] at hh
      subst hh
      refine ⟨b, by simp [I.lenC], ?_⟩
      simp only [I.lenC, I.lenO]
  · intro c hc
    have huc := hu c
    by_cases hlt : c < K.length
    · rw [List.getElem?_append_left hlt] at hc
      rw [if_neg (show ¬ c = K.length by omega), Nat.add_zero] at huc
      rw [huc]
      simp only [List.getElem?_append_left (show c < s.ctrs.length by rw [I.lenC]; exact hlt),
        List.getElem?_append_left (show c < s.objs.length by rw [I.lenO]; exact hlt)]
      rcases I.objk c hc with ⟨n, a1, a2, a3, a4, a5, a6⟩ | h
      · exact Or.inl ⟨n, a1, a2, a3, a4, by omega, a6⟩
      · exact Or.inr h
    · have hcl : c = K.length := by have := lt_of_some hc; simp at this; omega
      subst hcl
      simp only [List.getElem?_concat_length, Option.some.injEq] at hc
      subst hc
      rw [if_pos (show K.length = K.length from rfl), hu0] at huc
      rw [huc]
      refine Or.inl ⟨1, ?_, ?_, by omega, by omega, by omega, fun _ => rfl⟩
      · rw [← I.lenC]; simp
      · rw [← I.lenO]; simp
  · intro c hc
    by_cases hlt : c < K.length
    · rw [List.getElem?_append_left hlt] at hc
      simp only [List.getElem?_append_left (show c < s.ctrs.length by rw [I.lenC]; exact hlt),
        List.getElem?_append_left (show c < s.objs.length by rw [I.lenO]; exact hlt)]
      obtain ⟨h1, n, h2, h3, h4⟩ := I.nullk c hc
      exact ⟨h1, n, h2, h3, by omega⟩
    · have hcl : c = K.length := by have := lt_of_some hc; simp at this; omega
      subst hcl
      simp only [List.getElem?_concat_length, Option.some.injEq] at hc
      subst hc
      refine ⟨by rw [← I.lenO]; simp, 0, by rw [← I.lenC]; simp, by decide, Or.inl rfl⟩

/-- replacing the table of handles without touching counters -/
theorem Inv.mono {exact : Prop} {k : Nat} {K : List Bool} {s : State} (I : Inv exact k K s) (hs' : List (Option Handle))
    (hw : ∀ h, some h ∈ hs' → some h ∈ s.hs)
    (hu : ∀ c, K[c]? = some true → hs'.countP (uses c) = s.hs.countP (uses c)) {k' : Nat} (hkk : k ≤ k') : Inv exact k' K { s with hs := hs' } := by
  refine ⟨I.lenC, I.lenO, ?_, ?_, ?_⟩
  · intro i h hh
    obtain ⟨j, hj⟩ := List.getElem?_of_mem (hw h (List.mem_of_getElem? hh))
    exact I.wf j h hj
  · intro c hc
    have : users { s with hs := hs' } c = users s c := hu c hc
    rw [this]
    rcases I.objk c hc with ⟨n, a1, a2, a3, a4, a5, a6⟩ | h
    · exact Or.inl ⟨n, a1, a2, a3, a4, by omega, a6⟩
    · exact Or.inr h
  · intro c hc
    obtain ⟨h1, n, h2, h3, h4⟩ := I.nullk c hc
    exact ⟨h1, n, h2, h3, by omega⟩

/-- one more reference to a counter with an object; in the exact case the number of users goes up by one -/
theorem Inv.incr {exact : Prop} {k : Nat} {K : List Bool} {s : State} (hk : k + 1 < wrap) (I : Inv exact k K s) {i : Nat} {h : Handle}
    (hh : s.hs[i]? = some (some h)) (hs' : List (Option Handle)) (hw : ∀ h, some h ∈ hs' → some h ∈ s.hs)
    (hu : ∀ c, K[c]? = some true → hs'.countP (uses c) ≤ s.hs.countP (uses c) + (if c = h.c then 1 else 0) ∧
      (exact → hs'.countP (uses c) = s.hs.countP (uses c) + (if c = h.c then 1 else 0))) (hp : h.p ≠ none) :
    ∃ s', inc s h.c = some s' ∧ s'.hs = s.hs ∧ Inv exact (k + 1) K { s' with hs := hs' } := by
  rcases I.handle hh with ⟨_, hK, n, a1, a2, a3, a4, a5, a6⟩ | ⟨e, _⟩
  · have hinc : inc s h.c = some { s with ctrs := s.ctrs.set h.c (some ((n + 1) % wrap)) } := by unfold inc; rw [a1]
    have hlt := lt_of_some a1
    refine ⟨_, hinc, rfl, by simp [I.lenC], I.lenO, ?_, ?_, ?_⟩
    · intro i h hh
      obtain ⟨j, hj⟩ := List.getElem?_of_mem (hw h (List.mem_of_getElem? hh))
      exact I.wf j h hj
    · intro c hc
      obtain ⟨u1, u2⟩ := hu c hc
      dsimp only
      rw [getElem?_set' hlt, users_eq]
      dsimp only
      by_cases hch : h.c = c
      · subst hch
        rw [if_pos rfl] at u1 u2 ⊢
        rw [users_eq] at a4 a6
        left
        refine ⟨n + 1, by rw [Nat.mod_eq_of_lt (by omega)], a2, by omega, by omega, by omega, ?_⟩
        intro he
        rw [u2 he, ← a6 he]
      · rw [if_neg (fun e => hch e.symm)] at u1 u2
        rw [if_neg hch]
        rcases I.objk c hc with ⟨m, b1, b2, b3, b4, b5, b6⟩ | ⟨b1, b2, b3⟩
        · rw [users_eq] at b4 b6
          exact Or.inl ⟨m, b1, b2, b3, by omega, by omega, fun he => by rw [u2 he, ← b6 he]; rfl⟩
        · rw [users_eq] at b3
          exact Or.inr ⟨b1, b2, by omega⟩
    · intro c hc
      obtain ⟨h1, m, h2, h3, h4⟩ := I.nullk c hc
      have hch : h.c ≠ c := by intro e; rw [e, hc] at hK; cases hK
      dsimp only
      rw [getElem?_set' hlt, if_neg hch]
      exact ⟨h1, m, h2, h3, by omega⟩
  · exact absurd e hp

/-- destruction of a handle -/
theorem Inv.destroy {exact : Prop} {k : Nat} {K : List Bool} {s : State} (hk : k + 1 < wrap) (I : Inv exact k K s) {i : Nat} {h : Handle}
    (hh : s.hs[i]? = some (some h)) :
    ∃ s', clear s h = some s' ∧ s'.hs = s.hs ∧ s'.ctrs.length = s.ctrs.length ∧ s'.objs.length = s.objs.length ∧
      Inv exact (k + 1) K { s' with hs := s'.hs.set i none } := by
  have hset : ∀ c, (s.hs.set i none).countP (uses c) + (if h.c = c then 1 else 0) = s.hs.countP (uses c) := by
    intro c
    have := countP_set' (uses c) s.hs i none (some h) hh
    simp only [uses, beq_iff_eq, Bool.false_eq_true, if_false, Nat.add_zero] at this
    exact this
  have hmem : ∀ (i' : Nat) (h' : Handle), (s.hs.set i none)[i']? = some (some h') → ∃ j : Nat, s.hs[j]? = some (some h') := by
    intro i' h' e
    rw [List.getElem?_set] at e
    split at e
    · split at e <;> simp at e
    · exact ⟨i', e⟩
  have hnull : ∀ c : Nat, K[c]? = some false → s.objs[c]? = some false ∧ ∃ n, s.ctrs[c]? = some (some n) ∧ n < wrap ∧ (n = 0 ∨ wrap ≤ n + (k + 1)) := by
    intro c hc
    obtain ⟨h1, m, h2, h3, h4⟩ := I.nullk c hc
    exact ⟨h1, m, h2, h3, by omega⟩
  have hother : ∀ c : Nat, h.c ≠ c → K[c]? = some true →
      (∃ n, s.ctrs[c]? = some (some n) ∧ s.objs[c]? = some true ∧ 1 ≤ n ∧ (s.hs.set i none).countP (uses c) ≤ n ∧ n ≤ k + 1 ∧
        (exact → n = (s.hs.set i none).countP (uses c))) ∨
      (s.ctrs[c]? = some none ∧ s.objs[c]? = some false ∧ (s.hs.set i none).countP (uses c) = 0) := by
    intro c hne hc
    have e := hset c
    rw [if_neg hne, Nat.add_zero] at e
    rw [e]
    rcases I.objk c hc with ⟨m, b1, b2, b3, b4, b5, b6⟩ | b
    · exact Or.inl ⟨m, b1, b2, b3, b4, by omega, b6⟩
    · exact Or.inr b
  rcases I.handle hh with ⟨hp, hK, n, a1, a2, a3, a4, a5, a6⟩ | ⟨hp, hK, ho, n, a1, a2, a3⟩
  · have hlt := lt_of_some a1
    have hlo := lt_of_some a2
    have hu := hset h.c
    rw [if_pos rfl] at hu
    rw [users_eq] at a4 a6
    have hw1 : 1 ≤ wrap := by decide
    have hn' : (n + (wrap - 1)) % wrap = n - 1 := by
      rw [show n + (wrap - 1) = (n - 1) + wrap by omega, Nat.add_mod_right, Nat.mod_eq_of_lt (by omega)]
    by_cases h0 : n - 1 = 0
    · have hcl : clear s h = some { s with ctrs := s.ctrs.set h.c none, objs := s.objs.set h.c false } := by
        unfold clear; rw [a1]; dsimp only; rw [hn', if_pos h0, hp]; dsimp only; rw [a2]
      refine ⟨_, hcl, rfl, by simp, by simp, ⟨by simp [I.lenC], by simp [I.lenO], ?_, ?_, ?_⟩⟩
      · intro i' h' e
        obtain ⟨j, hj⟩ := hmem i' h' e
        exact I.wf j h' hj
      · intro c hc
        dsimp only
        rw [getElem?_set' hlt, getElem?_set' hlo, users_eq]
        dsimp only
        by_cases hch : h.c = c
        · subst hch
          rw [if_pos rfl, if_pos rfl]
          exact Or.inr ⟨rfl, rfl, by omega⟩
        · rw [if_neg hch, if_neg hch]; exact hother c hch hc
      · intro c hc
        have hch : h.c ≠ c := by intro e; rw [e, hc] at hK; cases hK
        dsimp only
        rw [getElem?_set' hlt, getElem?_set' hlo, if_neg hch, if_neg hch]
        exact hnull c hc
    · have hcl : clear s h = some { s with ctrs := s.ctrs.set h.c (some (n - 1)) } := by
        unfold clear; rw [a1]; dsimp only; rw [hn', if_neg h0]
      refine ⟨_, hcl, rfl, by simp, rfl, ⟨by simp [I.lenC], I.lenO, ?_, ?_, ?_⟩⟩
      · intro i' h' e
        obtain ⟨j, hj⟩ := hmem i' h' e
        exact I.wf j h' hj
      · intro c hc
        dsimp only
        rw [getElem?_set' hlt, users_eq]
        dsimp only
        by_cases hch : h.c = c
        · subst hch
          rw [if_pos rfl]
          exact Or.inl ⟨n - 1, rfl, a2, by omega, by omega, by omega, fun he => by have := a6 he; omega⟩
        · rw [if_neg hch]; exact hother c hch hc
      · intro c hc
        have hch : h.c ≠ c := by intro e; rw [e, hc] at hK; cases hK
        dsimp only
        rw [getElem?_set' hlt, if_neg hch]
        exact hnull c hc
  · have hlt := lt_of_some a1
    have hw1 : 1 ≤ wrap := by decide
    have hn' : (n + (wrap - 1)) % wrap = if n = 0 then wrap - 1 else n - 1 := by
      split
      · rename_i e; rw [e, Nat.zero_add, Nat.mod_eq_of_lt (by omega)]
      · rw [show n + (wrap - 1) = (n - 1) + wrap by omega, Nat.add_mod_right, Nat.mod_eq_of_lt (by omega)]
    have h0 : (if n = 0 then wrap - 1 else n - 1) ≠ 0 := by split <;> omega
    have hcl : clear s h = some { s with ctrs := s.ctrs.set h.c (some (if n = 0 then wrap - 1 else n - 1)) } := by
      unfold clear; rw [a1]; dsimp only; rw [hn', if_neg h0]
    refine ⟨_, hcl, rfl, by simp, rfl, ⟨by simp [I.lenC], I.lenO, ?_, ?_, ?_⟩⟩
    · intro i' h' e
      obtain ⟨j, hj⟩ := hmem i' h' e
      exact I.wf j h' hj
    · intro c hc
      have hch : h.c ≠ c := by intro e; rw [e, hc] at hK; cases hK
      dsimp only
      rw [getElem?_set' hlt, users_eq, if_neg hch]
      exact hother c hch hc
    · intro c hc
      dsimp only
      rw [getElem?_set' hlt]
      by_cases hch : h.c = c
      · subst hch
        rw [if_pos rfl]
        refine ⟨ho, _, rfl, ?_, ?_⟩
        · split <;> omega
        · split <;> omega
      · rw [if_neg hch]; exact hnull c hc

theorem alloc_inv {exact : Prop} {k : Nat} {K : List Bool} {s : State} (I : Inv exact k K s) :
    Inv exact (k + 1) (K ++ [true]) { s.alloc.1 with hs := s.hs ++ [some s.alloc.2] } := I.push true

/-- every operation but construction from a null pointer is defined on live handles and keeps the invariant -/
theorem Inv.step {exact : Prop} {k : Nat} {K : List Bool} {s : State} (hk : k + 2 < wrap) (I : Inv exact k K s) (op : Op) (hop : op ≠ .makeNull)
    (hex : exact → ∀ i j, op ≠ .assign i j) (ha : Args s op) : ∃ s' K', s.step op = some s' ∧ Inv exact (k + 2) K' s' := by
  have up : ∀ {K' : List Bool} {s' : State}, Inv exact (k + 1) K' s' → Inv exact (k + 2) K' s' := by
    intro K' s' J
    exact J.mono s'.hs (fun h hh => hh) (fun c _ => rfl) (by omega)
  cases op with
  | default => exact ⟨_, _, rfl, up (I.push false)⟩
  | make => exact ⟨_, _, rfl, up (alloc_inv I)⟩
  | makeNull => exact absurd rfl hop
  | copy i =>
    obtain ⟨h, hh⟩ := ha
    have hmem : ∀ h', some h' ∈ s.hs ++ [some h] → some h' ∈ s.hs := by
      intro h' e
      rcases List.mem_append.1 e with e | e
      · exact e
      · rw [List.mem_singleton.1 e]; exact List.mem_of_getElem? hh
    have hcount : ∀ c, (s.hs ++ [some h]).countP (uses c) = s.hs.countP (uses c) + (if c = h.c then 1 else 0) := by
      intro c
      rw [List.countP_append, List.countP_singleton]
      by_cases e : c = h.c
      · simp [uses, e]
      · have : ¬ h.c = c := fun e' => e e'.symm
        simp [uses, e, this]
    by_cases hp : h.p = none
    · refine ⟨{ s with hs := s.hs ++ [some h] }, K, by simp only [State.step, hh, if_pos hp], up (I.mono _ hmem ?_ (by omega))⟩
      intro c hc
      rw [hcount, if_neg (by
        rintro rfl
        rcases I.handle hh with ⟨e, _⟩ | ⟨_, e, _⟩
        · rw [hp] at e; cases e
        · rw [hc] at e; cases e), Nat.add_zero]
    · obtain ⟨s', h1, h2, h3⟩ := I.incr (by omega) hh (s.hs ++ [some h]) hmem (fun c _ => ⟨Nat.le_of_eq (hcount c), fun _ => hcount c⟩) hp
      refine ⟨{ s' with hs := s.hs ++ [some h] }, K, by simp only [State.step, hh, if_neg hp, h1, h2], up h3⟩
  | assign i j =>
    obtain ⟨⟨g, hg⟩, ⟨h, hh⟩⟩ := ha
    have hmem : ∀ h', some h' ∈ s.hs.set i (some h) → some h' ∈ s.hs := by
      intro h' e
      rcases List.mem_or_eq_of_mem_set e with e | e
      · exact e
      · rw [e]; exact List.mem_of_getElem? hh
    have hcount : ∀ c, (s.hs.set i (some h)).countP (uses c) ≤ s.hs.countP (uses c) + (if c = h.c then 1 else 0) := by
      intro c
      have := countP_set' (uses c) s.hs i (some h) (some g) hg
      by_cases e : c = h.c
      · rw [if_pos e]
        generalize uses c (some g) = x at this
        generalize uses c (some h) = y at this
        cases x <;> cases y <;> simp at this <;> omega
      · rw [if_neg e]
        have e' : uses c (some h) = false := by simp only [uses, beq_eq_false_iff_ne]; exact fun h' => e h'.symm
        rw [e'] at this
        simp only [Bool.false_eq_true, if_false] at this
        omega
    have hne : ¬ exact := fun he => hex he i j rfl
    by_cases hp : h.p = none
    · have key : Inv exact (k + 1) K { s with hs := s.hs.set i (some h) } := by
        refine ⟨I.lenC, I.lenO, ?_, ?_, ?_⟩
        · intro i' h' e
          obtain ⟨j', hj'⟩ := List.getElem?_of_mem (hmem h' (List.mem_of_getElem? e))
          exact I.wf j' h' hj'
        · intro c hc
          have hle := hcount c
          rw [if_neg (by
            rintro rfl
            rcases I.handle hh with ⟨e, _⟩ | ⟨_, e, _⟩
            · rw [hp] at e; cases e
            · rw [hc] at e; cases e)] at hle
          rcases I.objk c hc with ⟨n, a1, a2, a3, a4, a5, a6⟩ | ⟨a1, a2, a3⟩
          · exact Or.inl ⟨n, a1, a2, a3, Nat.le_trans hle a4, by omega, fun he => absurd he hne⟩
          · exact Or.inr ⟨a1, a2, by rw [users_eq] at a3 ⊢; dsimp only; omega⟩
        · intro c hc
          obtain ⟨h1, n, h2, h3, h4⟩ := I.nullk c hc
          exact ⟨h1, n, h2, h3, by omega⟩
      exact ⟨_, K, by simp only [State.step, hg, hh, if_pos hp], up key⟩
    · obtain ⟨s', h1, h2, h3⟩ := I.incr (by omega) hh (s.hs.set i (some h)) hmem (fun c _ => ⟨hcount c, fun he => absurd he hne⟩) hp
      exact ⟨{ s' with hs := s.hs.set i (some h) }, K, by simp only [State.step, hg, hh, if_neg hp, h1, h2], up h3⟩
  | destroy i =>
    obtain ⟨h, hh⟩ := ha
    obtain ⟨s', h1, h2, _, _, h3⟩ := I.destroy (by omega) hh
    exact ⟨_, K, by simp only [State.step, hh, h1], up h3⟩
  | swap i j =>
    obtain ⟨⟨a, hi⟩, ⟨b, hj⟩⟩ := ha
    refine ⟨_, K, by simp only [State.step, hi, hj]; rfl, up (I.mono _ ?_ ?_ (by omega))⟩
    · intro h' e
      rcases List.mem_or_eq_of_mem_set e with e | e
      · rcases List.mem_or_eq_of_mem_set e with e | e
        · exact e
        · rw [e]; exact List.mem_of_getElem? hj
      · rw [e]; exact List.mem_of_getElem? hi
    · intro c _
      have h1 := countP_set' (uses c) s.hs i (some b) (some a) hi
      by_cases hij : i = j
      · subst hij
        rw [hi] at hj
        cases hj
        have h2 := countP_set' (uses c) (s.hs.set i (some a)) i (some a) (some a) (by rw [getElem?_set' (lt_of_some hi), if_pos rfl])
        omega
      · have h2 := countP_set' (uses c) (s.hs.set i (some b)) j (some a) (some b) (by rw [getElem?_set' (lt_of_some hi), if_neg hij]; exact hj)
        omega
  | reset i =>
    obtain ⟨h, hh⟩ := ha
    have J := alloc_inv I
    have hh' : ({ s.alloc.1 with hs := s.hs ++ [some s.alloc.2] } : State).hs[i]? = some (some h) := by
      dsimp only; rw [List.getElem?_append_left (lt_of_some hh)]; exact hh
    obtain ⟨s', h1, h2, h3, h4, h5⟩ := J.destroy (by omega) hh'
    dsimp only at h2
    have hclear : clear s.alloc.1 h = some { s' with hs := s.hs } := by
      unfold clear at h1 ⊢
      dsimp only at h1
      have hal : s.alloc.1.hs = s.hs := rfl
      revert h1
      generalize s.alloc.1.ctrs[h.c]? = o
      cases o with
      | none => intro h1; cases h1
      | some o => cases o with
        | none => intro h1; cases h1
        | some n =>
          dsimp only
          split
          · split
            · intro h1; cases h1; rfl
            · split
              · intro h1; cases h1; rfl
              · intro h1; cases h1
          · intro h1; cases h1; rfl
    refine ⟨{ s' with hs := s.hs.set i (some s.alloc.2) }, _, by simp only [State.step, hh, hclear], h5.mono _ ?_ ?_ (by omega)⟩
    · intro h' e
      rw [h2]
      rw [List.set_append_left _ _ (lt_of_some hh)]
      rw [List.mem_append]
      obtain ⟨i', hi'⟩ := List.getElem?_of_mem e
      rw [getElem?_set' (lt_of_some hh)] at hi'
      by_cases hii : i = i'
      · rw [if_pos hii] at hi'
        right; rw [← Option.some.inj hi']; simp
      · rw [if_neg hii] at hi'
        left
        refine List.mem_of_getElem? (i := i') ?_
        rw [getElem?_set' (lt_of_some hh), if_neg hii]; exact hi'
    · intro c hc
      rw [h2, List.set_append_left _ _ (lt_of_some hh), List.countP_append, List.countP_singleton]
      have e1 := countP_set' (uses c) s.hs i none (some h) hh
      have e2 := countP_set' (uses c) s.hs i (some s.alloc.2) (some h) hh
      have e3 : uses c none = false := rfl
      rw [e3] at e1
      simp only [Bool.false_eq_true, if_false] at e1
      omega

/-- (specification) the operations of a history name live handles only; `P` restricts the operations -/
def Valid (P : Op → Prop) : List Op → State → Prop
  | [], _ => True
  | op :: ops, s => P op ∧ Args s op ∧ ∀ s', s.step op = some s' → Valid P ops s'

theorem Inv.init (exact : Prop) : Inv exact 0 [] State.init := by
  refine ⟨rfl, rfl, ?_, ?_, ?_⟩ <;> intro i <;> simp [State.init]

theorem Inv.run {exact : Prop} (P : Op → Prop) (hP : ∀ op, P op → op ≠ .makeNull) (hP' : exact → ∀ op, P op → ∀ i j, op ≠ .assign i j) (ops : List Op) :
    ∀ {k : Nat} {K : List Bool} {s : State}, k + 2 * ops.length < wrap → Inv exact k K s → Valid P ops s →
      ∃ s' K', APtr.run ops s = some s' ∧ Inv exact (k + 2 * ops.length) K' s' := by
  induction ops with
  | nil => intro k K s _ I _; exact ⟨s, K, rfl, I⟩
  | cons op ops ih =>
    intro k K s hk I hv
    obtain ⟨h1, h2, h3⟩ := hv
    simp only [List.length_cons] at hk
    obtain ⟨s', K', e, J⟩ := I.step (by omega) op (hP op h1) (fun he => hP' he op h1) h2
    obtain ⟨s'', K'', e', J'⟩ := ih (by omega) J (h3 s' e)
    refine ⟨s'', K'', by simp only [APtr.run, e, e'], ?_⟩
    rw [List.length_cons, show k + 2 * (ops.length + 1) = k + 2 + 2 * ops.length by omega]
    exact J'

/-- **Safety.**  In every history of fewer than 2^31 operations on live handles that never wraps a null pointer, no released memory is touched and
nothing is released twice; at the end every live handle refers to its counter, which is not released, and to a live object or to none. -/
theorem C169_safe_partial (ops : List Op) (hlen : ops.length < 2 ^ 31) (hv : Valid (fun op => op ≠ .makeNull) ops State.init) :
    ∃ s, run ops State.init = some s ∧ ∀ (i : Nat) h, s.hs[i]? = some (some h) →
      (∃ n, s.ctrs[h.c]? = some (some n)) ∧ (∀ o, h.p = some o → s.objs[o]? = some true) := by
  obtain ⟨s, K, e, J⟩ := Inv.run (exact := False) _ (fun _ h => h) (fun h => h.elim) ops (by simp only [wrap]; omega) (Inv.init False) hv
  refine ⟨s, e, fun i h hh => ?_⟩
  rcases J.handle hh with ⟨hp, _, n, a1, a2, _⟩ | ⟨hp, _, _, n, a1, _⟩
  · refine ⟨⟨n, a1⟩, fun o ho => ?_⟩
    rw [hp] at ho; cases ho; exact a2
  · refine ⟨⟨n, a1⟩, fun o ho => ?_⟩
    rw [hp] at ho; cases ho

/-- **Exact lifetime.**  If the history does not assign either, an object is alive exactly as long as a live handle refers to it, and the counter a
handle with an object reports is the number of live handles that refer to that object. -/
theorem C169_exact (ops : List Op) (hlen : ops.length < 2 ^ 31)
    (hv : Valid (fun op => op ≠ .makeNull ∧ ∀ i j, op ≠ .assign i j) ops State.init) :
    ∃ s, run ops State.init = some s ∧
      (∀ o : Nat, s.objs[o]? = some true ↔ ∃ (i : Nat) (h : Handle), s.hs[i]? = some (some h) ∧ h.p = some o) ∧
      (∀ (i : Nat) h o, s.hs[i]? = some (some h) → h.p = some o →
        s.ctrs[h.c]? = some (some (s.hs.countP (fun g => match g with | some g => g.p == some o | none => false)))) := by
  obtain ⟨s, K, e, J⟩ := Inv.run (exact := True) _ (fun _ h => h.1) (fun _ _ h => h.2) ops (by simp only [wrap]; omega) (Inv.init True) hv
  have hcnt : ∀ o : Nat, K[o]? = some true →
      s.hs.countP (fun g => match g with | some g => g.p == some o | none => false) = users s o := by
    intro o ho
    rw [users_eq]
    refine List.countP_congr fun g hg => ?_
    cases g with
    | none => simp [uses]
    | some g =>
      obtain ⟨i, hi⟩ := List.getElem?_of_mem hg
      obtain ⟨b, hb, hp⟩ := J.wf i g hi
      simp only [uses, hp, beq_iff_eq]
      constructor
      · intro h
        cases b with
        | true => simpa using h
        | false => simp at h
      · intro h
        rw [h, ho] at hb
        cases hb
        simp [h]
  refine ⟨s, e, fun o => ⟨fun h => ?_, ?_⟩, ?_⟩
  · have hlt := lt_of_some h
    rw [J.lenO] at hlt
    have hK : K[o]? = some K[o] := List.getElem?_eq_getElem hlt
    cases hb : K[o] with
    | false => rw [hb] at hK; have := (J.nullk o hK).1; rw [h] at this; cases this
    | true =>
      rw [hb] at hK
      rcases J.objk o hK with ⟨n, _, _, a3, _, _, a6⟩ | ⟨_, a2, _⟩
      · have hpos : 0 < s.hs.countP (uses o) := by have := a6 trivial; rw [users_eq] at this; omega
        obtain ⟨g, hg, hu⟩ := List.countP_pos_iff.1 hpos
        cases g with
        | none => simp [uses] at hu
        | some g =>
          simp only [uses, beq_iff_eq] at hu
          obtain ⟨i, hi⟩ := List.getElem?_of_mem hg
          obtain ⟨b, hb', hp⟩ := J.wf i g hi
          rw [hu, hK] at hb'
          cases hb'
          exact ⟨i, g, hi, by rw [hp, hu]; rfl⟩
      · rw [h] at a2; cases a2
  · rintro ⟨i, h, hi, hp⟩
    rcases J.handle hi with ⟨hp', _, n, _, a2, _⟩ | ⟨hp', _⟩
    · rw [hp] at hp'; cases hp'; exact a2
    · rw [hp] at hp'; cases hp'
  · intro i h o hi hp
    rcases J.handle hi with ⟨hp', hK, n, a1, _, _, _, _, a6⟩ | ⟨hp', _⟩
    · rw [hp] at hp'; cases hp'
      rw [hcnt _ hK, ← a6 trivial]; exact a1
    · rw [hp] at hp'; cases hp'

/-- (specification) a checkable form of `Valid` for the examples -/
def validB (P : Op → Bool) : List Op → State → Bool
  | [], _ => true
  | op :: ops, s => P op &&
    (match op with
      | .copy i | .destroy i | .reset i => (s.hs[i]?.join).isSome
      | .assign i j | .swap i j => (s.hs[i]?.join).isSome && (s.hs[j]?.join).isSome
      | _ => true) &&
    (match s.step op with | some s' => validB P ops s' | none => true)

theorem live_of {s : State} {i : Nat} (h : (s.hs[i]?.join).isSome = true) : Live s i := by
  unfold Live
  revert h
  generalize s.hs[i]? = o
  rcases o with _ | _ | h <;> simp

theorem valid_of {P : Op → Prop} {Q : Op → Bool} (hQ : ∀ op, Q op = true → P op) (ops : List Op) :
    ∀ s, validB Q ops s = true → Valid P ops s := by
  induction ops with
  | nil => intro s _; trivial
  | cons op ops ih =>
    intro s h
    simp only [validB, Bool.and_eq_true] at h
    obtain ⟨⟨h1, h2⟩, h3⟩ := h
    refine ⟨hQ op h1, ?_, fun s' e => ?_⟩
    · cases op <;> simp only [Bool.and_eq_true] at h2 <;> first
        | trivial
        | exact live_of h2
        | exact ⟨live_of h2.1, live_of h2.2⟩
    · rw [e] at h3; exact ih s' h3

/-- The hypotheses are met: copies, a swap, an assignment, a reset and destructions. -/
example : Valid (fun op => op ≠ .makeNull) [.make, .copy 0, .default, .assign 2 1, .swap 0 2, .reset 1, .destroy 0, .destroy 2] State.init :=
  valid_of (Q := fun op => decide (op ≠ .makeNull)) (fun _ h => of_decide_eq_true h) _ _ (by decide +kernel)

example : Valid (fun op => op ≠ .makeNull ∧ ∀ i j, op ≠ .assign i j) [.make, .copy 0, .default, .copy 2, .swap 0 2, .reset 1, .destroy 0, .destroy 2] State.init :=
  valid_of (Q := fun op => match op with | .makeNull => false | .assign _ _ => false | _ => true)
    (fun op h => by cases op <;> simp at h ⊢) _ _ (by decide +kernel)

/-- **Violated: assignment leaks.**  Two objects, the second assigned over the first, both handles destroyed: the first object and its counter are
never released, and the second, whose two handles are gone, is. -/
theorem C169_assign_leaks :
    (run [.make, .make, .assign 0 1, .destroy 0, .destroy 1] State.init).map (fun s => (s.objs, s.ctrs, s.hs)) =
      some ([true, false], [some 1, none], [none, none]) := by decide +kernel

/-- Assigning a handle to itself is counted as one more user, so its object is never released. -/
theorem C169_self_assign_leaks :
    (run [.make, .assign 0 0, .destroy 0] State.init).map (fun s => (s.objs, s.ctrs)) = some ([true], [some 1]) := by decide +kernel

/-- **Violated: a copied wrapper of a null pointer.**  The copy is not counted, so the first destruction releases the counter and the second one
uses it. -/
theorem C169_null_copy_undefined : run [.makeNull, .copy 0, .destroy 0, .destroy 1] State.init = none := by decide +kernel

/-- A default handle's counter starts at zero, so its destruction wraps the counter around and never releases it. -/
theorem C169_default_leaks :
    (run [.default, .destroy 0] State.init).map (fun s => s.ctrs) = some [some (2 ^ 32 - 1)] := by decide +kernel

/-- **Violated: destruction by two threads.**  Both decrement, both then see zero: the second one uses the released counter. -/
theorem C169_race : Shared.run [0, 1, 1, 0] (Shared.start 2) = none := by decide +kernel

/-- one thread's destruction without interruption -/
theorem Shared.turn (n : Nat) (hn : n < wrap) (pcs : List Pc) (i : Nat) (hi : pcs[i]? = some .dec) :
    Shared.run [i, i] { ctr := some (n + 1), alive := true, pcs := pcs } =
      some { ctr := if n = 0 then none else some n, alive := decide (n ≠ 0), pcs := pcs.set i .done } := by
  have hlt := lt_of_some hi
  have e : (n + 1 + (wrap - 1)) % wrap = n := by
    have : 1 ≤ wrap := by decide
    rw [show n + 1 + (wrap - 1) = n + wrap by omega, Nat.add_mod_right, Nat.mod_eq_of_lt hn]
  have h2 : (pcs.set i .test)[i]? = some .test := by rw [getElem?_set' hlt, if_pos rfl]
  simp only [Shared.run, Shared.step, hi, e, h2]
  cases n with
  | zero => simp
  | succ n => simp

/-- **Destruction without interruption.**  If each of `n` threads destroys its handle without being interrupted between the decrement and the test,
in any order, the object and its counter are released exactly once and nothing undefined happens. -/
theorem C169_turns (n : Nat) (hn : 0 < n) (hw : n < wrap) (order : List Nat) (hp : order.Perm (List.range n)) :
    Shared.run (order.flatMap (fun i => [i, i])) (Shared.start n) = some { ctr := none, alive := false, pcs := List.replicate n .done } := by
  have app : ∀ (a b : List Nat) (s : Shared), Shared.run (a ++ b) s = (Shared.run a s).bind (Shared.run b) := by
    intro a
    induction a with
    | nil => intro b s; rfl
    | cons i a ih =>
      intro b s
      simp only [List.cons_append, Shared.run]
      cases s.step i with
      | none => rfl
      | some s' => exact ih b s'
  have key : ∀ (l : List Nat) (m : Nat) (pcs : List Pc), l.length = m + 1 → m < wrap → l.Nodup → (∀ i ∈ l, pcs[i]? = some .dec) →
      Shared.run (l.flatMap (fun i => [i, i])) { ctr := some (m + 1), alive := true, pcs := pcs } =
        some { ctr := none, alive := false, pcs := l.foldl (fun p i => p.set i .done) pcs } := by
    intro l
    induction l with
    | nil => intro m pcs h; cases h
    | cons i l ih =>
      intro m pcs hl hm hnd hall
      rw [List.flatMap_cons, app, Shared.turn m hm pcs i (hall i (by simp)), Option.bind_some, List.foldl_cons]
      cases m with
      | zero =>
        have : l = [] := by simpa using hl
        subst this
        rfl
      | succ m =>
        rw [if_neg (Nat.succ_ne_zero m), show decide (m + 1 ≠ 0) = true by simp]
        refine ih m _ (by simpa using hl) (by omega) (List.nodup_cons.1 hnd).2 ?_
        intro j hj
        have hij : i ≠ j := fun e => (List.nodup_cons.1 hnd).1 (e ▸ hj)
        rw [getElem?_set' (lt_of_some (hall i (by simp))), if_neg hij]
        exact hall j (by simp [hj])
  have hlen : order.length = n := by rw [hp.length_eq, List.length_range]
  have hnd : order.Nodup := hp.nodup_iff.2 List.nodup_range
  have hmem : ∀ i, i ∈ order ↔ i < n := fun i => by rw [hp.mem_iff, List.mem_range]
  obtain ⟨m, rfl⟩ : ∃ m, n = m + 1 := ⟨n - 1, by omega⟩
  have h := key order m (List.replicate (m + 1) .dec) hlen (by omega) hnd
    (fun i hi => by rw [List.getElem?_replicate, if_pos ((hmem i).1 hi)])
  rw [show Shared.start (m + 1) = { ctr := some (m + 1), alive := true, pcs := List.replicate (m + 1) .dec } from rfl, h]
  congr 2
  have len : ∀ (l : List Nat) (p : List Pc), (l.foldl (fun p i => p.set i .done) p).length = p.length := by
    intro l
    induction l with
    | nil => intro p; rfl
    | cons i l ih => intro p; rw [List.foldl_cons, ih, List.length_set]
  have get : ∀ (l : List Nat) (p : List Pc) (j : Nat), j < p.length → j ∈ l ∨ p[j]? = some .done →
      (l.foldl (fun p i => p.set i .done) p)[j]? = some .done := by
    intro l
    induction l with
    | nil => intro p j _ h; rcases h with h | h; · simp at h
             · exact h
    | cons i l ih =>
      intro p j hj h
      rw [List.foldl_cons]
      refine ih _ j (by simpa using hj) ?_
      by_cases hij : i = j
      · subst hij; right; rw [getElem?_set' hj, if_pos rfl]
      · rcases h with h | h
        · rcases List.mem_cons.1 h with h | h
          · exact absurd h.symm hij
          · exact Or.inl h
        · right
          rw [List.getElem?_set_ne hij]; exact h
  refine List.ext_getElem? fun j => ?_
  by_cases hj : j < m + 1
  · rw [get order _ j (by simpa using hj) (Or.inl ((hmem j).2 hj)), List.getElem?_replicate, if_pos hj]
  · rw [List.getElem?_eq_none (by rw [len]; simpa using hj), List.getElem?_eq_none (by simpa using hj)]

example : [2, 0, 1].Perm (List.range 3) := by decide +kernel

end Verif.APtr
