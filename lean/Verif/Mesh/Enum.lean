import Verif.Mesh.Chain
import Mathlib.Data.Nat.Factorial.Basic
namespace Verif.SRM

theorem vle_insert {u v : Vtx} (h : List.Forall₂ (· ≤ ·) u v) (i : Nat) (x : Int) :
    List.Forall₂ (· ≤ ·) (u.insertIdx i x) (v.insertIdx i x) := by
  induction h generalizing i with
  | nil =>
    cases i with
    | zero => simp
    | succ i => simp
  | cons hab h' ih =>
    cases i with
    | zero => exact List.Forall₂.cons (Int.le_refl x) (List.Forall₂.cons hab h')
    | succ i => exact List.Forall₂.cons hab (ih i)

theorem vle_erase {u v : Vtx} (h : List.Forall₂ (· ≤ ·) u v) (i : Nat) :
    List.Forall₂ (· ≤ ·) (u.eraseIdx i) (v.eraseIdx i) := by
  induction h generalizing i with
  | nil => simp
  | cons hab h' ih =>
    cases i with
    | zero => exact h'
    | succ i => exact List.Forall₂.cons hab (ih i)

theorem vle_ones {n : Nat} {v : Vtx} (h : Cube n v) : List.Forall₂ (· ≤ ·) v (List.replicate n 1) := by
  obtain ⟨rfl, h⟩ := h
  induction v with
  | nil => simp
  | cons a as ih =>
    refine List.Forall₂.cons ?_ (ih (fun x hx => h x (by simp [hx])))
    have := h a (by simp); omega

theorem zeros_vle {n : Nat} {v : Vtx} (h : Cube n v) : List.Forall₂ (· ≤ ·) (List.replicate n 0) v := by
  obtain ⟨rfl, h⟩ := h
  induction v with
  | nil => simp
  | cons a as ih =>
    refine List.Forall₂.cons ?_ (ih (fun x hx => h x (by simp [hx])))
    have := h a (by simp); omega

theorem cube_sum_le {n : Nat} {v : Vtx} (h : Cube n v) : v.sum ≤ n := by
  have := vle_sum (vle_ones h)
  simpa using this

theorem cube_ones (n : Nat) : Cube n (List.replicate n 1) :=
  ⟨by simp, fun x hx => Or.inr (List.eq_of_mem_replicate hx)⟩

theorem cube_eq_ones {n : Nat} {v : Vtx} (h : Cube n v) (hs : (n : Int) ≤ v.sum) :
    v = List.replicate n 1 := by
  by_contra hne
  have := vlt_sum (vle_ones h) hne
  simp at this
  omega

/-- sums grow by at least one along a chain -/
theorem chain_sum : ∀ (s : Simplex) (u w : Vtx), (u :: s ++ [w]).Pairwise VLt →
    u.sum + s.length + 1 ≤ w.sum := by
  intro s
  induction s with
  | nil =>
    intro u w h
    have h1 := (List.pairwise_cons.1 h).1 w (by simp)
    have := vlt_sum h1.1 h1.2
    simp; omega
  | cons a as ih =>
    intro u w h
    rw [List.cons_append, List.pairwise_cons] at h
    have h1 := h.1 a (by simp)
    have h2 := vlt_sum h1.1 h1.2
    have h3 := ih a w h.2
    simp only [List.length_cons]
    push_cast
    omega

theorem lift_kuhn {n i : Nat} {s : Simplex} (hi : i < n + 1) (h : Kuhn n n s) :
    Kuhn (n + 1) (n + 1) (lift (n + 1) i s) := by
  have hcube : ∀ v ∈ s, Cube (n + 1) (v.insertIdx i 0) := by
    intro v hv
    have hc := h.cube v hv
    refine ⟨by rw [List.length_insertIdx_of_le_length (by rw [hc.1]; omega), hc.1], ?_⟩
    intro x hx
    rw [List.mem_insertIdx (by rw [hc.1]; omega)] at hx
    rcases hx with rfl | hx
    · exact Or.inl rfl
    · exact hc.2 x hx
  refine ⟨by simp [lift, h.len], ?_, ?_, ?_⟩
  · intro v hv
    unfold lift at hv
    rcases List.mem_append.1 hv with hv | hv
    · obtain ⟨w, hw, rfl⟩ := List.mem_map.1 hv
      exact hcube w hw
    · rw [List.mem_singleton.1 hv]; exact cube_ones _
  · have hne := h.ne_nil
    cases s with
    | nil => exact absurd rfl hne
    | cons a as =>
      have := h.head
      simp only [List.head?_cons, Option.some.injEq] at this
      subst this
      simp only [lift, List.map_cons, List.cons_append, List.head?_cons, Option.some.injEq]
      apply List.ext_getElem?
      intro j
      rw [List.getElem?_insertIdx]
      simp only [List.getElem?_replicate, List.length_replicate]
      split <;> split <;> (try split) <;> (try split) <;> first | rfl | omega
  · unfold lift
    rw [List.pairwise_append]
    refine ⟨?_, by simp, ?_⟩
    · rw [List.pairwise_map]
      refine h.chain.imp ?_
      intro a b hab
      refine ⟨vle_insert hab.1 i 0, fun e => hab.2 ?_⟩
      rw [← List.eraseIdx_insertIdx_self (l := a) (i := i) 0, e, List.eraseIdx_insertIdx_self]
    · intro a ha b hb
      rw [List.mem_singleton.1 hb]
      obtain ⟨w, hw, rfl⟩ := List.mem_map.1 ha
      refine ⟨vle_ones (hcube w hw), fun e => ?_⟩
      have h1 : (w.insertIdx i 0)[i]? = some 0 := by
        rw [List.getElem?_insertIdx_self, if_pos (by rw [(h.cube w hw).1]; omega)]
      rw [e, List.getElem?_replicate, if_pos hi] at h1
      simp at h1

theorem subdivide_kuhn : ∀ (n : Nat) (s : Simplex), s ∈ subdivide n → Kuhn n n s := by
  intro n
  match n with
  | 0 => intro s h; simp [subdivide] at h
  | 1 =>
    intro s h
    simp [subdivide] at h
    subst h
    refine ⟨rfl, ?_, rfl, ?_⟩
    · intro v hv
      simp at hv
      rcases hv with rfl | rfl <;> exact ⟨rfl, by simp⟩
    · simp [VLt]
  | n + 2 =>
    intro s h
    simp only [subdivide, List.mem_flatMap, List.mem_range, List.mem_map] at h
    obtain ⟨i, hi, s', hs', rfl⟩ := h
    exact lift_kuhn hi (subdivide_kuhn (n + 1) s' hs')

/-- peel the last vertex off a maximal chain -/
theorem kuhn_peel {n : Nat} {s : Simplex} (h : Kuhn (n + 1) (n + 1) s) :
    ∃ i s', i < n + 1 ∧ Kuhn n n s' ∧ s = lift (n + 1) i s' := by
  obtain ⟨ini, w, rfl⟩ : ∃ ini w, s = ini ++ [w] := ⟨s.dropLast, s.getLast h.ne_nil,
    (List.dropLast_append_getLast _).symm⟩
  have hl : ini.length = n + 1 := by have := h.len; simpa using this
  obtain ⟨ini', z, rfl⟩ : ∃ ini' z, ini = ini' ++ [z] := ⟨ini.dropLast,
    ini.getLast (by rintro rfl; simp at hl), (List.dropLast_append_getLast _).symm⟩
  -- the top is all ones
  have hw : w = List.replicate (n + 1) 1 := by
    apply cube_eq_ones (h.cube w (by simp))
    cases hi : ini' ++ [z] with
    | nil => simp at hi
    | cons a as =>
      have h1 := h.chain
      rw [hi] at h1 hl
      have h2 := chain_sum as a w h1
      have h3 := h.head
      rw [hi] at h3
      simp only [List.cons_append, List.head?_cons, Option.some.injEq] at h3
      rw [h3] at h2
      simp at hl h2
      push_cast
      omega
  have hzw : VLt z w := by
    have := h.chain
    rw [List.pairwise_append] at this
    exact this.2.2 z (by simp) w (by simp)
  have hz := h.cube z (by simp)
  -- a coordinate where z is zero
  obtain ⟨i, hi, hzi⟩ : ∃ i, i < n + 1 ∧ z[i]? = some 0 := by
    by_contra hc
    apply hzw.2
    rw [hw]
    apply List.ext_getElem?
    intro j
    rw [List.getElem?_replicate]
    by_cases hj : j < n + 1
    · rw [if_pos hj]
      have hj' : j < z.length := by rw [hz.1]; exact hj
      rw [List.getElem?_eq_getElem hj']
      rcases hz.2 _ (List.getElem_mem hj') with h0 | h1
      · exact absurd ⟨j, hj, by rw [List.getElem?_eq_getElem hj', h0]⟩ hc
      · rw [h1]
    · rw [if_neg hj, List.getElem?_eq_none (by rw [hz.1]; omega)]
  have hzero : ∀ v ∈ ini' ++ [z], v[i]? = some 0 := by
    intro v hv
    have hvc := h.cube v (by simp only [List.mem_append] at hv ⊢; exact Or.inl hv)
    have hvz : List.Forall₂ (· ≤ ·) v z := by
      rcases List.mem_append.1 hv with hv | hv
      · have := h.chain
        rw [List.append_assoc, List.pairwise_append] at this
        exact (this.2.2 v hv z (by simp)).1
      · rw [List.mem_singleton.1 hv]; exact vle_refl z
    have hi' : i < v.length := by rw [hvc.1]; exact hi
    have h1 := vle_getElem hvz i _ _ (List.getElem?_eq_getElem hi') hzi
    rw [List.getElem?_eq_getElem hi']
    rcases hvc.2 _ (List.getElem_mem hi') with h0 | h0
    · rw [h0]
    · omega
  have hback : ∀ v ∈ ini' ++ [z], (v.eraseIdx i).insertIdx i 0 = v := by
    intro v hv
    obtain ⟨hlt, hv0⟩ := List.getElem?_eq_some_iff.1 (hzero v hv)
    have := List.insertIdx_eraseIdx_getElem hlt
    rw [hv0] at this
    exact this
  refine ⟨i, (ini' ++ [z]).map (fun v => v.eraseIdx i), hi, ⟨by simpa using hl, ?_, ?_, ?_⟩, ?_⟩
  · intro v hv
    obtain ⟨u, hu, rfl⟩ := List.mem_map.1 hv
    have huc := h.cube u (by simp only [List.mem_append] at hu ⊢; exact Or.inl hu)
    refine ⟨by rw [List.length_eraseIdx_of_lt (by rw [huc.1]; exact hi), huc.1]; rfl, ?_⟩
    intro x hx
    exact huc.2 x (List.mem_of_mem_eraseIdx hx)
  · have h3 := h.head
    cases hc : ini' ++ [z] with
    | nil => simp at hc
    | cons a as =>
      rw [hc] at h3
      simp only [List.cons_append, List.head?_cons, Option.some.injEq] at h3
      subst h3
      simp only [List.map_cons, List.head?_cons, Option.some.injEq]
      apply List.ext_getElem?
      intro j
      rw [List.getElem?_eraseIdx]
      simp only [List.getElem?_replicate]
      split <;> split <;> (try split) <;> first | rfl | omega
  · rw [List.pairwise_map]
    have h1 : (ini' ++ [z]).Pairwise VLt := (List.pairwise_append.1 h.chain).1
    refine h1.imp_of_mem ?_
    intro a b ha hb hab
    refine ⟨vle_erase hab.1 i, fun e => hab.2 ?_⟩
    rw [← hback a ha, e, hback b hb]
  · unfold lift
    rw [List.map_map, hw]
    congr 1
    symm
    conv_rhs => rw [← List.map_id (ini' ++ [z])]
    apply List.map_congr_left
    intro v hv
    exact hback v hv

theorem kuhn_subdivide : ∀ (n : Nat) (s : Simplex), 1 ≤ n → Kuhn n n s → s ∈ subdivide n := by
  intro n
  match n with
  | 0 => intro s h; omega
  | 1 =>
    intro s _ h
    obtain ⟨i, s', hi, hs', rfl⟩ := kuhn_peel h
    have : i = 0 := by omega
    subst this
    have hl := hs'.len
    have hh := hs'.head
    match s', hl with
    | [v], _ =>
      simp at hh
      subst hh
      simp [subdivide, lift]
  | n + 2 =>
    intro s _ h
    obtain ⟨i, s', hi, hs', rfl⟩ := kuhn_peel h
    simp only [subdivide, List.mem_flatMap, List.mem_range, List.mem_map]
    exact ⟨i, hi, s', kuhn_subdivide (n + 1) s' (by omega) hs', rfl⟩

/-! distinctness and number -/

theorem lift_inj {n i j : Nat} {s t : Simplex} (hi : i < n + 1) (hj : j < n + 1) (hs : Kuhn n n s)
    (ht : Kuhn n n t) (h : lift (n + 1) i s = lift (n + 1) j t) : i = j ∧ s = t := by
  unfold lift at h
  have h1 := (List.append_left_inj _).1 h
  -- the last vertex of s and t is all ones
  have top : ∀ u, Kuhn n n u → ∃ a, u = a ++ [List.replicate n 1] := by
    intro u hu
    obtain ⟨ini, w, rfl⟩ : ∃ ini w, u = ini ++ [w] := ⟨u.dropLast, u.getLast hu.ne_nil,
      (List.dropLast_append_getLast _).symm⟩
    refine ⟨ini, ?_⟩
    congr 2
    apply cube_eq_ones (hu.cube w (by simp))
    have hl : ini.length = n := by have := hu.len; simpa using this
    cases ini with
    | nil =>
      simp at hl; subst hl
      have := hu.head
      simp at this
      subst this; simp
    | cons a as =>
      have h2 := chain_sum as a w hu.chain
      have h3 := hu.head
      simp only [List.cons_append, List.head?_cons, Option.some.injEq] at h3
      rw [h3] at h2
      simp at hl h2
      omega
  obtain ⟨a, rfl⟩ := top s hs
  obtain ⟨b, rfl⟩ := top t ht
  rw [List.map_append, List.map_append] at h1
  have hlen : a.length = b.length := by
    have := hs.len; have := ht.len
    simp at *; omega
  have h2 := List.append_inj h1 (by simp [hlen])
  have h3 := h2.2
  simp only [List.map_cons, List.map_nil, List.cons.injEq, and_true] at h3
  have hij : i = j := by
    by_contra hne
    have e : ((List.replicate n (1 : Int)).insertIdx i 0)[i]? =
        ((List.replicate n (1 : Int)).insertIdx j 0)[i]? := by rw [h3]
    rw [List.getElem?_insertIdx_self, if_pos (by simp; omega), List.getElem?_insertIdx] at e
    simp only [List.getElem?_replicate, if_neg hne] at e
    split at e <;> split at e <;> simp at e
  subst hij
  refine ⟨rfl, ?_⟩
  have : Function.Injective (fun v : Vtx => v.insertIdx i 0) := by
    intro u v huv
    simp only at huv
    rw [← List.eraseIdx_insertIdx_self (l := u) (i := i) 0, huv, List.eraseIdx_insertIdx_self]
  rw [List.map_injective_iff.2 this h2.1]

theorem subdivide_length : ∀ n, 1 ≤ n → (subdivide n).length = n.factorial := by
  intro n
  match n with
  | 0 => intro h; omega
  | 1 => intro _; rfl
  | n + 2 =>
    intro _
    have ih := subdivide_length (n + 1) (by omega)
    simp only [subdivide, List.length_flatMap, List.length_map, ih]
    rw [List.map_const', List.length_range, Nat.factorial_succ (n + 1)]
    have : ∀ a b : Nat, (List.replicate a b).sum = a * b := by
      intro a b
      induction a with
      | zero => simp
      | succ a ih => rw [List.replicate_succ, List.sum_cons, ih]; ring
    rw [this]

theorem subdivide_nodup : ∀ n, (subdivide n).Nodup := by
  intro n
  match n with
  | 0 => simp [subdivide]
  | 1 => simp [subdivide]
  | n + 2 =>
    have ih := subdivide_nodup (n + 1)
    simp only [subdivide]
    rw [List.nodup_flatMap]
    refine ⟨?_, ?_⟩
    · intro i hi
      rw [List.mem_range] at hi
      refine List.Nodup.map_on ?_ ih
      intro s hs t ht e
      exact (lift_inj hi hi (subdivide_kuhn _ s hs) (subdivide_kuhn _ t ht) e).2
    · refine List.Pairwise.imp_of_mem ?_ (List.nodup_range (n := n + 2))
      intro i j hi hj hne
      rw [List.mem_range] at hi hj
      rw [Function.onFun, List.disjoint_left]
      intro x hx hx'
      obtain ⟨s, hs, rfl⟩ := List.mem_map.1 hx
      obtain ⟨t, ht, e⟩ := List.mem_map.1 hx'
      exact hne (lift_inj hj hi (subdivide_kuhn _ t ht) (subdivide_kuhn _ s hs) e).1.symm

/-! ### lower-dimensional simplices -/

/-- between two vertices at distance at least two there is a third -/
theorem between {n : Nat} {u v : Vtx} (hu : Cube n u) (hv : Cube n v)
    (hle : List.Forall₂ (· ≤ ·) u v) (h2 : u.sum + 2 ≤ v.sum) :
    ∃ w, Cube n w ∧ VLt u w ∧ VLt w v := by
  -- raise the first differing coordinate
  have key : ∀ {u v : Vtx}, List.Forall₂ (· ≤ ·) u v → u.sum + 1 ≤ v.sum →
      (∀ x ∈ u, x = 0 ∨ x = 1) → (∀ x ∈ v, x = 0 ∨ x = 1) →
      ∃ w : Vtx, w.length = u.length ∧ (∀ x ∈ w, x = 0 ∨ x = 1) ∧ List.Forall₂ (· ≤ ·) u w ∧
        List.Forall₂ (· ≤ ·) w v ∧ w.sum = u.sum + 1 := by
    intro u v h
    induction h with
    | nil => intro h; simp at h
    | @cons a b as bs hab h' ih =>
      intro hs hu hv
      simp only [List.sum_cons] at hs
      have ha := hu a (by simp)
      have hb := hv b (by simp)
      by_cases hEq : a = b
      · subst hEq
        obtain ⟨w, h1, h2, h3, h4, h5⟩ := ih (by omega) (fun x hx => hu x (by simp [hx]))
          (fun x hx => hv x (by simp [hx]))
        refine ⟨a :: w, by simp [h1], ?_, List.Forall₂.cons (Int.le_refl a) h3,
          List.Forall₂.cons (Int.le_refl a) h4, by simp only [List.sum_cons]; omega⟩
        intro x hx
        rcases List.mem_cons.1 hx with rfl | hx
        · exact ha
        · exact h2 x hx
      · refine ⟨b :: as, by simp, ?_, List.Forall₂.cons hab (vle_refl as),
          List.Forall₂.cons (Int.le_refl b) h', by simp only [List.sum_cons]; omega⟩
        intro x hx
        rcases List.mem_cons.1 hx with rfl | hx
        · exact hb
        · exact hu x (by simp [hx])
  obtain ⟨w, h1, h2', h3, h4, h5⟩ := key hle (by omega) hu.2 hv.2
  refine ⟨w, ⟨by rw [h1, hu.1], h2'⟩, ⟨h3, ?_⟩, ⟨h4, ?_⟩⟩
  · rintro rfl; omega
  · rintro rfl; omega

theorem insert_chain {a b : Simplex} {w : Vtx} (h : (a ++ b).Pairwise VLt)
    (h1 : ∀ u ∈ a, VLt u w) (h2 : ∀ v ∈ b, VLt w v) : (a ++ w :: b).Pairwise VLt := by
  rw [List.pairwise_append] at h ⊢
  refine ⟨h.1, List.pairwise_cons.2 ⟨h2, h.2.1⟩, ?_⟩
  intro x hx y hy
  rcases List.mem_cons.1 hy with rfl | hy
  · exact h1 x hx
  · exact h.2.2 x hx y hy

/-- a chain with room between its ends can be refined -/
theorem refine_chain {n : Nat} : ∀ (s : Simplex) (u : Vtx), (u :: s).Pairwise VLt →
    (∀ v ∈ u :: s, Cube n v) →
    u.sum + s.length < ((u :: s).getLast (by simp)).sum →
    ∃ a b w, u :: s = u :: (a ++ b) ∧ Cube n w ∧ (u :: (a ++ w :: b)).Pairwise VLt := by
  intro s
  induction s with
  | nil => intro u _ _ h; simp at h
  | cons v s ih =>
    intro u hp hc hlt
    rw [List.pairwise_cons] at hp
    have huv := hp.1 v (by simp)
    have hsum := vlt_sum huv.1 huv.2
    by_cases h2 : u.sum + 2 ≤ v.sum
    · obtain ⟨w, hw, h3, h4⟩ := between (hc u (by simp)) (hc v (by simp)) huv.1 h2
      refine ⟨[], v :: s, w, rfl, hw, ?_⟩
      rw [List.nil_append, List.pairwise_cons, List.pairwise_cons]
      refine ⟨?_, ?_, hp.2⟩
      · intro x hx
        rcases List.mem_cons.1 hx with rfl | hx
        · exact h3
        · exact hp.1 x hx
      · intro x hx
        rcases List.mem_cons.1 hx with rfl | hx
        · exact h4
        · exact h4.trans ((List.pairwise_cons.1 hp.2).1 x hx)
    · have hlt' : v.sum + s.length < ((v :: s).getLast (by simp)).sum := by
        rw [List.getLast_cons (by simp)] at hlt
        simp only [List.length_cons] at hlt
        push_cast at hlt
        omega
      obtain ⟨a, b, w, h3, h4, h5⟩ := ih v hp.2 (fun x hx => hc x (by simp [hx])) hlt'
      simp only [List.cons.injEq, true_and] at h3
      refine ⟨v :: a, b, w, by simp [h3], h4, ?_⟩
      rw [List.cons_append, List.pairwise_cons]
      refine ⟨?_, h5⟩
      intro x hx
      rcases List.mem_cons.1 hx with rfl | hx
      · exact huv
      · exact huv.trans ((List.pairwise_cons.1 h5).1 x hx)

/-- every lower-dimensional Kuhn simplex is a face, not containing the dropped vertex as first, of
one of the next dimension -/
theorem kuhn_extend {n k : Nat} {s : Simplex} (hk : k < n) (h : Kuhn n k s) :
    ∃ t i, Kuhn n (k + 1) t ∧ 1 ≤ i ∧ i < t.length ∧ t.eraseIdx i = s := by
  obtain ⟨u, r, rfl⟩ : ∃ u r, s = u :: r := by
    cases s with
    | nil => exact absurd rfl h.ne_nil
    | cons u r => exact ⟨u, r, rfl⟩
  have hu := h.head
  simp only [List.head?_cons, Option.some.injEq] at hu
  have hr : r.length = k := by have := h.len; simpa using this
  by_cases htop : (u :: r).getLast (by simp) = List.replicate n 1
  · obtain ⟨a, b, w, h1, h2, h3⟩ := refine_chain r u h.chain h.cube (by
      rw [htop, hu]; simp; omega)
    simp only [List.cons.injEq, true_and] at h1
    subst h1
    refine ⟨u :: (a ++ w :: b), a.length + 1, ⟨?_, ?_, by simp [hu], h3⟩, by omega, by simp, ?_⟩
    · simp at hr ⊢; omega
    · intro v hv
      simp only [List.mem_cons, List.mem_append] at hv
      rcases hv with rfl | hv | rfl | hv
      · exact h.cube v (by simp)
      · exact h.cube v (by simp [hv])
      · exact h2
      · exact h.cube v (by simp [hv])
    · rw [List.eraseIdx_cons_succ, List.eraseIdx_append_of_length_le (le_refl _)]
      simp
  · refine ⟨(u :: r) ++ [List.replicate n 1], r.length + 1, ⟨?_, ?_, by simp [hu], ?_⟩, by omega,
      by simp, ?_⟩
    · simp at hr ⊢; omega
    · intro v hv
      rcases List.mem_append.1 hv with hv | hv
      · exact h.cube v hv
      · rw [List.mem_singleton.1 hv]; exact cube_ones n
    · rw [List.pairwise_append]
      refine ⟨h.chain, by simp, ?_⟩
      intro x hx y hy
      rw [List.mem_singleton.1 hy]
      have hlast : VLt ((u :: r).getLast (by simp)) (List.replicate n 1) :=
        ⟨vle_ones (h.cube _ (List.getLast_mem _)), htop⟩
      by_cases hxe : x = (u :: r).getLast (by simp)
      · rw [hxe]; exact hlast
      · have := h.chain
        rw [← List.dropLast_append_getLast (l := u :: r) (by simp), List.pairwise_append] at this
        have hxd : x ∈ (u :: r).dropLast := by
          rw [← List.dropLast_append_getLast (l := u :: r) (by simp)] at hx
          rcases List.mem_append.1 hx with hx | hx
          · exact hx
          · exact absurd (List.mem_singleton.1 hx) hxe
        exact (this.2.2 x hxd _ (by simp)).trans hlast
    · rw [List.eraseIdx_append_of_length_le (by simp)]
      simp

/-- faces of a Kuhn simplex computed by the code: sort (reduce (permutation minus last)) -/
theorem mem_faces {n k : Nat} {h : Simplex} (hk : Kuhn n (k + 1) h) (x : Simplex) :
    x ∈ (permsFrom h).map (fun p => sort (reduce n (p.take (h.length - 1))).1) ↔
      ∃ i, i < h.length ∧ x = (reduce n (h.eraseIdx i)).1 := by
  have hs := chain_strict hk.chain
  have hsort : ∀ i, i < h.length → ∀ q, q.Perm (h.eraseIdx i) →
      sort (reduce n q).1 = (reduce n (h.eraseIdx i)).1 := by
    intro i hi q hq
    obtain ⟨o, rest, e1, e2, e3, e4, e5⟩ := hk.face i hi
    apply sort_perm (reduce_perm hq).1
    rw [e2]
    exact chain_strict e3.chain
  rw [List.mem_map]
  constructor
  · rintro ⟨p, hp, rfl⟩
    rw [mem_permsFrom hs] at hp
    obtain ⟨i, hi, hq⟩ := perm_dropLast hp hk.ne_nil
    exact ⟨i, hi, hsort i hi _ hq⟩
  · rintro ⟨i, hi, rfl⟩
    obtain ⟨p, hp, e⟩ := exists_perm_dropLast h i hi
    refine ⟨p, (mem_permsFrom hs).2 hp, ?_⟩
    rw [e]
    exact hsort i hi _ (List.Perm.refl _)

theorem sub_zero {n : Nat} {v : Vtx} (h : v.length = n) : sub v (List.replicate n 0) = v := by
  have := sub_translate (o := List.replicate n 0) (v := v) (by simp [h])
  rw [translate_zero h] at this
  exact this

theorem mem_enumAux {n : Nat} (hn : 1 ≤ n) : ∀ j, j ≤ n → ∀ s, s ∈ enumAux n j ↔ Kuhn n (n - j) s := by
  intro j
  induction j with
  | zero =>
    intro _ s
    unfold enumAux
    rw [mem_toSet, List.mem_map]
    constructor
    · rintro ⟨t, ht, rfl⟩
      have := subdivide_kuhn n t ht
      rw [StrictSorted.sort (chain_strict this.chain)]
      exact this
    · intro h
      exact ⟨s, kuhn_subdivide n s hn h, StrictSorted.sort (chain_strict h.chain)⟩
  | succ j ih =>
    intro hj s
    have ih := ih (by omega)
    unfold enumAux
    rw [mem_toSet, List.mem_flatMap]
    have e1 : n - j = (n - (j + 1)) + 1 := by omega
    rw [e1] at ih
    constructor
    · rintro ⟨h, hh, hx⟩
      have hk := (ih h).1 hh
      obtain ⟨i, hi, rfl⟩ := (mem_faces hk s).1 hx
      obtain ⟨o, rest, _, e2, e3, _⟩ := hk.face i hi
      rw [e2]; exact e3
    · intro hs
      obtain ⟨t, i, ht, h1, h2, h3⟩ := kuhn_extend (by omega) hs
      refine ⟨t, (ih t).2 ht, (mem_faces ht s).2 ⟨i, h2, ?_⟩⟩
      obtain ⟨o, rest, e0, e2, _, e4, _⟩ := ht.face i h2
      rw [e2]
      simp only
      have ho : o = List.replicate n 0 := by
        have hh := hs.head
        rw [← h3, e0] at hh
        simpa using hh
      subst ho
      rw [h3]
      symm
      conv_rhs => rw [← List.map_id s]
      apply List.map_congr_left
      intro v hv
      exact sub_zero (hs.cube v hv).1

theorem mem_unitSimplices {n k : Nat} (hn : 1 ≤ n) (hk : k ≤ n) (s : Simplex) :
    s ∈ unitSimplices n k ↔ Kuhn n k s := by
  unfold unitSimplices
  rw [if_pos hk, mem_enumAux hn _ (by omega), Nat.sub_sub_self hk]

theorem unitSimplices_sorted (n k : Nat) : StrictSorted (unitSimplices n k) := by
  unfold unitSimplices
  split
  · cases hj : n - k with
    | zero => exact toSet_sorted _
    | succ j => exact toSet_sorted _
  · simp [StrictSorted]

theorem unitSimplices_nodup (n k : Nat) : (unitSimplices n k).Nodup :=
  (unitSimplices_sorted n k).nodup

end Verif.SRM
