import Verif.HK.Model
import Verif.HK.Spec
import Verif.UnionFind.Refine
/-! Proofs about `hoshen_kopelman_2d`. -/
namespace Verif.HK
open Relation Verif.UF

/-! ### cell order -/

/-- flat index to cell -/
def dec (m p : Nat) : Nat × Nat := (p % m, p / m)

theorem cells_eq (m n : Nat) : cells m n = (List.range (m * n)).map (dec m) := by
  unfold cells
  induction n with
  | zero => simp
  | succ n ih =>
    rw [List.range_succ, List.flatMap_append, ih, Nat.mul_succ, List.range_add, List.map_append]
    congr 1
    simp only [List.flatMap_cons, List.flatMap_nil, List.append_nil, List.map_map]
    refine List.map_congr_left (fun i hi => ?_)
    have hi : i < m := List.mem_range.1 hi
    simp only [Function.comp, dec]
    rw [Nat.mul_add_mod, Nat.mod_eq_of_lt hi, Nat.mul_add_div (by omega), Nat.div_eq_of_lt hi, Nat.add_zero]

theorem idx_dec (m p : Nat) : (dec m p).1 + m * (dec m p).2 = p := Nat.mod_add_div p m

theorem left_idx {m p : Nat} (h : p % m ≠ 0) : p % m - 1 + m * (p / m) = p - 1 := by
  have := Nat.mod_add_div p m; omega

theorem up_idx {m p : Nat} (h : p / m ≠ 0) : p % m + m * (p / m - 1) = p - m := by
  have h1 := Nat.mod_add_div p m
  obtain ⟨d, hd⟩ := Nat.exists_eq_succ_of_ne_zero h
  rw [hd] at h1 ⊢
  rw [Nat.mul_succ] at h1
  simp only [Nat.succ_sub_one]
  omega

theorem getD_set {M : List Nat} {p v : Nat} (hp : p < M.length) (q : Nat) :
    (M.set p v).getD q 0 = if q = p then v else M.getD q 0 := by
  rw [List.getD_eq_getElem?_getD, List.getElem?_set, List.getD_eq_getElem?_getD]
  by_cases h : q = p
  · subst h; simp [hp]
  · simp [h, Ne.symm h]

/-! ### the label forest -/

/-- parents of the labels `1..k` -/
def pf (k : Nat) (L : List Nat) : Nat → Option Nat := fun x => if 1 ≤ x ∧ x ≤ k then L[x]? else none

theorem pf_some {k : Nat} {L : List Nat} {x p : Nat} (h : pf k L x = some p) :
    1 ≤ x ∧ x ≤ k ∧ L[x]? = some p := by
  unfold pf at h
  split at h
  · rename_i h1; exact ⟨h1.1, h1.2, h⟩
  · cases h

theorem pf_set {k : Nat} {L : List Nat} {x v : Nat} (hx : 1 ≤ x ∧ x ≤ k) (hk : k < L.length) :
    pf k (L.set x v) = put (pf k L) x v := by
  funext y
  unfold pf put
  by_cases h : y = x
  · subst h; rw [if_pos hx, List.getElem?_set]; simp; omega
  · rw [if_neg h]
    rw [List.getElem?_set_ne (Ne.symm h)]

/-- label forest invariant: counter `k`, pairs `E` united so far -/
structure LInv (sz k : Nat) (L : List Nat) (E : Nat → Nat → Prop) : Prop where
  len : L.length = sz
  zero : L[0]? = some k
  lt : k < sz
  rep : Rep (pf k L) (fun x => 1 ≤ x ∧ x ≤ k) E

theorem chase_spec {k : Nat} {L : List Nat} {rk : Nat → Nat} (hrk : Ranked (pf k L) rk) :
    ∀ (fuel y r : Nat), rk y ≤ fuel → RootOf (pf k L) y r → chase fuel L y = some r := by
  intro fuel
  induction fuel with
  | zero =>
    intro y r hf h
    cases h with
    | root h => unfold chase; rw [(pf_some h).2.2]; simp
    | step h1 h2 h3 => have := hrk _ _ h1 h2; omega
  | succ fuel ih =>
    intro y r hf h
    unfold chase
    cases h with
    | root h => rw [(pf_some h).2.2]; simp
    | step h1 h2 h3 =>
      rw [(pf_some h1).2.2]
      simp only [h2, if_false]
      have := hrk _ _ h1 h2
      exact ih _ _ (by omega) h3

theorem compress_spec {k : Nat} {rk : Nat → Nat} {E : Nat → Nat → Prop} {D : Nat → Prop} :
    ∀ (fuel : Nat) (L : List Nat) (x y : Nat), k < L.length → Rep (pf k L) D E → Ranked (pf k L) rk →
    rk x ≤ fuel → RootOf (pf k L) x y → ∃ L', compress fuel L x y = some L' ∧ L'.length = L.length ∧
      L'[0]? = L[0]? ∧ Rep (pf k L') D E ∧ ∀ a r, RootOf (pf k L) a r → RootOf (pf k L') a r := by
  intro fuel
  induction fuel with
  | zero =>
    intro L x y hk hR hrk hf h
    cases h with
    | root h => exact ⟨L, by unfold compress; rw [(pf_some h).2.2]; simp, rfl, rfl, hR, fun _ _ h => h⟩
    | step h1 h2 h3 => have := hrk _ _ h1 h2; omega
  | succ fuel ih =>
    intro L x y hk hR hrk hf h
    unfold compress
    have hyroot := h.isRoot
    have hxy := h
    cases h with
    | root h => exact ⟨L, by rw [(pf_some h).2.2]; simp, rfl, rfl, hR, fun _ _ h => h⟩
    | step h1 h2 h3 =>
      rename_i z
      obtain ⟨hx1, hx2, hx3⟩ := pf_some h1
      rw [hx3]
      simp only [h2, if_false]
      have hlt := hrk _ _ h1 h2
      have hrooty : RootOf (pf k L) y y := .root hyroot
      have hyle : rk y ≤ rk z := by
        clear hlt hxy h1 h2 hx3
        induction h3 with
        | root h => exact Nat.le_refl _
        | step a b c ih' => have := hrk _ _ a b; have := ih' hyroot hrooty; omega
      obtain ⟨w', rk', hroot', hdom'⟩ := repoint hR.wf hrk hxy hrooty (Or.inr (by omega))
        (by rintro rfl; exact hyroot)
      rw [← pf_set ⟨hx1, hx2⟩ hk] at w' rk' hroot' hdom'
      have hR' : Rep (pf k (L.set x y)) D E := by
        refine ⟨w', ?_, ?_, ?_⟩
        · intro a
          rw [hR.dom, hdom' a]
        · intro a b hab
          rw [pf_set ⟨hx1, hx2⟩ hk] at hab
          by_cases ha : a = x
          · subst ha; rw [put_same] at hab; cases hab; exact hR.root_conn hxy
          · rw [put_ne _ _ ha] at hab; exact hR.sound a b hab
        · intro a b hab
          obtain ⟨r, ha, hb⟩ := hR.complete a b hab
          exact ⟨r, hroot' _ _ ha, hroot' _ _ hb⟩
      obtain ⟨L', e, l1, l2, l3, l4⟩ := ih (L.set x y) z y (by simpa using hk) hR' rk' (by omega) (hroot' _ _ h3)
      refine ⟨L', e, by simpa using l1, ?_, l3, fun a r h => l4 _ _ (hroot' _ _ h)⟩
      rw [l2, List.getElem?_set_ne (by omega)]

theorem LInv.find {len k : Nat} {L : List Nat} {E : Nat → Nat → Prop} (h : LInv len k L E) {x : Nat}
    (hx : 1 ≤ x ∧ x ≤ k) : ∃ L' r, find L x = some (L', r) ∧ LInv len k L' E ∧ RootOf (pf k L) x r ∧
      ∀ a r, RootOf (pf k L) a r → RootOf (pf k L') a r := by
  obtain ⟨p, hp⟩ := (h.rep.dom x).1 hx
  obtain ⟨r, hr⟩ := h.rep.wf.exists_root hp
  obtain ⟨rk, hrk, hb⟩ := bounded_rank (els := List.range len)
    (fun i p hp => List.mem_range.2 (by have := pf_some hp; have := h.lt; omega)) h.rep.wf
  have hf : rk x ≤ L.length := by
    have := hb x p hp
    rw [List.length_range] at this
    rw [h.len]; omega
  have hc := chase_spec hrk L.length x r hf hr
  obtain ⟨L', e, l1, l2, l3, l4⟩ := compress_spec L.length L x r (by rw [h.len]; exact h.lt) h.rep hrk hf hr
  refine ⟨L', r, by unfold HK.find; rw [hc]; simp only [e], ⟨l1.trans h.len, l2.trans h.zero, h.lt, l3⟩, hr, l4⟩

theorem LInv.root_range {len k : Nat} {L : List Nat} {E : Nat → Nat → Prop} (h : LInv len k L E) {x r : Nat}
    (hr : RootOf (pf k L) x r) : 1 ≤ r ∧ r ≤ k := (h.rep.dom r).2 ⟨_, hr.isRoot⟩

theorem LInv.unite {len k : Nat} {L : List Nat} {E : Nat → Nat → Prop} (h : LInv len k L E) {x y : Nat}
    (hx : 1 ≤ x ∧ x ≤ k) (hy : 1 ≤ y ∧ y ≤ k) : ∃ L' r, unite L x y = some (L', r) ∧
      LInv len k L' (fun a b => E a b ∨ (a = y ∧ b = x)) ∧ (1 ≤ r ∧ r ≤ k) ∧ EqvGen E y r := by
  obtain ⟨L1, ry, e1, h1, hr1, m1⟩ := h.find hy
  obtain ⟨L2, rx, e2, h2, hr2, m2⟩ := h1.find hx
  have hry := h.root_range hr1
  have hrx := h1.root_range hr2
  have hlt : rx < L2.length := by rw [h2.len]; have := h2.lt; omega
  refine ⟨L2.set rx ry, ry, by unfold HK.unite; rw [e1]; simp only [e2, if_pos hlt], ⟨?_, ?_, h2.lt, ?_⟩, hry,
    h.rep.root_conn hr1⟩
  · simp [h2.len]
  · rw [List.getElem?_set_ne (by omega)]; exact h2.zero
  · rw [pf_set hrx (by rw [h2.len]; exact h2.lt)]
    exact h2.rep.link (m2 _ _ (m1 _ _ hr1)) (m2 _ _ hr2)

theorem LInv.makeSet {len k : Nat} {L : List Nat} {E : Nat → Nat → Prop} (h : LInv len k L E) (hk : k + 1 < len) :
    ∃ L', makeSet L = some (L', k + 1) ∧ LInv len (k + 1) L' E := by
  refine ⟨(L.set 0 (k + 1)).set (k + 1) (k + 1), ?_, ?_, ?_, hk, ?_⟩
  · unfold HK.makeSet; rw [h.zero]; simp only; rw [if_pos (by rw [h.len]; exact hk)]
  · simp [h.len]
  · rw [List.getElem?_set_ne (by omega), List.getElem?_set_self (by have := h.len; omega)]
  · have hn : pf k L (k + 1) = none := by unfold pf; rw [if_neg (by omega)]
    have heq : pf (k + 1) ((L.set 0 (k + 1)).set (k + 1) (k + 1)) = put (pf k L) (k + 1) (k + 1) := by
      funext y
      unfold pf put
      by_cases hy : y = k + 1
      · subst hy
        rw [if_pos (by omega), if_pos rfl, List.getElem?_set_self (by simp [h.len]; omega)]
      · rw [if_neg hy]
        show _ = if 1 ≤ y ∧ y ≤ k then L[y]? else none
        by_cases h2 : 1 ≤ y ∧ y ≤ k
        · rw [if_pos h2, if_pos (by omega), List.getElem?_set_ne (by omega), List.getElem?_set_ne (by omega)]
        · rw [if_neg h2, if_neg (by omega)]
    rw [heq]
    exact (h.rep.fresh hn).1.congr (fun x => by constructor <;> intro h <;> omega) (fun _ _ => Iff.rfl)

theorem makeSet_oob {len k : Nat} {L : List Nat} {E : Nat → Nat → Prop} (h : LInv len k L E) (hk : ¬ k + 1 < len) :
    makeSet L = none := by
  unfold HK.makeSet; rw [h.zero]; simp only; rw [if_neg (by rw [h.len]; exact hk)]

end Verif.HK
