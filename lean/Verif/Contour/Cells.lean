import Verif.Contour.Detect
import Verif.Contour.Edges
import Mathlib.Data.List.FinRange
/-! The cut edges of a cell as a pattern of the sides of its vertices. -/
namespace Verif.Ctr
open Verif.Ser (Sorted)
open Verif.SRM
open Verif.Trk (elemValid)
variable {d : Nat}

theorem idOf_eq (e : Elem) : ∀ m : List (Elem × Pt),
    idOf e m = if e ∈ m.map Prod.fst then some ((m.map Prod.fst).idxOf e) else none
  | [] => rfl
  | (k, p) :: m => by
    simp only [idOf, List.map_cons, List.mem_cons]
    by_cases h : e = k
    · subst h; simp
    · rw [if_neg h, idOf_eq e m]
      simp only [h, false_or]
      by_cases h2 : e ∈ m.map Prod.fst
      · have hk : ¬ k = e := fun hh => h hh.symm
        simp [h2, List.idxOf_cons_ne _ hk]
      · simp [h2]

/-- number of the intersection on the edge with the given vertices -/
noncomputable def num (n : Nat) (inter : List (Elem × Pt)) (p : Vtx × Vtx) : Nat :=
  (inter.map Prod.fst).idxOf (edgeOf n p)

open Classical in
/-- `v` lies inside -/
noncomputable def insB (c : Cfg d) (T : Nat) (v : Vtx) : Bool := decide (InsideV c T v)

open Classical in
/-- `v` lies above the threshold -/
noncomputable def abvB (c : Cfg d) (series : List Scal) (v : Vtx) : Bool := decide (Above c series v)

/-- the pair is cut -/
def cutB (ins abv : Vtx → Bool) (p : Vtx × Vtx) : Bool := ins p.1 && ins p.2 && (abv p.1 != abv p.2)

/-- what the trackers know when the series has been processed: the keys are the cut edges -/
structure Keys (c : Cfg d) (series : List Scal) (inter : List (Elem × Pt)) : Prop where
  sorted : Sorted inter
  mem : ∀ e, e ∈ inter.map Prod.fst ↔ Cut c series e

theorem found_iff_cut {c : Cfg d} {series : List Scal} {T : Nat} (hc : Shaped c T) {e : Elem} :
    (∃ p, FoundBefore c series series.length e p) ↔ Cut c series e := by
  constructor
  · rintro ⟨p, t, -, -, u, v, h, -⟩
    exact ⟨u, v, h⟩
  · rintro ⟨u, v, h⟩
    obtain ⟨x, hx, hlt⟩ := h.left.time
    have hcell := cell_of_elem (n := d + 1) (by omega) (k := 1) (by have := hc.pos; omega) h.edge.dim h.edge.len h.verts
    have : u = e.corner := by simpa using hcell.head
    exact ⟨_, x, hlt, this ▸ hx, u, v, h, rfl⟩

theorem Holds.keys {c : Cfg d} {series : List Scal} {T : Nat} (hc : Shaped c T) {st : St} (h : Holds c series series.length st) :
    Keys c series st.inter where
  sorted := h.sorted
  mem := fun e => by
    rw [← found_iff_cut hc]
    constructor
    · intro he
      obtain ⟨⟨e', p⟩, hm, rfl⟩ := List.mem_map.1 he
      exact ⟨p, (h.inter _ _).1 hm⟩
    · rintro ⟨p, hp⟩
      exact List.mem_map.2 ⟨(e, p), (h.inter _ _).2 hp, rfl⟩

theorem cutB_iff {c : Cfg d} {series : List Scal} {p : Vtx × Vtx} :
    cutB (insB c series.length) (abvB c series) p = true ↔
      InsideV c series.length p.1 ∧ InsideV c series.length p.2 ∧ (Above c series p.1 ↔ ¬ Above c series p.2) := by
  unfold cutB insB abvB
  simp only [Bool.and_eq_true, decide_eq_true_eq, bne_iff_ne, ne_eq, decide_eq_decide, and_assoc]
  refine and_congr_right fun _ => and_congr_right fun _ => ?_
  by_cases h1 : Above c series p.1 <;> by_cases h2 : Above c series p.2 <;> simp [h1, h2]

theorem cut_pair {c : Cfg d} {series : List Scal} {k : Nat} {b : Vtx} {ve : Simplex} (h : Cell (d + 1) k b ve) {p : Vtx × Vtx}
    (hp : p ∈ pairs ve) : Cut c series (edgeOf (d + 1) p) ↔ cutB (insB c series.length) (abvB c series) p = true := by
  obtain ⟨a, b⟩ := edgeOf_spec (by omega) h hp
  rw [cutB_iff]
  constructor
  · rintro ⟨u, v, hc⟩
    have := hc.verts
    rw [b] at this
    simp only [Option.some.injEq, List.cons.injEq, and_true] at this
    obtain ⟨h1, h2⟩ := this
    rw [h1, h2]
    exact ⟨hc.left, hc.right, hc.cut⟩
  · rintro ⟨h1, h2, h3⟩
    exact ⟨p.1, p.2, a, b, h1, h2, h3⟩

/-- the ids of the cut edges of an element -/
theorem ids_spec {c : Cfg d} {series : List Scal} {inter : List (Elem × Pt)} (hk : Keys c series inter) {k : Nat} (hkn : k ≤ d + 1)
    {e : Elem} (he : IsElem (d + 1) k e) {ve : Simplex} (hve : e.vertices (d + 1) = some ve) {es : List Elem}
    (hes : ∀ x, x ∈ es ↔ IsElem (d + 1) 1 x ∧ FaceOf (d + 1) x e) :
    (toSet es).filterMap (fun f => idOf f inter) =
      ((pairs ve).filter (cutB (insB c series.length) (abvB c series))).map (num (d + 1) inter) := by
  have hcell := cell_of_elem (by omega) hkn he.dim he.len hve
  rw [edges_eq (by omega) hkn he hve hes, List.filterMap_map]
  have : ∀ l : List (Vtx × Vtx), (∀ p ∈ l, p ∈ pairs ve) →
      l.filterMap ((fun f => idOf f inter) ∘ edgeOf (d + 1)) =
        (l.filter (cutB (insB c series.length) (abvB c series))).map (num (d + 1) inter) := by
    intro l
    induction l with
    | nil => intro _; rfl
    | cons p l ih =>
      intro hl
      have hp := cut_pair (c := c) (series := series) hcell (hl p (by simp))
      rw [List.filterMap_cons, List.filter_cons, ih fun q hq => hl q (by simp [hq])]
      simp only [Function.comp_apply, idOf_eq]
      by_cases hcut : cutB (insB c series.length) (abvB c series) p = true
      · rw [if_pos ((hk.mem _).2 (hp.2 hcut)), if_pos hcut]
        rfl
      · rw [if_neg (fun h => hcut (hp.1 ((hk.mem _).1 h))), if_neg hcut]
  exact this _ fun p hp => hp

/-! ### patterns -/

/-- the cut pairs of positions of a cell with `m` vertices -/
def cutP {m : Nat} (ins abv : Fin m → Bool) : List (Fin m × Fin m) :=
  (pairs (List.finRange m)).filter fun p => ins p.1 && ins p.2 && (abv p.1 != abv p.2)

/-- the pair of vertices at a pair of positions -/
def at2 {m : Nat} (w : Fin m → Vtx) (p : Fin m × Fin m) : Vtx × Vtx := (w p.1, w p.2)

theorem pairs_ofFn {m : Nat} (w : Fin m → Vtx) : pairs (List.ofFn w) = (pairs (List.finRange m)).map (at2 w) := by
  rw [List.ofFn_eq_map]
  exact pairs_map w _

theorem filter_pairs {m : Nat} (w : Fin m → Vtx) (ins abv : Vtx → Bool) :
    (pairs (List.ofFn w)).filter (cutB ins abv) = (cutP (fun i => ins (w i)) (fun i => abv (w i))).map (at2 w) := by
  rw [pairs_ofFn, List.filter_map]
  rfl

/-- the vertices of an element, by position -/
theorem verts_ofFn {n k : Nat} (hn : 1 ≤ n) (hk : k ≤ n) {e : Elem} (he : IsElem n k e) :
    ∃ w : Fin (k + 1) → Vtx, e.vertices n = some (List.ofFn w) ∧ Function.Injective w ∧ Cell n k e.corner (List.ofFn w) := by
  obtain ⟨ve, hve, hcell⟩ := he.cell hn hk
  have hl := hcell.len
  have h1 : ve = List.ofFn (fun i : Fin (k + 1) => ve[i.val]'(by omega)) := by
    apply List.ext_getElem
    · simp [hl]
    · intro i h1 h2
      rw [List.getElem_ofFn]
  refine ⟨_, by rw [hve]; exact congrArg some h1, ?_, h1 ▸ hcell⟩
  have hnd := (chain_strict hcell.chain).nodup
  intro i j hij
  exact Fin.ext ((List.Nodup.getElem_inj_iff hnd).1 hij)

theorem num_inj {c : Cfg d} {series : List Scal} {inter : List (Elem × Pt)} (hk : Keys c series inter) {e e' : Elem}
    (he : Cut c series e) (h : (inter.map Prod.fst).idxOf e = (inter.map Prod.fst).idxOf e') : e = e' :=
  (List.idxOf_inj ((hk.mem e).2 he)).1 h

theorem at2_inj {m : Nat} {w : Fin m → Vtx} (hw : Function.Injective w) : Function.Injective (at2 w) := by
  rintro ⟨a, b⟩ ⟨a', b'⟩ h
  simp only [at2, Prod.mk.injEq] at h
  rw [hw h.1, hw h.2]

theorem mem_finPairs {m : Nat} {p : Fin m × Fin m} (w : Fin m → Vtx) (h : p ∈ pairs (List.finRange m)) :
    at2 w p ∈ pairs (List.ofFn w) := by
  rw [pairs_ofFn]
  exact List.mem_map.2 ⟨p, h, rfl⟩

/-! ### counting -/

theorem collect_eq {α β : Type} {f : α → Option (List β)} {g : α → List β} : ∀ {l : List α},
    (∀ x ∈ l, f x = some (g x)) → collect f l = some (l.flatMap g)
  | [], _ => rfl
  | x :: l, h => by
    simp only [collect, h x (by simp), collect_eq (l := l) fun y hy => h y (by simp [hy]), List.flatMap_cons]

theorem countP_flatMap {α β : Type} (p : β → Bool) (g : α → List β) : ∀ l : List α,
    (l.flatMap g).countP p = (l.map fun x => (g x).countP p).sum
  | [] => rfl
  | x :: l => by
    simp only [List.flatMap_cons, List.countP_append, List.map_cons, List.sum_cons, countP_flatMap p g l]

theorem sum_one {α : Type} [DecidableEq α] {f : α → Nat} {a : α} : ∀ {l : List α}, l.Nodup → (∀ x ∈ l, f x ≠ 0 → x = a) →
    (l.map f).sum = if a ∈ l then f a else 0
  | [], _, _ => by simp
  | x :: l, hn, h => by
    rw [List.nodup_cons] at hn
    rw [List.map_cons, List.sum_cons, sum_one (l := l) hn.2 fun y hy => h y (by simp [hy])]
    by_cases hx : x = a
    · subst hx
      simp [hn.1]
    · have : f x = 0 := by
        by_contra hne
        exact hx (h x (by simp) hne)
      simp [this, Ne.symm hx]

theorem sum_two {α : Type} [DecidableEq α] {f : α → Nat} {a b : α} (hab : a ≠ b) : ∀ {l : List α}, l.Nodup →
    (∀ x ∈ l, f x ≠ 0 → x = a ∨ x = b) →
    (l.map f).sum = (if a ∈ l then f a else 0) + if b ∈ l then f b else 0
  | [], _, _ => by simp
  | x :: l, hn, h => by
    rw [List.nodup_cons] at hn
    rw [List.map_cons, List.sum_cons, sum_two hab (l := l) hn.2 fun y hy => h y (by simp [hy])]
    by_cases hx : x = a
    · subst hx
      simp [hn.1, Ne.symm hab]
    · by_cases hx2 : x = b
      · subst hx2
        simp [hn.1, Ne.symm hx]
        omega
      · have : f x = 0 := by
          by_contra hne
          rcases h x (by simp) hne with h | h
          · exact hx h
          · exact hx2 h
        simp [this, Ne.symm hx, Ne.symm hx2]

end Verif.Ctr
