import Verif.Grad.Model
import Verif.Ndarray.Props
/-! Lemmas about loops of writes. -/
namespace Verif.Grad
open Verif.ND
variable {K : Type} [Field K]

/-- (specification) a valid multi-index, as integers -/
def Valid (idx : List Int) (ds : List Nat) : Prop := List.Forall₂ (fun (i : Int) (d : Nat) => 0 ≤ i ∧ i < d) idx ds

theorem Valid.toNat {idx : List Int} {ds : List Nat} (h : Valid idx ds) :
    ValidIdx (idx.map Int.toNat) ds ∧ idx = (idx.map Int.toNat).map Int.ofNat := by
  induction h with
  | nil => exact ⟨.nil, rfl⟩
  | cons h _ ih =>
    refine ⟨.cons (by omega) ih.1, ?_⟩
    simp only [List.map_cons]
    rw [← ih.2]
    congr 1
    exact (Int.toNat_of_nonneg h.1).symm

theorem flat_nat (idx s : List Nat) : flat (idx.map Int.ofNat) s = (dot idx s : Nat) := by
  induction idx generalizing s with
  | nil => cases s <;> rfl
  | cons x xs ih =>
    cases s with
    | nil => rfl
    | cons p ps => simp only [List.map_cons, flat, dot, ih]; push_cast; rfl

theorem pos_valid {a : Nd K} (h : Shaped a) {idx : List Int} (hv : Valid idx a.dims) :
    pos a idx = a.index (idx.map Int.toNat) := by
  obtain ⟨h1, h2⟩ := hv.toNat
  rw [index_valid h h1]
  have hlt := index_lt h h1
  have hl := h1.length
  have : flat idx a.s = (dot (idx.map Int.toNat) (strides 1 a.dims) : Nat) := by
    conv_lhs => rw [h2]
    rw [flat_nat, h.str]
  rw [pos, this, if_pos]
  · simp
  · refine ⟨?_, by omega, by omega⟩
    rw [h.str, strides_length]
    simpa using hl.le

theorem rd_valid {a : Nd K} (h : Shaped a) {idx : List Int} (hv : Valid idx a.dims) :
    rd a idx = a.get (idx.map Int.toNat) := by
  rw [rd, pos_valid h hv]; rfl

theorem wr_valid {a : Nd K} (h : Shaped a) {idx : List Int} (hv : Valid idx a.dims) (v : K) :
    ∃ b, wr a idx v = some b ∧ Shaped b ∧ b.dims = a.dims ∧ b.ncd = a.ncd ∧ b.tv = a.tv ∧
      rd b idx = some v ∧ ∀ j, Valid j a.dims → j ≠ idx → rd b j = rd a j := by
  obtain ⟨h1, h2⟩ := hv.toNat
  obtain ⟨_, b, hb, hs, hd, hn, ht, hr, ho⟩ := C38_read_write a h _ h1 v
  refine ⟨b, by rw [wr, pos_valid h hv]; exact hb, hs, hd, hn, ht, by rw [rd_valid hs (hd ▸ hv), hr], fun j hj hne => ?_⟩
  rw [rd_valid hs (hd ▸ hj), rd_valid h hj]
  refine ho _ hj.toNat.1 fun he => hne ?_
  rw [hj.toNat.2, h2, he]

/-- Writes to valid positions, the value depending only on the position. -/
theorem runWrites_spec (F : List Int → K) (ws : List (W K)) (g : Nd K) (hg : Shaped g)
    (hv : ∀ w ∈ ws, Valid w.1 g.dims) (hF : ∀ w ∈ ws, w.2 = some (F w.1)) :
    ∃ r, runWrites ws g = some r ∧ Shaped r ∧ r.dims = g.dims ∧ r.ncd = g.ncd ∧ r.tv = g.tv ∧
      (∀ w ∈ ws, rd r w.1 = some (F w.1)) ∧
      ∀ idx, Valid idx g.dims → (∀ w ∈ ws, w.1 ≠ idx) → rd r idx = rd g idx := by
  induction ws generalizing g with
  | nil => exact ⟨g, rfl, hg, rfl, rfl, rfl, by simp, fun _ _ _ => rfl⟩
  | cons w ws ih =>
    obtain ⟨b, hb, hs, hd, hn, ht, hr, ho⟩ := wr_valid hg (hv w List.mem_cons_self) (F w.1)
    obtain ⟨r, h0, h1, h2, h3, h4, h5, h6⟩ := ih b hs (fun x hx => by rw [hd]; exact hv x (List.mem_cons_of_mem _ hx))
      (fun x hx => hF x (List.mem_cons_of_mem _ hx))
    refine ⟨r, ?_, h1, h2.trans hd, h3.trans hn, h4.trans ht, ?_, ?_⟩
    · rw [runWrites, List.foldlM_cons, hF w List.mem_cons_self]
      simp only [Option.bind_some, hb]
      exact h0
    · intro x hx
      rcases List.mem_cons.1 hx with rfl | hx
      · by_cases hin : ∃ y ∈ ws, y.1 = x.1
        · obtain ⟨y, hy, he⟩ := hin
          rw [← he]; exact h5 y hy
        · rw [h6 _ (by rw [hd]; exact hv x List.mem_cons_self) fun y hy he => hin ⟨y, hy, he⟩]
          exact hr
      · exact h5 x hx
    · intro idx hi hne
      rw [h6 idx (by rw [hd]; exact hi) fun x hx => hne x (List.mem_cons_of_mem _ hx)]
      exact ho idx hi fun he => hne w List.mem_cons_self he.symm

/-- A write whose value is undefined makes the whole run undefined. -/
theorem runWrites_none (ws : List (W K)) (g : Nd K) (h : ∃ w ∈ ws, w.2 = none) : runWrites ws g = none := by
  induction ws generalizing g with
  | nil => simp at h
  | cons w ws ih =>
    rw [runWrites, List.foldlM_cons]
    rcases hw : w.2 with _ | v
    · rfl
    · rcases hb : wr g w.1 v with _ | b
      · simp [hb]
      · simp only [Option.bind_some, hb]
        refine ih b ?_
        obtain ⟨x, hx, hn⟩ := h
        rcases List.mem_cons.1 hx with rfl | hx
        · rw [hw] at hn; cases hn
        · exact ⟨x, hx, hn⟩

theorem zeros_spec (d : List Nat) (hd : d ≠ []) : ∃ g : Nd K, zeros d = some g ∧ Shaped g ∧ g.dims = d ∧ g.ncd = 0 ∧
    ∀ idx, Valid idx d → rd g idx = some 0 := by
  letI : Inhabited K := ⟨0⟩
  refine ⟨_, reshape_eq _ d hd, shaped_reshape (reshape_eq _ d hd), rfl, rfl, fun idx hi => ?_⟩
  have hs := shaped_reshape (reshape_eq (T := K) {} d hd)
  rw [rd_valid hs hi, get_valid hs hi.toNat.1]
  have hlt := index_lt hs hi.toNat.1
  rw [List.getElem?_eq_getElem hlt]
  simp only [resize, List.take_nil, List.nil_append, List.getElem_replicate]
  rfl

/-- The run of an operator whose writes `ws` are, in some order, the list `L`. -/
theorem runOp_spec (d : List Nat) (hd : d ≠ []) (F : List Int → K) (L ws : List (W K)) (hp : ws.Perm L)
    (hv : ∀ w ∈ L, Valid w.1 d ∧ w.2 = some (F w.1)) :
    ∃ r, runOp d ws = some r ∧ Shaped r ∧ r.dims = d ∧ r.ncd = 0 ∧ (∀ w ∈ L, rd r w.1 = some (F w.1)) ∧
      ∀ idx, Valid idx d → (∀ w ∈ L, w.1 ≠ idx) → rd r idx = some 0 := by
  obtain ⟨g, h0, h1, h2, h3, h4⟩ := zeros_spec (K := K) d hd
  obtain ⟨r, r0, r1, r2, r3, _, r5, r6⟩ := runWrites_spec F ws g h1 (fun w hw => h2 ▸ (hv w (hp.mem_iff.1 hw)).1)
    (fun w hw => (hv w (hp.mem_iff.1 hw)).2)
  refine ⟨r, by rw [runOp, h0]; exact r0, r1, r2.trans h2, r3.trans h3, fun w hw => r5 w (hp.mem_iff.2 hw), ?_⟩
  intro idx hi hne
  rw [r6 idx (h2 ▸ hi) fun w hw => hne w (hp.mem_iff.1 hw), h4 idx hi]

theorem mem_irange {lo hi x : Int} : x ∈ irange lo hi ↔ lo ≤ x ∧ x < hi := by
  simp only [irange, List.mem_map, List.mem_range]
  constructor
  · rintro ⟨n, hn, rfl⟩; omega
  · rintro ⟨h1, h2⟩; exact ⟨(x - lo).toNat, by omega, by omega⟩

theorem mem_loop2 {α : Type} {is js : List Int} {body : Int → Int → List α} {w : α} :
    w ∈ loop2 is js body ↔ ∃ i j, i ∈ is ∧ j ∈ js ∧ w ∈ body i j := by
  simp only [loop2, List.mem_flatMap]
  constructor
  · rintro ⟨j, hj, i, hi, h⟩; exact ⟨i, j, hi, hj, h⟩
  · rintro ⟨i, j, hi, hj, h⟩; exact ⟨j, hj, i, hi, h⟩

theorem mem_loop3 {α : Type} {is js ks : List Int} {body : Int → Int → Int → List α} {w : α} :
    w ∈ loop3 is js ks body ↔ ∃ i j k, i ∈ is ∧ j ∈ js ∧ k ∈ ks ∧ w ∈ body i j k := by
  simp only [loop3, List.mem_flatMap, mem_loop2]
  constructor
  · rintro ⟨k, hk, i, j, hi, hj, h⟩; exact ⟨i, j, k, hi, hj, hk, h⟩
  · rintro ⟨i, j, k, hi, hj, hk, h⟩; exact ⟨k, hk, i, j, hi, hj, h⟩

theorem mem_loop4 {α : Type} {is js ks ts : List Int} {body : Int → Int → Int → Int → List α} {w : α} :
    w ∈ loop4 is js ks ts body ↔ ∃ i j k t, i ∈ is ∧ j ∈ js ∧ k ∈ ks ∧ t ∈ ts ∧ w ∈ body i j k t := by
  simp only [loop4, List.mem_flatMap, mem_loop3]
  constructor
  · rintro ⟨t, ht, i, j, k, hi, hj, hk, h⟩; exact ⟨i, j, k, t, hi, hj, hk, ht, h⟩
  · rintro ⟨i, j, k, t, hi, hj, hk, ht, h⟩; exact ⟨t, ht, i, j, k, hi, hj, hk, h⟩

end Verif.Grad
