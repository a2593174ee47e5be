import Verif.Ndarray.Model
import Mathlib.Tactic.Ring
import Mathlib.Data.List.GetD
/-! Lemmas about the ndarray model. -/
namespace Verif.ND
variable {T : Type}

/-- (specification) The array has a nonempty shape, column-major strides and exactly one element per multi-index. -/
structure Shaped (a : Nd T) : Prop where
  ne : a.dims ≠ []
  str : a.s = strides 1 a.dims
  len : a.p.length = a.dims.prod

theorem foldl_mul_eq (l : List Nat) (k : Nat) : l.foldl (· * ·) k = k * l.prod := by
  induction l generalizing k with
  | nil => simp
  | cons x xs ih => simp [ih, Nat.mul_assoc]

theorem Shaped.nelem {a : Nd T} (h : Shaped a) : a.nelem = a.dims.prod := by
  unfold Nd.nelem
  split
  · rename_i hp; have := h.len; simp [hp] at this; exact this
  · rw [foldl_mul_eq, one_mul]

theorem resize_length [Inhabited T] (n : Nat) (p : List T) : (resize n p).length = n := by
  simp [resize]; omega

theorem resize_self [Inhabited T] (p : List T) : resize p.length p = p := by simp [resize]

theorem reshape_eq [Inhabited T] (a : Nd T) (d : List Nat) (h : d ≠ []) :
    a.reshape d = some { a with dims := d, s := strides 1 d, p := resize d.prod a.p } := by
  obtain ⟨ds, x, rfl⟩ : ∃ ds x, d = ds ++ [x] := ⟨d.dropLast, d.getLast h, (List.dropLast_append_getLast h).symm⟩
  unfold Nd.reshape
  rw [strides_append]
  simp

theorem reshape_nil [Inhabited T] (a : Nd T) : a.reshape [] = none := by
  simp [Nd.reshape, strides]

theorem reshape_some [Inhabited T] {a b : Nd T} {d : List Nat} (h : a.reshape d = some b) :
    d ≠ [] ∧ b = { a with dims := d, s := strides 1 d, p := resize d.prod a.p } := by
  by_cases hd : d = []
  · subst hd; rw [reshape_nil] at h; cases h
  · rw [reshape_eq a d hd] at h; exact ⟨hd, (Option.some.inj h).symm⟩

theorem shaped_reshape [Inhabited T] {a b : Nd T} {d : List Nat} (h : a.reshape d = some b) : Shaped b := by
  obtain ⟨hd, rfl⟩ := reshape_some h
  exact ⟨hd, rfl, resize_length _ _⟩

theorem index_valid {a : Nd T} (h : Shaped a) {idx : List Nat} (hv : ValidIdx idx a.dims) :
    a.index idx = some (dot idx (strides 1 a.dims)) := by
  have hl := hv.length
  have hne := h.ne
  cases idx with
  | nil => simp at hl; exact absurd (List.length_eq_zero_iff.1 hl.symm) hne
  | cons i is =>
    cases hd : a.dims with
    | nil => exact absurd hd hne
    | cons d ds =>
      rw [hd] at hl
      have hl' : is.length = ds.length := by simpa using hl
      have hs : a.s.length = ds.length + 1 := by rw [h.str, strides_length, hd]; simp
      have hnd : a.nd = ds.length + 1 := by unfold Nd.nd; rw [hd]; simp
      unfold Nd.index
      rw [hs, hnd]
      simp [hl', h.str, hd, strides, dot]
      rw [← hl', List.take_length]

theorem index_lt {a : Nd T} (h : Shaped a) {idx : List Nat} (hv : ValidIdx idx a.dims) :
    dot idx (strides 1 a.dims) < a.p.length := by
  rw [h.len]; exact dot_lt _ _ _ rfl hv

theorem dims_len_succ {a : Nd T} (h : Shaped a) : ∃ n, a.dims.length = n + 1 := by
  have := h.ne
  cases hd : a.dims with
  | nil => exact absurd hd this
  | cons d ds => exact ⟨ds.length, by simp⟩

theorem dot_inj {ss xs ys : List Nat} (hne : ss ≠ []) (hx : ValidIdx xs ss) (hy : ValidIdx ys ss)
    (h : dot xs (strides 1 ss) = dot ys (strides 1 ss)) : xs = ys := by
  cases ss with
  | nil => exact absurd rfl hne
  | cons d ds =>
    have h1 := decode_dot ds.length xs (d :: ds) (by simp) hx
    have h2 := decode_dot ds.length ys (d :: ds) (by simp) hy
    rw [← h1, ← h2, h]

theorem exists_idx {ss : List Nat} (hne : ss ≠ []) {k : Nat} (hk : k < ss.prod) :
    ∃ xs, ValidIdx xs ss ∧ dot xs (strides 1 ss) = k := by
  cases ss with
  | nil => exact absurd rfl hne
  | cons d ds =>
    have := dot_decode ds.length (d :: ds) k (by simp) hk
    exact ⟨_, this.1, this.2⟩

theorem get_valid {a : Nd T} (h : Shaped a) {idx : List Nat} (hv : ValidIdx idx a.dims) :
    a.get idx = a.p[dot idx (strides 1 a.dims)]? := by
  unfold Nd.get; rw [index_valid h hv]; rfl

theorem setFlat_eq {a : Nd T} {i : Nat} (v : T) (h : i < a.p.length) :
    a.setFlat i v = some { a with p := a.p.set i v } := by simp [Nd.setFlat, h]

theorem setFlat_some {a b : Nd T} {i : Nat} {v : T} (h : a.setFlat i v = some b) :
    i < a.p.length ∧ b = { a with p := a.p.set i v } := by
  unfold Nd.setFlat at h
  split at h
  · rename_i hi; exact ⟨hi, (Option.some.inj h).symm⟩
  · cases h

theorem Shaped.congr {a b : Nd T} (h : Shaped a) (hd : b.dims = a.dims) (hs : b.s = a.s)
    (hl : b.p.length = a.p.length) : Shaped b :=
  ⟨by rw [hd]; exact h.ne, by rw [hs, hd]; exact h.str, by rw [hl, hd]; exact h.len⟩

/-- A loop of flat writes whose value depends only on the position. -/
theorem foldlM_writes {ι : Type} (pos : ι → Nat) (val : ι → Option T) (F : Nat → Option T) (L : List ι) (a : Nd T)
    (hpos : ∀ i ∈ L, pos i < a.p.length) (hval : ∀ i ∈ L, val i = F (pos i)) (hdef : ∀ i ∈ L, (val i).isSome) :
    ∃ b, L.foldlM (fun b i => (val i).bind fun v => Nd.setFlat b (pos i) v) a = some b ∧
      b.dims = a.dims ∧ b.s = a.s ∧ b.ncd = a.ncd ∧ b.tv = a.tv ∧ b.p.length = a.p.length ∧
      ∀ k, b.p[k]? = if ∃ i ∈ L, pos i = k then F k else a.p[k]? := by
  induction L generalizing a with
  | nil => exact ⟨a, rfl, rfl, rfl, rfl, rfl, rfl, by simp⟩
  | cons x xs ih =>
    obtain ⟨v, hv⟩ := Option.isSome_iff_exists.1 (hdef x (by simp))
    have hx := hpos x (by simp)
    obtain ⟨b, hb, h1, h2, h3, h4, h5, h6⟩ := ih { a with p := a.p.set (pos x) v }
      (fun i hi => by simpa using hpos i (by simp [hi])) (fun i hi => hval i (by simp [hi]))
      (fun i hi => hdef i (by simp [hi]))
    refine ⟨b, ?_, h1, h2, h3, h4, by simpa using h5, ?_⟩
    · simp only [List.foldlM_cons]
      simp only [hv, Option.bind_some, setFlat_eq v hx]
      exact hb
    · intro k
      rw [h6 k]
      have hvx := hval x (by simp)
      by_cases hk : ∃ i ∈ xs, pos i = k
      · obtain ⟨i, hi, hik⟩ := hk
        rw [if_pos ⟨i, hi, hik⟩, if_pos ⟨i, by simp [hi], hik⟩]
      · rw [if_neg hk]
        by_cases hxk : pos x = k
        · rw [if_pos ⟨x, by simp, hxk⟩]
          subst hxk
          rw [← hvx, hv]
          simp [List.getElem?_set_self hx]
        · rw [if_neg]
          · simp [List.getElem?_set_ne hxk]
          · rintro ⟨i, hi, hik⟩
            rcases List.mem_cons.1 hi with rfl | hi
            · exact hxk hik
            · exact hk ⟨i, hi, hik⟩

theorem fillFrom_eq (f : Nat → Option T) (n : Nat) (a : Nd T) (hn : n ≤ a.p.length) (hf : ∀ i < n, (f i).isSome) :
    ∃ b, fillFrom f n a = some b ∧
      b.dims = a.dims ∧ b.s = a.s ∧ b.ncd = a.ncd ∧ b.tv = a.tv ∧ b.p.length = a.p.length ∧
      ∀ k, b.p[k]? = if k < n then f k else a.p[k]? := by
  obtain ⟨b, h0, h1, h2, h3, h4, h5, h6⟩ := foldlM_writes (fun i : Nat => i) f f (List.range n) a
    (fun i hi => by have := List.mem_range.1 hi; omega) (fun _ _ => rfl) (fun i hi => hf i (List.mem_range.1 hi))
  refine ⟨b, h0, h1, h2, h3, h4, h5, fun k => ?_⟩
  rw [h6 k]
  by_cases hk : k < n
  · rw [if_pos hk, if_pos ⟨k, by simpa using hk, rfl⟩]
  · rw [if_neg hk, if_neg]
    rintro ⟨i, hi, rfl⟩
    exact hk (by simpa using hi)

/-- Whatever a loop of flat writes does, it keeps the shape. -/
theorem foldlM_shape {ι : Type} (pos : ι → Nat) (val : ι → Option T) (L : List ι) (a b : Nd T)
    (h : L.foldlM (fun b i => (val i).bind fun v => Nd.setFlat b (pos i) v) a = some b) :
    b.dims = a.dims ∧ b.s = a.s ∧ b.ncd = a.ncd ∧ b.tv = a.tv ∧ b.p.length = a.p.length := by
  induction L generalizing a with
  | nil => cases h; simp
  | cons x xs ih =>
    simp only [List.foldlM_cons] at h
    cases hv : val x with
    | none => simp [hv] at h
    | some v =>
      simp only [hv, Option.bind_some] at h
      by_cases hx : pos x < a.p.length
      · rw [setFlat_eq v hx] at h
        simpa using ih _ h
      · simp [Nd.setFlat, hx] at h

theorem fillFrom_shape (f : Nat → Option T) (n : Nat) (a b : Nd T) (h : fillFrom f n a = some b) :
    b.dims = a.dims ∧ b.s = a.s ∧ b.ncd = a.ncd ∧ b.tv = a.tv ∧ b.p.length = a.p.length :=
  foldlM_shape (fun i => i) f _ a b h

theorem mem_allIdx (ds idx : List Nat) : idx ∈ allIdx ds ↔ ValidIdx idx ds := by
  induction ds generalizing idx with
  | nil => simp [allIdx, ValidIdx]
  | cons d ds ih =>
    simp only [allIdx, List.mem_flatMap, List.mem_map, List.mem_range]
    constructor
    · rintro ⟨i, hi, t, ht, rfl⟩
      exact List.Forall₂.cons hi ((ih t).1 ht)
    · intro h
      cases h with
      | cons hi ht => exact ⟨_, hi, _, (ih _).2 ht, rfl⟩

theorem validIdx_reverse {xs ss : List Nat} (h : ValidIdx xs ss) : ValidIdx xs.reverse ss.reverse :=
  List.rel_reverse h

/-- Two shaped arrays of the same shape with the same elements hold the same data. -/
theorem shaped_ext {a b : Nd T} (ha : Shaped a) (hb : Shaped b) (hd : b.dims = a.dims)
    (h : ∀ idx, ValidIdx idx a.dims → b.get idx = a.get idx) : b.p = a.p ∧ b.s = a.s := by
  refine ⟨?_, by rw [ha.str, hb.str, hd]⟩
  apply List.ext_getElem?
  intro k
  by_cases hk : k < a.dims.prod
  · obtain ⟨idx, hv, rfl⟩ := exists_idx ha.ne hk
    have := h idx hv
    rw [get_valid ha hv, get_valid hb (hd ▸ hv), hd] at this
    exact this
  · rw [List.getElem?_eq_none (by rw [hb.len, hd]; omega), List.getElem?_eq_none (by rw [ha.len]; omega)]

theorem list_prod_reverse (l : List Nat) : l.reverse.prod = l.prod := by
  induction l with
  | nil => rfl
  | cons x xs ih => simp [ih, Nat.mul_comm]

end Verif.ND
