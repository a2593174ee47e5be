import Verif.NdStream.Sync
import Verif.Stream.Props
import Mathlib.Algebra.Order.Ring.Defs
import Mathlib.Algebra.Order.BigOperators.Group.List
import Mathlib.Algebra.BigOperators.Ring.List
import Mathlib.Algebra.BigOperators.Pi
import Mathlib.Algebra.Order.Ring.Rat
import Mathlib.Algebra.Field.Rat
import Mathlib.Tactic.Linarith
import Mathlib.Tactic.NormNum

/-!
# C146: what `start(); finish()` of a stream hands to the callback
-/

namespace Verif.NdS

variable {ι K : Type} [Semiring K] [LinearOrder K]

/-- (specification) the steps before the first one that has no data -/
def leading (frames : Nat → Option (ι → K)) (nt : Nat) : List Nat := (List.range nt).takeWhile fun i => (frames i).isSome

/-- (specification) the frame of step `k`, zero if there is none -/
def frameOf (frames : Nat → Option (ι → K)) (k : Nat) : ι → K := (frames k).getD 0

variable {c : Cfg ι K} {frames : Nat → Option (ι → K)} {blank : ι → K} {rtl : Bool}

theorem startLoop_plain (hk : c.kernel = none) : ∀ (n i : Nat) (s : SSt ι K), (c.isFile = true ∨ ∀ k, k < i + n → (frames k).isSome = true) →
    startLoop rtl c frames blank n i s = some { s with calls := s.calls ++
      ((List.range' i n).takeWhile fun k => (frames k).isSome).map fun k => (k, prepare c k (frameOf frames k)) } := by
  intro n
  induction n with
  | zero => intro i s _; simp [startLoop]
  | succ n ih =>
    intro i s h
    simp only [startLoop, List.range'_succ, List.takeWhile_cons]
    cases hf : frames i with
    | none =>
      rcases h with h | h
      · simp [h]
      · have := h i (by omega); rw [hf] at this; cases this
    | some a =>
      have h' : c.isFile = true ∨ ∀ k, k < i + 1 + n → (frames k).isSome = true := h.imp id fun h k hk => h k (by omega)
      simp only [modifiedCallback, hk]
      rw [ih (i + 1) _ h']
      simp [frameOf, hf]

theorem startLoop_filter {w : List K} (hk : c.kernel = some w) : ∀ (n i : Nat) (s : SSt ι K), (c.isFile = true ∨ ∀ k, k < i + n → (frames k).isSome = true) →
    startLoop rtl c frames blank n i s = ((((List.range' i n).takeWhile fun k => (frames k).isSome).map fun k => prepare c k (frameOf frames k)).foldlM
      (fun (f : Stream.Filter (ι → K)) d => f.push rtl d) s.filter).map fun f => { s with filter := f } := by
  intro n
  induction n with
  | zero => intro i s _; simp [startLoop]
  | succ n ih =>
    intro i s h
    simp only [startLoop, List.range'_succ, List.takeWhile_cons]
    cases hf : frames i with
    | none =>
      rcases h with h | h
      · simp [h]
      · have := h i (by omega); rw [hf] at this; cases this
    | some a =>
      have h' : c.isFile = true ∨ ∀ k, k < i + 1 + n → (frames k).isSome = true := h.imp id fun h k hk => h k (by omega)
      simp only [modifiedCallback, hk, Option.isSome_some, if_true, List.map_cons, List.foldlM_cons]
      have e : frameOf frames i = a := by simp [frameOf, hf]
      rw [e]
      cases hp : s.filter.push rtl (prepare c i a) with
      | none => rfl
      | some f =>
        simp only [Option.map_some]
        rw [ih (i + 1) _ h']
        rfl

/-- (specification) what a frame should have become at position `p`: smoothed in space, plus noise, then the nearest value in the
range. -/
def wanted (c : Cfg ι K) (k : Nat) (a : ι → K) (p : ι) : K :=
  let v := (c.smooth.getD id) a p + (c.noise.getD 0) k p
  match c.clamp with
  | none => v
  | some (lo, hi) => if v < lo then lo else if hi < v then hi else v

/-- C146: the processing of a frame is spatial smoothing, then noise, then clamping. -/
theorem C146_processing (hc : ∀ lo hi, c.clamp = some (lo, hi) → lo ≤ hi) (k : Nat) (a : ι → K) (p : ι) :
    prepare c k a p = wanted c k a p := by
  have key : ∀ v lo hi : K, lo ≤ hi → clampTo v lo hi = if v < lo then lo else if hi < v then hi else v := by
    intro v lo hi h
    unfold clampTo
    split
    · rename_i h1; rw [max_eq_left h1.le, min_eq_left h]
    · rename_i h1
      rw [max_eq_right (not_lt.1 h1)]
      split
      · rename_i h2; exact min_eq_right h2.le
      · rename_i h2; exact min_eq_left (not_lt.1 h2)
  unfold prepare wanted
  cases hcl : c.clamp with
  | none => cases c.smooth <;> cases c.noise <;> simp
  | some lh =>
    obtain ⟨lo, hi⟩ := lh
    have := hc lo hi hcl
    cases c.smooth <;> cases c.noise <;> simp [key _ _ _ this]

/-- C146: without temporal smoothing the callback gets every frame before the first missing one, exactly once, in order and with
its own step number, after spatial smoothing, then noise, then clamping. -/
theorem C146_calls (hk : c.kernel = none) (nt : Nat) (h : c.isFile = true ∨ ∀ k < nt, (frames k).isSome = true) :
    startFinish rtl c frames blank nt = some ((leading frames nt).map fun k => (k, prepare c k (frameOf frames k))) := by
  unfold startFinish
  rw [startLoop_plain hk nt 0 _ (h.imp id fun h k hk => h k (by omega))]
  simp [finishStream, hk, startInit, leading, List.range_eq_range']

theorem conv_apply (w : List K) (series : List (ι → K)) (t : Nat) (p : ι) :
    Stream.conv (w.map fun x => (fun _ => x : ι → K)) series t p = Stream.conv w (series.map fun g => g p) t := by
  unfold Stream.conv
  have key : ∀ (l : List Nat) (f : Nat → ι → K), ((l.map f).sum) p = (l.map fun i => f i p).sum := by
    intro l f
    induction l with
    | nil => rfl
    | cons a l ih => simp [ih]
  rw [key]
  simp only [List.length_map]
  congr 1
  apply List.map_congr_left
  intro i hi
  rw [List.mem_range] at hi
  simp only [Pi.mul_apply]
  congr 1
  · simp [List.getD, hi]
  · simp only [List.getD, List.getElem?_map]
    cases series[min (t + i - (w.length - 1) / 2) (series.length - 1)]? <;> rfl

theorem prepare_clamped {lo hi : K} (hc : c.clamp = some (lo, hi)) (hlo : lo ≤ hi) (k : Nat) (a : ι → K) (p : ι) :
    lo ≤ prepare c k a p ∧ prepare c k a p ≤ hi := by
  unfold prepare clampTo
  simp only [hc]
  exact ⟨le_min (le_max_left _ _) hlo, min_le_right _ _⟩

/-- C146 (what is missing: even kernels and series shorter than the kernel, see C44): with temporal smoothing there is one call per
frame, in order, with the convolution in time of the prepared frames at every position. -/
theorem C146_temporal_partial {w : List K} (hk : c.kernel = some w) (nt : Nat) (h : c.isFile = true ∨ ∀ k < nt, (frames k).isSome = true)
    (hodd : w.length % 2 = 1) (hlen : w.length ≤ (leading frames nt).length) :
    ∃ out, startFinish rtl c frames blank nt = some out ∧ out.length = (leading frames nt).length ∧
      ∀ t < out.length, ∃ g, out[t]? = some ((if rtl then t + 1 else t), g) ∧
        ∀ p, g p = Stream.conv w ((leading frames nt).map fun k => prepare c k (frameOf frames k) p) t := by
  have hrun := Stream.C44_streaming_partial rtl (w.map fun x => (fun _ => x : ι → K))
    ((leading frames nt).map fun k => prepare c k (frameOf frames k)) (by simpa using hodd) (by simpa using hlen)
  have hsf : startFinish rtl c frames blank nt = Stream.run rtl (w.map fun x => (fun _ => x : ι → K))
      ((leading frames nt).map fun k => prepare c k (frameOf frames k)) := by
    unfold startFinish Stream.run
    rw [startLoop_filter hk nt 0 _ (h.imp id fun h k hk => h k (by omega))]
    have e : (List.range' 0 nt).takeWhile (fun k => (frames k).isSome) = leading frames nt := by simp [leading, List.range_eq_range']
    rw [e]
    simp only [startInit, hk, Option.getD_some]
    cases ((leading frames nt).map fun k => prepare c k (frameOf frames k)).foldlM
      (fun (f : Stream.Filter (ι → K)) d => f.push rtl d) { kernel := w.map fun x => (fun _ => x : ι → K) } with
    | none => rfl
    | some f => simp [finishStream, hk]
  refine ⟨_, hsf.trans hrun, by simp, ?_⟩
  intro t ht
  simp only [List.length_map, List.length_range] at ht
  refine ⟨_, by rw [List.getElem?_map, List.getElem?_range (by simpa using ht)]; rfl, ?_⟩
  intro p
  rw [conv_apply, List.map_map]
  rfl

/-- C146: with `"clamp"` (and `lo ≤ hi`) every value handed to the callback lies in `[lo, hi]`. -/
theorem C146_clamped {lo hi : K} (hc : c.clamp = some (lo, hi)) (hlo : lo ≤ hi) (hk : c.kernel = none) (nt : Nat)
    (h : c.isFile = true ∨ ∀ k < nt, (frames k).isSome = true) {out : List (Nat × (ι → K))}
    (ho : startFinish rtl c frames blank nt = some out) : ∀ q ∈ out, ∀ p, lo ≤ q.2 p ∧ q.2 p ≤ hi := by
  rw [C146_calls hk nt h] at ho
  obtain rfl := Option.some.inj ho
  intro q hq p
  obtain ⟨k, -, rfl⟩ := List.mem_map.1 hq
  exact prepare_clamped hc hlo k _ p

theorem conv_between [IsOrderedRing K] {w series : List K} {lo hi : K} (hw : ∀ x ∈ w, 0 ≤ x) (hsum : w.sum = 1)
    (hne : series ≠ []) (hs : ∀ x ∈ series, lo ≤ x ∧ x ≤ hi) (t : Nat) : lo ≤ Stream.conv w series t ∧ Stream.conv w series t ≤ hi := by
  have hws : ∀ v : K, ((List.range w.length).map fun i => w.getD i 0 * v).sum = v := by
    intro v
    rw [List.sum_map_mul_right]
    have : (List.range w.length).map (fun i => w.getD i 0) = w := by
      apply List.ext_getElem
      · simp
      · intro i h1 h2
        simp [List.getD, h2]
    rw [this, hsum, one_mul]
  have hx : ∀ i, lo ≤ series.getD (min (t + i - (w.length - 1) / 2) (series.length - 1)) 0 ∧
      series.getD (min (t + i - (w.length - 1) / 2) (series.length - 1)) 0 ≤ hi := by
    intro i
    have hl : 0 < series.length := List.length_pos_iff.2 hne
    have hlt : min (t + i - (w.length - 1) / 2) (series.length - 1) < series.length := by omega
    rw [List.getD_eq_getElem _ _ hlt]
    exact hs _ (List.getElem_mem _)
  have h0 : ∀ i, 0 ≤ w.getD i 0 := by
    intro i
    rcases Nat.lt_or_ge i w.length with h | h
    · rw [List.getD_eq_getElem _ _ h]; exact hw _ (List.getElem_mem _)
    · rw [List.getD_eq_default _ _ h]
  unfold Stream.conv
  constructor
  · conv_lhs => rw [← hws lo]
    exact List.sum_le_sum fun i _ => mul_le_mul_of_nonneg_left (hx i).1 (h0 i)
  · conv_rhs => rw [← hws hi]
    exact List.sum_le_sum fun i _ => mul_le_mul_of_nonneg_left (hx i).2 (h0 i)

/-- C146: the bounds of `"clamp"` survive temporal smoothing when the weights are not negative and sum to one (odd kernels not
longer than the series). -/
theorem C146_clamped_temporal_partial [IsOrderedRing K] {lo hi : K} (hc : c.clamp = some (lo, hi)) (hlo : lo ≤ hi) {w : List K}
    (hk : c.kernel = some w) (hw : ∀ x ∈ w, 0 ≤ x) (hsum : w.sum = 1) (nt : Nat)
    (h : c.isFile = true ∨ ∀ k < nt, (frames k).isSome = true) (hodd : w.length % 2 = 1) (hlen : w.length ≤ (leading frames nt).length)
    {out : List (Nat × (ι → K))} (ho : startFinish rtl c frames blank nt = some out) : ∀ q ∈ out, ∀ p, lo ≤ q.2 p ∧ q.2 p ≤ hi := by
  obtain ⟨out', h1, h2, h3⟩ := C146_temporal_partial (rtl := rtl) (blank := blank) hk nt h hodd hlen
  rw [ho] at h1
  obtain rfl := Option.some.inj h1
  intro q hq p
  obtain ⟨t, ht, rfl⟩ := List.getElem_of_mem hq
  obtain ⟨g, hg, hgp⟩ := h3 t ht
  rw [List.getElem?_eq_getElem ht, Option.some.injEq] at hg
  rw [hg]
  show lo ≤ g p ∧ g p ≤ hi
  rw [hgp p]
  apply conv_between hw hsum
  · intro e
    have : (leading frames nt).length = 0 := by simpa using congrArg List.length e
    omega
  · intro x hx
    obtain ⟨k, -, rfl⟩ := List.mem_map.1 hx
    exact prepare_clamped hc hlo k _ p

/-- Three frames of one value, the second outside the range, and then the files end. -/
def demoFrames : Nat → Option (Fin 1 → ℚ)
  | 0 => some fun _ => 1
  | 1 => some fun _ => 9
  | 2 => some fun _ => 2
  | _ => none

/-- Clamp to `[0, 4]`, no temporal smoothing. -/
def demoCfg (kernel : Option (List ℚ)) : Cfg (Fin 1) ℚ := { isFile := true, smooth := none, noise := none, clamp := some (0, 4), kernel := kernel }

example : (startFinish false (demoCfg none) demoFrames 0 7).map (fun l => l.map fun q => (q.1, q.2 0)) = some [(0, 1), (1, 4), (2, 2)] := by
  rw [C146_calls rfl 7 (Or.inl rfl)]
  have : leading demoFrames 7 = [0, 1, 2] := by decide
  rw [this]
  simp [prepare, demoCfg, clampTo, frameOf, demoFrames]
  norm_num
example : leading demoFrames 7 = [0, 1, 2] ∧ [1 / 4, 1 / 2, (1 / 4 : ℚ)].sum = 1 := by
  refine ⟨by decide, by norm_num⟩

end Verif.NdS
