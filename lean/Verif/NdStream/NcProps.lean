import Verif.NdStream.Nc
import Mathlib.Algebra.BigOperators.Group.List.Basic
import Mathlib.Tactic.Ring
import Mathlib.Tactic.Linarith

/-!
# C148: which file, which record and which elements a NetCDF stream reads
-/

namespace Verif.NdS

/-- (specification) all the records of the files one after the other: (file, record in the file). -/
def records (counts : List Nat) : List (Nat × Nat) := counts.zipIdx.flatMap fun p => (List.range p.1).map fun r => (p.2, r)

theorem locateLoop_spec (k : Nat) : ∀ (counts : List Nat) (t i : Nat), t ≤ k → k < t + counts.sum →
    ((counts.zipIdx i).flatMap fun p => (List.range p.1).map fun r => (p.2, r))[k - t]? =
      some (locateLoop k i ((firstSteps t counts).zip counts)) := by
  intro counts
  induction counts with
  | nil => intro t i h1 h2; simp at h2; omega
  | cons n ns ih =>
    intro t i h1 h2
    rw [List.sum_cons] at h2
    simp only [List.zipIdx_cons, List.flatMap_cons, firstSteps, List.zip_cons_cons, locateLoop]
    by_cases hk : k < t + n
    · rw [if_pos ⟨h1, hk⟩, List.getElem?_append_left (by simp; omega)]
      simp [show k - t < n by omega]
    · rw [if_neg (by omega), List.getElem?_append_right (by simp; omega)]
      have := ih (t + n) (i + 1) (by omega) (by omega)
      rw [← this]
      congr 1
      simp; omega

/-- C148: the step `k` of the stream is the `k`-th record of the files one after the other. -/
theorem C148_locate (counts : List Nat) (k : Nat) (hk : k < counts.sum) : (records counts)[k]? = some (locate counts k) := by
  have := locateLoop_spec k counts 0 0 (by omega) (by omega)
  simpa [records, locate] using this

/-- C148: hence over a whole run every record is read exactly once and in order. -/
theorem C148_all_records (counts : List Nat) : (List.range counts.sum).map (locate counts) = records counts := by
  have hl : ∀ (counts : List Nat) i, ((counts.zipIdx i).flatMap fun p => (List.range p.1).map fun r => (p.2, r)).length = counts.sum := by
    intro counts
    induction counts with
    | nil => intro i; rfl
    | cons n ns ih => intro i; simp only [List.zipIdx_cons, List.flatMap_cons, List.length_append, ih, List.sum_cons]; simp
  apply List.ext_getElem?
  intro k
  by_cases hk : k < counts.sum
  · rw [C148_locate counts k hk]; simp [hk]
  · have h1 : (records counts)[k]? = none := by
      rw [List.getElem?_eq_none_iff]; exact (hl counts 0).symm ▸ Nat.le_of_not_lt hk
    rw [h1]; simp [hk]

/-- C148: the steps `start` asks for exist: `n_timesteps` never exceeds the number of records. -/
theorem C148_steps (given : Option Nat) (nt : Nat) : nTimesteps given nt ≤ nt ∧ (∀ g, given = some g → nTimesteps given nt ≤ g) ∧
    (given = none → nTimesteps given nt = nt) := by
  cases given with
  | none => simp [nTimesteps]
  | some g => simp [nTimesteps]

/-- C148 (finding): a step beyond the last record silently reads the first record of the first file. -/
theorem C148_beyond (counts : List Nat) (k : Nat) (hk : counts.sum ≤ k) : locate counts k = (0, 0) := by
  have : ∀ (counts : List Nat) (t i : Nat), t + counts.sum ≤ k → locateLoop k i ((firstSteps t counts).zip counts) = (0, 0) := by
    intro counts
    induction counts with
    | nil => intro t i _; rfl
    | cons n ns ih =>
      intro t i h
      rw [List.sum_cons] at h
      simp only [firstSteps, List.zip_cons_cons, locateLoop]
      rw [if_neg (by omega)]
      exact ih _ _ (by omega)
  exact this counts 0 0 (by omega)

/-! ## Hyperslabs -/

theorem flatten_const {α : Type} {n : Nat} : ∀ (L : List (List α)), (∀ l ∈ L, l.length = n) → ∀ i j, j < n →
    L.flatten[i * n + j]? = (L[i]?).bind (fun l => l[j]?)
  | [], _, i, j, _ => by simp
  | l :: L, h, 0, j, hj => by
    have hl := h l (by simp)
    simp only [List.flatten_cons, Nat.zero_mul, Nat.zero_add, List.getElem?_cons_zero, Option.bind_some]
    rw [List.getElem?_append_left (by omega)]
  | l :: L, h, i + 1, j, hj => by
    have hl := h l (by simp)
    simp only [List.flatten_cons, List.getElem?_cons_succ]
    rw [List.getElem?_append_right (by rw [hl]; nlinarith)]
    rw [show (i + 1) * n + j - l.length = i * n + j by rw [hl, Nat.succ_mul]; omega]
    exact flatten_const L (fun l hl => h l (by simp [hl])) i j hj

variable {V : Type}

theorem hyperslab_length : ∀ (w : List (Nat × Nat)) (v : List Nat → V), (hyperslab w v).length = (w.map (·.2)).prod := by
  intro w
  induction w with
  | nil => intro v; rfl
  | cons a w ih =>
    intro v
    obtain ⟨st, n⟩ := a
    simp [hyperslab, List.length_flatMap, ih]

theorem hyperslab_get (st n : Nat) (w : List (Nat × Nat)) (v : List Nat → V) (i j : Nat) (hi : i < n) (hj : j < (w.map (·.2)).prod) :
    (hyperslab ((st, n) :: w) v)[i * (w.map (·.2)).prod + j]? = (hyperslab w fun ix => v ((st + i) :: ix))[j]? := by
  simp only [hyperslab, List.flatMap]
  rw [flatten_const _ _ i j hj]
  · simp [hi]
  · intro l hl
    simp only [List.mem_map] at hl
    obtain ⟨q, -, rfl⟩ := hl
    exact hyperslab_length _ _

theorem slab1 (s0 n0 : Nat) (v : List Nat → V) (x : Nat) (hx : x < n0) : (hyperslab [(s0, n0)] v)[x]? = some (v [s0 + x]) := by
  have := hyperslab_get s0 n0 [] v x 0 hx (by simp)
  simpa [hyperslab] using this

theorem slab2 (s1 n1 s0 n0 : Nat) (v : List Nat → V) (x y : Nat) (hx : x < n0) (hy : y < n1) :
    (hyperslab [(s1, n1), (s0, n0)] v)[x + n0 * y]? = some (v [s1 + y, s0 + x]) := by
  have := hyperslab_get s1 n1 [(s0, n0)] v y x hy (by simpa using hx)
  rw [slab1 s0 n0 _ x hx] at this
  rw [← this]
  congr 1
  simp; ring

theorem slab3 (s2 n2 s1 n1 s0 n0 : Nat) (v : List Nat → V) (x y z : Nat) (hx : x < n0) (hy : y < n1) (hz : z < n2) :
    (hyperslab [(s2, n2), (s1, n1), (s0, n0)] v)[x + n0 * (y + n1 * z)]? = some (v [s2 + z, s1 + y, s0 + x]) := by
  have h : x + n0 * y < n1 * n0 := by nlinarith
  have := hyperslab_get s2 n2 [(s1, n1), (s0, n0)] v z (x + n0 * y) hz (by simpa using h)
  rw [slab2 s1 n1 s0 n0 _ x y hx hy] at this
  rw [← this]
  congr 1
  simp; ring

/-- A record of one step in front changes nothing in the storage order. -/
theorem slab_record (off : Nat) (w : List (Nat × Nat)) (v : List Nat → V) : hyperslab ((off, 1) :: w) v = hyperslab w fun ix => v (off :: ix) := by
  simp [hyperslab]

theorem resize_self (zero : V) (n : Nat) (l : List V) (h : l.length = n) : resize zero n l = l := by
  subst h; simp [resize]

theorem interleave_length (zero : V) (arrays : List (List V)) : (interleave zero arrays).length = arrays.length * (arrays.headD []).length := by
  simp [interleave, List.length_flatMap, Nat.mul_comm]

/-- What either branch of the last part of `requestNc` returns. -/
theorem pack_spec (zero : V) (nv N : Nat) (rd : Nat → List V) (hnv : 0 < nv) (hN : ∀ w, (rd w).length = N) :
    ∃ a, (if nv = 1 then some (resize zero N (rd 0)) else some (resize zero (nv * N) (interleave zero ((List.range nv).map rd)))) = some a ∧
      a.length = nv * N ∧ ∀ c q, c < nv → q < N → a[c + nv * q]? = (rd c)[q]? := by
  by_cases h1 : nv = 1
  · subst h1
    refine ⟨rd 0, by rw [if_pos rfl, resize_self _ _ _ (hN 0)], by simp [hN], ?_⟩
    intro c q hc _
    obtain rfl : c = 0 := by omega
    simp
  · have hh : (((List.range nv).map rd).headD []).length = N := by
      obtain ⟨m, rfl⟩ : ∃ m, nv = m + 1 := ⟨nv - 1, by omega⟩
      simp [List.range_succ_eq_map, hN]
    have hl : (interleave zero ((List.range nv).map rd)).length = nv * N := by rw [interleave_length, hh]; simp
    refine ⟨interleave zero ((List.range nv).map rd), by rw [if_neg h1, resize_self _ _ _ hl], hl, ?_⟩
    intro c q hc hq
    unfold interleave
    rw [hh, List.flatMap, show c + nv * q = q * nv + c by ring, flatten_const _ _ q c hc]
    · have : q < (rd c).length := by rw [hN]; exact hq
      simp [hq, hc, this]
    · intro l hl
      simp only [List.mem_map] at hl
      obtain ⟨_, -, rfl⟩ := hl
      simp

/-- C148 (three dimensions, files with a record dimension): the array of step `k` has one component per variable, and the
component `c` of its element `(x, y, z)` is the value of variable `c` at the record of step `k` and the position of the element in
the block. -/
theorem C148_read3 (zero : V) (counts : List Nat) (nv : Nat) (files : Nat → Nat → List Nat → V) (b0 b1 b2 n0 n1 n2 k : Nat)
    (hnv : 0 < nv) (hk : k < counts.sum) :
    ∃ a f r, requestNc zero (some counts) 4 nv files [b0, b1, b2] [n0, n1, n2] k = some a ∧ (records counts)[k]? = some (f, r) ∧
      a.length = nv * (n0 * n1 * n2) ∧
      ∀ c x y z, c < nv → x < n0 → y < n1 → z < n2 →
        a[c + nv * (x + n0 * (y + n1 * z))]? = some (files f c [r, b2 + z, b1 + y, b0 + x]) := by
  obtain ⟨a, h1, h2, h3⟩ := pack_spec zero nv (n0 * n1 * n2)
    (fun w => hyperslab [((locate counts k).2, 1), (b2, n2), (b1, n1), (b0, n0)] (files (locate counts k).1 w)) hnv
    (by intro w; rw [hyperslab_length]; simp; ring)
  refine ⟨a, (locate counts k).1, (locate counts k).2, ?_, C148_locate counts k hk, h2, ?_⟩
  · rw [← h1]
    simp [requestNc, window, readVar, Nat.mul_assoc]
  · intro c x y z hc hx hy hz
    rw [h3 c _ hc, slab_record, slab3 _ _ _ _ _ _ _ _ _ _ hx hy hz]
    have : x + n0 * (y + n1 * z) < n0 * (n1 * n2) := by
      have : y + n1 * z < n1 * n2 := by nlinarith
      nlinarith
    rw [Nat.mul_assoc]; exact this

/-- C148 (two dimensions, files with a record dimension). -/
theorem C148_read2 (zero : V) (counts : List Nat) (nv : Nat) (files : Nat → Nat → List Nat → V) (b0 b1 n0 n1 k : Nat)
    (hnv : 0 < nv) (hk : k < counts.sum) :
    ∃ a f r, requestNc zero (some counts) 3 nv files [b0, b1] [n0, n1] k = some a ∧ (records counts)[k]? = some (f, r) ∧
      a.length = nv * (n0 * n1) ∧
      ∀ c x y, c < nv → x < n0 → y < n1 → a[c + nv * (x + n0 * y)]? = some (files f c [r, b1 + y, b0 + x]) := by
  obtain ⟨a, h1, h2, h3⟩ := pack_spec zero nv (n0 * n1)
    (fun w => hyperslab [((locate counts k).2, 1), (b1, n1), (b0, n0)] (files (locate counts k).1 w)) hnv
    (by intro w; rw [hyperslab_length]; simp; ring)
  refine ⟨a, (locate counts k).1, (locate counts k).2, ?_, C148_locate counts k hk, h2, ?_⟩
  · rw [← h1]
    simp [requestNc, window, readVar]
  · intro c x y hc hx hy
    rw [h3 c _ hc, slab_record, slab2 _ _ _ _ _ _ _ hx hy]
    nlinarith

/-- C148 (one dimension, files with a record dimension). -/
theorem C148_read1 (zero : V) (counts : List Nat) (nv : Nat) (files : Nat → Nat → List Nat → V) (b0 n0 k : Nat)
    (hnv : 0 < nv) (hk : k < counts.sum) :
    ∃ a f r, requestNc zero (some counts) 2 nv files [b0] [n0] k = some a ∧ (records counts)[k]? = some (f, r) ∧ a.length = nv * n0 ∧
      ∀ c x, c < nv → x < n0 → a[c + nv * x]? = some (files f c [r, b0 + x]) := by
  obtain ⟨a, h1, h2, h3⟩ := pack_spec zero nv n0 (fun w => hyperslab [((locate counts k).2, 1), (b0, n0)] (files (locate counts k).1 w)) hnv
    (by intro w; rw [hyperslab_length]; simp)
  refine ⟨a, (locate counts k).1, (locate counts k).2, ?_, C148_locate counts k hk, h2, ?_⟩
  · rw [← h1]
    simp [requestNc, window, readVar]
  · intro c x hc hx
    rw [h3 c _ hc hx, slab_record, slab1 _ _ _ _ hx]

/-- C148 (one file per step, no record dimension): step `k` is file `k`, in one, two or three dimensions. -/
theorem C148_file_per_step (zero : V) (nv : Nat) (files : Nat → Nat → List Nat → V) (b0 b1 b2 n0 n1 n2 k : Nat) (hnv : 0 < nv) :
    (∃ a, requestNc zero none 1 nv files [b0] [n0] k = some a ∧ a.length = nv * n0 ∧
      ∀ c x, c < nv → x < n0 → a[c + nv * x]? = some (files k c [b0 + x])) ∧
    (∃ a, requestNc zero none 2 nv files [b0, b1] [n0, n1] k = some a ∧ a.length = nv * (n0 * n1) ∧
      ∀ c x y, c < nv → x < n0 → y < n1 → a[c + nv * (x + n0 * y)]? = some (files k c [b1 + y, b0 + x])) ∧
    (∃ a, requestNc zero none 3 nv files [b0, b1, b2] [n0, n1, n2] k = some a ∧ a.length = nv * (n0 * n1 * n2) ∧
      ∀ c x y z, c < nv → x < n0 → y < n1 → z < n2 →
        a[c + nv * (x + n0 * (y + n1 * z))]? = some (files k c [b2 + z, b1 + y, b0 + x])) := by
  refine ⟨?_, ?_, ?_⟩
  · obtain ⟨a, h1, h2, h3⟩ := pack_spec zero nv n0 (fun w => hyperslab [(b0, n0)] (files k w)) hnv
      (by intro w; rw [hyperslab_length]; simp)
    refine ⟨a, ?_, h2, ?_⟩
    · rw [← h1]
      simp [requestNc, window, readVar]
    · intro c x hc hx
      rw [h3 c _ hc hx, slab1 _ _ _ _ hx]
  · obtain ⟨a, h1, h2, h3⟩ := pack_spec zero nv (n0 * n1) (fun w => hyperslab [(b1, n1), (b0, n0)] (files k w)) hnv
      (by intro w; rw [hyperslab_length]; simp; ring)
    refine ⟨a, ?_, h2, ?_⟩
    · rw [← h1]
      simp [requestNc, window, readVar]
    · intro c x y hc hx hy
      rw [h3 c _ hc, slab2 _ _ _ _ _ _ _ hx hy]
      nlinarith
  · obtain ⟨a, h1, h2, h3⟩ := pack_spec zero nv (n0 * n1 * n2) (fun w => hyperslab [(b2, n2), (b1, n1), (b0, n0)] (files k w)) hnv
      (by intro w; rw [hyperslab_length]; simp; ring)
    refine ⟨a, ?_, h2, ?_⟩
    · rw [← h1]
      simp [requestNc, window, readVar, Nat.mul_assoc]
    · intro c x y z hc hx hy hz
      rw [h3 c _ hc, slab3 _ _ _ _ _ _ _ _ _ _ hx hy hz]
      have : x + n0 * (y + n1 * z) < n0 * (n1 * n2) := by
        have : y + n1 * z < n1 * n2 := by nlinarith
        nlinarith
      rw [Nat.mul_assoc]; exact this

/-- C148 (finding): when the time dimension of a variable is not unlimited, the fourth window entry is zero: nothing is read, and
the array is all zeros, whatever is in the file. -/
theorem C148_fixed_time_dimension (zero : V) (files : Nat → Nat → List Nat → V) (b0 b1 b2 n0 n1 n2 k : Nat) :
    requestNc zero none 4 1 files [b0, b1, b2] [n0, n1, n2] k = some (List.replicate (n0 * (n1 * n2)) zero) := by
  have : hyperslab [(b2, n2), (b1, n1), (b0, n0), (0, 0)] (files k 0) = [] := by
    rw [← List.length_eq_zero_iff, hyperslab_length]; simp
  simp [requestNc, window, readVar, resize, this]

example : records [2, 0, 1] = [(0, 0), (0, 1), (2, 0)] := by decide
example : locate [2, 0, 1] 2 = (2, 0) := by decide
-- two variables, two files, a block of 2 x 1 points at (1, 1)
example : requestNc 0 (some [1, 2]) 3 2 (fun f w ix => 1000 * f + 100 * w + ix.foldl (fun a i => 4 * a + i) 0) [1, 1] [2, 1] 2 =
    some [1021, 1121, 1022, 1122] := by decide

end Verif.NdS
