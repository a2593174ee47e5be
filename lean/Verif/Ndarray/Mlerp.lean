import Verif.Ndarray.Lemmas
import Mathlib.Algebra.Order.Floor.Ring
import Mathlib.Algebra.Order.Field.Basic
import Mathlib.Data.Rat.Floor
import Mathlib.Tactic.Linarith
import Mathlib.Tactic.Ring
import Mathlib.Tactic.LinearCombination
/-! C43: multilinear interpolation `ndarray::mlerp` (ndarray.hh:1352-1411).  Element type and coordinate type are one
ordered field with exact arithmetic (rounding is not modelled). -/
namespace Verif.ND
variable {K : Type} [Field K] [LinearOrder K] [IsStrictOrderedRing K] [FloorRing K]

/-! ### model -/

/-- `F coef(1); for i: coef *= b[i] ? mu[i] : 1 - mu[i]` with `b[i] = (cur >> i) & 1` (ndarray.hh:1381-1394). -/
def coef (mu : List K) (cur : Nat) : K :=
  mu.zipIdx.foldl (fun c mi => c * if cur.testBit mi.2 then mi.1 else 1 - mi.1) 1

/-- `verts[nc+i] = x0[i] + b[i]` (ndarray.hh:1388). -/
def corner (x0 : List Nat) (cur : Nat) : List Nat :=
  x0.zipIdx.map fun xi => xi.1 + (cur.testBit xi.2).toNat

/-- The `size_t` value `dims[nc+i] - 1` (ndarray.hh:1363), which wraps for a zero dimension. -/
def lastIdx (d : Nat) : Nat := if d = 0 then 2 ^ 64 - 1 else d - 1

/-- The bounds check (ndarray.hh:1362-1363): true if some coordinate is out of bound. -/
def outOfBound : List K → List Nat → Bool
  | x :: xs, d :: ds => if x < 0 ∨ (lastIdx d : K) ≤ x then true else outOfBound xs ds
  | _, _ => false

/-- One corner's contribution to every channel (ndarray.hh:1397-1406). -/
def mlerpStep (a : Nd K) (pre : List (List Nat)) (x0 : List Nat) (mu : List K) (v : List K) (cur : Nat) :
    Option (List K) :=
  (List.zip pre v).mapM fun pv => (a.get (pv.1 ++ corner x0 cur)).map fun val => pv.2 + coef mu cur * val

/-- `mlerp(x, v)` (ndarray.hh:1352-1411).  `some none`: returned `false`; `some (some v)`: returned `true` with `v`
filled; `none`: `fatal` (two or more component dimensions), more dimensions than the fixed buffers of 12, a too short
`x`, or a read outside the data. -/
def Nd.mlerp (a : Nd K) (x : List K) : Option (Option (List K)) :=
  if a.nd < a.ncd ∨ 12 < a.nd ∨ x.length < a.nd - a.ncd then none
  else
    let n := a.nd - a.ncd
    let xs := x.take n
    if outOfBound xs (a.dims.drop a.ncd) then some none
    else
      let x0 := xs.map fun t => ⌊t⌋.toNat
      let mu := xs.map fun t => t - (⌊t⌋ : K)
      let chans : Option (List (List Nat)) :=
        if a.ncd = 0 then some [[]]
        else if a.ncd = 1 then (a.dims[0]?).map fun d => (List.range d).map fun k => [k]
        else none
      chans.bind fun pre =>
        ((List.range (2 ^ n)).foldlM (mlerpStep a pre x0 mu) (pre.map fun _ => 0)).map some

/-! ### specification -/

/-- (specification) Multilinear interpolation of grid values `f`: linear interpolation along the first coordinate
between the interpolants on the two neighbouring hyperplanes. -/
def multilinear : List K → (List Nat → K) → K
  | [], f => f []
  | x :: xs, f =>
    (1 - Int.fract x) * multilinear xs (fun r => f (⌊x⌋.toNat :: r)) +
      Int.fract x * multilinear xs (fun r => f ((⌊x⌋.toNat + 1) :: r))

/-- (specification) `x` is inside the grid, excluding the last hyperplane of every dimension. -/
def Inside (x : List K) (ds : List Nat) : Prop := List.Forall₂ (fun (x : K) (d : Nat) => 0 ≤ x ∧ x < (d : K) - 1) x ds

/-- (specification) `c` is a corner of the cell containing `x`. -/
def IsCorner (x : List K) (c : List Nat) : Prop :=
  List.Forall₂ (fun (x : K) (c : Nat) => c = ⌊x⌋.toNat ∨ c = ⌊x⌋.toNat + 1) x c

/-! ### proofs -/

/-- (proof device) the weight of corner `cur`, by recursion on the coordinates. -/
def W : List K → Nat → K
  | [], _ => 1
  | m :: ms, cur => (if cur % 2 = 1 then m else 1 - m) * W ms (cur / 2)

/-- (proof device) the corner `cur`, by recursion. -/
def C : List Nat → Nat → List Nat
  | [], _ => []
  | x :: xs, cur => (x + cur % 2) :: C xs (cur / 2)

omit [LinearOrder K] [IsStrictOrderedRing K] [FloorRing K] in
theorem coef_eq (mu : List K) (cur : Nat) : coef mu cur = W mu cur := by
  have key : ∀ (mu : List K) (k : Nat) (c : K),
      (mu.zipIdx k).foldl (fun c mi => c * if cur.testBit mi.2 then mi.1 else 1 - mi.1) c = c * W mu (cur / 2 ^ k) := by
    intro mu
    induction mu with
    | nil => intros; simp [W]
    | cons m ms ih =>
      intro k c
      rw [List.zipIdx_cons, List.foldl_cons, ih, W]
      have e1 : cur / 2 ^ (k + 1) = cur / 2 ^ k / 2 := by rw [pow_succ, Nat.div_div_eq_div_mul]
      rw [e1, mul_assoc]
      congr 2
      rw [Nat.testBit_eq_decide_div_mod_eq]
      simp
  have := key mu 0 1
  simpa [coef] using this

theorem corner_eq (x0 : List Nat) (cur : Nat) : corner x0 cur = C x0 cur := by
  have key : ∀ (x0 : List Nat) (k : Nat),
      (x0.zipIdx k).map (fun xi => xi.1 + (cur.testBit xi.2).toNat) = C x0 (cur / 2 ^ k) := by
    intro x0
    induction x0 with
    | nil => intros; simp [C]
    | cons m ms ih =>
      intro k
      rw [List.zipIdx_cons, List.map_cons, ih, C]
      have e1 : cur / 2 ^ (k + 1) = cur / 2 ^ k / 2 := by rw [pow_succ, Nat.div_div_eq_div_mul]
      rw [e1]
      congr 2
      rw [Nat.testBit_eq_decide_div_mod_eq]
      have := Nat.mod_two_eq_zero_or_one (cur / 2 ^ k)
      rcases this with h | h <;> simp [h]
  have := key x0 0
  simpa [corner] using this

/-- (proof device) sum of `f` over `0..n-1`. -/
def rsum (n : Nat) (f : Nat → K) : K := ((List.range n).map f).sum

omit [LinearOrder K] [IsStrictOrderedRing K] [FloorRing K] in
theorem rsum_succ (n : Nat) (f : Nat → K) : rsum (n + 1) f = rsum n f + f n := by
  simp [rsum, List.range_succ]

omit [LinearOrder K] [IsStrictOrderedRing K] [FloorRing K] in
theorem rsum_double (n : Nat) (f : Nat → K) : rsum (n * 2) f = rsum n (fun c => f (2 * c) + f (2 * c + 1)) := by
  induction n with
  | zero => simp [rsum]
  | succ n ih =>
    rw [show (n + 1) * 2 = n * 2 + 1 + 1 by ring, rsum_succ, rsum_succ, ih, rsum_succ]
    rw [show n * 2 = 2 * n by ring]; ring

omit [LinearOrder K] [IsStrictOrderedRing K] [FloorRing K] in
theorem rsum_lin (n : Nat) (p q : K) (f g : Nat → K) :
    rsum n (fun c => p * f c + q * g c) = p * rsum n f + q * rsum n g := by
  induction n with
  | zero => simp [rsum]
  | succ n ih => rw [rsum_succ, rsum_succ, rsum_succ, ih]; ring

/-- The loop over the `2^n` corners computes the multilinear interpolant. -/
theorem rsum_multilinear (xs : List K) (f : List Nat → K) :
    rsum (2 ^ xs.length) (fun cur => W (xs.map fun t => t - (⌊t⌋ : K)) cur * f (C (xs.map fun t => ⌊t⌋.toNat) cur)) =
      multilinear xs f := by
  induction xs generalizing f with
  | nil => simp [rsum, W, C, multilinear]
  | cons x xs ih =>
    rw [List.length_cons, pow_succ, rsum_double, multilinear, ← ih, ← ih, ← rsum_lin]
    congr 1
    funext c
    have e1 : 2 * c % 2 = 0 := by omega
    have e2 : (2 * c + 1) % 2 = 1 := by omega
    have e3 : 2 * c / 2 = c := by omega
    have e4 : (2 * c + 1) / 2 = c := by omega
    simp only [List.map_cons, W, C, e1, e2, e3, e4, Int.fract]
    simp only [zero_ne_one, if_false, if_true, Nat.add_zero]
    ring

omit [LinearOrder K] [IsStrictOrderedRing K] [FloorRing K] in
theorem step_eq (a : Nd K) (pre : List (List Nat)) (x0 : List Nat) (mu : List K) (g : List Nat → List Nat → K)
    (cur : Nat) (w : List Nat → K)
    (hg : ∀ pk ∈ pre, a.get (pk ++ C x0 cur) = some (g pk (C x0 cur))) :
    mlerpStep a pre x0 mu (pre.map w) cur =
      some (pre.map fun pk => w pk + W mu cur * g pk (C x0 cur)) := by
  unfold mlerpStep
  rw [corner_eq, coef_eq]
  induction pre with
  | nil => rfl
  | cons pk pre ih =>
    rw [List.map_cons, List.zip_cons_cons, List.mapM_cons, ih (fun q hq => hg q (by simp [hq])), hg pk (by simp)]
    rfl

omit [LinearOrder K] [IsStrictOrderedRing K] [FloorRing K] in
theorem loop_eq (a : Nd K) (pre : List (List Nat)) (x0 : List Nat) (mu : List K) (g : List Nat → List Nat → K)
    (n : Nat) (hg : ∀ cur, ∀ pk ∈ pre, a.get (pk ++ C x0 cur) = some (g pk (C x0 cur))) :
    (List.range n).foldlM (mlerpStep a pre x0 mu) (pre.map fun _ => 0) =
      some (pre.map fun pk => rsum n fun cur => W mu cur * g pk (C x0 cur)) := by
  induction n with
  | zero => simp [rsum]
  | succ n ih =>
    rw [List.range_succ, List.foldlM_append, ih]
    simp only [Option.bind_eq_bind, Option.bind_some, List.foldlM_cons, List.foldlM_nil]
    rw [step_eq a pre x0 mu g n _ (hg n)]
    simp only [rsum_succ]
    rfl

omit [FloorRing K] in
theorem outOfBound_iff (x : List K) (ds : List Nat) (hl : x.length = ds.length) (hpos : ∀ d ∈ ds, 0 < d) :
    outOfBound x ds = false ↔ Inside x ds := by
  induction x generalizing ds with
  | nil =>
    cases ds with
    | nil => simp [outOfBound, Inside]
    | cons => simp at hl
  | cons x xs ih =>
    cases ds with
    | nil => simp at hl
    | cons d ds =>
      have hd : 0 < d := hpos d (by simp)
      have hc : ((lastIdx d : Nat) : K) = (d : K) - 1 := by
        unfold lastIdx
        rw [if_neg (by omega), Nat.cast_sub (by omega)]
        simp
      have := ih ds (by simpa using hl) (fun e he => hpos e (by simp [he]))
      unfold outOfBound Inside
      rw [List.forall₂_cons, hc]
      split
      · rename_i h
        simp only [Bool.true_eq_false, false_iff]
        rintro ⟨⟨h1, h2⟩, -⟩
        rcases h with h | h
        · exact absurd h (not_lt.2 h1)
        · exact absurd h2 (not_lt.2 h)
      · rename_i h
        rw [not_or, not_lt, not_le] at h
        rw [this]
        exact ⟨fun h' => ⟨h, h'⟩, fun h' => h'.2⟩

theorem corner_valid (x : List K) (ds : List Nat) (h : Inside x ds) (cur : Nat) :
    ValidIdx (C (x.map fun t => ⌊t⌋.toNat) cur) ds := by
  induction h generalizing cur with
  | nil => exact List.Forall₂.nil
  | @cons x d xs ds hxd _ ih =>
    refine List.Forall₂.cons ?_ (ih _)
    have h1 : (0 : ℤ) ≤ ⌊x⌋ := Int.floor_nonneg.2 hxd.1
    have h2 : (⌊x⌋ : K) ≤ x := Int.floor_le x
    have h3 : (⌊x⌋ : K) < (d : K) - 1 := lt_of_le_of_lt h2 hxd.2
    have h4 : ((⌊x⌋ + 1 : ℤ) : K) < ((d : ℤ) : K) := by push_cast; linarith
    have h5 : ⌊x⌋ + 1 < (d : ℤ) := Int.cast_lt.1 h4
    have h6 : cur % 2 < 2 := Nat.mod_lt _ (by norm_num)
    show ⌊x⌋.toNat + cur % 2 < d
    omega

/-- (specification) the spatial dimensions of an array. -/
def spatial (a : Nd K) : List Nat := a.dims.drop a.ncd

/-- (specification) the channel prefixes: one empty prefix for a scalar field, `[k]` for channel `k`. -/
def channels (a : Nd K) : List (List Nat) :=
  if a.ncd = 0 then [[]] else (List.range (a.dims.getD 0 0)).map fun k => [k]

/-- (specification) the arrays the function supports: well-shaped, at most 12 dimensions, scalar or one component
dimension, at least one grid point in every spatial dimension. -/
structure Interpolable (a : Nd K) : Prop where
  shaped : Shaped a
  small : a.nd ≤ 12
  comps : a.ncd ≤ 1
  fits : a.ncd ≤ a.nd
  pos : ∀ d ∈ spatial a, 0 < d

omit [Field K] [LinearOrder K] [IsStrictOrderedRing K] [FloorRing K] in
theorem channel_valid (a : Nd K) (hs : Shaped a) (hc : a.ncd ≤ 1) (pk : List Nat) (hpk : pk ∈ channels a)
    (c : List Nat) (hv : ValidIdx c (spatial a)) : ValidIdx (pk ++ c) a.dims := by
  unfold channels at hpk
  unfold spatial at hv
  split at hpk
  · rename_i h0
    rw [h0] at hv
    simp only [List.mem_singleton] at hpk
    subst hpk
    simpa using hv
  · have h1 : a.ncd = 1 := by omega
    rw [h1] at hv
    obtain ⟨k, hk, rfl⟩ := List.mem_map.1 hpk
    cases hd : a.dims with
    | nil => exact absurd hd hs.ne
    | cons d ds =>
      rw [hd] at hv hk
      have hv' : ValidIdx c ds := by simpa using hv
      exact List.Forall₂.cons (by simpa using hk) hv'

/-- **C43 (bounds).** On a supported array `mlerp` is defined, and returns `false` exactly when some coordinate is
negative or not below the last grid position of its dimension. -/
theorem C43_out_of_bound (a : Nd K) (ha : Interpolable a) (x : List K) (hx : x.length = a.nd - a.ncd) :
    (∃ r, a.mlerp x = some r) ∧ (a.mlerp x = some none ↔ ¬ Inside x (spatial a)) := by
  have hl : x.length = (spatial a).length := by
    unfold spatial; rw [List.length_drop]; exact hx
  have hob := outOfBound_iff x (spatial a) hl ha.pos
  have hcond : ¬(a.nd < a.ncd ∨ 12 < a.nd ∨ x.length < a.nd - a.ncd) := by
    have := ha.small; have := ha.fits; omega
  have htake : x.take (a.nd - a.ncd) = x := by rw [← hx, List.take_length]
  have hchan : (if a.ncd = 0 then some [[]] else if a.ncd = 1 then
      (a.dims[0]?).map fun d => (List.range d).map fun k => [k] else none) = some (channels a) := by
    unfold channels
    by_cases h0 : a.ncd = 0
    · simp [h0]
    · have h1 : a.ncd = 1 := by have := ha.comps; omega
      cases hd : a.dims with
      | nil => exact absurd hd ha.shaped.ne
      | cons d ds => simp [h1]
  unfold Nd.mlerp
  rw [if_neg hcond]
  simp only [htake, hchan, Option.bind_some]
  by_cases hin : Inside x (spatial a)
  · have hob' : outOfBound x (a.dims.drop a.ncd) = false := hob.2 hin
    rw [if_neg (by simp [hob'])]
    have hg : ∀ cur, ∀ pk ∈ channels a, a.get (pk ++ C (x.map fun t => ⌊t⌋.toNat) cur) =
        some ((a.get (pk ++ C (x.map fun t => ⌊t⌋.toNat) cur)).getD 0) := by
      intro cur pk hpk
      have hv := channel_valid a ha.shaped ha.comps pk hpk _ (corner_valid x _ hin cur)
      rw [get_valid ha.shaped hv, List.getElem?_eq_getElem (index_lt ha.shaped hv)]; rfl
    rw [loop_eq a (channels a) _ _ (fun pk c => (a.get (pk ++ c)).getD 0) _ hg]
    simp [hin]
  · have hob' : outOfBound x (a.dims.drop a.ncd) = true := by
      have : ¬ outOfBound x (a.dims.drop a.ncd) = false := fun h => hin (hob.1 h)
      simpa using this
    rw [if_pos hob']
    simp [hin]

/-- **C43 (value).** Inside the grid every read is in bounds and `mlerp` returns, for each channel, the multilinear
interpolant of the grid values. -/
theorem C43_value (a : Nd K) (ha : Interpolable a) (x : List K) (hin : Inside x (spatial a)) :
    a.mlerp x = some (some ((channels a).map fun ch => multilinear x fun c => (a.get (ch ++ c)).getD 0)) := by
  have hx : x.length = a.nd - a.ncd := by
    have := hin.length_eq
    unfold spatial at this
    rw [List.length_drop] at this
    exact this
  have hl : x.length = (spatial a).length := hin.length_eq
  have hob := outOfBound_iff x (spatial a) hl ha.pos
  have hcond : ¬(a.nd < a.ncd ∨ 12 < a.nd ∨ x.length < a.nd - a.ncd) := by
    have := ha.small; have := ha.fits; omega
  have htake : x.take (a.nd - a.ncd) = x := by rw [← hx, List.take_length]
  have hchan : (if a.ncd = 0 then some [[]] else if a.ncd = 1 then
      (a.dims[0]?).map fun d => (List.range d).map fun k => [k] else none) = some (channels a) := by
    unfold channels
    by_cases h0 : a.ncd = 0
    · simp [h0]
    · have h1 : a.ncd = 1 := by have := ha.comps; omega
      cases hd : a.dims with
      | nil => exact absurd hd ha.shaped.ne
      | cons d ds => simp [h1]
  unfold Nd.mlerp
  rw [if_neg hcond]
  simp only [htake, hchan, Option.bind_some]
  have hob' : outOfBound x (a.dims.drop a.ncd) = false := hob.2 hin
  rw [if_neg (by simp [hob'])]
  have hg : ∀ cur, ∀ pk ∈ channels a, a.get (pk ++ C (x.map fun t => ⌊t⌋.toNat) cur) =
      some ((a.get (pk ++ C (x.map fun t => ⌊t⌋.toNat) cur)).getD 0) := by
    intro cur pk hpk
    have hv := channel_valid a ha.shaped ha.comps pk hpk _ (corner_valid x _ hin cur)
    rw [get_valid ha.shaped hv, List.getElem?_eq_getElem (index_lt ha.shaped hv)]; rfl
  rw [loop_eq a (channels a) _ _ (fun pk c => (a.get (pk ++ c)).getD 0) _ hg, ← hx, Option.map_some]
  congr 2
  apply List.map_congr_left
  intro pk _
  exact rsum_multilinear x fun c => (a.get (pk ++ c)).getD 0

/-- The interpolant at a grid position is the grid value. -/
theorem multilinear_nat (n : List Nat) (f : List Nat → K) : multilinear (n.map fun i : Nat => (i : K)) f = f n := by
  induction n generalizing f with
  | nil => rfl
  | cons i n ih => simp [multilinear, ih]

/-- The interpolant lies between bounds of the values at the corners of the cell. -/
theorem multilinear_between (x : List K) (f : List Nat → K) (lo hi : K)
    (h : ∀ c, IsCorner x c → lo ≤ f c ∧ f c ≤ hi) : lo ≤ multilinear x f ∧ multilinear x f ≤ hi := by
  induction x generalizing f with
  | nil => exact h [] List.Forall₂.nil
  | cons x xs ih =>
    have h1 := ih (fun r => f (⌊x⌋.toNat :: r)) (fun c hc => h _ (List.Forall₂.cons (Or.inl rfl) hc))
    have h2 := ih (fun r => f ((⌊x⌋.toNat + 1) :: r)) (fun c hc => h _ (List.Forall₂.cons (Or.inr rfl) hc))
    have h3 := Int.fract_nonneg x
    have h4 := (Int.fract_lt_one x).le
    rw [multilinear]
    constructor
    · nlinarith [mul_le_mul_of_nonneg_left h1.1 (sub_nonneg.2 h4), mul_le_mul_of_nonneg_left h2.1 h3]
    · nlinarith [mul_le_mul_of_nonneg_left h1.2 (sub_nonneg.2 h4), mul_le_mul_of_nonneg_left h2.2 h3]

/-- (specification) An affine function of grid coordinates. -/
def affine (c0 : K) (cs : List K) (y : List K) : K := c0 + (List.zipWith (· * ·) cs y).sum

theorem multilinear_affine (x : List K) (hx : ∀ t ∈ x, 0 ≤ t) (c0 : K) (cs : List K) (f : List Nat → K)
    (h : ∀ c, IsCorner x c → f c = affine c0 cs (c.map fun i : Nat => (i : K))) : multilinear x f = affine c0 cs x := by
  induction x generalizing f c0 cs with
  | nil => exact h [] List.Forall₂.nil
  | cons x xs ih =>
    rw [multilinear]
    have hx0 : (0 : ℤ) ≤ ⌊x⌋ := Int.floor_nonneg.2 (hx x (by simp))
    have hcast : ((⌊x⌋.toNat : Nat) : K) = (⌊x⌋ : K) := by
      have : ((⌊x⌋.toNat : ℤ)) = ⌊x⌋ := Int.toNat_of_nonneg hx0
      rw [← Int.cast_natCast, this]
    have hxs : ∀ t ∈ xs, 0 ≤ t := fun t ht => hx t (by simp [ht])
    cases cs with
    | nil =>
      rw [ih hxs c0 [] _ (fun c hc => by
            rw [h _ (List.Forall₂.cons (Or.inl rfl) hc)]; simp [affine]),
          ih hxs c0 [] _ (fun c hc => by
            rw [h _ (List.Forall₂.cons (Or.inr rfl) hc)]; simp [affine])]
      simp [affine]
      ring
    | cons c1 cs =>
      rw [ih hxs (c0 + c1 * (⌊x⌋ : K)) cs _ (fun c hc => by
            rw [h _ (List.Forall₂.cons (Or.inl rfl) hc)]; simp [affine, hcast, add_assoc]),
          ih hxs (c0 + c1 * ((⌊x⌋ : K) + 1)) cs _ (fun c hc => by
            rw [h _ (List.Forall₂.cons (Or.inr rfl) hc)]; simp [affine, hcast, add_assoc])]
      simp only [affine, List.zipWith_cons_cons, List.sum_cons, Int.fract]
      ring

/-- **C43 (grid positions).** At an integer position inside the grid, `mlerp` returns the stored values of all channels
at that position. -/
theorem C43_grid_position (a : Nd K) (ha : Interpolable a) (n : List Nat)
    (hin : Inside (n.map fun i : Nat => (i : K)) (spatial a)) :
    ∃ v, a.mlerp (n.map fun i : Nat => (i : K)) = some (some v) ∧ v.map some = (channels a).map fun ch => a.get (ch ++ n) := by
  refine ⟨_, C43_value a ha _ hin, ?_⟩
  rw [List.map_map]
  apply List.map_congr_left
  intro ch hch
  simp only [Function.comp, multilinear_nat]
  have hv : ValidIdx n (spatial a) := by
    have := List.forall₂_map_left_iff.1 hin
    refine List.Forall₂.imp ?_ this
    intro i d h
    have : ((i : Nat) : K) < (d : K) := by linarith [h.2]
    exact_mod_cast this
  have hv' := channel_valid a ha.shaped ha.comps ch hch n hv
  rw [get_valid ha.shaped hv', List.getElem?_eq_getElem (index_lt ha.shaped hv')]; rfl

/-- **C43 (range).** If the values of a channel at the corners of the cell lie in `[lo, hi]`, so does the result. -/
theorem C43_between (a : Nd K) (ha : Interpolable a) (x : List K) (hin : Inside x (spatial a)) (lo hi : K)
    (h : ∀ ch ∈ channels a, ∀ c, IsCorner x c → ∃ u, a.get (ch ++ c) = some u ∧ lo ≤ u ∧ u ≤ hi) :
    ∃ v, a.mlerp x = some (some v) ∧ v.length = (channels a).length ∧ ∀ u ∈ v, lo ≤ u ∧ u ≤ hi := by
  refine ⟨_, C43_value a ha _ hin, by simp, ?_⟩
  intro u hu
  obtain ⟨ch, hch, rfl⟩ := List.mem_map.1 hu
  apply multilinear_between
  intro c hc
  obtain ⟨w, hw, h1⟩ := h ch hch c hc
  rw [hw]
  exact h1

/-- **C43 (affine fields are reproduced).** If the stored scalar field is affine in the grid coordinates, `mlerp`
returns its value at `x` exactly. -/
theorem C43_affine (a : Nd K) (ha : Interpolable a) (h0 : a.ncd = 0) (c0 : K) (cs : List K)
    (hf : ∀ n, ValidIdx n a.dims → a.get n = some (affine c0 cs (n.map fun i : Nat => (i : K))))
    (x : List K) (hin : Inside x a.dims) : a.mlerp x = some (some [affine c0 cs x]) := by
  have hsp : spatial a = a.dims := by simp [spatial, h0]
  rw [C43_value a ha x (by rw [hsp]; exact hin)]
  simp only [channels, h0, if_true, List.map_cons, List.map_nil, List.nil_append]
  congr 3
  apply multilinear_affine
  · intro t ht
    have : ∀ (x : List K) (ds : List Nat), Inside x ds → ∀ t ∈ x, 0 ≤ t := by
      intro x ds h
      induction h with
      | nil => simp
      | cons hab _ ih =>
        intro t ht
        rcases List.mem_cons.1 ht with rfl | ht
        · exact hab.1
        · exact ih t ht
    exact this x _ hin t ht
  · intro c hc
    have hv : ValidIdx c a.dims := by
      have : ∀ (x : List K) (ds : List Nat) (c : List Nat), Inside x ds → IsCorner x c → ValidIdx c ds := by
        intro x ds c h
        induction h generalizing c with
        | nil => intro hc; cases hc; exact List.Forall₂.nil
        | @cons x d xs ds hxd _ ih =>
          intro hc
          cases hc with
          | cons hi hr =>
            refine List.Forall₂.cons ?_ (ih _ hr)
            have h1 : (0 : ℤ) ≤ ⌊x⌋ := Int.floor_nonneg.2 hxd.1
            have h2 : (⌊x⌋ : K) ≤ x := Int.floor_le x
            have h4 : ((⌊x⌋ + 1 : ℤ) : K) < ((d : ℤ) : K) := by push_cast; linarith [hxd.2]
            have h5 : ⌊x⌋ + 1 < (d : ℤ) := Int.cast_lt.1 h4
            omega
      exact this x _ c hin hc
    rw [hf c hv]; rfl

omit [FloorRing K] in
/-- **C43 (finding).** The last grid hyperplane is never interpolated: at position `dim - 1` the function returns
`false` although the array has a value there. -/
theorem C43_last_position [FloorRing K] (a : Nd K) (ha : Interpolable a) (x : List K) (hx : x.length = a.nd - a.ncd)
    (i : Nat) (hi : i < x.length) (hd : (spatial a)[i]? = some d) (hxi : x[i] = (d : K) - 1) :
    a.mlerp x = some none := by
  rw [(C43_out_of_bound a ha x hx).2]
  intro hin
  have h2 : i < (spatial a).length := by
    have := hin.length_eq; omega
  have := List.forall₂_iff_get.1 hin
  have h3 := (this.2 i hi h2).2
  rw [List.getElem?_eq_getElem h2] at hd
  simp only [List.get_eq_getElem] at h3
  rw [hxi, Option.some.inj hd] at h3
  exact lt_irrefl _ h3

/-- A 3 x 3 scalar field and a two-channel field meet the hypotheses. -/
example : Interpolable ({ dims := [3, 3], s := [1, 3], p := [0, 1, 2, 3, 4, 5, 6, 7, 8] } : Nd ℚ) :=
  ⟨⟨by simp, by simp [strides], by simp⟩, by simp [Nd.nd], by simp, by simp, by simp [spatial]⟩

example : ({ dims := [3, 3], s := [1, 3], p := [0, 1, 2, 3, 4, 5, 6, 7, 8] } : Nd ℚ).mlerp [1 / 2, 3 / 2] =
    some (some [5]) := by decide +kernel

example : ({ dims := [2, 2, 2], s := [1, 2, 4], ncd := 1, p := [0, 1, 2, 3, 4, 5, 6, 7] } : Nd ℚ).mlerp [1 / 2, 1 / 4] =
    some (some [2, 3]) := by decide +kernel

example : ({ dims := [3, 3], s := [1, 3], p := [0, 1, 2, 3, 4, 5, 6, 7, 8] } : Nd ℚ).mlerp [1, 2] = some none := by
  decide +kernel

end Verif.ND
