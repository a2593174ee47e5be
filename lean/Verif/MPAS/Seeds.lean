import Verif.MPAS.Locate
import Verif.MPAS.Ids
import Verif.MPAS.Ocean
import Mathlib.Algebra.BigOperators.Group.List.Basic
import Mathlib.Tactic.FieldSimp

/-!
# C155, C156: seeds and numbers of steps
-/

namespace Verif.MPAS

open Verif.Num

variable {K : Type} [Field K] [LinearOrder K]

/-! ### Seeds on a grid of angles and depths -/

omit [LinearOrder K] in
/-- C155: a seed is at the distance radius plus depth from the centre of the earth. -/
theorem C155_distance (sin cos deg2rad : K → K) (hsc : ∀ t, sin t * sin t + cos t * cos t = 1) (radius lat0 dlat lon0 dlon z0 dz : K) (i j k : Nat) :
    dot3 (geoPoint sin cos deg2rad radius lat0 dlat lon0 dlon z0 dz i j k) (geoPoint sin cos deg2rad radius lat0 dlat lon0 dlon z0 dz i j k) =
      (radius + (k * dz + z0)) * (radius + (k * dz + z0)) := by
  have h1 := hsc (deg2rad ((i : K) * dlat + lat0))
  have h2 := hsc (deg2rad ((j : K) * dlon + lon0))
  simp only [dot3, geoPoint, Matrix.cons_val]
  set s1 := sin (deg2rad ((i : K) * dlat + lat0))
  set c1 := cos (deg2rad ((i : K) * dlat + lat0))
  set s2 := sin (deg2rad ((j : K) * dlon + lon0))
  set c2 := cos (deg2rad ((j : K) * dlon + lon0))
  set r := radius + ((k : K) * dz + z0)
  linear_combination r * r * c1 * c1 * h2 + r * r * h1

omit [LinearOrder K] in
/-- C155: the first and the last of several angles or depths are the ends of the range, and the others are equally spaced. -/
theorem C155_range [CharZero K] (n : Nat) (hn : 2 ≤ n) (a b : K) :
    (0 : K) * spacing n a b + a = a ∧ ((n : K) - 1) * spacing n a b + a = b ∧
    ∀ i : Nat, (((i + 1 : Nat) : K) * spacing n a b + a) - ((i : K) * spacing n a b + a) = (b - a) / ((n : K) - 1) := by
  have h1 : ((n : K) - 1) ≠ 0 := by
    intro h
    have : (n : K) = ((1 : Nat) : K) := by rw [Nat.cast_one]; exact sub_eq_zero.1 h
    have := Nat.cast_injective this
    omega
  have e : spacing n a b = (b - a) / ((n : K) - 1) := by unfold spacing; rw [if_neg (by omega)]
  rw [e]
  refine ⟨by ring, by field_simp; ring, ?_⟩
  intro i
  push_cast
  ring

/-- (specification) the grid of the seeds: latitude slowest, depth fastest. -/
def geoGrid (sin cos deg2rad : K → K) (radius : K) (nlat : Nat) (lat0 lat1 : K) (nlon : Nat) (lon0 lon1 : K) (nz : Nat) (z0 z1 : K) : List (Fin 3 → K) :=
  (List.range (nlat * nlon * nz)).map fun t =>
    geoPoint sin cos deg2rad radius lat0 (spacing nlat lat0 lat1) lon0 (spacing nlon lon0 lon1) z0 (spacing nz z0 z1) (t / nz / nlon) (t / nz % nlon) (t % nz)

theorem flatMap_range {α : Type} (n k : Nat) (f : Nat → Nat → α) :
    ((List.range n).flatMap fun i => (List.range k).map fun j => f i j) = (List.range (n * k)).map fun t => f (t / k) (t % k) := by
  induction n with
  | zero => simp
  | succ n ih =>
    rw [List.range_succ, List.flatMap_append, ih, Nat.succ_mul, List.range_add, List.map_append]
    congr 1
    rw [List.flatMap_singleton, List.map_map]
    apply List.map_congr_left
    intro j hj
    have hj := List.mem_range.1 hj
    have hk : 0 < k := by omega
    simp only [Function.comp]
    rw [Nat.mul_comm n k, Nat.mul_add_div hk, Nat.div_eq_of_lt hj, Nat.add_zero, Nat.mul_add_mod, Nat.mod_eq_of_lt hj]

omit [LinearOrder K] in
theorem grid_eq (g : Nat → Nat → Nat → Fin 3 → K) (a b c : Nat) :
    ((List.range a).flatMap fun i => (List.range b).flatMap fun j => (List.range c).map fun k => g i j k) =
      (List.range (a * b * c)).map fun t => g (t / c / b) (t / c % b) (t % c) := by
  have e1 : ∀ i, ((List.range b).flatMap fun j => (List.range c).map fun k => g i j k) = (List.range (b * c)).map fun t => g i (t / c) (t % c) :=
    fun i => flatMap_range b c (g i)
  rw [List.flatMap_congr fun i _ => e1 i, flatMap_range a (b * c) (fun i t => g i (t / c) (t % c)), Nat.mul_assoc]
  apply List.map_congr_left
  intro t _
  rw [Nat.div_div_eq_div_mul, Nat.mul_comm c b, Nat.mod_mul_left_mod, Nat.mul_comm b c, Nat.mod_mul_right_div_self]

theorem geoSeed_spec (m : Mesh K) (nearest : (Fin 3 → K) → Int) (i2cid : Int → Option Int) (x : Fin 3 → K) (r : Option (Seed K))
    (h : geoSeed m nearest i2cid x = some r) : ∃ c, m.locateFrom nearest x 0 = some c ∧
      ((0 ≤ c ∧ ∃ tag, i2cid c = some tag ∧ r = some ⟨x, tag⟩) ∨ (c = -1 ∧ r = none)) := by
  unfold geoSeed at h
  cases hl : m.locateFrom nearest x 0 with
  | none => rw [hl] at h; cases h
  | some c =>
    refine ⟨c, rfl, ?_⟩
    cases ht : i2cid c with
    | none => simp only [hl, ht, Option.bind_eq_bind, Option.bind_some, Option.bind_none] at h; cases h
    | some tag =>
      simp only [hl, ht, Option.bind_eq_bind, Option.bind_some] at h
      have h := Option.some.inj h
      split_ifs at h with h1
      · exact Or.inl ⟨h1, tag, rfl, h.symm⟩
      · exact Or.inr ⟨(C151_sound m nearest x 0 c hl).2 (by omega), h.symm⟩

theorem mapM_cons_some {α β : Type} (f : α → Option β) (a : α) (l : List α) (r : List β) (h : (a :: l).mapM f = some r) :
    ∃ b bs, f a = some b ∧ l.mapM f = some bs ∧ r = b :: bs := by
  rw [List.mapM_cons] at h
  cases ha : f a with
  | none => rw [ha] at h; cases h
  | some b =>
    cases hl : l.mapM f with
    | none => rw [ha, hl] at h; cases h
    | some bs =>
      rw [ha, hl] at h
      exact ⟨b, bs, rfl, rfl, (Option.some.inj h).symm⟩

/-- C155: the seeds are points of the grid, in its order, without those that are in no cell; the tag of a seed is the identifier of a cell that
contains it. -/
theorem C155_seeds (m : Mesh K) (nearest : (Fin 3 → K) → Int) (i2cid : Int → Option Int) (sin cos deg2rad : K → K) (radius : K)
    (nlat : Nat) (lat0 lat1 : K) (nlon : Nat) (lon0 lon1 : K) (nz : Nat) (z0 z1 : K) (ss : List (Seed K))
    (h : geoSeeds m nearest i2cid sin cos deg2rad radius nlat lat0 lat1 nlon lon0 lon1 nz z0 z1 = some ss) :
    (ss.map Seed.x).Sublist (geoGrid sin cos deg2rad radius nlat lat0 lat1 nlon lon0 lon1 nz z0 z1) ∧
    (∀ s ∈ ss, ∃ c, m.Contains c s.x ∧ i2cid c = some s.tag) ∧
    ∀ x ∈ geoGrid sin cos deg2rad radius nlat lat0 lat1 nlon lon0 lon1 nz z0 z1, x ∈ ss.map Seed.x ∨ m.locateFrom nearest x 0 = some (-1) := by
  unfold geoSeeds at h
  rw [grid_eq (fun i j k => geoPoint sin cos deg2rad radius lat0 (spacing nlat lat0 lat1) lon0 (spacing nlon lon0 lon1) z0 (spacing nz z0 z1) i j k)] at h
  change Option.map _ (List.mapM _ (geoGrid sin cos deg2rad radius nlat lat0 lat1 nlon lon0 lon1 nz z0 z1)) = _ at h
  generalize geoGrid sin cos deg2rad radius nlat lat0 lat1 nlon lon0 lon1 nz z0 z1 = g at *
  induction g generalizing ss with
  | nil =>
    simp only [List.mapM_nil] at h
    obtain rfl := Option.some.inj h
    exact ⟨by simp, by simp, by simp⟩
  | cons x g ih =>
    cases hm : (x :: g).mapM (geoSeed m nearest i2cid) with
    | none => rw [hm] at h; cases h
    | some r =>
      rw [hm] at h
      obtain ⟨b, bs, h1, h2, rfl⟩ := mapM_cons_some _ _ _ _ hm
      obtain rfl := Option.some.inj h
      obtain ⟨i1, i2, i3⟩ := ih (bs.filterMap id) (by rw [h2]; rfl)
      obtain ⟨c, hc, hr⟩ := geoSeed_spec m nearest i2cid x b h1
      rcases hr with ⟨h0, tag, ht, rfl⟩ | ⟨rfl, rfl⟩
      · simp only [List.filterMap_cons, id]
        refine ⟨?_, ?_, ?_⟩
        · exact List.Sublist.cons_cons x i1
        · intro s hs
          rcases List.mem_cons.1 hs with rfl | hs
          · exact ⟨c, (C151_sound m nearest x 0 c hc).1 h0, ht⟩
          · exact i2 s hs
        · intro y hy
          rcases List.mem_cons.1 hy with rfl | hy
          · exact Or.inl (by simp)
          · rcases i3 y hy with h | h
            · exact Or.inl (List.mem_cons_of_mem _ h)
            · exact Or.inr h
      · simp only [List.filterMap_cons, id]
        refine ⟨?_, i2, ?_⟩
        · exact List.Sublist.cons x i1
        · intro y hy
          rcases List.mem_cons.1 hy with rfl | hy
          · exact Or.inr hc
          · exact i3 y hy

/-- Sine and cosine on multiples of ninety degrees. -/
def sin90 (t : ℚ) : ℚ := if t = 0 then 0 else 1

/-- Cosine on 0 and 90 degrees. -/
def cos90 (t : ℚ) : ℚ := if t = 0 then 1 else 0

example : ∀ t, sin90 t * sin90 t + cos90 t * cos90 t = 1 := by
  intro t; unfold sin90 cos90; split_ifs <;> norm_num
/-- Seeds at the equator (in no cell) and at the pole (two depths) of the mesh of two cells. -/
example : ((geoSeeds twoCells twoNearest (i2id true [1, 2]) sin90 cos90 id 10 2 0 90 1 0 0 2 0 (-1)).map fun l => l.map fun s => (s.x 0, s.x 1, s.x 2, s.tag)) =
    some [(0, 0, 10, 1), (0, 0, 9, 1)] := by decide +kernel

/-- C155 (finding): with identifiers that are not the positions plus one, a point of the grid that is in no cell is an access out of bounds,
because the identifier of its cell is looked up first. -/
theorem C155_no_cell_overrun (m : Mesh K) (nearest : (Fin 3 → K) → Int) (ids : List Int) (x : Fin 3 → K) (h : m.locateFrom nearest x 0 = some (-1)) :
    geoSeed m nearest (i2id false ids) x = none ∧ geoSeed m nearest (i2id true ids) x = some none := by
  unfold geoSeed
  rw [h]
  simp only [Option.bind_eq_bind, Option.bind_some, (C152_no_cell ids).1, (C152_no_cell ids).2]
  exact ⟨rfl, rfl⟩

/-! ### Seeds at the grid points -/

omit [LinearOrder K] in
/-- C155: what the seeds at the grid points are: the factors of the layers above multiply up. -/
theorem C155_grid_points (R : K) : ∀ (hs : List K) (x0 : Fin 3 → K) (n : Nat), n < hs.length →
    (gridLoop R x0 hs)[n]? = some fun k => x0 k * ((hs.take (n + 1)).map fun h => (R - h) / R).prod := by
  intro hs
  induction hs with
  | nil => intro x0 n h; exact absurd h (by simp)
  | cons h hs ih =>
    intro x0 n hn
    cases n with
    | zero =>
      simp only [gridLoop, List.getElem?_cons_zero]
      congr 1
      funext k
      simp
      ring
    | succ n =>
      simp only [gridLoop, List.getElem?_cons_succ]
      rw [ih _ n (by simpa using hn)]
      congr 1
      funext k
      simp
      ring

omit [LinearOrder K] in
/-- C155: the first seed of a cell is at the intended position. -/
theorem C155_grid_first_partial (R h : K) (hs : List K) (x0 : Fin 3 → K) : (gridLoop R x0 (h :: hs))[0]? = some fun k => x0 k * (R - h) / R := rfl

omit [LinearOrder K] in
/-- C155 (finding): after a layer with depth `h ≠ 0` a seed with depth `h'` is not where its depth says. -/
theorem C155_grid_compounds (R h h' : K) (hR : R ≠ 0) (h0 : h ≠ 0) (h1 : h' ≠ R) (x0 : Fin 3 → K) (k : Fin 3) (hk : x0 k ≠ 0) :
    ∃ x, (gridLoop R x0 [h, h'])[1]? = some x ∧ x k ≠ x0 k * (R - h') / R := by
  refine ⟨_, rfl, ?_⟩
  intro e
  have e : x0 k * (R - h) / R * (R - h') / R = x0 k * (R - h') / R := e
  have h2 : R - h' ≠ 0 := sub_ne_zero.2 (Ne.symm h1)
  have h3 : x0 k * (R - h') * h = 0 := by
    field_simp at e
    linear_combination -(x0 k * (R - h')) * e
  rcases mul_eq_zero.1 h3 with h3 | h3
  · rcases mul_eq_zero.1 h3 with h3 | h3
    · exact hk h3
    · exact h2 h3
  · exact h0 h3

omit [LinearOrder K] in
theorem accLoop_get : ∀ (h : List K) (s : K) (j : Nat), j < h.length → (accLoop false s h)[j]? = some (s + (h.take (j + 1)).sum) := by
  intro h
  induction h with
  | nil => intro s j hj; exact absurd hj (by simp)
  | cons a h ih =>
    intro s j hj
    cases j with
    | zero => simp [accLoop]
    | succ j =>
      simp only [accLoop, List.getElem?_cons_succ]
      rw [ih _ j (by simpa using hj)]
      simp [add_assoc]

omit [LinearOrder K] in
/-- C155: the accumulated thickness of layer `j` is the sum of the thicknesses of the layers 1 to `j` (finding: not of the layers 0 to `j - 1`
above it). -/
theorem C155_accumulated (a : K) (h : List K) (j : Nat) (hj : j ≤ h.length) : (accThickness (a :: h))[j]? = some (h.take j).sum := by
  unfold accThickness
  cases j with
  | zero => rfl
  | succ j =>
    simp only [accLoop, List.getElem?_cons_succ]
    rw [accLoop_get h 0 j (by omega), zero_add]

example : accThickness [(5 : ℚ), 7, 9] = [0, 7, 16] := by decide +kernel

/-! ### Numbers of steps -/

/-- C156: for an interval of at least one day, the steps of an interval together have the length of the interval, and there are
`nsteps_per_day` steps per whole day. -/
theorem C156_steps_partial (perDay dt : Int) (hp : 0 < perDay) (hd : 86400 ≤ dt) :
    0 < stepsPerInterval perDay dt ∧ (stepsPerInterval perDay dt : ℚ) * stepLength perDay dt = dt ∧
    stepsPerInterval perDay dt * 86400 ≤ perDay * dt ∧ perDay * dt < (stepsPerInterval perDay dt + perDay) * 86400 := by
  have e : dt.tdiv 86400 = dt / 86400 := Int.tdiv_eq_ediv_of_nonneg (by omega)
  have h1 : 1 ≤ dt / 86400 := by omega
  have h0 : 0 < stepsPerInterval perDay dt := by
    unfold stepsPerInterval; rw [e]; exact Int.mul_pos hp (by omega)
  refine ⟨h0, ?_, ?_, ?_⟩
  · unfold stepLength
    have : (stepsPerInterval perDay dt : ℚ) ≠ 0 := by exact_mod_cast h0.ne'
    field_simp
  · unfold stepsPerInterval; rw [e, Int.mul_assoc]
    exact Int.mul_le_mul_of_nonneg_left (by omega) hp.le
  · unfold stepsPerInterval; rw [e]
    have : perDay * (dt / 86400) + perDay = perDay * (dt / 86400 + 1) := by ring
    rw [this, Int.mul_assoc]
    exact Int.mul_lt_mul_of_pos_left (by omega) hp

/-- C156 (finding): for an interval of less than a day (also for streamlines in a single time step, with the interval 1) no step is made. -/
theorem C156_no_steps (perDay dt : Int) (h0 : 0 ≤ dt) (h : dt < 86400) : stepsPerInterval perDay dt = 0 := by
  unfold stepsPerInterval
  rw [Int.tdiv_eq_ediv_of_nonneg h0, show dt / 86400 = 0 by omega, Int.mul_zero]

/-- C156: the number of steps between recorded positions. -/
theorem C156_checkpoint (perDay dt days months : Int) :
    (days ≠ 0 → stepsPerCheckpoint perDay dt days months = perDay * days) ∧
    (days = 0 → months ≠ 0 → stepsPerCheckpoint perDay dt days months = perDay * (30 * months)) ∧
    (days = 0 → months = 0 → stepsPerCheckpoint perDay dt days months = stepsPerInterval perDay dt) := by
  refine ⟨?_, ?_, ?_⟩
  · intro h; unfold stepsPerCheckpoint; rw [if_pos h]
  · intro h h'; unfold stepsPerCheckpoint; rw [if_neg (by simpa using h), if_pos h', Int.mul_assoc]
  · intro h h'; unfold stepsPerCheckpoint; rw [if_neg (by simpa using h), if_neg (by simpa using h')]

example : stepsPerInterval 1024 (30 * 86400 + 100) = 30720 ∧ stepsPerInterval 1024 1 = 0 := by decide +kernel

end Verif.MPAS
