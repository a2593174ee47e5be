import Verif.Color.Model
import Mathlib.Tactic.Linarith
import Mathlib.Tactic.FieldSimp
import Mathlib.Tactic.Ring
import Mathlib.Tactic.NormNum
import Mathlib.Data.List.Forall2

/-!
# C206, C207: colours
-/

namespace Verif.Color

open Real

theorem clamp1_range (x : ℝ) : 0 ≤ clamp1 x ∧ clamp1 x ≤ 1 := by
  unfold clamp1
  split
  · exact ⟨zero_le_one, le_refl _⟩
  · split
    · exact ⟨le_refl _, zero_le_one⟩
    · exact ⟨by linarith, by linarith⟩

theorem clamp1_id {x : ℝ} (h0 : 0 ≤ x) (h1 : x ≤ 1) : clamp1 x = x := by
  unfold clamp1
  rw [if_neg (not_lt.2 h1), if_neg (not_lt.2 h0)]

theorem cos_sixty (t : ℝ) : cos (π / 3 - t) = 1 / 2 * cos t + √3 / 2 * sin t := by
  rw [cos_sub, cos_pi_div_three, sin_pi_div_three]

/-- in each sector the quotient of the two cosines lies between -1 and 2 -/
theorem quotient_range {t : ℝ} (h0 : 0 ≤ t) (h1 : t ≤ 2 * π / 3) :
    -1 ≤ cos t / cos (π / 3 - t) ∧ cos t / cos (π / 3 - t) ≤ 2 := by
  have hpi := pi_pos
  have hpos : 0 < cos (π / 3 - t) := cos_pos_of_mem_Ioo ⟨by linarith, by linarith⟩
  have hsin : 0 ≤ sin t := sin_nonneg_of_nonneg_of_le_pi h0 (by linarith)
  have h3 : 0 ≤ √3 := sqrt_nonneg 3
  constructor
  · rw [le_div_iff₀ hpos]
    have hs : cos t + cos (π / 3 - t) = √3 * cos (t - π / 6) := by
      rw [cos_sixty, cos_sub, cos_pi_div_six, sin_pi_div_six]
      have : √3 * √3 = 3 := mul_self_sqrt (by norm_num)
      linear_combination (-(cos t) / 2) * this
    have hc : 0 ≤ cos (t - π / 6) := cos_nonneg_of_mem_Icc ⟨by linarith, by linarith⟩
    have := mul_nonneg h3 hc
    linarith
  · rw [div_le_iff₀ hpos, cos_sixty]
    have := mul_nonneg h3 hsin
    linarith

/-- the angle of a hue between 0 and 1 lies in one of the three sectors -/
theorem sectors {hue : ℝ} (h0 : 0 ≤ hue) (h1 : hue ≤ 1) (s i : ℝ) : ∃ q : ℝ, -1 ≤ q ∧ q ≤ 2 ∧
    (hsiRaw hue s i = (i * (1 + s * q), 3 * i - (i * (1 + s * q) + i * (1 - s)), i * (1 - s)) ∨
     hsiRaw hue s i = (i * (1 - s), i * (1 + s * q), 3 * i - (i * (1 - s) + i * (1 + s * q))) ∨
     hsiRaw hue s i = (3 * i - (i * (1 - s) + i * (1 + s * q)), i * (1 - s), i * (1 + s * q))) := by
  have hpi := pi_pos
  have a0 : 0 ≤ hue * 2 * π := by positivity
  have a1 : hue * 2 * π ≤ 2 * π := by nlinarith
  unfold hsiRaw
  dsimp only
  generalize hue * 2 * π = h at a0 a1
  by_cases c1 : h ≥ 0 ∧ h < 2 * π / 3
  · obtain ⟨q1, q2⟩ := quotient_range c1.1 c1.2.le
    refine ⟨cos h / cos (π / 3 - h), q1, q2, Or.inl ?_⟩
    rw [if_pos c1, mul_div_assoc]
  · have g1 : 2 * π / 3 ≤ h := by
      by_contra hc
      exact c1 ⟨a0, not_le.1 hc⟩
    rw [if_neg c1]
    by_cases c2 : h ≥ 2 * π / 3 ∧ h < 4 * π / 3
    · obtain ⟨q1, q2⟩ := quotient_range (t := h - 2 * π / 3) (by linarith) (by linarith [c2.2])
      refine ⟨cos (h - 2 * π / 3) / cos (π - h), ?_, ?_, Or.inr (Or.inl ?_)⟩
      · rw [show π - h = π / 3 - (h - 2 * π / 3) by ring]; exact q1
      · rw [show π - h = π / 3 - (h - 2 * π / 3) by ring]; exact q2
      · rw [if_pos c2, mul_div_assoc]
    · have g2 : 4 * π / 3 ≤ h := by
        by_contra hc
        exact c2 ⟨g1, not_le.1 hc⟩
      rw [if_neg c2]
      obtain ⟨q1, q2⟩ := quotient_range (t := h - 4 * π / 3) (by linarith) (by linarith)
      refine ⟨cos (h - 4 * π / 3) / cos (5 * π / 3 - h), ?_, ?_, Or.inr (Or.inr ?_)⟩
      · rw [show 5 * π / 3 - h = π / 3 - (h - 4 * π / 3) by ring]; exact q1
      · rw [show 5 * π / 3 - h = π / 3 - (h - 4 * π / 3) by ring]; exact q2
      · rw [mul_div_assoc]

/-- C206: for every hue in [0,1], saturation in [0,1] and nonnegative intensity, the three components computed from the
hue have mean `i`, and the smallest of them is `i (1 - s)`: this is the definition of intensity and saturation.  The
components returned are these, clamped to [0,1]. -/
theorem C206_hsi (hue s i : ℝ) (h0 : 0 ≤ hue) (h1 : hue ≤ 1) (hs : 0 ≤ s) (hi : 0 ≤ i) :
    (hsiRaw hue s i).1 + (hsiRaw hue s i).2.1 + (hsiRaw hue s i).2.2 = 3 * i ∧
    min (hsiRaw hue s i).1 (min (hsiRaw hue s i).2.1 (hsiRaw hue s i).2.2) = i * (1 - s) := by
  obtain ⟨q, q1, q2, hq⟩ := sectors h0 h1 s i
  have p0 := mul_nonneg hi hs
  have p1 : 0 ≤ i * s * (q + 1) := mul_nonneg p0 (by linarith)
  have p2 : 0 ≤ i * s * (2 - q) := mul_nonneg p0 (by linarith)
  have k1 : i * (1 - s) ≤ i * (1 + s * q) := by linarith
  have k2 : i * (1 - s) ≤ 3 * i - (i * (1 - s) + i * (1 + s * q)) := by linarith
  have k3 : i * (1 - s) ≤ 3 * i - (i * (1 + s * q) + i * (1 - s)) := by linarith
  rcases hq with hq | hq | hq <;> rw [hq] <;> dsimp only <;> refine ⟨by ring, ?_⟩
  · rw [min_eq_right k3, min_eq_right k1]
  · rw [min_eq_left (le_min k1 k2)]
  · rw [min_eq_left k1, min_eq_right k2]

/-- C206: whatever the input, the components returned lie in [0,1]. -/
theorem C206_range (hue s i : ℝ) :
    (0 ≤ (hsi2rgb hue s i).1 ∧ (hsi2rgb hue s i).1 ≤ 1) ∧ (0 ≤ (hsi2rgb hue s i).2.1 ∧ (hsi2rgb hue s i).2.1 ≤ 1) ∧
    (0 ≤ (hsi2rgb hue s i).2.2 ∧ (hsi2rgb hue s i).2.2 ≤ 1) :=
  ⟨clamp1_range _, clamp1_range _, clamp1_range _⟩

/-- C206: when the components fit, nothing is clamped: this is the case when `i (1 + 2 s) ≤ 1` and `s ≤ 1`. -/
theorem C206_exact (hue s i : ℝ) (h0 : 0 ≤ hue) (h1 : hue ≤ 1) (hs : 0 ≤ s) (hs1 : s ≤ 1) (hi : 0 ≤ i)
    (hfit : i * (1 + 2 * s) ≤ 1) : hsi2rgb hue s i = hsiRaw hue s i := by
  obtain ⟨q, q1, q2, hq⟩ := sectors h0 h1 s i
  have p0 := mul_nonneg hi hs
  have p1 : 0 ≤ i * s * (q + 1) := mul_nonneg p0 (by linarith)
  have p2 : 0 ≤ i * s * (2 - q) := mul_nonneg p0 (by linarith)
  have p3 : 0 ≤ i * (1 - s) := mul_nonneg hi (by linarith)
  unfold hsi2rgb validColor
  rcases hq with hq | hq | hq <;> rw [hq] <;> dsimp only <;>
    rw [clamp1_id (by linarith) (by linarith), clamp1_id (by linarith) (by linarith), clamp1_id (by linarith) (by linarith)]

theorem hsiRaw_zero (s i : ℝ) : hsiRaw 0 s i = (i * (1 + 2 * s), i * (1 - s), i * (1 - s)) := by
  have hpi := pi_pos
  unfold hsiRaw
  dsimp only
  rw [zero_mul, zero_mul, if_pos ⟨le_refl _, by positivity⟩, cos_zero, sub_zero, cos_pi_div_three]
  refine Prod.ext ?_ (Prod.ext ?_ ?_) <;> dsimp only <;> ring

theorem hsiRaw_one (s i : ℝ) : hsiRaw 1 s i = (i * (1 + 2 * s), i * (1 - s), i * (1 - s)) := by
  have hpi := pi_pos
  unfold hsiRaw
  dsimp only
  rw [one_mul, if_neg (fun h => absurd h.2 (by linarith)), if_neg (fun h => absurd h.2 (by linarith)),
    show 2 * π - 4 * π / 3 = π - π / 3 by ring, cos_pi_sub, cos_pi_div_three,
    show 5 * π / 3 - 2 * π = -(π / 3) by ring, cos_neg, cos_pi_div_three]
  refine Prod.ext ?_ (Prod.ext ?_ ?_) <;> dsimp only <;> ring

/-- Non-vacuity of C206: hue 0 is red; at half intensity and saturation 0.7 the red component is clamped. -/
example : hsi2rgb 0 1 (1 / 3) = (1, 0, 0) ∧ hsiRaw 0 0.7 0.5 = (1.2, 0.15, 0.15) ∧ (hsi2rgb 0 0.7 0.5).1 = 1 := by
  refine ⟨?_, ?_, ?_⟩
  · unfold hsi2rgb
    rw [hsiRaw_zero]
    unfold validColor clamp1
    norm_num
  · rw [hsiRaw_zero]
    norm_num
  · unfold hsi2rgb
    rw [hsiRaw_zero]
    unfold validColor clamp1
    norm_num

/-! ### C207: the tables -/

theorem byte_some {x : ℝ} (h0 : 0 ≤ x) (h1 : x ≤ 1) : ∃ n, byte x = some n ∧ n ≤ 255 ∧ (n : ℝ) ≤ x * 255 ∧ x * 255 < n + 1 := by
  have hx : 0 ≤ x * 255 := by linarith
  refine ⟨⌊x * 255⌋₊, if_pos ⟨hx, by linarith⟩, ?_, Nat.floor_le hx, Nat.lt_floor_add_one _⟩
  have : ⌊x * 255⌋₊ ≤ ⌊(255 : ℝ)⌋₊ := Nat.floor_mono (by linarith)
  simpa using this

theorem bytes_some (h : ℝ) : ∃ r g b : ℕ, bytes (some h) = some (r, g, b) ∧ r ≤ 255 ∧ g ≤ 255 ∧ b ≤ 255 := by
  obtain ⟨⟨a0, a1⟩, ⟨b0, b1⟩, c0, c1⟩ := C206_range h 0.7 0.5
  obtain ⟨r, hr, hr', _⟩ := byte_some a0 a1
  obtain ⟨g, hg, hg', _⟩ := byte_some b0 b1
  obtain ⟨b, hb, hb', _⟩ := byte_some c0 c1
  refine ⟨r, g, b, ?_, hr', hg', hb'⟩
  unfold bytes
  dsimp only
  rw [hr, hg, hb]

theorem colorLoop_cons (h : Option ℝ) (l : List (Option ℝ)) : colorLoop (h :: l) =
    match bytes h, colorLoop l with
    | some c, some r => some (c :: r)
    | _, _ => none := by
  unfold colorLoop
  rw [List.mapM_cons]
  rcases bytes h with _ | c
  · rfl
  · rcases List.mapM bytes l with _ | r <;> rfl

theorem colorLoop_spec : ∀ hs : List ℝ, ∃ cs, colorLoop (hs.map some) = some cs ∧ cs.length = hs.length ∧
    (∀ c ∈ cs, c.1 ≤ 255 ∧ c.2.1 ≤ 255 ∧ c.2.2 ≤ 255) ∧ ∀ k (h : k < hs.length), cs[k]? = bytes (some hs[k])
  | [] => ⟨[], rfl, rfl, by simp, by simp⟩
  | h :: hs => by
    obtain ⟨cs, e, hl, hr, hk⟩ := colorLoop_spec hs
    obtain ⟨r, g, b, hb, h1⟩ := bytes_some h
    refine ⟨(r, g, b) :: cs, ?_, by simp [hl], ?_, ?_⟩
    · rw [List.map_cons, colorLoop_cons, hb, e]
    · intro c hc
      rcases List.mem_cons.1 hc with rfl | hc
      · exact h1
      · exact hr c hc
    · intro k hk'
      cases k with
      | zero => exact hb.symm
      | succ k => exact hk k (by simpa using hk')

theorem hues_some {count : ℕ} (hc : count ≠ 1) :
    (List.range count).map (hue count) = ((List.range count).map fun i : ℕ => (i : ℝ) / ((count : ℝ) - 1)).map some := by
  rw [List.map_map]
  apply List.map_congr_left
  intro i _
  exact if_neg hc

/-- C207, partial: for every number of colours other than 1 the table has that many colours, each component a byte.
Missing: one colour, and distinctness, where the claim is false (`C207_one_colour`, `C207_first_is_last`). -/
theorem C207_table_partial (count : ℕ) (hc : count ≠ 1) : ∃ cs, generateColors count = some cs ∧ cs.length = count ∧
    (∀ c ∈ cs, c.1 ≤ 255 ∧ c.2.1 ≤ 255 ∧ c.2.2 ≤ 255) ∧
    ∀ k, k < count → cs[k]? = bytes (some ((k : ℝ) / ((count : ℝ) - 1))) := by
  unfold generateColors
  rw [hues_some hc]
  obtain ⟨cs, e, hl, hr, hk⟩ := colorLoop_spec ((List.range count).map fun i : ℕ => (i : ℝ) / ((count : ℝ) - 1))
  refine ⟨cs, e, by simpa using hl, hr, fun k hk' => ?_⟩
  have := hk k (by simpa using hk')
  rw [this, List.getElem_map, List.getElem_range]

theorem perm_some {l : List (Option ℝ)} : ∀ {hs : List ℝ}, l.Perm (hs.map some) → ∃ hs' : List ℝ, l = hs'.map some ∧ hs'.Perm hs := by
  intro hs h
  have hall : ∀ x ∈ l, ∃ y, some y = x := by
    intro x hx
    obtain ⟨y, _, e⟩ := List.mem_map.1 (h.mem_iff.1 hx)
    exact ⟨y, e⟩
  have : ∃ hs' : List ℝ, l = hs'.map some := by
    clear h
    induction l with
    | nil => exact ⟨[], rfl⟩
    | cons a l ih =>
      obtain ⟨y, rfl⟩ := hall a List.mem_cons_self
      obtain ⟨t, rfl⟩ := ih fun x hx => hall x (List.mem_cons_of_mem _ hx)
      exact ⟨y :: t, rfl⟩
  obtain ⟨hs', rfl⟩ := this
  exact ⟨hs', rfl, (List.map_perm_map_iff (Option.some_injective ℝ)).1 h⟩

theorem colorLoop_perm {a b : List ℝ} (h : a.Perm b) : ∀ cs ds, colorLoop (a.map some) = some cs → colorLoop (b.map some) = some ds →
    cs.Perm ds := by
  have go : ∀ (l : List ℝ) cs, colorLoop (l.map some) = some cs → cs = l.map fun x => (bytes (some x)).getD (0, 0, 0) := by
    intro l
    induction l with
    | nil =>
      intro cs hcs
      rw [← Option.some.inj (show some [] = some cs from hcs)]
      rfl
    | cons x l ih =>
      intro cs hcs
      rw [List.map_cons, colorLoop_cons] at hcs
      obtain ⟨r, g, b, hb, _⟩ := bytes_some x
      obtain ⟨t, ht, _⟩ := colorLoop_spec l
      rw [hb, ht] at hcs
      rw [← Option.some.inj hcs, List.map_cons, hb, ih t ht]
      rfl
  intro cs ds h1 h2
  rw [go a cs h1, go b ds h2]
  exact h.map _

/-- C207: the random table is a rearrangement of the other one, whatever the shuffle does. -/
theorem C207_random (count : ℕ) (hc : count ≠ 1) (shuffle : List (Option ℝ) → List (Option ℝ))
    (hperm : ∀ l, (shuffle l).Perm l) : ∃ cs ds, generateRandomColors count shuffle = some cs ∧ generateColors count = some ds ∧
      cs.Perm ds := by
  obtain ⟨ds, hd, _⟩ := C207_table_partial count hc
  have hp := hperm ((List.range count).map (hue count))
  rw [hues_some hc] at hp
  obtain ⟨hs', e, hp'⟩ := perm_some hp
  obtain ⟨cs, hcs, _⟩ := colorLoop_spec hs'
  refine ⟨cs, ds, ?_, hd, ?_⟩
  · unfold generateRandomColors
    rw [hues_some hc, e, hcs]
  · unfold generateColors at hd
    rw [hues_some hc] at hd
    exact colorLoop_perm hp' _ _ hcs hd

/-- C207 finding: one colour alone has the hue 0/0, so its bytes are the conversion of NaN (undefined). -/
theorem C207_one_colour : generateColors 1 = none := by
  unfold generateColors colorLoop
  simp [hue, bytes]

/-- C207 finding: in every table of two colours or more the first and the last colour are the same, because the hue 1 is
the hue 0: two tracked features are painted with equal colours. -/
theorem C207_first_is_last (count : ℕ) (hc : 2 ≤ count) :
    ∃ cs, generateColors count = some cs ∧ cs[0]? = some (255, 38, 38) ∧ cs[count - 1]? = some (255, 38, 38) := by
  obtain ⟨cs, h, _, _, hk⟩ := C207_table_partial count (by omega)
  have hb : byte 1 = some 255 := by
    unfold byte
    rw [one_mul, if_pos (by norm_num)]
    norm_num
  have hb2 : byte (0.5 * (1 - 0.7)) = some 38 := by
    unfold byte
    rw [if_pos (by norm_num), Option.some.injEq, Nat.floor_eq_iff (by norm_num)]
    norm_num
  have key : ∀ x : ℝ, hsiRaw x 0.7 0.5 = (0.5 * (1 + 2 * 0.7), 0.5 * (1 - 0.7), 0.5 * (1 - 0.7)) →
      bytes (some x) = some (255, 38, 38) := by
    intro x hx
    unfold bytes
    dsimp only
    unfold hsi2rgb validColor
    rw [hx]
    dsimp only
    rw [clamp1_id (x := 0.5 * (1 - 0.7)) (by norm_num) (by norm_num), hb2,
      show clamp1 (0.5 * (1 + 2 * 0.7)) = 1 from by unfold clamp1; norm_num, hb]
  refine ⟨cs, h, ?_, ?_⟩
  · rw [hk 0 (by omega)]
    apply key
    rw [Nat.cast_zero, zero_div, hsiRaw_zero]
  · rw [hk (count - 1) (by omega)]
    apply key
    have : ((count - 1 : ℕ) : ℝ) / ((count : ℝ) - 1) = 1 := by
      rw [Nat.cast_sub (by omega), Nat.cast_one]
      apply div_self
      have : (2 : ℝ) ≤ count := by exact_mod_cast hc
      linarith
    rw [this, hsiRaw_one]

/-- Non-vacuity of C207: a table of two colours, and the empty one. -/
example : generateColors 0 = some [] ∧ (∃ cs, generateColors 2 = some cs ∧ cs[1]? = some (255, 38, 38)) := by
  refine ⟨rfl, ?_⟩
  obtain ⟨cs, h, _, h1⟩ := C207_first_is_last 2 (le_refl _)
  exact ⟨cs, h, h1⟩

end Verif.Color
