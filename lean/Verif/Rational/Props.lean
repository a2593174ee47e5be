import Verif.Rational.Model
import Mathlib.Algebra.Order.Field.Rat
import Mathlib.Data.Rat.Cast.Order
import Mathlib.Data.Int.GCD
import Mathlib.Tactic.FieldSimp
import Mathlib.Tactic.Ring
import Mathlib.Tactic.Linarith
import Mathlib.Tactic.LinearCombination
import Mathlib.RingTheory.Coprime.Lemmas

/-!
# C34: `rational<I>` arithmetic

The specification is Lean's field `ℚ`: `val x` is the number a pair denotes.
-/

namespace Verif.Rational

/-- the rational number denoted by a pair -/
def val (x : Rat') : ℚ := (x.num : ℚ) / (x.den : ℚ)

/-- lowest terms -/
def Reduced (x : Rat') : Prop := IsCoprime x.num x.den

/-- C34: `gcd` terminates and returns a greatest common divisor, up to sign. -/
theorem C34_gcd (a b : ℤ) : (gcd a b).natAbs = Int.gcd a b := by
  generalize hn : a.natAbs = n
  induction n using Nat.strongRecOn generalizing a b with
  | ind n ih =>
    unfold gcd
    split
    · rename_i h; subst h; simp
    · rename_i ha
      split
      · rename_i hb
        have : a ∣ b := Int.dvd_of_tmod_eq_zero hb
        exact (Nat.gcd_eq_left (Int.natAbs_dvd_natAbs.2 this)).symm
      · rename_i hb
        have h1 : (b.tmod a).natAbs < a.natAbs := by
          rw [Int.natAbs_tmod]; exact Nat.mod_lt _ (Int.natAbs_pos.2 ha)
        have h2 : (a.tmod (b.tmod a)).natAbs < a.natAbs := by
          rw [Int.natAbs_tmod]; exact lt_trans (Nat.mod_lt _ (Int.natAbs_pos.2 hb)) h1
        rw [ih _ (hn ▸ h2) _ _ rfl]
        show Nat.gcd (a.tmod (b.tmod a)).natAbs (b.tmod a).natAbs = Nat.gcd a.natAbs b.natAbs
        rw [Int.natAbs_tmod a, ← Nat.gcd_rec, Int.natAbs_tmod b, ← Nat.gcd_rec]

theorem gcd_dvd_left (a b : ℤ) : gcd a b ∣ a := by
  rw [← Int.natAbs_dvd_natAbs, C34_gcd]; exact Nat.gcd_dvd_left _ _
theorem gcd_dvd_right (a b : ℤ) : gcd a b ∣ b := by
  rw [← Int.natAbs_dvd_natAbs, C34_gcd]; exact Nat.gcd_dvd_right _ _
theorem gcd_ne_zero {a b : ℤ} (h : a ≠ 0 ∨ b ≠ 0) : gcd a b ≠ 0 := by
  intro h0
  have := C34_gcd a b
  rw [h0, Int.natAbs_zero] at this
  have := Int.gcd_eq_zero_iff.1 this.symm
  omega

/-- cofactors of the computed gcd are coprime -/
theorem gcd_cofactors {a b c d : ℤ} (h : gcd a b ≠ 0) (ha : a = c * gcd a b) (hb : b = d * gcd a b) : IsCoprime c d := by
  rw [Int.isCoprime_iff_gcd_eq_one]
  have h1 := C34_gcd a b
  generalize gcd a b = g at *
  rw [ha, hb, Int.gcd_mul_right] at h1
  have hpos : 0 < g.natAbs := Int.natAbs_pos.2 h
  exact Nat.eq_of_mul_eq_mul_right hpos (by omega)

theorem cdiv_dvd {a g : ℤ} (hg : g ≠ 0) (h : g ∣ a) : ∃ c, cdiv a g = some c ∧ a = c * g := by
  refine ⟨a.tdiv g, by simp [cdiv, hg], ?_⟩
  rw [Int.tdiv_mul_cancel h]

/-- the common core of `+=` and `-=`: `s = 1` or `s = -1`. -/
theorem addSub_core (x r : Rat') (hx : x.den ≠ 0) (hr : r.den ≠ 0) (s : ℤ) :
    ∃ d1 d2 n' q, cdiv x.den (gcd x.den r.den) = some d1 ∧ cdiv r.den (gcd x.den r.den) = some d2 ∧
      cdiv (x.num * d2 + s * r.num * d1) (gcd (x.num * d2 + s * r.num * d1) (gcd x.den r.den)) = some n' ∧
      cdiv r.den (gcd (x.num * d2 + s * r.num * d1) (gcd x.den r.den)) = some q ∧
      d1 * q ≠ 0 ∧ val ⟨n', d1 * q⟩ = val x + s * val r ∧ ((s = 1 ∨ s = -1) → Reduced x → Reduced r → Reduced ⟨n', d1 * q⟩) := by
  have hg : gcd x.den r.den ≠ 0 := gcd_ne_zero (Or.inl hx)
  obtain ⟨d1, e1, h1⟩ := cdiv_dvd hg (gcd_dvd_left x.den r.den)
  obtain ⟨d2, e2, h2⟩ := cdiv_dvd hg (gcd_dvd_right x.den r.den)
  have hcop : IsCoprime d1 d2 := gcd_cofactors hg h1 h2
  generalize hG : gcd x.den r.den = g at *
  generalize ht : x.num * d2 + s * r.num * d1 = t at *
  have hg' : gcd t g ≠ 0 := gcd_ne_zero (Or.inr hg)
  obtain ⟨n', e3, h3⟩ := cdiv_dvd hg' (gcd_dvd_left t g)
  obtain ⟨k, _, h4⟩ := cdiv_dvd hg' (gcd_dvd_right t g)
  have hcop2 : IsCoprime n' k := gcd_cofactors hg' h3 h4
  obtain ⟨q, e4, h5⟩ := cdiv_dvd hg' ((gcd_dvd_right t g).trans ⟨d2, by rw [h2]; ring⟩ : gcd t g ∣ r.den)
  generalize hG' : gcd t g = g' at *
  have hd1 : d1 ≠ 0 := by rintro rfl; simp at h1; exact hx h1
  have hq : q ≠ 0 := by rintro rfl; simp at h5; exact hr h5
  refine ⟨d1, d2, n', q, e1, e2, by rw [ht, hG']; exact e3, by rw [ht, hG']; exact e4, mul_ne_zero hd1 hq, ?_, ?_⟩
  · have qx : (x.den : ℚ) ≠ 0 := by exact_mod_cast hx
    have qr : (r.den : ℚ) ≠ 0 := by exact_mod_cast hr
    have qd : (d1 : ℚ) * q ≠ 0 := by exact_mod_cast mul_ne_zero hd1 hq
    have key : n' * (x.den * r.den) = (x.num * r.den + s * r.num * x.den) * (d1 * q) := by
      have hR : r.den * r.den = (d2 * g) * (q * g') := by rw [← h2, ← h5]
      have a1 : x.den = d1 * g := h1
      have a2 : x.num * r.den + s * r.num * x.den = g * (n' * g') := by
        rw [← h3, ← ht, a1]
        nth_rewrite 1 [h2]
        ring
      rw [a2, a1]
      nth_rewrite 1 [h5]
      ring
    unfold val
    push_cast
    rw [mul_div_assoc', div_add_div _ _ qx qr, div_eq_div_iff qd (mul_ne_zero qx qr)]
    have := congrArg (fun z : ℤ => (z : ℚ)) key
    push_cast at this
    linear_combination this
  · intro hs rx rr
    unfold Reduced at *
    rw [h1] at rx
    rw [h2] at rr
    have c1 : IsCoprime t d1 := by
      rw [← ht]
      have : IsCoprime (x.num * d2) d1 := IsCoprime.mul_left (rx.of_mul_right_left) hcop.symm
      exact IsCoprime.add_mul_right_left this (s * r.num)
    have c2 : IsCoprime t d2 := by
      rw [← ht]
      have hs1 : IsCoprime s d2 := by
        rcases hs with rfl | rfl
        · exact isCoprime_one_left
        · exact isCoprime_one_left.neg_left
      have : IsCoprime (s * r.num * d1) d2 := IsCoprime.mul_left (IsCoprime.mul_left hs1 (rr.of_mul_right_left)) hcop
      rw [add_comm]
      exact IsCoprime.add_mul_right_left this x.num
    rw [h3] at c1 c2
    have hqk : q = d2 * k := by
      have : q * g' = (d2 * k) * g' := by rw [← h5, h2]; nth_rewrite 1 [h4]; ring
      exact mul_right_cancel₀ hg' this
    show IsCoprime n' (d1 * q)
    rw [hqk]
    exact IsCoprime.mul_right c1.of_mul_left_left (IsCoprime.mul_right c2.of_mul_left_left hcop2)

/-- C34: `a += b` computes the sum, keeps a non-zero denominator and keeps lowest terms. -/
theorem C34_addAssign_partial (x r : Rat') (hx : x.den ≠ 0) (hr : r.den ≠ 0) :
    ∃ y, addAssign x r = some y ∧ y.den ≠ 0 ∧ val y = val x + val r ∧ (Reduced x → Reduced r → Reduced y) := by
  obtain ⟨d1, d2, n', q, h1, h2, h3, h4, h5, h6, h7⟩ := addSub_core x r hx hr 1
  refine ⟨⟨n', d1 * q⟩, ?_, h5, by simpa using h6, h7 (Or.inl rfl)⟩
  simp only [one_mul] at h3 h4
  simp [addAssign, h1, h2, h3, h4]

/-- C34: `a -= b`. -/
theorem C34_subAssign_partial (x r : Rat') (hx : x.den ≠ 0) (hr : r.den ≠ 0) :
    ∃ y, subAssign x r = some y ∧ y.den ≠ 0 ∧ val y = val x - val r ∧ (Reduced x → Reduced r → Reduced y) := by
  obtain ⟨d1, d2, n', q, h1, h2, h3, h4, h5, h6, h7⟩ := addSub_core x r hx hr (-1)
  refine ⟨⟨n', d1 * q⟩, ?_, h5, by rw [h6]; push_cast; ring, h7 (Or.inr rfl)⟩
  have e : x.num * d2 + -1 * r.num * d1 = x.num * d2 - r.num * d1 := by ring
  rw [e] at h3 h4
  simp [subAssign, h1, h2, h3, h4]

/-- core of `*=` and `/=`: cross-cancelling two fractions -/
theorem cross_core (a b c d : ℤ) (hb : b ≠ 0) (hd : d ≠ 0) :
    ∃ a' b' c' d', cdiv a (gcd a d) = some a' ∧ cdiv c (gcd c b) = some c' ∧ cdiv b (gcd c b) = some b' ∧
      cdiv d (gcd a d) = some d' ∧ b' ≠ 0 ∧ d' ≠ 0 ∧ ((a' : ℚ) * c') / (b' * d') = (a / b) * (c / d) ∧
      (IsCoprime a b → IsCoprime c d → IsCoprime (a' * c') (b' * d')) := by
  have hg1 : gcd a d ≠ 0 := gcd_ne_zero (Or.inr hd)
  have hg2 : gcd c b ≠ 0 := gcd_ne_zero (Or.inr hb)
  obtain ⟨a', e1, h1⟩ := cdiv_dvd hg1 (gcd_dvd_left a d)
  obtain ⟨d', e2, h2⟩ := cdiv_dvd hg1 (gcd_dvd_right a d)
  obtain ⟨c', e3, h3⟩ := cdiv_dvd hg2 (gcd_dvd_left c b)
  obtain ⟨b', e4, h4⟩ := cdiv_dvd hg2 (gcd_dvd_right c b)
  have k1 : IsCoprime a' d' := gcd_cofactors hg1 h1 h2
  have k2 : IsCoprime c' b' := gcd_cofactors hg2 h3 h4
  have hb' : b' ≠ 0 := by rintro rfl; simp at h4; exact hb h4
  have hd' : d' ≠ 0 := by rintro rfl; simp at h2; exact hd h2
  refine ⟨a', b', c', d', e1, e3, e4, e2, hb', hd', ?_, ?_⟩
  · generalize gcd a d = g1 at *
    generalize gcd c b = g2 at *
    subst h1 h2 h3 h4
    have q1 : (g1 : ℚ) ≠ 0 := by exact_mod_cast hg1
    have q2 : (g2 : ℚ) ≠ 0 := by exact_mod_cast hg2
    have q3 : (b' : ℚ) ≠ 0 := by exact_mod_cast hb'
    have q4 : (d' : ℚ) ≠ 0 := by exact_mod_cast hd'
    push_cast
    field_simp
  · intro hab hcd
    generalize gcd a d = g1 at *
    generalize gcd c b = g2 at *
    subst h1 h2 h3 h4
    have m1 : IsCoprime a' b' := hab.of_mul_left_left.of_mul_right_left
    have m2 : IsCoprime c' d' := hcd.of_mul_left_left.of_mul_right_left
    exact IsCoprime.mul_left (IsCoprime.mul_right m1 k1) (IsCoprime.mul_right k2 m2)

/-- C34: `a *= b`. -/
theorem C34_mulAssign_partial (x r : Rat') (hx : x.den ≠ 0) (hr : r.den ≠ 0) :
    ∃ y, mulAssign x r = some y ∧ y.den ≠ 0 ∧ val y = val x * val r ∧ (Reduced x → Reduced r → Reduced y) := by
  obtain ⟨a', b', c', d', h1, h2, h3, h4, h5, h6, h7, h8⟩ := cross_core x.num x.den r.num r.den hx hr
  refine ⟨⟨a' * c', b' * d'⟩, ?_, mul_ne_zero h5 h6, ?_, h8⟩
  · simp [mulAssign, h1, h2, h3, h4]
  · unfold val; push_cast; exact h7

theorem fixSign_den {x : Rat'} (h : x.den ≠ 0) : 0 < (fixSign x).den := by
  unfold fixSign; split
  · show 0 < -x.den; omega
  · omega

theorem fixSign_val (x : Rat') : val (fixSign x) = val x := by
  unfold fixSign; split
  · unfold val; push_cast; rw [neg_div_neg_eq]
  · rfl

theorem fixSign_reduced {x : Rat'} (h : Reduced x) : Reduced (fixSign x) := by
  unfold fixSign; split
  · exact (IsCoprime.neg_left h).neg_right
  · exact h

/-- C34: `a /= b` for `b ≠ 0`; the result has a positive denominator unless `a` was zero (then `a` is
returned unchanged). -/
theorem C34_divAssign_partial (x r : Rat') (hx : x.den ≠ 0) (_hr : r.den ≠ 0) (h0 : r.num ≠ 0) :
    ∃ y, divAssign x r = some y ∧ y.den ≠ 0 ∧ val y = val x / val r ∧ (Reduced x → Reduced r → Reduced y) ∧
      (x.num ≠ 0 → 0 < y.den) := by
  by_cases hn : x.num = 0
  · exact ⟨x, by simp [divAssign, hn], hx, by simp [val, hn], fun h _ => h, fun h => absurd hn h⟩
  · obtain ⟨a', b', c', d', h1, h2, h3, h4, h5, h6, h7, h8⟩ := cross_core x.num x.den r.den r.num hx h0
    refine ⟨fixSign ⟨a' * c', b' * d'⟩, ?_, (fixSign_den (x := ⟨_, _⟩) (mul_ne_zero h5 h6)).ne', ?_, ?_, ?_⟩
    · simp [divAssign, hn, h1, h2, h3, h4]
    · rw [fixSign_val]; unfold val; push_cast; rw [h7, div_div_eq_mul_div, mul_div_assoc]
    · intro rx rr
      exact fixSign_reduced (h8 rx (IsCoprime.symm rr))
    · intro _; exact fixSign_den (x := ⟨_, _⟩) (mul_ne_zero h5 h6)

/-- C34: the operators with an integer right-hand side. -/
theorem C34_int_ops (x : Rat') (i : ℤ) (hx : x.den ≠ 0) :
    (val (addInt x i) = val x + i ∧ (addInt x i).den = x.den) ∧ (val (subInt x i) = val x - i ∧ (subInt x i).den = x.den) ∧
    (val (incr x) = val x + 1 ∧ (incr x).den = x.den) ∧ (val (decr x) = val x - 1 ∧ (decr x).den = x.den) ∧
    (∃ y, mulInt x i = some y ∧ y.den ≠ 0 ∧ val y = val x * i) ∧
    (i ≠ 0 → ∃ y, divInt x i = some y ∧ y.den ≠ 0 ∧ val y = val x / i) := by
  have qx : (x.den : ℚ) ≠ 0 := by exact_mod_cast hx
  refine ⟨⟨?_, rfl⟩, ⟨?_, rfl⟩, ⟨?_, rfl⟩, ⟨?_, rfl⟩, ?_, ?_⟩
  · simp only [val, addInt]; push_cast; field_simp
  · simp only [val, subInt]; push_cast; field_simp
  · simp only [val, incr]; push_cast; field_simp
  · simp only [val, decr]; push_cast; field_simp
  · have hg : gcd i x.den ≠ 0 := gcd_ne_zero (Or.inr hx)
    obtain ⟨q, e1, h1⟩ := cdiv_dvd hg (gcd_dvd_left i x.den)
    obtain ⟨d, e2, h2⟩ := cdiv_dvd hg (gcd_dvd_right i x.den)
    have hd : d ≠ 0 := by rintro rfl; simp at h2; exact hx h2
    refine ⟨⟨x.num * q, d⟩, by simp [mulInt, e1, e2], hd, ?_⟩
    have qd : (d : ℚ) ≠ 0 := by exact_mod_cast hd
    unfold val
    push_cast
    rw [← mul_div_right_comm, div_eq_div_iff qd qx]
    have : q * x.den = i * d := by
      generalize gcd i x.den = g at *
      rw [h1, h2]; ring
    have := congrArg (fun z : ℤ => (z : ℚ)) this
    push_cast at this
    linear_combination (x.num : ℚ) * this
  · intro hi
    by_cases hn : x.num = 0
    · exact ⟨x, by simp [divInt, hn], hx, by simp [val, hn]⟩
    have hg : gcd x.num i ≠ 0 := gcd_ne_zero (Or.inr hi)
    obtain ⟨n, e1, h1⟩ := cdiv_dvd hg (gcd_dvd_left x.num i)
    obtain ⟨q, e2, h2⟩ := cdiv_dvd hg (gcd_dvd_right x.num i)
    have hq : q ≠ 0 := by rintro rfl; simp at h2; exact hi h2
    refine ⟨fixSign ⟨n, x.den * q⟩, by simp [divInt, hn, e1, e2], (fixSign_den (x := ⟨_, _⟩) (mul_ne_zero hx hq)).ne', ?_⟩
    rw [fixSign_val]
    have qq : (q : ℚ) ≠ 0 := by exact_mod_cast hq
    have qi : (i : ℚ) ≠ 0 := by exact_mod_cast hi
    unfold val
    push_cast
    rw [div_div, div_eq_div_iff (mul_ne_zero qx qq) (mul_ne_zero qx qi)]
    have : n * i = x.num * q := by
      generalize gcd x.num i = g at *
      rw [h1, h2]; ring
    have := congrArg (fun z : ℤ => (z : ℚ)) this
    push_cast at this
    linear_combination (x.den : ℚ) * this

/-! ### comparison -/

theorem fixRem_spec {d q r : ℤ} (_hd : 0 < d) (hr : -d < r) (hr2 : r < d) {fuel : ℕ} (hf : 2 ≤ fuel) :
    ∃ q' r', fixRem d fuel q r = some (q', r') ∧ 0 ≤ r' ∧ r' < d ∧ q' * d + r' = q * d + r := by
  obtain ⟨f, rfl⟩ : ∃ f, fuel = f + 2 := ⟨fuel - 2, by omega⟩
  simp only [fixRem]
  by_cases h : r < 0
  · refine ⟨q - 1, r + d, ?_, by omega, by omega, by ring⟩
    rw [if_pos h, if_neg (by omega)]
  · exact ⟨q, r, by rw [if_neg h], by omega, hr2, rfl⟩

/-- floor-like split of the two sides -/
theorem lt_of_quot {q1 r1 d1 q2 r2 d2 : ℤ} (hd1 : 0 < d1) (h1 : 0 ≤ r1) (h1' : r1 < d1) (_hd2 : 0 < d2) (h2 : 0 ≤ r2) (_h2' : r2 < d2)
    (h : q1 < q2) : (q1 : ℚ) + r1 / d1 < q2 + r2 / d2 := by
  have a : (r1 : ℚ) / d1 < 1 := by rw [div_lt_iff₀ (by exact_mod_cast hd1), one_mul]; exact_mod_cast h1'
  have b : (0 : ℚ) ≤ (r2 : ℚ) / d2 := div_nonneg (by exact_mod_cast h2) (by exact_mod_cast _hd2.le)
  have c : (q1 : ℚ) + 1 ≤ q2 := by exact_mod_cast h
  have := h1
  linarith

theorem ltLoop_spec (fuel : ℕ) : ∀ (td tq tr rd rq rr : ℤ) (rev : Bool), 0 < td → 0 ≤ tr → tr < td → 0 < rd → 0 ≤ rr → rr < rd →
    td < fuel →
    ltLoop fuel td tq tr rd rq rr rev = some (decide (if rev then (rq : ℚ) + rr / rd < tq + tr / td else (tq : ℚ) + tr / td < rq + rr / rd)) := by
  induction fuel with
  | zero => intros; simp at *; omega
  | succ fuel ih =>
    intro td tq tr rd rq rr rev htd htr htr' hrd hrr hrr' hf
    simp only [ltLoop]
    by_cases hq : tq = rq
    · subst hq
      rw [if_neg (by simp)]
      have qtd : (0 : ℚ) < td := by exact_mod_cast htd
      have qrd : (0 : ℚ) < rd := by exact_mod_cast hrd
      by_cases h0 : tr = 0 ∨ rr = 0
      · rw [if_pos h0]
        by_cases he : tr = rr
        · have hz : tr = 0 ∧ rr = 0 := by omega
          rw [if_pos he, hz.1, hz.2]
          cases rev <;> simp
        · rw [if_neg he]
          rcases h0 with h0 | h0
          · subst h0
            have : (0 : ℚ) < (rr : ℚ) / rd := div_pos (by exact_mod_cast (show 0 < rr by omega)) qrd
            cases rev
            · simp [this]
            · simp [this.le]
          · subst h0
            have : (0 : ℚ) < (tr : ℚ) / td := div_pos (by exact_mod_cast (show 0 < tr by omega)) qtd
            have ht : tr ≠ 0 := he
            cases rev
            · simp [this.le, ht]
            · simp [this, ht]
      · rw [if_neg h0]
        push Not at h0
        have ht : 0 < tr := by omega
        have hr : 0 < rr := by omega
        have qt : (0 : ℚ) < tr := by exact_mod_cast ht
        have qr : (0 : ℚ) < rr := by exact_mod_cast hr
        rw [ih tr _ _ rr _ _ (!rev) ht (Int.tmod_nonneg _ htd.le) (Int.tmod_lt_of_pos _ ht) hr (Int.tmod_nonneg _ hrd.le)
          (Int.tmod_lt_of_pos _ hr) (by omega)]
        have e1 : ((td.tdiv tr : ℤ) : ℚ) + ((td.tmod tr : ℤ) : ℚ) / tr = td / tr := by
          rw [eq_div_iff qt.ne', add_mul, div_mul_cancel₀ _ qt.ne']
          have := Int.mul_tdiv_add_tmod td tr
          have := congrArg (fun z : ℤ => (z : ℚ)) this
          push_cast at this
          linear_combination this
        have e2 : ((rd.tdiv rr : ℤ) : ℚ) + ((rd.tmod rr : ℤ) : ℚ) / rr = rd / rr := by
          rw [eq_div_iff qr.ne', add_mul, div_mul_cancel₀ _ qr.ne']
          have := Int.mul_tdiv_add_tmod rd rr
          have := congrArg (fun z : ℤ => (z : ℚ)) this
          push_cast at this
          linear_combination this
        rw [e1, e2]
        congr 1
        rw [decide_eq_decide]
        have k1 : ((td : ℚ) / tr < rd / rr) ↔ ((rr : ℚ) / rd < tr / td) := by
          rw [div_lt_div_iff₀ qt qr, div_lt_div_iff₀ qrd qtd]
          constructor <;> intro h <;> linarith
        have k2 : ((rd : ℚ) / rr < td / tr) ↔ ((tr : ℚ) / td < rr / rd) := by
          rw [div_lt_div_iff₀ qr qt, div_lt_div_iff₀ qtd qrd]
          constructor <;> intro h <;> linarith
        cases rev
        · simp only [Bool.not_false, if_true, Bool.false_eq_true, if_false, add_lt_add_iff_left]
          exact k2
        · simp only [Bool.not_true, Bool.false_eq_true, if_false, if_true, add_lt_add_iff_left]
          exact k1
    · rw [if_pos hq]
      congr 1
      rcases lt_or_gt_of_ne hq with h | h
      · have := lt_of_quot htd htr htr' hrd hrr hrr' h
        cases rev
        · simp [h, this]
        · simp only [if_true]; rw [decide_eq_false (by omega), decide_eq_false (not_lt.2 this.le)]
      · have := lt_of_quot hrd hrr hrr' htd htr htr' h
        cases rev
        · simp only [Bool.false_eq_true, if_false]; rw [decide_eq_false (by omega), decide_eq_false (not_lt.2 this.le)]
        · simp [h, this]

theorem cdivmod {a d : ℤ} (hd : 0 < d) : cdiv a d = some (a.tdiv d) ∧ cmod a d = some (a.tmod d) ∧ -d < a.tmod d ∧
    a.tmod d < d ∧ a.tdiv d * d + a.tmod d = a := by
  refine ⟨by simp [cdiv, hd.ne'], by simp [cmod, hd.ne'], ?_, Int.tmod_lt_of_pos _ hd, ?_⟩
  · have h : (a.tmod d).natAbs < d.natAbs := by
      rw [Int.natAbs_tmod]; exact Nat.mod_lt _ (by omega)
    omega
  · have := Int.mul_tdiv_add_tmod a d
    linarith

/-- C34: `a < b` terminates and compares the values, for positive denominators. -/
theorem C34_lt_partial (x r : Rat') (hx : 0 < x.den) (hr : 0 < r.den) (fuel : ℕ) (hf : 2 ≤ fuel) (hf' : x.den < fuel) :
    lt fuel x r = some (decide (val x < val r)) := by
  obtain ⟨a1, a2, a3, a4, a5⟩ := cdivmod (a := x.num) hx
  obtain ⟨b1, b2, b3, b4, b5⟩ := cdivmod (a := r.num) hr
  obtain ⟨q1, r1, c1, c2, c3, c4⟩ := fixRem_spec (q := x.num.tdiv x.den) hx a3 a4 hf
  obtain ⟨q2, r2, d1, d2, d3, d4⟩ := fixRem_spec (q := r.num.tdiv r.den) hr b3 b4 hf
  have qx : (x.den : ℚ) ≠ 0 := by exact_mod_cast hx.ne'
  have qr : (r.den : ℚ) ≠ 0 := by exact_mod_cast hr.ne'
  have e1 : val x = q1 + r1 / x.den := by
    rw [a5] at c4
    unfold val
    rw [← c4]
    push_cast
    field_simp
  have e2 : val r = q2 + r2 / r.den := by
    rw [b5] at d4
    unfold val
    rw [← d4]
    push_cast
    field_simp
  simp only [lt, a1, a2, b1, b2, c1, d1, Option.bind_eq_bind, Option.bind_some]
  rw [ltLoop_spec fuel _ _ _ _ _ _ _ hx c2 c3 hr d2 d3 hf', e1, e2]
  simp

/-- C34: comparison with an integer. -/
theorem C34_ltInt (x : Rat') (i : ℤ) (hx : 0 < x.den) (fuel : ℕ) (hf : 2 ≤ fuel) :
    ltInt fuel x i = some (decide (val x < i)) := by
  obtain ⟨a1, a2, a3, a4, a5⟩ := cdivmod (a := x.num) hx
  obtain ⟨q1, r1, c1, c2, c3, c4⟩ := fixRem_spec (q := x.num.tdiv x.den) hx a3 a4 hf
  simp only [ltInt, a1, a2, c1, Option.bind_eq_bind, Option.bind_some]
  congr 1
  rw [decide_eq_decide]
  unfold val
  rw [div_lt_iff₀ (by exact_mod_cast hx)]
  rw [a5] at c4
  have : (x.num : ℚ) < i * x.den ↔ x.num < i * x.den := by exact_mod_cast Iff.rfl
  rw [this]
  constructor
  · intro h
    nlinarith
  · intro h
    by_contra hc
    push Not at hc
    nlinarith

/-- C34: `==` is equality of values for positive denominators in lowest terms. -/
theorem C34_eq_partial (x r : Rat') (hx : 0 < x.den) (hr : 0 < r.den) (cx : Reduced x) (cr : Reduced r) :
    eq x r = true ↔ val x = val r := by
  unfold eq
  simp only [Bool.and_eq_true, beq_iff_eq]
  constructor
  · rintro ⟨h1, h2⟩; unfold val; rw [h1, h2]
  · intro h
    have qx : (x.den : ℚ) ≠ 0 := by exact_mod_cast hx.ne'
    have qr : (r.den : ℚ) ≠ 0 := by exact_mod_cast hr.ne'
    unfold val at h
    rw [div_eq_div_iff qx qr] at h
    have h' : x.num * r.den = r.num * x.den := by exact_mod_cast h
    have d1 : x.den ∣ r.den := (IsCoprime.symm cx).dvd_of_dvd_mul_left ⟨r.num, by rw [h']; ring⟩
    have d2 : r.den ∣ x.den := (IsCoprime.symm cr).dvd_of_dvd_mul_left ⟨x.num, by rw [← h']; ring⟩
    have hd : x.den = r.den := Int.dvd_antisymm hx.le hr.le d1 d2
    refine ⟨?_, hd⟩
    rw [hd] at h'
    exact mul_right_cancel₀ hr.ne' h'

/-- C34: `== i` and `> i` for numbers in lowest terms with positive denominator. -/
theorem C34_eqInt_gtInt (x : Rat') (i : ℤ) (hx : 0 < x.den) (cx : Reduced x) (fuel : ℕ) (hf : 2 ≤ fuel) :
    (eqInt x i = true ↔ val x = i) ∧ gtInt fuel x i = some (decide (val x > i)) := by
  have h1 : eqInt x i = true ↔ val x = i := by
    have := C34_eq_partial x ⟨i, 1⟩ hx one_pos cx isCoprime_one_right
    have hv : val ⟨i, 1⟩ = i := by simp [val]
    rw [hv] at this
    rw [← this]
    unfold eqInt eq
    simp only [Bool.and_eq_true, beq_iff_eq]
    exact and_comm
  refine ⟨h1, ?_⟩
  unfold gtInt
  by_cases h : eqInt x i = true
  · rw [if_pos h]; simp [h1.1 h]
  · rw [if_neg h, C34_ltInt x i hx fuel hf]
    have hne : val x ≠ i := fun h' => h (h1.2 h')
    simp only [Option.map_some]
    congr 1
    rw [Bool.eq_iff_iff]
    simp only [Bool.not_eq_true', decide_eq_false_iff_not, decide_eq_true_eq, not_lt, gt_iff_lt]
    exact ⟨fun h => lt_of_le_of_ne h (Ne.symm hne), fun h => h.le⟩

/-- C34: `normalize` keeps the value and yields lowest terms with a positive denominator. -/
theorem C34_normalize (x : Rat') (hx : x.den ≠ 0) :
    ∃ y, normalize x = some y ∧ val y = val x ∧ 0 < y.den ∧ Reduced y := by
  by_cases hn : x.num = 0
  · exact ⟨⟨x.num, 1⟩, by simp [normalize, hn], by simp [val, hn], one_pos, isCoprime_one_right⟩
  have hg : gcd x.num x.den ≠ 0 := gcd_ne_zero (Or.inr hx)
  obtain ⟨n, e1, h1⟩ := cdiv_dvd hg (gcd_dvd_left x.num x.den)
  obtain ⟨d, e2, h2⟩ := cdiv_dvd hg (gcd_dvd_right x.num x.den)
  have hd : d ≠ 0 := by rintro rfl; simp at h2; exact hx h2
  refine ⟨fixSign ⟨n, d⟩, by simp [normalize, hn, e1, e2], ?_, fixSign_den hd, fixSign_reduced (gcd_cofactors hg h1 h2)⟩
  rw [fixSign_val]
  have qx : (x.den : ℚ) ≠ 0 := by exact_mod_cast hx
  have qd : (d : ℚ) ≠ 0 := by exact_mod_cast hd
  unfold val
  rw [div_eq_div_iff qd qx]
  have : n * x.den = x.num * d := by
    generalize gcd x.num x.den = g at *
    rw [h1, h2]; ring
  exact_mod_cast this

/-! ### where the class does not behave like ℚ -/

/-- C34 finding: the free `operator+` ignores its left operand, for every input. -/
theorem C34_plus_wrong (a b : Rat') (hb : b.den ≠ 0) :
    ∃ y, plus a b = some y ∧ val y = 2 * val b := by
  obtain ⟨y, h1, _, h2, _⟩ := C34_addAssign_partial b b hb hb
  exact ⟨y, h1, by rw [h2]; ring⟩

/-- C34 finding: the free `operator-` always returns zero. -/
theorem C34_minus_wrong (a b : Rat') (hb : b.den ≠ 0) :
    ∃ y, minus a b = some y ∧ val y = 0 := by
  obtain ⟨y, h1, _, h2, _⟩ := C34_subAssign_partial b b hb hb
  exact ⟨y, h1, by rw [h2]; ring⟩

/-- C34 finding: `+=` and `*=` on normalised operands can return a negative denominator, `==` then misses
equal values, `<` on such numbers gives wrong answers, or never ends. -/
theorem C34_negative_denominator :
    addAssign ⟨-1, 2⟩ ⟨-1, 2⟩ = some ⟨1, -1⟩ ∧ mulAssign ⟨-3, 1⟩ ⟨1, 3⟩ = some ⟨1, -1⟩ ∧
    eq ⟨1, -1⟩ ⟨-1, 1⟩ = false ∧ val ⟨1, -1⟩ = val ⟨-1, 1⟩ ∧
    lt 10 ⟨3, -2⟩ ⟨-1, 1⟩ = some false ∧ val ⟨3, -2⟩ < val ⟨-1, 1⟩ ∧
    (∀ fuel, lt fuel ⟨-3, -2⟩ ⟨0, 1⟩ = none) := by
  refine ⟨by decide +kernel, by decide +kernel, by decide +kernel, by decide +kernel, by decide +kernel, by decide +kernel, ?_⟩
  intro fuel
  have h : ∀ (f : ℕ) (q r : ℤ), r < 0 → fixRem (-2) f q r = none := by
    intro f
    induction f with
    | zero => intros; rfl
    | succ f ih =>
      intro q r hr
      simp only [fixRem, if_pos hr]
      exact ih _ _ (by omega)
  have h1 : cmod (-3) (-2) = some (-1) := by decide
  have h2 : cdiv (-3) (-2) = some 1 := by decide
  have h3 : cmod 0 1 = some 0 := by decide
  have h4 : cdiv 0 1 = some 0 := by decide
  simp [lt, h1, h2, h3, h4, h fuel _ (-1) (by omega)]

/-- C34 finding: the constructor does not normalise, so `rational(2,4) == rational(1,2)` is false. -/
theorem C34_unreduced_eq : eq ⟨2, 4⟩ ⟨1, 2⟩ = false ∧ val ⟨2, 4⟩ = val ⟨1, 2⟩ := by decide +kernel

/-- Non-vacuity. -/
example : addAssign ⟨1, 6⟩ ⟨1, 10⟩ = some ⟨4, 15⟩ ∧ subAssign ⟨1, 6⟩ ⟨1, 10⟩ = some ⟨1, 15⟩ ∧
    mulAssign ⟨4, 9⟩ ⟨3, 8⟩ = some ⟨1, 6⟩ ∧ divAssign ⟨4, 9⟩ ⟨-8, 3⟩ = some ⟨-1, 6⟩ ∧
    lt 100 ⟨-7, 3⟩ ⟨-9, 4⟩ = some true ∧ lt 100 ⟨13, 8⟩ ⟨21, 13⟩ = some false ∧ ltInt 2 ⟨-7, 3⟩ (-2) = some true ∧
    normalize ⟨6, -4⟩ = some ⟨-3, 2⟩ := by decide +kernel

end Verif.Rational
