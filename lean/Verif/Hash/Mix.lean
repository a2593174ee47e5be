import Verif.Hash.Model
import Mathlib.Data.Fintype.EquivFin
import Mathlib.Data.Fintype.Card
/-!
# The hash (C186)
-/
namespace Verif.Hash

/-- `m` is odd: it has an inverse. -/
def Odd32 (m : BitVec 32) : Prop := ∃ i : BitVec 32, m * i = 1#32

theorem mConst_odd : Odd32 mConst := ⟨3852147133#32, by decide +kernel⟩

variable {m : BitVec 32}

theorem mul_m_inj (ho : Odd32 m) {a b : BitVec 32} (h : a * m = b * m) : a = b := by
  obtain ⟨i, hm⟩ := ho
  have : a * m * i = b * m * i := by rw [h]
  rwa [BitVec.mul_assoc, BitVec.mul_assoc, hm, BitVec.mul_one, BitVec.mul_one] at this

theorem xor_cancel_left {n : Nat} {a b c : BitVec n} (h : a ^^^ b = a ^^^ c) : b = c := by
  have : a ^^^ (a ^^^ b) = a ^^^ (a ^^^ c) := by rw [h]
  rwa [← BitVec.xor_assoc, ← BitVec.xor_assoc, BitVec.xor_self, BitVec.zero_xor, BitVec.zero_xor] at this

theorem xor_cancel_right {n : Nat} {a b c : BitVec n} (h : b ^^^ a = c ^^^ a) : b = c := by
  rw [BitVec.xor_comm b, BitVec.xor_comm c] at h; exact xor_cancel_left h

/-- `x ^= x >> r` is injective: bit `i` of `x` is bit `i` of the result combined with the higher bit `i + r`. -/
theorem xorshift_inj {n r : Nat} (hr : 0 < r) {x y : BitVec n} (h : x ^^^ (x >>> r) = y ^^^ (y >>> r)) : x = y := by
  have bits : ∀ d i, n ≤ i + d → x.getLsbD i = y.getLsbD i := by
    intro d
    induction d with
    | zero =>
      intro i hi
      rw [BitVec.getLsbD_of_ge _ _ (by omega), BitVec.getLsbD_of_ge _ _ (by omega)]
    | succ d ih =>
      intro i hi
      have h1 := congrArg (fun z => z.getLsbD i) h
      simp only [BitVec.getLsbD_xor, BitVec.getLsbD_ushiftRight] at h1
      rw [ih (r + i) (by omega)] at h1
      revert h1
      cases x.getLsbD i <;> cases y.getLsbD i <;> cases y.getLsbD (r + i) <;> simp
  exact BitVec.eq_of_getLsbD_eq fun i _ => bits n i (by omega)

theorem mix_inj (ho : Odd32 m) {a b : BitVec 32} (h : mix m a = mix m b) : a = b := by
  unfold mix at h
  exact mul_m_inj ho (xorshift_inj (by omega) (mul_m_inj ho h))

theorem final_inj (ho : Odd32 m) {a b : BitVec 32} (h : final m a = final m b) : a = b := by
  unfold final at h
  exact xorshift_inj (r := 13) (by omega) (mul_m_inj ho (xorshift_inj (r := 15) (by omega) h))

theorem low_bits {b : Byte} {i : Nat} (h : 8 ≤ i) : b.getLsbD i = false := BitVec.getLsbD_of_ge _ _ h

theorem word_inj {a b c d a' b' c' d' : Byte} (h : word a b c d = word a' b' c' d') : a = a' ∧ b = b' ∧ c = c' ∧ d = d' := by
  have key : ∀ i, (word a b c d).getLsbD i = (word a' b' c' d').getLsbD i := fun i => by rw [h]
  simp only [word, BitVec.getLsbD_xor, BitVec.getLsbD_shiftLeft, BitVec.getLsbD_setWidth] at key
  refine ⟨?_, ?_, ?_, ?_⟩ <;> refine BitVec.eq_of_getLsbD_eq fun i hi => ?_
  · have k := key i
    rw [decide_eq_true (show i < 32 by omega), decide_eq_true (show i < 8 by omega),
      decide_eq_true (show i < 16 by omega), decide_eq_true (show i < 24 by omega)] at k
    simpa using k
  · have k := key (i + 8)
    rw [decide_eq_true (show i + 8 < 32 by omega), decide_eq_false (show ¬ i + 8 < 8 by omega),
      decide_eq_true (show i + 8 < 16 by omega), decide_eq_true (show i + 8 < 24 by omega),
      low_bits (b := a) (by omega), low_bits (b := a') (by omega), Nat.add_sub_cancel,
      decide_eq_true (show i < 32 by omega)] at k
    simpa using k
  · have k := key (i + 16)
    rw [decide_eq_true (show i + 16 < 32 by omega), decide_eq_false (show ¬ i + 16 < 8 by omega),
      decide_eq_false (show ¬ i + 16 < 16 by omega), decide_eq_true (show i + 16 < 24 by omega),
      low_bits (b := a) (by omega), low_bits (b := a') (by omega), Nat.add_sub_cancel,
      low_bits (b := b) (by omega), low_bits (b := b') (by omega), 
      decide_eq_true (show i < 32 by omega)] at k
    simpa using k
  · have k := key (i + 24)
    rw [decide_eq_true (show i + 24 < 32 by omega), decide_eq_false (show ¬ i + 24 < 8 by omega),
      decide_eq_false (show ¬ i + 24 < 16 by omega), decide_eq_false (show ¬ i + 24 < 24 by omega),
      low_bits (b := a) (by omega), low_bits (b := a') (by omega), Nat.add_sub_cancel,
      low_bits (b := b) (by omega), low_bits (b := b') (by omega),
      low_bits (b := c) (by omega), low_bits (b := c') (by omega),
      decide_eq_true (show i < 32 by omega)] at k
    simpa using k

theorem body_nil (h : BitVec 32) : body m [] h = h := rfl

theorem body_one (a : Byte) (h : BitVec 32) : body m [a] h = (h ^^^ a.setWidth 32) * m := rfl

theorem body_two (a b : Byte) (h : BitVec 32) : body m [a, b] h = (h ^^^ b.setWidth 32 <<< 8 ^^^ a.setWidth 32) * m := rfl

theorem body_three (a b c : Byte) (h : BitVec 32) :
    body m [a, b, c] h = (h ^^^ c.setWidth 32 <<< 16 ^^^ b.setWidth 32 <<< 8 ^^^ a.setWidth 32) * m := rfl

theorem body_cons (a b c d : Byte) (rest : List Byte) (h : BitVec 32) :
    body m (a :: b :: c :: d :: rest) h = body m rest ((h * m) ^^^ mix m (word a b c d)) := rfl

/-- The state after the bytes depends injectively on the state before. -/
theorem body_inj (ho : Odd32 m) : ∀ (key : List Byte) {h h' : BitVec 32}, body m key h = body m key h' → h = h'
  | a :: b :: c :: d :: rest, h, h', e => by
    rw [body_cons, body_cons] at e
    exact mul_m_inj ho (xor_cancel_right (body_inj ho rest e))
  | [a, b, c], h, h', e => by
    rw [body_three, body_three] at e
    exact xor_cancel_right (xor_cancel_right (xor_cancel_right (mul_m_inj ho e)))
  | [a, b], h, h', e => by
    rw [body_two, body_two] at e
    exact xor_cancel_right (xor_cancel_right (mul_m_inj ho e))
  | [a], h, h', e => by
    rw [body_one, body_one] at e
    exact xor_cancel_right (mul_m_inj ho e)
  | [], h, h', e => by rwa [body_nil, body_nil] at e

theorem body_append : ∀ (q : Nat) (pre rest : List Byte) (h : BitVec 32), pre.length = 4 * q →
    body m (pre ++ rest) h = body m rest (body m pre h)
  | 0, pre, rest, h, hp => by
    have : pre = [] := List.length_eq_zero_iff.1 (by omega)
    subst this; rw [List.nil_append, body_nil]
  | q + 1, pre, rest, h, hp => by
    match pre, hp with
    | a :: b :: c :: d :: t, hp =>
      simp only [List.cons_append, body_cons]
      exact body_append q t rest _ (by simp at hp; omega)

theorem tail_eq {a b c : Byte} {h : BitVec 32} :
    h ^^^ c.setWidth 32 <<< 16 ^^^ b.setWidth 32 <<< 8 ^^^ a.setWidth 32 = h ^^^ word a b c 0 := by
  have h0 : (BitVec.setWidth 32 (0 : Byte)) <<< 24 = 0#32 := by decide +kernel
  unfold word
  rw [h0, BitVec.xor_zero, BitVec.xor_assoc, BitVec.xor_assoc]
  congr 1
  rw [BitVec.xor_comm, BitVec.xor_comm (b.setWidth 32 <<< 8) (a.setWidth 32)]

theorem body_tail_inj (ho : Odd32 m) : ∀ (a b : List Byte) (h : BitVec 32), a.length = b.length → a.length ≤ 4 → body m a h = body m b h → a = b
  | [], [], _, _, _, _ => rfl
  | [a], [a'], h, _, _, e => by
    rw [body_one, body_one] at e
    have e := xor_cancel_left (mul_m_inj ho e)
    have h0 : (BitVec.setWidth 32 (0 : Byte)) <<< 24 = 0#32 := by decide +kernel
    have h1 : (BitVec.setWidth 32 (0 : Byte)) <<< 16 = 0#32 := by decide +kernel
    have h2 : (BitVec.setWidth 32 (0 : Byte)) <<< 8 = 0#32 := by decide +kernel
    have : word a 0 0 0 = word a' 0 0 0 := by unfold word; rw [h0, h1, h2, e]
    rw [(word_inj this).1]
  | [a, b], [a', b'], h, _, _, e => by
    rw [body_two, body_two] at e
    have h1 : (BitVec.setWidth 32 (0 : Byte)) <<< 16 = 0#32 := by decide +kernel
    have e := mul_m_inj ho e
    have t1 := tail_eq (a := a) (b := b) (c := 0) (h := h)
    have t2 := tail_eq (a := a') (b := b') (c := 0) (h := h)
    rw [h1, BitVec.xor_zero] at t1 t2
    rw [t1, t2] at e
    obtain ⟨r1, r2, -⟩ := word_inj (xor_cancel_left e)
    rw [r1, r2]
  | [a, b, c], [a', b', c'], h, _, _, e => by
    rw [body_three, body_three] at e
    have e := mul_m_inj ho e
    rw [tail_eq, tail_eq] at e
    obtain ⟨r1, r2, r3, -⟩ := word_inj (xor_cancel_left e)
    rw [r1, r2, r3]
  | [a, b, c, d], [a', b', c', d'], h, _, _, e => by
    rw [body_cons, body_cons, body_nil, body_nil] at e
    obtain ⟨r1, r2, r3, r4⟩ := word_inj (mix_inj ho (xor_cancel_left e))
    rw [r1, r2, r3, r4]

/-- Two keys that differ only in one aligned group of four bytes have different hashes. -/
theorem C186_block (pre a b post : List Byte) (seed : BitVec 32) (hpre : pre.length % 4 = 0) (ha : a.length = 4)
    (hb : b.length = 4) (hne : a ≠ b) : murmur (pre ++ a ++ post) seed ≠ murmur (pre ++ b ++ post) seed := by
  intro h
  unfold murmur at h
  have h := final_inj mConst_odd h
  have hl : (pre ++ a ++ post).length = (pre ++ b ++ post).length := by simp [ha, hb]
  rw [hl, List.append_assoc, List.append_assoc, body_append (pre.length / 4) pre (a ++ post) _ (by omega),
    body_append (pre.length / 4) pre (b ++ post) _ (by omega), body_append 1 a _ _ (by omega),
    body_append 1 b _ _ (by omega)] at h
  exact hne (body_tail_inj mConst_odd a b _ (by omega) (by omega) (body_inj mConst_odd post h))

/-- Two keys of the same length that differ only in the last one to three bytes, after the groups of four, have different
hashes. -/
theorem C186_tail (pre a b : List Byte) (seed : BitVec 32) (hpre : pre.length % 4 = 0) (hab : a.length = b.length)
    (ha : a.length < 4) (hne : a ≠ b) : murmur (pre ++ a) seed ≠ murmur (pre ++ b) seed := by
  intro h
  unfold murmur at h
  have h := final_inj mConst_odd h
  have hl : (pre ++ a).length = (pre ++ b).length := by simp [hab]
  rw [hl, body_append (pre.length / 4) pre a _ (by omega),
    body_append (pre.length / 4) pre b _ (by omega)] at h
  exact hne (body_tail_inj mConst_odd a b _ hab (by omega) h)

/-- The same key hashes differently with different seeds. -/
theorem C186_seed (key : List Byte) (s s' : BitVec 32) (hne : s ≠ s') : murmur key s ≠ murmur key s' := by
  intro h
  exact hne (xor_cancel_right (body_inj mConst_odd key (final_inj mConst_odd h)))

theorem word_surj (x : BitVec 32) : ∃ a b c d, word a b c d = x := by
  have hinj : Function.Injective fun t : Byte × Byte × Byte × Byte => word t.1 t.2.1 t.2.2.1 t.2.2.2 := by
    rintro ⟨a, b, c, d⟩ ⟨a', b', c', d'⟩ h
    obtain ⟨r1, r2, r3, r4⟩ := word_inj h
    dsimp only at r1 r2 r3 r4
    rw [r1, r2, r3, r4]
  refine ⟨x.setWidth 8, (x >>> 8).setWidth 8, (x >>> 16).setWidth 8, (x >>> 24).setWidth 8, ?_⟩
  refine BitVec.eq_of_getLsbD_eq fun i hi => ?_
  simp only [word, BitVec.getLsbD_xor, BitVec.getLsbD_shiftLeft, BitVec.getLsbD_setWidth, BitVec.getLsbD_ushiftRight]
  have : i < 8 ∨ (8 ≤ i ∧ i < 16) ∨ (16 ≤ i ∧ i < 24) ∨ (24 ≤ i ∧ i < 32) := by omega
  rcases this with h | ⟨h, h'⟩ | ⟨h, h'⟩ | ⟨h, h'⟩
  · simp [show i < 32 by omega, h, show i < 16 by omega, show i < 24 by omega]
  · simp [show i < 32 by omega, show ¬ i < 8 by omega, h', show i < 24 by omega, show i - 8 < 8 by omega, show i - 8 < 32 by omega, show 8 + (i - 8) = i by omega]
  · simp [show i < 32 by omega, show ¬ i < 8 by omega, show ¬ i < 16 by omega, h', show ¬ i - 8 < 8 by omega, show i - 16 < 8 by omega, show i - 16 < 32 by omega, show 16 + (i - 16) = i by omega]
  · simp [show i < 32 by omega, show ¬ i < 8 by omega, show ¬ i < 16 by omega, show ¬ i < 24 by omega, show ¬ i - 8 < 8 by omega, show ¬ i - 16 < 8 by omega, show i - 24 < 8 by omega, show i - 24 < 32 by omega, show 24 + (i - 24) = i by omega]

theorem mix_surj (ho : Odd32 m) (y : BitVec 32) : ∃ x, mix m x = y := by
  have : Finite (BitVec 32) := Finite.of_injective (fun x : BitVec 32 => x.toFin) (fun a b h => BitVec.eq_of_toFin_eq h)
  exact (Finite.injective_iff_surjective.1 (fun a b h => mix_inj ho h)) y

theorem collision (ho : Odd32 m) (a0 a1 a2 a3 c0 c1 c2 c3 b0 b1 b2 b3 : Byte) (h : BitVec 32) :
    ∃ d0 d1 d2 d3, body m [a0, a1, a2, a3, b0, b1, b2, b3] h = body m [c0, c1, c2, c3, d0, d1, d2, d3] h := by
  obtain ⟨k, hk⟩ := mix_surj ho ((((h * m) ^^^ mix m (word c0 c1 c2 c3)) * m) ^^^
    ((((h * m) ^^^ mix m (word a0 a1 a2 a3)) * m) ^^^ mix m (word b0 b1 b2 b3)))
  obtain ⟨d0, d1, d2, d3, hd⟩ := word_surj k
  refine ⟨d0, d1, d2, d3, ?_⟩
  rw [body_cons, body_cons, body_nil, body_cons, body_cons, body_nil, hd, hk, ← BitVec.xor_assoc, BitVec.xor_self,
    BitVec.zero_xor]

/-- Keys longer than one group do collide, for every seed: whatever two first groups are chosen, and whatever the second
group of one key, there is a second group that gives the other key the same hash. -/
theorem C186_collision (a a' b : List Byte) (ha : a.length = 4) (ha' : a'.length = 4) (hb : b.length = 4) (seed : BitVec 32) :
    ∃ b', b'.length = 4 ∧ murmur (a ++ b) seed = murmur (a' ++ b') seed := by
  match a, a', b, ha, ha', hb with
  | [a0, a1, a2, a3], [c0, c1, c2, c3], [b0, b1, b2, b3], _, _, _ =>
    obtain ⟨d0, d1, d2, d3, hd⟩ := collision mConst_odd a0 a1 a2 a3 c0 c1 c2 c3 b0 b1 b2 b3 (seed ^^^ BitVec.ofNat 32 8)
    exact ⟨[d0, d1, d2, d3], rfl, congrArg (final mConst) hd⟩

/-- The published value for the empty key with seed 0 is 0, and the function is not constant. -/
example : murmur [] 0 = 0 ∧ murmur [0x61#8] 0 ≠ murmur [0x62#8] 0 ∧ murmur [1, 2, 3, 4, 5] 7 ≠ murmur [1, 2, 3, 9, 5] 7 :=
  ⟨by decide +kernel, C186_tail [] _ _ _ rfl rfl (by decide) (by decide),
    C186_block [] [1, 2, 3, 4] [1, 2, 3, 9] [5] 7 rfl rfl rfl (by decide)⟩

end Verif.Hash
