import Verif.Lattice.Spec
import Mathlib.Data.Nat.Prime.Basic
import Mathlib.Data.List.Forall2
import Mathlib.Tactic.Linarith
namespace Verif.Lat

/-! indexing -/

theorem n_eq {l : Lattice} (h : l.Wf) : l.n = some l.sizes.prod := by
  unfold Lattice.n Lattice.prod Lattice.nd
  obtain ⟨n, hn⟩ : ∃ n, l.sizes.length = n + 1 := ⟨l.sizes.length - 1, by have := h.2; omega⟩
  obtain ⟨ts, t, e, ht⟩ := exists_snoc hn
  rw [e, strides_append]
  have h1 : (strides 1 ts).length = ts.length := strides_length 1 ts
  simp only [List.length_append, List.length_singleton, Nat.add_sub_cancel, one_mul]
  rw [List.getElem?_append_right (by omega), List.getElem?_append_right (by omega)]
  simp [h1]

/-- shift of a point by the starts -/
def shift (ys : List Nat) (ss : List Nat) : List Int :=
  List.zipWith (fun (a b : Nat) => (a : Int) + b) ys ss

theorem dotOff_shift (ys ss ps : List Nat) (h : ys.length = ss.length) :
    dotOff (shift ys ss) ss ps = (dot ys ps : Nat) := by
  induction ys generalizing ss ps with
  | nil => simp [shift, dotOff, dot]
  | cons y ys ih =>
    cases ss with
    | nil => simp at h
    | cons s ss =>
      cases ps with
      | nil => simp [shift, dotOff, dot]
      | cons p ps =>
        have := ih ss ps (by simpa using h)
        simp only [shift, List.zipWith_cons_cons, dotOff, dot] at this ⊢
        rw [this]
        push_cast
        ring

theorem validIdx_iff {ys ss : List Nat} : ValidIdx ys ss ↔ ys.length = ss.length ∧
    ∀ (d y s : Nat), ys[d]? = some y → ss[d]? = some s → y < s := by
  induction ys generalizing ss with
  | nil =>
    cases ss with
    | nil => simp [ValidIdx]
    | cons s ss => simp [ValidIdx]
  | cons y ys ih =>
    cases ss with
    | nil => simp [ValidIdx]
    | cons s ss =>
      have := ih (ss := ss)
      simp only [ValidIdx, List.forall₂_cons, List.length_cons, Nat.add_right_cancel_iff] at this ⊢
      rw [this]
      constructor
      · rintro ⟨h1, h2, h3⟩
        refine ⟨h2, ?_⟩
        intro d a b ha hb
        cases d with
        | zero => simp at ha hb; omega
        | succ d => exact h3 d a b (by simpa using ha) (by simpa using hb)
      · rintro ⟨h1, h2⟩
        exact ⟨h2 0 y s (by simp) (by simp), h1, fun d a b ha hb =>
          h2 (d + 1) a b (by simpa using ha) (by simpa using hb)⟩

theorem shift_length (ys ss : List Nat) (h : ys.length = ss.length) :
    (shift ys ss).length = ss.length := by
  simp [shift, h]

theorem inBox_shift {l : Lattice} (h : l.Wf) {ys : List Nat} (hv : ValidIdx ys l.sizes) :
    InBox l (shift ys l.starts) := by
  have hl := hv.length
  refine ⟨by rw [shift_length _ _ (by rw [hl, h.1]), h.1], ?_⟩
  intro d s n v hs hn hx
  rw [validIdx_iff] at hv
  simp only [shift, List.getElem?_zipWith, hs] at hx
  cases hy : ys[d]? with
  | none => rw [hy] at hx; simp at hx
  | some y =>
    rw [hy] at hx
    have := hv.2 d y n hy hn
    simp at hx
    omega

theorem exists_shift {l : Lattice} (h : l.Wf) {x : List Int} (hx : InBox l x) :
    ∃ ys, ValidIdx ys l.sizes ∧ x = shift ys l.starts := by
  refine ⟨List.zipWith (fun (a : Int) (b : Nat) => (a - b).toNat) x l.starts, ?_, ?_⟩
  · rw [validIdx_iff]
    refine ⟨by simp [hx.1, h.1], ?_⟩
    intro d y s hy hs
    simp only [List.getElem?_zipWith] at hy
    cases hxd : x[d]? with
    | none => rw [hxd] at hy; simp at hy
    | some v =>
      cases hsd : l.starts[d]? with
      | none => rw [hxd, hsd] at hy; simp at hy
      | some st =>
        rw [hxd, hsd] at hy
        have := hx.2 d st s v hsd hs hxd
        simp at hy
        omega
  · apply List.ext_getElem?
    intro d
    simp only [shift, List.getElem?_zipWith]
    cases hxd : x[d]? with
    | none => simp
    | some v =>
      have hd : d < x.length := by
        by_contra hc
        rw [List.getElem?_eq_none (by omega)] at hxd; cases hxd
      have hd1 : d < l.starts.length := by rw [h.1, ← hx.1]; exact hd
      have hd2 : d < l.sizes.length := by rw [← hx.1]; exact hd
      have h1 : l.starts[d]? = some l.starts[d] := List.getElem?_eq_getElem hd1
      have h2 : l.sizes[d]? = some l.sizes[d] := List.getElem?_eq_getElem hd2
      have := hx.2 d _ _ v h1 h2 hxd
      rw [h1]
      simp
      omega

/-! prime factorization -/

theorem divOut_spec {i : Nat} (hi : 2 ≤ i) : ∀ (fuel n : Nat) (acc : List Nat), 0 < n → n ≤ fuel →
    ∃ n' k, divOut i fuel n acc = some (n', acc ++ List.replicate k i) ∧ n = n' * i ^ k ∧
      ¬ i ∣ n' ∧ 0 < n' ∧ n' ≤ n := by
  intro fuel
  induction fuel with
  | zero => intro n acc h1 h2; omega
  | succ fuel ih =>
    intro n acc h1 h2
    unfold divOut
    by_cases hd : n % i = 0
    · rw [if_pos hd]
      simp only []
      have hdvd : i ∣ n := Nat.dvd_of_mod_eq_zero hd
      have hlt : n / i < n := Nat.div_lt_self h1 (by omega)
      have hpos : 0 < n / i := Nat.div_pos (Nat.le_of_dvd h1 hdvd) (by omega)
      obtain ⟨n', k, e, he, hn, hp, hle⟩ := ih (n / i) (acc ++ [i]) hpos (by omega)
      refine ⟨n', k + 1, ?_, ?_, hn, hp, by omega⟩
      · rw [e, List.append_assoc]; rfl
      · rw [pow_succ, ← Nat.mul_assoc, ← he]
        exact (Nat.div_mul_cancel hdvd).symm
    · rw [if_neg hd]
      exact ⟨n, 0, by simp, by simp, fun h => hd (Nat.mod_eq_zero_of_dvd h), h1, le_refl _⟩

/-- what the accumulated list and the remaining number satisfy -/
structure FInv (N b n : Nat) (acc : List Nat) : Prop where
  prod : acc.prod * n = N
  prime : ∀ p ∈ acc, p.Prime
  sorted : acc.Pairwise (· ≤ ·)
  le : ∀ p ∈ acc, p < b
  rough : ∀ p, p.Prime → p ∣ n → b ≤ p
  pos : 0 < n

theorem FInv.divOut {N i n : Nat} {acc : List Nat} (h : FInv N i n acc) (hi : 2 ≤ i)
    (b' : Nat) (hb' : i < b') (hskip : ∀ p, p.Prime → p ∣ n → i < p → b' ≤ p) :
    ∃ n' acc', Lat.divOut i n n acc = some (n', acc') ∧ FInv N b' n' acc' ∧ n' ≤ n := by
  obtain ⟨n', k, e, he, hn, hp, hle⟩ := divOut_spec hi n n acc h.pos (le_refl _)
  have hdvd' : n' ∣ n := ⟨i ^ k, he⟩
  refine ⟨n', _, e, ⟨?_, ?_, ?_, ?_, ?_, hp⟩, hle⟩
  · rw [List.prod_append, List.prod_replicate, Nat.mul_assoc, Nat.mul_comm (i ^ k), ← he, h.prod]
  · intro p hp
    rcases List.mem_append.1 hp with hp | hp
    · exact h.prime p hp
    · have hpi := List.eq_of_mem_replicate hp
      subst hpi
      have hk : k ≠ 0 := by
        rintro rfl
        simp at hp
      have hin : p ∣ n := by
        rw [he]
        exact dvd_mul_of_dvd_right (dvd_pow_self p hk) _
      -- the least prime factor of i divides n, hence is ≥ i
      have h1 : (Nat.minFac p).Prime := Nat.minFac_prime (by omega)
      have h2 := h.rough _ h1 ((Nat.minFac_dvd p).trans hin)
      have h3 := Nat.minFac_le (n := p) (by omega)
      have : Nat.minFac p = p := by omega
      rw [← this]; exact h1
  · rw [List.pairwise_append]
    refine ⟨h.sorted, ?_, ?_⟩
    · rw [List.pairwise_replicate]; right; exact le_refl _
    · intro a ha b hb
      rw [List.eq_of_mem_replicate hb]
      exact le_of_lt (h.le a ha)
  · intro p hp
    rcases List.mem_append.1 hp with hp | hp
    · exact lt_trans (h.le p hp) hb'
    · rw [List.eq_of_mem_replicate hp]; exact hb'
  · intro p hpp hpn
    have h1 := h.rough p hpp (hpn.trans hdvd')
    have hne : p ≠ i := by rintro rfl; exact hn hpn
    exact hskip p hpp (hpn.trans hdvd') (by omega)

theorem oddLoop_spec {N : Nat} : ∀ (fuel i n : Nat) (acc : List Nat), FInv N i n acc → 3 ≤ i →
    i % 2 = 1 → ¬ 2 ∣ n → n < fuel + i →
    ∃ n' acc' b, oddLoop fuel i n acc = some (n', acc') ∧ FInv N b n' acc' ∧ n' < b * b := by
  intro fuel
  induction fuel with
  | zero =>
    intro i n acc h hi hodd h2 hf
    unfold oddLoop
    rw [if_neg (by nlinarith)]
    exact ⟨n, acc, i, rfl, h, by nlinarith⟩
  | succ fuel ih =>
    intro i n acc h hi hodd h2 hf
    unfold oddLoop
    by_cases hle : i * i ≤ n
    · rw [if_pos hle]
      simp only []
      obtain ⟨n', acc', e, h', hn'⟩ := h.divOut (by omega) (i + 2) (by omega) (by
        intro p hp hpn hip
        have hp2 : p ≠ i + 1 := by
          rintro rfl
          have : 2 ∣ i + 1 := by omega
          rcases (Nat.Prime.eq_one_or_self_of_dvd hp 2 this) with h | h <;> omega
        omega)
      rw [e]
      simp only []
      have hdvd : n' ∣ n := by
        obtain ⟨n'', k, e', he', _⟩ := divOut_spec (i := i) (by omega) n n acc h.pos (le_refl _)
        rw [e] at e'
        simp only [Option.some.injEq, Prod.mk.injEq] at e'
        rw [e'.1]; exact ⟨_, he'⟩
      exact ih (i + 2) n' acc' h' (by omega) (by omega) (fun h => h2 (h.trans hdvd)) (by omega)
    · rw [if_neg hle]
      exact ⟨n, acc, i, rfl, h, by omega⟩

theorem prime_of_rough {b n : Nat} (h1 : 1 < n) (h2 : ∀ p, p.Prime → p ∣ n → b ≤ p)
    (h3 : n < b * b) : n.Prime := by
  have hm := Nat.minFac_prime (n := n) (by omega)
  by_contra hnp
  have := Nat.minFac_sq_le_self (by omega) hnp
  have hb := h2 _ hm (Nat.minFac_dvd n)
  have : b * b ≤ n.minFac ^ 2 := by rw [pow_two]; exact Nat.mul_le_mul hb hb
  omega

theorem primeFactorization_spec {n : Nat} (hn : 0 < n) :
    ∃ fs, primeFactorization n = some fs ∧ fs.prod = n ∧ (∀ p ∈ fs, p.Prime) ∧
      fs.Pairwise (· ≥ ·) := by
  unfold primeFactorization
  have h0 : FInv n 2 n [] := ⟨by simp, by simp, by simp, by simp, fun p hp _ => hp.two_le, hn⟩
  obtain ⟨n1, acc1, e1, h1, hle⟩ := h0.divOut (le_refl _) 3 (by omega) (fun p _ _ h => h)
  rw [e1]; simp only []
  have h2 : ¬ 2 ∣ n1 := fun hd => by
    have := h1.rough 2 Nat.prime_two hd
    omega
  obtain ⟨n2, acc2, b, e2, h3, hb⟩ := oddLoop_spec n1 3 n1 acc1 h1 (by omega) (by omega) h2 (by omega)
  rw [e2]; simp only []
  refine ⟨_, rfl, ?_⟩
  by_cases hn2 : n2 > 1
  · rw [if_pos hn2]
    have hp := prime_of_rough hn2 h3.rough hb
    refine ⟨?_, ?_, ?_⟩
    · rw [List.prod_reverse, List.prod_append, List.prod_singleton, h3.prod]
    · intro p hpm
      rw [List.mem_reverse, List.mem_append, List.mem_singleton] at hpm
      rcases hpm with h | rfl
      · exact h3.prime p h
      · exact hp
    · rw [List.pairwise_reverse, List.pairwise_append]
      refine ⟨h3.sorted, by simp, ?_⟩
      intro a ha c hc
      rw [List.mem_singleton] at hc
      subst hc
      have := h3.le a ha
      have := h3.rough c hp (dvd_refl c)
      omega
  · rw [if_neg hn2]
    have : n2 = 1 := by have := h3.pos; omega
    subst this
    refine ⟨by rw [List.prod_reverse]; simpa using h3.prod, ?_, ?_⟩
    · intro p hpm
      exact h3.prime p (List.mem_reverse.1 hpm)
    · rw [List.pairwise_reverse]; exact h3.sorted

end Verif.Lat
