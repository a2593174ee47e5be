import Verif.Lattice.Defined
/-! Theorems for C08 - C11. -/
namespace Verif.Lat

/-! ### C08 -/

/-- C08: `n()` is the number of points (product of the sizes), and `to_integer`/`from_integer` are
mutually inverse bijections between the points of the lattice and `[0, n())`. -/
theorem C08_lattice_index_bijection (l : Lattice) (h : l.Wf) :
    l.n = some l.sizes.prod ∧
    (∀ x, InBox l x → ∃ i : Nat, l.toInteger x = some (i : Int) ∧ i < l.sizes.prod ∧
      l.fromInteger i = some x) ∧
    (∀ i, i < l.sizes.prod → ∃ x, l.fromInteger i = some x ∧ InBox l x ∧
      l.toInteger x = some (i : Int)) := by
  have hnd : l.nd ≠ 0 := by have := h.2; unfold Lattice.nd; omega
  obtain ⟨m, hm⟩ : ∃ m, l.sizes.length = m + 1 := ⟨l.sizes.length - 1, by have := h.2; omega⟩
  have hback : ∀ ys, ValidIdx ys l.sizes → l.toInteger (shift ys l.starts) =
      some ((dot ys l.prod : Nat) : Int) := by
    intro ys hv
    have hl := hv.length
    unfold Lattice.toInteger
    rw [if_neg, dotOff_shift _ _ _ (by rw [hl, h.1])]
    rw [shift_length _ _ (by rw [hl, h.1]), h.1]
    unfold Lattice.nd at *
    omega
  refine ⟨n_eq h, ?_, ?_⟩
  · intro x hx
    obtain ⟨ys, hv, rfl⟩ := exists_shift h hx
    refine ⟨dot ys l.prod, hback ys hv, dot_lt _ ys l.sizes rfl hv, ?_⟩
    unfold Lattice.fromInteger
    rw [if_neg hnd]
    unfold Lattice.prod
    rw [decode_dot m ys l.sizes hm hv]
    rfl
  · intro i hi
    obtain ⟨hv, he⟩ := dot_decode m l.sizes i hm hi
    refine ⟨shift (decode l.prod i) l.starts, ?_, inBox_shift h hv, ?_⟩
    · unfold Lattice.fromInteger
      rw [if_neg hnd]; rfl
    · rw [hback (decode l.prod i) hv]
      unfold Lattice.prod
      rw [he]

example : Lattice.Wf ⟨[2, 5], [3, 4]⟩ ∧ InBox ⟨[2, 5], [3, 4]⟩ [4, 7] := by
  refine ⟨⟨rfl, by decide⟩, rfl, ?_⟩
  intro d s n v h1 h2 h3
  match d with
  | 0 => simp at h1 h2 h3; omega
  | 1 => simp at h1 h2 h3; omega
  | d + 2 => simp at h1
example : Lattice.toInteger ⟨[2, 5], [3, 4]⟩ [4, 7] = some 8 := by decide
example : Lattice.fromInteger ⟨[2, 5], [3, 4]⟩ 8 = some [4, 7] := by decide

theorem containsLoop_iff : ∀ (ss ns xs : List Nat), ss.length = ns.length → ns.length = xs.length →
    (Lattice.containsLoop ss ns xs = true ↔
      ∀ (d s n v : Nat), ss[d]? = some s → ns[d]? = some n → xs[d]? = some v → s ≤ v ∧ v < s + n) := by
  intro ss
  induction ss with
  | nil =>
    intro ns xs h1 h2
    cases ns with
    | nil => simp [Lattice.containsLoop]
    | cons => simp at h1
  | cons s ss ih =>
    intro ns xs h1 h2
    cases ns with
    | nil => simp at h1
    | cons n ns =>
      cases xs with
      | nil => simp at h2
      | cons x xs =>
        have := ih ns xs (by simpa using h1) (by simpa using h2)
        unfold Lattice.containsLoop
        split
        next hc =>
          simp only [Bool.or_eq_true, decide_eq_true_eq] at hc
          simp only [Bool.false_eq_true, false_iff]
          intro h
          have := h 0 s n x rfl rfl rfl
          omega
        next hc =>
          simp only [Bool.or_eq_true, decide_eq_true_eq] at hc
          rw [this]
          constructor
          · intro h d a b c e1 e2 e3
            cases d with
            | zero => simp at e1 e2 e3; omega
            | succ d => exact h d a b c (by simpa using e1) (by simpa using e2) (by simpa using e3)
          · intro h d a b c e1 e2 e3
            exact h (d + 1) a b c (by simpa using e1) (by simpa using e2) (by simpa using e3)

/-- C08: `contains` decides membership. -/
theorem C08_contains_iff_inBox (l : Lattice) (h : l.Wf) (x : List Nat) (hx : x.length = l.nd) :
    l.contains x = true ↔ InBox l (x.map Int.ofNat) := by
  unfold Lattice.contains InBox
  rw [containsLoop_iff _ _ _ h.1 hx.symm]
  simp only [List.length_map, List.getElem?_map, Option.map_eq_some_iff]
  constructor
  · intro h'
    refine ⟨hx, ?_⟩
    rintro d s n v e1 e2 ⟨w, e3, rfl⟩
    have := h' d s n w e1 e2 e3
    simp only [Int.ofNat_eq_natCast]; omega
  · rintro ⟨_, h'⟩ d s n v e1 e2 e3
    have := h' d s n _ e1 e2 ⟨v, e3, rfl⟩
    simp only [Int.ofNat_eq_natCast] at this; omega

example : Lattice.contains ⟨[2, 5], [3, 4]⟩ [4, 8] = true ∧
    Lattice.contains ⟨[2, 5], [3, 4]⟩ [5, 8] = false := by decide

/-! ### C09 -/

/-- C09: whenever `partition` yields cores, there are exactly `np` and they tile the lattice. -/
theorem C09_partition_tiles (l : Lattice) (hp : l.Pos) (np : Nat) (given : List Nat)
    (cores : List Lattice) (e : partitionCores l np given = some cores) (hne : cores ≠ []) :
    Tiles l cores ∧ cores.length = np :=
  partitionCores_tiles hp e hne

/-- C09: the call has no undefined behaviour if no cut counts are given (`{}` or `{0}`) or one per
cuttable dimension. -/
theorem C09_partition_defined (l : Lattice) (hw : l.Wf) (np : Nat) (given : List Nat)
    (hn : 0 < l.ndCuttable) (hg : given = [] ∨ given = [0] ∨ given.length = l.ndCuttable) :
    ∃ cores, partitionCores l np given = some cores := by
  apply partitionCores_def hw hn
  rcases hg with rfl | rfl | h
  · exact Or.inl rfl
  · exact Or.inl rfl
  · exact Or.inr h

/-- C09: with no cut counts given and at least `np` points along each cuttable dimension the
partition succeeds. -/
theorem C09_partition_succeeds (l : Lattice) (hw : l.Wf) (np : Nat) (hnp : 0 < np)
    (hn : 0 < l.ndCuttable)
    (hroom : ∀ (d z : Nat), d < l.ndCuttable → l.sizes[d]? = some z → np ≤ z) :
    ∃ cores, partitionCores l np [] = some cores ∧ cores.length = np :=
  partitionCores_success hw hn hnp rfl hroom

/-- C09 finding: fewer counts than dimensions reads `given` out of bounds. -/
theorem C09_short_given_is_undefined : partitionCores ⟨[0, 0, 0], [9, 9, 9]⟩ 8 [0, 2] = none := by
  decide

example : partitionCores ⟨[0, 1], [5, 6]⟩ 6 [] = some
    [⟨[0, 1], [1, 3]⟩, ⟨[0, 4], [1, 3]⟩, ⟨[1, 1], [1, 3]⟩, ⟨[1, 4], [1, 3]⟩,
     ⟨[2, 1], [3, 3]⟩, ⟨[2, 4], [3, 3]⟩] := by decide
example : partitionCores ⟨[0, 1], [5, 6]⟩ 6 [2, 0] ≠ some [] := by decide
example : partitionCores ⟨[0, 1], [5, 6]⟩ 7 [] = some [] := by decide
example : 0 < Lattice.ndCuttable ⟨[0, 1], [5, 6]⟩ := by decide

/-! ### C10 -/

/-- per-dimension bound of the extent -/
def NearCore (l b : Lattice) (gl gh : List Nat) (x : List Int) : Prop :=
  ∀ (d s z a c : Nat) (v : Int), b.starts[d]? = some s → b.sizes[d]? = some z → x[d]? = some v →
    (d < l.ndCuttable → gl[d]? = some a → gh[d]? = some c → (s : Int) - a ≤ v ∧ v < s + z + c) ∧
    (l.ndCuttable ≤ d → (s : Int) ≤ v ∧ v < s + z)

/-- C10: with ghost widths for every cuttable dimension, the extent of a core inside the lattice is
exactly the set of lattice points within the ghost width of the core in each cuttable dimension (and
in the core's own range in an uncuttable one). -/
theorem C10_extent_exact (l b : Lattice) (gl gh : List Nat) (hw : l.Wf)
    (hb : b.starts.length = l.nd ∧ b.sizes.length = l.nd)
    (hin : ∀ (d ls lz s z : Nat), l.starts[d]? = some ls → l.sizes[d]? = some lz →
      b.starts[d]? = some s → b.sizes[d]? = some z → ls ≤ s ∧ s + z ≤ ls + lz)
    (hgl : l.ndCuttable ≤ gl.length) (hgh : l.ndCuttable ≤ gh.length) (hgl0 : gl ≠ []) (hgh0 : gh ≠ []) :
    ∃ e, addGhost l b gl gh = some e ∧
      ∀ x, InBox e x ↔ (InBox l x ∧ NearCore l b gl gh x) := by
  unfold addGhost
  have h0 : (gl.isEmpty || gh.isEmpty) = false := by
    cases gl <;> cases gh <;> simp_all
  rw [h0]
  have hle := ndCuttable_le l
  have hls : l.starts.length = l.nd := hw.1
  have hlz : l.sizes.length = l.nd := rfl
  obtain ⟨e, e1, e2, e3⟩ := ghostLoop_spec (l := l) (gl := gl) (gh := gh) l.ndCuttable 0 b hb hls
    (by omega) (by omega) (by omega)
  refine ⟨e, by simpa using e1, ?_⟩
  have get : ∀ (xs : List Nat) (d : Nat), d < xs.length → ∃ v, xs[d]? = some v :=
    fun xs d h => ⟨xs[d], List.getElem?_eq_getElem h⟩
  intro x
  constructor
  · rintro ⟨hx1, hx2⟩
    have hxl : x.length = l.nd := by rw [hx1]; exact e2.2
    refine ⟨⟨by rw [hxl]; rfl, ?_⟩, ?_⟩
    · intro d ls lz v f1 f2 f3
      have hd := (List.getElem?_eq_some_iff.1 f1).1
      obtain ⟨s, g1⟩ := get b.starts d (by omega)
      obtain ⟨z, g2⟩ := get b.sizes d (by omega)
      have hi := hin d ls lz s z f1 f2 g1 g2
      by_cases hc : d < l.ndCuttable
      · obtain ⟨a, g3⟩ := get gl d (by omega)
        obtain ⟨c, g4⟩ := get gh d (by omega)
        have := (e3 d ls lz s z a c f1 f2 g1 g2).1 (by omega) g3 g4
        have := hx2 d _ _ v this.1 this.2 f3
        unfold ghost1 at this
        simp only at this
        split at this <;> split at this <;> omega
      · have := (e3 d ls lz s z 0 0 f1 f2 g1 g2).2 (by omega)
        have := hx2 d _ _ v this.1 this.2 f3
        omega
    · intro d s z a c v g1 g2 f3
      have hd := (List.getElem?_eq_some_iff.1 g1).1
      obtain ⟨ls, f1⟩ := get l.starts d (by omega)
      obtain ⟨lz, f2⟩ := get l.sizes d (by omega)
      have hi := hin d ls lz s z f1 f2 g1 g2
      refine ⟨fun hc g3 g4 => ?_, fun hc => ?_⟩
      · have := (e3 d ls lz s z a c f1 f2 g1 g2).1 (by omega) g3 g4
        have := hx2 d _ _ v this.1 this.2 f3
        unfold ghost1 at this
        simp only at this
        split at this <;> split at this <;> omega
      · have := (e3 d ls lz s z 0 0 f1 f2 g1 g2).2 (by omega)
        exact hx2 d _ _ v this.1 this.2 f3
  · rintro ⟨⟨hx1, hx2⟩, hx3⟩
    refine ⟨by rw [hx1, e2.2]; rfl, ?_⟩
    intro d es ez v f1 f2 f3
    have hd := (List.getElem?_eq_some_iff.1 f1).1
    have he1 := e2.1
    obtain ⟨s, g1⟩ := get b.starts d (by omega)
    obtain ⟨z, g2⟩ := get b.sizes d (by omega)
    obtain ⟨ls, k1⟩ := get l.starts d (by omega)
    obtain ⟨lz, k2⟩ := get l.sizes d (by omega)
    have hi := hin d ls lz s z k1 k2 g1 g2
    have hbx := hx2 d ls lz v k1 k2 f3
    by_cases hc : d < l.ndCuttable
    · obtain ⟨a, g3⟩ := get gl d (by omega)
      obtain ⟨c, g4⟩ := get gh d (by omega)
      have hnear := (hx3 d s z a c v g1 g2 f3).1 hc g3 g4
      have := (e3 d ls lz s z a c k1 k2 g1 g2).1 (by omega) g3 g4
      rw [f1, f2] at this
      simp only [Option.some.injEq] at this
      obtain ⟨rfl, rfl⟩ := this
      unfold ghost1
      simp only
      split <;> split <;> omega
    · have hnear := (hx3 d s z 0 0 v g1 g2 f3).2 (by omega)
      have := (e3 d ls lz s z 0 0 k1 k2 g1 g2).2 (by omega)
      rw [f1, f2] at this
      simp only [Option.some.injEq] at this
      obtain ⟨rfl, rfl⟩ := this
      exact hnear

/-- C10: the extent contains its core. -/
theorem C10_extent_contains_core (l b e : Lattice) (gl gh : List Nat) (hw : l.Wf)
    (hb : b.starts.length = l.nd ∧ b.sizes.length = l.nd)
    (hin : ∀ (d ls lz s z : Nat), l.starts[d]? = some ls → l.sizes[d]? = some lz →
      b.starts[d]? = some s → b.sizes[d]? = some z → ls ≤ s ∧ s + z ≤ ls + lz)
    (hgl : l.ndCuttable ≤ gl.length) (hgh : l.ndCuttable ≤ gh.length)
    (he : addGhost l b gl gh = some e) (x : List Int) (hx : InBox b x) : InBox e x := by
  by_cases h0 : gl = [] ∨ gh = []
  · unfold addGhost at he
    have : (gl.isEmpty || gh.isEmpty) = true := by rcases h0 with rfl | rfl <;> simp
    rw [if_pos this] at he
    cases he; exact hx
  · obtain ⟨e', e1, e2⟩ := C10_extent_exact l b gl gh hw hb hin hgl hgh (by tauto) (by tauto)
    rw [he] at e1; cases e1
    rw [e2]
    have hls : l.starts.length = l.nd := hw.1
    have hlz : l.sizes.length = l.nd := rfl
    refine ⟨⟨by rw [hx.1, hb.2]; rfl, ?_⟩, ?_⟩
    · intro d ls lz v f1 f2 f3
      have hd := (List.getElem?_eq_some_iff.1 f1).1
      have g1 : b.starts[d]? = some (b.starts[d]'(by omega)) := List.getElem?_eq_getElem _
      have g2 : b.sizes[d]? = some (b.sizes[d]'(by omega)) := List.getElem?_eq_getElem _
      have h1 := hin d ls lz _ _ f1 f2 g1 g2
      have h2 := hx.2 d _ _ v g1 g2 f3
      omega
    · intro d s z a c v g1 g2 f3
      have h2 := hx.2 d s z v g1 g2 f3
      exact ⟨fun _ _ _ => by omega, fun _ => h2⟩

/-- C10: without ghost widths the extent is the core. -/
theorem C10_no_ghost (l b : Lattice) (gl gh : List Nat) (h : gl = [] ∨ gh = []) :
    addGhost l b gl gh = some b := by
  unfold addGhost
  rcases h with rfl | rfl <;> simp

example : addGhost ⟨[0, 1], [10, 6]⟩ ⟨[2, 1], [3, 3]⟩ [1, 1] [2, 2] = some ⟨[1, 1], [6, 5]⟩ := by decide
-- the hypotheses of C10_extent_exact are met by this lattice and core
example : ∀ (d ls lz s z : Nat), (⟨[0, 1], [10, 6]⟩ : Lattice).starts[d]? = some ls →
    (⟨[0, 1], [10, 6]⟩ : Lattice).sizes[d]? = some lz → (⟨[2, 1], [3, 3]⟩ : Lattice).starts[d]? = some s →
    (⟨[2, 1], [3, 3]⟩ : Lattice).sizes[d]? = some z → ls ≤ s ∧ s + z ≤ ls + lz := by
  intro d ls lz s z h1 h2 h3 h4
  match d with
  | 0 => simp at h1 h2 h3 h4; omega
  | 1 => simp at h1 h2 h3 h4; omega
  | d + 2 => simp at h1

/-! ### C11 -/

/-- C11: primes in non-increasing order whose product is `n`. -/
theorem C11_prime_factorization (n : Nat) (h : 1 ≤ n) :
    ∃ fs, primeFactorization n = some fs ∧ fs.prod = n ∧ (∀ p ∈ fs, p.Prime) ∧
      fs.Pairwise (· ≥ ·) :=
  primeFactorization_spec h

theorem divOut_zero (fuel : Nat) (acc : List Nat) : divOut 2 fuel 0 acc = none := by
  induction fuel generalizing acc with
  | zero => unfold divOut; simp
  | succ f ih => unfold divOut; simp [ih]

/-- C11 finding: `prime_factorization(0)` never returns (the loop dividing by 2 does not make
progress, whatever number of iterations is allowed). -/
theorem C11_zero_does_not_terminate : ∀ fuel, divOut 2 fuel 0 [] = none := fun fuel => divOut_zero fuel []

example : primeFactorization 360 = some [5, 3, 3, 2, 2, 2] := by decide
example : primeFactorization 1 = some [] := by decide

end Verif.Lat
