import Verif.Thresh.Model
import Verif.HK.Props
import Verif.TrackGraph.Props
import Mathlib.Algebra.Order.Ring.Rat

/-!
# C137: tracking of superthreshold regions
-/

namespace Verif.Thresh

open Verif.TG Relation

variable {K : Type} [LinearOrder K]

/-- The value `x` satisfies the comparison. -/
def Passes : Mode → K → K → Prop
  | .ge, thr, x => thr ≤ x
  | .gt, thr, x => thr < x
  | .le, thr, x => x ≤ thr
  | .lt, thr, x => x < thr
  | .other, _, _ => False

/-- Cell `c` of the `m x n` frame satisfies the comparison. -/
def Bright (m n : Nat) (f : Frame K) (c : Nat × Nat) : Prop :=
  c.1 < m ∧ c.2 < n ∧ ∃ v, f.data[c.1 + m * c.2]? = some v ∧ Passes f.mode f.thr v

/-- Two cells are 4-neighbours. -/
def Neighbours (c d : Nat × Nat) : Prop :=
  (c.2 = d.2 ∧ (c.1 + 1 = d.1 ∨ d.1 + 1 = c.1)) ∨ (c.1 = d.1 ∧ (c.2 + 1 = d.2 ∨ d.2 + 1 = c.2))

/-- Two cells are in the same region of the frame: joined by a chain of neighbouring bright cells. -/
def SameRegion (m n : Nat) (f : Frame K) : Nat × Nat → Nat × Nat → Prop :=
  EqvGen (fun c d => Bright m n f c ∧ Bright m n f d ∧ Neighbours c d)

/-- The bright cells with no bright left or upper neighbour. -/
def Corner (m n : Nat) (f : Frame K) (c : Nat × Nat) : Prop :=
  Bright m n f c ∧ (∀ d : Nat × Nat, d.1 + 1 = c.1 → d.2 = c.2 → ¬ Bright m n f d) ∧
    (∀ d : Nat × Nat, d.1 = c.1 → d.2 + 1 = c.2 → ¬ Bright m n f d)

theorem mask_ne_zero (m : Mode) (thr x : K) : mask m thr x ≠ 0 ↔ Passes m thr x := by
  cases m <;> simp [mask, Passes]

theorem fg_iff (m n : Nat) (f : Frame K) (c : Nat × Nat) : HK.Fg m n (f.data.map (mask f.mode f.thr)) c ↔ Bright m n f c := by
  unfold HK.Fg Bright
  refine and_congr Iff.rfl (and_congr Iff.rfl ?_)
  simp only [List.getElem?_map, Option.map_eq_some_iff]
  constructor
  · rintro ⟨v, ⟨x, h, rfl⟩, h2⟩; exact ⟨x, h, (mask_ne_zero _ _ _).1 h2⟩
  · rintro ⟨x, h, h2⟩; exact ⟨_, ⟨x, h, rfl⟩, (mask_ne_zero _ _ _).2 h2⟩

theorem conn_iff (m n : Nat) (f : Frame K) (c d : Nat × Nat) :
    HK.Conn m n (f.data.map (mask f.mode f.thr)) c d ↔ SameRegion m n f c d := by
  unfold HK.Conn SameRegion
  simp only [fg_iff]
  rfl

/-- The number of bright cells with no bright left or upper neighbour. -/
def cornersOf (m n : Nat) (f : Frame K) : Nat := HK.cornerCount m n (f.data.map (mask f.mode f.thr))

/-- The cells of the image, each once. -/
theorem cells_nodup (m n : Nat) : ((List.range n).flatMap (fun (j : Nat) => (List.range m).map (fun (i : Nat) => (i, j)))).Nodup := by
  rw [List.nodup_flatMap]
  refine ⟨fun j _ => List.Nodup.map (fun a b h => by simpa using h) List.nodup_range, ?_⟩
  refine List.Pairwise.imp_of_mem ?_ (List.nodup_range (n := n))
  intro a b _ _ hab c h1 h2
  rw [List.mem_map] at h1 h2
  obtain ⟨i, -, rfl⟩ := h1
  obtain ⟨j, -, h⟩ := h2
  simp only [Prod.mk.injEq] at h
  exact hab h.2.symm

/-- `cornersOf` counts the corners. -/
theorem cornersOf_spec (m n : Nat) (f : Frame K) : ∃ l : List (Nat × Nat), l.Nodup ∧ (∀ c, c ∈ l ↔ Corner m n f c) ∧
    l.length = cornersOf m n f := by
  refine ⟨((List.range n).flatMap (fun (j : Nat) => (List.range m).map (fun (i : Nat) => (i, j)))).filter (fun c =>
    (f.data.map (mask f.mode f.thr)).getD (c.1 + m * c.2) 0 ≠ 0 && (c.1 == 0 || (f.data.map (mask f.mode f.thr)).getD (c.1 - 1 + m * c.2) 0 == 0) &&
      (c.2 == 0 || (f.data.map (mask f.mode f.thr)).getD (c.1 + m * (c.2 - 1)) 0 == 0)), (cells_nodup m n).filter _, ?_, ?_⟩
  · have hg : ∀ i j, i < m → j < n → ((f.data.map (mask f.mode f.thr)).getD (i + m * j) 0 ≠ 0 ↔ Bright m n f (i, j)) := by
      intro i j hi hj
      rw [← fg_iff, List.getD_eq_getElem?_getD]
      unfold HK.Fg
      simp only [hi, hj, true_and]
      cases (f.data.map (mask f.mode f.thr))[i + m * j]? <;> simp
    rintro ⟨i, j⟩
    simp only [List.mem_filter, List.mem_flatMap, List.mem_range, List.mem_map, Prod.mk.injEq, exists_eq_right_right,
      Bool.and_eq_true, Bool.or_eq_true, beq_iff_eq, decide_eq_true_eq]
    constructor
    · rintro ⟨⟨j', hj, i', hi, rfl, rfl⟩, ⟨h1, h2⟩, h3⟩
      refine ⟨(hg i' j' hi hj).1 h1, ?_, ?_⟩
      · rintro ⟨a, b⟩ ha hb h
        dsimp only at ha hb
        subst hb; subst ha
        have := (hg a b (by omega) hj).2 h
        rcases h2 with h2 | h2
        · omega
        · exact this (by simpa using h2)
      · rintro ⟨a, b⟩ ha hb h
        dsimp only at ha hb
        subst hb; subst ha
        have := (hg a b hi (by omega)).2 h
        rcases h3 with h3 | h3
        · omega
        · exact this (by simpa using h3)
    · rintro ⟨h1, h2, h3⟩
      have hi : i < m := h1.1
      have hj : j < n := h1.2.1
      refine ⟨⟨j, hj, i, hi, rfl, rfl⟩, ⟨(hg i j hi hj).2 h1, ?_⟩, ?_⟩
      · rcases Nat.eq_zero_or_pos i with h | h
        · exact Or.inl h
        · right
          by_contra hne
          exact h2 (i - 1, j) (by simp; omega) rfl ((hg (i - 1) j (by omega) hj).1 hne)
      · rcases Nat.eq_zero_or_pos j with h | h
        · exact Or.inl h
        · right
          by_contra hne
          exact h3 (i, j - 1) rfl (by simp; omega) ((hg i (j - 1) hi (by omega)).1 hne)
  · unfold cornersOf HK.cornerCount
    rw [List.countP_eq_length_filter]

/-- What the label image of a frame must be. -/
structure Labels (m n : Nat) (f : Frame K) (lab : List Nat) : Prop where
  size : lab.length = m * n
  dark : ∀ c : Nat × Nat, c.1 < m → c.2 < n → ¬ Bright m n f c → lab[c.1 + m * c.2]? = some 0
  bright : ∀ c, Bright m n f c → ∃ l, lab[c.1 + m * c.2]? = some l ∧ l ≠ 0
  region : ∀ c d, Bright m n f c → Bright m n f d → (lab[c.1 + m * c.2]? = lab[d.1 + m * d.2]? ↔ SameRegion m n f c d)

theorem labels_of_hk {m n : Nat} {f : Frame K} (hl : f.data.length = m * n) (hc : cornersOf m n f < m * n / 2) :
    ∃ lab count, HK.hk m n (f.data.map (mask f.mode f.thr)) = some (lab, count) ∧ Labels m n f lab := by
  obtain ⟨M, count, e, h1, h2, h3, -, h5⟩ := HK.C19_labelling_partial m n (f.data.map (mask f.mode f.thr)) (by simpa using hl) hc
  refine ⟨M, count, e, h1, ?_, ?_, ?_⟩
  · rintro ⟨i, j⟩ hi hj hb
    refine h2 i j hi hj ?_
    have hlt : i + m * j < f.data.length := by rw [hl]; exact HK.idx_lt hi hj
    rw [List.getElem?_map, List.getElem?_eq_getElem hlt, Option.map_some]
    congr 1
    by_contra hne
    exact hb ⟨hi, hj, _, List.getElem?_eq_getElem hlt, (mask_ne_zero _ _ _).1 hne⟩
  · intro c hb
    obtain ⟨l, hl, h, -⟩ := h3 c ((fg_iff m n f c).2 hb)
    exact ⟨l, hl, by omega⟩
  · intro c d h h'
    rw [h5 c d ((fg_iff m n f c).2 h) ((fg_iff m n f d).2 h'), conn_iff]

theorem run_drive {m n : Nat} : ∀ (fs : List (Frame K)) (labs : List (List Nat)) (s : State K) (c : CCTracker),
    List.Forall₂ (fun (f : Frame K) l => ∃ count, HK.hk m n (f.data.map (mask f.mode f.thr)) = some (l, count)) fs labs →
    CCTracker.drive labs s.cc = some c →
    ∃ s', run [m, n] fs s = some s' ∧ s'.cc = c ∧ (fs ≠ [] → s'.shape = [m, n]) := by
  intro fs
  induction fs with
  | nil =>
    intro labs s c h hd
    cases h
    simp only [CCTracker.drive, Option.some.injEq] at hd
    exact ⟨s, rfl, hd, by simp⟩
  | cons f fs ih =>
    intro labs s c h hd
    cases h with
    | @cons _ l _ labs h1 h2 =>
      obtain ⟨count, h1⟩ := h1
      simp only [CCTracker.drive] at hd
      cases ha : (s.cc.push l).advance with
      | none => rw [ha] at hd; cases hd
      | some p =>
        rw [ha] at hd
        obtain ⟨c', b⟩ := p
        obtain ⟨s', e1, e2, e3⟩ := ih labs { thr := f.thr, mode := f.mode, shape := [m, n], cc := c' } c h2 hd
        refine ⟨s', ?_, e2, fun _ => ?_⟩
        · simp only [run, State.setThreshold, State.pushScalar, h1, State.advance, ha]
          exact e1
        · cases fs with
          | nil => simp only [run, Option.some.injEq] at e1; rw [← e1]
          | cons g fs => exact e3 (by simp)

/-- C137: after tracking any sequence of frames of one shape (with fewer than `m n / 2` corners each), the tracker holds, for
each frame, a label image whose non-zero labels are the regions of the frame; the tracking graph has an edge between the label
of a region and the label of a region of the next frame if and only if the two regions share a cell, and no other edges or
nodes; and the labels returned for the last frame are its label image. -/
theorem C137_tracks (m n : Nat) (fs : List (Frame K)) (hl : ∀ f ∈ fs, f.data.length = m * n) (hc : ∀ f ∈ fs, cornersOf m n f < m * n / 2)
    (zero : K) : ∃ s ops, ∃ labs : List (List Nat), run [m, n] fs (State.init zero) = some s ∧ List.Forall₂ (Labels m n) fs labs ∧
      s.cc.cur = fs.length ∧ s.cc.tg = Graph.build ops ∧
      (∀ l, labs.getLast? = some l → s.lastLabels = some ([m, n], l)) ∧
      (∀ (t : Nat) (f g : Frame K) (la lb : List Nat) (c d : Nat × Nat) (p q : Nat), fs[t]? = some f → fs[t + 1]? = some g → labs[t]? = some la →
        labs[t + 1]? = some lb → Bright m n f c → Bright m n g d → la[c.1 + m * c.2]? = some p → lb[d.1 + m * d.2]? = some q →
        (Edge ops (node t p) (node (t + 1) q) ↔ ∃ z, Bright m n f z ∧ Bright m n g z ∧ SameRegion m n f c z ∧ SameRegion m n g z d)) ∧
      (∀ t p t' q, Edge ops (node t p) (node t' q) → t' = t + 1 ∧ ∃ (f g : Frame K) (la lb : List Nat) (z : Nat × Nat), fs[t]? = some f ∧ fs[t + 1]? = some g ∧
        labs[t]? = some la ∧ labs[t + 1]? = some lb ∧ Bright m n f z ∧ Bright m n g z ∧ la[z.1 + m * z.2]? = some p ∧ lb[z.1 + m * z.2]? = some q) ∧
      (∀ x, Present ops x ↔ ∃ y, Edge ops x y ∨ Edge ops y x) := by
  have hex : ∃ labs : List (List Nat), List.Forall₂ (fun (f : Frame K) l => (∃ count, HK.hk m n (f.data.map (mask f.mode f.thr)) = some (l, count)) ∧ Labels m n f l) fs labs := by
    clear zero
    induction fs with
    | nil => exact ⟨[], .nil⟩
    | cons f fs ih =>
      obtain ⟨labs, h⟩ := ih (fun g hg => hl g (List.mem_cons_of_mem _ hg)) (fun g hg => hc g (List.mem_cons_of_mem _ hg))
      obtain ⟨lab, count, h1, h2⟩ := labels_of_hk (hl f List.mem_cons_self) (hc f List.mem_cons_self)
      exact ⟨lab :: labs, .cons ⟨⟨count, h1⟩, h2⟩ h⟩
  obtain ⟨labs, hlabs⟩ := hex
  have hL : List.Forall₂ (Labels m n) fs labs := hlabs.imp (fun _ _ h => h.2)
  have hH := hlabs.imp (fun _ _ h => h.1)
  have hlen : fs.length = labs.length := hL.length_eq
  have hget : ∀ (t : Nat) (f : Frame K) (l : List Nat), fs[t]? = some f → labs[t]? = some l → Labels m n f l := by
    intro t f l h1 h2
    rw [List.forall₂_iff_get] at hL
    obtain ⟨h3, rfl⟩ := List.getElem?_eq_some_iff.1 h1
    obtain ⟨h4, rfl⟩ := List.getElem?_eq_some_iff.1 h2
    exact hL.2 t h3 h4
  have hsz : ∀ l ∈ labs, l.length = m * n := by
    intro l hl'
    obtain ⟨t, ht, rfl⟩ := List.getElem_of_mem hl'
    exact (hget t fs[t] labs[t] (List.getElem?_eq_getElem (by omega)) (List.getElem?_eq_getElem ht)).size
  obtain ⟨ops', hdr, -⟩ := drive_spec (m * n) labs [] [] (by simpa using hsz) (by intro o; simp)
  obtain ⟨c, ops, hd, hb, hcur, hE, hP, -⟩ := C60_tracker_records_overlaps (m * n) labs hsz
  have hsnap : c.snaps = labs.getLast?.toList := by
    have h2 : CCTracker.drive labs CCTracker.init = _ := hdr
    rw [hd] at h2
    rw [Option.some.inj h2]
    simp
  obtain ⟨s, h1, h2, h3⟩ := run_drive fs labs (State.init zero) c hH hd
  refine ⟨s, ops, labs, h1, hL, by rw [h2, hcur, hlen], by rw [h2, hb], ?_, ?_, ?_, hP⟩
  · intro l hl'
    have hne : fs ≠ [] := by
      rintro rfl
      cases hL
      simp at hl'
    unfold State.lastLabels
    rw [h2, hsnap, hl', h3 hne]
    simp only [Option.toList_some, List.getLast?_singleton, Option.some.injEq, Prod.mk.injEq, true_and]
    have hln : l.length = m * n := hsz l (List.mem_of_getLast? hl')
    refine List.ext_getElem (by simp [hln]) ?_
    intro i h5 h6
    simp [List.getD_eq_getElem?_getD, List.getElem?_eq_getElem h6]
  · intro t f g la lb x d p q hf hg hla hlb hx hd' hp hq
    have A := hget t f la hf hla
    have B := hget (t + 1) g lb hg hlb
    rw [hE]
    constructor
    · rintro ⟨-, hp0, hq0, i, f0, f1, e0, e1, h6, h7⟩
      rw [hla] at e0
      rw [hlb] at e1
      obtain rfl := Option.some.inj e0
      obtain rfl := Option.some.inj e1
      have hi : i < m * n := by
        rw [← A.size]; exact (List.getElem?_eq_some_iff.1 h6).1
      have hm : 0 < m := by
        rcases Nat.eq_zero_or_pos m with h | h
        · subst h; simp at hi
        · exact h
      have hz1 : i % m < m := Nat.mod_lt _ hm
      have hz2 : i / m < n := Nat.div_lt_of_lt_mul hi
      have hi' : i % m + m * (i / m) = i := Nat.mod_add_div i m
      have b1 : Bright m n f (i % m, i / m) := by
        by_contra hb
        have := A.dark (i % m, i / m) hz1 hz2 hb
        simp only [hi'] at this
        rw [this] at h6
        exact hp0 (Option.some.inj h6).symm
      have b2 : Bright m n g (i % m, i / m) := by
        by_contra hb
        have := B.dark (i % m, i / m) hz1 hz2 hb
        simp only [hi'] at this
        rw [this] at h7
        exact hq0 (Option.some.inj h7).symm
      refine ⟨(i % m, i / m), b1, b2, ?_, ?_⟩
      · rw [← A.region x _ hx b1, hp, ← h6, hi']
      · rw [← B.region _ d b2 hd', hq, ← h7, hi']
    · rintro ⟨z, hz1, hz2, h6, h7⟩
      refine ⟨rfl, ?_, ?_, z.1 + m * z.2, la, lb, hla, hlb, ?_, ?_⟩
      · obtain ⟨l, e, h⟩ := A.bright x hx
        rw [hp] at e
        rwa [Option.some.inj e]
      · obtain ⟨l, e, h⟩ := B.bright d hd'
        rw [hq] at e
        rwa [Option.some.inj e]
      · rw [← (A.region x z hx hz1).2 h6, hp]
      · rw [(B.region z d hz2 hd').2 h7, hq]
  · intro t p t' q h
    rw [hE] at h
    obtain ⟨rfl, hp0, hq0, i, la, lb, e0, e1, h6, h7⟩ := h
    have ht : t + 1 < labs.length := (List.getElem?_eq_some_iff.1 e1).1
    have hf : fs[t]? = some fs[t] := List.getElem?_eq_getElem (by omega)
    have hg : fs[t + 1]? = some fs[t + 1] := List.getElem?_eq_getElem (by omega)
    have A := hget t _ la hf e0
    have B := hget (t + 1) _ lb hg e1
    have hi : i < m * n := by
      rw [← A.size]; exact (List.getElem?_eq_some_iff.1 h6).1
    have hm : 0 < m := by
      rcases Nat.eq_zero_or_pos m with h | h
      · subst h; simp at hi
      · exact h
    have hz1 : i % m < m := Nat.mod_lt _ hm
    have hz2 : i / m < n := Nat.div_lt_of_lt_mul hi
    have hi' : i % m + m * (i / m) = i := Nat.mod_add_div i m
    have b1 : Bright m n fs[t] (i % m, i / m) := by
      by_contra hb
      have := A.dark (i % m, i / m) hz1 hz2 hb
      simp only [hi'] at this
      rw [this] at h6
      exact hp0 (Option.some.inj h6).symm
    have b2 : Bright m n fs[t + 1] (i % m, i / m) := by
      by_contra hb
      have := B.dark (i % m, i / m) hz1 hz2 hb
      simp only [hi'] at this
      rw [this] at h7
      exact hq0 (Option.some.inj h7).symm
    exact ⟨rfl, _, _, la, lb, (i % m, i / m), hf, hg, e0, e1, b1, b2, by rw [← h6, hi'], by rw [← h7, hi']⟩

/-- C137: exactly when the run avoids accesses out of bounds: every frame must have fewer than `m n / 2` corners. -/
theorem C137_defined_iff (m n : Nat) (fs : List (Frame K)) (hl : ∀ f ∈ fs, f.data.length = m * n) (zero : K) :
    (run [m, n] fs (State.init zero)).isSome = true ↔ ∀ f ∈ fs, cornersOf m n f < m * n / 2 := by
  constructor
  · have key : ∀ (fs : List (Frame K)) (s : State K), (∀ f ∈ fs, f.data.length = m * n) → (run [m, n] fs s).isSome = true →
        ∀ f ∈ fs, cornersOf m n f < m * n / 2 := by
      intro fs
      induction fs with
      | nil => intro s _ _ f hf; cases hf
      | cons g fs ih =>
        intro s hl h f hf
        have hg := HK.C19_defined_iff m n (g.data.map (mask g.mode g.thr)) (by simpa using hl g List.mem_cons_self)
        simp only [run, State.setThreshold, State.pushScalar] at h
        cases e : HK.hk m n (g.data.map (mask g.mode g.thr)) with
        | none => rw [e] at h; cases h
        | some p =>
          rw [e] at h
          rw [e] at hg
          dsimp only [State.advance] at h
          cases e2 : (s.cc.push p.1).advance with
          | none => rw [e2] at h; cases h
          | some q =>
            rw [e2] at h
            rcases List.mem_cons.1 hf with rfl | hf
            · exact hg.1 rfl
            · exact ih _ (fun f hf => hl f (List.mem_cons_of_mem _ hf)) h f hf
    exact key fs _ hl
  · intro hc
    obtain ⟨s, _, _, h, _⟩ := C137_tracks m n fs hl hc zero
    rw [h]; rfl

/-- C137 (finding): arrays of any other number of dimensions abort the program. -/
theorem C137_other_dimensions (s : State K) (shape : List Nat) (f : List K) (h : shape.length ≠ 2) : s.pushScalar shape f = none := by
  unfold State.pushScalar
  split
  · simp at h
  · rfl

/-- Two frames of a 4 x 2 field: two regions that merge. -/
def demo : List (Frame ℚ) := [⟨1 / 2, .ge, [1, 0, 1 / 2, 1, 1, 0, 0, 1]⟩, ⟨1 / 2, .gt, [1, 1, 1, 0, 0, 1 / 2, 1, 0]⟩]

example : (∀ f ∈ demo, f.data.length = 4 * 2) ∧ ∀ f ∈ demo, cornersOf 4 2 f < 4 * 2 / 2 := by decide +kernel
example : (run [4, 2] demo (State.init 0)).bind State.lastLabels = some ([4, 2], [1, 1, 1, 0, 0, 0, 1, 0]) := by decide +kernel
example : (run [4, 2] demo (State.init 0)).map (fun s => (s.cc.tg.times, s.cc.cur)) = some ([0, 1], 2) := by decide +kernel
example : (run [2, 2] [⟨1 / 2, .ge, [1, 0, 0, 1]⟩] (State.init (0 : ℚ))).isSome = false := by decide +kernel

end Verif.Thresh
