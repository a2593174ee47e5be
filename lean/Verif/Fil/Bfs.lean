import Verif.Fil.Surfaces
import Mathlib.Algebra.Order.Ring.Int
/-! C163: velocities from the surfaces. -/
namespace Verif.Fil
open Verif.Surf (Tri FPt triVs)

/-- A path with `k` edges from `i` to `j` through allowed points (the first need not be allowed). -/
inductive Path (nb : Nat → List Nat) (ok : Nat → Bool) (i : Nat) : Nat → Nat → Prop
  | start : Path nb ok i 0 i
  | step {k j x : Nat} : Path nb ok i k j → x ∈ nb j → ok x = true → Path nb ok i (k + 1) x

variable {nb : Nat → List Nat} {ok goal : Nat → Bool}

theorem enqueue_spec : ∀ (js q vis : List Nat), ∃ new, enqueue ok js q vis = (q ++ new, vis ++ new) ∧
    (∀ j, j ∈ new → j ∈ js ∧ ok j = true ∧ j ∉ vis) ∧ new.Nodup ∧ ∀ j ∈ js, ok j = true → j ∈ vis ∨ j ∈ new
  | [], q, vis => ⟨[], by simp [enqueue], by simp, by simp, by simp⟩
  | j :: js, q, vis => by
    unfold enqueue
    by_cases h : j ∉ vis ∧ ok j = true
    · rw [if_pos h]
      obtain ⟨new, h1, h2, h3, h4⟩ := enqueue_spec js (q ++ [j]) (vis ++ [j])
      refine ⟨j :: new, by rw [h1]; simp, ?_, ?_, ?_⟩
      · intro x hx
        rcases List.mem_cons.1 hx with rfl | hx
        · exact ⟨by simp, h.2, h.1⟩
        · have := h2 x hx
          refine ⟨by simp [this.1], this.2.1, fun hv => this.2.2 (by simp [hv])⟩
      · rw [List.nodup_cons]
        exact ⟨fun hj => (h2 j hj).2.2 (by simp), h3⟩
      · intro x hx hok
        rcases List.mem_cons.1 hx with rfl | hx
        · exact Or.inr (by simp)
        · rcases h4 x hx hok with hv | hv
          · rw [List.mem_append, List.mem_singleton] at hv
            rcases hv with hv | rfl
            · exact Or.inl hv
            · exact Or.inr (by simp)
          · exact Or.inr (by simp [hv])
    · rw [if_neg h]
      obtain ⟨new, h1, h2, h3, h4⟩ := enqueue_spec js q vis
      refine ⟨new, h1, fun x hx => ?_, h3, ?_⟩
      · have := h2 x hx
        exact ⟨by simp [this.1], this.2⟩
      · intro x hx hok
        rcases List.mem_cons.1 hx with rfl | hx
        · left
          by_contra hv
          exact h ⟨hv, hok⟩
        · exact h4 x hx hok

/-- The state of the search: `done` have been taken from the queue, `q` is the queue, `lev` the number of hops. -/
structure BInv (nb : Nat → List Nat) (ok goal : Nat → Bool) (n i : Nat) (lev : Nat → Nat) (done q : List Nat) : Prop where
  nodup : (done ++ q).Nodup
  lt : ∀ x ∈ done ++ q, x < n
  start : i ∈ done ++ q ∧ lev i = 0
  path : ∀ x ∈ done ++ q, Path nb ok i (lev x) x
  notGoal : ∀ x ∈ done, goal x = false
  closed : ∀ x ∈ done, ∀ y ∈ nb x, ok y = true → y ∈ done ++ q ∧ lev y ≤ lev x + 1
  mono : (q.map lev).Pairwise (· ≤ ·)
  span : ∀ x ∈ q, ∀ y ∈ q, lev y ≤ lev x + 1
  after : ∀ x ∈ done, ∀ y ∈ q, lev x ≤ lev y

/-- Every path ends in a visited point that is not further away, or is longer than the hops of some queued point. -/
theorem BInv.frontier {n i : Nat} {lev : Nat → Nat} {done q : List Nat} (h : BInv nb ok goal n i lev done q) {k x : Nat}
    (hp : Path nb ok i k x) : (x ∈ done ++ q ∧ lev x ≤ k) ∨ ∃ z ∈ q, lev z < k := by
  induction hp with
  | start => exact Or.inl ⟨h.start.1, by rw [h.start.2]⟩
  | step hp hx hok ih =>
    rename_i k j x
    rcases ih with ⟨hj, hl⟩ | ⟨z, hz, hl⟩
    · rcases List.mem_append.1 hj with hj | hj
      · have := h.closed j hj x hx hok
        exact Or.inl ⟨this.1, by omega⟩
      · exact Or.inr ⟨j, hj, by omega⟩
    · exact Or.inr ⟨z, hz, by omega⟩

theorem bfs_spec {n i : Nat} (hnb : ∀ x, ∀ y ∈ nb x, ok y = true → y < n) : ∀ (fuel : Nat) (lev : Nat → Nat) (done q : List Nat),
    BInv nb ok goal n i lev done q → n + 1 ≤ fuel + done.length →
    (∀ c, bfs nb ok goal fuel q (done ++ q) = some c → goal c = true ∧ ∃ k, Path nb ok i k c ∧
      ∀ k' c', Path nb ok i k' c' → goal c' = true → k ≤ k') ∧
    (bfs nb ok goal fuel q (done ++ q) = none → ∀ k c, Path nb ok i k c → goal c = false)
  | 0, lev, done, q, h, hf => by
    exfalso
    have h1 : done.length ≤ n := by
      have hd : done.Nodup := (List.nodup_append.1 h.nodup).1
      have : done ⊆ List.range n := fun x hx => List.mem_range.2 (h.lt x (by simp [hx]))
      have := (hd.subperm this).length_le
      rwa [List.length_range] at this
    omega
  | fuel + 1, lev, done, [], h, _ => by
    refine ⟨fun c hc => by simp [bfs] at hc, fun _ k c hp => ?_⟩
    rcases h.frontier hp with ⟨hm, -⟩ | ⟨z, hz, -⟩
    · rw [List.append_nil] at hm
      exact h.notGoal c hm
    · simp at hz
  | fuel + 1, lev, done, c :: q, h, hf => by
    unfold bfs
    by_cases hg : goal c = true
    · rw [if_pos hg]
      refine ⟨fun c0 hc => ?_, fun hc => by cases hc⟩
      cases hc
      refine ⟨hg, lev c, h.path c (by simp), fun k' c' hp hg' => ?_⟩
      have hle : ∀ z ∈ c :: q, lev c ≤ lev z := by
        intro z hz
        have := h.mono
        rw [List.map_cons, List.pairwise_cons] at this
        rcases List.mem_cons.1 hz with rfl | hz
        · exact Nat.le_refl _
        · exact this.1 _ (List.mem_map_of_mem hz)
      rcases h.frontier hp with ⟨hm, hl⟩ | ⟨z, hz, hl⟩
      · rcases List.mem_append.1 hm with hm | hm
        · rw [h.notGoal c' hm] at hg'; cases hg'
        · have := hle c' hm; omega
      · have := hle z hz; omega
    · rw [if_neg hg]
      obtain ⟨new, e1, e2, e3, e4⟩ := enqueue_spec (ok := ok) (nb c) q (done ++ c :: q)
      simp only [e1]
      have hvis : done ++ c :: q ++ new = (done ++ [c]) ++ (q ++ new) := by simp
      rw [hvis]
      have hmem : ∀ x, x ∈ (done ++ [c]) ++ (q ++ new) ↔ x ∈ done ++ c :: q ∨ x ∈ new := by
        intro x; rw [← hvis, List.mem_append]
      have hq : ∀ x ∈ done ++ c :: q, x ∉ new := fun x hx hn => (e2 x hn).2.2 hx
      refine bfs_spec hnb fuel (fun x => if x ∈ new then lev c + 1 else lev x) (done ++ [c]) (q ++ new) ?_ (by
        rw [List.length_append, List.length_singleton]; omega)
      have hmono := h.mono
      rw [List.map_cons, List.pairwise_cons] at hmono
      have hlev : ∀ x ∈ done ++ c :: q, (if x ∈ new then lev c + 1 else lev x) = lev x := fun x hx => if_neg (hq x hx)
      have hlevn : ∀ x ∈ new, (if x ∈ new then lev c + 1 else lev x) = lev c + 1 := fun x hx => if_pos hx
      have hcq : ∀ y ∈ q, lev y ≤ lev c + 1 := fun y hy => h.span c (by simp) y (by simp [hy])
      have hqc : ∀ y ∈ q, lev c ≤ lev y := fun y hy => hmono.1 _ (List.mem_map_of_mem hy)
      have inq : ∀ x ∈ q, x ∈ done ++ c :: q := fun x hx => by simp [hx]
      constructor
      · rw [← hvis, List.nodup_append]
        refine ⟨h.nodup, e3, fun a ha b hb hab => ?_⟩
        subst hab
        exact hq a ha hb
      · intro x hx
        rcases (hmem x).1 hx with hx | hx
        · exact h.lt x hx
        · exact hnb c x (e2 x hx).1 (e2 x hx).2.1
      · refine ⟨(hmem i).2 (Or.inl h.start.1), ?_⟩
        rw [hlev i h.start.1]; exact h.start.2
      · intro x hx
        rcases (hmem x).1 hx with hx | hx
        · rw [hlev x hx]; exact h.path x hx
        · rw [hlevn x hx]
          exact .step (h.path c (by simp)) (e2 x hx).1 (e2 x hx).2.1
      · intro x hx
        rcases List.mem_append.1 hx with hx | hx
        · exact h.notGoal x hx
        · rw [List.mem_singleton] at hx
          subst hx
          simpa using hg
      · intro x hx y hy hok
        rcases List.mem_append.1 hx with hx | hx
        · have := h.closed x hx y hy hok
          refine ⟨(hmem y).2 (Or.inl this.1), ?_⟩
          rw [hlev y this.1, hlev x (by simp [hx])]
          exact this.2
        · rw [List.mem_singleton] at hx
          subst hx
          rw [hlev x (by simp)]
          rcases e4 y hy hok with hv | hv
          · refine ⟨(hmem y).2 (Or.inl hv), ?_⟩
            rw [hlev y hv]
            rcases List.mem_append.1 hv with hv | hv
            · have := h.after y hv x (by simp); omega
            · exact h.span x (by simp) y hv
          · exact ⟨(hmem y).2 (Or.inr hv), by rw [hlevn y hv]⟩
      · rw [List.map_append, List.pairwise_append]
        refine ⟨?_, ?_, ?_⟩
        · rw [List.map_congr_left (fun x hx => hlev x (inq x hx))]
          exact hmono.2
        · rw [List.map_congr_left (g := fun _ => lev c + 1) (fun x hx => hlevn x hx), List.pairwise_map]
          exact List.pairwise_of_forall (fun _ _ => Nat.le_refl _)
        · intro a ha b hb
          obtain ⟨x, hx, rfl⟩ := List.mem_map.1 ha
          obtain ⟨y, hy, rfl⟩ := List.mem_map.1 hb
          rw [hlev x (inq x hx), hlevn y hy]
          exact hcq x hx
      · intro x hx y hy
        have hx' : lev c ≤ (if x ∈ new then lev c + 1 else lev x) := by
          rcases List.mem_append.1 hx with hx | hx
          · rw [hlev x (inq x hx)]; exact hqc x hx
          · rw [hlevn x hx]; omega
        have hy' : (if y ∈ new then lev c + 1 else lev y) ≤ lev c + 1 := by
          rcases List.mem_append.1 hy with hy | hy
          · rw [hlev y (inq y hy)]; exact hcq y hy
          · rw [hlevn y hy]
        omega
      · intro x hx y hy
        have hx' : (if x ∈ new then lev c + 1 else lev x) ≤ lev c := by
          rcases List.mem_append.1 hx with hx | hx
          · rw [hlev x (by simp [hx])]; exact h.after x hx c (by simp)
          · rw [List.mem_singleton] at hx
            subst hx
            rw [hlev x (by simp)]
        have hy' : lev c ≤ (if y ∈ new then lev c + 1 else lev y) := by
          rcases List.mem_append.1 hy with hy | hy
          · rw [hlev y (inq y hy)]; exact hqc y hy
          · rw [hlevn y hy]; omega
        omega

theorem bfs_from {n i : Nat} (hi : i < n) (hnb : ∀ x, ∀ y ∈ nb x, ok y = true → y < n) :
    (∀ c, bfs nb ok goal (n + 1) [i] [i] = some c → goal c = true ∧ ∃ k, Path nb ok i k c ∧
      ∀ k' c', Path nb ok i k' c' → goal c' = true → k ≤ k') ∧
    (bfs nb ok goal (n + 1) [i] [i] = none → ∀ k c, Path nb ok i k c → goal c = false) := by
  refine bfs_spec hnb (n + 1) (fun _ => 0) [] [i] ?_ (by simp)
  constructor <;> simp
  · exact hi
  · exact .start

/-! ### the neighbours -/

/-- Two points of a common triangle, at different places of it. -/
def TriAdj (tris : List Tri) (a b : Nat) : Prop :=
  ∃ t ∈ tris, ∃ j k : Nat, j ≠ k ∧ (triVs t)[j]? = some a ∧ (triVs t)[k]? = some b

theorem neighbors_spec (n : Nat) (tris : List Tri) (h : ∀ t ∈ tris, ∀ v ∈ triVs t, v < n) :
    ∃ nbs, neighbors n tris = some nbs ∧ nbs.length = n ∧ ∀ a b, b ∈ nbs.getD a [] ↔ a < n ∧ TriAdj tris a b := by
  unfold neighbors
  have hf : (tris.any fun t => (triVs t).any fun v => decide (n ≤ v)) = false := by
    rw [List.any_eq_false]
    intro t ht
    rw [Bool.not_eq_true, List.any_eq_false]
    intro v hv
    have := h t ht v hv
    simp; omega
  rw [hf]
  simp only [Bool.false_eq_true, if_false]
  refine ⟨_, rfl, by simp, fun a b => ?_⟩
  by_cases ha : a < n
  · rw [List.getD_eq_getElem?_getD, List.getElem?_map, List.getElem?_range ha]
    simp only [Option.map_some, Option.getD_some, ha, true_and]
    have inner : ∀ (t : Tri) (j : Nat) (l : List Nat) (acc : List Nat),
        b ∈ l.foldl (fun acc k => if j ≠ k ∧ (triVs t)[j]? = some a then insertOpt (triVs t)[k]? acc else acc) acc ↔ b ∈ acc ∨ ∃ k ∈ l, j ≠ k ∧ (triVs t)[j]? = some a ∧ (triVs t)[k]? = some b := by
      intro t j l
      induction l with
      | nil => intro acc; simp
      | cons k l ih =>
        intro acc
        rw [List.foldl_cons, ih]
        by_cases hc : j ≠ k ∧ (triVs t)[j]? = some a
        · rw [if_pos hc]
          cases hk : (triVs t)[k]? with
          | none =>
            simp only [List.mem_cons, exists_eq_or_imp, insertOpt]
            rw [hk]; simp
          | some x =>
            simp only [List.mem_cons, exists_eq_or_imp, mem_setInsert, insertOpt]
            rw [hk]
            simp only [hc, Option.some.injEq, true_and, ne_eq, not_false_eq_true]
            rw [eq_comm (a := x) (b := b)]
            constructor
            · rintro ((h | h) | h)
              · exact Or.inr (Or.inl h)
              · exact Or.inl h
              · exact Or.inr (Or.inr h)
            · rintro (h | h | h)
              · exact Or.inl (Or.inr h)
              · exact Or.inl (Or.inl h)
              · exact Or.inr h
        · rw [if_neg hc]
          simp only [List.mem_cons, exists_eq_or_imp]
          constructor
          · rintro (h | h)
            · exact Or.inl h
            · exact Or.inr (Or.inr h)
          · rintro (h | ⟨h1, h2, h3⟩ | h)
            · exact Or.inl h
            · exact absurd ⟨h1, h2⟩ hc
            · exact Or.inr h
    have mid : ∀ (t : Tri) (l : List Nat) (acc : List Nat),
        b ∈ l.foldl (fun acc j => (List.range 3).foldl (fun acc k => if j ≠ k ∧ (triVs t)[j]? = some a then insertOpt (triVs t)[k]? acc else acc) acc) acc ↔ b ∈ acc ∨ ∃ j ∈ l, ∃ k ∈ List.range 3, j ≠ k ∧ (triVs t)[j]? = some a ∧ (triVs t)[k]? = some b := by
      intro t l
      induction l with
      | nil => intro acc; simp
      | cons j l ih =>
        intro acc
        rw [List.foldl_cons, ih, inner]
        simp only [List.mem_cons, exists_eq_or_imp, or_assoc]
    have outer : ∀ (l : List Tri) (acc : List Nat),
        b ∈ l.foldl (fun acc t => (List.range 3).foldl (fun acc j => (List.range 3).foldl (fun acc k =>
          if j ≠ k ∧ (triVs t)[j]? = some a then insertOpt (triVs t)[k]? acc else acc) acc) acc) acc ↔ b ∈ acc ∨ ∃ t ∈ l, ∃ j ∈ List.range 3, ∃ k ∈ List.range 3,
          j ≠ k ∧ (triVs t)[j]? = some a ∧ (triVs t)[k]? = some b := by
      intro l
      induction l with
      | nil => intro acc; simp
      | cons t l ih =>
        intro acc
        rw [List.foldl_cons, ih, mid]
        simp only [List.mem_cons, exists_eq_or_imp, or_assoc]
    rw [outer]
    simp only [List.not_mem_nil, false_or]
    unfold TriAdj
    refine exists_congr fun t => and_congr_right fun _ => ?_
    constructor
    · rintro ⟨j, -, k, -, h⟩; exact ⟨j, k, h⟩
    · rintro ⟨j, k, h1, h2, h3⟩
      have l3 : (triVs t).length = 3 := rfl
      have hj := (List.getElem?_eq_some_iff.1 h2).1
      have hk := (List.getElem?_eq_some_iff.1 h3).1
      exact ⟨j, List.mem_range.2 (by omega), k, List.mem_range.2 (by omega), h1, h2, h3⟩
  · simp [ha, List.getD_eq_getElem?_getD]

/-! ### velocities -/

variable {R : Type}

/-- Two points of a common triangle, the second within the timesteps `t` and `t + 1`. -/
def Step (pts : List (FPt (Pt R))) (tris : List Tri) (t : Int) (a b : Nat) : Prop :=
  TriAdj tris a b ∧ ∃ q, pts[b]? = some q ∧ t ≤ q.timestep ∧ q.timestep ≤ t + 1

/-- A chain of `k` steps. -/
inductive Hops (pts : List (FPt (Pt R))) (tris : List Tri) (t : Int) (i : Nat) : Nat → Nat → Prop
  | start : Hops pts tris t i 0 i
  | step {k j x : Nat} : Hops pts tris t i k j → Step pts tris t j x → Hops pts tris t i (k + 1) x

/-- `j` continues `p` (point number `i`) in the next timestep: another point inside timestep `p.timestep + 1`, poloidal, in
the same plane. -/
def Target (poloidal : Int → Bool) (plane : Int → Int) (pts : List (FPt (Pt R))) (i : Nat) (p : FPt (Pt R)) (j : Nat) (q : FPt (Pt R)) : Prop :=
  pts[j]? = some q ∧ j ≠ i ∧ q.ordinal = true ∧ q.timestep = p.timestep + 1 ∧ poloidal q.data.tag = true ∧
    plane q.data.tag = plane p.data.tag

/-- C163.  A point inside a timestep and a poloidal plane gets the differences of `psin` and `theta` to a point of the next
timestep in the same plane that is reachable along the surface without leaving the two timesteps, with the fewest hops; if no
such point is reachable, and for all other points, the velocity is not changed.  Nothing else changes. -/
theorem C163_velocity [Sub R] (poloidal : Int → Bool) (plane : Int → Int) (pts : List (FPt (Pt R))) (tris : List Tri)
    (hr : ∀ t ∈ tris, ∀ v ∈ triVs t, v < pts.length) :
    ∃ nbs, neighbors pts.length tris = some nbs ∧ ∀ i p, pts[i]? = some p →
      ∃ r, velocityOf poloidal plane pts nbs i = some r ∧
        (r = p ∨ r = { p with data := { p.data with v0 := r.data.v0, v1 := r.data.v1 } }) ∧
        (¬ (poloidal p.data.tag = true ∧ p.ordinal = true) → r = p) ∧
        (poloidal p.data.tag = true → p.ordinal = true →
          (∃ j q k, Target poloidal plane pts i p j q ∧ Hops pts tris p.timestep i k j ∧
            (∀ k' j' q', Target poloidal plane pts i p j' q' → Hops pts tris p.timestep i k' j' → k ≤ k') ∧
            r.data.v0 = q.data.psin - p.data.psin ∧ r.data.v1 = q.data.theta - p.data.theta) ∨
          ((¬ ∃ j q k, Target poloidal plane pts i p j q ∧ Hops pts tris p.timestep i k j) ∧ r = p)) := by
  obtain ⟨nbs, n1, n2, n3⟩ := neighbors_spec pts.length tris hr
  refine ⟨nbs, n1, fun i p hp => ?_⟩
  unfold velocityOf
  rw [hp]
  dsimp only
  by_cases hc : (poloidal p.data.tag && p.ordinal) = true
  swap
  · rw [if_neg hc]
    rw [Bool.and_eq_true] at hc
    exact ⟨p, rfl, Or.inl rfl, fun _ => rfl, fun h1 h2 => absurd ⟨h1, h2⟩ hc⟩
  rw [if_pos hc]
  rw [Bool.and_eq_true] at hc
  have hi : i < pts.length := (List.getElem?_eq_some_iff.1 hp).1
  set ok : Nat → Bool := fun (j : Nat) => match pts[j]? with
        | some q => decide (p.timestep ≤ q.timestep) && decide (q.timestep ≤ p.timestep + 1)
        | none => false with hok
  set goal : Nat → Bool := fun (j : Nat) => match pts[j]? with
        | some q => decide (j ≠ i) && q.ordinal && decide (q.timestep = p.timestep + 1) && poloidal q.data.tag &&
            decide (plane q.data.tag = plane p.data.tag)
        | none => false with hgoal
  have ok_iff : ∀ j, ok j = true ↔ ∃ q, pts[j]? = some q ∧ p.timestep ≤ q.timestep ∧ q.timestep ≤ p.timestep + 1 := by
    intro j
    simp only [hok]
    cases hq : pts[j]? with
    | none => simp
    | some q => simp
  have goal_iff : ∀ j, goal j = true ↔ ∃ q, Target poloidal plane pts i p j q := by
    intro j
    unfold Target
    simp only [hgoal]
    cases hq : pts[j]? with
    | none => simp
    | some q => simp [and_assoc]
  have path_iff : ∀ k j, Path (fun j => nbs.getD j []) ok i k j ↔ Hops pts tris p.timestep i k j := by
    have mem : ∀ {k j}, Path (fun j => nbs.getD j []) ok i k j → j < pts.length := by
      intro k j h
      cases h with
      | start => exact hi
      | step _ _ h2 =>
        obtain ⟨q, hq, -⟩ := (ok_iff _).1 h2
        exact (List.getElem?_eq_some_iff.1 hq).1
    have mem' : ∀ {k j}, Hops pts tris p.timestep i k j → j < pts.length := by
      intro k j h
      cases h with
      | start => exact hi
      | step _ h2 =>
        obtain ⟨-, q, hq, -⟩ := h2
        exact (List.getElem?_eq_some_iff.1 hq).1
    intro k j
    constructor
    · intro h
      induction h with
      | start => exact .start
      | step _ hx hok' ih =>
        exact .step ih ⟨((n3 _ _).1 hx).2, (ok_iff _).1 hok'⟩
    · intro h
      induction h with
      | start => exact .start
      | step h0 hx ih =>
        exact .step ih ((n3 _ _).2 ⟨mem' h0, hx.1⟩) ((ok_iff _).2 hx.2)
  obtain ⟨b1, b2⟩ := bfs_from (nb := fun j => nbs.getD j []) (ok := ok) (goal := goal) hi (by
    intro x y _ h
    obtain ⟨q, hq, -⟩ := (ok_iff _).1 h
    exact (List.getElem?_eq_some_iff.1 hq).1)
  cases hb : bfs (fun j => nbs.getD j []) ok goal (pts.length + 1) [i] [i] with
  | none =>
    refine ⟨p, rfl, Or.inl rfl, fun _ => rfl, fun _ _ => Or.inr ⟨?_, rfl⟩⟩
    rintro ⟨j, q, k, ht, hh⟩
    have h1 := b2 hb k j ((path_iff k j).2 hh)
    rw [(goal_iff j).2 ⟨q, ht⟩] at h1
    cases h1
  | some j =>
    obtain ⟨g1, k, g2, g3⟩ := b1 j hb
    obtain ⟨q, hT⟩ := (goal_iff j).1 g1
    dsimp only
    rw [hT.1]
    refine ⟨_, rfl, Or.inr rfl, fun h => absurd hc h, fun _ _ => Or.inl ⟨j, q, k, hT, (path_iff k j).1 g2, ?_, rfl, rfl⟩⟩
    intro k' j' q' hT' hh'
    exact g3 k' j' ((path_iff k' j').2 hh') ((goal_iff j').2 ⟨q', hT'⟩)

/-- A point of the example: timestep, ordinal, tag, psin, theta. -/
def demoPt (t : Int) (o : Bool) (tag psin theta : Int) : FPt (Pt Int) := ⟨0, t, o, ⟨tag, psin, theta, 0, 0⟩⟩

/-- A strip of three triangles over two timesteps; point 4 in the other plane is nearer than the target 3. -/
example : ∃ nbs, neighbors 5 [(0, 1, 4), (1, 2, 4), (2, 3, 4)] = some nbs ∧
    ((List.range 5).map fun i => (velocityOf (fun t => decide (t < 100)) (fun t => t / 10)
      [demoPt 0 true 11 3 5, demoPt 0 false 200 0 0, demoPt 0 false 201 0 0, demoPt 1 true 15 10 20, demoPt 1 true 25 7 7] nbs i).map
        fun r => (r.data.v0, r.data.v1)) = [some (7, 15), some (0, 0), some (0, 0), some (0, 0), some (0, 0)] ∧
    ∀ t ∈ [((0, 1, 4) : Tri), (1, 2, 4), (2, 3, 4)], ∀ v ∈ triVs t, v < 5 := by
  refine ⟨[[1, 4], [0, 2, 4], [1, 3, 4], [2, 4], [0, 1, 2, 3]], by decide +kernel, by decide +kernel, by decide⟩

end Verif.Fil
