import Verif.Trace.Flow
import Verif.Mesh.Props
import Verif.Contour.Incid
import Mathlib.Tactic.FinCases
/-! # C113, C115, C117: violations, seeds and non-vacuity for the particle tracer -/
namespace Verif.PT
open Verif.ND Verif.SRM
variable {K : Type} [Field K] [LinearOrder K] [IsStrictOrderedRing K] [FloorRing K] {nd : Nat}

/-! ### seeds -/

/-- **C117.** `initialize_particles_at_grid_points` seeds one particle at every grid point of the domain, once each, at time
0, whatever the strides and the schedule. -/
theorem C117_seeds (hnd : nd ≤ 3) (l : Lat.Lattice) (hl : l.Wf) (hln : l.nd = nd + 1)
    (ntasks : Nat) (hnt : elementForTasks (nd + 1) 0 (timeSlab l 0) .ordinal = some ntasks)
    (nthreads : Int) (hth : 1 ≤ nthreads) (sched : List Nat)
    (hfin : (Par.PF.run ntasks nthreads (Par.PF.init ntasks nthreads) sched).Finished ntasks) :
    ∃ seeds : List (List (Pt K nd)),
      seedGrid l (Par.PF.run ntasks nthreads (Par.PF.init ntasks nthreads) sched).trace = some seeds ∧ seeds.Nodup ∧
      ∀ s, s ∈ seeds ↔ ∃ g : Fin nd → Int,
        (∀ (k : Fin nd) (a m : Nat), l.starts[(k : Nat)]? = some a → l.sizes[(k : Nat)]? = some m → (a : Int) ≤ g k ∧ g k < a + m) ∧
        s = [⟨fun k => (g k : K), 0, some fun _ => 0⟩] := by
  obtain ⟨hnod, hmem⟩ := C13_element_for_ordinal (nd + 1) 0 (by omega) (by omega) l hl hln 0 ntasks hnt nthreads hth sched hfin
  unfold seedGrid
  revert hnod hmem
  generalize elementForCalls (nd + 1) 0 (timeSlab l 0) .ordinal
    (Par.PF.run ntasks nthreads (Par.PF.init ntasks nthreads) sched).trace = calls
  intro hnod hmem
  have hdef : ∃ es : List Elem, calls = es.map some := by
    have : ∀ c ∈ calls, ∃ e : Elem, c = some e := fun c hc => by
      obtain ⟨e, h, _⟩ := (hmem c).1 hc
      exact ⟨e, h⟩
    clear hnod hmem
    induction calls with
    | nil => exact ⟨[], rfl⟩
    | cons c cs ih =>
      obtain ⟨es, h⟩ := ih (fun c hc => this c (by simp [hc]))
      obtain ⟨e, h1⟩ := this c (by simp)
      exact ⟨e :: es, by rw [h, h1]; rfl⟩
  obtain ⟨es, rfl⟩ := hdef
  have hes : ∀ e, e ∈ es ↔ e.dim = 0 ∧ e.corner.length = nd + 1 ∧
      (∃ ve, e.vertices (nd + 1) = some ve ∧ ∀ v ∈ ve, AtTime (nd + 1) v 0) ∧
      ∀ (i s m : Nat) (x : Int), i + 1 < nd + 1 → l.starts[i]? = some s → l.sizes[i]? = some m →
        e.corner[i]? = some x → (s : Int) ≤ x ∧ x < s + m := by
    intro e
    have := hmem (some e)
    rw [List.mem_map] at this
    constructor
    · intro h
      obtain ⟨e', h1, h2⟩ := this.1 ⟨e, h, rfl⟩
      obtain rfl := Option.some.inj h1
      simpa using h2
    · intro h
      obtain ⟨e', h1, h2⟩ := this.2 ⟨e, rfl, by simpa using h⟩
      obtain rfl := Option.some.inj h2
      exact h1
  have hvert : ∀ e ∈ es, e.vertices (nd + 1) = some [e.corner] ∧ Ctr.IsElem (nd + 1) 0 e := by
    intro e he
    obtain ⟨h1, h2, ⟨ve, h3, _⟩, _⟩ := (hes e).1 he
    have hc := cell_of_elem (by omega) (by omega) h1 h2 h3
    have hlen := hc.len
    have hhead := hc.head
    rcases ve with _ | ⟨v, _ | ⟨w, ve⟩⟩
    · simp at hlen
    · simp only [List.head?_cons, Option.some.injEq] at hhead
      rw [h3, hhead]
      exact ⟨rfl, ⟨h1, h2, type_lt_of_vertices h3⟩⟩
    · simp at hlen
  have hinj : ∀ e ∈ es, ∀ f ∈ es, seedOf (K := K) (nd := nd) e = seedOf f → e = f := by
    intro e he f hf h
    obtain ⟨v1, i1⟩ := hvert e he
    obtain ⟨v2, i2⟩ := hvert f hf
    have hcor : e.corner = f.corner := by
      have hx := (Pt.mk.inj (List.cons.inj h).1).1
      refine List.ext_getElem (by rw [i1.len, i2.len]) fun i h1 h2 => ?_
      by_cases hi : i < nd
      · have := congrFun hx ⟨i, hi⟩
        simp only [i1.len, i2.len] at this
        rw [if_pos (by omega), if_pos (by omega)] at this
        have h3 := Int.cast_injective this
        simpa [h1, h2] using h3
      · have hi' : i = nd := by rw [i1.len] at h1; omega
        subst hi'
        obtain ⟨_, _, ⟨ve, h3, h4⟩, _⟩ := (hes e).1 he
        obtain ⟨_, _, ⟨vf, h5, h6⟩, _⟩ := (hes f).1 hf
        rw [v1] at h3
        rw [v2] at h5
        obtain rfl := Option.some.inj h3
        obtain rfl := Option.some.inj h5
        have a1 := h4 e.corner (by simp)
        have a2 := h6 f.corner (by simp)
        unfold AtTime at a1 a2
        simp only [Nat.add_sub_cancel] at a1 a2
        rw [List.getElem?_eq_getElem h1] at a1
        rw [List.getElem?_eq_getElem h2] at a2
        rw [Option.some.inj a1, Option.some.inj a2]
    rw [hcor] at v1
    exact Ctr.elem_unique (by omega) (by omega) i1 i2 v1 v2
  refine ⟨es.map seedOf, ?_, ?_, ?_⟩
  · rw [mapM_some, List.forall₂_map_left_iff, List.forall₂_map_right_iff]
    exact List.forall₂_same.2 fun e _ => rfl
  · exact List.Nodup.map_on (fun e he f hf h => hinj e he f hf h) (List.Nodup.of_map _ hnod)
  · intro s
    rw [List.mem_map]
    constructor
    · rintro ⟨e, he, rfl⟩
      obtain ⟨_, h2, _, h4⟩ := (hes e).1 he
      refine ⟨fun k => e.corner.getD k 0, fun k a m ha hm => ?_, ?_⟩
      · have hk : (k : Nat) < e.corner.length := by rw [h2]; omega
        beta_reduce
        rw [List.getD_eq_getElem _ _ hk]
        exact h4 k a m _ (by omega) ha hm (List.getElem?_eq_getElem hk)
      · unfold seedOf
        congr 2
        funext k
        rw [h2, if_pos (by omega)]
    · rintro ⟨g, hg, rfl⟩
      have hcell : Cell (nd + 1) 0 (List.ofFn g ++ [0]) [List.ofFn g ++ [0]] := by
        refine ⟨rfl, by simp, rfl, by simp, ?_⟩
        intro v hv
        obtain rfl := List.mem_singleton.1 hv
        refine ⟨by simp, by simp [SRM.sub], ?_⟩
        intro x hx
        left
        unfold SRM.sub at hx
        obtain ⟨i, hi, rfl⟩ := List.getElem_of_mem hx
        rw [List.getElem_zipWith, Int.sub_self]
      obtain ⟨e, he1, he2⟩ := Ctr.isElem_of_cell (by omega) (by omega) hcell
      have hcor : e.corner = List.ofFn g ++ [0] := by
        obtain ⟨ve, h3, h4⟩ := he1.cell (by omega) (by omega)
        rw [he2] at h3
        obtain rfl := Option.some.inj h3
        exact (Option.some.inj h4.head).symm
      refine ⟨e, (hes e).2 ⟨he1.dim, he1.len, ⟨_, he2, ?_⟩, ?_⟩, ?_⟩
      · intro v hv
        obtain rfl := List.mem_singleton.1 hv
        unfold AtTime
        simp
      · intro i s m x hi hs hm hx
        rw [hcor, List.getElem?_append_left (by simp; omega)] at hx
        simp only [List.getElem?_ofFn] at hx
        rw [dif_pos (by omega)] at hx
        obtain rfl := Option.some.inj hx
        exact hg ⟨i, by omega⟩ s m hs hm
      · unfold seedOf
        congr 2
        funext k
        rw [hcor, if_pos (by simp; omega)]
        simp

/-- **C117 (inside).** On the domain the command line tool sets, `[0, D-1)` in every dimension of an array of `D` points,
every seed is inside the grid. -/
theorem C117_seeds_inside (ds : List Nat) (hds : ds.length = nd) (g : Fin nd → Int)
    (hg : ∀ k : Fin nd, 0 ≤ g k ∧ g k < (ds.getD k 0 : Int) - 1) : InGrid ds (fun k => (g k : K)) := by
  unfold InGrid Inside
  rw [List.forall₂_iff_get]
  refine ⟨by simp [hds], fun i h1 h2 => ?_⟩
  have hi : i < nd := by simpa using h1
  have := hg ⟨i, hi⟩
  simp only [List.get_eq_getElem, List.getElem_ofFn]
  rw [List.getD_eq_getElem _ _ h2] at this
  refine ⟨by exact_mod_cast this.1, ?_⟩
  have h3 := this.2
  have h4 : ((g ⟨i, hi⟩ : Int) : K) < (((ds[i] : Int) - 1 : Int) : K) := by exact_mod_cast h3
  push_cast at h4
  exact h4

/-- **C117 (given seeds).** `initialize_particles(n, buf, stride, has_time)` makes one single-point trajectory per particle, in
order: coordinate `k` of particle `i` is `buf[i * stride + k]`, its time `buf[i * stride + nd]` if `has_time` and 0 otherwise. -/
theorem C117_given (n : Nat) (buf : List K) (stride : Nat) (hasTime : Bool)
    (hbuf : ∀ i < n, i * stride + nd + (if hasTime then 1 else 0) ≤ buf.length) :
    ∃ ts : List (List (Pt K nd)), initParticles n buf stride hasTime = some ts ∧ ts.length = n ∧
      ∀ i < n, ∃ p : Pt K nd, ts[i]? = some [p] ∧ (∀ k : Fin nd, buf[i * stride + k]? = some (p.x k)) ∧
        (hasTime = true → buf[i * stride + nd]? = some p.t) ∧ (hasTime = false → p.t = 0) := by
  rw [show initParticles n buf stride hasTime = (List.range n).mapM (fun i =>
    if i * stride + nd + (if hasTime then 1 else 0) ≤ buf.length then
      some [({ x := fun k => buf.getD (i * stride + k) 0
               t := if hasTime then buf.getD (i * stride + nd) 0 else 0
               v := some fun _ => 0 } : Pt K nd)]
    else none) from rfl]
  have hmap : ∀ m : Nat → Option (List (Pt K nd)), (∀ i < n, (m i).isSome) →
      ∃ ts, (List.range n).mapM m = some ts ∧ ts.length = n ∧ ∀ i < n, ts[i]? = m i := by
    intro m hm
    cases h : (List.range n).mapM m with
    | none =>
      obtain ⟨i, hi, hn⟩ := (mapM_none _ _).1 h
      have := hm i (List.mem_range.1 hi)
      rw [hn] at this
      simp at this
    | some ts =>
      have h2 := List.forall₂_iff_get.1 ((mapM_some _ _ _).1 h)
      have hl : ts.length = n := by rw [← h2.1]; simp
      refine ⟨ts, rfl, hl, fun i hi => ?_⟩
      have := h2.2 i (by simpa using hi) (by omega)
      simp only [List.get_eq_getElem, List.getElem_range] at this
      rw [List.getElem?_eq_getElem (by omega), this]
  obtain ⟨ts, h1, h2, h3⟩ := hmap (fun i =>
    if i * stride + nd + (if hasTime then 1 else 0) ≤ buf.length then
      some [({ x := fun k => buf.getD (i * stride + k) 0
               t := if hasTime then buf.getD (i * stride + nd) 0 else 0
               v := some fun _ => 0 } : Pt K nd)]
    else none) (fun i hi => by rw [if_pos (hbuf i hi)]; rfl)
  refine ⟨ts, h1, h2, fun i hi => ⟨_, by rw [h3 i hi, if_pos (hbuf i hi)], ?_, ?_, ?_⟩⟩
  · intro k
    have := hbuf i hi
    have hk : i * stride + (k : Nat) < buf.length := by omega
    simp [hk]
  · intro ht
    have := hbuf i hi
    simp only [ht, if_true] at this ⊢
    have hk : i * stride + nd < buf.length := by omega
    simp [hk]
  · intro ht
    simp [ht]

example : (initParticles (nd := 2) 2 [1, 2, 0, 5, 6, (3 : ℚ)] 3 true).map (fun ts => ts.map fun tr => tr.map fun p => (p.x 0, p.x 1, p.t)) =
    some [[(1, 2, 0)], [(5, 6, 3)]] := by decide +kernel

/-! ### violations -/

/-- the observable part of a trajectory in one dimension. -/
def show1 (tr : List (Pt ℚ 1)) : List (ℚ × ℚ × Option ℚ) := tr.map fun p => (p.x 0, p.t, p.v.map fun v => v 0)

/-- a uniform velocity on the 1-D grid of `n` points -/
def line (n : Nat) (w : ℚ) : Nd ℚ := { dims := [1, n], s := [1, 1], ncd := 1, p := List.replicate n w }

/-- the seed at `x` -/
def seed1 (x t : ℚ) : List (Pt ℚ 1) := [⟨fun _ => x, t, some fun _ => 0⟩]

/-- one task -/
def one : Nat → List Nat × List Nat := fun _ => ([0], [0])

/-- **C113 (a violation).** A particle that leaves the grid is recorded at an unfinished stage of the integrator, outside the
grid: on a grid of three points (positions below 2), the particle from 1 with velocity 4 crosses 2 at time 1/4, and is recorded
at position 3, time 1/2, and again twice per interval. -/
theorem C113_recorded_outside : (drive (Cfg.cli 3 1 16 1) one [line 3 4, line 3 4, line 3 4] [seed1 1 0]).map
    (fun s => s.trajs.map show1) =
      some [[(1, 0, some 0), (1, 0, none), (3, 1 / 2, some 4), (3, 1 / 2, none), (3, 1 / 2, none)]] := by
  decide +kernel

/-- **C115 (a violation).** With `set_delta_t(2)` the second interval stops early, at time 7/2 instead of 4, although the
particle has room. -/
theorem C115_large_delta_t : (drive (Cfg.cli 3 2 16 2) one [line 9 1, line 9 1, line 9 1] [seed1 1 0]).map
    (fun s => s.trajs.map fun tr => (show1 tr).getLast?) = some [some (7 / 2 + 1, 7 / 2, some 1)] := by
  decide +kernel

/-- **C115 (a violation).** A particle seeded (`has_time`) between two time steps is recorded at a time after the last time
step of the series, at an unfinished stage. -/
theorem C115_seed_between_steps : (drive (Cfg.cli 2 1 16 1) one [line 9 1, line 9 2] [seed1 1 (1 / 2)]).map
    (fun s => s.trajs.map fun tr => (show1 tr).getLast?) = some [some (3, 3 / 2, some (3 / 2))] := by
  decide +kernel

/-- **C118 (a violation).** The recorded velocity is that of the previous step, not of the recorded point: with
velocities 1 and 2 and two steps per interval, the point at time 1 (velocity 2 there) is recorded with velocity 3/2; the
first point of an interval is recorded with indeterminate velocity. -/
theorem C118_velocity_lags : (drive (Cfg.cli 2 2 16 1) one [line 9 1, line 9 2] [seed1 1 0]).map
    (fun s => s.trajs.map show1) = some [[(1, 0, some 0), (1, 0, none), (5 / 2, 1, some (3 / 2))]] := by
  decide +kernel

/-! ### non-vacuity -/

theorem line_usable (n : Nat) (hn : 0 < n) (w : ℚ) : Usable 1 [n] (line n w) := by
  refine ⟨⟨⟨by simp [line], by simp [line, strides], by simp [line]⟩, by simp [line, Nd.nd], by simp [line],
    by simp [line, Nd.nd], by simp [line, spatial, hn]⟩, rfl, rfl, 1, rfl, by omega, by omega⟩

theorem line_uniform (n : Nat) (w : ℚ) : Uniform (nd := 1) [n] (line n w) (fun _ => w) := by
  intro k m hm
  cases hm with
  | @cons i _ _ _ hi hrest =>
    cases hrest
    have hk : (k : Nat) = 0 := by omega
    simp only [hk, Nd.get, line, Nd.index, Nd.nd]
    simp [hi, dot]

example : Fair 2 (fun _ => ([1, 0], [0, 1])) := fun _ => ⟨List.Perm.swap 0 1 [], List.Perm.refl _⟩

/-- a particle with room: the hypotheses of the series theorems hold -/
example : ∃ tr' q, through (Cfg.cli 3 40 16 (1 : ℚ)) 0 [line 10 1, line 10 2, line 10 1] (seed1 4 0) = some tr' ∧
    tr'.getLast? = some q ∧ (∀ j, q.x j = 4 + trapezoid [fun _ => 1, fun _ => 2, fun _ => (1 : ℚ)] j) ∧ q.t = ((0 + 2 : Nat) : ℚ) := by
  refine C114_series (ds := [10]) (Cfg.cli 3 40 16 (1 : ℚ)) rfl (by decide) rfl (fun _ => 2) [line 10 1, line 10 2, line 10 1]
    [fun _ => 1, fun _ => 2, fun _ => (1 : ℚ)] ?_ ?_ ?_ 0 _ ⟨fun _ => 4, 0, some fun _ => 0⟩ rfl (by norm_num) ?_
  · intro a ha
    fin_cases ha <;> exact line_usable _ (by omega) _
  · exact .cons (line_uniform _ _) (.cons (line_uniform _ _) (.cons (line_uniform _ _) .nil))
  · intro w hw i
    fin_cases hw <;> norm_num
  · intro q hq
    have := abs_le.1 (hq 0)
    norm_num at this
    refine List.Forall₂.cons ⟨?_, ?_⟩ (by simp)
    · exact this.1
    · show q 0 < _
      push_cast
      linarith [this.2]

/-- a rotation field around the centre of a 3 × 3 grid, as an affine field -/
def spin : Nd ℚ := { dims := [2, 3, 3], s := [1, 2, 6], ncd := 1, p := [1, -1, 1, 0, 1, 1, 0, -1, 0, 0, 0, 1, -1, -1, -1, 0, -1, 1] }

theorem spin_usable : Usable 2 [3, 3] spin := by
  refine ⟨⟨⟨by simp [spin], by simp [spin, strides], by simp [spin]⟩, by simp [spin, Nd.nd], by simp [spin],
    by simp [spin, Nd.nd], by simp [spin, spatial]⟩, rfl, rfl, 2, rfl, by omega, by omega⟩

theorem spin_affine : AffineField [3, 3] spin ![![0, -1], ![1, 0]] ![1, -1] := by
  intro k n hn
  cases hn with
  | @cons i _ _ _ hi hrest =>
    cases hrest with
    | @cons j _ _ _ hj hrest =>
      cases hrest
      revert hi hj
      have : ∀ k : Fin 2, ∀ i < 3, ∀ j < 3, spin.get [(k : Nat), i, j] =
          some (affine (![1, -1] k) (List.ofFn ((![![0, -1], ![1, 0]] : Fin 2 → Fin 2 → ℚ) k)) ([i, j].map fun i : Nat => (i : ℚ))) := by
        decide +kernel
      exact fun hi hj => this k i hi j hj

/-- the particle at (1/2, 1) stays inside the grid for a step of length 1 -/
example : (through (Cfg.cli 2 1 16 (1 : ℚ)) 0 [spin, spin] [⟨![1 / 2, 1], 0, none⟩]).map
    (fun tr => tr.map fun p => (p.x 0, p.x 1, p.t)) =
      some [(1 / 2, 1, 0), (1 / 2, 1, 0), (1 - 13 / 48, 1 - 5 / 12, 1)] := by
  decide +kernel

/-- C116 applies to it -/
example : ∃ tr' q, through (Cfg.cli 2 1 16 (1 : ℚ)) 0 [spin, spin] [⟨![1 / 2, 1], 0, none⟩] = some tr' ∧ tr'.getLast? = some q ∧
    (InGrid [3, 3] q.x → q.x = (taylor ![![0, -1], ![1, 0]] ![1, -1] (1 / ((1 : Nat) : ℚ)))^[1 * 1] ![1 / 2, 1] ∧
      q.t = ((0 + 1 : Nat) : ℚ)) :=
  C116_affine (ds := [3, 3]) (Cfg.cli 2 1 16 (1 : ℚ)) rfl (by decide) rfl ![![0, -1], ![1, 0]] ![1, -1] [spin, spin]
    (by
      intro a ha
      have : a = spin := by simpa using ha
      subst this
      exact ⟨spin_usable, spin_affine⟩) 0 _ ⟨![1 / 2, 1], 0, none⟩ rfl (by norm_num)

example : InGrid (nd := 2) [3, 3] (fun k => (![(1 : Int), 0] k : ℚ)) :=
  C117_seeds_inside [3, 3] rfl ![1, 0] (by decide)

/-- a finished run of the seeding over a 2 × 2 domain -/
example : (Par.PF.run 4 1 (Par.PF.init 4 1) [0, 0, 0, 0]).Finished 4 ∧
    elementForTasks 3 0 (timeSlab ⟨[0, 0, 0], [2, 2, 5]⟩ 0) .ordinal = some 4 := by
  constructor
  · exact Par.C07_parallel_for_terminates 4 1 (by omega) [0, 0, 0, 0] (by
      intro t ht
      have : t = 0 := by
        have : max 1 (Par.clip 4 1) = 1 := by decide
        rw [this] at ht
        omega
      subst this
      decide)
  · decide +kernel

end Verif.PT
