import Verif.XGC.Interp
import Verif.UnionFind.Model
import Mathlib.Order.Nat
import Mathlib.Algebra.Order.Ring.Int

/-!
# Model of the threshold tracker for blobs on the torus mesh

`include/ftk/filters/xgc_blob_threshold_tracker.hh` (below: `xbt`) with the queue of snapshots of
`include/ftk/filters/xgc_tracker.hh` (below: `xt`).  `parallel_for` is executed by one thread (for several, see C06).
Values are elements of a linearly ordered field.  Vertex ids of space-time are `int`: an overflow is `none`.
-/

namespace Verif.XBlob

open Verif.UF Verif.XGC

variable {K : Type} [Field K] [LinearOrder K]

/-- Events: a snapshot is pushed (`xbt:50-61`, without a smoothing kernel), or `advance_timestep()`. -/
inductive Op (K : Type)
  | push (s : List K)
  | advance

/-- The tracker: `field_data_snapshots`, `current_timestep`, `uf` (`xbt:44`). -/
structure St (K : Type) where
  snaps : List (List K)
  cur : Nat
  uf : Duf Int

/-- A new tracker. -/
def St.init : St K := ⟨[], 0, Duf.init⟩

/-- `i + current_timestep * m3n0` (`xbt:73`, :77, :91) in `int`; the operands are not negative, so that only the sum can
leave the range. -/
def code (n : Int) (t : Nat) (i : Int) : Option Int :=
  if i + t * n < 2147483648 then some (i + t * n) else none

/-- The loop over the neighbours of `ei` (`xbt:75-80`). -/
def inner (val : Int → Option K) (thr : K) (n : Int) (t : Nat) (ei : Int) : Duf Int → List Int → Option (Duf Int)
  | d, [] => some d
  | d, j :: js => do
    let x ← val j
    if thr ≤ x then do
      let ej ← code n t j
      let d' ← d.unite ei ej
      inner val thr n t ei d' js
    else inner val thr n t ei d js

/-- The loop over the vertices, within a time step (`xbt:71-81`). -/
def within (g : G) (val : Int → Option K) (thr : K) (t : Nat) : Duf Int → List Int → Option (Duf Int)
  | d, [] => some d
  | d, i :: is => do
    let x ← val i
    if x < thr then within g val thr t d is
    else do
      let ei ← code (g.n 0) t i
      let S ← g.vertexEdgeVertex i
      let d' ← inner val thr (g.n 0) t ei d S
      within g val thr t d' is

/-- The loop over the vertices, to the next time step (`xbt:87-92`). -/
def across (n : Int) (val val1 : Int → Option K) (thr : K) (t : Nat) : Duf Int → List Int → Option (Duf Int)
  | d, [] => some d
  | d, i :: is => do
    let x ← val i
    if x < thr then across n val val1 thr t d is
    else do
      let y ← val1 i
      if y < thr then across n val val1 thr t d is
      else do
        let a ← code n t i
        let b ← code n (t + 1) i
        let d' ← d.unite a b
        across n val val1 thr t d' is

/-- The vertex ids `0, …, m3n0 - 1`. -/
def ids (n : Int) : List Int := (List.range n.toNat).map fun (i : Nat) => (i : Int)

/-- `update_timestep()` (`xbt:63-96`): `field_data_snapshots[0]` of an empty queue is undefined. -/
def update (g : G) (ls : List (List (Lerp K))) (thr : K) (st : St K) : Option (Duf Int) :=
  match st.snaps with
  | [] => none
  | [s] => within g (interpolate g ls s) thr st.cur st.uf (ids (g.n 0))
  | s :: s1 :: _ => do
    let d ← within g (interpolate g ls s) thr st.cur st.uf (ids (g.n 0))
    across (g.n 0) (interpolate g ls s) (interpolate g ls s1) thr st.cur d (ids (g.n 0))

/-- One event; `advance_timestep` (`xt:171-177`) updates, pops the first snapshot and counts the time step. -/
def step (g : G) (ls : List (List (Lerp K))) (thr : K) (st : St K) : Op K → Option (St K)
  | .push s => some { st with snaps := st.snaps ++ [s] }
  | .advance => do
    let d ← update g ls thr st
    some ⟨st.snaps.drop 1, st.cur + 1, d⟩

/-- A history of events. -/
def run (g : G) (ls : List (List (Lerp K))) (thr : K) : St K → List (Op K) → Option (St K)
  | st, [] => some st
  | st, o :: os => do
    let st' ← step g ls thr st o
    run g ls thr st' os

/-- `const int e = i + t * m3->n(0)` (`xbt:116`): computed in `size_t`, then narrowed to `int`. -/
def narrow (x : Int) : Int := (x + 2147483648) % 4294967296 - 2147483648

/-- The loop of `get_sliced` (`xbt:115-119`): the labels of the vertices, `-1` for those unknown to `uf`. -/
def slicedLoop (n : Int) (t : Nat) : Duf Int → List Int → Option (Duf Int × List Int)
  | d, [] => some (d, [])
  | d, i :: is => do
    let e := narrow (i + t * n)
    match d.par e with
    | none => do
      let (d', r) ← slicedLoop n t d is
      some (d', -1 :: r)
    | some _ => do
      let (d1, l) ← d.find e
      let (d', r) ← slicedLoop n t d1 is
      some (d', l :: r)

/-- `get_sliced(t)` (`xbt:112-121`). -/
def getSliced (g : G) (st : St K) (t : Nat) : Option (List Int) :=
  (slicedLoop (g.n 0) t st.uf (ids (g.n 0))).map Prod.snd

end Verif.XBlob
