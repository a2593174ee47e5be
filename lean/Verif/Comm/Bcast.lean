import Verif.Comm.Props
/-! Model of `bcastv` (bcast.hh) and `scatterv` (scatter.hh) over the serialization model, and C170.

All ranks are modelled at once.  A message is delivered as sent; a length that does not fit `int` is `none`. -/
namespace Verif.Comm
open Verif.Ser

/-- `bcastv(comm, inout, root)` (bcast.hh:29-57): the value of `inout` on rank `r` afterwards; `vals` holds the values before. -/
def bcastv {α : Type} (c : Codec α) (d : α) (vals : List α) (root r : Nat) : Option α :=
  let buf := serializeToString c (vals.getD root d)
  if buf.length < 2 ^ 31 then
    if r = root then some (vals.getD root d) else (c.load (vals.getD r d) { str := buf }).map (·.1)
  else none

/-- `scatterv(comm, ins, out, root)` (scatter.hh:10-47): `out` on rank `r` afterwards.  `insOf i` is the argument `ins` on rank `i`,
whose length is asserted on every rank (scatter.hh:17), not only on the root; what other ranks pack is overwritten by the broadcast
of the root's counts and displacements. -/
def scatterv {α : Type} (c : Codec α) (np : Nat) (insOf : Nat → List α) (outOf : Nat → α) (root r : Nat) : Option α :=
  if (List.range np).all (fun i => (insOf i).length == np) then
    let s := pack c (fun _ => false) (insOf root)
    if s.buf.str.length < 2 ^ 31 then
      (c.load (outOf r) { str := (s.buf.str.drop (s.displs.getD r 0)).take (s.counts.getD r 0) }).map (·.1)
    else none
  else none

variable {α : Type} {c : Codec α} {ok fresh : α → Prop} {enc : α → List UInt8}

/-- **C170, broadcast.**  After the broadcast every rank has the root's value, provided that what it loads over is fit to be loaded
over (`fresh`: everything for flat types and `std::vector`, an empty map for `std::map`). -/
theorem C170_bcast_partial (hc : Lawful c ok fresh enc) (d : α) (vals : List α) (root r : Nat) (hroot : root < vals.length)
    (hr : r < vals.length) (hok : ok vals[root]) (hfresh : r ≠ root → fresh vals[r])
    (hsize : (serializeToString c vals[root]).length < 2 ^ 31) : bcastv c d vals root r = some vals[root] := by
  have e1 : vals.getD root d = vals[root] := by rw [List.getD_eq_getElem _ _ hroot]
  have e2 : vals.getD r d = vals[r] := by rw [List.getD_eq_getElem _ _ hr]
  unfold bcastv
  dsimp only
  rw [e1, e2, if_pos hsize]
  split
  · rfl
  · rename_i h
    have := hc.load vals[root] vals[r] { str := serializeToString c vals[root] } [] hok (hfresh h)
      ⟨by simp, by rw [serialize_eq hc _ hok]; simp⟩
    rw [this]; rfl

/-- **C170, scatter.**  Rank `r` gets the root's `r`-th value, whatever the other ranks pass (as long as the number is right). -/
theorem C170_scatter_partial (hc : Lawful c ok fresh enc) (np : Nat) (insOf : Nat → List α) (outOf : Nat → α) (root r : Nat)
    (hroot : root < np) (hr : r < np) (hlen : ∀ i < np, (insOf i).length = np) (hok : ∀ m ∈ insOf root, ok m) (hfresh : fresh (outOf r))
    (hsize : ((insOf root).map (fun m => (serializeToString c m).length)).sum < 2 ^ 31) :
    scatterv c np insOf outOf root r = (insOf root)[r]? := by
  have hn := hlen root hroot
  obtain ⟨h1, h2, h3, h4⟩ := pack_spec hc (fun _ => false) (insOf root) hok
  have hs : sent enc (fun _ => false) (insOf root) = (insOf root).map enc := by
    refine List.ext_getElem? fun k => ?_
    simp [sent]
  rw [hs] at h1 h2 h4
  have hsz : ((insOf root).map enc).flatten.length < 2 ^ 31 := by
    rw [List.length_flatten, List.map_map]
    refine Nat.lt_of_le_of_lt (Nat.le_of_eq ?_) hsize
    congr 1
    refine List.map_congr_left fun m hm => ?_
    rw [serialize_eq hc m (hok m hm)]; rfl
  have hrl : r < (insOf root).length := by omega
  have hmem : (insOf root)[r] ∈ insOf root := List.getElem_mem hrl
  have hcount : (pack c (fun _ => false) (insOf root)).counts.getD r 0 = (((insOf root).map enc).getD r []).length := by
    rw [h2, List.getD_eq_getElem _ _ (by simpa using hrl), List.getD_eq_getElem _ _ (by simpa using hrl)]
    simp
  unfold scatterv
  rw [if_pos (by simp only [List.all_eq_true, List.mem_range, beq_iff_eq]; exact hlen)]
  dsimp only
  rw [h1]
  dsimp only
  rw [if_pos hsz, hcount, h4 r hrl, flatten_piece _ _ (by simpa using hrl), List.getD_eq_getElem _ _ (by simpa using hrl), List.getElem_map,
    hc.load (insOf root)[r] (outOf r) { str := enc (insOf root)[r] } [] (hok _ hmem) hfresh ⟨by simp, by simp⟩, List.getElem?_eq_getElem hrl]
  rfl

/-- The hypotheses are met: vectors of numbers. -/
example : bcastv (vec 0 (uint 4)) [] [[1, 2, 3], [], [9]] 0 2 = some [1, 2, 3] := by decide +kernel

example : scatterv (vec 0 (uint 4)) 3 (fun _ => [[1, 2], [], [3]]) (fun _ => [7]) 1 2 = some [3] := by decide +kernel

/-- **Violated: broadcasting a `std::map` to a rank whose map is not empty.**  The rank keeps the entries
that the root does not have. -/
theorem C170_bcast_merges_maps :
    bcastv (mapC 0 0 (uint 4) (uint 4)) [] [[(1, 10), (2, 20)], [(2, 99), (3, 30)]] 0 1 = some [(1, 10), (2, 20), (3, 30)] := by decide +kernel

/-- **Violated: scattering from the root.**  A rank that passes no values (only the root has any) makes the call fail. -/
theorem C170_scatter_needs_values_everywhere :
    scatterv (vec 0 (uint 4)) 2 (fun i => if i = 0 then [[1], [2]] else []) (fun _ => []) 0 1 = none := by decide +kernel

end Verif.Comm
