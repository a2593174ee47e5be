import Verif.Serial.Model
/-! Model of the collective operations of include/ftk/utils: `gather`, `allgather` (gather.hh), `redistribute`
(redistribution.hh) and `all2all` (all2all.hh), over the byte-level serialization model.

All ranks are modelled at once: `ins` holds the argument of rank 0, 1, ...  An MPI collective delivers the pieces of
the ranks in an unspecified order, given as `order`.  Writing outside a buffer or receiving a message whose length is not
the announced one is `none`, and so is a total length that does not fit `int` (`std::accumulate(.., 0)`, `std::vector<int>`).
-/
namespace Verif.Comm
open Verif.Ser

/-- what a receive does: write the bytes `xs` at offset `off` of the receive buffer -/
def writeAt (buf : List UInt8) (off : Nat) (xs : List UInt8) : Option (List UInt8) :=
  if off + xs.length ≤ buf.length then some (buf.take off ++ xs ++ buf.drop (off + xs.length)) else none

/-- the receive side of `MPI_Gatherv`, `MPI_Allgatherv`, `MPI_Alltoallv`: the piece of rank `i` goes to `displs[i]`; the
pieces arrive in the order `order`. -/
def receive (buf : List UInt8) (displs : List Nat) (pieces : List (List UInt8)) (order : List Nat) :
    Option (List UInt8) :=
  order.foldlM (fun b i => writeAt b (displs.getD i 0) (pieces.getD i [])) buf

/-- the `displs` loop (gather.hh:41-43 and 88-90): `displs[i] = displs[i-1] + lengths[i-1]`. -/
def displsLoop (lens : List Nat) : List Nat :=
  (List.range' 1 (lens.length - 1)).foldl
    (fun d i => d.set i (d.getD (i - 1) 0 + lens.getD (i - 1) 0)) (List.replicate lens.length 0)

/-- `while (sb) { Map map; load(sb, map); merger(map, out); }` (gather.hh:54-58, 95-101, redistribution.hh:89-94,
all2all.hh:56-61).  A load that does not advance would loop forever: `none`. -/
def mergeLoop {α σ : Type} (c : Codec α) (d : α) (merge : α → σ → σ) (b : Buf) (out : σ) : Option σ :=
  if b.more then
    match c.load d b with
    | none => none
    | some (m, b') =>
      if b'.str.length - b'.pos < b.str.length - b.pos then mergeLoop c d merge b' (merge m out) else none
  else some out
termination_by b.str.length - b.pos

/-- the default merger (gather.hh:14-17) on maps: `for (kv : in) out.insert(kv)`. -/
def insertAll {κ ν : Type} [LinearOrder κ] (m out : List (κ × ν)) : List (κ × ν) := m.foldl mapInsert out

/-- the default merger (gather.hh:14-17) on sets -/
def insertKeys {κ : Type} [LinearOrder κ] (m out : List κ) : List κ := m.foldl (fun o k => setPut k o) out

/-- `gather(comm, in, out, root, merger)` (gather.hh:11-63): the value of `out` on rank `r` afterwards; `out` is that
rank's previous value of `out`. -/
def gather {α : Type} (c : Codec α) (d : α) (merge : α → α → α) (ins : List α) (root : Nat) (order : List Nat)
    (r : Nat) (out : α) : Option α :=
  let serialized := (List.range ins.length).map fun i =>
    if i ≠ root then serializeToString c (ins.getD i d) else []
  let lens := serialized.map List.length
  let total := lens.foldl (· + ·) 0
  if total < 2 ^ 31 then
    if r = root then
      (receive (List.replicate total 0) (displsLoop lens) serialized order).bind fun buffer =>
        mergeLoop c d merge { str := buffer } (ins.getD root d)
    else some out
  else none

/-- `allgather(comm, in, out, merger)` (gather.hh:65-106): the value of `out` on every rank whose previous value is
`out`. -/
def allgather {α : Type} (c : Codec α) (d : α) (merge : α → α → α) (ins : List α) (order : List Nat) (out : α) :
    Option α :=
  let serialized := ins.map (serializeToString c)
  let lens := serialized.map List.length
  let total := lens.foldl (· + ·) 0
  if total < 2 ^ 31 then
    (receive (List.replicate total 0) (displsLoop lens) serialized order).bind fun buffer =>
      mergeLoop c d merge { str := buffer } out
  else none

/-- what a rank sends in `MPI_Alltoallv`: buffer, counts and displacements -/
structure Send where
  buf : Buf := {}
  counts : List Nat := []
  displs : List Nat := []

/-- the packing loop (redistribution.hh:27-39, all2all.hh:20-30): `ins[i]` is saved for rank `i` unless `skip i`. -/
def pack {α : Type} (c : Codec α) (skip : Nat → Bool) (ins : List α) : Send :=
  ins.foldl (fun s m =>
    let at0 := s.buf.str.length
    let b := if skip s.counts.length then s.buf else c.save m s.buf
    { buf := b, counts := s.counts ++ [b.str.length - at0], displs := s.displs ++ [at0] }) {}

/-- `MPI_Allgather` of the counts followed by the loop of redistribution.hh:56-60: counts and displacements of what
rank `r` receives. -/
def recvLayout (allcounts : List Nat) (np r : Nat) : List Nat × List Nat :=
  (List.range np).foldl (fun (s : List Nat × List Nat) i =>
    let rd := s.2.set i (if i = 0 then 0 else s.2.getD (i - 1) 0 + s.1.getD (i - 1) 0)
    (s.1.set i (allcounts.getD (i * np + r) 0), rd)) (List.replicate np 0, List.replicate np 0)

/-- the same loop in all2all.hh:38-41, where `rdispls[i] = recvcounts[i]`. -/
def recvLayoutA2A (allcounts : List Nat) (np r : Nat) : List Nat × List Nat :=
  (List.range np).foldl (fun (s : List Nat × List Nat) i =>
    let rd := s.2.set i (s.1.getD i 0)
    (s.1.set i (allcounts.getD (i * np + r) 0), rd)) (List.replicate np 0, List.replicate np 0)

/-- `MPI_Alltoallv` as seen by rank `r`: it receives from rank `i` the part of `i`'s buffer addressed to it. -/
def alltoallv (sends : List Send) (layout : List Nat × List Nat) (r : Nat) (order : List Nat) : Option (List UInt8) :=
  let pieces := sends.map fun s => (s.buf.str.drop (s.displs.getD r 0)).take (s.counts.getD r 0)
  let total := layout.1.foldl (· + ·) 0
  if total < 2 ^ 31 ∧ pieces.map List.length = layout.1 then
    receive (List.replicate total 0) layout.2 pieces order
  else none

section Redistribute
variable {κ ν : Type} [LinearOrder κ]

/-- the bucketing loop (redistribution.hh:18-22): `ins[hash(key) % np].insert(kv)`. -/
def bucket {μ : Type} (hash : κ → Nat) (np : Nat) (m : List (κ × μ)) : List (List (κ × μ)) :=
  m.foldl (fun b kv => b.set (hash kv.1 % np) (mapInsert (b.getD (hash kv.1 % np) []) kv)) (List.replicate np [])

/-- merging a received map (redistribution.hh:92-93): `out[k].insert(v.begin(), v.end())`. -/
def mergeNested (m out : List (κ × List (κ × ν))) : List (κ × List (κ × ν)) :=
  m.foldl (fun o kv => mapPut kv.1 (insertAll kv.2 ((lookup kv.1 o).getD [])) o) out

/-- `redistribute(comm, in, out)` (redistribution.hh:11-99): the value of `out` on rank `r` afterwards, when it was `out`
before.  The received buffer is decoded once per rank (redistribution.hh:84-96). -/
def redistribute (c : Codec (List (κ × List (κ × ν)))) (hash : κ → Nat) (ins : List (List (κ × List (κ × ν))))
    (order : List Nat) (r : Nat) (out : List (κ × List (κ × ν))) : Option (List (κ × List (κ × ν))) :=
  let np := ins.length
  let sends := ins.map fun m => pack c (fun _ => false) (bucket hash np m)
  let allcounts := (sends.map (·.counts)).flatten
  (alltoallv sends (recvLayout allcounts np r) r order).bind fun recvbuf =>
    (List.range np).foldlM (fun o _ => mergeLoop c [] mergeNested { str := recvbuf } o) out

end Redistribute

/-- `all2all(comm, ins, out)` (all2all.hh:11-63): the value of `out` on rank `r`; `ins` holds the vectors of all
ranks. -/
def all2all {α : Type} (c : Codec α) (d : α) (merge : α → α → α) (ins : List (List α)) (order : List Nat) (r : Nat) :
    Option α :=
  let np := ins.length
  let sends := (List.range np).map fun i => pack c (fun j => decide (j = i)) (ins.getD i [])
  let allcounts := (sends.map (·.counts)).flatten
  (alltoallv sends (recvLayoutA2A allcounts np r) r order).bind fun recvbuf =>
    mergeLoop c d merge { str := recvbuf } ((ins.getD r []).getD r d)

end Verif.Comm
