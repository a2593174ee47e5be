import Verif.Comm.Props
import Mathlib.Data.List.Permutation
/-! C46 (`redistribute`) and C55 (`all2all`). -/
namespace Verif.Comm
open Verif.Ser

section Redist
variable {κ ν : Type} [LinearOrder κ]

/-- (specification) the value stored for inner key `j` under key `k` -/
def lookup2 (k j : κ) (m : List (κ × List (κ × ν))) : Option ν := (lookup k m).bind (lookup j)

theorem filter_sorted {μ : Type} (p : κ × μ → Bool) (m : List (κ × μ)) (h : Sorted m) : Sorted (m.filter p) :=
  List.Pairwise.sublist List.filter_sublist h

/-- the buckets are the sub-maps of the keys that hash to each rank -/
theorem bucket_eq {μ : Type} (hash : κ → Nat) (np : Nat) (hnp : 0 < np) (m : List (κ × μ)) (hs : Sorted m) :
    bucket hash np m = (List.range np).map fun i => m.filter fun kv => hash kv.1 % np == i := by
  induction m using List.reverseRecOn with
  | nil =>
    unfold bucket
    simp only [List.foldl_nil, List.filter_nil, List.map_const']
    simp
  | append_singleton m kv ih =>
    have hsm : Sorted m := (List.pairwise_append.1 hs).1
    have hlt : ∀ e ∈ m, e.1 < kv.1 := fun e he => (List.pairwise_append.1 hs).2.2 e he kv (by simp)
    have hstep : bucket hash np (m ++ [kv]) = (bucket hash np m).set (hash kv.1 % np)
        (mapInsert ((bucket hash np m).getD (hash kv.1 % np) []) kv) := by
      unfold bucket
      rw [List.foldl_append]
      rfl
    rw [hstep, ih hsm]
    have hh : hash kv.1 % np < np := Nat.mod_lt _ hnp
    have hget : ((List.range np).map fun i => m.filter fun kv => hash kv.1 % np == i).getD (hash kv.1 % np) [] =
        m.filter fun e => hash e.1 % np == hash kv.1 % np := by
      simp [hh]
    rw [hget]
    have hins : mapInsert (m.filter fun e => hash e.1 % np == hash kv.1 % np) kv =
        (m.filter fun e => hash e.1 % np == hash kv.1 % np) ++ [kv] := by
      have hlt' : ∀ e ∈ m.filter (fun e => hash e.1 % np == hash kv.1 % np), e.1 < kv.1 :=
        fun e he => hlt e (List.mem_of_mem_filter he)
      unfold mapInsert
      rw [lookup_none _ _ (fun e he => ne_of_lt (hlt' e he))]
      exact mapPut_last _ _ _ hlt'
    rw [hins]
    apply List.ext_getElem (by simp)
    intro i h1 h2
    simp only [List.length_map, List.length_range] at h2
    rw [List.getElem_set]
    simp only [List.getElem_map, List.getElem_range, List.filter_append]
    split
    · rename_i he; subst he; simp
    · rename_i he
      simp [he]

theorem lookup_filter_key {μ : Type} (hash : κ → Nat) (np i : Nat) (m : List (κ × μ)) (k : κ) :
    lookup k (m.filter fun kv => hash kv.1 % np == i) = if hash k % np = i then lookup k m else none := by
  induction m with
  | nil => simp [lookup]
  | cons e m ih =>
    obtain ⟨k', v⟩ := e
    rw [List.filter_cons]
    by_cases h : hash k' % np = i
    · simp only [h, beq_self_eq_true, if_true, lookup, ih]
      by_cases hk : k = k'
      · subst hk; simp [h]
      · simp [hk]
    · simp only [beq_iff_eq, h, if_false, ih, lookup]
      by_cases hk : k = k'
      · subst hk; simp [h]
      · simp [hk]

theorem mergeNested_lookup (m out : List (κ × List (κ × ν))) (k : κ) (hs : Sorted m) :
    lookup k (mergeNested m out) = match lookup k m with
      | none => lookup k out
      | some v => some (insertAll v ((lookup k out).getD [])) := by
  unfold mergeNested
  induction m generalizing out with
  | nil => rfl
  | cons e m ih =>
    obtain ⟨k', v⟩ := e
    obtain ⟨h1, h2⟩ := List.pairwise_cons.1 hs
    rw [List.foldl_cons, ih _ h2]
    by_cases hk : k = k'
    · subst hk
      have hn : lookup k m = none := lookup_none m k (fun e he => ne_of_gt (h1 e he))
      simp only [hn, lookup, if_true, lookup_mapPut]
    · simp only [lookup, if_neg hk, lookup_mapPut]

theorem mergeNested_lookup2 (m out : List (κ × List (κ × ν))) (k j : κ) (hs : Sorted m) :
    lookup2 k j (mergeNested m out) = (lookup2 k j out).or (lookup2 k j m) := by
  unfold lookup2
  rw [mergeNested_lookup m out k hs]
  cases hm : lookup k m with
  | none => simp
  | some v =>
    simp only [Option.bind_some, lookup_insertAll]
    cases lookup k out <;> simp [lookup]

theorem mergeNested_isSome (m out : List (κ × List (κ × ν))) (k : κ) (hs : Sorted m) :
    (lookup k (mergeNested m out)).isSome = ((lookup k out).isSome || (lookup k m).isSome) := by
  rw [mergeNested_lookup m out k hs]
  cases lookup k m <;> simp

theorem merged2 (ms : List (List (κ × List (κ × ν)))) (out : List (κ × List (κ × ν))) (hs : ∀ m ∈ ms, Sorted m)
    (k j : κ) :
    lookup2 k j (ms.foldl (fun o m => mergeNested m o) out) = (out :: ms).findSome? (lookup2 k j) ∧
    ((lookup k (ms.foldl (fun o m => mergeNested m o) out)).isSome ↔
      (lookup k out).isSome ∨ ∃ m ∈ ms, (lookup k m).isSome) := by
  induction ms generalizing out with
  | nil =>
    rw [List.foldl_nil, List.findSome?_cons]
    refine ⟨by cases lookup2 k j out <;> rfl, by simp⟩
  | cons m ms ih =>
    obtain ⟨h1, h2⟩ := ih (mergeNested m out) (fun x hx => hs x (by simp [hx]))
    rw [List.foldl_cons, h1, h2, List.findSome?_cons, List.findSome?_cons, List.findSome?_cons,
      mergeNested_lookup2 _ _ _ _ (hs m (by simp)), mergeNested_isSome _ _ _ (hs m (by simp))]
    refine ⟨by cases lookup2 k j out <;> rfl, ?_⟩
    simp
    tauto

/-- (specification) keys strictly increasing, in the map and in every map it holds -/
def Sorted2 (m : List (κ × List (κ × ν))) : Prop := Sorted m ∧ ∀ e ∈ m, Sorted e.2

theorem sorted2_mergeNested (m out : List (κ × List (κ × ν))) (h : Sorted2 out) : Sorted2 (mergeNested m out) := by
  unfold mergeNested
  induction m generalizing out with
  | nil => exact h
  | cons e m ih =>
    rw [List.foldl_cons]
    refine ih _ ⟨sorted_mapPut _ _ _ h.1, fun x hx => ?_⟩
    rcases mapPut_keys _ _ _ _ hx with hx | hx
    · subst hx
      refine sorted_insertAll _ _ ?_
      cases hl : lookup e.1 out with
      | none => simp [Sorted]
      | some v =>
        have : ∀ (l : List (κ × List (κ × ν))), lookup e.1 l = some v → (e.1, v) ∈ l := by
          intro l
          induction l with
          | nil => simp [lookup]
          | cons a l ihl =>
            obtain ⟨k', v'⟩ := a
            rw [lookup]
            split
            · rename_i he
              intro hv
              simp [he, Option.some.inj hv]
            · intro hv; simp [ihl hv]
        exact h.2 _ (this out hl)
    · exact h.2 x hx

theorem sorted2_merged (ms : List (List (κ × List (κ × ν)))) (out : List (κ × List (κ × ν))) (h : Sorted2 out) :
    Sorted2 (ms.foldl (fun o m => mergeNested m o) out) := by
  induction ms generalizing out with
  | nil => exact h
  | cons m ms ih => exact ih _ (sorted2_mergeNested m out h)

end Redist

section Exchange
variable {α : Type} {c : Codec α} {ok fresh : α → Prop} {enc : α → List UInt8}

/-- what `MPI_Alltoallv` with the layout of redistribution.hh delivers to rank `r` -/
theorem alltoallv_eq (hc : Lawful c ok fresh enc) (bs : List (List α))
    (np r : Nat) (d : α) (hnp : bs.length = np) (hlen : ∀ b ∈ bs, b.length = np) (hr : r < np)
    (hok : ∀ b ∈ bs, ∀ m ∈ b, ok m)
    (hsize : (bs.map fun b => (enc (b.getD r d)).length).sum < 2 ^ 31)
    (order : List Nat) (ho : order.Perm (List.range np)) :
    alltoallv (bs.map (pack c fun _ => false))
      (recvLayout ((bs.map (pack c fun _ => false)).map (·.counts)).flatten np r) r order =
      some (encAll enc (bs.map fun b => b.getD r d)) := by
  have hsent : ∀ b : List α, sent enc (fun _ => false) b = b.map enc := by
    intro b
    unfold sent
    apply List.ext_getElem (by simp)
    intro i h1 h2
    simp
  have hpieces : ((bs.map (pack c fun _ => false)).map fun s =>
      (s.buf.str.drop (s.displs.getD r 0)).take (s.counts.getD r 0)) = bs.map fun b => enc (b.getD r d) := by
    rw [List.map_map]
    apply List.map_congr_left
    intro b hb
    obtain ⟨p1, p2, p3, p4⟩ := pack_spec hc (fun _ => false) b (hok b hb)
    have hrb : r < b.length := by rw [hlen b hb]; exact hr
    simp only [Function.comp]
    rw [p1, p2, p4 r hrb, hsent]
    have := flatten_piece (b.map enc) r (by simpa using hrb)
    have e2 : ((b.map enc).map List.length).getD r 0 = ((b.map enc).getD r []).length := by simp [hrb]
    rw [e2, this]
    simp [hrb]
  obtain ⟨l1, l2, l3⟩ := recvLayout_spec ((bs.map (pack c fun _ => false)).map (·.counts)).flatten np r
  have hcounts : (recvLayout ((bs.map (pack c fun _ => false)).map (·.counts)).flatten np r).1 =
      (bs.map fun b => enc (b.getD r d)).map List.length := by
    rw [l1]
    apply List.ext_getElem (by simp [hnp])
    intro i h1 h2
    simp only [List.length_map, List.length_range] at h1
    have hib : i < bs.length := by omega
    simp only [List.getElem_map, List.getElem_range]
    rw [flatten_uniform _ np i r ?_ (by simpa using hib) hr]
    · obtain ⟨p1, p2, p3, p4⟩ := pack_spec hc (fun _ => false) bs[i] (hok _ (List.getElem_mem hib))
      have hrb : r < bs[i].length := by rw [hlen _ (List.getElem_mem hib)]; exact hr
      simp [hib, p2, hsent, hrb]
    · intro l hl
      simp only [List.map_map, List.mem_map, Function.comp] at hl
      obtain ⟨b, hb, rfl⟩ := hl
      obtain ⟨p1, p2, p3, p4⟩ := pack_spec hc (fun _ => false) b (hok b hb)
      rw [p2, hsent]
      simp [hlen b hb]
  unfold alltoallv
  simp only
  rw [hpieces, hcounts, sum_map_length, if_pos ⟨by rw [List.map_map]; exact hsize, rfl⟩]
  rw [receive_eq (bs.map fun b => enc (b.getD r d)) _ order _ (fun i hi => by
      rw [l3 i (by simpa [hnp] using hi), hcounts, take_map_sum]) (by simpa [hnp] using ho) rfl]
  simp [encAll]
  rfl

end Exchange

section Main
variable {κ ν : Type} [LinearOrder κ]

/-- (specification) the entries of a map addressed to rank `r` -/
def share (hash : κ → Nat) (np r : Nat) (m : List (κ × List (κ × ν))) : List (κ × List (κ × ν)) :=
  m.filter fun kv => hash kv.1 % np == r

/-- **C46.** After `redistribute(comm, in, out)` on `np` ranks, with any `out` to start from: on rank `r` the inner value
`(k, j)` is the one `out` had, else, if `hash(k) % np = r`, that of the lowest rank whose `in` has it, else absent; and
rank `r` has key `k` exactly if it had it before or `hash(k) % np = r` and some rank's `in` has it.  So with empty `out`s
every item ends on exactly one rank, chosen by its key, and no item is lost.  Holds for any hash function, any number of
ranks, any maps whose share for `r` fits an `int`, any delivery order. -/
theorem C46_redistribute (dk : κ) (dv : ν) {ck : Codec κ} {cv : Codec ν} {ok fresh enc ok' fresh' enc'}
    (hk : Lawful ck ok fresh enc) (hv : Lawful cv ok' fresh' enc') (hdk : fresh dk) (hdv : fresh' dv)
    (hash : κ → Nat) (ins : List (List (κ × List (κ × ν)))) (hok : ∀ m ∈ ins, GoodMap ok (GoodMap ok ok') m)
    (r : Nat) (hr : r < ins.length)
    (hsize : (ins.map fun m => (serializeToString (mapC dk [] ck (mapC dk dv ck cv))
      (share hash ins.length r m)).length).sum < 2 ^ 31)
    (order : List Nat) (ho : order.Perm (List.range ins.length)) (out : List (κ × List (κ × ν))) (hout : Sorted2 out) :
    ∃ out', redistribute (mapC dk [] ck (mapC dk dv ck cv)) hash ins order r out = some out' ∧ Sorted2 out' ∧
      (∀ k j, lookup2 k j out' = if hash k % ins.length = r then (out :: ins).findSome? (lookup2 k j)
        else lookup2 k j out) ∧
      (∀ k, (lookup k out').isSome ↔ (lookup k out).isSome ∨
        (hash k % ins.length = r ∧ ∃ m ∈ ins, (lookup k m).isSome)) := by
  have hin := mapC_lawful dk dv hk hv hdk hdv
  have hc := mapC_lawful dk [] hk hin hdk rfl
  have hnp : 0 < ins.length := by omega
  have hgood : ∀ m ∈ ins, ∀ i, GoodMap ok (GoodMap ok ok') (share hash ins.length i m) := by
    intro m hm i
    obtain ⟨g1, g2, g3⟩ := hok m hm
    exact ⟨lt_of_le_of_lt (List.length_filter_le _ _) g1, filter_sorted _ _ g2,
      fun e he => g3 e (List.mem_of_mem_filter he)⟩
  have hbk : ∀ m ∈ ins, bucket hash ins.length m = (List.range ins.length).map fun i => share hash ins.length i m :=
    fun m hm => bucket_eq hash ins.length hnp m (hok m hm).2.1
  have hmapb : (ins.map fun m => bucket hash ins.length m) =
      ins.map fun m => (List.range ins.length).map fun i => share hash ins.length i m :=
    List.map_congr_left hbk
  have hrecv : ∀ e ∈ ins, ((List.range ins.length).map fun i => share hash ins.length i e).getD r [] =
      share hash ins.length r e := by
    intro e _; simp [hr]
  have hx := alltoallv_eq hc (ins.map fun m => bucket hash ins.length m) ins.length r [] (by simp)
    (by rw [hmapb]; intro b hb; obtain ⟨m, _, rfl⟩ := List.mem_map.1 hb; simp) hr
    (by
      rw [hmapb]
      intro b hb x hx
      obtain ⟨m, hm, rfl⟩ := List.mem_map.1 hb
      obtain ⟨i, _, rfl⟩ := List.mem_map.1 hx
      exact hgood m hm i)
    (by
      rw [hmapb, List.map_map]
      have e2 : ∀ m ∈ ins, (serializeToString (mapC dk [] ck (mapC dk dv ck cv)) (share hash ins.length r m)).length =
          _ := fun m hm => congrArg List.length (serialize_eq hc _ (hgood m hm r))
      rw [List.map_congr_left e2] at hsize
      refine lt_of_eq_of_lt (congrArg List.sum (List.map_congr_left fun m hm => ?_)) hsize
      simp only [Function.comp, hrecv m hm])
    order ho
  have hshare : ((ins.map fun m => bucket hash ins.length m).map fun b => b.getD r []) =
      ins.map (share hash ins.length r) := by
    rw [hmapb, List.map_map]
    exact List.map_congr_left hrecv
  rw [hshare, List.map_map] at hx
  have hred : redistribute (mapC dk [] ck (mapC dk dv ck cv)) hash ins order r out =
      (List.range ins.length).foldlM (fun o _ =>
        some ((ins.map (share hash ins.length r)).foldl (fun o m => mergeNested m o) o)) out := by
    unfold redistribute
    simp only
    have e3 : (ins.map fun m => pack (mapC dk [] ck (mapC dk dv ck cv)) (fun _ => false) (bucket hash ins.length m)) =
        ins.map ((pack (mapC dk [] ck (mapC dk dv ck cv)) fun _ => false) ∘ fun m => bucket hash ins.length m) := rfl
    rw [e3, hx, Option.bind_some]
    congr 1
    funext o _
    refine mergeLoop_eq hc (fun m _ => encMap_ne (enc := enc) (enc' := fun m : List (κ × ν) =>
      encLE 8 m.length ++ encAll (fun e : κ × ν => enc e.1 ++ enc' e.2) m) m) [] rfl mergeNested _ _ _ (fun m hm => ?_) (at_start _ rfl)
    obtain ⟨x, hx, rfl⟩ := List.mem_map.1 hm
    exact hgood x hx r
  have hss : ∀ m ∈ ins.map (share hash ins.length r), Sorted m := by
    intro m hm
    obtain ⟨x, hx, rfl⟩ := List.mem_map.1 hm
    exact (hgood x hx r).2.1
  -- merging the same maps again changes nothing that can be observed
  have hiter : ∀ n, ∃ out', (List.range (n + 1)).foldlM (fun o _ =>
        some ((ins.map (share hash ins.length r)).foldl (fun o m => mergeNested m o) o)) out = some out' ∧ Sorted2 out' ∧
      (∀ k j, lookup2 k j out' = (out :: ins.map (share hash ins.length r)).findSome? (lookup2 k j)) ∧
      ∀ k, (lookup k out').isSome ↔ (lookup k out).isSome ∨ ∃ m ∈ ins.map (share hash ins.length r), (lookup k m).isSome := by
    intro n
    induction n with
    | zero =>
      refine ⟨_, rfl, sorted2_merged _ _ hout, fun k j => (merged2 _ _ hss k j).1, fun k => (merged2 _ _ hss k k).2⟩
    | succ n ih =>
      obtain ⟨o1, a1, a2, a3, a4⟩ := ih
      refine ⟨_, by rw [List.range_succ, List.foldlM_append, a1]; rfl, sorted2_merged _ _ a2, fun k j => ?_, fun k => ?_⟩
      · rw [(merged2 _ _ hss k j).1, List.findSome?_cons, a3]
        cases hf : (out :: ins.map (share hash ins.length r)).findSome? (lookup2 k j) with
        | some v => rfl
        | none =>
          rw [List.findSome?_cons] at hf
          cases hl : lookup2 k j out with
          | some v => rw [hl] at hf; simp at hf
          | none => rw [hl] at hf; exact hf
      · rw [(merged2 _ _ hss k k).2, a4]; tauto
  obtain ⟨out', b1, b2, b3, b4⟩ := hiter (ins.length - 1)
  rw [show ins.length - 1 + 1 = ins.length by omega] at b1
  refine ⟨out', by rw [hred, b1], b2, fun k j => ?_, fun k => ?_⟩
  · rw [b3, List.findSome?_cons, List.findSome?_cons]
    have hl2 : ∀ m : List (κ × List (κ × ν)), lookup2 k j (share hash ins.length r m) =
        if hash k % ins.length = r then lookup2 k j m else none := by
      intro m
      unfold lookup2 share
      rw [lookup_filter_key]
      split <;> simp
    rw [List.findSome?_map]
    by_cases h : hash k % ins.length = r
    · rw [if_pos h]
      have : (lookup2 k j ∘ share hash ins.length r) = (lookup2 k j : List (κ × List (κ × ν)) → Option ν) := by
        funext m; simp [hl2, h]
      rw [this]
    · rw [if_neg h]
      have : (lookup2 k j ∘ share hash ins.length r) = (fun _ => none : List (κ × List (κ × ν)) → Option ν) := by
        funext m; simp [hl2, h]
      rw [this]
      have hnone : List.findSome? (fun _ : List (κ × List (κ × ν)) => (none : Option ν)) ins = none := by
        rw [List.findSome?_eq_none_iff]; intros; rfl
      rw [hnone]
      cases lookup2 k j out <;> rfl
  · rw [b4]
    have : (∃ m ∈ ins.map (share hash ins.length r), (lookup k m).isSome) ↔
        (hash k % ins.length = r ∧ ∃ m ∈ ins, (lookup k m).isSome) := by
      simp only [List.mem_map, share]
      constructor
      · rintro ⟨m, ⟨x, hx, rfl⟩, h⟩
        rw [lookup_filter_key] at h
        split at h
        · rename_i he; exact ⟨he, x, hx, h⟩
        · simp at h
      · rintro ⟨he, x, hx, h⟩
        refine ⟨_, ⟨x, hx, rfl⟩, ?_⟩
        rw [lookup_filter_key, if_pos he]; exact h
    rw [this]

/-- **C46 (exactly one rank).** Starting from empty `out`s, a key that some rank has ends on exactly one rank, and every
inner value of every rank is still somewhere (that of the lowest rank, when ranks disagree). -/
theorem C46_exactly_one (dk : κ) (dv : ν) {ck : Codec κ} {cv : Codec ν} {ok fresh enc ok' fresh' enc'}
    (hk : Lawful ck ok fresh enc) (hv : Lawful cv ok' fresh' enc') (hdk : fresh dk) (hdv : fresh' dv)
    (hash : κ → Nat) (ins : List (List (κ × List (κ × ν)))) (hok : ∀ m ∈ ins, GoodMap ok (GoodMap ok ok') m)
    (hsize : ∀ r < ins.length, (ins.map fun m => (serializeToString (mapC dk [] ck (mapC dk dv ck cv))
      (share hash ins.length r m)).length).sum < 2 ^ 31)
    (order : Nat → List Nat) (ho : ∀ r < ins.length, (order r).Perm (List.range ins.length)) :
    ∃ outs : Nat → List (κ × List (κ × ν)),
      (∀ r < ins.length, redistribute (mapC dk [] ck (mapC dk dv ck cv)) hash ins (order r) r [] = some (outs r)) ∧
      (∀ k, (∃ m ∈ ins, (lookup k m).isSome) → ∃! r, r < ins.length ∧ (lookup k (outs r)).isSome) ∧
      (∀ k j, (∃ m ∈ ins, (lookup2 k j m).isSome) → ∃ r < ins.length,
        lookup2 k j (outs r) = ins.findSome? (lookup2 k j) ∧ (lookup2 k j (outs r)).isSome) ∧
      (∀ k, ∀ r < ins.length, (lookup k (outs r)).isSome → ∃ m ∈ ins, (lookup k m).isSome) := by
  have hall : ∀ r, ∃ o, r < ins.length → redistribute (mapC dk [] ck (mapC dk dv ck cv)) hash ins (order r) r [] = some o ∧
      (∀ k j, lookup2 k j o = if hash k % ins.length = r then ins.findSome? (lookup2 k j) else none) ∧
      (∀ k, (lookup k o).isSome ↔ (hash k % ins.length = r ∧ ∃ m ∈ ins, (lookup k m).isSome)) := by
    intro r
    by_cases hr : r < ins.length
    · obtain ⟨o, h1, _, h3, h4⟩ := C46_redistribute dk dv hk hv hdk hdv hash ins hok r hr (hsize r hr) (order r) (ho r hr) []
        ⟨by simp [Sorted], by simp⟩
      refine ⟨o, fun _ => ⟨h1, fun k j => ?_, fun k => ?_⟩⟩
      · rw [h3, List.findSome?_cons]; simp [lookup2, lookup]
      · rw [h4]; simp [lookup]
    · exact ⟨[], fun h => absurd h hr⟩
  choose outs houts using hall
  refine ⟨outs, fun r hr => (houts r hr).1, ?_, ?_, ?_⟩
  · rintro k ⟨m, hm, hkm⟩
    have hlt : hash k % ins.length < ins.length := Nat.mod_lt _ (by
      rcases ins with _ | _
      · simp at hm
      · simp)
    refine ⟨hash k % ins.length, ⟨hlt, ((houts _ hlt).2.2 k).2 ⟨rfl, m, hm, hkm⟩⟩, ?_⟩
    rintro r ⟨hr, hs⟩
    exact (((houts r hr).2.2 k).1 hs).1.symm
  · rintro k j ⟨m, hm, hkm⟩
    have hlt : hash k % ins.length < ins.length := Nat.mod_lt _ (by
      rcases ins with _ | _
      · simp at hm
      · simp)
    refine ⟨hash k % ins.length, hlt, ?_, ?_⟩
    · rw [(houts _ hlt).2.1, if_pos rfl]
    · rw [(houts _ hlt).2.1, if_pos rfl]
      cases hf : ins.findSome? (lookup2 k j) with
      | some v => rfl
      | none =>
        rw [List.findSome?_eq_none_iff] at hf
        rw [hf m hm] at hkm
        simp at hkm
  · intro k r hr hs
    exact (((houts r hr).2.2 k).1 hs).2

end Main

/-- Three ranks; key 4 goes to rank 1, key 5 to rank 2.  Rank 0 and rank 2 both hold key 4. -/
example : redistribute (mapC 0 [] sizeT (mapC 0 0 sizeT sizeT)) (fun k => k)
    [[(4, [(1, 1)]), (5, [(2, 2)])], [], [(4, [(1, 9), (3, 3)])]] [1, 2, 0] 1 [] = some [(4, [(1, 1), (3, 3)])] := by
  decide +kernel

/-- The hypotheses of `C46_redistribute` hold for it. -/
example : (∀ m ∈ [[(4, [(1, 1)]), (5, [(2, 2)])], [], [(4, [(1, 9), (3, 3)])]], GoodMap U64 (GoodMap U64 U64) m) ∧
    ([[(4, [(1, 1)]), (5, [(2, 2)])], [], [(4, [(1, 9), (3, 3)])]].map fun m =>
      (serializeToString (mapC 0 [] sizeT (mapC 0 0 sizeT sizeT)) (share (fun k => k) 3 1 m)).length).sum < 2 ^ 31 ∧
    [1, 2, 0].Perm (List.range 3) := by
  refine ⟨?_, by decide +kernel, by decide⟩
  intro m hm
  simp at hm
  rcases hm with h | h | h <;> subst h <;>
    refine ⟨by decide, by simp [Sorted], ?_⟩ <;> (simp [U64, GoodMap, Sorted]; try omega)

/-- the receive layout of all2all.hh: every displacement is zero, because `recvcounts[i]` is read before it is set -/
theorem recvLayoutA2A_spec (all : List Nat) (np r : Nat) :
    recvLayoutA2A all np r = ((List.range np).map (fun i => all.getD (i * np + r) 0), List.replicate np 0) := by
  have key : ∀ n ≤ np, ∀ s, s = (List.range n).foldl (fun (s : List Nat × List Nat) i =>
      (s.1.set i (all.getD (i * np + r) 0), s.2.set i (s.1.getD i 0)))
      (List.replicate np 0, List.replicate np 0) →
      s.1.length = np ∧ s.2 = List.replicate np 0 ∧ (∀ i < n, s.1.getD i 0 = all.getD (i * np + r) 0) ∧
        ∀ i, n ≤ i → s.1.getD i 0 = 0 := by
    intro n hn
    induction n with
    | zero =>
      rintro s rfl
      refine ⟨by simp, rfl, by simp, fun i _ => ?_⟩
      rcases Nat.lt_or_ge i np with h | h <;> simp [h]
    | succ n ih =>
      rintro s hs
      rw [List.range_succ, List.foldl_append] at hs
      simp only [List.foldl_cons, List.foldl_nil] at hs
      obtain ⟨a1, a2, a3, a4⟩ := ih (by omega) _ rfl
      generalize (List.range n).foldl (fun (s : List Nat × List Nat) i =>
        (s.1.set i (all.getD (i * np + r) 0), s.2.set i (s.1.getD i 0)))
        (List.replicate np 0, List.replicate np 0) = q at hs a1 a2 a3 a4
      subst hs
      refine ⟨by simp [a1], ?_, fun i hi => ?_, fun i hi => ?_⟩
      · simp only
        rw [a2, a4 n (le_refl _)]
        apply List.ext_getElem (by simp)
        intro i h1 h2
        simp
      · simp only
        rw [getD_set, a1]
        by_cases h : n = i
        · subst h; rw [if_pos ⟨rfl, by omega⟩]
        · rw [if_neg (by tauto), a3 i (by omega)]
      · simp only
        rw [getD_set, if_neg (by omega), a4 i (by omega)]
  obtain ⟨a1, a2, a3, _⟩ := key np (le_refl _) (recvLayoutA2A all np r) rfl
  refine Prod.ext ?_ a2
  apply List.ext_getElem (by simp [a1])
  intro i h1 h2
  have := a3 i (by omega)
  simp at h2 this ⊢
  rw [← this, List.getElem?_eq_getElem h1]
  rfl

/-- **C55 (up to two ranks).** With one or two ranks `all2all` gives rank `r` its own `ins[r]` merged with what the other
rank addressed to it.  Missing: three or more ranks, where it is false (`C55_all2all_loses_data`). -/
theorem C55_all2all_partial {α : Type} {c : Codec α} {ok fresh : α → Prop} {enc : α → List UInt8}
    (hc : Lawful c ok fresh enc) (hne : ∀ a, ok a → enc a ≠ []) (d : α) (hd : fresh d) (merge : α → α → α)
    (ins : List (List α)) (hnp : ins.length ≤ 2) (hlen : ∀ v ∈ ins, v.length = ins.length)
    (hok : ∀ v ∈ ins, ∀ m ∈ v, ok m) (r : Nat) (hr : r < ins.length)
    (hsize : ((others ins r).map fun v => (serializeToString c (v.getD r d)).length).sum < 2 ^ 31)
    (order : List Nat) (ho : order.Perm (List.range ins.length)) :
    all2all c d merge ins order r =
      some (((others ins r).map fun v => v.getD r d).foldl (fun o m => merge m o) ((ins.getD r []).getD r d)) := by
  have hpiece : ∀ i < ins.length, ((pack c (fun j => decide (j = i)) (ins.getD i [])).buf.str.drop
      ((pack c (fun j => decide (j = i)) (ins.getD i [])).displs.getD r 0)).take
      ((pack c (fun j => decide (j = i)) (ins.getD i [])).counts.getD r 0) =
        (if r = i then [] else enc ((ins.getD i []).getD r d)) ∧
      (pack c (fun j => decide (j = i)) (ins.getD i [])).counts.getD r 0 =
        (if r = i then [] else enc ((ins.getD i []).getD r d)).length ∧
      (pack c (fun j => decide (j = i)) (ins.getD i [])).counts.length = ins.length := by
    intro i hi
    have hmem : ins.getD i [] ∈ ins := by simp [hi]
    obtain ⟨p1, p2, p3, p4⟩ := pack_spec hc (fun j => decide (j = i)) (ins.getD i []) (hok _ hmem)
    have hl := hlen _ hmem
    have hg : (sent enc (fun j => decide (j = i)) (ins.getD i [])).getD r [] =
        if r = i then [] else enc ((ins.getD i []).getD r d) := by
      generalize hv : ins.getD i [] = v at *
      simp [sent, hl, hr]
    have hsl : (sent enc (fun j => decide (j = i)) (ins.getD i [])).length = ins.length := by
      simp only [sent, List.length_mapIdx]; exact hl
    have hcnt : ((sent enc (fun j => decide (j = i)) (ins.getD i [])).map List.length).getD r 0 =
        ((sent enc (fun j => decide (j = i)) (ins.getD i [])).getD r []).length := by
      generalize sent enc (fun j => decide (j = i)) (ins.getD i []) = S at hsl
      simp [hsl, hr]
    refine ⟨?_, ?_, ?_⟩
    · rw [p1, p2, p4 r (by omega), hcnt]
      rw [flatten_piece _ _ (by omega), hg]
    · rw [p2, hcnt, hg]
    · rw [p2, List.length_map, hsl]
  unfold all2all
  simp only
  have hpieces : ((List.range ins.length).map fun i => pack c (fun j => decide (j = i)) (ins.getD i [])).map
      (fun s => (s.buf.str.drop (s.displs.getD r 0)).take (s.counts.getD r 0)) =
      (List.range ins.length).map fun i => if r = i then [] else enc ((ins.getD i []).getD r d) := by
    rw [List.map_map]
    exact List.map_congr_left fun i hi => (hpiece i (by simpa using hi)).1
  have hlay : (List.range ins.length).map (fun i => (((List.range ins.length).map fun i =>
      pack c (fun j => decide (j = i)) (ins.getD i [])).map (·.counts)).flatten.getD (i * ins.length + r) 0) =
      ((List.range ins.length).map fun i => if r = i then [] else enc ((ins.getD i []).getD r d)).map List.length := by
    rw [List.map_map (f := fun i => if r = i then [] else enc ((ins.getD i []).getD r d)) (g := List.length)]
    apply List.map_congr_left
    intro i hi
    have hi : i < ins.length := by simpa using hi
    rw [flatten_uniform _ ins.length i r (fun l hl => by
      simp only [List.map_map, List.mem_map, Function.comp] at hl
      obtain ⟨x, hx, rfl⟩ := hl
      exact (hpiece x (by simpa using hx)).2.2) (by simpa using hi) hr]
    have := (hpiece i hi).2.1
    simp only [Function.comp]
    rw [← this]
    simp [hi]
  unfold alltoallv
  rw [recvLayoutA2A_spec]
  simp only
  rw [hpieces, hlay, sum_map_length]
  have hperm : order ∈ (List.range ins.length).permutations' := List.mem_permutations'.2 ho
  rcases ins with _ | ⟨v, _ | ⟨w, _ | ⟨z, rest⟩⟩⟩
  · simp at hr
  · have hr0 : r = 0 := by simpa using hr
    subst hr0
    have : order = [0] := by simpa [List.range_succ] using hperm
    subst this
    have hm : mergeLoop c d merge { str := ([] : List UInt8) } (v.getD 0 d) = some (v.getD 0 d) := by
      rw [mergeLoop]; simp [Buf.more]
    simp [List.range_succ, receive, writeAt, others] at hm ⊢
    exact hm
  · have ho2 : order = [0, 1] ∨ order = [1, 0] := by
      have h2 : (List.range 2).permutations' = [[0, 1], [1, 0]] := by decide
      have h3 : order ∈ (List.range 2).permutations' := hperm
      rw [h2] at h3
      simpa using h3
    have hvw : ok (v.getD 1 d) ∧ ok (w.getD 0 d) := by
      have h1 := hlen v (by simp)
      have h2 := hlen w (by simp)
      simp only [List.length_cons, List.length_nil] at h1 h2
      refine ⟨hok v (by simp) _ ?_, hok w (by simp) _ ?_⟩
      · rw [List.getD_eq_getElem _ _ (by omega)]; exact List.getElem_mem _
      · rw [List.getD_eq_getElem _ _ (by omega)]; exact List.getElem_mem _
    have hlp : ∀ (x : α) (o : α), ok x → mergeLoop c d merge { str := enc x } o = some (merge x o) := by
      intro x o hx
      exact mergeLoop_eq hc hne d hd merge [x] _ _ (by simpa using hx) (at_start _ (by simp [encAll]))
    have hr2 : r = 0 ∨ r = 1 := by simp at hr; omega
    rcases hr2 with rfl | rfl
    · have hs : (enc (w.getD 0 d)).length < 2 ^ 31 := by
        rw [← serialize_eq hc _ hvw.2]; simpa [others] using hsize
      have hrec : receive (List.replicate ((enc (w.getD 0 d)).length) 0) (List.replicate 2 0)
          [[], enc (w.getD 0 d)] order = some (enc (w.getD 0 d)) := by
        generalize enc (w.getD 0 d) = xs
        rcases ho2 with rfl | rfl <;> simp [receive, writeAt]
      have e1 : ((List.range [v, w].length).map fun i => if 0 = i then ([] : List UInt8)
          else enc (([v, w].getD i []).getD 0 d)) = [[], enc (w.getD 0 d)] := rfl
      rw [e1]
      simp only [List.map_cons, List.map_nil, List.length_nil, List.sum_cons, List.sum_nil, Nat.add_zero, Nat.zero_add]
      rw [if_pos ⟨hs, trivial⟩]
      have e2 : [v, w].length = 2 := rfl
      rw [e2, hrec, Option.bind_some, hlp _ _ hvw.2]
      rfl
    · have hs : (enc (v.getD 1 d)).length < 2 ^ 31 := by
        rw [← serialize_eq hc _ hvw.1]; simpa [others] using hsize
      have hrec : receive (List.replicate ((enc (v.getD 1 d)).length) 0) (List.replicate 2 0)
          [enc (v.getD 1 d), []] order = some (enc (v.getD 1 d)) := by
        generalize enc (v.getD 1 d) = xs
        rcases ho2 with rfl | rfl <;> simp [receive, writeAt]
      have e1 : ((List.range [v, w].length).map fun i => if 1 = i then ([] : List UInt8)
          else enc (([v, w].getD i []).getD 1 d)) = [enc (v.getD 1 d), []] := rfl
      rw [e1]
      simp only [List.map_cons, List.map_nil, List.length_nil, List.sum_cons, List.sum_nil, Nat.add_zero]
      rw [if_pos ⟨hs, trivial⟩]
      have e2 : [v, w].length = 2 := rfl
      rw [e2, hrec, Option.bind_some, hlp _ _ hvw.1]
      rfl
  · simp at hnp

/-- **C55 (false with three ranks).** Ranks 1 and 2 send rank 0 one item each; whatever the delivery order, rank 0 ends
without one of them: the receive displacements are all zero, so one message overwrites the other. -/
theorem C55_all2all_loses_data : ∃ ins : List (List (List (Nat × Nat))), ins.length = 3 ∧
    (∀ v ∈ ins, v.length = 3) ∧ (∀ v ∈ ins, ∀ m ∈ v, GoodMap U64 U64 m) ∧
    lookup 1 ((ins.getD 1 []).getD 0 []) = some 1 ∧ lookup 2 ((ins.getD 2 []).getD 0 []) = some 2 ∧
    ∀ order, order.Perm (List.range 3) → ∃ out, all2all (mapC 0 0 sizeT sizeT) [] insertAll ins order 0 = some out ∧
      (lookup 1 out = none ∨ lookup 2 out = none) := by
  refine ⟨[[[], [], []], [[(1, 1)], [], []], [[(2, 2)], [], []]], by simp, by simp, ?_, by decide, by decide, ?_⟩
  · intro v hv m hm
    simp at hv
    rcases hv with h | h | h <;> subst h <;> simp at hm
    · subst hm; exact ⟨by decide, by simp [Sorted], by simp⟩
    · rcases hm with h | h <;> subst h <;> exact ⟨by decide, by simp [Sorted], by simp [U64]⟩
    · rcases hm with h | h <;> subst h <;> exact ⟨by decide, by simp [Sorted], by simp [U64]⟩
  · intro order ho
    have hperm : order ∈ (List.range 3).permutations' := List.mem_permutations'.2 ho
    have h2 : (List.range 3).permutations' = [[0, 1, 2], [1, 0, 2], [1, 2, 0], [0, 2, 1], [2, 0, 1], [2, 1, 0]] := by
      decide
    rw [h2] at hperm
    simp only [List.mem_cons, List.not_mem_nil, or_false] at hperm
    rcases hperm with h | h | h | h | h | h <;> subst h
    all_goals first
      | exact ⟨[(2, 2)], by decide +kernel, by decide⟩
      | exact ⟨[(1, 1)], by decide +kernel, by decide⟩

/-- Two ranks exchanging one item each way, delivered in either order. -/
example : all2all (mapC 0 0 sizeT sizeT) [] insertAll [[[(1, 1)], [(2, 2)]], [[(3, 3)], []]] [1, 0] 0 =
    some [(1, 1), (3, 3)] ∧
    all2all (mapC 0 0 sizeT sizeT) [] insertAll [[[(1, 1)], [(2, 2)]], [[(3, 3)], []]] [0, 1] 1 = some [(2, 2)] := by
  decide +kernel

end Verif.Comm
