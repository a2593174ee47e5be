import Verif.Comm.Lemmas
/-! C45, C46, C55: what the collective operations deliver.

Specification vocabulary: `lookup k m` is the value of key `k` in a `std::map`, `findSome?` (core Lean) is the first
`some` along a list.  `order` is any order in which MPI delivers the ranks' messages. -/
namespace Verif.Comm
open Verif.Ser

section Maps
variable {κ ν : Type} [LinearOrder κ]

theorem lookup_mapPut (k k' : κ) (v : ν) (m : List (κ × ν)) :
    lookup k (mapPut k' v m) = if k = k' then some v else lookup k m := by
  induction m with
  | nil => simp [mapPut, lookup]
  | cons e m ih =>
    obtain ⟨k'', v''⟩ := e
    rw [mapPut]
    split
    · simp only [lookup]
    · split
      · rename_i h1 h2
        subst h2
        simp only [lookup]
        split <;> rfl
      · rename_i h1 h2
        simp only [lookup, ih]
        split
        · rename_i h3
          subst h3
          rw [if_neg (fun e => h2 e.symm)]
        · rfl

theorem lookup_mapInsert (k : κ) (m : List (κ × ν)) (e : κ × ν) :
    lookup k (mapInsert m e) = (lookup k m).or (if k = e.1 then some e.2 else none) := by
  unfold mapInsert
  split
  · rename_i v hv
    split
    · rename_i h; rw [h, hv]; rfl
    · simp
  · rename_i hv
    rw [lookup_mapPut]
    split
    · rename_i h; rw [h, hv]; rfl
    · simp

theorem lookup_insertAll (k : κ) (m out : List (κ × ν)) :
    lookup k (insertAll m out) = (lookup k out).or (lookup k m) := by
  unfold insertAll
  induction m generalizing out with
  | nil => simp [lookup]
  | cons e m ih =>
    rw [List.foldl_cons, ih, lookup_mapInsert]
    obtain ⟨k', v⟩ := e
    simp only [lookup, Option.or_assoc]
    split <;> simp

theorem mapPut_keys (k : κ) (v : ν) (m : List (κ × ν)) (e : κ × ν) (h : e ∈ mapPut k v m) : e = (k, v) ∨ e ∈ m := by
  induction m with
  | nil => simp [mapPut] at h; exact .inl h
  | cons a m ih =>
    obtain ⟨k', v'⟩ := a
    rw [mapPut] at h
    split at h
    · simpa using h
    · split at h
      · rename_i h2
        simp at h ⊢; tauto
      · simp only [List.mem_cons] at h ⊢
        rcases h with h | h
        · exact .inr (.inl h)
        · rcases ih h with h | h
          · exact .inl h
          · exact .inr (.inr h)

theorem sorted_mapPut (k : κ) (v : ν) (m : List (κ × ν)) (h : Sorted m) : Sorted (mapPut k v m) := by
  induction m with
  | nil => simp [mapPut, Sorted]
  | cons a m ih =>
    obtain ⟨k', v'⟩ := a
    obtain ⟨h1, h2⟩ := List.pairwise_cons.1 h
    rw [mapPut]
    split
    · rename_i hlt
      refine List.pairwise_cons.2 ⟨fun e he => ?_, h⟩
      rcases List.mem_cons.1 he with he | he
      · subst he; exact hlt
      · exact lt_trans hlt (h1 e he)
    · split
      · rename_i _ he
        subst he
        exact List.pairwise_cons.2 ⟨h1, h2⟩
      · rename_i hn hne
        refine List.pairwise_cons.2 ⟨fun e he => ?_, ih h2⟩
        rcases mapPut_keys k v m e he with he | he
        · subst he
          exact lt_of_le_of_ne (not_lt.1 hn) (fun e => hne e.symm)
        · exact h1 e he

theorem sorted_insertAll (m out : List (κ × ν)) (h : Sorted out) : Sorted (insertAll m out) := by
  unfold insertAll
  induction m generalizing out with
  | nil => exact h
  | cons e m ih =>
    refine ih _ ?_
    unfold mapInsert
    split
    · exact h
    · exact sorted_mapPut _ _ _ h

theorem lookup_merged (k : κ) (ms : List (List (κ × ν))) (out : List (κ × ν)) :
    lookup k (ms.foldl (fun o m => insertAll m o) out) = (out :: ms).findSome? (lookup k) := by
  induction ms generalizing out with
  | nil => rw [List.foldl_nil, List.findSome?_cons]; cases lookup k out <;> rfl
  | cons m ms ih =>
    rw [List.foldl_cons, ih, List.findSome?_cons, List.findSome?_cons, List.findSome?_cons, lookup_insertAll]
    cases lookup k out <;> rfl

theorem sorted_merged (ms : List (List (κ × ν))) (out : List (κ × ν)) (h : Sorted out) :
    Sorted (ms.foldl (fun o m => insertAll m o) out) := by
  induction ms generalizing out with
  | nil => exact h
  | cons m ms ih => exact ih _ (sorted_insertAll m out h)

end Maps

section Gather
variable {α : Type} {c : Codec α} {ok fresh : α → Prop} {enc : α → List UInt8}

theorem sum_map_length (P : List (List UInt8)) : (P.map List.length).foldl (· + ·) 0 = (P.map List.length).sum := by
  rw [foldl_add]; omega

theorem take_map_sum (P : List (List UInt8)) (i : Nat) : ((P.map List.length).take i).sum = start P i := by
  rw [start, List.map_take]

/-- (specification) the values of the ranks other than `root`, in rank order -/
def others (ins : List α) (root : Nat) : List α := ins.take root ++ ins.drop (root + 1)

theorem gather_pieces (enc : α → List UInt8) (ins : List α) (root : Nat) (d : α) (hr : root < ins.length) :
    ((List.range ins.length).map fun i => if i ≠ root then enc (ins.getD i d) else []).flatten =
      encAll enc (others ins root) := by
  have key : ∀ n ≤ ins.length, ((List.range n).map fun i => if i ≠ root then enc (ins.getD i d) else []).flatten =
      encAll enc (if n ≤ root then ins.take n else ins.take root ++ (ins.take n).drop (root + 1)) := by
    intro n hn
    induction n with
    | zero => simp [encAll]
    | succ n ih =>
      rw [List.range_succ, List.map_append, List.flatten_append, ih (by omega)]
      have hg : (ins.take (n + 1)) = ins.take n ++ [ins.getD n d] := by
        rw [List.take_add_one]; simp [show n < ins.length by omega]
      rcases lt_trichotomy n root with h | h | h
      · rw [if_pos (by omega), if_pos (by omega), hg]
        simp [encAll, show n ≠ root by omega]
      · subst h
        rw [if_pos (le_refl _), if_neg (by omega), List.drop_eq_nil_of_le (by simp)]
        simp [encAll]
      · rw [if_neg (by omega), if_neg (by omega), hg, List.drop_append_of_le_length (by simp; omega)]
        simp [encAll, show n ≠ root by omega]
  rw [key _ (le_refl _), if_neg (by omega), List.take_length]
  rfl

/-- **C45 (any codec and merger).** On the root, `gather` gives the root's value merged with every other rank's value, in
rank order; every other rank's `out` is untouched.  Nothing is read or written out of bounds, whatever the delivery
order. -/
theorem C45_gather_fold (hc : Lawful c ok fresh enc) (hne : ∀ a, ok a → enc a ≠ []) (d : α) (hd : fresh d)
    (merge : α → α → α) (ins : List α) (root : Nat) (hr : root < ins.length) (hok : ∀ m ∈ ins, ok m)
    (hsize : ((others ins root).map fun m => (serializeToString c m).length).sum < 2 ^ 31)
    (order : List Nat) (ho : order.Perm (List.range ins.length)) (r : Nat) (out : α) :
    gather c d merge ins root order r out =
      some (if r = root then (others ins root).foldl (fun o m => merge m o) (ins.getD root d) else out) := by
  have hser : ((List.range ins.length).map fun i => if i ≠ root then serializeToString c (ins.getD i d) else []) =
      (List.range ins.length).map fun i => if i ≠ root then enc (ins.getD i d) else [] := by
    apply List.map_congr_left
    intro i hi
    have hi : i < ins.length := by simpa using hi
    split
    · rw [serialize_eq hc]
      refine hok _ ?_
      simp [hi]
    · rfl
  have hoth : ∀ m ∈ others ins root, ok m := by
    intro m hm
    rcases List.mem_append.1 hm with h | h
    · exact hok m (List.mem_of_mem_take h)
    · exact hok m (List.mem_of_mem_drop h)
  have hflat := gather_pieces enc ins root d hr
  unfold gather
  simp only
  rw [hser, sum_map_length]
  generalize hP : (List.range ins.length).map (fun i => if i ≠ root then enc (ins.getD i d) else []) = P at hflat
  have hPl : P.length = ins.length := by rw [← hP]; simp
  have htot : (P.map List.length).sum < 2 ^ 31 := by
    have h2 : (P.map List.length).sum = ((others ins root).map fun m => (serializeToString c m).length).sum := by
      have h3 : (others ins root).map (fun m => (serializeToString c m).length) =
          (others ins root).map fun m => (enc m).length := by
        apply List.map_congr_left
        intro m hm
        rw [serialize_eq hc m (hoth m hm)]
      rw [h3, ← List.length_flatten, hflat, encAll, List.length_flatten, List.map_map]
      rfl
    omega
  rw [if_pos htot]
  split
  · rw [receive_eq P _ order _ (fun i hi => by
        rw [displsLoop_eq _ _ (by simpa using hi), take_map_sum]) (hPl ▸ ho) rfl]
    rw [Option.bind_some]
    exact mergeLoop_eq hc hne d hd merge (others ins root) _ _ hoth (at_start _ hflat)
  · rfl

/-- **C45 (allgather, any codec and merger).** On every rank `allgather` merges every rank's value, in rank order, into the
previous value of `out`. -/
theorem C45_allgather_fold (hc : Lawful c ok fresh enc) (hne : ∀ a, ok a → enc a ≠ []) (d : α) (hd : fresh d)
    (merge : α → α → α) (ins : List α) (hok : ∀ m ∈ ins, ok m)
    (hsize : (ins.map fun m => (serializeToString c m).length).sum < 2 ^ 31)
    (order : List Nat) (ho : order.Perm (List.range ins.length)) (out : α) :
    allgather c d merge ins order out = some (ins.foldl (fun o m => merge m o) out) := by
  have hser : ins.map (serializeToString c) = ins.map enc :=
    List.map_congr_left fun m hm => serialize_eq hc m (hok m hm)
  have hlen : (ins.map fun m => (serializeToString c m).length) = (ins.map enc).map List.length := by
    rw [← hser, List.map_map]; rfl
  unfold allgather
  simp only
  rw [hser, sum_map_length, if_pos (by rw [hlen] at hsize; exact hsize)]
  rw [receive_eq (ins.map enc) _ order _ (fun i hi => by
      rw [displsLoop_eq _ _ (by simpa using hi), take_map_sum]) (by simpa using ho) rfl, Option.bind_some]
  exact mergeLoop_eq hc hne d hd merge ins _ _ hok (at_start _ rfl)

end Gather

section Main
variable {κ ν : Type} [LinearOrder κ]

/-- (specification) a map of the size and with the keys and values that can be serialized -/
def GoodMap {κ ν : Type} [LinearOrder κ] (ok : κ → Prop) (ok' : ν → Prop) (m : List (κ × ν)) : Prop :=
  m.length < 2 ^ 64 ∧ Sorted m ∧ ∀ e ∈ m, ok e.1 ∧ ok' e.2

omit [LinearOrder κ] in
theorem encMap_ne {enc : κ → List UInt8} {enc' : ν → List UInt8} (m : List (κ × ν)) :
    encLE 8 m.length ++ encAll (fun e : κ × ν => enc e.1 ++ enc' e.2) m ≠ [] := by
  intro h
  have := congrArg List.length h
  simp [encLE_length] at this

/-- **C45.** After `gather(comm, in, out, root)` of maps, on the root the value of a key is the root's own if it has one,
else that of the lowest rank that has it, and absent keys are those that no rank has; `out` of other ranks is untouched.
This holds for any number of ranks, any root, any maps whose serialized size fits an `int`, and any delivery order. -/
theorem C45_gather (dk : κ) (dv : ν) {ck : Codec κ} {cv : Codec ν} {ok fresh enc ok' fresh' enc'}
    (hk : Lawful ck ok fresh enc) (hv : Lawful cv ok' fresh' enc') (hdk : fresh dk) (hdv : fresh' dv)
    (ins : List (List (κ × ν))) (root : Nat) (hr : root < ins.length) (hok : ∀ m ∈ ins, GoodMap ok ok' m)
    (hsize : ((others ins root).map fun m => (serializeToString (mapC dk dv ck cv) m).length).sum < 2 ^ 31)
    (order : List Nat) (ho : order.Perm (List.range ins.length)) (r : Nat) (out : List (κ × ν)) :
    ∃ out', gather (mapC dk dv ck cv) [] insertAll ins root order r out = some out' ∧
      (r ≠ root → out' = out) ∧
      (r = root → Sorted out' ∧
        (∀ k, lookup k out' = (ins.getD root [] :: others ins root).findSome? (lookup k)) ∧
        (∀ k, lookup k out' = none ↔ ∀ m ∈ ins, lookup k m = none)) := by
  have h := C45_gather_fold (mapC_lawful dk dv hk hv hdk hdv) (fun m _ => encMap_ne m) [] rfl insertAll ins root hr hok
    hsize order ho r out
  refine ⟨_, h, fun hne => by rw [if_neg hne], fun he => ?_⟩
  rw [if_pos he]
  have hroot : ins.getD root [] ∈ ins := by simp [hr]
  refine ⟨sorted_merged _ _ (hok _ hroot).2.1, fun k => lookup_merged k _ _, fun k => ?_⟩
  rw [lookup_merged, List.findSome?_eq_none_iff]
  have hmem : ∀ m, m ∈ ins.getD root [] :: others ins root ↔ m ∈ ins := by
    intro m
    have e : ins = ins.take root ++ ins.getD root [] :: ins.drop (root + 1) := by
      conv_lhs => rw [← List.take_append_drop root ins, List.drop_eq_getElem_cons hr]
      simp [hr]
    conv_rhs => rw [e]
    simp only [others, List.mem_cons, List.mem_append]
    tauto
  exact forall_congr' fun m => by rw [hmem]

/-- **C45 (allgather).** Afterwards on every rank the value of a key is the previous one of `out` if there is one, else
that of the lowest rank that has it. -/
theorem C45_allgather (dk : κ) (dv : ν) {ck : Codec κ} {cv : Codec ν} {ok fresh enc ok' fresh' enc'}
    (hk : Lawful ck ok fresh enc) (hv : Lawful cv ok' fresh' enc') (hdk : fresh dk) (hdv : fresh' dv)
    (ins : List (List (κ × ν))) (hok : ∀ m ∈ ins, GoodMap ok ok' m)
    (hsize : (ins.map fun m => (serializeToString (mapC dk dv ck cv) m).length).sum < 2 ^ 31)
    (order : List Nat) (ho : order.Perm (List.range ins.length)) (out : List (κ × ν)) (hs : Sorted out) :
    ∃ out', allgather (mapC dk dv ck cv) [] insertAll ins order out = some out' ∧ Sorted out' ∧
      ∀ k, lookup k out' = (out :: ins).findSome? (lookup k) :=
  ⟨_, C45_allgather_fold (mapC_lawful dk dv hk hv hdk hdv) (fun m _ => encMap_ne m) [] rfl insertAll ins hok hsize order ho
    out, sorted_merged _ _ hs, fun k => lookup_merged k _ _⟩

theorem mem_setPut (x k : κ) (m : List κ) : x ∈ setPut k m ↔ x = k ∨ x ∈ m := by
  induction m with
  | nil => simp [setPut]
  | cons a m ih =>
    rw [setPut]
    split
    · simp
    · split
      · rename_i h; subst h; simp
      · simp [ih]; tauto

theorem mem_insertKeys (x : κ) (m out : List κ) : x ∈ insertKeys m out ↔ x ∈ out ∨ x ∈ m := by
  unfold insertKeys
  induction m generalizing out with
  | nil => simp
  | cons a m ih => rw [List.foldl_cons, ih, mem_setPut]; simp; tauto

/-- **C45 (sets).** `gather` of sets (`related_cells`) gives the root the union of all ranks' sets. -/
theorem C45_gather_set (dk : κ) {ck : Codec κ} {ok fresh enc} (hk : Lawful ck ok fresh enc) (hdk : fresh dk)
    (ins : List (List κ)) (root : Nat) (hr : root < ins.length)
    (hok : ∀ m ∈ ins, m.length < 2 ^ 64 ∧ m.Pairwise (· < ·) ∧ ∀ e ∈ m, ok e)
    (hsize : ((others ins root).map fun m => (serializeToString (setC dk ck) m).length).sum < 2 ^ 31)
    (order : List Nat) (ho : order.Perm (List.range ins.length)) (out : List κ) :
    ∃ out', gather (setC dk ck) [] insertKeys ins root order root out = some out' ∧
      ∀ k, k ∈ out' ↔ ∃ m ∈ ins, k ∈ m := by
  have h := C45_gather_fold (setC_lawful dk hk hdk) (fun m _ h => by
    have := congrArg List.length h
    simp [encLE_length] at this) [] rfl insertKeys ins root hr hok hsize order ho root out
  refine ⟨_, h, fun k => ?_⟩
  rw [if_pos rfl]
  have key : ∀ (ms : List (List κ)) (o : List κ), k ∈ ms.foldl (fun o m => insertKeys m o) o ↔
      k ∈ o ∨ ∃ m ∈ ms, k ∈ m := by
    intro ms
    induction ms with
    | nil => simp
    | cons m ms ih => intro o; rw [List.foldl_cons, ih, mem_insertKeys]; simp; tauto
  rw [key]
  have e : ins = ins.take root ++ ins.getD root [] :: ins.drop (root + 1) := by
    conv_lhs => rw [← List.take_append_drop root ins, List.drop_eq_getElem_cons hr]
    simp [hr]
  constructor
  · rintro (h | ⟨m, h1, h2⟩)
    · exact ⟨_, by simp [hr], h⟩
    · refine ⟨m, ?_, h2⟩
      rcases List.mem_append.1 h1 with h | h
      · exact List.mem_of_mem_take h
      · exact List.mem_of_mem_drop h
  · rintro ⟨m, h1, h2⟩
    rw [e] at h1
    simp only [List.mem_append, List.mem_cons] at h1
    rcases h1 with h | h | h
    · exact .inr ⟨m, by simp [others, h], h2⟩
    · exact .inl (h ▸ h2)
    · exact .inr ⟨m, by simp [others, h], h2⟩

end Main

/-- Three ranks with overlapping keys, root 1: the root's 7 wins over rank 0's 5 for key 2; rank 0 beats rank 2 for key 1.
The hypotheses of `C45_gather` hold for it. -/
example : gather (mapC 0 0 sizeT sizeT) [] insertAll [[(1, 3), (2, 5)], [(2, 7)], [(1, 9), (4, 4)]] 1 [2, 0, 1] 1 [] =
    some [(1, 3), (2, 7), (4, 4)] := by decide +kernel

example : (∀ m ∈ [[(1, 3), (2, 5)], [(2, 7)], [(1, 9), (4, 4)]], GoodMap U64 U64 m) ∧
    ((others [[(1, 3), (2, 5)], [(2, 7)], [(1, 9), (4, 4)]] 1).map fun m =>
      (serializeToString (mapC 0 0 sizeT sizeT) m).length).sum < 2 ^ 31 ∧
    [2, 0, 1].Perm (List.range 3) := by
  refine ⟨?_, by decide +kernel, by decide⟩
  intro m hm
  simp at hm
  rcases hm with h | h | h <;> subst h <;>
    exact ⟨by decide, by simp [Sorted], by simp [U64]⟩

end Verif.Comm
