import Verif.Serial.Model
import Mathlib.Tactic.Ring
/-! Round-trip laws of the serializers, compositionally. -/
namespace Verif.Ser

/-- (specification) move the cursor -/
def Buf.skip (b : Buf) (n : Nat) : Buf := { b with pos := b.pos + n }

/-- (specification) the bytes from the cursor on are `xs` followed by `rest` -/
def At (b : Buf) (xs rest : List UInt8) : Prop := b.pos ≤ b.str.length ∧ b.str.drop b.pos = xs ++ rest

/-- (proof device) `c` writes the bytes `enc a` at the cursor and reads exactly them back, giving `res x a` when loading
over `x`. -/
structure Codes {α : Type} (c : Codec α) (ok : α → Prop) (fresh : α → Prop) (enc : α → List UInt8)
    (res : α → α → α) : Prop where
  save : ∀ a b, ok a → b.pos ≤ b.str.length → c.save a b = b.saveBinary (enc a)
  load : ∀ a x b rest, ok a → fresh x → At b (enc a) rest → c.load x b = some (res x a, b.skip (enc a).length)

/-- (proof device) the loaded object is the saved one. -/
abbrev Lawful {α : Type} (c : Codec α) (ok : α → Prop) (fresh : α → Prop) (enc : α → List UInt8) : Prop :=
  Codes c ok fresh enc fun _ a => a

theorem saveBinary_pos (b : Buf) (xs : List UInt8) (h : b.pos ≤ b.str.length) :
    (b.saveBinary xs).pos ≤ (b.saveBinary xs).str.length := by
  unfold Buf.saveBinary
  simp only
  split <;> simp <;> omega

theorem saveBinary_nil (b : Buf) (h : b.pos ≤ b.str.length) : b.saveBinary [] = b := by
  unfold Buf.saveBinary
  have : ¬ b.pos + ([] : List UInt8).length > b.str.length := by simp; omega
  rw [if_neg this]
  simp

theorem saveBinary_eq (b : Buf) (zs : List UInt8) (h : b.pos ≤ b.str.length) : b.saveBinary zs =
    { str := b.str.take b.pos ++ zs ++ b.str.drop (b.pos + zs.length), pos := b.pos + zs.length } := by
  unfold Buf.saveBinary
  split
  · rename_i hl
    simp only [Buf.mk.injEq, and_true]
    rw [List.take_append_of_le_length h]
    congr 1
    rw [List.drop_eq_nil_of_le (by simp; omega), List.drop_eq_nil_of_le (by omega)]
  · rfl

theorem saveBinary_append (b : Buf) (xs ys : List UInt8) (h : b.pos ≤ b.str.length) :
    (b.saveBinary xs).saveBinary ys = b.saveBinary (xs ++ ys) := by
  have h2 : (b.saveBinary xs).pos ≤ (b.saveBinary xs).str.length := saveBinary_pos b xs h
  rw [saveBinary_eq _ ys h2, saveBinary_eq b xs h, saveBinary_eq b _ h]
  have hlen : (b.str.take b.pos).length = b.pos := by simp; omega
  simp only [Buf.mk.injEq, List.length_append]
  refine ⟨?_, by omega⟩
  have e1 : (b.str.take b.pos ++ xs ++ b.str.drop (b.pos + xs.length)).take (b.pos + xs.length) =
      b.str.take b.pos ++ xs := by
    apply List.take_left'
    simp; omega
  have e2 : (b.str.take b.pos ++ xs ++ b.str.drop (b.pos + xs.length)).drop (b.pos + xs.length + ys.length) =
      b.str.drop (b.pos + (xs.length + ys.length)) := by
    rw [List.drop_append]
    have : (List.take b.pos b.str ++ xs).length = b.pos + xs.length := by simp; omega
    rw [this, List.drop_eq_nil_of_le (by omega), List.nil_append, List.drop_drop]
    congr 1
    omega
  rw [e1, e2]
  simp [List.append_assoc]

theorem At.skip {b : Buf} {xs ys rest : List UInt8} (h : At b (xs ++ ys) rest) : At (b.skip xs.length) ys rest := by
  obtain ⟨h1, h2⟩ := h
  have hl := congrArg List.length h2
  simp at hl
  refine ⟨?_, ?_⟩
  · show b.pos + xs.length ≤ b.str.length
    omega
  · show b.str.drop (b.pos + xs.length) = ys ++ rest
    rw [← List.drop_drop, h2, List.append_assoc, List.drop_left]

theorem At.left {b : Buf} {xs ys rest : List UInt8} (h : At b (xs ++ ys) rest) : At b xs (ys ++ rest) :=
  ⟨h.1, by rw [h.2, List.append_assoc]⟩

theorem skip_skip (b : Buf) (m n : Nat) : (b.skip m).skip n = b.skip (m + n) := by
  simp [Buf.skip, Nat.add_assoc]

theorem skip_zero (b : Buf) : b.skip 0 = b := rfl

theorem loadBinary_eq {b : Buf} {xs rest : List UInt8} (h : At b xs rest) :
    b.loadBinary xs.length = some (xs, b.skip xs.length) := by
  obtain ⟨h1, h2⟩ := h
  have hl := congrArg List.length h2
  simp at hl
  unfold Buf.loadBinary
  rw [if_pos (by omega), h2, List.take_left]
  rfl

theorem encLE_length (n v : Nat) : (encLE n v).length = n := by
  induction n generalizing v with
  | zero => rfl
  | succ n ih => simp [encLE, ih]

theorem decLE_encLE (n v : Nat) (h : v < 256 ^ n) : decLE (encLE n v) = v := by
  induction n generalizing v with
  | zero => simp [encLE, decLE] at *; omega
  | succ n ih =>
    have h1 : v / 256 < 256 ^ n := by
      rw [Nat.div_lt_iff_lt_mul (by norm_num)]; rw [pow_succ] at h; exact h
    rw [encLE, decLE, ih _ h1]
    have : (UInt8.ofNat (v % 256)).toNat = v % 256 := by
      rw [UInt8.toNat_ofNat']; omega
    rw [this]; omega

theorem uint_lawful (n : Nat) : Lawful (uint n) (fun v => v < 256 ^ n) (fun _ => True) (encLE n) where
  save _ _ _ _ := rfl
  load a x b rest ha _ h := by
    have := loadBinary_eq h
    rw [encLE_length] at this
    simp only [uint, this, Option.map_some, decLE_encLE n a ha, encLE_length]

theorem sizeT_lawful : Lawful sizeT (fun v => v < 2 ^ 64) (fun _ => True) (encLE 8) := by
  have := uint_lawful 8
  have e : (256 : Nat) ^ 8 = 2 ^ 64 := by norm_num
  rw [e] at this
  exact this

theorem int32_lawful : Lawful int32 (fun v => -2 ^ 31 ≤ v ∧ v < 2 ^ 31) (fun _ => True)
    (fun v => encLE 4 (v % 2 ^ 32).toNat) where
  save _ _ _ _ := rfl
  load a x b rest ha _ h := by
    have hlt : (a % 2 ^ 32).toNat < 256 ^ 4 := by norm_num; omega
    have := (uint_lawful 4).load (a % 2 ^ 32).toNat 0 b rest hlt trivial h
    simp only [int32, this, Option.map_some]
    congr 2
    split <;> omega

theorem boolC_lawful : Lawful boolC (fun _ => True) (fun _ => True) (fun v => encLE 1 v.toNat) where
  save _ _ _ _ := rfl
  load a x b rest _ _ h := by
    have hlt : a.toNat < 256 ^ 1 := by cases a <;> norm_num
    have := (uint_lawful 1).load a.toNat 0 b rest hlt trivial h
    simp only [boolC, this, Option.map_some]
    cases a <;> rfl

section Comb
variable {α β : Type}

/-- (proof device) encoding of a sequence -/
def encAll (enc : α → List UInt8) (xs : List α) : List UInt8 := (xs.map enc).flatten

theorem saveAll_eq {c : Codec α} {ok fresh enc res} (hc : Codes c ok fresh enc res) (xs : List α) (b : Buf)
    (hok : ∀ x ∈ xs, ok x) (hb : b.pos ≤ b.str.length) : saveAll c xs b = b.saveBinary (encAll enc xs) := by
  induction xs generalizing b with
  | nil => simp [saveAll, encAll, saveBinary_nil b hb]
  | cons x xs ih =>
    have h1 := hc.save x b (hok x (by simp)) hb
    unfold saveAll at ih ⊢
    rw [List.foldl_cons, h1, ih _ (fun y hy => hok y (by simp [hy])) (saveBinary_pos _ _ hb),
      saveBinary_append _ _ _ hb]
    rfl

theorem loadAll_eq {c : Codec α} {ok fresh enc} (hc : Lawful c ok fresh enc) (xs ds : List α) (b : Buf)
    (rest : List UInt8) (hl : ds.length = xs.length)
    (hok : ∀ x ∈ xs, ok x) (hfr : ∀ d ∈ ds, fresh d) (hb : At b (encAll enc xs) rest) :
    loadAll c ds b = some (xs, b.skip (encAll enc xs).length) := by
  induction xs generalizing ds b with
  | nil =>
    have : ds = [] := List.length_eq_zero_iff.1 hl
    subst this
    rfl
  | cons x xs ih =>
    cases ds with
    | nil => simp at hl
    | cons d ds =>
      have hb' : At b (enc x ++ encAll enc xs) rest := hb
      rw [loadAll, hc.load x d b _ (hok x (by simp)) (hfr d (by simp)) hb'.left]
      simp only [Option.bind_some]
      rw [ih ds _ (by simpa using hl) (fun y hy => hok y (by simp [hy])) (fun y hy => hfr y (by simp [hy])) hb'.skip]
      simp [skip_skip, encAll]

theorem arr_lawful (n : Nat) (d : α) {c : Codec α} {ok fresh enc} (hc : Lawful c ok fresh enc) (hd : fresh d) :
    Lawful (arr n d c) (fun xs => xs.length = n ∧ ∀ x ∈ xs, ok x) (fun _ => True) (encAll enc) where
  save xs b h hb := saveAll_eq hc xs b h.2 hb
  load xs x b rest h _ hb := loadAll_eq hc xs (List.replicate n d) b rest (by simp [h.1]) h.2
    (fun y hy => by rw [List.eq_of_mem_replicate hy]; exact hd) hb

theorem vec_lawful (d : α) {c : Codec α} {ok fresh enc} (hc : Lawful c ok fresh enc) (hd : fresh d) :
    Lawful (vec d c) (fun xs => xs.length < 2 ^ 64 ∧ ∀ x ∈ xs, ok x) (fun xs => ∀ x ∈ xs, fresh x)
      (fun xs => encLE 8 xs.length ++ encAll enc xs) where
  save xs b h hb := by
    show saveAll c xs (sizeT.save xs.length b) = _
    rw [sizeT_lawful.save _ _ h.1 hb, saveAll_eq hc xs _ h.2 (saveBinary_pos _ _ hb), saveBinary_append _ _ _ hb]
  load xs v b rest h hv hb := by
    simp only [vec]
    rw [sizeT_lawful.load xs.length 0 b _ h.1 trivial hb.left]
    simp only [Option.bind_some]
    rw [loadAll_eq hc xs _ _ rest (by simp; omega) h.2 _ hb.skip, skip_skip, List.length_append]
    intro y hy
    rcases List.mem_append.1 hy with hy | hy
    · exact hv y (List.mem_of_mem_take hy)
    · rw [List.eq_of_mem_replicate hy]; exact hd

theorem pair_codes {c : Codec α} {d : Codec β} {ok fresh enc res ok' fresh' enc' res'} (hc : Codes c ok fresh enc res)
    (hd : Codes d ok' fresh' enc' res') :
    Codes (pair c d) (fun p => ok p.1 ∧ ok' p.2) (fun p => fresh p.1 ∧ fresh' p.2)
      (fun p => enc p.1 ++ enc' p.2) (fun x p => (res x.1 p.1, res' x.2 p.2)) where
  save p b h hb := by
    show d.save p.2 (c.save p.1 b) = _
    rw [hc.save _ _ h.1 hb, hd.save _ _ h.2 (saveBinary_pos _ _ hb), saveBinary_append _ _ _ hb]
  load p x b rest h hx hb := by
    simp only [pair]
    rw [hc.load p.1 x.1 b _ h.1 hx.1 hb.left]
    simp only [Option.bind_some]
    rw [hd.load p.2 x.2 _ rest h.2 hx.2 hb.skip]
    simp [skip_skip]

theorem pair_lawful {c : Codec α} {d : Codec β} {ok fresh enc ok' fresh' enc'} (hc : Lawful c ok fresh enc)
    (hd : Lawful d ok' fresh' enc') :
    Lawful (pair c d) (fun p => ok p.1 ∧ ok' p.2) (fun p => fresh p.1 ∧ fresh' p.2)
      (fun p => enc p.1 ++ enc' p.2) := pair_codes hc hd

theorem members_codes {σ : Type} (get : σ → α) (put : σ → α → σ) {c : Codec α} {ok fresh enc}
    (hc : Lawful c ok fresh enc) :
    Codes (members get put c) (fun s => ok (get s)) (fun s => fresh (get s)) (fun s => enc (get s))
      (fun x s => put x (get s)) where
  save s b h hb := hc.save _ b h hb
  load s x b rest h hx hb := by
    simp only [members]
    rw [hc.load (get s) (get x) b rest h hx hb]
    rfl

theorem members_lawful {σ : Type} (get : σ → α) (put : σ → α → σ) {c : Codec α} {ok fresh enc}
    (hc : Lawful c ok fresh enc) (hp : ∀ x s, put x (get s) = s) :
    Lawful (members get put c) (fun s => ok (get s)) (fun s => fresh (get s)) (fun s => enc (get s)) := by
  have := members_codes get put hc
  have e : (fun x s => put x (get s)) = fun (_ : σ) (s : σ) => s := by funext x s; exact hp x s
  rw [e] at this
  exact this

end Comb

section Maps
variable {κ ν : Type} [LinearOrder κ]

/-- (specification) strictly increasing keys: the shape of every `std::map` -/
def Sorted (m : List (κ × ν)) : Prop := m.Pairwise fun a b => a.1 < b.1

theorem lookup_none (m : List (κ × ν)) (k : κ) (h : ∀ e ∈ m, e.1 ≠ k) : lookup k m = none := by
  induction m with
  | nil => rfl
  | cons e m ih =>
    obtain ⟨k', v⟩ := e
    have := h (k', v) (by simp)
    rw [lookup, if_neg (fun e => this e.symm)]
    exact ih (fun e he => h e (by simp [he]))

theorem mapPut_last (m : List (κ × ν)) (k : κ) (v : ν) (h : ∀ e ∈ m, e.1 < k) : mapPut k v m = m ++ [(k, v)] := by
  induction m with
  | nil => rfl
  | cons e m ih =>
    obtain ⟨k', v'⟩ := e
    have := h (k', v') (by simp)
    rw [mapPut, if_neg (not_lt.2 (le_of_lt this)), if_neg (ne_of_gt this), ih (fun e he => h e (by simp [he]))]
    rfl

theorem loadEntries_eq (dk : κ) (dv : ν) {ck : Codec κ} {cv : Codec ν} {ok fresh enc ok' fresh' enc'}
    (hk : Lawful ck ok fresh enc) (hv : Lawful cv ok' fresh' enc') (hdk : fresh dk) (hdv : fresh' dv)
    (m m0 : List (κ × ν)) (b : Buf) (rest : List UInt8)
    (hs : Sorted (m0 ++ m)) (hok : ∀ e ∈ m, ok e.1 ∧ ok' e.2)
    (hb : At b (encAll (fun e : κ × ν => enc e.1 ++ enc' e.2) m) rest) :
    loadEntries dk dv ck cv m.length m0 b =
      some (m0 ++ m, b.skip (encAll (fun e : κ × ν => enc e.1 ++ enc' e.2) m).length) := by
  induction m generalizing m0 b with
  | nil => simp [loadEntries, encAll, skip_zero]
  | cons e m ih =>
    obtain ⟨k, v⟩ := e
    have hb' : At b ((enc k ++ enc' v) ++ encAll (fun e : κ × ν => enc e.1 ++ enc' e.2) m) rest := hb
    have hb2 : At b (enc k ++ (enc' v ++ encAll (fun e : κ × ν => enc e.1 ++ enc' e.2) m)) rest := by
      rw [← List.append_assoc]; exact hb'
    obtain ⟨o1, o2⟩ := hok (k, v) (by simp)
    have hlt : ∀ e ∈ m0, e.1 < k := by
      intro e he
      have := (List.pairwise_append.1 hs).2.2 e he (k, v) (by simp)
      exact this
    have hlook : lookup k m0 = none := lookup_none m0 k (fun e he => ne_of_lt (hlt e he))
    simp only [List.length_cons, loadEntries]
    rw [hk.load k dk b _ o1 hdk hb2.left]
    simp only [Option.bind_some, hlook, Option.getD_none]
    rw [hv.load v dv _ _ o2 hdv hb2.skip.left]
    simp only [Option.bind_some]
    rw [mapPut_last m0 k v hlt, ih _ _ (by simpa using hs) (fun e he => hok e (by simp [he])) hb2.skip.skip]
    simp [encAll, skip_skip, Nat.add_assoc]

theorem mapC_lawful (dk : κ) (dv : ν) {ck : Codec κ} {cv : Codec ν} {ok fresh enc ok' fresh' enc'}
    (hk : Lawful ck ok fresh enc) (hv : Lawful cv ok' fresh' enc') (hdk : fresh dk) (hdv : fresh' dv) :
    Lawful (mapC dk dv ck cv) (fun m => m.length < 2 ^ 64 ∧ Sorted m ∧ ∀ e ∈ m, ok e.1 ∧ ok' e.2) (fun m => m = [])
      (fun m => encLE 8 m.length ++ encAll (fun e : κ × ν => enc e.1 ++ enc' e.2) m) where
  save m b h hb := by
    show saveAll (pair ck cv) m (sizeT.save m.length b) = _
    rw [sizeT_lawful.save _ _ h.1 hb, saveAll_eq (pair_lawful hk hv) m _ h.2.2 (saveBinary_pos _ _ hb),
      saveBinary_append _ _ _ hb]
  load m x b rest h hx hb := by
    subst hx
    simp only [mapC]
    rw [sizeT_lawful.load m.length 0 b _ h.1 trivial hb.left]
    simp only [Option.bind_some]
    rw [loadEntries_eq dk dv hk hv hdk hdv m [] _ rest (by simpa using h.2.1) h.2.2 hb.skip, skip_skip,
      List.length_append]
    rfl

theorem setPut_last (m : List κ) (k : κ) (h : ∀ e ∈ m, e < k) : setPut k m = m ++ [k] := by
  induction m with
  | nil => rfl
  | cons k' m ih =>
    have := h k' (by simp)
    rw [setPut, if_neg (not_lt.2 (le_of_lt this)), if_neg (ne_of_gt this), ih (fun e he => h e (by simp [he]))]
    rfl

theorem loadKeys_eq (dk : κ) {ck : Codec κ} {ok fresh enc} (hk : Lawful ck ok fresh enc) (hdk : fresh dk)
    (m m0 : List κ) (b : Buf) (rest : List UInt8) (hs : (m0 ++ m).Pairwise (· < ·)) (hok : ∀ e ∈ m, ok e)
    (hb : At b (encAll enc m) rest) :
    loadKeys dk ck m.length m0 b = some (m0 ++ m, b.skip (encAll enc m).length) := by
  induction m generalizing m0 b with
  | nil => simp [loadKeys, encAll, skip_zero]
  | cons k m ih =>
    have hb' : At b (enc k ++ encAll enc m) rest := hb
    have hlt : ∀ e ∈ m0, e < k := fun e he => (List.pairwise_append.1 hs).2.2 e he k (by simp)
    simp only [List.length_cons, loadKeys]
    rw [hk.load k dk b _ (hok k (by simp)) hdk hb'.left]
    simp only [Option.bind_some]
    rw [setPut_last m0 k hlt, ih _ _ (by simpa using hs) (fun e he => hok e (by simp [he])) hb'.skip]
    simp [encAll, skip_skip]

theorem setC_lawful (dk : κ) {ck : Codec κ} {ok fresh enc} (hk : Lawful ck ok fresh enc) (hdk : fresh dk) :
    Lawful (setC dk ck) (fun m => m.length < 2 ^ 64 ∧ m.Pairwise (· < ·) ∧ ∀ e ∈ m, ok e) (fun m => m = [])
      (fun m => encLE 8 m.length ++ encAll enc m) where
  save m b h hb := by
    show saveAll ck m (sizeT.save m.length b) = _
    rw [sizeT_lawful.save _ _ h.1 hb, saveAll_eq hk m _ h.2.2 (saveBinary_pos _ _ hb), saveBinary_append _ _ _ hb]
  load m x b rest h hx hb := by
    subst hx
    simp only [setC]
    rw [sizeT_lawful.load m.length 0 b _ h.1 trivial hb.left]
    simp only [Option.bind_some]
    rw [loadKeys_eq dk hk hdk m [] _ rest (by simpa using h.2.1) h.2.2 hb.skip, skip_skip, List.length_append]
    rfl

end Maps

end Verif.Ser
