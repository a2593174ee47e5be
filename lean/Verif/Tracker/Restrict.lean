import Verif.Tracker.Offline
import Verif.Tracker.Online
/-! The tracing code only looks at neighbors that are keys: a neighbor function may be restricted to any set that
contains the keys. -/
namespace Verif.Gr
variable {α : Type} [LinearOrder α]

/-- `nb'` is `nb` restricted to `p` -/
def Restr (p : α → Bool) (nb nb' : α → List α) : Prop := ∀ x, p x = true → nb' x = (nb x).filter p

theorem filter_restr {p q : α → Bool} (h : ∀ x, q x = true → p x = true) (l : List α) :
    (l.filter p).filter q = l.filter q := by
  rw [List.filter_filter]
  apply List.filter_congr
  intro x _
  cases hq : q x with
  | false => simp
  | true => simp [h x hq]

theorem find_restr {p q : α → Bool} (h : ∀ x, q x = true → p x = true) (l : List α) :
    (l.filter p).find? q = l.find? q := by
  rw [List.find?_filter]
  congr 1
  funext x
  cases hq : q x with
  | false => simp
  | true => simp [h x hq]

theorem find_eles {s s' : UF.UnionFind α} {i r : α} (h : s.find i = some (s', r)) : s'.eles = s.eles := by
  unfold UF.UnionFind.find at h
  split at h
  · cases h
  · cases h; rfl

theorem unite_eles {s s' : UF.UnionFind α} {i j : α} (h : s.unite i j = some s') : s'.eles = s.eles := by
  unfold UF.UnionFind.unite at h
  split at h
  · cases h
  · rename_i s1 ri h1
    split at h
    · cases h
    · rename_i s2 rj h2
      have := (find_eles h2).trans (find_eles h1)
      split at h <;> split at h <;> cases h <;> exact this

theorem uniteNbs_restr (p : α → Bool) (cur : α) : ∀ (ns : List α) (s : UF.UnionFind α), (∀ x ∈ s.eles, p x = true) →
    uniteNbs cur (ns.filter p) s = uniteNbs cur ns s ∧ ∀ s', uniteNbs cur ns s = some s' → s'.eles = s.eles
  | [], s, _ => ⟨rfl, fun s' h => by cases h; rfl⟩
  | n :: ns, s, hp => by
    by_cases hn : n ∈ s.eles
    · rw [List.filter_cons_of_pos (hp n hn)]
      simp only [uniteNbs, UF.UnionFind.has, hn, decide_true, if_true]
      cases hu : s.unite cur n with
      | none => exact ⟨rfl, fun s' h => by cases h⟩
      | some s1 =>
        have he := unite_eles hu
        obtain ⟨h1, h2⟩ := uniteNbs_restr p cur ns s1 (by rw [he]; exact hp)
        exact ⟨h1, fun s' h => (h2 s' h).trans he⟩
    · obtain ⟨h1, h2⟩ := uniteNbs_restr p cur ns s hp
      have hR : uniteNbs cur (n :: ns) s = uniteNbs cur ns s := by
        simp [uniteNbs, UF.UnionFind.has, hn]
      rw [hR]
      refine ⟨?_, h2⟩
      by_cases hq : p n = true
      · rw [List.filter_cons_of_pos hq, ← h1]
        simp [uniteNbs, UF.UnionFind.has, hn]
      · rw [List.filter_cons_of_neg hq, h1]

theorem uniteAll_restr {p : α → Bool} {nb nb' : α → List α} (hr : Restr p nb nb') : ∀ (cs : List α) (s : UF.UnionFind α),
    (∀ x ∈ cs, p x = true) → (∀ x ∈ s.eles, p x = true) → uniteAll nb' cs s = uniteAll nb cs s
  | [], _, _, _ => rfl
  | c :: cs, s, hc, hs => by
    obtain ⟨h1, h2⟩ := uniteNbs_restr p c (nb c) s hs
    simp only [uniteAll]
    rw [hr c (hc c (by simp)), h1]
    cases hu : uniteNbs c (nb c) s with
    | none => rfl
    | some s' => exact uniteAll_restr hr cs s' (fun x hx => hc x (by simp [hx])) (by rw [h2 s' hu]; exact hs)

theorem mem_adds (x : α) : ∀ (q : List α) (s : UF.UnionFind α), x ∈ (q.foldl UF.UnionFind.add s).eles → x ∈ s.eles ∨ x ∈ q
  | [], _, h => .inl h
  | y :: q, s, h => by
    rcases mem_adds x q _ h with h | h
    · unfold UF.UnionFind.add at h
      split at h
      · exact .inl h
      · rcases (mem_setInsert _ _ _).1 h with h | h
        · exact .inr (by simp [h])
        · exact .inl h
    · exact .inr (by simp [h])

theorem extractCC_restr {p : α → Bool} {nb nb' : α → List α} (hr : Restr p nb nb') (q : List α) (hq : ∀ x ∈ q, p x = true) :
    extractCC nb' q = extractCC nb q := by
  unfold extractCC
  rw [uniteAll_restr hr q _ hq]
  intro x hx
  rcases mem_adds x q _ hx with h | h
  · simp [UF.UnionFind.init] at h
  · exact hq x h

theorem uniteAll_congr {nb nb' : α → List α} : ∀ (cs : List α) (s : UF.UnionFind α), (∀ x ∈ cs, nb' x = nb x) →
    uniteAll nb' cs s = uniteAll nb cs s
  | [], _, _ => rfl
  | c :: cs, s, h => by
    simp only [uniteAll]
    rw [h c (by simp)]
    cases uniteNbs c (nb c) s with
    | none => rfl
    | some s' => exact uniteAll_congr cs s' fun x hx => h x (by simp [hx])

variable {p : α → Bool} {nb nb' : α → List α}

theorem traceLoop_restr (hr : Restr p nb nb') (c : List α) (hc : ∀ x ∈ c, p x = true) (front : Bool) :
    ∀ (fuel : Nat) (cur : α) (tr vis : List α), p cur = true → traceLoop nb' c front fuel cur tr vis = traceLoop nb c front fuel cur tr vis
  | 0, _, _, _, _ => rfl
  | fuel + 1, cur, tr, vis, hcur => by
    have hn : ∀ v : List α, nextNode nb' c v cur = nextNode nb c v cur := by
      intro v
      unfold nextNode
      rw [hr cur hcur]
      apply find_restr
      intro x hx
      simp only [decide_eq_true_eq] at hx
      exact hc x hx.2.1
    simp only [traceLoop, hn]
    split
    · rfl
    · rename_i n hnx
      refine traceLoop_restr hr c hc front fuel n _ _ ?_
      unfold nextNode at hnx
      have := List.find?_some (p := fun y => decide (y ≠ cur ∧ y ∈ c ∧ y ∉ _)) hnx
      simp only [decide_eq_true_eq] at this
      exact hc n this.2.1

theorem traceComponent_restr (hr : Restr p nb nb') (ord c : List α) (ho : ∀ x ∈ ord, p x = true) (hc : ∀ x ∈ c, p x = true) :
    traceComponent nb' ord c = traceComponent nb ord c := by
  rcases c with _ | ⟨seed, c⟩
  · rfl
  · unfold traceComponent
    have hs : (nb' seed).filter (fun y => decide (y ≠ seed ∧ y ∈ ord)) = (nb seed).filter (fun y => decide (y ≠ seed ∧ y ∈ ord)) := by
      rw [hr seed (hc seed (by simp))]
      apply filter_restr
      intro x hx
      simp only [decide_eq_true_eq] at hx
      exact ho x hx.2
    simp only [hs]
    have hm : ∀ a, a ∈ (nb seed).filter (fun y => decide (y ≠ seed ∧ y ∈ ord)) → p a = true := by
      intro a ha
      simp only [List.mem_filter, decide_eq_true_eq] at ha
      exact ho a ha.2.2
    generalize hS : (nb seed).filter (fun y => decide (y ≠ seed ∧ y ∈ ord)) = sn at hm ⊢
    cases ha : sn.head? with
    | none => rfl
    | some a =>
      cases hb : sn.getLast? with
      | none => rfl
      | some b =>
        simp only [traceLoop_restr hr _ hc _ _ a _ _ (hm a (List.mem_of_mem_head? ha))]
        cases traceLoop nb (seed :: c) false ((seed :: c).length + 1) a [seed] [seed] with
        | none => rfl
        | some tv =>
          simp only [traceLoop_restr hr _ hc _ _ b _ _ (hm b (List.mem_of_mem_getLast? hb))]

theorem traceAll_restr (hr : Restr p nb nb') (ord : List α) (ho : ∀ x ∈ ord, p x = true) : ∀ (cs : List (List α)),
    (∀ c ∈ cs, ∀ x ∈ c, p x = true) → traceAll nb' ord cs = traceAll nb ord cs
  | [], _ => rfl
  | c :: cs, hc => by
    simp only [traceAll]
    rw [traceComponent_restr hr ord c ho (hc c (by simp)), traceAll_restr hr ord ho cs fun d hd => hc d (by simp [hd])]

theorem validNbs_restr (hr : Restr p nb nb') (cc : List α) (hc : ∀ x ∈ cc, p x = true) {x : α} (hx : x ∈ cc) :
    validNbs nb' cc x = validNbs nb cc x := by
  unfold validNbs
  rw [hr x (hc x hx)]
  apply filter_restr
  intro y hy
  simp only [decide_eq_true_eq] at hy
  exact hc y hy.2

theorem linearComponents_restr (hr : Restr p nb nb') (cc : List α) (hc : ∀ x ∈ cc, p x = true) :
    linearComponents nb' cc = linearComponents nb cc := by
  have h1 : ordinary nb' cc = ordinary nb cc := by
    unfold ordinary
    exact List.filter_congr fun x hx => by rw [validNbs_restr hr cc hc hx]
  have h2 : special nb' cc = special nb cc := by
    unfold special
    exact List.filter_congr fun x hx => by rw [validNbs_restr hr cc hc hx]
  have hsub : ∀ x ∈ ordinary nb cc, x ∈ cc := fun x hx => (List.mem_filter.1 hx).1
  have h3 : extractCC (ordNbs nb' cc) (ordinary nb cc) = extractCC (ordNbs nb cc) (ordinary nb cc) := by
    unfold extractCC
    rw [uniteAll_congr]
    intro x hx
    unfold ordNbs
    rw [hr x (hc x (hsub x hx)), h2]
    apply filter_restr
    intro y hy
    simp only [Bool.not_eq_true', Bool.or_eq_false_iff, decide_eq_false_iff_not, not_not] at hy
    exact hc y hy.1
  unfold linearComponents
  rw [h1, h3]
  split
  · rfl
  · obtain ⟨sets, e, hp⟩ := C18_components (ordNbs nb cc) (ordinary nb cc)
    rw [e]
    simp only
    refine traceAll_restr hr _ (fun x hx => hc x (hsub x hx)) sets ?_
    intro c hcs x hx
    exact hc x (hsub x (hp.only c hcs x hx))

theorem isLoop_restr (hr : Restr p nb nb') (l : List α) (hl : ∀ x ∈ l, p x = true) : isLoop nb' l = isLoop nb l := by
  unfold isLoop
  split
  · rename_i a b ha hb
    have h : (b ∈ nb' a) ↔ b ∈ nb a := by
      rw [hr a (hl a (List.mem_of_mem_head? ha)), List.mem_filter]
      simp [hl b (List.mem_of_mem_getLast? hb)]
    simp only [h]
  · rfl

end Verif.Gr

namespace Verif.Trk
open Verif.Ser (lookup mapPut Sorted)
open Verif.Gr (Restr)
variable {α : Type} [LinearOrder α] {β : Type} {p : α → Bool} {nb nb' : α → List α}

theorem nextKey_restr (hr : Restr p nb nb') {dcp : List (α × β)} (hk : ∀ x ∈ dcp.map Prod.fst, p x = true) {cur : α}
    (hc : p cur = true) : nextKey nb' dcp cur = nextKey nb dcp cur := by
  unfold nextKey
  rw [hr cur hc]
  generalize nb cur = l
  induction l with
  | nil => rfl
  | cons x l ih =>
    by_cases hx : p x = true
    · rw [List.filter_cons_of_pos hx, List.findSome?_cons, List.findSome?_cons, ih]
    · rw [List.filter_cons_of_neg hx, List.findSome?_cons, ih]
      have : lookup x dcp = none := by
        cases h : lookup x dcp with
        | none => rfl
        | some v => exact absurd (hk x (List.mem_map.2 ⟨_, lookup_some_mem h, rfl⟩)) hx
      rw [this]
      rfl

theorem keys_erase {k : α} {dcp : List (α × β)} (hk : ∀ x ∈ dcp.map Prod.fst, p x = true) :
    ∀ x ∈ (eraseKey k dcp).map Prod.fst, p x = true := by
  intro x hx
  obtain ⟨kv, h, rfl⟩ := List.mem_map.1 hx
  exact hk _ (List.mem_map.2 ⟨kv, (List.mem_filter.1 h).1, rfl⟩)

theorem nextKey_key {dcp : List (α × β)} {cur i : α} {v : β} (h : nextKey nb dcp cur = some (i, v)) :
    i ∈ dcp.map Prod.fst := by
  unfold nextKey at h
  obtain ⟨x, -, hx⟩ := List.exists_of_findSome?_eq_some h
  cases hl : lookup x dcp with
  | none => simp [hl] at hx
  | some w =>
    simp only [hl, Option.map_some, Option.some.injEq, Prod.mk.injEq] at hx
    rw [← hx.1]
    exact List.mem_map.2 ⟨_, lookup_some_mem hl, rfl⟩

theorem growLoop_restr (hr : Restr p nb nb') : ∀ (fuel : Nat) (cur : α) (dcp : List (α × β)),
    (∀ x ∈ dcp.map Prod.fst, p x = true) → p cur = true →
    growLoop nb' fuel cur dcp = growLoop nb fuel cur dcp ∧
    ∀ ps rest, growLoop nb fuel cur dcp = some (ps, rest) → (∀ x ∈ rest.map Prod.fst, p x = true) ∧
      ∀ q ∈ ps, ∃ x, (x, q) ∈ dcp
  | 0, _, _, _, _ => ⟨rfl, fun _ _ h => by cases h⟩
  | fuel + 1, cur, dcp, hk, hc => by
    simp only [growLoop]
    rw [nextKey_restr hr hk hc]
    cases hn : nextKey nb dcp cur with
    | none => exact ⟨rfl, fun ps rest h => by cases h; exact ⟨hk, by simp⟩⟩
    | some iv =>
      obtain ⟨i, v⟩ := iv
      obtain ⟨h1, h2⟩ := growLoop_restr hr fuel i (eraseKey i dcp) (keys_erase hk) (hk i (nextKey_key hn))
      simp only [h1]
      refine ⟨trivial, ?_⟩
      intro ps rest h
      cases hg : growLoop nb fuel i (eraseKey i dcp) with
      | none => simp [hg] at h
      | some pr =>
        obtain ⟨ps', rest'⟩ := pr
        simp only [hg, Option.some.injEq, Prod.mk.injEq] at h
        obtain ⟨g1, g2⟩ := h2 ps' rest' hg
        obtain ⟨rfl, rfl⟩ := h
        refine ⟨g1, ?_⟩
        intro q hq
        rcases List.mem_cons.1 hq with rfl | hq
        · refine ⟨i, ?_⟩
          unfold nextKey at hn
          obtain ⟨x, -, hx⟩ := List.exists_of_findSome?_eq_some hn
          cases hl : lookup x dcp with
          | none => simp [hl] at hx
          | some w =>
            simp only [hl, Option.map_some, Option.some.injEq, Prod.mk.injEq] at hx
            obtain ⟨rfl, rfl⟩ := hx
            exact lookup_some_mem hl
        · obtain ⟨x, hx⟩ := g2 q hq
          exact ⟨x, (List.mem_filter.1 hx).1⟩

theorem growOne_restr (hr : Restr p nb nb') {elemOf : β → α} {t : Traj β} {dcp : List (α × β)}
    (hk : ∀ x ∈ dcp.map Prod.fst, p x = true) (ht : ∀ q ∈ t.pts, p (elemOf q) = true)
    (hd : ∀ kv ∈ dcp, elemOf kv.2 = kv.1) :
    growOne nb' elemOf t dcp = growOne nb elemOf t dcp ∧
    ∀ t' rest, growOne nb elemOf t dcp = some (t', rest) → ∀ x ∈ rest.map Prod.fst, p x = true := by
  have hval : ∀ q x, (x, q) ∈ dcp → p (elemOf q) = true := by
    intro q x h
    rw [hd _ h]
    exact hk x (List.mem_map.2 ⟨_, h, rfl⟩)
  unfold growOne
  by_cases hcomp : t.complete = true
  · simp only [hcomp, if_true]
    exact ⟨trivial, fun t' rest h => by cases h; exact hk⟩
  · simp only [hcomp, if_false, Bool.false_eq_true]
    cases hb : t.pts.getLast? with
    | none => exact ⟨by trivial, fun _ _ h => by cases h⟩
    | some b =>
      obtain ⟨h1, h2⟩ := growLoop_restr hr (dcp.length + 1) (elemOf b) dcp hk (ht b (List.mem_of_mem_getLast? hb))
      simp only [h1]
      cases hg : growLoop nb (dcp.length + 1) (elemOf b) dcp with
      | none => exact ⟨by trivial, fun _ _ h => by cases h⟩
      | some pr =>
        obtain ⟨fs, dcp1⟩ := pr
        obtain ⟨g1, g2⟩ := h2 fs dcp1 hg
        simp only
        cases ha : (t.pts ++ fs).head? with
        | none => exact ⟨by trivial, fun _ _ h => by cases h⟩
        | some a =>
          have hpa : p (elemOf a) = true := by
            rcases List.mem_append.1 (List.mem_of_mem_head? ha) with h | h
            · exact ht a h
            · obtain ⟨x, hx⟩ := g2 a h; exact hval a x hx
          obtain ⟨h3, h4⟩ := growLoop_restr hr (dcp1.length + 1) (elemOf a) dcp1 g1 hpa
          simp only [h3]
          cases hg2 : growLoop nb (dcp1.length + 1) (elemOf a) dcp1 with
          | none => exact ⟨by trivial, fun _ _ h => by cases h⟩
          | some pr2 =>
            obtain ⟨bs, dcp2⟩ := pr2
            refine ⟨by trivial, fun t' rest h => ?_⟩
            cases h
            exact (h4 bs dcp2 hg2).1

theorem growLoop_sub (nb : α → List α) : ∀ (fuel : Nat) (cur : α) (dcp : List (α × β)) {ps : List β} {rest : List (α × β)},
    growLoop nb fuel cur dcp = some (ps, rest) → ∀ kv ∈ rest, kv ∈ dcp
  | 0, _, _, _, _, h => by cases h
  | fuel + 1, cur, dcp, ps, rest, h => by
    simp only [growLoop] at h
    split at h
    · cases h; exact fun kv hkv => hkv
    · split at h
      · cases h
      · rename_i hg
        cases h
        intro kv hkv
        exact (List.mem_filter.1 (growLoop_sub nb fuel _ _ hg kv hkv)).1

theorem growOne_sub (nb : α → List α) {elemOf : β → α} {t t' : Traj β} {dcp rest : List (α × β)}
    (h : growOne nb elemOf t dcp = some (t', rest)) : ∀ kv ∈ rest, kv ∈ dcp := by
  unfold growOne at h
  split at h
  · cases h; exact fun kv hkv => hkv
  · split at h
    · cases h
    · split at h
      · cases h
      · rename_i h1
        split at h
        · cases h
        · split at h
          · cases h
          · rename_i h2
            cases h
            intro kv hkv
            exact growLoop_sub nb _ _ _ h1 kv (growLoop_sub nb _ _ _ h2 kv hkv)

theorem growAll_restr (hr : Restr p nb nb') {elemOf : β → α} : ∀ (ts : List (Traj β)) (dcp : List (α × β)),
    (∀ x ∈ dcp.map Prod.fst, p x = true) → (∀ t ∈ ts, ∀ q ∈ t.pts, p (elemOf q) = true) →
    (∀ kv ∈ dcp, elemOf kv.2 = kv.1) → growAll nb' elemOf ts dcp = growAll nb elemOf ts dcp ∧
    ∀ ts' rest, growAll nb elemOf ts dcp = some (ts', rest) → ∀ x ∈ rest.map Prod.fst, p x = true
  | [], dcp, hk, _, _ => ⟨rfl, fun _ _ h => by cases h; exact hk⟩
  | t :: ts, dcp, hk, ht, hd => by
    obtain ⟨h1, h2⟩ := growOne_restr hr hk (ht t (by simp)) hd
    simp only [growAll, h1]
    cases hg : growOne nb elemOf t dcp with
    | none => exact ⟨rfl, fun _ _ h => by cases h⟩
    | some pr =>
      obtain ⟨t', dcp'⟩ := pr
      obtain ⟨h3, h4⟩ := growAll_restr hr ts dcp' (h2 t' dcp' hg) (fun s hs => ht s (by simp [hs]))
        (fun kv hkv => hd kv (growOne_sub nb hg kv hkv))
      simp only [h3]
      refine ⟨trivial, fun ts' rest h => ?_⟩
      cases hg2 : growAll nb elemOf ts dcp' with
      | none => simp [hg2] at h
      | some pr2 =>
        obtain ⟨ts2, rest2⟩ := pr2
        simp only [hg2, Option.some.injEq, Prod.mk.injEq] at h
        rw [← h.2]
        exact h4 ts2 rest2 hg2

theorem curveTrajs_restr (hr : Restr p nb nb') (dcp : List (α × β)) : ∀ (gs : List (List α)),
    (∀ g ∈ gs, ∀ x ∈ g, p x = true) → curveTrajs nb' dcp gs = curveTrajs nb dcp gs
  | [], _ => rfl
  | g :: gs, h => by
    simp only [curveTrajs]
    rw [curveTrajs_restr hr dcp gs fun g' hg' => h g' (by simp [hg']), Gr.isLoop_restr hr g (h g (by simp))]

theorem compTrajs_restr (hr : Restr p nb nb') (hs : Gr.Symm nb') (hnd : ∀ x, (nb' x).Nodup) (dcp : List (α × β)) :
    ∀ (cs : List (List α)), (∀ c ∈ cs, ∀ x ∈ c, p x = true) → compTrajs nb' dcp cs = compTrajs nb dcp cs
  | [], _ => rfl
  | c :: cs, h => by
    have hc := h c (by simp)
    simp only [compTrajs]
    rw [← Gr.linearComponents_restr hr c hc, compTrajs_restr hr hs hnd dcp cs fun d hd => h d (by simp [hd])]
    obtain ⟨gs, e, -, -, h4, -⟩ := Gr.C21_linear_components nb' hs hnd c
    rw [e]
    simp only
    rw [curveTrajs_restr hr dcp gs]
    intro g hg x hx
    exact hc x ((h4 x).1 (List.mem_flatten.2 ⟨g, hg, hx⟩)).1

/-- the online tracing with a restricted neighbor function is the same -/
theorem traceOnline_restr (hr : Restr p nb nb') (hs : Gr.Symm nb') (hnd : ∀ x, (nb' x).Nodup) {elemOf : β → α}
    (ts : List (Traj β)) (dcp : List (α × β)) (hk : ∀ x ∈ dcp.map Prod.fst, p x = true)
    (ht : ∀ t ∈ ts, ∀ q ∈ t.pts, p (elemOf q) = true) (hd : ∀ kv ∈ dcp, elemOf kv.2 = kv.1) :
    traceOnline nb' elemOf ts dcp = traceOnline nb elemOf ts dcp := by
  obtain ⟨h1, h2⟩ := growAll_restr hr ts dcp hk ht hd
  unfold traceOnline
  rw [h1]
  cases hg : growAll nb elemOf ts dcp with
  | none => rfl
  | some pr =>
    obtain ⟨ts', rest⟩ := pr
    have hp := h2 ts' rest hg
    simp only
    rw [Gr.extractCC_restr hr _ hp]
    obtain ⟨sets, e, hP⟩ := Gr.C18_components nb (rest.map Prod.fst)
    rw [e]
    simp only
    rw [compTrajs_restr hr hs hnd rest sets]
    intro c hc x hx
    exact hp x (hP.only c hc x hx)

theorem offlineGroups_restr (hr : Restr p nb nb') (dcp : List (α × β)) (hk : ∀ x ∈ dcp.map Prod.fst, p x = true) :
    offlineGroups nb' dcp = offlineGroups nb dcp := by
  have : offlineOps nb' dcp = offlineOps nb dcp := by
    unfold offlineOps
    apply List.flatMap_congr
    intro kv hkv
    rw [hr kv.1 (hk _ (List.mem_map.2 ⟨kv, hkv, rfl⟩)), Gr.filter_restr]
    intro x hx
    exact hk x (lookup_isSome.1 hx)
  unfold offlineGroups
  rw [this]

theorem offlineCurves_restr (hr : Restr p nb nb') (hs : Gr.Symm nb') (hnd : ∀ x, (nb' x).Nodup) :
    ∀ (gs : List (α × List (α × β))), (∀ g ∈ gs, ∀ x ∈ g.2.map Prod.fst, p x = true) →
    offlineCurves nb' gs = offlineCurves nb gs
  | [], _ => rfl
  | g :: gs, h => by
    have hc := h g (by simp)
    simp only [offlineCurves]
    rw [← Gr.linearComponents_restr hr _ hc, offlineCurves_restr hr hs hnd gs fun d hd => h d (by simp [hd])]
    obtain ⟨ls, e, -, -, h4, -⟩ := Gr.C21_linear_components nb' hs hnd (g.2.map Prod.fst)
    rw [e]
    simp only
    rw [curveTrajs_restr hr g.2 ls]
    intro l hl x hx
    exact hc x ((h4 x).1 (List.mem_flatten.2 ⟨l, hl, hx⟩)).1

end Verif.Trk
