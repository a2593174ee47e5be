import Verif.X3Trk.Line
/-! # C130: the curves of the critical line tracker on unstructured 3-D meshes, for a single snapshot -/
namespace Verif.X3T
open Verif.U3 Verif.X3
open Verif.Trk (quant Strip)
open Verif.SRM (Scope)
open Verif.XM (at_eq id_nonneg)
variable {n0 : Nat} {ts : List Tet} {m : M3}

theorem at_zero (l : List PV) : at_ 0 l = l := by
  unfold at_
  simp

/-- the triangles at time 0 -/
theorem flat2 {f : Int} {fs : List PV} (h : Is m 2 f fs) (h0 : ∀ p ∈ fs, p.2 = 0) : ∃ a b c, T m f a b c ∧ fs = [(a, 0), (b, 0), (c, 0)] := by
  obtain ⟨ty, i, t, qs, D, rfl, rfl⟩ := h
  cases D with
  | @t0 j a b c h =>
    have : t = 0 := by simpa [at_] using h0 (a, 0 + t) (by simp [at_])
    subst this
    refine ⟨a, b, c, by simpa using h, at_zero _⟩
  | t1 h | t2 h | t3 h | t4 h => simp [at_] at h0; omega

theorem is_tri {f a b c : Int} (h : T m f a b c) : Is m 2 f [(a, 0), (b, 0), (c, 0)] :=
  ⟨0, f, 0, _, .t0 h, by simp, (at_zero _).symm⟩

/-- the tetrahedra at time 0 -/
theorem flat3 {f : Int} {fs : List PV} (h : Is m 3 f fs) (h0 : ∀ p ∈ fs, p.2 = 0) :
    ∃ a b c d, K m f a b c d ∧ fs = [(a, 0), (b, 0), (c, 0), (d, 0)] := by
  obtain ⟨ty, i, t, qs, D, rfl, rfl⟩ := h
  cases D with
  | @k0 j a b c d h =>
    have : t = 0 := by simpa [at_] using h0 (a, 0 + t) (by simp [at_])
    subst this
    refine ⟨a, b, c, d, by simpa using h, at_zero _⟩
  | k1 h | k2 h | k3 h | k4 h | k5 h | k6 h => simp [at_] at h0; omega

theorem is_tet {f a b c d : Int} (h : K m f a b c d) : Is m 3 f [(a, 0), (b, 0), (c, 0), (d, 0)] :=
  ⟨0, f, 0, _, .k0 h, by simp, (at_zero _).symm⟩

/-- base triangle `f` is a side of base tetrahedron `e` -/
def Sides2 (m : M3) (f e : Int) : Prop := ∃ a b c pos, T m f a b c ∧ InK a b c m e pos

theorem T_func {f a b c a' b' c' : Int} (h : T m f a b c) (h' : T m f a' b' c') : a = a' ∧ b = b' ∧ c = c' := by
  have := h.get
  rw [h'.get] at this
  simp only [Option.some.injEq, List.cons.injEq, and_true] at this
  omega

theorem sides2_of {f a b c e : Int} (h : T m f a b c) : Sides2 m f e ↔ ∃ pos, InK a b c m e pos := by
  constructor
  · rintro ⟨a', b', c', pos, h1, h2⟩
    obtain ⟨rfl, rfl, rfl⟩ := T_func h h1
    exact ⟨pos, h2⟩
  · rintro ⟨pos, hp⟩
    exact ⟨a, b, c, pos, h, hp⟩

/-- sides at time 0 are cofaces at time 0 -/
theorem sides2_cof (B : Base n0 ts m) {f e a b c : Int} (h : T m f a b c) :
    Sides2 m f e ↔ ∃ ps, Is m 3 e ps ∧ (∀ p ∈ ps, p.2 = 0) ∧ Cof m 3 e [(a, 0), (b, 0), (c, 0)] := by
  rw [sides2_of h]
  constructor
  · rintro ⟨pos, hp⟩
    cases hp with
    | p0 h' => exact ⟨_, is_tet h', by simp, _, 0, is_tet h', by simp, rfl⟩
    | p1 h' => exact ⟨_, is_tet h', by simp, _, 1, is_tet h', by simp, rfl⟩
    | p2 h' => exact ⟨_, is_tet h', by simp, _, 2, is_tet h', by simp, rfl⟩
    | p3 h' => exact ⟨_, is_tet h', by simp, _, 3, is_tet h', by simp, rfl⟩
  · rintro ⟨ps, h1, h2, ps', q, h3, -, h5⟩
    obtain rfl := h3.func h1
    obtain ⟨p, q', r, s, hk, rfl⟩ := flat3 h3 h2
    refine inK_of B h hk.get fun v hv => ?_
    have hin : ∀ x : PV, x ∈ [(a, (0 : Int)), (b, 0), (c, 0)] → x ∈ [(p, (0 : Int)), (q', 0), (r, 0), (s, 0)] :=
      fun x hx => List.mem_of_mem_eraseIdx (h5 ▸ hx)
    have := hin (v, 0) (by simpa using hv)
    simpa using this

/-- the base tetrahedra around a base triangle: one or two -/
theorem cofaces2 (G : Geo n0 ts m) (hM : Manifold ts) {f a b c : Int} (h : T m f a b c) :
    ∃ R : List Int, R.Nodup ∧ (R.length = 1 ∨ R.length = 2) ∧ ∀ e, e ∈ R ↔ Sides2 m f e := by
  have B := G.base
  obtain ⟨S, s1, s2, s3, s4⟩ := B.side (Or.inr rfl) h.get
  have hnd : S.Nodup := s2.imp fun h => ne_of_lt h
  have hmem : ∀ e, e ∈ S ↔ Sides2 m f e := by
    intro e
    rw [s4, sides2_of h]
    constructor
    · rintro ⟨σ, g1, g2⟩
      exact inK_of B h g1 g2
    · rintro ⟨pos, hp⟩
      exact hp.get
  refine ⟨S, hnd, ?_, hmem⟩
  have key : ∀ x ∈ S, ∀ y ∈ S, ∀ z ∈ S, x = y ∨ y = z ∨ x = z := by
    intro x hx y hy z hz
    obtain ⟨p, hp⟩ := (sides2_of h).1 ((hmem x).1 hx)
    obtain ⟨q, hq⟩ := (sides2_of h).1 ((hmem y).1 hy)
    obtain ⟨r, hr⟩ := (sides2_of h).1 ((hmem z).1 hz)
    exact three G hM h.ab h.bc hp hq hr
  rcases S with _ | ⟨x, _ | ⟨y, _ | ⟨z, l⟩⟩⟩
  · exact absurd rfl s3
  · exact .inl rfl
  · exact .inr rfl
  · exfalso
    have := key x (by simp) y (by simp) z (by simp)
    simp only [List.nodup_cons, List.mem_cons, not_or] at hnd
    rcases this with h | h | h
    · exact hnd.1.1 h
    · exact hnd.2.1.1 h
    · exact hnd.1.2.1 h

/-- what `side_of(2, ·)` returns for a triangle at time 0 -/
theorem sideOf2_base (B : Base n0 ts m) {f a b c : Int} (h : T m f a b c) :
    ∃ S, sideOf m 2 f = some S ∧ (∀ y ∈ S, Cof m 3 y [(a, 0), (b, 0), (c, 0)]) ∧ ∀ e, Sides2 m f e → e ∈ S := by
  have D := Dec.t0 h
  have hg : Good m 2 (f + 0 * n m 2) := .inl (by have := h.h0; omega)
  have hm := mods_enc (dec_chain D).2.1
  have hb : ∀ x pos, InK a b c m x pos → ∃ vs, Body m 3 3 0 [a, b, c] (up3 0) x vs ∧ x ∈ vs ∧ ∀ y ∈ vs, Cof m 3 y [(a, 0), (b, 0), (c, 0)] := by
    intro x pos hp
    obtain ⟨σ, vs, g1, g2, g3, g4⟩ := vals_t0 B (t := 0) hp
    rw [at_zero] at g4
    obtain ⟨σ', q1, q2⟩ := hp.position
    rw [g1] at q1
    obtain rfl := Option.some.inj q1
    refine ⟨vs, ⟨σ, pos, g1, q2, g2⟩, ?_, g4⟩
    have hself : ∀ l, up3 0 pos = .self 0 0 :: l → x ∈ vs := by
      intro l hl
      rw [hl, vals] at g2
      cases hr : vals m 3 0 x σ l with
      | none => simp [hr] at g2
      | some r =>
        simp only [hr, Option.bind_eq_bind, Option.bind_some, Option.some.injEq] at g2
        rw [← g2]
        simp [off]
    cases hp with
    | p0 h' => exact hself _ rfl
    | p1 h' => exact hself _ rfl
    | p2 h' => exact hself _ rfl
    | p3 h' => exact hself _ rfl
  obtain ⟨R, r1, r2, r3⟩ := loopK B h 3 0 (up3 0) (fun x pos hp => (hb x pos hp).imp (fun _ h => h.1))
  have hs : sideOf m 2 f = some R := by
    have := sideOf_dec2 (t := 0) D hg hm
    rw [Int.zero_mul, Int.add_zero] at this
    rw [this]
    exact r1
  refine ⟨R, hs, ?_, ?_⟩
  · intro y hy
    obtain ⟨x, pos, vs, hp, v1, v2⟩ := (r3 y).1 hy
    obtain ⟨vs', w1, -, w3⟩ := hb x pos hp
    rw [v1.func w1] at v2
    exact w3 y v2
  · intro e he
    obtain ⟨pos, hp⟩ := (sides2_of h).1 he
    obtain ⟨vs, w1, w2, -⟩ := hb e pos hp
    exact (r3 e).2 ⟨e, pos, vs, hp, w1, w2⟩

theorem sides_of2 (G : Geo n0 ts m) {e : Int} (he : Good m 3 e) :
    ∃ S, sides m 3 e = some S ∧ ∀ g, g ∈ S ↔ ∃ gs, Is m 2 g gs ∧ Cof m 3 e gs := by
  obtain ⟨ps, hps⟩ := is_of G (f := e)
  obtain ⟨S, s1, -, ys, ⟨y1, y2⟩, s3⟩ := (sides3_spec G.base hps he).spec
  refine ⟨S, s1, fun g => ?_⟩
  rw [s3]
  constructor
  · intro hg
    obtain ⟨q, hq, rfl⟩ := List.getElem_of_mem hg
    exact ⟨_, y2 q _ (List.getElem?_eq_getElem hq), ps, q, hps, by omega, rfl⟩
  · rintro ⟨gs, h1, ps', q, h2, h3, rfl⟩
    obtain rfl := h2.func hps
    have hq : q < ys.length := by omega
    have := (y2 q _ (List.getElem?_eq_getElem hq)).inj G.base h1
    rw [← this]
    exact List.getElem_mem hq

theorem nb2_spec (G : Geo n0 ts m) (hM : Manifold ts) {f a b c : Int} (h : T m f a b c) :
    nbOpt m 2 f = some (nb m 2 f) ∧ (nb m 2 f).Nodup ∧
      ∀ g a' b' c', T m g a' b' c' → (g ∈ nb m 2 f ↔ ∃ e, Sides2 m f e ∧ Sides2 m g e) := by
  have B := G.base
  obtain ⟨R, r1, r4, r5⟩ := sideOf2_base B h
  have hgood : ∀ e ∈ R, Good m 3 e := by
    intro e he
    obtain ⟨ps, q, h1, -, h3⟩ := r4 e he
    exact good_of_time B G.ne (by omega) h1 (p := (a, 0)) (List.mem_of_mem_eraseIdx (i := q) (by rw [h3]; simp)) (le_refl _)
  obtain ⟨ss, s1, s2⟩ := UTrk.mapM_some (f := sides m 3) R (by
    intro e he
    obtain ⟨S, h, -⟩ := sides_of2 G (hgood e he)
    exact ⟨S, h⟩)
  have hopt : nbOpt m 2 f = some (ss.flatten.foldl (fun acc x => setInsert x acc) []) := by
    unfold nbOpt
    simp only [r1, s1]
  have hnb : nb m 2 f = ss.flatten.foldl (fun acc x => setInsert x acc) [] := by
    unfold nb; rw [hopt]; rfl
  have hsort : StrictSorted (ss.flatten.foldl (fun acc x => setInsert x acc) []) := by
    generalize ss.flatten = l
    have key : ∀ (l acc : List Int), StrictSorted acc → StrictSorted (l.foldl (fun acc x => setInsert x acc) acc) := by
      intro l
      induction l with
      | nil => intro acc h; exact h
      | cons x l ih => intro acc h; exact ih _ h.setInsert
    exact key l [] List.Pairwise.nil
  refine ⟨by rw [hopt, hnb], by rw [hnb]; exact hsort.nodup, fun g a' b' c' hg' => ?_⟩
  rw [hnb, Gr.foldl_setInsert_mem]
  simp only [List.mem_flatten, List.not_mem_nil, or_false, false_or]
  constructor
  · rintro ⟨S, hS, hg⟩
    by_cases hfg : f = g
    · subst hfg
      obtain ⟨R', -, h2, h3⟩ := cofaces2 G hM h
      obtain ⟨e, he⟩ : ∃ e, e ∈ R' := by
        rcases R' with _ | ⟨e, l⟩
        · simp at h2
        · exact ⟨e, by simp⟩
      exact ⟨e, (h3 e).1 he, (h3 e).1 he⟩
    obtain ⟨e, he, hs⟩ := Trk.forall₂_get s2 S hS
    obtain ⟨S', h1, h2⟩ := sides_of2 G (hgood e he)
    rw [hs] at h1
    obtain rfl := Option.some.inj h1
    obtain ⟨gs, g1, g2⟩ := (h2 g).1 hg
    obtain rfl := g1.func (is_tri hg')
    obtain ⟨ps, hps⟩ := is_of G (f := e)
    have hc := r4 e he
    have hz : ∀ p ∈ ps, p.2 = 0 := by
      intro p hp
      rcases (faces_cover G (is_tri h) (is_tri hg') hps hfg hc g2 p).1 hp with h | h <;> simp at h <;>
        rcases h with rfl | rfl | rfl <;> rfl
    exact ⟨e, (sides2_cof B h).2 ⟨ps, hps, hz, hc⟩, (sides2_cof B hg').2 ⟨ps, hps, hz, g2⟩⟩
  · rintro ⟨e, h1, h2⟩
    have he := r5 e h1
    obtain ⟨S, hs, hS⟩ := sides_of2 G (hgood e he)
    obtain ⟨S', hS', h'⟩ := Trk.forall₂_get s2.flip e he
    rw [hs] at h'
    obtain rfl := Option.some.inj h'
    obtain ⟨ps, -, -, hc⟩ := (sides2_cof B hg').1 h2
    exact ⟨S, hS', (hS g).2 ⟨_, is_tri hg', hc⟩⟩

/-- ids of triangles at time 0 -/
def flat (m : M3) (f : Int) : Bool := decide (0 ≤ f ∧ f < m.n 2)

theorem flat_iff (B : Base n0 ts m) {f : Int} : flat m f = true ↔ ∃ a b c, T m f a b c := by
  unfold flat
  rw [decide_eq_true_eq]
  constructor
  · rintro ⟨h0, h1⟩
    exact T_def B h0 h1
  · rintro ⟨a, b, c, h⟩
    exact ⟨h.h0, h.h1⟩

/-- `neighbors` among the triangles at time 0 -/
def nbR2 (m : M3) (f : Int) : List Int := if flat m f then (nb m 2 f).filter (flat m) else []

theorem mem_nbR2 (G : Geo n0 ts m) (hM : Manifold ts) (f g : Int) :
    g ∈ nbR2 m f ↔ ∃ e, Sides2 m f e ∧ Sides2 m g e := by
  unfold nbR2
  by_cases hf : flat m f = true
  · obtain ⟨a, b, c, h⟩ := (flat_iff G.base).1 hf
    rw [if_pos hf, List.mem_filter]
    constructor
    · rintro ⟨h1, h2⟩
      obtain ⟨a', b', c', h'⟩ := (flat_iff G.base).1 h2
      exact ((nb2_spec G hM h).2.2 g _ _ _ h').1 h1
    · rintro ⟨e, h1, h2⟩
      obtain ⟨a', b', c', pos, h', -⟩ := id h2
      exact ⟨((nb2_spec G hM h).2.2 g _ _ _ h').2 ⟨e, h1, h2⟩, (flat_iff G.base).2 ⟨_, _, _, h'⟩⟩
  · rw [if_neg hf]
    simp only [List.not_mem_nil, false_iff, not_exists, not_and]
    rintro e ⟨a, b, c, pos, h, -⟩
    exact absurd ((flat_iff G.base).2 ⟨a, b, c, h⟩) hf

theorem nbR2_nodup (G : Geo n0 ts m) (hM : Manifold ts) (f : Int) : (nbR2 m f).Nodup := by
  unfold nbR2
  split
  · rename_i hf
    obtain ⟨a, b, c, h⟩ := (flat_iff G.base).1 hf
    exact (nb2_spec G hM h).2.1.filter _
  · exact List.nodup_nil

theorem nbR2_symm (G : Geo n0 ts m) (hM : Manifold ts) : Gr.Symm (nbR2 m) := by
  intro f g h
  rw [mem_nbR2 G hM] at h ⊢
  obtain ⟨e, h1, h2⟩ := h
  exact ⟨e, h2, h1⟩

theorem nbR2_restr (m : M3) : Gr.Restr (flat m) (nb m 2) (nbR2 m) := by
  intro x hx
  unfold nbR2
  rw [if_pos hx]

/-- the cells: base tetrahedra, and one virtual cell behind every triangle of the boundary -/
def face2 (m : M3) (f : Int) : Int ⊕ Int → Prop
  | .inl e => Sides2 m f e
  | .inr g => g = f ∧ ∃ a, ∀ e, Sides2 m f e ↔ e = a

/-- virtual cells are outside -/
def inside2 : Int ⊕ Int → Prop
  | .inl _ => True
  | .inr _ => False

theorem face2_two (G : Geo n0 ts m) (hM : Manifold ts) {f a b c : Int} (h : T m f a b c) : ∃ x y, x ≠ y ∧ ∀ e, face2 m f e ↔ e = x ∨ e = y := by
  obtain ⟨R, r2, r3, r5⟩ := cofaces2 G hM h
  rcases r3 with h | h
  · obtain ⟨a, rfl⟩ := List.length_eq_one_iff.1 h
    have ha : ∀ e, Sides2 m f e ↔ e = a := fun e => by rw [← r5]; simp
    refine ⟨.inl a, .inr f, by simp, ?_⟩
    rintro (e | g)
    · simp only [face2, ha, Sum.inl.injEq, reduceCtorEq, or_false]
    · simp only [face2, reduceCtorEq, Sum.inr.injEq, false_or]
      exact ⟨fun h => h.1, fun h => ⟨h, a, ha⟩⟩
  · obtain ⟨a, b, rfl⟩ := List.length_eq_two.1 h
    have hab : a ≠ b := by simpa using r2
    refine ⟨.inl a, .inl b, by simpa using hab, ?_⟩
    rintro (e | g)
    · simp only [face2, ← r5, List.mem_cons, List.not_mem_nil, or_false, Sum.inl.injEq]
    · simp only [face2, reduceCtorEq, or_self, iff_false, not_and, not_exists]
      rintro - c hc
      have h1 := (hc a).1 ((r5 a).1 (by simp))
      have h2 := (hc b).1 ((r5 b).1 (by simp))
      exact hab (h1.trans h2.symm)

theorem sides2_one (G : Geo n0 ts m) {f g e e' : Int} (hfg : f ≠ g) (h1 : Sides2 m f e) (h2 : Sides2 m g e) (h3 : Sides2 m f e') (h4 : Sides2 m g e') :
    e = e' := by
  obtain ⟨a, b, c, -, hf, -⟩ := id h1
  obtain ⟨a', b', c', -, hg, -⟩ := id h2
  obtain ⟨-, -, -, q1⟩ := (sides2_cof G.base hf).1 h1
  obtain ⟨-, -, -, q2⟩ := (sides2_cof G.base hg).1 h2
  obtain ⟨-, -, -, q3⟩ := (sides2_cof G.base hf).1 h3
  obtain ⟨-, -, -, q4⟩ := (sides2_cof G.base hg).1 h4
  exact cell_one G (is_tri hf) (is_tri hg) hfg q1 q2 q3 q4

/-! ### pierced triangles of a single snapshot -/

variable {s : CLT.UV}

theorem pierced_flat (G : Geo n0 ts m) {f : Int} (h : Pierced n0 m [s] f) : ∃ a b c, T m f a b c := by
  obtain ⟨h0, v, U, ⟨d1, d2⟩, -⟩ := h
  obtain ⟨ps, hps, e⟩ := is_of_get G.base (d := 2) (by omega) (G.pos (.inl rfl)) (.inl h0) d1
  obtain ⟨a, b, c, h, -⟩ := flat2 hps (by
    intro p hp
    have hf := hps.facts.2.2.1 p hp
    have ht := (enc_facts G.base.hn0 hf.1 hf.2.1).2
    have hm : enc m p ∈ [v 0, v 1, v 2] := by rw [e]; exact List.mem_map.2 ⟨p, hp, rfl⟩
    have : 0 ≤ time n0 (enc m p) ∧ time n0 (enc m p) < 1 := by
      simp only [List.mem_cons, List.not_mem_nil, or_false] at hm
      rcases hm with h | h | h <;> rw [h] <;> exact uvAt_time (d2 _)
    omega)
  exact ⟨a, b, c, h⟩

theorem uv_of (G : Geo n0 ts m) (hs : s.dims = [n0]) {v : Int} (hv : 0 ≤ v ∧ v < n0) : ∃ x, uvAt n0 [s] v = some x := by
  have hp := G.num.2
  have ht : time n0 v = 0 := by unfold time; exact Int.ediv_eq_zero_of_lt hv.1 hv.2
  have hb : below n0 v = v := by unfold below; exact Int.emod_eq_of_lt hv.1 hv.2
  unfold uvAt
  rw [ht, hb]
  simp only [lt_irrefl, if_false, Int.toNat_zero, List.getElem?_cons_zero]
  unfold CLT.UV.read
  rw [if_pos (by rw [hs]; simp [Trk.inDims, hv])]
  exact ⟨_, rfl⟩

/-- a base tetrahedron has no or two pierced sides -/
theorem tet_parity (G : Geo n0 ts m) (hs : s.dims = [n0]) {e a b c d : Int} (he : K m e a b c d) :
    (∀ f, Pierced n0 m [s] f → ¬ Sides2 m f e) ∨
    ∃ f g, f ≠ g ∧ ∀ h, (Pierced n0 m [s] h ∧ Sides2 m h e) ↔ h = f ∨ h = g := by
  have B := G.base
  obtain ⟨⟨x3, h3⟩, ⟨x2, h2⟩, ⟨x1, h1⟩, ⟨x0, h0⟩⟩ := he.faces B
  have hab := he.ab
  have hbc := he.bc
  have hcd := he.cd
  have a0 := he.a0
  have hn0 := B.hn0
  have dn := he.dn
  have hdist : [x0, x1, x2, x3].Nodup := by
    have key : ∀ {x y p q r p' q' r' : Int}, T m x p q r → T m y p' q' r' → (p ≠ p' ∨ q ≠ q' ∨ r ≠ r') → x ≠ y := by
      intro x y p q r p' q' r' hx hy hne hxy
      subst hxy
      have := T_func hx hy
      omega
    simp only [List.nodup_cons, List.mem_cons, List.not_mem_nil, or_false, not_or, not_false_eq_true, List.nodup_nil, and_true]
    refine ⟨⟨key h0 h1 (by omega), key h0 h2 (by omega), key h0 h3 (by omega)⟩, ⟨key h1 h2 (by omega), key h1 h3 (by omega)⟩, key h2 h3 (by omega)⟩
  have hread : ∀ i : Fin 4, ∃ x, uvAt n0 [s] (![a, b, c, d] i) = some x := by
    intro i
    fin_cases i <;> refine uv_of G hs ?_ <;> simp <;> omega
  choose U hU using hread
  have winj : Function.Injective ![a, b, c, d] := by
    intro i j hij
    fin_cases i <;> fin_cases j <;> simp at hij ⊢ <;> omega
  have wpos : ∀ i, 0 ≤ (![a, b, c, d] : Fin 4 → Int) i := by
    intro i
    fin_cases i <;> simp <;> omega
  have hget : ∀ {x p q r : Int}, T m x p q r → getSimplex m 2 x = some [p, q, r] := by
    intro x p q r h
    have := get_of_is (by omega) (is_tri h) (.inl h.h0)
    simpa [enc] using this
  have hp : ∀ k, Pierced n0 m [s] (![x0, x1, x2, x3] k) ↔
      SoS.criticalPointInSimplex2 (fun i => (fun i j => quant (2 ^ 21) (U i j)) (Fin.succAbove k i)) (fun i => (![a, b, c, d] : Fin 4 → Int) (Fin.succAbove k i)) = true := by
    intro k
    have hd : LData n0 m [s] (![x0, x1, x2, x3] k) (fun i => (![a, b, c, d] : Fin 4 → Int) (k.succAbove i)) (fun i => U (k.succAbove i)) := by
      refine ⟨?_, fun i => hU _⟩
      fin_cases k
      · exact hget h0
      · exact hget h1
      · exact hget h2
      · exact hget h3
    have hk0 : 0 ≤ (![x0, x1, x2, x3] : Fin 4 → Int) k := by
      fin_cases k
      · exact h0.h0
      · exact h1.h0
      · exact h2.h0
      · exact h3.h0
    constructor
    · rintro ⟨-, v, U', hd', hh⟩
      have e1 := hd.1
      rw [hd'.1] at e1
      simp only [Option.some.injEq, List.cons.injEq, and_true] at e1
      have hv : v = fun i => (![a, b, c, d] : Fin 4 → Int) (k.succAbove i) := by
        rw [← vec3_eta v, e1.1, e1.2.1, e1.2.2]
        exact vec3_eta (fun i => (![a, b, c, d] : Fin 4 → Int) (k.succAbove i))
      subst hv
      have hU' : U' = fun i => U (k.succAbove i) := by
        funext i
        have := hd'.2 i
        rw [hd.2 i] at this
        exact (Option.some.inj this).symm
      subst hU'
      exact hh
    · intro h
      exact ⟨hk0, _, _, hd, h⟩
  have hside : ∀ k, Sides2 m (![x0, x1, x2, x3] k) e := by
    intro k
    fin_cases k
    · exact ⟨_, _, _, 0, h0, .p0 he⟩
    · exact ⟨_, _, _, 1, h1, .p1 he⟩
    · exact ⟨_, _, _, 2, h2, .p2 he⟩
    · exact ⟨_, _, _, 3, h3, .p3 he⟩
  have hall : ∀ f, Sides2 m f e → ∃ k, f = (![x0, x1, x2, x3] : Fin 4 → Int) k := by
    rintro f ⟨p, q, r, pos, hT, hK⟩
    have hTe : ∀ {x y p q r p' q' r' : Int}, T m x p q r → T m y p' q' r' → p = p' ∧ q = q' ∧ r = r' → x = y := by
      rintro x y p q r p' q' r' hx hy ⟨rfl, rfl, rfl⟩
      exact X3.get_inj B hx.get hy.get
    have hKe : ∀ {p q r z : Int}, K m e p q r z → p = a ∧ q = b ∧ r = c ∧ z = d := by
      intro p q r z h
      have := h.get
      rw [he.get] at this
      simp only [Option.some.injEq, List.cons.injEq, and_true] at this
      omega
    cases hK with
    | p0 h => exact ⟨0, hTe hT h0 ⟨(hKe h).2.1, (hKe h).2.2.1, (hKe h).2.2.2⟩⟩
    | p1 h => exact ⟨1, hTe hT h1 ⟨(hKe h).1, (hKe h).2.2.1, (hKe h).2.2.2⟩⟩
    | p2 h => exact ⟨2, hTe hT h2 ⟨(hKe h).1, (hKe h).2.1, (hKe h).2.2.2⟩⟩
    | p3 h => exact ⟨3, hTe hT h3 ⟨(hKe h).1, (hKe h).2.1, (hKe h).2.2.1⟩⟩
  have ginj : Function.Injective ![x0, x1, x2, x3] := by
    intro i j hij
    simp only [List.nodup_cons, List.mem_cons, List.not_mem_nil, or_false, not_or, not_false_eq_true, List.nodup_nil, and_true] at hdist
    fin_cases i <;> fin_cases j <;> simp at hij ⊢ <;> omega
  rcases Trk.zeroOrTwo_2d (fun i j => quant (2 ^ 21) (U i j)) ![a, b, c, d] winj wpos with hz | ⟨p, q, hpq, hk⟩
  · left
    intro f hpf hfe
    obtain ⟨k, rfl⟩ := hall f hfe
    have := (hp k).1 hpf
    rw [hz k] at this
    cases this
  · right
    refine ⟨_, _, fun h => hpq (ginj h), fun h => ?_⟩
    constructor
    · rintro ⟨hph, hfe⟩
      obtain ⟨k, rfl⟩ := hall h hfe
      rcases (hk k).1 ((hp k).1 hph) with rfl | rfl
      · exact .inl rfl
      · exact .inr rfl
    · rintro (rfl | rfl)
      · exact ⟨(hp p).2 ((hk p).2 (.inl rfl)), hside p⟩
      · exact ⟨(hp q).2 ((hk q).2 (.inr rfl)), hside q⟩

theorem sides2_tet {f e : Int} (h : Sides2 m f e) : ∃ a b c d, K m e a b c d := by
  obtain ⟨_, _, _, _, -, hK⟩ := h
  cases hK with
  | p0 h | p1 h | p2 h | p3 h => exact ⟨_, _, _, _, h⟩

/-- the pierced triangles of a single snapshot form a strip -/
theorem strip2 (G : Geo n0 ts m) (hM : Manifold ts) (hs : s.dims = [n0]) {L : List Int}
    (hL : ∀ f, f ∈ L ↔ Pierced n0 m [s] f) : Strip (nbR2 m) (face2 m) inside2 L where
  two := fun f hf => by
    obtain ⟨a, b, c, h⟩ := pierced_flat G ((hL f).1 hf)
    exact face2_two G hM h
  cover := by
    rintro f hf g hg hfg (e | e) h1 h2
    · trivial
    · exact absurd (h1.1.symm.trans h2.1) hfg
  parity := by
    rintro (e | e) hin f hf hfe
    · obtain ⟨a, b, c, d, hK⟩ := sides2_tet hfe
      rcases tet_parity G hs hK with hz | ⟨p, q, hpq, hall⟩
      · exact absurd hfe (hz f ((hL f).1 hf))
      · have hp := (hall p).2 (.inl rfl)
        have hq := (hall q).2 (.inr rfl)
        rcases (hall f).1 ⟨(hL f).1 hf, hfe⟩ with rfl | rfl
        · exact ⟨q, (hL q).2 hq.1, Ne.symm hpq, hq.2, fun h hh hhe => (hall h).1 ⟨(hL h).1 hh, hhe⟩⟩
        · exact ⟨p, (hL p).2 hp.1, hpq, hp.2, fun h hh hhe => ((hall h).1 ⟨(hL h).1 hh, hhe⟩).symm⟩
    · exact hin.elim
  one := by
    rintro f hf g hg hfg (e | e) (e' | e') h1 h2 h3 h4
    · exact congrArg _ (sides2_one G hfg h1 h2 h3 h4)
    · exact absurd (h3.1.symm.trans h4.1) hfg
    · exact absurd (h1.1.symm.trans h2.1) hfg
    · exact absurd (h1.1.symm.trans h2.1) hfg
  adj := by
    intro f hf g hg
    rw [mem_nbR2 G hM]
    constructor
    · rintro ⟨e, h1, h2⟩
      exact ⟨.inl e, h1, h2⟩
    · rintro ⟨e | e, h1, h2⟩
      · exact ⟨e, h1, h2⟩
      · obtain ⟨rfl, a, ha⟩ := h1
        obtain ⟨rfl, -⟩ := h2
        exact ⟨a, (ha a).2 rfl, (ha a).2 rfl⟩
  nodup := nbR2_nodup G hM
  symm := nbR2_symm G hM

/-! ### the vertex lists of the specification -/

theorem inside_tet (G : Geo n0 ts m) {ws : List Int} : Inside n0 ts 3 1 ws ↔ ∃ e a b c d, K m e a b c d ∧ ws = [a, b, c, d] := by
  rw [inside_is G (by omega)]
  constructor
  · rintro ⟨e, ps, h1, h2, rfl⟩
    obtain ⟨a, b, c, d, hK, rfl⟩ := flat3 h1 (fun p hp => by have := h2 p hp; omega)
    exact ⟨e, a, b, c, d, hK, by simp [enc]⟩
  · rintro ⟨e, a, b, c, d, hK, rfl⟩
    exact ⟨e, _, is_tet hK, by simp, by simp [enc]⟩

theorem faceOf_tet (G : Geo n0 ts m) {f e a b c d p q r : Int} (hf : T m f p q r) (hK : K m e a b c d) :
    FaceOf m 2 f [a, b, c, d] ↔ Sides2 m f e := by
  have h := faceOf_cof G (d := 2) (by omega) hf.h0 (is_tri hf) (is_tet hK)
  have he : ([(a, 0), (b, 0), (c, 0), (d, 0)] : List PV).map (enc m) = [a, b, c, d] := by simp [enc]
  rw [he] at h
  rw [h, sides2_cof G.base hf]
  constructor
  · exact fun h => ⟨_, is_tet hK, by simp, h⟩
  · rintro ⟨-, -, -, h⟩
    exact h

theorem boundary2 (G : Geo n0 ts m) (hM : Manifold ts) {f a b c : Int} (hf : T m f a b c) {e : Int ⊕ Int} (he : face2 m f e)
    (ho : ¬ inside2 e) : AtBoundary n0 ts m 2 1 f := by
  intro ws ws' hw hw' hfw hfw'
  obtain ⟨x, _, _, _, _, hx, rfl⟩ := (inside_tet G).1 hw
  obtain ⟨y, _, _, _, _, hy, rfl⟩ := (inside_tet G).1 hw'
  have hfx := (faceOf_tet G hf hx).1 hfw
  have hfy := (faceOf_tet G hf hy).1 hfw'
  rcases e with e | e
  · exact absurd trivial ho
  · obtain ⟨-, z, hz⟩ := he
    obtain rfl := ((hz x).1 hfx).trans ((hz y).1 hfy).symm
    have := hx.get
    rw [hy.get] at this
    exact (Option.some.inj this).symm

/-- C130 — a single snapshot with a value at every vertex, no triangle of the mesh in more than two tetrahedra: whatever the
thread schedules, the tracker's curves follow the pierced triangles through the tetrahedra of the mesh. -/
theorem C130_lines (G : Geo n0 ts m) (hM : Manifold ts) (c : LCfg) (hm : c.m = m) (s : CLT.UV) (hs : s.dims = [n0])
    (ord : Nat → Order) (ho : ∀ k, Complete m 2 k (ord k)) :
    ∃ st ks, run (lineProg c) (driveOps Op.push [s] ord) (St.init ()) = some st ∧ lines m st.found = some ks ∧
      FollowsLines n0 ts m s ks := by
  obtain ⟨st, e1, -, -, hL⟩ := C129_detects G c hm [s] (by simp) (by simpa using hs) ord ho
  have hst := strip2 G hM hs hL
  have hflat : ∀ x ∈ st.found.map Prod.fst, ∃ a b c, T m x a b c := fun x hx => pierced_flat G ((hL x).1 hx)
  have hp : ∀ x ∈ st.found.map Prod.fst, flat m x = true := fun x hx => (flat_iff G.base).2 (hflat x hx)
  have hdef : nbDefined m 2 (st.found.map Prod.fst) = true := by
    unfold nbDefined
    rw [List.all_eq_true]
    intro x hx
    obtain ⟨a, b, c, h⟩ := hflat x hx
    rw [(nb2_spec G hM h).1]
    rfl
  have hsym := nbR2_symm G hM
  obtain ⟨cs, css, h1, h2, q3, q4, q5, q6⟩ := CLT.curves_generic (nbR2 m) hsym (nbR2_nodup G hM) (st.found.map Prod.fst)
    (fun x hx => hst.deg_le_two hx)
  have hlines : lines m st.found = some css.flatten := by
    unfold lines
    rw [if_pos hdef, ← Gr.extractCC_restr (nbR2_restr m) _ hp, h1]
    simp only
    have hcs : Gen.mapAll (Gr.linearComponents (nb m 2)) cs = Gen.mapAll (Gr.linearComponents (nbR2 m)) cs := by
      apply mapAll_congr
      intro cc hcc
      obtain ⟨cs', g1, gp⟩ := Gr.C18_components (nbR2 m) (st.found.map Prod.fst)
      rw [h1] at g1
      obtain rfl := Option.some.inj g1
      exact (Gr.linearComponents_restr (nbR2_restr m) cc (fun x hx => hp x (gp.only cc hcc x hx))).symm
    rw [hcs, h2]
    rfl
  refine ⟨st, css.flatten, e1, hlines, ?_⟩
  have hcurve : ∀ k ∈ css.flatten, Strip.Curve (nbR2 m) (st.found.map Prod.fst) k := fun k hk =>
    ⟨fun x hx => (q5 x).1 (List.mem_flatten.2 ⟨k, hk, hx⟩), (List.nodup_flatten.1 q4).1 k hk, (q3 k hk).2⟩
  have hshare : ∀ f ∈ st.found.map Prod.fst, ∀ g ∈ st.found.map Prod.fst, g ∈ nbR2 m f → Share n0 ts m 2 1 f g := by
    intro f hf g hg hn
    obtain ⟨e, he1, he2⟩ := (mem_nbR2 G hM f g).1 hn
    obtain ⟨a, b, c, d, hK⟩ := sides2_tet he1
    obtain ⟨_, _, _, tf⟩ := hflat f hf
    obtain ⟨_, _, _, tg⟩ := hflat g hg
    exact ⟨_, (inside_tet G).2 ⟨e, a, b, c, d, hK, rfl⟩, (faceOf_tet G tf hK).2 he1, (faceOf_tet G tg hK).2 he2⟩
  constructor
  · exact q4
  · intro f
    rw [q5, hL]
  · intro k hk
    refine ⟨(q3 k hk).1, ?_⟩
    have hch : List.IsChain (fun x y => y ∈ nbR2 m x) k := (q3 k hk).2
    have hsub := (hcurve k hk).sub
    clear hk
    induction k with
    | nil => exact .nil
    | cons x k ih =>
      rcases k with _ | ⟨y, k⟩
      · exact .singleton _
      · rw [List.isChain_cons_cons] at hch ⊢
        exact ⟨hshare x (hsub x (by simp)) y (hsub y (by simp)) hch.1, ih hch.2 fun z hz => hsub z (by simp [hz])⟩
  · intro k hk a z ha hz
    have hka := (hcurve k hk).sub a (List.mem_of_mem_head? ha)
    have hkz := (hcurve k hk).sub z (List.mem_of_mem_getLast? hz)
    rcases hst.closed_or_open (hcurve k hk) (q6 k hk) ha hz with ⟨hl, hn⟩ | ⟨⟨e, he, hi⟩, e', he', hi'⟩
    · exact .inl ⟨hl, hshare z hkz a hka (hsym _ _ hn)⟩
    · obtain ⟨_, _, _, ta⟩ := hflat a hka
      obtain ⟨_, _, _, tz⟩ := hflat z hkz
      exact .inr ⟨boundary2 G hM ta he hi, boundary2 G hM tz he' hi'⟩
  · intro ws hin
    obtain ⟨e, a, b, c, d, hK, rfl⟩ := (inside_tet G).1 hin
    have hfo : ∀ f, Pierced n0 m [s] f → (FaceOf m 2 f [a, b, c, d] ↔ Sides2 m f e) := by
      intro f hf
      obtain ⟨_, _, _, tf⟩ := pierced_flat G hf
      exact faceOf_tet G tf hK
    rcases tet_parity G hs hK with hz | ⟨f, g, hfg, hh⟩
    · exact .inl fun f hf h => hz f hf ((hfo f hf).1 h)
    · right
      obtain ⟨pf, ff⟩ := (hh f).2 (.inl rfl)
      obtain ⟨pg, fg⟩ := (hh g).2 (.inr rfl)
      have kf := (hL f).2 pf
      have kg := (hL g).2 pg
      obtain ⟨k, hk, hfk⟩ := List.mem_flatten.1 ((q5 f).2 kf)
      have hn : g ∈ nbR2 m f := (mem_nbR2 G hM f g).2 ⟨e, ff, fg⟩
      refine ⟨f, g, hfg, fun h => ?_, k, hk, hst.nextTo (hcurve k hk) hfk (q6 k hk f hfk g kg hn) hfg hn⟩
      rw [← hh]
      exact and_congr_right fun hp => hfo h hp

end Verif.X3T
