import Verif.UTrk.Props
/-! Tetrahedra of the extruded mesh and their faces. -/
namespace Verif.UTrk
open Verif.Trk (Snap CP Traj Op)
open Verif.XM (below time Base Dec shift Good)
variable {γ : Type} {n0 : Nat} {ts : List UM.Tri} {m : UM.M2}

/-- the cells: tetrahedra, and one virtual cell behind every triangle of the lateral boundary -/
def face (m : UM.M2) (f : Int) : Int ⊕ Int → Prop
  | .inl e => Good m 3 e ∧ FaceOf m f e
  | .inr g => g = f ∧ ∃ a, ∀ e, (Good m 3 e ∧ FaceOf m f e) ↔ e = a

/-- virtual cells are outside -/
def inside (n0 : Nat) (m : UM.M2) (T : Nat) : Int ⊕ Int → Prop
  | .inl e => Inside n0 m T e
  | .inr _ => False

theorem get2 (G : Geo n0 ts m) {f : Int} (hf : 0 ≤ f) : ∃ vs, XM.getSimplex m 2 f = some (f, vs) ∧ vs.length = 3 ∧
    vs.Pairwise (· < ·) := by
  obtain ⟨i, t, us, -, -, D, h⟩ := XM.get_total G.base (d := 2) (by omega) G.pos2 f (.inl hf)
  exact ⟨_, h, (XM.dec_simplex G.base (t := t) D).1, XM.dec_sorted G.base D⟩

theorem get3 (G : Geo n0 ts m) {e : Int} (he : Good m 3 e) : ∃ vs, XM.getSimplex m 3 e = some (e, vs) ∧ vs.length = 4 ∧
    vs.Pairwise (· < ·) := by
  obtain ⟨i, t, us, -, -, D, h⟩ := XM.get_total G.base (d := 3) (by omega) G.pos e he
  exact ⟨_, h, (XM.dec_simplex G.base (t := t) D).1, XM.dec_sorted G.base D⟩

theorem get_inj (G : Geo n0 ts m) {d : Nat} (hd : d ≤ 3) (hN : 0 < XM.n m d) {k k' : Int} (h : Good m d k) (h' : Good m d k')
    {vs : List Int} (e : XM.getSimplex m d k = some (k, vs)) (e' : XM.getSimplex m d k' = some (k', vs)) : k = k' := by
  obtain ⟨i, t, us, a1, -, D, a2⟩ := XM.get_total G.base hd hN k h
  obtain ⟨i', t', us', b1, -, D', b2⟩ := XM.get_total G.base hd hN k' h'
  rw [e] at a2
  rw [e'] at b2
  simp only [Option.some.injEq, Prod.mk.injEq, true_and] at a2 b2
  obtain ⟨rfl, rfl⟩ := XM.shift_inj G.base D D' (a2.symm.trans b2)
  rw [a1, b1]

/-- the cofaces of a triangle: one or two -/
theorem cofaces (G : Geo n0 ts m) {f : Int} (hf : 0 ≤ f) : ∃ R, XM.sideOf m f = some R ∧ R.Nodup ∧
    (R.length = 1 ∨ R.length = 2) ∧ ∀ e, e ∈ R ↔ Good m 3 e ∧ FaceOf m f e := by
  obtain ⟨order, ho, hb⟩ := G.built
  obtain ⟨R, r1, r2, r3, r4, r5⟩ := XM.C52_side_of ho G.valid hb G.pos f hf
  refine ⟨R, r1, r2.imp fun h => ne_of_lt h, r3, fun e => ?_⟩
  constructor
  · intro he
    obtain ⟨vs, ws, h1, h2, h3⟩ := r5 e (r4 e he)
    exact ⟨r4 e he, vs, ws, h1, h2, h3.1 he⟩
  · rintro ⟨hg, vs, ws, h1, h2, h3⟩
    obtain ⟨vs', ws', h1', h2', h3'⟩ := r5 e hg
    rw [h1] at h1'
    rw [h2] at h2'
    cases h1'
    cases h2'
    exact h3'.2 h3

theorem face_two (G : Geo n0 ts m) {f : Int} (hf : 0 ≤ f) : ∃ a b, a ≠ b ∧ ∀ e, face m f e ↔ e = a ∨ e = b := by
  obtain ⟨R, -, r2, r3, r4⟩ := cofaces G hf
  rcases r3 with h | h
  · obtain ⟨a, rfl⟩ := List.length_eq_one_iff.1 h
    have ha : ∀ e, (Good m 3 e ∧ FaceOf m f e) ↔ e = a := fun e => by rw [← r4]; simp
    refine ⟨.inl a, .inr f, by simp, fun e => ?_⟩
    cases e with
    | inl e => simp only [face, Sum.inl.injEq, reduceCtorEq, or_false]; exact ha e
    | inr g =>
      simp only [face, Sum.inr.injEq, reduceCtorEq, false_or]
      exact ⟨fun h => h.1, fun h => ⟨h, a, ha⟩⟩
  · obtain ⟨a, b, rfl⟩ := List.length_eq_two.1 h
    have hab : a ≠ b := by simpa using r2
    have ha : ∀ e, (Good m 3 e ∧ FaceOf m f e) ↔ e = a ∨ e = b := fun e => by rw [← r4]; simp
    refine ⟨.inl a, .inl b, by simpa using hab, fun e => ?_⟩
    cases e with
    | inl e => simp only [face, Sum.inl.injEq]; exact ha e
    | inr g =>
      simp only [face, reduceCtorEq, or_false, iff_false]
      rintro ⟨-, c, hc⟩
      have h1 := (hc a).1 ((ha a).2 (.inl rfl))
      have h2 := (hc b).1 ((ha b).2 (.inr rfl))
      exact hab (h1.trans h2.symm)

/-- two different faces have all vertices of a tetrahedron -/
theorem faces_cover (G : Geo n0 ts m) {f g e : Int} (hf : 0 ≤ f) (hg : 0 ≤ g) (he : Good m 3 e) (hfg : f ≠ g)
    (h1 : FaceOf m f e) (h2 : FaceOf m g e) : ∃ vs us ws, XM.getSimplex m 2 f = some (f, vs) ∧
      XM.getSimplex m 2 g = some (g, us) ∧ XM.getSimplex m 3 e = some (e, ws) ∧ (∀ x, x ∈ ws ↔ x ∈ vs ∨ x ∈ us) ∧
      ws.Pairwise (· < ·) := by
  obtain ⟨vs, ws, a1, a2, a3⟩ := h1
  obtain ⟨us, ws', b1, b2, b3⟩ := h2
  rw [a2] at b2
  cases b2
  obtain ⟨vs', c1, c2, c3⟩ := get2 G hf
  rw [a1] at c1; cases c1
  obtain ⟨us', d1, d2, d3⟩ := get2 G hg
  rw [b1] at d1; cases d1
  obtain ⟨ws', e1, e2, e3⟩ := get3 G he
  rw [a2] at e1; cases e1
  refine ⟨vs, us, ws, a1, b1, a2, ?_, e3⟩
  have sf := XM.sublist_of_subset c3 e3 a3
  have sg := XM.sublist_of_subset d3 e3 b3
  obtain ⟨w0, w1, w2, w3, rfl⟩ : ∃ w0 w1 w2 w3, ws = [w0, w1, w2, w3] := by
    rcases ws with _ | ⟨w0, _ | ⟨w1, _ | ⟨w2, _ | ⟨w3, _ | ⟨w4, ws⟩⟩⟩⟩⟩ <;> simp at e2
    exact ⟨w0, w1, w2, w3, rfl⟩
  have hne : vs ≠ us := by
    intro h
    rw [h] at a1
    exact hfg (get_inj G (by omega) G.pos2 (.inl hf) (.inl hg) a1 b1)
  intro x
  rcases XM.sublists3 sf c2 with rfl | rfl | rfl | rfl <;> rcases XM.sublists3 sg d2 with rfl | rfl | rfl | rfl <;>
    first
    | exact absurd rfl hne
    | (simp only [List.mem_cons, List.not_mem_nil, or_false]; omega)

theorem tet_one (G : Geo n0 ts m) {f g e e' : Int} (hf : 0 ≤ f) (hg : 0 ≤ g) (he : Good m 3 e) (he' : Good m 3 e') (hfg : f ≠ g)
    (h1 : FaceOf m f e) (h2 : FaceOf m g e) (h3 : FaceOf m f e') (h4 : FaceOf m g e') : e = e' := by
  obtain ⟨vs, us, ws, a1, a2, a3, a4, a5⟩ := faces_cover G hf hg he hfg h1 h2
  obtain ⟨vs', us', ws', b1, b2, b3, b4, b5⟩ := faces_cover G hf hg he' hfg h3 h4
  rw [a1] at b1; cases b1
  rw [a2] at b2; cases b2
  have : ws = ws' := StrictSorted.ext a5 b5 fun x => (a4 x).trans (b4 x).symm
  subst this
  exact get_inj G (by omega) G.pos he he' a3 b3

/-- the four faces of an inside tetrahedron -/
theorem tet_faces (G : Geo n0 ts m) {T : Nat} {e : Int} (h : Inside n0 m T e) :
    ∃ (w : Fin 4 → Int) (g : Fin 4 → Int), Function.Injective w ∧ (∀ i, 0 ≤ w i) ∧
      XM.getSimplex m 3 e = some (e, [w 0, w 1, w 2, w 3]) ∧ Function.Injective g ∧
      (∀ k, 0 ≤ g k ∧ XM.getSimplex m 2 (g k) =
        some (g k, [w (k.succAbove 0), w (k.succAbove 1), w (k.succAbove 2)]) ∧ FaceOf m (g k) e) ∧
      ∀ f, 0 ≤ f → FaceOf m f e → ∃ k, f = g k := by
  obtain ⟨he, ws, hws, htime⟩ := h
  obtain ⟨i, t, us, e1, -, D, e4⟩ := XM.get_total G.base (d := 3) (by omega) G.pos e (.inl he)
  obtain ⟨S, u0, u1, u2, u3, f0, f1, f2, f3, rfl, s1, -, -, -, F0, F1, F2, F3⟩ :=
    XM.sides_faces G.base D (by rw [← e1]; exact .inl he)
  have hsort := XM.dec_sorted G.base (t := t) D
  rw [hws] at e4
  simp only [Option.some.injEq, Prod.mk.injEq, true_and] at e4
  subst e4
  have hpos : ∀ x ∈ shift m t [u0, u1, u2, u3], 0 ≤ x := by
    intro x hx
    have := (htime x hx).1
    unfold time at this
    by_contra hlt
    have hn0 : (0 : Int) < n0 := by
      rcases Nat.eq_zero_or_pos n0 with h | h
      · exfalso
        have := G.base.hn0
        obtain ⟨tt, htt⟩ := List.exists_mem_of_ne_nil _ G.ne
        obtain ⟨i, a, b, c, h', -⟩ := G.base.tri_of tt htt
        have := G.base.tri_ok h'
        omega
      · omega
    have := Int.ediv_lt_of_lt_mul (a := x) (b := 0) hn0 (by omega)
    omega
  have mk : ∀ (f : Int) (us : List Int), (∃ j s vs, Dec m 2 j vs ∧ f = j + s * XM.n m 2 ∧ shift m s vs = shift m t us) →
      (∀ x ∈ us, x ∈ [u0, u1, u2, u3]) → 0 ≤ f ∧ XM.getSimplex m 2 f = some (f, shift m t us) := by
    rintro f us ⟨j, s, vs, q1, q2, q3⟩ hsub
    have hr := q1.range G.base
    obtain ⟨-, -, v, l, g1, g2⟩ := XM.dec_simplex G.base (t := s) q1
    have hs : 0 ≤ s := by
      have hv : v ∈ shift m t us := by rw [← q3, g1]; simp
      have hv' : v ∈ shift m t [u0, u1, u2, u3] := by
        simp only [shift, List.mem_map] at hv ⊢
        obtain ⟨y, hy, rfl⟩ := hv
        exact ⟨y, hsub y hy, rfl⟩
      rw [← g2]
      exact (htime v hv').1
    have hf : 0 ≤ f := by rw [q2]; exact XM.id_nonneg (by have := G.pos2; omega) hr.1 hs
    refine ⟨hf, ?_⟩
    have := XM.get_dec G.base q1 (t := s) (by rw [← q2]; exact .inl hf)
    rw [← q2, q3] at this
    exact this
  obtain ⟨p0, g0⟩ := mk f0 _ F0 (by simp)
  obtain ⟨p1, g1⟩ := mk f1 _ F1 (by simp)
  obtain ⟨p2, g2⟩ := mk f2 _ F2 (by simp)
  obtain ⟨p3, g3⟩ := mk f3 _ F3 (by simp)
  simp only [shift, List.map_cons, List.map_nil] at hsort g0 g1 g2 g3 hws hpos
  generalize u0 + t * m.n 0 = w0 at *
  generalize u1 + t * m.n 0 = w1 at *
  generalize u2 + t * m.n 0 = w2 at *
  generalize u3 + t * m.n 0 = w3 at *
  simp only [List.pairwise_cons, List.mem_cons, List.not_mem_nil, or_false, forall_eq_or_imp, forall_eq] at hsort hpos
  have inj : ∀ {f f' : Int} {vs vs' : List Int}, 0 ≤ f → 0 ≤ f' → XM.getSimplex m 2 f = some (f, vs) →
      XM.getSimplex m 2 f' = some (f', vs') → f = f' → vs = vs' := by
    intro f f' vs vs' _ _ h1 h2 h
    subst h
    rw [h1] at h2
    cases h2
    rfl
  refine ⟨![w0, w1, w2, w3], ![f0, f1, f2, f3], ?_, ?_, hws, ?_, ?_, ?_⟩
  · intro a b hab
    fin_cases a <;> fin_cases b <;> simp at hab ⊢ <;> omega
  · intro a
    fin_cases a <;> simp <;> omega
  · have n01 : f0 ≠ f1 := fun h => by have := inj p0 p1 g0 g1 h; simp at this; omega
    have n02 : f0 ≠ f2 := fun h => by have := inj p0 p2 g0 g2 h; simp at this; omega
    have n03 : f0 ≠ f3 := fun h => by have := inj p0 p3 g0 g3 h; simp at this; omega
    have n12 : f1 ≠ f2 := fun h => by have := inj p1 p2 g1 g2 h; simp at this; omega
    have n13 : f1 ≠ f3 := fun h => by have := inj p1 p3 g1 g3 h; simp at this; omega
    have n23 : f2 ≠ f3 := fun h => by have := inj p2 p3 g2 g3 h; simp at this; omega
    intro a b hab
    fin_cases a <;> fin_cases b <;> simp at hab ⊢ <;> omega
  · intro k
    fin_cases k
    · exact ⟨p0, g0, _, _, g0, hws, by simp⟩
    · exact ⟨p1, g1, _, _, g1, hws, by simp⟩
    · exact ⟨p2, g2, _, _, g2, hws, by simp⟩
    · exact ⟨p3, g3, _, _, g3, hws, by simp⟩
  · rintro f hf ⟨vs, ws, q1, q2, q3⟩
    rw [hws] at q2
    cases q2
    obtain ⟨vs', c1, c2, c3⟩ := get2 G hf
    rw [q1] at c1
    cases c1
    have hp : [w0, w1, w2, w3].Pairwise (· < ·) := by simp; omega
    rcases XM.sublists3 (XM.sublist_of_subset c3 hp q3) c2 with rfl | rfl | rfl | rfl
    · exact ⟨0, get_inj G (by omega) G.pos2 (.inl hf) (.inl p0) q1 g0⟩
    · exact ⟨1, get_inj G (by omega) G.pos2 (.inl hf) (.inl p1) q1 g1⟩
    · exact ⟨2, get_inj G (by omega) G.pos2 (.inl hf) (.inl p2) q1 g2⟩
    · exact ⟨3, get_inj G (by omega) G.pos2 (.inl hf) (.inl p3) q1 g3⟩

end Verif.UTrk
