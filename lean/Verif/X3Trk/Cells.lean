import Verif.X3Trk.Props
import Mathlib.Data.List.Sort
/-! Pentachora of the extruded mesh and their facets. -/
namespace Verif.X3T
open Verif.U3 Verif.X3
open Verif.XM (at_eq id_nonneg)
variable {γ : Type} {n0 : Nat} {ts : List Tet} {m : M3}

theorem is_of (G : Geo n0 ts m) {f : Int} : ∃ fs, Is m 3 f fs := by
  obtain ⟨ty, i, t, ps, D, h, -⟩ := is_total G.base (d := 3) (by omega) (G.pos (.inr rfl)) f
  exact ⟨_, ty, i, t, ps, D, h, rfl⟩

theorem is4 (G : Geo n0 ts m) (e : Int) : ∃ ps, Is m 4 e ps := by
  obtain ⟨ty, i, t, ps, D, h, -⟩ := is_total G.base (d := 4) (by omega) (n_pos G.base G.ne).1 e
  exact ⟨_, ty, i, t, ps, D, h, rfl⟩

theorem get3 {f : Int} (hf : 0 ≤ f) {fs : List PV} (h : Is m 3 f fs) : getSimplex m 3 f = some (fs.map (enc m)) :=
  get_of_is (by omega) h (.inl hf)

theorem _root_.Verif.X3.InK.pos_eq {a b c x : Int} {p q : Nat} (h : InK a b c m x p) (h' : InK a b c m x q) : p = q := by
  obtain ⟨σ, h1, h2⟩ := h.position
  obtain ⟨σ', h1', h2'⟩ := h'.position
  rw [h1] at h1'
  obtain rfl := Option.some.inj h1'
  rw [h2] at h2'
  exact Option.some.inj h2'

/-- of three base tetrahedra on a triangle two are the same -/
theorem three (G : Geo n0 ts m) (hM : Manifold ts) {a b c x y z : Int} {p q r : Nat} (hab : a < b) (hbc : b < c)
    (hx : InK a b c m x p) (hy : InK a b c m y q) (hz : InK a b c m z r) : x = y ∨ y = z ∨ x = z := by
  have B := G.base
  have key : ∀ {x : Int} {p : Nat}, InK a b c m x p → ∃ σ, m.get 3 x = some σ ∧ σ.length = 4 ∧ σ.Pairwise (· < ·) ∧ ∃ t ∈ ts, (∀ v ∈ σ, OnTet v t) ∧
      OnTet a t ∧ OnTet b t ∧ OnTet c t := by
    intro x p h
    obtain ⟨σ, h1, h2⟩ := h.get
    obtain ⟨hl, hi, t, ht, ho⟩ := B.get_cell h1
    exact ⟨σ, h1, hl, hi, t, ht, ho, ho a (h2 a (by simp)), ho b (h2 b (by simp)), ho c (h2 c (by simp))⟩
  have same : ∀ {x y : Int} {σ τ : List Int} {t : Tet}, t ∈ ts → m.get 3 x = some σ → m.get 3 y = some τ → σ.length = 4 → τ.length = 4 →
      σ.Pairwise (· < ·) → τ.Pairwise (· < ·) → (∀ v ∈ σ, OnTet v t) → (∀ v ∈ τ, OnTet v t) → x = y := by
    intro x y σ τ t ht h1 h2 l1 l2 s1 s2 o1 o2
    have hsub : ∀ {ρ : List Int}, ρ.length = 4 → ρ.Pairwise (· < ·) → (∀ v ∈ ρ, OnTet v t) → ∀ v, OnTet v t → v ∈ ρ := by
      intro ρ l s o v hv
      have hnd : ρ.Nodup := s.imp fun h => ne_of_lt h
      have hss : ρ ⊆ [t.1, t.2.1, t.2.2.1, t.2.2.2] := fun u hu => by
        have := o u hu
        unfold OnTet at this
        simpa using this
      have hp := (List.subperm_of_subset hnd hss).perm_of_length_le (by simp [l])
      rw [hp.mem_iff]
      unfold OnTet at hv
      simpa using hv
    have : σ = τ := StrictSorted.ext s1 s2 fun v => ⟨fun h => hsub l2 s2 o2 v (o1 v h), fun h => hsub l1 s1 o1 v (o2 v h)⟩
    subst this
    exact X3.get_inj B h1 h2
  obtain ⟨σ, x1, x2, x3, s, hs, x4, x5⟩ := key hx
  obtain ⟨τ, y1, y2, y3, t, ht, y4, y5⟩ := key hy
  obtain ⟨ρ, z1, z2, z3, u, hu, z4, z5⟩ := key hz
  rcases hM s hs t ht u hu a b c hab hbc (by simp; exact ⟨x5, y5, z5⟩) with rfl | rfl | rfl
  · exact .inl (same hs x1 y1 x2 y2 x3 y3 x4 y4)
  · exact .inr (.inl (same ht y1 z1 y2 z2 y3 z3 y4 z4))
  · exact .inr (.inr (same hs x1 z1 x2 z2 x3 z3 x4 z4))

/-- the cofaces of a tetrahedron: one or two -/
theorem cofaces (G : Geo n0 ts m) (hM : Manifold ts) {f : Int} (hf : 0 ≤ f) {fs : List PV} (h : Is m 3 f fs) :
    ∃ R, sideOf m 3 f = some R ∧ R.Nodup ∧ (R.length = 1 ∨ R.length = 2) ∧ (∀ e, e ∈ R ↔ Cof m 4 e fs) ∧ ∀ e ∈ R, Good m 4 e := by
  have B := G.base
  obtain ⟨h4, h3, -, -⟩ := n_pos B G.ne
  obtain ⟨c3, -, -⟩ := counts B G.ne
  obtain ⟨R, s1, s2, s3⟩ := sideOf3_spec B h (Or.inl hf)
  obtain ⟨P, hP⟩ := C124_numbering G.valid G.built G.ne
  have hne : R ≠ [] := by
    obtain ⟨S, q1, -, q3, -⟩ := hP.sideOf f _ hf (get3 hf h)
    rw [s1] at q1
    obtain rfl := Option.some.inj q1
    exact q3
  have hnd : R.Nodup := s2.imp (fun h => ne_of_lt h)
  have h4e : n m 4 = 4 * m.n 3 := rfl
  have two : ∀ y y' : Int, y ≠ y' → (∀ k, k ∈ R ↔ k = y ∨ k = y') → R.length = 2 := by
    intro y y' hne h
    have : R.Perm [y, y'] := (List.perm_ext_iff_of_nodup hnd (by simp [hne])).2 (fun k => by rw [h]; simp)
    rw [this.length_eq]; rfl
  have le2 : (∀ x ∈ R, ∀ y ∈ R, ∀ z ∈ R, x = y ∨ y = z ∨ x = z) → R.length = 1 ∨ R.length = 2 := by
    intro hall
    rcases R with _ | ⟨x, _ | ⟨y, _ | ⟨z, l⟩⟩⟩
    · exact absurd rfl hne
    · exact .inl rfl
    · exact .inr rfl
    · exfalso
      have := hall x (by simp) y (by simp) z (by simp)
      simp only [List.nodup_cons, List.mem_cons, not_or] at hnd
      rcases this with h | h | h
      · exact hnd.1.1 h
      · exact hnd.2.1.1 h
      · exact hnd.1.2.1 h
  have hsub : ∀ {t N : Int}, (t - 1) * N + N = t * N := by intro t N; rw [Int.sub_mul]; omega
  refine ⟨R, s1, hnd, ?_, s3, ?_⟩
  · obtain ⟨ty, i, t, qs, D, rfl, rfl⟩ := h
    cases D with
    | @k0 j a b c d h =>
      refine .inr (two _ _ ?_ (fun k => (s3 k).trans (cof_k0 B h)))
      have := hsub (t := t) (N := n m 4)
      omega
    | k1 h => exact .inr (two _ _ (by omega) (fun k => (s3 k).trans (cof_k1 B h)))
    | k2 h => exact .inr (two _ _ (by omega) (fun k => (s3 k).trans (cof_k2 B h)))
    | k3 h => exact .inr (two _ _ (by omega) (fun k => (s3 k).trans (cof_k3 B h)))
    | k4 h =>
      refine le2 fun x hx y hy z hz => ?_
      obtain ⟨x', p, hx1, rfl⟩ := (cof_k4 h).1 ((s3 x).1 hx)
      obtain ⟨y', q, hy1, rfl⟩ := (cof_k4 h).1 ((s3 y).1 hy)
      obtain ⟨z', r, hz1, rfl⟩ := (cof_k4 h).1 ((s3 z).1 hz)
      rcases three G hM h.ab h.bc hx1 hy1 hz1 with rfl | rfl | rfl
      · rw [hx1.pos_eq hy1]; exact .inl rfl
      · rw [hy1.pos_eq hz1]; exact .inr (.inl rfl)
      · rw [hx1.pos_eq hz1]; exact .inr (.inr rfl)
    | k5 h =>
      refine le2 fun x hx y hy z hz => ?_
      obtain ⟨x', p, hx1, rfl⟩ := (cof_k5 h).1 ((s3 x).1 hx)
      obtain ⟨y', q, hy1, rfl⟩ := (cof_k5 h).1 ((s3 y).1 hy)
      obtain ⟨z', r, hz1, rfl⟩ := (cof_k5 h).1 ((s3 z).1 hz)
      rcases three G hM h.ab h.bc hx1 hy1 hz1 with rfl | rfl | rfl
      · rw [hx1.pos_eq hy1]; exact .inl rfl
      · rw [hy1.pos_eq hz1]; exact .inr (.inl rfl)
      · rw [hx1.pos_eq hz1]; exact .inr (.inr rfl)
    | k6 h =>
      refine le2 fun x hx y hy z hz => ?_
      obtain ⟨x', p, hx1, rfl⟩ := (cof_k6 h).1 ((s3 x).1 hx)
      obtain ⟨y', q, hy1, rfl⟩ := (cof_k6 h).1 ((s3 y).1 hy)
      obtain ⟨z', r, hz1, rfl⟩ := (cof_k6 h).1 ((s3 z).1 hz)
      rcases three G hM h.ab h.bc hx1 hy1 hz1 with rfl | rfl | rfl
      · rw [hx1.pos_eq hy1]; exact .inl rfl
      · rw [hy1.pos_eq hz1]; exact .inr (.inl rfl)
      · rw [hx1.pos_eq hz1]; exact .inr (.inr rfl)
  · intro e he
    obtain ⟨ps, q, e1, e2, e3⟩ := (s3 e).1 he
    by_cases h0 : 0 ≤ e
    · exact .inl h0
    · right
      rintro ⟨z, hz⟩
      have hall := (nonneg_iff h).1 hf
      obtain ⟨ty, i, t, qs, D, e4, rfl⟩ := e1
      have hr := D.range
      change e = i + t * n m 4 at e4
      have hi : i = 0 ∧ t = z := by
        have : i + t * n m 4 = 0 + z * n m 4 := by rw [← e4, hz]; ring
        have := at_eq hr.1 hr.2 (le_refl (0 : Int)) h4 this
        exact this
      have ht : t < 0 := by
        by_contra hc
        have := id_nonneg (i := i) (t := t) (N := n m 4) (by omega) hr.1 (by omega)
        omega
      rw [← e3] at hall
      have hq : q < 5 := by simpa [at_, D.dim.2] using e2
      have hi0 := hi.1
      cases D with
      | p0 h' | p1 h' | p2 h' | p3 h' =>
        have := h'.h0
        first
        | omega
        | (interval_cases q <;> simp [at_] at hall <;> omega)

theorem is_nodup {d : Nat} {e : Int} {ps : List PV} (h : Is m d e ps) : ps.Nodup := h.facts.2.1.imp fun h => h.1

/-- two different facets have all vertices of a cell -/
theorem faces_cover (G : Geo n0 ts m) {d : Nat} {f g e : Int} {fs gs ps : List PV} (hf : Is m d f fs) (hg : Is m d g gs) (he : Is m (d + 1) e ps) (hfg : f ≠ g)
    (h1 : Cof m (d + 1) e fs) (h2 : Cof m (d + 1) e gs) : ∀ x, x ∈ ps ↔ x ∈ fs ∨ x ∈ gs := by
  obtain ⟨ps1, q1, a1, a2, rfl⟩ := h1
  obtain ⟨ps2, q2, b1, b2, rfl⟩ := h2
  obtain rfl := a1.func he
  obtain rfl := b1.func a1
  have hq : q1 ≠ q2 := by
    rintro rfl
    exact hfg (hf.inj G.base hg)
  intro x
  constructor
  · intro hx
    obtain ⟨i, hi, rfl⟩ := List.getElem_of_mem hx
    by_cases h : i = q1
    · right
      rw [List.mem_eraseIdx_iff_getElem]
      exact ⟨i, hi, by omega, rfl⟩
    · left
      rw [List.mem_eraseIdx_iff_getElem]
      exact ⟨i, hi, h, rfl⟩
  · rintro (h | h) <;> exact List.mem_of_mem_eraseIdx h

theorem is_eq (G : Geo n0 ts m) {d : Nat} {e e' : Int} {ps ps' : List PV} (h : Is m d e ps) (h' : Is m d e' ps') (hm : ∀ x, x ∈ ps ↔ x ∈ ps') : e = e' := by
  have hp : ps.Perm ps' := (List.perm_ext_iff_of_nodup (is_nodup h) (is_nodup h')).2 hm
  have : ps = ps' := by
    refine hp.eq_of_pairwise (le := fun p q => p ≠ q ∧ p.1 ≤ q.1 ∧ p.2 ≤ q.2) ?_ h.facts.2.1 h'.facts.2.1
    rintro a b - - ⟨-, h1, h2⟩ ⟨-, h3, h4⟩
    exact Prod.ext (by omega) (by omega)
  subst this
  exact h.inj G.base h'

theorem cell_one (G : Geo n0 ts m) {d : Nat} {f g e e' : Int} {fs gs : List PV} (hf : Is m d f fs) (hg : Is m d g gs) (hfg : f ≠ g)
    (h1 : Cof m (d + 1) e fs) (h2 : Cof m (d + 1) e gs) (h3 : Cof m (d + 1) e' fs) (h4 : Cof m (d + 1) e' gs) : e = e' := by
  have hp' := h3
  obtain ⟨ps, -, hp, -, -⟩ := id h1
  obtain ⟨ps', -, hp', -, -⟩ := id h3
  exact is_eq G hp hp' fun x => (faces_cover G hf hg hp hfg h1 h2 x).trans (faces_cover G hf hg hp' hfg h3 h4 x).symm

/-- the five facets of an inside pentachoron -/
theorem cell_faces (G : Geo n0 ts m) {e : Int} {ps : List PV} (he : Is m 4 e ps) (h0 : ∀ p ∈ ps, 0 ≤ p.2) :
    ∃ (w : Fin 5 → Int) (g : Fin 5 → Int), Function.Injective w ∧ (∀ i, 0 ≤ w i) ∧ (∀ i, w i ∈ ps.map (enc m)) ∧ Function.Injective g ∧
      (∀ k, 0 ≤ g k ∧ getSimplex m 3 (g k) = some [w (k.succAbove 0), w (k.succAbove 1), w (k.succAbove 2), w (k.succAbove 3)] ∧
        ∃ fs, Is m 3 (g k) fs ∧ Cof m 4 e fs) ∧
      ∀ f fs, Is m 3 f fs → Cof m 4 e fs → ∃ k, f = g k := by
  have B := G.base
  have hE : 0 ≤ e := (nonneg_iff he).2 h0
  obtain ⟨S, -, -, ys, ⟨y1, y2⟩, -⟩ := (sides4_spec B he (.inl hE)).spec
  obtain ⟨f1, f2, f3, -⟩ := he.facts
  have hnd := is_nodup he
  obtain ⟨p0, p1, p2, p3, p4, rfl⟩ : ∃ p0 p1 p2 p3 p4, ps = [p0, p1, p2, p3, p4] := by
    rcases ps with _ | ⟨w0, _ | ⟨w1, _ | ⟨w2, _ | ⟨w3, _ | ⟨w4, _ | ⟨w5, ws⟩⟩⟩⟩⟩⟩ <;> simp at f1
    exact ⟨w0, w1, w2, w3, w4, rfl⟩
  obtain ⟨g0, g1, g2, g3, g4, rfl⟩ : ∃ p0 p1 p2 p3 p4, ys = [p0, p1, p2, p3, p4] := by
    rcases ys with _ | ⟨w0, _ | ⟨w1, _ | ⟨w2, _ | ⟨w3, _ | ⟨w4, _ | ⟨w5, ws⟩⟩⟩⟩⟩⟩ <;> simp at y1
    exact ⟨w0, w1, w2, w3, w4, rfl⟩
  have i0 : Is m 3 g0 [p1, p2, p3, p4] := y2 0 _ rfl
  have i1 : Is m 3 g1 [p0, p2, p3, p4] := y2 1 _ rfl
  have i2 : Is m 3 g2 [p0, p1, p3, p4] := y2 2 _ rfl
  have i3 : Is m 3 g3 [p0, p1, p2, p4] := y2 3 _ rfl
  have i4 : Is m 3 g4 [p0, p1, p2, p3] := y2 4 _ rfl
  have hgnd : [g0, g1, g2, g3, g4].Nodup := Faces.nodup ⟨y1, y2⟩ hnd
  have hinj : Function.Injective ![p0, p1, p2, p3, p4] := by
    intro i j hij
    simp only [List.nodup_cons, List.mem_cons, List.not_mem_nil, or_false, not_or, not_false_eq_true, List.nodup_nil, and_true] at hnd
    fin_cases i <;> fin_cases j <;> simp at hij ⊢ <;> simp_all
  have hmem : ∀ i, (![p0, p1, p2, p3, p4] : Fin 5 → PV) i ∈ [p0, p1, p2, p3, p4] := fun i => by fin_cases i <;> simp
  have hk : ∀ {g : Int} {fs : List PV} (q : Nat), q < 5 → Is m 3 g fs → [p0, p1, p2, p3, p4].eraseIdx q = fs →
      0 ≤ g ∧ getSimplex m 3 g = some (fs.map (enc m)) ∧ ∃ fs, Is m 3 g fs ∧ Cof m 4 e fs := by
    intro g fs q hq hi hfs
    have hg : 0 ≤ g := (nonneg_iff hi).2 fun p hp => h0 p (List.mem_of_mem_eraseIdx (hfs ▸ hp))
    exact ⟨hg, get3 hg hi, fs, hi, _, q, he, by simpa using hq, hfs⟩
  refine ⟨fun i => enc m (![p0, p1, p2, p3, p4] i), ![g0, g1, g2, g3, g4], ?_, ?_, ?_, ?_, ?_, ?_⟩
  · intro i j hij
    have a := f3 _ (hmem i)
    have b := f3 _ (hmem j)
    exact hinj (enc_inj a.1 a.2.1 b.1 b.2.1 hij)
  · intro i
    have a := f3 _ (hmem i)
    have b := h0 _ (hmem i)
    exact id_nonneg (by omega) a.1 b
  · intro i
    exact List.mem_map.2 ⟨_, hmem i, rfl⟩
  · intro i j hij
    simp only [List.nodup_cons, List.mem_cons, List.not_mem_nil, or_false, not_or, not_false_eq_true, List.nodup_nil, and_true] at hgnd
    fin_cases i <;> fin_cases j <;> simp at hij ⊢ <;> omega
  · intro k
    fin_cases k
    · exact hk 0 (by omega) i0 rfl
    · exact hk 1 (by omega) i1 rfl
    · exact hk 2 (by omega) i2 rfl
    · exact hk 3 (by omega) i3 rfl
    · exact hk 4 (by omega) i4 rfl
  · rintro f fs hf ⟨ps', q, c1, c2, c3⟩
    obtain rfl := c1.func he
    have hq : q < 5 := by simpa using c2
    interval_cases q
    · exact ⟨0, hf.inj B (c3 ▸ i0)⟩
    · exact ⟨1, hf.inj B (c3 ▸ i1)⟩
    · exact ⟨2, hf.inj B (c3 ▸ i2)⟩
    · exact ⟨3, hf.inj B (c3 ▸ i3)⟩
    · exact ⟨4, hf.inj B (c3 ▸ i4)⟩

end Verif.X3T
