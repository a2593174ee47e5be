import Verif.X3Trk.Cells
import Verif.UTrk.Nbs
import Verif.Tracker.CurveProps
/-! The `neighbors` lambda of the critical point tracker on unstructured 3-D meshes. -/
namespace Verif.X3T
open Verif.U3 Verif.X3
variable {γ : Type} {n0 : Nat} {ts : List Tet} {m : M3}

/-- tetrahedron `f` is a facet of pentachoron `e` -/
def Facets (m : M3) (f e : Int) : Prop := ∃ fs, Is m 3 f fs ∧ Cof m 4 e fs

/-- the cells: pentachora, and one virtual cell behind every tetrahedron of the lateral boundary -/
def face (m : M3) (f : Int) : Int ⊕ Int → Prop
  | .inl e => Facets m f e
  | .inr g => g = f ∧ ∃ a, ∀ e, Facets m f e ↔ e = a

/-- virtual cells are outside -/
def inside (m : M3) (T : Nat) : Int ⊕ Int → Prop
  | .inl e => ∃ ps, Is m 4 e ps ∧ ∀ p ∈ ps, 0 ≤ p.2 ∧ p.2 < T
  | .inr _ => False

theorem facets_of {f e : Int} {fs : List PV} (h : Is m 3 f fs) : Facets m f e ↔ Cof m 4 e fs := by
  constructor
  · rintro ⟨fs', h1, h2⟩
    obtain rfl := h1.func h
    exact h2
  · exact fun h' => ⟨fs, h, h'⟩

theorem face_two (G : Geo n0 ts m) (hM : Manifold ts) {f : Int} (hf : 0 ≤ f) : ∃ a b, a ≠ b ∧ ∀ e, face m f e ↔ e = a ∨ e = b := by
  obtain ⟨fs, hfs⟩ := is_of G (f := f)
  obtain ⟨R, -, r2, r3, r4, -⟩ := cofaces G hM hf hfs
  have r5 : ∀ e, Facets m f e ↔ e ∈ R := fun e => (facets_of hfs).trans (r4 e).symm
  rcases r3 with h | h
  · obtain ⟨a, rfl⟩ := List.length_eq_one_iff.1 h
    have ha : ∀ e, Facets m f e ↔ e = a := fun e => by rw [r5]; simp
    refine ⟨.inl a, .inr f, by simp, ?_⟩
    rintro (e | g)
    · simp only [face, ha, Sum.inl.injEq, reduceCtorEq, or_false]
    · simp only [face, reduceCtorEq, Sum.inr.injEq, false_or]
      exact ⟨fun h => h.1, fun h => ⟨h, a, ha⟩⟩
  · obtain ⟨a, b, rfl⟩ := List.length_eq_two.1 h
    have hab : a ≠ b := by simpa using r2
    refine ⟨.inl a, .inl b, by simpa using hab, ?_⟩
    rintro (e | g)
    · simp only [face, r5, List.mem_cons, List.not_mem_nil, or_false, Sum.inl.injEq]
    · simp only [face, reduceCtorEq, or_self, iff_false, not_and, not_exists]
      rintro - c hc
      have h1 := (hc a).1 ((r5 a).2 (by simp))
      have h2 := (hc b).1 ((r5 b).2 (by simp))
      exact hab (h1.trans h2.symm)

theorem sides_of (G : Geo n0 ts m) {e : Int} (he : Good m 4 e) : ∃ S, sides m 4 e = some S ∧ ∀ g, g ∈ S ↔ Facets m g e := by
  obtain ⟨ps, hps⟩ := is4 G e
  obtain ⟨S, s1, -, ys, ⟨y1, y2⟩, s3⟩ := (sides4_spec G.base hps he).spec
  refine ⟨S, s1, fun g => ?_⟩
  rw [s3]
  constructor
  · intro hg
    obtain ⟨q, hq, rfl⟩ := List.getElem_of_mem hg
    exact ⟨_, y2 q _ (List.getElem?_eq_getElem hq), ps, q, hps, by omega, rfl⟩
  · rintro ⟨gs, h1, ps', q, h2, h3, rfl⟩
    obtain rfl := h2.func hps
    have hq : q < ys.length := by omega
    have := (y2 q _ (List.getElem?_eq_getElem hq)).inj G.base h1
    rw [← this]
    exact List.getElem_mem hq

theorem nb_spec (G : Geo n0 ts m) (hM : Manifold ts) {f : Int} (hf : 0 ≤ f) :
    nbOpt m 3 f = some (nb m 3 f) ∧ (nb m 3 f).Nodup ∧ ∀ g, g ∈ nb m 3 f ↔ ∃ e, Facets m f e ∧ Facets m g e := by
  obtain ⟨fs, hfs⟩ := is_of G (f := f)
  obtain ⟨R, r1, -, -, r4, r5⟩ := cofaces G hM hf hfs
  obtain ⟨ss, s1, s2⟩ := UTrk.mapM_some (f := sides m 4) R (by
    intro e he
    obtain ⟨S, h, -⟩ := sides_of G (r5 e he)
    exact ⟨S, h⟩)
  have hopt : nbOpt m 3 f = some (ss.flatten.foldl (fun acc x => setInsert x acc) []) := by
    unfold nbOpt
    simp only [r1, s1]
  have hnb : nb m 3 f = ss.flatten.foldl (fun acc x => setInsert x acc) [] := by
    unfold nb; rw [hopt]; rfl
  have hsort : StrictSorted (ss.flatten.foldl (fun acc x => setInsert x acc) []) := by
    generalize ss.flatten = l
    have key : ∀ (l acc : List Int), StrictSorted acc → StrictSorted (l.foldl (fun acc x => setInsert x acc) acc) := by
      intro l
      induction l with
      | nil => intro acc h; exact h
      | cons x l ih => intro acc h; exact ih _ h.setInsert
    exact key l [] List.Pairwise.nil
  refine ⟨by rw [hopt, hnb], by rw [hnb]; exact hsort.nodup, fun g => ?_⟩
  rw [hnb, Gr.foldl_setInsert_mem]
  simp only [List.mem_flatten, List.not_mem_nil, or_false, false_or]
  constructor
  · rintro ⟨S, hS, hg⟩
    obtain ⟨e, he, h⟩ := Trk.forall₂_get s2 S hS
    obtain ⟨S', h1, h2⟩ := sides_of G (r5 e he)
    rw [h] at h1
    obtain rfl := Option.some.inj h1
    exact ⟨e, (facets_of hfs).2 ((r4 e).1 he), (h2 g).1 hg⟩
  · rintro ⟨e, h1, h2⟩
    have he := (r4 e).2 ((facets_of hfs).1 h1)
    obtain ⟨S, h, hS⟩ := sides_of G (r5 e he)
    obtain ⟨S', hS', h'⟩ := Trk.forall₂_get s2.flip e he
    rw [h] at h'
    obtain rfl := Option.some.inj h'
    exact ⟨S, hS', (hS g).2 h2⟩

/-- `neighbors` restricted to ids that are not negative -/
def nbR (m : M3) (f : Int) : List Int := if 0 ≤ f then (nb m 3 f).filter (fun g => decide (0 ≤ g)) else []

theorem mem_nbR (G : Geo n0 ts m) (hM : Manifold ts) (f g : Int) :
    g ∈ nbR m f ↔ 0 ≤ f ∧ 0 ≤ g ∧ ∃ e, Facets m f e ∧ Facets m g e := by
  unfold nbR
  by_cases hf : 0 ≤ f
  · rw [if_pos hf, List.mem_filter, (nb_spec G hM hf).2.2, decide_eq_true_eq]
    tauto
  · simp [hf]

theorem nbR_nodup (G : Geo n0 ts m) (hM : Manifold ts) (f : Int) : (nbR m f).Nodup := by
  unfold nbR
  split
  · rename_i hf
    exact (nb_spec G hM hf).2.1.filter _
  · exact List.nodup_nil

theorem nbR_symm (G : Geo n0 ts m) (hM : Manifold ts) : Gr.Symm (nbR m) := by
  intro f g h
  rw [mem_nbR G hM] at h ⊢
  obtain ⟨hf, hg, e, h1, h2⟩ := h
  exact ⟨hg, hf, e, h2, h1⟩

theorem nbR_restr (m : M3) : Gr.Restr (fun g : Int => decide (0 ≤ g)) (nb m 3) (nbR m) := by
  intro x hx
  simp only [decide_eq_true_eq] at hx
  unfold nbR
  rw [if_pos hx]

theorem nbDefined_of (G : Geo n0 ts m) (hM : Manifold ts) {l : List Int} (h : ∀ x ∈ l, 0 ≤ x) : nbDefined m 3 l = true := by
  unfold nbDefined
  rw [List.all_eq_true]
  intro x hx
  rw [(nb_spec G hM (h x hx)).1]
  rfl

/-! ### the vertex lists of the specification -/

theorem inside_is (G : Geo n0 ts m) {d T : Nat} (hd : d ≤ 4) {ws : List Int} :
    Inside n0 ts d T ws ↔ ∃ e ps, Is m d e ps ∧ (∀ p ∈ ps, 0 ≤ p.2 ∧ p.2 < T) ∧ ws = ps.map (enc m) := by
  have B := G.base
  have ht : ∀ {e : Int} {ps : List PV}, Is m d e ps → ∀ p ∈ ps, time n0 (enc m p) = p.2 := by
    intro e ps h p hp
    have := h.facts.2.2.1 p hp
    exact (enc_facts B.hn0 this.1 this.2.1).2
  constructor
  · rintro ⟨h1, h2, h3⟩
    obtain ⟨e, ps, hi, rfl⟩ := is_complete B G.num.2 (d := d) hd h1 h2
    refine ⟨e, ps, hi, fun p hp => ?_, rfl⟩
    have := h3 _ (List.mem_map.2 ⟨p, hp, rfl⟩)
    rwa [ht hi p hp] at this
  · rintro ⟨e, ps, hi, hp, rfl⟩
    refine ⟨by simp [hi.facts.1], hi.simplex B, ?_⟩
    intro v hv
    obtain ⟨p, hp', rfl⟩ := List.mem_map.1 hv
    rw [ht hi p hp']
    exact hp p hp'

theorem faceOf_cof (G : Geo n0 ts m) {d : Nat} (hd : d ≤ 3) {f e : Int} (hf : 0 ≤ f) {fs ps : List PV} (hfs : Is m d f fs) (h : Is m (d + 1) e ps) :
    FaceOf m d f (ps.map (enc m)) ↔ Cof m (d + 1) e fs := by
  rw [cof_iff G.base hfs h]
  unfold FaceOf
  rw [get_of_is hd hfs (.inl hf)]
  constructor
  · rintro ⟨vs, h1, h2⟩
    obtain rfl := Option.some.inj h1
    exact h2
  · exact fun h => ⟨_, rfl, h⟩

theorem faceOf_is (G : Geo n0 ts m) {f e : Int} (hf : 0 ≤ f) {ps : List PV} (h : Is m 4 e ps) : FaceOf m 3 f (ps.map (enc m)) ↔ Facets m f e := by
  obtain ⟨fs, hfs⟩ := is_of G (f := f)
  rw [facets_of hfs]
  exact faceOf_cof G (by omega) hf hfs h

end Verif.X3T
