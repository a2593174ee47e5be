import Verif.UTrk.Lemmas
import Verif.Tracker.CurveProps
/-! The `neighbors` lambda of the unstructured tracker. -/
namespace Verif.UTrk
open Verif.UM (IsOrder Valid build)
variable {order : List (UM.Edge × Int) → List (UM.Edge × Int)} {n0 : Nat} {ts : List UM.Tri} {m : UM.M2}

theorem mapM_some {α β : Type} {f : α → Option β} : ∀ (l : List α), (∀ x ∈ l, ∃ y, f x = some y) →
    ∃ ys, l.mapM f = some ys ∧ List.Forall₂ (fun x y => f x = some y) l ys
  | [], _ => ⟨[], rfl, .nil⟩
  | x :: l, h => by
    obtain ⟨y, hy⟩ := h x (by simp)
    obtain ⟨ys, h1, h2⟩ := mapM_some l fun z hz => h z (by simp [hz])
    exact ⟨y :: ys, by simp [List.mapM_cons, hy, h1], .cons hy h2⟩

theorem nb_spec (ho : IsOrder order) (hv : Valid n0 ts) (hb : build order n0 ts = some m) (hN : 0 < XM.n m 3)
    {f : Int} (hf : 0 ≤ f) :
    nbOpt m f = some (nb m f) ∧ (nb m f).Nodup ∧
      ∀ g, g ∈ nb m f ↔ ∃ R e S, XM.sideOf m f = some R ∧ e ∈ R ∧ XM.sides m e = some S ∧ g ∈ S := by
  obtain ⟨R, r1, -, -, r4, -⟩ := XM.C52_side_of ho hv hb hN f hf
  obtain ⟨ss, s1, s2⟩ := mapM_some (f := XM.sides m) R (by
    intro e he
    obtain ⟨S, h, -⟩ := XM.C52_sides ho hv hb hN e (r4 e he)
    exact ⟨S, h⟩)
  have hopt : nbOpt m f = some (ss.flatten.foldl (fun acc x => setInsert x acc) []) := by
    unfold nbOpt
    simp only [r1, s1]
  have hnb : nb m f = ss.flatten.foldl (fun acc x => setInsert x acc) [] := by
    unfold nb; rw [hopt]; rfl
  have hsort : StrictSorted (ss.flatten.foldl (fun acc x => setInsert x acc) []) := by
    generalize ss.flatten = l
    have key : ∀ (l acc : List Int), StrictSorted acc → StrictSorted (l.foldl (fun acc x => setInsert x acc) acc) := by
      intro l
      induction l with
      | nil => intro acc h; exact h
      | cons x l ih => intro acc h; exact ih _ h.setInsert
    exact key l [] List.Pairwise.nil
  refine ⟨by rw [hopt, hnb], by rw [hnb]; exact hsort.nodup, fun g => ?_⟩
  rw [hnb, Gr.foldl_setInsert_mem]
  simp only [List.mem_flatten, List.not_mem_nil, or_false, false_or]
  constructor
  · rintro ⟨S, hS, hg⟩
    obtain ⟨e, he, h⟩ := Trk.forall₂_get s2 S hS
    exact ⟨R, e, S, r1, he, h, hg⟩
  · rintro ⟨R', e, S, h1, h2, h3, h4⟩
    rw [r1] at h1
    cases h1
    obtain ⟨S', hS', h⟩ := Trk.forall₂_get s2.flip e h2
    rw [h3] at h
    cases h
    exact ⟨S, hS', h4⟩

/-- `neighbors` restricted to ids that are not negative -/
def nbR (m : UM.M2) (f : Int) : List Int := if 0 ≤ f then (nb m f).filter (fun g => decide (0 ≤ g)) else []

/-- two triangles share a tetrahedron (all ids at times that are not negative, except possibly the tetrahedron's) -/
theorem mem_nbR (ho : IsOrder order) (hv : Valid n0 ts) (hb : build order n0 ts = some m) (hN : 0 < XM.n m 3)
    (f g : Int) : g ∈ nbR m f ↔ 0 ≤ f ∧ 0 ≤ g ∧ ∃ R e S, XM.sideOf m f = some R ∧ e ∈ R ∧ XM.sides m e = some S ∧ g ∈ S := by
  unfold nbR
  by_cases hf : 0 ≤ f
  · rw [if_pos hf, List.mem_filter, (nb_spec ho hv hb hN hf).2.2, decide_eq_true_eq]
    tauto
  · simp [hf]

theorem nbR_nodup (ho : IsOrder order) (hv : Valid n0 ts) (hb : build order n0 ts = some m) (hN : 0 < XM.n m 3)
    (f : Int) : (nbR m f).Nodup := by
  unfold nbR
  split
  · rename_i hf
    exact (nb_spec ho hv hb hN hf).2.1.filter _
  · exact List.nodup_nil

theorem share_symm (ho : IsOrder order) (hv : Valid n0 ts) (hb : build order n0 ts = some m) (hN : 0 < XM.n m 3)
    {f g : Int} (hf : 0 ≤ f) (hg : 0 ≤ g) {R : List Int} {e : Int} {S : List Int} (h1 : XM.sideOf m f = some R) (h2 : e ∈ R)
    (h3 : XM.sides m e = some S) (h4 : g ∈ S) : f ∈ S ∧ ∃ R', XM.sideOf m g = some R' ∧ e ∈ R' := by
  obtain ⟨R0, r1, -, -, r4, -⟩ := XM.C52_side_of ho hv hb hN f hf
  rw [h1] at r1
  cases r1
  obtain ⟨R1, S1, a1, a2, a3⟩ := XM.C52_duality_partial ho hv hb hN f e hf (r4 e h2)
  obtain ⟨R2, S2, b1, b2, b3⟩ := XM.C52_duality_partial ho hv hb hN g e hg (r4 e h2)
  rw [h1] at a1
  rw [h3] at a2 b2
  cases a1; cases a2; cases b2
  exact ⟨a3.1 h2, R2, b1, b3.2 h4⟩

theorem nbR_symm (ho : IsOrder order) (hv : Valid n0 ts) (hb : build order n0 ts = some m) (hN : 0 < XM.n m 3) :
    Gr.Symm (nbR m) := by
  intro f g h
  rw [mem_nbR ho hv hb hN] at h ⊢
  obtain ⟨hf, hg, R, e, S, h1, h2, h3, h4⟩ := h
  obtain ⟨k1, R', k2, k3⟩ := share_symm ho hv hb hN hf hg h1 h2 h3 h4
  exact ⟨hg, hf, R', e, S, k2, k3, h3, k1⟩

theorem nbR_restr (m : UM.M2) : Gr.Restr (fun g : Int => decide (0 ≤ g)) (nb m) (nbR m) := by
  intro x hx
  simp only [decide_eq_true_eq] at hx
  unfold nbR
  rw [if_pos hx]

theorem nbDefined_of (ho : IsOrder order) (hv : Valid n0 ts) (hb : build order n0 ts = some m) (hN : 0 < XM.n m 3)
    {l : List Int} (h : ∀ x ∈ l, 0 ≤ x) : nbDefined m l = true := by
  unfold nbDefined
  rw [List.all_eq_true]
  intro x hx
  rw [(nb_spec ho hv hb hN (h x hx)).1]
  rfl

end Verif.UTrk
