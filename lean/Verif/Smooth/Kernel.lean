import Verif.Smooth.Grad
import Verif.Graph.Props
import Mathlib.Analysis.SpecialFunctions.ExpDeriv
import Mathlib.Tactic.Ring
/-! # The smoothing kernel of a triangle mesh and what it computes (C178) -/
namespace Verif.Smooth
open Verif.UM Relation

variable {order : List (Edge × Int) → List (Edge × Int)} {n0 : Nat} {ts : List Tri} {m : M2}

/-- Euclidean distance in the plane. -/
noncomputable def edist (p q : Fin 2 → ℝ) : ℝ := Real.sqrt ((p 0 - q 0) ^ 2 + (p 1 - q 1) ^ 2)

/-- The weight function of the code as a function of two points. -/
noncomputable def gauss (sigma : ℝ) (p q : Fin 2 → ℝ) : ℝ :=
  Real.exp (-((p 0 - q 0) ^ 2 + (p 1 - q 1) ^ 2) / (2 * sigma ^ 2)) / (sigma * Real.sqrt (2 * Real.pi))

theorem dist2_eq (p q : Fin 2 → ℝ) : dist2 p q = edist p q := by
  unfold dist2 edist; congr 1; ring

theorem weight_eq (sigma : ℝ) (p q : Fin 2 → ℝ) : weight sigma (dist2 p q) = gauss sigma p q := by
  unfold weight gauss
  rw [dist2_eq]
  have : edist p q * edist p q = (p 0 - q 0) ^ 2 + (p 1 - q 1) ^ 2 := Real.mul_self_sqrt (by positivity)
  rw [this, mul_assoc, sq sigma]

/-- `k` can be reached from `i` along edges of the mesh without leaving the open disc of radius `3 σ` around `i`. -/
def InDisc (x : Int → Fin 2 → ℝ) (ts : List Tri) (sigma : ℝ) (i k : Int) : Prop :=
  0 < sigma ∧ ReflTransGen (fun a b => Joined ts a b ∧ edist (x i) (x b) < 3 * sigma) i k

theorem near_iff {x : Int → Fin 2 → ℝ} {sigma : ℝ} {i j : Int} (h0 : 0 ≤ i) (h1 : i < n0) (h2 : 0 ≤ j) (h3 : j < n0) :
    near (field n0 x) sigma i j = true ↔ edist (x i) (x j) < 3 * sigma := by
  unfold near
  rw [read_field x h0 h1, read_field x h2 h3, ← dist2_eq]
  simp

theorem near_dom {x : Int → Fin 2 → ℝ} {sigma : ℝ} {i j : Int} (h : near (field n0 x) sigma i j = true) : 0 ≤ j ∧ j < n0 := by
  unfold near at h
  rcases hj : UM.read (field n0 x) j with _ | v
  · rw [hj] at h; split at h <;> simp_all
  · unfold UM.read at hj
    split at hj
    · have := (List.getElem?_eq_some_iff.1 hj).1
      simp [field] at this
      omega
    · simp at hj

theorem support_spec (ho : IsOrder order) (hv : Valid n0 ts) (hb : build order n0 ts = some m)
    (x : Int → Fin 2 → ℝ) (sigma : ℝ) {i : Nat} (hi : i < n0) :
    ∃ s, support m m.n0 (near (field n0 x) sigma i) i = some s ∧ s.Pairwise (· < ·) ∧
      (∀ k ∈ s, 0 ≤ k ∧ k < (n0 : Int)) ∧ ∀ k, k ∈ s ↔ InDisc x ts sigma i k := by
  have B := built ho hv hb
  have hn0 : m.n0 = n0 := B.choose_spec.hn0
  have hii : near (field n0 x) sigma i i = true ↔ 0 < sigma := by
    rw [near_iff (by omega) (by omega) (by omega) (by omega)]
    simp [edist]
  have hrel : ∀ k, Gr.Reach (fun v => (m.vertexEdgeVertex v).getD []) (near (field n0 x) sigma i) (i : Int) k →
      ReflTransGen (fun a b => Joined ts a b ∧ edist (x i) (x b) < 3 * sigma) (i : Int) k ∧ 0 ≤ k ∧ k < (n0 : Int) := by
    intro k hk
    unfold Gr.Reach at hk
    induction hk with
    | refl => exact ⟨.refl, by omega, by omega⟩
    | tail _ h ih =>
      obtain ⟨ih, i1, i2⟩ := ih
      obtain ⟨hm, hc⟩ := h
      have hd := near_dom hc
      obtain ⟨-, S, s1, -, s3⟩ := C70_vertex_neighbours ho hv hb _ i1 i2
      simp only [s1, Option.getD_some] at hm
      exact ⟨ih.tail ⟨(s3 _).1 hm, (near_iff (by omega) (by omega) hd.1 hd.2).1 hc⟩, hd⟩
  have hrel2 : ∀ k, ReflTransGen (fun a b => Joined ts a b ∧ edist (x i) (x b) < 3 * sigma) (i : Int) k →
      Gr.Reach (fun v => (m.vertexEdgeVertex v).getD []) (near (field n0 x) sigma i) (i : Int) k ∧ 0 ≤ k ∧ k < (n0 : Int) := by
    intro k hk
    induction hk with
    | refl => exact ⟨.refl, by omega, by omega⟩
    | @tail b c _ h ih =>
      obtain ⟨ih, i1, i2⟩ := ih
      obtain ⟨hj, hc⟩ := h
      obtain ⟨-, S, s1, -, s3⟩ := C70_vertex_neighbours ho hv hb b i1 i2
      have hd : 0 ≤ c ∧ c < (n0 : Int) := by
        obtain ⟨-, t, ht, -, hon⟩ := hj
        exact hv.range t ht c hon
      have hmem : c ∈ (m.vertexEdgeVertex b).getD [] := by rw [s1]; exact (s3 c).2 hj
      exact ⟨ReflTransGen.tail ih ⟨hmem, (near_iff (by omega) (by omega) hd.1 hd.2).2 hc⟩, hd⟩
  obtain ⟨tr, t1, t2, t3⟩ := Gr.C17_bfs_visits_reachable (fun v => (m.vertexEdgeVertex v).getD [])
    (near (field n0 x) sigma i) (i : Int) ((List.range n0).map fun (k : Nat) => (k : Int))
    (fun k hk => by
      obtain ⟨-, a, b⟩ := hrel k hk
      rw [List.mem_map]
      exact ⟨k.toNat, List.mem_range.2 (by omega), by omega⟩) m.n0 (by simp [hn0])
  refine ⟨tr.foldl (fun s x => setInsert x s) [], by simp [support, t1], ?_, ?_, ?_⟩
  · exact Gr.foldl_setInsert_sorted tr [] List.Pairwise.nil
  · intro k hk
    rw [Gr.foldl_setInsert_mem] at hk
    simp only [List.not_mem_nil, false_or, t3] at hk
    exact (hrel k hk.2).2
  · intro k
    rw [Gr.foldl_setInsert_mem]
    simp only [List.not_mem_nil, false_or, t3, hii, InDisc]
    constructor
    · rintro ⟨a, b⟩; exact ⟨a, (hrel k b).1⟩
    · rintro ⟨a, b⟩; exact ⟨a, (hrel2 k b).1⟩

/-- C178: on a legal mesh `build_smoothing_kernel(σ)` terminates and its entry for vertex `i` lists, in ascending order and
each once, the vertices that can be reached from `i` along mesh edges inside the disc of radius `3σ`, with the Gaussian
weight of their distance.  (For `σ ≤ 0` all entries are empty.)  What the entries contained before is kept in front, so
building the kernel a second time lists every vertex twice. -/
theorem C178_kernel (ho : IsOrder order) (hv : Valid n0 ts) (hb : build order n0 ts = some m)
    (x : Int → Fin 2 → ℝ) (sigma : ℝ) (old : List (List (Int × ℝ))) :
    ∃ ks, buildKernel m (field n0 x) sigma old = some ks ∧ ks.length = n0 ∧ ∀ i < n0, ∃ new,
      ks[i]? = some (old[i]?.getD [] ++ new) ∧ (new.map Prod.fst).Pairwise (· < ·) ∧
      ∀ k w, (k, w) ∈ new ↔ InDisc x ts sigma i k ∧ w = gauss sigma (x i) (x k) := by
  classical
  have B := built ho hv hb
  have hn0 : m.n0 = n0 := B.choose_spec.hn0
  choose s s1 s2 s3 s4 using fun (i : Nat) (hi : i < n0) => support_spec ho hv hb x sigma hi
  let row : Nat → List (Int × ℝ) := fun i => if hi : i < n0 then (s i hi).map fun k => (k, gauss sigma (x i) (x k)) else []
  refine ⟨(List.range n0).map fun i => old[i]?.getD [] ++ row i, ?_, by simp, fun i hi => ⟨row i, by simp [hi], ?_, ?_⟩⟩
  · unfold buildKernel
    rw [hn0]
    apply MPAS.mapM_some
    intro i hi
    have hi := List.mem_range.1 hi
    unfold kernelRow
    rw [read_field x (by omega) (by omega), Option.bind_eq_bind, Option.bind_some, s1 i hi, Option.bind_eq_bind,
      Option.bind_some, MPAS.mapM_some _ (fun k => (k, gauss sigma (x i) (x k)))]
    · simp [row, hi]
    · intro k hk
      have := s3 i hi k hk
      rw [read_field x this.1 this.2, Option.map_some, weight_eq]
  · simp only [row, hi, dif_pos, List.map_map, Function.comp_def, List.map_id']
    exact s2 i hi
  · intro k w
    simp only [row, hi, dif_pos, List.mem_map, Prod.mk.injEq]
    constructor
    · rintro ⟨k', hk, rfl, rfl⟩; exact ⟨(s4 i hi _).1 hk, rfl⟩
    · rintro ⟨hk, rfl⟩; exact ⟨k, (s4 i hi _).2 hk, rfl, rfl⟩

end Verif.Smooth
