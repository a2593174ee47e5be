import Verif.ExMesh.Model
import Verif.U3Mesh.Props
import Verif.XMesh.Decode
import Mathlib.Tactic.Linarith
import Mathlib.Tactic.Ring
import Mathlib.Tactic.Positivity
import Mathlib.Data.List.Perm.Subperm
/-!
# The cells of the explicit extruded mesh (C188)
-/
namespace Verif.ExM
open Verif.U3

/-- A period with `2 n0` vertices whose upper plane is the lower one moved by `n0`: the edges and triangles within the two
planes correspond, and every tetrahedron has a corner in the lower plane. -/
structure Layered (n0 : Nat) (ts : List Tet) : Prop where
  /-- a legal tetrahedral mesh -/
  valid : Valid (2 * n0) ts
  /-- corresponding planes -/
  planes : ∀ d c, (d = 1 ∨ d = 2) → (∀ v ∈ c, 0 ≤ v ∧ v < (n0 : Int)) → (IsCell ts d c ↔ IsCell ts d (c.map (· + (n0 : Int))))
  /-- between the planes -/
  between : ∀ t ∈ ts, ∃ v : Int, OnTet v t ∧ v < (n0 : Int)

theorem scan_cons (n0 s : Nat) (c : Cell) (cs : List Cell) : scan n0 s (c :: cs) =
    if (c.all fun v => v < (n0 : Int)) then (s :: (scan n0 (s + 1) cs).1, (scan n0 (s + 1) cs).2)
    else if ¬ (c.all fun v => ¬ (v < (n0 : Int))) then ((scan n0 (s + 1) cs).1, s :: (scan n0 (s + 1) cs).2)
    else scan n0 (s + 1) cs := rfl

theorem scan_spec (n0 : Nat) : ∀ (cs : List Cell) (s : Nat),
    (∀ i, i ∈ (scan n0 s cs).1 ↔ ∃ k c, i = s + k ∧ cs[k]? = some c ∧ ∀ v ∈ c, v < n0) ∧
    (∀ i, i ∈ (scan n0 s cs).2 ↔ ∃ k c, i = s + k ∧ cs[k]? = some c ∧ (∃ v ∈ c, v < (n0 : Int)) ∧ ∃ v ∈ c, ¬ v < n0) ∧
    (scan n0 s cs).1.Pairwise (· < ·) ∧ (scan n0 s cs).2.Pairwise (· < ·)
  | [], s => by simp [scan]
  | c :: cs, s => by
    obtain ⟨h1, h2, h3, h4⟩ := scan_spec n0 cs (s + 1)
    have ge1 : ∀ i ∈ (scan n0 (s + 1) cs).1, s < i := fun i hi => by
      obtain ⟨k, _, rfl, _⟩ := (h1 i).1 hi; omega
    have ge2 : ∀ i ∈ (scan n0 (s + 1) cs).2, s < i := fun i hi => by
      obtain ⟨k, _, rfl, _⟩ := (h2 i).1 hi; omega
    have tail1 : ∀ i, i ∈ (scan n0 (s + 1) cs).1 ↔ ∃ k c', i = s + (k + 1) ∧ cs[k]? = some c' ∧ ∀ v ∈ c', v < n0 := fun i => by
      rw [h1 i]; simp only [Nat.add_assoc, Nat.add_comm 1]
    have tail2 : ∀ i, i ∈ (scan n0 (s + 1) cs).2 ↔ ∃ k c', i = s + (k + 1) ∧ cs[k]? = some c' ∧ (∃ v ∈ c', v < n0) ∧ ∃ v ∈ c', ¬ v < n0 :=
      fun i => by rw [h2 i]; simp only [Nat.add_assoc, Nat.add_comm 1]
    have split1 : ∀ i, (∃ k c', i = s + k ∧ (c :: cs)[k]? = some c' ∧ ∀ v ∈ c', v < (n0 : Int)) ↔
        (i = s ∧ ∀ v ∈ c, v < (n0 : Int)) ∨ i ∈ (scan n0 (s + 1) cs).1 := by
      intro i
      rw [tail1 i]
      constructor
      · rintro ⟨k, c', hi, hc, hv⟩
        cases k with
        | zero => simp at hc; subst hc; exact .inl ⟨by omega, hv⟩
        | succ k => exact .inr ⟨k, c', hi, by simpa using hc, hv⟩
      · rintro (⟨hi, hv⟩ | ⟨k, c', hi, hc, hv⟩)
        · exact ⟨0, c, by omega, rfl, hv⟩
        · exact ⟨k + 1, c', hi, by simpa using hc, hv⟩
    have split2 : ∀ i, (∃ k c', i = s + k ∧ (c :: cs)[k]? = some c' ∧ (∃ v ∈ c', v < (n0 : Int)) ∧ ∃ v ∈ c', ¬ v < (n0 : Int)) ↔
        (i = s ∧ (∃ v ∈ c, v < (n0 : Int)) ∧ ∃ v ∈ c, ¬ v < (n0 : Int)) ∨ i ∈ (scan n0 (s + 1) cs).2 := by
      intro i
      rw [tail2 i]
      constructor
      · rintro ⟨k, c', hi, hc, hv⟩
        cases k with
        | zero => simp only [List.getElem?_cons_zero, Option.some.injEq] at hc; subst hc; exact .inl ⟨by omega, hv⟩
        | succ k => exact .inr ⟨k, c', hi, by simpa using hc, hv⟩
      · rintro (⟨hi, hv⟩ | ⟨k, c', hi, hc, hv⟩)
        · exact ⟨0, c, by omega, rfl, hv⟩
        · exact ⟨k + 1, c', hi, by simpa using hc, hv⟩
    simp only [split1, split2]
    rw [scan_cons]
    by_cases hl : ∀ v ∈ c, v < (n0 : Int)
    · have hl' : (c.all fun v => v < (n0 : Int)) = true := by simpa using hl
      rw [if_pos hl']
      have hn : ¬ ∃ v ∈ c, ¬ v < (n0 : Int) := fun ⟨v, hv, h⟩ => h (hl v hv)
      refine ⟨fun i => by rw [List.mem_cons, and_iff_left hl], fun i => ?_,
        List.pairwise_cons.2 ⟨ge1, h3⟩, h4⟩
      exact ⟨.inr, fun h => h.elim (fun h => absurd h.2.2 hn) id⟩
    · have hl' : ¬ (c.all fun v => v < (n0 : Int)) = true := by simpa using hl
      rw [if_neg hl']
      by_cases hu : ∀ v ∈ c, ¬ v < (n0 : Int)
      · have hu' : ¬ ¬ (c.all fun v => ¬ (v < (n0 : Int))) = true := by simpa using hu
        rw [if_neg hu']
        refine ⟨fun i => ?_, fun i => ?_, h3, h4⟩
        · exact ⟨.inr, fun h => h.elim (fun h => absurd h.2 hl) id⟩
        · have : ¬ ∃ v ∈ c, v < (n0 : Int) := fun ⟨v, hv, h⟩ => hu v hv h
          exact ⟨.inr, fun h => h.elim (fun h => absurd h.2.1 this) id⟩
      · have hu' : ¬ (c.all fun v => ¬ (v < (n0 : Int))) = true := by simpa using hu
        rw [if_pos hu']
        have e1 : ∃ v ∈ c, v < (n0 : Int) := by
          by_contra h; exact hu fun v hv hlt => h ⟨v, hv, hlt⟩
        have e2 : ∃ v ∈ c, ¬ v < (n0 : Int) := by
          by_contra h; exact hl fun v hv => by_contra fun hn => h ⟨v, hv, hn⟩
        refine ⟨fun i => ?_, fun i => ?_, h3, List.pairwise_cons.2 ⟨ge2, h4⟩⟩
        · exact ⟨.inr, fun h => h.elim (fun h => absurd h.2 hl) id⟩
        · rw [List.mem_cons, and_iff_left ⟨e1, e2⟩]

/-- The list of the cells of one period in the order of their ids, as ids of the tetrahedral mesh -/
def ids (m : Ex) (d : Nat) : List Nat := if d = 3 then List.range (m.m3.n 3) else m.ord d ++ m.int d

theorem read_nat {l : List Nat} {i : Int} (h0 : 0 ≤ i) : UM.read l i = l[i.toNat]? := by
  unfold UM.read; rw [if_pos h0]

theorem idOf_eq (m : Ex) {d : Nat} (h1 : 1 ≤ d) (h3 : d ≤ 3) {i : Int} (h0 : 0 ≤ i) (hi : i < m.n d) :
    m.idOf d i = ((ids m d)[i.toNat]?).map fun (x : Nat) => (x : Int) := by
  unfold Ex.idOf ids
  by_cases hd : d = 3
  · subst hd
    rw [if_pos rfl, if_pos rfl]
    have : i < (m.m3.n 3 : Int) := by simpa [Ex.n] using hi
    rw [List.getElem?_range (by omega)]
    simp; omega
  · have hd' : d = 2 ∨ d = 1 := by omega
    rw [if_neg hd, if_neg hd, if_pos hd']
    split
    · rename_i hlt
      rw [read_nat h0, List.getElem?_append_left (by omega)]
    · rename_i hge
      rw [read_nat (by omega), List.getElem?_append_right (by omega)]
      have : m.n d = (m.ord d).length + (m.int d).length := by
        unfold Ex.n; rw [if_neg hd, if_pos hd']; push_cast; rfl
      have e : (i - (m.ord d).length).toNat = i.toNat - (m.ord d).length := by omega
      rw [e]

theorem ids_length (m : Ex) {d : Nat} (h1 : 1 ≤ d) (h3 : d ≤ 3) : (((ids m d).length : Nat) : Int) = m.n d := by
  unfold ids Ex.n
  by_cases hd : d = 3
  · rw [if_pos hd, if_pos hd]; simp
  · rw [if_neg hd, if_neg hd, if_pos (by omega)]; simp

section
variable {n0 : Nat} {ts : List Tet} {m3 : M3}

theorem get_read (hb : build (2 * n0) ts = some m3) {d : Nat} (hd : d = 1 ∨ d = 2) (k : Nat) :
    m3.get d k = (if d = 2 then m3.tris else m3.edges)[k]? := by
  rcases hd with rfl | rfl <;> simp [M3.get, UM.read]

/-- The cells of a period: those that have a corner in the lower plane, each once. -/
theorem ids_mem (hl : Layered n0 ts) (hb : build (2 * n0) ts = some m3) {d : Nat} (h1 : 1 ≤ d) (h3 : d ≤ 3) (j : Nat) :
    j ∈ ids (mk n0 m3) d ↔ ∃ c, m3.get d j = some c ∧ ∃ v ∈ c, v < (n0 : Int) := by
  obtain ⟨c1, c2, c3⟩ := C122_cells hl.valid hb h1 h3
  unfold ids
  by_cases hd : d = 3
  · subst hd
    rw [if_pos rfl, List.mem_range]
    change j < m3.n 3 ↔ _
    constructor
    · intro hj
      obtain ⟨c, hc, hcell⟩ := c1 j (by omega) (by exact_mod_cast hj)
      refine ⟨c, hc, ?_⟩
      obtain ⟨t, ht, hon⟩ := hcell.on
      obtain ⟨v, hv, hlt⟩ := hl.between t ht
      refine ⟨v, ?_, hlt⟩
      have hB := base_of hl.valid hb
      obtain ⟨i, hi⟩ := List.mem_iff_getElem?.1 ht
      obtain ⟨c', hc', hiff⟩ := hB.tet i t hi
      have hcell' := hB.get_cell hc'
      have : c = c' := by
        -- both are the increasing lists of the four corners
        have hsub : ∀ w ∈ c, w ∈ c' := fun w hw => (hiff w).2 (hon w hw)
        have hnd : c.Nodup := hcell.incr.imp (fun h => by omega)
        have hnd' : c'.Nodup := hcell'.incr.imp (fun h => by omega)
        refine incr_ext hcell.incr hcell'.incr fun w => ⟨hsub w, fun hw => ?_⟩
        have hsp : c.Subperm c' := List.subperm_of_subset hnd hsub
        have hlen : c'.length ≤ c.length := by rw [hcell.len, hcell'.len]
        exact (hsp.perm_of_length_le hlen).mem_iff.2 hw
      rw [this]
      exact (hiff v).2 hv
    · rintro ⟨c, hc, -⟩
      by_contra hn
      rw [c2 j (by omega)] at hc; cases hc
  · have hd' : d = 1 ∨ d = 2 := by omega
    rw [if_neg hd, List.mem_append]
    have key : (scan n0 0 (if d = 2 then m3.tris else m3.edges)).1 = (mk n0 m3).ord d ∧
        (scan n0 0 (if d = 2 then m3.tris else m3.edges)).2 = (mk n0 m3).int d := by
      unfold Ex.ord Ex.int mk; split <;> exact ⟨rfl, rfl⟩
    obtain ⟨s1, s2, -⟩ := scan_spec n0 (if d = 2 then m3.tris else m3.edges) 0
    rw [← key.1, ← key.2, s1 j, s2 j]
    simp only [Nat.zero_add, get_read hb hd']
    constructor
    · rintro (⟨k, c, rfl, hc, hv⟩ | ⟨k, c, rfl, hc, hv, -⟩)
      · refine ⟨c, hc, ?_⟩
        have hcell := c1 j (by omega) (by
          by_contra hn
          have := c2 j (by omega)
          rw [get_read hb hd', hc] at this; cases this)
        obtain ⟨c', hc', hcell⟩ := hcell
        rw [get_read hb hd', hc] at hc'
        obtain rfl := Option.some.inj hc'
        have hlen := hcell.len
        match c, hlen with
        | v :: _, _ => exact ⟨v, by simp, hv v (by simp)⟩
      · exact ⟨c, hc, hv⟩
    · rintro ⟨c, hc, hv⟩
      by_cases hall : ∀ v ∈ c, v < (n0 : Int)
      · exact .inl ⟨j, c, rfl, hc, hall⟩
      · refine .inr ⟨j, c, rfl, hc, hv, ?_⟩
        by_contra hn
        exact hall fun v hv => by_contra fun h => hn ⟨v, hv, h⟩

theorem ids_nodup (hl : Layered n0 ts) (hb : build (2 * n0) ts = some m3) {d : Nat} (h1 : 1 ≤ d) (h3 : d ≤ 3) :
    (ids (mk n0 m3) d).Nodup := by
  unfold ids
  by_cases hd : d = 3
  · rw [if_pos hd]; exact List.nodup_range
  · have hd' : d = 1 ∨ d = 2 := by omega
    rw [if_neg hd]
    have key : (scan n0 0 (if d = 2 then m3.tris else m3.edges)).1 = (mk n0 m3).ord d ∧
        (scan n0 0 (if d = 2 then m3.tris else m3.edges)).2 = (mk n0 m3).int d := by
      unfold Ex.ord Ex.int mk; split <;> exact ⟨rfl, rfl⟩
    obtain ⟨s1, s2, s3, s4⟩ := scan_spec n0 (if d = 2 then m3.tris else m3.edges) 0
    rw [← key.1, ← key.2, List.nodup_append]
    refine ⟨s3.imp (fun h => by omega), s4.imp (fun h => by omega), ?_⟩
    rintro a ha b hb' rfl
    obtain ⟨k, c, e1, e2, e3⟩ := (s1 a).1 ha
    obtain ⟨k', c', e1', e2', -, v, hv, e4⟩ := (s2 a).1 hb'
    have : k = k' := by omega
    subst this
    rw [e2] at e2'
    obtain rfl := Option.some.inj e2'
    exact e4 (e3 v hv)

theorem mk_n0 (hl : Layered n0 ts) (hb : build (2 * n0) ts = some m3) : (mk n0 m3).n 0 = n0 := by
  have := (base_of hl.valid hb).hn0
  unfold Ex.n
  rw [if_neg (by omega), if_neg (by omega)]
  show ((m3.n 0 : Nat) : Int) - n0 = n0
  rw [this]; push_cast; ring

theorem mk_m3 : (mk n0 m3).m3 = m3 := rfl

/-- Decoding: an id that is not a negative multiple of the number of cells stands for cell `k mod n` of the period,
moved by `k div n` periods. -/
theorem get_eq (hl : Layered n0 ts) (hb : build (2 * n0) ts = some m3) {d : Nat} (h1 : 1 ≤ d) (h3 : d ≤ 3)
    (hn : 0 < (mk n0 m3).n d) {k : Int} (hk : 0 ≤ k ∨ ¬ (mk n0 m3).n d ∣ k) :
    ∃ (j : Nat) (c : Cell), (ids (mk n0 m3) d)[(k % (mk n0 m3).n d).toNat]? = some j ∧ m3.get d j = some c ∧
      (∃ v ∈ c, v < (n0 : Int)) ∧ (mk n0 m3).get d k = some (c.map fun v => v + k / (mk n0 m3).n d * n0) := by
  have hm0 := Int.emod_nonneg k hn.ne'
  have hm1 := Int.emod_lt_of_pos k hn
  have hlen := ids_length (mk n0 m3) h1 h3
  have hlt : (k % (mk n0 m3).n d).toNat < (ids (mk n0 m3) d).length := by omega
  obtain ⟨c, hc, hv⟩ := (ids_mem hl hb h1 h3 _).1 (List.getElem_mem hlt)
  refine ⟨_, c, List.getElem?_eq_getElem hlt, hc, hv, ?_⟩
  unfold Ex.get
  simp only [XM.mod_good hn hk, Option.bind_eq_bind, Option.bind_some, idOf_eq (mk n0 m3) h1 h3 hm0 hm1,
    List.getElem?_eq_getElem hlt, Option.map_some, mk_m3, hc, mk_n0 hl hb, Int.fdiv_eq_ediv_of_nonneg _ hn.le]

/-- C188: every id that is not a negative multiple of `n(d)` stands for a cell of the period with a corner in its lower
plane, moved up by whole periods (`n0` vertices each). -/
theorem C188_cells_partial (hl : Layered n0 ts) (hb : build (2 * n0) ts = some m3) {d : Nat} (h1 : 1 ≤ d) (h3 : d ≤ 3)
    (hn : 0 < (mk n0 m3).n d) (k : Int) (hk : 0 ≤ k ∨ ¬ (mk n0 m3).n d ∣ k) :
    ∃ c, IsCell ts d c ∧ (∃ v ∈ c, v < (n0 : Int)) ∧
      (mk n0 m3).get d k = some (c.map fun v => v + k / (mk n0 m3).n d * n0) := by
  obtain ⟨j, c, -, hc, hv, hg⟩ := get_eq hl hb h1 h3 hn hk
  exact ⟨c, (base_of hl.valid hb).get_cell hc, hv, hg⟩

/-- C188: adding `n(d)` to an id moves the cell by one period. -/
theorem C188_periodic_partial (hl : Layered n0 ts) (hb : build (2 * n0) ts = some m3) {d : Nat} (h1 : 1 ≤ d) (h3 : d ≤ 3)
    (hn : 0 < (mk n0 m3).n d) (k : Int) (hk : 0 ≤ k ∨ ¬ (mk n0 m3).n d ∣ k) :
    (mk n0 m3).get d (k + (mk n0 m3).n d) = ((mk n0 m3).get d k).map fun (c : Cell) => c.map fun (v : Int) => v + (n0 : Int) := by
  obtain ⟨j, c, hj, hc, hv, hg⟩ := get_eq hl hb h1 h3 hn hk
  have hk' : 0 ≤ k + (mk n0 m3).n d ∨ ¬ (mk n0 m3).n d ∣ k + (mk n0 m3).n d := by
    rcases hk with h | h
    · left; omega
    · right; intro hd; exact h ((Int.dvd_iff_dvd_of_dvd_sub (by simp)).1 hd)
  obtain ⟨j', c', hj', hc', -, hg'⟩ := get_eq hl hb h1 h3 hn hk'
  rw [Int.add_emod_right, hj] at hj'
  obtain rfl := Option.some.inj hj'
  rw [hc] at hc'
  obtain rfl := Option.some.inj hc'
  rw [hg, hg', Option.map_some, List.map_map]
  congr 2
  funext v
  have : (k + (mk n0 m3).n d) / (mk n0 m3).n d = k / (mk n0 m3).n d + 1 := by
    rw [Int.add_ediv_of_dvd_right (Int.dvd_refl _), Int.ediv_self hn.ne']
  simp only [Function.comp]
  rw [this]; ring

theorem cell_range (hl : Layered n0 ts) {d : Nat} {c : Cell} (hc : IsCell ts d c) : ∀ v ∈ c, 0 ≤ v ∧ v < 2 * n0 := by
  obtain ⟨t, ht, hon⟩ := hc.on
  intro v hv
  have := hl.valid.range t ht v (hon v hv)
  omega

/-- C188: different ids stand for different cells. -/
theorem C188_injective_partial (hl : Layered n0 ts) (hb : build (2 * n0) ts = some m3) {d : Nat} (h1 : 1 ≤ d) (h3 : d ≤ 3)
    (hn : 0 < (mk n0 m3).n d) (j k : Int) (hj : 0 ≤ j ∨ ¬ (mk n0 m3).n d ∣ j) (hk : 0 ≤ k ∨ ¬ (mk n0 m3).n d ∣ k)
    (h : (mk n0 m3).get d j = (mk n0 m3).get d k) : j = k := by
  have hB := base_of hl.valid hb
  obtain ⟨a, c, ha, hc, ⟨v, hv, hv'⟩, hg⟩ := get_eq hl hb h1 h3 hn hj
  obtain ⟨a', c', ha', hc', ⟨w, hw, hw'⟩, hg'⟩ := get_eq hl hb h1 h3 hn hk
  rw [hg, hg'] at h
  have h := Option.some.inj h
  have r := cell_range hl (hB.get_cell hc)
  have r' := cell_range hl (hB.get_cell hc')
  generalize hN : (mk n0 m3).n d = N at *
  have ht : j / N = k / N := by
    have m1 : v + j / N * n0 ∈ c'.map fun v => v + k / N * (n0 : Int) := by
      rw [← h]; exact List.mem_map.2 ⟨v, hv, rfl⟩
    have m2 : w + k / N * n0 ∈ c.map fun v => v + j / N * (n0 : Int) := by
      rw [h]; exact List.mem_map.2 ⟨w, hw, rfl⟩
    obtain ⟨x, hx, ex⟩ := List.mem_map.1 m1
    obtain ⟨y, hy, ey⟩ := List.mem_map.1 m2
    have rx := r' x hx
    have ry := r y hy
    have rv := r v hv
    have rw' := r' w hw
    have hn0 : (0 : Int) < n0 := by omega
    rcases lt_trichotomy (j / N) (k / N) with hlt | heq | hgt
    · have : (j / N + 1) * (n0 : Int) ≤ k / N * n0 := mul_le_mul_of_nonneg_right (by omega) hn0.le
      nlinarith
    · exact heq
    · have : (k / N + 1) * (n0 : Int) ≤ j / N * n0 := mul_le_mul_of_nonneg_right (by omega) hn0.le
      nlinarith
  rw [ht] at h
  have hcc : c = c' := by
    have hinj : Function.Injective fun v : Int => v + k / N * (n0 : Int) := fun a b hab => by simpa using hab
    exact List.map_injective_iff.2 hinj h
  subst hcc
  have haa : a = a' := by
    obtain ⟨-, -, c3⟩ := C122_cells hl.valid hb h1 h3
    obtain ⟨i, -, hu⟩ := c3 c (hB.get_cell hc)
    have e1 := hu _ hc
    have e2 := hu _ hc'
    omega
  subst haa
  have hlen := ids_length (mk n0 m3) h1 h3
  rw [hN] at hlen
  have hm : j % N = k % N := by
    have hnd := ids_nodup hl hb h1 h3
    have a1 : (j % N).toNat < (ids (mk n0 m3) d).length := by
      have := Int.emod_lt_of_pos j hn
      have := Int.emod_nonneg j hn.ne'
      omega
    have := (List.getElem?_inj a1 hnd).1 (ha.trans ha'.symm)
    have := Int.emod_nonneg j hn.ne'
    have := Int.emod_nonneg k hn.ne'
    omega
  rw [← Int.emod_add_mul_ediv j N, ← Int.emod_add_mul_ediv k N, hm, ht]

/-- C188: every cell of the extruded mesh from period 0 on has an id: every cell of the period with a corner in the lower
plane, moved by `t ≥ 0` periods, … -/
theorem C188_all_partial (hl : Layered n0 ts) (hb : build (2 * n0) ts = some m3) {d : Nat} (h1 : 1 ≤ d) (h3 : d ≤ 3)
    (c : Cell) (hc : IsCell ts d c) (hv : ∃ v ∈ c, v < (n0 : Int)) (t : Nat) :
    ∃ k, 0 ≤ k ∧ (mk n0 m3).get d k = some (c.map fun v => v + (t : Int) * n0) := by
  obtain ⟨-, c2, c3⟩ := C122_cells hl.valid hb h1 h3
  obtain ⟨i, hi, -⟩ := c3 c hc
  have hi0 : 0 ≤ i := by
    by_contra hneg
    rw [c2 i (by omega)] at hi; cases hi
  obtain ⟨i, rfl⟩ := Int.eq_ofNat_of_zero_le hi0
  have hmem : i ∈ ids (mk n0 m3) d := (ids_mem hl hb h1 h3 i).2 ⟨c, hi, hv⟩
  obtain ⟨p, hp⟩ := List.mem_iff_getElem?.1 hmem
  have hlen := ids_length (mk n0 m3) h1 h3
  have hpl : p < (ids (mk n0 m3) d).length := by
    by_contra hge
    rw [List.getElem?_eq_none (by omega)] at hp; cases hp
  have hn : 0 < (mk n0 m3).n d := by omega
  have hk0 : 0 ≤ (p : Int) + (t : Int) * (mk n0 m3).n d := by positivity
  refine ⟨(p : Int) + (t : Int) * (mk n0 m3).n d, hk0, ?_⟩
  obtain ⟨j, c', hj, hc', -, hg⟩ := get_eq hl hb h1 h3 hn (.inl hk0)
  have e1 : ((p : Int) + (t : Int) * (mk n0 m3).n d) % (mk n0 m3).n d = p := by
    rw [Int.add_mul_emod_self_right]; exact Int.emod_eq_of_lt (by omega) (by omega)
  have e2 : ((p : Int) + (t : Int) * (mk n0 m3).n d) / (mk n0 m3).n d = t := by
    rw [Int.add_mul_ediv_right _ _ hn.ne', Int.ediv_eq_zero_of_lt (by omega) (by omega)]; omega
  rw [e1, Int.toNat_natCast, hp] at hj
  obtain rfl := Option.some.inj hj
  rw [hi] at hc'
  obtain rfl := Option.some.inj hc'
  rw [hg, e2]

/-- C188: … and an edge or triangle in the upper plane of a period is the one in the lower plane of the next period. -/
theorem C188_upper_partial (hl : Layered n0 ts) (hb : build (2 * n0) ts = some m3) {d : Nat} (hd : d = 1 ∨ d = 2)
    (c : Cell) (hc : IsCell ts d c) (hv : ∀ v ∈ c, (n0 : Int) ≤ v) (t : Nat) :
    ∃ k, 0 ≤ k ∧ (mk n0 m3).get d k = some (c.map fun v => v + (t : Int) * n0) := by
  have r := cell_range hl hc
  have hmap : (c.map fun v => v - (n0 : Int)).map (· + (n0 : Int)) = c := by
    rw [List.map_map]
    have : ((· + (n0 : Int)) ∘ fun v => v - (n0 : Int)) = id := by funext v; simp
    rw [this, List.map_id]
  have hlow : ∀ v ∈ c.map (fun v => v - (n0 : Int)), 0 ≤ v ∧ v < n0 := by
    intro v hv'
    obtain ⟨w, hw, rfl⟩ := List.mem_map.1 hv'
    have := r w hw
    have := hv w hw
    omega
  have hcell : IsCell ts d (c.map fun v => v - (n0 : Int)) := (hl.planes d _ hd hlow).2 (by rw [hmap]; exact hc)
  have hex : ∃ v ∈ c.map (fun v => v - (n0 : Int)), v < (n0 : Int) := by
    have hlen := hcell.len
    match hcm : c.map (fun v => v - (n0 : Int)), hlen with
    | v :: _, _ => exact ⟨v, by simp, (hlow v (by rw [hcm]; simp)).2⟩
  obtain ⟨k, hk0, hk⟩ := C188_all_partial hl hb (by omega) (by omega) _ hcell hex (t + 1)
  refine ⟨k, hk0, ?_⟩
  rw [hk, List.map_map]
  congr 2
  funext v
  simp only [Function.comp]
  push_cast; ring

/-- C188, violated: a negative multiple of `n(d)` is decoded as cell number `n(d)` of the period, which does not exist. -/
theorem C188_negative (hl : Layered n0 ts) (hb : build (2 * n0) ts = some m3) {d : Nat} (h1 : 1 ≤ d) (h3 : d ≤ 3)
    (hn : 0 < (mk n0 m3).n d) (q : Int) (hq : 0 < q) : (mk n0 m3).get d (-(q * (mk n0 m3).n d)) = none := by
  have hmod : XM.mod (-(q * (mk n0 m3).n d)) ((mk n0 m3).n d) = some ((mk n0 m3).n d) := by
    unfold XM.mod
    rw [if_neg hn.ne', if_pos (by have := mul_pos hq hn; omega)]
    rw [Int.neg_tmod, Int.mul_tmod_left]; simp
  have hid : (mk n0 m3).idOf d ((mk n0 m3).n d) = none ∨ (d = 3 ∧ (mk n0 m3).idOf d ((mk n0 m3).n d) = some (m3.n 3 : Int)) := by
    by_cases hd : d = 3
    · right
      subst hd
      exact ⟨rfl, by simp [Ex.idOf, Ex.n, mk_m3]⟩
    · left
      have hnn : (mk n0 m3).n d = ((mk n0 m3).ord d).length + ((mk n0 m3).int d).length := by
        unfold Ex.n; rw [if_neg hd, if_pos (by omega)]; push_cast; rfl
      unfold Ex.idOf
      rw [if_neg hd, if_pos (by omega), if_neg (by omega), hnn, read_nat (by omega), List.getElem?_eq_none (by omega)]
      rfl
  unfold Ex.get
  rw [hmod]
  simp only [Option.bind_eq_bind, Option.bind_some]
  rcases hid with h | ⟨rfl, h⟩
  · rw [h]; rfl
  · rw [h, Option.bind_some, mk_m3, (C122_cells hl.valid hb (by omega) (by omega)).2.1 _ (by omega)]; rfl

end
end Verif.ExM
