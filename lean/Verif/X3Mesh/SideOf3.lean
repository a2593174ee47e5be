import Verif.X3Mesh.Cofaces

/-! `side_of(3, ·)` on the extruded 4-D mesh. -/

namespace Verif.X3

open Verif.U3
open Verif.XM (mod rem mod_good mod_small mod_of_nonneg rem_small rem_add ediv_at emod_at at_eq)

variable {n0 : Nat} {ts : List Tet} {m : M3}

/-- What `side_of` returns: exactly the ids of the cofaces. -/
def SideOfSpec (m : M3) (d : Nat) (k : Int) (fs : List PV) : Prop :=
  ∃ S, sideOf m d k = some S ∧ S.Pairwise (· < ·) ∧ ∀ y, y ∈ S ↔ Cof m (d + 1) y fs

theorem sideOf_dec3 {ty : Nat} {i t : Int} {ps : List PV} {v : List Int} (h : Dec m 3 ty i ps) (hg : Good m 3 (i + t * n m 3))
    (hv : mods m (ps.map (enc m)) = some v) : sideOf m 3 (i + t * n m 3) = sideOf3 m t ty v := by
  have hr := h.range
  unfold sideOf
  rw [mod_good (by omega) hg, emod_at hr.1 hr.2, fdiv_at hr.1 hr.2]
  simp only [Option.bind_eq_bind, Option.bind_some, get_dec0 h (by omega), h.type, hv]

theorem sideOf_dec2 {ty : Nat} {i t : Int} {ps : List PV} {v : List Int} (h : Dec m 2 ty i ps) (hg : Good m 2 (i + t * n m 2))
    (hv : mods m (ps.map (enc m)) = some v) : sideOf m 2 (i + t * n m 2) = sideOf2 m t ty v := by
  have hr := h.range
  unfold sideOf
  rw [mod_good (by omega) hg, emod_at hr.1 hr.2, fdiv_at hr.1 hr.2]
  simp only [Option.bind_eq_bind, Option.bind_some, get_dec0 h (by omega), h.type, hv]

/-- `mod` undoes the shift in time. -/
theorem mod_enc {p : PV} (h0 : 0 ≤ p.1) (h1 : p.1 < m.n 0) (h2 : p.2 = 0 ∨ p.2 = 1) : mod (enc m p) (m.n 0) = some p.1 := by
  unfold enc
  rcases h2 with h | h <;> rw [h]
  · rw [Int.zero_mul, Int.add_zero]; exact mod_small h0 h1
  · rw [Int.one_mul]; exact modUp h0 h1

theorem mods_enc : ∀ {ps : List PV}, (∀ p ∈ ps, 0 ≤ p.1 ∧ p.1 < m.n 0 ∧ (p.2 = 0 ∨ p.2 = 1)) → mods m (ps.map (enc m)) = some (ps.map (·.1))
  | [], _ => rfl
  | p :: ps, h => by
    obtain ⟨h0, h1, h2⟩ := h p (by simp)
    have ih := mods_enc (ps := ps) (fun q hq => h q (List.mem_cons_of_mem _ hq))
    simp only [List.map_cons, mods, mod_enc h0 h1 h2, ih, Option.bind_eq_bind, Option.bind_some]

theorem addTypes_mem {e : Nat} {t id : Int} : ∀ (l : List (Nat × Int)) (acc : List Int) (y : Int),
    y ∈ addTypes m e t id l acc ↔ y ∈ acc ∨ ∃ a ∈ l, y = id + (t + a.2) * n m e + off m e a.1
  | [], _, _ => by simp [addTypes]
  | a :: l, acc, y => by
    rw [addTypes, addTypes_mem l]
    simp only [mem_setInsert, List.mem_cons, exists_eq_or_imp]
    tauto

theorem sideOf3_tet (B : Base n0 ts m) {ty : Nat} {i t j a b c d : Int} {ps : List PV} (D : Dec m 3 ty i ps) (hg : Good m 3 (i + t * n m 3))
    (h : K m j a b c d) (hps : ps.map (·.1) = [a, b, c, d]) (hty : ty < 4) (l : List (Nat × Int))
    (hl : l = match (ty : Int) with | 0 => [(0, 0), (3, -1)] | 1 => [(0, 0), (1, 0)] | 2 => [(1, 0), (2, 0)] | _ => [(2, 0), (3, 0)])
    (hc : ∀ y, Cof m 4 y (at_ t ps) ↔ ∃ a ∈ l, y = j + (t + a.2) * n m 4 + off m 4 a.1) :
    SideOfSpec m 3 (i + t * n m 3) (at_ t ps) := by
  have hm := mods_enc (dec_chain D).2.1
  rw [hps] at hm
  refine ⟨addTypes m 4 t j l [], ?_, addTypes_sorted _ _ _ _ _ List.Pairwise.nil, ?_⟩
  · rw [sideOf_dec3 D hg hm]
    unfold sideOf3
    rw [if_pos (by omega), must_of B h.get]
    simp only [Option.bind_eq_bind, Option.bind_some, ← hl]
    congr 2
    rw [hl]
    interval_cases ty <;> rfl
  · intro y
    rw [addTypes_mem, hc]
    simp

/-- Body of the loop when there is nothing to look up. -/
theorem body_self {b e : Nat} {t x : Int} {small σ : Cell} {f : Nat → List Add} {pos ty : Nat} (h1 : m.get b x = some σ)
    (h2 : position small σ = some pos) (hf : f pos = [.self ty 0]) : Body m b e t small f x [x + t * n m e + off m e ty] :=
  ⟨σ, pos, h1, h2, by rw [hf]; simp only [vals, Option.bind_eq_bind, Option.bind_some, Int.add_zero]⟩

theorem loopK_self (B : Base n0 ts m) {j a b c : Int} (h : T m j a b c) (e : Nat) (t : Int) (f : Nat → List Add) (u : Nat → Nat)
    (hf : ∀ pos, f pos = [.self (u pos) 0]) :
    ∃ R, (do let id ← must m 2 [a, b, c]; let S ← m.sideOf 2 id; cofaceLoop m 3 e t [a, b, c] f S []) = some R ∧ R.Pairwise (· < ·) ∧
    ∀ y, y ∈ R ↔ ∃ x pos, InK a b c m x pos ∧ y = x + t * n m e + off m e (u pos) := by
  have hb : ∀ x pos, InK a b c m x pos → Body m 3 e t [a, b, c] f x [x + t * n m e + off m e (u pos)] := by
    intro x pos hp
    obtain ⟨σ, g1, g2⟩ := hp.position
    exact body_self g1 g2 (hf pos)
  obtain ⟨R, r1, r2, r3⟩ := loopK B h e t f (fun x pos hp => ⟨_, hb x pos hp⟩)
  refine ⟨R, r1, r2, ?_⟩
  intro y
  rw [r3]
  constructor
  · rintro ⟨x, pos, vs, hp, hv, hy⟩
    rw [hv.func (hb x pos hp)] at hy
    exact ⟨x, pos, hp, by simpa using hy⟩
  · rintro ⟨x, pos, hp, rfl⟩
    exact ⟨x, pos, _, hp, hb x pos hp, by simp⟩

theorem loopT_self (B : Base n0 ts m) {j a b : Int} (h : E m j a b) (e : Nat) (t : Int) (f : Nat → List Add) (u : Nat → Nat)
    (hf : ∀ pos, f pos = [.self (u pos) 0]) :
    ∃ R, (do let id ← must m 1 [a, b]; let S ← m.sideOf 1 id; cofaceLoop m 2 e t [a, b] f S []) = some R ∧ R.Pairwise (· < ·) ∧
    ∀ y, y ∈ R ↔ ∃ x pos, InT a b m x pos ∧ y = x + t * n m e + off m e (u pos) := by
  have hb : ∀ x pos, InT a b m x pos → Body m 2 e t [a, b] f x [x + t * n m e + off m e (u pos)] := by
    intro x pos hp
    obtain ⟨σ, g1, g2⟩ := hp.position
    exact body_self g1 g2 (hf pos)
  obtain ⟨R, r1, r2, r3⟩ := loopT B h e t f (fun x pos hp => ⟨_, hb x pos hp⟩)
  refine ⟨R, r1, r2, ?_⟩
  intro y
  rw [r3]
  constructor
  · rintro ⟨x, pos, vs, hp, hv, hy⟩
    rw [hv.func (hb x pos hp)] at hy
    exact ⟨x, pos, hp, by simpa using hy⟩
  · rintro ⟨x, pos, hp, rfl⟩
    exact ⟨x, pos, _, hp, hb x pos hp, by simp⟩

theorem sideOf3_tri (B : Base n0 ts m) {ty : Nat} {i t j a b c : Int} {ps : List PV} (D : Dec m 3 ty i ps) (hg : Good m 3 (i + t * n m 3))
    (h : T m j a b c) {v : List Int} (hv : ps.map (·.1) = v) (f : Nat → List Add)
    (hr : sideOf3 m t ty v = (do let id ← must m 2 [a, b, c]; let S ← m.sideOf 2 id; cofaceLoop m 3 4 t [a, b, c] f S []))
    (u : Nat → Nat) (hu : ∀ pos, f pos = [.self (u pos) 0])
    (hc : ∀ y, Cof m 4 y (at_ t ps) ↔ ∃ x pos, InK a b c m x pos ∧ y = x + t * n m 4 + off m 4 (u pos)) :
    SideOfSpec m 3 (i + t * n m 3) (at_ t ps) := by
  have hm := mods_enc (dec_chain D).2.1
  rw [hv] at hm
  obtain ⟨R, r1, r2, r3⟩ := loopK_self B h 4 t f u hu
  refine ⟨R, ?_, r2, fun y => (r3 y).trans (hc y).symm⟩
  rw [sideOf_dec3 D hg hm, hr, r1]

theorem up4_4 (pos : Nat) : up4 4 pos = [.self (if pos = 3 then 1 else 0) 0] := by
  by_cases h : pos = 3 <;> simp [up4, h]

theorem up4_5 (pos : Nat) : up4 5 pos = [.self (if pos = 0 ∨ pos = 1 then 1 else 2) 0] := by
  by_cases h : pos = 0 ∨ pos = 1 <;> simp [up4, h]

theorem up4_6 (pos : Nat) : up4 6 pos = [.self (if pos = 0 then 2 else 3) 0] := by
  by_cases h : pos = 0 <;> simp [up4, h]

/-- `side_of(3, k)`. -/
theorem sideOf3_spec (B : Base n0 ts m) {k : Int} {fs : List PV} (h : Is m 3 k fs) (hg : Good m 3 k) : SideOfSpec m 3 k fs := by
  obtain ⟨ty, i, t, qs, D, rfl, rfl⟩ := h
  cases D with
  | k0 h =>
    refine sideOf3_tet B (Dec.k0 h) hg h rfl (by omega) _ rfl (fun y => ?_)
    rw [cof_k0 B h]
    simp [off, Int.sub_eq_add_neg]
    omega
  | k1 h => exact sideOf3_tet B (Dec.k1 h) hg h rfl (by omega) _ rfl (fun y => by rw [cof_k1 B h]; simp [off]; omega)
  | k2 h => exact sideOf3_tet B (Dec.k2 h) hg h rfl (by omega) _ rfl (fun y => by rw [cof_k2 B h]; simp [off]; omega)
  | k3 h => exact sideOf3_tet B (Dec.k3 h) hg h rfl (by omega) _ rfl (fun y => by rw [cof_k3 B h]; simp [off]; omega)
  | k4 h => exact sideOf3_tri B (Dec.k4 h) hg h rfl (up4 4) rfl _ up4_4 (fun y => cof_k4 h)
  | k5 h => exact sideOf3_tri B (Dec.k5 h) hg h rfl (up4 5) rfl _ up4_5 (fun y => cof_k5 h)
  | k6 h => exact sideOf3_tri B (Dec.k6 h) hg h rfl (up4 6) rfl _ up4_6 (fun y => cof_k6 h)

end Verif.X3
