import Verif.Swirl.Read
import Verif.CLine.Props
/-! The derived trackers over a series of snapshots. -/
namespace Verif.Swirl
open Verif.SRM
open Verif.Gen (Box InsideV mapAll)
open Verif.Ctr (IsElem)
open Verif.CLT (tracker inTriangle Complete PiercedAt pointAt valueAt)

/-- what is read at a spacetime vertex, if the snapshots hold `val` -/
def valAt (val : Nat → Int → Int → Int → Val) (v : Vtx) : Val :=
  val (v.getD 3 0).toNat (v.getD 0 0) (v.getD 1 0) (v.getD 2 0)

variable {b : Box 3} {extra : (Fin 3 → Val) → (Fin 3 → Rat) → List Rat} {degen : (Fin 3 → Fin 2 → Rat) → Fin 3 → Rat}
  {rd : Snap → List Int → Option Val} {snaps : List Snap} {val : Nat → Int → Int → Int → Val}

theorem four {b : Box 3} {T : Nat} {v : Vtx} (h : InsideV b T v) : ∃ (x y z : Int) (t : Nat), v = [x, y, z, (t : Int)] ∧ t < T ∧
    Lat.InBox b.domain [x, y, z] := by
  have hl := h.len
  rcases v with _ | ⟨x, _ | ⟨y, _ | ⟨z, _ | ⟨t, _ | ⟨a, l⟩⟩⟩⟩⟩ <;> simp at hl
  obtain ⟨n, hn, hlt⟩ := h.time
  have ht : t = (n : Int) := by
    unfold AtTime at hn
    simpa using hn
  subst ht
  exact ⟨x, y, z, n, rfl, hlt, h.place⟩

theorem valueAt_eq (ha : b.astart = [0, 0, 0])
    (hread : ∀ (n : Nat) s, snaps[n]? = some s → ∀ i j k, Lat.InBox b.domain [i, j, k] → rd s [i, j, k] = some (val n i j k))
    {v : Vtx} (h : InsideV b snaps.length v) : valueAt (cfg b extra degen) rd snaps v = valAt val v := by
  obtain ⟨x, y, z, t, rfl, hlt, hin⟩ := four h
  unfold valueAt valAt
  simp only [List.getD_cons_zero, List.getD_cons_succ, Int.toNat_natCast]
  rw [List.getElem?_eq_getElem hlt]
  have hp : (cfg b extra degen).box.place [x, y, z, (t : Int)] = [x, y, z] := by
    simp [Gen.Box.place, cfg, ha]
  simp only [Option.bind_some]
  rw [hp, hread t _ (List.getElem?_eq_getElem hlt) x y z hin]
  rfl

/-- what is recorded for the triangle `e` with vertices `vs` -/
structure Found (b : Box 3) (F : Vtx → Fin 3 → Rat) (vs : Fin 3 → Vtx) (e : Elem) (p : CLT.Pt) (scal : (Fin 3 → Rat) → List Rat) : Prop where
  /-- the point lies in the triangle, with the weights `mu` -/
  place : inTriangle vs p.mu p.x
  /-- `timestep` is the time of the earlier vertices, `ordinal` says that all vertices have it -/
  time : AtTime 4 e.corner p.timestep
  ordinal : p.ordinal = true ↔ ∀ i, AtTime 4 (vs i) p.timestep
  tag : p.tag = e.toInteger 4 b.bounds
  scal : p.scal = scal p.mu
  /-- if the first two components of `F` at the vertices are multiples of `2⁻²¹`, both vanish at the point, by linear
  interpolation, and nowhere else in the triangle -/
  zero : (∀ i (j : Fin 2), ∃ z : Int, F (vs i) (j.castLE (by decide)) * 2 ^ 21 = z) →
    ∀ mu : Fin 3 → Rat, mu 0 + mu 1 + mu 2 = 1 → ((interp vs mu (F · 0) = 0 ∧ interp vs mu (F · 1) = 0) ↔ mu = p.mu)

theorem crossing_iff (ha : b.astart = [0, 0, 0])
    (hread : ∀ (n : Nat) s, snaps[n]? = some s → ∀ i j k, Lat.InBox b.domain [i, j, k] → rd s [i, j, k] = some (val n i j k))
    (e : Elem) (vs : Fin 3 → Vtx) :
    PiercedAt (cfg b extra degen) rd snaps e vs ↔ Crossing b snaps.length (fun v => (valAt val v).w) e vs := by
  have key : (∀ i, InsideV b snaps.length (vs i)) → ∀ (i : Fin 3) (j : Fin 2),
      (cfg b extra degen).uv (valueAt (cfg b extra degen) rd snaps (vs i)) j = (valAt val (vs i)).w (j.castLE (by decide)) := by
    intro hin i j
    rw [valueAt_eq ha hread (hin i)]
    fin_cases j <;> rfl
  constructor
  · intro h
    have hk := key h.inside
    have hh := h.hit
    simp only [hk] at hh
    exact ⟨h.tri, h.verts, h.inside, hh⟩
  · intro h
    have hk := key h.inside
    refine ⟨h.tri, h.verts, h.inside, ?_⟩
    simp only [hk]
    exact h.hit

theorem track (hne : snaps ≠ []) (hb : Gen.Shaped b snaps.length) (ha : b.astart = [0, 0, 0])
    (hread : ∀ (n : Nat) s, snaps[n]? = some s → ∀ i j k, Lat.InBox b.domain [i, j, k] → rd s [i, j, k] = some (val n i j k))
    (ord : Nat → Scope → List Int) (ho : ∀ k, Complete (cfg b extra degen) (ord k)) :
    ∃ st, Gen.run (tracker (cfg b extra degen) rd).prog (Gen.driveOps snaps ord) Gen.St.init = some st ∧ Ser.Sorted st.inter ∧
      (∀ e, (∃ p, (e, p) ∈ st.inter) ↔ ∃ vs, Crossing b snaps.length (fun v => (valAt val v).w) e vs) ∧
      ∀ e p vs, (e, p) ∈ st.inter → e.vertices 4 = some [vs 0, vs 1, vs 2] →
        Found b (fun v => (valAt val v).w) vs e p (extra fun i => valAt val (vs i)) := by
  have hcov : ∀ s ∈ snaps, CLT.Covers (cfg b extra degen) rd s := by
    intro s hs p hp
    obtain ⟨n, hn⟩ := List.mem_iff_getElem?.1 hs
    have hl := hp.1
    have h3 : (cfg b extra degen).box.domain.sizes.length = 3 := hb.dlen.2
    rw [h3] at hl
    rcases p with _ | ⟨x, _ | ⟨y, _ | ⟨z, _ | ⟨a, l⟩⟩⟩⟩ <;> simp at hl
    have : (cfg b extra degen).box.astart = [0, 0, 0] := ha
    rw [this]
    have hz : List.zipWith (fun (x : Int) (a : Nat) => x - a) [x, y, z] [0, 0, 0] = [x, y, z] := by simp
    rw [hz, hread n s hn x y z hp]
    rfl
  obtain ⟨st, h1, h2, -, h4⟩ := CLT.C96_detects (cfg b extra degen) rd snaps hne hb hcov ord ho
  refine ⟨st, h1, h2, fun e => ?_, fun e p vs hp hvs => ?_⟩
  · constructor
    · rintro ⟨p, hp⟩
      obtain ⟨vs, t, hpi, -, -⟩ := (h4 e p).1 hp
      exact ⟨vs, (crossing_iff ha hread e vs).1 hpi⟩
    · rintro ⟨vs, hvs⟩
      have hpi := (crossing_iff (extra := extra) (degen := degen) ha hread e vs).2 hvs
      obtain ⟨t, ht⟩ : ∃ t : Nat, AtTime 4 e.corner t := by
        obtain ⟨ve, hve, hc⟩ := hpi.tri.cell (by decide) (by decide)
        obtain rfl := Option.some.inj (hve.symm.trans hpi.verts)
        have := hc.head
        simp only [List.head?_cons, Option.some.injEq] at this
        obtain ⟨n, hn, -⟩ := (hpi.inside 0).time
        exact ⟨n, this ▸ hn⟩
      exact ⟨_, (h4 e _).2 ⟨vs, t, hpi, ht, rfl⟩⟩
  · obtain ⟨vs', t, hpi, ht, rfl⟩ := (h4 e p).1 hp
    have hv := hpi.verts.symm.trans hvs
    have heq : vs' = vs := by
      simp only [Option.some.injEq, List.cons.injEq, and_true] at hv
      funext i
      fin_cases i
      · exact hv.1
      · exact hv.2.1
      · exact hv.2.2
    subst heq
    obtain ⟨c1, c2, c3, -, -⟩ := CLT.C96_point (cfg b extra degen) rd snaps e vs' t hb hpi ht
    refine ⟨c1, ?_, ?_, rfl, ?_, ?_⟩
    · rw [c2]; exact ht
    · rw [c2]; exact c3
    · change extra (fun i => valueAt (cfg b extra degen) rd snaps (vs' i)) (pointAt (cfg b extra degen) rd snaps t e vs').mu =
        extra _ (pointAt (cfg b extra degen) rd snaps t e vs').mu
      have : (fun i => valueAt (cfg b extra degen) rd snaps (vs' i)) = fun i => valAt val (vs' i) :=
        funext fun i => valueAt_eq ha hread (hpi.inside i)
      exact congrArg (extra · (pointAt (cfg b extra degen) rd snaps t e vs').mu) this
    · intro hz mu hmu
      obtain ⟨hinj, h0⟩ := hpi.indices hb
      have hU : ∀ i (j : Fin 2), (cfg b extra degen).uv (valueAt (cfg b extra degen) rd snaps (vs' i)) j =
          (valAt val (vs' i)).w (j.castLE (by decide)) := by
        intro i j
        rw [valueAt_eq ha hread (hpi.inside i)]
        fin_cases j <;> rfl
      have := CLT.zero_core (cfg b extra degen) (fun i => (cfg b extra degen).uv (valueAt (cfg b extra degen) rd snaps (vs' i))) _
        hinj h0 (fun i j => by
          obtain ⟨z, hz⟩ := hz i j
          refine ⟨z, ?_⟩
          rw [hU]
          push_cast
          exact hz) hpi.hit mu hmu
      refine Iff.trans ?_ this
      simp only [hU]
      constructor
      · rintro ⟨g0, g1⟩ j
        fin_cases j
        · exact g0
        · exact g1
      · intro g
        exact ⟨g 0, g 1⟩

end Verif.Swirl
