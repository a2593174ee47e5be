import Verif.XGC.Model
import Mathlib.Algebra.Order.Field.Basic

/-!
# Model of the fields on the torus mesh

`xgc`: `initialize_interpolants`, `interpolate`, `derive_turbulence`, `get_coords_xyz`, `to_vtu_slices`.  Arithmetic is
exact (a field `K`); an access outside an array is `none`.  `magnetic_map` (an ODE integration), `locate` and `nearest` of
the 2-D mesh are parameters.
-/

namespace Verif.XGC

open Verif.UM Verif.XM

/-- `a[i]`. -/
def at? {α : Type} (a : List α) (i : Int) : Option α := if i < 0 then none else a[i.toNat]?

/-- `xgc_interpolant_t` (`include/ftk/mesh/simplicial_xgc_2d_mesh.hh`/`xgc_interpolant.hh`): a triangle and weights in the
previous and in the next plane. -/
structure Lerp (K : Type) where
  tri0 : Int × Int × Int
  mu0 : K × K × K
  tri1 : Int × Int × Int
  mu1 : K × K × K

variable {K : Type} [Field K]

/-- The 2-D mesh as the interpolants see it: `get_coords` (2-D), `magnetic_map` of `(r, z)` from angle to angle, `locate`
(triangle id and weights) and `nearest`. -/
structure Env (K : Type) where
  coords : Int → K × K
  magMap : K × K → K → K → K × K
  locate : K × K → Option (Int × (K × K × K))
  nearest : K × K → Int

/-- One side of an interpolant (`xgc:419-427` and `xgc:430-438`): follow the field line from angle `b` to `e`, take the
triangle found there, or three times the nearest vertex. -/
def side (m : M2) (E : Env K) (i : Int) (b e : K) : Option ((Int × Int × Int) × (K × K × K)) :=
  let x := E.magMap (E.coords i) b e
  match E.locate x with
  | none => some ((E.nearest x, E.nearest x, E.nearest x), (1 / 3, 1 / 3, 1 / 3))
  | some (tid, mu) => (m.getTriangle tid).map fun t => (t, mu)

/-- One entry of `initialize_interpolants` (`xgc:409-439`). -/
def entry (g : G) (E : Env K) (dphi : K) (v i : Int) : Option (Lerp K) := do
  let beta : K := (v : K) / (g.vphi : K)
  let a ← side g.m E i (beta * dphi) 0
  let b ← side g.m E i (beta * dphi) dphi
  some ⟨a.1, a.2, b.1, b.2⟩

/-- The rows of `interpolants` (`xgc:407-441`): entry 0 is left empty. -/
def rows (g : G) (E : Env K) (dphi : K) : Option (List (List (Lerp K))) :=
  (List.range g.vphi.toNat).mapM fun (v : Nat) =>
    if v = 0 then some [] else (List.range (g.m.n 0)).mapM fun (i : Nat) => entry g E dphi v i

/-- `initialize_interpolants()` (`xgc:400-444`); the iterations of `parallel_for` write disjoint entries. -/
def initInterpolants (g : G) (E : Env K) (dphi : K) (old : List (List (Lerp K))) : Option (List (List (Lerp K))) :=
  if g.vphi = 1 then some old else rows g E dphi

/-- `Σ mu[k] * s[off + stride * tri[k]]` in the order of the loops `xgc:507-510`. -/
def dot3 (s : List K) (off : Int) (tri : Int × Int × Int) (mu : K × K × K) : Option K := do
  let a ← at? s (off + tri.1)
  let b ← at? s (off + tri.2.1)
  let c ← at? s (off + tri.2.2)
  some (0 + mu.1 * a + mu.2.1 * b + mu.2.2 * c)

/-- `interpolate(scalar, i)` (`xgc:490-515`), `i` not negative. -/
def interpolate (g : G) (ls : List (List (Lerp K))) (s : List K) (i : Int) : Option K :=
  let n0 : Int := g.m.n 0
  if n0 = 0 ∨ g.vphi = 0 ∨ g.nphi = 0 then none else
  let p := i.tdiv n0
  if p.tmod g.vphi = 0 then at? s (n0 * p.tdiv g.vphi + i.tmod n0)
  else do
    let p0 := p.tdiv g.vphi
    let p1 := (p0 + 1).tmod g.nphi
    let beta : K := (p : K) / (g.vphi : K) - (p0 : K)
    let alpha : K := 1 - beta
    let l ← (at? ls (p.tmod g.vphi)).bind fun r => at? r (i.tmod n0)
    let f0 ← dot3 s (n0 * p0) l.tri0 l.mu0
    let f1 ← dot3 s (n0 * p1) l.tri1 l.mu1
    some (alpha * f0 + beta * f1)

/-- One component of the loop `xgc:473-485`: entry `c` of `w` per vertex, of array `a`. -/
def comp3 (a : List K) (w c : Int) (alpha beta : K) (off0 off1 : Int) (l : Lerp K) : Option K := do
  let x0 ← at? a ((off0 + l.tri0.1) * w + c)
  let y0 ← at? a ((off1 + l.tri1.1) * w + c)
  let x1 ← at? a ((off0 + l.tri0.2.1) * w + c)
  let y1 ← at? a ((off1 + l.tri1.2.1) * w + c)
  let x2 ← at? a ((off0 + l.tri0.2.2) * w + c)
  let y2 ← at? a ((off1 + l.tri1.2.2) * w + c)
  some (0 + (alpha * l.mu0.1 * x0 + beta * l.mu1.1 * y0) + (alpha * l.mu0.2.1 * x1 + beta * l.mu1.2.1 * y1) +
    (alpha * l.mu0.2.2 * x2 + beta * l.mu1.2.2 * y2))

/-- Component `c` of the `w` values per vertex that `interpolate(scalar, grad, jacobian, i, f, g, j)` (`xgc:447-488`)
computes from array `a` (`w = 1` for `f`, 2 for `g`, 4 for `j`). -/
def interpolateComp (g : G) (ls : List (List (Lerp K))) (a : List K) (w c : Int) (i : Int) : Option K :=
  let n0 : Int := g.m.n 0
  if n0 = 0 ∨ g.vphi = 0 ∨ g.nphi = 0 then none else
  let p := i.tdiv n0
  if p.tmod g.vphi = 0 then at? a ((n0 * p.tdiv g.vphi + i.tmod n0) * w + c)
  else do
    let p0 := p.tdiv g.vphi
    let p1 := (p0 + 1).tmod g.nphi
    let beta : K := (p : K) / (g.vphi : K) - (p0 : K)
    let alpha : K := 1 - beta
    let l ← (at? ls (p.tmod g.vphi)).bind fun r => at? r (i.tmod n0)
    comp3 a w c alpha beta (n0 * p0) (n0 * p1) l

/-- `interpolate(scalar, grad, jacobian, i, f, g, j)` (`xgc:447-488`): `f`, `g`, and `j` by rows. -/
def interpolateAll (g : G) (ls : List (List (Lerp K))) (s gr ja : List K) (i : Int) : Option (K × (K × K) × (K × K) × (K × K)) := do
  let f ← interpolateComp g ls s 1 0 i
  let g0 ← interpolateComp g ls gr 2 0 i
  let g1 ← interpolateComp g ls gr 2 1 i
  let j00 ← interpolateComp g ls ja 4 0 i
  let j01 ← interpolateComp g ls ja 4 1 i
  let j10 ← interpolateComp g ls ja 4 2 i
  let j11 ← interpolateComp g ls ja 4 3 i
  some (f, (g0, g1), (j00, j01), (j10, j11))

/-- One value of `interpolate(scalar)` (`xgc:736-820`): vertex `j` of plane `i`. -/
def interpolatePlane (g : G) (ls : List (List (Lerp K))) (s : List K) (i j : Nat) : Option K :=
  let n0 : Int := g.m.n 0
  if g.vphi = 0 ∨ g.nphi = 0 then none else
  if (i : Int).tmod g.vphi = 0 then at? s (n0 * (i : Int).tdiv g.vphi + j)
  else do
    let p0 := (i : Int).tdiv g.vphi
    let p1 := (p0 + 1).tmod g.nphi
    let beta : K := (i : K) / (g.vphi : K) - (p0 : K)
    let alpha : K := 1 - beta
    let l ← (at? ls ((i : Int).tmod g.vphi)).bind fun r => at? r j
    let f0 ← dot3 s (n0 * p0) l.tri0 l.mu0
    let f1 ← dot3 s (n0 * p1) l.tri1 l.mu1
    some (alpha * f0 + beta * f1)

/-- `interpolate(scalar)` (`xgc:736-820`): the array of `nphi * vphi` planes. -/
def interpolateArray (g : G) (ls : List (List (Lerp K))) (s : List K) : Option (List K) :=
  ((List.range (g.nphi * g.vphi).toNat).mapM fun (i : Nat) => (List.range (g.m.n 0)).mapM fun (j : Nat) => interpolatePlane g ls s i j).map List.flatten

/-! ### derive_turbulence -/

/-- The inner loop of the 1-D interpolation (`xgc:650-657`) from `j` on; `none` = no interval was found, the value stays
what the allocation left there. -/
def scan [LinearOrder K] (v : K) : List K → List K → Option K
  | x0 :: x1 :: xs, y0 :: y1 :: ys =>
    if x0 ≤ v ∧ v ≤ x1 then some (y0 + (v - x0) / (x1 - x0) * (y1 - y0)) else scan v (x1 :: xs) (y1 :: ys)
  | _, _ => none

/-- The 1-D interpolation of one value (`xgc:642-659`). -/
def interp1 [LinearOrder K] (x y : List K) (v : K) : Option K := do
  let x0 ← x[0]?
  let y0 ← y[0]?
  if v < x0 then some y0 else
  let xn ← x.getLast?
  let yn ← y[x.length - 1]?
  if xn ≤ v then some yn else scan v x y

/-- `mean_pot[j]` (`xgc:688-694`): the sum over planes in order, divided by their number. -/
def meanAt (n0 nphi : Nat) (a : List K) (j : Nat) : Option K :=
  ((List.range nphi).foldlM (fun acc (i : Nat) => (at? a (i * n0 + j)).map (acc + ·)) (0 : K)).map (· / nphi)

/-- One value of `derive_turbulence` (`xgc:623-733`): plane `i`, vertex `j`.  The density terms are computed but not used
(`xgc:706-710`); a NaN or infinity from a division by zero is not told apart from 0 (`K` is a field). -/
def turbulence [LinearOrder K] (n0 nphi : Nat) (dpot psid temp1 temp2 psi : List K) (i j : Nat) : Option K := do
  let ps ← at? psi j
  let temp := (temp1.zip temp2).map fun t => 2 * (t.1 + t.2) / 3
  let te ← interp1 psid temp ps
  let mp ← meanAt n0 nphi dpot j
  let d ← at? dpot (i * n0 + j)
  some ((d - mp) / te)

/-! ### coordinates -/

/-- Writing `coords[i] = v` into a buffer of `cap` values. -/
def store (cap : Nat) (buf : List K) (i : Nat) (v : K) : Option (List K) := if i < cap then some (buf.set i v) else none

/-- `m3->get_coords(i, coords)` (`include/ftk/mesh/simplicial_unstructured_extruded_2d_mesh.hh:113-121` on
`simplicial_unstructured_2d_mesh.hh:957-969`, 2-D coordinates) into a buffer of `cap` values. -/
def extCoords (m : M2) (xy : Int → K × K) (cap : Nat) (i : Int) : Option (List K) := do
  let k ← flatId m i
  let t ← flatTime m i
  let b ← store cap (List.replicate cap 0) 0 (xy k).1
  let b ← store cap b 1 (xy k).2
  let b ← store cap b 2 0
  store cap b 3 (t : K)

/-- `get_coords_xyz(i, coords)` (`xgc:303-314`): `F rzp[3]`; `cs p = (cos, sin)` of the angle computed from `rzp[2]`. -/
def coordsXyz (g : G) (xy : Int → K × K) (cs : K → K × K) (i : Int) : Option (K × K × K) := do
  let b ← extCoords g.m xy 3 i
  let r ← b[0]?
  let z ← b[1]?
  let p ← b[2]?
  some (r * (cs p).1, r * (cs p).2, z)

/-- The points of `to_vtu_slices` (`xgc:351-359`), in order of their ids; `cs p` = cosine and sine of `2πp / np`. -/
def slicePoints (g : G) (xy : Int → K × K) (cs : Int → K × K) : List (K × K × K) :=
  (List.range g.np.toNat).flatMap fun (p : Nat) => (List.range (g.m.n 0)).map fun (i : Nat) =>
    ((xy i).1 * (cs p).1, (xy i).1 * (cs p).2, (xy i).2)

/-- The cells of `to_vtu_slices` (`xgc:361-371`), in order. -/
def sliceCells (g : G) : List (Int × Int × Int) :=
  (List.range g.np.toNat).flatMap fun (p : Nat) => g.m.tris.map fun t => (p * g.m.n 0 + t.1, p * g.m.n 0 + t.2.1, p * g.m.n 0 + t.2.2)

end Verif.XGC
