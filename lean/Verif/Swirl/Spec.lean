import Verif.Swirl.Model
import Verif.Grad.Props
import Verif.CLine.Spec
/-! Specification of the fields whose parallel lines the derived trackers follow. -/
namespace Verif.Swirl
open Verif.SRM
open Verif.Grad (central)
open Verif.Gen (Box InsideV)
open Verif.Ctr (IsElem)

/-- a vector field on the grid: component, then the three grid coordinates -/
abbrev Field := Int → Int → Int → Int → Rat

/-- the derivative of component `c` in direction `d` by central differences -/
def jac (u : Field) (c d : Int) (i j k : Int) : Rat :=
  if d = 0 then central (u c · j k) i else if d = 1 then central (u c i · k) j else central (u c i j ·) k

/-- the acceleration `(∇u) u` -/
def acceleration (u : Field) : Field := fun c i j k =>
  jac u c 0 i j k * u 0 i j k + jac u c 1 i j k * u 1 i j k + jac u c 2 i j k * u 2 i j k

/-- twice the curl of `u` (the code does not divide by the distance 2) -/
def curl2 (u : Field) : Field := fun c i j k =>
  if c = 0 then 2 * (jac u 2 1 i j k - jac u 1 2 i j k)
  else if c = 1 then 2 * (jac u 0 2 i j k - jac u 2 0 i j k)
  else 2 * (jac u 1 0 i j k - jac u 0 1 i j k)

/-- the cross product -/
def cross (u w : Field) : Field := fun c i j k =>
  if c = 0 then u 1 i j k * w 2 i j k - u 2 i j k * w 1 i j k
  else if c = 1 then u 2 i j k * w 0 i j k - u 0 i j k * w 2 i j k
  else u 0 i j k * w 1 i j k - u 1 i j k * w 0 i j k

/-- the gradient of a scalar field by central differences -/
def grad (s : Int → Int → Int → Rat) : Field := fun c i j k =>
  if c = 0 then central (s · j k) i else if c = 1 then central (s i · k) j else central (s i j ·) k

/-- the field number `t` of a series at a spacetime vertex `(x, y, z, t)` -/
def at4 (f : Nat → Int → Int → Int → Rat) (v : Vtx) : Rat := f (v.getD 3 0).toNat (v.getD 0 0) (v.getD 1 0) (v.getD 2 0)

/-- `e` is a triangle with vertices `vs`, in the domain and at the times of the series, and zero lies in the (symbolically
perturbed) triangle of the first two components of `F` at its vertices, as multiples of `2⁻²¹` -/
structure Crossing (b : Box 3) (T : Nat) (F : Vtx → Fin 3 → Rat) (e : Elem) (vs : Fin 3 → Vtx) : Prop where
  tri : IsElem 4 2 e
  verts : e.vertices 4 = some [vs 0, vs 1, vs 2]
  inside : ∀ i, InsideV b T (vs i)
  hit : SoS.criticalPointInSimplex2 (fun i j => Trk.quant (2 ^ 21) (F (vs i) (j.castLE (by decide))))
    (fun i => cornerIndex (vs i) b.bounds.lb b.bounds.dimprod) = true

/-- the domain keeps a distance `m` from the faces of the array, which starts at `(0, 0, 0)` -/
structure Margin (m : Nat) (b : Box 3) (DW DH DD : Nat) : Prop where
  start : b.astart = [0, 0, 0]
  place : ∀ i j k : Int, Lat.InBox b.domain [i, j, k] → (m : Int) ≤ i ∧ i < DW - m ∧ (m : Int) ≤ j ∧ j < DH - m ∧ (m : Int) ≤ k ∧ k < DD - m

/-- the value of `f` at the point with weights `mu` of the triangle `vs`, by linear interpolation -/
def interp (vs : Fin 3 → Vtx) (mu : Fin 3 → Rat) (f : Vtx → Rat) : Rat := mu 0 * f (vs 0) + mu 1 * f (vs 1) + mu 2 * f (vs 2)

end Verif.Swirl
