import Verif.CLine.Model
import Verif.Contour.Spec
import Verif.Tracker.Spec
import Verif.Tracker.Curves
/-! Specification for the critical line tracker: which triangles of the spacetime mesh the zero set of a series of 2-vector
fields crosses. -/
namespace Verif.CLT
open Verif.SRM
open Verif.Gen (Box InsideV Inside)
open Verif.Ctr (IsElem FaceOf)
variable {S V : Type} [Inhabited V]

/-- the value of the series at a spacetime vertex -/
def valueAt (c : Cfg V) (rd : S → List Int → Option V) (series : List S) (v : Vtx) : V :=
  ((series[(v.getD 3 0).toNat]?).bind fun s => rd s (c.box.place v)).getD default

/-- `e` is a triangle with vertices `vs`, in the domain and at the times of the series, and zero lies in the (symbolically
perturbed) triangle of the quantised vectors at its vertices -/
structure PiercedAt (c : Cfg V) (rd : S → List Int → Option V) (series : List S) (e : Elem) (vs : Fin 3 → Vtx) : Prop where
  tri : IsElem 4 2 e
  verts : e.vertices 4 = some [vs 0, vs 1, vs 2]
  inside : ∀ i, InsideV c.box series.length (vs i)
  hit : SoS.criticalPointInSimplex2 (fun i j => Trk.quant (2 ^ 21) (c.uv (valueAt c rd series (vs i)) j))
    (fun i => cornerIndex (vs i) c.box.bounds.lb c.box.bounds.dimprod) = true

/-- `e` is a pierced triangle -/
def Pierced (c : Cfg V) (rd : S → List Int → Option V) (series : List S) (e : Elem) : Prop :=
  ∃ vs, PiercedAt c rd series e vs

/-- the point with weights `mu` in the triangle `vs` -/
def inTriangle (vs : Fin 3 → Vtx) (mu : Fin 3 → Rat) (x : List Rat) : Prop :=
  (∀ i, 0 ≤ mu i) ∧ mu 0 + mu 1 + mu 2 = 1 ∧ x.length = 4 ∧
    ∀ j, x.getD j 0 = mu 0 * ((vs 0).getD j 0 : Int) + mu 1 * ((vs 1).getD j 0 : Int) + mu 2 * ((vs 2).getD j 0 : Int)

/-- every component of every value of the snapshot is a multiple of `2⁻²¹` where the domain is -/
def Dyadic (c : Cfg V) (rd : S → List Int → Option V) (s : S) : Prop :=
  ∀ p w, rd s p = some w → ∀ j, ∃ z : Int, c.uv w j * 2 ^ 21 = z

/-- the tasks run are those of the scan, each once, in any order -/
def Complete (c : Cfg V) (ord : Scope → List Int) : Prop :=
  ∀ sc, (ord sc).Perm ((List.range (c.box.core.sizes.prod * (scopeTypes 4 2 sc).length)).map Int.ofNat)

/-- the array has a cell for every place of the domain -/
def Covers (c : Cfg V) (rd : S → List Int → Option V) (s : S) : Prop :=
  ∀ p : List Int, Lat.InBox c.box.domain p →
    (rd s (List.zipWith (fun (x : Int) (a : Nat) => x - a) p c.box.astart)).isSome = true

/-- `fs` are the pierced triangles of the 4-simplex `x`, each once, in cyclic order: there are none, or three, four or five;
`ts` are as many different tetrahedra of `x`, number `i` and the next one sharing triangle number `i`; all other tetrahedra
of `x` have no pierced triangle.  So the pierced triangles of a 4-simplex are the corners of one polygon, and each tetrahedron
has none of them or exactly two, which are consecutive. -/
structure Ring (c : Cfg V) (rd : S → List Int → Option V) (series : List S) (x : Elem) (ts fs : List Elem) : Prop where
  len : fs.length = 0 ∨ fs.length = 3 ∨ fs.length = 4 ∨ fs.length = 5
  same : ts.length = fs.length
  tnodup : ts.Nodup
  fnodup : fs.Nodup
  tets : ∀ y ∈ ts, IsElem 4 3 y ∧ FaceOf 4 y x
  shared : ∀ (i : Nat) (y z f : Elem), ts[i]? = some y → ts[(i + 1) % ts.length]? = some z → fs[i]? = some f →
    FaceOf 4 f y ∧ FaceOf 4 f z
  all : ∀ f, f ∈ fs ↔ IsElem 4 2 f ∧ FaceOf 4 f x ∧ Pierced c rd series f
  others : ∀ y f, IsElem 4 3 y → FaceOf 4 y x → y ∉ ts → Pierced c rd series f → ¬ FaceOf 4 f y

/-- the patch of a 4-simplex with the given point numbers: a triangle, all four triangles on four points, or nine of the ten
triangles on five points -/
def Patch (ids : List Nat) (tris : List (Nat × Nat × Nat)) : Prop :=
  (ids.length = 3 ∧ ∃ i j k, ids = [i, j, k] ∧ tris = [(i, j, k)]) ∨
  (ids.length = 4 ∧ ∃ i j k l, ids = [i, j, k, l] ∧ tris.Perm [(i, j, k), (i, j, l), (i, k, l), (j, k, l)]) ∨
  (ids.length = 5 ∧ ∃ i j k l m, ids = [i, j, k, l, m] ∧
    ((j, l, m) :: tris).Perm [(i, j, k), (i, j, l), (i, j, m), (i, k, l), (i, k, m), (i, l, m), (j, k, l), (j, k, m), (j, l, m), (k, l, m)]) ∨
  (ids.length < 3 ∧ tris = [])

/-- points number `i` and `j` are recorded for two triangles of one 4-simplex inside -/
def SameCell {P : Type} (c : Cfg V) (T : Nat) (inter : List (Elem × P)) (i j : Nat) : Prop :=
  ∃ x e f, IsElem 4 4 x ∧ Inside c.box T x ∧ (inter.map Prod.fst)[i]? = some e ∧ (inter.map Prod.fst)[j]? = some f ∧
    FaceOf 4 e x ∧ FaceOf 4 f x

/-- `i` and `j` are corners of one triangle of the list -/
def SameTri (tris : List (Nat × Nat × Nat)) (i j : Nat) : Prop :=
  ∃ t ∈ tris, (i = t.1 ∨ i = t.2.1 ∨ i = t.2.2) ∧ (j = t.1 ∨ j = t.2.1 ∨ j = t.2.2)

/-- `f` and `g` are faces of one tetrahedron inside -/
def ShareTet (c : Cfg V) (T : Nat) (f g : Elem) : Prop :=
  ∃ e, IsElem 4 3 e ∧ Inside c.box T e ∧ FaceOf 4 f e ∧ FaceOf 4 g e

/-- one of the two tetrahedra at the time `t` that have the face `f` is not inside the domain -/
def AtWall (c : Cfg V) (T : Nat) (t : Int) (f : Elem) : Prop :=
  ∃ e vs, IsElem 4 3 e ∧ e.vertices 4 = some vs ∧ (∀ v ∈ vs, AtTime 4 v t) ∧ FaceOf 4 f e ∧ ¬ Inside c.box T e

/-- the curves `ks` follow the pierced triangles of a single snapshot through the tetrahedra -/
structure FollowsLines (c : Cfg V) (rd : S → List Int → Option V) (s : S) (ks : List (List Elem)) : Prop where
  /-- every pierced triangle is on exactly one curve, once, and nothing else is -/
  once : ks.flatten.Nodup
  all : ∀ f, f ∈ ks.flatten ↔ Pierced c rd [s] f
  /-- consecutive triangles of a curve are faces of a common tetrahedron inside -/
  step : ∀ k ∈ ks, k ≠ [] ∧ List.IsChain (ShareTet c 1) k
  /-- a curve closes, or both its ends are at the boundary of the box -/
  ends : ∀ k ∈ ks, ∀ a z, k.head? = some a → k.getLast? = some z →
    (3 ≤ k.length ∧ ShareTet c 1 z a) ∨ (AtWall c 1 0 a ∧ AtWall c 1 0 z)
  /-- every tetrahedron inside is passed by no curve, or by one curve, which enters it by one face and leaves by another -/
  tet : ∀ e, IsElem 4 3 e → Inside c.box 1 e → (∀ f, Pierced c rd [s] f → ¬ FaceOf 4 f e) ∨
    ∃ f g, f ≠ g ∧ (∀ h, (Pierced c rd [s] h ∧ FaceOf 4 h e) ↔ h = f ∨ h = g) ∧ ∃ k ∈ ks, Trk.NextTo k f g

end Verif.CLT
