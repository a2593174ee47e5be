import Verif.Tdgl.Model
import Verif.CLine.Spec
/-! Specification for C104–C110, independent of the model's helpers. -/
namespace Verif.Tdgl
open Verif.SRM
open Verif.Gen (Box InsideV Inside)
open Verif.Ctr (IsElem FaceOf)
open Real (pi)

/-- `d` is the angle `x` reduced to `[-π, π)` -/
def IsAngle (x d : ℝ) : Prop := -pi ≤ d ∧ d < pi ∧ ∃ k : ℤ, x = d + 2 * pi * k

/-- the phase differences along the three edges of a triangle, less the line integrals `li` of the potential and reduced to
`[-π, π)`, add up to `n` full turns less the circulation of the potential: `n` is the winding number of the phase -/
def Winds (phi li : Fin 3 → ℝ) (n : ℤ) : Prop :=
  ∃ d : Fin 3 → ℝ, (∀ i, IsAngle (phi (i + 1) - phi i - li i) (d i)) ∧ d 0 + d 1 + d 2 = 2 * pi * n - (li 0 + li 1 + li 2)

/-- some phase difference (less the line integral) is an odd multiple of `π` -/
def Tie (phi li : Fin 3 → ℝ) : Prop := ∃ i, ∃ k : ℤ, phi (i + 1) - phi i - li i = pi + 2 * pi * k

/-- the position of a vertex in space: the grid starts at `origin` and its cells have the edge lengths `cell` -/
def gridPos (m : Meta) (v : Vtx) : Fin 3 → ℝ := fun j => m.origin j + m.cell j * (v.getD j 0 : ℝ)

/-- the position of a vertex in space-time: the last coordinate is the time step -/
def vertexPos (m : Meta) (v : Vtx) : Fin 4 → ℝ :=
  ![gridPos m v 0, gridPos m v 1, gridPos m v 2, (v.getD 3 0 : ℝ)]

/-- the value of the series at a spacetime vertex -/
noncomputable def valueAt (c : Cfg) (series : List Snap) (v : Vtx) : Val :=
  ((series[(v.getD 3 0).toNat]?).bind fun s => s.read (c.box.place v)).getD default

/-- the phases at three vertices -/
noncomputable def phases (c : Cfg) (series : List Snap) (vs : Fin 3 → Vtx) : Fin 3 → ℝ := fun i => (valueAt c series (vs i)).phi

/-- the line integrals of the potential along the edges between three vertices -/
noncomputable def lineInts (c : Cfg) (series : List Snap) (vs : Fin 3 → Vtx) : Fin 3 → ℝ :=
  integrals vs fun i => valueAt c series (vs i)

/-- `e` is a triangle with vertices `vs`, in the domain and at the times of the series, and the phase turns by at least half a
turn more than the potential circulates, around it -/
structure VortexAt (c : Cfg) (series : List Snap) (e : Elem) (vs : Fin 3 → Vtx) : Prop where
  tri : IsElem 4 2 e
  verts : e.vertices 4 = some [vs 0, vs 1, vs 2]
  inside : ∀ i, InsideV c.box series.length (vs i)
  turns : ∃ n : ℤ, Winds (phases c series vs) (lineInts c series vs) n ∧
    pi ≤ |2 * pi * n - (lineInts c series vs 0 + lineInts c series vs 1 + lineInts c series vs 2)|

/-- `e` is a triangle crossed by a vortex -/
def Vortex (c : Cfg) (series : List Snap) (e : Elem) : Prop := ∃ vs, VortexAt c series e vs

/-- around every triangle in the domain and the series the potential does not circulate, and no phase difference along its
edges is exactly half a turn -/
def Calm (c : Cfg) (series : List Snap) : Prop :=
  ∀ (e : Elem) (vs : Fin 3 → Vtx), IsElem 4 2 e → e.vertices 4 = some [vs 0, vs 1, vs 2] →
    (∀ i, InsideV c.box series.length (vs i)) →
    lineInts c series vs 0 + lineInts c series vs 1 + lineInts c series vs 2 = 0 ∧ ¬ Tie (phases c series vs) (lineInts c series vs)

/-- the array has a cell for every place of the domain -/
def Covers (c : Cfg) (s : Snap) : Prop :=
  ∀ p : List Int, Lat.InBox c.box.domain p →
    (s.read (List.zipWith (fun (x : Int) (a : Nat) => x - a) p c.box.astart)).isSome = true

/-- the tasks run are those of the scan, each once, in any order -/
def Complete (c : Cfg) (ord : Scope → List Int) : Prop :=
  ∀ sc, (ord sc).Perm ((List.range (c.box.core.sizes.prod * (scopeTypes 4 2 sc).length)).map Int.ofNat)

/-- `fs` are the triangles of the 4-simplex `x` with the property `Pr`, each once, in cyclic order: there are none, or three,
four or five; `ts` are as many different tetrahedra of `x`, number `i` and the next one sharing triangle number `i`; all other
tetrahedra of `x` have no triangle with the property. -/
structure Ring (Pr : Elem → Prop) (x : Elem) (ts fs : List Elem) : Prop where
  len : fs.length = 0 ∨ fs.length = 3 ∨ fs.length = 4 ∨ fs.length = 5
  same : ts.length = fs.length
  tnodup : ts.Nodup
  fnodup : fs.Nodup
  tets : ∀ y ∈ ts, IsElem 4 3 y ∧ FaceOf 4 y x
  shared : ∀ (i : Nat) (y z f : Elem), ts[i]? = some y → ts[(i + 1) % ts.length]? = some z → fs[i]? = some f →
    FaceOf 4 f y ∧ FaceOf 4 f z
  all : ∀ f, f ∈ fs ↔ IsElem 4 2 f ∧ FaceOf 4 f x ∧ Pr f
  others : ∀ y f, IsElem 4 3 y → FaceOf 4 y x → y ∉ ts → Pr f → ¬ FaceOf 4 f y

/-- points number `i` and `j` are recorded for two triangles of one 4-simplex inside -/
def SameCell {P : Type} (b : Box 3) (T : Nat) (inter : List (Elem × P)) (i j : Nat) : Prop :=
  ∃ x e f, IsElem 4 4 x ∧ Inside b T x ∧ (inter.map Prod.fst)[i]? = some e ∧ (inter.map Prod.fst)[j]? = some f ∧
    FaceOf 4 e x ∧ FaceOf 4 f x

end Verif.Tdgl
