import Verif.UMesh.Model
import Verif.Graph.Model
import Verif.Num.Gradient
import Mathlib.Analysis.SpecialFunctions.Trigonometric.Basic
import Mathlib.Analysis.SpecialFunctions.Exp
/-!
# Gradients and smoothing on a triangle mesh

Model of the numerical members of `include/ftk/mesh/simplicial_unstructured_2d_mesh.hh` (`mesh` below): `scalar_gradient`,
`vector_gradient`, `scalar_gradient_jacobian`, `build_smoothing_kernel`, `smooth_scalar`,
`smooth_scalar_gradient_jacobian`, `nearest`.  Exact arithmetic.  `vertex_coords(0..1, i)` is a list of pairs; a field
`{n}` is a list, a field `{w, n}` the list of its columns.  `none` = an access outside an array.
-/
namespace Verif.Smooth
open Verif.UM

variable {K : Type} [Field K]

/-- `vertex_coords(0..1, tri[j])`, `f[tri[j]]` for the three corners (`mesh:637-647, 697-704`). -/
def corners {α : Type} (a : List α) (t : Tri) : Option (Fin 3 → α) := do
  let x ← read a t.1
  let y ← read a t.2.1
  let z ← read a t.2.2
  some ![x, y, z]

/-- The gradient of one triangle (`mesh:692-709`); a degenerate triangle gives non-finite values in the code, which is
not tracked here. -/
def cellGrad (xy : List (Fin 2 → K)) (f : List K) (t : Tri) : Option (Fin 2 → K) := do
  let X ← corners xy t
  let v ← corners f t
  some (Num.gradient2dsimplex2 X v)

/-- The average over the adjacent triangles (`mesh:716-727`): inner `none` = `0 / 0` (no adjacent triangle). -/
def average (cell : List (Fin 2 → K)) (tris : List Int) : Option (Option (Fin 2 → K)) := do
  let gs ← tris.mapM (read cell)
  let s := gs.foldl (fun acc g => fun d => acc d + g d) (fun _ => (0 : K))
  some (if tris.length = 0 then none else some fun d => s d / (tris.length : K))

/-- `scalar_gradient` (`mesh:686-731`) -/
def scalarGradient (m : M2) (xy : List (Fin 2 → K)) (f : List K) : Option (List (Option (Fin 2 → K))) := do
  let cell ← m.tris.mapM (cellGrad xy f)
  (List.range m.n0).mapM fun (i : Nat) => (m.vertexTriangles i).bind (average cell)

/-- Component `c` of every column. -/
def component (v : List (List K)) (c : Nat) : Option (List K) := v.mapM fun col => col[c]?

/-- `vector_gradient` (`mesh:625-677`), for one component `c` of the `w` components of `vector`: first the same averaging
as for a scalar (`:629-668`), then the last loop (`:670-673`), whose second line reads `grad(0, c, i)` again. -/
def vectorGradientC (m : M2) (xy : List (Fin 2 → K)) (v : List (List K)) (c : Nat) :
    Option (List (Option (Fin 2 → K))) := do
  let f ← component v c
  let cell ← m.tris.mapM (cellGrad xy f)
  (List.range m.n0).mapM fun (i : Nat) => do
    let tris ← m.vertexTriangles i
    let gs ← tris.mapM (read cell)
    let g0 := gs.foldl (fun acc g => acc + g 0) (0 : K)
    let g0 := g0 / (tris.length : K)
    let g1 := g0 / (tris.length : K)
    some (if tris.length = 0 then none else some ![g0, g1])

/-- `vector_gradient`: entry `c` of the result lists `grad(0..1, c, i)`. -/
def vectorGradient (m : M2) (xy : List (Fin 2 → K)) (w : Nat) (v : List (List K)) :
    Option (List (List (Option (Fin 2 → K)))) := (List.range w).mapM (vectorGradientC m xy v)

/-- `scalar_gradient_jacobian` (`mesh:679-684`) for a mesh in which every vertex has a triangle (otherwise the gradient
passed on contains NaN: `none`). -/
def scalarGradientJacobian (m : M2) (xy : List (Fin 2 → K)) (f : List K) :
    Option (List (Fin 2 → K) × List (List (Option (Fin 2 → K)))) := do
  let g ← scalarGradient m xy f
  let g ← g.mapM id
  let j ← vectorGradient m xy 2 (g.map fun x => [x 0, x 1])
  some (g, j)

/-! ## Smoothing -/

/-- `vector_dist_2norm_2` (numeric/vector_norm.hh:20-24, 42-47) -/
noncomputable def dist2 (v w : Fin 2 → ℝ) : ℝ :=
  Real.sqrt ((v 0 - w 0) * (v 0 - w 0) + (v 1 - w 1) * (v 1 - w 1))

/-- The weight (`mesh:539`) -/
noncomputable def weight (sigma d : ℝ) : ℝ :=
  Real.exp (-(d * d) / (2 * sigma * sigma)) / (sigma * Real.sqrt (2 * Real.pi))

/-- The traversal of `build_smoothing_kernel` for vertex `i` (`mesh:512-532`): breadth-first search along the mesh edges,
restricted to the vertices accepted by `near`, collected in a `std::set`.  (Simplification: the neighbours of an id
outside the mesh, which never occur, are empty.) -/
def support (m : M2) (fuel : Nat) (near : Int → Bool) (i : Int) : Option (List Int) :=
  (Gr.bfs fuel i (fun v => (m.vertexEdgeVertex v).getD []) near).map fun tr => tr.foldl (fun s x => setInsert x s) []

open Classical in
/-- The criterion (`mesh:518-529`): `vector_dist_2norm_2(xi, xj) < 3 * sigma`. -/
noncomputable def near (xy : List (Fin 2 → ℝ)) (sigma : ℝ) (i j : Int) : Bool :=
  match read xy i, read xy j with
  | some xi, some xj => decide (dist2 xi xj < 3 * sigma)
  | _, _ => false

/-- One entry of `smoothing_kernel` (`mesh:534-543`): the new pairs are appended to `old`, the entry's previous content
(`smoothing_kernel.resize(n(0))` keeps it). -/
noncomputable def kernelRow (m : M2) (xy : List (Fin 2 → ℝ)) (sigma : ℝ) (old : List (Int × ℝ)) (i : Nat) :
    Option (List (Int × ℝ)) := do
  let xi ← read xy i
  let s ← support m m.n0 (near xy sigma i) i
  let new ← s.mapM fun k => (read xy k).map fun xk => (k, weight sigma (dist2 xi xk))
  some (old ++ new)

/-- `build_smoothing_kernel` (`mesh:500-555`) -/
noncomputable def buildKernel (m : M2) (xy : List (Fin 2 → ℝ)) (sigma : ℝ) (old : List (List (Int × ℝ))) :
    Option (List (List (Int × ℝ))) :=
  (List.range m.n0).mapM fun i => kernelRow m xy sigma (old[i]?.getD []) i

/-- The sums for one vertex in `smooth_scalar_gradient_jacobian` (`mesh:606-620`): scalar, gradient, and the Jacobian
`(J(0,0), J(0,1), J(1,0), J(1,1))`. -/
structure Sums (K : Type) where
  /-- `scalar[i]` -/
  s : K
  /-- `grad(0..1, i)` -/
  g : Fin 2 → K
  /-- `J(0..1, 0..1, i)` -/
  j : Fin 2 → Fin 2 → K

/-- One kernel entry with value `fk = f[k]`, weight `w` and `d = x_k - x_i` (`mesh:598-619`). -/
def Sums.add (sigma : K) (a : Sums K) (fk w : K) (d : Fin 2 → K) : Sums K :=
  let sigma2 := sigma * sigma
  let sigma4 := sigma2 * sigma2
  { s := a.s + fk * w
    g := ![a.g 0 + -fk * w * d 0 / sigma2, a.g 1 + -fk * w * d 1 / sigma2]
    j := ![![a.j 0 0 + (d 0 * d 0 / sigma2 - 1) / sigma2 * fk * w, a.j 0 1 + d 0 * d 1 / sigma4 * fk * w],
           ![a.j 1 0 + d 0 * d 1 / sigma4 * fk * w, a.j 1 1 + (d 1 * d 1 / sigma2 - 1) / sigma2 * fk * w]] }

/-- The inner loop (`mesh:597-620`) -/
def Sums.row (xy : List (Fin 2 → K)) (f : List K) (sigma : K) (xi : Fin 2 → K) : List (Int × K) → Sums K → Option (Sums K)
  | [], a => some a
  | (k, w) :: l, a => do
    let xk ← read xy k
    let fk ← read f k
    Sums.row xy f sigma xi l (a.add sigma fk w fun c => xk c - xi c)

/-- `smooth_scalar_gradient_jacobian` (`mesh:581-622`): `old i` is what the three output arrays contained at vertex `i`
(zero for fresh arrays; `reshape` does not clear them). -/
def smooth (xy : List (Fin 2 → K)) (kernel : List (List (Int × K))) (sigma : K) (f : List K) (old : Nat → Sums K) :
    Option (List (Sums K)) :=
  (List.range kernel.length).mapM fun (i : Nat) => do
    let row ← kernel[i]?
    match row with
    | [] => some (old i)
    | _ => do
      let xi ← read xy i
      Sums.row xy f sigma xi row (old i)

/-- `smooth_scalar` (`mesh:557-579`), which always starts from zero. -/
def smoothScalar (kernel : List (List (Int × K))) (f : List K) : Option (List K) :=
  (List.range kernel.length).mapM fun (i : Nat) => do
    let row ← kernel[i]?
    row.foldlM (fun acc kw => (read f kw.1).map fun fk => acc + fk * kw.2) (0 : K)

/-- The loop of `nearest` (`mesh:979-988`) with `(mindist, imindist)`; `none` = `std::numeric_limits<F>::max()`, greater
than any distance that occurs. -/
def nearestLoop {D : Type} [LinearOrder D] (dist : Nat → D) : List Nat → Option (D × Nat) → Option (D × Nat)
  | [], best => best
  | i :: is, none => nearestLoop dist is (some (dist i, i))
  | i :: is, some (md, im) =>
    if md > dist i then nearestLoop dist is (some (dist i, i)) else nearestLoop dist is (some (md, im))

/-- `nearest` (`mesh:971-990`): `none` = the uninitialised return value of a mesh without vertices. -/
def nearest {D : Type} [LinearOrder D] (n : Nat) (dist : Nat → D) : Option Nat :=
  (nearestLoop dist (List.range n) none).map Prod.snd

end Verif.Smooth
