import Verif.Smooth.Blur
import Verif.U3Mesh.Props
/-!
# Smoothing on tetrahedral meshes

Model of `build_smoothing_kernel` and `smooth_scalar_gradient_jacobian` of
`include/ftk/mesh/simplicial_unstructured_3d_mesh.hh` (`m3` below) on the mesh model `U3.M3`.  Exact arithmetic; `none` is an
access outside an array.
-/
namespace Verif.Smooth3
open Verif.U3

/-- An array with an entry for every vertex of a mesh with `n` vertices -/
def field {α : Type} (n : Nat) (f : Int → α) : List α := (List.range n).map fun (i : Nat) => f i

/-- `vector_dist_2norm_3` (numeric/vector_norm.hh:26-30, 49-55) -/
noncomputable def dist3 (v w : Fin 3 → ℝ) : ℝ :=
  Real.sqrt ((v 0 - w 0) * (v 0 - w 0) + (v 1 - w 1) * (v 1 - w 1) + (v 2 - w 2) * (v 2 - w 2))

/-- The weight (`m3:587`) -/
noncomputable def weight (sigma d : ℝ) : ℝ :=
  Real.exp (-(d * d) / (2 * sigma * sigma)) / (sigma * Real.sqrt (2 * Real.pi))

/-- The traversal for vertex `i` (`m3:564-581`): breadth-first search along `vertex_edge_vertex`, restricted to the vertices accepted
by `near`, collected in a `std::set`.  (Simplification: the neighbours of an id outside the mesh, which never occur, are empty.) -/
def support (m : M3) (fuel : Nat) (near : Int → Bool) (i : Int) : Option (List Int) :=
  (Gr.bfs fuel i (fun v => (UM.read m.vev v).getD []) near).map fun tr => tr.foldl (fun s x => setInsert x s) []

open Classical in
/-- The criterion (`m3:571-578`): `vector_dist_2norm_3(xi, xj) < 3 * sigma`. -/
noncomputable def near (xy : List (Fin 3 → ℝ)) (sigma : ℝ) (i j : Int) : Bool :=
  match UM.read xy i, UM.read xy j with
  | some xi, some xj => decide (dist3 xi xj < 3 * sigma)
  | _, _ => false

/-- One entry of `smoothing_kernel` (`m3:583-592`): the new pairs are appended to `old`, the entry's previous content. -/
noncomputable def kernelRow (m : M3) (xy : List (Fin 3 → ℝ)) (sigma : ℝ) (old : List (Int × ℝ)) (i : Nat) :
    Option (List (Int × ℝ)) := do
  let xi ← UM.read xy i
  let s ← support m m.n0 (near xy sigma i) i
  let new ← s.mapM fun k => (UM.read xy k).map fun xk => (k, weight sigma (dist3 xi xk))
  some (old ++ new)

/-- `build_smoothing_kernel` (`m3:559-606`) -/
noncomputable def buildKernel (m : M3) (xy : List (Fin 3 → ℝ)) (sigma : ℝ) (old : List (List (Int × ℝ))) :
    Option (List (List (Int × ℝ))) :=
  (List.range m.n0).mapM fun i => kernelRow m xy sigma (old[i]?.getD []) i

/-- The outputs for one vertex -/
structure Sums (K : Type) where
  /-- `scalar[i]` -/
  s : K
  /-- `grad(0..2, i)` -/
  g : Fin 3 → K
  /-- `J(0..2, 0..2, i)` -/
  j : Fin 3 → Fin 3 → K

variable {K : Type} [Field K]

/-- One kernel entry with value `fk = f[k]`, weight `w` and `d = x_k - x_i` (`m3:632-656`). -/
def Sums.add (sigma : K) (a : Sums K) (fk w : K) (d : Fin 3 → K) : Sums K :=
  let sigma2 := sigma * sigma
  let sigma4 := sigma2 * sigma2
  { s := a.s + fk * w
    g := ![a.g 0 + -fk * w * d 0 / sigma2, a.g 1 + -fk * w * d 1 / sigma2, a.g 2 + -fk * w * d 2 / sigma2]
    j := ![![a.j 0 0 + (d 0 * d 0 / sigma2 - 1) / sigma2 * fk * w, a.j 0 1 + d 0 * d 1 / sigma4 * fk * w,
             a.j 0 2 + d 0 * d 2 / sigma4 * fk * w],
           ![a.j 1 0 + d 0 * d 1 / sigma4 * fk * w, a.j 1 1 + (d 1 * d 1 / sigma2 - 1) / sigma2 * fk * w,
             a.j 1 2 + d 1 * d 2 / sigma4 * fk * w],
           ![a.j 2 0 + d 2 * d 0 / sigma4 * fk * w, a.j 2 1 + d 2 * d 1 / sigma4 * fk * w,
             a.j 2 2 + (d 2 * d 2 / sigma2 - 1) / sigma2 * fk * w]] }

/-- The inner loop (`m3:627-657`) -/
def Sums.row (xy : List (Fin 3 → K)) (f : List K) (sigma : K) (xi : Fin 3 → K) : List (Int × K) → Sums K → Option (Sums K)
  | [], a => some a
  | (k, w) :: l, a => do
    let xk ← UM.read xy k
    let fk ← UM.read f k
    Sums.row xy f sigma xi l (a.add sigma fk w fun c => xk c - xi c)

/-- `smooth_scalar_gradient_jacobian` (`m3:608-659`): `old i` is what the three output arrays contained at vertex `i`
(zero for fresh arrays; `reshape` does not clear them). -/
def smooth (xy : List (Fin 3 → K)) (kernel : List (List (Int × K))) (sigma : K) (f : List K) (old : Nat → Sums K) :
    Option (List (Sums K)) :=
  (List.range kernel.length).mapM fun (i : Nat) => do
    let row ← kernel[i]?
    match row with
    | [] => some (old i)
    | _ => do
      let xi ← UM.read xy i
      Sums.row xy f sigma xi row (old i)

end Verif.Smooth3
