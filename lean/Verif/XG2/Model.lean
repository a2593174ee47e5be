import Verif.Smooth.Model
import Verif.Ode.Model
import Mathlib.Algebra.Order.Floor.Defs
/-!
# The XGC poloidal mesh

Model of `include/ftk/mesh/simplicial_xgc_2d_mesh.hh` (`xg2` below) and of the field-line tracing of
`include/ftk/io/xgc_eq.hh`: region of interest, magnetic field lines, derived fields.  Exact arithmetic; the three
components of a field are (R, Z, φ).  `none` = an access outside an array, unless said otherwise.
-/
namespace Verif.XG2
open Verif.UM

variable {K : Type} [Field K]

/-! ## Region of interest -/

section roi
variable [LinearOrder K]

/-- The parameters of the selection: `atan2(z - z0, r - r0)` as a function of the vertex, the two angles in degrees, `M_PI`,
the two bounds of the normalised flux and `psi_x` (assumed not zero). -/
structure Sel (K : Type) where
  /-- `atan2(z - z0, r - r0)` (`xg2:590`) -/
  theta : (Fin 2 → K) → K
  /-- `M_PI` -/
  pi : K
  /-- `theta_min_deg` -/
  thetaMinDeg : K
  /-- `theta_max_deg` -/
  thetaMaxDeg : K
  /-- `psin_min` -/
  psinMin : K
  /-- `psin_max` -/
  psinMax : K
  /-- `units.psi_x` -/
  psiX : K

/-- The loop of `initialize_roi` (`xg2:586-599`) over the remaining indices; state `(roi, roi_nodes)`. -/
def roiLoop (s : Sel K) (xy : List (Fin 2 → K)) (psi : List K) : List Nat → List Int × List Int → Option (List Int × List Int)
  | [], st => some st
  | i :: is, (roi, nodes) => do
    let x ← read xy i
    let theta := s.theta x
    if theta < s.thetaMinDeg * s.pi / 180 ∨ theta > s.thetaMaxDeg * s.pi / 180 then roiLoop s xy psi is (roi, nodes)
    else
      let p ← read psi i
      let psin := p / s.psiX
      if psin < s.psinMin ∨ psin > s.psinMax then roiLoop s xy psi is (roi, nodes)
      else
        let roi ← write roi i 1
        roiLoop s xy psi is (roi, nodes ++ [(i : Int)])

/-- `std::vector::resize` -/
def resize {α : Type} (n : Nat) (d : α) (l : List α) : List α := l.take n ++ List.replicate (n - l.length) d

/-- `initialize_roi` (`xg2:574-605`): `nn` = number of elements of `nextnodes`, `roi0` = previous content of `roi`
(`reshape` keeps it); result `(roi, roi_nodes)`. -/
def initRoi (s : Sel K) (xy : List (Fin 2 → K)) (psi : List K) (nn : Nat) (roi0 : List Int) : Option (List Int × List Int) :=
  roiLoop s xy psi (List.range psi.length) (resize nn 0 roi0, [])

end roi

/-- `map[roi_nodes[i]] = i` (`xg2:491-493`) followed by `map.find(v)`: the last index at which `v` occurs. -/
def lastIndex (nodes : List Int) (v : Int) : Option Nat :=
  ((List.range nodes.length).filter fun i => decide (nodes[i]? = some v)).getLast?

/-- The node-map loop (`xg2:504-509`) over the remaining vertices; state `(node_map, inverse_node_map)`. -/
def nodeLoop (nodes : List Int) : List Nat → List Int × List Int → Option (List Int × List Int)
  | [], st => some st
  | i :: is, (nm, inv) =>
    match lastIndex nodes i with
    | some k => do
      let nm ← write nm i k
      let inv ← write inv k i
      nodeLoop nodes is (nm, inv)
    | none => nodeLoop nodes is (nm, inv)

/-- `map[v]` (`xg2:524`); a vertex without entry gets the entry 0. -/
def newId (nodes : List Int) (v : Int) : Int := ((lastIndex nodes v).getD 0 : Nat)

/-- The triangle loop (`xg2:513-525`). -/
def triLoop (nodes nm : List Int) : List Tri → Option (List Tri)
  | [] => some []
  | t :: ts => do
    let a ← read nm t.1
    let b ← read nm t.2.1
    let c ← read nm t.2.2
    let rest ← triLoop nodes nm ts
    some (if a < 0 ∨ b < 0 ∨ c < 0 then rest else (newId nodes t.1, newId nodes t.2.1, newId nodes t.2.2) :: rest)

/-- What `new_roi_mesh` makes: the arguments of the constructor of the new mesh, its fields, and the two maps. -/
structure Roi (K : Type) where
  /-- `new_coords` -/
  xy : List (Fin 2 → K)
  /-- `new_triangles_array` -/
  tris : List Tri
  /-- `mx2->psifield` -/
  psi : List K
  /-- `mx2->bfield` -/
  bfield : List (Fin 3 → K)
  /-- `node_map` -/
  nodeMap : List Int
  /-- `inverse_node_map` -/
  inverse : List Int

/-- The flux of the new mesh (`xg2:539-545`). -/
def copyPsi (psi : List K) (nodes : List Int) : Option (List K) :=
  if psi.isEmpty then some [] else nodes.mapM (read psi)

/-- The magnetic field of the new mesh (`xg2:547-555`); the loop also writes `mx2->psifield[i]`. -/
def copyField (np : List K) (bf : List (Fin 3 → K)) (nodes : List Int) : Option (List (Fin 3 → K)) :=
  if bf.isEmpty then some [] else if np.length < nodes.length then none else nodes.mapM (read bf)

/-- `new_roi_mesh` (`xg2:480-556`); `nm0`, `inv0` = content of the two arguments at the call. -/
def newRoiMesh (n0 : Nat) (xy : List (Fin 2 → K)) (tris : List Tri) (psi : List K) (bf : List (Fin 3 → K)) (nodes : List Int)
    (nm0 inv0 : List Int) : Option (Roi K) := do
  let coords ← nodes.mapM (read xy)
  let (nm, inv) ← nodeLoop nodes (List.range n0) (resize n0 (-1) nm0, resize nodes.length 0 inv0)
  let nt ← triLoop nodes nm tris
  let np ← copyPsi psi nodes
  let nb ← copyField np bf nodes
  some ⟨coords, nt, np, nb, nm, inv⟩

/-! ## Field lines -/

/-- `eval_b` (`xg2:410-434`): the locator's answer (`none` = outside), the corners of a triangle and the field at the
vertices are functions (ids returned by the locator exist). -/
def evalB (loc : (Fin 3 → K) → Option (Int × (Fin 3 → K))) (tri : Int → Tri) (B : Int → Fin 3 → K) (x : Fin 3 → K) :
    Bool × (Fin 3 → K) :=
  match loc x with
  | none => (false, fun _ => 0)
  | some (tid, mu) =>
    (true, fun j => B (tri tid).1 j * mu 0 + B (tri tid).2.1 j * mu 1 + B (tri tid).2.2 j * mu 2)

/-- The velocity callback of `magnetic_map` (`xg2:375-384`).  (`B[2] = 0`, a division by zero, is not tracked.) -/
def slope (ev : (Fin 3 → K) → Bool × (Fin 3 → K)) : Ode.Vel K 3 := fun rzp =>
  match ev rzp with
  | (true, B) => some ![rzp 0 * B 0 / B 2, rzp 0 * B 1 / B 2, 1]
  | (false, _) => none

/-- The loop `for (k < nsteps) if (!rk4(...)) return false;` (`xg2:374-386`): success flag and `rzp`. -/
def steps (v : Ode.Vel K 3) (delta : K) : Nat → (Fin 3 → K) → Bool × (Fin 3 → K)
  | 0, p => (true, p)
  | n + 1, p =>
    match Ode.rk4 v delta p with
    | (false, q) => (false, q)
    | (true, q) => steps v delta n q

/-- `magnetic_map` (`xg2:365-390`) of a mesh with a magnetic field. -/
def magneticMap (ev : (Fin 3 → K) → Bool × (Fin 3 → K)) (p : Fin 3 → K) (phiEnd : K) (nsteps : Int) : Bool × (Fin 3 → K) :=
  if nsteps = 0 then (true, p)
  else steps (slope ev) ((phiEnd - p 2) / (nsteps : K)) nsteps.toNat p

/-- `magnetic_map` of the analytic equilibrium (xgc_eq.hh:96-109) with `eval_L` (xgc_eq.hh:125-134), which sets the first two
components only: `junk` is what the uninitialised third entry of `rk4`'s buffer contains. -/
def eqMap (b : K → K → Fin 3 → K) (junk : K) (p : Fin 3 → K) (phiEnd : K) (nsteps : Nat) : Bool × (Fin 3 → K) :=
  steps (fun q => some ![q 0 * b (q 0) (q 1) 0 / b (q 0) (q 1) 2, q 0 * b (q 0) (q 1) 1 / b (q 0) (q 1) 2, junk])
    ((phiEnd - p 2) / (nsteps : K)) nsteps p

section total
variable [LinearOrder K] [FloorRing K]

/-- `mod2pi` (numeric/fmod.hh:16-22) in exact arithmetic; `fmod` rounds the quotient towards zero. -/
def mod2pi (twoPi x : K) : K :=
  let q := x / twoPi
  let t : Int := if 0 ≤ q then ⌊q⌋ else ⌈q⌉
  let y := x - (t : K) * twoPi
  if y < 0 then y + twoPi else y

/-- The planes and the calls of `magnetic_map` in `eval_total_B` (`xg2:129-151, 167`). -/
structure Planes (K : Type) where
  /-- `i0` -/
  i0 : Int
  /-- `i1` -/
  i1 : Int
  /-- `alpha` -/
  alpha : K
  /-- `beta` -/
  beta : K
  /-- `phi_end` of the first call -/
  end0 : K
  /-- `nsteps` of the first call (a floating-point product, truncated) -/
  n0 : Int
  /-- `phi_end` of the second call -/
  end1 : K
  /-- `nsteps` of the second call -/
  n1 : Int

/-- `eval_total_B`: choice of the planes (`xg2:129-133`), with `nsteps = 512` (`xg2:145`). -/
def planes (twoPi phi : K) (np : Int) : Planes K :=
  let phin := mod2pi twoPi phi / twoPi
  let i0 := (⌊phin * (np : K)⌋).tmod np
  let i1 := (i0 + 1).tmod np
  let beta := phin * (np : K) - (i0 : K)
  let alpha := 1 - beta
  ⟨i0, i1, alpha, beta, (i0 : K) * twoPi / (np : K), ⌊beta * 512⌋, (i1 : K) * twoPi / (np : K), ⌊alpha * 512⌋⟩

/-- The end of `derive_nextnode` (`xg2:218-228`) for a located point. -/
def maxCorner (tri : Tri) (mu : Fin 3 → K) : Int :=
  if mu 0 ≥ mu 1 ∧ mu 0 ≥ mu 2 then tri.1
  else if mu 1 ≥ mu 0 ∧ mu 1 ≥ mu 2 then tri.2.1
  else if mu 2 ≥ mu 0 ∧ mu 2 ≥ mu 1 then tri.2.2
  else -1

end total

/-! ## Derived fields -/

/-- `derive_bfield0` (`xg2:336-349`) for one vertex; `none` = division by zero (NaN). -/
noncomputable def bfield0 (b : Fin 3 → ℝ) : Option (Fin 3 → ℝ) :=
  let norm := Real.sqrt (b 0 * b 0 + b 1 * b 1 + b 2 * b 2)
  if norm = 0 then none else some fun c => b c / norm

/-- `derive_curl_bfield0` (`xg2:327-332`) for one vertex with radius `R`, field `b` and `g d c = gradRZ_bfield0(d, c, i)`. -/
def curlAt (R : K) (b : Fin 3 → K) (g : Fin 2 → Fin 3 → K) : Fin 3 → K :=
  ![-g 1 2, b 2 / R + g 0 2, g 1 0 - g 0 1]

/-- `derive_curl_bfield0` (`xg2:319-333`) for a mesh in which every vertex has a triangle (inner `none`: NaN). -/
def deriveCurl (m : M2) (xy : List (Fin 2 → K)) (b0 : List (Fin 3 → K)) : Option (List (Option (Fin 3 → K))) := do
  let g ← Smooth.vectorGradient m xy 3 (b0.map fun b => [b 0, b 1, b 2])
  let g0 ← g[0]?
  let g1 ← g[1]?
  let g2 ← g[2]?
  (List.range b0.length).mapM fun (i : Nat) => do
    let b ← b0[i]?
    let x ← xy[i]?
    let h0 ← g0[i]?
    let h1 ← g1[i]?
    let h2 ← g2[i]?
    some (match h0, h1, h2 with
      | some h0, some h1, some h2 => some (curlAt (x 0) b fun d => ![h0 d, h1 d, h2 d])
      | _, _, _ => none)

/-- `derive_delta_B` (`xg2:305-314`) at one vertex and plane: potential `a`, its gradient `(gR, gZ)`, `dAsdphi`, unit field
and its curl. -/
def deltaAt (a : K) (g : Fin 2 → K) (dphi : K) (b curl : Fin 3 → K) : Fin 3 → K :=
  ![g 1 * b 2 - dphi * b 1 + a * curl 0,
    -g 0 * b 2 + dphi * b 0 + a * curl 1,
    g 0 * b 1 - g 1 * b 0 + a * curl 2]

/-- `derive_delta_B` (`xg2:284-317`): `As` is the list of the planes `As(·, c)`.  The gradient is that of `As` itself, whose
element `[k]` is the value at vertex `k` of plane 0 (`scalar_gradient` reads `scalar[k]`).  Entry `c` of the result lists
`deltaB(0..2, i, c)`. -/
def deltaB (m : M2) (xy : List (Fin 2 → K)) (twoPi : K) (b0 curl : List (Fin 3 → K)) (As : List (List K)) :
    Option (List (List (Option (Fin 3 → K)))) :=
  let np := As.length
  let dphi := twoPi / (np : K)
  (List.range np).mapM fun c => do
    let first ← As[0]?
    let plane ← As[c]?
    let next ← As[(c + 1) % np]?
    let prev ← As[(c + np - 1) % np]?
    let g ← Smooth.scalarGradient m xy first
    (List.range m.n0).mapM fun (i : Nat) => do
      let an ← next[i]?
      let ap ← prev[i]?
      let a ← plane[i]?
      let gi ← g[i]?
      let b ← b0[i]?
      let cu ← curl[i]?
      some (gi.map fun gi => deltaAt a gi ((an - ap) / (dphi * 2)) b cu)

/-- `derive_total_B` (`xg2:257-266`) for a two-dimensional `As`, from `deltaB`. -/
def totalB (bf : List (Fin 3 → K)) (dB : List (List (Option (Fin 3 → K)))) : Option (List (List (Option (Fin 3 → K)))) :=
  dB.mapM fun plane => (List.range plane.length).mapM fun (i : Nat) => do
    let d ← plane[i]?
    let b ← bf[i]?
    some (d.map fun d => fun c => d c + b c)

end Verif.XG2
