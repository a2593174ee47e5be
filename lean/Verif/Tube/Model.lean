import Mathlib.Analysis.SpecialFunctions.Trigonometric.Basic
/-!
# Tubes around curves

Model of `include/ftk/geometry/curve2tube.hh` (`c2t` below) with the vector helpers of `include/ftk/numeric`.  Exact real
arithmetic.  A vector one of whose components is not a number is `none`; in this function the components of a vector are
then all NaN (a division of the whole vector by a zero norm, and its propagation).  `int` and `unsigned int` do not
overflow.  The groups of three `push_back`s are modelled as one entry.
-/
namespace Verif.Tube
open scoped Classical

/-- `R v[3]` -/
structure V3 where
  /-- first component -/
  x : ℝ
  /-- second component -/
  y : ℝ
  /-- third component -/
  z : ℝ

/-- `vector_assign_subtraction3` (`numeric/vector_assignment.hh:48-53`) -/
noncomputable def sub (w v : V3) : V3 := ⟨w.x - v.x, w.y - v.y, w.z - v.z⟩

/-- `vector_assign_addition3` (`numeric/vector_assignment.hh:39-44`) -/
noncomputable def add (w v : V3) : V3 := ⟨w.x + v.x, w.y + v.y, w.z + v.z⟩

/-- `vector_assign_scalar_multiplication3` (`numeric/vector_assignment.hh:30-35`) -/
noncomputable def smul (a : ℝ) (w : V3) : V3 := ⟨a * w.x, a * w.y, a * w.z⟩

/-- `vector_assign_weighted_addition3` (`numeric/vector_assignment.hh:57-62`) -/
noncomputable def wadd (a : ℝ) (w : V3) (b : ℝ) (v : V3) : V3 := ⟨a * w.x + b * v.x, a * w.y + b * v.y, a * w.z + b * v.z⟩

/-- `vector_dot_product3` (`numeric/vector_dot_product.hh`) -/
noncomputable def dot (a b : V3) : ℝ := a.x * b.x + a.y * b.y + a.z * b.z

/-- `cross_product` (`numeric/cross_product.hh:17-22`) -/
noncomputable def cross (a b : V3) : V3 := ⟨a.y * b.z - a.z * b.y, a.z * b.x - a.x * b.z, a.x * b.y - a.y * b.x⟩

/-- `vector_2norm` (`numeric/vector_norm.hh:8-33`) -/
noncomputable def norm (v : V3) : ℝ := Real.sqrt (v.x * v.x + v.y * v.y + v.z * v.z)

/-- `vector_normalization2_3` (`numeric/vector_normalization.hh:10-16, 43-48`): a zero vector becomes NaN. -/
noncomputable def normalize (v : V3) : Option V3 :=
  if norm v = 0 then none else some ⟨v.x / norm v, v.y / norm v, v.z / norm v⟩

/-- `{v[3*j], v[3*j+1], v[3*j+2]}`; `none` = an access outside the array (`c2t:24-26`) -/
def read3 (l : List ℝ) (j : Nat) : Option V3 := do
  let x ← l[j * 3]?
  let y ← l[j * 3 + 1]?
  let z ← l[j * 3 + 2]?
  some ⟨x, y, z⟩

/-- The tangent (`c2t:28-30`) -/
noncomputable def tangent (P0 P : V3) : Option V3 := normalize (sub P P0)

/-- The reference normal (`c2t:32-35`): a norm that is not a normal number (NaN) is replaced by (1, 0, 0). -/
noncomputable def refNormal (T : Option V3) : V3 :=
  match T with
  | none => ⟨1, 0, 0⟩
  | some t => (normalize ⟨-t.y, t.x, 0⟩).getD ⟨1, 0, 0⟩

/-- The normal transported from the previous vertex (`c2t:41-47`) -/
noncomputable def transport (N0 : Option V3) (N : V3) (B : Option V3) : Option V3 := do
  let n0v ← N0
  let b ← B
  normalize (wadd (dot n0v N) N (dot n0v b) b)

/-- The frame `(N, B)` at vertex `j` (`c2t:28-51`); `N0` = the normal of the previous vertex -/
noncomputable def frame (j : Nat) (N0 : Option V3) (P0 P : V3) : Option V3 × Option V3 :=
  let T := tangent P0 P
  let N := refNormal T
  let B := T.map (cross N)
  if j > 1 then
    let N1 := transport N0 N B
    (N1, N1.bind fun n => T.bind fun t => normalize (cross n t))
  else (some N, B)

/-- `angle` (`c2t:57`) -/
noncomputable def angle (p np : Nat) : ℝ := p * 2 * Real.pi / np

/-- `normal` at patch `p` (`c2t:59-61`) -/
noncomputable def ringNormal (N B : Option V3) (p np : Nat) : Option V3 := do
  let n ← N
  let b ← B
  normalize (wadd (Real.cos (angle p np)) n (Real.sin (angle p np)) b)

/-- One entry of the three vertex arrays -/
structure Vert where
  /-- `tube_vertices` -/
  pos : Option V3
  /-- `tube_normals` -/
  normal : Option V3
  /-- `tube_colors` -/
  color : V3

/-- The vertices of one ring around `C` (`c2t:56-81`) -/
noncomputable def ring (N B : Option V3) (C color : V3) (np : Nat) (radius : ℝ) : List Vert :=
  (List.range np).map fun p =>
    let nrm := ringNormal N B p np
    ⟨nrm.map fun n => add C (smul radius n), nrm, color⟩

/-- The triangles pushed for patch `p` when `n` vertices are present (`c2t:84-93`) -/
def patch (n np p : Nat) : List (Int × Int × Int) :=
  let pn : Nat := (p + 1) % np
  [((n : Int) - np + p, (n : Int) - np - np + pn, (n : Int) - np - np + p),
   ((n : Int) - np + p, (n : Int) - np + pn, (n : Int) - np - np + pn)]

/-- State of the loop over the vertices -/
structure St where
  /-- `tube_indices`, three at a time -/
  tris : List (Int × Int × Int)
  /-- the vertex arrays -/
  verts : List Vert
  /-- `N0` -/
  n0 : Option V3

/-- The rings of vertex `j` (`c2t:54-82`): two for `j = 1` -/
noncomputable def rings (j np : Nat) (radius : ℝ) (F : Option V3 × Option V3) (P0 P color : V3) : List Vert :=
  if j = 1 then ring F.1 F.2 P0 color np radius ++ ring F.1 F.2 P color np radius
  else ring F.1 F.2 P color np radius

/-- The body of the loop for vertex `j` (`c2t:24-93`) -/
noncomputable def step (cv cc : List ℝ) (np : Nat) (radius : ℝ) (st : St) (j : Nat) : Option St := do
  let color ← read3 cc j
  let P0 ← read3 cv (j - 1)
  let P ← read3 cv j
  let F := frame j st.n0 P0 P
  let vs := st.verts ++ rings j np radius F P0 P color
  some ⟨st.tris ++ (List.range np).flatMap (patch vs.length np), vs, F.1⟩

/-- `curve2tube` (`c2t:14-97`); a non-positive `npatches` makes all loops over the patches empty. -/
noncomputable def tube (cv cc : List ℝ) (npatches : Int) (radius : ℝ) : Option St :=
  let nv := cv.length / 3
  if nv < 2 then some ⟨[], [], some ⟨0, 0, 0⟩⟩
  else ((List.range (nv - 1)).map (· + 1)).foldlM (step cv cc npatches.toNat radius) ⟨[], [], some ⟨0, 0, 0⟩⟩

end Verif.Tube
