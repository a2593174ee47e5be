import Mathlib.Data.Matrix.Mul
import Mathlib.Data.Matrix.Basic
/-!
# Small matrices

Model of `include/ftk/numeric/{matrix_multiplication,transpose,trace,matrix_addition,symmetric_matrix,submatrix,
matrix_decomposition,eye,cross_product,vector_dot_product}.hh` in exact arithmetic.  A matrix argument `T A[m][n]` is a function of two
indices, a flat argument `T m[9]` a function of one.  Outputs do not overlap inputs unless the function works in place.
-/
namespace Verif.MatOps

/-! ## Writing to memory -/

/-- The assignments `mem[p] = v` one after the other; `none` is a write outside the array. -/
def writeAll {T : Type} : List (Nat × T) → List T → Option (List T)
  | [], mem => some mem
  | (p, v) :: l, mem => if p < mem.length then writeAll l (mem.set p v) else none

variable {T : Type} [CommRing T]

/-- The inner loop of `matrix_matrix_multiplication` (matrix_multiplication.hh:12-14) -/
def dot (k : Nat) (A B : Nat → Nat → T) (i j : Nat) : T :=
  (List.range k).foldl (fun d l => d + A i l * B l j) 0

/-- `matrix_matrix_multiplication<T, M, K, N>(A, B, C)` (matrix_multiplication.hh:6-18) and the loops of
`matrix3x3_matrix3x3_multiplication` (`:84-109`): `mem` is the memory from `C` on, row after row. -/
def matMul (m k n : Nat) (A B : Nat → Nat → T) (mem : List T) : Option (List T) :=
  writeAll ((List.range m).flatMap fun i => (List.range n).map fun j => (i * n + j, dot k A B i j)) mem

/-- `matrix3x4_matrix4x2_multiplication(A, B, C)` (matrix_multiplication.hh:143-148): the parameter is declared `T C[2][2]`. -/
def matMul34_42 (A B : Nat → Nat → T) (mem : List T) : Option (List T) := matMul 3 4 2 A B mem

/-- `matrix3x3_scalar_multiplication` (matrix_multiplication.hh:20-26) -/
def scalarMul (A : Fin 9 → T) (b : T) : Fin 9 → T := fun i => A i * b

/-- `matrix2x2_vector2_multiplication` (matrix_multiplication.hh:28-34) -/
def mv22 (A : Fin 2 → Fin 2 → T) (b : Fin 2 → T) : Fin 2 → T :=
  ![A 0 0 * b 0 + A 0 1 * b 1, A 1 0 * b 0 + A 1 1 * b 1]

/-- `matrix2x3_vector3_multiplication` (matrix_multiplication.hh:36-42) -/
def mv23 (A : Fin 2 → Fin 3 → T) (b : Fin 3 → T) : Fin 2 → T :=
  ![A 0 0 * b 0 + A 0 1 * b 1 + A 0 2 * b 2, A 1 0 * b 0 + A 1 1 * b 1 + A 1 2 * b 2]

/-- `matrix3x3_vector3_multiplication` for a flat matrix (matrix_multiplication.hh:44-51) -/
def mv33flat (A : Fin 9 → T) (b : Fin 3 → T) : Fin 3 → T :=
  ![A 0 * b 0 + A 1 * b 1 + A 2 * b 2, A 3 * b 0 + A 4 * b 1 + A 5 * b 2, A 6 * b 0 + A 7 * b 1 + A 8 * b 2]

/-- `matrix3x3_vector3_multiplication` (matrix_multiplication.hh:53-60) -/
def mv33 (A : Fin 3 → Fin 3 → T) (b : Fin 3 → T) : Fin 3 → T :=
  ![A 0 0 * b 0 + A 0 1 * b 1 + A 0 2 * b 2, A 1 0 * b 0 + A 1 1 * b 1 + A 1 2 * b 2,
    A 2 0 * b 0 + A 2 1 * b 1 + A 2 2 * b 2]

/-- `matrix2x2_matrix2x2_multiplication` (matrix_multiplication.hh:62-70) -/
def mm22 (A B : Fin 2 → Fin 2 → T) : Fin 2 → Fin 2 → T :=
  ![![A 0 0 * B 0 0 + A 0 1 * B 1 0, A 0 0 * B 0 1 + A 0 1 * B 1 1],
    ![A 1 0 * B 0 0 + A 1 1 * B 1 0, A 1 0 * B 0 1 + A 1 1 * B 1 1]]

/-- `matrix2x2_matrix2x3_multiplication` (matrix_multiplication.hh:72-82) -/
def mm22_23 (A : Fin 2 → Fin 2 → T) (B : Fin 2 → Fin 3 → T) : Fin 2 → Fin 3 → T :=
  ![![A 0 0 * B 0 0 + A 0 1 * B 1 0, A 0 0 * B 0 1 + A 0 1 * B 1 1, A 0 0 * B 0 2 + A 0 1 * B 1 2],
    ![A 1 0 * B 0 0 + A 1 1 * B 1 0, A 1 0 * B 0 1 + A 1 1 * B 1 1, A 1 0 * B 0 2 + A 1 1 * B 1 2]]

/-- `matrix2x3_matrix3x2_multiplication` (matrix_multiplication.hh:125-133) -/
def mm23_32 (A : Fin 2 → Fin 3 → T) (B : Fin 3 → Fin 2 → T) : Fin 2 → Fin 2 → T :=
  ![![A 0 0 * B 0 0 + A 0 1 * B 1 0 + A 0 2 * B 2 0, A 0 0 * B 0 1 + A 0 1 * B 1 1 + A 0 2 * B 2 1],
    ![A 1 0 * B 0 0 + A 1 1 * B 1 0 + A 1 2 * B 2 0, A 1 0 * B 0 1 + A 1 1 * B 1 1 + A 1 2 * B 2 1]]

/-! ## Transposition -/

/-- `std::swap(m[p], m[q])` -/
def swapAt {I T : Type} [DecidableEq I] (m : I → T) (p q : I) : I → T :=
  fun x => if x = p then m q else if x = q then m p else m x

/-- `transpose<T, n>(M)` in place (transpose.hh:18-24): for every row `i` the entries `j > i` are swapped with their mirror images. -/
def transposeInPlace {T : Type} (n : Nat) (M : Nat × Nat → T) : Nat × Nat → T :=
  (List.range n).foldl (fun M i => ((List.range n).filter (fun j => i < j)).foldl (fun M j => swapAt M (i, j) (j, i)) M) M

/-- `transpose2x2(A, B)` (transpose.hh:26-34) -/
def tr22 {T : Type} (A : Fin 2 → Fin 2 → T) : Fin 2 → Fin 2 → T := ![![A 0 0, A 1 0], ![A 0 1, A 1 1]]

/-- `transpose2x2(m)` (transpose.hh:36-41) -/
def tr22flat {T : Type} (m : Fin 4 → T) : Fin 4 → T := swapAt m 1 2

/-- `transpose3x3(m)` for a flat matrix in place (transpose.hh:43-50) -/
def tr33flat {T : Type} (m : Fin 9 → T) : Fin 9 → T := swapAt (swapAt (swapAt m 1 3) 2 6) 5 7

/-- `transpose3x3(a, b)` for flat matrices (transpose.hh:52-65) -/
def tr33flat2 {T : Type} (a : Fin 9 → T) : Fin 9 → T := ![a 0, a 3, a 6, a 1, a 4, a 7, a 2, a 5, a 8]

/-- `transpose3x3(A)` in place (transpose.hh:67-74) -/
def tr33 {T : Type} (A : Fin 3 × Fin 3 → T) : Fin 3 × Fin 3 → T :=
  swapAt (swapAt (swapAt A (0, 1) (1, 0)) (0, 2) (2, 0)) (1, 2) (2, 1)

/-- `transpose3x3(A, B)` (transpose.hh:76-90) -/
def tr33b {T : Type} (A : Fin 3 → Fin 3 → T) : Fin 3 → Fin 3 → T :=
  ![![A 0 0, A 1 0, A 2 0], ![A 0 1, A 1 1, A 2 1], ![A 0 2, A 1 2, A 2 2]]

/-- `transpose4x4(m)` (transpose.hh:92-101) -/
def tr44flat {T : Type} (m : Fin 16 → T) : Fin 16 → T :=
  swapAt (swapAt (swapAt (swapAt (swapAt (swapAt m 1 4) 2 8) 3 12) 6 9) 7 13) 11 14

/-- `transpose3x2(A, B)` (transpose.hh:103-113) -/
def tr32 {T : Type} (A : Fin 3 → Fin 2 → T) : Fin 2 → Fin 3 → T := ![![A 0 0, A 1 0, A 2 0], ![A 0 1, A 1 1, A 2 1]]

/-- `transpose2x3(A, B)` (transpose.hh:115-125) -/
def tr23 {T : Type} (A : Fin 2 → Fin 3 → T) : Fin 3 → Fin 2 → T := ![![A 0 0, A 1 0], ![A 0 1, A 1 1], ![A 0 2, A 1 2]]

/-- `transpose4x3(A, B)` (transpose.hh:127-145) -/
def tr43 {T : Type} (A : Fin 4 → Fin 3 → T) : Fin 3 → Fin 4 → T :=
  ![![A 0 0, A 1 0, A 2 0, A 3 0], ![A 0 1, A 1 1, A 2 1, A 3 1], ![A 0 2, A 1 2, A 2 2, A 3 2]]

/-! ## Traces, sums, parts -/

/-- `trace<T, n>(A)` (trace.hh:8-16) -/
def trace (n : Nat) (A : Nat → Nat → T) : T := (List.range n).foldl (fun t i => t + A i i) 0

/-- `trace2` (trace.hh:18-23) -/
def trace2 (A : Fin 2 → Fin 2 → T) : T := A 0 0 + A 1 1

/-- `trace3` (trace.hh:25-30) -/
def trace3 (A : Fin 3 → Fin 3 → T) : T := A 0 0 + A 1 1 + A 2 2

/-- `eye3` (eye.hh:7-13) -/
def eye3 : Fin 9 → T := ![1, 0, 0, 0, 1, 0, 0, 0, 1]

/-- `submatrix_3x3_2x2` (submatrix.hh:6-13) -/
def sub33 (A : Fin 3 → Fin 3 → T) : Fin 2 → Fin 2 → T := ![![A 0 0, A 0 1], ![A 1 0, A 1 1]]

/-- `cross_product` (cross_product.hh:15-21) -/
def cross (a b : Fin 3 → T) : Fin 3 → T := ![a 1 * b 2 - a 2 * b 1, a 2 * b 0 - a 0 * b 2, a 0 * b 1 - a 1 * b 0]

/-- `vector_dot_product3` (vector_dot_product.hh:15-19), `inner_product3` (inner_product.hh:12-16) -/
def dot3 (a b : Fin 3 → T) : T := a 0 * b 0 + a 1 * b 1 + a 2 * b 2

end Verif.MatOps

namespace Verif.MatOps
variable {K : Type} [Field K]

/-- `make_symmetric2x2` (symmetric_matrix.hh:8-13) -/
def makeSym2 (m : Fin 2 → Fin 2 → K) : Fin 2 → Fin 2 → K :=
  let a := 1 / 2 * (m 0 1 + m 1 0)
  ![![m 0 0, a], ![a, m 1 1]]

/-- `make_symmetric3x3` (symmetric_matrix.hh:15-25) -/
def makeSym3 (m : Fin 3 → Fin 3 → K) : Fin 3 → Fin 3 → K :=
  let a := 1 / 2 * (m 0 1 + m 1 0)
  let b := 1 / 2 * (m 0 2 + m 2 0)
  let c := 1 / 2 * (m 1 2 + m 2 1)
  ![![m 0 0, a, b], ![a, m 1 1, c], ![b, c, m 2 2]]

/-- `matrix_symmetric_decomposition_3x3` (matrix_decomposition.hh:6-20) -/
def symPart (M : Fin 3 → Fin 3 → K) : Fin 3 → Fin 3 → K :=
  ![![M 0 0, 1 / 2 * (M 0 1 + M 1 0), 1 / 2 * (M 0 2 + M 2 0)],
    ![1 / 2 * (M 1 0 + M 0 1), M 1 1, 1 / 2 * (M 1 2 + M 2 1)],
    ![1 / 2 * (M 2 0 + M 0 2), 1 / 2 * (M 2 1 + M 1 2), M 2 2]]

/-- `matrix_antisymmetric_decomposition_3x3` (matrix_decomposition.hh:22-36) -/
def antiPart (M : Fin 3 → Fin 3 → K) : Fin 3 → Fin 3 → K :=
  ![![0, 1 / 2 * (M 0 1 - M 1 0), 1 / 2 * (M 0 2 - M 2 0)],
    ![1 / 2 * (M 1 0 - M 0 1), 0, 1 / 2 * (M 1 2 - M 2 1)],
    ![1 / 2 * (M 2 0 - M 0 2), 1 / 2 * (M 2 1 - M 1 2), 0]]

end Verif.MatOps
