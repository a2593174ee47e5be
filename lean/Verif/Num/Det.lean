import Mathlib.Data.Fin.VecNotation
import Mathlib.Algebra.Ring.Defs

/-!
# Model of `include/ftk/numeric/det.hh`

Arithmetic is that of an arbitrary ring: no rounding, no overflow.
-/

namespace Verif.Num

/-- `det.hh:9-14`. -/
def det2 {R : Type} [Ring R] (A : Fin 2 → Fin 2 → R) : R := A 0 0 * A 1 1 - A 1 0 * A 0 1

/-- `det.hh:16-24`. -/
def det3 {R : Type} [Ring R] (m : Fin 3 → Fin 3 → R) : R :=
  m 0 0 * (m 1 1 * m 2 2 - m 1 2 * m 2 1)
  - m 0 1 * (m 1 0 * m 2 2 - m 1 2 * m 2 0)
  + m 0 2 * (m 1 0 * m 2 1 - m 1 1 * m 2 0)

/-- `det.hh:26-56`. -/
def det4 {R : Type} [Ring R] (m : Fin 4 → Fin 4 → R) : R :=
  let d2233 := m 2 2 * m 3 3 - m 2 3 * m 3 2
  let d2133 := m 2 1 * m 3 3 - m 2 3 * m 3 1
  let d2132 := m 2 1 * m 3 2 - m 2 2 * m 3 1
  let d2033 := m 2 0 * m 3 3 - m 2 3 * m 3 0
  let d2032 := m 2 0 * m 3 2 - m 2 2 * m 3 0
  let d2031 := m 2 0 * m 3 1 - m 2 1 * m 3 0
  m 0 0 * (m 1 1 * d2233 - m 1 2 * d2133 + m 1 3 * d2132)
  - m 0 1 * (m 1 0 * d2233 - m 1 2 * d2033 + m 1 3 * d2032)
  + m 0 2 * (m 1 0 * d2133 - m 1 1 * d2033 + m 1 3 * d2031)
  - m 0 3 * (m 1 0 * d2132 - m 1 1 * d2032 + m 1 2 * d2031)

/-- `det.hh:58-63`, the four-argument overload `det2(m00, m01, m10, m11)`. -/
def det2s {R : Type} [Ring R] (m00 m01 m10 m11 : R) : R := m00 * m11 - m10 * m01

end Verif.Num
