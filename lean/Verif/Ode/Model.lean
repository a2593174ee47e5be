import Verif.Num.Model
import Mathlib.Analysis.SpecialFunctions.Trigonometric.Basic
/-! Models of the particle-tracing steps: `rk4` (include/ftk/numeric/rk4.hh), quaternion rotation
(include/ftk/numeric/quaternion.hh) and the spherical steps of rk4.hh.  Exact real arithmetic. -/
namespace Verif.Ode

/-- the velocity callback `std::function<bool(const T*, T*)>`: `none` = it returns `false` (rk4.hh:188). -/
abbrev Vel (K : Type) (n : Nat) := (Fin n → K) → Option (Fin n → K)

/-- `rk4` (rk4.hh:186-222): the return value and `*pt` afterwards. -/
def rk4 {K : Type} [Field K] {n : Nat} (f : Vel K n) (h : K) (pt : Fin n → K) : Bool × (Fin n → K) :=
  let p0 := pt
  match f pt with
  | none => (false, pt)
  | some v =>
    let k1 := fun i => h * v i
    let pt := fun i => p0 i + 1 / 2 * k1 i
    match f pt with
    | none => (false, pt)
    | some v =>
      let k2 := fun i => h * v i
      let pt := fun i => p0 i + 1 / 2 * k2 i
      match f pt with
      | none => (false, pt)
      | some v =>
        let k3 := fun i => h * v i
        let pt := fun i => p0 i + k3 i
        match f pt with
        | none => (false, pt)
        | some v => (true, fun i => p0 i + (k1 i + 2 * (k2 i + k3 i) + h * v i) / 6)

/-- `quatmul` (quaternion.hh:12-25) -/
def quatmul (x y : Fin 4 → ℝ) : Fin 4 → ℝ :=
  let ix : Fin 3 → ℝ := ![x 1, x 2, x 3]
  let iy : Fin 3 → ℝ := ![y 1, y 2, y 3]
  let cross := Num.crossProduct ix iy
  let dot := Num.innerProduct3 ix iy
  ![x 0 * y 0 - dot, x 0 * iy 0 + y 0 * ix 0 + cross 0, x 0 * iy 1 + y 0 * ix 1 + cross 1,
    x 0 * iy 2 + y 0 * ix 2 + cross 2]

/-- `vector_2norm<3>` (vector_norm.hh:9-17) -/
noncomputable def norm3 (v : Fin 3 → ℝ) : ℝ := Real.sqrt (0 + v 0 * v 0 + v 1 * v 1 + v 2 * v 2)

/-- `vector_normalization2<3>(v, w)` (vector_normalization.hh:18-26); `none` = the norm is 0 (NaN). -/
noncomputable def normalize3 (v : Fin 3 → ℝ) : Option (Fin 3 → ℝ) :=
  if norm3 v = 0 then none else some fun i => v i / norm3 v

/-- `axis_rotate_vector` (quaternion.hh:27-53); `none` = NaN. -/
noncomputable def axisRotate (axis_ : Fin 3 → ℝ) (theta : ℝ) (x : Fin 3 → ℝ) : Option (Fin 3 → ℝ) :=
  match normalize3 axis_ with
  | none => none
  | some axis =>
    let c := Real.cos (theta / 2)
    let s := Real.sin (theta / 2)
    let q : Fin 4 → ℝ := ![c, s * axis 0, s * axis 1, s * axis 2]
    let invq : Fin 4 → ℝ := ![q 0, -q 1, -q 2, -q 3]
    let p : Fin 4 → ℝ := ![0, x 0, x 1, x 2]
    let q1 := quatmul q p
    let q2 := quatmul q1 invq
    some ![q2 1, q2 2, q2 3]

/-- `angular_stepping` (rk4.hh:12-35), the three spatial components; `none` = NaN. -/
noncomputable def angularStep (x v : Fin 3 → ℝ) (h : ℝ) : Option (Fin 3 → ℝ) :=
  let R := norm3 x
  let axis := Num.crossProduct x v
  let w := norm3 v / R
  axisRotate axis (h * w) x

/-- `angular_and_vertical_stepping` (rk4.hh:37-62), the spatial components; `vv` is the vertical velocity `v[4]`. -/
noncomputable def angularVerticalStep (x v : Fin 3 → ℝ) (vv h : ℝ) : Option (Fin 3 → ℝ) :=
  let R := norm3 x
  let axis := Num.crossProduct x v
  let w := norm3 v / R
  match axisRotate axis (h * w) x with
  | none => none
  | some x1 => let R1 := R + vv * h; some fun i => x1 i * R1 / R

/-- `spherical_stepping` (rk4.hh:65-77); `none` = NaN. -/
noncomputable def sphericalStep (x v : Fin 3 → ℝ) (h : ℝ) : Option (Fin 3 → ℝ) :=
  let R := norm3 x
  let xn : Fin 3 → ℝ := fun k => x k + h * v k
  if norm3 xn = 0 then none else some fun k => xn k / norm3 xn * R

/-- the new time of `angular_and_vertical_stepping` (rk4.hh:61) and the position, as `x1[0..3]` -/
noncomputable def avStep4 (x : Fin 4 → ℝ) (v : Fin 5 → ℝ) (h : ℝ) : Option (Fin 4 → ℝ) :=
  (angularVerticalStep ![x 0, x 1, x 2] ![v 0, v 1, v 2] (v 4) h).map fun y => ![y 0, y 1, y 2, x 3 + h * v 3]

/-- `spherical_rk4_with_vertical_velocity` (rk4.hh:111-185): the return value and `x[0..3]` afterwards; `f` returns the
velocity channels 0 to 4.  Outer `none` = NaN. -/
noncomputable def sphericalRk4 (f : (Fin 4 → ℝ) → Option (Fin 5 → ℝ)) (h : ℝ) (x0 : Fin 4 → ℝ) :
    Option (Bool × (Fin 4 → ℝ)) :=
  match f x0 with
  | none => some (false, x0)
  | some k1 =>
    match avStep4 x0 k1 (h / 2) with
    | none => none
    | some x2 =>
      match f x2 with
      | none => some (false, x0)
      | some k2 =>
        match avStep4 x0 k2 (h / 2) with
        | none => none
        | some x3 =>
          match f x3 with
          | none => some (false, x0)
          | some k3 =>
            match avStep4 x0 k3 h with
            | none => none
            | some x4 =>
              match f x4 with
              | none => some (false, x0)
              | some k4 =>
                match avStep4 x0 (fun i => (k1 i + 2 * k2 i + 2 * k3 i + k4 i) / 6) h with
                | none => none
                | some x => some (true, x)

end Verif.Ode
