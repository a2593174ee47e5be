import Verif.Stream.Model
import Mathlib.Algebra.Ring.Pi
import Mathlib.Order.Defs.LinearOrder

/-!
# Model of `ndarray_stream::start` without `"async"`, `modified_callback` and `finish` (ndarray/stream.hh:1569-1604, 1607-1618, 1667-1703)

A frame is a function from positions to values. Simplified: the convolution with the Gaussian is an operation given by the
configuration (its own properties are C45-C47), so is the random noise added to frame `k`. A file that is missing gives no frame.
-/

namespace Verif.NdS

variable {ι K : Type} [Semiring K] [LinearOrder K]

/-- What `configure` was given (stream.hh:1572-1603, 1613-1616). -/
structure Cfg (ι K : Type) where
  /-- `"type" == "file"` -/
  isFile : Bool
  /-- `"spatial-smoothing-kernel"` -/
  smooth : Option ((ι → K) → ι → K)
  /-- `"perturbation"`: the noise drawn for frame `k` -/
  noise : Option (Nat → ι → K)
  /-- `"clamp"` -/
  clamp : Option (K × K)
  /-- `"temporal-smoothing-kernel"`: the weights -/
  kernel : Option (List K)

/-- `ftk::clamp` (numeric/clamp.hh:17-20) -/
def clampTo (x a b : K) : K := min (max a x) b

/-- What the stream has done: the calls of the callback so far (without the temporal filter), and the filter. -/
structure SSt (ι K : Type) where
  calls : List (Nat × (ι → K))
  filter : Stream.Filter (ι → K)

/-- The lambdas `f2` and `f1` and the head of `modified_callback` (stream.hh:1580-1603): the frame that is passed on. -/
def prepare (c : Cfg ι K) (k : Nat) (a : ι → K) : ι → K :=
  let a := match c.smooth with | some g => g a | none => a
  let a := match c.noise with | some n => fun i => a i + n k i | none => a
  match c.clamp with | some (lo, hi) => fun i => clampTo (a i) lo hi | none => a

/-- `modified_callback` (stream.hh:1570-1604); `none`: undefined behaviour in the filter. -/
def modifiedCallback (rtl : Bool) (c : Cfg ι K) (s : SSt ι K) (k : Nat) (a : ι → K) : Option (SSt ι K) :=
  match c.kernel with
  | some _ => (s.filter.push rtl (prepare c k a)).map fun f => { s with filter := f }
  | none => some { s with calls := s.calls ++ [(k, prepare c k a)] }

/-- The loop of `start` (stream.hh:1668-1691): `n` more steps, the next one `i`. `frames i = none`: the array is empty. -/
def startLoop (rtl : Bool) (c : Cfg ι K) (frames : Nat → Option (ι → K)) (blank : ι → K) : Nat → Nat → SSt ι K → Option (SSt ι K)
  | 0, _, s => some s
  | n + 1, i, s =>
    match frames i with
    | none =>
      if c.isFile then some s
      else match modifiedCallback rtl c s i blank with
        | none => none
        | some s => startLoop rtl c frames blank n (i + 1) s
    | some a =>
      match modifiedCallback rtl c s i a with
      | none => none
      | some s => startLoop rtl c frames blank n (i + 1) s

/-- `set_gaussian_kernel` and `set_callback` (stream.hh:1613-1616). -/
def startInit (c : Cfg ι K) : SSt ι K := { calls := [], filter := { kernel := (c.kernel.getD []).map fun w _ => w } }

/-- `finish` (stream.hh:1698-1703), and all the calls made by then. -/
def finishStream (rtl : Bool) (c : Cfg ι K) (s : SSt ι K) : Option (List (Nat × (ι → K))) :=
  match c.kernel with
  | some _ => (s.filter.finish rtl).map (·.out)
  | none => some s.calls

/-- `start(); finish()`: the calls of the callback. -/
def startFinish (rtl : Bool) (c : Cfg ι K) (frames : Nat → Option (ι → K)) (blank : ι → K) (nt : Nat) : Option (List (Nat × (ι → K))) :=
  (startLoop rtl c frames blank nt 0 (startInit c)).bind (finishStream rtl c)

end Verif.NdS
