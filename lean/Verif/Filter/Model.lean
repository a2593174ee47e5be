import Verif.Str.Model
import Verif.XStr.Model

/-!
# Model of the execution settings of `include/ftk/filters/filter.hh`

The members that select threads, accelerators and devices (lines 20-92).  `std::thread::hardware_concurrency()` and the size of the
communicator are inputs.
-/

namespace Verif.Filter

open Verif.Str Verif.XStr

/-- thread backends (`include/ftk/object.hh`/`config.hh` constants used in `filter.hh:62-67`) -/
inductive Backend | pthread | openmp | tbb
  deriving DecidableEq

/-- accelerators of `filter.hh:69-74` -/
inductive Accel | none | cuda | sycl
  deriving DecidableEq

/-- the settings, `filter.hh:50-58` -/
structure Settings where
  xl : Accel := .none
  backend : Backend := .pthread
  nthreads : Int := 1
  nblocks : Int := 0
  devices : List Int := []
  deriving DecidableEq

/-- `default_nthreads`: `filter.hh:34-37` -/
def defaultNthreads (commSize hardware : Int) : Int := if commSize > 1 then 1 else hardware

/-- the constructor: `filter.hh:16-18` -/
def create (commSize hardware : Int) : Settings := { nthreads := defaultNthreads commSize hardware }

/-- `use_thread_backend(str)`: `filter.hh:62-67` -/
def useThreadBackend (s : Settings) (str : Str) : Settings :=
  if str = "openmp".toList then { s with backend := .openmp }
  else if str = "tbb".toList then { s with backend := .tbb }
  else { s with backend := .pthread }

/-- `use_accelerator(acc)`: `filter.hh:69-74` -/
def useAccelerator (s : Settings) (acc : Str) : Settings :=
  if acc = "cuda".toList then { s with xl := .cuda }
  else if acc = "sycl".toList then { s with xl := .sycl }
  else { s with xl := .none }

/-- `std::stoi`: throws (`none`) without a digit and outside the range of `int` (called in `filter.hh:83`) -/
def stoiInt (s : Str) : Option Int :=
  match stoi s with
  | some v => if -2147483648 ≤ v ∧ v ≤ 2147483647 then some v else none
  | none => none

/-- the loop of `set_device_ids(ids)`: `filter.hh:80-83` -/
def parseIds : List Str → Option (List Int)
  | [] => some []
  | p :: ps =>
    match stoiInt p, parseIds ps with
    | some v, some vs => some (v :: vs)
    | _, _ => none

/-- `set_device_ids(ids)`: `filter.hh:76-87`; `none` is an exception. -/
def setDeviceIds (s : Settings) (ids : Str) : Option Settings :=
  if ids = [] then some s
  else match parseIds (split ids) with
    | some l => some { s with devices := l }
    | none => none

end Verif.Filter
