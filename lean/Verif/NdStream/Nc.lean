import Mathlib.Data.List.Basic

/-!
# Model of the NetCDF source of `ndarray_stream` (ndarray/stream.hh:668-694 and 1232-1336)

A NetCDF variable is a function from its multi-index (slowest dimension first) to values. Values outside the variable are not
modelled: the library's range check (`NC_EINVALCOORDS`) ends the program through `NC_SAFE_CALL`.
-/

namespace Verif.NdS

/-- `first_timestep_per_file` (stream.hh:672-683): the loop with its counter `total_timesteps`. -/
def firstSteps : Nat → List Nat → List Nat
  | _, [] => []
  | total, n :: ns => total :: firstSteps (total + n) ns

/-- The number of steps of the stream (stream.hh:686-694): the given one or what the files have, whichever is smaller. -/
def nTimesteps (given : Option Nat) (nt : Nat) : Nat :=
  match given with
  | some g => min g nt
  | none => nt

/-- The loop that looks for the file of step `k` (stream.hh:1254-1260); `fid = offset = 0` if there is none (stream.hh:1234). -/
def locateLoop (k : Nat) : Nat → List (Nat × Nat) → Nat × Nat
  | _, [] => (0, 0)
  | i, (first, n) :: r => if first ≤ k ∧ k < first + n then (i, k - first) else locateLoop k (i + 1) r

/-- The file and the record of step `k` (stream.hh:1249-1260). -/
def locate (counts : List Nat) (k : Nat) : Nat × Nat := locateLoop k 0 ((firstSteps 0 counts).zip counts)

/-- `starts` or `sizes` (stream.hh:1262-1296): the first argument is entry 0 if there is a record dimension. The vector is that of
the block (`bst` or `bsz`). Without any dimension the code reads out of bounds (`none`). -/
def window (lead : Option Nat) (b : List Nat) : Option (List Nat) :=
  match b with
  | [] => none
  | [x] => some (match lead with | some o => [o, x, 0, 0] | none => [x, 0, 0, 0])
  | [x, y] => some (match lead with | some o => [o, y, x, 0] | none => [y, x, 0, 0])
  | x :: y :: z :: _ => some (match lead with | some o => [o, z, y, x] | none => [z, y, x, 0])

/-- `nc_get_vara`: the values of a hyperslab, the last dimension fastest. -/
def hyperslab {V : Type} : List (Nat × Nat) → (List Nat → V) → List V
  | [], v => [v []]
  | (st, n) :: r, v => (List.range n).flatMap fun i => hyperslab r fun ix => v ((st + i) :: ix)

/-- `read_netcdf(filename, varname, starts, sizes)` (ndarray_base.hh:375-397, 468-482): as many entries as the variable has
dimensions. -/
def readVar {V : Type} (ndims : Nat) (starts sizes : List Nat) (v : List Nat → V) : List V :=
  hyperslab ((starts.zip sizes).take ndims) v

/-- The data of `reshape` to `n` elements (`p.resize`). -/
def resize {V : Type} (zero : V) (n : Nat) (l : List V) : List V := l.take n ++ List.replicate (n - l.length) zero

/-- The loop that interleaves the variables (stream.hh:1322-1326). -/
def interleave {V : Type} (zero : V) (arrays : List (List V)) : List V :=
  (List.range (arrays.headD []).length).flatMap fun i => arrays.map fun a => a.getD i zero

/-- `request_timestep_file_nc(k)` (stream.hh:1232-1336). `counts`: the record counts of the files if the variables have a record
dimension; `files f w` is variable `w` of file `f`, all with `ndims` dimensions; `bst`, `bsz`: the block to read. Returned: the
elements of the array in storage order. -/
def requestNc {V : Type} (zero : V) (counts : Option (List Nat)) (ndims nv : Nat) (files : Nat → Nat → List Nat → V)
    (bst bsz : List Nat) (k : Nat) : Option (List V) := do
  let (fid, off) := match counts with
    | some c => locate c k
    | none => (k, 0)
  let starts ← window (counts.map fun _ => off) bst
  let sizes ← window (counts.map fun _ => 1) bsz
  if nv = 1 then
    some (resize zero bsz.prod (readVar ndims starts sizes (files fid 0)))
  else
    some (resize zero (nv * bsz.prod) (interleave zero ((List.range nv).map fun w => readVar ndims starts sizes (files fid w))))

end Verif.NdS
