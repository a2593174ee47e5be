import Verif.NdStream.Nc
import Verif.Str.Model
/-!
# The writer of data series, and groups of arrays

Model of `include/ftk/ndarray/writer.hh` (`wr` below), of the writing half of the NetCDF functions in
`include/ftk/ndarray/ndarray_base.hh` (`nb`) and of `include/ftk/ndarray/ndarray_group.hh` (`ng`).
-/
namespace Verif.NcW

/-! ### configuration -/

/-- The JSON values the configuration looks at; objects are not distinguished further, numbers are integers. -/
inductive Js
  /-- `null` -/
  | null
  /-- a boolean -/
  | bool (b : Bool)
  /-- a number -/
  | num (n : Int)
  /-- a string -/
  | str (s : String)
  /-- an array -/
  | arr (l : List Js)
  /-- an object -/
  | obj

/-- `is_number()` -/
def Js.isNum : Js → Bool
  | .num _ => true
  | _ => false

/-- `is_string()` -/
def Js.isStr : Js → Bool
  | .str _ => true
  | _ => false

/-- `is_boolean()` -/
def Js.isBool : Js → Bool
  | .bool _ => true
  | _ => false

/-- The string, for `std::string s = j` after the check -/
def Js.text : Js → String
  | .str s => s
  | _ => ""

/-- The elements: `size()` and `operator[]` of an array; `null` has size 0, other values are not asked (`wr:200-201`). -/
def Js.elems : Js → List Js
  | .arr l => l
  | _ => []

/-- The JSON object `j`: what each key stands for -/
abbrev Conf := String → Option Js

/-- `j[k] = v` -/
def Conf.put (j : Conf) (k : String) (v : Js) : Conf := fun k' => if k' = k then some v else j k'

/-- `j[k] == "s"` on an object that may lack `k` (it is then created as `null`, which is equal to no string) -/
def Conf.is (j : Conf) (k s : String) : Bool := match j k with
  | some (.str t) => t == s
  | _ => false

/-- `configure`, the formats (`wr:75-76`) -/
def formats : List String := ["nc", "vti", "float32", "float64"]

/-- `configure`, `nd`, `filename`, `format` (`wr:58-79`): `false` is `fatal`. -/
def checkRequired (j : Conf) : Bool :=
  ((j "nd").any Js.isNum) && ((j "filename").any Js.isStr) && ((j "format").any fun f => f.isStr && formats.contains f.text)

/-- `configure`, `n_components` (`wr:81-85`) -/
def confComponents (j : Conf) : Option Conf := match j "n_components" with
  | some v => if v.isNum then some j else none
  | none => some (j.put "n_components" (.num 1))

/-- `configure`, `dimensions` (`wr:87-101`) -/
def confDimensions (j : Conf) : Option Conf := match j "dimensions" with
  | some (.arr l) => if l.length < 2 ∨ l.length > 3 then none else if l.all Js.isStr then some j else none
  | some _ => none
  | none =>
    let two := match j "nd" with
      | some (.num 2) => true
      | _ => false
    some (j.put "dimensions" (if two then .arr [.str "x", .str "y"] else .arr [.str "x", .str "y", .str "z"]))

/-- `configure`, `unlimited_time` (`wr:103-113`) -/
def confUnlimited (j : Conf) : Option Conf := match j "unlimited_time" with
  | some v => if ¬ j.is "format" "nc" then some j else if v.isBool then some j else none
  | none => if j.is "format" "nc" then some (j.put "unlimited_time" (.bool true)) else some j

/-- `configure`, `variable` (`wr:115-135`): the test of the missing variable looks at the key `foramt`, which it creates as `null`
if it is missing. -/
def confVariable (j : Conf) : Option Conf := match j "variable" with
  | some (.str s) => some (j.put "variable" (.arr [.str s]))
  | some (.arr l) => if l.all Js.isStr then some j else none
  | some _ => none
  | none => if j.is "foramt" "nc" then none else some (if (j "foramt").isSome then j else j.put "foramt" .null)

/-- `configure`, `separate_variables` (`wr:137-146`) -/
def confSeparate (j : Conf) : Option Conf := match j "separate_variables" with
  | some v => if v.isBool then some j else none
  | none => some j

/-- `configure` (`wr:53-147`): the configuration kept, or `fatal`; warnings are left out. -/
def configure (j : Conf) : Option Conf :=
  if checkRequired j then do
    let j ← confComponents j
    let j ← confDimensions j
    let j ← confUnlimited j
    let j ← confVariable j
    confSeparate j
  else none

/-! ### NetCDF files -/

/-- A variable: its name, the lengths of its dimensions (`none` = unlimited), and the value stored for an index (`none` = not written) -/
structure Var (V : Type) where
  /-- name -/
  name : String
  /-- lengths of the dimensions -/
  shape : List (Option Nat)
  /-- values -/
  val : List Nat → Option V

/-- A file: dimensions in the order of their definition, and variables -/
structure File (V : Type) where
  /-- dimensions -/
  dims : List (String × Option Nat)
  /-- variables -/
  vars : List (Var V)

/-- The place in memory of the element `ix` of the hyperslab, the last dimension fastest (`nc_put_vara`) -/
def lin : List (Nat × Nat) → List Nat → Option Nat
  | [], [] => some 0
  | (st, n) :: r, i :: ix =>
    if st ≤ i ∧ i < st + n then (lin r ix).map fun q => (i - st) * (r.map fun p => p.2).prod + q else none
  | _, _ => none

/-- Whether a hyperslab is inside the variable; an unlimited dimension grows. -/
def inside : List (Option Nat) → List (Nat × Nat) → Bool
  | [], _ => true
  | none :: s, _ :: b => inside s b
  | some n :: s, (st, k) :: b => st + k ≤ n && inside s b
  | _ :: _, [] => false

/-- `nc_put_vara_*(ncid, varid, st, sz, p)`: as many entries of `st` and `sz` are read as the variable has dimensions.  `none` is an
error code (fatal by `NC_SAFE_CALL`) or a read outside `p`. -/
def putVara {V : Type} (v : Var V) (st sz : List Nat) (p : List V) : Option (Var V) :=
  let box := (st.zip sz).take v.shape.length
  if inside v.shape box ∧ (box.map fun b => b.2).prod ≤ p.length then
    some { v with val := fun ix => match lin box ix with
      | some q => p[q]?
      | none => v.val ix }
  else none

/-- An `ndarray`: dimensions, first fastest, and the elements in that order -/
structure Arr (V : Type) where
  /-- `dims` -/
  dims : List Nat
  /-- `p` -/
  p : List V

/-- `to_netcdf(ncid, varid)` (`nb:399-405`) and `to_netcdf_unlimited_time(ncid, varid)` (`nb:441-451`): `starts` and `sizes` -/
def window (unlimited : Bool) (dims : List Nat) : List Nat × List Nat :=
  if unlimited then (List.replicate (dims.length + 1) 0, (dims ++ [1]).reverse)
  else (List.replicate dims.length 0, dims.reverse)

/-- `to_netcdf(ncid, varid, st, sz)` (`nb:407-425`) without the diagnostic output, for `float`, `double` and `int`. -/
def toNetcdf {V : Type} (v : Var V) (w : List Nat × List Nat) (a : Arr V) : Option (Var V) := putVara v w.1 w.2 a.p

/-- `to_netcdf(ncid, varid, st, sz)` (`nb:407-425`) as it stands: the diagnostic output (`nb:410-411`) reads four entries of both
vectors; `none` also stands for reading outside them. -/
def toNetcdfPrinting {V : Type} (v : Var V) (w : List Nat × List Nat) (a : Arr V) : Option (Var V) :=
  if 4 ≤ w.1.length ∧ 4 ≤ w.2.length then toNetcdf v w a else none

/-- The dimensions defined (`wr:212-219`); `data.dim(i)` reads outside the vector for `i ≥ nd` (`none`).  `names` is
`j["dimensions"]`. -/
def defDims (unlimited : Bool) (names : List String) (dims : List Nat) : Option (List (String × Option Nat)) := do
  let l ← (List.range names.length).mapM fun i => (dims[names.length - i - 1]?).map fun (d : Nat) =>
    (names.getD (names.length - i - 1) "", some d)
  some ((if unlimited then [("time", none)] else []) ++ l)

/-- `write_netcdf(k, data)` (`wr:194-247`), without the diagnostic output: every variable receives the whole array.  `none`: an error of
the library (among them two dimensions or two variables of one name) or a read outside memory. -/
def writeNc {V : Type} (unlimited : Bool) (names vars : List String) (a : Arr V) : Option (File V) := do
  let ds ← defDims unlimited names a.dims
  if (ds.map fun d => d.1).Nodup ∧ vars.Nodup then do
    let vs ← vars.mapM fun n => toNetcdf ⟨n, ds.map fun d => d.2, fun _ => none⟩ (window unlimited a.dims) a
    some ⟨ds, vs⟩
  else none

/-- The arguments `write_netcdf` takes from the configuration (`wr:199-206`): whether time is unlimited, the dimensions, the variables. -/
def ncArgs (j : Conf) : Bool × List String × List String :=
  ((match j "unlimited_time" with
    | some (.bool b) => b
    | _ => false),
   ((j "dimensions").getD .null).elems.map Js.text, ((j "variable").getD .null).elems.map Js.text)

/-- `consume` (`wr:250-256`) with `write` (`wr:155-163`) in the format `nc`: the callback writes frame after frame, an existing file
of that name is overwritten (`NC_CLOBBER`); the directory maps names to files. -/
def writeAll {V : Type} (pre : Str.Str) (w : Nat) (suf : Str.Str) (unlimited : Bool) (names vars : List String) :
    List (Nat × Arr V) → (Str.Str → Option (File V)) → Option (Str.Str → Option (File V))
  | [], dir => some dir
  | f :: fs, dir => do
    let file ← writeNc unlimited names vars f.2
    writeAll pre w suf unlimited names vars fs fun s => if s = Str.seriesFilename pre w suf f.1 then some file else dir s

/-! ### groups of arrays -/

/-- The map of a group: for each key the type (`double`, `int`, … as a number) and the array -/
abbrev Group (V : Type) := List (String × Nat × V)

/-- `has(key)` (`ng:12`) -/
def Group.has {V : Type} (g : Group V) (key : String) : Bool := g.any fun e => e.1 == key

/-- `at(key)` of the map; `none` is the exception. -/
def Group.at? {V : Type} (g : Group V) (key : String) : Option (Nat × V) := (g.find? fun e => e.1 == key).map fun e => e.2

/-- `set<T>(key, arr)` (`ng:14-15, :24-31`): `emplace` does nothing if the key exists. -/
def Group.set {V : Type} (g : Group V) (key : String) (ty : Nat) (v : V) : Group V := if g.has key then g else g ++ [(key, ty, v)]

/-- `get<T>(key)` (`ng:17-18`): an unknown key is an exception (`.error 0`), another type a null pointer dereferenced (`.error 1`). -/
def Group.get {V : Type} (g : Group V) (key : String) (ty : Nat) : Except Nat V := match g.at? key with
  | none => .error 0
  | some e => if e.1 = ty then .ok e.2 else .error 1

end Verif.NcW
