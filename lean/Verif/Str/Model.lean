import Verif.Curve.Model
/-! Model of utils/string.hh, of the names and formats of files (io/util.hh, geometry/write_polydata.hh, filters/json_interface.hh) and of the parsing of
post-processing options.  Strings are lists of characters. -/
namespace Verif.Str
open Verif.Curve (PPOp)

/-- a `std::string` -/
abbrev Str := List Char

/-- `value.find(pat)`: the first place where `pat` occurs. -/
def find : Str → Str → Option Nat
  | [], pat => if pat = [] then some 0 else none
  | c :: s, pat => if pat.isPrefixOf (c :: s) then some 0 else (find s pat).map (· + 1)

/-- `starts_with` (utils/string.hh:12-16). -/
def startsWith (value starting : Str) : Bool := if find value starting = some 0 then true else false

/-- `ends_with` (utils/string.hh:18-22; the same in json_interface.hh:93-96 and ndarray/stream.hh:140-144). -/
def endsWith (value ending : Str) : Bool :=
  if ending.length > value.length then false else ending.reverse == value.reverse.take ending.length

/-- `to_lower_cases` (utils/string.hh:24-30), in the "C" locale. -/
def toLower (s : Str) : Str := s.map Char.toLower

/-- `ends_with_lower` (utils/string.hh:32-35). -/
def endsWithLower (s ending : Str) : Bool := endsWith (toLower s) (toLower ending)

/-- the token iterator after the first match: pieces between commas, and what follows the last comma unless it is empty. -/
def splitGo : Str → Str → List Str
  | cur, [] => if cur = [] then [] else [cur]
  | cur, c :: s => if c = ',' then cur :: splitGo [] s else splitGo (cur ++ [c]) s

/-- `split(input, ",")` (utils/string.hh:38-45): without a match the only piece is the input. -/
def split (s : Str) : List Str := if ',' ∈ s then splitGo [] s else [s]

/-! ### post-processing options -/

/-- the branches of `filter` (feature_curve_set_post_processor.hh:30-67). -/
def opOf (s : Str) : PPOp :=
  if s = "smooth_types".toList then .smoothTypes
  else if s = "rotate".toList then .rotate
  else if startsWith s "duration_pruning".toList then .durationPruning
  else if s = "split".toList then .split
  else if s = "discard_interval_points".toList then .discardInterval
  else if s = "reorder".toList then .reorder
  else if s = "adjust_time".toList then .adjustTime
  else if s = "derive_velocity".toList then .deriveVelocity
  else .unknown

/-- `parse_ops` (feature_curve_set_post_processor.hh:13) followed by the branches. -/
def parseOps (s : Str) : List PPOp := (split s).map opOf

/-! ### file formats -/

/-- the branches of `file_extension` in their order (io/util.hh:106-131), with the constants of io/util.hh:15-31. -/
def extTable : List (List Str × Nat) :=
  [(["bin".toList, "binary".toList], 1), (["nc".toList, "netcdf".toList], 3), (["h5".toList, "hdf5".toList], 4), (["bp".toList, "adios2".toList], 5),
   (["npy".toList, "numpy".toList], 6), (["png".toList], 7), (["vti".toList], 8), (["vtp".toList], 9), (["vtu".toList], 10), (["vtk".toList], 12),
   (["ply".toList], 13), (["stl".toList], 14)]

/-- `file_extension(f)` (io/util.hh:102-132). -/
def fileExtension (f : Str) : Nat := match extTable.find? (fun g => g.1.any (fun e => endsWithLower f e)) with
  | some g => g.2
  | none => 0

/-- `file_extension(filename, format)` (io/util.hh:134-140). -/
def fileExtension2 (filename format : Str) : Nat :=
  if format = "auto".toList ∨ format = [] then fileExtension filename else fileExtension format

/-- the format derived from the output file (json_interface.hh:226-231). -/
def formatOfOutput (f : Str) : Str :=
  if endsWith f "vtp".toList then "vtp".toList
  else if endsWith f "pvtp".toList then "pvtp".toList
  else if endsWith f "txt".toList then "text".toList
  else if endsWith f "json".toList then "json".toList
  else "binary".toList

/-- `valid_output_formats` (json_interface.hh:211) -/
def validFormats : List Str := ["text".toList, "vtp".toList, "pvtp".toList, "json".toList]

/-- `output_format` after `configure` (json_interface.hh:211-233) for a given `output`; `given` is the user's `output_format`. -/
def outputFormat (given : Option Str) (output : Str) : Str := match given with
  | some g => if g ∈ validFormats then g else formatOfOutput output
  | none => formatOfOutput output

/-- the format `write_polydata` chooses (geometry/write_polydata.hh:27-35). -/
def polyFormat (filename format : Str) : Str :=
  if format = "auto".toList ∨ format = [] then
    if endsWith filename "ply".toList then "ply".toList
    else if endsWith filename "stl".toList then "stl".toList
    else if endsWith filename "vtk".toList then "legacy".toList
    else if endsWith filename "pvtp".toList then "pvtp".toList
    else "vtp".toList
  else format

/-- `find_last_of(".")` -/
def lastDot (s : Str) : Option Nat := match s.reverse.findIdx? (· == '.') with
  | some k => some (s.length - 1 - k)
  | none => none

/-- `remove_file_extension` (io/util.hh:96-100): `substr(0, npos)` is the whole string. -/
def removeExt (s : Str) : Str := match lastDot s with
  | some k => s.take k
  | none => s

/-! ### series of files -/

/-- decimal digits, most significant first; `fuel` bounds their number. -/
def digits : Nat → Nat → List Nat
  | 0, k => [k % 10]
  | fuel + 1, k => if k < 10 then [k] else digits fuel (k / 10) ++ [k % 10]

/-- the character of a digit -/
def digitChar (d : Nat) : Char := Char.ofNat (48 + d)

/-- `%0wd` of a number that is not negative -/
def format0 (w k : Nat) : List Nat := List.replicate (w - (digits k k).length) 0 ++ digits k k

/-- `series_filename(pattern, k)` (io/util.hh:33-42) for a pattern with one conversion `%0wd` (`%d` is `w = 0`). -/
def seriesFilename (pre : Str) (w : Nat) (suf : Str) (k : Nat) : Str := pre ++ (format0 w k).map digitChar ++ suf

/-- the name of rank `r`'s piece (geometry/write_polydata.hh:48-49). -/
def pieceName (filename : Str) (r : Nat) : Str := removeExt filename ++ ['_'] ++ (format0 0 r).map digitChar ++ ".vtp".toList

end Verif.Str
