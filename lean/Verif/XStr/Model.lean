import Verif.Str.Props
import Mathlib.Algebra.Order.Ring.Rat
import Mathlib.Algebra.Order.Floor.Defs
import Mathlib.Data.Rat.Floor
/-!
# Reading XGC and MPAS runs

Model of `io/xgc_units.hh` (`units` below), `io/xgc_stream.hh` (`xs`), `io/xgc_stream_h5.hpp` (`h5`),
`io/xgc_stream_adios2.hpp` (`ad`) and the stepping of `io/mpas_stream.hh` (`ms`).  Files are lists of lines, numbers are
rationals; `std::stod` is a parameter (`none` = it throws).
-/
namespace Verif.XStr
open Verif.Str

/-! ## Text -/

/-- The outcome of reading: a result, an exception that nobody catches, or undefined behaviour. -/
inductive Out (α : Type) where
  | ok (a : α)
  | throws
  | ub
  deriving DecidableEq, Repr

/-- Sequencing of outcomes. -/
def Out.bind {α β : Type} (x : Out α) (f : α → Out β) : Out β := match x with
  | .ok a => f a
  | .throws => .throws
  | .ub => .ub

/-- The token iterator of `split(input, "c")` after the first match (`utils/string.hh:38-45`), for one character `c`. -/
def splitGo (c : Char) : Str → Str → List Str
  | cur, [] => if cur = [] then [] else [cur]
  | cur, d :: s => if d = c then cur :: splitGo c [] s else splitGo c (cur ++ [d]) s

/-- `split(input, "c")` (`utils/string.hh:38-45`). -/
def splitAt (c : Char) (s : Str) : List Str := if c ∈ s then splitGo c [] s else [s]

/-- `str.erase(std::remove(str.begin(), str.end(), ' '), str.end())` -/
def noSpaces (s : Str) : Str := s.filter (· ≠ ' ')

/-! ## Units -/

/-- The fields that are `int` (`units:12,16,23,24`). -/
def intFields : List Str := ["sml_totalpe".toList, "ptl_num".toList, "diag_1d_period".toList, "neu_col_period".toList]

/-- The names `read` accepts (`units:98-113`). -/
def accepted : List Str :=
  ["sml_totalpe".toList, "sml_dt".toList, "sml_tran".toList, "vth".toList, "ptl_num".toList, "eq_axis_r".toList,
   "eq_axis_z".toList, "eq_axis_b".toList, "eq_x_r".toList, "eq_x_z".toList, "eq_tempi_v1".toList,
   "ptl_ion_mass_au".toList, "ptl_ion_charge_eu".toList, "diag_1d_period".toList, "neu_col_period".toList, "psi_x".toList]

/-- The members of `xgc_units_t` by name. -/
abbrev Units := Str → ℚ

/-- Conversion of a number to `int`: towards zero (in range). -/
def trunc (v : ℚ) : ℚ := if 0 ≤ v then (⌊v⌋ : ℤ) else (⌈v⌉ : ℤ)

/-- `u.name = val` -/
def Units.assign (u : Units) (name : Str) (v : ℚ) : Units :=
  fun f => if f = name then (if name ∈ intFields then trunc v else v) else u f

/-- One line of `xgc_units_t::read` (`units:91-115`): the fields after it and whether reading goes on. `pop_back` of an
empty string and `strs[1]` of a list of one element are undefined. -/
def unitsLine (stod : Str → Option ℚ) (u : Units) (line : Str) : Out (Units × Bool) :=
  if noSpaces line = [] then .ub
  else
    match splitAt '=' (noSpaces line).dropLast with
    | var :: txt :: _ =>
      match stod txt with
      | none => .throws
      | some v => if var ∈ accepted then .ok (u.assign var v, true) else .ok (u, false)
    | _ => .ub

/-- `xgc_units_t::read` of a file that could be opened (`units:84-121`): the fields and the value returned. -/
def readUnits (stod : Str → Option ℚ) : Units → List Str → Out (Units × Bool)
  | u, [] => .ok (u, true)
  | u, l :: ls => (unitsLine stod u l).bind fun r => if r.2 then readUnits stod r.1 ls else .ok (r.1, false)

/-! ## The XGC input file -/

/-- `nphi` and `iphi` -/
structure Planes where
  /-- `nphi` -/
  nphi : Int
  /-- `iphi` -/
  iphi : Int
  deriving DecidableEq, Repr

/-- Conversion of a number to `int`. -/
def toInt (v : ℚ) : Int := if 0 ≤ v then ⌊v⌋ else ⌈v⌉

/-- `if (str.find("!") != npos) str = str.substr(0, str.find("!"))` (`xs:199-200`) -/
def cutComment (s : Str) : Str := match find s ['!'] with
  | some i => s.take i
  | none => s

/-- The part of a line with an equality sign from `xs:199` on. -/
def inputPair (stod : Str → Option ℚ) (p : Planes) (line : Str) : Out Planes :=
  match splitAt '=' (noSpaces (cutComment line)) with
  | var :: txt :: _ =>
    match stod txt with
    | none => .ok p
    | some v =>
      if var = "sml_wedge_n".toList then .ok { nphi := p.nphi, iphi := toInt v }
      else if var = "sml_nphi_total".toList then .ok { nphi := toInt v, iphi := p.iphi }
      else .ok p
  | _ => .ub

/-- One line of the input file (`xs:190-223`). -/
def inputLine (stod : Str → Option ℚ) (p : Planes) (line : Str) : Out Planes :=
  if find line ['&'] = some 0 then .ok p
  else if find line ['/'] = some 0 then .ok p
  else if find line ['!'] = some 0 then .ok p
  else if '=' ∈ line then inputPair stod p line
  else .ok p

/-- `probe_nphi_iphi` when the input file exists (`xs:183-224`). -/
def probe (stod : Str → Option ℚ) : Planes → List Str → Out Planes
  | p, [] => .ok p
  | p, l :: ls => (inputLine stod p l).bind fun p => probe stod p ls

/-! ## Steps -/

/-- `str.find_last_of("xgc.3d.")`: the last place with one of these characters. -/
def findLastOf (s : Str) : Option Nat := match s.reverse.findIdx? (fun c => "xgc.3d.".toList.contains c) with
  | some i => some (s.length - 1 - i)
  | none => none

/-- The digits at the beginning of a string, as a number. -/
def leadingDigits : Str → List Nat
  | [] => []
  | c :: s => if c.isDigit then (c.toNat - 48) :: leadingDigits s else []

/-- White space for `stoi` (the "C" locale). -/
def isSpace (c : Char) : Bool := c = ' ' ∨ c = '\t' ∨ c = '\n' ∨ c = '\r' ∨ c.toNat = 11 ∨ c.toNat = 12

/-- A sign in front, if there is one. -/
def signOf : Str → Bool × Str
  | '-' :: u => (true, u)
  | '+' :: u => (false, u)
  | u => (false, u)

/-- `std::stoi`: white space, a sign, digits; `none` = it throws (no digit; five characters cannot be out of range). -/
def stoi (s : Str) : Option Int := match leadingDigits (signOf (s.dropWhile isSpace)).2 with
  | [] => none
  | l => some (if (signOf (s.dropWhile isSpace)).1 then -(val l : Int) else (val l : Int))

/-- `filename2step` (`xs:102-116`). `last - 5` wraps around for `last < 5` and `substr` throws; `find_last_of` = `npos` gives
a position beyond the end as well. -/
def filename2step (s : Str) : Out Int := match findLastOf s with
  | none => .throws
  | some last =>
    if last < 5 then .throws
    else .ok ((stoi ((s.drop (last - 5)).take 5)).getD (-1))

/-- `filename_step` (`xs:51`) -/
def filenameStep (path postfixStr : Str) (step : Nat) : Str := seriesFilename (path ++ "/xgc.3d.".toList) 5 postfixStr step

/-- A stream: `filenames`, `start_timestep`, `current_timestep`, `ntimesteps`. -/
structure XS where
  /-- `filenames` -/
  files : List Str
  /-- `start_timestep` -/
  start : Int
  /-- `current_timestep` -/
  cur : Int
  /-- `ntimesteps` -/
  nt : Int
  deriving DecidableEq, Repr

/-- `initialize` (`xs:123-135,174`) of a stream with the options `set_start_timestep(start)` and `set_ntimesteps(nt)`
(defaults 1 and 0), for the files found. -/
def initXS (files : List Str) (start nt : Int) : XS :=
  { files := files, start := start, cur := start, nt := if nt > 0 then min nt files.length else files.length }

/-- The files that count as available steps (`xs:127-131`); an exception of `filename2step` goes up. -/
def availableSteps : List Str → Out (List Int)
  | [] => .ok []
  | f :: fs => (filename2step f).bind fun s => (availableSteps fs).bind fun l => .ok (if s ≥ 0 then s :: l else l)

/-- `filename(t)` (`xs:52-56`); `none` = an access outside of `filenames`. -/
def XS.filename (path postfixStr : Str) (x : XS) (t : Int) : Option Str :=
  if x.files = [] then some (filenameStep path postfixStr (max t 1).toNat)
  else if 0 ≤ t then x.files[t.toNat]? else none

/-- `advance_timestep` (`h5:42-65`, `ad:195-220`): the stream after it, the call of the callback if there is one, and the
value returned. -/
def XS.advance (path postfixStr : Str) (there : Str → Bool) (x : XS) : Option (XS × Option (Int × Str) × Bool) :=
  if x.cur ≥ x.start + x.nt then some (x, none, false)
  else match x.filename path postfixStr x.cur with
    | none => none
    | some f =>
      if there f then some ({ files := x.files, start := x.start, cur := x.cur + 1, nt := x.nt }, some (x.cur, f), true)
      else some (x, none, false)

/-- `while (advance_timestep());` with at most `fuel` calls: the calls of the callback. -/
def XS.drain (path postfixStr : Str) (there : Str → Bool) : Nat → XS → Option (List (Int × Str))
  | 0, _ => some []
  | k + 1, x => match x.advance path postfixStr there with
    | none => none
    | some (_, _, false) => some []
    | some (x', c, true) => (x'.drain path postfixStr there k).map fun l => c.toList ++ l

/-! ## MPAS -/

/-- `current_timestep` and `ntimesteps` of `mpas_stream`. -/
structure MS where
  /-- `current_timestep` -/
  cur : Nat
  /-- `ntimesteps` -/
  nt : Nat
  deriving DecidableEq, Repr

/-- `initialize` of `mpas_stream` (`ms:61-63`): the number of steps of the file replaces what `set_ntimesteps` has set. -/
def MS.setup (stepsInFile : Nat) (m : MS) : MS := { cur := m.cur, nt := stepsInFile }

/-- `advance_timestep` of `mpas_stream` (`ms:75-167`): the step read and delivered, `none` inside = nothing; reading a step
that the file does not have fails (`none`). -/
def MS.advance (stepsInFile : Nat) (m : MS) : Option (MS × Option Nat) :=
  if m.cur ≥ m.nt then some (m, none)
  else if m.cur < stepsInFile then some ({ cur := m.cur + 1, nt := m.nt }, some m.cur)
  else none

/-- `while (advance_timestep());` -/
def MS.drain (stepsInFile : Nat) : Nat → MS → Option (List Nat)
  | 0, _ => some []
  | k + 1, m => match m.advance stepsInFile with
    | none => none
    | some (_, none) => some []
    | some (m', some t) => (m'.drain stepsInFile k).map fun l => t :: l

end Verif.XStr
