import Mathlib.Analysis.SpecialFunctions.Trigonometric.Basic

/-!
# Model of the colour tables

`include/ftk/utils/zcolor.h` (`ZRGB::validColor`, `ZColor::HSI2RGB`) and `include/ftk/utils/random_color.hh`, over exact
real arithmetic; the constant `PI` stands for π.  NaN is `none`.
-/

namespace Verif.Color

open Real

/-- a colour: red, green, blue -/
abbrev RGB := ℝ × ℝ × ℝ

/-- one component of `ZRGB::validColor`: `zcolor.h:113-121` -/
noncomputable def clamp1 (x : ℝ) : ℝ := if x > 1 then 1 else if x < 0 then 0 else x

/-- `ZRGB::validColor`: `zcolor.h:113-121` -/
noncomputable def validColor (c : RGB) : RGB := (clamp1 c.1, clamp1 c.2.1, clamp1 c.2.2)

/-- `ZColor::HSI2RGB` before the final `validColor`: `zcolor.h:379-403` -/
noncomputable def hsiRaw (hue s i : ℝ) : RGB :=
  let h := hue * 2 * π
  if h ≥ 0 ∧ h < 2 * π / 3 then
    (i * (1 + s * cos h / cos (π / 3 - h)),
     3 * i - (i * (1 + s * cos h / cos (π / 3 - h)) + i * (1 - s)),
     i * (1 - s))
  else if h ≥ 2 * π / 3 ∧ h < 4 * π / 3 then
    (i * (1 - s),
     i * (1 + s * cos (h - 2 * π / 3) / cos (π - h)),
     3 * i - (i * (1 - s) + i * (1 + s * cos (h - 2 * π / 3) / cos (π - h))))
  else
    (3 * i - (i * (1 - s) + i * (1 + s * cos (h - 4 * π / 3) / cos (5 * π / 3 - h))),
     i * (1 - s),
     i * (1 + s * cos (h - 4 * π / 3) / cos (5 * π / 3 - h)))

/-- `ZColor::HSI2RGB`: `zcolor.h:373-405` -/
noncomputable def hsi2rgb (hue s i : ℝ) : RGB := validColor (hsiRaw hue s i)

/-- `hues[i] = (double)i/(count-1)`: `random_color.hh:24, 71`; `0.0/0` is NaN -/
noncomputable def hue (count i : ℕ) : Option ℝ :=
  if count = 1 then none else some ((i : ℝ) / ((count : ℝ) - 1))

/-- conversion of `component * 255` to `unsigned char`: `random_color.hh:53-55`; outside 0..255 it is undefined -/
noncomputable def byte (x : ℝ) : Option ℕ := if 0 ≤ x * 255 ∧ x * 255 < 256 then some ⌊x * 255⌋₊ else none

/-- the three bytes of one colour (`random_color.hh:73-84`), given the hue; a NaN hue leaves a NaN component, whose
conversion is undefined -/
noncomputable def bytes (h : Option ℝ) : Option (ℕ × ℕ × ℕ) :=
  match h with
  | none => none
  | some h =>
    let c := hsi2rgb h 0.7 0.5
    match byte c.1, byte c.2.1, byte c.2.2 with
    | some r, some g, some b => some (r, g, b)
    | _, _, _ => none

/-- the loop over the hues that converts and appends, `random_color.hh:73-84`; an undefined conversion aborts the model -/
noncomputable def colorLoop (hues : List (Option ℝ)) : Option (List (ℕ × ℕ × ℕ)) := hues.mapM bytes

/-- the colours appended by `generate_colors(count, colors)`: `random_color.hh:64-86` -/
noncomputable def generateColors (count : ℕ) : Option (List (ℕ × ℕ × ℕ)) := colorLoop ((List.range count).map (hue count))

/-- the colours appended by `generate_random_colors`: `random_color.hh:17-62`; `shuffle` is the effect of the calls of
`std::random_shuffle` on the hues (the intensities are computed and not used). -/
noncomputable def generateRandomColors (count : ℕ) (shuffle : List (Option ℝ) → List (Option ℝ)) : Option (List (ℕ × ℕ × ℕ)) :=
  colorLoop (shuffle ((List.range count).map (hue count)))

end Verif.Color
