import Verif.Core.Csv
import Verif.Core.Ext

/-!
# Text of NaN and the infinities (`core/utils.py` 27-29 and 255-281)

`Csv.realToStringFixed` covers finite values.  Here the values are `X ℚ`: exact numbers, the infinities and NaN.
-/

namespace Verif.Csv
open Verif Mat

/-- `NAN`, `NEGATIVE_INFINITY` and `POSITIVE_INFINITY`, `core/utils.py` 27-29. -/
def NAN : Str := "NaN".toList
def NEGATIVE_INFINITY : Str := "-Infinity".toList
def POSITIVE_INFINITY : Str := "+Infinity".toList

/-- The text Python and NumPy use for the values that are not finite: `str` and `np.format_float_positional` (built-ins). -/
def npSpecial (finite : ℚ → Str) : X ℚ → Str
  | .fin x => finite x
  | .pinf => "inf".toList
  | .ninf => "-inf".toList
  | .nan => "nan".toList

/-- ASCII lower case of a letter (Python built-in `float` ignores the case of its words). -/
def lowerC (c : Char) : Char := if 'A' ≤ c ∧ c ≤ 'Z' then Char.ofNat (c.toNat + 32) else c

/-- The words of `real(text)` after the sign (Python built-in `float`). -/
def parseWord (s : Str) : Option (X ℚ) :=
  let t := s.map lowerC
  if t = "inf".toList ∨ t = "infinity".toList then some .pinf
  else if t = "nan".toList then some .nan
  else none

/-- `real(text)`: decimal literals without exponent, `inf`, `infinity` and `nan` with an optional sign. -/
def parseX (s : Str) : Option (X ℚ) :=
  let t := strip s
  let word := match t with
    | '-' :: u => (parseWord u).map X.neg
    | '+' :: u => parseWord u
    | u => parseWord u
  match word with
  | some v => some v
  | none => (parseDec s).map X.fin

/-- `real_to_string_fixed`, `core/utils.py` 255-281.  `real(NAN)` and so on read the constants back with `parseX`; the
comparisons are IEEE comparisons. -/
def realToStringFixedX (plain : ℚ → Str) (d : Int) (v : X ℚ) : Str :=
  if X.eqb v ((parseX NAN).getD 0) then NAN
  else if X.eqb v ((parseX NEGATIVE_INFINITY).getD 0) then NEGATIVE_INFINITY
  else if X.eqb v ((parseX POSITIVE_INFINITY).getD 0) then POSITIVE_INFINITY
  else if d < 0 then npSpecial plain v
  else npSpecial (fmtFixed d.toNat) v

/-- The formats of `data_to_string`, `helper.py` 147-156, on these values. -/
def xFormats (plain : ℚ → Str) (scientific : Int → ℚ → Str) : Formats (X ℚ) :=
  ⟨fun d => npSpecial (scientific d), npSpecial plain, realToStringFixedX plain⟩

end Verif.Csv
