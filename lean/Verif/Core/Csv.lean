import Verif.Core.Loop
import Mathlib.Data.Rat.Floor
import Mathlib.Algebra.Order.Round

/-!
# Reading and writing of CSV text (`core/matrix/helper.py`, 96-178)

Text is a list of characters.  The number codec (`real(text)`, `str(value)`, NumPy's formatters) is a
parameter of `read` and `toLines`; `fmtFixed`/`parseDec` below are a concrete codec over exact
rationals for `real_to_string_fixed` (`core/utils.py` 255-281).  Messages printed to standard error
are not modelled.
-/

namespace Verif.Csv
open Verif Mat

variable {α : Type}

/-- A Python string. -/
abbrev Str := List Char

/-! ## Python text primitives -/

/-- `sep.join(parts)` (Python built-in). -/
def join (sep : Str) : List Str → Str
  | [] => []
  | [x] => x
  | x :: y :: ys => x ++ sep ++ join sep (y :: ys)

/-- The scan of `text.split(sep)` for a non-empty separator: leftmost, non-overlapping matches.
`skip` counts the characters of the current match still to be passed over. -/
def splitGo (sep : Str) : Nat → Str → Str → List Str
  | _, acc, [] => [acc.reverse]
  | skip + 1, acc, _ :: cs => splitGo sep skip acc cs
  | 0, acc, c :: cs =>
    if sep.isPrefixOf (c :: cs) then acc.reverse :: splitGo sep (sep.length - 1) [] cs
    else splitGo sep 0 (c :: acc) cs

/-- `text.split(sep)` (Python built-in); an empty separator raises `ValueError`. -/
def split (sep text : Str) : Except PyErr (List Str) :=
  if sep = [] then .error .valueError else .ok (splitGo sep 0 [] text)

/-- `[line for line in file]`: the lines with their line feeds (Python built-in). -/
def fileLinesGo : Str → Str → List Str
  | [], [] => []
  | a :: acc, [] => [(a :: acc).reverse]
  | acc, c :: cs => if c = '\n' then (c :: acc).reverse :: fileLinesGo [] cs else fileLinesGo (c :: acc) cs

def fileLines (text : Str) : List Str := fileLinesGo [] text

/-- Universal newlines of `open(filename, 'r')`: CR LF and CR are read as LF (Python built-in). -/
def universalNewlines : Str → Str
  | [] => []
  | ['\r'] => ['\n']
  | '\r' :: '\n' :: cs => '\n' :: universalNewlines cs
  | '\r' :: c :: cs => '\n' :: universalNewlines (c :: cs)
  | c :: cs => c :: universalNewlines cs

/-! ## Reading -/

/-- One pass of the inner loop of `read`, `helper.py` 123-130: an exception of `real` leaves the cell
as it is. -/
def readCell (real : Str → Option α) (cells : List Str) (i j : Int) (r : Mat α) : Except PyErr (Mat α) := do
  let k ← pyIndex cells.length j
  match real (cells.get k) with
  | some v => r.set i j v
  | none => .ok r

/-- One pass of the outer loop of `read`, `helper.py` 120-130. -/
def readRow (real : Str → Option α) (sep : Str) (lines : List Str) (i : Int) (r : Mat α) :
    Except PyErr (Mat α) := do
  let k ← pyIndex lines.length i
  let cells ← split sep (lines.get k)
  loopM (readCell real cells i) (pyRange 0 (min (cells.length : Int) r.cols)) r

/-- `read`, `helper.py` 105-132, after the lines have been collected.  `isName` says that the file was
given by name; for a file object the error message itself fails with a `TypeError`
(`str + file`, lines 112, 117). -/
def readLines [Zero α] (real : Str → Option α) (isName header : Bool) (sep : Str) (lines : List Str) :
    Except PyErr (Mat α) :=
  let noRows : PyErr := if isName then .runtimeError else .typeError
  if lines.length = 0 then .error noRows else
  let lines := if header then lines.drop 1 else lines
  match lines with
  | [] => .error noRows
  | first :: rest => do
    let cells ← split sep first
    let r ← Factory.zeros (α := α) ((first :: rest).length : Int) (cells.length : Int)
    loopM (readRow real sep (first :: rest)) (pyRange 0 ((first :: rest).length : Int)) r

/-- `read(filename, …)` for a named file with the given content, `helper.py` 105-107. -/
def readNamed [Zero α] (real : Str → Option α) (header : Bool) (sep content : Str) : Except PyErr (Mat α) :=
  readLines real true header sep (fileLines (universalNewlines content))

/-- `read(file_object, …)` for a text stream with the given content, `helper.py` 109. -/
def readStream [Zero α] (real : Str → Option α) (header : Bool) (sep content : Str) : Except PyErr (Mat α) :=
  readLines real false header sep (fileLines content)

/-! ## Writing -/

/-- Decimal digits of a natural number (`str(j + 1)`). -/
def natStr (n : Nat) : Str := Nat.toDigits 10 n

/-- The three number formats of `data_to_string`, `helper.py` 147-156. -/
structure Formats (α : Type) where
  /-- `np.format_float_scientific(…, precision=num_dec)` -/
  scientific : Int → α → Str
  /-- `str` -/
  plain : α → Str
  /-- `real_to_string_fixed(…, after_decimal_point=num_dec)` -/
  fixed : Int → α → Str

/-- Choice of the formatter, `helper.py` 147-156. -/
def Formats.pick (F : Formats α) (scientific : Bool) (numDec : Int) : α → Str :=
  if scientific then F.scientific numDec else if numDec = -1 then F.plain else F.fixed numDec

/-- `line_gen`, `helper.py` 161-162. -/
def lineGen (fmt : α → Str) (sep : Str) (M : Mat α) (i : Int) : Except PyErr Str := do
  let cells ← (pyRange 0 M.cols).mapM fun j => do
    let v ← M.get i j
    pure (fmt v)
  pure (join sep cells)

/-- `to_lines` and `data_to_string`, `helper.py` 135-165. -/
def toLines (F : Formats α) (M : Mat α) (header : Bool) (sep : Str) (numDec : Int)
    (scientific : Bool := false) : Except PyErr (List Str) := do
  let head := if header then [join sep ((List.range M.cols).map fun j => "col".toList ++ natStr (j + 1))] else []
  let body ← (pyRange 0 M.rows).mapM fun i => lineGen (F.pick scientific numDec) sep M i
  pure (head ++ body)

/-- `write`, `helper.py` 168-173: the text written (line separator LF). -/
def write (F : Formats α) (M : Mat α) (header : Bool) (sep : Str) (numDec : Int)
    (scientific : Bool := false) : Except PyErr Str := do
  let lines ← toLines F M header sep numDec scientific
  pure (lines.map fun line => line ++ ['\n']).flatten

/-- `to_string`, `helper.py` 176-177. -/
def toString (F : Formats α) (M : Mat α) (header : Bool := true) (sep : Str := ['\t']) (numDec : Int := 6) :
    Except PyErr Str := do
  let lines ← toLines F M header sep numDec
  pure (join ['\n'] lines)

/-! ## A number codec: fixed decimals over exact rationals -/

/-- The `d` low decimal digits of `n`, highest first. -/
def lowDigits : Nat → Nat → Str
  | 0, _ => []
  | d + 1, n => lowDigits d (n / 10) ++ [Nat.digitChar (n % 10)]

/-- Rounding to an integer, ties to the even neighbour, of a non-negative number. -/
def roundEven (x : ℚ) : Nat :=
  let f := ⌊x⌋.toNat
  let r := x - ⌊x⌋
  if r < 1 / 2 then f
  else if 1 / 2 < r then f + 1
  else if f % 2 = 0 then f else f + 1

/-- `np.format_float_positional(value, precision=d, unique=False, fractional=True, trim='k')`,
`core/utils.py` 277-281, on finite values: the exact value rounded to `d` decimals, half to even, all
`d` decimals shown and the decimal point kept. -/
def fmtFixed (d : Nat) (x : ℚ) : Str :=
  let m := roundEven (|x| * 10 ^ d)
  (if x < 0 then ['-'] else []) ++ natStr (m / 10 ^ d) ++ '.' :: lowDigits d m

/-- `real_to_string_fixed`, `core/utils.py` 255-281, on finite values. -/
def realToStringFixed (plain : ℚ → Str) (d : Int) (x : ℚ) : Str :=
  if d < 0 then plain x else fmtFixed d.toNat x

/-- The value of a decimal digit. -/
def digitVal (c : Char) : Option Nat := if c.isDigit then some (c.toNat - '0'.toNat) else none

/-- Reads digits, most significant first. -/
def digitsVal : Nat → Str → Option Nat
  | acc, [] => some acc
  | acc, c :: cs => match digitVal c with
    | some v => digitsVal (acc * 10 + v) cs
    | none => none

/-- White space stripped by `float(text)`. -/
def isWs (c : Char) : Bool := c = ' ' || c = '\t' || c = '\n' || c = '\r' || c.toNat = 11 || c.toNat = 12

/-- `text.strip()` on that white space. -/
def strip (s : Str) : Str := (s.dropWhile isWs).reverse.dropWhile isWs |>.reverse

/-- An unsigned decimal literal `digits[.digits]` (one of the two digit groups may be empty). -/
def parseUnsigned (s : Str) : Option ℚ :=
  let whole := s.takeWhile (· ≠ '.')
  let frac := (s.dropWhile (· ≠ '.')).drop 1
  if whole = [] ∧ frac = [] then none else
  match digitsVal 0 whole, digitsVal 0 frac with
  | some w, some f => some ((w : ℚ) + (f : ℚ) / 10 ^ frac.length)
  | some _, none => none
  | none, some _ => none
  | none, none => none

/-- `real(text)` on decimal literals without exponent, exact (the rounding to a double is not
modelled). -/
def parseDec (s : Str) : Option ℚ :=
  match strip s with
  | '-' :: t => (parseUnsigned t).map fun v => -v
  | '+' :: t => parseUnsigned t
  | t => parseUnsigned t

end Verif.Csv
