import Verif.Core.Mat

/-!
# Serialisation (`core/_Serialisable.py`) and its environment

Byte strings are `List UInt8`.  An object's `serialise_state(stream)` is modelled by the sequence
of bytes it writes together with the exception that stopped it, if any (`Written`).
`BytesIO`, files and directories are modelled as far as the code uses them.
`LITTLE_ENDIAN` is the constant `True` (`_Serialisable.py` 24).
-/

namespace Verif.Serial
open Verif

abbrev Bytes := List UInt8

/-- The `k` low-order bytes of a natural number, least significant first. -/
def leBytes : Nat → Nat → Bytes
  | 0, _ => []
  | k + 1, n => UInt8.ofNat (n % 256) :: leBytes k (n / 256)

/-- `int.to_bytes(k, "little", signed=True)` (built-in used at `_Serialisable.py` 72, 100):
two's complement, `OverflowError` when the value does not fit. -/
def toBytes (k : Nat) (v : Int) : Except PyErr Bytes :=
  if -(2 ^ (8 * k) : Nat) ≤ 2 * v ∧ 2 * v < (2 ^ (8 * k) : Nat) then
    .ok (leBytes k (v % (2 ^ (8 * k) : Nat)).toNat)
  else .error .overflowError

/-- The values handed to `serialise_to_bytes`.  A Python `bool` is an `int`; a `float` is its 64-bit
pattern; a `str` is its list of code points (surrogates included); everything else is `other`. -/
inductive PyVal where
  | int (v : Int)
  | bool (b : Bool)
  | float (bits : UInt64)
  | str (s : List Nat)
  | other
  deriving DecidableEq

/-- UTF-8 encoding of one code point; surrogates raise `UnicodeEncodeError`, a `ValueError`
(`str.encode` as used at `_Serialisable.py` 78). -/
def utf8Char (c : Nat) : Except PyErr Bytes :=
  if c < 0x80 then .ok [UInt8.ofNat c]
  else if c < 0x800 then .ok [UInt8.ofNat (0xC0 + c / 64), UInt8.ofNat (0x80 + c % 64)]
  else if 0xD800 ≤ c ∧ c < 0xE000 then .error .valueError
  else if c < 0x10000 then
    .ok [UInt8.ofNat (0xE0 + c / 4096), UInt8.ofNat (0x80 + c / 64 % 64), UInt8.ofNat (0x80 + c % 64)]
  else if c < 0x110000 then
    .ok [UInt8.ofNat (0xF0 + c / 262144), UInt8.ofNat (0x80 + c / 4096 % 64),
      UInt8.ofNat (0x80 + c / 64 % 64), UInt8.ofNat (0x80 + c % 64)]
  else .error .valueError

/-- UTF-8 encoding of a string. -/
def utf8 : List Nat → Except PyErr Bytes
  | [] => .ok []
  | c :: cs => do
    let b ← utf8Char c
    let bs ← utf8 cs
    return b ++ bs

/-- `struct.pack("<d", value)` (`_Serialisable.py` 75). -/
def packDouble (bits : UInt64) : Bytes := leBytes 8 bits.toNat

/-- `Serialisable.serialise_to_bytes` (`_Serialisable.py` 64-82). -/
def serialiseToBytes : PyVal → Except PyErr Bytes
  | .int v => toBytes 4 v
  | .bool b => toBytes 4 (if b then 1 else 0)
  | .float bits => .ok (packDouble bits)
  | .str s => do
    let b ← utf8 s
    let len ← toBytes 4 (b.length : Int)
    return len ++ b
  | .other => .error .typeError

/-- `int.bit_length()` (built-in used at `_Serialisable.py` 94). -/
def bitLength (v : Int) : Nat := if v.natAbs = 0 then 0 else v.natAbs.log2 + 1

/-- `Serialisable.serialise_big_int` (`_Serialisable.py` 84-105). -/
def serialiseBigInt (v : Int) : Except PyErr Bytes := do
  let bl := bitLength v
  let k := bl / 8 + if bl % 8 ≠ 0 then 1 else 0
  let b ← toBytes k v
  let p ← toBytes 4 (k : Int)
  return p ++ b

/-- What a call of `serialise_state` does to the stream it is given: the bytes written, and the
exception that ended it early, if any. -/
structure Written where
  out : Bytes
  err : Option PyErr
  deriving DecidableEq

/-- `stream.write(serialise_to_bytes(v))` for each value in turn. -/
def writeAll : List PyVal → Written
  | [] => ⟨[], none⟩
  | v :: vs =>
    match serialiseToBytes v with
    | .error e => ⟨[], some e⟩
    | .ok b => ⟨b ++ (writeAll vs).out, (writeAll vs).err⟩

/-- One `serialise_state` after another on the same stream. -/
def Written.andThen (a b : Written) : Written :=
  match a.err with
  | some e => ⟨a.out, some e⟩
  | none => ⟨a.out ++ b.out, b.err⟩

/-- `Matrix.serialise_state` (`_Matrix.py` 619-627) on a float64 matrix. -/
def matrixState (M : Mat UInt64) : Written :=
  writeAll (.int M.rows :: .int M.cols ::
    (List.ofFn fun i => List.ofFn fun j => PyVal.float (M.data i j)).flatten)

/-- `Log.serialise_state` (`_Log.py` 87-91): base, conversion factor, offset. -/
def logState (base factor offset : PyVal) : Written := writeAll [base, factor, offset]

/-- `Standardize.serialise_state` (`_Standardize.py` 63-70). -/
def standardizeState (configured : Bool) (means stds : Mat UInt64) : Written :=
  if configured then (matrixState means).andThen (matrixState stds) else ⟨[], some .runtimeError⟩

/-- `SavitzkyGolay.serialise_state` (`_SavitzkyGolay.py` 95-101) and `SIMPLS.serialise_state`
(`_SIMPLS.py` 198-204): one matrix, available once configured. -/
def singleMatrixState (configured : Bool) (W : Mat UInt64) : Written :=
  if configured then matrixState W else ⟨[], some .runtimeError⟩

/-! ## `BytesIO` -/

/-- An `io.BytesIO` object: buffer and position. -/
structure BytesIO where
  buf : Bytes
  pos : Nat

/-- `BytesIO()`. -/
def BytesIO.new : BytesIO := ⟨[], 0⟩

/-- `write`: overwrites from the current position (padding with zeros when that lies beyond the
end) and moves the position behind the written bytes. -/
def BytesIO.write (s : BytesIO) (b : Bytes) : BytesIO :=
  ⟨(s.buf ++ List.replicate (s.pos - s.buf.length) 0).take s.pos ++ b ++ s.buf.drop (s.pos + b.length),
    s.pos + b.length⟩

/-- `read()`: everything from the position to the end. -/
def BytesIO.read (s : BytesIO) : Bytes := s.buf.drop s.pos

/-- `Serialisable.get_serialised_state` (`_Serialisable.py` 54-62).  There is no `seek` between
writing and reading. -/
def getSerialisedState (w : Written) : Except PyErr Bytes :=
  let stream := BytesIO.new.write w.out
  match w.err with
  | some e => .error e
  | none => .ok stream.read

/-! ## Files -/

abbrev Name := List Char
abbrev Path := List Name

/-- A file system: which paths are directories, the contents of the files, and the working
directory.  Permissions, links and `.`/`..` are not modelled. -/
structure FS where
  isDir : Path → Bool
  file : Path → Option Bytes
  cwd : Path

/-- The segments between slashes. -/
def segs : List Char → List Name
  | [] => [[]]
  | c :: t => if c = '/' then [] :: segs t else
    match segs t with
    | [] => [[c]]
    | h :: r => (c :: h) :: r

/-- The non-empty components of a path string. -/
def comps (s : List Char) : Path := (segs s).filter (· ≠ [])

/-- The directory from which a path string is resolved: the root or the working directory. -/
def anchor (fs : FS) (s : List Char) : Path := if s.head? = some '/' then [] else fs.cwd

/-- The path a path string refers to. -/
def resolve (fs : FS) (s : List Char) : Path := anchor fs s ++ comps s

/-- `os.path.dirname` (posixpath): the part before the last slash, without trailing slashes unless
it consists of slashes. -/
def dirname (s : List Char) : List Char :=
  let head := (s.reverse.dropWhile (· ≠ '/')).reverse
  if head.all (· == '/') then head else (head.reverse.dropWhile (· = '/')).reverse

/-- `os.path.exists`; false for the empty string. -/
def pathExists (fs : FS) (s : List Char) : Bool :=
  s ≠ [] && (fs.isDir (resolve fs s) || (fs.file (resolve fs s)).isSome)

/-- Creating the directories `p/c₁`, `p/c₁/c₂`, …; a file in the way raises an `OSError`. -/
def makeDirs (fs : FS) (p : Path) : List Name → FS × Option PyErr
  | [] => (fs, none)
  | c :: cs =>
    if (fs.file (p ++ [c])).isSome then (fs, some .osError)
    else makeDirs { fs with isDir := fun q => decide (q = p ++ [c]) || fs.isDir q } (p ++ [c]) cs

/-- `os.makedirs(path, exist_ok=True)`; `mkdir('')` raises `FileNotFoundError`. -/
def makedirs (fs : FS) (s : List Char) : FS × Option PyErr :=
  if s = [] then (fs, some .fileNotFound) else makeDirs fs (anchor fs s) (comps s)

/-- `open(filename, 'wb')` followed by the writes of the body, the file being closed in any case:
the file is truncated, then holds exactly the bytes written. -/
def openWrite (fs : FS) (s : List Char) (w : Written) : FS × Option PyErr :=
  if s = [] then (fs, some .fileNotFound)
  else if s.getLast? = some '/' || fs.isDir (resolve fs s) then (fs, some .osError)
  else if fs.isDir (resolve fs s).dropLast then
    ({ fs with file := fun q => if q = resolve fs s then some w.out else fs.file q }, w.err)
  else (fs, some .fileNotFound)

/-- `Serialisable.save_state` (`_Serialisable.py` 39-52). -/
def saveState (fs : FS) (filename : List Char) (w : Written) : FS × Option PyErr :=
  let path := dirname filename
  if pathExists fs path then openWrite fs filename w
  else
    match makedirs fs path with
    | (fs', some e) => (fs', some e)
    | (fs', none) => openWrite fs' filename w

end Verif.Serial
