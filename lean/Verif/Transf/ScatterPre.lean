import Verif.Transf.Scatter

/-!
# Multiplicative scatter correction with a prefilter object

`RangeBased.correct` calls `self.prefilter.transform(data)` (`_MultiplicativeScatterCorrection.py` 72-78).  The
prefilter is a transformation object with its own attributes, so a correction can change it.  Here the
prefilter's state is part of the state of the corrector (`Verif.Transf.Scatter` has the prefilter as a
function).
-/

namespace Verif.Transf
open Verif Mat

variable {α τ P : Type} [Add α] [Sub α] [Mul α] [Div α] [Zero α] [NatCast α]

/-- Attributes of `MultiplicativeScatterCorrection` and of its correction object's prefilter
(`_MultiplicativeScatterCorrection.py` 26-31, 57-59). -/
structure MSCPState (α τ : Type) where
  configured : Bool
  average : Option (Mat α)
  pre : τ

/-- The loop over the ranges, `_MultiplicativeScatterCorrection.py` 80-96; without a reference the first use of
`average` is an `AttributeError`. -/
def mscRanges (le : α → α → Bool) (ranges : List (α × α)) (average : Option (Mat α)) (filtered res : Mat α) :
    Except PyErr (Mat α) :=
  match average with
  | some a => ranges.foldlM (mscRange le a filtered) res
  | none => if ranges.isEmpty then .ok res else .error .attributeError

/-- `RangeBased.correct` with the prefilter object `T`, `_MultiplicativeScatterCorrection.py` 72-96. -/
def mscCorrectP (le : α → α → Bool) (T : Trans α τ P) (ranges : List (α × α)) (data : Mat α)
    (s : MSCPState α τ) : MSCPState α τ × Except PyErr (Mat α) :=
  match transform T data s.pre with
  | (t, .error e) => ({ s with pre := t }, .error e)
  | (t, .ok filtered) => ({ s with pre := t }, mscRanges le ranges s.average filtered data.copy)

/-- `transform` of the scatter correction, `_AbstractTransformation.py` 38-41 with `configure` and `do_transform`
of `_MultiplicativeScatterCorrection.py` 43-51. -/
def mscPTransform (le : α → α → Bool) (T : Trans α τ P) (ranges : List (α × α)) (data : Mat α)
    (s : MSCPState α τ) : MSCPState α τ × Except PyErr (Mat α) :=
  if s.configured then mscCorrectP le T ranges data s
  else
    match mscAverage data with
    | .error e => (s, .error e)
    | .ok a => mscCorrectP le T ranges data { s with configured := true, average := some a }

/-- `reset`, inherited from `_AbstractTransformation.py` 29-30: neither the reference nor the prefilter is
reset. -/
def mscPReset (s : MSCPState α τ) : MSCPState α τ := { s with configured := false }

/-- A calling program that transforms several matrices with one object; the results in order. -/
def mscPRun (le : α → α → Bool) (T : Trans α τ P) (ranges : List (α × α)) :
    List (Mat α) → MSCPState α τ → List (Except PyErr (Mat α))
  | [], _ => []
  | d :: ds, s =>
    (mscPTransform le T ranges d s).2 :: mscPRun le T ranges ds (mscPTransform le T ranges d s).1

end Verif.Transf
