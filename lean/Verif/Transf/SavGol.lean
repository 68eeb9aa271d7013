import Verif.Core.LinAlg
import Verif.Core.Factory
import Verif.Transf.Basic

/-!
# Savitzky-Golay

Model of `/repo/src/wai/ma/transformation/_SavitzkyGolay.py` and `_SavitzkyGolay2.py`.
Integer powers are exact (`np.power` on 64-bit integers would wrap around beyond 2^63).
-/

namespace Verif.Transf
open Verif Mat

variable {α : Type}

section coef
variable [Field α] [DecidableEq α]

/-- `np.power(k, n)` added to a real. -/
def powInt (k n : Int) : α := (((k ^ n.toNat : Int)) : α)

/-- `determine_coefficients`, `_SavitzkyGolay.py` 104-131.  The last loop writes
`result[i + num_left]` for `i = -num_left, …, num_right`, that is, positions `0, 1, …` in order. -/
def determineCoefficients (left right poly der : Int) : Except PyErr (List α) :=
  if (left + right + 1).toNat = 1 then .ok [1]
  else do
    let dim := poly + 1
    let A₀ ← Factory.zeros dim dim
    let A ← fillLoop (fun i j => .ok ((pyRange (-left) (right + 1)).map fun k => powInt k (i + j)).sum)
      (pairs (pyRange 0 dim) (pyRange 0 dim)) A₀
    let b₀ ← Factory.zeros dim 1
    let b ← b₀.set der 0 1
    let solution ← solve A b
    (pyRange (-left) (right + 1)).mapM fun i => do
      let terms ← (pyRange 0 dim).mapM fun j => do
        let s ← solution.get j 0
        pure (s * powInt i j)
      pure terms.sum

/-- The coefficient matrix: `factory.create([determine_coefficients(...)])`, `_SavitzkyGolay.py` 73-77. -/
def sgCoefficients (left right poly der : Int) : Except PyErr (Mat α) := do
  let c ← determineCoefficients left right poly der
  Factory.create [c]

end coef

/-- `do_transform`, `_SavitzkyGolay.py` 80-91. -/
def sgApply [Add α] [Mul α] [Zero α] (coefficients data : Mat α) : Except PyErr (Mat α) := do
  let width : Int := coefficients.cols
  let numOut : Int := (data.cols : Int) - width + 1
  let cols ← (pyRange 0 numOut).mapM fun i => do
    let column ← data.getSubMatrix (.tuple 0 data.rows) (.tuple i (i + width))
    let column ← column.mulByVector coefficients
    pure column.rowSums
  multiConcat 1 cols

/-- Attributes of `SavitzkyGolay` (`_SavitzkyGolay.py` 26-33). -/
structure SGState (α : Type) where
  configured : Bool
  poly : Int
  der : Int
  left : Int
  right : Int
  coef : Option (Mat α)

/-- Assignments to the validated attributes. -/
inductive SGParam where
  | poly (v : Int)
  | der (v : Int)
  | left (v : Int)
  | right (v : Int)

/-- `__setattr__`, `_SavitzkyGolay.py` 35-65: validate, `reset`, store. -/
def sgSet : SGParam → SGState α → SGState α × Except PyErr Unit
  | .poly v, s =>
    if v < 2 then (s, .error .valueError)
    else ({ s with configured := false, coef := none, poly := v }, .ok ())
  | .der v, s =>
    if v < 0 then (s, .error .valueError)
    else ({ s with configured := false, coef := none, der := v }, .ok ())
  | .left v, s =>
    if v < 0 then (s, .error .valueError)
    else ({ s with configured := false, coef := none, left := v }, .ok ())
  | .right v, s =>
    if v < 0 then (s, .error .valueError)
    else ({ s with configured := false, coef := none, right := v }, .ok ())

/-- `SavitzkyGolay`, `_SavitzkyGolay.py` 26-94. -/
def savGol [Field α] [DecidableEq α] : Trans α (SGState α) SGParam where
  init := ⟨false, 2, 1, 3, 3, none⟩
  reset s := { s with configured := false, coef := none }
  configured s := s.configured
  setConfigured s := { s with configured := true }
  configure _ s :=
    match s.coef with
    | some _ => ({ s with configured := true }, .ok ())
    | none =>
      match sgCoefficients s.left s.right s.poly s.der with
      | .error e => (s, .error e)
      | .ok c => ({ s with configured := true, coef := some c }, .ok ())
  doTransform s data :=
    match s.coef with
    | none => .error .attributeError
    | some c => sgApply c data
  doInverse _ _ := .error .notImplemented
  setParam := sgSet

/-- Attributes of `SavitzkyGolay2` (`_SavitzkyGolay2.py` 20-33).  `storedLeft`, `storedRight` are the
instance attributes `num_points_left/right`, which `__getattribute__` hides behind `num_points`. -/
structure SG2State (α : Type) where
  configured : Bool
  poly : Int
  der : Int
  points : Int
  storedLeft : Option Int
  storedRight : Option Int
  coef : Option (Mat α)

/-- Assignments to the attributes of `SavitzkyGolay2`. -/
inductive SG2Param where
  | poly (v : Int)
  | der (v : Int)
  | points (v : Int)
  | left (v : Int)
  | right (v : Int)

/-- Assignment, `_SavitzkyGolay.py` 35-65 and `_SavitzkyGolay2.py` 36-39. -/
def sg2Set : SG2Param → SG2State α → SG2State α × Except PyErr Unit
  | .poly v, s =>
    if v < 2 then (s, .error .valueError)
    else ({ s with configured := false, coef := none, poly := v }, .ok ())
  | .der v, s =>
    if v < 0 then (s, .error .valueError)
    else ({ s with configured := false, coef := none, der := v }, .ok ())
  | .points v, s =>
    if v < 0 then (s, .error .valueError)
    else ({ s with configured := false, coef := none, points := v }, .ok ())
  | .left v, s =>
    if v < 0 then (s, .error .valueError)
    else ({ s with configured := false, coef := none, storedLeft := some v }, .ok ())
  | .right v, s =>
    if v < 0 then (s, .error .valueError)
    else ({ s with configured := false, coef := none, storedRight := some v }, .ok ())

/-- `SavitzkyGolay2`: reading `num_points_left` or `num_points_right` gives `num_points`. -/
def savGol2 [Field α] [DecidableEq α] : Trans α (SG2State α) SG2Param where
  init := ⟨false, 2, 1, 3, none, none, none⟩
  reset s := { s with configured := false, coef := none }
  configured s := s.configured
  setConfigured s := { s with configured := true }
  configure _ s :=
    match s.coef with
    | some _ => ({ s with configured := true }, .ok ())
    | none =>
      match sgCoefficients s.points s.points s.poly s.der with
      | .error e => (s, .error e)
      | .ok c => ({ s with configured := true, coef := some c }, .ok ())
  doTransform s data :=
    match s.coef with
    | none => .error .attributeError
    | some c => sgApply c data
  doInverse _ _ := .error .notImplemented
  setParam := sg2Set

end Verif.Transf
