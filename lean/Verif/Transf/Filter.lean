import Verif.Transf.Kernel
import Verif.Core.Range

/-!
# Filters: Downsample, Equidistance, MultiFilter

`src/wai/ma/filter/_Downsample.py`, `src/wai/ma/filter/_Equidistance.py` and
`src/wai/ma/core/_MultiFilter.py`.
-/

namespace Verif

open Mat

variable {α : Type}

/-- `Downsample.transform`, `_Downsample.py` 13-16. -/
def downsample (start step : Int) (M : Mat α) : Except PyErr (Mat α) := do
  let cols ← pyRangeStep start M.cols step
  M.getColumns (.list cols)

/-- `Equidistance.__setattr__` for `num_samples`, `_Equidistance.py` 28-33: the stored value, unless
the new one is below 2. -/
def setNumSamples (_old value : Int) : Except PyErr Int :=
  if value < 2 then .error .valueError else .ok value

/-- One resampled column, `_Equidistance.py` 47-67.  `k` is `num_samples`, which is at least 2, so that
Python's `//` and `%` by `k - 1` are Lean's `/` and `%`. -/
def equiColumn [Field α] (k : Int) (M : Mat α) (idx : Int) : Except PyErr (Mat α) :=
  let x := ((M.cols : Int) - 1) * idx
  let old := x / (k - 1)
  if x % (k - 1) = 0 then M.getColumn old
  else do
    let left ← M.getColumn old
    let right ← M.getColumn (old + 1)
    let t : α := ((x % (k - 1) : Int) : α) / ((k - 1 : Int) : α)
    (left.smul (1 - t)).add (right.smul t)

/-- The loop over the samples, `_Equidistance.py` 45-67. -/
def equiLoop [Field α] (k : Int) (M : Mat α) : List Int → Mat α → Except PyErr (Mat α)
  | [], R => .ok R
  | idx :: r, R => do
    let c ← equiColumn k M idx
    let R ← R.setColumn idx c
    equiLoop k M r R

/-- `Equidistance.transform`, `_Equidistance.py` 35-69. -/
def equidistance [Field α] (k : Int) (M : Mat α) : Except PyErr (Mat α) := do
  let Z ← Factory.zeros (M.rows : Int) k
  equiLoop k M (pyRange 0 k) Z

/-- `MultiFilter.transform`, `_MultiFilter.py` 31-39.  A filter is modelled by its `transform`. -/
def multiFilter : List (Mat α → Except PyErr (Mat α)) → Mat α → Except PyErr (Mat α)
  | [], M => .ok M
  | f :: fs, M => do
    let R ← f M
    multiFilter fs R

end Verif
