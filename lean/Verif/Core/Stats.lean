import Verif.Core.Mat
import Verif.Core.Ext

/-!
# Statistics of rows, columns and matrices (`core/matrix/helper.py`, `core/matrix/_Matrix.py`)
-/

namespace Verif

section helpers
variable {α : Type} [Add α] [Sub α] [Mul α] [Zero α] [Div α] [NatCast α]

/-- `helper.column_mean`, `helper.py` 198-199. -/
def helperColumnMean (M : Mat α) (index : Int) : Except PyErr α := M.columnMeans.get 0 index

/-- `helper.row_mean`, `helper.py` 188-189. -/
def helperRowMean (M : Mat α) (index : Int) : Except PyErr α := M.rowMeans.get index 0

/-- `helper.mean`, `helper.py` 43-47. -/
def helperMean (M : Mat α) (index : Int) (column : Bool := true) : Except PyErr α :=
  if column then helperColumnMean M index else helperRowMean M index

variable [HasSqrt α]

/-- `helper.column_stdev`, `helper.py` 216-217. -/
def helperColumnStdev (M : Mat α) (index : Int) : Except PyErr α := M.columnStdevs.get 0 index

/-- `helper.row_stdev`, `helper.py` 206-207. -/
def helperRowStdev (M : Mat α) (index : Int) : Except PyErr α := M.rowStdevs.get index 0

/-- `helper.stdev`, `helper.py` 50-54. -/
def helperStdev (M : Mat α) (index : Int) (column : Bool := true) : Except PyErr α :=
  if column then helperColumnStdev M index else helperRowStdev M index

end helpers

section distance
variable {α : Type}

/-- `helper.row_norms`, `helper.py` 79-81: not written. -/
def helperRowNorms (_ : Mat α) (_ : Bool) : Except PyErr (Mat α) := .error .notImplemented

/-- `helper.euclidean_distance`, `helper.py` 61-76.  Simplified: what follows the two calls of `row_norms` is the parameter `rest`. -/
def helperEuclidean (rest : Mat α → Mat α → Mat α → Mat α → Except PyErr (Mat α)) (x y : Mat α) : Except PyErr (Mat α) := do
  let xx ← helperRowNorms x true
  let yy ← helperRowNorms y true
  rest x y xx yy

end distance

section median
variable {K : Type} [Field K] [LinearOrder K]

/-- `np.isnan`. -/
def X.isNan : X K → Bool
  | .nan => true
  | _ => false

/-- `median`, `_Matrix.py` 409-410: `np.median` of all entries.  NaN if an entry is NaN or there is none; otherwise the middle one of the sorted
entries, or the mean of the middle two. -/
def Mat.medianX (M : Mat (X K)) : X K :=
  let l := M.toRawCopy1D
  if l.isEmpty || l.any X.isNan then .nan
  else
    let s := l.mergeSort fun a b => !X.ltb b a
    (s.getD ((l.length - 1) / 2) .nan + s.getD (l.length / 2) .nan) / .fin 2

end median

end Verif
