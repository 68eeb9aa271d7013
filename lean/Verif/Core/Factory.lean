import Verif.Core.Mat

/-!
# Matrix factory functions

Model of `/repo/src/wai/ma/core/matrix/factory.py`.  A Python list of lists is a `List (List α)`;
`np.array(data, real)` of a ragged list raises `ValueError`, of an empty list is 1-dimensional
with zero elements and is wrapped by the `Matrix` constructor (`_Matrix.py` 28-34) to 1×0.
-/

namespace Verif
namespace Factory

variable {α : Type}

/-- `create`, `factory.py` 32-39, on a list of lists. -/
def create (data : List (List α)) : Except PyErr (Mat α) :=
  match data with
  | [] => .ok ⟨1, 0, Matrix.of fun _ j => j.elim0⟩
  | r :: rs =>
    if h : ∀ x ∈ r :: rs, x.length = r.length then
      .ok ⟨(r :: rs).length, r.length, Matrix.of fun i j =>
        ((r :: rs).get i).get ⟨j, by rw [h _ (List.get_mem _ _)]; exact j.2⟩⟩
    else .error .valueError

/-- The default column count: `-1` means "as many as rows" (`factory.py` 52-53, 79-80). -/
def defaultColumns (rows columns : Int) : Int := if columns = -1 then rows else columns

/-- `eye`, `factory.py` 42-54.  `np.eye` rejects a negative dimension with `ValueError`. -/
def eye [Zero α] [One α] (rows : Int) (columns : Int := -1) : Except PyErr (Mat α) :=
  let columns := defaultColumns rows columns
  if rows < 0 ∨ columns < 0 then .error .valueError
  else .ok ⟨rows.toNat, columns.toNat, Matrix.of fun i j => if i.val = j.val then 1 else 0⟩

/-- `eye_like`, `factory.py` 57-64. -/
def eyeLike [Zero α] [One α] (M : Mat α) : Except PyErr (Mat α) := eye M.rows M.cols

/-- `zeros`, `factory.py` 70-82: list comprehensions (`range` of a negative number is empty). -/
def zeros [Zero α] (rows : Int) (columns : Int := -1) : Except PyErr (Mat α) :=
  let columns := defaultColumns rows columns
  create ((pyRange 0 rows).map fun _ => (pyRange 0 columns).map fun _ => 0)

/-- `zeros_like`, `factory.py` 85-93. -/
def zerosLike [Zero α] (M : Mat α) : Except PyErr (Mat α) := zeros M.rows M.cols

/-- `filled`, `factory.py` 96-105: `np.full`, negative dimensions raise `ValueError`. -/
def filled (rows columns : Int) (v : α) : Except PyErr (Mat α) :=
  if rows < 0 ∨ columns < 0 then .error .valueError
  else .ok ⟨rows.toNat, columns.toNat, Matrix.of fun _ _ => v⟩

/-- `filled_like`, `factory.py` 108-117. -/
def filledLike (M : Mat α) (v : α) : Except PyErr (Mat α) := filled M.rows M.cols v

/-- `from_row`, `factory.py` 120-127. -/
def fromRow (l : List α) : Except PyErr (Mat α) := create [l]

/-- `from_column`, `factory.py` 130-137. -/
def fromColumn (l : List α) : Except PyErr (Mat α) := create (l.map fun v => [v])

/-- The loop of `diag`, `factory.py` 203-206. -/
def diagLoop (v : Mat α) : List Int → Mat α → Except PyErr (Mat α)
  | [], r => .ok r
  | i :: is, r => do
    let x ← v.get i 0
    let r ← r.set i i x
    diagLoop v is r

/-- `diag`, `factory.py` 196-207. -/
def diag [Zero α] (v : Mat α) : Except PyErr (Mat α) := do
  let r ← zeros v.rows v.rows
  diagLoop v (pyRange 0 v.rows) r

/-- `range`, `factory.py` 210-222; `builtins.range(start, stop, 0)` raises `ValueError`. -/
def range [IntCast α] (rows columns start : Int) : Except PyErr (Mat α) := do
  let starts ← pyRangeStep start (start + rows * columns) columns
  create (starts.map fun s => (pyRange s (s + columns)).map (Int.cast : Int → α))

/-- `create_spectrum`, `factory.py` 225-238. -/
def createSpectrum (waveNumbers amplitudes : List α) : Except PyErr (Mat α) :=
  if waveNumbers.length ≠ amplitudes.length then .error .valueError
  else create (List.zipWith (fun w a => [w, a]) waveNumbers amplitudes)

end Factory
end Verif
