import Verif.Core.Base
import Mathlib.Data.Matrix.Mul
import Mathlib.LinearAlgebra.Matrix.NonsingularInverse

/-!
# The `Matrix` class

Model of `/repo/src/wai/ma/core/matrix/_Matrix.py`.

A matrix value is its shape together with its entries.  Methods that mutate return the
mutated value (object identity and the decomposition caches are modelled in `Core/Heap.lean`).
The scalar type `α` is arbitrary; each definition asks only for the scalar operations the
Python method uses.  `real(value)` conversions are the identity here.
-/

namespace Verif

/-- Square root of a scalar (`np.sqrt`). -/
class HasSqrt (α : Type) where
  sqrt : α → α
/-- Exponential (`np.exp`). -/
class HasExp (α : Type) where
  exp : α → α
/-- Natural logarithm (`np.log`). -/
class HasLog (α : Type) where
  log : α → α
/-- Hyperbolic tangent (`np.tanh`). -/
class HasTanh (α : Type) where
  tanh : α → α

/-- A two-dimensional array.  `_Matrix.py` 27-42: `self.data` is always a 2-d `ndarray`. -/
structure Mat (α : Type) where
  rows : Nat
  cols : Nat
  data : Matrix (Fin rows) (Fin cols) α

/-- The result of methods that return either a scalar or a matrix (`sum`, `mean`). -/
inductive RealOrMat (α : Type) where
  | real (x : α)
  | mat (m : Mat α)

namespace Mat

variable {α : Type}

/-- Wrap a typed matrix. -/
@[reducible] def of {m n : Nat} (A : Matrix (Fin m) (Fin n) α) : Mat α := ⟨m, n, A⟩

/-- The matrix with the given entries. -/
@[reducible] def ofFn {m n : Nat} (f : Fin m → Fin n → α) : Mat α := ⟨m, n, Matrix.of f⟩

/-- Entry at natural-number coordinates, if in range.  Specification vocabulary. -/
def entry? (M : Mat α) (i j : Nat) : Option α :=
  if h : i < M.rows ∧ j < M.cols then some (M.data ⟨i, h.1⟩ ⟨j, h.2⟩) else none

/-! ## Shape predicates -/

/-- `is_vector`, `_Matrix.py` 210-211. -/
def isVector (M : Mat α) : Bool := M.rows == 1 || M.cols == 1
/-- `is_row_vector`, `_Matrix.py` 349-350. -/
def isRowVector (M : Mat α) : Bool := M.isVector && M.rows == 1
/-- `is_column_vector`, `_Matrix.py` 352-353. -/
def isColumnVector (M : Mat α) : Bool := M.isVector && M.cols == 1
/-- `is_square`, `_Matrix.py` 613-614. -/
def isSquare (M : Mat α) : Bool := M.rows == M.cols
/-- `same_shape_as`, `_Matrix.py` 213-214. -/
def sameShapeAs (M N : Mat α) : Bool := M.rows == N.rows && M.cols == N.cols
/-- `is_multiplicable_with`, `_Matrix.py` 183-184. -/
def isMultiplicableWith (M N : Mat α) : Bool := M.cols == N.rows
/-- `num_elements`, `_Matrix.py` 567-568. -/
def numElements (M : Mat α) : Nat := M.rows * M.cols

/-- `must_be_vector`, `_Matrix.py` 640-642. -/
def mustBeVector (M : Mat α) : Except PyErr Unit :=
  if M.isVector then .ok () else .error .valueError
/-- `must_be_column_vector`, `_Matrix.py` 635-637. -/
def mustBeColumnVector (M : Mat α) : Except PyErr Unit :=
  if M.isColumnVector then .ok () else .error .valueError

/-! ## Element access -/

/-- `get`, `_Matrix.py` 269-270: `self.data[row][column]`. -/
def get (M : Mat α) (i j : Int) : Except PyErr α := do
  let r ← pyIndex M.rows i
  let c ← pyIndex M.cols j
  pure (M.data r c)

/-- `set`, `_Matrix.py` 272-274 (the cache reset is in the heap model). -/
def set (M : Mat α) (i j : Int) (v : α) : Except PyErr (Mat α) := do
  let r ← pyIndex M.rows i
  let c ← pyIndex M.cols j
  pure ⟨M.rows, M.cols, Matrix.of fun a b => if a = r ∧ b = c then v else M.data a b⟩

/-- `transpose`, `_Matrix.py` 260-261. -/
def transpose (M : Mat α) : Mat α := ⟨M.cols, M.rows, Matrix.of fun i j => M.data j i⟩

/-- `copy`, `_Matrix.py` 306-307. -/
def copy (M : Mat α) : Mat α := ⟨M.rows, M.cols, Matrix.of fun i j => M.data i j⟩

/-- `get_from_vector`, `_Matrix.py` 570-575. -/
def getFromVector (M : Mat α) (k : Int) : Except PyErr α := do
  M.mustBeVector
  if M.isRowVector then M.get 0 k else M.get k 0

/-- `set_row`, `_Matrix.py` 276-282.  A column vector is transposed first, the addressed row's
first `min(row.num_columns(), self.num_columns())` entries are overwritten. -/
def setRow (M : Mat α) (i : Int) (row : Mat α) : Except PyErr (Mat α) := do
  row.mustBeVector
  let row := if row.isColumnVector then row.transpose else row
  let len := min row.cols M.cols
  let r ← pyIndex M.rows i
  pure ⟨M.rows, M.cols, Matrix.of fun a b =>
    if a = r ∧ b.val < len then (row.entry? 0 b).getD (M.data a b) else M.data a b⟩

/-- `set_column`, `_Matrix.py` 284-290. -/
def setColumn (M : Mat α) (j : Int) (col : Mat α) : Except PyErr (Mat α) := do
  col.mustBeVector
  let col := if col.isRowVector then col.transpose else col
  let len := min col.rows M.rows
  let c ← pyIndex M.cols j
  pure ⟨M.rows, M.cols, Matrix.of fun a b =>
    if b = c ∧ a.val < len then (col.entry? a 0).getD (M.data a b) else M.data a b⟩

/-- `get_row`, `_Matrix.py` 292-293 (the 1-d result is wrapped to 1×n by the constructor). -/
def getRow (M : Mat α) (i : Int) : Except PyErr (Mat α) := do
  let r ← pyIndex M.rows i
  pure ⟨1, M.cols, Matrix.of fun _ b => M.data r b⟩

/-- `get_column`, `_Matrix.py` 295-296. -/
def getColumn (M : Mat α) (j : Int) : Except PyErr (Mat α) := do
  let c ← pyIndex M.cols j
  pure ⟨M.rows, 1, Matrix.of fun a _ => M.data a c⟩

/-- A list or tuple position argument of `get_sub_matrix`. -/
inductive Sel where
  /-- a Python list of positions -/
  | list (is : List Int)
  /-- a Python tuple `(start, stop)`, expanded with `range(*rows)` -/
  | tuple (start stop : Int)

/-- `_Matrix.py` 48-51. -/
def Sel.positions : Sel → List Int
  | .list is => is
  | .tuple a b => pyRange a b

/-- NumPy integer-array index normalisation: every entry is range-checked. -/
def resolve (n : Nat) (is : List Int) : Except PyErr (List (Fin n)) :=
  is.mapM (pyIndex n)

/-- `get_sub_matrix`, `_Matrix.py` 44-58: `self.data[rows[:, newaxis], columns]`. -/
def getSubMatrix (M : Mat α) (rows cols : Sel) : Except PyErr (Mat α) := do
  let rs ← resolve M.rows rows.positions
  let cs ← resolve M.cols cols.positions
  pure ⟨rs.length, cs.length, Matrix.of fun i j => M.data (rs.get i) (cs.get j)⟩

/-- `get_rows`, `_Matrix.py` 60-63. -/
def getRows (M : Mat α) (rows : Sel) : Except PyErr (Mat α) :=
  M.getSubMatrix rows (.tuple 0 M.cols)

/-- `get_columns`, `_Matrix.py` 65-68. -/
def getColumns (M : Mat α) (cols : Sel) : Except PyErr (Mat α) :=
  M.getSubMatrix (.tuple 0 M.rows) cols

/-- `head`, `_Matrix.py` 421-422: the slice `data[:n, :]`. -/
def head (M : Mat α) (n : Int := 5) : Mat α :=
  let k := if 0 ≤ n then min n.toNat M.rows else (M.rows + n).toNat
  have hk : k ≤ M.rows := by
    show (if 0 ≤ n then min n.toNat M.rows else (M.rows + n).toNat) ≤ M.rows
    split <;> omega
  ⟨k, M.cols, Matrix.of fun i j => M.data (i.castLE hk) j⟩

/-- `as_real`, `_Matrix.py` 309-313. -/
def asReal (M : Mat α) : Except PyErr α :=
  if M.rows ≠ 1 ∨ M.cols ≠ 1 then .error .matrixAlgorithms else M.get 0 0

/-- `to_raw_copy_1D`, `_Matrix.py` 315-322: column by column. -/
def toRawCopy1D (M : Mat α) : List α :=
  (List.ofFn fun j : Fin M.cols => List.ofFn fun i : Fin M.rows => M.data i j).flatten

/-- `to_raw_copy_2D`, `_Matrix.py` 324-333: list of rows. -/
def toRawCopy2D (M : Mat α) : List (List α) :=
  List.ofFn fun i : Fin M.rows => List.ofFn fun j : Fin M.cols => M.data i j

/-! ## Concatenation -/

/-- `concat(other, axis)`, `_Matrix.py` 335-336: `np.concatenate`; the other dimension must
agree (`ValueError`); an axis outside `-2..1` raises `numpy.AxisError`, a `ValueError`. -/
def concat (M N : Mat α) (axis : Int) : Except PyErr (Mat α) :=
  if axis = 0 ∨ axis = -2 then
    if h : M.cols = N.cols then
      .ok ⟨M.rows + N.rows, M.cols, Matrix.of fun i j =>
        Fin.addCases (fun a => M.data a j) (fun a => N.data a (j.cast h)) i⟩
    else .error .valueError
  else if axis = 1 ∨ axis = -1 then
    if h : M.rows = N.rows then
      .ok ⟨M.rows, M.cols + N.cols, Matrix.of fun i j =>
        Fin.addCases (fun b => M.data i b) (fun b => N.data (i.cast h) b) j⟩
    else .error .valueError
  else .error .valueError

/-- `concat_along_rows`, `_Matrix.py` 338-339. -/
def concatAlongRows (M N : Mat α) : Except PyErr (Mat α) := M.concat N 0
/-- `concat_along_columns`, `_Matrix.py` 341-342. -/
def concatAlongColumns (M N : Mat α) : Except PyErr (Mat α) := M.concat N 1

/-- `helper.multi_concat`, `helper.py` 235-236: `np.concatenate` of a list; an empty list is a
`ValueError`. -/
def multiConcat (axis : Int) : List (Mat α) → Except PyErr (Mat α)
  | [] => .error .valueError
  | m :: ms =>
    -- a single array with an illegal axis is rejected as well
    if axis = 0 ∨ axis = -2 ∨ axis = 1 ∨ axis = -1 then
      ms.foldlM (fun acc x => acc.concat x axis) m
    else .error .valueError

/-! ## Arithmetic -/

/-- Entrywise map (`np.ufunc` of one argument). -/
def map (f : α → α) (M : Mat α) : Mat α := ⟨M.rows, M.cols, Matrix.of fun i j => f (M.data i j)⟩

/-- `apply_elementwise`, `_Matrix.py` 355-360. -/
def applyElementwise (f : α → α) (M : Mat α) : Mat α := M.map f

/-- Entrywise binary operation on equal shapes, raising `e` otherwise. -/
def zipWith (e : PyErr) (f : α → α → α) (M N : Mat α) : Except PyErr (Mat α) :=
  if h : M.rows = N.rows ∧ M.cols = N.cols then
    .ok ⟨M.rows, M.cols, Matrix.of fun i j => f (M.data i j) (N.data (i.cast h.1) (j.cast h.2))⟩
  else .error e

/-- `add` of a matrix, `_Matrix.py` 248-252 (`must_be_same_shape` raises InvalidShapeError). -/
def add [Add α] (M N : Mat α) : Except PyErr (Mat α) := zipWith .invalidShape (· + ·) M N
/-- `add` of a scalar, `_Matrix.py` 248-252. -/
def addScalar [Add α] (M : Mat α) (s : α) : Mat α := M.map (· + s)
/-- `sub` of a matrix, `_Matrix.py` 242-246. -/
def sub [Sub α] (M N : Mat α) : Except PyErr (Mat α) := zipWith .invalidShape (· - ·) M N
/-- `sub` of a scalar, `_Matrix.py` 242-246. -/
def subScalar [Sub α] (M : Mat α) (s : α) : Mat α := M.map (· - s)
/-- `mul_elementwise`, `_Matrix.py` 216-219. -/
def mulElementwise [Mul α] (M N : Mat α) : Except PyErr (Mat α) :=
  zipWith .invalidShape (· * ·) M N
/-- `div_elementwise`, `_Matrix.py` 234-237. -/
def divElementwise [Div α] (M N : Mat α) : Except PyErr (Mat α) :=
  zipWith .invalidShape (· / ·) M N
/-- `mul` by a scalar, `_Matrix.py` 174-181. -/
def smul [Mul α] (M : Mat α) (s : α) : Mat α := M.map (· * s)
/-- `div`, `_Matrix.py` 239-240. -/
def div [Div α] (M : Mat α) (s : α) : Mat α := M.map (· / s)
/-- `sqrt`, `_Matrix.py` 257-258. -/
def sqrt [HasSqrt α] (M : Mat α) : Mat α := M.map HasSqrt.sqrt
/-- `exp`, `_Matrix.py` 607-608. -/
def exp [HasExp α] (M : Mat α) : Mat α := M.map HasExp.exp
/-- `tanh`, `_Matrix.py` 610-611. -/
def tanh [HasTanh α] (M : Mat α) : Mat α := M.map HasTanh.tanh
/-- `pow_elementwise` with a natural-number exponent, `_Matrix.py` 254-255. -/
def powElementwise [Monoid α] (M : Mat α) (n : Nat) : Mat α := M.map (· ^ n)

/-- Sum of a finite family (`np.add.reduce`; NumPy's summation order is abstracted). -/
def sumFin [Add α] [Zero α] {n : Nat} (f : Fin n → α) : α := (List.ofFn f).sum

/-- `mul` by a matrix, `_Matrix.py` 174-181: `np.matmul`, shapes checked first. -/
def mul [Add α] [Mul α] [Zero α] (M N : Mat α) : Except PyErr (Mat α) :=
  if h : M.cols = N.rows then
    .ok ⟨M.rows, N.cols, Matrix.of fun i j => sumFin fun k => M.data i k * N.data (k.cast h) j⟩
  else .error .valueError

/-- The entries of a vector in order; `none` when the matrix is not a vector.
`_Matrix.py` 193-201: a column vector's first column, else the first row. -/
def vecEntries (M : Mat α) : Option (List α) :=
  if h : M.cols = 1 then some (List.ofFn fun i => M.data i ⟨0, by omega⟩)
  else if h : M.rows = 1 then some (List.ofFn fun j => M.data ⟨0, by omega⟩ j)
  else none

/-- Dot product of two lists (`np.dot` on 1-d arrays of equal length). -/
def dotList [Add α] [Mul α] [Zero α] (a b : List α) : α := (List.zipWith (· * ·) a b).sum

/-- `vector_dot`, `_Matrix.py` 186-203. -/
def vectorDot [Add α] [Mul α] [Zero α] (M N : Mat α) : Except PyErr α :=
  match M.vecEntries, N.vecEntries with
  | some a, some b => if M.numElements ≠ N.numElements then .error .valueError else .ok (dotList a b)
  | _, _ => .error .valueError

/-- Sum of squares of all entries. -/
def sumSq [Add α] [Mul α] [Zero α] (M : Mat α) : α :=
  sumFin fun i => sumFin fun j => M.data i j * M.data i j

/-- `norm1`, `_Matrix.py` 160-161: sum of absolute values. -/
def norm1 [Add α] [Zero α] (abs : α → α) (M : Mat α) : α :=
  sumFin fun j => abs (sumFin fun i => abs (M.data i j))

/-- `norm2`, `_Matrix.py` 163-168: Frobenius norm, divided by `sqrt(min(rows, cols))` when
the matrix is not a vector. -/
def norm2 [Add α] [Mul α] [Zero α] [Div α] [NatCast α] [HasSqrt α] (M : Mat α) : α :=
  let fro := HasSqrt.sqrt M.sumSq
  if M.isVector then fro else fro / HasSqrt.sqrt ((min M.rows M.cols : Nat) : α)

/-- `norm2_squared`, `_Matrix.py` 170-172. -/
def norm2Squared [Add α] [Mul α] [Zero α] [Div α] [NatCast α] [HasSqrt α] (M : Mat α) : α :=
  M.norm2 * M.norm2

/-- `normalized(axis)`, `_Matrix.py` 205-208: divide by the 2-norms along an axis
(axis 0: column norms, axis 1: row norms; the 2-norm with `keepdims`). -/
def normalized [Add α] [Mul α] [Zero α] [Div α] [HasSqrt α] (M : Mat α) (axis : Int := 0) :
    Except PyErr (Mat α) :=
  if axis = 0 ∨ axis = -2 then
    .ok ⟨M.rows, M.cols, Matrix.of fun i j =>
      M.data i j / HasSqrt.sqrt (sumFin fun k => M.data k j * M.data k j)⟩
  else if axis = 1 ∨ axis = -1 then
    .ok ⟨M.rows, M.cols, Matrix.of fun i j =>
      M.data i j / HasSqrt.sqrt (sumFin fun k => M.data i k * M.data i k)⟩
  else .error .valueError

/-! ## Vector broadcasting -/

/-- `vector_size_matches`, `_Matrix.py` 555-561. -/
def vectorSizeMatches (M v : Mat α) : Bool :=
  if !v.isVector then false
  else if v.isRowVector then M.cols == v.cols
  else M.rows == v.rows

/-- NumPy broadcasting of a row (1×c) or column (r×1) array over an r×c array. -/
def broadcastVec (f : α → α → α) (M v : Mat α) : Mat α :=
  ⟨M.rows, M.cols, Matrix.of fun i j =>
    match (if v.isRowVector then v.entry? 0 j else v.entry? i 0) with
    | some x => f (M.data i j) x
    | none => M.data i j⟩

/-- `vector_op` / `vector_op_modify`, `_Matrix.py` 550-553: checks, then `op.at(data, ..., v)`. -/
def vectorOp (f : α → α → α) (M v : Mat α) : Except PyErr (Mat α) := do
  v.mustBeVector
  if M.vectorSizeMatches v then .ok (broadcastVec f M v) else .error .valueError

/-- `add_by_vector(_modify)`, `_Matrix.py` 231-232, 533-534. -/
def addByVector [Add α] (M v : Mat α) : Except PyErr (Mat α) := M.vectorOp (· + ·) v
/-- `sub_by_vector(_modify)`, `_Matrix.py` 527-528, 536-537. -/
def subByVector [Sub α] (M v : Mat α) : Except PyErr (Mat α) := M.vectorOp (· - ·) v
/-- `mul_by_vector(_modify)`, `_Matrix.py` 530-531, 539-540. -/
def mulByVector [Mul α] (M v : Mat α) : Except PyErr (Mat α) := M.vectorOp (· * ·) v
/-- `div_by_vector_modify`, `_Matrix.py` 542-543. -/
def divByVector [Div α] (M v : Mat α) : Except PyErr (Mat α) := M.vectorOp (· / ·) v

/-- `scale_by_row_vector`, `_Matrix.py` 221-224: wants a *column* vector with as many rows as
`self` has columns. -/
def scaleByRowVector [Mul α] (M v : Mat α) : Except PyErr (Mat α) := do
  v.mustBeColumnVector
  if M.cols = v.rows then M.mulByVector v.transpose else .error .invalidShape

/-- `scale_by_column_vector`, `_Matrix.py` 226-229. -/
def scaleByColumnVector [Mul α] (M v : Mat α) : Except PyErr (Mat α) := do
  v.mustBeColumnVector
  if M.rows = v.rows then M.mulByVector v else .error .invalidShape

/-! ## Reductions -/

/-- Grand total, `np.add.reduce(np.add.reduce(data))`: column sums first. -/
def total [Add α] [Zero α] (M : Mat α) : α := sumFin fun j => sumFin fun i => M.data i j

/-- Row vector of column sums (`axis=0`). -/
def colSums [Add α] [Zero α] (M : Mat α) : Mat α := ⟨1, M.cols, Matrix.of fun _ j => sumFin fun i => M.data i j⟩
/-- Column vector of row sums (`axis=1`, transposed). -/
def rowSums [Add α] [Zero α] (M : Mat α) : Mat α := ⟨M.rows, 1, Matrix.of fun i _ => sumFin fun j => M.data i j⟩

/-- `sum`, `_Matrix.py` 146-158. -/
def sum [Add α] [Zero α] (M : Mat α) (axis : Option Int := none) : Except PyErr (RealOrMat α) :=
  match axis with
  | none => .ok (.real M.total)
  | some a =>
    if a = -1 then .ok (.mat ⟨1, 1, Matrix.of fun _ _ => M.total⟩)
    else if a = 0 then .ok (.mat M.colSums)
    else if a = 1 then .ok (.mat M.rowSums)
    else .error .valueError

/-- `np.mean(data)`. -/
def meanAll [Add α] [Zero α] [Div α] [NatCast α] (M : Mat α) : α := M.total / ((M.rows * M.cols : Nat) : α)
/-- `np.mean(data, 0)` as a row vector; `helper.column_means`, `helper.py` 202-203. -/
def columnMeans [Add α] [Zero α] [Div α] [NatCast α] (M : Mat α) : Mat α := M.colSums.div (M.rows : α)
/-- `np.mean(data, 1)` as a column vector; `helper.row_means`, `helper.py` 192-195. -/
def rowMeans [Add α] [Zero α] [Div α] [NatCast α] (M : Mat α) : Mat α := M.rowSums.div (M.cols : α)

/-- `mean`, `_Matrix.py` 428-439. -/
def mean [Add α] [Zero α] [Div α] [NatCast α] (M : Mat α) (axis : Option Int := none) :
    Except PyErr (RealOrMat α) :=
  match axis with
  | none => .ok (.real M.meanAll)
  | some a =>
    if a = -1 then .ok (.mat ⟨1, 1, Matrix.of fun _ _ => M.meanAll⟩)
    else if a = 0 then .ok (.mat M.columnMeans)
    else if a = 1 then .ok (.mat M.rowMeans)
    else .error .invalidAxis

/-- `helper.column_stdevs`, `helper.py` 220-221: `np.std(data, 0, ddof=1)`. -/
def columnStdevs [Add α] [Sub α] [Mul α] [Zero α] [Div α] [NatCast α] [HasSqrt α] (M : Mat α) :
    Mat α :=
  ⟨1, M.cols, Matrix.of fun _ j =>
    HasSqrt.sqrt ((sumFin fun i =>
      (M.data i j - (sumFin fun k => M.data k j) / (M.rows : α)) *
      (M.data i j - (sumFin fun k => M.data k j) / (M.rows : α))) / ((M.rows - 1 : Nat) : α))⟩

/-- `helper.row_stdevs`, `helper.py` 210-213: `np.std(data, 1, ddof=1)`, transposed. -/
def rowStdevs [Add α] [Sub α] [Mul α] [Zero α] [Div α] [NatCast α] [HasSqrt α] (M : Mat α) :
    Mat α :=
  ⟨M.rows, 1, Matrix.of fun i _ =>
    HasSqrt.sqrt ((sumFin fun j =>
      (M.data i j - (sumFin fun k => M.data i k) / (M.cols : α)) *
      (M.data i j - (sumFin fun k => M.data i k) / (M.cols : α))) / ((M.cols - 1 : Nat) : α))⟩

/-! ## Element-wise clipping, sign, absolute value -/

/-- `clip`, `_Matrix.py` 362-378. -/
def clip [LT α] [DecidableLT α] (M : Mat α) (lo hi : α) : Except PyErr (Mat α) :=
  if lo > hi then .error .matrixAlgorithms
  else .ok (M.applyElementwise fun el => if el < lo then lo else if el > hi then hi else el)

/-- `clip_lower`, `_Matrix.py` 380-381; `inf` is the scalar type's `np.inf`. -/
def clipLower [LT α] [DecidableLT α] (inf : α) (M : Mat α) (lo : α) : Except PyErr (Mat α) :=
  M.clip lo inf

/-- `clip_upper`, `_Matrix.py` 383-384; `ninf` is the scalar type's `-np.inf`. -/
def clipUpper [LT α] [DecidableLT α] (ninf : α) (M : Mat α) (hi : α) : Except PyErr (Mat α) :=
  M.clip ninf hi

/-- `sign`, `_Matrix.py` 386-395. -/
def sign [LT α] [DecidableLT α] [Zero α] [One α] [Neg α] (M : Mat α) : Mat α :=
  M.applyElementwise fun el => if el < 0 then -1 else if el > 0 then 1 else 0

/-- `abs`, `_Matrix.py` 397-404. -/
def abs [LT α] [DecidableLT α] [Zero α] [Neg α] (M : Mat α) : Mat α :=
  M.applyElementwise fun el => if el < 0 then -el else el

/-! ## Predicates and searches -/

/-- All coordinates in row-major order: the loop nest of `any` / `which`, `_Matrix.py` 481-487. -/
def coords (M : Mat α) : List (Fin M.rows × Fin M.cols) :=
  (List.finRange M.rows).flatMap fun i => (List.finRange M.cols).map fun j => (i, j)

/-- `any`, `_Matrix.py` 471-476. -/
def any (M : Mat α) (p : α → Bool) : Bool := M.coords.any fun c => p (M.data c.1 c.2)
/-- `all`, `_Matrix.py` 478-479. -/
def all (M : Mat α) (p : α → Bool) : Bool := !M.any fun x => !p x
/-- `which`, `_Matrix.py` 481-487. -/
def which (M : Mat α) (p : α → Bool) : List (Nat × Nat) :=
  (M.coords.filter fun c => p (M.data c.1 c.2)).map fun c => (c.1.val, c.2.val)

/-- `where_vector`, `_Matrix.py` 412-419. -/
def whereVector (M : Mat α) (p : α → Bool) : Except PyErr (List Nat) :=
  if h : M.rows = 1 then
    .ok (((List.finRange M.cols).filter fun j => p (M.data ⟨0, by omega⟩ j)).map (·.val))
  else if h : M.cols = 1 then
    .ok (((List.finRange M.rows).filter fun i => p (M.data i ⟨0, by omega⟩)).map (·.val))
  else .error .valueError

/-- `contains_NaN`, `_Matrix.py` 465-469: tests `el == real('NaN')`.  `eq` is the scalar `==`
and `nan` the NaN value of the scalar type. -/
def containsNaN (eq : α → α → Bool) (nan : α) (M : Mat α) : Bool := M.any fun el => eq el nan

/-- `max`, `_Matrix.py` 406-407 (`np.amax`, `ValueError` on an empty array). -/
def max [Max α] (M : Mat α) : Except PyErr α :=
  match M.toRawCopy2D.flatten with
  | [] => .error .valueError
  | x :: xs => .ok (xs.foldl Max.max x)

/-! ## Diagonals -/

/-- `diag`, `_Matrix.py` 424-426.  With no diagonal entries `np.array([])` is 1-d and is wrapped
to 1×0. -/
def diag (M : Mat α) : Mat α :=
  if min M.rows M.cols = 0 then ⟨1, 0, Matrix.of fun _ j => j.elim0⟩
  else ⟨min M.rows M.cols, 1, Matrix.of fun i _ =>
    M.data ⟨i, by have := i.2; omega⟩ ⟨i, by have := i.2; omega⟩⟩

/-- `trace`, `_Matrix.py` 489-490. -/
def trace [Add α] [Zero α] (M : Mat α) : α := M.diag.total

/-- `vector_to_diagonal`, `_Matrix.py` 577-581.  An empty vector gives 1×0. -/
def vectorToDiagonal [Zero α] (M : Mat α) : Except PyErr (Mat α) :=
  match M.vecEntries with
  | none => .error .valueError
  | some l =>
    if l.length = 0 then .ok ⟨1, 0, Matrix.of fun _ j => j.elim0⟩
    else .ok ⟨l.length, l.length, Matrix.of fun j i => if i = j then l.get i else 0⟩

/-- `mat.data[i][j] = v` for positions known to be in range. -/
def put (M : Mat α) (i j : Nat) (v : α) : Mat α :=
  ⟨M.rows, M.cols, Matrix.of fun a b => if a.val = i ∧ b.val = j then v else M.data a b⟩

/-- The loop of `helper.fill_diagonal`, `helper.py` 225-228, from position `i` on.  Fuel: the number of
positions left, so that `i < mat.num_rows() and i < mat.num_columns()` fails when it is used up. -/
def fillDiagonalFrom (v : α) : Nat → Nat → Mat α → Mat α
  | 0, _, M => M
  | k + 1, i, M => if i < M.rows ∧ i < M.cols then fillDiagonalFrom v k (i + 1) (M.put i i v) else M

/-- `helper.fill_diagonal`, `helper.py` 224-228. -/
def fillDiagonal (M : Mat α) (v : α) : Mat α := fillDiagonalFrom v (min M.rows M.cols) 0 M

/-! ## Equality -/

/-- `__eq__` on two distinct objects, `_Matrix.py` 505-514: subtract (raising on different
shapes) and test that no difference is truthy (`isZero` is "compares equal to 0"). -/
def eq [Sub α] (isZero : α → Bool) (M N : Mat α) : Except PyErr Bool := do
  let d ← M.sub N
  pure (!d.any fun x => !isZero x)

/-- `helper.equal`, `helper.py` 84-93. `gt` is the scalar `>`, `abs` is `np.abs`. -/
def helperEqual [Sub α] (abs : α → α) (gt : α → α → Bool) (M N : Mat α) (eps : α) : Bool :=
  if h : M.rows = N.rows ∧ M.cols = N.cols then
    !(M.coords.any fun c =>
      gt (abs (M.data c.1 c.2 - N.data (c.1.cast h.1) (c.2.cast h.2))) eps)
  else false

/-! ## Column deletion -/

/-- `helper.delete_cols`, `helper.py` 34-36.  `cols` is a plain Python list membership test, so a
negative entry deletes nothing. -/
def deleteCols (M : Mat α) (cols : List Int) : Except PyErr (Mat α) :=
  M.getSubMatrix (.tuple 0 M.rows) (.list ((pyRange 0 M.cols).filter fun c => c ∉ cols))

end Mat
end Verif
