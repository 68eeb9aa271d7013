import Verif.Core.Base

/-!
# Sorting, regression and maximum helpers (`core/utils.py`)

`quick_sort` is modelled in the `Except` monad on Python lists, with Python's negative indexing, so
that out-of-range accesses and wrap-around are visible.  Its loops and its recursion take a `fuel`
argument; running out of fuel is reported as `recursionError`.  The theorems say that enough fuel
always exists.  Python's limit on recursion depth is not modelled.

The elements are compared through `lt` and `gt`, the Python operators `<` and `>`.
-/

namespace Verif.Utils
open Verif

variable {α : Type}

/-- `list[i]` -/
def item {β : Type} (l : List β) (i : Int) : Except PyErr β := do
  let k ← pyIndex l.length i
  pure (l.get k)

/-- `list[i] = v` -/
def put {β : Type} (l : List β) (i : Int) (v : β) : Except PyErr (List β) := do
  let k ← pyIndex l.length i
  pure (l.set k v)

/-- `initial_index`, `utils.py` 32-36. -/
def initialIndex (n : Nat) : List Nat := List.range n

/-- `swap`, `utils.py` 50-56. -/
def swap (index : List Nat) (l r : Int) : Except PyErr (List Nat) := do
  let help ← item index l
  let v ← item index r
  let index ← put index l v
  put index r help

/-- The comparison operators of the elements. -/
structure Cmp (α : Type) where
  lt : α → α → Bool
  gt : α → α → Bool

variable (cmp : Cmp α)

/-- `array[index[i]]` -/
def elem (array : List α) (index : List Nat) (i : Int) : Except PyErr α := do
  let k ← item index i
  item array (k : Int)

/-- `conditional_swap`, `utils.py` 59-64. -/
def conditionalSwap (array : List α) (index : List Nat) (left right : Int) :
    Except PyErr (List Nat) := do
  let a ← elem array index left
  let b ← elem array index right
  if cmp.gt a b then swap index left right else pure index

/-- `sort_left_right_and_center`, `utils.py` 39-47: the new index and the pivot position. -/
def sortLeftRightAndCenter (array : List α) (index : List Nat) (l r : Int) :
    Except PyErr (List Nat × Int) := do
  let c := (l + r) / 2
  let index ← conditionalSwap cmp array index l c
  let index ← conditionalSwap cmp array index l r
  let index ← conditionalSwap cmp array index c r
  pure (index, c)

/-- `while array[index[l]] < pivot: l += 1`, `utils.py` 99-100. -/
def advance (array : List α) (index : List Nat) (pivot : α) : Nat → Int → Except PyErr Int
  | 0, _ => .error .recursionError
  | fuel + 1, l => do
    let a ← elem array index l
    if cmp.lt a pivot then advance array index pivot fuel (l + 1) else pure l

/-- `while array[index[r]] > pivot: r -= 1`, `utils.py` 102-103. -/
def retreat (array : List α) (index : List Nat) (pivot : α) : Nat → Int → Except PyErr Int
  | 0, _ => .error .recursionError
  | fuel + 1, r => do
    let a ← elem array index r
    if cmp.gt a pivot then retreat array index pivot fuel (r - 1) else pure r

/-- The main loop of `_partition_real`, `utils.py` 97-106. -/
def partitionLoop (array : List α) (pivot : α) (big : Nat) :
    Nat → List Nat → Int → Int → Except PyErr (List Nat × Int)
  | 0, _, _, _ => .error .recursionError
  | fuel + 1, index, l, r => do
    let l ← advance cmp array index pivot big (l + 1)
    let r ← retreat cmp array index pivot big (r - 1)
    if l ≥ r then pure (index, l)
    else do
      let index ← swap index l r
      partitionLoop array pivot big fuel index l r

/-- `_partition_real`, `utils.py` 85-106. -/
def partitionReal (fuel : Nat) (array : List α) (index : List Nat) (l r : Int) (pivot : α) :
    Except PyErr (List Nat × Int) :=
  partitionLoop cmp array pivot fuel fuel index l (r - 1)

/-- `while array[index[l]] < pivot and l < r: l += 1`, `utils.py` 123-124. -/
def advanceInt (array : List α) (index : List Nat) (pivot : α) (r : Int) :
    Nat → Int → Except PyErr Int
  | 0, _ => .error .recursionError
  | fuel + 1, l => do
    let a ← elem array index l
    if cmp.lt a pivot && l < r then advanceInt array index pivot r fuel (l + 1) else pure l

/-- `while array[index[r]] > pivot and l < r: r -= 1`, `utils.py` 125-126. -/
def retreatInt (array : List α) (index : List Nat) (pivot : α) (l : Int) :
    Nat → Int → Except PyErr Int
  | 0, _ => .error .recursionError
  | fuel + 1, r => do
    let a ← elem array index r
    if cmp.gt a pivot && l < r then retreatInt array index pivot l fuel (r - 1) else pure r

/-- The loop of `_partition_int`, `utils.py` 122-130: index and final `l`, `r`. -/
def partitionIntLoop (array : List α) (pivot : α) (big : Nat) :
    Nat → List Nat → Int → Int → Except PyErr (List Nat × Int × Int)
  | 0, _, _, _ => .error .recursionError
  | fuel + 1, index, l, r =>
    if l < r then do
      let l ← advanceInt cmp array index pivot r big l
      let r ← retreatInt cmp array index pivot l big r
      if l < r then do
        let index ← swap index l r
        partitionIntLoop array pivot big fuel index (l + 1) (r - 1)
      else partitionIntLoop array pivot big fuel index l r
    else pure (index, l, r)

/-- `_partition_int`, `utils.py` 109-134. -/
def partitionInt (fuel : Nat) (array : List α) (index : List Nat) (l r : Int) :
    Except PyErr (List Nat × Int) := do
  let pivot ← elem array index ((l + r) / 2)
  let (index, l, r) ← partitionIntLoop cmp array pivot fuel fuel index l r
  if l = r then
    let a ← elem array index r
    if cmp.gt a pivot then pure (index, r - 1) else pure (index, r)
  else pure (index, r)

/-- `partition`, `utils.py` 67-82; `isReal` says whether `array[0]` is an `np.float64`. -/
def partition (isReal : Bool) (fuel : Nat) (array : List α) (index : List Nat) (l r : Int) (pivot : α) :
    Except PyErr (List Nat × Int) :=
  if isReal then partitionReal cmp fuel array index l r pivot
  else partitionInt cmp fuel array index l r

/-- `quick_sort`, `utils.py` 137-174. -/
def quickSort (isReal : Bool) (big : Nat) (array : List α) :
    Nat → List Nat → Int → Int → Except PyErr (List Nat)
  | 0, _, _, _ => .error .recursionError
  | fuel + 1, index, left, right => do
    let diff := right - left
    if diff = 0 then pure index
    else if diff = 1 then conditionalSwap cmp array index left right
    else if diff = 2 then do
      let index ← conditionalSwap cmp array index left (left + 1)
      let index ← conditionalSwap cmp array index left right
      conditionalSwap cmp array index (left + 1) right
    else do
      let (index, pivotLocation) ← sortLeftRightAndCenter cmp array index left right
      let index ← swap index pivotLocation (right - 1)
      let pivot ← elem array index (right - 1)
      let (index, center) ← partition cmp isReal big array index left right pivot
      let index ← swap index center (right - 1)
      let index ← quickSort isReal big array fuel index left (center - 1)
      quickSort isReal big array fuel index (center + 1) right

/-- `sort`, `utils.py` 177-193. -/
def sort (isReal : Bool) (fuel : Nat) (array : List α) : Except PyErr (List Nat) :=
  let index := initialIndex array.length
  if array.length > 1 then quickSort cmp isReal fuel array fuel index 0 ((array.length : Int) - 1)
  else pure index

/-! ## Regression -/

/-- `sum(list)`: folds from `0`. -/
def pySum [Add α] [Zero α] (l : List α) : α := l.foldl (· + ·) 0

/-- `sum_of_squares`, `utils.py` 217-224. -/
def sumOfSquares [Add α] [Zero α] [Mul α] (l : List α) : α := pySum (l.map fun x => x * x)

/-- `linear_regression`, `utils.py` 196-214: (intercept, slope).  `zip` truncates to the shorter
list; `n` is the length of `x`. -/
def linearRegression [Add α] [Sub α] [Mul α] [Div α] [Zero α] [NatCast α] (x y : List α) : α × α :=
  let n : α := (x.length : Nat)
  let xy := (x.zip y).map fun p => p.1 * p.2
  let a := (pySum y * sumOfSquares x - pySum x * pySum xy) /
    (n * sumOfSquares x - pySum x * pySum x)
  let b := (n * pySum xy - pySum x * pySum y) /
    (n * sumOfSquares x - pySum x * pySum x)
  (a, b)

/-! ## Maximum -/

/-- `max_index`, `utils.py` 241-257.  The loop assigns the constant `1`, not `i`. -/
def maxIndex [Zero α] (reals : List α) : Nat :=
  ((List.range reals.length).zip reals).foldl
    (fun (s : Nat × α) (p : Nat × α) =>
      if p.1 = 0 || cmp.gt p.2 s.2 then (1, p.2) else s) (0, (0 : α)) |>.1

end Verif.Utils
