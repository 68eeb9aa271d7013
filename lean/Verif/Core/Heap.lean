import Verif.Core.Eigen

/-!
# Object identity, NumPy buffers and the decomposition caches

`Core/Mat.lean` treats matrices as values.  Here matrices are *objects* in a heap:

* a NumPy array is a *view*: a buffer together with the buffer offset of every entry, so that
  `transpose()` and `np.flip` alias their argument while `np.array`/`np.copy`/ufuncs allocate;
* a `Matrix` object is an array plus the cached decompositions, which are references to further
  `Matrix` objects (`_Matrix.py` 27-42);
* a method either returns a (reference to a) matrix or raises, and keeps the effects done before
  raising.

Only what the Python code does to the buffers and caches is modelled here; the computed values
come from `Core/Mat.lean` and `Core/Eigen.lean`.  `np.linalg.eig` and `np.linalg.svd` are
arbitrary functions (`Ops`).
-/

namespace Verif

/-- A NumPy array: buffer and offsets. -/
structure Arr where
  buf : Nat
  rows : Nat
  cols : Nat
  off : Fin rows → Fin cols → Nat

/-- A `Matrix` object, `_Matrix.py` 28-42 (`qr_decomposition` is never set). -/
structure Obj where
  arr : Arr
  eig : Option (Nat × Nat)
  svd : Option (Nat × Nat × Nat)

/-- The heap: buffers and objects, each with an allocation counter. -/
structure Heap (α : Type) where
  bufs : Nat → Nat → α
  nbuf : Nat
  objs : Nat → Obj
  nobj : Nat

/-- External routines and the scalar comparison used by `sort`. -/
structure Ops (α : Type) where
  /-- `np.linalg.eig`: eigenvalues (as a 1×n matrix) and eigenvectors -/
  eig : Mat α → Except PyErr (Mat α × Mat α)
  /-- `np.linalg.svd(…, full_matrices=False)`: `u`, `s` (1×k), `vh` -/
  svd : Mat α → Except PyErr (Mat α × Mat α × Mat α)
  le : α → α → Bool

/-- Heap computations that may raise. -/
def H (α β : Type) : Type := Heap α → Except PyErr β × Heap α

namespace H
variable {α β γ : Type}

/-- Sequencing: an exception stops, the heap effects so far are kept. -/
def bind (x : H α β) (f : β → H α γ) : H α γ := fun h =>
  match x h with
  | (.ok b, h') => f b h'
  | (.error e, h') => (.error e, h')

instance : Monad (H α) where
  pure b := fun h => (.ok b, h)
  bind := bind

/-- Raise or return a computed value. -/
def lift (x : Except PyErr β) : H α β := fun h => (x, h)

end H

namespace Heap
variable {α : Type}

/-- The entries seen through a view. -/
def read (h : Heap α) (a : Arr) : Mat α :=
  ⟨a.rows, a.cols, Matrix.of fun i j => h.bufs a.buf (a.off i j)⟩

/-- The current contents of a matrix object. -/
def contents (h : Heap α) (r : Nat) : Mat α := h.read (h.objs r).arr

/-! ## NumPy primitives -/

/-- A fresh, row-major array with the given entries (`np.array(...)`, `np.copy`, the result of a
ufunc, of fancy indexing, `np.concatenate`, `np.matmul`, …). -/
def npAlloc (M : Mat α) : H α Arr := fun h =>
  (.ok ⟨h.nbuf, M.rows, M.cols, fun i j => i * M.cols + j⟩,
   { h with
     bufs := Function.update h.bufs h.nbuf fun o =>
       (M.entry? (o / M.cols) (o % M.cols)).getD (h.bufs h.nbuf o)
     nbuf := h.nbuf + 1 })

/-- `ndarray.transpose()`: a view. -/
def npTransposeView (a : Arr) : Arr := ⟨a.buf, a.cols, a.rows, fun i j => a.off j i⟩

/-- `np.flip(a)`: a view. -/
def npFlipView (a : Arr) : Arr := ⟨a.buf, a.rows, a.cols, fun i j => a.off i.rev j.rev⟩

/-- Overwrite the entries of a view in place (item assignment, `ufunc.at`, `ndarray.sort`);
entries outside the view keep their value. -/
def npWrite (a : Arr) (M : Mat α) : H α Unit := fun h =>
  (.ok (), { h with
    bufs := Function.update h.bufs a.buf fun o =>
      match ((List.finRange a.rows).flatMap fun i =>
        (List.finRange a.cols).map fun j => (i, j)).find? (fun c => a.off c.1 c.2 == o) with
      | some c => (M.entry? c.1 c.2).getD (h.bufs a.buf o)
      | none => h.bufs a.buf o })

/-- `Matrix(data)`, `_Matrix.py` 28-39: wraps the given array, no copy. -/
def newObj (a : Arr) : H α Nat := fun h =>
  (.ok h.nobj, { h with objs := Function.update h.objs h.nobj ⟨a, none, none⟩, nobj := h.nobj + 1 })

/-- Current contents, as an effect-free read. -/
def getContents (r : Nat) : H α (Mat α) := fun h => (.ok (h.contents r), h)
/-- The array of an object. -/
def getArr (r : Nat) : H α Arr := fun h => (.ok (h.objs r).arr, h)
/-- Read a view. -/
def readArr (a : Arr) : H α (Mat α) := fun h => (.ok (h.read a), h)
/-- `self.data = a`. -/
def setArr (r : Nat) (a : Arr) : H α Unit := fun h =>
  (.ok (), { h with objs := Function.update h.objs r { h.objs r with arr := a } })
/-- Assign the eigen cache. -/
def setEig (r : Nat) (c : Option (Nat × Nat)) : H α Unit := fun h =>
  (.ok (), { h with objs := Function.update h.objs r { h.objs r with eig := c } })
/-- Assign the SVD cache. -/
def setSvd (r : Nat) (c : Option (Nat × Nat × Nat)) : H α Unit := fun h =>
  (.ok (), { h with objs := Function.update h.objs r { h.objs r with svd := c } })

/-! ## `Matrix` methods -/

/-- `reset_cache`, `_Matrix.py` 344-347. -/
def resetCache (r : Nat) : H α Unit := do
  setEig r none
  setSvd r none

/-- `copy`, `_Matrix.py` 306-307: `Matrix(np.copy(self.data))`. -/
def mCopy (r : Nat) : H α Nat := do
  let a ← getArr r
  let M ← readArr a
  let b ← npAlloc M
  newObj b

/-- `transpose`, `_Matrix.py` 260-261: `Matrix(np.array(self.data.transpose(), copy=True))`. -/
def mTranspose (r : Nat) : H α Nat := do
  let a ← getArr r
  let M ← readArr (npTransposeView a)
  let b ← npAlloc M
  newObj b

/-- Methods that wrap a freshly computed array: `Matrix(np.op(self.data, …))`.  Covers
`get_sub_matrix`, `get_row(s)`, `get_column(s)`, `sum`, `mean`, `mul`/`add`/`sub`/`div` with
scalars, `sqrt`, `exp`, `inverse`, `normalized`, `head`, `diag`, `vector_to_diagonal`, …
(`_Matrix.py` 44-68, 146-258, 292-304, 421-439, 577-581, 607-617). -/
def mPure1 (f : Mat α → Except PyErr (Mat α)) (r : Nat) : H α Nat := do
  let M ← getContents r
  let M' ← H.lift (f M)
  let b ← npAlloc M'
  newObj b

/-- Binary methods that wrap a freshly computed array: `mul`, `add`, `sub`, `mul_elementwise`,
`div_elementwise`, `concat` (`_Matrix.py` 174-181, 216-246, 324-342). -/
def mPure2 (f : Mat α → Mat α → Except PyErr (Mat α)) (r s : Nat) : H α Nat := do
  let M ← getContents r
  let N ← getContents s
  let M' ← H.lift (f M N)
  let b ← npAlloc M'
  newObj b

/-- `set`, `_Matrix.py` 272-274: the cache is reset before the assignment. -/
def mSet (r : Nat) (i j : Int) (v : α) : H α Unit := do
  resetCache r
  let M ← getContents r
  let M' ← H.lift (M.set i j v)
  npWrite (← getArr r) M'

/-- `set_row`, `_Matrix.py` 276-282. -/
def mSetRow (r : Nat) (i : Int) (v : Nat) : H α Unit := do
  let V ← getContents v
  H.lift V.mustBeVector
  resetCache r
  let M ← getContents r
  let M' ← H.lift (M.setRow i V)
  npWrite (← getArr r) M'

/-- `set_column`, `_Matrix.py` 284-290. -/
def mSetColumn (r : Nat) (j : Int) (v : Nat) : H α Unit := do
  let V ← getContents v
  H.lift V.mustBeVector
  resetCache r
  let M ← getContents r
  let M' ← H.lift (M.setColumn j V)
  npWrite (← getArr r) M'

/-- `vector_op_modify`, `_Matrix.py` 550-553: in place, *no* cache reset. -/
def mVectorOpModify (f : α → α → α) (r v : Nat) : H α Unit := do
  let M ← getContents r
  let V ← getContents v
  let M' ← H.lift (M.vectorOp f V)
  npWrite (← getArr r) M'

/-- `vector_op`, `_Matrix.py` 545-548: copy, then modify the copy. -/
def mVectorOp (f : α → α → α) (r v : Nat) : H α Nat := do
  let c ← mCopy r
  mVectorOpModify f c v
  pure c

/-- `apply_elementwise`, `_Matrix.py` 355-360: copy, then overwrite the copy. -/
def mApply (f : α → α) (r : Nat) : H α Nat := do
  let c ← mCopy r
  let M ← getContents c
  npWrite (← getArr c) (M.map f)
  pure c

/-- `helper.fill_diagonal`, `helper.py` 224-228: in place, *no* cache reset. -/
def mFillDiagonal (r : Nat) (v : α) : H α Unit := do
  let M ← getContents r
  npWrite (← getArr r) (M.fillDiagonal v)

/-- `make_eigenvalue_decomposition`, `_Matrix.py` 109-121. -/
def makeEig (ops : Ops α) (r : Nat) : H α (Nat × Nat) := fun h =>
  match (h.objs r).eig with
  | some c => (.ok c, h)
  | none => (do
      let M ← getContents r
      let (vals, vecs) ← H.lift (ops.eig M)
      let a ← newObj (← npAlloc vals)
      let l ← mTranspose a
      let v ← newObj (← npAlloc vecs)
      setEig r (some (l, v))
      pure (l, v) : H α (Nat × Nat)) h

/-- `get_eigenvalue_decomposition_V`, `_Matrix.py` 86-88: the cached object itself. -/
def mEigV (ops : Ops α) (r : Nat) : H α Nat := do
  let c ← makeEig ops r
  pure c.2

/-- `get_eigenvectors`, `_Matrix.py` 70-75 (unsorted). -/
def mEigenvectors (ops : Ops α) (r : Nat) : H α Nat := do
  let c ← makeEig ops r
  mCopy c.2

/-- `get_eigenvalues`, `_Matrix.py` 94-96. -/
def mEigenvalues (ops : Ops α) (r : Nat) : H α Nat := do
  let c ← makeEig ops r
  mCopy c.1

/-- `get_eigenvalue_decomposition_D`, `_Matrix.py` 90-92. -/
def mEigD [Zero α] (ops : Ops α) (r : Nat) : H α Nat := do
  let c ← makeEig ops r
  mPure1 (fun M => M.vectorToDiagonal) c.1

/-- `get_eigenvalues_sorted`, `_Matrix.py` 600-605: sorts its own copy in place, then replaces the
array by a flipped view. -/
def mEigenvaluesSorted (ops : Ops α) (r : Nat) (asc : Bool) : H α Nat := do
  let e ← mEigenvalues ops r
  let M ← getContents e
  npWrite (← getArr e) (M.sortColumns ops.le)
  if asc then pure e else do
    let a ← getArr e
    setArr e (npFlipView a)
    pure e

/-- `get_eigenvectors_sorted`, `_Matrix.py` 583-598. -/
def mEigenvectorsSorted (ops : Ops α) (r : Nat) (asc : Bool) : H α Nat := do
  let c ← makeEig ops r
  let M ← getContents r
  mPure2 (fun vals vecs => Mat.eigenvectorsSorted ops.le M.rows vals vecs asc) c.1 c.2

/-- `make_singular_value_decomposition`, `_Matrix.py` 104-107: recomputed on every call. -/
def makeSvd [Mul α] [Neg α] [One α] (ops : Ops α) (r : Nat) : H α (Nat × Nat × Nat) := do
  let M ← getContents r
  let (u, s, vh) ← H.lift (ops.svd M)
  let u' ← newObj (← npAlloc (Mat.svdU u))
  let s' ← newObj (← npAlloc s)
  let v' ← newObj (← npAlloc (Mat.svdV vh))
  setSvd r (some (u', s', v'))
  pure (u', s', v')

/-- `svd_U`, `_Matrix.py` 127-129. -/
def mSvdU [Mul α] [Neg α] [One α] (ops : Ops α) (r : Nat) : H α Nat := do
  let c ← makeSvd ops r
  mCopy c.1

/-- `svd_V`, `_Matrix.py` 131-133. -/
def mSvdV [Mul α] [Neg α] [One α] (ops : Ops α) (r : Nat) : H α Nat := do
  let c ← makeSvd ops r
  mCopy c.2.2

/-- `svd_S`, `_Matrix.py` 135-141. -/
def mSvdS [Mul α] [Neg α] [One α] [Zero α] (ops : Ops α) (r : Nat) : H α Nat := do
  let c ← makeSvd ops r
  mPure1 (fun M => Mat.svdS M) c.2.1

/-- `get_singular_values`, `_Matrix.py` 143-144: does not compute the decomposition; subscripting
`None` is a `TypeError`. -/
def mSingularValues (r : Nat) : H α Nat := fun h =>
  match (h.objs r).svd with
  | none => (.error .typeError, h)
  | some c => mTranspose c.2.1 h

/-! ## Programs over matrix objects -/

/-- One public call.  Arguments are positions in the list of matrices obtained so far. -/
inductive Call (α : Type) where
  /-- any factory function -/
  | create (M : Mat α)
  | copy (x : Nat)
  | transpose (x : Nat)
  | pure1 (f : Mat α → Except PyErr (Mat α)) (x : Nat)
  | pure2 (f : Mat α → Mat α → Except PyErr (Mat α)) (x y : Nat)
  | vectorOp (f : α → α → α) (x v : Nat)
  | apply (f : α → α) (x : Nat)
  | eigenvectors (x : Nat)
  | eigenvalues (x : Nat)
  | eigD (x : Nat)
  | eigenvaluesSorted (x : Nat) (asc : Bool)
  | eigenvectorsSorted (x : Nat) (asc : Bool)
  | eigV (x : Nat)
  | svdU (x : Nat)
  | svdV (x : Nat)
  | svdS (x : Nat)
  | singularValues (x : Nat)
  | set (x : Nat) (i j : Int) (v : α)
  | setRow (x : Nat) (i : Int) (v : Nat)
  | setColumn (x : Nat) (j : Int) (v : Nat)
  | vectorOpModify (f : α → α → α) (x v : Nat)
  | fillDiagonal (x : Nat) (v : α)

/-- Program state: the heap and the matrices the program holds. -/
structure St (α : Type) where
  heap : Heap α
  env : List Nat

section exec
variable [Mul α] [Neg α] [One α] [Zero α]

/-- Look up an argument (using a name that was never bound is a `NameError`). -/
def arg (env : List Nat) (x : Nat) : H α Nat :=
  match env[x]? with
  | some r => pure r
  | none => H.lift (.error .nameError)

/-- Execute a call; in-place methods return nothing. -/
def exec (ops : Ops α) (env : List Nat) : Call α → H α (Option Nat)
  | .create M => do let a ← npAlloc M; some <$> newObj a
  | .copy x => do some <$> mCopy (← arg env x)
  | .transpose x => do some <$> mTranspose (← arg env x)
  | .pure1 f x => do some <$> mPure1 f (← arg env x)
  | .pure2 f x y => do some <$> mPure2 f (← arg env x) (← arg env y)
  | .vectorOp f x v => do some <$> mVectorOp f (← arg env x) (← arg env v)
  | .apply f x => do some <$> mApply f (← arg env x)
  | .eigenvectors x => do some <$> mEigenvectors ops (← arg env x)
  | .eigenvalues x => do some <$> mEigenvalues ops (← arg env x)
  | .eigD x => do some <$> mEigD ops (← arg env x)
  | .eigenvaluesSorted x asc => do some <$> mEigenvaluesSorted ops (← arg env x) asc
  | .eigenvectorsSorted x asc => do some <$> mEigenvectorsSorted ops (← arg env x) asc
  | .eigV x => do some <$> mEigV ops (← arg env x)
  | .svdU x => do some <$> mSvdU ops (← arg env x)
  | .svdV x => do some <$> mSvdV ops (← arg env x)
  | .svdS x => do some <$> mSvdS ops (← arg env x)
  | .singularValues x => do some <$> mSingularValues (← arg env x)
  | .set x i j v => do mSet (← arg env x) i j v; pure none
  | .setRow x i v => do mSetRow (← arg env x) i (← arg env v); pure none
  | .setColumn x j v => do mSetColumn (← arg env x) j (← arg env v); pure none
  | .vectorOpModify f x v => do mVectorOpModify f (← arg env x) (← arg env v); pure none
  | .fillDiagonal x v => do mFillDiagonal (← arg env x) v; pure none

/-- Run a call: a returned matrix is appended to what the program holds; exceptions are caught
and the program goes on. -/
def step (ops : Ops α) (s : St α) (c : Call α) : St α :=
  match exec ops s.env c s.heap with
  | (.ok (some r), h') => ⟨h', s.env ++ [r]⟩
  | (_, h') => ⟨h', s.env⟩

/-- Run a whole program. -/
def run (ops : Ops α) (s : St α) (p : List (Call α)) : St α := p.foldl (step ops) s

end exec

/-- The initial state: nothing allocated. -/
def St.init (junk : α) : St α := ⟨⟨fun _ _ => junk, 0, fun _ => ⟨⟨0, 0, 0, fun i => i.elim0⟩, none, none⟩, 0⟩, []⟩

end Heap
end Verif
