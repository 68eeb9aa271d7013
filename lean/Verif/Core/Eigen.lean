import Verif.Core.Mat

/-!
# Eigen and singular value accessors of `Matrix`

`np.linalg.eig` and `np.linalg.svd` are external; their outputs are arguments here and the claims
are stated for every output satisfying the routine's contract.  The decompositions are cached in
the object; caching is modelled in `Core/Heap.lean`.  Eigenvalues are taken to be real (comparable
by the Boolean order `le`).
-/

namespace Verif
namespace Mat

variable {α : Type}

/-- The `(value, column)` pairs of `get_eigenvectors_sorted`, `_Matrix.py` 583-598.  `vals` is the
n×1 matrix of eigenvalues, `vecs` the matrix of eigenvectors. -/
def eigenpairs (n : Nat) (vals vecs : Mat α) : Except PyErr (List (α × Mat α)) :=
  (pyRange 0 n).mapM fun i => do
    let v ← vals.getFromVector i
    let c ← vecs.getColumn i
    pure (v, c)

/-- `list.sort(key=..., reverse=not ascending)`: Python's sort is stable in both directions. -/
def sortPairs {β : Type} (le : α → α → Bool) (asc : Bool) (l : List (α × β)) : List (α × β) :=
  l.mergeSort fun a b => if asc then le a.1 b.1 else le b.1 a.1

/-- `get_eigenvectors_sorted`, `_Matrix.py` 583-598, for a matrix with `n` rows. -/
def eigenvectorsSorted (le : α → α → Bool) (n : Nat) (vals vecs : Mat α) (asc : Bool) :
    Except PyErr (Mat α) := do
  let pairs ← eigenpairs n vals vecs
  match sortPairs le asc pairs with
  | [] => .error .indexError
  | p :: ps => ps.foldlM (fun acc q => acc.concatAlongColumns q.2) p.2

/-- `get_dominant_eigenvector`, `_Matrix.py` 83-84. -/
def dominantEigenvector (le : α → α → Bool) (n : Nat) (vals vecs : Mat α) : Except PyErr (Mat α) := do
  let s ← eigenvectorsSorted le n vals vecs false
  s.getColumn 0

/-- `np.ndarray.sort(0)`, `_Matrix.py` 602: sort every column. -/
def sortColumns (le : α → α → Bool) (M : Mat α) : Mat α :=
  ⟨M.rows, M.cols, Matrix.of fun i j =>
    ((List.ofFn fun p : Fin M.rows => M.data p j).mergeSort le).get (i.cast (by simp))⟩

/-- `np.flip` of both axes, `_Matrix.py` 604. -/
def flip (M : Mat α) : Mat α := ⟨M.rows, M.cols, Matrix.of fun i j => M.data i.rev j.rev⟩

/-- `get_eigenvalues_sorted`, `_Matrix.py` 600-605. -/
def eigenvaluesSorted (le : α → α → Bool) (vals : Mat α) (asc : Bool) : Mat α :=
  if asc then sortColumns le vals else flip (sortColumns le vals)

/-- `svd_U`, `_Matrix.py` 104-107, 127-129: minus the left factor. -/
def svdU [Mul α] [Neg α] [One α] (u : Mat α) : Mat α := u.smul (-1)
/-- `svd_V`, `_Matrix.py` 104-107, 131-133: minus the *transposed right* factor `vh`. -/
def svdV [Mul α] [Neg α] [One α] (vh : Mat α) : Mat α := vh.smul (-1)
/-- `svd_S`, `_Matrix.py` 135-141; `s` is the 1×k matrix of singular values.  With `k = 0`,
`np.array([])` is wrapped to 1×0. -/
def svdS [Zero α] (s : Mat α) : Except PyErr (Mat α) := s.vectorToDiagonal

end Mat
end Verif
