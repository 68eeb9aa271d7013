import Verif.Alg.PLS1
import Verif.Core.Eigen
import Verif.Core.LinAlg

/-!
# VCPLS

`src/wai/ma/algorithm/pls/_VCPLS.py`: PLS1 with another rule for the weights.  `np.linalg.eig` is the parameter
`eig`.
-/

namespace Verif
open Mat

variable {α : Type}

/-- The parameter `lambda_`, the constant `NU`, `_VCPLS.py` 34-38, and the external routines. -/
structure VcplsCfg (α : Type) where
  lam : α
  nu : α
  /-- `np.linalg.eig`: the column of eigenvalues and the matrix of eigenvectors. -/
  eig : Mat α → Except PyErr (Mat α × Mat α)
  le : α → α → Bool
  lstsq : Mat α → Except PyErr (Mat α)

/-- The matrix whose dominant eigenvector is taken, `_VCPLS.py` 52-60. -/
def vcplsTerm [Field α] [DecidableEq α] (cfg : VcplsCfg α) (X y : Mat α) : Except PyErr (Mat α) := do
  let I ← Factory.eye (X.cols : Int)
  let a ← X.transpose.mul y
  let b ← a.mul y.transpose
  let c ← b.mul X
  let g1 ← c.sub (I.smul cfg.lam)
  let g2 ← X.transpose.mul X
  let s ← g2.add (I.smul cfg.nu)
  let i ← s.inverse cfg.lstsq
  i.mul g1

/-- `calculate_weights`, `_VCPLS.py` 51-62. -/
def vcplsWeights [Field α] [DecidableEq α] (cfg : VcplsCfg α) (X y : Mat α) : Except PyErr (Mat α) := do
  let term ← vcplsTerm cfg X y
  let r ← cfg.eig term
  dominantEigenvector cfg.le term.rows r.1 r.2

end Verif
