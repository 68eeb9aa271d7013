import Verif.Alg.Classes

/-!
# `has_loadings` and `get_loadings` of the PLS classes

`src/wai/ma/algorithm/pls`.  Keyed by the class name; inherited methods are resolved.
-/

namespace Verif.Life

variable {β : Type}

/-- `has_loadings`: `_PLS1.py` 77 (inherited by VCPLS), `_SIMPLS.py` 84, `_NIPALS.py` 266 (inherited by
CCARegression), `_KernelPLS.py` 209, `_DIPLS.py` 96, `_OPLS.py` 98, `_PRM.py` 108, `_SparsePLS.py` 121. -/
def hasLoadings : List (String × Bool) :=
  [("PLS1", true), ("VCPLS", true), ("SIMPLS", true), ("NIPALS", true), ("CCARegression", true), ("KernelPLS", true),
   ("DIPLS", true), ("OPLS", true), ("PRM", false), ("SparsePLS", true)]

/-- The attribute `get_loadings` returns; PRM returns `None`.  `_PLS1.py` 85 (through `get_matrix('P')`), `_SIMPLS.py` 92,
`_NIPALS.py` 284, `_KernelPLS.py` 225, `_DIPLS.py` 99, `_OPLS.py` 106, `_PRM.py` 111, `_SparsePLS.py` 129. -/
def loadingsAttr : List (String × String) :=
  [("PLS1", "P"), ("VCPLS", "P"), ("SIMPLS", "W"), ("NIPALS", "X_loadings"), ("CCARegression", "X_loadings"),
   ("KernelPLS", "T"), ("DIPLS", "T"), ("OPLS", "P_orth"), ("SparsePLS", "W")]

/-- `get_loadings()`. -/
def getLoadings (c : Cls β) (s : Obj β) : Except PyErr (PyVal β) :=
  match loadingsAttr.lookup c.name with
  | Option.none => .ok .none
  | some k => match s.attrs k with
    | some v => .ok v
    | Option.none => .error .attributeError

end Verif.Life
