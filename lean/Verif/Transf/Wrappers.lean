import Verif.Transf.Basic
import Mathlib.Algebra.Order.Field.Rat

/-!
# The scikit-learn backed transformations

Models of `_PowerTransformer.py`, `_QuantileTransformer.py` and `_RobustScaler.py` in
`/repo/src/wai/ma/transformation/`.  scikit-learn itself is opaque: fitting and applying are parameters.
-/

namespace Verif.Transf
open Verif

/-- scikit-learn's estimator: fitting with parameters, applying a fit in both directions. -/
structure Sklearn (α Q F : Type) where
  fit : Q → Mat α → Except PyErr F
  run : F → Mat α → Except PyErr (Mat α)
  unrun : F → Mat α → Except PyErr (Mat α)

/-- Attributes of a wrapper: its parameters, `configured`, and `_intern` (`none` = `None`,
`some none` = an estimator that has not been fitted, `some (some f)` = a fitted one). -/
structure WrapState (Q F : Type) where
  params : Q
  configured : Bool
  intern : Option (Option F)

variable {α Q F P : Type}

/-- `do_transform` / `do_inverse_transform`: `None` has no method `transform`; an unfitted estimator raises
`NotFittedError`, a `ValueError`. -/
def useIntern (i : Option (Option F)) (g : F → Except PyErr (Mat α)) : Except PyErr (Mat α) :=
  match i with
  | none => .error .attributeError
  | some none => .error .valueError
  | some (some f) => g f

/-- A wrapper class, given its default parameters and what an assignment does: reject it (`ValueError` from
the validator, nothing changes), or store the value; a parameter with a validator also resets.
`_PowerTransformer.py` 24-66, `_QuantileTransformer.py` 24-73, `_RobustScaler.py` 24-69. -/
def wrapper (K : Sklearn α Q F) (defaults : Q) (assign : Q → P → Except PyErr (Q × Bool)) :
    Trans α (WrapState Q F) P where
  init := ⟨defaults, false, none⟩
  reset s := { s with configured := false, intern := none }
  configured s := s.configured
  setConfigured s := { s with configured := true }
  configure data s :=
    match K.fit s.params data with
    | .error e => ({ s with intern := some none }, .error e)
    | .ok f => ({ s with intern := some (some f), configured := true }, .ok ())
  doTransform s data := useIntern s.intern fun f => K.run f data
  doInverse s data := useIntern s.intern fun f => K.unrun f data
  setParam p s :=
    match assign s.params p with
    | .error e => (s, .error e)
    | .ok (q, true) => ({ params := q, configured := false, intern := none }, .ok ())
    | .ok (q, false) => ({ s with params := q }, .ok ())

/-- Parameters of `PowerTransformer` (`_PowerTransformer.py` 31-32). -/
structure PowerParams where
  method : String := "yeo-johnson"
  standardise : Bool := true

/-- Assignments to `PowerTransformer`. -/
inductive PowerSet where
  | method (v : String)
  | standardise (v : Bool)

/-- `PowerTransformer.__setattr__`, `_PowerTransformer.py` 36-51: only `method` has a validator. -/
def powerAssign (q : PowerParams) : PowerSet → Except PyErr (PowerParams × Bool)
  | .method v => if v = "yeo-johnson" ∨ v = "box-cox" then .ok ({ q with method := v }, true) else .error .valueError
  | .standardise v => .ok ({ q with standardise := v }, false)

/-- Parameters of `QuantileTransformer` (`_QuantileTransformer.py` 31-35). -/
structure QuantileParams where
  nQuantiles : Int := 1000
  outputDistribution : String := "uniform"
  ignoreImplicitZeroes : Bool := false
  subsample : Int := 100000
  randomState : Option Int := none

/-- Assignments to `QuantileTransformer`. -/
inductive QuantileSet where
  | nQuantiles (v : Int)
  | outputDistribution (v : String)
  | ignoreImplicitZeroes (v : Bool)
  | subsample (v : Int)
  | randomState (v : Option Int)

/-- `QuantileTransformer.__setattr__`, `_QuantileTransformer.py` 39-54. -/
def quantileAssign (q : QuantileParams) : QuantileSet → Except PyErr (QuantileParams × Bool)
  | .nQuantiles v => .ok ({ q with nQuantiles := v }, false)
  | .outputDistribution v =>
    if v = "uniform" ∨ v = "normal" then .ok ({ q with outputDistribution := v }, true) else .error .valueError
  | .ignoreImplicitZeroes v => .ok ({ q with ignoreImplicitZeroes := v }, false)
  | .subsample v => .ok ({ q with subsample := v }, false)
  | .randomState v => .ok ({ q with randomState := v }, false)

/-- Parameters of `RobustScaler` (`_RobustScaler.py` 31-33). -/
structure RobustParams where
  withCentering : Bool := true
  withScaling : Bool := true
  quantileRange : ℚ × ℚ := (25, 75)

/-- Assignments to `RobustScaler`. -/
inductive RobustSet where
  | withCentering (v : Bool)
  | withScaling (v : Bool)
  | quantileRange (v : ℚ × ℚ)

/-- `RobustScaler.__setattr__`, `_RobustScaler.py` 37-52. -/
def robustAssign (q : RobustParams) : RobustSet → Except PyErr (RobustParams × Bool)
  | .withCentering v => .ok ({ q with withCentering := v }, false)
  | .withScaling v => .ok ({ q with withScaling := v }, false)
  | .quantileRange v =>
    if 0 < v.1 ∧ v.1 < v.2 ∧ v.2 < 100 then .ok ({ q with quantileRange := v }, true) else .error .valueError

end Verif.Transf
