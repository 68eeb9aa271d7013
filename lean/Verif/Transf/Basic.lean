import Verif.Core.Mat

/-!
# Transformations: the common life cycle and the column/row statistics transformations

A transformation object is a state `σ` (its attributes).  A method that may raise returns the state
reached together with the result, so that a state change made before an exception is not lost.
-/

namespace Verif.Transf
open Verif

variable {α : Type}

/-- What a concrete transformation class provides (`_AbstractTransformation.py` 23-55):
`__init__`, `reset`, the attribute `configured`, `configure`, `do_transform`,
`do_inverse_transform`, and attribute assignment (`P` = the assignments of interest). -/
structure Trans (α σ P : Type) where
  init : σ
  reset : σ → σ
  configured : σ → Bool
  setConfigured : σ → σ
  configure : Mat α → σ → σ × Except PyErr Unit
  doTransform : σ → Mat α → Except PyErr (Mat α)
  doInverse : σ → Mat α → Except PyErr (Mat α)
  setParam : P → σ → σ × Except PyErr Unit

variable {σ P : Type}

/-- `AbstractTransformation.transform`, `_AbstractTransformation.py` 38-41. -/
def transform (T : Trans α σ P) (data : Mat α) (s : σ) : σ × Except PyErr (Mat α) :=
  if T.configured s then (s, T.doTransform s data)
  else
    match T.configure data s with
    | (s, .error e) => (s, .error e)
    | (s, .ok _) => (s, T.doTransform s data)

/-- `AbstractTransformation.inverse_transform`, `_AbstractTransformation.py` 47-51; unlike
`transform` it sets `configured` itself. -/
def inverseTransform (T : Trans α σ P) (data : Mat α) (s : σ) : σ × Except PyErr (Mat α) :=
  if T.configured s then (s, T.doInverse s data)
  else
    match T.configure data s with
    | (s, .error e) => (s, .error e)
    | (s, .ok _) => (T.setConfigured s, T.doInverse (T.setConfigured s) data)

/-- `AbstractTransformation.quick_apply`, `_AbstractTransformation.py` 53-55. -/
def quickApply (T : Trans α σ P) (data : Mat α) : Except PyErr (Mat α) := (transform T data T.init).2

/-! ## Center -/

/-- Attributes of `Center` (`_Center.py` 24-31). -/
structure CenterState (α : Type) where
  configured : Bool
  means : Option (Mat α)

/-- `Center`, `_Center.py` 24-45.  Using a missing `means` is an `AttributeError`. -/
def center [Add α] [Sub α] [Zero α] [Div α] [NatCast α] : Trans α (CenterState α) Empty where
  init := ⟨false, none⟩
  reset _ := ⟨false, none⟩
  configured s := s.configured
  setConfigured s := { s with configured := true }
  configure data _ := (⟨true, some data.columnMeans⟩, .ok ())
  doTransform s data :=
    match s.means with
    | none => .error .attributeError
    | some m => data.copy.subByVector m
  doInverse s data :=
    match s.means with
    | none => .error .attributeError
    | some m => data.copy.addByVector m
  setParam p := p.elim

/-! ## Standardize -/

/-- Attributes of `Standardize` (`_Standardize.py` 25-34) and of `RowNorm` (`_RowNorm.py` 25-34). -/
structure StatState (α : Type) where
  configured : Bool
  means : Option (Mat α)
  stds : Option (Mat α)

/-- The loop `for i in range(std_devs.num_rows()): if std_devs.get(i, 0) == 0: std_devs.set(i, 0, 1)`
(`_Standardize.py` 40-42, `_RowNorm.py` 40-42); `isZero` is `== real(0)`. -/
def guardLoop [One α] (isZero : α → Bool) : List Int → Mat α → Except PyErr (Mat α)
  | [], m => .ok m
  | i :: is, m => do
    let x ← m.get i 0
    if isZero x then
      let m' ← m.set i 0 1
      guardLoop isZero is m'
    else guardLoop isZero is m

/-- The division-by-zero guard. -/
def guardStds [One α] (isZero : α → Bool) (m : Mat α) : Except PyErr (Mat α) :=
  guardLoop isZero (pyRange 0 m.rows) m

section standardize
variable [Add α] [Sub α] [Mul α] [Zero α] [One α] [Div α] [NatCast α] [HasSqrt α]

/-- `Standardize`, `_Standardize.py` 25-61.  When the guard raises (`IndexError` for data without
columns) the new statistics are stored but `configured` stays as it was. -/
def standardize (isZero : α → Bool) : Trans α (StatState α) Empty where
  init := ⟨false, none, none⟩
  reset _ := ⟨false, none, none⟩
  configured s := s.configured
  setConfigured s := { s with configured := true }
  configure data s :=
    match guardStds isZero data.columnStdevs with
    | .error e => (⟨s.configured, some data.columnMeans, some data.columnStdevs⟩, .error e)
    | .ok d => (⟨true, some data.columnMeans, some d⟩, .ok ())
  doTransform s data :=
    match s.means, s.stds with
    | some m, some d => do
      let r ← data.copy.subByVector m
      r.divByVector d
    | _, _ => .error .attributeError
  doInverse s data :=
    match s.means, s.stds with
    | some m, some d => do
      let r ← data.copy.mulByVector d
      r.addByVector m
    | _, _ => .error .attributeError
  setParam p := p.elim

/-! ## RowNorm -/

/-- NumPy in-place arithmetic of an r×c array with an r'×1 array: rows are matched, or a single row
is broadcast; anything else is a `ValueError` (the result would not have the shape r×c). -/
def inPlaceCol (f : α → α → α) (M v : Mat α) : Except PyErr (Mat α) :=
  if hc : v.cols = 1 then
    if hr : v.rows = M.rows then
      .ok ⟨M.rows, M.cols, Matrix.of fun i j => f (M.data i j) (v.data ⟨i, by omega⟩ ⟨0, by omega⟩)⟩
    else if hr : v.rows = 1 then
      .ok ⟨M.rows, M.cols, Matrix.of fun i j => f (M.data i j) (v.data ⟨0, by omega⟩ ⟨0, by omega⟩)⟩
    else .error .valueError
  else .error .valueError

/-- `RowNorm`, `_RowNorm.py` 25-60.  `configure` does not set `configured`. -/
def rowNorm (isZero : α → Bool) : Trans α (StatState α) Empty where
  init := ⟨false, none, none⟩
  reset _ := ⟨false, none, none⟩
  configured s := s.configured
  setConfigured s := { s with configured := true }
  configure data s :=
    match guardStds isZero data.rowStdevs with
    | .error e => (⟨s.configured, some data.rowMeans, some data.rowStdevs⟩, .error e)
    | .ok d => (⟨s.configured, some data.rowMeans, some d⟩, .ok ())
  doTransform s data :=
    match s.means, s.stds with
    | some m, some d => do
      let r ← inPlaceCol (· - ·) data.copy m
      inPlaceCol (· / ·) r d
    | _, _ => .error .attributeError
  doInverse s data :=
    match s.means, s.stds with
    | some m, some d => do
      let r ← inPlaceCol (· * ·) data.copy d
      inPlaceCol (· + ·) r m
    | _, _ => .error .attributeError
  setParam p := p.elim

end standardize

/-! ## Log -/

/-- Attributes of `Log` (`_Log.py` 25-30). -/
structure LogState (α : Type) where
  configured : Bool
  base : α
  offset : α

/-- Assignments to the attributes of `Log`. -/
inductive LogParam (α : Type) where
  | base (v : α)
  | offset (v : α)

/-- `_base_conversion_factor`, `_Log.py` 78-85. -/
def logFactor [One α] [Div α] [HasLog α] (e : α) (eq : α → α → Bool) (base : α) : α :=
  if !eq base e then 1 / HasLog.log base else 1

/-- `Log`, `_Log.py` 25-85; `e` is `np.e`, `eq` and `le` the float comparisons.
Assigning `base` runs `validate_base` and then `reset`; `offset` has no validator. -/
def log [Zero α] [One α] [Add α] [Sub α] [Mul α] [Div α] [HasLog α] [HasExp α] (e : α)
    (eq le : α → α → Bool) : Trans α (LogState α) (LogParam α) where
  init := ⟨false, e, 1⟩
  reset s := { s with configured := false }
  configured s := s.configured
  setConfigured s := { s with configured := true }
  configure _ s := ({ s with configured := true }, .ok ())
  doTransform s data :=
    let shifted := data.addScalar s.offset
    if shifted.any fun x => le x 0 then .error .valueError
    else .ok ((shifted.map HasLog.log).smul (logFactor e eq s.base))
  doInverse s data :=
    .ok (((data.div (logFactor e eq s.base)).map HasExp.exp).subScalar s.offset)
  setParam p s :=
    match p with
    | .base v =>
      if eq v 1 || le v 0 then (s, .error .valueError)
      else (⟨false, v, s.offset⟩, .ok ())
    | .offset v => ({ s with offset := v }, .ok ())

/-! ## PassThrough -/

/-- `PassThrough` (`_PassThrough.py` 20-28): both directions return the argument. -/
def passThrough : Trans α Bool Empty where
  init := false
  reset _ := false
  configured s := s
  setConfigured _ := true
  configure _ _ := (true, .ok ())
  doTransform _ data := .ok data
  doInverse _ data := .ok data
  setParam p := p.elim

end Verif.Transf
