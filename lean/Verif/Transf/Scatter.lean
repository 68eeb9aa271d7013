import Verif.Core.Utils
import Verif.Core.Factory
import Verif.Transf.Basic

/-!
# Multiplicative scatter correction and the Y-gradient filter

Models of `/repo/src/wai/ma/transformation/_MultiplicativeScatterCorrection.py` and
`_YGradientGLSWSavitzkyGolayFilter.py`.
-/

namespace Verif.Transf
open Verif Mat

variable {α : Type}

/-! ## Multiplicative scatter correction -/

section msc

/-- `range_contains`, `_MultiplicativeScatterCorrection.py` 98-102; `le` is `<=`. -/
def inRange (le : α → α → Bool) (r : α × α) (v : α) : Bool := le r.1 v && le v r.2

/-- The loop collecting reference (`x`) and filtered (`y`) amplitudes,
`_MultiplicativeScatterCorrection.py` 81-88. -/
def mscGather (le : α → α → Bool) (r : α × α) (average filtered : Mat α) :
    List Int → Except PyErr (List α × List α)
  | [] => .ok ([], [])
  | i :: is => do
    let w ← filtered.get i 0
    if inRange le r w then do
      let y ← filtered.get i 1
      let x ← average.get i 1
      let (xs, ys) ← mscGather le r average filtered is
      pure (x :: xs, y :: ys)
    else mscGather le r average filtered is

/-- The loop correcting the amplitudes, `_MultiplicativeScatterCorrection.py` 92-94. -/
def mscCorrect [Sub α] [Div α] (le : α → α → Bool) (r : α × α) (inter slope : α) :
    List Int → Mat α → Except PyErr (Mat α)
  | [], res => .ok res
  | i :: is, res => do
    let w ← res.get i 0
    if inRange le r w then do
      let v ← res.get i 1
      let res ← res.set i 1 ((v - inter) / slope)
      mscCorrect le r inter slope is res
    else mscCorrect le r inter slope is res

variable [Add α] [Sub α] [Mul α] [Div α] [Zero α] [NatCast α]

/-- One range, `_MultiplicativeScatterCorrection.py` 80-94. -/
def mscRange (le : α → α → Bool) (average filtered : Mat α) (res : Mat α) (r : α × α) :
    Except PyErr (Mat α) := do
  let (x, y) ← mscGather le r average filtered (pyRange 0 average.rows)
  let p := Utils.linearRegression x y
  mscCorrect le r p.1 p.2 (pyRange 0 res.rows) res

/-- `RangeBased.correct`, `_MultiplicativeScatterCorrection.py` 72-96.  The prefilter (an arbitrary
transformation object) is a function. -/
def mscApply (le : α → α → Bool) (prefilter : Option (Mat α → Except PyErr (Mat α)))
    (ranges : List (α × α)) (average data : Mat α) : Except PyErr (Mat α) := do
  let filtered ← match prefilter with
    | some f => f data
    | none => .ok data
  ranges.foldlM (mscRange le average filtered) data.copy

/-- `configure`, `_MultiplicativeScatterCorrection.py` 43-48: the reference spectrum. -/
def mscAverage (data : Mat α) : Except PyErr (Mat α) := do
  let wave ← data.getColumn 0
  let amplitudes ← data.getSubMatrix (.tuple 0 data.rows) (.tuple 1 data.cols)
  wave.concatAlongColumns amplitudes.rowMeans

/-- `create_configuration_matrix`, `_MultiplicativeScatterCorrection.py` 33-41. -/
def mscConfigMatrix : List (Mat α) → Except PyErr (Mat α)
  | [] => .error .valueError
  | s :: spectra => do
    let w ← s.getColumn 0
    let amps ← (s :: spectra).mapM (·.getColumn 1)
    Mat.multiConcat 1 (w :: amps)

/-- Attributes of `MultiplicativeScatterCorrection`. -/
structure MSCState (α : Type) where
  configured : Bool
  average : Option (Mat α)

/-- `MultiplicativeScatterCorrection`, `_MultiplicativeScatterCorrection.py` 26-54, for a fixed
correction object (the attribute `prefilter` of the outer class is never used).  Its `reset` is the
inherited one, which does not clear `average`. -/
def msc (le : α → α → Bool) (prefilter : Option (Mat α → Except PyErr (Mat α)))
    (ranges : List (α × α)) : Trans α (MSCState α) Empty where
  init := ⟨false, none⟩
  reset s := { s with configured := false }
  configured s := s.configured
  setConfigured s := { s with configured := true }
  configure data s :=
    match mscAverage data with
    | .error e => (s, .error e)
    | .ok a => (⟨true, some a⟩, .ok ())
  doTransform s data :=
    match s.average with
    | none => .error .attributeError
    | some a => mscApply le prefilter ranges a data
  doInverse _ _ := .error .notImplemented
  setParam p := p.elim

end msc

/-! ## The Y-gradient filter -/

section ygrad
variable [Add α] [Mul α] [Zero α]

/-- `extend_matrix`, `_YGradientGLSWSavitzkyGolayFilter.py` 51-58. -/
def extendMatrix (data : Mat α) : Except PyErr (Mat α) := do
  let first ← data.getRow 0
  let last ← data.getRow ((data.rows : Int) - 1)
  let a ← first.concatAlongRows first
  let b ← a.concatAlongRows data
  let c ← b.concatAlongRows last
  c.concatAlongRows last

/-- `smooth_row`, `_YGradientGLSWSavitzkyGolayFilter.py` 63-74, loop part: `m` runs over the window,
the coefficient index is `len - 1 - m`, the row index `i - (m - 2)`. -/
def smoothLoop (coef : List α) (i : Int) (M : Mat α) : List Int → Mat α → Except PyErr (Mat α)
  | [], res => .ok res
  | m :: ms, res => do
    let row ← M.getRow (i - (m - 2))
    let c ← Utils.item coef ((coef.length : Int) - 1 - m)
    let res ← res.add (row.smul c)
    smoothLoop coef i M ms res

/-- `smooth_row`. -/
def smoothRow (coef : List α) (i : Int) (M : Mat α) : Except PyErr (Mat α) := do
  let res ← Factory.zeros 1 M.cols
  smoothLoop coef i M (pyRange 0 coef.length) res

/-- The row loop of `do_transform`, `_YGradientGLSWSavitzkyGolayFilter.py` 41-43. -/
def rowLoop (coef : List α) (ext : Mat α) : List Int → Mat α → Except PyErr (Mat α)
  | [], res => .ok res
  | i :: is, res => do
    let r ← smoothRow coef i ext
    let res ← res.setRow i r
    rowLoop coef ext is res

/-- `do_transform`, `_YGradientGLSWSavitzkyGolayFilter.py` 37-49. -/
def ygradApply (coef : List α) (data : Mat α) : Except PyErr (Mat α) := do
  let ext ← extendMatrix data
  let res ← Factory.zerosLike ext
  let res ← rowLoop coef ext (pyRange 2 ((ext.rows : Int) - 2)) res
  res.getSubMatrix (.tuple 2 ((res.rows : Int) - 2)) (.tuple 0 res.cols)

/-- The coefficients, `_YGradientGLSWSavitzkyGolayFilter.py` 28-32. -/
def ygradCoef [Neg α] [OfNat α 1] [OfNat α 2] [OfNat α 10] [Div α] : List α :=
  [2 / 10, 1 / 10, 0, -(1 / 10), -(2 / 10)]

/-- `YGradientGLSWSavitzkyGolayFilter`: nothing is learnt; the inverse is rejected with the package's
own error (60-61). -/
def ygrad (coef : List α) : Trans α Bool Empty where
  init := false
  reset _ := false
  configured s := s
  setConfigured _ := true
  configure _ _ := (true, .ok ())
  doTransform _ data := ygradApply coef data
  doInverse _ _ := .error .matrixAlgorithms
  setParam p := p.elim

end ygrad
end Verif.Transf
