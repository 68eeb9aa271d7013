import Verif.Core.Mat
import Verif.Core.Range
import Mathlib.Analysis.SpecialFunctions.Complex.Arg
import Mathlib.Analysis.SpecialFunctions.Trigonometric.Basic
import Mathlib.Analysis.Real.Sqrt

/-!
# The Fourier transformation

Model of `/repo/src/wai/ma/transformation/_FFT.py`.  numpy's `fft`/`ifft`/`fftshift`/`ifftshift` are modelled
by their documented formulas over exact complex numbers; numpy arrays of complex numbers are `Mat ℂ`.
-/

namespace Verif.Transf
open Verif Mat

/-- `OutputMode`, `_FFT.py` 25-35. -/
inductive OutputMode where
  | realOnly | imagOnly | realImagPairs | amplitudeOnly | phaseOnly | amplAnglePairs
  deriving DecidableEq, Repr

/-- `OutputMode(value)`, used when the attribute is assigned an `int` (`_FFT.py` 46-52). -/
def OutputMode.ofInt (v : Int) : Except PyErr OutputMode :=
  if v = 1 then .ok .realOnly
  else if v = 2 then .ok .imagOnly
  else if v = 3 then .ok .realImagPairs
  else if v = 4 then .ok .amplitudeOnly
  else if v = 8 then .ok .phaseOnly
  else if v = 12 then .ok .amplAnglePairs
  else .error .valueError

/-- The integer value of a mode. -/
def OutputMode.toInt : OutputMode → Int
  | .realOnly => 1 | .imagOnly => 2 | .realImagPairs => 3 | .amplitudeOnly => 4 | .phaseOnly => 8
  | .amplAnglePairs => 12

/-- `norm="ortho"` or `norm=None` of numpy: factor of the forward transformation. -/
noncomputable def fwdScale (ortho : Bool) (n : Nat) : ℂ := if ortho then ((1 / Real.sqrt n : ℝ) : ℂ) else 1

/-- Factor of the backward transformation. -/
noncomputable def bwdScale (ortho : Bool) (n : Nat) : ℂ := if ortho then ((1 / Real.sqrt n : ℝ) : ℂ) else 1 / n

/-- The root of unity `exp(2πi t / n)`. -/
noncomputable def unitRoot (n : Nat) (t : Int) : ℂ := Complex.exp (2 * Real.pi * Complex.I * t / n)

/-- `np.fft.fft(a, axis=1)` of a real array; an array without columns is rejected by numpy. -/
noncomputable def npFft (ortho : Bool) (A : Mat ℝ) : Except PyErr (Mat ℂ) :=
  if A.cols = 0 then .error .valueError
  else .ok ⟨A.rows, A.cols, Matrix.of fun i k =>
    fwdScale ortho A.cols * sumFin fun j => (A.data i j : ℂ) * unitRoot A.cols (-((j : Nat) * (k : Nat) : Int))⟩

/-- `np.fft.ifft(a, axis=1)`. -/
noncomputable def npIfft (ortho : Bool) (A : Mat ℂ) : Except PyErr (Mat ℂ) :=
  if A.cols = 0 then .error .valueError
  else .ok ⟨A.rows, A.cols, Matrix.of fun i k =>
    bwdScale ortho A.cols * sumFin fun j => A.data i j * unitRoot A.cols ((j : Nat) * (k : Nat) : Int)⟩

/-- Source index of `np.fft.fftshift` along an axis of length `n`: `out[i] = in[(i - n//2) mod n]`. -/
def fftIdx {n : Nat} (i : Fin n) : Fin n := ⟨(i + (n - n / 2)) % n, Nat.mod_lt _ (by have := i.2; omega)⟩

/-- Source index of `np.fft.ifftshift`: `out[i] = in[(i + n//2) mod n]`. -/
def ifftIdx {n : Nat} (i : Fin n) : Fin n := ⟨(i + n / 2) % n, Nat.mod_lt _ (by have := i.2; omega)⟩

/-- `np.fft.fftshift(a)`: without `axes`, **every** axis is shifted. -/
def fftshift {β : Type} (A : Mat β) : Mat β :=
  ⟨A.rows, A.cols, Matrix.of fun i j => A.data (fftIdx i) (fftIdx j)⟩

/-- `np.fft.ifftshift(a)`. -/
def ifftshift {β : Type} (A : Mat β) : Mat β :=
  ⟨A.rows, A.cols, Matrix.of fun i j => A.data (ifftIdx i) (ifftIdx j)⟩

/-- `array[:, i]`. -/
def colOf {β : Type} (A : Mat β) (i : Int) : Except PyErr (Fin A.rows → β) := do
  let c ← pyIndex A.cols i
  pure fun r => A.data r c

/-- `np.stack(columns, axis=1)` for columns of length `m`. -/
def stack {β : Type} (m : Nat) (cols : List (Fin m → β)) : Except PyErr (Mat β) :=
  if cols = [] then .error .valueError
  else .ok ⟨m, cols.length, Matrix.of fun i j => cols.get j i⟩

/-- `if n % 2 == 0: columns.append(x)`. -/
def evenTail {β : Type} (n : Nat) (x : Except PyErr β) : Except PyErr (List β) :=
  if n % 2 = 0 then x.map fun c => [c] else .ok []

/-- `FFT.fft`, `_FFT.py` 80-93. -/
noncomputable def fftFwd (ortho : Bool) (A : Mat ℝ) : Except PyErr (Mat ℂ) := do
  let f ← npFft ortho A
  pure (fftshift f)

/-- `FFT.ifft`, `_FFT.py` 95-106. -/
noncomputable def fftBwd (ortho : Bool) (A : Mat ℂ) : Except PyErr (Mat ℂ) := npIfft ortho (ifftshift A)

/-- `internal_format`, `_FFT.py` 108-138. -/
def internalFormat (F : Mat ℂ) : Except PyErr (Mat ℝ) := do
  let z ← colOf F ((F.cols / 2 : Nat) : Int)
  let ps ← (pyRange ((F.cols / 2 + 1 : Nat) : Int) F.cols).mapM fun i => do
    let c ← colOf F i
    pure [fun r => (c r).re, fun r => (c r).im]
  let ny ← evenTail F.cols ((colOf F 0).map fun c r => (c r).re)
  stack F.rows ((fun r => (z r).re) :: (ps.flatten ++ ny))

/-- The loop distributing the columns, `_FFT.py` 161-163. -/
def distribute {V : Type} (col : Int → Except PyErr V) :
    List Int → List V × List V → Except PyErr (List V × List V)
  | [], acc => .ok acc
  | i :: is, (re, im) => do
    let c ← col i
    if i % 2 = 1 then distribute col is (re ++ [c], im) else distribute col is (re, im ++ [c])

/-- Mirroring the columns, dropping the duplicate Nyquist term and recombining, `_FFT.py` 165-185. -/
def recompose (m : Nat) (ny : Bool) (re im : List (Fin m → ℝ)) : Except PyErr (Mat ℂ) := do
  let im := if ny then im ++ [fun _ => 0] else im
  let re' := (re.drop 1).reverse ++ re
  let im' := ((im.drop 1).reverse.map fun c r => -(c r)) ++ im
  let R ← stack m (if ny then re'.dropLast else re')
  let I ← stack m (if ny then im'.dropLast else im')
  if h : R.rows = I.rows ∧ R.cols = I.cols then
    pure ⟨R.rows, R.cols, Matrix.of fun i j =>
      ⟨R.data i j, I.data (i.cast h.1) (j.cast h.2)⟩⟩
  else .error .valueError

/-- `internal_unformat`, `_FFT.py` 140-185. -/
def internalUnformat (A : Mat ℝ) : Except PyErr (Mat ℂ) := do
  let c0 ← colOf A 0
  let p ← distribute (colOf A) (pyRange 1 A.cols) ([c0], [fun _ => 0])
  recompose A.rows (A.cols % 2 = 0) p.1 p.2

/-- The complex columns assembled in `format_amplitude_only` and `format_phase_angle_only`,
`_FFT.py` 252-258 and 264-270. -/
def complexColumns (A : Mat ℝ) : Except PyErr (Mat ℂ) := do
  let c0 ← colOf A 0
  let is ← pyRangeStep 2 A.cols 2
  let ps ← is.mapM fun i => do
    let a ← colOf A (i - 1)
    let b ← colOf A i
    pure fun r => (⟨a r, b r⟩ : ℂ)
  let ny ← evenTail A.cols ((colOf A (-1)).map fun c r => (⟨c r, 0⟩ : ℂ))
  stack A.rows ((fun r => (⟨c0 r, 0⟩ : ℂ)) :: (ps ++ ny))

/-- `format_real_component_only`, `_FFT.py` 226-232. -/
def formatReal (A : Mat ℝ) : Except PyErr (Mat ℝ) := do
  let c0 ← colOf A 0
  let is ← pyRangeStep 1 A.cols 2
  let ps ← is.mapM (colOf A)
  stack A.rows (c0 :: ps)

/-- `format_imag_component_only`, `_FFT.py` 235-244. -/
def formatImag (A : Mat ℝ) : Except PyErr (Mat ℝ) := do
  let _ ← colOf A 0
  let is ← pyRangeStep 2 A.cols 2
  let ps ← is.mapM (colOf A)
  stack A.rows ((fun _ => 0) :: (ps ++ if A.cols % 2 = 0 then [fun _ => 0] else []))

/-- `format_ampl_angle_pairs`, `_FFT.py` 275-286. -/
noncomputable def formatAmplAngle (A : Mat ℝ) : Except PyErr (Mat ℝ) := do
  let c0 ← colOf A 0
  let is ← pyRangeStep 2 A.cols 2
  let ps ← is.mapM fun i => do
    let a ← colOf A (i - 1)
    let b ← colOf A i
    pure [fun r => ‖(⟨a r, b r⟩ : ℂ)‖, fun r => Complex.arg ⟨a r, b r⟩]
  let ny ← evenTail A.cols (colOf A (-1))
  stack A.rows (c0 :: (ps.flatten ++ ny))

/-- `inverse_format_ampl_angle_pairs`, `_FFT.py` 293-306. -/
noncomputable def unformatAmplAngle (A : Mat ℝ) : Except PyErr (Mat ℝ) := do
  let c0 ← colOf A 0
  let is ← pyRangeStep 2 A.cols 2
  let ps ← is.mapM fun i => do
    let ampl ← colOf A (i - 1)
    let angle ← colOf A i
    pure [fun r => ((ampl r : ℂ) * (Real.cos (angle r) + Complex.I * Real.sin (angle r))).re,
      fun r => ((ampl r : ℂ) * (Real.cos (angle r) + Complex.I * Real.sin (angle r))).im]
  let ny ← evenTail A.cols (colOf A (-1))
  stack A.rows (c0 :: (ps.flatten ++ ny))

/-- Elementwise function of an array. -/
def mapMat {β γ : Type} (f : β → γ) (A : Mat β) : Mat γ := ⟨A.rows, A.cols, Matrix.of fun i j => f (A.data i j)⟩

/-- `format_output`, `_FFT.py` 187-207. -/
noncomputable def formatOutput (mode : OutputMode) (A : Mat ℝ) : Except PyErr (Mat ℝ) :=
  match mode with
  | .realOnly => formatReal A
  | .imagOnly => formatImag A
  | .realImagPairs => .ok A
  | .amplitudeOnly => do
    let C ← complexColumns A
    pure (mapMat (fun z => ‖z‖) C)
  | .phaseOnly => do
    let C ← complexColumns A
    pure (mapMat Complex.arg C)
  | .amplAnglePairs => formatAmplAngle A

/-- `inverse_format_output`, `_FFT.py` 209-223. -/
noncomputable def inverseFormatOutput (mode : OutputMode) (A : Mat ℝ) : Except PyErr (Mat ℝ) :=
  match mode with
  | .realImagPairs => .ok A
  | .amplAnglePairs => unformatAmplAngle A
  | _ => .error .valueError

/-- `FFT.do_transform`, `_FFT.py` 58-67. -/
noncomputable def fftTransform (ortho : Bool) (mode : OutputMode) (data : Mat ℝ) : Except PyErr (Mat ℝ) := do
  let f ← fftFwd ortho data
  let i ← internalFormat f
  formatOutput mode i

/-- `FFT.do_inverse_transform`, `_FFT.py` 69-78.  The result is an array of complex numbers. -/
noncomputable def fftInverse (ortho : Bool) (mode : OutputMode) (data : Mat ℝ) : Except PyErr (Mat ℂ) := do
  let i ← inverseFormatOutput mode data
  let f ← internalUnformat i
  fftBwd ortho f

end Verif.Transf
