import Verif.Alg.CCA
import Verif.Alg.PCA

/-!
# FastICA

`src/wai/ma/algorithm/ica/_FastICA.py` and `ica/approxfun`.  `np.linalg.svd`, `np.linalg.eig`, `np.linalg.lstsq`, `np.amax` and the
random initial weights are parameters.  The state reached when training raises is not modelled here.
-/

namespace Verif

open Mat Transf

variable {α : Type}

/-- `Algorithm`, `_FastICA.py` 260-262. -/
inductive IcaAlg
  | parallel
  | deflation

/-- Options and external routines; `g` is `fun.apply`. -/
structure IcaCfg (α : Type) where
  whiten : Bool
  maxIter : Nat
  tol : α
  alg : IcaAlg
  g : Mat α → Except PyErr (Mat α × Mat α)
  winit : Nat → Mat α
  svd : Mat α → Except PyErr (Mat α × Mat α × Mat α)
  eig : Mat α → Except PyErr (Mat α × Mat α)
  le : α → α → Bool
  lstsq : Mat α → Except PyErr (Mat α)
  amax : Mat α → α

/-- Attributes, `_FastICA.py` 31-43. -/
structure IcaObj (α : Type) where
  numComponents : Nat
  center : Option (CenterState α)
  components : Option (Mat α)
  sources : Option (Mat α)
  mixing : Option (Mat α)
  whitening : Option (Mat α)
  initialised : Bool

/-- A new object: `__init__` and `initialize()`, lines 31-43 and 60-68. -/
def icaFresh : IcaObj α := ⟨5, some ⟨false, none⟩, none, none, none, none, false⟩

/-- `reset`, lines 70-74: `sources`, `center` and `num_components` stay. -/
def icaReset (o : IcaObj α) : IcaObj α := { o with components := none, mixing := none, whitening := none, initialised := false }

section code
variable [Field α] [LinearOrder α] [HasSqrt α]

/-- `Cube.apply`, `approxfun/_Cube.py` 28-31. -/
def cubeApply (x : Mat α) : Except PyErr (Mat α × Mat α) :=
  .ok (x.powElementwise 3, ((x.powElementwise 2).smul 3).rowMeans)

/-- `Exponential.apply`, `approxfun/_Exponential.py` 29-38. -/
def exponentialApply [HasExp α] (x : Mat α) : Except PyErr (Mat α × Mat α) := do
  let x2 := x.powElementwise 2
  let e := ((x2.div 2).smul (-1)).exp
  let gx ← x.mulElementwise e
  let ones ← Factory.filledLike gx 1
  let t ← ones.sub x2
  let t ← t.mulElementwise e
  .ok (gx, t.rowMeans)

/-- `LogCosH.apply`, `approxfun/_LogCosH.py` 34-43. -/
def logCosHApply [HasTanh α] (a : α) (x : Mat α) : Except PyErr (Mat α × Mat α) := do
  let x := x.smul a
  let gx := x.tanh
  let g ← Factory.zeros (gx.rows : Int) 1
  let ones ← Factory.filled 1 (gx.cols : Int) (1 : α)
  let g ← loopM (fun i g => do
    let gxi ← gx.getRow i
    let t ← ones.sub (gxi.powElementwise 2)
    g.set i 0 ((t.smul a).meanAll)) (pyRange 0 (gx.rows : Int)) g
  .ok (gx, g)

/-- `w.div(w.pow_elementwise(2).sum(-1).sqrt().as_real())`. -/
def unitVec (w : Mat α) : Mat α := w.div (HasSqrt.sqrt ((w.powElementwise 2).total))

/-- `decorrelate`, lines 189-207 (both branches for `j > 0` do the same). -/
def decorrelate (w W : Mat α) (j : Int) : Except PyErr (Mat α) :=
  if j = 0 then .ok w
  else do
    let Wp ← W.getRows (.tuple 0 j)
    let a ← w.transpose.mul Wp.transpose
    let b ← a.mul Wp
    w.sub b.transpose

/-- One pass of the inner loop of `deflation`, lines 144-157, with the stopping test. -/
def icaStep (cfg : IcaCfg α) (X W : Mat α) (j : Int) (w : Mat α) : Except PyErr (Mat α × Bool) := do
  let P ← w.transpose.mul X
  let r ← cfg.g P.transpose
  let sc ← X.scaleByRowVector r.1
  let w1 ← sc.rowMeans.sub (w.smul r.2.meanAll)
  let w1 ← decorrelate w1 W j
  let w1 := unitVec w1
  let e ← w1.mulElementwise w
  .ok (w1, decide (|(|e.total| - 1)| < cfg.tol))

/-- `deflation`, lines 131-161. -/
def deflation (cfg : IcaCfg α) (nc : Nat) (X Winit : Mat α) : Except PyErr (Mat α) := do
  let W ← Factory.zeros (nc : Int) (nc : Int)
  loopM (fun j W => do
    let row ← Winit.getRow j
    let w ← breakLoop (fun _ w => icaStep cfg X W j w) (pyRange 0 (cfg.maxIter : Int)) (unitVec row.transpose)
    W.setRow j w) (pyRange 0 (nc : Int)) W

/-- `symmetric_decorrelation`, lines 209-226. -/
def symDecorrelation (cfg : IcaCfg α) (W : Mat α) : Except PyErr (Mat α) := do
  let wwt ← W.mul W.transpose
  let r ← cfg.eig wwt
  let s := eigenvaluesSorted cfg.le r.1 true
  let u ← eigenvectorsSorted cfg.le wwt.rows r.1 r.2 true
  let us ← u.scaleByRowVector (s.sqrt.applyElementwise fun x => 1 / x)
  let a ← us.mul u.transpose
  a.mul W

/-- The matrix that is decorrelated in one pass of `parallel`, lines 176-180. -/
def parallelArg (cfg : IcaCfg α) (X W : Mat α) : Except PyErr (Mat α) := do
  let P ← W.transpose.mul X
  let r ← cfg.g P
  let a ← r.1.mul X.transpose
  let sc ← W.scaleByColumnVector r.2
  (a.div (X.cols : α)).sub sc

/-- One pass of `parallel`, lines 175-185. -/
def parallelStep (cfg : IcaCfg α) (X W : Mat α) : Except PyErr (Mat α × Bool) := do
  let arg ← parallelArg cfg X W
  let W1 ← symDecorrelation cfg arg
  let M ← W1.mul W.transpose
  .ok (W1, decide (cfg.amax ((M.diag.abs).subScalar 1).abs < cfg.tol))

/-- `parallel`, lines 163-187. -/
def parallel (cfg : IcaCfg α) (X Winit : Mat α) : Except PyErr (Mat α) := do
  let W ← symDecorrelation cfg Winit
  breakLoop (fun _ W => parallelStep cfg X W) (pyRange 0 (cfg.maxIter : Int)) W

/-- The unmixing matrix, lines 111-118. -/
def unmix (cfg : IcaCfg α) (nc : Nat) (X1 : Mat α) : Except PyErr (Mat α) :=
  match cfg.alg with
  | .deflation => deflation cfg nc X1 (cfg.winit nc)
  | .parallel => parallel cfg X1 (cfg.winit nc)

/-- The whitening matrix, lines 96-105; `X` has the features as rows and is centred. -/
def icaWhitening (cfg : IcaCfg α) (nc : Nat) (X : Mat α) : Except PyErr (Mat α) := do
  let d ← cfg.svd X
  let s ← d.2.1.transpose.getRows (.tuple 0 (min X.rows X.cols : Nat))
  let t ← (svdU d.1).scaleByRowVector (s.applyElementwise fun a => 1 / a)
  t.transpose.getRows (.tuple 0 (min t.transpose.rows nc : Nat))

/-- `configure`, lines 77-129. -/
def icaConfigure (cfg : IcaCfg α) (o : IcaObj α) (data : Mat α) : Except PyErr (IcaObj α) :=
  let k := min data.cols data.rows
  let nc := if cfg.whiten then min o.numComponents k else k
  if cfg.whiten then do
    let c ← optCentre o.center data
    let X := c.2.transpose
    let wh ← icaWhitening cfg nc X
    let X1 ← wh.mul X
    let W ← unmix cfg nc (X1.smul (HasSqrt.sqrt (data.rows : α)))
    let comp ← W.mul wh
    let s ← comp.mul X
    let mix ← comp.inverse cfg.lstsq
    .ok ⟨nc, some c.1, some comp, some s.transpose, some mix, some wh, true⟩
  else do
    let X := data.transpose
    let W ← unmix cfg nc X
    let s ← W.mul X
    let mix ← W.inverse cfg.lstsq
    .ok { o with numComponents := nc, components := some W, sources := some s.transpose, mixing := some mix, initialised := true }

/-- `transform`, lines 237-251: every call trains anew and returns the sources. -/
def icaTransform (cfg : IcaCfg α) (o : IcaObj α) (data : Mat α) : Except PyErr (IcaObj α × Mat α) := do
  let o ← icaConfigure cfg (icaReset o) data
  match o.sources with
  | none => .error .typeError
  | some s => .ok (o, s)

/-- `reconstruct`, lines 253-257; an uninitialised object raises `MatrixAlgorithmsError`. -/
def icaReconstruct (o : IcaObj α) : Except PyErr (IcaObj α × Mat α) :=
  if o.initialised then
    match o.sources, o.mixing, o.center with
    | some s, some m, some c => do
      let r ← s.mul m.transpose
      let b ← (inverseTransform center r.transpose c).2
      .ok ({ o with center := some (inverseTransform center r.transpose c).1 }, b.transpose)
    | _, _, _ => .error .attributeError
  else .error .matrixAlgorithms

end code

end Verif
