import Verif.Alg.KernelPLS
import Verif.Alg.SimplsPls1

/-!
# DIPLS

`src/wai/ma/algorithm/pls/_DIPLS.py`.  The inverse is a parameter.  An error message returned by training is a
value, an exception is an `Except.error`.
-/

namespace Verif

open Mat Transf

variable {α : Type}

/-! ## The code -/

/-- `ModelAdaptionStrategy`, `_DIPLS.py` 306-309. -/
inductive Strategy where
  | unsupervised | supervised | semisupervised
  deriving DecidableEq

/-- Options and the inverse. -/
structure DiplsCfg (α : Type) where
  K : Int
  lambda : α
  inv : Mat α → Except PyErr (Mat α)

/-- The attributes of the object that survive `reset` (`_DIPLS.py` 58-68).  The strategy and the `Center`
objects are `None` after the constructor (28-45).  `ns` and `nt` are numbers of rows. -/
structure DiplsObj (α : Type) where
  strategy : Option Strategy
  ns : Nat
  nt : Nat
  xc : Option (CenterState α)
  xsc : Option (CenterState α)
  xtc : Option (CenterState α)

/-- Variables of the training loop; the collected matrices are `None` before the first component. -/
structure DiplsVars (α : Type) where
  X : Mat α
  Xs : Mat α
  Xt : Mat α
  y : Mat α
  c : Option (Mat α)
  T : Option (Mat α)
  Ts : Option (Mat α)
  Tt : Option (Mat α)
  P : Option (Mat α)
  Ps : Option (Mat α)
  Pt : Option (Mat α)
  W : Option (Mat α)

/-- Attributes after successful training. -/
structure DiplsModel (α : Type) where
  obj : DiplsObj α
  b0 : α
  vars : DiplsVars α
  b : Mat α

/-- Result of `do_perform_initialization`: an error message or `None`. -/
inductive DiplsResult (α : Type) where
  | message (s : String)
  | trained (m : DiplsModel α)

/-- The message of lines 114-117. -/
def msgNoInit : String :=
  "DIPLS must be initialized with one of the three following methods:\n - initializeSupervised" ++
    " - initializeSemiSupervised - initializeUnsupervisedSupervised"

/-- The message of line 121. -/
def msgFew : String := "Number of source and target samples has to be > 1."

section code
variable [Field α] [HasSqrt α]

/-- The object after `initialize()` without arguments, `_DIPLS.py` 48-54. -/
def diplsFresh : DiplsObj α := ⟨some .unsupervised, 0, 0, some center.init, some center.init, some center.init⟩

/-- `center.transform(A)` of an attribute that may be `None`. -/
def optCentre (s : Option (CenterState α)) (A : Mat α) : Except PyErr (CenterState α × Mat α) :=
  match s with
  | none => .error .attributeError
  | some s => do
    let B ← (transform center A s).2
    .ok ((transform center A s).1, B)

/-- The source rows, target rows and training rows, `_DIPLS.py` 124-145. -/
def diplsSelect (o : DiplsObj α) (X : Mat α) : Except PyErr (Mat α × Mat α × Mat α) :=
  match o.strategy with
  | none => .error .nameError
  | some st => do
    let Xs ← X.getRows (.tuple 0 (o.ns : Int))
    let Xt ← X.getRows (.tuple (o.ns : Int) (X.rows : Int))
    match st with
    | .unsupervised => .ok (Xs, Xt, Xs)
    | .supervised => .ok (Xs, Xt, X)
    | .semisupervised => do
      let X ← X.getRows (.tuple 0 (2 * (o.ns : Int)))
      .ok (Xs, Xt, X)

/-- `Z^T Z * (1 / (n - 1))`, `_DIPLS.py` 162-163. -/
def diplsCov (n : Nat) (Z : Mat α) : Except PyErr (Mat α) := do
  let a ← Z.transpose.mul Z
  .ok (a.smul (1 / ((n : α) - 1)))

/-- The difference of the covariances, `_DIPLS.py` 162-164. -/
def diplsDiff (o : DiplsObj α) (s : DiplsVars α) : Except PyErr (Mat α) := do
  let a ← diplsCov o.ns s.Xs
  let b ← diplsCov o.nt s.Xt
  a.sub b

/-- The domain invariant weights, `_DIPLS.py` 160-167; `I` is `factory.eye(num_features)`, line 109. -/
def diplsWeights (cfg : DiplsCfg α) (o : DiplsObj α) (I : Mat α) (s : DiplsVars α) : Except PyErr (Mat α) := do
  let lhs ← s.y.transpose.mul s.X
  let D ← diplsDiff o s
  let M ← I.add (D.smul (cfg.lambda / (((2 : Nat) : α) * s.y.norm2Squared)))
  let R ← cfg.inv M
  let w ← (lhs.div s.y.norm2Squared).mul R
  w.transpose.normalized

/-- `(t^T t).inverse().mul(t^T).mul(X)`, `_DIPLS.py` 175-177. -/
def diplsLoad (cfg : DiplsCfg α) (t X : Mat α) : Except PyErr (Mat α) := do
  let g ← t.transpose.mul t
  let g ← cfg.inv g
  let a ← g.mul t.transpose
  a.mul X

/-- `(t^T t).inverse().mul(y^T).mul(t)`, `_DIPLS.py` 178. -/
def diplsCoef (cfg : DiplsCfg α) (t y : Mat α) : Except PyErr (Mat α) := do
  let g ← t.transpose.mul t
  let g ← cfg.inv g
  let a ← g.mul y.transpose
  a.mul t

/-- `Z.sub(t.mul(p))`, `_DIPLS.py` 181-184. -/
def diplsDefl (Z t p : Mat α) : Except PyErr (Mat α) := do
  let a ← t.mul p
  Z.sub a

/-- `concat`, `_DIPLS.py` 204-215. -/
def diplsConcat (A : Option (Mat α)) (a : Mat α) : Except PyErr (Option (Mat α)) :=
  match A with
  | none => .ok (some a)
  | some A => do
    let B ← A.concatAlongColumns a
    .ok (some B)

/-- Scores and loadings of one block: lines 170, 175, 181, 189 and 193 (and their `_s`, `_t` variants).
Returns the deflated block, the collected scores, the collected loadings, and the scores. -/
def diplsBlock (cfg : DiplsCfg α) (w Z : Mat α) (T P : Option (Mat α)) :
    Except PyErr (Mat α × Option (Mat α) × Option (Mat α) × Mat α) := do
  let t ← Z.mul w
  let p ← diplsLoad cfg t Z
  let Z ← diplsDefl Z t p
  let T ← diplsConcat T t
  let P ← diplsConcat P p.transpose
  .ok (Z, T, P, t)

/-- One component, `_DIPLS.py` 159-197. -/
def diplsStep (cfg : DiplsCfg α) (o : DiplsObj α) (I : Mat α) (_a : Int) (s : DiplsVars α) :
    Except PyErr (DiplsVars α) := do
  let w ← diplsWeights cfg o I s
  let x ← diplsBlock cfg w s.X s.T s.P
  let xs ← diplsBlock cfg w s.Xs s.Ts s.Ps
  let xt ← diplsBlock cfg w s.Xt s.Tt s.Pt
  let ca ← diplsCoef cfg x.2.2.2 s.y
  let y ← diplsDefl s.y x.2.2.2 ca
  let c ← diplsConcat s.c ca
  let W ← diplsConcat s.W w
  .ok ⟨x.1, xs.1, xt.1, y, c, x.2.1, xs.2.1, xt.2.1, x.2.2.1, xs.2.2.1, xt.2.2.1, W⟩

/-- Using an attribute that may be `None`. -/
def unNone (A : Option (Mat α)) : Except PyErr (Mat α) :=
  match A with
  | none => .error .attributeError
  | some A => .ok A

/-- The regression coefficients, `_DIPLS.py` 200. -/
def diplsCoefs (cfg : DiplsCfg α) (s : DiplsVars α) : Except PyErr (Mat α) := do
  let W ← unNone s.W
  let P ← unNone s.P
  let c ← unNone s.c
  let g ← P.transpose.mul W
  let g ← cfg.inv g
  let a ← W.mul g
  a.mul c.transpose

/-- Centring and training on the selected blocks, `_DIPLS.py` 147-202. -/
def diplsFit (cfg : DiplsCfg α) (o : DiplsObj α) (I Xs Xt X y : Mat α) : Except PyErr (DiplsModel α) := do
  let x ← optCentre o.xc X
  let xs ← optCentre o.xsc Xs
  let xt ← optCentre o.xtc Xt
  let v ← loopM (diplsStep cfg o I) (pyRange 0 cfg.K)
    ⟨x.2, xs.2, xt.2, y.subScalar y.meanAll, none, none, none, none, none, none, none, none⟩
  let b ← diplsCoefs cfg v
  .ok ⟨{ o with xc := some x.1, xsc := some xs.1, xtc := some xt.1 }, y.meanAll, v, b⟩

/-- `do_perform_initialization`, `_DIPLS.py` 107-202. -/
def diplsPerform (cfg : DiplsCfg α) (o : DiplsObj α) (X y : Mat α) : Except PyErr (DiplsResult α) := do
  let I ← Factory.eye (α := α) (X.cols : Int) (X.cols : Int)
  if o.ns = 0 ∨ o.nt = 0 then .ok (.message msgNoInit)
  else if o.ns = 1 ∨ o.nt = 1 then .ok (.message msgFew)
  else do
    let s ← diplsSelect o X
    let m ← diplsFit cfg o I s.1 s.2.1 s.2.2 y
    .ok (.trained m)

/-- `initialize_unsupervised`, `_DIPLS.py` 237-255 with the default preprocessing `NONE`
(`_AbstractSingleResponsePLS.py` 60-88). -/
def diplsUnsupervised (cfg : DiplsCfg α) (o : DiplsObj α) (Xs Xt ys : Mat α) : Except PyErr (DiplsResult α) := do
  let X ← Xs.concatAlongRows Xt
  diplsPerform cfg { o with ns := Xs.rows, nt := Xt.rows, strategy := some .unsupervised } X ys

/-- `initialize_supervised`, `_DIPLS.py` 257-277. -/
def diplsSupervised (cfg : DiplsCfg α) (o : DiplsObj α) (Xs Xt ys yt : Mat α) : Except PyErr (DiplsResult α) := do
  let X ← Xs.concatAlongRows Xt
  let y ← ys.concatAlongRows yt
  diplsPerform cfg { o with ns := Xs.rows, nt := Xt.rows, strategy := some .supervised } X y

/-- `initialize_semisupervised`, `_DIPLS.py` 279-303. -/
def diplsSemisupervised (cfg : DiplsCfg α) (o : DiplsObj α) (Xs Xt Xu ys yt : Mat α) :
    Except PyErr (DiplsResult α) := do
  let X ← Xs.concatAlongRows Xt
  let X ← X.concatAlongRows Xu
  let y ← ys.concatAlongRows yt
  diplsPerform cfg { o with ns := Xs.rows, nt := Xt.rows, strategy := some .semisupervised } X y

/-- `do_transform`, `_DIPLS.py` 104-105. -/
def diplsTransform (m : DiplsModel α) (Z : Mat α) : Except PyErr (Mat α) := do
  let z ← optCentre m.obj.xc Z
  let W ← unNone m.vars.W
  z.2.mul W

/-- `do_perform_predictions`, `_DIPLS.py` 217-235. -/
def diplsPredict (m : DiplsModel α) (Z : Mat α) : Except PyErr (Mat α) := do
  let z ← match m.obj.strategy with
    | none => .error .attributeError
    | some .unsupervised => optCentre m.obj.xtc Z
    | some .supervised => optCentre m.obj.xc Z
    | some .semisupervised => optCentre m.obj.xc Z
  let r ← z.2.mul m.b
  .ok (r.addScalar m.b0)

end code

/-! ## Any sequence of weights -/

open scoped Matrix

section seq
variable {n p : Nat}

theorem seq_vanish (X : Nat → Matrix (Fin n) (Fin p) ℝ) (w : Nat → Matrix (Fin p) (Fin 1) ℝ) (K : Nat)
    (hs : ∀ k < K, X (k + 1) = deflate (X k) (X k * w k)) (hn : ∀ k < K, sq1 (X k * w k) ≠ 0)
    (j d : Nat) (hj : j + d < K) : X (j + d + 1) * w j = 0 := by
  induction d with
  | zero =>
    rw [Nat.add_zero, hs j hj, deflate_eq, Matrix.sub_mul, Matrix.smul_mul, Matrix.mul_assoc (X j * w j),
      Matrix.mul_assoc _ (X j), col_gram, Matrix.mul_smul, Matrix.mul_one, smul_smul,
      inv_mul_cancel₀ (hn j hj), one_smul, sub_self]
  | succ d ih =>
    have h1 := ih (by omega)
    have hk : j + (d + 1) < K := hj
    have hs' := hs (j + (d + 1)) hk
    rw [show j + d + 1 = j + (d + 1) by omega] at h1
    rw [hs', deflate_eq, Matrix.sub_mul, Matrix.smul_mul, Matrix.mul_assoc (X (j + (d + 1)) * _),
      Matrix.mul_assoc _ (X (j + (d + 1))), h1, Matrix.mul_zero, Matrix.mul_zero, smul_zero, sub_zero]

/-- A sequence of deflations with arbitrary weights is the recursion of PLS1 for some weight function. -/
theorem seq_pls (X : Nat → Matrix (Fin n) (Fin p) ℝ) (w : Nat → Matrix (Fin p) (Fin 1) ℝ) (K : Nat)
    (hs : ∀ k < K, X (k + 1) = deflate (X k) (X k * w k)) (hn : ∀ k < K, sq1 (X k * w k) ≠ 0) :
    ∃ wf, (∀ k ≤ K, plsX wf (X 0) k = X k) ∧ ∀ k < K, plsW wf (X 0) k = w k := by
  classical
  have hlt : ∀ i j, i < j → j < K → X i ≠ X j := by
    intro i j hij hj he
    obtain ⟨d, rfl⟩ : ∃ d, j = i + d + 1 := ⟨j - i - 1, by omega⟩
    have h1 := seq_vanish X w K hs hn i d (by omega)
    rw [← he] at h1
    refine hn i (by omega) ?_
    rw [h1]
    simp [sq1]
  have hinj : ∀ i j, i < K → j < K → X i = X j → i = j := by
    intro i j hi hj he
    rcases lt_trichotomy i j with h | h | h
    · exact absurd he (hlt i j h hj)
    · exact h
    · exact absurd he.symm (hlt j i h hi)
  let wf : Matrix (Fin n) (Fin p) ℝ → Matrix (Fin p) (Fin 1) ℝ := fun A =>
    if h : ∃ k, k < K ∧ X k = A then w h.choose else 0
  have hwf : ∀ k < K, wf (X k) = w k := by
    intro k hk
    have h : ∃ l, l < K ∧ X l = X k := ⟨k, hk, rfl⟩
    show (if h : ∃ l, l < K ∧ X l = X k then w h.choose else 0) = w k
    rw [dif_pos h, hinj _ _ h.choose_spec.1 hk h.choose_spec.2]
  have hX : ∀ k ≤ K, plsX wf (X 0) k = X k := by
    intro k
    induction k with
    | zero => exact fun _ => rfl
    | succ k ih =>
      intro hk
      have h1 := ih (by omega)
      rw [plsX, h1, hwf k (by omega), hs k (by omega)]
  refine ⟨wf, hX, fun k hk => ?_⟩
  rw [plsW, hX k (by omega), hwf k hk]

end seq

/-! ## The recursion on real matrices -/

section recursion
variable {n s t p : Nat}

/-- The four deflated matrices. -/
structure DState (n s t p : Nat) where
  X : Matrix (Fin n) (Fin p) ℝ
  Xs : Matrix (Fin s) (Fin p) ℝ
  Xt : Matrix (Fin t) (Fin p) ℝ
  y : Matrix (Fin n) (Fin 1) ℝ

/-- The penalty matrix `I + lambda / (2 |y|^2) (Xs^T Xs / (ns - 1) - Xt^T Xt / (nt - 1))`. -/
noncomputable def dM (lam : ℝ) (ns nt : Nat) (S : DState n s t p) : Matrix (Fin p) (Fin p) ℝ :=
  1 + (lam / (2 * sq1 S.y)) • ((1 / ((ns : ℝ) - 1)) • (S.Xsᵀ * S.Xs) - (1 / ((nt : ℝ) - 1)) • (S.Xtᵀ * S.Xt))

/-- The weights before normalisation. -/
noncomputable def dRaw (lam : ℝ) (ns nt : Nat) (S : DState n s t p) : Matrix (Fin p) (Fin 1) ℝ :=
  (((sq1 S.y)⁻¹ • (S.yᵀ * S.X)) * (dM lam ns nt S)⁻¹)ᵀ

/-- The weights. -/
noncomputable def dW (lam : ℝ) (ns nt : Nat) (S : DState n s t p) : Matrix (Fin p) (Fin 1) ℝ :=
  nrm (dRaw lam ns nt S)

/-- The coefficient of a score. -/
noncomputable def dC (S : DState n s t p) (tt : Matrix (Fin n) (Fin 1) ℝ) : ℝ :=
  (∑ l, tt l 0 * S.y l 0) / sq1 tt

/-- One component. -/
noncomputable def dNext (lam : ℝ) (ns nt : Nat) (S : DState n s t p) : DState n s t p :=
  let w := dW lam ns nt S
  ⟨deflate S.X (S.X * w), deflate S.Xs (S.Xs * w), deflate S.Xt (S.Xt * w),
    S.y - dC S (S.X * w) • (S.X * w)⟩

/-- The states. -/
noncomputable def dSt (lam : ℝ) (ns nt : Nat) (S : DState n s t p) : Nat → DState n s t p
  | 0 => S
  | k + 1 => dNext lam ns nt (dSt lam ns nt S k)

/-- The guards of one component: the response is not fitted yet, the penalty matrix is invertible, and no score
vanishes. -/
structure DReg (lam : ℝ) (ns nt : Nat) (S : DState n s t p) : Prop where
  y : sq1 S.y ≠ 0
  det : (dM lam ns nt S).det ≠ 0
  t : sq1 (S.X * dW lam ns nt S) ≠ 0
  ts : sq1 (S.Xs * dW lam ns nt S) ≠ 0
  tt : sq1 (S.Xt * dW lam ns nt S) ≠ 0

/-- A collected matrix after `k` components. -/
def acc {m : Nat} (f : Nat → Matrix (Fin m) (Fin 1) ℝ) : Nat → Option (Mat ℝ)
  | 0 => none
  | k + 1 => some (of (Matrix.of fun i (j : Fin (k + 1)) => f j.1 i 0))

theorem concat_acc {m : Nat} (f : Nat → Matrix (Fin m) (Fin 1) ℝ) (k : Nat) :
    diplsConcat (acc f k) (of (f k)) = .ok (acc f (k + 1)) := by
  cases k with
  | zero =>
    show Except.ok (some _) = Except.ok (some _)
    congr 2
    refine mk_congr fun i j => ?_
    rw [Subsingleton.elim j 0]
    rfl
  | succ k =>
    rw [acc, diplsConcat]
    rw [concatAlongColumns_of]
    show Except.ok (some _) = Except.ok (some _)
    congr 2
    refine mk_congr fun i j => ?_
    have h : ∀ j : Fin (k + 1 + 1), (Fin.addCases (fun b : Fin (k + 1) => f b.1 i 0)
        (fun b : Fin 1 => f (k + 1) i b) j : ℝ) = f j.1 i 0 := by
      intro j
      refine Fin.addCases (fun b => ?_) (fun b => ?_) j
      · rw [Fin.addCases_left]; rfl
      · rw [Fin.addCases_right, Subsingleton.elim b 0]; rfl
    exact h j

/-! ## The code follows the recursion -/

variable (lam : ℝ) (ns nt : Nat)

/-- The collected matrices after `k` components. -/
noncomputable def dVars (S : DState n s t p) (k : Nat) : DiplsVars ℝ :=
  ⟨of (dSt lam ns nt S k).X, of (dSt lam ns nt S k).Xs, of (dSt lam ns nt S k).Xt, of (dSt lam ns nt S k).y,
    acc (fun k => dC (dSt lam ns nt S k) ((dSt lam ns nt S k).X * dW lam ns nt (dSt lam ns nt S k)) •
      (1 : Matrix (Fin 1) (Fin 1) ℝ)) k,
    acc (fun k => (dSt lam ns nt S k).X * dW lam ns nt (dSt lam ns nt S k)) k,
    acc (fun k => (dSt lam ns nt S k).Xs * dW lam ns nt (dSt lam ns nt S k)) k,
    acc (fun k => (dSt lam ns nt S k).Xt * dW lam ns nt (dSt lam ns nt S k)) k,
    acc (fun k => loading (dSt lam ns nt S k).X ((dSt lam ns nt S k).X * dW lam ns nt (dSt lam ns nt S k))) k,
    acc (fun k => loading (dSt lam ns nt S k).Xs ((dSt lam ns nt S k).Xs * dW lam ns nt (dSt lam ns nt S k))) k,
    acc (fun k => loading (dSt lam ns nt S k).Xt ((dSt lam ns nt S k).Xt * dW lam ns nt (dSt lam ns nt S k))) k,
    acc (fun k => dW lam ns nt (dSt lam ns nt S k)) k⟩

/-- The inverse behaves like the inverse of a matrix. -/
def IsInv (inv : Mat ℝ → Except PyErr (Mat ℝ)) : Prop :=
  ∀ (m : Nat) (A : Matrix (Fin m) (Fin m) ℝ), A.det ≠ 0 → inv (of A) = .ok (of A⁻¹)

theorem inv_gram {m : Nat} {inv : Mat ℝ → Except PyErr (Mat ℝ)} (hinv : IsInv inv)
    (v : Matrix (Fin m) (Fin 1) ℝ) (h : sq1 v ≠ 0) :
    inv (of (vᵀ * v)) = .ok (of ((sq1 v)⁻¹ • (1 : Matrix (Fin 1) (Fin 1) ℝ))) := by
  have hdet : (vᵀ * v).det ≠ 0 := by
    rw [Matrix.det_fin_one, sq1_eq]; exact h
  rw [hinv 1 _ hdet]
  have : (vᵀ * v)⁻¹ = (sq1 v)⁻¹ • (1 : Matrix (Fin 1) (Fin 1) ℝ) := by
    refine Matrix.inv_eq_left_inv ?_
    rw [col_gram, Matrix.smul_mul, Matrix.one_mul, smul_smul, inv_mul_cancel₀ h, one_smul]
  rw [this]

variable {cfg : DiplsCfg ℝ} (hinv : IsInv cfg.inv)
include hinv

theorem diplsLoad_eq {m : Nat} (v : Matrix (Fin m) (Fin 1) ℝ) (Z : Matrix (Fin m) (Fin p) ℝ) (h : sq1 v ≠ 0) :
    diplsLoad cfg (of v) (of Z) = .ok (of (loading Z v)ᵀ) := by
  unfold diplsLoad
  simp only [transpose_of, mul_of, except_bind_ok, inv_gram hinv v h]
  rw [loading_eq, Matrix.transpose_smul, Matrix.transpose_mul, Matrix.transpose_transpose, Matrix.smul_mul,
    Matrix.one_mul, Matrix.smul_mul]

theorem diplsBlock_eq {m : Nat} (w : Matrix (Fin p) (Fin 1) ℝ) (Z : Matrix (Fin m) (Fin p) ℝ) (T P : Option (Mat ℝ))
    (h : sq1 (Z * w) ≠ 0) : diplsBlock cfg (of w) (of Z) T P = (do
      let T ← diplsConcat T (of (Z * w))
      let P ← diplsConcat P (of (loading Z (Z * w)))
      .ok (of (deflate Z (Z * w)), T, P, of (Z * w))) := by
  unfold diplsBlock
  simp only [mul_of, except_bind_ok, diplsLoad_eq hinv (Z * w) Z h, transpose_of, Matrix.transpose_transpose,
    diplsDefl, sub_of]
  rfl

theorem diplsCoef_eq (v y : Matrix (Fin n) (Fin 1) ℝ) (h : sq1 v ≠ 0) :
    diplsCoef cfg (of v) (of y) =
      .ok (of (((∑ l, v l 0 * y l 0) / sq1 v) • (1 : Matrix (Fin 1) (Fin 1) ℝ))) := by
  unfold diplsCoef
  simp only [transpose_of, mul_of, except_bind_ok, inv_gram hinv v h]
  refine congrArg Except.ok (congrArg of ?_)
  ext i j
  rw [Subsingleton.elim i 0, Subsingleton.elim j 0, Matrix.smul_mul, Matrix.one_mul, Matrix.smul_mul]
  simp only [Matrix.smul_apply, Matrix.mul_apply, Matrix.transpose_apply, Matrix.one_apply_eq, smul_eq_mul,
    mul_one, div_eq_inv_mul]
  simp only [mul_comm]

omit hinv in
theorem diplsDefl_y (v y : Matrix (Fin n) (Fin 1) ℝ) (c : ℝ) :
    diplsDefl (of y) (of v) (of (c • (1 : Matrix (Fin 1) (Fin 1) ℝ))) = .ok (of (y - c • v)) := by
  unfold diplsDefl
  simp only [mul_of, except_bind_ok, sub_of, Matrix.mul_smul, Matrix.mul_one]

theorem diplsWeights_eq (o : DiplsObj ℝ) (S : DState n s t p) (c T Ts Tt P Ps Pt W : Option (Mat ℝ))
    (hdet : (dM cfg.lambda o.ns o.nt S).det ≠ 0) :
    diplsWeights cfg o (of (1 : Matrix (Fin p) (Fin p) ℝ))
      ⟨of S.X, of S.Xs, of S.Xt, of S.y, c, T, Ts, Tt, P, Ps, Pt, W⟩ =
      .ok (of (dW cfg.lambda o.ns o.nt S)) := by
  unfold diplsWeights diplsDiff diplsCov
  simp only [transpose_of, mul_of, except_bind_ok, smul_of, sub_of, add_of, norm2Squared_col]
  have h : cfg.inv (of (1 + (cfg.lambda / (((2 : Nat) : ℝ) * sq1 S.y)) •
      ((1 / ((o.ns : ℝ) - 1)) • (S.Xsᵀ * S.Xs) - (1 / ((o.nt : ℝ) - 1)) • (S.Xtᵀ * S.Xt)))) =
      .ok (of (dM cfg.lambda o.ns o.nt S)⁻¹) := by
    rw [← hinv p _ hdet]
    rfl
  rw [h]
  simp only [except_bind_ok]
  have hd : (of (S.yᵀ * S.X)).div (sq1 S.y) = of ((sq1 S.y)⁻¹ • (S.yᵀ * S.X)) := by
    rw [div_of]
    refine congrArg of ?_
    ext i j
    simp [div_eq_inv_mul]
  rw [hd]
  simp only [mul_of, except_bind_ok, transpose_of, normalized_col]
  rfl

theorem diplsStep_eq (o : DiplsObj ℝ) (S : DState n s t p) (k : Nat)
    (h : DReg cfg.lambda o.ns o.nt (dSt cfg.lambda o.ns o.nt S k)) :
    diplsStep cfg o (of (1 : Matrix (Fin p) (Fin p) ℝ)) (k : Int) (dVars cfg.lambda o.ns o.nt S k) =
      .ok (dVars cfg.lambda o.ns o.nt S (k + 1)) := by
  unfold diplsStep
  have hw := diplsWeights_eq hinv o (dSt cfg.lambda o.ns o.nt S k)
    (dVars cfg.lambda o.ns o.nt S k).c (dVars cfg.lambda o.ns o.nt S k).T (dVars cfg.lambda o.ns o.nt S k).Ts
    (dVars cfg.lambda o.ns o.nt S k).Tt (dVars cfg.lambda o.ns o.nt S k).P (dVars cfg.lambda o.ns o.nt S k).Ps
    (dVars cfg.lambda o.ns o.nt S k).Pt (dVars cfg.lambda o.ns o.nt S k).W h.det
  have hw' : diplsWeights cfg o (of (1 : Matrix (Fin p) (Fin p) ℝ)) (dVars cfg.lambda o.ns o.nt S k) =
      .ok (of (dW cfg.lambda o.ns o.nt (dSt cfg.lambda o.ns o.nt S k))) := hw
  rw [hw']
  simp only [except_bind_ok, dVars]
  simp only [diplsBlock_eq hinv _ _ _ _ h.t, diplsBlock_eq hinv _ _ _ _ h.ts, diplsBlock_eq hinv _ _ _ _ h.tt]
  have c1 := concat_acc (fun k => (dSt cfg.lambda o.ns o.nt S k).X * dW cfg.lambda o.ns o.nt (dSt cfg.lambda o.ns o.nt S k)) k
  have c2 := concat_acc (fun k => (dSt cfg.lambda o.ns o.nt S k).Xs * dW cfg.lambda o.ns o.nt (dSt cfg.lambda o.ns o.nt S k)) k
  have c3 := concat_acc (fun k => (dSt cfg.lambda o.ns o.nt S k).Xt * dW cfg.lambda o.ns o.nt (dSt cfg.lambda o.ns o.nt S k)) k
  have c4 := concat_acc (fun k => loading (dSt cfg.lambda o.ns o.nt S k).X ((dSt cfg.lambda o.ns o.nt S k).X * dW cfg.lambda o.ns o.nt (dSt cfg.lambda o.ns o.nt S k))) k
  have c5 := concat_acc (fun k => loading (dSt cfg.lambda o.ns o.nt S k).Xs ((dSt cfg.lambda o.ns o.nt S k).Xs * dW cfg.lambda o.ns o.nt (dSt cfg.lambda o.ns o.nt S k))) k
  have c6 := concat_acc (fun k => loading (dSt cfg.lambda o.ns o.nt S k).Xt ((dSt cfg.lambda o.ns o.nt S k).Xt * dW cfg.lambda o.ns o.nt (dSt cfg.lambda o.ns o.nt S k))) k
  have c7 := concat_acc (fun k => dW cfg.lambda o.ns o.nt (dSt cfg.lambda o.ns o.nt S k)) k
  have c8 := concat_acc (fun k => dC (dSt cfg.lambda o.ns o.nt S k) ((dSt cfg.lambda o.ns o.nt S k).X * dW cfg.lambda o.ns o.nt (dSt cfg.lambda o.ns o.nt S k)) •
      (1 : Matrix (Fin 1) (Fin 1) ℝ)) k
  rw [c1, except_bind_ok, c4, except_bind_ok, except_bind_ok, c2, except_bind_ok, c5, except_bind_ok,
    except_bind_ok, c3, except_bind_ok, c6, except_bind_ok, except_bind_ok]
  simp only []
  rw [diplsCoef_eq hinv _ _ h.t, except_bind_ok, diplsDefl_y, except_bind_ok]
  rw [← dC, c8, except_bind_ok, c7, except_bind_ok]
  rfl

end recursion

end Verif
