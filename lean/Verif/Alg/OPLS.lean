import Verif.Alg.NIPALS

/-!
# OPLS

`src/wai/ma/algorithm/pls/_OPLS.py`.  The base algorithm is a parameter.
-/

namespace Verif

open Mat

variable {α M : Type}

/-- The base algorithm, `base_PLS`: state after `initialize` and its result, and `predict`. -/
structure BasePls (α M : Type) where
  init : Mat α → Mat α → M × Except PyErr (Option String)
  predict : M → Mat α → Except PyErr (Mat α)

/-- Variables of the training loop. -/
structure OplsVars (α : Type) where
  X : Mat α
  W : Mat α
  P : Mat α
  T : Mat α

/-- Attributes set by training. -/
structure OplsModel (α M : Type) where
  W : Mat α
  P : Mat α
  T : Mat α
  Xosc : Mat α
  base : M

section code
variable [Add α] [Sub α] [Mul α] [Zero α] [One α] [Div α] [NatCast α] [HasSqrt α]

/-- `inv_L2_squared`, `_OPLS.py` 151-159. -/
def invL2 (v : Mat α) : α := 1 / v.norm2Squared

/-- The weights, `_OPLS.py` 125. -/
def oplsWeight (X y : Mat α) : Except PyErr (Mat α) := do
  let a ← X.transpose.mul y
  (a.smul (invL2 y)).normalized

/-- `A.mul(v).mul(self.inv_L2_squared(v))`, `_OPLS.py` 129, 132, 137, 138. -/
def oplsProj (A v : Mat α) : Except PyErr (Mat α) := do
  let r ← A.mul v
  .ok (r.smul (invL2 v))

/-- `w_orth` before it is normalised, `_OPLS.py` 135. -/
def oplsDir (w p : Mat α) : Except PyErr (Mat α) := do
  let c ← w.transpose.mul p
  let c ← (c.smul (invL2 w)).asReal
  p.sub (w.smul c)

/-- One component, `_OPLS.py` 127-146. -/
def oplsStep (w : Mat α) (k : Int) (s : OplsVars α) : Except PyErr (OplsVars α) := do
  let t ← oplsProj s.X w
  let p ← oplsProj s.X.transpose t
  let v ← oplsDir w p
  let wo ← v.normalized
  let tO ← oplsProj s.X wo
  let po ← oplsProj s.X.transpose tO
  let d ← tO.mul po.transpose
  let X ← s.X.sub d
  let W ← s.W.setColumn k wo
  let T ← s.T.setColumn k tO
  let P ← s.P.setColumn k po
  .ok ⟨X, W, P, T⟩

/-- `do_transform` with the attributes `W_orth` and `P_orth`, `_OPLS.py` 161-172. -/
def oplsFilter (W P Z : Mat α) : Except PyErr (Mat α) := do
  let T ← Z.mul W
  let o ← T.mul P.transpose
  Z.sub o

/-- `do_perform_initialization`, `_OPLS.py` 103-149: the model and the value returned.  An exception of the base
algorithm propagates; its message is dropped. -/
def oplsTrain (base : BasePls α M) (K : Int) (X y : Mat α) : Except PyErr (OplsModel α M × Option String) := do
  let W ← Factory.zeros (X.cols : Int) K
  let P ← Factory.zeros (X.cols : Int) K
  let T ← Factory.zeros (X.rows : Int) K
  let w ← oplsWeight X y
  let s ← loopM (oplsStep w) (pyRange 0 K) ⟨X, W, P, T⟩
  let F ← oplsFilter s.W s.P X
  let _ ← (base.init F y).2
  .ok (⟨s.W, s.P, s.T, s.X, (base.init F y).1⟩, none)

/-- `do_transform`, `_OPLS.py` 161-172. -/
def oplsTransform (m : OplsModel α M) (Z : Mat α) : Except PyErr (Mat α) := oplsFilter m.W m.P Z

/-- `do_perform_predictions`, `_OPLS.py` 182-190. -/
def oplsPredict (base : BasePls α M) (m : OplsModel α M) (Z : Mat α) : Except PyErr (Mat α) := do
  let F ← oplsTransform m Z
  base.predict m.base F

end code

/-! ## The recursion over the reals -/

open scoped Matrix

section real
variable {n p : Nat} (w : Matrix (Fin p) (Fin 1) ℝ)

/-- The predictive score. -/
noncomputable def oS (X : Matrix (Fin n) (Fin p) ℝ) : Matrix (Fin n) (Fin 1) ℝ := (1 / sq1 w) • (X * w)
/-- The loading of `X` on it. -/
noncomputable def oL (X : Matrix (Fin n) (Fin p) ℝ) : Matrix (Fin p) (Fin 1) ℝ := (1 / sq1 (oS w X)) • (Xᵀ * oS w X)
/-- The part of the loading orthogonal to the weights. -/
noncomputable def oV (X : Matrix (Fin n) (Fin p) ℝ) : Matrix (Fin p) (Fin 1) ℝ :=
  oL w X - (((1 / sq1 w) • (wᵀ * oL w X)) 0 0) • w
/-- Orthogonal weights. -/
noncomputable def oW (X : Matrix (Fin n) (Fin p) ℝ) : Matrix (Fin p) (Fin 1) ℝ := nrm (oV w X)
/-- Orthogonal scores. -/
noncomputable def oT (X : Matrix (Fin n) (Fin p) ℝ) : Matrix (Fin n) (Fin 1) ℝ := (1 / sq1 (oW w X)) • (X * oW w X)
/-- Orthogonal loadings. -/
noncomputable def oP (X : Matrix (Fin n) (Fin p) ℝ) : Matrix (Fin p) (Fin 1) ℝ := (1 / sq1 (oT w X)) • (Xᵀ * oT w X)

/-- The predictors after `k` components. -/
noncomputable def oX (X : Matrix (Fin n) (Fin p) ℝ) : Nat → Matrix (Fin n) (Fin p) ℝ
  | 0 => X
  | k + 1 => oX X k - oT w (oX X k) * (oP w (oX X k))ᵀ

noncomputable def oWM (X : Matrix (Fin n) (Fin p) ℝ) (K : Nat) : Matrix (Fin p) (Fin K) ℝ :=
  Matrix.of fun i j => oW w (oX w X j.1) i 0
noncomputable def oPM (X : Matrix (Fin n) (Fin p) ℝ) (K : Nat) : Matrix (Fin p) (Fin K) ℝ :=
  Matrix.of fun i j => oP w (oX w X j.1) i 0
noncomputable def oTM (X : Matrix (Fin n) (Fin p) ℝ) (K : Nat) : Matrix (Fin n) (Fin K) ℝ :=
  Matrix.of fun i j => oT w (oX w X j.1) i 0

theorem invL2_col {m : Nat} (v : Matrix (Fin m) (Fin 1) ℝ) : invL2 (of v) = 1 / sq1 v := by
  rw [invL2, norm2Squared_col]

theorem oX_next (X : Matrix (Fin n) (Fin p) ℝ) (k : Nat) :
    oX w X (k + 1) = oX w X k - oT w (oX w X k) * (oP w (oX w X k))ᵀ := by rw [oX]

theorem oS_def (A : Matrix (Fin n) (Fin p) ℝ) : (1 / sq1 w) • (A * w) = oS w A := by rw [oS]
theorem oL_def (A : Matrix (Fin n) (Fin p) ℝ) : (1 / sq1 (oS w A)) • (Aᵀ * oS w A) = oL w A := by rw [oL]
theorem oV_def (A : Matrix (Fin n) (Fin p) ℝ) : oL w A - ((1 / sq1 w) • (wᵀ * oL w A)) 0 0 • w = oV w A := by rw [oV]
theorem oW_def (A : Matrix (Fin n) (Fin p) ℝ) : nrm (oV w A) = oW w A := by rw [oW]
theorem oT_def (A : Matrix (Fin n) (Fin p) ℝ) : (1 / sq1 (oW w A)) • (A * oW w A) = oT w A := by rw [oT]
theorem oP_def (A : Matrix (Fin n) (Fin p) ℝ) : (1 / sq1 (oT w A)) • (Aᵀ * oT w A) = oP w A := by rw [oP]

theorem oplsProj_eq {m k : Nat} (A : Matrix (Fin m) (Fin k) ℝ) (v : Matrix (Fin k) (Fin 1) ℝ) :
    oplsProj (of A) (of v) = .ok (of ((1 / sq1 v) • (A * v))) := by
  unfold oplsProj
  rw [mul_of, except_bind_ok, smul_of, invL2_col]

theorem oplsDir_eq (q : Matrix (Fin p) (Fin 1) ℝ) :
    oplsDir (of w) (of q) = .ok (of (q - ((1 / sq1 w) • (wᵀ * q)) 0 0 • w)) := by
  unfold oplsDir
  rw [transpose_of, mul_of, except_bind_ok, smul_of, invL2_col, asReal_of, except_bind_ok, smul_of, sub_of]

theorem oplsStep_eq (K k : Nat) (hk : k < K) (X : Matrix (Fin n) (Fin p) ℝ) :
    oplsStep (of w) (k : Int)
      ⟨of (oX w X k), of (colsUpTo (fun j => oW w (oX w X j)) k : Matrix (Fin p) (Fin K) ℝ),
        of (colsUpTo (fun j => oP w (oX w X j)) k : Matrix (Fin p) (Fin K) ℝ),
        of (colsUpTo (fun j => oT w (oX w X j)) k : Matrix (Fin n) (Fin K) ℝ)⟩ =
      .ok ⟨of (oX w X (k + 1)), of (colsUpTo (fun j => oW w (oX w X j)) (k + 1) : Matrix (Fin p) (Fin K) ℝ),
        of (colsUpTo (fun j => oP w (oX w X j)) (k + 1) : Matrix (Fin p) (Fin K) ℝ),
        of (colsUpTo (fun j => oT w (oX w X j)) (k + 1) : Matrix (Fin n) (Fin K) ℝ)⟩ := by
  unfold oplsStep
  generalize hA : oX w X k = A
  rw [transpose_of, oplsProj_eq, except_bind_ok, oS_def w A, oplsProj_eq, except_bind_ok, oL_def w A, oplsDir_eq,
    except_bind_ok, oV_def w A, normalized_col, except_bind_ok, oW_def w A, oplsProj_eq, except_bind_ok, oT_def w A,
    oplsProj_eq, except_bind_ok, oP_def w A, transpose_of, mul_of, except_bind_ok, sub_of, except_bind_ok]
  subst hA
  rw [colsUpTo_set (fun j => oW w (oX w X j)) k hk, except_bind_ok, colsUpTo_set (fun j => oT w (oX w X j)) k hk,
    except_bind_ok, colsUpTo_set (fun j => oP w (oX w X j)) k hk, except_bind_ok, ← oX_next]

/-- The weights of the response. -/
noncomputable def opW (X : Matrix (Fin n) (Fin p) ℝ) (y : Matrix (Fin n) (Fin 1) ℝ) : Matrix (Fin p) (Fin 1) ℝ :=
  nrm ((1 / sq1 y) • (Xᵀ * y))

variable (X : Matrix (Fin n) (Fin p) ℝ) (y : Matrix (Fin n) (Fin 1) ℝ)

theorem oplsLoop_eq (K : Nat) :
    loopM (oplsStep (of w)) (pyRange 0 (K : Int))
      ⟨of X, of (0 : Matrix (Fin p) (Fin K) ℝ), of (0 : Matrix (Fin p) (Fin K) ℝ), of (0 : Matrix (Fin n) (Fin K) ℝ)⟩ =
      .ok ⟨of (oX w X K), of (oWM w X K), of (oPM w X K), of (oTM w X K)⟩ := by
  have h := loopM_range (oplsStep (of w)) (fun k =>
    (⟨of (oX w X k), of (colsUpTo (fun j => oW w (oX w X j)) k : Matrix (Fin p) (Fin K) ℝ),
        of (colsUpTo (fun j => oP w (oX w X j)) k : Matrix (Fin p) (Fin K) ℝ),
        of (colsUpTo (fun j => oT w (oX w X j)) k : Matrix (Fin n) (Fin K) ℝ)⟩ : OplsVars ℝ)) K
    fun k hk => oplsStep_eq w K k hk X
  simp only [colsUpTo_zero, colsUpTo_all] at h
  exact h

theorem oplsFilter_eq {r K : Nat} (W P : Matrix (Fin p) (Fin K) ℝ) (Z : Matrix (Fin r) (Fin p) ℝ) :
    oplsFilter (of W) (of P) (of Z) = .ok (of (Z - Z * W * Pᵀ)) := by
  unfold oplsFilter
  simp only [mul_of, transpose_of, except_bind_ok, sub_of]

/-- Training in closed form. -/
theorem oplsTrain_eq (base : BasePls ℝ M) (K : Nat) (hn : 0 < n) (hp : 0 < p) :
    oplsTrain base (K : Int) (of X) (of y) = (do
      let _ ← (base.init (of (X - X * oWM (opW X y) X K * (oPM (opW X y) X K)ᵀ)) (of y)).2
      .ok (⟨of (oWM (opW X y) X K), of (oPM (opW X y) X K), of (oTM (opW X y) X K), of (oX (opW X y) X K),
        (base.init (of (X - X * oWM (opW X y) X K * (oPM (opW X y) X K)ᵀ)) (of y)).1⟩, none)) := by
  unfold oplsTrain oplsWeight
  simp only [Factory.zeros_nat hn, Factory.zeros_nat hp, except_bind_ok, transpose_of, mul_of, smul_of, invL2_col,
    normalized_col]
  rw [show nrm ((1 / sq1 y) • (Xᵀ * y)) = opW X y from rfl, oplsLoop_eq]
  simp only [except_bind_ok, oplsFilter_eq]

/-! ## Orthogonality -/

variable {w}

theorem oW_orth (hw : sq1 w = 1) : wᵀ * oV w X = 0 := by
  rw [oV, hw, div_one, one_smul, Matrix.mul_sub, Matrix.mul_smul, col_gram, hw, one_smul]
  ext i j
  rw [Subsingleton.elim i 0, Subsingleton.elim j 0]
  simp

theorem oWn_orth (hw : sq1 w = 1) : wᵀ * oW w X = 0 := by
  rw [oW, nrm, Matrix.mul_smul, oW_orth X hw, smul_zero]

/-- What `w` and `Xᵀ y` share is not touched. -/
theorem oX_cov (hw : sq1 w = 1) {a : ℝ} (h : Xᵀ * y = a • w) (k : Nat) : (oX w X k)ᵀ * y = a • w := by
  induction k with
  | zero => exact h
  | succ k ih =>
    have : (oT w (oX w X k))ᵀ * y = 0 := by
      rw [oT, Matrix.transpose_smul, Matrix.transpose_mul, Matrix.smul_mul, Matrix.mul_assoc, ih, Matrix.mul_smul]
      have := congrArg Matrix.transpose (oWn_orth (oX w X k) hw)
      rw [Matrix.transpose_mul, Matrix.transpose_transpose] at this
      rw [this, Matrix.transpose_zero, smul_zero, smul_zero]
    rw [oX, Matrix.transpose_sub, Matrix.sub_mul, ih, Matrix.transpose_mul, Matrix.transpose_transpose,
      Matrix.mul_assoc, this, Matrix.mul_zero, sub_zero]

theorem oT_orth_y (hw : sq1 w = 1) {a : ℝ} (h : Xᵀ * y = a • w) (k : Nat) : (oT w (oX w X k))ᵀ * y = 0 := by
  rw [oT, Matrix.transpose_smul, Matrix.transpose_mul, Matrix.smul_mul, Matrix.mul_assoc, oX_cov X y hw h k,
    Matrix.mul_smul]
  have := congrArg Matrix.transpose (oWn_orth (oX w X k) hw)
  rw [Matrix.transpose_mul, Matrix.transpose_transpose] at this
  rw [this, Matrix.transpose_zero, smul_zero, smul_zero]

/-- The predictive score never vanishes. -/
theorem oS_ne (hw : sq1 w = 1) {a : ℝ} (ha : a ≠ 0) (h : Xᵀ * y = a • w) (k : Nat) : sq1 (oS w (oX w X k)) ≠ 0 := by
  intro e
  have e := (sq1_eq_zero _).mp e
  rw [oS, hw, div_one, one_smul] at e
  have h1 := oX_cov X y hw h k
  have h2 := congrArg (fun B => Bᵀ * y) e
  simp only [Matrix.transpose_mul, Matrix.transpose_zero, Matrix.zero_mul, Matrix.mul_assoc, h1, Matrix.mul_smul] at h2
  rw [unit_gram w hw] at h2
  have := congrFun (congrFun h2 0) 0
  simp at this
  exact ha this

/-- A removed score vanishes only if there is no orthogonal variation left. -/
theorem oT_ne (hw : sq1 w = 1) {a : ℝ} (ha : a ≠ 0) (h : Xᵀ * y = a • w) (k : Nat) (hv : oV w (oX w X k) ≠ 0) :
    sq1 (oT w (oX w X k)) ≠ 0 := by
  have hs := oS_ne X y hw ha h k
  set A := oX w X k with hA
  have h1 : sq1 (oW w A) = 1 := sq1_nrm _ hv
  have ht : oT w A = A * oW w A := by rw [oT, h1, div_one, one_smul]
  have hvv : sq1 (oV w A) ≠ 0 := fun e => hv ((sq1_eq_zero _).mp e)
  have hr : Real.sqrt (sq1 (oV w A)) ≠ 0 := fun e => hvv (by
    have := Real.mul_self_sqrt (sq1_nonneg (oV w A))
    rw [e, mul_zero] at this
    exact this.symm)
  -- `oL = oV + c w`, and `oWᵀ oL = ‖oV‖`
  have hL : (oW w A)ᵀ * oL w A = Real.sqrt (sq1 (oV w A)) • (1 : Matrix (Fin 1) (Fin 1) ℝ) := by
    have hl : oL w A = oV w A + (((1 / sq1 w) • (wᵀ * oL w A)) 0 0) • w := by rw [oV, sub_add_cancel]
    have ho := congrArg Matrix.transpose (oWn_orth A hw)
    rw [Matrix.transpose_mul, Matrix.transpose_transpose, Matrix.transpose_zero] at ho
    rw [hl, Matrix.mul_add, Matrix.mul_smul, ho, smul_zero, add_zero, oW, nrm, Matrix.transpose_smul, Matrix.smul_mul,
      col_gram, smul_smul]
    congr 1
    have := Real.mul_self_sqrt (sq1_nonneg (oV w A))
    field_simp
    linarith
  intro e
  have e := (sq1_eq_zero _).mp e
  have h2 : (oT w A)ᵀ * oS w A = (sq1 (oS w A) * Real.sqrt (sq1 (oV w A))) • (1 : Matrix (Fin 1) (Fin 1) ℝ) := by
    rw [ht, Matrix.transpose_mul, Matrix.mul_assoc, ← smul_smul, ← hL, oL, Matrix.mul_smul, smul_smul,
      mul_one_div_cancel hs, one_smul]
  rw [e, Matrix.transpose_zero, Matrix.zero_mul] at h2
  have := congrFun (congrFun h2 0) 0
  simp at this
  rcases this with h3 | h3
  · exact hs h3
  · exact hr h3

theorem oX_succ (k : Nat) (h : sq1 (oT w (oX w X k)) ≠ 0) : (oT w (oX w X k))ᵀ * oX w X (k + 1) = 0 := by
  have := score_deflate (oX w X k) (oT w (oX w X k)) h
  rwa [deflate, loading_eq, ← one_div] at this

/-- Removed scores are orthogonal to the predictors that remain. -/
theorem oT_orth_X (i d : Nat) (h : ∀ k < i + d + 1, sq1 (oT w (oX w X k)) ≠ 0) :
    (oT w (oX w X i))ᵀ * oX w X (i + d + 1) = 0 := by
  induction d with
  | zero => exact oX_succ X i (h i (by omega))
  | succ d ih =>
    have h1 := ih fun k hk => h k (by omega)
    have h2 : (oT w (oX w X i))ᵀ * oT w (oX w X (i + d + 1)) = 0 := by
      rw [oT, oT, Matrix.mul_smul, ← Matrix.mul_assoc]
      rw [oT] at h1
      rw [h1, Matrix.zero_mul, smul_zero]
    have e : oX w X (i + (d + 1) + 1) = oX w X (i + d + 1) - oT w (oX w X (i + d + 1)) * (oP w (oX w X (i + d + 1)))ᵀ := rfl
    rw [e, Matrix.mul_sub, h1, ← Matrix.mul_assoc, h2, Matrix.zero_mul, sub_zero]

theorem oX_sum (K : Nat) : oX w X K = X - oTM w X K * (oPM w X K)ᵀ := by
  have : ∀ k, oX w X k = X - ∑ j ∈ Finset.range k, oT w (oX w X j) * (oP w (oX w X j))ᵀ := by
    intro k
    induction k with
    | zero => simp [oX]
    | succ k ih => rw [Finset.sum_range_succ, ← sub_sub, ← ih]; rfl
  rw [this K]
  congr 1
  ext a b
  rw [Matrix.mul_apply, Matrix.sum_apply, Finset.sum_range]
  refine Finset.sum_congr rfl fun i _ => ?_
  rw [Matrix.mul_apply, Fin.sum_univ_one]
  rfl

end real

end Verif
