import Verif.Core.Loop
import Verif.Core.RealInst
import Mathlib.LinearAlgebra.Matrix.Block

/-!
# PLS1

`src/wai/ma/algorithm/pls/_PLS1.py`.  The weight calculation is a parameter, because `VCPLS`
(`_VCPLS.py`) is a subclass that overrides `calculate_weights` only.
-/

namespace Verif

open Mat

variable {α : Type}

/-- Local variables of the training loop, `_PLS1.py` 95-104. -/
structure Pls1Vars (α : Type) where
  X : Mat α
  W : Mat α
  P : Mat α
  T : Mat α
  b : Mat α

/-- Attributes set by training, `_PLS1.py` 129-134. -/
structure Pls1Model (α : Type) where
  rHat : Mat α
  P : Mat α
  W : Mat α
  bHat : Mat α

/-- `calculate_weights`, `_PLS1.py` 138-146. -/
def pls1Weights [Add α] [Mul α] [Zero α] [Div α] [HasSqrt α] (X y : Mat α) : Except PyErr (Mat α) := do
  let w ← X.transpose.mul y
  w.normalized

/-- One pass of the training loop, `_PLS1.py` 105-123. -/
def pls1Step [Field α] (weights : Mat α → Mat α → Except PyErr (Mat α)) (y : Mat α) (k : Int)
    (s : Pls1Vars α) : Except PyErr (Pls1Vars α) := do
  let w ← weights s.X y
  let W ← s.W.setColumn k w
  let t ← s.X.mul w
  let T ← s.T.setColumn k t
  let tt ← t.vectorDot t
  let ty ← t.vectorDot y
  let b ← s.b.set k 0 (ty / tt)
  let xt ← s.X.transpose.mul t
  let P ← s.P.setColumn k (xt.div tt)
  let tp ← t.mul (xt.div tt).transpose
  let X ← s.X.sub tp
  .ok ⟨X, W, P, T, b⟩

/-- The matrices created before the loop, `_PLS1.py` 99-102. -/
def pls1Init [Zero α] (K : Int) (X : Mat α) : Except PyErr (Pls1Vars α) := do
  let W ← Factory.zeros (X.cols : Int) K
  let P ← Factory.zeros (X.cols : Int) K
  let T ← Factory.zeros (X.rows : Int) K
  let b ← Factory.zeros K 1
  .ok ⟨X, W, P, T, b⟩

/-- The regression vector, `_PLS1.py` 126-134.  The matrix inverted is always square. -/
def pls1Finish [Field α] [DecidableEq α] (s : Pls1Vars α) : Except PyErr (Pls1Model α) := do
  let ptw ← s.P.transpose.mul s.W
  let inv ← ptw.inverse fun _ => .error .linAlgError
  let tmp ← s.W.mul inv
  let r ← tmp.mul s.b
  .ok ⟨r, s.P, s.W, s.b⟩

/-- `do_perform_initialization`, `_PLS1.py` 87-136, with the score matrix `T` (a local variable of the
code) returned beside the model. -/
def pls1Train [Field α] [DecidableEq α] (weights : Mat α → Mat α → Except PyErr (Mat α)) (K : Int)
    (X y : Mat α) : Except PyErr (Pls1Model α × Mat α) := do
  let s ← pls1Init K X
  let s ← loopM (pls1Step weights y) (pyRange 0 K) s
  let m ← pls1Finish s
  .ok (m, s.T)

/-- One pass of the inner loop of `do_transform` and `do_perform_predictions`, `_PLS1.py` 163-169 and
197-203, on the pair of the deflated row and the row of scores.  (The matrix `X` of the code is
written but never read; it cannot raise, as `x` is a vector and `j` in range.) -/
def pls1RowStep [Field α] (W P : Mat α) (j : Int) (s : Mat α × Mat α) :
    Except PyErr (Mat α × Mat α) := do
  let wj ← W.getColumn j
  let t ← s.1.mul wj
  let T ← s.2.setColumn j t
  let pj ← P.getColumn j
  let tr ← t.asReal
  let x ← s.1.sub (pj.transpose.smul tr)
  .ok (x, T)

/-- The scores of one row, `_PLS1.py` 159-169 and 193-203. -/
def pls1Row [Field α] (K : Int) (W P : Mat α) (x : Mat α) : Except PyErr (Mat α) := do
  let T ← Factory.zeros 1 K
  let s ← loopM (pls1RowStep W P) (pyRange 0 K) (x, T)
  .ok s.2

/-- One row of `do_transform`, `_PLS1.py` 157-171. -/
def pls1TransformRow [Field α] (K : Int) (W P X : Mat α) (i : Int) (R : Mat α) :
    Except PyErr (Mat α) := do
  let x ← X.getRow i
  let T ← pls1Row K W P x
  R.setRow i T

/-- `do_transform`, `_PLS1.py` 148-173. -/
def pls1Transform [Field α] (K : Int) (m : Pls1Model α) (X : Mat α) : Except PyErr (Mat α) := do
  let R ← Factory.zeros (X.rows : Int) K
  loopM (pls1TransformRow K m.W m.P X) (pyRange 0 X.rows) R

/-- One row of `do_perform_predictions`, `_PLS1.py` 192-205. -/
def pls1PredictRow [Field α] (K : Int) (m : Pls1Model α) (X : Mat α) (i : Int) (R : Mat α) :
    Except PyErr (Mat α) := do
  let x ← X.getRow i
  let T ← pls1Row K m.W m.P x
  let tb ← T.mul m.bHat
  let v ← tb.asReal
  R.set i 0 v

/-- `do_perform_predictions`, `_PLS1.py` 183-207. -/
def pls1Predict [Field α] (K : Int) (m : Pls1Model α) (X : Mat α) : Except PyErr (Mat α) := do
  let R ← Factory.zeros (X.rows : Int) 1
  loopM (pls1PredictRow K m X) (pyRange 0 X.rows) R

/-! ## The recursion in terms of matrices -/

open scoped Matrix

section recursion

variable {n p : Nat} (wf : Matrix (Fin n) (Fin p) ℝ → Matrix (Fin p) (Fin 1) ℝ)

/-- Squared length of a column. -/
def sq1 {n : Nat} (t : Matrix (Fin n) (Fin 1) ℝ) : ℝ := ∑ l, t l 0 * t l 0

/-- Loading of `X` on a score `t`. -/
noncomputable def loading (X : Matrix (Fin n) (Fin p) ℝ) (t : Matrix (Fin n) (Fin 1) ℝ) :
    Matrix (Fin p) (Fin 1) ℝ :=
  Matrix.of fun i j => (Xᵀ * t) i j / sq1 t

/-- Deflation of `X` by a score. -/
noncomputable def deflate (X : Matrix (Fin n) (Fin p) ℝ) (t : Matrix (Fin n) (Fin 1) ℝ) :
    Matrix (Fin n) (Fin p) ℝ := X - t * (loading X t)ᵀ

/-- The deflated predictors. -/
noncomputable def plsX (X : Matrix (Fin n) (Fin p) ℝ) : Nat → Matrix (Fin n) (Fin p) ℝ
  | 0 => X
  | k + 1 => deflate (plsX X k) (plsX X k * wf (plsX X k))

/-- The weights of component `k`. -/
noncomputable def plsW (X : Matrix (Fin n) (Fin p) ℝ) (k : Nat) : Matrix (Fin p) (Fin 1) ℝ :=
  wf (plsX wf X k)

/-- The scores of component `k`. -/
noncomputable def plsT (X : Matrix (Fin n) (Fin p) ℝ) (k : Nat) : Matrix (Fin n) (Fin 1) ℝ :=
  plsX wf X k * plsW wf X k

/-- The loadings of component `k`. -/
noncomputable def plsP (X : Matrix (Fin n) (Fin p) ℝ) (k : Nat) : Matrix (Fin p) (Fin 1) ℝ :=
  loading (plsX wf X k) (plsT wf X k)

/-- The regression coefficient of component `k`. -/
noncomputable def plsB (X : Matrix (Fin n) (Fin p) ℝ) (y : Matrix (Fin n) (Fin 1) ℝ) (k : Nat) : ℝ :=
  (∑ l, plsT wf X k l 0 * y l 0) / sq1 (plsT wf X k)

theorem plsX_succ (X : Matrix (Fin n) (Fin p) ℝ) (k : Nat) :
    plsX wf X (k + 1) = plsX wf X k - plsT wf X k * (plsP wf X k)ᵀ := rfl

theorem sq1_eq (t : Matrix (Fin n) (Fin 1) ℝ) : (tᵀ * t) 0 0 = sq1 t := by
  rw [Matrix.mul_apply]
  rfl

theorem col_gram (t : Matrix (Fin n) (Fin 1) ℝ) : tᵀ * t = sq1 t • (1 : Matrix (Fin 1) (Fin 1) ℝ) := by
  ext i j
  rw [Subsingleton.elim i 0, Subsingleton.elim j 0, sq1_eq]
  simp

theorem loading_eq (X : Matrix (Fin n) (Fin p) ℝ) (t : Matrix (Fin n) (Fin 1) ℝ) :
    loading X t = (sq1 t)⁻¹ • (Xᵀ * t) := by
  ext i j
  simp only [loading, Matrix.of_apply, Matrix.smul_apply, smul_eq_mul]
  rw [div_eq_inv_mul]

/-- Deflating removes the score from the columns. -/
theorem score_deflate (X : Matrix (Fin n) (Fin p) ℝ) (t : Matrix (Fin n) (Fin 1) ℝ) (h : sq1 t ≠ 0) :
    tᵀ * deflate X t = 0 := by
  rw [deflate, Matrix.mul_sub, ← Matrix.mul_assoc, col_gram, loading_eq, Matrix.transpose_smul,
    Matrix.transpose_mul, Matrix.transpose_transpose, Matrix.smul_mul, Matrix.one_mul, smul_smul,
    mul_inv_cancel₀ h, one_smul, sub_self]

/-- Orthogonality to an earlier score survives deflation. -/
theorem orth_deflate (X : Matrix (Fin n) (Fin p) ℝ) (u t : Matrix (Fin n) (Fin 1) ℝ)
    (hu : uᵀ * X = 0) (hut : uᵀ * t = 0) : uᵀ * deflate X t = 0 := by
  rw [deflate, Matrix.mul_sub, ← Matrix.mul_assoc, hu, hut, Matrix.zero_mul, sub_zero]

theorem plsT_orth_X (X : Matrix (Fin n) (Fin p) ℝ) (i d : Nat)
    (h : ∀ k < i + d + 1, sq1 (plsT wf X k) ≠ 0) :
    (plsT wf X i)ᵀ * plsX wf X (i + d + 1) = 0 := by
  induction d with
  | zero => exact score_deflate _ _ (h i (by omega))
  | succ d ih =>
    have h1 := ih fun k hk => h k (by omega)
    refine orth_deflate _ _ _ h1 ?_
    show (plsT wf X i)ᵀ * (plsX wf X (i + d + 1) * _) = 0
    rw [← Matrix.mul_assoc, h1, Matrix.zero_mul]

theorem plsT_orth (X : Matrix (Fin n) (Fin p) ℝ) (i j : Nat) (hij : i < j)
    (h : ∀ k < j, sq1 (plsT wf X k) ≠ 0) : (plsT wf X i)ᵀ * plsT wf X j = 0 := by
  obtain ⟨d, rfl⟩ : ∃ d, j = i + d + 1 := ⟨j - i - 1, by omega⟩
  show (plsT wf X i)ᵀ * (plsX wf X (i + d + 1) * _) = 0
  rw [← Matrix.mul_assoc, plsT_orth_X wf X i d h, Matrix.zero_mul]

/-- A loading has unit product with its own weight. -/
theorem plsP_W_self (X : Matrix (Fin n) (Fin p) ℝ) (k : Nat) (h : sq1 (plsT wf X k) ≠ 0) :
    (plsP wf X k)ᵀ * plsW wf X k = 1 := by
  rw [plsP, loading_eq, Matrix.transpose_smul, Matrix.transpose_mul, Matrix.transpose_transpose,
    Matrix.smul_mul, Matrix.mul_assoc]
  show _ • ((plsT wf X k)ᵀ * plsT wf X k) = 1
  rw [col_gram, smul_smul, inv_mul_cancel₀ h, one_smul]

theorem deflate_eq (X : Matrix (Fin n) (Fin p) ℝ) (t : Matrix (Fin n) (Fin 1) ℝ) :
    deflate X t = X - (sq1 t)⁻¹ • (t * (tᵀ * X)) := by
  rw [deflate, loading_eq, Matrix.transpose_smul, Matrix.transpose_mul, Matrix.transpose_transpose,
    Matrix.mul_smul]

/-- Later deflated predictors vanish on earlier weights. -/
theorem plsX_W (X : Matrix (Fin n) (Fin p) ℝ) (j d : Nat) (h : sq1 (plsT wf X j) ≠ 0) :
    plsX wf X (j + d + 1) * plsW wf X j = 0 := by
  induction d with
  | zero =>
    rw [Nat.add_zero, plsX_succ, Matrix.sub_mul, Matrix.mul_assoc, plsP_W_self wf X j h, Matrix.mul_one]
    exact sub_self _
  | succ d ih =>
    rw [show j + (d + 1) + 1 = (j + d + 1) + 1 by omega, plsX]
    rw [deflate_eq, Matrix.sub_mul, ih, Matrix.smul_mul]
    generalize plsX wf X (j + d + 1) * wf (plsX wf X (j + d + 1)) = t
    rw [Matrix.mul_assoc, Matrix.mul_assoc, ih, Matrix.mul_zero, Matrix.mul_zero, smul_zero, sub_zero]

theorem plsP_W_lower (X : Matrix (Fin n) (Fin p) ℝ) (i j : Nat) (hij : j < i)
    (h : sq1 (plsT wf X j) ≠ 0) : (plsP wf X i)ᵀ * plsW wf X j = 0 := by
  obtain ⟨d, rfl⟩ : ∃ d, i = j + d + 1 := ⟨i - j - 1, by omega⟩
  rw [plsP, loading_eq, Matrix.transpose_smul, Matrix.transpose_mul, Matrix.transpose_transpose,
    Matrix.smul_mul, Matrix.mul_assoc, plsX_W wf X j d h, Matrix.mul_zero, smul_zero]

/-! ## The matrices returned -/

/-- `W`, `P` and `T` with `K` components. -/
noncomputable def plsWM (K : Nat) (X : Matrix (Fin n) (Fin p) ℝ) : Matrix (Fin p) (Fin K) ℝ :=
  Matrix.of fun i j => plsW wf X j.1 i 0
/-- The loadings. -/
noncomputable def plsPM (K : Nat) (X : Matrix (Fin n) (Fin p) ℝ) : Matrix (Fin p) (Fin K) ℝ :=
  Matrix.of fun i j => plsP wf X j.1 i 0
/-- The scores. -/
noncomputable def plsTM (K : Nat) (X : Matrix (Fin n) (Fin p) ℝ) : Matrix (Fin n) (Fin K) ℝ :=
  Matrix.of fun i j => plsT wf X j.1 i 0
/-- The regression coefficients of the scores. -/
noncomputable def plsBM (K : Nat) (X : Matrix (Fin n) (Fin p) ℝ) (y : Matrix (Fin n) (Fin 1) ℝ) :
    Matrix (Fin K) (Fin 1) ℝ :=
  Matrix.of fun j _ => plsB wf X y j.1

theorem plsPM_WM_apply (K : Nat) (X : Matrix (Fin n) (Fin p) ℝ) (i j : Fin K) :
    ((plsPM wf K X)ᵀ * plsWM wf K X) i j = ((plsP wf X i.1)ᵀ * plsW wf X j.1) 0 0 := by
  simp only [Matrix.mul_apply, Matrix.transpose_apply, plsPM, plsWM, Matrix.of_apply]

/-- `P^T W` is unit upper triangular, so the matrix inverted by the code is never singular. -/
theorem det_ptw (K : Nat) (X : Matrix (Fin n) (Fin p) ℝ) (h : ∀ k < K, sq1 (plsT wf X k) ≠ 0) :
    ((plsPM wf K X)ᵀ * plsWM wf K X).det = 1 := by
  rw [Matrix.det_of_isUpperTriangular]
  · refine Finset.prod_eq_one fun i _ => ?_
    rw [plsPM_WM_apply, plsP_W_self wf X i.1 (h i.1 i.2)]
    rfl
  · intro i j hij
    rw [plsPM_WM_apply, plsP_W_lower wf X i.1 j.1 hij (h j.1 j.2)]
    rfl

/-! ## New data -/

/-- New data after removing the first `j` components. -/
noncomputable def plsZ {r : Nat} (X : Matrix (Fin n) (Fin p) ℝ) (Z : Matrix (Fin r) (Fin p) ℝ) :
    Nat → Matrix (Fin r) (Fin p) ℝ
  | 0 => Z
  | j + 1 => plsZ X Z j - plsZ X Z j * plsW wf X j * (plsP wf X j)ᵀ

/-- Scores of new data. -/
noncomputable def plsS {r : Nat} (X : Matrix (Fin n) (Fin p) ℝ) (Z : Matrix (Fin r) (Fin p) ℝ) (j : Nat) :
    Matrix (Fin r) (Fin 1) ℝ := plsZ wf X Z j * plsW wf X j

/-- Matrix of the scores of new data. -/
noncomputable def plsSM {r : Nat} (K : Nat) (X : Matrix (Fin n) (Fin p) ℝ) (Z : Matrix (Fin r) (Fin p) ℝ) :
    Matrix (Fin r) (Fin K) ℝ := Matrix.of fun i j => plsS wf X Z j.1 i 0

theorem plsZ_train (X : Matrix (Fin n) (Fin p) ℝ) (j : Nat) : plsZ wf X X j = plsX wf X j := by
  induction j with
  | zero => rfl
  | succ j ih => rw [plsZ, ih, plsX_succ]; rfl

theorem plsSM_train (K : Nat) (X : Matrix (Fin n) (Fin p) ℝ) : plsSM wf K X X = plsTM wf K X := by
  ext i j
  simp only [plsSM, plsTM, plsS, plsT, Matrix.of_apply, plsZ_train]

theorem plsZ_sum {r : Nat} (X : Matrix (Fin n) (Fin p) ℝ) (Z : Matrix (Fin r) (Fin p) ℝ) (j : Nat) :
    plsZ wf X Z j = Z - ∑ i ∈ Finset.range j, plsS wf X Z i * (plsP wf X i)ᵀ := by
  induction j with
  | zero => simp [plsZ]
  | succ j ih =>
    rw [plsZ, Finset.sum_range_succ, ← sub_sub, ← ih]
    rfl

/-- The scores solve the triangular system `T (P^T W) = Z W`. -/
theorem plsSM_mul {r : Nat} (K : Nat) (X : Matrix (Fin n) (Fin p) ℝ) (Z : Matrix (Fin r) (Fin p) ℝ)
    (h : ∀ k < K, sq1 (plsT wf X k) ≠ 0) :
    plsSM wf K X Z * ((plsPM wf K X)ᵀ * plsWM wf K X) = Z * plsWM wf K X := by
  ext a j
  have hz : (Z * plsWM wf K X) a j = (Z * plsW wf X j.1) a 0 := by
    simp only [Matrix.mul_apply, plsWM, Matrix.of_apply]
  have hZ : Z = plsZ wf X Z j.1 + ∑ i ∈ Finset.range j.1, plsS wf X Z i * (plsP wf X i)ᵀ := by
    rw [plsZ_sum]; simp
  have hl : (plsSM wf K X Z * ((plsPM wf K X)ᵀ * plsWM wf K X)) a j =
      ∑ i ∈ Finset.range K, plsS wf X Z i a 0 * ((plsP wf X i)ᵀ * plsW wf X j.1) 0 0 := by
    rw [Matrix.mul_apply, Finset.sum_range]
    refine Finset.sum_congr rfl fun i _ => ?_
    rw [plsPM_WM_apply]
    rfl
  have hsplit : ∑ i ∈ Finset.range K, plsS wf X Z i a 0 * ((plsP wf X i)ᵀ * plsW wf X j.1) 0 0 =
      ∑ i ∈ Finset.range (j.1 + 1), plsS wf X Z i a 0 * ((plsP wf X i)ᵀ * plsW wf X j.1) 0 0 := by
    symm
    refine Finset.sum_subset (fun i hi => ?_) fun i hi hni => ?_
    · have := j.2
      simp only [Finset.mem_range] at hi ⊢
      omega
    · simp only [Finset.mem_range] at hi hni
      rw [plsP_W_lower wf X i j.1 (by omega) (h j.1 j.2)]
      simp
  rw [hl, hsplit, hz, hZ, Matrix.add_mul, Finset.sum_range_succ, plsP_W_self wf X j.1 (h j.1 j.2), add_comm,
    Matrix.add_apply, ← hZ, Matrix.sum_mul, Matrix.sum_apply]
  congr 1
  · simp [plsS]
  · refine Finset.sum_congr rfl fun i _ => ?_
    rw [Matrix.mul_assoc, Matrix.mul_apply (M := plsS wf X Z i)]
    simp

theorem plsSM_eq {r : Nat} (K : Nat) (X : Matrix (Fin n) (Fin p) ℝ) (Z : Matrix (Fin r) (Fin p) ℝ)
    (h : ∀ k < K, sq1 (plsT wf X k) ≠ 0) :
    plsSM wf K X Z = Z * (plsWM wf K X * ((plsPM wf K X)ᵀ * plsWM wf K X)⁻¹) := by
  rw [← Matrix.mul_assoc, ← plsSM_mul wf K X Z h, Matrix.mul_assoc, Matrix.mul_nonsing_inv, Matrix.mul_one]
  rw [det_ptw wf K X h]
  exact isUnit_one

/-! ## The fit -/

theorem plsTM_gram (K : Nat) (X : Matrix (Fin n) (Fin p) ℝ) (h : ∀ k < K, sq1 (plsT wf X k) ≠ 0) :
    (plsTM wf K X)ᵀ * plsTM wf K X = Matrix.diagonal fun k : Fin K => sq1 (plsT wf X k.1) := by
  ext i j
  have e : ((plsTM wf K X)ᵀ * plsTM wf K X) i j = ((plsT wf X i.1)ᵀ * plsT wf X j.1) 0 0 := by
    simp only [Matrix.mul_apply, Matrix.transpose_apply, plsTM, Matrix.of_apply]
  rw [e]
  rcases lt_trichotomy i.1 j.1 with hij | hij | hij
  · rw [plsT_orth wf X _ _ hij fun k hk => h k (by omega), Matrix.diagonal_apply_ne _ (by rintro rfl; omega)]
    rfl
  · rw [Fin.ext hij, Matrix.diagonal_apply_eq, sq1_eq]
  · have h2 := congrArg Matrix.transpose (plsT_orth wf X _ _ hij fun k hk => h k (by omega))
    rw [Matrix.transpose_mul, Matrix.transpose_transpose] at h2
    rw [h2, Matrix.diagonal_apply_ne _ (by rintro rfl; omega)]
    rfl

/-- The residual of the fit on the scores is orthogonal to the scores. -/
theorem pls_resid (K : Nat) (X : Matrix (Fin n) (Fin p) ℝ) (y : Matrix (Fin n) (Fin 1) ℝ)
    (h : ∀ k < K, sq1 (plsT wf X k) ≠ 0) :
    (plsTM wf K X)ᵀ * (y - plsTM wf K X * plsBM wf K X y) = 0 := by
  rw [Matrix.mul_sub, ← Matrix.mul_assoc, plsTM_gram wf K X h, sub_eq_zero]
  ext i j
  rw [Subsingleton.elim j 0, Matrix.diagonal_mul, plsBM, Matrix.of_apply, plsB, mul_div_cancel₀ _ (h i.1 i.2),
    Matrix.mul_apply]
  rfl

end recursion

/-- Orthogonality of a residual to the columns makes the fit a least-squares fit. -/
theorem lsq_of_orth {n K : Nat} (T : Matrix (Fin n) (Fin K) ℝ) (y : Matrix (Fin n) (Fin 1) ℝ)
    (b c : Matrix (Fin K) (Fin 1) ℝ) (h : Tᵀ * (y - T * b) = 0) :
    sq1 (y - T * b) ≤ sq1 (y - T * c) := by
  have e : y - T * c = (y - T * b) + T * (b - c) := by
    rw [Matrix.mul_sub]; abel
  have hx : ((y - T * b)ᵀ * (T * (b - c))) = 0 := by
    rw [← Matrix.mul_assoc]
    have := congrArg Matrix.transpose h
    rw [Matrix.transpose_mul, Matrix.transpose_transpose, Matrix.transpose_zero] at this
    rw [this, Matrix.zero_mul]
  have hx0 : ∑ l, (y - T * b) l 0 * (T * (b - c)) l 0 = 0 := by
    have := congrFun (congrFun hx 0) 0
    rw [Matrix.mul_apply] at this
    exact this
  have : sq1 (y - T * c) = sq1 (y - T * b) + 2 * (∑ l, (y - T * b) l 0 * (T * (b - c)) l 0) +
      sq1 (T * (b - c)) := by
    rw [e, sq1, sq1, sq1, Finset.mul_sum, ← Finset.sum_add_distrib, ← Finset.sum_add_distrib]
    refine Finset.sum_congr rfl fun l _ => ?_
    rw [Matrix.add_apply]
    ring
  rw [this, hx0]
  have h2 : 0 ≤ sq1 (T * (b - c)) := Finset.sum_nonneg fun l _ => mul_self_nonneg _
  linarith

/-! ## The code computes the recursion -/

section code

variable {n p : Nat} (wf : Matrix (Fin n) (Fin p) ℝ → Matrix (Fin p) (Fin 1) ℝ)
  (weights : Mat ℝ → Mat ℝ → Except PyErr (Mat ℝ))

theorem pls1Step_eq (K k : Nat) (hk : k < K) (X : Matrix (Fin n) (Fin p) ℝ) (y : Matrix (Fin n) (Fin 1) ℝ)
    (hw : weights (of (plsX wf X k)) (of y) = .ok (of (plsW wf X k))) :
    pls1Step weights (of y) (k : Int)
      ⟨of (plsX wf X k), of (colsUpTo (plsW wf X) k : Matrix (Fin p) (Fin K) ℝ),
        of (colsUpTo (plsP wf X) k : Matrix (Fin p) (Fin K) ℝ),
        of (colsUpTo (plsT wf X) k : Matrix (Fin n) (Fin K) ℝ),
        of (Matrix.of fun (j : Fin K) (_ : Fin 1) => if j.1 < k then plsB wf X y j.1 else 0)⟩ =
      .ok ⟨of (plsX wf X (k + 1)), of (colsUpTo (plsW wf X) (k + 1) : Matrix (Fin p) (Fin K) ℝ),
        of (colsUpTo (plsP wf X) (k + 1) : Matrix (Fin p) (Fin K) ℝ),
        of (colsUpTo (plsT wf X) (k + 1) : Matrix (Fin n) (Fin K) ℝ),
        of (Matrix.of fun (j : Fin K) (_ : Fin 1) => if j.1 < k + 1 then plsB wf X y j.1 else 0)⟩ := by
  have hb : (of (Matrix.of fun (j : Fin K) (_ : Fin 1) => if j.1 < k then plsB wf X y j.1 else 0)).set
      (k : Int) 0 (plsB wf X y k) =
      .ok (of (Matrix.of fun (j : Fin K) (_ : Fin 1) => if j.1 < k + 1 then plsB wf X y j.1 else 0)) := by
    have h := set_of (Matrix.of fun (j : Fin K) (_ : Fin 1) => if j.1 < k then plsB wf X y j.1 else 0)
      ⟨k, hk⟩ (0 : Fin 1) (plsB wf X y k)
    refine h.trans ?_
    congr 1
    refine mk_congr fun i j => ?_
    simp only [Matrix.of_apply]
    by_cases hi : i = ⟨k, hk⟩
    · subst hi
      rw [if_pos ⟨rfl, Subsingleton.elim _ _⟩, if_pos (Nat.lt_succ_self k)]
    · have hi' : i.1 ≠ k := fun h => hi (Fin.ext h)
      rw [if_neg fun h => hi h.1]
      by_cases h1 : i.1 < k
      · rw [if_pos h1, if_pos (by omega)]
      · rw [if_neg h1, if_neg (by omega)]
  unfold pls1Step
  simp only [hw, except_bind_ok, colsUpTo_set _ k hk, mul_of]
  rw [show plsX wf X k * plsW wf X k = plsT wf X k from rfl, colsUpTo_set _ k hk]
  simp only [except_bind_ok, vectorDot_cols]
  rw [show (∑ l, plsT wf X k l 0 * y l 0) / (∑ l, plsT wf X k l 0 * plsT wf X k l 0) = plsB wf X y k from rfl,
    hb]
  simp only [except_bind_ok, transpose_of, mul_of, div_of]
  rw [show (Matrix.of fun i j => ((plsX wf X k)ᵀ * plsT wf X k) i j / ∑ l, plsT wf X k l 0 * plsT wf X k l 0) =
    plsP wf X k from rfl, colsUpTo_set _ k hk]
  simp only [except_bind_ok, sub_of, ← plsX_succ]

theorem pls1Train_eq (K : Nat) (hn : 0 < n) (hp : 0 < p) (hK : 0 < K) (X : Matrix (Fin n) (Fin p) ℝ)
    (y : Matrix (Fin n) (Fin 1) ℝ)
    (hw : ∀ k < K, weights (of (plsX wf X k)) (of y) = .ok (of (plsW wf X k)))
    (h : ∀ k < K, sq1 (plsT wf X k) ≠ 0) :
    pls1Train weights (K : Int) (of X) (of y) =
      .ok (⟨of (plsWM wf K X * ((plsPM wf K X)ᵀ * plsWM wf K X)⁻¹ * plsBM wf K X y),
        of (plsPM wf K X), of (plsWM wf K X), of (plsBM wf K X y)⟩, of (plsTM wf K X)) := by
  unfold pls1Train pls1Init
  simp only [Factory.zeros_nat hp, Factory.zeros_nat hn, except_bind_ok]
  have hz : Factory.zeros (α := ℝ) (K : Int) 1 = .ok (of (0 : Matrix (Fin K) (Fin 1) ℝ)) :=
    Factory.zeros_nat hK 1
  rw [hz]
  simp only [except_bind_ok]
  have hloop := loopM_range (pls1Step weights (of y)) (fun k =>
      ⟨of (plsX wf X k), of (colsUpTo (plsW wf X) k : Matrix (Fin p) (Fin K) ℝ),
        of (colsUpTo (plsP wf X) k : Matrix (Fin p) (Fin K) ℝ),
        of (colsUpTo (plsT wf X) k : Matrix (Fin n) (Fin K) ℝ),
        of (Matrix.of fun (j : Fin K) (_ : Fin 1) => if j.1 < k then plsB wf X y j.1 else 0)⟩) K
    fun k hk => pls1Step_eq wf weights K k hk X y (hw k hk)
  have h0 : (Matrix.of fun (j : Fin K) (_ : Fin 1) => if j.1 < 0 then plsB wf X y j.1 else 0) =
      (0 : Matrix (Fin K) (Fin 1) ℝ) := by
    ext i j
    simp
  have hK' : (Matrix.of fun (j : Fin K) (_ : Fin 1) => if j.1 < K then plsB wf X y j.1 else 0) =
      plsBM wf K X y := by
    ext i j
    simp [plsBM]
  simp only [colsUpTo_zero, h0, hK', colsUpTo_all] at hloop
  rw [show plsX wf X 0 = X from rfl] at hloop
  rw [hloop]
  simp only [except_bind_ok]
  unfold pls1Finish
  simp only [transpose_of, mul_of, except_bind_ok]
  have hinv := inverse_of (fun _ => .error .linAlgError) ((plsPM wf K X)ᵀ * plsWM wf K X)
    (by rw [det_ptw wf K X h]; exact one_ne_zero)
  simp only [plsPM, plsWM] at hinv ⊢
  rw [hinv]
  simp only [except_bind_ok, mul_of]
  rfl

/-- Row `i` of a matrix as a `1 × p` matrix. -/
def rowOf {r p : Nat} (Z : Matrix (Fin r) (Fin p) ℝ) (i : Fin r) : Matrix (Fin 1) (Fin p) ℝ :=
  Matrix.of fun _ j => Z i j

theorem plsZ_row {r : Nat} (X : Matrix (Fin n) (Fin p) ℝ) (Z : Matrix (Fin r) (Fin p) ℝ) (i : Fin r)
    (j : Nat) : plsZ wf X (rowOf Z i) j = rowOf (plsZ wf X Z j) i := by
  induction j with
  | zero => rfl
  | succ j ih =>
    rw [plsZ, ih]
    ext a b
    simp [rowOf, plsZ, Matrix.mul_apply]

theorem plsSM_row {r : Nat} (K : Nat) (X : Matrix (Fin n) (Fin p) ℝ) (Z : Matrix (Fin r) (Fin p) ℝ)
    (i : Fin r) : plsSM wf K X (rowOf Z i) = rowOf (plsSM wf K X Z) i := by
  ext a b
  simp only [plsSM, plsS, plsZ_row]
  rfl

theorem pls1Row_eq (K : Nat) (X : Matrix (Fin n) (Fin p) ℝ) (x : Matrix (Fin 1) (Fin p) ℝ) :
    pls1Row (K : Int) (of (plsWM wf K X)) (of (plsPM wf K X)) (of x) = .ok (of (plsSM wf K X x)) := by
  unfold pls1Row
  have hz : Factory.zeros (α := ℝ) 1 (K : Int) = .ok (of (0 : Matrix (Fin 1) (Fin K) ℝ)) :=
    Factory.zeros_nat (m := 1) (by decide) K
  rw [hz]
  simp only [except_bind_ok]
  have hloop := loopM_range (pls1RowStep (of (plsWM wf K X)) (of (plsPM wf K X)))
    (fun k => (of (plsZ wf X x k), of (colsUpTo (plsS wf X x) k : Matrix (Fin 1) (Fin K) ℝ))) K ?_
  · simp only [colsUpTo_zero, colsUpTo_all] at hloop
    rw [show plsZ wf X x 0 = x from rfl] at hloop
    rw [hloop]
    rfl
  · intro k hk
    unfold pls1RowStep
    have hW := getColumn_of (plsWM wf K X) ⟨k, hk⟩
    have hP := getColumn_of (plsPM wf K X) ⟨k, hk⟩
    have eW : (Matrix.of fun a (_ : Fin 1) => plsWM wf K X a ⟨k, hk⟩) = plsW wf X k := by
      ext a b
      rw [Subsingleton.elim b 0]
      rfl
    have eP : (Matrix.of fun a (_ : Fin 1) => plsPM wf K X a ⟨k, hk⟩) = plsP wf X k := by
      ext a b
      rw [Subsingleton.elim b 0]
      rfl
    rw [eW] at hW
    rw [eP] at hP
    simp only [] at hW hP
    rw [hW, hP]
    simp only [except_bind_ok, mul_of]
    rw [show plsZ wf X x k * plsW wf X k = plsS wf X x k from rfl, colsUpTo_set _ k hk]
    simp only [except_bind_ok, asReal_of, transpose_of, smul_of, sub_of]
    have : plsZ wf X x k - plsS wf X x k 0 0 • (plsP wf X k)ᵀ = plsZ wf X x (k + 1) := by
      rw [plsZ]
      congr 1
      ext a b
      rw [Subsingleton.elim a 0, Matrix.mul_apply]
      simp [plsS]
    rw [this]

/-- Rows `0, …, k-1` of a matrix followed by zero rows. -/
def rowsUpTo {r c : Nat} (M : Matrix (Fin r) (Fin c) ℝ) (k : Nat) : Matrix (Fin r) (Fin c) ℝ :=
  Matrix.of fun i j => if i.1 < k then M i j else 0

theorem rowsUpTo_set {r c : Nat} (M : Matrix (Fin r) (Fin c) ℝ) (k : Nat) (hk : k < r) :
    (of (rowsUpTo M k)).setRow (k : Int) (of (rowOf M ⟨k, hk⟩)) = .ok (of (rowsUpTo M (k + 1))) := by
  have h := setRow_of (rowsUpTo M k) ⟨k, hk⟩ (rowOf M ⟨k, hk⟩)
  refine h.trans ?_
  congr 1
  refine mk_congr fun i j => ?_
  rw [Matrix.updateRow_apply]
  simp only [rowsUpTo, rowOf, Matrix.of_apply]
  by_cases hi : i = ⟨k, hk⟩
  · subst hi
    rw [if_pos rfl, if_pos (Nat.lt_succ_self k)]
  · have hi' : i.1 ≠ k := fun h => hi (Fin.ext h)
    rw [if_neg hi]
    by_cases h1 : i.1 < k
    · rw [if_pos h1, if_pos (by omega)]
    · rw [if_neg h1, if_neg (by omega)]

theorem rowsUpTo_set1 {r : Nat} (M : Matrix (Fin r) (Fin 1) ℝ) (k : Nat) (hk : k < r) :
    (of (rowsUpTo M k)).set (k : Int) 0 (M ⟨k, hk⟩ 0) = .ok (of (rowsUpTo M (k + 1))) := by
  have h := set_of (rowsUpTo M k) ⟨k, hk⟩ (0 : Fin 1) (M ⟨k, hk⟩ 0)
  refine h.trans ?_
  congr 1
  refine mk_congr fun i j => ?_
  simp only [rowsUpTo, Matrix.of_apply]
  rw [Subsingleton.elim j 0]
  by_cases hi : i = ⟨k, hk⟩
  · subst hi
    rw [if_pos ⟨rfl, rfl⟩, if_pos (Nat.lt_succ_self k)]
  · have hi' : i.1 ≠ k := fun h => hi (Fin.ext h)
    rw [if_neg fun h => hi h.1]
    by_cases h1 : i.1 < k
    · rw [if_pos h1, if_pos (by omega)]
    · rw [if_neg h1, if_neg (by omega)]

theorem rowsUpTo_zero {r c : Nat} (M : Matrix (Fin r) (Fin c) ℝ) : rowsUpTo M 0 = 0 := by
  ext i j
  simp [rowsUpTo]

theorem rowsUpTo_all {r c : Nat} (M : Matrix (Fin r) (Fin c) ℝ) : rowsUpTo M r = M := by
  ext i j
  simp [rowsUpTo]

theorem pls1Transform_eq {r : Nat} (hr : 0 < r) (K : Nat) (X : Matrix (Fin n) (Fin p) ℝ)
    (rh b : Mat ℝ) (Z : Matrix (Fin r) (Fin p) ℝ) :
    pls1Transform (K : Int) ⟨rh, of (plsPM wf K X), of (plsWM wf K X), b⟩ (of Z) =
      .ok (of (plsSM wf K X Z)) := by
  unfold pls1Transform
  simp only [Factory.zeros_nat hr, except_bind_ok]
  have hloop := loopM_range (pls1TransformRow (K : Int) (of (plsWM wf K X)) (of (plsPM wf K X)) (of Z))
    (fun k => of (rowsUpTo (plsSM wf K X Z) k)) r ?_
  · simpa only [rowsUpTo_zero, rowsUpTo_all] using hloop
  · intro k hk
    unfold pls1TransformRow
    have hR : (of Z).getRow (k : Int) = .ok (of (rowOf Z ⟨k, hk⟩)) := getRow_of Z ⟨k, hk⟩
    rw [hR]
    simp only [except_bind_ok, pls1Row_eq, plsSM_row]
    exact rowsUpTo_set _ k hk

theorem pls1Predict_eq {r : Nat} (hr : 0 < r) (K : Nat) (X : Matrix (Fin n) (Fin p) ℝ)
    (rh : Mat ℝ) (b : Matrix (Fin K) (Fin 1) ℝ) (Z : Matrix (Fin r) (Fin p) ℝ) :
    pls1Predict (K : Int) ⟨rh, of (plsPM wf K X), of (plsWM wf K X), of b⟩ (of Z) =
      .ok (of (plsSM wf K X Z * b)) := by
  unfold pls1Predict
  have hz : Factory.zeros (α := ℝ) ((of Z).rows : Int) 1 = .ok (of (0 : Matrix (Fin r) (Fin 1) ℝ)) :=
    Factory.zeros_nat hr 1
  rw [hz]
  simp only [except_bind_ok]
  have hloop := loopM_range (pls1PredictRow (K : Int) ⟨rh, of (plsPM wf K X), of (plsWM wf K X), of b⟩ (of Z))
    (fun k => of (rowsUpTo (plsSM wf K X Z * b) k)) r ?_
  · simpa only [rowsUpTo_zero, rowsUpTo_all] using hloop
  · intro k hk
    unfold pls1PredictRow
    have hR : (of Z).getRow (k : Int) = .ok (of (rowOf Z ⟨k, hk⟩)) := getRow_of Z ⟨k, hk⟩
    rw [hR]
    simp only [except_bind_ok, pls1Row_eq, plsSM_row, mul_of, asReal_of]
    rw [show (rowOf (plsSM wf K X Z) ⟨k, hk⟩ * b) 0 0 = (plsSM wf K X Z * b) ⟨k, hk⟩ 0 from rfl]
    exact rowsUpTo_set1 _ k hk

/-- The weights of PLS1. -/
noncomputable def pls1W {n p : Nat} (y : Matrix (Fin n) (Fin 1) ℝ) (X : Matrix (Fin n) (Fin p) ℝ) :
    Matrix (Fin p) (Fin 1) ℝ :=
  Matrix.of fun i j => (Xᵀ * y) i j / Real.sqrt (sq1 (Xᵀ * y))

theorem pls1Weights_eq {n p : Nat} (y : Matrix (Fin n) (Fin 1) ℝ) (X : Matrix (Fin n) (Fin p) ℝ) :
    pls1Weights (of X) (of y) = .ok (of (pls1W y X)) := by
  unfold pls1Weights
  simp only [transpose_of, mul_of, except_bind_ok]
  unfold normalized
  rw [if_pos (Or.inl rfl)]
  congr 1
  refine mk_congr fun i j => ?_
  simp only [Matrix.of_apply]
  rw [Subsingleton.elim j 0]
  show _ / Real.sqrt _ = _
  rw [sumFin_eq]
  rfl

end code

end Verif
