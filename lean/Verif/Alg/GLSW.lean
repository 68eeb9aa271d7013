import Verif.Alg.SIMPLS
import Verif.Alg.NIPALS
import Verif.Core.Eigen
import Verif.Core.SelLemmas

/-!
# Generalised least squares weighting and external parameter orthogonalisation

`src/wai/ma/algorithm/glsw/_GLSW.py`, `_EPO.py`, `_YGradientGLSW.py`, `_YGradientEPO.py` and
`src/wai/ma/transformation/_YGradientGLSWSavitzkyGolayFilter.py`.  `np.linalg.eig`, `np.linalg.svd` and `pow` are
parameters; eigenvalues are taken to be real.
-/

namespace Verif

open Mat Transf

variable {α : Type}

/-- Options and external routines. -/
structure GlswCfg (α : Type) where
  alpha : α
  /-- Attribute `N` of the EPO classes. -/
  N : Int
  /-- `np.linalg.eig`: the column of eigenvalues and the matrix of eigenvectors. -/
  eig : Mat α → Except PyErr (Mat α × Mat α)
  /-- `np.linalg.svd`: left factor, row of singular values, transposed right factor. -/
  svd : Mat α → Except PyErr (Mat α × Mat α × Mat α)
  le : α → α → Bool
  lstsq : Mat α → Except PyErr (Mat α)
  /-- `pow(2.0, x)`. -/
  pow2 : α → α

section code
variable [Field α] [DecidableEq α] [HasSqrt α]

/-- `get_covariance_matrix`, `_GLSW.py` 90-101. -/
def glswCov (x1 x2 : Mat α) : Except PyErr (Mat α) := do
  let c1 ← fitTransform center x1
  let c2 ← fitTransform center x2
  let Xd ← c2.sub c1
  Xd.transpose.mul Xd

/-- `get_eigenvector_matrix`, `_GLSW.py` 77-78. -/
def glswVecs (cfg : GlswCfg α) (C : Mat α) : Except PyErr (Mat α) := do
  let r ← cfg.eig C
  .ok r.2

/-- `get_weight_matrix`, `_GLSW.py` 80-88. -/
def glswWeights (cfg : GlswCfg α) (C : Mat α) : Except PyErr (Mat α) := do
  let r ← cfg.svd C
  let S ← svdS r.2.1
  let D := (S.powElementwise 2).div cfg.alpha
  let I ← Factory.eyeLike D
  let D ← D.add I
  .ok D.sqrt

/-- `get_eigenvector_matrix`, `_EPO.py` 47-57, `_YGradientEPO.py` 59-69. -/
def epoVecs (cfg : GlswCfg α) (C : Mat α) : Except PyErr (Mat α) := do
  let r ← cfg.eig C
  let V ← eigenvectorsSorted cfg.le C.rows r.1 r.2 false
  V.getSubMatrix (.tuple 0 V.rows) (.tuple 0 (min (V.cols : Int) cfg.N))

/-- `get_weight_matrix`, `_EPO.py` 38-45, `_YGradientEPO.py` 50-57. -/
def epoWeights (cfg : GlswCfg α) (_C : Mat α) : Except PyErr (Mat α) := Factory.eye cfg.N

/-- `do_initialize`, `_GLSW.py` 63-75, with the three overridable methods. -/
def glswDo (cfg : GlswCfg α) (cov : Mat α → Mat α → Except PyErr (Mat α)) (vecs weights : Mat α → Except PyErr (Mat α))
    (x1 x2 : Mat α) : Except PyErr (Mat α) := do
  let C ← cov x1 x2
  let V ← vecs C
  let D ← weights C
  let Di ← D.inverse cfg.lstsq
  let VD ← V.mul Di
  VD.mul V.transpose

/-- Result of `initialize`: `none` and the matrix `G`, or a message. -/
inductive GlswResult (α : Type) where
  | message (s : String)
  | ready (G : Mat α)

/-- `initialize` with data, `_GLSW.py` 42-55. -/
def glswInit (cfg : GlswCfg α) (check : Mat α → Mat α → Option String) (cov : Mat α → Mat α → Except PyErr (Mat α))
    (vecs weights : Mat α → Except PyErr (Mat α)) (x1 x2 : Mat α) : Except PyErr (GlswResult α) :=
  match check x1 x2 with
  | some s => .ok (.message s)
  | none => (glswDo cfg cov vecs weights x1 x2).map .ready

/-- `check`, `_GLSW.py` 112-119. -/
def glswCheck (x1 x2 : Mat α) : Option String :=
  if x1.sameShapeAs x2 then none else some "Matrices x1 and x2 must have the same shape"

/-- `check`, `_YGradientGLSW.py` 55-70. -/
def yGradCheck (x1 x2 : Mat α) : Option String :=
  if x1.rows ≠ x2.rows then some "Predictors and response must have the same number of rows!" else none

/-- `GLSW.initialize`. -/
def glswFit (cfg : GlswCfg α) : Mat α → Mat α → Except PyErr (GlswResult α) :=
  glswInit cfg glswCheck glswCov (glswVecs cfg) (glswWeights cfg)

/-- `EPO.initialize`. -/
def epoFit (cfg : GlswCfg α) : Mat α → Mat α → Except PyErr (GlswResult α) :=
  glswInit cfg glswCheck glswCov (epoVecs cfg) (epoWeights cfg)

/-- `transform`, `_GLSW.py` 103-110; `G` is `None` unless initialised. -/
def glswTransform (G : Option (Mat α)) (X : Mat α) : Except PyErr (Mat α) :=
  match G with
  | none => .error .runtimeError
  | some G => X.mul G

end code

/-! ## On typed data -/

open scoped Matrix

variable {n p q r : Nat}

theorem Factory.eye_square_nat (m : Nat) : Factory.eye (α := ℝ) (m : Int) = .ok (of (1 : Matrix (Fin m) (Fin m) ℝ)) := by
  unfold Factory.eye Factory.defaultColumns
  simp only [if_true]
  rw [if_neg (by omega), ok_inj]
  refine mk_eq (by simp) (by simp) (fun i j => ?_)
  simp [Matrix.one_apply, Fin.ext_iff]

/-- The difference of the centred data. -/
noncomputable def clutter (A B : Matrix (Fin n) (Fin p) ℝ) : Matrix (Fin n) (Fin p) ℝ := cen B B - cen A A

theorem glswCov_of (A B : Matrix (Fin n) (Fin p) ℝ) : glswCov (of A) (of B) = .ok (of ((clutter A B)ᵀ * clutter A B)) := by
  unfold glswCov
  rw [fitTransform_center, except_bind_ok, fitTransform_center, except_bind_ok, sub_of, except_bind_ok, transpose_of, mul_of]
  rfl

/-- `1 / sqrt(1 + s² / alpha)`. -/
noncomputable def weight (alpha s : ℝ) : ℝ := 1 / Real.sqrt (s ^ 2 / alpha + 1)

theorem glswDo_of (cfg : GlswCfg ℝ) (hα : 0 < cfg.alpha) (hp : p ≠ 0) (cov : Mat ℝ → Mat ℝ → Except PyErr (Mat ℝ)) (x1 x2 : Mat ℝ)
    (C V : Matrix (Fin p) (Fin p) ℝ) (ev s : Fin p → ℝ) (u vh : Mat ℝ) (hcov : cov x1 x2 = .ok (of C))
    (heig : cfg.eig (of C) = .ok (of (Matrix.of fun i (_ : Fin 1) => ev i), of V))
    (hsvd : cfg.svd (of C) = .ok (u, of (Matrix.of fun (_ : Fin 1) i => s i), vh)) :
    glswDo cfg cov (glswVecs cfg) (glswWeights cfg) x1 x2 =
      .ok (of (V * Matrix.diagonal (fun i => weight cfg.alpha (s i)) * Vᵀ)) := by
  have hS : svdS (of (Matrix.of fun (_ : Fin 1) i => s i)) = .ok (of (Matrix.diagonal s)) := by
    unfold svdS vectorToDiagonal
    have hv : (of (Matrix.of fun (_ : Fin 1) i => s i)).vecEntries = some (List.ofFn s) := by
      unfold vecEntries
      by_cases h : p = 1
      · subst h
        rw [dif_pos rfl]
        simp
      · rw [dif_neg h, dif_pos rfl]; rfl
    rw [hv]
    simp only []
    rw [if_neg (by simpa using hp), ok_inj]
    refine mk_eq (by simp) (by simp) fun i j => ?_
    show (if j = i then (List.ofFn s).get j else 0) = Matrix.diagonal s _ _
    rw [Matrix.diagonal_apply]
    by_cases hij : j = i
    · subst hij
      rw [if_pos rfl, if_pos rfl]; simp; rfl
    · rw [if_neg hij, if_neg]
      intro h'
      apply hij
      apply Fin.ext
      simpa using (congrArg Fin.val h').symm
  have hpos : ∀ i, 0 < Real.sqrt (s i ^ 2 / cfg.alpha + 1) := fun i => Real.sqrt_pos.2 (by positivity)
  have hD : glswWeights cfg (of C) = .ok (of (Matrix.diagonal fun i => Real.sqrt (s i ^ 2 / cfg.alpha + 1))) := by
    unfold glswWeights
    rw [hsvd, except_bind_ok, hS, except_bind_ok]
    have h1 : ((of (Matrix.diagonal s)).powElementwise 2).div cfg.alpha = of (Matrix.diagonal fun i => s i ^ 2 / cfg.alpha) := by
      have key : ∀ i j : Fin p, (Matrix.diagonal s i j) ^ 2 / cfg.alpha = Matrix.diagonal (fun i => s i ^ 2 / cfg.alpha) i j := ?_
      · exact mk_congr fun i j => key i j
      intro i j
      by_cases hij : i = j
      · subst hij
        rw [Matrix.diagonal_apply_eq, Matrix.diagonal_apply_eq]
      · rw [Matrix.diagonal_apply_ne _ hij, Matrix.diagonal_apply_ne _ hij]
        norm_num
    simp only [h1]
    have h2 : Factory.eyeLike (of (Matrix.diagonal fun i => s i ^ 2 / cfg.alpha)) = .ok (of (1 : Matrix (Fin p) (Fin p) ℝ)) :=
      Factory.eye_nat p
    rw [h2, except_bind_ok, add_of, except_bind_ok, ok_inj]
    refine mk_congr fun i j => ?_
    show Real.sqrt ((Matrix.diagonal (fun i => s i ^ 2 / cfg.alpha) + 1) i j) = _
    rw [Matrix.add_apply]
    by_cases hij : i = j
    · subst hij
      rw [Matrix.diagonal_apply_eq, Matrix.diagonal_apply_eq, Matrix.one_apply_eq]
    · rw [Matrix.diagonal_apply_ne _ hij, Matrix.diagonal_apply_ne _ hij, Matrix.one_apply_ne hij, add_zero, Real.sqrt_zero]
  unfold glswDo
  have hV : glswVecs cfg (of C) = .ok (of V) := by
    unfold glswVecs
    rw [heig]
    rfl
  rw [hcov, except_bind_ok, hV, except_bind_ok, hD, except_bind_ok]
  have hdet : (Matrix.diagonal fun i => Real.sqrt (s i ^ 2 / cfg.alpha + 1)).det ≠ 0 := by
    rw [Matrix.det_diagonal]
    exact Finset.prod_ne_zero_iff.2 fun i _ => (hpos i).ne'
  rw [inverse_of _ _ hdet, except_bind_ok, mul_of, except_bind_ok, transpose_of, mul_of, ok_inj]
  have hinv : (Matrix.diagonal fun i => Real.sqrt (s i ^ 2 / cfg.alpha + 1))⁻¹ = Matrix.diagonal fun i => weight cfg.alpha (s i) := by
    refine Matrix.inv_eq_right_inv ?_
    rw [Matrix.diagonal_mul_diagonal, ← Matrix.diagonal_one]
    congr 1
    funext i
    unfold weight
    exact mul_one_div_cancel (hpos i).ne'
  rw [hinv]

/-- EPO, for the sorted eigenvectors `W`. -/
theorem epoDo_of (cfg : GlswCfg ℝ) (N : Nat) (hN : cfg.N = N) (cov : Mat ℝ → Mat ℝ → Except PyErr (Mat ℝ)) (x1 x2 : Mat ℝ)
    (C W : Matrix (Fin p) (Fin p) ℝ) (vals vecs : Mat ℝ) (hcov : cov x1 x2 = .ok (of C))
    (heig : cfg.eig (of C) = .ok (vals, vecs)) (hW : eigenvectorsSorted cfg.le p vals vecs false = .ok (of W)) (hle : N ≤ p) :
    glswDo cfg cov (epoVecs cfg) (epoWeights cfg) x1 x2 =
      .ok (of ((W.submatrix id (Fin.castLE hle)) * (W.submatrix id (Fin.castLE hle))ᵀ)) := by
  have hV : epoVecs cfg (of C) = .ok (of (W.submatrix id (Fin.castLE hle))) := by
    unfold epoVecs
    rw [heig, except_bind_ok]
    show (eigenvectorsSorted cfg.le p vals vecs false >>= fun V => V.getSubMatrix (.tuple 0 V.rows) (.tuple 0 (min (V.cols : Int) cfg.N))) = _
    rw [hW, except_bind_ok, hN]
    have := getSubMatrix_tuple W 0 p 0 N (Nat.zero_le _) le_rfl (Nat.zero_le _) hle
    have e : min ((of W).cols : Int) (N : Int) = (N : Int) := min_eq_right (by exact_mod_cast hle)
    rw [e]
    refine Eq.trans this ?_
    rw [ok_inj]
    refine mk_eq (by simp) (by simp) fun i j => ?_
    simp only [Matrix.of_apply, Matrix.submatrix_apply]
    congr 1
    · exact Fin.ext (by simp)
    · exact Fin.ext (by simp)
  have hD : epoWeights cfg (of C) = .ok (of (1 : Matrix (Fin N) (Fin N) ℝ)) := by
    unfold epoWeights
    rw [hN]
    exact Factory.eye_square_nat N
  unfold glswDo
  rw [hcov, except_bind_ok, hV, except_bind_ok, hD, except_bind_ok, inverse_of _ _ (by rw [Matrix.det_one]; exact one_ne_zero),
    except_bind_ok, mul_of, except_bind_ok, transpose_of, mul_of, inv_one, Matrix.mul_one]

/-- EPO with more directions than columns: the shapes do not fit. -/
theorem epoDo_big (cfg : GlswCfg ℝ) (N : Nat) (hN : cfg.N = N) (cov : Mat ℝ → Mat ℝ → Except PyErr (Mat ℝ)) (x1 x2 : Mat ℝ)
    (C W : Matrix (Fin p) (Fin p) ℝ) (vals vecs : Mat ℝ) (hcov : cov x1 x2 = .ok (of C))
    (heig : cfg.eig (of C) = .ok (vals, vecs)) (hW : eigenvectorsSorted cfg.le p vals vecs false = .ok (of W)) (hgt : p < N) :
    glswDo cfg cov (epoVecs cfg) (epoWeights cfg) x1 x2 = .error .valueError := by
  have hV : epoVecs cfg (of C) = .ok (of W) := by
    unfold epoVecs
    rw [heig, except_bind_ok]
    show (eigenvectorsSorted cfg.le p vals vecs false >>= fun V => V.getSubMatrix (.tuple 0 V.rows) (.tuple 0 (min (V.cols : Int) cfg.N))) = _
    rw [hW, except_bind_ok, hN]
    have := getSubMatrix_tuple W 0 p 0 p (Nat.zero_le _) le_rfl (Nat.zero_le _) le_rfl
    have e : min ((of W).cols : Int) (N : Int) = (p : Int) := min_eq_left (by exact_mod_cast hgt.le)
    rw [e]
    refine Eq.trans this ?_
    rw [ok_inj]
    refine mk_eq (by simp) (by simp) fun i j => ?_
    simp only [Matrix.of_apply]
    congr 1
    · exact Fin.ext (by simp)
    · exact Fin.ext (by simp)
  have hD : epoWeights cfg (of C) = .ok (of (1 : Matrix (Fin N) (Fin N) ℝ)) := by
    unfold epoWeights
    rw [hN]
    exact Factory.eye_square_nat N
  unfold glswDo
  rw [hcov, except_bind_ok, hV, except_bind_ok, hD, except_bind_ok, inverse_of _ _ (by rw [Matrix.det_one]; exact one_ne_zero),
    except_bind_ok, mul_error (show (of W).cols ≠ (of (1 : Matrix (Fin N) (Fin N) ℝ)⁻¹).rows from hgt.ne)]
  rfl

end Verif
