import Verif.Alg.GLSW
import Verif.Alg.DiplsFit

/-!
# CCAFilter

`src/wai/ma/algorithm/_CCAFilter.py`.  `np.linalg.eig` and `np.linalg.svd` are parameters.  The state reached when training
raises is not modelled here.
-/

namespace Verif

open Mat Transf

variable {α : Type}

/-- Options and external routines. -/
structure CcaCfg (α : Type) where
  kcca : Int
  lamX : α
  lamY : α
  eig : Mat α → Except PyErr (Mat α × Mat α)
  svd : Mat α → Except PyErr (Mat α × Mat α × Mat α)
  le : α → α → Bool
  lstsq : Mat α → Except PyErr (Mat α)

/-- Attributes, `_CCAFilter.py` 26-34. -/
structure CcaObj (α : Type) where
  cX : Option (CenterState α)
  cY : Option (CenterState α)
  projX : Option (Mat α)
  projY : Option (Mat α)
  initialised : Bool

/-- A new object: `initialize()` creates the two `Center` objects, lines 57-64. -/
def ccaFresh : CcaObj α := ⟨some ⟨false, none⟩, some ⟨false, none⟩, none, none, false⟩

section code
variable [Field α] [DecidableEq α] [HasSqrt α]

/-- `pow_minus_half`, lines 123-136. -/
def powMinusHalf (cfg : CcaCfg α) (A : Mat α) : Except PyErr (Mat α) := do
  let r ← cfg.eig A
  let vals := eigenvaluesSorted cfg.le r.1 false
  let vecs ← eigenvectorsSorted cfg.le A.rows r.1 r.2 false
  let d ← Factory.diag vals
  let di ← d.sqrt.inverse cfg.lstsq
  let vd ← vecs.mul di
  vd.mul vecs.transpose

/-- The two projections from centred data, lines 93-119. -/
def ccaProj (cfg : CcaCfg α) (X Y : Mat α) : Except PyErr (Mat α × Mat α) := do
  let IX ← Factory.eye (X.cols : Int)
  let IY ← Factory.eye (Y.cols : Int)
  let XX ← X.transpose.mul X
  let Cxx ← XX.add (IX.smul cfg.lamX)
  let YY ← Y.transpose.mul Y
  let Cyy ← YY.add (IY.smul cfg.lamY)
  let Cxy ← X.transpose.mul Y
  let A ← powMinusHalf cfg Cxx
  let B ← powMinusHalf cfg Cyy
  let t ← A.mul Cxy
  let omega ← t.mul B
  let d ← cfg.svd omega
  let U ← (svdU d.1).normalized 0
  let V ← (svdV d.2.2).normalized 0
  let C ← U.getSubMatrix (.tuple 0 U.rows) (.tuple 0 cfg.kcca)
  let D ← V.getSubMatrix (.tuple 0 V.rows) (.tuple 0 cfg.kcca)
  let pX ← A.mul C
  let pY ← B.mul D
  .ok (pX, pY)

/-- `initialize` with data, lines 66-76, `do_initialize`, 78-121. -/
def ccaInit (cfg : CcaCfg α) (o : CcaObj α) (X Y : Mat α) : Except PyErr (CcaObj α × Option String) :=
  if cfg.kcca > min (X.cols : Int) (Y.cols : Int) then
    .ok ({ o with projX := none, projY := none, initialised := false },
      some "Projection dimension must be <= min(X.num_columns(), Y.num_columns()).")
  else do
    let x ← optCentre o.cX X
    let y ← optCentre o.cY Y
    let P ← ccaProj cfg x.2 y.2
    .ok (⟨some x.1, some y.1, some P.1, some P.2, true⟩, none)

/-- `transform`, lines 152-161 and 168-172. -/
def ccaTransform (o : CcaObj α) (P : Mat α) : Except PyErr (Mat α) :=
  if o.initialised then do
    let x ← optCentre o.cX P
    match o.projX with
    | none => .error .typeError
    | some G => x.2.mul G
  else .error .runtimeError

/-- `transform_response`, lines 163-166 and 174-178. -/
def ccaTransformResponse (o : CcaObj α) (R : Mat α) : Except PyErr (Mat α) :=
  if o.initialised then do
    let y ← optCentre o.cY R
    match o.projY with
    | none => .error .typeError
    | some G => y.2.mul G
  else .error .runtimeError

end code

/-! ## On typed data -/

open scoped Matrix

variable {n p q r k : Nat}

/-- `C + lambda I`. -/
noncomputable def regGram (A : Matrix (Fin n) (Fin p) ℝ) (lam : ℝ) : Matrix (Fin p) (Fin p) ℝ := Aᵀ * A + lam • (1 : Matrix (Fin p) (Fin p) ℝ)

/-- Columns divided by their norms. -/
noncomputable def unitCols (M : Matrix (Fin r) (Fin q) ℝ) : Matrix (Fin r) (Fin q) ℝ :=
  Matrix.of fun i j => M i j / Real.sqrt (∑ k, M k j * M k j)

theorem normalized_of (M : Matrix (Fin r) (Fin q) ℝ) : (of M).normalized 0 = .ok (of (unitCols M)) := by
  unfold normalized
  rw [if_pos (Or.inl rfl), ok_inj]
  refine mk_congr fun i j => ?_
  simp only [sumFin_eq]
  rfl

theorem unitCols_unit (M : Matrix (Fin r) (Fin q) ℝ) (h : Mᵀ * M = 1) : unitCols M = M := by
  ext i j
  have := congrFun (congrFun h j) j
  rw [Matrix.mul_apply, Matrix.one_apply_eq] at this
  simp only [Matrix.transpose_apply] at this
  show M i j / Real.sqrt (∑ k, M k j * M k j) = _
  rw [this, Real.sqrt_one, div_one]

theorem getSub_lead (M : Matrix (Fin r) (Fin q) ℝ) (hk : k ≤ q) :
    (of M).getSubMatrix (.tuple 0 ((of M).rows : Int)) (.tuple 0 (k : Int)) = .ok (of (M.submatrix id (Fin.castLE hk))) := by
  have := getSubMatrix_tuple M 0 r 0 k (Nat.zero_le _) le_rfl (Nat.zero_le _) hk
  refine Eq.trans this ?_
  rw [ok_inj]
  refine mk_eq (by simp) (by simp) fun i j => ?_
  simp only [Matrix.of_apply, Matrix.submatrix_apply]
  congr 1
  · exact Fin.ext (by simp)
  · exact Fin.ext (by simp)

/-- The computation up to the decomposition. -/
theorem ccaProj_head (cfg : CcaCfg ℝ) (X : Matrix (Fin n) (Fin p) ℝ) (Y : Matrix (Fin n) (Fin q) ℝ) (A : Matrix (Fin p) (Fin p) ℝ)
    (B : Matrix (Fin q) (Fin q) ℝ) (hA : powMinusHalf cfg (of (regGram X cfg.lamX)) = .ok (of A))
    (hB : powMinusHalf cfg (of (regGram Y cfg.lamY)) = .ok (of B)) (hk : cfg.kcca = k) (u : Matrix (Fin p) (Fin r) ℝ) (s : Mat ℝ)
    (vh : Matrix (Fin r) (Fin q) ℝ) (hs : cfg.svd (of (A * (Xᵀ * Y) * B)) = .ok (of u, s, of vh)) (hu : k ≤ r) (hv : k ≤ q) :
    ccaProj cfg (of X) (of Y) = (do
      let pX ← (of A).mul (of ((unitCols (-u)).submatrix id (Fin.castLE hu)))
      let pY ← (of B).mul (of ((unitCols (-vh)).submatrix id (Fin.castLE hv)))
      .ok (pX, pY)) := by
  unfold ccaProj
  have hIX : Factory.eye (α := ℝ) ((of X).cols : Int) = .ok (of (1 : Matrix (Fin p) (Fin p) ℝ)) := Factory.eye_square_nat p
  have hIY : Factory.eye (α := ℝ) ((of Y).cols : Int) = .ok (of (1 : Matrix (Fin q) (Fin q) ℝ)) := Factory.eye_square_nat q
  have h1 : svdU (of u) = of (-u) := by
    unfold svdU
    rw [smul_of, neg_one_smul]
  have h2 : svdV (of vh) = of (-vh) := by
    unfold svdV
    rw [smul_of, neg_one_smul]
  rw [hIX, except_bind_ok, hIY, except_bind_ok, transpose_of, mul_of, except_bind_ok, smul_of, add_of, except_bind_ok, transpose_of, mul_of,
    except_bind_ok, smul_of, add_of, except_bind_ok, mul_of, except_bind_ok]
  unfold regGram at hA hB
  rw [hA, except_bind_ok, hB, except_bind_ok, mul_of, except_bind_ok, mul_of, except_bind_ok, hs, except_bind_ok]
  simp only [h1, h2]
  rw [normalized_of, except_bind_ok, normalized_of, except_bind_ok, hk, getSub_lead _ hu, except_bind_ok, getSub_lead _ hv, except_bind_ok]

end Verif
