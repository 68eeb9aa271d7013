import Verif.Alg.CCA
import Verif.Alg.Classes
import Verif.Props.Factory
import Verif.Props.EigLemmas

/-!
# C63, C87: canonical correlation filter; C48 for it
-/

set_option linter.unusedSectionVars false
set_option linter.unusedSimpArgs false

namespace Verif.Props
open Verif Verif.Mat Verif.Transf
open scoped Matrix

variable {n p q r k : Nat}

/-! ## Specification -/

/-- The data minus the column means of the training data. -/
noncomputable def minusMeans (T : Matrix (Fin n) (Fin p) ℝ) (X : Matrix (Fin r) (Fin p) ℝ) : Matrix (Fin r) (Fin p) ℝ :=
  Matrix.of fun i j => X i j - (∑ t, T t j) / n

/-- Regularised scatter matrix of centred training data. -/
noncomputable def scatter (T : Matrix (Fin n) (Fin p) ℝ) (lam : ℝ) : Matrix (Fin p) (Fin p) ℝ :=
  Matrix.of fun i j => (∑ t, minusMeans T T t i * minusMeans T T t j) + if i = j then lam else 0

/-- What the eigensolver returns for `C`: real eigenvalues and orthonormal eigenvectors. -/
def EigOk (eig : Mat ℝ → Except PyErr (Mat ℝ × Mat ℝ)) (C : Matrix (Fin p) (Fin p) ℝ) (ev : Fin p → ℝ) (V : Matrix (Fin p) (Fin p) ℝ) : Prop :=
  eig (of C) = .ok (of (Matrix.of fun i (_ : Fin 1) => ev i), of V) ∧ OrthoEig C ev V

/-! ## Lemmas -/

theorem minusMeans_eq (T : Matrix (Fin n) (Fin p) ℝ) (X : Matrix (Fin r) (Fin p) ℝ) : cen T X = minusMeans T X := rfl

theorem regGram_eq (T : Matrix (Fin n) (Fin p) ℝ) (lam : ℝ) : regGram (minusMeans T T) lam = scatter T lam := by
  ext i j
  unfold regGram scatter
  rw [Matrix.add_apply, Matrix.mul_apply, Matrix.smul_apply, Matrix.one_apply, Matrix.of_apply]
  simp

/-- The inverse square root computed from a positive spectrum. -/
theorem powMinusHalf_of (cfg : CcaCfg ℝ) (hle : cfg.le = fun a b => decide (a ≤ b)) (hp : p ≠ 0) (C : Matrix (Fin p) (Fin p) ℝ)
    (ev : Fin p → ℝ) (V : Matrix (Fin p) (Fin p) ℝ) (h : EigOk cfg.eig C ev V) (hpos : ∀ i, 0 < ev i) :
    ∃ (σ : Fin p → Fin p) (W : Matrix (Fin p) (Fin p) ℝ), Function.Bijective σ ∧ OrthoEig C (ev ∘ σ) W ∧
      powMinusHalf cfg (of C) = .ok (of (W * Matrix.diagonal (fun i => 1 / Real.sqrt (ev (σ i))) * Wᵀ)) := by
  obtain ⟨σ, hσ, h1, h2, h3, h4⟩ := sorted_ortho hp h.2 false
  refine ⟨σ, V.submatrix id σ, hσ, h4, ?_⟩
  unfold powMinusHalf
  rw [h.1, except_bind_ok]
  simp only [hle]
  have h1' : eigenvectorsSorted (fun a b => decide (a ≤ b)) (of C).rows (of (Matrix.of fun i (_ : Fin 1) => ev i)) (of V) false =
      .ok (of (V.submatrix id σ)) := h1
  have h2' : eigenvaluesSorted (fun a b => decide (a ≤ b)) (of (Matrix.of fun i (_ : Fin 1) => ev i)) false =
      of (Matrix.of fun i (_ : Fin 1) => ev (σ i)) := h2
  rw [h1', h2', except_bind_ok]
  have hd : Factory.diag (of (Matrix.of fun i (_ : Fin 1) => ev (σ i))) = .ok (of (Matrix.diagonal fun i => ev (σ i))) := by
    refine (C01_diag_partial (k := 0) (Nat.pos_of_ne_zero hp) (Matrix.of fun i (_ : Fin 1) => ev (σ i))).trans ?_
    rw [ok_inj]
    exact mk_congr fun i j => (Matrix.diagonal_apply (fun i => ev (σ i)) i j).symm
  rw [hd, except_bind_ok]
  have hs : (of (Matrix.diagonal fun i => ev (σ i))).sqrt = of (Matrix.diagonal fun i => Real.sqrt (ev (σ i))) := by
    have key : ∀ i j : Fin p, Real.sqrt (Matrix.diagonal (fun i => ev (σ i)) i j) = Matrix.diagonal (fun i => Real.sqrt (ev (σ i))) i j := by
      intro i j
      rw [Matrix.diagonal_apply, Matrix.diagonal_apply]
      split
      · rfl
      · exact Real.sqrt_zero
    exact mk_congr fun i j => key i j
  have hq : ∀ i, Real.sqrt (ev (σ i)) ≠ 0 := fun i => (Real.sqrt_pos.2 (hpos _)).ne'
  have hdet : (Matrix.diagonal fun i => Real.sqrt (ev (σ i))).det ≠ 0 := by
    rw [Matrix.det_diagonal]
    exact Finset.prod_ne_zero_iff.2 fun i _ => hq i
  have hinv : (Matrix.diagonal fun i => Real.sqrt (ev (σ i)))⁻¹ = Matrix.diagonal fun i => 1 / Real.sqrt (ev (σ i)) := by
    refine Matrix.inv_eq_right_inv ?_
    rw [Matrix.diagonal_mul_diagonal, ← Matrix.diagonal_one]
    congr 1
    funext i
    exact mul_one_div_cancel (hq i)
  rw [hs, inverse_of _ _ hdet, hinv, except_bind_ok, mul_of, except_bind_ok, transpose_of, mul_of]

theorem scatter_pos (T : Matrix (Fin n) (Fin p) ℝ) {lam : ℝ} {ev : Fin p → ℝ} {V : Matrix (Fin p) (Fin p) ℝ}
    (h : OrthoEig (scatter T lam) ev V) (i : Fin p) : lam ≤ ev i := by
  have h1 : (Vᵀ * (scatter T lam * V)) i i = ev i := by
    rw [h.eigen, ← Matrix.mul_assoc, h.ortho, Matrix.one_mul, Matrix.diagonal_apply_eq]
  have h2 : Vᵀ * (scatter T lam * V) = (minusMeans T T * V)ᵀ * (minusMeans T T * V) + lam • (1 : Matrix (Fin p) (Fin p) ℝ) := by
    rw [← regGram_eq, regGram, Matrix.transpose_mul, Matrix.add_mul, Matrix.mul_add, Matrix.smul_mul, Matrix.one_mul, Matrix.mul_smul,
      h.ortho]
    simp only [Matrix.mul_assoc]
  have h3 : 0 ≤ ((minusMeans T T * V)ᵀ * (minusMeans T T * V)) i i := by
    rw [Matrix.mul_apply]
    exact Finset.sum_nonneg fun k _ => mul_self_nonneg _
  rw [← h1, h2, Matrix.add_apply, Matrix.smul_apply, Matrix.one_apply_eq]
  simpa using h3

theorem half_facts {C W : Matrix (Fin p) (Fin p) ℝ} {d : Fin p → ℝ} (h : OrthoEig C d W) (hpos : ∀ i, 0 < d i) :
    let A := W * Matrix.diagonal (fun i => 1 / Real.sqrt (d i)) * Wᵀ
    Aᵀ = A ∧ A * A * C = 1 ∧ A * C * A = 1 := by
  intro A
  have hq : ∀ i, Real.sqrt (d i) ≠ 0 := fun i => (Real.sqrt_pos.2 (hpos i)).ne'
  have e1 : ∀ (D E : Fin p → ℝ), W * Matrix.diagonal D * Wᵀ * (W * Matrix.diagonal E * Wᵀ) = W * Matrix.diagonal (fun i => D i * E i) * Wᵀ := by
    intro D E
    calc W * Matrix.diagonal D * Wᵀ * (W * Matrix.diagonal E * Wᵀ) = W * (Matrix.diagonal D * (Wᵀ * W) * Matrix.diagonal E) * Wᵀ := by
          simp only [Matrix.mul_assoc]
      _ = _ := by rw [h.ortho, Matrix.mul_one, Matrix.diagonal_mul_diagonal]
  have e2 : ∀ i, 1 / Real.sqrt (d i) * (1 / Real.sqrt (d i)) * d i = 1 := by
    intro i
    have := Real.mul_self_sqrt (hpos i).le
    have h1 := hq i
    field_simp
    rw [pow_two, this]
  refine ⟨?_, ?_, ?_⟩
  · show (W * Matrix.diagonal _ * Wᵀ)ᵀ = _
    rw [Matrix.transpose_mul, Matrix.transpose_mul, Matrix.transpose_transpose, Matrix.diagonal_transpose, ← Matrix.mul_assoc]
  · rw [h.eq, e1, e1]
    simp only [e2]
    rw [Matrix.diagonal_one, Matrix.mul_one, h.ortho']
  · rw [h.eq, e1, e1]
    have e3 : ∀ i, 1 / Real.sqrt (d i) * d i * (1 / Real.sqrt (d i)) = 1 := fun i => by rw [mul_right_comm, e2]
    simp only [e3]
    rw [Matrix.diagonal_one, Matrix.mul_one, h.ortho']

/-! ## C63 -/

/-- For every positive regularisation, `C^(-1/2)` of the regularised scatter matrix exists, is symmetric, and its square is
the inverse. -/
theorem C63_half_partial (cfg : CcaCfg ℝ) (hle : cfg.le = fun a b => decide (a ≤ b)) (hp : p ≠ 0) (T : Matrix (Fin n) (Fin p) ℝ) (lam : ℝ)
    (hl : 0 < lam) (ev : Fin p → ℝ) (V : Matrix (Fin p) (Fin p) ℝ) (h : EigOk cfg.eig (scatter T lam) ev V) :
    ∃ A : Matrix (Fin p) (Fin p) ℝ, powMinusHalf cfg (of (scatter T lam)) = .ok (of A) ∧ Aᵀ = A ∧ A * A * scatter T lam = 1 ∧
      scatter T lam * (A * A) = 1 ∧ A * scatter T lam * A = 1 := by
  have hpos : ∀ i, 0 < ev i := fun i => lt_of_lt_of_le hl (scatter_pos T h.2 i)
  obtain ⟨σ, W, hσ, h1, h2⟩ := powMinusHalf_of cfg hle hp _ ev V h hpos
  obtain ⟨f1, f2, f3⟩ := half_facts h1 fun i => hpos (σ i)
  exact ⟨_, h2, f1, f2, mul_eq_one_comm.1 f2, f3⟩

/-- A negative regularisation is accepted by the validators of `lambda_X` and `lambda_Y`, although for constant data no
real matrix then has the defining property. -/
theorem C63_lambda_violation (T : Matrix (Fin n) (Fin 1) ℝ) (c lam : ℝ) (hT : ∀ i, T i 0 = c) (hn : n ≠ 0) (hl : lam < 0) :
    (("lambda_X", Life.Validator.always) ∈ (Life.ccaFilter (β := ℝ)).validators ∧
      ("lambda_Y", Life.Validator.always) ∈ (Life.ccaFilter (β := ℝ)).validators) ∧
    ¬ ∃ A : Matrix (Fin 1) (Fin 1) ℝ, A * A * scatter T lam = 1 := by
  refine ⟨⟨?_, ?_⟩, ?_⟩
  · simp [Life.ccaFilter]
  · simp [Life.ccaFilter]
  · rintro ⟨A, hA⟩
    have h1 := congrFun (congrFun hA 0) 0
    have hs : scatter T lam 0 0 = lam := by
      unfold scatter minusMeans
      simp only [Matrix.of_apply, hT, if_true]
      have : ((n : ℝ) * c) / n = c := by
        have : (n : ℝ) ≠ 0 := by exact_mod_cast hn
        field_simp
      simp [this]
    rw [Matrix.mul_apply, Fin.sum_univ_one, Matrix.mul_apply, Fin.sum_univ_one, hs, Matrix.one_apply_eq] at h1
    nlinarith [mul_self_nonneg (A 0 0)]

/-- A projection dimension above the number of features or targets is refused with a message and leaves the object
untrained; an untrained object raises. -/
theorem C63_validation (cfg : CcaCfg ℝ) (o : CcaObj ℝ) (X Y P : Mat ℝ) (hk : cfg.kcca > min (X.cols : Int) (Y.cols : Int)) :
    ∃ o', ccaInit cfg o X Y = .ok (o', some "Projection dimension must be <= min(X.num_columns(), Y.num_columns()).") ∧
      o'.initialised = false ∧ ccaTransform o' P = .error .runtimeError ∧ ccaTransformResponse o' P = .error .runtimeError :=
  ⟨_, if_pos hk, rfl, rfl, rfl⟩

/-- Whenever a new object is trained successfully, `transform` centres with the training means and multiplies by the
projection. -/
theorem C63_transform_partial (cfg : CcaCfg ℝ) (X : Matrix (Fin n) (Fin p) ℝ) (Y : Matrix (Fin n) (Fin q) ℝ) (o : CcaObj ℝ)
    (h : ccaInit cfg ccaFresh (of X) (of Y) = .ok (o, none)) :
    o.initialised = true ∧ ∃ PX PY : Mat ℝ, o.projX = some PX ∧ o.projY = some PY ∧
      (∀ (r : Nat) (Z : Matrix (Fin r) (Fin p) ℝ), ccaTransform o (of Z) = (of (minusMeans X Z)).mul PX) ∧
      (∀ (r : Nat) (Z : Matrix (Fin r) (Fin q) ℝ), ccaTransformResponse o (of Z) = (of (minusMeans Y Z)).mul PY) := by
  unfold ccaInit at h
  by_cases hk : cfg.kcca > min ((of X).cols : Int) ((of Y).cols : Int)
  · rw [if_pos hk] at h
    cases h
  · rw [if_neg hk] at h
    have e1 : optCentre (ccaFresh (α := ℝ)).cX (of X) = .ok (cenState X, of (cen X X)) := optCentre_fresh X
    have e2 : optCentre (ccaFresh (α := ℝ)).cY (of Y) = .ok (cenState Y, of (cen Y Y)) := optCentre_fresh Y
    rw [e1, except_bind_ok, e2, except_bind_ok] at h
    simp only [] at h
    cases hP : ccaProj cfg (of (cen X X)) (of (cen Y Y)) with
    | error e => rw [hP] at h; cases h
    | ok P =>
      rw [hP, except_bind_ok] at h
      cases h
      refine ⟨rfl, P.1, P.2, rfl, rfl, fun r Z => ?_, fun r Z => ?_⟩
      · show (optCentre (some (cenState X)) (of Z) >>= fun x => x.2.mul P.1) = _
        rw [optCentre_stale, except_bind_ok]
        rfl
      · show (optCentre (some (cenState Y)) (of Z) >>= fun x => x.2.mul P.2) = _
        rw [optCentre_stale, except_bind_ok]
        rfl

/-! ## C48 -/

/-- **C48 is violated by CCAFilter.** Training again does not renew the `Center` objects: a successful second training
centres the new data with the means of the old data. -/
theorem C48_cca_stale {m : Nat} (cfg : CcaCfg ℝ) (X1 : Matrix (Fin n) (Fin p) ℝ) (Y1 : Matrix (Fin n) (Fin q) ℝ) (o1 : CcaObj ℝ)
    (h1 : ccaInit cfg ccaFresh (of X1) (of Y1) = .ok (o1, none)) (X2 : Matrix (Fin m) (Fin p) ℝ) (Y2 : Matrix (Fin m) (Fin q) ℝ) (o2 : CcaObj ℝ)
    (h2 : ccaInit cfg o1 (of X2) (of Y2) = .ok (o2, none)) :
    (∃ P, ccaProj cfg (of (minusMeans X1 X2)) (of (minusMeans Y1 Y2)) = .ok P ∧ o2.projX = some P.1 ∧ o2.projY = some P.2) ∧
    ∀ (r : Nat) (Z : Matrix (Fin r) (Fin p) ℝ), ∃ PX, o2.projX = some PX ∧ ccaTransform o2 (of Z) = (of (minusMeans X1 Z)).mul PX := by
  have hc : o1.cX = some (cenState X1) ∧ o1.cY = some (cenState Y1) := by
    unfold ccaInit at h1
    by_cases hk : cfg.kcca > min ((of X1).cols : Int) ((of Y1).cols : Int)
    · rw [if_pos hk] at h1
      cases h1
    · rw [if_neg hk] at h1
      have e1 : optCentre (ccaFresh (α := ℝ)).cX (of X1) = .ok (cenState X1, of (cen X1 X1)) := optCentre_fresh X1
      have e2 : optCentre (ccaFresh (α := ℝ)).cY (of Y1) = .ok (cenState Y1, of (cen Y1 Y1)) := optCentre_fresh Y1
      rw [e1, except_bind_ok, e2, except_bind_ok] at h1
      simp only [] at h1
      cases hP : ccaProj cfg (of (cen X1 X1)) (of (cen Y1 Y1)) with
      | error e => rw [hP] at h1; cases h1
      | ok P =>
        rw [hP, except_bind_ok] at h1
        cases h1
        exact ⟨rfl, rfl⟩
  unfold ccaInit at h2
  by_cases hk : cfg.kcca > min ((of X2).cols : Int) ((of Y2).cols : Int)
  · rw [if_pos hk] at h2
    cases h2
  · rw [if_neg hk, hc.1, hc.2, optCentre_stale, except_bind_ok, optCentre_stale, except_bind_ok] at h2
    simp only [] at h2
    cases hP : ccaProj cfg (of (cen X1 X2)) (of (cen Y1 Y2)) with
    | error e => rw [hP] at h2; cases h2
    | ok P =>
      rw [hP, except_bind_ok] at h2
      cases h2
      refine ⟨⟨P, hP, rfl, rfl⟩, fun r Z => ⟨P.1, rfl, ?_⟩⟩
      show (optCentre (some (cenState X1)) (of Z) >>= fun x => x.2.mul P.1) = _
      rw [optCentre_stale, except_bind_ok]
      rfl

/-- **C48 is violated by CCAFilter (exception).** An object trained on `p` features raises `ValueError` when trained again
on another number of features. -/
theorem C48_cca_violation {m p' q' : Nat} (cfg : CcaCfg ℝ) (X1 : Matrix (Fin n) (Fin p) ℝ) (o1 : CcaObj ℝ) (h1 : o1.cX = some (cenState X1))
    (X2 : Matrix (Fin m) (Fin p') ℝ) (Y2 : Matrix (Fin m) (Fin q') ℝ) (hp : p' ≠ p) (hk : cfg.kcca ≤ min (p' : Int) (q' : Int)) :
    ccaInit cfg o1 (of X2) (of Y2) = .error .valueError := by
  unfold ccaInit
  rw [if_neg (by simpa using hk), h1, optCentre_bad X1 X2 hp]
  rfl

/-! ## C87 -/

/-- What the projections are: for at least as many features as targets training succeeds, with `A` and `B` the inverse
square roots; the projection of the predictors takes the leading *columns* of `u`, that of the response the leading
*columns* of `vh`. -/
theorem cca_train (cfg : CcaCfg ℝ) (k : Nat) (hcfg : cfg.kcca = k) (hkq : k ≤ q) (hqp : q ≤ p)
    (X : Matrix (Fin n) (Fin p) ℝ) (Y : Matrix (Fin n) (Fin q) ℝ) (A : Matrix (Fin p) (Fin p) ℝ) (B : Matrix (Fin q) (Fin q) ℝ)
    (hA : powMinusHalf cfg (of (scatter X cfg.lamX)) = .ok (of A)) (hB : powMinusHalf cfg (of (scatter Y cfg.lamY)) = .ok (of B))
    (u : Matrix (Fin p) (Fin q) ℝ) (s : Fin q → ℝ) (vh : Matrix (Fin q) (Fin q) ℝ)
    (hs : cfg.svd (of (A * ((minusMeans X X)ᵀ * minusMeans Y Y) * B)) = .ok (of u, of (Matrix.of fun (_ : Fin 1) i => s i), of vh))
    (hsvd : ThinSVD q (A * ((minusMeans X X)ᵀ * minusMeans Y Y) * B) u s vh) :
    ccaInit cfg ccaFresh (of X) (of Y) = .ok (⟨some (cenState X), some (cenState Y),
      some (of (A * (-u).submatrix id (Fin.castLE hkq))), some (of (B * (-vh).submatrix id (Fin.castLE hkq))), true⟩, none) := by
  unfold ccaInit
  rw [if_neg (by
    rw [hcfg]
    have h1 : ((of X).cols : Int) = p := rfl
    have h2 : ((of Y).cols : Int) = q := rfl
    rw [h1, h2]
    omega)]
  have e1 : optCentre (ccaFresh (α := ℝ)).cX (of X) = .ok (cenState X, of (minusMeans X X)) := optCentre_fresh X
  have e2 : optCentre (ccaFresh (α := ℝ)).cY (of Y) = .ok (cenState Y, of (minusMeans Y Y)) := optCentre_fresh Y
  rw [e1, except_bind_ok, e2, except_bind_ok]
  simp only []
  rw [← regGram_eq] at hA hB
  have hu : unitCols (-u) = -u := unitCols_unit _ (by rw [Matrix.transpose_neg, Matrix.neg_mul, Matrix.mul_neg, neg_neg, hsvd.left])
  have hv : unitCols (-vh) = -vh := unitCols_unit _ (by rw [Matrix.transpose_neg, Matrix.neg_mul, Matrix.mul_neg, neg_neg, mul_eq_one_comm.1 hsvd.right])
  rw [ccaProj_head cfg (minusMeans X X) (minusMeans Y Y) A B hA hB hcfg u _ vh hs hkq hkq, hu, hv, mul_of, except_bind_ok, mul_of, except_bind_ok]
  rfl

theorem lead_unit {M : Matrix (Fin r) (Fin q) ℝ} (h : Mᵀ * M = 1) (hk : k ≤ q) :
    ((-M).submatrix id (Fin.castLE hk))ᵀ * (-M).submatrix id (Fin.castLE hk) = 1 := by
  ext a b
  have := congrFun (congrFun h (Fin.castLE hk a)) (Fin.castLE hk b)
  rw [Matrix.mul_apply] at this ⊢
  simp only [Matrix.transpose_apply, Matrix.submatrix_apply, Matrix.neg_apply, neg_mul_neg, id]
  rw [Matrix.transpose] at this
  refine this.trans ?_
  rw [Matrix.one_apply, Matrix.one_apply]
  by_cases hab : a = b
  · rw [if_pos hab, if_pos (by rw [hab])]
  · rw [if_neg hab, if_neg fun e => hab (Fin.castLE_injective hk e)]

/-- The projected data is white: with respect to the regularised scatter matrices both projections are orthonormal.
The cross-covariance of the projected data is `S · vh · vh` restricted to `k` rows and columns, which is the diagonal of
canonical correlations only if `vh · vh` is the identity there. -/
theorem C87_white_partial (cfg : CcaCfg ℝ) (hle : cfg.le = fun a b => decide (a ≤ b)) (hlX : 0 < cfg.lamX) (hlY : 0 < cfg.lamY)
    (k : Nat) (hcfg : cfg.kcca = k) (hkq : k ≤ q) (hqp : q ≤ p) (hq : q ≠ 0)
    (X : Matrix (Fin n) (Fin p) ℝ) (Y : Matrix (Fin n) (Fin q) ℝ) (evx : Fin p → ℝ) (Vx : Matrix (Fin p) (Fin p) ℝ)
    (hx : EigOk cfg.eig (scatter X cfg.lamX) evx Vx) (evy : Fin q → ℝ) (Vy : Matrix (Fin q) (Fin q) ℝ)
    (hy : EigOk cfg.eig (scatter Y cfg.lamY) evy Vy) :
    ∃ (A : Matrix (Fin p) (Fin p) ℝ) (B : Matrix (Fin q) (Fin q) ℝ), A * A * scatter X cfg.lamX = 1 ∧ B * B * scatter Y cfg.lamY = 1 ∧
      powMinusHalf cfg (of (scatter X cfg.lamX)) = .ok (of A) ∧ powMinusHalf cfg (of (scatter Y cfg.lamY)) = .ok (of B) ∧
      ∀ (u : Matrix (Fin p) (Fin q) ℝ) (s : Fin q → ℝ) (vh : Matrix (Fin q) (Fin q) ℝ),
        cfg.svd (of (A * ((minusMeans X X)ᵀ * minusMeans Y Y) * B)) = .ok (of u, of (Matrix.of fun (_ : Fin 1) i => s i), of vh) →
        ThinSVD q (A * ((minusMeans X X)ᵀ * minusMeans Y Y) * B) u s vh →
        ∃ (o : CcaObj ℝ) (PX : Matrix (Fin p) (Fin k) ℝ) (PY : Matrix (Fin q) (Fin k) ℝ),
          ccaInit cfg ccaFresh (of X) (of Y) = .ok (o, none) ∧ o.projX = some (of PX) ∧ o.projY = some (of PY) ∧
          PXᵀ * scatter X cfg.lamX * PX = 1 ∧ PYᵀ * scatter Y cfg.lamY * PY = 1 ∧
          PXᵀ * ((minusMeans X X)ᵀ * minusMeans Y Y) * PY =
            (Matrix.diagonal s * (vh * vh)).submatrix (Fin.castLE hkq) (Fin.castLE hkq) := by
  obtain ⟨A, hA, a1, a2, _, a3⟩ := C63_half_partial cfg hle (by omega) X cfg.lamX hlX evx Vx hx
  obtain ⟨B, hB, b1, b2, _, b3⟩ := C63_half_partial cfg hle hq Y cfg.lamY hlY evy Vy hy
  refine ⟨A, B, a2, b2, hA, hB, fun u s vh hs hsvd => ?_⟩
  refine ⟨_, _, _, cca_train cfg k hcfg hkq hqp X Y A B hA hB u s vh hs hsvd, rfl, rfl, ?_, ?_, ?_⟩
  · rw [Matrix.transpose_mul, a1]
    calc _ = ((-u).submatrix id (Fin.castLE hkq))ᵀ * (A * scatter X cfg.lamX * A) * (-u).submatrix id (Fin.castLE hkq) := by
          simp only [Matrix.mul_assoc]
      _ = _ := by rw [a3, Matrix.mul_one, lead_unit hsvd.left]
  · rw [Matrix.transpose_mul, b1]
    calc _ = ((-vh).submatrix id (Fin.castLE hkq))ᵀ * (B * scatter Y cfg.lamY * B) * (-vh).submatrix id (Fin.castLE hkq) := by
          simp only [Matrix.mul_assoc]
      _ = _ := by rw [b3, Matrix.mul_one, lead_unit (mul_eq_one_comm.1 hsvd.right)]
  · have h1 : (A * (-u).submatrix id (Fin.castLE hkq))ᵀ * ((minusMeans X X)ᵀ * minusMeans Y Y) * (B * (-vh).submatrix id (Fin.castLE hkq)) =
        ((-u).submatrix id (Fin.castLE hkq))ᵀ * (A * ((minusMeans X X)ᵀ * minusMeans Y Y) * B) * (-vh).submatrix id (Fin.castLE hkq) := by
      rw [Matrix.transpose_mul, a1]
      simp only [Matrix.mul_assoc]
    rw [h1, hsvd.eq]
    have h2 : ((-u).submatrix id (Fin.castLE hkq))ᵀ * (u * Matrix.diagonal s * vh) * (-vh).submatrix id (Fin.castLE hkq) =
        (uᵀ * (u * Matrix.diagonal s * vh) * vh).submatrix (Fin.castLE hkq) (Fin.castLE hkq) := by
      rw [Matrix.submatrix_mul _ _ _ _ _ Function.bijective_id, Matrix.submatrix_mul _ _ _ _ _ Function.bijective_id, Matrix.submatrix_id_id]
      have e1 : ((-u).submatrix id (Fin.castLE hkq))ᵀ = -(uᵀ.submatrix (Fin.castLE hkq) id) := rfl
      have e2 : (-vh).submatrix id (Fin.castLE hkq) = -(vh.submatrix id (Fin.castLE hkq)) := rfl
      rw [e1, e2, Matrix.neg_mul, Matrix.neg_mul, Matrix.mul_neg, neg_neg]
    rw [h2]
    congr 1
    calc uᵀ * (u * Matrix.diagonal s * vh) * vh = (uᵀ * u) * Matrix.diagonal s * (vh * vh) := by simp only [Matrix.mul_assoc]
      _ = _ := by rw [hsvd.left, Matrix.one_mul]

/-- With fewer features than targets training raises a `ValueError`, since `vh` then has as many rows as there are
features. -/
theorem C87_wide_violation (cfg : CcaCfg ℝ) (k : Nat) (hcfg : cfg.kcca = k) (hkp : k ≤ p) (hpq : p < q)
    (X : Matrix (Fin n) (Fin p) ℝ) (Y : Matrix (Fin n) (Fin q) ℝ) (A : Matrix (Fin p) (Fin p) ℝ) (B : Matrix (Fin q) (Fin q) ℝ)
    (hA : powMinusHalf cfg (of (scatter X cfg.lamX)) = .ok (of A)) (hB : powMinusHalf cfg (of (scatter Y cfg.lamY)) = .ok (of B))
    (u : Matrix (Fin p) (Fin p) ℝ) (s : Fin p → ℝ) (vh : Matrix (Fin p) (Fin q) ℝ)
    (hs : cfg.svd (of (A * ((minusMeans X X)ᵀ * minusMeans Y Y) * B)) = .ok (of u, of (Matrix.of fun (_ : Fin 1) i => s i), of vh)) :
    ccaInit cfg ccaFresh (of X) (of Y) = .error .valueError := by
  unfold ccaInit
  rw [if_neg (by
    rw [hcfg]
    have h1 : ((of X).cols : Int) = p := rfl
    have h2 : ((of Y).cols : Int) = q := rfl
    rw [h1, h2]
    omega)]
  have e1 : optCentre (ccaFresh (α := ℝ)).cX (of X) = .ok (cenState X, of (minusMeans X X)) := optCentre_fresh X
  have e2 : optCentre (ccaFresh (α := ℝ)).cY (of Y) = .ok (cenState Y, of (minusMeans Y Y)) := optCentre_fresh Y
  rw [e1, except_bind_ok, e2, except_bind_ok]
  simp only []
  rw [← regGram_eq] at hA hB
  rw [ccaProj_head cfg (minusMeans X X) (minusMeans Y Y) A B hA hB hcfg u _ vh hs hkp (by omega), mul_of, except_bind_ok,
    mul_error (show (of B).cols ≠ (of ((unitCols (-vh)).submatrix id (Fin.castLE (by omega : k ≤ q)))).rows from hpq.ne')]
  rfl

/-! ### A concrete case -/

/-- Orthogonal, centred predictors. -/
noncomputable def ccaExX : Matrix (Fin 4) (Fin 2) ℝ := !![1, 1; 1, -1; -1, 1; -1, -1]
/-- Responses correlated with them with canonical correlations in the ratio 1 : 3/5 and a rotated basis. -/
noncomputable def ccaExY : Matrix (Fin 4) (Fin 2) ℝ := !![-13/25, 41/25; 43/25, -1/25; -11/25, -23/25; -19/25, -17/25]
/-- The rotation. -/
noncomputable def ccaExR : Matrix (Fin 2) (Fin 2) ℝ := !![3/5, 4/5; -4/5, 3/5]

/-- A configuration whose eigensolver and singular value decomposition return the values for `ccaExX` and `ccaExY`. -/
noncomputable def ccaExCca : CcaCfg ℝ where
  kcca := 2
  lamX := 5
  lamY := 5
  eig := fun _ => .ok (of (Matrix.of fun (_ : Fin 2) (_ : Fin 1) => (9 : ℝ)), of (1 : Matrix (Fin 2) (Fin 2) ℝ))
  svd := fun _ => .ok (of (1 : Matrix (Fin 2) (Fin 2) ℝ), of (Matrix.of fun (_ : Fin 1) i => (![4/9, 4/15] : Fin 2 → ℝ) i), of ccaExR)
  le := fun a b => decide (a ≤ b)
  lstsq := fun _ => .error .linAlgError

theorem ccaExX_means : minusMeans ccaExX ccaExX = ccaExX := by
  ext i j
  simp only [minusMeans, Matrix.of_apply, Fin.sum_univ_four]
  fin_cases i <;> fin_cases j <;> (simp [ccaExX]; try norm_num)

theorem ccaExY_means : minusMeans ccaExY ccaExY = ccaExY := by
  ext i j
  simp only [minusMeans, Matrix.of_apply, Fin.sum_univ_four]
  fin_cases i <;> fin_cases j <;> (simp [ccaExY]; try norm_num)

theorem ccaExX_scatter : scatter ccaExX 5 = Matrix.diagonal fun _ => (9 : ℝ) := by
  ext i j
  simp only [scatter, ccaExX_means, Matrix.of_apply, Fin.sum_univ_four]
  fin_cases i <;> fin_cases j <;> (simp [ccaExX]; try norm_num)

theorem ccaExY_scatter : scatter ccaExY 5 = Matrix.diagonal fun _ => (9 : ℝ) := by
  ext i j
  simp only [scatter, ccaExY_means, Matrix.of_apply, Fin.sum_univ_four]
  fin_cases i <;> fin_cases j <;> (simp [ccaExY]; try norm_num)

theorem ccaExEig : EigOk ccaExCca.eig (Matrix.diagonal fun _ : Fin 2 => (9 : ℝ)) (fun _ => 9) 1 :=
  ⟨rfl, ⟨by rw [Matrix.one_mul, Matrix.mul_one], by rw [Matrix.mul_one, Matrix.transpose_one]⟩⟩

theorem ccaExHalf {A : Matrix (Fin 2) (Fin 2) ℝ} (h : powMinusHalf ccaExCca (of (Matrix.diagonal fun _ : Fin 2 => (9 : ℝ))) = .ok (of A)) :
    A = Matrix.diagonal fun _ => 1 / 3 := by
  obtain ⟨σ, W, _, h1, h2⟩ := powMinusHalf_of ccaExCca rfl (by decide) _ _ _ ccaExEig fun _ => by norm_num
  rw [h2, ok_inj, of_inj] at h
  have h9 : Real.sqrt 9 = 3 := by
    rw [show (9 : ℝ) = 3 ^ 2 by norm_num]
    exact Real.sqrt_sq (by norm_num)
  rw [← h, h9]
  have e : (Matrix.diagonal fun _ : Fin 2 => (1 / 3 : ℝ)) = (1 / 3 : ℝ) • (1 : Matrix (Fin 2) (Fin 2) ℝ) := by
    rw [Matrix.smul_one_eq_diagonal]
  rw [e, Matrix.mul_smul, Matrix.smul_mul, Matrix.mul_one, h1.ortho']

theorem ccaExSvd : ThinSVD 2 ((Matrix.diagonal fun _ => (1 / 3 : ℝ)) * ((minusMeans ccaExX ccaExX)ᵀ * minusMeans ccaExY ccaExY) * Matrix.diagonal fun _ => (1 / 3 : ℝ))
    (1 : Matrix (Fin 2) (Fin 2) ℝ) ![4/9, 4/15] ccaExR where
  size := rfl
  eq := by
    rw [ccaExX_means, ccaExY_means, Matrix.one_mul]
    ext i j
    rw [Matrix.mul_diagonal, Matrix.diagonal_mul, Matrix.diagonal_mul]
    simp only [Matrix.mul_apply, Matrix.transpose_apply, Fin.sum_univ_four]
    fin_cases i <;> fin_cases j <;> (simp [ccaExX, ccaExY, ccaExR]; try norm_num)
  left := by rw [Matrix.transpose_one, Matrix.mul_one]
  right := by
    ext i j
    simp only [Matrix.mul_apply, Matrix.transpose_apply, Fin.sum_univ_two]
    fin_cases i <;> fin_cases j <;> (simp [ccaExR]; try norm_num)
  nonneg := by
    intro i
    fin_cases i <;> (simp; try norm_num)
  anti := by
    intro i j hij
    fin_cases i <;> fin_cases j <;> first | (simp; done) | (simp; norm_num; done) | (exact absurd hij (by decide))

/-- **C87 is violated.** For this data (whose canonical correlations are `4/9` and `4/15`) the first projected predictor is
correlated with the second projected response, since the code takes columns of `vh` where the canonical directions are
its rows. -/
theorem C87_cross_violation : ∃ (o : CcaObj ℝ) (PX PY : Matrix (Fin 2) (Fin 2) ℝ),
    ccaInit ccaExCca ccaFresh (of ccaExX) (of ccaExY) = .ok (o, none) ∧ o.projX = some (of PX) ∧ o.projY = some (of PY) ∧
    (PXᵀ * ((minusMeans ccaExX ccaExX)ᵀ * minusMeans ccaExY ccaExY) * PY) 0 1 = 32 / 75 ∧
    (PXᵀ * ((minusMeans ccaExX ccaExX)ᵀ * minusMeans ccaExY ccaExY) * PY) 0 0 = -28 / 225 := by
  have hX : EigOk ccaExCca.eig (scatter ccaExX ccaExCca.lamX) (fun _ => 9) 1 := by
    show EigOk ccaExCca.eig (scatter ccaExX 5) _ _
    rw [ccaExX_scatter]
    exact ccaExEig
  have hY : EigOk ccaExCca.eig (scatter ccaExY ccaExCca.lamY) (fun _ => 9) 1 := by
    show EigOk ccaExCca.eig (scatter ccaExY 5) _ _
    rw [ccaExY_scatter]
    exact ccaExEig
  obtain ⟨A, B, _, _, hA, hB, h⟩ := C87_white_partial ccaExCca rfl (show (0 : ℝ) < 5 by norm_num) (show (0 : ℝ) < 5 by norm_num) 2 rfl
    (le_refl 2) (le_refl 2) (by decide) ccaExX ccaExY _ _ hX _ _ hY
  have hA' : A = Matrix.diagonal fun _ => 1 / 3 := by
    refine ccaExHalf ?_
    rw [← ccaExX_scatter]
    exact hA
  have hB' : B = Matrix.diagonal fun _ => 1 / 3 := by
    refine ccaExHalf ?_
    rw [← ccaExY_scatter]
    exact hB
  subst hA' hB'
  obtain ⟨o, PX, PY, h1, h2, h3, _, _, h4⟩ := h 1 ![4/9, 4/15] ccaExR rfl ccaExSvd
  refine ⟨o, PX, PY, h1, h2, h3, ?_, ?_⟩
  · rw [h4, Matrix.submatrix_apply, Matrix.diagonal_mul, Matrix.mul_apply, Fin.sum_univ_two]
    have e0 : Fin.castLE (le_refl 2) (0 : Fin 2) = 0 := rfl
    have e1 : Fin.castLE (le_refl 2) (1 : Fin 2) = 1 := rfl
    rw [e0, e1]
    simp [ccaExR]
    norm_num
  · rw [h4, Matrix.submatrix_apply, Matrix.diagonal_mul, Matrix.mul_apply, Fin.sum_univ_two]
    have e0 : Fin.castLE (le_refl 2) (0 : Fin 2) = 0 := rfl
    rw [e0]
    simp [ccaExR]
    norm_num

/-- Hypotheses of `C63_half_partial` and `C63_transform_partial` hold for this data. -/
example : ∃ A : Matrix (Fin 2) (Fin 2) ℝ, powMinusHalf ccaExCca (of (scatter ccaExX 5)) = .ok (of A) ∧ Aᵀ = A ∧ A * A * scatter ccaExX 5 = 1 ∧
      scatter ccaExX 5 * (A * A) = 1 ∧ A * scatter ccaExX 5 * A = 1 :=
  C63_half_partial ccaExCca rfl (by decide) ccaExX 5 (by norm_num) (fun _ => 9) 1 (by rw [ccaExX_scatter]; exact ccaExEig)

end Verif.Props
