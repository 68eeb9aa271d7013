import Verif.Alg.PlsEquiv
import Verif.Props.PLS1Props
import Verif.Props.SimplsProps
import Mathlib.LinearAlgebra.Matrix.Rank

/-!
# C97, C98, C99: PLS1 reaches least squares, and follows rotations, permutations and units
-/

namespace Verif.Props

open Verif Mat
open scoped Matrix

variable {n p : Nat}

/-! ## Least squares on all predictors -/

/-- The rotated weights as columns. -/
noncomputable def rotM (wf : Matrix (Fin n) (Fin p) ℝ → Matrix (Fin p) (Fin 1) ℝ) (K : Nat)
    (X : Matrix (Fin n) (Fin p) ℝ) : Matrix (Fin p) (Fin K) ℝ := Matrix.of fun i j => plsR wf X j.1 i 0

theorem plsTM_mul (wf : Matrix (Fin n) (Fin p) ℝ → Matrix (Fin p) (Fin 1) ℝ) (K : Nat)
    (X : Matrix (Fin n) (Fin p) ℝ) : plsTM wf K X = X * rotM wf K X := by
  ext i j
  rw [plsTM, Matrix.of_apply, plsT_mul, Matrix.mul_apply, Matrix.mul_apply]
  rfl

theorem gram_det {wf : Matrix (Fin n) (Fin p) ℝ → Matrix (Fin p) (Fin 1) ℝ} {K : Nat} {X : Matrix (Fin n) (Fin p) ℝ}
    (h : Regular wf K X) : ((plsTM wf K X)ᵀ * plsTM wf K X).det ≠ 0 := by
  rw [plsTM_gram wf K X h.sq1_ne, Matrix.det_diagonal]
  exact Finset.prod_ne_zero_iff.2 fun i _ => h.sq1_ne i.1 i.2

/-- No more components than predictors. -/
theorem regular_le {wf : Matrix (Fin n) (Fin p) ℝ → Matrix (Fin p) (Fin 1) ℝ} {K : Nat} {X : Matrix (Fin n) (Fin p) ℝ}
    (h : Regular wf K X) : K ≤ p := by
  have h1 : ((plsTM wf K X)ᵀ * plsTM wf K X).rank = K := by
    have := Matrix.rank_of_isUnit _ ((Matrix.isUnit_iff_isUnit_det _).2 (isUnit_iff_ne_zero.2 (gram_det h)))
    simpa using this
  rw [plsTM_mul, ← Matrix.mul_assoc] at h1
  have h2 := Matrix.rank_mul_le_right ((X * rotM wf K X)ᵀ * X) (rotM wf K X)
  have h3 := (rotM wf K X).rank_le_height
  omega

theorem regular_mono {wf : Matrix (Fin n) (Fin p) ℝ → Matrix (Fin p) (Fin 1) ℝ} {K L : Nat}
    {X : Matrix (Fin n) (Fin p) ℝ} (h : Regular wf K X) (hL : L ≤ K) : Regular wf L X :=
  Regular.of_sq1 fun k hk => h.sq1_ne k (by omega)

/-- **C97.** With as many components as predictors (for any rule for the weights), the regression vector is that of
ordinary least squares, whose normal equations are then solvable in exactly one way. -/
theorem C97_all_components {weights : Mat ℝ → Mat ℝ → Except PyErr (Mat ℝ)}
    {wf : Matrix (Fin n) (Fin p) ℝ → Matrix (Fin p) (Fin 1) ℝ} {y : Matrix (Fin n) (Fin 1) ℝ} (hn : 0 < n) (hp : 0 < p)
    (X : Matrix (Fin n) (Fin p) ℝ) (hw : Computes weights wf y) (h : Regular wf p X) :
    (Xᵀ * X).det ≠ 0 ∧
    ∃ (m : Pls1Model ℝ) (T : Mat ℝ), pls1Train weights p (of X) (of y) = .ok (m, T) ∧
      ∀ {r : Nat}, 0 < r → ∀ Z : Matrix (Fin r) (Fin p) ℝ,
        pls1Predict p m (of Z) = .ok (of (Z * ((Xᵀ * X)⁻¹ * (Xᵀ * y)))) := by
  have hg := gram_det h
  rw [plsTM_mul, Matrix.transpose_mul, ← Matrix.mul_assoc, Matrix.det_mul, Matrix.mul_assoc, Matrix.det_mul] at hg
  have hX : (Xᵀ * X).det ≠ 0 := right_ne_zero_of_mul (left_ne_zero_of_mul hg)
  have hR : (rotM wf p X)ᵀ.det ≠ 0 := left_ne_zero_of_mul (left_ne_zero_of_mul hg)
  refine ⟨hX, ?_⟩
  obtain ⟨m, T, R, h1, -, h3⟩ := C50_linear hn hp hp X hw h
  refine ⟨m, T, h1, fun hr Z => ?_⟩
  obtain ⟨m', T', F, h1', h2', -, h4, -⟩ := C50_least_squares hn hp hp X hw h
  have hs := h.sq1_ne
  rw [pls1Train_eq wf weights p hn hp hp X y (fun k _ => hw _) hs] at h1'
  have hT : plsTM wf p X = T' := of_inj.1 (Prod.mk.inj (Except.ok.inj h1')).2
  have hm : m = m' := by
    rw [pls1Train_eq wf weights p hn hp hp X y (fun k _ => hw _) hs] at h1
    rw [← (Prod.mk.inj (Except.ok.inj h1)).1, ← (Prod.mk.inj (Except.ok.inj h1')).1]
  subst hm
  rw [h3 hn X] at h2'
  have hF : X * R = F := of_inj.1 (Except.ok.inj h2')
  rw [← hT, ← hF, plsTM_mul, Matrix.transpose_mul, Matrix.mul_assoc] at h4
  have h5 : Xᵀ * (y - X * R) = 0 := by
    have := congrArg (fun M => ((rotM wf p X)ᵀ)⁻¹ * M) h4
    simp only [Matrix.mul_zero] at this
    rwa [← Matrix.mul_assoc, Matrix.nonsing_inv_mul _ (isUnit_iff_ne_zero.2 hR), Matrix.one_mul] at this
  have h6 : R = (Xᵀ * X)⁻¹ * (Xᵀ * y) := by
    rw [Matrix.mul_sub, sub_eq_zero, ← Matrix.mul_assoc] at h5
    rw [h5, ← Matrix.mul_assoc, Matrix.nonsing_inv_mul _ (isUnit_iff_ne_zero.2 hX), Matrix.one_mul]
  rw [h3 hr Z, h6]

/-- The score of PLS1 is zero only when the remaining predictors are uncorrelated with the response. -/
theorem cov_zero {X : Matrix (Fin n) (Fin p) ℝ} {y : Matrix (Fin n) (Fin 1) ℝ} (h : sq1 (X * pls1W y X) = 0) :
    Xᵀ * y = 0 := by
  have ht : X * pls1W y X = 0 := by
    have h0 := (Finset.sum_eq_zero_iff_of_nonneg fun l _ => mul_self_nonneg ((X * pls1W y X) l 0)).1 h
    ext i j
    rw [Subsingleton.elim j 0]
    exact mul_self_eq_zero.1 (h0 i (Finset.mem_univ i))
  by_contra hne
  have hs : sq1 (Xᵀ * y) ≠ 0 := by
    intro h0
    refine hne ?_
    have h1 := (Finset.sum_eq_zero_iff_of_nonneg fun l _ => mul_self_nonneg ((Xᵀ * y) l 0)).1 h0
    ext i j
    rw [Subsingleton.elim j 0]
    exact mul_self_eq_zero.1 (h1 i (Finset.mem_univ i))
  have hpos : 0 < sq1 (Xᵀ * y) := lt_of_le_of_ne (Finset.sum_nonneg fun l _ => mul_self_nonneg _) (Ne.symm hs)
  rw [pls1W_eq, Matrix.mul_smul] at ht
  have h2 : X * (Xᵀ * y) = 0 := by
    rcases smul_eq_zero.1 ht with h | h
    · exact absurd (inv_eq_zero.1 h) (Real.sqrt_ne_zero'.2 hpos)
    · exact h
  refine hs ?_
  rw [← sq1_eq, Matrix.transpose_mul, Matrix.transpose_transpose, Matrix.mul_assoc, h2, Matrix.mul_zero]
  rfl

/-- **C97.** When PLS1 has extracted every component there is (the next score would be zero), the fit is the
least-squares fit on all predictors: the residual is uncorrelated with every predictor, and no combination of the
predictors has a smaller residual. -/
theorem C97_exhausted (hn : 0 < n) (hp : 0 < p) {K : Nat} (hK : 0 < K) (X : Matrix (Fin n) (Fin p) ℝ)
    (y : Matrix (Fin n) (Fin 1) ℝ) (h : Regular (pls1W y) K X) (hx : ¬ Regular (pls1W y) (K + 1) X) :
    ∃ (m : Pls1Model ℝ) (T : Mat ℝ) (F : Matrix (Fin n) (Fin 1) ℝ),
      pls1Train pls1Weights K (of X) (of y) = .ok (m, T) ∧ pls1Predict K m (of X) = .ok (of F) ∧
      Xᵀ * (y - F) = 0 ∧
      ∀ c : Matrix (Fin p) (Fin 1) ℝ, ∑ i, (y i 0 - F i 0) ^ 2 ≤ ∑ i, (y i 0 - (X * c) i 0) ^ 2 := by
  have hs := h.sq1_ne
  have h0 : sq1 (plsT (pls1W y) X K) = 0 := by
    by_contra hne
    refine hx (Regular.of_sq1 fun k hk => ?_)
    rcases (by omega : k < K ∨ k = K) with hk' | rfl
    · exact hs k hk'
    · exact hne
  have hcov : (plsX (pls1W y) X K)ᵀ * y = 0 := cov_zero h0
  refine ⟨_, _, _, pls1Train_eq (pls1W y) pls1Weights K hn hp hK X y (fun k _ => pls1_computes y _) hs,
    pls1Predict_eq (pls1W y) hn _ _ _ _ _, ?_⟩
  have hF : plsSM (pls1W y) K X X * plsBM (pls1W y) K X y = plsTM (pls1W y) K X * plsBM (pls1W y) K X y := by
    rw [plsSM_train]
  have hres : X = plsX (pls1W y) X K + plsTM (pls1W y) K X * (plsPM (pls1W y) K X)ᵀ := by
    rw [plsX_sum]
    have : ∑ j ∈ Finset.range K, plsT (pls1W y) X j * (plsP (pls1W y) X j)ᵀ =
        plsTM (pls1W y) K X * (plsPM (pls1W y) K X)ᵀ := by
      ext a b
      rw [Matrix.mul_apply, Matrix.sum_apply, Finset.sum_range]
      refine Finset.sum_congr rfl fun i _ => ?_
      rw [Matrix.mul_apply, Fin.sum_univ_one]
      rfl
    rw [this, sub_add_cancel]
  have hTX : (plsTM (pls1W y) K X)ᵀ * plsX (pls1W y) X K = 0 := by
    ext i j
    obtain ⟨d, hd⟩ : ∃ d, K = i.1 + d + 1 := ⟨K - i.1 - 1, by have := i.2; omega⟩
    have := plsT_orth_X (pls1W y) X i.1 d (by rw [← hd]; exact hs)
    rw [← hd] at this
    have h2 := congrFun (congrFun this 0) j
    rw [Matrix.mul_apply] at h2 ⊢
    exact h2
  have hXT : (plsX (pls1W y) X K)ᵀ * plsTM (pls1W y) K X = 0 := by
    have := congrArg Matrix.transpose hTX
    rwa [Matrix.transpose_mul, Matrix.transpose_transpose, Matrix.transpose_zero] at this
  have horth : Xᵀ * (y - plsTM (pls1W y) K X * plsBM (pls1W y) K X y) = 0 := by
    have hr := pls_resid (pls1W y) K X y hs
    have e : Xᵀ = (plsX (pls1W y) X K)ᵀ + plsPM (pls1W y) K X * (plsTM (pls1W y) K X)ᵀ := by
      conv_lhs => rw [hres]
      rw [Matrix.transpose_add, Matrix.transpose_mul, Matrix.transpose_transpose]
    rw [e, Matrix.add_mul, Matrix.mul_assoc _ _ (y - _), hr, Matrix.mul_zero, add_zero, Matrix.mul_sub, hcov,
      ← Matrix.mul_assoc, hXT, Matrix.zero_mul, sub_zero]
  rw [hF]
  refine ⟨horth, fun c => ?_⟩
  rw [plsTM_mul, Matrix.mul_assoc] at horth ⊢
  have := lsq_of_orth X y (rotM (pls1W y) K X * plsBM (pls1W y) K X y) c horth
  simp only [sq1, ← sq, Matrix.sub_apply] at this
  exact this

/-- **C97.** Unless the response is uncorrelated with every predictor, some number of components between one and the
number of predictors makes PLS1 fit the training data by ordinary least squares. -/
theorem C97_reaches (hn : 0 < n) (hp : 0 < p) (X : Matrix (Fin n) (Fin p) ℝ) (y : Matrix (Fin n) (Fin 1) ℝ)
    (h : Xᵀ * y ≠ 0) :
    ∃ (K : Nat) (m : Pls1Model ℝ) (T : Mat ℝ) (F : Matrix (Fin n) (Fin 1) ℝ), 0 < K ∧ K ≤ p ∧
      pls1Train pls1Weights K (of X) (of y) = .ok (m, T) ∧ pls1Predict K m (of X) = .ok (of F) ∧
      Xᵀ * (y - F) = 0 ∧
      ∀ c : Matrix (Fin p) (Fin 1) ℝ, ∑ i, (y i 0 - F i 0) ^ 2 ≤ ∑ i, (y i 0 - (X * c) i 0) ^ 2 := by
  classical
  have h1 : Regular (pls1W y) 1 X := Regular.of_sq1 fun k hk h0 => by
    obtain rfl : k = 0 := by omega
    exact h (cov_zero h0)
  have hex : ∃ K, ¬ Regular (pls1W y) (K + 1) X := ⟨p, fun hr => by have := regular_le hr; omega⟩
  have hK := Nat.find_spec hex
  have hmin := fun k (hk : k < Nat.find hex) => not_not.1 (Nat.find_min hex hk)
  generalize Nat.find hex = K at hK hmin
  have hpos : 0 < K := by
    rcases Nat.eq_zero_or_pos K with rfl | h'
    · exact absurd h1 hK
    · exact h'
  have hreg : Regular (pls1W y) K X := by
    have := hmin (K - 1) (by omega)
    rwa [Nat.sub_add_cancel hpos] at this
  obtain ⟨m, T, F, r1, r2, r3, r4⟩ := C97_exhausted hn hp hpos X y hreg hK
  exact ⟨K, m, T, F, hpos, regular_le hreg, r1, r2, r3, r4⟩

/-! ## Rotations, permutations, units -/

/-- Training on rotated and rescaled data. -/
theorem pls1_equiv (hn : 0 < n) (hp : 0 < p) {K : Nat} (hK : 0 < K) (X : Matrix (Fin n) (Fin p) ℝ)
    (y : Matrix (Fin n) (Fin 1) ℝ) (h : Regular (pls1W y) K X) {U : Matrix (Fin n) (Fin n) ℝ}
    {V : Matrix (Fin p) (Fin p) ℝ} (hU : Uᵀ * U = 1) (hV : Vᵀ * V = 1) {c d : ℝ} (hc : c ≠ 0) (hd : d ≠ 0) :
    Regular (pls1W (c • (U * y))) K (d • (U * X * V)) ∧
    ∃ (m m' : Pls1Model ℝ) (T : Matrix (Fin n) (Fin K) ℝ),
      pls1Train pls1Weights K (of X) (of y) = .ok (m, of T) ∧
      pls1Train pls1Weights K (of (d • (U * X * V))) (of (c • (U * y))) =
        .ok (m', of ((d * (c * d / |c * d|)) • (U * T))) ∧
      ∀ {r : Nat}, 0 < r → ∀ Z : Matrix (Fin r) (Fin p) ℝ,
        ∃ (S : Matrix (Fin r) (Fin K) ℝ) (F : Matrix (Fin r) (Fin 1) ℝ),
          pls1Transform K m (of Z) = .ok (of S) ∧
          pls1Transform K m' (of (d • (Z * V))) = .ok (of ((d * (c * d / |c * d|)) • S)) ∧
          pls1Predict K m (of Z) = .ok (of F) ∧ pls1Predict K m' (of (d • (Z * V))) = .ok (of (c • F)) := by
  have hs := h.sq1_ne
  have hw := pls1W_rel hU hV (c := c) (d := d) y
  have h2 := sign_sq (mul_ne_zero hc hd)
  generalize hsg : c * d / |c * d| = s at hw h2 ⊢
  have hs0 : s ≠ 0 := fun h0 => by rw [h0, mul_zero] at h2; exact zero_ne_one h2
  have hT : ∀ k, plsT (pls1W (c • (U * y))) (d • (U * X * V)) k = (d * s) • (U * plsT (pls1W y) X k) :=
    plsT_equiv hU hV hd h2 hw X
  have hs' : ∀ k < K, sq1 (plsT (pls1W (c • (U * y))) (d • (U * X * V)) k) ≠ 0 := fun k hk => by
    rw [hT, sq1_smul, sq1_orth hU]
    exact mul_ne_zero (mul_self_ne_zero.2 (mul_ne_zero hd hs0)) (hs k hk)
  have htr := pls1Train_eq (pls1W (c • (U * y))) pls1Weights K hn hp hK (d • (U * X * V)) (c • (U * y))
    (fun k _ => pls1_computes (c • (U * y)) _) hs'
  have hTM : plsTM (pls1W (c • (U * y))) K (d • (U * X * V)) = (d * s) • (U * plsTM (pls1W y) K X) := by
    ext i j
    show plsT (pls1W (c • (U * y))) (d • (U * X * V)) j.1 i 0 = _
    rw [hT, Matrix.smul_apply, Matrix.smul_apply, Matrix.mul_apply, Matrix.mul_apply]
    rfl
  rw [hTM] at htr
  refine ⟨Regular.of_sq1 hs', _, _, plsTM (pls1W y) K X,
    pls1Train_eq (pls1W y) pls1Weights K hn hp hK X y (fun k _ => pls1_computes y _) hs, htr, fun hr Z =>
    ⟨_, _, pls1Transform_eq (pls1W y) hr _ _ _ _ _, ?_, pls1Predict_eq (pls1W y) hr _ _ _ _ _, ?_⟩⟩
  · rw [pls1Transform_eq (pls1W (c • (U * y))) hr]
    congr 2
    ext i j
    show plsS (pls1W (c • (U * y))) (d • (U * X * V)) (d • (Z * V)) j.1 i 0 = _
    rw [plsS_equiv hU hV hd h2 hw]
    rfl
  · rw [pls1Predict_eq (pls1W (c • (U * y))) hr, plsFit_equiv hU hV hd h2 hw]

/-- **C98.** Rotating the samples (`U`) and the predictors (`V`) leaves the predictions unchanged, provided new data
is rotated the same way; the training scores are rotated with the samples, the scores of new data are unchanged. -/
theorem C98_rotation (hn : 0 < n) (hp : 0 < p) {K : Nat} (hK : 0 < K) (X : Matrix (Fin n) (Fin p) ℝ)
    (y : Matrix (Fin n) (Fin 1) ℝ) (h : Regular (pls1W y) K X) {U : Matrix (Fin n) (Fin n) ℝ}
    {V : Matrix (Fin p) (Fin p) ℝ} (hU : Uᵀ * U = 1) (hV : Vᵀ * V = 1) :
    ∃ (m m' : Pls1Model ℝ) (T : Matrix (Fin n) (Fin K) ℝ),
      pls1Train pls1Weights K (of X) (of y) = .ok (m, of T) ∧
      pls1Train pls1Weights K (of (U * X * V)) (of (U * y)) = .ok (m', of (U * T)) ∧
      ∀ {r : Nat}, 0 < r → ∀ Z : Matrix (Fin r) (Fin p) ℝ,
        ∃ (S : Matrix (Fin r) (Fin K) ℝ) (F : Matrix (Fin r) (Fin 1) ℝ),
          pls1Transform K m (of Z) = .ok (of S) ∧ pls1Transform K m' (of (Z * V)) = .ok (of S) ∧
          pls1Predict K m (of Z) = .ok (of F) ∧ pls1Predict K m' (of (Z * V)) = .ok (of F) := by
  obtain ⟨-, m, m', T, h1, h2, h3⟩ := pls1_equiv hn hp hK X y h hU hV one_ne_zero one_ne_zero
  simp only [one_smul, mul_one, abs_one, div_one] at h2 h3
  exact ⟨m, m', T, h1, h2, h3⟩

/-- The matrix of a permutation. -/
theorem perm_orth (σ : Equiv.Perm (Fin n)) :
    ((1 : Matrix (Fin n) (Fin n) ℝ).submatrix σ id)ᵀ * (1 : Matrix (Fin n) (Fin n) ℝ).submatrix σ id = 1 := by
  rw [Matrix.transpose_submatrix, Matrix.transpose_one, Matrix.submatrix_mul_equiv _ _ id σ id, Matrix.one_mul,
    Matrix.submatrix_id_id]

theorem perm_mul (σ : Equiv.Perm (Fin n)) {k : Nat} (M : Matrix (Fin n) (Fin k) ℝ) :
    (1 : Matrix (Fin n) (Fin n) ℝ).submatrix σ id * M = M.submatrix σ id := by
  ext i j
  simp [Matrix.mul_apply, Matrix.one_apply]

theorem mul_perm (τ : Equiv.Perm (Fin p)) {k : Nat} (M : Matrix (Fin k) (Fin p) ℝ) :
    M * (1 : Matrix (Fin p) (Fin p) ℝ).submatrix id τ = M.submatrix id τ := by
  ext i j
  simp [Matrix.mul_apply, Matrix.one_apply]

/-- **C98.** The order of the training samples and the order of the predictors do not matter: with the samples of the
training data in another order, and the predictors of all data in another order, the predictions are the same. -/
theorem C98_order (hn : 0 < n) (hp : 0 < p) {K : Nat} (hK : 0 < K) (X : Matrix (Fin n) (Fin p) ℝ)
    (y : Matrix (Fin n) (Fin 1) ℝ) (h : Regular (pls1W y) K X) (σ : Equiv.Perm (Fin n)) (τ : Equiv.Perm (Fin p)) :
    ∃ (m m' : Pls1Model ℝ) (T T' : Mat ℝ),
      pls1Train pls1Weights K (of X) (of y) = .ok (m, T) ∧
      pls1Train pls1Weights K (of (Matrix.of fun i j => X (σ i) (τ j))) (of (Matrix.of fun i j => y (σ i) j)) =
        .ok (m', T') ∧
      ∀ {r : Nat}, 0 < r → ∀ Z : Matrix (Fin r) (Fin p) ℝ,
        ∃ (S : Matrix (Fin r) (Fin K) ℝ) (F : Matrix (Fin r) (Fin 1) ℝ),
          pls1Transform K m (of Z) = .ok (of S) ∧
          pls1Transform K m' (of (Matrix.of fun i j => Z i (τ j))) = .ok (of S) ∧
          pls1Predict K m (of Z) = .ok (of F) ∧
          pls1Predict K m' (of (Matrix.of fun i j => Z i (τ j))) = .ok (of F) := by
  have hV : ((1 : Matrix (Fin p) (Fin p) ℝ).submatrix id τ)ᵀ * (1 : Matrix (Fin p) (Fin p) ℝ).submatrix id τ = 1 := by
    rw [mul_perm]
    ext i j
    simp [Matrix.one_apply]
  obtain ⟨m, m', T, h1, h2, h3⟩ := C98_rotation hn hp hK X y h (perm_orth σ) hV
  rw [perm_mul, perm_mul, mul_perm] at h2
  simp only [mul_perm] at h3
  exact ⟨m, m', _, _, h1, h2, h3⟩

/-- **C98** for SIMPLS. -/
theorem C98_simpls {eig : Mat ℝ → Mat ℝ × Mat ℝ} (he : EigOne eig) (hn : 0 < n) (hp : 0 < p) {K : Nat} (hK : 0 < K)
    {count : Int} (hcount : count ≤ 0) (X : Matrix (Fin n) (Fin p) ℝ) (y : Matrix (Fin n) (Fin 1) ℝ)
    (h : Regular (pls1W y) K X) {U : Matrix (Fin n) (Fin n) ℝ} {V : Matrix (Fin p) (Fin p) ℝ} (hU : Uᵀ * U = 1)
    (hV : Vᵀ * V = 1) :
    ∃ m m' : SimplsModel ℝ, simplsTrain (domOf eig) K count (of X) (of y) = .ok m ∧
      simplsTrain (domOf eig) K count (of (U * X * V)) (of (U * y)) = .ok m' ∧
      ∀ (r : Nat), 0 < r → ∀ Z : Matrix (Fin r) (Fin p) ℝ, ∃ F : Matrix (Fin r) (Fin 1) ℝ,
        simplsPredict m (of Z) = .ok (of F) ∧ simplsPredict m' (of (Z * V)) = .ok (of F) := by
  obtain ⟨hreg, m, m', T, h1, h2, h3⟩ := pls1_equiv hn hp hK X y h hU hV one_ne_zero one_ne_zero
  simp only [one_smul] at h2 h3 hreg
  obtain ⟨a, b, Ta, ha, hb, hab⟩ := C73_same_predictions he hn hp hK hcount X y h
  obtain ⟨a', b', Ta', ha', hb', hab'⟩ := C73_same_predictions he hn hp hK hcount _ _ hreg
  rw [hb] at h1
  obtain ⟨rfl, -⟩ := Prod.mk.inj (Except.ok.inj h1)
  rw [hb'] at h2
  obtain ⟨rfl, -⟩ := Prod.mk.inj (Except.ok.inj h2)
  refine ⟨a, a', ha, ha', fun r hr Z => ?_⟩
  obtain ⟨F, f1, f2⟩ := hab r hr Z
  obtain ⟨F', f1', f2'⟩ := hab' r hr (Z * V)
  obtain ⟨S, G, -, -, g1, g2⟩ := h3 hr Z
  have e1 : F = G := of_inj.1 (Except.ok.inj (f2.symm.trans g1))
  have e2 : F' = G := of_inj.1 (Except.ok.inj (f2'.symm.trans g2))
  exact ⟨F, f1, by rw [f1', e2, e1]⟩

/-- **C99.** Units do not matter: with the predictors measured in another unit (factor `d`) and the response in
another (factor `c`, either may be negative), the predictions for data in the new unit are the old ones in the new
unit. -/
theorem C99_units (hn : 0 < n) (hp : 0 < p) {K : Nat} (hK : 0 < K) (X : Matrix (Fin n) (Fin p) ℝ)
    (y : Matrix (Fin n) (Fin 1) ℝ) (h : Regular (pls1W y) K X) {c d : ℝ} (hc : c ≠ 0) (hd : d ≠ 0) :
    ∃ (m m' : Pls1Model ℝ) (T T' : Mat ℝ),
      pls1Train pls1Weights K (of X) (of y) = .ok (m, T) ∧
      pls1Train pls1Weights K (of (d • X)) (of (c • y)) = .ok (m', T') ∧
      ∀ {r : Nat}, 0 < r → ∀ Z : Matrix (Fin r) (Fin p) ℝ, ∃ F : Matrix (Fin r) (Fin 1) ℝ,
        pls1Predict K m (of Z) = .ok (of F) ∧ pls1Predict K m' (of (d • Z)) = .ok (of (c • F)) := by
  have h1n : (1 : Matrix (Fin n) (Fin n) ℝ)ᵀ * 1 = 1 := by rw [Matrix.transpose_one, Matrix.one_mul]
  have h1p : (1 : Matrix (Fin p) (Fin p) ℝ)ᵀ * 1 = 1 := by rw [Matrix.transpose_one, Matrix.one_mul]
  obtain ⟨-, m, m', T, h1, h2, h3⟩ := pls1_equiv hn hp hK X y h h1n h1p hc hd
  rw [Matrix.one_mul, Matrix.one_mul, Matrix.mul_one] at h2
  simp only [Matrix.mul_one] at h3
  refine ⟨m, m', _, _, h1, h2, fun hr Z => ?_⟩
  obtain ⟨S, F, -, -, g1, g2⟩ := h3 hr Z
  exact ⟨F, g1, g2⟩

/-- **C99**, its limit: units chosen per predictor do matter: rescaling one column changes the predictions of a one-component
model (which is why the predictors are usually standardised first). -/
theorem C99_column_units_differ :
    ∃ (m m' : Pls1Model ℝ) (T T' : Mat ℝ) (F F' : Matrix (Fin 2) (Fin 1) ℝ),
      pls1Train pls1Weights (1 : Nat) (of (1 : Matrix (Fin 2) (Fin 2) ℝ)) (of (!![3; 2] : Matrix (Fin 2) (Fin 1) ℝ)) =
        .ok (m, T) ∧
      pls1Train pls1Weights (1 : Nat) (of (!![1, 0; 0, 2] : Matrix (Fin 2) (Fin 2) ℝ))
        (of (!![3; 2] : Matrix (Fin 2) (Fin 1) ℝ)) = .ok (m', T') ∧
      pls1Predict (1 : Nat) m (of (1 : Matrix (Fin 2) (Fin 2) ℝ)) = .ok (of F) ∧
      pls1Predict (1 : Nat) m' (of (!![1, 0; 0, 2] : Matrix (Fin 2) (Fin 2) ℝ)) = .ok (of F') ∧ F ≠ F' := by
  have hy : (1 : Matrix (Fin 2) (Fin 2) ℝ)ᵀ * exY ≠ 0 := by
    rw [Matrix.transpose_one, Matrix.one_mul]
    intro h
    have := congrFun (congrFun h 0) 0
    norm_num [exY] at this
  have h1 : Regular (pls1W exY) 1 (1 : Matrix (Fin 2) (Fin 2) ℝ) := Regular.of_sq1 fun k hk h0 => by
    obtain rfl : k = 0 := by omega
    exact hy (cov_zero h0)
  have hw : pls1W exY (1 : Matrix (Fin 2) (Fin 2) ℝ) = (Real.sqrt (sq1 exY))⁻¹ • exY := by
    rw [pls1W_eq, Matrix.transpose_one, Matrix.one_mul]
  have hx : ¬ Regular (pls1W exY) 2 (1 : Matrix (Fin 2) (Fin 2) ℝ) := by
    intro h
    have h2 := h.sq1_ne 1 (by decide)
    have h3 := h.sq1_ne 0 (by decide)
    have ht0 : plsT (pls1W exY) (1 : Matrix (Fin 2) (Fin 2) ℝ) 0 = (Real.sqrt (sq1 exY))⁻¹ • exY := by
      show (1 : Matrix (Fin 2) (Fin 2) ℝ) * pls1W exY 1 = _
      rw [Matrix.one_mul, hw]
    have ho := plsT_orth_X (pls1W exY) (1 : Matrix (Fin 2) (Fin 2) ℝ) 0 0 (fun k hk => by
      obtain rfl : k = 0 := by omega
      exact h3)
    rw [ht0, Matrix.transpose_smul, Matrix.smul_mul] at ho
    have hc : (Real.sqrt (sq1 exY))⁻¹ ≠ 0 := by
      intro h0
      rw [ht0, h0, zero_smul] at h3
      exact h3 (by simp [sq1])
    have hc0 : exYᵀ * plsX (pls1W exY) (1 : Matrix (Fin 2) (Fin 2) ℝ) 1 = 0 := by
      rcases smul_eq_zero.1 ho with h | h
      · exact absurd h hc
      · exact h
    have hc1 := congrArg Matrix.transpose hc0
    rw [Matrix.transpose_mul, Matrix.transpose_transpose, Matrix.transpose_zero] at hc1
    refine h2 ?_
    show sq1 (plsX (pls1W exY) 1 1 * pls1W exY (plsX (pls1W exY) 1 1)) = 0
    rw [pls1W_eq, hc1]
    simp [sq1]
  obtain ⟨m, T, F, r1, r2, r3, -⟩ := C97_exhausted (by decide) (by decide) (K := 1) (by decide) _ exY h1 hx
  have hF : F = exY := by
    rw [Matrix.transpose_one, Matrix.one_mul, sub_eq_zero] at r3
    exact r3.symm
  have hreg := regular_mono ex_regular (L := 1) (by decide)
  refine ⟨m, _, T, _, F, _, r1,
    pls1Train_eq (pls1W exY) pls1Weights 1 (by decide) (by decide) (by decide) exX exY
      (fun k _ => pls1_computes exY _) hreg.sq1_ne, r2, pls1Predict_eq (pls1W exY) (by decide) 1 exX _ _ exX, ?_⟩
  rw [hF, plsSM_train]
  intro h
  have e : ∀ i, exY i 0 = (exX * pls1W exY exX) i 0 * plsB (pls1W exY) exX exY 0 := fun i => by
    have := congrFun (congrFun h i) 0
    rwa [Matrix.mul_apply, Fin.sum_univ_one] at this
  have e0 := e 0
  have e1 := e 1
  rw [exW0] at e0 e1
  simp [exX, exY, Matrix.mul_apply, Fin.sum_univ_two] at e0 e1
  linarith

/-! Concrete cases. -/

example := C97_all_components (by decide) (by decide) exX (pls1_computes exY) ex_regular
example := C97_exhausted (by decide) (by decide) (K := 2) (by decide) exX exY ex_regular
  fun h => absurd (regular_le h) (by decide)

theorem rot_orth : (!![3 / 5, -4 / 5; 4 / 5, 3 / 5] : Matrix (Fin 2) (Fin 2) ℝ)ᵀ * !![3 / 5, -4 / 5; 4 / 5, 3 / 5] = 1 := by
  ext i j
  fin_cases i <;> fin_cases j <;> simp [Matrix.mul_apply, Fin.sum_univ_two] <;> norm_num

example := C98_rotation (by decide) (by decide) (K := 2) (by decide) exX exY ex_regular rot_orth rot_orth
example := C98_order (by decide) (by decide) (K := 2) (by decide) exX exY ex_regular (Equiv.swap 0 1) (Equiv.swap 0 1)
example := C98_simpls eigOne_ok (by decide) (by decide) (K := 2) (by decide) (count := 0) le_rfl exX exY ex_regular
  rot_orth rot_orth
example := C99_units (by decide) (by decide) (K := 2) (by decide) exX exY ex_regular (c := -3) (d := 1 / 1000)
  (by norm_num) (by norm_num)

end Verif.Props
