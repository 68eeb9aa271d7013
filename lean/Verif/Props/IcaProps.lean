import Verif.Alg.FastICA
import Verif.Props.EigLemmas
import Verif.Props.IcaFunProps
import Verif.Props.CcaProps

/-!
# C66, C88: FastICA; C48 for it
-/

set_option linter.unusedSectionVars false
set_option linter.unusedSimpArgs false

namespace Verif.Props
open Verif Verif.Mat Verif.Transf
open scoped Matrix

variable {n p q r k K : Nat}

/-! ## Specification -/

/-- Expectation of `x * G(w . x)` over the columns `x` of `X`, for a column `gv` of values `G(w . x)`. -/
noncomputable def expG (X : Matrix (Fin K) (Fin n) ℝ) (gv : Matrix (Fin n) (Fin 1) ℝ) : Matrix (Fin K) (Fin 1) ℝ :=
  Matrix.of fun i _ => (∑ t, X i t * gv t 0) / n

/-- The mean of a column. -/
noncomputable def meanOf (v : Matrix (Fin n) (Fin 1) ℝ) : ℝ := (∑ t, v t 0) / n

/-- The fixed point update before decorrelation: `E[x G(w.x)] - E[G'(w.x)] w`. -/
noncomputable def icaRaw (G D : Matrix (Fin n) (Fin 1) ℝ → Matrix (Fin n) (Fin 1) ℝ) (X : Matrix (Fin K) (Fin n) ℝ)
    (w : Matrix (Fin K) (Fin 1) ℝ) : Matrix (Fin K) (Fin 1) ℝ :=
  expG X (G (Xᵀ * w)) - meanOf (D (Xᵀ * w)) • w

/-- Removing the components along the rows of `W`. -/
noncomputable def deco (W : Matrix (Fin r) (Fin K) ℝ) (w : Matrix (Fin K) (Fin 1) ℝ) : Matrix (Fin K) (Fin 1) ℝ := w - Wᵀ * (W * w)

/-- Squared length. -/
noncomputable def len2 (w : Matrix (Fin K) (Fin 1) ℝ) : ℝ := ∑ i, w i 0 ^ 2

/-- Division by the length. -/
noncomputable def toUnit (w : Matrix (Fin K) (Fin 1) ℝ) : Matrix (Fin K) (Fin 1) ℝ := Matrix.of fun i j => w i j / Real.sqrt (len2 w)

/-! ## Lemmas on the single operations -/

theorem scaleByRowVector_of (A : Matrix (Fin p) (Fin n) ℝ) (v : Matrix (Fin n) (Fin 1) ℝ) :
    (of A).scaleByRowVector (of v) = .ok (of (Matrix.of fun i j => A i j * v j 0)) := by
  unfold scaleByRowVector mustBeColumnVector
  rw [if_pos (by simp [isColumnVector_eq]), except_bind_ok, if_pos (show (of A).cols = (of v).rows from rfl), transpose_of]
  exact vectorOp_row _ _ _

theorem total_col (v : Matrix (Fin n) (Fin 1) ℝ) : (of v).total = ∑ i, v i 0 := by
  unfold total
  simp only [sumFin_eq]
  exact Fin.sum_univ_one _

theorem meanAll_colV (v : Matrix (Fin n) (Fin 1) ℝ) : (of v).meanAll = meanOf v := by
  unfold meanAll meanOf
  rw [total_col]
  show (∑ i, v i 0) / ((n * 1 : Nat) : ℝ) = _
  rw [Nat.mul_one]

theorem unitVec_of (w : Matrix (Fin K) (Fin 1) ℝ) : unitVec (of w) = of (toUnit w) := by
  unfold unitVec
  have h : ((of w).powElementwise 2).total = len2 w := total_col (Matrix.of fun i j => w i j ^ 2)
  rw [h]
  rfl

theorem len2_eq (w : Matrix (Fin K) (Fin 1) ℝ) : (wᵀ * w) 0 0 = len2 w := by
  rw [Matrix.mul_apply]
  exact Finset.sum_congr rfl fun i _ => (pow_two _).symm

theorem len2_nonneg (w : Matrix (Fin K) (Fin 1) ℝ) : 0 ≤ len2 w := Finset.sum_nonneg fun _ _ => sq_nonneg _

theorem toUnit_len (w : Matrix (Fin K) (Fin 1) ℝ) (h : len2 w ≠ 0) : len2 (toUnit w) = 1 := by
  unfold len2 toUnit
  simp only [Matrix.of_apply, div_pow, Real.sq_sqrt (len2_nonneg w)]
  rw [← Finset.sum_div]
  exact div_self h

theorem toUnit_mul (W : Matrix (Fin r) (Fin K) ℝ) (w : Matrix (Fin K) (Fin 1) ℝ) (h : W * w = 0) : W * toUnit w = 0 := by
  have e : toUnit w = (1 / Real.sqrt (len2 w)) • w := by
    ext i j
    show w i j / _ = (1 / Real.sqrt (len2 w)) * w i j
    rw [one_div, mul_comm]
    rfl
  rw [e, Matrix.mul_smul, h, smul_zero]

/-- Rows from `j` on are zero, so only the first `j` matter. -/
theorem decorrelate_of (w : Matrix (Fin K) (Fin 1) ℝ) (W : Matrix (Fin K) (Fin K) ℝ) (j : Nat) (hj : j ≤ K)
    (hz : ∀ i : Fin K, j ≤ i.1 → ∀ c, W i c = 0) : decorrelate (of w) (of W) (j : Int) = .ok (of (deco W w)) := by
  unfold decorrelate
  by_cases h0 : j = 0
  · rw [if_pos (by exact_mod_cast h0), ok_inj, of_inj]
    have : W = 0 := by
      ext i c
      exact hz i (by omega) c
    unfold deco
    rw [this]
    simp
  · rw [if_neg (by exact_mod_cast h0)]
    have h1 : (of W).getRows (.tuple 0 (j : Int)) = .ok (of (W.submatrix (Fin.castLE hj) id)) := by
      refine (getSubMatrix_rows W 0 j (Nat.zero_le _) hj).trans ?_
      rw [ok_inj]
      refine mk_eq (by simp) rfl fun i c => ?_
      simp only [Matrix.of_apply, Matrix.submatrix_apply]
      congr 1
      exact Fin.ext (by simp)
    rw [h1, except_bind_ok, transpose_of, transpose_of, mul_of, except_bind_ok, mul_of, except_bind_ok, transpose_of, sub_of, ok_inj, of_inj]
    unfold deco
    congr 1
    have h2 : (W.submatrix (Fin.castLE hj) id)ᵀ * W.submatrix (Fin.castLE hj) id = Wᵀ * W := by
      ext a b
      rw [Matrix.mul_apply, Matrix.mul_apply]
      simp only [Matrix.transpose_apply, Matrix.submatrix_apply, id]
      have := Finset.sum_map Finset.univ (Fin.castLEEmb hj) fun i => W i a * W i b
      have e : ∑ x : Fin j, W (Fin.castLE hj x) a * W (Fin.castLE hj x) b = ∑ i ∈ Finset.univ.map (Fin.castLEEmb hj), W i a * W i b := this.symm
      rw [e]
      refine Finset.sum_subset (Finset.subset_univ _) fun i _ hi => ?_
      have : j ≤ i.1 := by
        by_contra hlt
        exact hi (Finset.mem_map.2 ⟨⟨i.1, by omega⟩, Finset.mem_univ _, Fin.ext rfl⟩)
      rw [hz i this, zero_mul]
    rw [Matrix.mul_assoc, h2, Matrix.transpose_mul, Matrix.transpose_mul, Matrix.transpose_transpose, Matrix.transpose_transpose, Matrix.mul_assoc]

/-- One pass is the published update: expectation formula, decorrelation from the rows found so far, normalisation. -/
theorem icaStep_of (cfg : IcaCfg ℝ) (G D : Matrix (Fin n) (Fin 1) ℝ → Matrix (Fin n) (Fin 1) ℝ)
    (hg : ∀ x : Matrix (Fin n) (Fin 1) ℝ, cfg.g (of x) = .ok (of (G x), of (D x))) (X : Matrix (Fin K) (Fin n) ℝ)
    (W : Matrix (Fin K) (Fin K) ℝ) (j : Nat) (hj : j ≤ K) (hz : ∀ i : Fin K, j ≤ i.1 → ∀ c, W i c = 0) (w : Matrix (Fin K) (Fin 1) ℝ) :
    icaStep cfg (of X) (of W) (j : Int) (of w) = .ok (of (toUnit (deco W (icaRaw G D X w))),
      decide (|(|∑ i, toUnit (deco W (icaRaw G D X w)) i 0 * w i 0| - 1)| < cfg.tol)) := by
  unfold icaStep
  rw [transpose_of, mul_of, except_bind_ok, transpose_of, Matrix.transpose_mul, Matrix.transpose_transpose, hg, except_bind_ok]
  simp only []
  rw [scaleByRowVector_of, except_bind_ok, rowMeans_of, smul_of, sub_of, except_bind_ok, meanAll_colV]
  have e : (Matrix.of fun i (_ : Fin 1) => mu fun t => (Matrix.of fun i j => X i j * G (Xᵀ * w) j 0) i t) - meanOf (D (Xᵀ * w)) • w = icaRaw G D X w := rfl
  rw [e, decorrelate_of _ _ _ hj hz, except_bind_ok, unitVec_of]
  have e2 : (of (toUnit (deco W (icaRaw G D X w)))).mulElementwise (of w) = .ok (of (Matrix.of fun i j => toUnit (deco W (icaRaw G D X w)) i j * w i j)) :=
    (dif_pos ⟨rfl, rfl⟩).trans rfl
  rw [e2, except_bind_ok, total_col]
  rfl

/-! ## Deflation -/

/-- The iterates for one weight vector, starting from the normalised `w0`. -/
noncomputable def icaIter (G D : Matrix (Fin n) (Fin 1) ℝ → Matrix (Fin n) (Fin 1) ℝ) (X : Matrix (Fin K) (Fin n) ℝ)
    (W : Matrix (Fin K) (Fin K) ℝ) (w0 : Matrix (Fin K) (Fin 1) ℝ) : Nat → Matrix (Fin K) (Fin 1) ℝ
  | 0 => toUnit w0
  | i + 1 => toUnit (deco W (icaRaw G D X (icaIter G D X W w0 i)))

/-- The stopping test after pass `i`. -/
noncomputable def icaStop (tol : ℝ) (S : Nat → Matrix (Fin K) (Fin 1) ℝ) (i : Nat) : Bool :=
  decide (|(|∑ c, S i c 0 * S (i - 1) c 0| - 1)| < tol)

/-- The number of passes for one weight vector. -/
noncomputable def icaPasses (tol : ℝ) (maxIter : Nat) (S : Nat → Matrix (Fin K) (Fin 1) ℝ) : Nat := kStop (icaStop tol S) maxIter 0

/-- Row `j` of `R` as a column (zero beyond the last row). -/
noncomputable def rowVec (R : Matrix (Fin K) (Fin K) ℝ) (j : Nat) : Matrix (Fin K) (Fin 1) ℝ :=
  Matrix.of fun c _ => if h : j < K then R ⟨j, h⟩ c else 0

/-- The weights after `j` vectors. -/
noncomputable def defState (cfg : IcaCfg ℝ) (G D : Matrix (Fin n) (Fin 1) ℝ → Matrix (Fin n) (Fin 1) ℝ) (X : Matrix (Fin K) (Fin n) ℝ)
    (R : Matrix (Fin K) (Fin K) ℝ) : Nat → Matrix (Fin K) (Fin K) ℝ
  | 0 => 0
  | j + 1 => Matrix.of fun i c => if i.1 = j then
      icaIter G D X (defState cfg G D X R j) (rowVec R j)
        (icaPasses cfg.tol cfg.maxIter (icaIter G D X (defState cfg G D X R j) (rowVec R j))) c 0
      else defState cfg G D X R j i c

theorem defState_zero (cfg : IcaCfg ℝ) (G D : Matrix (Fin n) (Fin 1) ℝ → Matrix (Fin n) (Fin 1) ℝ) (X : Matrix (Fin K) (Fin n) ℝ)
    (R : Matrix (Fin K) (Fin K) ℝ) : ∀ (j : Nat) (i : Fin K), j ≤ i.1 → ∀ c, defState cfg G D X R j i c = 0
  | 0, _, _, _ => rfl
  | j + 1, i, h, c => by
    rw [defState, Matrix.of_apply, if_neg (by omega)]
    exact defState_zero cfg G D X R j i (by omega) c

theorem deflation_of (cfg : IcaCfg ℝ) (G D : Matrix (Fin n) (Fin 1) ℝ → Matrix (Fin n) (Fin 1) ℝ)
    (hg : ∀ x : Matrix (Fin n) (Fin 1) ℝ, cfg.g (of x) = .ok (of (G x), of (D x))) (hK : 0 < K) (X : Matrix (Fin K) (Fin n) ℝ)
    (R : Matrix (Fin K) (Fin K) ℝ) : deflation cfg K (of X) (of R) = .ok (of (defState cfg G D X R K)) := by
  unfold deflation
  rw [Factory.zeros_nat hK K, except_bind_ok]
  refine loopM_range _ (fun j => of (defState cfg G D X R j)) K fun j hj => ?_
  have h1 : (of R).getRow (j : Int) = .ok (of (Matrix.of fun (_ : Fin 1) c => R ⟨j, hj⟩ c)) := by
    unfold getRow
    rw [show ((j : Nat) : Int) = (((⟨j, hj⟩ : Fin K) : Nat) : Int) from rfl, pyIndex_fin]
    rfl
  rw [h1, except_bind_ok, transpose_of, unitVec_of]
  have h2 : (Matrix.of fun (_ : Fin 1) c => R ⟨j, hj⟩ c)ᵀ = rowVec R j := by
    ext c a
    show R ⟨j, hj⟩ c = if h : j < K then R ⟨j, h⟩ c else 0
    rw [dif_pos hj]
  rw [h2, pyRange_zero]
  have h3 := breakLoop_of (fun _ w => icaStep cfg (of X) (of (defState cfg G D X R j)) (j : Int) w) (fun i => (i : Int))
    (fun i => of (icaIter G D X (defState cfg G D X R j) (rowVec R j) i))
    (icaStop cfg.tol (icaIter G D X (defState cfg G D X R j) (rowVec R j))) cfg.maxIter
    (fun i _ => icaStep_of cfg G D hg X _ j hj.le (defState_zero cfg G D X R j) _)
  refine (congrArg (· >>= _) h3).trans ?_
  rw [except_bind_ok]
  have h4 : ∀ (W : Matrix (Fin K) (Fin K) ℝ) (v : Matrix (Fin K) (Fin 1) ℝ), (of W).setRow (j : Int) (of v) =
      .ok (of (Matrix.of fun i c => if i.1 = j then v c 0 else W i c)) := by
    intro W v
    unfold setRow
    rw [mustBeVector_col, except_bind_ok, show ((j : Nat) : Int) = (((⟨j, hj⟩ : Fin K) : Nat) : Int) from rfl, pyIndex_fin, except_bind_ok]
    have hc : (of v).isColumnVector = true := by simp [isColumnVector_eq]
    simp only [hc, if_true, except_pure, ok_inj]
    refine mk_congr fun i c => ?_
    have hi : i = ⟨j, hj⟩ ↔ i.1 = j := Fin.ext_iff
    simp [entry?, transpose, hi]
  rw [h4]
  rfl

/-- No vector that is normalised along the way is zero (otherwise the code divides by zero). -/
def IcaRegular (cfg : IcaCfg ℝ) (G D : Matrix (Fin n) (Fin 1) ℝ → Matrix (Fin n) (Fin 1) ℝ) (X : Matrix (Fin K) (Fin n) ℝ)
    (R : Matrix (Fin K) (Fin K) ℝ) : Prop :=
  ∀ j < K, len2 (rowVec R j) ≠ 0 ∧
    ∀ i < icaPasses cfg.tol cfg.maxIter (icaIter G D X (defState cfg G D X R j) (rowVec R j)),
      len2 (deco (defState cfg G D X R j) (icaRaw G D X (icaIter G D X (defState cfg G D X R j) (rowVec R j) i))) ≠ 0

theorem deco_orth {W : Matrix (Fin K) (Fin K) ℝ} (hW : W * Wᵀ * W = W) (w : Matrix (Fin K) (Fin 1) ℝ) : W * deco W w = 0 := by
  unfold deco
  rw [Matrix.mul_sub, ← Matrix.mul_assoc, ← Matrix.mul_assoc, hW, sub_self]

theorem defState_orth (cfg : IcaCfg ℝ) (hm : 0 < cfg.maxIter) (G D : Matrix (Fin n) (Fin 1) ℝ → Matrix (Fin n) (Fin 1) ℝ)
    (X : Matrix (Fin K) (Fin n) ℝ) (R : Matrix (Fin K) (Fin K) ℝ) (h : IcaRegular cfg G D X R) :
    ∀ j ≤ K, defState cfg G D X R j * (defState cfg G D X R j)ᵀ = Matrix.diagonal fun i : Fin K => if i.1 < j then (1 : ℝ) else 0 := by
  intro j
  induction j with
  | zero =>
    intro _
    rw [defState, Matrix.zero_mul]
    simp
  | succ j ih =>
    intro hj
    have ihj := ih (by omega)
    set W := defState cfg G D X R j with hW
    set S := icaIter G D X W (rowVec R j) with hS
    set N := icaPasses cfg.tol cfg.maxIter S with hN
    have hWW : W * Wᵀ * W = W := by
      rw [ihj]
      ext a b
      rw [Matrix.diagonal_mul]
      by_cases ha : a.1 < j
      · rw [if_pos ha, one_mul]
      · rw [if_neg ha, zero_mul]
        exact (defState_zero cfg G D X R j a (by omega) b).symm
    obtain ⟨m, hm'⟩ : ∃ m, N = m + 1 := ⟨N - 1, by
      have := (kStop_spec (icaStop cfg.tol S) cfg.maxIter 0).2.2.1 hm
      have hN' : N = kStop (icaStop cfg.tol S) cfg.maxIter 0 := rfl
      omega⟩
    have hv : S N = toUnit (deco W (icaRaw G D X (S m))) := by
      rw [hm']
      rfl
    have h1 : W * S N = 0 := by
      rw [hv]
      exact toUnit_mul _ _ (deco_orth hWW _)
    have h2 : len2 (S N) = 1 := by
      rw [hv]
      exact toUnit_len _ ((h j (by omega)).2 m (by
        show m < N
        omega))
    have hst : ∀ i c, defState cfg G D X R (j + 1) i c = if i.1 = j then S N c 0 else W i c := fun i c => rfl
    ext a b
    rw [Matrix.mul_apply]
    simp only [Matrix.transpose_apply, hst]
    have hrow : ∀ i : Fin K, ∑ c, W i c * S N c 0 = 0 := fun i => by
      have := congrFun (congrFun h1 i) 0
      rwa [Matrix.mul_apply] at this
    have hold : ∀ a b : Fin K, ∑ c, W a c * W b c = (Matrix.diagonal fun i : Fin K => if i.1 < j then (1 : ℝ) else 0) a b := fun a b => by
      rw [← ihj, Matrix.mul_apply]
      rfl
    by_cases ha : a.1 = j
    · by_cases hb : b.1 = j
      · have hab : a = b := Fin.ext (by omega)
        subst hab
        simp only [if_pos ha, Matrix.diagonal_apply_eq]
        rw [if_pos (by omega), ← h2]
        exact Finset.sum_congr rfl fun c _ => (pow_two _).symm
      · have hab : a ≠ b := fun e => hb (e ▸ ha)
        simp only [if_pos ha, if_neg hb, Matrix.diagonal_apply_ne _ hab]
        rw [← hrow b]
        exact Finset.sum_congr rfl fun c _ => mul_comm _ _
    · by_cases hb : b.1 = j
      · have hab : a ≠ b := fun e => ha (e ▸ hb)
        simp only [if_neg ha, if_pos hb, Matrix.diagonal_apply_ne _ hab]
        exact hrow a
      · simp only [if_neg ha, if_neg hb]
        rw [hold, Matrix.diagonal_apply, Matrix.diagonal_apply]
        by_cases hab : a = b
        · rw [if_pos hab, if_pos hab]
          by_cases hlt : a.1 < j
          · rw [if_pos hlt, if_pos (by omega)]
          · rw [if_neg hlt, if_neg (by omega)]
        · rw [if_neg hab, if_neg hab]

/-! ## C88 -/

/-- One pass for a weight vector is the published update. -/
theorem C88_step_partial (cfg : IcaCfg ℝ) (G D : Matrix (Fin n) (Fin 1) ℝ → Matrix (Fin n) (Fin 1) ℝ)
    (hg : ∀ x : Matrix (Fin n) (Fin 1) ℝ, cfg.g (of x) = .ok (of (G x), of (D x))) (X : Matrix (Fin K) (Fin n) ℝ)
    (W : Matrix (Fin K) (Fin K) ℝ) (j : Nat) (hj : j ≤ K) (hz : ∀ i : Fin K, j ≤ i.1 → ∀ c, W i c = 0) (w : Matrix (Fin K) (Fin 1) ℝ) :
    ∃ b, icaStep cfg (of X) (of W) (j : Int) (of w) = .ok (of (toUnit (deco W (icaRaw G D X w))), b) :=
  ⟨_, icaStep_of cfg G D hg X W j hj hz w⟩

/-- The weight vectors found by deflation are orthonormal, for every non-linearity, data and start. -/
theorem C88_deflation_partial (cfg : IcaCfg ℝ) (hm : 0 < cfg.maxIter) (G D : Matrix (Fin n) (Fin 1) ℝ → Matrix (Fin n) (Fin 1) ℝ)
    (hg : ∀ x : Matrix (Fin n) (Fin 1) ℝ, cfg.g (of x) = .ok (of (G x), of (D x))) (hK : 0 < K) (X : Matrix (Fin K) (Fin n) ℝ)
    (R : Matrix (Fin K) (Fin K) ℝ) (h : IcaRegular cfg G D X R) :
    ∃ W : Matrix (Fin K) (Fin K) ℝ, deflation cfg K (of X) (of R) = .ok (of W) ∧ W * Wᵀ = 1 := by
  refine ⟨_, deflation_of cfg G D hg hK X R, ?_⟩
  rw [defState_orth cfg hm G D X R h K le_rfl, ← Matrix.diagonal_one]
  congr 1
  funext i
  exact if_pos i.2

/-- **C88 is violated for `max_iter = 0`**, which the validator accepts: the weights are the normalised rows of the random
start, which are not orthogonal unless the random rows are. -/
theorem C88_maxIter_violation (cfg : IcaCfg ℝ) (hm : cfg.maxIter = 0) (G D : Matrix (Fin n) (Fin 1) ℝ → Matrix (Fin n) (Fin 1) ℝ)
    (hg : ∀ x : Matrix (Fin n) (Fin 1) ℝ, cfg.g (of x) = .ok (of (G x), of (D x))) (X : Matrix (Fin 2) (Fin n) ℝ)
    (R : Matrix (Fin 2) (Fin 2) ℝ) (hR : ∀ i j, 0 < R i j) :
    ∃ W : Matrix (Fin 2) (Fin 2) ℝ, deflation cfg 2 (of X) (of R) = .ok (of W) ∧ 0 < (W * Wᵀ) 0 1 := by
  refine ⟨_, deflation_of cfg G D hg (by decide) X R, ?_⟩
  have hst : ∀ j (i : Fin 2) c, i.1 < j → defState cfg G D X R j i c = toUnit (rowVec R i.1) c 0 := by
    intro j
    induction j with
    | zero => intro i c hi; omega
    | succ j ih =>
      intro i c hi
      rw [defState, Matrix.of_apply, hm]
      by_cases h : i.1 = j
      · rw [if_pos h, h]
        rfl
      · rw [if_neg h]
        exact ih i c (by omega)
  have hpos : ∀ (i : Fin 2) c, 0 < toUnit (rowVec R i.1) c 0 := by
    intro i c
    have e : ∀ c, rowVec R i.1 c 0 = R i c := fun c => dif_pos i.2
    show 0 < rowVec R i.1 c 0 / Real.sqrt (len2 (rowVec R i.1))
    rw [e]
    refine div_pos (hR i c) (Real.sqrt_pos.2 ?_)
    unfold len2
    simp only [e]
    exact Finset.sum_pos (fun c _ => pow_pos (hR i c) 2) ⟨0, Finset.mem_univ _⟩
  rw [Matrix.mul_apply]
  refine Finset.sum_pos (fun c _ => ?_) ⟨0, Finset.mem_univ _⟩
  rw [Matrix.transpose_apply, hst 2 0 c (by decide), hst 2 1 c (by decide)]
  exact mul_pos (hpos 0 c) (hpos 1 c)

/-! ### The parallel algorithm -/

/-- A symmetric eigensolver: for every symmetric matrix some orthonormal eigenbasis, in any order. -/
def OrthoRoutine (eig : Mat ℝ → Except PyErr (Mat ℝ × Mat ℝ)) : Prop :=
  ∀ {m : Nat} (C : Matrix (Fin m) (Fin m) ℝ), Cᵀ = C →
    ∃ ev V, eig (of C) = .ok (of (Matrix.of fun i (_ : Fin 1) => ev i), of V) ∧ OrthoEig C ev V

/-- Such a solver exists. -/
theorem orthoRoutine_exists : ∃ eig, OrthoRoutine eig := by
  classical
  refine ⟨fun M => if h : ∃ (m : Nat) (C : Matrix (Fin m) (Fin m) ℝ), M = of C ∧ Cᵀ = C then
    .ok (of (Matrix.of fun i (_ : Fin 1) => (symm_eig h.choose_spec.choose h.choose_spec.choose_spec.2).choose i),
      of (symm_eig h.choose_spec.choose h.choose_spec.choose_spec.2).choose_spec.choose) else .error .linAlgError, ?_⟩
  intro m C hC
  have h : ∃ (m' : Nat) (C' : Matrix (Fin m') (Fin m') ℝ), of C = of C' ∧ C'ᵀ = C' := ⟨m, C, rfl, hC⟩
  simp only [dif_pos h]
  have key : ∀ (m' : Nat) (C' : Matrix (Fin m') (Fin m') ℝ) (_ : of C = of C') (hC' : C'ᵀ = C'),
      ∃ (ev : Fin m → ℝ) (V : Matrix (Fin m) (Fin m) ℝ),
        (Except.ok (of (Matrix.of fun i (_ : Fin 1) => (symm_eig C' hC').choose i), of (symm_eig C' hC').choose_spec.choose) : Except PyErr (Mat ℝ × Mat ℝ)) =
          .ok (of (Matrix.of fun i (_ : Fin 1) => ev i), of V) ∧ OrthoEig C ev V := by
    intro m' C' he hC'
    have hm : m = m' := congrArg Mat.rows he
    subst hm
    have hcc : C = C' := of_injective he
    subst hcc
    refine ⟨_, _, rfl, ⟨(symm_eig C hC').choose_spec.choose_spec.1.eigen, (symm_eig C hC').choose_spec.choose_spec.2⟩⟩
  exact key _ _ h.choose_spec.choose_spec.1 h.choose_spec.choose_spec.2

theorem gram_pos {M : Matrix (Fin K) (Fin K) ℝ} (hdet : M.det ≠ 0) {ev : Fin K → ℝ} {V : Matrix (Fin K) (Fin K) ℝ}
    (h : OrthoEig (M * Mᵀ) ev V) (i : Fin K) : 0 < ev i := by
  have h1 : (Vᵀ * (M * Mᵀ * V)) i i = ev i := by
    rw [h.eigen, ← Matrix.mul_assoc, h.ortho, Matrix.one_mul, Matrix.diagonal_apply_eq]
  have h2 : (Vᵀ * (M * Mᵀ * V)) i i = ∑ c, (Mᵀ * V) c i ^ 2 := by
    have : Vᵀ * (M * Mᵀ * V) = (Mᵀ * V)ᵀ * (Mᵀ * V) := by
      rw [Matrix.transpose_mul, Matrix.transpose_transpose]
      simp only [Matrix.mul_assoc]
    rw [this, Matrix.mul_apply]
    exact Finset.sum_congr rfl fun c _ => (pow_two _).symm
  have h3 : 0 ≤ ev i := by
    rw [← h1, h2]
    exact Finset.sum_nonneg fun _ _ => sq_nonneg _
  refine lt_of_le_of_ne h3 fun h0 => ?_
  have hd : (M * Mᵀ).det = ∏ i, ev i := by
    rw [h.eq, Matrix.det_mul, Matrix.det_mul, Matrix.det_diagonal, Matrix.det_transpose]
    have := congrArg Matrix.det h.ortho
    rw [Matrix.det_mul, Matrix.det_transpose, Matrix.det_one] at this
    calc V.det * (∏ i, ev i) * V.det = (V.det * V.det) * ∏ i, ev i := by ring
      _ = _ := by rw [this, one_mul]
  rw [Finset.prod_eq_zero (Finset.mem_univ i) h0.symm, Matrix.det_mul, Matrix.det_transpose] at hd
  exact hdet (mul_self_eq_zero.1 hd)

/-- Symmetric decorrelation: the result has orthonormal rows and differs from the argument by a symmetric positive factor
`B` with `B B (M Mᵀ) = 1`. -/
theorem C88_symmetric (cfg : IcaCfg ℝ) (hle : cfg.le = fun a b => decide (a ≤ b)) (he : OrthoRoutine cfg.eig) (hK : K ≠ 0)
    (M : Matrix (Fin K) (Fin K) ℝ) (hdet : M.det ≠ 0) :
    ∃ B : Matrix (Fin K) (Fin K) ℝ, symDecorrelation cfg (of M) = .ok (of (B * M)) ∧ B * M * (B * M)ᵀ = 1 ∧ Bᵀ = B ∧ B * B * (M * Mᵀ) = 1 ∧
      ∀ x : Matrix (Fin K) (Fin 1) ℝ, x ≠ 0 → 0 < (xᵀ * (B * x)) 0 0 := by
  obtain ⟨ev, V, h1, h2⟩ := he (M * Mᵀ) (by rw [Matrix.transpose_mul, Matrix.transpose_transpose])
  obtain ⟨σ, hσ, e1, e2, _, e4⟩ := sorted_ortho hK h2 true
  have hpos : ∀ i, 0 < (ev ∘ σ) i := fun i => gram_pos hdet h2 (σ i)
  set W := V.submatrix id σ with hW
  set B := W * Matrix.diagonal (fun i => 1 / Real.sqrt ((ev ∘ σ) i)) * Wᵀ with hB
  obtain ⟨f1, f2, f3⟩ := half_facts e4 hpos
  rw [← hB] at f1 f2 f3
  refine ⟨B, ?_, ?_, f1, f2, fun x hx => ?_⟩
  · unfold symDecorrelation
    rw [transpose_of, mul_of, except_bind_ok, h1, except_bind_ok]
    simp only [hle]
    have e1' : eigenvectorsSorted (fun a b => decide (a ≤ b)) (of (M * Mᵀ)).rows (of (Matrix.of fun i (_ : Fin 1) => ev i)) (of V) true =
        .ok (of W) := e1
    have e2' : eigenvaluesSorted (fun a b => decide (a ≤ b)) (of (Matrix.of fun i (_ : Fin 1) => ev i)) true =
        of (Matrix.of fun i (_ : Fin 1) => ev (σ i)) := e2
    rw [e1', e2', except_bind_ok]
    have h3 : ((of (Matrix.of fun i (_ : Fin 1) => ev (σ i))).sqrt.applyElementwise fun x => 1 / x) =
        of (Matrix.of fun i (_ : Fin 1) => 1 / Real.sqrt (ev (σ i))) := rfl
    rw [h3, scaleByRowVector_of, except_bind_ok, transpose_of, mul_of, except_bind_ok, mul_of, ok_inj, of_inj, hB]
    congr 2
    ext i j
    rw [Matrix.mul_diagonal]
    rfl
  · rw [Matrix.transpose_mul, f1]
    calc B * M * (Mᵀ * B) = B * (M * Mᵀ) * B := by simp only [Matrix.mul_assoc]
      _ = 1 := f3
  · have h3 : (xᵀ * (B * x)) 0 0 = ∑ i, (1 / Real.sqrt ((ev ∘ σ) i)) * (Wᵀ * x) i 0 ^ 2 := by
      have : xᵀ * (B * x) = (Wᵀ * x)ᵀ * (Matrix.diagonal (fun i => 1 / Real.sqrt ((ev ∘ σ) i)) * (Wᵀ * x)) := by
        rw [hB, Matrix.transpose_mul, Matrix.transpose_transpose]
        simp only [Matrix.mul_assoc]
      rw [this, Matrix.mul_apply]
      refine Finset.sum_congr rfl fun i _ => ?_
      rw [Matrix.diagonal_mul, Matrix.transpose_apply]
      ring
    have hpos' : ∀ i, 0 < 1 / Real.sqrt ((ev ∘ σ) i) := fun i => one_div_pos.2 (Real.sqrt_pos.2 (hpos i))
    obtain ⟨i, hi⟩ : ∃ i, (Wᵀ * x) i 0 ≠ 0 := by
      by_contra hne
      push Not at hne
      refine hx ?_
      have h0 : Wᵀ * x = 0 := by
        ext i j
        rw [Subsingleton.elim j 0]
        exact hne i
      have := congrArg (W * ·) h0
      simp only [← Matrix.mul_assoc, e4.ortho', Matrix.one_mul, Matrix.mul_zero] at this
      exact this
    rw [h3]
    exact Finset.sum_pos' (fun i _ => mul_nonneg (hpos' i).le (sq_nonneg _)) ⟨i, Finset.mem_univ _, mul_pos (hpos' i) (by positivity)⟩

/-- The parallel algorithm returns orthonormal rows whatever its iterations do, as long as no matrix to be decorrelated is
singular.  `Ws` is the sequence of weights of the run, `As` the matrices decorrelated. -/
theorem C88_parallel_partial (cfg : IcaCfg ℝ) (hle : cfg.le = fun a b => decide (a ≤ b)) (he : OrthoRoutine cfg.eig) (hK : K ≠ 0)
    (X : Mat ℝ) (R : Matrix (Fin K) (Fin K) ℝ) (hR : R.det ≠ 0) (Ws As : Nat → Matrix (Fin K) (Fin K) ℝ)
    (h0 : symDecorrelation cfg (of R) = .ok (of (Ws 0)))
    (hrun : ∀ i < cfg.maxIter, parallelArg cfg X (of (Ws i)) = .ok (of (As i)) ∧ (As i).det ≠ 0 ∧
      symDecorrelation cfg (of (As i)) = .ok (of (Ws (i + 1)))) :
    ∃ m ≤ cfg.maxIter, parallel cfg X (of R) = .ok (of (Ws m)) ∧ Ws m * (Ws m)ᵀ = 1 := by
  have horth : ∀ (M W : Matrix (Fin K) (Fin K) ℝ), M.det ≠ 0 → symDecorrelation cfg (of M) = .ok (of W) → W * Wᵀ = 1 := by
    intro M W hM hW
    obtain ⟨B, h1, h2, _⟩ := C88_symmetric cfg hle he hK M hM
    rw [hW, ok_inj, of_inj] at h1
    rw [h1]
    exact h2
  set stop : Nat → Bool := fun i => match i with
    | 0 => false
    | i + 1 => decide (cfg.amax (((of (Ws (i + 1) * (Ws i)ᵀ)).diag.abs).subScalar 1).abs < cfg.tol)
  have hl := breakLoop_of (fun _ W => parallelStep cfg X W) (fun i => (i : Int)) (fun i => of (Ws i)) stop cfg.maxIter (by
    intro i hi
    obtain ⟨h1, _, h3⟩ := hrun i hi
    simp only [parallelStep]
    rw [h1, except_bind_ok, h3, except_bind_ok, transpose_of, mul_of, except_bind_ok])
  refine ⟨kStop stop cfg.maxIter 0, by simpa using (kStop_spec stop cfg.maxIter 0).2.1, ?_, ?_⟩
  · unfold parallel
    rw [h0, except_bind_ok, pyRange_zero]
    exact hl
  · have hm := (kStop_spec stop cfg.maxIter 0).2.1
    cases hk : kStop stop cfg.maxIter 0 with
    | zero => exact horth R _ hR h0
    | succ m =>
      obtain ⟨_, h2, h3⟩ := hrun m (by omega)
      exact horth _ _ h2 h3

/-- What one pass of `parallel` decorrelates: the non-linearity is applied to `Wᵀ X`. -/
theorem parallelArg_of (cfg : IcaCfg ℝ) (X : Matrix (Fin K) (Fin n) ℝ) (W : Matrix (Fin K) (Fin K) ℝ) (G : Matrix (Fin K) (Fin n) ℝ)
    (g : Matrix (Fin K) (Fin 1) ℝ) (hK : K ≠ 0) (hg : cfg.g (of (Wᵀ * X)) = .ok (of G, of g)) :
    parallelArg cfg (of X) (of W) = .ok (of (Matrix.of fun i j => (G * Xᵀ) i j / n - W i j * g i 0)) := by
  unfold parallelArg
  rw [transpose_of, mul_of, except_bind_ok, hg, except_bind_ok]
  simp only []
  rw [transpose_of, mul_of, except_bind_ok]
  have h1 : (of W).scaleByColumnVector (of g) = .ok (of (Matrix.of fun i j => W i j * g i 0)) := by
    unfold scaleByColumnVector mustBeColumnVector
    rw [if_pos (by simp [isColumnVector_eq]), except_bind_ok, if_pos (show (of W).rows = (of g).rows from rfl)]
    by_cases h : K = 1
    · subst h
      refine (vectorOp_row _ W g).trans ?_
      rw [ok_inj]
      exact mk_congr fun i j => by
        show W i j * g 0 j = W i j * g i 0
        rw [Subsingleton.elim i 0, Subsingleton.elim j 0]
    · exact vectorOp_col _ _ _ h
  rw [h1, except_bind_ok]
  exact (dif_pos ⟨rfl, rfl⟩).trans rfl

/-- Row `i` of a weight matrix as a column vector. -/
def rowCol (W : Matrix (Fin K) (Fin K) ℝ) (i : Fin K) : Matrix (Fin K) (Fin 1) ℝ := Matrix.of fun c _ => W i c

/-- Four whitened samples of two features. -/
def icaEx : Matrix (Fin 2) (Fin 4) ℝ := !![1, 1, -1, -1; 1, -1, 1, -1]
/-- A rotation. -/
noncomputable def icaExW : Matrix (Fin 2) (Fin 2) ℝ := !![3/5, -4/5; 4/5, 3/5]

/-- **C88 is violated by the parallel algorithm.** Its rows are the weight vectors, but the non-linearity is applied to the
projections on the *columns* of `W`: for these whitened samples and this orthonormal `W` the first row of the matrix computed
is `(-54/125, 472/125)` where the published update of that row is `(-54/125, 128/125)`, which points in another direction. -/
theorem C88_parallel_violation (cfg : IcaCfg ℝ) (hg : cfg.g = cubeApply) :
    icaExW * icaExWᵀ = 1 ∧ icaEx * icaExᵀ = (4 : ℝ) • 1 ∧
    ∃ A : Matrix (Fin 2) (Fin 2) ℝ, parallelArg cfg (of icaEx) (of icaExW) = .ok (of A) ∧ A 0 0 = -54/125 ∧ A 0 1 = 472/125 ∧
      icaRaw (fun x => Matrix.of fun i j => x i j ^ 3) (fun x => Matrix.of fun i j => 3 * x i j ^ 2) icaEx (rowCol icaExW 0) 0 0 = -54/125 ∧
      icaRaw (fun x => Matrix.of fun i j => x i j ^ 3) (fun x => Matrix.of fun i j => 3 * x i j ^ 2) icaEx (rowCol icaExW 0) 1 0 = 128/125 := by
  have hc : ∀ M : Matrix (Fin 2) (Fin 4) ℝ, cubeApply (of M) =
      .ok (of (Matrix.of fun i j => M i j ^ 3), of (Matrix.of fun i (_ : Fin 1) => (∑ j, M i j ^ 2 * 3) / 4)) := by
    intro M
    unfold cubeApply powElementwise smul
    rw [map_of, map_of, map_of, rowMeans_of, ok_inj]
    refine Prod.ext rfl ?_
    refine mk_congr fun i j => ?_
    simp only [mu, Matrix.of_apply]
    norm_num
  refine ⟨?_, ?_, _, parallelArg_of cfg icaEx icaExW _ _ (by decide) (by rw [hg]; exact hc _), ?_, ?_, ?_, ?_⟩
  · ext i j
    simp only [Matrix.mul_apply, Matrix.transpose_apply, Fin.sum_univ_two]
    fin_cases i <;> fin_cases j <;> (simp [icaExW]; try norm_num)
  · ext i j
    simp only [Matrix.mul_apply, Matrix.transpose_apply, Fin.sum_univ_four, Matrix.smul_apply]
    fin_cases i <;> fin_cases j <;> (simp [icaEx]; try norm_num)
  · simp only [Matrix.of_apply, Matrix.mul_apply, Matrix.transpose_apply, Fin.sum_univ_four, Fin.sum_univ_two]
    simp [icaEx, icaExW]
    norm_num
  · simp only [Matrix.of_apply, Matrix.mul_apply, Matrix.transpose_apply, Fin.sum_univ_four, Fin.sum_univ_two]
    simp [icaEx, icaExW]
    norm_num
  · simp only [icaRaw, expG, meanOf, rowCol, Matrix.sub_apply, Matrix.smul_apply, Matrix.of_apply, Matrix.mul_apply, Matrix.transpose_apply,
      Fin.sum_univ_four, Fin.sum_univ_two]
    simp [icaEx, icaExW]
    norm_num
  · simp only [icaRaw, expG, meanOf, rowCol, Matrix.sub_apply, Matrix.smul_apply, Matrix.of_apply, Matrix.mul_apply, Matrix.transpose_apply,
      Fin.sum_univ_four, Fin.sum_univ_two]
    simp [icaEx, icaExW]
    norm_num

/-! ## C66 -/

/-- The whitening matrix for `K` components. -/
noncomputable def whM (u : Matrix (Fin p) (Fin r) ℝ) (s : Fin r → ℝ) (hK : K ≤ r) : Matrix (Fin K) (Fin p) ℝ :=
  Matrix.of fun a i => -u i (Fin.castLE hK a) * (1 / s (Fin.castLE hK a))

theorem icaWhitening_of (cfg : IcaCfg ℝ) (Z : Matrix (Fin p) (Fin n) ℝ) (u : Matrix (Fin p) (Fin r) ℝ) (s : Fin r → ℝ) (vh : Matrix (Fin r) (Fin n) ℝ)
    (hr : r = min p n) (hs : cfg.svd (of Z) = .ok (of u, of (Matrix.of fun (_ : Fin 1) i => s i), of vh)) (hK : K ≤ r) :
    icaWhitening cfg K (of Z) = .ok (of (whM u s hK)) := by
  unfold icaWhitening
  rw [hs, except_bind_ok]
  simp only []
  rw [transpose_of]
  have h1 : (of ((Matrix.of fun (_ : Fin 1) i => s i)ᵀ)).getRows (.tuple 0 ((min (of Z).rows (of Z).cols : Nat) : Int)) =
      .ok (of (Matrix.of fun i (_ : Fin 1) => s i)) := by
    have hmin : min (of Z).rows (of Z).cols = r := hr.symm
    rw [hmin]
    refine (getSubMatrix_rows _ 0 r (Nat.zero_le _) le_rfl).trans ?_
    rw [ok_inj]
    refine mk_eq (by simp) rfl fun i c => ?_
    simp only [Matrix.of_apply, Matrix.transpose_apply]
    congr 1
    exact Fin.ext (by simp)
  rw [h1, except_bind_ok]
  have h2 : svdU (of u) = of (-u) := by
    unfold svdU
    rw [smul_of]
    simp
  have h3 : ((of (Matrix.of fun i (_ : Fin 1) => s i)).applyElementwise fun a => 1 / a) = of (Matrix.of fun i (_ : Fin 1) => 1 / s i) := rfl
  rw [h2, h3, scaleByRowVector_of, except_bind_ok, transpose_of]
  have h4 : min (of (Matrix.of fun i j => (-u) i j * (Matrix.of fun i (_ : Fin 1) => 1 / s i) j 0)ᵀ).rows K = K := min_eq_right hK
  rw [h4]
  refine (getSubMatrix_rows _ 0 K (Nat.zero_le _) hK).trans ?_
  rw [ok_inj]
  refine mk_eq (by simp) rfl fun i c => ?_
  simp only [Matrix.of_apply, Matrix.transpose_apply, whM]
  have e : (⟨0 + i.1, by have := i.2; omega⟩ : Fin r) = Fin.castLE hK (i.cast (by simp)) := Fin.ext (by simp)
  rw [e]
  rfl

theorem whM_mul (Z : Matrix (Fin p) (Fin n) ℝ) (u : Matrix (Fin p) (Fin r) ℝ) (s : Fin r → ℝ) (vh : Matrix (Fin r) (Fin n) ℝ)
    (h : ThinSVD r Z u s vh) (hK : K ≤ r) (hs : ∀ a : Fin K, s (Fin.castLE hK a) ≠ 0) :
    whM u s hK * Z = -(vh.submatrix (Fin.castLE hK) id) := by
  have h1 : uᵀ * Z = Matrix.diagonal s * vh := by
    rw [h.eq, Matrix.mul_assoc, ← Matrix.mul_assoc, h.left, Matrix.one_mul]
  ext a t
  have h2 := congrFun (congrFun h1 (Fin.castLE hK a)) t
  rw [Matrix.diagonal_mul, Matrix.mul_apply] at h2
  rw [Matrix.mul_apply]
  show ∑ i, -u i (Fin.castLE hK a) * (1 / s (Fin.castLE hK a)) * Z i t = -vh (Fin.castLE hK a) t
  have h3 : ∀ i, -u i (Fin.castLE hK a) * (1 / s (Fin.castLE hK a)) * Z i t = -(1 / s (Fin.castLE hK a)) * (u i (Fin.castLE hK a) * Z i t) :=
    fun i => by ring
  simp only [h3]
  rw [← Finset.mul_sum]
  have h4 : ∑ i, u i (Fin.castLE hK a) * Z i t = s (Fin.castLE hK a) * vh (Fin.castLE hK a) t := h2
  rw [h4, ← mul_assoc, neg_mul, one_div_mul_cancel (hs a), neg_one_mul]

theorem lead_rows {vh : Matrix (Fin r) (Fin n) ℝ} (h : vh * vhᵀ = 1) (hK : K ≤ r) :
    (-(vh.submatrix (Fin.castLE hK) id)) * (-(vh.submatrix (Fin.castLE hK) id))ᵀ = 1 := by
  rw [Matrix.transpose_neg, Matrix.neg_mul, Matrix.mul_neg, neg_neg]
  ext a b
  have := congrFun (congrFun h (Fin.castLE hK a)) (Fin.castLE hK b)
  rw [Matrix.mul_apply] at this ⊢
  refine Eq.trans ?_ (this.trans ?_)
  · rfl
  · rw [Matrix.one_apply, Matrix.one_apply]
    by_cases hab : a = b
    · rw [if_pos hab, if_pos (by rw [hab])]
    · rw [if_neg hab, if_neg fun e => hab (Fin.castLE_injective hK e)]

/-- The data given to the iteration is white: its covariance over the `n` samples is the identity. -/
theorem C66_white_partial (cfg : IcaCfg ℝ) (Z : Matrix (Fin p) (Fin n) ℝ) (u : Matrix (Fin p) (Fin r) ℝ) (s : Fin r → ℝ) (vh : Matrix (Fin r) (Fin n) ℝ)
    (hs : cfg.svd (of Z) = .ok (of u, of (Matrix.of fun (_ : Fin 1) i => s i), of vh)) (h : ThinSVD r Z u s vh) (hK : K ≤ r)
    (h0 : ∀ a : Fin K, s (Fin.castLE hK a) ≠ 0) :
    ∃ wh : Matrix (Fin K) (Fin p) ℝ, icaWhitening cfg K (of Z) = .ok (of wh) ∧
      (Real.sqrt n • (wh * Z)) * (Real.sqrt n • (wh * Z))ᵀ = (n : ℝ) • 1 := by
  refine ⟨_, icaWhitening_of cfg Z u s vh h.size hs hK, ?_⟩
  rw [whM_mul Z u s vh h hK h0, Matrix.transpose_smul, Matrix.smul_mul, Matrix.mul_smul, lead_rows h.right, smul_smul,
    Real.mul_self_sqrt (Nat.cast_nonneg n)]

theorem icaConfigure_white (cfg : IcaCfg ℝ) (hw : cfg.whiten = true) (o : IcaObj ℝ) (Y : Matrix (Fin n) (Fin p) ℝ)
    (c : CenterState ℝ) (data : Matrix (Fin n) (Fin p) ℝ) (hc : optCentre o.center (of data) = .ok (c, of Y))
    (hK : K = min o.numComponents (min p n)) (wh : Matrix (Fin K) (Fin p) ℝ) (h1 : icaWhitening cfg K (of Yᵀ) = .ok (of wh))
    (W : Matrix (Fin K) (Fin K) ℝ) (h2 : unmix cfg K (of (Real.sqrt n • (wh * Yᵀ))) = .ok (of W)) (m : Mat ℝ)
    (h3 : (of (W * wh)).inverse cfg.lstsq = .ok m) :
    icaConfigure cfg o (of data) = .ok ⟨K, some c, some (of (W * wh)), some (of (W * wh * Yᵀ)ᵀ), some m, some (of wh), true⟩ := by
  unfold icaConfigure
  simp only [hw, if_true]
  rw [hc, except_bind_ok]
  simp only []
  have hk : min o.numComponents (min (of data).cols (of data).rows) = K := hK.symm
  rw [hk, transpose_of, h1, except_bind_ok, mul_of, except_bind_ok, smul_of]
  have e : (HasSqrt.sqrt (((of data).rows : Nat) : ℝ)) • (wh * Yᵀ) = Real.sqrt n • (wh * Yᵀ) := rfl
  rw [e, h2, except_bind_ok, mul_of, except_bind_ok, mul_of, except_bind_ok, h3, except_bind_ok, transpose_of]

/-- A centred data set never has as many samples as it has non-zero singular values. -/
theorem centred_singular (X : Matrix (Fin n) (Fin n) ℝ) (hn : n ≠ 0) (u : Matrix (Fin n) (Fin n) ℝ) (s : Fin n → ℝ) (vh : Matrix (Fin n) (Fin n) ℝ)
    (h : ThinSVD n (minusMeans X X)ᵀ u s vh) : ∃ a, s a = 0 := by
  by_contra hne
  push Not at hne
  have h1 : whM u s le_rfl * (minusMeans X X)ᵀ = -(vh.submatrix (Fin.castLE le_rfl) id) := whM_mul _ u s vh h le_rfl fun a => hne _
  have h2 : (minusMeans X X)ᵀ * (Matrix.of fun (_ : Fin n) (_ : Fin 1) => (1 : ℝ)) = 0 := by
    ext i j
    rw [Matrix.mul_apply]
    simp only [Matrix.transpose_apply, Matrix.of_apply, mul_one, Matrix.zero_apply]
    unfold minusMeans
    simp only [Matrix.of_apply]
    rw [Finset.sum_sub_distrib, Finset.sum_const, Finset.card_univ, Fintype.card_fin, nsmul_eq_mul]
    have : (n : ℝ) ≠ 0 := by exact_mod_cast hn
    field_simp
    simp
  have h3 : vh * (Matrix.of fun (_ : Fin n) (_ : Fin 1) => (1 : ℝ)) = 0 := by
    have e : vh = vh.submatrix (Fin.castLE le_rfl) id := rfl
    have := congrArg (· * (Matrix.of fun (_ : Fin n) (_ : Fin 1) => (1 : ℝ))) h1
    simp only [Matrix.mul_assoc, h2, Matrix.mul_zero, Matrix.neg_mul] at this
    rw [e]
    exact (neg_eq_zero.1 this.symm)
  have h4 : (Matrix.of fun (_ : Fin n) (_ : Fin 1) => (1 : ℝ)) = 0 := by
    have := congrArg (vhᵀ * ·) h3
    simp only [← Matrix.mul_assoc, mul_eq_one_comm.1 h.right, Matrix.one_mul, Matrix.mul_zero] at this
    exact this
  have := congrFun (congrFun h4 ⟨0, Nat.pos_of_ne_zero hn⟩) 0
  exact one_ne_zero this

/-- A whitened training of a new object with all `p` components kept.  The sources are white, and
`sources · mixingᵀ` is the centred data.  **But `reconstruct` always raises `ValueError`**: the product is transposed before
the means are added. -/
theorem C66_reconstruct_violation (cfg : IcaCfg ℝ) (hw : cfg.whiten = true) (o : IcaObj ℝ) (ho : o.center = some ⟨false, none⟩)
    (hpc : p ≤ o.numComponents) (hp : p ≠ 0) (hpn : p ≤ n) (X : Matrix (Fin n) (Fin p) ℝ)
    (u : Matrix (Fin p) (Fin p) ℝ) (s : Fin p → ℝ) (vh : Matrix (Fin p) (Fin n) ℝ)
    (hs : cfg.svd (of (minusMeans X X)ᵀ) = .ok (of u, of (Matrix.of fun (_ : Fin 1) i => s i), of vh))
    (h : ThinSVD p (minusMeans X X)ᵀ u s vh) (h0 : ∀ a, s a ≠ 0) (W : Matrix (Fin p) (Fin p) ℝ) (hW : W * Wᵀ = 1)
    (hun : unmix cfg p (of (Real.sqrt n • -vh)) = .ok (of W)) :
    ∃ (o' : IcaObj ℝ) (S M : Matrix (Fin n) (Fin p) ℝ) (A : Matrix (Fin p) (Fin p) ℝ), icaTransform cfg o (of X) = .ok (o', of S) ∧
      o'.mixing = some (of A) ∧ Sᵀ * S = 1 ∧ M = S * Aᵀ ∧ M = minusMeans X X ∧ icaReconstruct o' = .error .valueError := by
  have hwh := icaWhitening_of cfg (minusMeans X X)ᵀ u s vh h.size hs (le_refl p)
  have hwz : whM u s (le_refl p) * (minusMeans X X)ᵀ = -vh := whM_mul _ u s vh h le_rfl fun a => h0 _
  have hu : u * uᵀ = 1 := mul_eq_one_comm.1 h.left
  have hWW : Wᵀ * W = 1 := mul_eq_one_comm.1 hW
  -- the components are invertible
  have hinv : (u * Matrix.diagonal fun a => -s a) * whM u s (le_refl p) = 1 := by
    have : whM u s (le_refl p) = Matrix.diagonal (fun a => -(1 / s a)) * uᵀ := by
      ext a i
      rw [Matrix.diagonal_mul]
      show -u i a * (1 / s a) = -(1 / s a) * u i a
      ring
    rw [this, Matrix.mul_assoc, ← Matrix.mul_assoc (Matrix.diagonal _), Matrix.diagonal_mul_diagonal]
    have e : (fun a => -s a * -(1 / s a)) = fun _ => (1 : ℝ) := by
      funext a
      rw [neg_mul_neg, mul_one_div_cancel (h0 a)]
    rw [e, Matrix.diagonal_one, Matrix.one_mul, hu]
  have hcomp : ((u * Matrix.diagonal fun a => -s a) * Wᵀ) * (W * whM u s (le_refl p)) = 1 := by
    calc _ = (u * Matrix.diagonal fun a => -s a) * (Wᵀ * W) * whM u s (le_refl p) := by simp only [Matrix.mul_assoc]
      _ = 1 := by rw [hWW, Matrix.mul_one, hinv]
  have hdet : (W * whM u s (le_refl p)).det ≠ 0 := by
    intro hd
    have := congrArg Matrix.det hcomp
    rw [Matrix.det_mul, hd, mul_zero, Matrix.det_one] at this
    exact zero_ne_one this
  have hc : optCentre (icaReset o).center (of X) = .ok (cenState X, of (minusMeans X X)) := by
    show optCentre o.center (of X) = _
    rw [ho]
    exact optCentre_fresh X
  have hcfg := icaConfigure_white cfg hw (icaReset o) (minusMeans X X) (cenState X) X hc
    (show p = min o.numComponents (min p n) by omega) (whM u s (le_refl p)) hwh W (by rw [hwz]; exact hun) _ (inverse_of cfg.lstsq _ hdet)
  have hS : (W * whM u s (le_refl p) * (minusMeans X X)ᵀ)ᵀ * (W * whM u s (le_refl p))⁻¹ᵀ = minusMeans X X := by
    rw [← Matrix.transpose_mul, ← Matrix.mul_assoc, Matrix.nonsing_inv_mul _ (isUnit_iff_ne_zero.2 hdet), Matrix.one_mul, Matrix.transpose_transpose]
  refine ⟨⟨p, some (cenState X), some (of (W * whM u s (le_refl p))), some (of (W * whM u s (le_refl p) * (minusMeans X X)ᵀ)ᵀ),
    some (of (W * whM u s (le_refl p))⁻¹), some (of (whM u s (le_refl p))), true⟩, _, _, _, ?_, rfl, ?_, rfl, hS, ?_⟩
  · unfold icaTransform
    rw [hcfg, except_bind_ok]
  · rw [Matrix.mul_assoc, hwz, Matrix.transpose_transpose, Matrix.transpose_mul]
    calc W * -vh * ((-vh)ᵀ * Wᵀ) = W * (-vh * (-vh)ᵀ) * Wᵀ := by simp only [Matrix.mul_assoc]
      _ = 1 := by
        have e : -vh * (-vh)ᵀ = 1 := by rw [Matrix.transpose_neg, Matrix.neg_mul, Matrix.mul_neg, neg_neg, h.right]
        rw [e, Matrix.mul_one, hW]
  · unfold icaReconstruct
    rw [if_pos rfl]
    simp only []
    rw [transpose_of, mul_of, except_bind_ok, hS, transpose_of]
    have hne : n ≠ p := by
      intro e
      subst e
      obtain ⟨a, ha⟩ := centred_singular X hp u s vh h
      exact h0 a ha
    have hb : (inverseTransform center (of (minusMeans X X)ᵀ) (cenState X)).2 = .error .valueError := by
      show addByVector (of (minusMeans X X)ᵀ) _ = _
      exact vectorOp_row_bad _ _ _ rfl hne
    rw [hb]
    rfl

/-- Without whitening, a new object reconstructs the data with the mean of every sample added to it. -/
theorem C66_plain_partial (cfg : IcaCfg ℝ) (hw : cfg.whiten = false) (o : IcaObj ℝ) (ho : o.center = some ⟨false, none⟩)
    (hpn : p ≤ n) (X : Matrix (Fin n) (Fin p) ℝ) (W : Matrix (Fin p) (Fin p) ℝ) (hW : W.det ≠ 0)
    (hun : unmix cfg p (of Xᵀ) = .ok (of W)) :
    ∃ (o' : IcaObj ℝ) (S : Matrix (Fin n) (Fin p) ℝ), icaTransform cfg o (of X) = .ok (o', of S) ∧ S = X * Wᵀ ∧
      ∃ o'', icaReconstruct o' = .ok (o'', of (Matrix.of fun t i => X t i + (∑ c, X t c) / p)) := by
  have hcfg : icaConfigure cfg (icaReset o) (of X) = .ok
      ⟨p, o.center, some (of W), some (of (W * Xᵀ)ᵀ), some (of W⁻¹), none, true⟩ := by
    unfold icaConfigure
    simp only [hw, Bool.false_eq_true, if_false]
    have hk : min (of X).cols (of X).rows = p := min_eq_left hpn
    rw [hk, transpose_of, hun, except_bind_ok, mul_of, except_bind_ok, inverse_of _ _ hW, except_bind_ok, transpose_of]
    rfl
  refine ⟨⟨p, o.center, some (of W), some (of (W * Xᵀ)ᵀ), some (of W⁻¹), none, true⟩, (W * Xᵀ)ᵀ, ?_, ?_, ?_⟩
  · unfold icaTransform
    rw [hcfg, except_bind_ok]
  · rw [Matrix.transpose_mul, Matrix.transpose_transpose]
  · have hS : (W * Xᵀ)ᵀ * W⁻¹ᵀ = X := by
      rw [← Matrix.transpose_mul, ← Matrix.mul_assoc, Matrix.nonsing_inv_mul _ (isUnit_iff_ne_zero.2 hW), Matrix.one_mul, Matrix.transpose_transpose]
    have hb : (inverseTransform center (of Xᵀ) (⟨false, none⟩ : CenterState ℝ)).2 = .ok (of (Matrix.of fun i t => X t i + (∑ c, X t c) / p)) := by
      show addByVector (of Xᵀ) (of Xᵀ).columnMeans = _
      rw [columnMeans_of]
      exact vectorOp_row _ _ _
    refine ⟨⟨p, some (inverseTransform center (of Xᵀ) (⟨false, none⟩ : CenterState ℝ)).1, some (of W), some (of (W * Xᵀ)ᵀ), some (of W⁻¹), none, true⟩, ?_⟩
    unfold icaReconstruct
    rw [if_pos rfl]
    simp only [ho]
    rw [transpose_of, mul_of, except_bind_ok, hS, transpose_of, hb, except_bind_ok, transpose_of]
    rfl

/-- Reconstructing before any training raises. -/
theorem C66_untrained (o : IcaObj ℝ) (h : o.initialised = false) : icaReconstruct o = .error .matrixAlgorithms := by
  unfold icaReconstruct
  rw [h]
  rfl

/-! ## C48 -/

/-- **C48 is violated by FastICA.** `num_components` is overwritten by the training, so later and larger data are
decomposed into fewer components than a new object with the same option would find. -/
theorem C48_ica_components_violation (cfg : IcaCfg ℝ) (hw : cfg.whiten = true) (o o' : IcaObj ℝ) (X : Mat ℝ)
    (h : icaConfigure cfg o X = .ok o') : o'.numComponents = min o.numComponents (min X.cols X.rows) := by
  unfold icaConfigure at h
  simp only [hw, if_true] at h
  cases h1 : optCentre o.center X with
  | error e => rw [h1] at h; cases h
  | ok c =>
    rw [h1, except_bind_ok] at h
    cases h2 : icaWhitening cfg (min o.numComponents (min X.cols X.rows)) c.2.transpose with
    | error e => rw [h2] at h; cases h
    | ok wh =>
      rw [h2, except_bind_ok] at h
      cases h3 : wh.mul c.2.transpose with
      | error e => rw [h3] at h; cases h
      | ok X1 =>
        rw [h3, except_bind_ok] at h
        cases h4 : unmix cfg (min o.numComponents (min X.cols X.rows)) (X1.smul (HasSqrt.sqrt ((X.rows : Nat) : ℝ))) with
        | error e => rw [h4] at h; cases h
        | ok W =>
          rw [h4, except_bind_ok] at h
          cases h5 : W.mul wh with
          | error e => rw [h5] at h; cases h
          | ok comp =>
            rw [h5, except_bind_ok] at h
            cases h6 : comp.mul c.2.transpose with
            | error e => rw [h6] at h; cases h
            | ok s =>
              rw [h6, except_bind_ok] at h
              cases h7 : comp.inverse cfg.lstsq with
              | error e => rw [h7] at h; cases h
              | ok mix =>
                rw [h7, except_bind_ok] at h
                cases h
                rfl

/-- **C48 is violated by FastICA (exception).** The `Center` object is never renewed: after a training on `p` features,
data with another number of features raise `ValueError`. -/
theorem C48_ica_violation {m p' : Nat} (cfg : IcaCfg ℝ) (hw : cfg.whiten = true) (X1 : Matrix (Fin n) (Fin p) ℝ) (o : IcaObj ℝ)
    (h1 : o.center = some (cenState X1)) (X2 : Matrix (Fin m) (Fin p') ℝ) (hp : p' ≠ p) :
    icaTransform cfg o (of X2) = .error .valueError := by
  unfold icaTransform icaConfigure
  have hc : (icaReset o).center = some (cenState X1) := h1
  simp only [hw, if_true, hc]
  rw [optCentre_bad X1 X2 hp]
  rfl

/-! ### A concrete case -/

/-- The cubic non-linearity on columns. -/
def cubeG (x : Matrix (Fin n) (Fin 1) ℝ) : Matrix (Fin n) (Fin 1) ℝ := Matrix.of fun i j => x i j ^ 3
/-- Its derivative. -/
noncomputable def cubeD (x : Matrix (Fin n) (Fin 1) ℝ) : Matrix (Fin n) (Fin 1) ℝ := Matrix.of fun i _ => x i 0 ^ 2 * 3

theorem cube_col (x : Matrix (Fin n) (Fin 1) ℝ) : cubeApply (of x) = .ok (of (cubeG x), of (cubeD x)) := by
  unfold cubeApply powElementwise smul
  rw [map_of, map_of, map_of, rowMeans_of, ok_inj]
  refine Prod.ext rfl ?_
  refine mk_congr fun i j => ?_
  simp [mu, cubeD]

/-- Deflation with one pass, the cubic non-linearity and the identity as start. -/
noncomputable def icaExCfg : IcaCfg ℝ where
  whiten := true
  maxIter := 1
  tol := 0
  alg := .deflation
  g := cubeApply
  winit := fun _ => of (1 : Matrix (Fin 2) (Fin 2) ℝ)
  svd := fun _ => .ok (of (1 : Matrix (Fin 2) (Fin 2) ℝ), of (Matrix.of fun (_ : Fin 1) (_ : Fin 2) => (2 : ℝ)), of ((1 / 2 : ℝ) • icaEx))
  eig := fun _ => .error .linAlgError
  le := fun a b => decide (a ≤ b)
  lstsq := fun _ => .error .linAlgError
  amax := fun _ => 0

/-- A unit column. -/
def unitCol (i : Fin 2) (c : ℝ) : Matrix (Fin 2) (Fin 1) ℝ := Matrix.of fun k _ => if k = i then c else 0

theorem unitCol_len (i : Fin 2) (c : ℝ) : len2 (unitCol i c) = c ^ 2 := by
  unfold len2 unitCol
  rw [Fin.sum_univ_two]
  fin_cases i <;> simp

theorem unitCol_one (i : Fin 2) : toUnit (unitCol i 1) = unitCol i 1 := by
  ext a b
  show unitCol i 1 a b / Real.sqrt (len2 (unitCol i 1)) = _
  rw [unitCol_len, one_pow, Real.sqrt_one, div_one]

theorem unitCol_raw (ε : ℝ) (hε : ε ^ 2 = 1) (i : Fin 2) : icaRaw cubeG cubeD (ε • icaEx) (unitCol i 1) = unitCol i (-2) := by
  have h4 : ε ^ 4 = 1 := by
    calc ε ^ 4 = (ε ^ 2) ^ 2 := by ring
      _ = 1 := by rw [hε, one_pow]
  ext a b
  simp only [icaRaw, expG, meanOf, cubeG, cubeD, unitCol, Matrix.sub_apply, Matrix.smul_apply, Matrix.of_apply, Matrix.mul_apply, Matrix.transpose_apply,
    Fin.sum_univ_four, Fin.sum_univ_two]
  fin_cases i <;> fin_cases a <;> simp [icaEx] <;> ring_nf <;> norm_num [hε, h4]

theorem icaEx_regular (ε : ℝ) (hε : ε ^ 2 = 1) : IcaRegular icaExCfg cubeG cubeD (ε • icaEx) (1 : Matrix (Fin 2) (Fin 2) ℝ) := by
  have hrow : ∀ j : Fin 2, rowVec (1 : Matrix (Fin 2) (Fin 2) ℝ) j.1 = unitCol j 1 := by
    intro j
    ext a b
    show (if h : j.1 < 2 then (1 : Matrix (Fin 2) (Fin 2) ℝ) ⟨j.1, h⟩ a else 0) = if a = j then 1 else 0
    rw [dif_pos j.2, Matrix.one_apply]
    by_cases h : a = j
    · rw [if_pos h, if_pos (by rw [h])]
    · rw [if_neg h, if_neg fun e => h e.symm]
  have hp : ∀ S : Nat → Matrix (Fin 2) (Fin 1) ℝ, icaPasses icaExCfg.tol icaExCfg.maxIter S = 1 := by
    intro S
    show kStop (icaStop icaExCfg.tol S) 1 0 = 1
    rw [kStop, kStop]
    split <;> rfl
  have hraw : ∀ (W : Matrix (Fin 2) (Fin 2) ℝ) (j : Fin 2), icaRaw cubeG cubeD (ε • icaEx) (icaIter cubeG cubeD (ε • icaEx) W (rowVec 1 j.1) 0) = unitCol j (-2) := by
    intro W j
    rw [icaIter, hrow, unitCol_one, unitCol_raw ε hε]
  have h1 : defState icaExCfg cubeG cubeD (ε • icaEx) (1 : Matrix (Fin 2) (Fin 2) ℝ) 1 = !![-1, 0; 0, 0] := by
    have hv : icaIter cubeG cubeD (ε • icaEx) (0 : Matrix (Fin 2) (Fin 2) ℝ) (rowVec 1 0) 1 = unitCol 0 (-1) := by
      rw [icaIter]
      have := hraw 0 0
      rw [show ((0 : Fin 2) : Nat) = 0 from rfl] at this
      rw [this]
      have e : deco (0 : Matrix (Fin 2) (Fin 2) ℝ) (unitCol 0 (-2)) = unitCol 0 (-2) := by
        unfold deco
        simp
      rw [e]
      ext a b
      show unitCol 0 (-2) a b / Real.sqrt (len2 (unitCol 0 (-2))) = _
      rw [unitCol_len, show (-2 : ℝ) ^ 2 = 2 ^ 2 by norm_num, Real.sqrt_sq (by norm_num)]
      show (if a = 0 then (-2 : ℝ) else 0) / 2 = if a = 0 then -1 else 0
      split <;> norm_num
    ext a c
    rw [defState, Matrix.of_apply, defState, hp, hv]
    fin_cases a <;> fin_cases c <;> simp [unitCol]
  intro j hj
  have hj2 : j = 0 ∨ j = 1 := by omega
  rcases hj2 with rfl | rfl
  · refine ⟨?_, fun i hi => ?_⟩
    · rw [show (0 : Nat) = ((0 : Fin 2) : Nat) from rfl, hrow, unitCol_len]
      norm_num
    · rw [hp] at hi
      obtain rfl : i = 0 := by omega
      have := hraw (defState icaExCfg cubeG cubeD (ε • icaEx) 1 0) 0
      rw [show ((0 : Fin 2) : Nat) = 0 from rfl] at this
      rw [this, defState]
      have e : deco (0 : Matrix (Fin 2) (Fin 2) ℝ) (unitCol 0 (-2)) = unitCol 0 (-2) := by
        unfold deco
        simp
      rw [e, unitCol_len]
      norm_num
  · refine ⟨?_, fun i hi => ?_⟩
    · rw [show (1 : Nat) = ((1 : Fin 2) : Nat) from rfl, hrow, unitCol_len]
      norm_num
    · rw [hp] at hi
      obtain rfl : i = 0 := by omega
      have := hraw (defState icaExCfg cubeG cubeD (ε • icaEx) 1 1) 1
      rw [show ((1 : Fin 2) : Nat) = 1 from rfl] at this
      rw [this, h1]
      have e : deco (!![-1, 0; 0, 0] : Matrix (Fin 2) (Fin 2) ℝ) (unitCol 1 (-2)) = unitCol 1 (-2) := by
        unfold deco
        ext a b
        simp only [Matrix.sub_apply, Matrix.mul_apply, Fin.sum_univ_two, Matrix.transpose_apply, unitCol, Matrix.of_apply]
        fin_cases a <;> simp
      rw [e, unitCol_len]
      norm_num

example : ∃ W : Matrix (Fin 2) (Fin 2) ℝ, deflation icaExCfg 2 (of ((1 : ℝ) • icaEx)) (of (1 : Matrix (Fin 2) (Fin 2) ℝ)) = .ok (of W) ∧ W * Wᵀ = 1 :=
  C88_deflation_partial icaExCfg Nat.one_pos cubeG cubeD cube_col (by decide) _ _ (icaEx_regular 1 (by norm_num))

theorem icaEx_means : minusMeans icaExᵀ icaExᵀ = icaExᵀ := by
  ext i j
  simp only [minusMeans, Matrix.of_apply, Fin.sum_univ_four, Matrix.transpose_apply]
  fin_cases i <;> fin_cases j <;> (simp [icaEx]; try norm_num)

theorem icaEx_svd : ThinSVD 2 icaEx (1 : Matrix (Fin 2) (Fin 2) ℝ) (fun _ => 2) ((1 / 2 : ℝ) • icaEx) where
  size := by decide
  eq := by
    rw [Matrix.one_mul, Matrix.mul_smul]
    ext i j
    rw [Matrix.smul_apply, Matrix.diagonal_mul, smul_eq_mul, ← mul_assoc]
    norm_num
  left := by rw [Matrix.transpose_one, Matrix.mul_one]
  right := by
    ext i j
    simp only [Matrix.mul_apply, Matrix.transpose_apply, Fin.sum_univ_four, Matrix.smul_apply]
    fin_cases i <;> fin_cases j <;> (simp [icaEx]; try norm_num)
  nonneg := fun _ => by norm_num
  anti := fun _ _ _ => le_rfl

/-- The hypotheses of `C66_reconstruct_violation` hold for four samples of two features and a new object. -/
example : ∃ (o' : IcaObj ℝ) (S M : Matrix (Fin 4) (Fin 2) ℝ) (A : Matrix (Fin 2) (Fin 2) ℝ), icaTransform icaExCfg icaFresh (of icaExᵀ) = .ok (o', of S) ∧
    o'.mixing = some (of A) ∧ Sᵀ * S = 1 ∧ M = S * Aᵀ ∧ M = minusMeans icaExᵀ icaExᵀ ∧ icaReconstruct o' = .error .valueError := by
  obtain ⟨W, h1, h2⟩ := C88_deflation_partial icaExCfg Nat.one_pos cubeG cubeD cube_col (by decide) _ _ (icaEx_regular (-1) (by norm_num))
  refine C66_reconstruct_violation icaExCfg rfl icaFresh rfl (by decide) (by decide) (by decide) icaExᵀ 1 (fun _ => 2) ((1 / 2 : ℝ) • icaEx) rfl
    (by rw [icaEx_means]; exact icaEx_svd) (fun _ => by norm_num) W h2 ?_
  have e : Real.sqrt ((4 : Nat) : ℝ) • -((1 / 2 : ℝ) • icaEx) = (-1 : ℝ) • icaEx := by
    have : Real.sqrt ((4 : Nat) : ℝ) = 2 := by
      rw [show ((4 : Nat) : ℝ) = 2 ^ 2 by norm_num]
      exact Real.sqrt_sq (by norm_num)
    rw [this]
    ext i j
    simp only [Matrix.smul_apply, Matrix.neg_apply, smul_eq_mul]
    ring
  rw [e]
  exact h1

end Verif.Props
