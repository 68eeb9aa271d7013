import Verif.Props.KernelPlsProps
import Verif.Props.OplsProps
import Verif.Props.DiplsProps
import Verif.Alg.SimplsPls1
import Verif.Alg.PlsEquiv
import Mathlib.Analysis.InnerProductSpace.PiL2

/-!
# C101: KernelPLS with the linear kernel and one response is PLS1
-/

namespace Verif.Props

open Verif Mat Transf
open scoped Matrix

variable {n p K : Nat}

/-! ## The response of PLS1, deflated -/

/-- The response with the first scores of PLS1 removed. -/
noncomputable def resY (X : Matrix (Fin n) (Fin p) ℝ) (y : Matrix (Fin n) (Fin 1) ℝ) (k : Nat) :
    Matrix (Fin n) (Fin 1) ℝ :=
  y - ∑ j ∈ Finset.range k, plsB (pls1W y) X y j • plsT (pls1W y) X j

variable {X : Matrix (Fin n) (Fin p) ℝ} {y : Matrix (Fin n) (Fin 1) ℝ}

theorem plsX_sum (wf : Matrix (Fin n) (Fin p) ℝ → Matrix (Fin p) (Fin 1) ℝ) (X : Matrix (Fin n) (Fin p) ℝ) (k : Nat) :
    plsX wf X k = X - ∑ i ∈ Finset.range k, plsT wf X i * (plsP wf X i)ᵀ := by
  rw [← plsZ_train, plsZ_sum]
  congr 1
  refine Finset.sum_congr rfl fun i _ => ?_
  rw [plsS, plsZ_train]
  rfl

theorem plsT_orth' {wf : Matrix (Fin n) (Fin p) ℝ → Matrix (Fin p) (Fin 1) ℝ} {i j : Nat} (hij : i < j)
    (h : ∀ k < j, sq1 (plsT wf X k) ≠ 0) : (plsT wf X j)ᵀ * plsT wf X i = 0 := by
  have := congrArg Matrix.transpose (plsT_orth wf X i j hij h)
  rwa [Matrix.transpose_mul, Matrix.transpose_transpose, Matrix.transpose_zero] at this

/-- Loadings may be computed from the predictors before any deflation. -/
theorem plsX_T {wf : Matrix (Fin n) (Fin p) ℝ → Matrix (Fin p) (Fin 1) ℝ} {k : Nat}
    (h : ∀ j < k, sq1 (plsT wf X j) ≠ 0) : (plsX wf X k)ᵀ * plsT wf X k = Xᵀ * plsT wf X k := by
  rw [plsX_sum wf X k, Matrix.transpose_sub, Matrix.sub_mul, Matrix.transpose_sum, Matrix.sum_mul,
    Finset.sum_eq_zero, sub_zero]
  intro i hi
  rw [Matrix.transpose_mul, Matrix.transpose_transpose, Matrix.mul_assoc,
    plsT_orth wf X i k (Finset.mem_range.1 hi) h, Matrix.mul_zero]

theorem plsB_smul (wf : Matrix (Fin n) (Fin p) ℝ → Matrix (Fin p) (Fin 1) ℝ) (k : Nat) :
    plsT wf X k * ((plsT wf X k)ᵀ * y) = (sq1 (plsT wf X k) * plsB wf X y k) • plsT wf X k ∨ sq1 (plsT wf X k) = 0 := by
  by_cases h : sq1 (plsT wf X k) = 0
  · exact .inr h
  · refine .inl ?_
    rw [mul_one_one, plsB, Matrix.mul_apply, mul_div_cancel₀ _ h]
    rfl

/-- Removing the scores from the response or from the predictors gives the same covariance. -/
theorem cov_res {k : Nat} (h : ∀ j < k, sq1 (plsT (pls1W y) X j) ≠ 0) :
    (plsX (pls1W y) X k)ᵀ * y = Xᵀ * resY X y k := by
  rw [plsX_sum, resY, Matrix.transpose_sub, Matrix.sub_mul, Matrix.mul_sub, Matrix.transpose_sum, Matrix.sum_mul,
    Matrix.mul_sum]
  congr 1
  refine Finset.sum_congr rfl fun i hi => ?_
  have hi := Finset.mem_range.1 hi
  have hT := plsX_T (wf := pls1W y) (X := X) (k := i) fun j hj => h j (by omega)
  rw [Matrix.transpose_mul, Matrix.transpose_transpose, plsP, loading_eq, hT, Matrix.smul_mul, Matrix.smul_mul,
    Matrix.mul_assoc, Matrix.mul_assoc, Matrix.mul_smul]
  rcases plsB_smul (X := X) (y := y) (pls1W y) i with e | e
  · rw [e, Matrix.mul_smul, smul_smul, ← mul_assoc, inv_mul_cancel₀ (h i hi), one_mul]
  · exact absurd e (h i hi)

theorem cov_res' {k : Nat} (h : ∀ j < k, sq1 (plsT (pls1W y) X j) ≠ 0) :
    (plsX (pls1W y) X k)ᵀ * resY X y k = (plsX (pls1W y) X k)ᵀ * y := by
  rw [resY, Matrix.mul_sub, Matrix.mul_sum, Finset.sum_eq_zero, sub_zero]
  intro j hj
  have hj := Finset.mem_range.1 hj
  obtain ⟨d, rfl⟩ : ∃ d, k = j + d + 1 := ⟨k - j - 1, by omega⟩
  have h2 := congrArg Matrix.transpose (plsT_orth_X (pls1W y) X j d h)
  rw [Matrix.transpose_mul, Matrix.transpose_transpose, Matrix.transpose_zero] at h2
  rw [Matrix.mul_smul, h2, smul_zero]

/-! ## One component of KernelPLS -/

/-- The covariances are a positive multiple of the weights. -/
theorem cov_weights {M : Matrix (Fin n) (Fin p) ℝ} (h : sq1 (M * pls1W y M) ≠ 0) :
    0 < Real.sqrt (sq1 (Mᵀ * y)) ∧ Mᵀ * y = Real.sqrt (sq1 (Mᵀ * y)) • pls1W y M := by
  have h0 : Real.sqrt (sq1 (Mᵀ * y)) ≠ 0 := by
    intro e
    refine h ?_
    rw [pls1W_eq, e, inv_zero, zero_smul, Matrix.mul_zero]
    exact (sq1_eq_zero _).2 rfl
  refine ⟨lt_of_le_of_ne (Real.sqrt_nonneg _) (Ne.symm h0), ?_⟩
  conv_lhs => rw [← one_smul ℝ (Mᵀ * y), ← mul_inv_cancel₀ h0, ← smul_smul, ← pls1W_eq]

theorem sq1_pos {m : Nat} {v : Matrix (Fin m) (Fin 1) ℝ} (h : sq1 v ≠ 0) : 0 < Real.sqrt (sq1 v) :=
  Real.sqrt_pos.2 (lt_of_le_of_ne (sq1_nonneg v) (Ne.symm h))

/-- The distance of two vectors is at least the difference of their lengths. -/
theorem length_le {m : Nat} (a b : Matrix (Fin m) (Fin 1) ℝ) :
    |Real.sqrt (sq1 a) - Real.sqrt (sq1 b)| ≤ Real.sqrt (sq1 (a - b)) := by
  have e : ∀ c : Matrix (Fin m) (Fin 1) ℝ, Real.sqrt (sq1 c) = ‖(WithLp.toLp 2 fun i => c i 0 : EuclideanSpace ℝ (Fin m))‖ := by
    intro c
    rw [EuclideanSpace.norm_eq]
    congr 1
    refine Finset.sum_congr rfl fun i _ => ?_
    simp [sq]
  rw [e, e, e]
  exact abs_norm_sub_norm_le _ _

/-- The passes after the first start from the response, up to length and sign. -/
theorem kLast_response {tol : ℝ} {f : Nat} {M : Matrix (Fin n) (Fin p) ℝ} {z v : Matrix (Fin n) (Fin 1) ℝ}
    (hz : Mᵀ * z = Mᵀ * y) (ht : sq1 (M * pls1W y M) ≠ 0) (hv : ((M * pls1W y M)ᵀ * v) 0 0 ≠ 0)
    (hl : tol < |Real.sqrt (sq1 v) - 1|) :
    ∃ s : ℝ, s * s = 1 ∧ kLast tol (M * Mᵀ) z (f + 1) v = s • nrm z := by
  obtain ⟨hc, hw⟩ := cov_weights ht
  set c := Real.sqrt (sq1 (Mᵀ * y))
  set t := M * pls1W y M with hT
  have hzt : zᵀ * M = c • (pls1W y M)ᵀ := by
    have := congrArg Matrix.transpose (hz.trans hw)
    rwa [Matrix.transpose_mul, Matrix.transpose_transpose, Matrix.transpose_smul] at this
  have hd : ∀ u : Matrix (Fin n) (Fin 1) ℝ, (tᵀ * u) 0 0 ≠ 0 → ∃ s : ℝ, s * s = 1 ∧ kU z (nrm (M * Mᵀ * u)) = s • nrm z := by
    intro u hu
    have e : zᵀ * (M * Mᵀ * u) = c • (tᵀ * u) := by
      rw [← Matrix.mul_assoc, ← Matrix.mul_assoc, hzt, Matrix.smul_mul, Matrix.smul_mul, hT, Matrix.transpose_mul]
    have h0 : M * Mᵀ * u ≠ 0 := by
      intro h0
      rw [h0, Matrix.mul_zero] at e
      have := congrFun (congrFun e 0) 0
      rw [Matrix.smul_apply, smul_eq_mul, Matrix.zero_apply] at this
      exact mul_ne_zero hc.ne' hu this.symm
    have hs : 0 < Real.sqrt (sq1 (M * Mᵀ * u)) := sq1_pos fun e => h0 ((sq1_eq_zero _).1 e)
    rw [kU, mul_one_one]
    refine nrm_smul_sign z ?_
    rw [nrm, Matrix.mul_smul, e, Matrix.smul_apply, Matrix.smul_apply, smul_eq_mul, smul_eq_mul]
    exact mul_ne_zero (inv_pos.2 hs).ne' (mul_ne_zero hc.ne' hu)
  have hz0 : z ≠ 0 := by
    rintro rfl
    rw [Matrix.mul_zero] at hz
    have : Real.sqrt (sq1 (Mᵀ * y)) = 0 := by rw [← hz, (sq1_eq_zero _).2 rfl, Real.sqrt_zero]
    exact hc.ne' this
  have htz : (tᵀ * z) 0 0 = c * sq1 (pls1W y M) := by
    rw [hT, Matrix.transpose_mul, Matrix.mul_assoc, hz, hw, Matrix.mul_smul, col_gram]
    simp
  have hw0 : sq1 (pls1W y M) ≠ 0 := by
    intro e
    rw [hT, (sq1_eq_zero _).1 e, Matrix.mul_zero] at ht
    exact ht ((sq1_eq_zero _).2 rfl)
  have hns : 0 < Real.sqrt (sq1 z) := sq1_pos fun e => hz0 ((sq1_eq_zero _).1 e)
  obtain ⟨s, hs, e⟩ := hd v hv
  have hgo : tol < Real.sqrt (sq1 (kU z (nrm (M * Mᵀ * v)) - v)) := by
    have := length_le (kU z (nrm (M * Mᵀ * v))) v
    rw [show sq1 (kU z (nrm (M * Mᵀ * v))) = 1 by rw [e, sq1_smul, hs, one_mul, sq1_nrm _ hz0], Real.sqrt_one,
      abs_sub_comm] at this
    exact lt_of_lt_of_le hl this
  rw [kLast_succ, if_pos hgo, e]
  refine kLast_inv tol (M * Mᵀ) z (fun u => ∃ s : ℝ, s * s = 1 ∧ u = s • nrm z) ?_ f _ ⟨s, hs, rfl⟩
  rintro u ⟨s, hs, rfl⟩
  refine hd _ ?_
  rw [Matrix.mul_smul, nrm, Matrix.mul_smul, Matrix.smul_apply, Matrix.smul_apply, htz, smul_eq_mul, smul_eq_mul]
  have : s ≠ 0 := by rintro rfl; simp at hs
  exact mul_ne_zero this (mul_ne_zero (inv_pos.2 hns).ne' (mul_ne_zero hc.ne' hw0))

/-- A score of KernelPLS is the normalised score of PLS1, up to sign. -/
theorem kT1_pls1 {tol : ℝ} {f : Nat} {M : Matrix (Fin n) (Fin p) ℝ} {z v : Matrix (Fin n) (Fin 1) ℝ}
    (hz : Mᵀ * z = Mᵀ * y) (ht : sq1 (M * pls1W y M) ≠ 0) (hv : ((M * pls1W y M)ᵀ * v) 0 0 ≠ 0)
    (hl : tol < |Real.sqrt (sq1 v) - 1|) :
    ∃ s : ℝ, s * s = 1 ∧ kT1 tol (f + 1) (M * Mᵀ) z v = s • nrm (M * pls1W y M) := by
  obtain ⟨s, hs, e⟩ := kLast_response (f := f) hz ht hv hl
  obtain ⟨hc, hw⟩ := cov_weights ht
  have hz0 : sq1 z ≠ 0 := by
    intro e0
    have : Mᵀ * y = 0 := by rw [← hz, (sq1_eq_zero _).1 e0, Matrix.mul_zero]
    rw [this, (sq1_eq_zero _).2 rfl, Real.sqrt_zero] at hc
    exact lt_irrefl _ hc
  have hns := sq1_pos hz0
  rw [kT1, e, Matrix.mul_smul, show nrm z = (Real.sqrt (sq1 z))⁻¹ • z from rfl, Matrix.mul_smul, Matrix.mul_assoc, hz, hw,
    Matrix.mul_smul, smul_smul, smul_smul]
  refine nrm_smul_sign _ ?_
  have : s ≠ 0 := by rintro rfl; simp at hs
  exact mul_ne_zero (mul_ne_zero this (inv_pos.2 hns).ne') hc.ne'

/-! ## All components -/

/-- The start vectors `v` suit the data: their length differs from one by more than the tolerance, and no start vector is
orthogonal to the score PLS1 finds for its component. -/
structure GoodStart (tol : ℝ) (K : Nat) (X : Matrix (Fin n) (Fin p) ℝ) (y : Matrix (Fin n) (Fin 1) ℝ)
    (v : Nat → Matrix (Fin n) (Fin 1) ℝ) : Prop where
  length : ∀ k < K, tol < |Real.sqrt (∑ i, v k i 0 * v k i 0) - 1|
  score : ∀ k < K, ∑ i, plsT (pls1W y) X k i 0 * v k i 0 ≠ 0

theorem deflate_proj (M : Matrix (Fin n) (Fin p) ℝ) (t : Matrix (Fin n) (Fin 1) ℝ) {s : ℝ} (hs : s * s = 1) :
    (1 - (s • nrm t) * (s • nrm t)ᵀ) * M = deflate M t := by
  rw [deflate_eq, Matrix.sub_mul, Matrix.one_mul, nrm, Matrix.transpose_smul, Matrix.transpose_smul, Matrix.smul_mul,
    Matrix.smul_mul, Matrix.mul_smul, Matrix.mul_smul, Matrix.smul_mul, Matrix.smul_mul, Matrix.smul_mul,
    Matrix.smul_mul, Matrix.mul_assoc, smul_smul, smul_smul, smul_smul]
  congr 2
  have : (Real.sqrt (sq1 t))⁻¹ * (Real.sqrt (sq1 t))⁻¹ = (sq1 t)⁻¹ := by
    rw [← mul_inv, Real.mul_self_sqrt (sq1_nonneg t)]
  linear_combination ((Real.sqrt (sq1 t))⁻¹ * (Real.sqrt (sq1 t))⁻¹) * hs + this

/-- The run of KernelPLS on the linear kernel, in terms of the run of PLS1. -/
theorem kpls_pls1 {tol : ℝ} {f : Nat} {v : Nat → Matrix (Fin n) (Fin 1) ℝ}
    (h : ∀ k < K, sq1 (plsT (pls1W y) X k) ≠ 0) (hv : GoodStart tol K X y v) :
    (∀ k ≤ K, kS tol (f + 1) v (X * Xᵀ) y k = (plsX (pls1W y) X k * (plsX (pls1W y) X k)ᵀ, resY X y k)) ∧
    ∀ k < K, (∃ s : ℝ, s * s = 1 ∧ kT tol (f + 1) v (X * Xᵀ) y k = s • nrm (plsT (pls1W y) X k)) ∧
      ∃ c : ℝ, c ≠ 0 ∧ Xᵀ * kUs tol (f + 1) v (X * Xᵀ) y k = c • plsW (pls1W y) X k := by
  have hT : ∀ k < K, kS tol (f + 1) v (X * Xᵀ) y k = (plsX (pls1W y) X k * (plsX (pls1W y) X k)ᵀ, resY X y k) →
      ∃ s : ℝ, s * s = 1 ∧ kT tol (f + 1) v (X * Xᵀ) y k = s • nrm (plsT (pls1W y) X k) := by
    intro k hk e
    rw [kT, e]
    refine kT1_pls1 (y := y) (cov_res' fun j hj => h j (by omega)) (h k hk) ?_ (hv.length k hk)
    rw [Matrix.mul_apply]
    exact hv.score k hk
  have hS : ∀ k ≤ K, kS tol (f + 1) v (X * Xᵀ) y k =
      (plsX (pls1W y) X k * (plsX (pls1W y) X k)ᵀ, resY X y k) := by
    intro k
    induction k with
    | zero => exact fun _ => Prod.ext rfl (by simp [kS, resY])
    | succ k ih =>
      intro hk
      have e := ih (by omega)
      obtain ⟨s, hs, ht⟩ := hT k (by omega) e
      have hd : ∀ (M : Matrix (Fin n) (Fin p) ℝ), (1 - kT tol (f + 1) v (X * Xᵀ) y k *
          (kT tol (f + 1) v (X * Xᵀ) y k)ᵀ) * M = deflate M (plsT (pls1W y) X k) := by
        intro M
        rw [ht]
        exact deflate_proj M _ hs
      have hsym : (1 - kT tol (f + 1) v (X * Xᵀ) y k * (kT tol (f + 1) v (X * Xᵀ) y k)ᵀ)ᵀ =
          1 - kT tol (f + 1) v (X * Xᵀ) y k * (kT tol (f + 1) v (X * Xᵀ) y k)ᵀ := by
        rw [Matrix.transpose_sub, Matrix.transpose_mul, Matrix.transpose_transpose, Matrix.transpose_one]
      rw [kS_succ, e]
      refine Prod.ext ?_ ?_
      · show (1 - _) * (_ * _) * (1 - _) = _
        rw [← Matrix.mul_assoc, hd, Matrix.mul_assoc, ← hsym, ← Matrix.transpose_mul, hd]
        rfl
      · show resY X y k - kT tol (f + 1) v (X * Xᵀ) y k * (kQ tol (f + 1) v (X * Xᵀ) y k)ᵀ = resY X y (k + 1)
        have hq : resY X y k - kT tol (f + 1) v (X * Xᵀ) y k * (kQ tol (f + 1) v (X * Xᵀ) y k)ᵀ =
            (1 - kT tol (f + 1) v (X * Xᵀ) y k * (kT tol (f + 1) v (X * Xᵀ) y k)ᵀ) * resY X y k := by
          rw [kQ, e, Matrix.sub_mul, Matrix.one_mul, Matrix.transpose_mul, Matrix.transpose_transpose, Matrix.mul_assoc]
        have hty : (plsT (pls1W y) X k)ᵀ * resY X y k = (plsT (pls1W y) X k)ᵀ * y := by
          rw [plsT, Matrix.transpose_mul, Matrix.mul_assoc, cov_res' (fun j hj => h j (by omega)), Matrix.mul_assoc]
        rw [hq, ht]
        have := deflate_proj (resY X y k) (plsT (pls1W y) X k) hs
        rw [this, deflate_eq, hty]
        rcases plsB_smul (X := X) (y := y) (pls1W y) k with e' | e'
        · rw [e', smul_smul, ← mul_assoc, inv_mul_cancel₀ (h k (by omega)), one_mul, resY, resY, Finset.sum_range_succ,
            sub_sub]
        · exact absurd e' (h k (by omega))
  refine ⟨hS, fun k hk => ⟨hT k hk (hS k (by omega)), ?_⟩⟩
  obtain ⟨s, hs, ht⟩ := hT k hk (hS k (by omega))
  obtain ⟨hc, hw⟩ := cov_weights (y := y) (M := plsX (pls1W y) X k) (h k hk)
  have hz := cov_res' (X := X) (y := y) (k := k) fun j hj => h j (by omega)
  have hz0 : sq1 (resY X y k) ≠ 0 := by
    intro e0
    have : (plsX (pls1W y) X k)ᵀ * y = 0 := by rw [← hz, (sq1_eq_zero _).1 e0, Matrix.mul_zero]
    rw [this, (sq1_eq_zero _).2 rfl, Real.sqrt_zero] at hc
    exact lt_irrefl _ hc
  have hs0 : s ≠ 0 := by rintro rfl; simp at hs
  have htz : ((resY X y k)ᵀ * plsT (pls1W y) X k) 0 0 ≠ 0 := by
    have e1 : (resY X y k)ᵀ * plsT (pls1W y) X k =
        Real.sqrt (sq1 ((plsX (pls1W y) X k)ᵀ * y)) • ((plsW (pls1W y) X k)ᵀ * plsW (pls1W y) X k) := by
      have := congrArg Matrix.transpose (hz.trans hw)
      rw [Matrix.transpose_mul, Matrix.transpose_transpose, Matrix.transpose_smul] at this
      rw [plsT, ← Matrix.mul_assoc, this, Matrix.smul_mul]
      rfl
    have hw0 : sq1 (plsW (pls1W y) X k) ≠ 0 := by
      intro e
      refine h k hk ?_
      rw [plsT, (sq1_eq_zero _).1 e, Matrix.mul_zero]
      exact (sq1_eq_zero _).2 rfl
    rw [e1, col_gram]
    simp only [Matrix.smul_apply, Matrix.one_apply_eq, smul_eq_mul, mul_one]
    exact mul_ne_zero hc.ne' hw0
  have ha : ((resY X y k)ᵀ * (s • nrm (plsT (pls1W y) X k))) 0 0 ≠ 0 := by
    rw [Matrix.mul_smul, nrm, Matrix.mul_smul, Matrix.smul_apply, Matrix.smul_apply, smul_eq_mul, smul_eq_mul]
    exact mul_ne_zero hs0 (mul_ne_zero (inv_pos.2 (sq1_pos (h k hk))).ne' htz)
  obtain ⟨s', hs', e'⟩ := nrm_smul_sign (resY X y k) ha
  have hs0' : s' ≠ 0 := by rintro rfl; simp at hs'
  refine ⟨s' * ((Real.sqrt (sq1 (resY X y k)))⁻¹ * Real.sqrt (sq1 ((plsX (pls1W y) X k)ᵀ * y))),
    mul_ne_zero hs0' (mul_ne_zero (inv_pos.2 (sq1_pos hz0)).ne' hc.ne'), ?_⟩
  rw [kUs, hS k (by omega), ht, kU, mul_one_one, e', Matrix.mul_smul, nrm, Matrix.mul_smul,
    ← cov_res fun j hj => h j (by omega), ← smul_smul, ← smul_smul]
  exact congrArg (fun A => s' • (Real.sqrt (sq1 (resY X y k)))⁻¹ • A) hw

theorem colsM_smul {m K : Nat} {g h : Nat → Matrix (Fin m) (Fin 1) ℝ} {c : Fin K → ℝ}
    (e : ∀ k : Fin K, g k.1 = c k • h k.1) : (colsM g : Matrix (Fin m) (Fin K) ℝ) = colsM h * Matrix.diagonal c := by
  ext i j
  rw [Matrix.mul_diagonal]
  simp only [colsM, Matrix.of_apply]
  rw [e j, Matrix.smul_apply, smul_eq_mul, mul_comm]

theorem colsM_mul {m l K : Nat} (A : Matrix (Fin l) (Fin m) ℝ) (g : Nat → Matrix (Fin m) (Fin 1) ℝ) :
    A * (colsM g : Matrix (Fin m) (Fin K) ℝ) = colsM fun k => A * g k := by
  ext i j
  simp only [Matrix.mul_apply, colsM, Matrix.of_apply]

theorem diag_inv {c : Fin K → ℝ} (hc : ∀ k, c k ≠ 0) :
    Matrix.diagonal c * Matrix.diagonal (fun k => (c k)⁻¹) = 1 := by
  rw [Matrix.diagonal_mul_diagonal, ← Matrix.diagonal_one]
  congr 1
  funext k
  exact mul_inv_cancel₀ (hc k)

/-- Scores times the predictors are the loadings, up to the lengths of the scores. -/
theorem plsTM_X (h : ∀ k < K, sq1 (plsT (pls1W y) X k) ≠ 0) :
    (plsTM (pls1W y) K X)ᵀ * X =
      Matrix.diagonal (fun k : Fin K => sq1 (plsT (pls1W y) X k.1)) * (plsPM (pls1W y) K X)ᵀ := by
  ext k j
  rw [Matrix.diagonal_mul, Matrix.transpose_apply, plsPM, Matrix.of_apply, plsP, loading_eq,
    plsX_T (fun j hj => h j (by have := k.2; omega)), Matrix.smul_apply, smul_eq_mul, ← mul_assoc,
    mul_inv_cancel₀ (h k.1 k.2), one_mul, Matrix.mul_apply, Matrix.mul_apply]
  exact Finset.sum_congr rfl fun i _ => mul_comm _ _

theorem plsTM_y (h : ∀ k < K, sq1 (plsT (pls1W y) X k) ≠ 0) :
    (plsTM (pls1W y) K X)ᵀ * y =
      Matrix.diagonal (fun k : Fin K => sq1 (plsT (pls1W y) X k.1)) * plsBM (pls1W y) K X y := by
  ext k j
  rw [Subsingleton.elim j 0, Matrix.diagonal_mul, plsBM, Matrix.of_apply, plsB, mul_div_cancel₀ _ (h k.1 k.2),
    Matrix.mul_apply]
  rfl

/-- The coefficients of KernelPLS, carried back to the predictors, are those of PLS1. -/
theorem kpls_coeff {tol : ℝ} {f : Nat} {v : Nat → Matrix (Fin n) (Fin 1) ℝ}
    (h : ∀ k < K, sq1 (plsT (pls1W y) X k) ≠ 0) (hv : GoodStart tol K X y v)
    {T U : Matrix (Fin n) (Fin K) ℝ} {Q : Matrix (Fin 1) (Fin K) ℝ}
    (hT : T = colsM (kT tol (f + 1) v (X * Xᵀ) y)) (hU : U = colsM (kUs tol (f + 1) v (X * Xᵀ) y))
    (hQ : Q = colsM (kQ tol (f + 1) v (X * Xᵀ) y)) :
    (Tᵀ * (X * Xᵀ) * U).det ≠ 0 ∧
    Xᵀ * U * ((Tᵀ * (X * Xᵀ) * U)⁻¹ * Qᵀ) =
      plsWM (pls1W y) K X * ((plsPM (pls1W y) K X)ᵀ * plsWM (pls1W y) K X)⁻¹ * plsBM (pls1W y) K X y := by
  obtain ⟨-, hk⟩ := kpls_pls1 (f := f) h hv
  have h1 : ∀ k : Fin K, ∃ e : ℝ, e ≠ 0 ∧ kT tol (f + 1) v (X * Xᵀ) y k.1 = e • plsT (pls1W y) X k.1 := by
    intro k
    obtain ⟨⟨s, hs, ht⟩, -⟩ := hk k.1 k.2
    refine ⟨s * (Real.sqrt (sq1 (plsT (pls1W y) X k.1)))⁻¹, ?_, by rw [ht, nrm, smul_smul]⟩
    refine mul_ne_zero ?_ (inv_pos.2 (sq1_pos (h k.1 k.2))).ne'
    rintro rfl
    simp at hs
  choose e he hT' using h1
  have h2 : ∀ k : Fin K, ∃ c : ℝ, c ≠ 0 ∧ Xᵀ * kUs tol (f + 1) v (X * Xᵀ) y k.1 = c • plsW (pls1W y) X k.1 :=
    fun k => (hk k.1 k.2).2
  choose c hc hU' using h2
  have eT : T = plsTM (pls1W y) K X * Matrix.diagonal e := hT.trans (colsM_smul hT')
  have eU : Xᵀ * U = plsWM (pls1W y) K X * Matrix.diagonal c := by
    rw [hU, colsM_mul]
    exact colsM_smul hU'
  have eQ : Qᵀ = Tᵀ * y := by
    have : Q = yᵀ * T := by
      rw [hQ, hT, colsM_mul]
      ext i k
      have hu : ∀ j < k.1, sq1 (kT tol (f + 1) v (X * Xᵀ) y j) = 1 := by
        intro j hj
        obtain ⟨⟨s, hs, ht⟩, -⟩ := hk j (by have := k.2; omega)
        rw [ht, sq1_smul, hs, one_mul, sq1_nrm]
        intro e0
        exact h j (by have := k.2; omega) ((sq1_eq_zero _).2 e0)
      exact congrFun (congrFun (kQ_eq (k := k.1) hu) i) 0
    rw [this, Matrix.transpose_mul, Matrix.transpose_transpose]
  set S := Matrix.diagonal fun k : Fin K => sq1 (plsT (pls1W y) X k.1) with hS
  set D := (plsPM (pls1W y) K X)ᵀ * plsWM (pls1W y) K X with hD
  have hdet : D.det = 1 := det_ptw (pls1W y) K X h
  have eA : Tᵀ * (X * Xᵀ) * U = Matrix.diagonal e * S * (D * Matrix.diagonal c) := by
    have e1 : Tᵀ * (X * Xᵀ) * U = Matrix.diagonal e * ((plsTM (pls1W y) K X)ᵀ * X * (Xᵀ * U)) := by
      rw [eT, Matrix.transpose_mul, Matrix.diagonal_transpose]
      simp only [Matrix.mul_assoc]
    rw [e1, eU, plsTM_X h, hD]
    simp only [Matrix.mul_assoc, hS]
  have eQ' : Qᵀ = Matrix.diagonal e * S * plsBM (pls1W y) K X y := by
    rw [eQ, eT, Matrix.transpose_mul, Matrix.diagonal_transpose, Matrix.mul_assoc, plsTM_y h, ← Matrix.mul_assoc]
  have hES : (Matrix.diagonal e * S).det ≠ 0 := by
    rw [hS, Matrix.det_mul, Matrix.det_diagonal, Matrix.det_diagonal]
    exact mul_ne_zero (Finset.prod_ne_zero_iff.2 fun k _ => he k) (Finset.prod_ne_zero_iff.2 fun k _ => h k.1 k.2)
  have hDC : (D * Matrix.diagonal c).det ≠ 0 := by
    rw [Matrix.det_mul, hdet, one_mul, Matrix.det_diagonal]
    exact Finset.prod_ne_zero_iff.2 fun k _ => hc k
  refine ⟨by rw [eA, Matrix.det_mul]; exact mul_ne_zero hES hDC, ?_⟩
  have hcd : (Matrix.diagonal c).det ≠ 0 := by
    rw [Matrix.det_diagonal]
    exact Finset.prod_ne_zero_iff.2 fun k _ => hc k
  rw [eA, eQ', eU, Matrix.mul_inv_rev, Matrix.mul_inv_rev]
  rw [Matrix.mul_assoc ((Matrix.diagonal c)⁻¹ * D⁻¹), ← Matrix.mul_assoc (Matrix.diagonal e * S)⁻¹,
    Matrix.nonsing_inv_mul _ (isUnit_iff_ne_zero.2 hES), Matrix.one_mul, Matrix.mul_assoc, ← Matrix.mul_assoc (Matrix.diagonal c),
    ← Matrix.mul_assoc (Matrix.diagonal c), Matrix.mul_nonsing_inv _ (isUnit_iff_ne_zero.2 hcd), Matrix.one_mul,
    Matrix.mul_assoc]

theorem cen_sum (hn : 0 < n) (X : Matrix (Fin n) (Fin p) ℝ) (j : Fin p) : ∑ i, cen X X i j = 0 := by
  have hn' : (n : ℝ) ≠ 0 := by positivity
  simp only [cen, Matrix.of_apply, Finset.sum_sub_distrib, mu, Finset.sum_const, Finset.card_univ, Fintype.card_fin,
    nsmul_eq_mul]
  field_simp
  ring

/-- **C101.** KernelPLS with the linear kernel and a single response is PLS1 on the centred data: for all new data it
predicts what PLS1 predicts for the data centred with the training means, plus the mean of the response.  It is enough
that two passes are allowed for each component and that the start vectors suit the data (`GoodStart`); in particular the
predictions do not depend on the start vectors, the tolerance or the iteration limit. -/
theorem C101_linear_kernel {c : KplsCfg ℝ Unit} {v : Nat → Matrix (Fin n) (Fin 1) ℝ} (hc : KplsReal c n v)
    (hl1 : ∀ A, c.kern1 () A = ((), linearMatrix A none)) (hl2 : ∀ A B, c.kern2 () A B = ((), linearMatrix A (some B)))
    (htol : 0 < c.tol) (hmax : 2 ≤ c.maxIter) (hK : c.K = K) (hK0 : 0 < K) (hn : 0 < n) (hp : 0 < p)
    (X : Matrix (Fin n) (Fin p) ℝ) (y : Matrix (Fin n) (Fin 1) ℝ) (lstsq : Mat ℝ → Except PyErr (Mat ℝ))
    (hinv : c.inv = inverse lstsq) (h : Regular (pls1W (cen y y)) K (cen X X))
    (hv : GoodStart c.tol K (cen X X) (cen y y) v) :
    ∃ (m : KplsModel ℝ Unit) (m' : Pls1Model ℝ) (T : Mat ℝ), kplsTrain c () (of X) (of y) = .ok m ∧
      pls1Train pls1Weights K (of (cen X X)) (of (cen y y)) = .ok (m', T) ∧
      ∀ {r : Nat}, 0 < r → ∀ Z : Matrix (Fin r) (Fin p) ℝ, ∃ F : Matrix (Fin r) (Fin 1) ℝ,
        pls1Predict K m' (of (cen X Z)) = .ok (of F) ∧
        kplsPredict c m (of Z) = .ok (of (Matrix.of fun i j => F i j + mu fun i => y i 0)) := by
  have hprod : ∀ {r : Nat} (A : Matrix (Fin r) (Fin p) ℝ) (B : Matrix (Fin n) (Fin p) ℝ),
      linearMatrix (of A) (some (of B)) = .ok (of (A * Bᵀ)) := by
    intro r A B
    show (of A).mul (of B).transpose = _
    rw [transpose_of, mul_of]
  have hG : (c.kern1 () (of (cen X X))).2 = .ok (of (cen X X * (cen X X)ᵀ)) := by
    rw [hl1]
    exact hprod _ _
  have hrow : ∀ {r : Nat} (A : Matrix (Fin r) (Fin p) ℝ) (i : Fin r), ∑ k, (A * (cen X X)ᵀ) i k = 0 := by
    intro r A i
    simp only [Matrix.mul_apply, Matrix.transpose_apply]
    rw [Finset.sum_comm]
    refine Finset.sum_eq_zero fun j _ => ?_
    rw [← Finset.mul_sum, cen_sum hn, mul_zero]
  have hcK : cenK (cen X X * (cen X X)ᵀ) = cen X X * (cen X X)ᵀ := by
    have h1 : cen X X * (cen X X)ᵀ * avg n n = 0 := by
      ext i j
      rw [Matrix.mul_apply]
      simp only [avg, Matrix.of_apply, ← Finset.sum_mul, hrow, zero_mul, Matrix.zero_apply]
    have h2 : avg n n * (cen X X * (cen X X)ᵀ) = 0 := by
      have := congrArg Matrix.transpose h1
      rwa [Matrix.transpose_mul, avg_transpose, Matrix.transpose_mul, Matrix.transpose_transpose,
        Matrix.transpose_zero] at this
    rw [cenK, Matrix.sub_mul, Matrix.one_mul, h2, sub_zero, Matrix.mul_sub, Matrix.mul_one, h1, sub_zero]
  obtain ⟨f, hf⟩ : ∃ f : Nat, c.maxIter = (f + 1 : Nat) + 1 := ⟨(c.maxIter - 2).toNat, by omega⟩
  obtain ⟨hdet, hco⟩ := kpls_coeff (f := f) h.sq1_ne hv rfl rfl rfl
  have htrain := kplsTrain_eq hc htol hf hK hn Nat.one_pos () X y _ hG
  rw [hcK, hinv, inverse_of lstsq _ hdet, except_bind_ok, mul_of, except_bind_ok] at htrain
  obtain ⟨m', T, R, h1, h2, h3⟩ := C50_linear hn hp hK0 _ (pls1_computes _) h
  have hR : R = plsWM (pls1W (cen y y)) K (cen X X) *
      ((plsPM (pls1W (cen y y)) K (cen X X))ᵀ * plsWM (pls1W (cen y y)) K (cen X X))⁻¹ *
      plsBM (pls1W (cen y y)) K (cen X X) (cen y y) := by
    rw [pls1Train_eq (pls1W _) pls1Weights K hn hp hK0 _ _ (fun k _ => pls1_computes _ _) h.sq1_ne] at h1
    have := (Prod.mk.inj (Except.ok.inj h1)).1
    rw [← this] at h2
    exact (of_inj.1 h2).symm
  refine ⟨_, m', T, htrain, h1, fun {r} hr Z => ⟨_, h3 hr _, ?_⟩⟩
  obtain ⟨U, hU, ht⟩ := C75_transform hc htol (by omega) hK hn Nat.one_pos () X y _ hG _ htrain Z
    (cen X Z * (cen X X)ᵀ) (by
      show (c.kern2 _ _ _).2 = _
      rw [show (c.kern1 () (of (cen X X))).1 = () from rfl, hl2]
      exact hprod _ _)
  have hU' : U = colsM (kUs c.tol (f + 1) v (cen X X * (cen X X)ᵀ) (cen y y)) :=
    (of_inj.mp ((kVars_U _ _ _ _ _).symm.trans hU)).symm
  unfold kplsPredict
  rw [ht, except_bind_ok, mul_of, except_bind_ok]
  refine (cen_undo _ _).trans (congrArg (fun A => Except.ok (of A)) ?_)
  have e : (Matrix.of fun i j => (cen X Z * (cen X X)ᵀ) i j - (∑ k, (cen X Z * (cen X X)ᵀ) i k) / (n : ℝ)) =
      cen X Z * (cen X X)ᵀ := by
    ext i j
    rw [Matrix.of_apply, hrow, zero_div, sub_zero]
  rw [e, hU', Matrix.mul_assoc, Matrix.mul_assoc, ← Matrix.mul_assoc (cen X X)ᵀ, hco, hR]
  ext i j
  rw [Subsingleton.elim j 0]
  rfl

/-! ### A concrete case with two components -/

theorem kl_W0 : pls1W dxY dxA = !![1; 0] := by
  rw [pls1W_eq]
  exact dxW

theorem kl_T0 : plsT (pls1W dxY) dxA 0 = !![1; -1; 0] := by
  show dxA * pls1W dxY dxA = _
  rw [kl_W0, dxT]

theorem kl_X1 : plsX (pls1W dxY) dxA 1 = dxA1 := by
  show deflate dxA (dxA * pls1W dxY dxA) = _
  rw [kl_W0, dxT, dxA1_eq]

theorem kl_T1 : plsT (pls1W dxY) dxA 1 = !![1/2; 1/2; -1] := by
  have h : dxA1ᵀ * dxY = dxA1ᵀ * dxY1 := by
    ext i j
    simp only [Matrix.mul_apply, Matrix.transpose_apply, Fin.sum_univ_three]
    fin_cases i <;> fin_cases j <;> (simp [dxA1, dxY, dxY1]; try norm_num)
  show plsX (pls1W dxY) dxA 1 * pls1W dxY (plsX (pls1W dxY) dxA 1) = _
  rw [kl_X1, pls1W_eq, h]
  exact (congrArg (fun A => dxA1 * A) dxW1).trans dxT1

theorem kl_regular : Regular (pls1W dxY) 2 dxA := by
  refine Regular.of_sq1 fun k hk => ?_
  rcases (by omega : k = 0 ∨ k = 1) with rfl | rfl
  · rw [kl_T0]
    simp [sq1, Fin.sum_univ_three]
  · rw [kl_T1]
    simp [sq1, Fin.sum_univ_three]
    norm_num

/-- Two start vectors of lengths two and three. -/
def klV (k : Nat) : Matrix (Fin 3) (Fin 1) ℝ := if k = 0 then !![2; 0; 0] else !![0; 0; 3]

theorem kl_start : GoodStart (1 / 1000) 2 dxA dxY klV := by
  refine ⟨fun k hk => ?_, fun k hk => ?_⟩
  · rcases (by omega : k = 0 ∨ k = 1) with rfl | rfl
    · rw [show ∑ i, klV 0 i 0 * klV 0 i 0 = 2 * 2 by simp [klV, Fin.sum_univ_three], Real.sqrt_mul_self (by norm_num)]
      norm_num
    · rw [show ∑ i, klV 1 i 0 * klV 1 i 0 = 3 * 3 by simp [klV, Fin.sum_univ_three], Real.sqrt_mul_self (by norm_num)]
      norm_num
  · rcases (by omega : k = 0 ∨ k = 1) with rfl | rfl
    · rw [kl_T0]
      simp [klV, Fin.sum_univ_three]
    · rw [kl_T1]
      simp [klV, Fin.sum_univ_three]

theorem kl_cenX : cen dxA dxA = dxA := cen_of_zero dxA fun j => by
  rw [Fin.sum_univ_three]
  fin_cases j <;> (simp [dxA]; try norm_num)

theorem kl_cenY : cen dxY dxY = dxY := cen_of_zero dxY fun j => by
  rw [Fin.sum_univ_three]
  fin_cases j
  simp [dxY]

/-- KernelPLS with the linear kernel and two components. -/
noncomputable def klCfg (maxIter : Int) (lstsq : Mat ℝ → Except PyErr (Mat ℝ)) : KplsCfg ℝ Unit where
  K := 2
  tol := 1 / 1000
  maxIter := maxIter
  kern1 _ X := ((), linearMatrix X none)
  kern2 _ X Y := ((), linearMatrix X (some Y))
  start _ k := .ok (of (klV k.toNat))
  lt a b := decide (a < b)
  inv := inverse lstsq

/-! The hypotheses are met by data with two components. -/
example (lstsq : Mat ℝ → Except PyErr (Mat ℝ)) :=
  C101_linear_kernel (c := klCfg 10 lstsq) (v := klV) ⟨fun _ _ => rfl, fun _ => rfl⟩ (fun _ => rfl) (fun _ _ => rfl)
    (by norm_num [klCfg]) (by norm_num [klCfg]) (K := 2) rfl (by decide) (by decide) (by decide) dxA dxY lstsq rfl
    (by rw [kl_cenX, kl_cenY]; exact kl_regular) (by rw [kl_cenX, kl_cenY]; exact kl_start)

end Verif.Props
