import Verif.Props.DiplsProps
import Verif.Props.PLS1Props
import Verif.Alg.PlsEquiv

/-!
# C100: DIPLS without a domain shift is PLS1
-/

namespace Verif.Props

open Verif Mat Transf
open scoped Matrix

variable {n s t s' t' p : Nat}

/-- Where the penalty matrix is the identity at every component, the run of DIPLS is a run of PLS1. -/
theorem dipls_pls1 {lam : ℝ} {ns nt K : Nat} {S : DState n s' t' p}
    (h : ∀ k < K, DReg lam ns nt (dSt lam ns nt S k)) (hM : ∀ k < K, dM lam ns nt (dSt lam ns nt S k) = 1) :
    (∀ k ≤ K, (dSt lam ns nt S k).X = plsX (pls1W S.y) S.X k) ∧
    ∀ k < K, dW lam ns nt (dSt lam ns nt S k) = plsW (pls1W S.y) S.X k ∧ sq1 (plsT (pls1W S.y) S.X k) ≠ 0 ∧
      dC (dSt lam ns nt S k) (plsT (pls1W S.y) S.X k) = plsB (pls1W S.y) S.X S.y k := by
  have key : ∀ k ≤ K, (dSt lam ns nt S k).X = plsX (pls1W S.y) S.X k ∧
      (dSt lam ns nt S k).y = S.y - ∑ j ∈ Finset.range k, plsB (pls1W S.y) S.X S.y j • plsT (pls1W S.y) S.X j ∧
      ∀ j < k, dW lam ns nt (dSt lam ns nt S j) = plsW (pls1W S.y) S.X j ∧ sq1 (plsT (pls1W S.y) S.X j) ≠ 0 ∧
        dC (dSt lam ns nt S j) (plsT (pls1W S.y) S.X j) = plsB (pls1W S.y) S.X S.y j := by
    intro k
    induction k with
    | zero => exact fun _ => ⟨rfl, by simp [dSt], fun j hj => by omega⟩
    | succ k ih =>
      intro hk
      obtain ⟨hX, hy, hrest⟩ := ih (by omega)
      have hk' : k < K := by omega
      have hr := h k hk'
      have hcov : (dSt lam ns nt S k).Xᵀ * (dSt lam ns nt S k).y = (plsX (pls1W S.y) S.X k)ᵀ * S.y := by
        rw [hX, hy, Matrix.mul_sub, Matrix.mul_sum, Finset.sum_eq_zero, sub_zero]
        intro j hj
        have hj := Finset.mem_range.1 hj
        obtain ⟨d, rfl⟩ : ∃ d, k = j + d + 1 := ⟨k - j - 1, by omega⟩
        have h2 := congrArg Matrix.transpose
          (plsT_orth_X (pls1W S.y) S.X j d fun l hl => (hrest l (by omega)).2.1)
        rw [Matrix.transpose_mul, Matrix.transpose_transpose, Matrix.transpose_zero] at h2
        rw [Matrix.mul_smul, h2, smul_zero]
      have hW : dW lam ns nt (dSt lam ns nt S k) = plsW (pls1W S.y) S.X k := by
        rw [dW, dRaw, hM k hk', inv_one, Matrix.mul_one, Matrix.transpose_smul, Matrix.transpose_mul,
          Matrix.transpose_transpose, hcov,
          nrm_smul (inv_pos.2 (lt_of_le_of_ne (sq1_nonneg _) (Ne.symm hr.y))), plsW, pls1W_eq]
        rfl
      have hT : (dSt lam ns nt S k).X * dW lam ns nt (dSt lam ns nt S k) = plsT (pls1W S.y) S.X k := by
        rw [hX, hW]; rfl
      have ht : sq1 (plsT (pls1W S.y) S.X k) ≠ 0 := by rw [← hT]; exact hr.t
      have hB : dC (dSt lam ns nt S k) (plsT (pls1W S.y) S.X k) = plsB (pls1W S.y) S.X S.y k := by
        rw [dC, plsB]
        congr 1
        have e : ∀ z : Matrix (Fin n) (Fin 1) ℝ, ∑ l, plsT (pls1W S.y) S.X k l 0 * z l 0 =
            ((plsT (pls1W S.y) S.X k)ᵀ * z) 0 0 := fun z => by rw [Matrix.mul_apply]; rfl
        rw [e, e, hy, Matrix.mul_sub, Matrix.mul_sum, Finset.sum_eq_zero, sub_zero]
        intro j hj
        have hj := Finset.mem_range.1 hj
        have h2 := congrArg Matrix.transpose
          (plsT_orth (pls1W S.y) S.X j k hj fun l hl => (hrest l (by omega)).2.1)
        rw [Matrix.transpose_mul, Matrix.transpose_transpose, Matrix.transpose_zero] at h2
        rw [Matrix.mul_smul, h2, smul_zero]
      refine ⟨?_, ?_, fun j hj => ?_⟩
      · show deflate (dSt lam ns nt S k).X ((dSt lam ns nt S k).X * dW lam ns nt (dSt lam ns nt S k)) = _
        rw [hT, hX]
        rfl
      · show (dSt lam ns nt S k).y - dC (dSt lam ns nt S k)
          ((dSt lam ns nt S k).X * dW lam ns nt (dSt lam ns nt S k)) •
          ((dSt lam ns nt S k).X * dW lam ns nt (dSt lam ns nt S k)) = _
        rw [hT, hB, hy, Finset.sum_range_succ, ← sub_sub]
      · rcases (by omega : j < k ∨ j = k) with hj | rfl
        · exact hrest j hj
        · exact ⟨hW, ht, hB⟩
  exact ⟨fun k hk => (key k hk).1, fun k hk => (key K le_rfl).2.2 k hk⟩

/-- The regression coefficients of DIPLS are then those of PLS1. -/
theorem dB_pls1 {lam : ℝ} {ns nt K : Nat} {S : DState n s' t' p}
    (h : ∀ k < K, DReg lam ns nt (dSt lam ns nt S k)) (hM : ∀ k < K, dM lam ns nt (dSt lam ns nt S k) = 1) :
    dB lam ns nt K S = plsWM (pls1W S.y) K S.X *
      ((plsPM (pls1W S.y) K S.X)ᵀ * plsWM (pls1W S.y) K S.X)⁻¹ * plsBM (pls1W S.y) K S.X S.y := by
  obtain ⟨hX, hr⟩ := dipls_pls1 h hM
  have hT : ∀ k < K, (dSt lam ns nt S k).X * dW lam ns nt (dSt lam ns nt S k) = plsT (pls1W S.y) S.X k := fun k hk => by
    rw [hX k (by omega), (hr k hk).1]; rfl
  have h1 : dWM lam ns nt K S = plsWM (pls1W S.y) K S.X := by
    ext i j
    exact congrFun (congrFun (hr j.1 j.2).1 i) 0
  have h2 : dPM lam ns nt K S = plsPM (pls1W S.y) K S.X := by
    ext i j
    simp only [dPM, plsPM, Matrix.of_apply]
    rw [hT j.1 j.2, hX j.1 (by have := j.2; omega)]
    rfl
  have h3 : dCM lam ns nt K S = plsBM (pls1W S.y) K S.X S.y := by
    ext j i
    simp only [dCM, plsBM, Matrix.of_apply]
    rw [hT j.1 j.2, (hr j.1 j.2).2.2]
  rw [dB, h1, h2, h3]

/-- The covariance of the rows, divided by their number less one. -/
noncomputable def covOf {m : Nat} (A : Matrix (Fin m) (Fin p) ℝ) : Matrix (Fin p) (Fin p) ℝ :=
  (1 / ((m : ℝ) - 1)) • ((cen A A)ᵀ * cen A A)

/-- Deflation acts on the products. -/
theorem gram_deflate {m : Nat} (A : Matrix (Fin m) (Fin p) ℝ) (w : Matrix (Fin p) (Fin 1) ℝ) (h : sq1 (A * w) ≠ 0) :
    (deflate A (A * w))ᵀ * deflate A (A * w) =
      Aᵀ * A - (sq1 (A * w))⁻¹ • ((Aᵀ * A * w) * (Aᵀ * A * w)ᵀ) := by
  have h1 : (A * w)ᵀ * deflate A (A * w) = 0 := score_deflate A (A * w) h
  have h2 : (deflate A (A * w))ᵀ * deflate A (A * w) = Aᵀ * deflate A (A * w) := by
    conv_lhs => rw [show (deflate A (A * w))ᵀ = Aᵀ - loading A (A * w) * (A * w)ᵀ by
      rw [deflate, Matrix.transpose_sub, Matrix.transpose_mul, Matrix.transpose_transpose]]
    rw [Matrix.sub_mul, Matrix.mul_assoc _ (A * w)ᵀ, h1, Matrix.mul_zero, sub_zero]
  rw [h2, deflate_eq, Matrix.mul_sub, Matrix.mul_smul]
  congr 2
  rw [Matrix.transpose_mul, Matrix.transpose_mul, Matrix.transpose_mul, Matrix.transpose_transpose]
  simp only [Matrix.mul_assoc]

/-- Equal covariances stay equal. -/
theorem cov_stays {lam a b : ℝ} (ha : a ≠ 0) (hb : b ≠ 0) {ns nt : Nat} {S : DState n s' t' p} (hr : DReg lam ns nt S)
    (h : a • (S.Xsᵀ * S.Xs) = b • (S.Xtᵀ * S.Xt)) :
    a • ((dNext lam ns nt S).Xsᵀ * (dNext lam ns nt S).Xs) =
      b • ((dNext lam ns nt S).Xtᵀ * (dNext lam ns nt S).Xt) := by
  show a • ((deflate S.Xs (S.Xs * dW lam ns nt S))ᵀ * deflate S.Xs (S.Xs * dW lam ns nt S)) =
    b • ((deflate S.Xt (S.Xt * dW lam ns nt S))ᵀ * deflate S.Xt (S.Xt * dW lam ns nt S))
  rw [gram_deflate _ _ hr.ts, gram_deflate _ _ hr.tt, smul_sub, smul_sub, h]
  congr 1
  have q : ∀ {m : Nat} (A : Matrix (Fin m) (Fin p) ℝ), sq1 (A * dW lam ns nt S) =
      ((dW lam ns nt S)ᵀ * (Aᵀ * A * dW lam ns nt S)) 0 0 := fun A => by
    rw [← sq1_eq, Matrix.transpose_mul]; simp only [Matrix.mul_assoc]
  have hG : S.Xsᵀ * S.Xs = (a⁻¹ * b) • (S.Xtᵀ * S.Xt) := by
    rw [mul_smul, ← h, smul_smul, inv_mul_cancel₀ ha, one_smul]
  have hc : a⁻¹ * b ≠ 0 := mul_ne_zero (inv_ne_zero ha) hb
  have hsq : sq1 (S.Xs * dW lam ns nt S) = (a⁻¹ * b) * sq1 (S.Xt * dW lam ns nt S) := by
    rw [q, q, hG, Matrix.smul_mul, Matrix.mul_smul, Matrix.smul_apply, smul_eq_mul]
  rw [hsq, hG, Matrix.smul_mul, Matrix.transpose_smul, Matrix.smul_mul, Matrix.mul_smul, smul_smul, smul_smul, smul_smul,
    smul_smul]
  congr 1
  have := hr.tt
  field_simp

/-- No domain shift: source and target have the same covariance (or the penalty is zero, which the setter of `lambda_`
does not accept). -/
def NoShift (lam : ℝ) (Xs : Matrix (Fin s) (Fin p) ℝ) (Xt : Matrix (Fin t) (Fin p) ℝ) : Prop :=
  lam = 0 ∨ covOf Xs = covOf Xt

theorem dM_one {lam : ℝ} {K : Nat} {S : DState n s t p} (hs : 2 ≤ s) (ht : 2 ≤ t)
    (h : ∀ k < K, DReg lam s t (dSt lam s t S k))
    (h0 : lam = 0 ∨ (1 / ((s : ℝ) - 1)) • (S.Xsᵀ * S.Xs) = (1 / ((t : ℝ) - 1)) • (S.Xtᵀ * S.Xt)) :
    ∀ k < K, dM lam s t (dSt lam s t S k) = 1 := by
  intro k hk
  rcases h0 with h0 | h0
  · rw [dM, h0, zero_div, zero_smul, add_zero]
  · have pos : ∀ m : Nat, 2 ≤ m → (1 / ((m : ℝ) - 1)) ≠ 0 := fun m hm => by
      have : (2 : ℝ) ≤ m := by exact_mod_cast hm
      exact (one_div_pos.2 (by linarith)).ne'
    have : ∀ j ≤ k, (1 / ((s : ℝ) - 1)) • ((dSt lam s t S j).Xsᵀ * (dSt lam s t S j).Xs) =
        (1 / ((t : ℝ) - 1)) • ((dSt lam s t S j).Xtᵀ * (dSt lam s t S j).Xt) := by
      intro j
      induction j with
      | zero => exact fun _ => h0
      | succ j ih => exact fun hj => cov_stays (pos s hs) (pos t ht) (h j (by omega)) (ih (by omega))
    rw [dM, this k le_rfl, sub_self, smul_zero, add_zero]

/-- **C100 (supervised).** Without a domain shift DIPLS is PLS1 on the centred rows of both domains: for all new data
its predictions are those of PLS1 for the data centred with the training means, plus the mean of the response. -/
theorem C100_supervised {cfg : DiplsCfg ℝ} (hinv : IsInv cfg.inv) (hs : 2 ≤ s) (ht : 2 ≤ t) (hp : 0 < p) (K : Nat)
    (hK : 0 < K) (hcfg : cfg.K = K) (Xs : Matrix (Fin s) (Fin p) ℝ) (Xt : Matrix (Fin t) (Fin p) ℝ)
    (ys : Matrix (Fin s) (Fin 1) ℝ) (yt : Matrix (Fin t) (Fin 1) ℝ)
    (h : ∀ k < K, DReg cfg.lambda s t (dSt cfg.lambda s t (supState Xs Xt ys yt) k))
    (h0 : NoShift cfg.lambda Xs Xt) :
    ∃ (m : DiplsModel ℝ) (m' : Pls1Model ℝ) (T : Mat ℝ),
      diplsSupervised cfg diplsFresh (of Xs) (of Xt) (of ys) (of yt) = .ok (.trained m) ∧
      pls1Train pls1Weights K (of (cen (stack Xs Xt) (stack Xs Xt))) (of (cen (stack ys yt) (stack ys yt))) =
        .ok (m', T) ∧
      ∀ {r : Nat}, 0 < r → ∀ Z : Matrix (Fin r) (Fin p) ℝ, ∃ F : Matrix (Fin r) (Fin 1) ℝ,
        pls1Predict K m' (of (cen (stack Xs Xt) Z)) = .ok (of F) ∧
        diplsPredict m (of Z) = .ok (of (Matrix.of fun i j => F i j + mu fun i => stack ys yt i 0)) := by
  have hM := dM_one (S := supState Xs Xt ys yt) hs ht h h0
  have hr := (dipls_pls1 h hM).2
  have hreg : Regular (pls1W (cen (stack ys yt) (stack ys yt))) K (cen (stack Xs Xt) (stack Xs Xt)) :=
    Regular.of_sq1 fun k hk => (hr k hk).2.1
  obtain ⟨m', T, R, h1, h2, h3⟩ := C50_linear (show 0 < s + t by omega) hp hK _ (pls1_computes _) hreg
  refine ⟨_, m', T, C59_supervised hinv diplsFresh ⟨rfl, rfl, rfl⟩ hs ht K hK hcfg Xs Xt ys yt h, h1, fun hr' Z => ?_⟩
  refine ⟨_, h3 hr' _, ?_⟩
  rw [C78_predict]
  have hR : R = dB cfg.lambda s t K (supState Xs Xt ys yt) := by
    rw [dB_pls1 h hM]
    rw [pls1Train_eq (pls1W _) pls1Weights K (show 0 < s + t by omega) hp hK _ _ (fun k _ => pls1_computes _ _)
      hreg.sq1_ne] at h1
    have := (Prod.mk.inj (Except.ok.inj h1)).1
    rw [← this] at h2
    exact (of_inj.1 h2).symm
  rw [hR]
  rfl

/-- **C100 (unsupervised).** Without a domain shift DIPLS is PLS1 on the centred source rows; new data is centred with
the means of the target rows. -/
theorem C100_unsupervised {cfg : DiplsCfg ℝ} (hinv : IsInv cfg.inv) (hs : 2 ≤ s) (ht : 2 ≤ t) (hp : 0 < p) (K : Nat)
    (hK : 0 < K) (hcfg : cfg.K = K) (Xs : Matrix (Fin s) (Fin p) ℝ) (Xt : Matrix (Fin t) (Fin p) ℝ)
    (ys : Matrix (Fin s) (Fin 1) ℝ)
    (h : ∀ k < K, DReg cfg.lambda s t (dSt cfg.lambda s t (unsupState Xs Xt ys) k))
    (h0 : NoShift cfg.lambda Xs Xt) :
    ∃ (m : DiplsModel ℝ) (m' : Pls1Model ℝ) (T : Mat ℝ),
      diplsUnsupervised cfg diplsFresh (of Xs) (of Xt) (of ys) = .ok (.trained m) ∧
      pls1Train pls1Weights K (of (cen Xs Xs)) (of (cen ys ys)) = .ok (m', T) ∧
      ∀ {r : Nat}, 0 < r → ∀ Z : Matrix (Fin r) (Fin p) ℝ, ∃ F : Matrix (Fin r) (Fin 1) ℝ,
        pls1Predict K m' (of (cen Xt Z)) = .ok (of F) ∧
        diplsPredict m (of Z) = .ok (of (Matrix.of fun i j => F i j + mu fun i => ys i 0)) := by
  have hM := dM_one (S := unsupState Xs Xt ys) hs ht h h0
  have hr := (dipls_pls1 h hM).2
  have hreg : Regular (pls1W (cen ys ys)) K (cen Xs Xs) := Regular.of_sq1 fun k hk => (hr k hk).2.1
  obtain ⟨m', T, R, h1, h2, h3⟩ := C50_linear (show 0 < s by omega) hp hK _ (pls1_computes _) hreg
  refine ⟨_, m', T, C59_unsupervised hinv diplsFresh ⟨rfl, rfl, rfl⟩ hs ht K hK hcfg Xs Xt ys h, h1, fun hr' Z => ?_⟩
  refine ⟨_, h3 hr' _, ?_⟩
  rw [C78_predict]
  have hR : R = dB cfg.lambda s t K (unsupState Xs Xt ys) := by
    rw [dB_pls1 h hM]
    rw [pls1Train_eq (pls1W _) pls1Weights K (show 0 < s by omega) hp hK _ _ (fun k _ => pls1_computes _ _)
      hreg.sq1_ne] at h1
    have := (Prod.mk.inj (Except.ok.inj h1)).1
    rw [← this] at h2
    exact (of_inj.1 h2).symm
  rw [hR]
  rfl

/-! A concrete case: source and target alike, any penalty. -/
example (lam : ℝ) := C100_supervised (exactCfg_inv 2 lam) (by decide) (by decide) (by decide) 2 (by decide) rfl dxA dxA
  dxY dxY (dx_reg lam) (Or.inr rfl)

end Verif.Props
