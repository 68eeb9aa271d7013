import Verif.Props.ClutterUnits
import Verif.Props.PlsMoments
import Verif.Props.PcaInvariance
import Verif.Props.NipalsProps
import Verif.Props.KernelLinear
import Verif.Props.TransfProps

/-!
# C162 — entering every sample the same number of times

`f : Fin n' → Fin n` says which sample each row of the longer data set is; every sample occurs `m` times.
-/

namespace Verif.Props
open Verif Verif.Mat Verif.Transf
open scoped Matrix

variable {n n' p m : Nat} {f : Fin n' → Fin n}

/-- The factor of the standard deviations, which divide by the number of samples minus one. -/
noncomputable def repFactor (m n : Nat) : ℝ := Real.sqrt (m * (n - 1) / (m * n - 1))

theorem repFactor_pos (hm : 0 < m) (hn : 2 ≤ n) : 0 < repFactor m n := by
  have h1 : (1 : ℝ) ≤ m := by exact_mod_cast hm
  have h2 : (2 : ℝ) ≤ n := by exact_mod_cast hn
  refine Real.sqrt_pos.2 (div_pos (by nlinarith) (by nlinarith))

theorem repFactor_lt (hm : 2 ≤ m) (hn : 2 ≤ n) : repFactor m n < 1 := by
  have h1 : (2 : ℝ) ≤ m := by exact_mod_cast hm
  have h2 : (2 : ℝ) ≤ n := by exact_mod_cast hn
  rw [repFactor, Real.sqrt_lt' one_pos, one_pow, div_lt_one (by nlinarith)]
  linarith

theorem sd_repeat (hm : 0 < m) (hn : 2 ≤ n) (hf : ∀ i, (Finset.univ.filter fun j => f j = i).card = m) (g : Fin n → ℝ) :
    (sd fun j => g (f j)) = repFactor m n * sd g := by
  have hc : n' = m * n := by exact_mod_cast card_repeat hf
  have h1 : 1 ≤ m * n := Nat.mul_pos hm (by omega)
  unfold sd repFactor
  rw [mu_repeat hm hf, sum_repeat hf fun i => (g i - mu g) ^ 2, ← Real.sqrt_mul' _ (by positivity)]
  congr 1
  rw [hc, Nat.cast_sub h1, Nat.cast_sub (by omega : 1 ≤ n)]
  push_cast
  have e1 : (n : ℝ) - 1 ≠ 0 := by
    have h2 : (2 : ℝ) ≤ n := by exact_mod_cast hn
    linarith
  field_simp

theorem divisor_repeat (hm : 0 < m) (hn : 2 ≤ n) (hf : ∀ i, (Finset.univ.filter fun j => f j = i).card = m)
    (A : Matrix (Fin n) (Fin p) ℝ) (hA : ∀ j, (sd fun k => A k j) ≠ 0) (j : Fin p) :
    divisor (A.submatrix f id) j = repFactor m n * divisor A j := by
  have e : (sd fun k => (A.submatrix f id) k j) = repFactor m n * sd fun k => A k j := sd_repeat hm hn hf fun k => A k j
  unfold divisor
  rw [e, if_neg fun h => (mul_ne_zero (repFactor_pos hm hn).ne' (hA j)) h.2, if_neg fun h => hA j h.2]

theorem std_repeat (hm : 0 < m) (hn : 2 ≤ n) (hf : ∀ i, (Finset.univ.filter fun j => f j = i).card = m)
    (A : Matrix (Fin n) (Fin p) ℝ) (hA : ∀ j, (sd fun k => A k j) ≠ 0) {r : Nat} (B : Matrix (Fin r) (Fin p) ℝ) :
    std (A.submatrix f id) B = (repFactor m n)⁻¹ • std A B := by
  ext i j
  simp only [std, Matrix.of_apply, Matrix.smul_apply, smul_eq_mul]
  rw [divisor_repeat hm hn hf A hA, div_mul_eq_div_div_swap, div_eq_inv_mul _ (repFactor m n)]
  congr 3
  exact mu_repeat hm hf fun k => A k j

/-- **C162 (Center, Standardize).** The centred new data are the same; the standardised ones are multiplied by a factor larger than one that depends
only on the numbers of samples and is the same for all columns. -/
theorem C162_transformations (hm : 0 < m) (hn : 2 ≤ n) (hf : ∀ i, (Finset.univ.filter fun j => f j = i).card = m) {r : Nat}
    (A : Matrix (Fin n) (Fin (p + 1)) ℝ) (hA : ∀ j, (sd fun k => A k j) ≠ 0) (B : Matrix (Fin r) (Fin (p + 1)) ℝ) :
    (∃ C : Matrix (Fin r) (Fin (p + 1)) ℝ, (transform center (of B) (centerOn A)).2 = .ok (of C) ∧
      (transform center (of B) (centerOn (A.submatrix f id))).2 = .ok (of C)) ∧
    ∃ C : Matrix (Fin r) (Fin (p + 1)) ℝ, (transform (standardize isZeroR) (of B) (standardizeOn A)).2 = .ok (of C) ∧
      (transform (standardize isZeroR) (of B) (standardizeOn (A.submatrix f id))).2 = .ok (of ((repFactor m n)⁻¹ • C)) := by
  constructor
  · obtain ⟨C, h1, h2, -⟩ := C27_center A B
    obtain ⟨C', h1', h2', -⟩ := C27_center (A.submatrix f id) B
    refine ⟨C, h1, h1'.trans ?_⟩
    rw [ok_inj]
    refine mk_congr fun i j => ?_
    rw [h2, h2']
    congr 1
    exact mu_repeat hm hf fun k => A k j
  · obtain ⟨C, h1, h2⟩ := C28_standardize A B
    obtain ⟨C', h1', h2'⟩ := C28_standardize (A.submatrix f id) B
    refine ⟨C, h1, h1'.trans ?_⟩
    rw [ok_inj]
    refine mk_congr fun i j => ?_
    have e : ∀ l, (sd fun k => (A.submatrix f id) k l) = repFactor m n * sd fun k => A k l := fun l => sd_repeat hm hn hf fun k => A k l
    rw [h2', Matrix.smul_apply, smul_eq_mul, h2, e, e, if_neg fun h => (mul_ne_zero (repFactor_pos hm hn).ne' (hA 0)) h.2,
      if_neg fun h => hA 0 h.2, div_mul_eq_div_div_swap, div_eq_inv_mul _ (repFactor m n)]
    congr 3
    exact mu_repeat hm hf fun k => A k j

/-- **C162 (what STANDARDIZE should do).** Predictors standardised like the training data and the response transformed back: the factors cancel. -/
theorem C162_right_prediction (hm : 0 < m) (hn : 2 ≤ n) (hf : ∀ i, (Finset.univ.filter fun j => f j = i).card = m) {q r : Nat}
    (A : Matrix (Fin n) (Fin p) ℝ) (hA : ∀ j, (sd fun k => A k j) ≠ 0) (Y : Matrix (Fin n) (Fin q) ℝ) (R : Matrix (Fin p) (Fin q) ℝ)
    (Z : Matrix (Fin r) (Fin p) ℝ) :
    rightPrediction .standardize (A.submatrix f id) (Y.submatrix f id) R Z = rightPrediction .standardize A Y R Z := by
  ext i j
  have hφ := (repFactor_pos hm hn).ne'
  have e1 : (sd fun k => (Y.submatrix f id) k j) = repFactor m n * sd fun k => Y k j := sd_repeat hm hn hf fun k => Y k j
  have e2 : (mu fun k => (Y.submatrix f id) k j) = mu fun k => Y k j := mu_repeat hm hf fun k => Y k j
  have e3 : ∀ l, (mu fun k => (A.submatrix f id) k l) = mu fun k => A k l := fun l => mu_repeat hm hf fun k => A k l
  simp only [rightPrediction, Matrix.of_apply]
  rw [e1, e2]
  simp only [e3, divisor_repeat hm hn hf A hA]
  congr 1
  rw [← mul_assoc, Finset.sum_mul]
  congr 1
  refine Finset.sum_congr rfl fun l _ => ?_
  by_cases h0 : divisor A l = 0
  · rw [h0, mul_zero, div_zero, zero_mul, zero_mul]
  · field_simp

/-- **C162 (PLS1 with STANDARDIZE, violated).** Since the predictors are not standardised at prediction, the factor does not cancel: entering every
sample `m ≥ 2` times pulls every prediction towards the mean of the response. -/
theorem C162_standardize_violation (isZero : ℝ → Bool) (hz : ∀ x, isZero x = true ↔ x = 0) (hm : 2 ≤ m) (hn : 2 ≤ n)
    (hf : ∀ i, (Finset.univ.filter fun j => f j = i).card = m) {K : Nat} (hK : 0 < K)
    (A : Matrix (Fin n) (Fin (p + 1)) ℝ) (hA : ∀ j, (sd fun k => A k j) ≠ 0) (y : Matrix (Fin n) (Fin 1) ℝ) (hy : (sd fun k => y k 0) ≠ 0)
    (hr : Regular (pls1W (std y y)) K (std A A)) :
    ∃ s s', singleTrain isZero (pls1Base K) .standardize (of A) (of y) = .ok s ∧
      singleTrain isZero (pls1Base K) .standardize (of (A.submatrix f id)) (of (y.submatrix f id)) = .ok s' ∧
      ∀ {r : Nat}, 0 < r → ∀ Z : Matrix (Fin r) (Fin (p + 1)) ℝ, ∃ F F' : Matrix (Fin r) (Fin 1) ℝ,
        singlePredict (fun m Z => pls1Predict K m Z) s (of Z) = .ok (of F) ∧ singlePredict (fun m Z => pls1Predict K m Z) s' (of Z) = .ok (of F') ∧
        ∀ i, F' i 0 - (mu fun k => y k 0) = repFactor m n * (F i 0 - mu fun k => y k 0) ∧ (F i 0 ≠ (mu fun k => y k 0) → F' i 0 ≠ F i 0) := by
  have hm0 : 0 < m := by omega
  have hφ := repFactor_pos hm0 hn
  have hn' : 0 < n' := by
    have hc : n' = m * n := by exact_mod_cast card_repeat hf
    rw [hc]
    exact Nat.mul_pos hm0 (by omega)
  have eA : std (A.submatrix f id) (A.submatrix f id) = ((repFactor m n)⁻¹ • std A A).submatrix f id := by
    rw [std_repeat hm0 hn hf A hA]
    rfl
  have hy' : ∀ j : Fin 1, (sd fun k => y k j) ≠ 0 := fun j => by
    rw [Subsingleton.elim j 0]
    exact hy
  have ey : std (y.submatrix f id) (y.submatrix f id) = ((repFactor m n)⁻¹ • std y y).submatrix f id := by
    rw [std_repeat hm0 hn hf y hy']
    rfl
  have hc : (0 : ℝ) < m * ((repFactor m n)⁻¹ * (repFactor m n)⁻¹) := by positivity
  have hmul : ∀ {q : Nat} (B : Matrix (Fin n) (Fin q) ℝ), (((repFactor m n)⁻¹ • std A A).submatrix f id)ᵀ * ((repFactor m n)⁻¹ • B).submatrix f id =
      (m * ((repFactor m n)⁻¹ * (repFactor m n)⁻¹)) • ((std A A)ᵀ * B) := by
    intro q B
    rw [mul_repeat hf, Matrix.transpose_smul, Matrix.smul_mul, Matrix.mul_smul, smul_smul, smul_smul, mul_assoc]
  obtain ⟨b, T, T', h, h'⟩ := C128_pls1 (by omega) hn' (Nat.succ_pos p) hK hc (std A A) (std y y) _ _ (hmul (std A A)) (hmul (std y y)) hr
  have ht : pls1Base K (of (std A A)) (of (std y y)) = .ok b := by simp only [pls1Base, h]; rfl
  have ht' : pls1Base K (of (std (A.submatrix f id) (A.submatrix f id))) (of (std (y.submatrix f id) (y.submatrix f id))) = .ok b := by
    rw [eA, ey]
    simp only [pls1Base, h']
    rfl
  obtain ⟨s, g1, g2⟩ := C51_standardize_value (pls1Base K) (fun m Z => pls1Predict K m Z) isZero hz A y b ht
  obtain ⟨s', g1', g2'⟩ := C51_standardize_value (pls1Base K) (fun m Z => pls1Predict K m Z) isZero hz _ _ b ht'
  obtain ⟨b', T'', R, k1, -, k3, -⟩ := C50_pls1 (by omega) (Nat.succ_pos p) hK (std A A) (std y y) hr
  have hb : b' = b := by
    rw [h] at k1
    injection k1 with k1
    exact (congrArg Prod.fst k1).symm
  subst hb
  refine ⟨s, s', g1, g1', fun {r} hr0 Z => ⟨_, _, g2 Z _ (k3 hr0 Z), g2' Z _ (k3 hr0 Z), fun i => ?_⟩⟩
  have e1 : (sd fun k => (y.submatrix f id) k 0) = repFactor m n * sd fun k => y k 0 := sd_repeat hm0 hn hf fun k => y k 0
  have e2 : (mu fun k => (y.submatrix f id) k 0) = mu fun k => y k 0 := mu_repeat hm0 hf fun k => y k 0
  simp only [Matrix.of_apply]
  rw [e1, e2]
  have key : (Z * R) i 0 * (repFactor m n * sd fun k => y k 0) + (mu fun k => y k 0) - (mu fun k => y k 0) =
      repFactor m n * ((Z * R) i 0 * (sd fun k => y k 0) + (mu fun k => y k 0) - mu fun k => y k 0) := by ring
  refine ⟨key, fun hne he => hne ?_⟩
  rw [he] at key
  have h1 := repFactor_lt hm hn
  have h2 : (1 - repFactor m n) * ((Z * R) i 0 * (sd fun k => y k 0) + (mu fun k => y k 0) - mu fun k => y k 0) = 0 := by linear_combination key
  exact sub_eq_zero.1 ((mul_eq_zero.1 h2).resolve_left (by linarith))

/-- **C162 (SIMPLS).** The predictions of SIMPLS are the same. -/
theorem C162_simpls {eig : Mat ℝ → Mat ℝ × Mat ℝ} (he : EigOne eig) (hm : 0 < m) (hn : 0 < n) (hp : 0 < p)
    (hf : ∀ i, (Finset.univ.filter fun j => f j = i).card = m) {K : Nat} (hK : 0 < K) {count : Int} (hcount : count ≤ 0)
    (A : Matrix (Fin n) (Fin p) ℝ) (y : Matrix (Fin n) (Fin 1) ℝ) (hr : Regular (pls1W y) K A) :
    ∃ b b' : SimplsModel ℝ, simplsTrain (domOf eig) K count (of A) (of y) = .ok b ∧
      simplsTrain (domOf eig) K count (of (A.submatrix f id)) (of (y.submatrix f id)) = .ok b' ∧
      ∀ (r : Nat), 0 < r → ∀ Z : Matrix (Fin r) (Fin p) ℝ, ∃ F : Matrix (Fin r) (Fin 1) ℝ,
        simplsPredict b (of Z) = .ok (of F) ∧ simplsPredict b' (of Z) = .ok (of F) := by
  have hn' : 0 < n' := by
    have hc : n' = m * n := by exact_mod_cast card_repeat hf
    rw [hc]
    exact Nat.mul_pos hm hn
  exact C128_simpls_scaled he hn hn' hp hK hcount (Nat.cast_pos.2 hm) A y _ _ (mul_repeat hf A A) (mul_repeat hf A y) hr

theorem clutter_repeat (hm : 0 < m) (hf : ∀ i, (Finset.univ.filter fun j => f j = i).card = m) (A B : Matrix (Fin n) (Fin p) ℝ) :
    clutterCov (A.submatrix f id) (B.submatrix f id) =
      clutterCov (Real.sqrt m • (A * (1 : Matrix (Fin p) (Fin p) ℝ))) (Real.sqrt m • (B * (1 : Matrix (Fin p) (Fin p) ℝ))) := by
  rw [clutter_turn, Real.sq_sqrt (Nat.cast_nonneg m), Matrix.transpose_one, Matrix.one_mul, Matrix.mul_one]
  ext j k
  have hA : ∀ (M : Matrix (Fin n) (Fin p) ℝ) l, (∑ i, (M.submatrix f id) i l) / (n' : ℝ) = (∑ i, M i l) / n := fun M l =>
    mu_repeat hm hf fun i => M i l
  rw [Matrix.smul_apply, smul_eq_mul]
  simp only [clutterCov, Matrix.of_apply, centredDiff, hA]
  exact sum_repeat hf fun i => ((B i j - (∑ k, B k j) / n) - (A i j - (∑ k, A k j) / n)) * ((B i k - (∑ l, B l k) / n) - (A i k - (∑ l, A l k) / n))

/-- **C162 (GLSW).** With eigenvalues listed in descending order the filter is the same for `alpha` multiplied by the square of the number of
repetitions. -/
theorem C162_glsw_partial (cfg cfg' : GlswCfg ℝ) (ha : 0 < cfg.alpha) (hm : 0 < m) (ha' : cfg'.alpha = (m : ℝ) ^ 2 * cfg.alpha) (hp : p ≠ 0)
    (hf : ∀ i, (Finset.univ.filter fun j => f j = i).card = m) (A B : Matrix (Fin n) (Fin p) ℝ) (ev ev' : Fin p → ℝ)
    (V V' : Matrix (Fin p) (Fin p) ℝ) (s s' : Fin p → ℝ)
    (h : Solved cfg (clutterCov A B) ev V s) (ho : OrthoEig (clutterCov A B) ev V) (hd : Antitone ev)
    (h' : Solved cfg' (clutterCov (A.submatrix f id) (B.submatrix f id)) ev' V' s')
    (ho' : OrthoEig (clutterCov (A.submatrix f id) (B.submatrix f id)) ev' V') (hd' : Antitone ev') :
    glswFit cfg' (of (A.submatrix f id)) (of (B.submatrix f id)) = glswFit cfg (of A) (of B) := by
  have e := clutter_repeat hm hf A B
  rw [e] at h' ho'
  rw [(fit_congr cfg' _ _ _ _ e).1]
  have hs : (0 : ℝ) < Real.sqrt m := Real.sqrt_pos.2 (Nat.cast_pos.2 hm)
  have h4 : cfg'.alpha = Real.sqrt m ^ 4 * cfg.alpha := by
    rw [ha', show Real.sqrt (m : ℝ) ^ 4 = (Real.sqrt m ^ 2) ^ 2 by ring, Real.sq_sqrt (Nat.cast_nonneg m)]
  obtain ⟨G, G', g1, g2, g3, -⟩ := C161_glsw_partial cfg cfg' ha _ hs.ne' h4 hp A B 1 (by simp) ev ev' V V' s s' h ho hd h' ho' hd'
  rw [g1, g2, g3, Matrix.transpose_one, Matrix.one_mul, Matrix.mul_one]

/-- **C162 (EPO).** With a gap at the cut the filter is the same. -/
theorem C162_epo (cfg cfg' : GlswCfg ℝ) (hm : 0 < m) (hp : p ≠ 0) (N : Nat) (hN : cfg.N = N) (hN' : cfg'.N = N) (hle : N ≤ p)
    (hf : ∀ i, (Finset.univ.filter fun j => f j = i).card = m) (A B : Matrix (Fin n) (Fin p) ℝ) (ev ev' : Fin p → ℝ)
    (V V' : Matrix (Fin p) (Fin p) ℝ) (h : EpoSolved cfg (clutterCov A B) ev V)
    (h' : EpoSolved cfg' (clutterCov (A.submatrix f id) (B.submatrix f id)) ev' V')
    (d₀ : Fin p → ℝ) (W₀ : Matrix (Fin p) (Fin p) ℝ) (ho₀ : OrthoEig (clutterCov A B) d₀ W₀) (hd₀ : Antitone d₀)
    (hgap₀ : ∀ i j : Fin p, i.1 < N → N ≤ j.1 → d₀ i ≠ d₀ j) :
    epoFit cfg' (of (A.submatrix f id)) (of (B.submatrix f id)) = epoFit cfg (of A) (of B) := by
  have e := clutter_repeat hm hf A B
  rw [e] at h'
  rw [(fit_congr cfg' _ _ _ _ e).2]
  have hs : (0 : ℝ) < Real.sqrt m := Real.sqrt_pos.2 (Nat.cast_pos.2 hm)
  obtain ⟨G, G', g1, g2, g3, -⟩ := C161_epo cfg cfg' _ hs.ne' hp N hN hN' hle A B 1 (by simp) ev ev' V V' h h' d₀ W₀ ho₀ hd₀ hgap₀
  rw [g1, g2, g3, Matrix.transpose_one, Matrix.one_mul, Matrix.mul_one]

theorem enum_repeat (hm : 0 < m) (hf : ∀ i, (Finset.univ.filter fun j => f j = i).card = m) {q : Nat} {A : Matrix (Fin n) (Fin q) ℝ} {κ : Fin p → Fin q}
    (h : Enumerates A κ) : Enumerates (A.submatrix f id) κ := by
  have hs : ∀ i, ∃ j, f j = i := fun i => by
    obtain ⟨j, hj⟩ := Finset.card_pos.1 (by rw [hf i]; exact hm : 0 < (Finset.univ.filter fun j => f j = i).card)
    exact ⟨j, (Finset.mem_filter.1 hj).2⟩
  refine ⟨h.mono, fun j => (h.mem j).trans ⟨fun ⟨i, i', hij⟩ => ?_, fun ⟨i, i', hij⟩ => ⟨f i, f i', hij⟩⟩⟩
  obtain ⟨a, ha⟩ := hs i
  obtain ⟨b, hb⟩ := hs i'
  exact ⟨a, b, by simpa only [Matrix.submatrix_apply, ha, hb, id] using hij⟩

/-- **C162 (PCA).** As many components are kept, and the scores of the training samples and of all new data are the same up to the sign of each
component with centred data, and with standardised data up to the factor of Standardize. -/
theorem C162_pca (cfg : PcaCfg ℝ) (hcfg : PcaReal cfg) (hm : 0 < m) (hf : ∀ i, (Finset.univ.filter fun j => f j = i).card = m) {q : Nat}
    (A : Matrix (Fin n) (Fin q) ℝ) (κ : Fin (p + 1) → Fin q) (hA : SimpleSpectrum cfg.centered A κ) :
    ∃ (K : Nat) (st st' : PcaState ℝ) (S : Matrix (Fin n) (Fin K) ℝ) (S' : Matrix (Fin n') (Fin K) ℝ) (L L' : Mat ℝ) (σ : Fin K → ℝ),
      pcaTransform cfg (of A) = .ok (st, of S, L) ∧ pcaTransform cfg (of (A.submatrix f id)) = .ok (st', of S', L') ∧
      (∀ k, σ k = 1 ∨ σ k = -1) ∧ (∀ i k, S' i k = (if cfg.centered then 1 else (repFactor m n)⁻¹) * (σ k * S (f i) k)) ∧
      ∀ (r : Nat) (Z : Matrix (Fin r) (Fin q) ℝ), 0 < r → ∃ T T' : Matrix (Fin r) (Fin K) ℝ,
        pcaScores cfg st (of Z) = .ok (of T) ∧ pcaScores cfg st' (of Z) = .ok (of T') ∧
        ∀ i k, T' i k = (if cfg.centered then 1 else (repFactor m n)⁻¹) * (σ k * T i k) := by
  obtain ⟨hκ, hd⟩ := hA
  have hn : 2 ≤ n := two_le_of_nonConst ((hκ.mem (κ 0)).1 ⟨0, rfl⟩)
  have hφ := repFactor_pos hm hn
  set c : ℝ := if cfg.centered then 1 else (repFactor m n)⁻¹ with hc
  have hc0 : 0 < c := by
    rw [hc]
    split
    · exact one_pos
    · exact inv_pos.2 hφ
  have hprep : ∀ {r : Nat} (Z : Matrix (Fin r) (Fin q) ℝ), prepared cfg.centered (A.submatrix f id) κ Z =
      c • (prepared cfg.centered A κ Z * (1 : Matrix (Fin (p + 1)) (Fin (p + 1)) ℝ)) := by
    intro r Z
    ext i j
    have e1 : (mu fun k => (A.submatrix f id) k (κ j)) = mu fun k => A k (κ j) := mu_repeat hm hf fun k => A k (κ j)
    have e2 : (sd fun k => (A.submatrix f id) k (κ j)) = repFactor m n * sd fun k => A k (κ j) := sd_repeat hm hn hf fun k => A k (κ j)
    rw [Matrix.mul_one, Matrix.smul_apply, smul_eq_mul]
    simp only [prepared, Matrix.of_apply]
    rw [e1, e2, hc]
    split
    · rw [one_mul]
    · rw [div_mul_eq_div_div_swap, div_eq_inv_mul _ (repFactor m n)]
  have hself : prepared cfg.centered (A.submatrix f id) κ (A.submatrix f id) = (c • prepared cfg.centered A κ A).submatrix f id := by
    rw [hprep, Matrix.mul_one]
    rfl
  have hn1 : (0 : ℝ) < n - 1 := by
    have : (2 : ℝ) ≤ n := by exact_mod_cast hn
    linarith
  have hn2 : (0 : ℝ) < n' - 1 := by
    have h1 : (1 : ℝ) ≤ m := by exact_mod_cast hm
    have h2 : (n' : ℝ) = m * n := by exact_mod_cast card_repeat hf
    rw [h2]
    nlinarith
  refine pca_agree_rows hcfg hcfg rfl rfl hκ (enum_repeat hm hf hκ) (d := c ^ 2 * (m * (n - 1) / (n' - 1))) ?_ 1 (by simp) f
    (fun i k => ?_) ?_ (fun _ Z => Z) (fun r Z => hprep Z) hd
  · have : (0 : ℝ) < m := Nat.cast_pos.2 hm
    positivity
  · rw [hself, Matrix.mul_one]
    rfl
  · rw [hself, Matrix.transpose_one, Matrix.one_mul, Matrix.mul_one]
    unfold cov
    rw [mul_repeat hf, Matrix.transpose_smul, Matrix.smul_mul, Matrix.mul_smul, smul_smul, smul_smul, smul_smul, smul_smul]
    congr 1
    field_simp

/-- Four samples with uncorrelated columns, entered twice. -/
example (cfg : PcaCfg ℝ) (hcfg : PcaReal cfg) (hc : cfg.centered = true) :=
  C162_pca (m := 2) (f := (![0, 0, 1, 1, 2, 2, 3, 3] : Fin 8 → Fin 4)) cfg hcfg two_pos (by decide) _ id (by rw [hc]; exact pcaEx_simple)

/-- **C162 (NIPALS, one response).** NIPALS standardises new data as well, so its predictions are the same. -/
theorem C162_nipals {c : NipalsCfg ℝ} (hc : NipalsReal c) (hcca : c.cca = false) (hdefl : c.defl = .regression) (hpinv : PinvRegular c.pinv)
    {K : Nat} (hK0 : 0 < K) (hK : c.K = (K : Int)) (hm : 0 < m) (hn : 2 ≤ n) (hf : ∀ i, (Finset.univ.filter fun j => f j = i).card = m)
    (A : Matrix (Fin n) (Fin (p + 1)) ℝ) (hA : ∀ j, (sd fun k => A k j) ≠ 0) (y : Matrix (Fin n) (Fin 1) ℝ) (hy : (sd fun k => y k 0) ≠ 0)
    (hr : Regular (pls1W (std y y)) K (std A A)) (h : NipRegular K (std A A) (std y y))
    (h' : NipRegular K (std (A.submatrix f id) (A.submatrix f id)) (std (y.submatrix f id) (y.submatrix f id))) :
    ∃ b b' : NipalsModel ℝ, nipalsTrain c (of A) (of y) = .ok b ∧ nipalsTrain c (of (A.submatrix f id)) (of (y.submatrix f id)) = .ok b' ∧
      ∀ (r : Nat), 0 < r → ∀ Z : Matrix (Fin r) (Fin (p + 1)) ℝ, ∃ F : Matrix (Fin r) (Fin 1) ℝ,
        nipalsPredict c b (of Z) = .ok (of F) ∧ nipalsPredict c b' (of Z) = .ok (of F) := by
  have hφ := repFactor_pos hm hn
  have hn' : 0 < n' := by
    have hc : n' = m * n := by exact_mod_cast card_repeat hf
    rw [hc]
    exact Nat.mul_pos hm (by omega)
  have hy' : ∀ j : Fin 1, (sd fun k => y k j) ≠ 0 := fun j => by
    rw [Subsingleton.elim j 0]
    exact hy
  obtain ⟨b, q, T, g1, g2, g3⟩ := C74_same_predictions hc hcca hdefl hpinv hK0 hK (by omega) A y h
  obtain ⟨b', q', T', g1', g2', g3'⟩ := C74_same_predictions hc hcca hdefl hpinv hK0 hK hn' (A.submatrix f id) (y.submatrix f id) h'
  have eA : std (A.submatrix f id) (A.submatrix f id) = ((repFactor m n)⁻¹ • std A A).submatrix f id := by
    rw [std_repeat hm hn hf A hA]
    rfl
  have ey : std (y.submatrix f id) (y.submatrix f id) = ((repFactor m n)⁻¹ • std y y).submatrix f id := by
    rw [std_repeat hm hn hf y hy']
    rfl
  have hc0 : (0 : ℝ) < m * ((repFactor m n)⁻¹ * (repFactor m n)⁻¹) := by positivity
  have hmul : ∀ {q : Nat} (B : Matrix (Fin n) (Fin q) ℝ), (((repFactor m n)⁻¹ • std A A).submatrix f id)ᵀ * ((repFactor m n)⁻¹ • B).submatrix f id =
      (m * ((repFactor m n)⁻¹ * (repFactor m n)⁻¹)) • ((std A A)ᵀ * B) := by
    intro q B
    rw [mul_repeat hf, Matrix.transpose_smul, Matrix.smul_mul, Matrix.mul_smul, smul_smul, smul_smul, mul_assoc]
  obtain ⟨w, U, U', k1, k2⟩ := C128_pls1 (by omega) hn' (Nat.succ_pos p) hK0 hc0 (std A A) (std y y) _ _ (hmul (std A A)) (hmul (std y y)) hr
  obtain ⟨w', U'', R, l1, -, l3, -⟩ := C50_pls1 (by omega) (Nat.succ_pos p) hK0 (std A A) (std y y) hr
  rw [eA, ey, k2] at g2'
  rw [k1] at g2 l1
  injection g2 with g2
  injection g2' with g2'
  injection l1 with l1
  have e1 : q = w := (congrArg Prod.fst g2).symm
  have e2 : q' = w := (congrArg Prod.fst g2').symm
  have e3 : w' = w := (congrArg Prod.fst l1).symm
  subst e1 e2 e3
  refine ⟨b, b', g1, g1', fun r hr0 Z => ?_⟩
  obtain ⟨F, f1, f2⟩ := g3 r hr0 Z
  obtain ⟨F', f1', f2'⟩ := g3' r hr0 Z
  refine ⟨_, f2, f2'.trans ?_⟩
  rw [l3 hr0, ok_inj, of_inj] at f1 f1'
  subst f1 f1'
  rw [ok_inj]
  refine mk_congr fun i j => ?_
  have e4 : (mu fun k => (y.submatrix f id) k 0) = mu fun k => y k 0 := mu_repeat hm hf fun k => y k 0
  simp only [Matrix.of_apply]
  rw [e4, divisor_repeat hm hn hf y hy', std_repeat hm hn hf A hA, Matrix.smul_mul, Matrix.smul_apply, smul_eq_mul]
  field_simp

/-- **C162 (KernelPLS with the linear kernel).** -/
theorem C162_linear_kernel {c c' : KplsCfg ℝ Unit} {v : Nat → Matrix (Fin n) (Fin 1) ℝ} {v' : Nat → Matrix (Fin n') (Fin 1) ℝ}
    (hc : KplsReal c n v) (hc' : KplsReal c' n' v')
    (hl1 : ∀ A, c.kern1 () A = ((), linearMatrix A none)) (hl2 : ∀ A B, c.kern2 () A B = ((), linearMatrix A (some B)))
    (hl1' : ∀ A, c'.kern1 () A = ((), linearMatrix A none)) (hl2' : ∀ A B, c'.kern2 () A B = ((), linearMatrix A (some B)))
    (htol : 0 < c.tol) (htol' : 0 < c'.tol) (hmax : 2 ≤ c.maxIter) (hmax' : 2 ≤ c'.maxIter) {K : Nat} (hK : c.K = K) (hK' : c'.K = K) (hK0 : 0 < K)
    (hm : 0 < m) (hn : 0 < n) (hp : 0 < p) (hf : ∀ i, (Finset.univ.filter fun j => f j = i).card = m)
    (A : Matrix (Fin n) (Fin p) ℝ) (y : Matrix (Fin n) (Fin 1) ℝ) (lstsq : Mat ℝ → Except PyErr (Mat ℝ)) (hinv : c.inv = inverse lstsq)
    (hinv' : c'.inv = inverse lstsq) (hr : Regular (pls1W (cen y y)) K (cen A A))
    (hr' : Regular (pls1W (cen (y.submatrix f id) (y.submatrix f id))) K (cen (A.submatrix f id) (A.submatrix f id)))
    (hv : GoodStart c.tol K (cen A A) (cen y y) v)
    (hv' : GoodStart c'.tol K (cen (A.submatrix f id) (A.submatrix f id)) (cen (y.submatrix f id) (y.submatrix f id)) v') :
    ∃ b b' : KplsModel ℝ Unit, kplsTrain c () (of A) (of y) = .ok b ∧ kplsTrain c' () (of (A.submatrix f id)) (of (y.submatrix f id)) = .ok b' ∧
      ∀ {r : Nat}, 0 < r → ∀ Z : Matrix (Fin r) (Fin p) ℝ, ∃ F : Matrix (Fin r) (Fin 1) ℝ,
        kplsPredict c b (of Z) = .ok (of F) ∧ kplsPredict c' b' (of Z) = .ok (of F) := by
  have hn' : 0 < n' := by
    have hc : n' = m * n := by exact_mod_cast card_repeat hf
    rw [hc]
    exact Nat.mul_pos hm hn
  obtain ⟨b, q, T, g1, g2, g3⟩ := C101_linear_kernel hc hl1 hl2 htol hmax hK hK0 hn hp A y lstsq hinv hr hv
  obtain ⟨b', q', T', g1', g2', g3'⟩ := C101_linear_kernel hc' hl1' hl2' htol' hmax' hK' hK0 hn' hp _ _ lstsq hinv' hr' hv'
  have ecen : ∀ {q r : Nat} (B : Matrix (Fin n) (Fin q) ℝ) (Z : Matrix (Fin r) (Fin q) ℝ), cen (B.submatrix f id) Z = cen B Z := by
    intro q r B Z
    ext i j
    simp only [cen, Matrix.of_apply]
    congr 1
    exact mu_repeat hm hf fun k => B k j
  have es : ∀ {q : Nat} (B : Matrix (Fin n) (Fin q) ℝ), cen (B.submatrix f id) (B.submatrix f id) = (cen B B).submatrix f id := fun B => by
    rw [ecen]
    rfl
  obtain ⟨w, U, U', k1, k2⟩ := C128_pls1 hn hn' hp hK0 (Nat.cast_pos.2 hm) (cen A A) (cen y y) _ _ (mul_repeat hf (cen A A) (cen A A))
    (mul_repeat hf (cen A A) (cen y y)) hr
  rw [es, es, k2] at g2'
  rw [k1] at g2
  injection g2 with g2
  injection g2' with g2'
  have e1 : q = w := (congrArg Prod.fst g2).symm
  have e2 : q' = w := (congrArg Prod.fst g2').symm
  subst e1 e2
  refine ⟨b, b', g1, g1', fun hr0 Z => ?_⟩
  obtain ⟨F, f1, f2⟩ := g3 hr0 Z
  obtain ⟨F', f1', f2'⟩ := g3' hr0 Z
  rw [ecen, f1, ok_inj, of_inj] at f1'
  subst f1'
  refine ⟨_, f2, f2'.trans ?_⟩
  rw [ok_inj]
  refine mk_congr fun i j => ?_
  simp only [Matrix.of_apply]
  congr 1
  exact mu_repeat hm hf fun k => y k 0

/-! ### A concrete case: two samples, each entered twice -/

noncomputable def repX : Matrix (Fin 2) (Fin 1) ℝ := !![-1; 1]

theorem repX_sd (j : Fin 1) : (sd fun k => repX k j) = Real.sqrt 2 := by
  rw [Subsingleton.elim j 0]
  simp [sd, mu, repX, Fin.sum_univ_two]
  norm_num

theorem repX_regular : Regular (pls1W (std repX repX)) 1 (std repX repX) := by
  have h2 : Real.sqrt 2 ≠ 0 := by positivity
  have hs : std repX repX = (Real.sqrt 2)⁻¹ • repX := by
    ext i j
    have e : (mu fun k => repX k j) = 0 := by
      rw [Subsingleton.elim j 0]
      simp [mu, repX, Fin.sum_univ_two]
    simp only [std, Matrix.of_apply, Matrix.smul_apply, smul_eq_mul, divisor, repX_sd, e, if_neg fun h : (j : Nat) = 0 ∧ Real.sqrt 2 = 0 => h2 h.2]
    rw [sub_zero, div_eq_inv_mul]
  have h1 : (std repX repX)ᵀ * std repX repX = 1 := by
    rw [hs, Matrix.transpose_smul, Matrix.smul_mul, Matrix.mul_smul, smul_smul, ← mul_inv, Real.mul_self_sqrt (by norm_num)]
    ext i j
    fin_cases i
    fin_cases j
    simp [repX, Matrix.mul_apply, Fin.sum_univ_two]
    norm_num
  have hw : pls1W (std repX repX) (std repX repX) = 1 := by
    ext i j
    simp only [pls1W, h1, Matrix.of_apply]
    fin_cases i
    fin_cases j
    simp [sq1]
  refine ⟨?_, trivial⟩
  show (std repX repX * pls1W (std repX repX) (std repX repX))ᵀ * (std repX repX * pls1W (std repX repX) (std repX repX)) ≠ 0
  rw [hw, Matrix.mul_one, h1]
  exact one_ne_zero

/-- All hypotheses of `C162_standardize_violation` are met. -/
example : ∃ s s', singleTrain isZeroR (pls1Base 1) .standardize (of repX) (of repX) = .ok s ∧
    singleTrain isZeroR (pls1Base 1) .standardize (of (repX.submatrix (![0, 0, 1, 1] : Fin 4 → Fin 2) id))
      (of (repX.submatrix (![0, 0, 1, 1] : Fin 4 → Fin 2) id)) = .ok s' := by
  have h0 : ∀ j : Fin 1, (sd fun k => repX k j) ≠ 0 := fun j => by
    rw [repX_sd]
    positivity
  obtain ⟨s, s', h, h', -⟩ := C162_standardize_violation (m := 2) isZeroR (by simp [isZeroR]) le_rfl le_rfl
    (f := (![0, 0, 1, 1] : Fin 4 → Fin 2)) (by decide) one_pos repX h0 repX (h0 0) repX_regular
  exact ⟨s, s', h, h'⟩

theorem one_weight {c : ℝ} (hc : 0 < c) (S : Matrix (Fin n) (Fin 1) ℝ) (h : Sᵀ * S = c • 1) : pls1W S S = 1 := by
  ext i j
  simp only [pls1W, h, Matrix.of_apply]
  fin_cases i
  fin_cases j
  simp [sq1, Real.sqrt_mul_self hc.le, hc.ne']

theorem one_sum {c : ℝ} (S : Matrix (Fin n) (Fin 1) ℝ) (h : Sᵀ * S = c • 1) : ∑ i, S i 0 ^ 2 = c := by
  have := congrFun (congrFun h 0) 0
  rw [Matrix.mul_apply] at this
  simp only [Matrix.transpose_apply, Matrix.smul_apply, Matrix.one_apply_eq, smul_eq_mul, mul_one] at this
  rw [← this]
  exact Finset.sum_congr rfl fun i _ => pow_two _

theorem one_nip {c : ℝ} (hc : 1 ≤ c) (S : Matrix (Fin n) (Fin 1) ℝ) (h : Sᵀ * S = c • 1) : NipRegular 1 S S := by
  have hw := one_weight (by linarith) S h
  have hs := one_sum S h
  have h1 : ∑ j, (Sᵀ * S) j 0 ^ 2 = c ^ 2 := by
    rw [h]
    simp
  refine ⟨?_, ?_, ?_, trivial⟩
  · rw [hs]
    norm_num
    linarith
  · rw [hs, h1]
    nlinarith [sq_nonneg c]
  · show 2 / 10 ^ 10 ≤ ∑ i, (S * pls1W S S) i 0 ^ 2
    rw [hw, Matrix.mul_one, hs]
    norm_num
    linarith

theorem repX_std : (std repX repX)ᵀ * std repX repX = (1 : ℝ) • 1 := by
  have h2 : Real.sqrt 2 ≠ 0 := by positivity
  have hs : std repX repX = (Real.sqrt 2)⁻¹ • repX := by
    ext i j
    have e : (mu fun k => repX k j) = 0 := by
      rw [Subsingleton.elim j 0]
      simp [mu, repX, Fin.sum_univ_two]
    simp only [std, Matrix.of_apply, Matrix.smul_apply, smul_eq_mul, divisor, repX_sd, e, if_neg fun h : (j : Nat) = 0 ∧ Real.sqrt 2 = 0 => h2 h.2]
    rw [sub_zero, div_eq_inv_mul]
  rw [hs, Matrix.transpose_smul, Matrix.smul_mul, Matrix.mul_smul, smul_smul, ← mul_inv, Real.mul_self_sqrt (by norm_num)]
  ext i j
  fin_cases i
  fin_cases j
  simp [repX, Matrix.mul_apply, Fin.sum_univ_two]
  norm_num

/-- The hypotheses of `C162_nipals` are met. -/
example :=
  have h0 : ∀ j : Fin 1, (sd fun k => repX k j) ≠ 0 := fun j => by
    rw [repX_sd]
    positivity
  have hf : ∀ i : Fin 2, (Finset.univ.filter fun j => (![0, 0, 1, 1] : Fin 4 → Fin 2) j = i).card = 2 := by decide
  have hrep : (std (repX.submatrix (![0, 0, 1, 1] : Fin 4 → Fin 2) id) (repX.submatrix (![0, 0, 1, 1] : Fin 4 → Fin 2) id))ᵀ *
      std (repX.submatrix (![0, 0, 1, 1] : Fin 4 → Fin 2) id) (repX.submatrix (![0, 0, 1, 1] : Fin 4 → Fin 2) id) = (3 : ℝ) • 1 := by
    rw [std_repeat two_pos le_rfl hf repX h0]
    show (((repFactor 2 2)⁻¹ • std repX repX).submatrix (![0, 0, 1, 1] : Fin 4 → Fin 2) id)ᵀ *
      ((repFactor 2 2)⁻¹ • std repX repX).submatrix (![0, 0, 1, 1] : Fin 4 → Fin 2) id = _
    rw [mul_repeat hf, Matrix.transpose_smul, Matrix.smul_mul, Matrix.mul_smul, repX_std, smul_smul, smul_smul, smul_smul]
    congr 1
    rw [mul_one, mul_assoc, ← mul_inv, repFactor, Real.mul_self_sqrt (by norm_num)]
    norm_num
  C162_nipals (m := 2) (f := (![0, 0, 1, 1] : Fin 4 → Fin 2)) exCfg_real rfl rfl exCfg_pinv one_pos rfl two_pos le_rfl hf repX h0 repX (h0 0)
    repX_regular (one_nip le_rfl _ repX_std) (one_nip (by norm_num) _ hrep)

/-- KernelPLS with the linear kernel and one component, for any number of samples. -/
noncomputable def repKernel (lstsq : Mat ℝ → Except PyErr (Mat ℝ)) : KplsCfg ℝ Unit where
  K := 1
  tol := 1 / 1000
  maxIter := 10
  kern1 _ X := ((), linearMatrix X none)
  kern2 _ X Y := ((), linearMatrix X (some Y))
  start n _ := .ok (of (Matrix.of fun (i : Fin n.toNat) (_ : Fin 1) => if i.1 = 0 then 2 else 0))
  lt a b := decide (a < b)
  inv := inverse lstsq

theorem rep_regular {c : ℝ} (hc : 0 < c) (S : Matrix (Fin n) (Fin 1) ℝ) (h : Sᵀ * S = c • 1) : Regular (pls1W S) 1 S := by
  refine ⟨?_, trivial⟩
  show (S * pls1W S S)ᵀ * (S * pls1W S S) ≠ 0
  rw [one_weight hc S h, Matrix.mul_one, h]
  exact smul_ne_zero hc.ne' one_ne_zero

theorem one_start {c : ℝ} (hc : 0 < c) (S : Matrix (Fin (n + 1)) (Fin 1) ℝ) (h : Sᵀ * S = c • 1) (h0 : S 0 0 ≠ 0) :
    GoodStart (1 / 1000) 1 S S fun _ => Matrix.of fun i _ => if i.1 = 0 then 2 else 0 := by
  refine ⟨fun k _ => ?_, fun k hk => ?_⟩
  · have e : ∑ i : Fin (n + 1), (Matrix.of fun (i : Fin (n + 1)) (_ : Fin 1) => if i.1 = 0 then (2 : ℝ) else 0) i 0 *
        (Matrix.of fun (i : Fin (n + 1)) (_ : Fin 1) => if i.1 = 0 then (2 : ℝ) else 0) i 0 = 2 * 2 := by
      rw [Fin.sum_univ_succ]
      simp
    rw [e, Real.sqrt_mul_self (by norm_num)]
    norm_num
  · obtain rfl : k = 0 := by omega
    have e : plsT (pls1W S) S 0 = S := by
      show S * pls1W S S = S
      rw [one_weight hc S h, Matrix.mul_one]
    rw [e, Fin.sum_univ_succ]
    simpa using h0

theorem repX_cen : cen repX repX = repX := cen_of_zero repX fun j => by
  rw [Subsingleton.elim j 0]
  simp [repX, Fin.sum_univ_two]

/-- The hypotheses of `C162_linear_kernel` are met. -/
example (lstsq : Mat ℝ → Except PyErr (Mat ℝ)) :=
  have h1 : repXᵀ * repX = (2 : ℝ) • (1 : Matrix (Fin 1) (Fin 1) ℝ) := by
    ext i j
    fin_cases i
    fin_cases j
    simp [repX, Matrix.mul_apply, Fin.sum_univ_two]
    norm_num
  have hf : ∀ i : Fin 2, (Finset.univ.filter fun j => (![0, 0, 1, 1] : Fin 4 → Fin 2) j = i).card = 2 := by decide
  have hc : cen (repX.submatrix (![0, 0, 1, 1] : Fin 4 → Fin 2) id) (repX.submatrix (![0, 0, 1, 1] : Fin 4 → Fin 2) id) =
      repX.submatrix (![0, 0, 1, 1] : Fin 4 → Fin 2) id := cen_of_zero _ fun j => by
    rw [Subsingleton.elim j 0]
    simp [repX, Fin.sum_univ_four]
  have h2 : (repX.submatrix (![0, 0, 1, 1] : Fin 4 → Fin 2) id)ᵀ * repX.submatrix (![0, 0, 1, 1] : Fin 4 → Fin 2) id =
      (4 : ℝ) • (1 : Matrix (Fin 1) (Fin 1) ℝ) := by
    rw [mul_repeat hf, h1, smul_smul]
    norm_num
  C162_linear_kernel (m := 2) (f := (![0, 0, 1, 1] : Fin 4 → Fin 2)) (c := repKernel lstsq) (c' := repKernel lstsq) (K := 1)
    ⟨fun _ _ => rfl, fun _ => rfl⟩ ⟨fun _ _ => rfl, fun _ => rfl⟩ (fun _ => rfl) (fun _ _ => rfl) (fun _ => rfl) (fun _ _ => rfl)
    (by norm_num [repKernel]) (by norm_num [repKernel]) (by norm_num [repKernel]) (by norm_num [repKernel]) rfl rfl one_pos two_pos two_pos one_pos hf
    repX repX lstsq rfl rfl (by rw [repX_cen]; exact rep_regular two_pos _ h1) (by rw [hc]; exact rep_regular four_pos _ h2)
    (by rw [repX_cen]; exact one_start two_pos _ h1 (by simp [repX])) (by rw [hc]; exact one_start four_pos _ h2 (by simp [repX]))

end Verif.Props
