import Verif.Props.IcaProps
import Verif.Props.PcaOptimal
import Verif.Props.CcaRegression

/-!
# C125 — FastICA with fewer components than features

With whitening, `sources · mixingᵀ` is the best approximation of the centred data in that many dimensions.
-/

namespace Verif.Props
open Verif Verif.Mat Verif.Transf
open scoped Matrix

variable {n p q r K : Nat}

/-- Projections do not lengthen. -/
theorem proj_le (T : Matrix (Fin n) (Fin p) ℝ) (Q : Matrix (Fin p) (Fin K) ℝ) (h : Qᵀ * Q = 1) :
    ∑ i, ∑ c, (T * Q) i c ^ 2 ≤ ∑ i, ∑ j, T i j ^ 2 := by
  have h0 : 0 ≤ ∑ i, ∑ j, (T i j - (T * Q * Qᵀ) i j) ^ 2 := Finset.sum_nonneg fun i _ => Finset.sum_nonneg fun j _ => sq_nonneg _
  rw [proj_residual T Q h] at h0
  linarith

theorem sum_lead (hK : K ≤ r) (f : Fin r → ℝ) : ∑ c : Fin K, f (Fin.castLE hK c) = ∑ i : Fin r, if i.1 < K then f i else 0 := by
  rw [← Finset.sum_filter]
  refine Finset.sum_bij' (fun c _ => Fin.castLE hK c) (fun c hc => ⟨c.1, (Finset.mem_filter.1 hc).2⟩) ?_ ?_ ?_ ?_ ?_
  · intro c _; exact Finset.mem_filter.2 ⟨Finset.mem_univ _, c.2⟩
  all_goals intros; first | exact Finset.mem_univ _ | rfl

/-- The largest weighted sum takes the leading values. -/
theorem lead_weighted {f : Fin r → ℝ} (hf : ∀ i, 0 ≤ f i) (ha : Antitone f) (hK : K ≤ r) (w : Fin r → ℝ) (h0 : ∀ i, 0 ≤ w i)
    (h1 : ∀ i, w i ≤ 1) (hs : ∑ i, w i ≤ K) : ∑ i, f i * w i ≤ ∑ c : Fin K, f (Fin.castLE hK c) := by
  by_cases hK0 : K = 0
  · subst hK0
    have hw : ∀ i, w i = 0 := fun i => (Finset.sum_eq_zero_iff_of_nonneg fun i _ => h0 i).1
      (le_antisymm (by simpa using hs) (Finset.sum_nonneg fun i _ => h0 i)) i (Finset.mem_univ i)
    simp [hw]
  let lam : ℝ := f ⟨K - 1, by omega⟩
  have hlam : 0 ≤ lam := hf _
  have key : ∀ i : Fin r, (f i - lam) * w i ≤ (f i - lam) * if i.1 < K then (1 : ℝ) else 0 := by
    intro i
    by_cases hi : i.1 < K
    · rw [if_pos hi]
      have : lam ≤ f i := ha (show i ≤ ⟨K - 1, by omega⟩ from Fin.le_def.2 (by simp; omega))
      exact mul_le_mul_of_nonneg_left (h1 _) (by linarith)
    · rw [if_neg hi, mul_zero]
      have : f i ≤ lam := ha (show (⟨K - 1, by omega⟩ : Fin r) ≤ i from Fin.le_def.2 (by simp; omega))
      exact mul_nonpos_of_nonpos_of_nonneg (by linarith) (h0 _)
  have hsum := Finset.sum_le_sum fun i (_ : i ∈ Finset.univ) => key i
  simp only [sub_mul, Finset.sum_sub_distrib, ← Finset.mul_sum] at hsum
  have hone : (∑ i : Fin r, if i.1 < K then (1 : ℝ) else 0) = K := by
    rw [← sum_lead hK fun _ => (1 : ℝ)]
    simp
  have e : ∑ i : Fin r, f i * (if i.1 < K then (1 : ℝ) else 0) = ∑ i : Fin r, if i.1 < K then f i else 0 :=
    Finset.sum_congr rfl fun c _ => by split <;> simp
  rw [hone, e, ← sum_lead hK] at hsum
  nlinarith

/-- The leading left singular vectors. -/
def leadCols (u : Matrix (Fin p) (Fin r) ℝ) (hK : K ≤ r) : Matrix (Fin p) (Fin K) ℝ := u.submatrix id (Fin.castLE hK)

theorem leadCols_orth {u : Matrix (Fin p) (Fin r) ℝ} (h : uᵀ * u = 1) (hK : K ≤ r) : (leadCols u hK)ᵀ * leadCols u hK = 1 := by
  ext a b
  have := congrFun (congrFun h (Fin.castLE hK a)) (Fin.castLE hK b)
  rw [Matrix.mul_apply] at this ⊢
  refine Eq.trans ?_ (this.trans ?_)
  · rfl
  · rw [Matrix.one_apply, Matrix.one_apply]
    by_cases hab : a = b
    · rw [if_pos hab, if_pos (by rw [hab])]
    · rw [if_neg hab, if_neg fun e => hab (Fin.castLE_injective hK e)]

/-- Sum of squares of the projected samples in terms of the singular values; the samples are the columns of `Z`. -/
theorem svd_proj {Z : Matrix (Fin p) (Fin n) ℝ} {u : Matrix (Fin p) (Fin r) ℝ} {s : Fin r → ℝ} {vh : Matrix (Fin r) (Fin n) ℝ}
    (h : ThinSVD r Z u s vh) (Q : Matrix (Fin p) (Fin q) ℝ) :
    ∑ i, ∑ c, (Zᵀ * Q) i c ^ 2 = ∑ i, s i ^ 2 * ∑ c, (uᵀ * Q) i c ^ 2 := by
  have h1 : ∑ i, ∑ c, (Zᵀ * Q) i c ^ 2 = ((Zᵀ * Q)ᵀ * (Zᵀ * Q)).trace := by
    rw [Finset.sum_comm]
    refine Finset.sum_congr rfl fun c _ => ?_
    rw [Matrix.diag_apply, Matrix.mul_apply]
    exact Finset.sum_congr rfl fun i _ => pow_two _
  have h2 : (Zᵀ * Q)ᵀ * (Zᵀ * Q) = (uᵀ * Q)ᵀ * (Matrix.diagonal (fun i => s i * s i) * (uᵀ * Q)) := by
    rw [Matrix.transpose_mul, Matrix.transpose_transpose, h.eq, Matrix.transpose_mul, Matrix.transpose_mul, Matrix.diagonal_transpose,
      Matrix.transpose_mul uᵀ, Matrix.transpose_transpose]
    calc Qᵀ * (u * Matrix.diagonal s * vh) * (vhᵀ * (Matrix.diagonal s * uᵀ) * Q)
        = Qᵀ * u * Matrix.diagonal s * (vh * vhᵀ) * Matrix.diagonal s * (uᵀ * Q) := by simp only [Matrix.mul_assoc]
      _ = Qᵀ * u * (Matrix.diagonal (fun i => s i * s i) * (uᵀ * Q)) := by
        rw [h.right, Matrix.mul_one, ← Matrix.diagonal_mul_diagonal]
        simp only [Matrix.mul_assoc]
  rw [h1, h2, Matrix.trace_mul_comm]
  refine Finset.sum_congr rfl fun i _ => ?_
  rw [Matrix.diag_apply, Matrix.mul_apply, Finset.mul_sum]
  refine Finset.sum_congr rfl fun c _ => ?_
  rw [Matrix.diagonal_mul, Matrix.transpose_apply]
  ring

/-- No orthonormal directions keep more than the leading left singular vectors. -/
theorem svd_best {Z : Matrix (Fin p) (Fin n) ℝ} {u : Matrix (Fin p) (Fin r) ℝ} {s : Fin r → ℝ} {vh : Matrix (Fin r) (Fin n) ℝ}
    (h : ThinSVD r Z u s vh) (hK : K ≤ r) (Q : Matrix (Fin p) (Fin K) ℝ) (hQ : Qᵀ * Q = 1) :
    ∑ i, ∑ c, (Zᵀ * Q) i c ^ 2 ≤ ∑ i, ∑ c, (Zᵀ * leadCols u hK) i c ^ 2 := by
  rw [svd_proj h, svd_proj h]
  have hw1 : ∀ i, ∑ c, (uᵀ * Q) i c ^ 2 ≤ 1 := by
    intro i
    have h1 := proj_le (Matrix.of fun (_ : Fin 1) j => u j i) Q hQ
    rw [Fin.sum_univ_one, Fin.sum_univ_one] at h1
    have h2 : ∑ j, (Matrix.of fun (_ : Fin 1) j => u j i) 0 j ^ 2 = 1 := by
      have := congrFun (congrFun h.left i) i
      rw [Matrix.one_apply_eq, Matrix.mul_apply] at this
      rw [← this]
      exact Finset.sum_congr rfl fun j _ => pow_two _
    rw [h2] at h1
    exact h1
  have hw2 : ∑ i, ∑ c, (uᵀ * Q) i c ^ 2 ≤ K := by
    have h1 := proj_le Qᵀ u h.left
    have h2 : ∑ c, ∑ j, Qᵀ c j ^ 2 = K := by
      rw [Finset.sum_comm]
      exact total_mul Q hQ
    rw [h2, Finset.sum_comm] at h1
    refine le_trans (le_of_eq ?_) h1
    refine Finset.sum_congr rfl fun i _ => Finset.sum_congr rfl fun c _ => ?_
    rw [← Matrix.transpose_apply (uᵀ * Q), Matrix.transpose_mul, Matrix.transpose_transpose]
  refine le_trans (lead_weighted (f := fun i => s i ^ 2) (fun i => sq_nonneg _)
    (fun i j hij => pow_le_pow_left₀ (h.nonneg j) (h.anti hij) 2) hK _
    (fun i => Finset.sum_nonneg fun c _ => sq_nonneg _) hw1 hw2) ?_
  have hu : ∀ i (c : Fin K), (uᵀ * leadCols u hK) i c = if i = Fin.castLE hK c then 1 else 0 := by
    intro i c
    have := congrFun (congrFun h.left i) (Fin.castLE hK c)
    rw [Matrix.one_apply] at this
    rw [← this]
    rfl
  have hsum : ∀ i, s i ^ 2 * ∑ c, (uᵀ * leadCols u hK) i c ^ 2 = ∑ c : Fin K, if i = Fin.castLE hK c then s (Fin.castLE hK c) ^ 2 else 0 := by
    intro i
    rw [Finset.mul_sum]
    refine Finset.sum_congr rfl fun c _ => ?_
    rw [hu]
    by_cases hic : i = Fin.castLE hK c
    · simp [hic]
    · simp [hic]
  rw [Finset.sum_congr rfl fun i _ => hsum i, Finset.sum_comm]
  refine le_of_eq (Finset.sum_congr rfl fun c _ => ?_)
  simp

/-- `Matrix.inverse` of a matrix with a right inverse: the Moore-Penrose inverse, square or not. -/
theorem inverse_pinv {a b : Nat} {lstsq : Mat ℝ → Except PyErr (Mat ℝ)} (hls : PinvRoutine lstsq) {C : Matrix (Fin a) (Fin b) ℝ}
    {G : Matrix (Fin b) (Fin a) ℝ} (h : MoorePenrose C G) (h1 : C * G = 1) : (of C).inverse lstsq = .ok (of G) := by
  by_cases hab : a = b
  · subst hab
    have hdet : C.det ≠ 0 := by
      intro hd
      have := congrArg Matrix.det h1
      rw [Matrix.det_mul, hd, zero_mul, Matrix.det_one] at this
      exact zero_ne_one this
    rw [inverse_of lstsq C hdet, Matrix.inv_eq_right_inv h1]
  · unfold inverse
    rw [dif_neg hab]
    exact hls.eq h

/-- **C125.**  Whitened training of a new object on `n` samples of `p` features, keeping `K` components whose singular values are
not zero, with orthonormal weights `W` (C88).  The sources are uncorrelated with equal variance; `sources · mixingᵀ` is the centred
data projected on the `K` leading directions, and no other projection onto `K` directions is closer to the centred data.  `reconstruct`
raises `ValueError` all the same unless there are as many samples as features. -/
theorem C125_approximation (cfg : IcaCfg ℝ) (hw : cfg.whiten = true) (hls : PinvRoutine cfg.lstsq) (o : IcaObj ℝ)
    (ho : o.center = some ⟨false, none⟩) (hK : K = min o.numComponents (min p n)) (X : Matrix (Fin n) (Fin p) ℝ)
    (u : Matrix (Fin p) (Fin r) ℝ) (s : Fin r → ℝ) (vh : Matrix (Fin r) (Fin n) ℝ)
    (hs : cfg.svd (of (minusMeans X X)ᵀ) = .ok (of u, of (Matrix.of fun (_ : Fin 1) i => s i), of vh))
    (h : ThinSVD r (minusMeans X X)ᵀ u s vh) (h0 : ∀ a : Fin r, a.1 < K → s a ≠ 0) (W : Matrix (Fin K) (Fin K) ℝ) (hW : W * Wᵀ = 1)
    (hun : ∀ wh : Matrix (Fin K) (Fin p) ℝ, icaWhitening cfg K (of (minusMeans X X)ᵀ) = .ok (of wh) →
      unmix cfg K (of (Real.sqrt n • (wh * (minusMeans X X)ᵀ))) = .ok (of W)) :
    ∃ (o' : IcaObj ℝ) (S : Matrix (Fin n) (Fin K) ℝ) (A : Matrix (Fin p) (Fin K) ℝ), icaTransform cfg o (of X) = .ok (o', of S) ∧
      o'.mixing = some (of A) ∧ Sᵀ * S = 1 ∧ (∀ c, ∑ i, S i c = 0) ∧
      (∃ U : Matrix (Fin p) (Fin K) ℝ, Uᵀ * U = 1 ∧ S * Aᵀ = minusMeans X X * U * Uᵀ) ∧
      (∀ Q : Matrix (Fin p) (Fin K) ℝ, Qᵀ * Q = 1 → ∑ i, ∑ j, (minusMeans X X i j - (S * Aᵀ) i j) ^ 2 ≤
        ∑ i, ∑ j, (minusMeans X X i j - (minusMeans X X * Q * Qᵀ) i j) ^ 2) ∧
      (n ≠ p → icaReconstruct o' = .error .valueError) := by
  have hKr : K ≤ r := by
    have := h.size
    omega
  have hs0 : ∀ a : Fin K, s (Fin.castLE hKr a) ≠ 0 := fun a => h0 _ a.2
  have hwh := icaWhitening_of cfg (minusMeans X X)ᵀ u s vh h.size hs hKr
  have hwz := whM_mul (minusMeans X X)ᵀ u s vh h hKr hs0
  have hWW : Wᵀ * W = 1 := mul_eq_one_comm.1 hW
  set U := leadCols u hKr with hU
  have hUU : Uᵀ * U = 1 := leadCols_orth h.left hKr
  set d : Fin K → ℝ := fun a => -s (Fin.castLE hKr a) with hd
  have hwhM : whM u s hKr = Matrix.diagonal (fun a => (d a)⁻¹) * Uᵀ := by
    ext a i
    rw [Matrix.diagonal_mul]
    show -u i (Fin.castLE hKr a) * (1 / s (Fin.castLE hKr a)) = (-s (Fin.castLE hKr a))⁻¹ * u i (Fin.castLE hKr a)
    have := hs0 a
    field_simp
  have hdd : Matrix.diagonal d * Matrix.diagonal (fun a => (d a)⁻¹) = (1 : Matrix (Fin K) (Fin K) ℝ) := by
    rw [Matrix.diagonal_mul_diagonal, ← Matrix.diagonal_one]
    congr 1
    funext a
    exact mul_inv_cancel₀ (neg_ne_zero.2 (hs0 a))
  have hdd' : Matrix.diagonal (fun a => (d a)⁻¹) * Matrix.diagonal d = (1 : Matrix (Fin K) (Fin K) ℝ) := mul_eq_one_comm.1 hdd
  set C := W * whM u s hKr with hC
  set G := U * Matrix.diagonal d * Wᵀ with hG
  have hCG : C * G = 1 := by
    calc C * G = W * Matrix.diagonal (fun a => (d a)⁻¹) * (Uᵀ * U) * Matrix.diagonal d * Wᵀ := by
          rw [hC, hG, hwhM]
          simp only [Matrix.mul_assoc]
      _ = W * (Matrix.diagonal (fun a => (d a)⁻¹) * Matrix.diagonal d) * Wᵀ := by
          rw [hUU, Matrix.mul_one]
          simp only [Matrix.mul_assoc]
      _ = 1 := by rw [hdd', Matrix.mul_one, hW]
  have hGC : G * C = U * Uᵀ := by
    calc G * C = U * Matrix.diagonal d * (Wᵀ * W) * Matrix.diagonal (fun a => (d a)⁻¹) * Uᵀ := by
          rw [hC, hG, hwhM]
          simp only [Matrix.mul_assoc]
      _ = U * (Matrix.diagonal d * Matrix.diagonal (fun a => (d a)⁻¹)) * Uᵀ := by
          rw [hWW, Matrix.mul_one]
          simp only [Matrix.mul_assoc]
      _ = U * Uᵀ := by rw [hdd, Matrix.mul_one]
  have hsym : (U * Uᵀ)ᵀ = U * Uᵀ := by rw [Matrix.transpose_mul, Matrix.transpose_transpose]
  have hmp : MoorePenrose C G := ⟨by rw [hCG, Matrix.one_mul], by rw [Matrix.mul_assoc, hCG, Matrix.mul_one],
    by rw [hCG, Matrix.transpose_one], by rw [hGC, hsym]⟩
  have hc : optCentre (icaReset o).center (of X) = .ok (cenState X, of (minusMeans X X)) := by
    show optCentre o.center (of X) = _
    rw [ho]
    exact optCentre_fresh X
  have hcfg := icaConfigure_white cfg hw (icaReset o) (minusMeans X X) (cenState X) X hc hK (whM u s hKr) hwh W (hun _ hwh) _
    (inverse_pinv hls hmp hCG)
  have hSA : (C * (minusMeans X X)ᵀ)ᵀ * Gᵀ = minusMeans X X * U * Uᵀ := by
    rw [← Matrix.transpose_mul, ← Matrix.mul_assoc, hGC, Matrix.transpose_mul, Matrix.transpose_transpose, hsym, Matrix.mul_assoc]
  refine ⟨⟨K, some (cenState X), some (of C), some (of (C * (minusMeans X X)ᵀ)ᵀ), some (of G), some (of (whM u s hKr)), true⟩,
    _, _, ?_, rfl, ?_, fun c => ?_, ⟨U, hUU, hSA⟩, fun Q hQ => ?_, fun hnp => ?_⟩
  · unfold icaTransform
    rw [hcfg, except_bind_ok]
  · have e1 : C * (minusMeans X X)ᵀ = W * -vh.submatrix (Fin.castLE hKr) id := by rw [hC, Matrix.mul_assoc, hwz]
    rw [Matrix.transpose_transpose, e1, Matrix.transpose_mul, Matrix.mul_assoc, ← Matrix.mul_assoc _ _ Wᵀ,
      lead_rows h.right, Matrix.one_mul, hW]
  · have h1 : ∀ j, ∑ i, minusMeans X X i j = 0 := by
      intro j
      unfold minusMeans
      simp only [Matrix.of_apply]
      rw [Finset.sum_sub_distrib, Finset.sum_const, Finset.card_univ, Fintype.card_fin, nsmul_eq_mul]
      rcases Nat.eq_zero_or_pos n with rfl | hn
      · simp
      · have : (n : ℝ) ≠ 0 := by exact_mod_cast hn.ne'
        field_simp
        simp
    simp only [Matrix.transpose_apply, Matrix.mul_apply]
    rw [Finset.sum_comm]
    refine Finset.sum_eq_zero fun j _ => ?_
    rw [← Finset.mul_sum, h1, mul_zero]
  · rw [hSA, proj_residual _ U hUU, proj_residual _ Q hQ]
    have := svd_best h hKr Q hQ
    rw [Matrix.transpose_transpose] at this
    exact sub_le_sub_left this _
  · unfold icaReconstruct
    rw [if_pos rfl]
    simp only []
    rw [transpose_of, mul_of, except_bind_ok, hSA, transpose_of]
    have hb : (inverseTransform center (of (minusMeans X X * U * Uᵀ)ᵀ) (cenState X)).2 = .error .valueError := by
      show addByVector (of (minusMeans X X * U * Uᵀ)ᵀ) _ = _
      exact vectorOp_row_bad _ _ _ rfl hnp
    rw [hb]
    rfl

/-! ### A concrete case -/

/-- Four samples of two features. -/
def apxX : Matrix (Fin 4) (Fin 2) ℝ := !![2, 1; 2, -1; -2, 1; -2, -1]

/-- One pass of deflation for one component, from the weight 1; the singular values are 4 and 2. -/
noncomputable def apxCfg : IcaCfg ℝ := { icaExCfg with
  winit := fun _ => of (1 : Matrix (Fin 1) (Fin 1) ℝ)
  svd := fun _ => .ok (of (1 : Matrix (Fin 2) (Fin 2) ℝ), of (Matrix.of fun (_ : Fin 1) (i : Fin 2) => (![4, 2] : Fin 2 → ℝ) i), of ((1 / 2 : ℝ) • icaEx))
  lstsq := pinvOf }

theorem apx_means : minusMeans apxX apxX = apxX := by
  ext i j
  simp only [minusMeans, Matrix.of_apply, Fin.sum_univ_four]
  fin_cases i <;> fin_cases j <;> (simp [apxX]; try norm_num)

theorem apx_svd : ThinSVD 2 apxXᵀ (1 : Matrix (Fin 2) (Fin 2) ℝ) ![4, 2] ((1 / 2 : ℝ) • icaEx) where
  size := by decide
  eq := by
    rw [Matrix.one_mul]
    ext i j
    rw [Matrix.diagonal_mul, Matrix.smul_apply, Matrix.transpose_apply]
    fin_cases i <;> fin_cases j <;> (simp [icaEx, apxX]; try norm_num)
  left := icaEx_svd.left
  right := icaEx_svd.right
  nonneg := fun i => by fin_cases i <;> simp
  anti := fun i j h => by fin_cases i <;> fin_cases j <;> simp_all; norm_num

/-- The one whitened component is `±(1, 1, -1, -1)`. -/
theorem apx_regular (Z : Matrix (Fin 1) (Fin 4) ℝ) (hZ : ∀ t, Z 0 t ^ 2 = 1) : IcaRegular apxCfg cubeG cubeD Z (1 : Matrix (Fin 1) (Fin 1) ℝ) := by
  intro j hj
  obtain rfl : j = 0 := by omega
  have h4 : ∀ t, Z 0 t ^ 4 = 1 := fun t => by rw [show (4 : Nat) = 2 * 2 from rfl, pow_mul, hZ, one_pow]
  have hv : rowVec (1 : Matrix (Fin 1) (Fin 1) ℝ) 0 = 1 := by
    ext a b
    fin_cases a; fin_cases b
    rfl
  have hr : len2 (rowVec (1 : Matrix (Fin 1) (Fin 1) ℝ) 0) = 1 := by
    rw [hv]
    simp [len2]
  refine ⟨by rw [hr]; exact one_ne_zero, fun i hi => ?_⟩
  have hp : ∀ S : Nat → Matrix (Fin 1) (Fin 1) ℝ, icaPasses apxCfg.tol apxCfg.maxIter S = 1 := by
    intro S
    show kStop (icaStop apxCfg.tol S) 1 0 = 1
    rw [kStop, kStop]
    split <;> rfl
  rw [hp] at hi
  obtain rfl : i = 0 := by omega
  have h0 : toUnit (rowVec (1 : Matrix (Fin 1) (Fin 1) ℝ) 0) = 1 := by
    ext a b
    unfold toUnit
    rw [hr, hv]
    simp
  have hraw : icaRaw cubeG cubeD Z (1 : Matrix (Fin 1) (Fin 1) ℝ) 0 0 = -2 := by
    simp only [icaRaw, expG, meanOf, cubeG, cubeD, Matrix.sub_apply, Matrix.smul_apply, Matrix.of_apply, Matrix.mul_one, Matrix.transpose_apply,
      Fin.sum_univ_four, Matrix.one_apply_eq, hZ]
    have e : ∀ t, Z 0 t * Z 0 t ^ 3 = 1 := fun t => by rw [← h4 t]; ring
    rw [e, e, e, e]
    norm_num
  have hd : defState apxCfg cubeG cubeD Z (1 : Matrix (Fin 1) (Fin 1) ℝ) 0 = 0 := rfl
  rw [hd, icaIter, h0]
  unfold len2 deco
  simp [hraw]

/-- The hypotheses of `C125_approximation` hold for four samples of two features and one component. -/
theorem apx_example : ∃ (o' : IcaObj ℝ) (S : Matrix (Fin 4) (Fin 1) ℝ) (A : Matrix (Fin 2) (Fin 1) ℝ),
    icaTransform apxCfg { icaFresh with numComponents := 1 } (of apxX) = .ok (o', of S) ∧ o'.mixing = some (of A) ∧ Sᵀ * S = 1 ∧
    ∀ Q : Matrix (Fin 2) (Fin 1) ℝ, Qᵀ * Q = 1 → ∑ i, ∑ j, (apxX i j - (S * Aᵀ) i j) ^ 2 ≤ ∑ i, ∑ j, (apxX i j - (apxX * Q * Qᵀ) i j) ^ 2 := by
  have hs : apxCfg.svd (of (minusMeans apxX apxX)ᵀ) = .ok (of (1 : Matrix (Fin 2) (Fin 2) ℝ), of (Matrix.of fun (_ : Fin 1) (i : Fin 2) => (![4, 2] : Fin 2 → ℝ) i),
      of ((1 / 2 : ℝ) • icaEx)) := rfl
  have hsvd : ThinSVD 2 (minusMeans apxX apxX)ᵀ (1 : Matrix (Fin 2) (Fin 2) ℝ) ![4, 2] ((1 / 2 : ℝ) • icaEx) := by
    rw [apx_means]
    exact apx_svd
  have hwz := whM_mul _ _ _ _ hsvd (show 1 ≤ 2 by decide) (fun a => by fin_cases a; simp)
  have h4 : Real.sqrt ((4 : Nat) : ℝ) = 2 := by
    rw [show ((4 : Nat) : ℝ) = 2 ^ 2 by norm_num]
    exact Real.sqrt_sq (by norm_num)
  obtain ⟨W, h1, h2⟩ := C88_deflation_partial apxCfg Nat.one_pos cubeG cubeD cube_col Nat.one_pos
    (Real.sqrt ((4 : Nat) : ℝ) • -((1 / 2 : ℝ) • icaEx).submatrix (Fin.castLE (show 1 ≤ 2 by decide)) id) _ (apx_regular _ (by
      intro t
      rw [h4]
      simp only [Matrix.smul_apply, Matrix.neg_apply, Matrix.submatrix_apply, smul_eq_mul]
      fin_cases t <;> simp [icaEx]))
  obtain ⟨o', S, A, e1, e2, e3, _, _, e4, _⟩ := C125_approximation (K := 1) apxCfg rfl pinvOf_routine { icaFresh with numComponents := 1 } rfl (by decide) apxX
    1 ![4, 2] ((1 / 2 : ℝ) • icaEx) hs hsvd (fun a _ => by fin_cases a <;> simp) W h2 (by
      intro wh hwh
      rw [icaWhitening_of apxCfg _ _ _ _ hsvd.size hs (show 1 ≤ 2 by decide), ok_inj, of_inj] at hwh
      rw [← hwh, hwz]
      exact h1)
  rw [apx_means] at e4
  exact ⟨o', S, A, e1, e2, e3, e4⟩

end Verif.Props
