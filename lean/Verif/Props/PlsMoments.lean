import Verif.Props.PlsPrepProps
import Verif.Props.SimplsProps

/-!
# C128: the single-response PLS methods see the training data only through `XᵀX` and `Xᵀy`

`PLS1.do_perform_initialization` (`_PLS1.py` 84-134) and `SIMPLS.do_perform_initialization` (`_SIMPLS.py` 115-172)
are given the whole training data, but two training sets — possibly with different numbers of samples — with
proportional second moments `XᵀX` and `Xᵀy` yield the same model.  A consequence users rely on: entering every
sample the same number of times, or adding samples that are zero after preprocessing, changes nothing.
-/

namespace Verif.Props

open Verif Mat Factory Transf
open scoped Matrix

variable {n n' p : Nat}

/-- Two training sets with the second moments of one `c` times those of the other. -/
def SameMoments (c : ℝ) (X : Matrix (Fin n) (Fin p) ℝ) (y : Matrix (Fin n) (Fin 1) ℝ)
    (X' : Matrix (Fin n') (Fin p) ℝ) (y' : Matrix (Fin n') (Fin 1) ℝ) : Prop :=
  X'ᵀ * X' = c • (Xᵀ * X) ∧ X'ᵀ * y' = c • (Xᵀ * y)

section
variable {c : ℝ} {X : Matrix (Fin n) (Fin p) ℝ} {y : Matrix (Fin n) (Fin 1) ℝ} {X' : Matrix (Fin n') (Fin p) ℝ}
  {y' : Matrix (Fin n') (Fin 1) ℝ}

theorem SameMoments.weights (hc : 0 < c) (h : SameMoments c X y X' y') : pls1W y' X' = pls1W y X := by
  ext i j
  have hs : sq1 (X'ᵀ * y') = c ^ 2 * sq1 (Xᵀ * y) := by
    rw [h.2]
    simp only [sq1, Matrix.smul_apply, smul_eq_mul, Finset.mul_sum]
    exact Finset.sum_congr rfl fun l _ => by ring
  simp only [pls1W, Matrix.of_apply]
  rw [hs, Real.sqrt_mul (by positivity), Real.sqrt_sq hc.le, h.2, Matrix.smul_apply, smul_eq_mul,
    mul_div_mul_left _ _ hc.ne']

theorem sq1_score (A : Matrix (Fin n) (Fin p) ℝ) (w : Matrix (Fin p) (Fin 1) ℝ) :
    sq1 (A * w) = (wᵀ * (Aᵀ * A) * w) 0 0 := by
  rw [← sq1_eq, Matrix.transpose_mul]
  simp only [Matrix.mul_assoc]

theorem SameMoments.sq1 (h : SameMoments c X y X' y') (w : Matrix (Fin p) (Fin 1) ℝ) :
    sq1 (X' * w) = c * sq1 (X * w) := by
  rw [sq1_score, sq1_score, h.1, Matrix.mul_smul, Matrix.smul_mul, Matrix.smul_apply, smul_eq_mul]

theorem SameMoments.loading (hc : 0 < c) (h : SameMoments c X y X' y') (w : Matrix (Fin p) (Fin 1) ℝ) :
    loading X' (X' * w) = loading X (X * w) := by
  rw [loading_eq, loading_eq, h.sq1, ← Matrix.mul_assoc, ← Matrix.mul_assoc, h.1, Matrix.smul_mul, smul_smul,
    mul_inv, mul_comm c⁻¹, mul_assoc, inv_mul_cancel₀ hc.ne', mul_one]

theorem deflate_factor (A : Matrix (Fin n) (Fin p) ℝ) (w : Matrix (Fin p) (Fin 1) ℝ) :
    deflate A (A * w) = A * (1 - w * (loading A (A * w))ᵀ) := by
  rw [deflate, Matrix.mul_sub, Matrix.mul_one, Matrix.mul_assoc]

theorem SameMoments.deflate (hc : 0 < c) (h : SameMoments c X y X' y') (w : Matrix (Fin p) (Fin 1) ℝ) :
    SameMoments c (deflate X (X * w)) y (deflate X' (X' * w)) y' := by
  rw [SameMoments, deflate_factor, deflate_factor, h.loading hc]
  generalize 1 - w * (Verif.loading X (X * w))ᵀ = D
  constructor
  · rw [Matrix.transpose_mul, Matrix.transpose_mul, Matrix.mul_assoc, ← Matrix.mul_assoc X'ᵀ, h.1,
      Matrix.mul_assoc, ← Matrix.mul_assoc Xᵀ, Matrix.smul_mul, Matrix.mul_smul]
  · rw [Matrix.transpose_mul, Matrix.transpose_mul, Matrix.mul_assoc, h.2, Matrix.mul_assoc, Matrix.mul_smul]

theorem SameMoments.plsX (hc : 0 < c) (h : SameMoments c X y X' y') (k : Nat) :
    SameMoments c (plsX (pls1W y) X k) y (plsX (pls1W y') X' k) y' := by
  induction k with
  | zero => exact h
  | succ k ih =>
    show SameMoments c (Verif.deflate _ (_ * pls1W y _)) y (Verif.deflate _ (_ * pls1W y' _)) y'
    rw [ih.weights hc]
    exact ih.deflate hc _

theorem SameMoments.plsW (hc : 0 < c) (h : SameMoments c X y X' y') (k : Nat) :
    plsW (pls1W y') X' k = plsW (pls1W y) X k := (h.plsX hc k).weights hc

theorem SameMoments.plsP (hc : 0 < c) (h : SameMoments c X y X' y') (k : Nat) :
    plsP (pls1W y') X' k = plsP (pls1W y) X k := by
  rw [Verif.plsP, Verif.plsP, plsT, plsT, h.plsW hc]
  exact (h.plsX hc k).loading hc _

theorem SameMoments.plsT (hc : 0 < c) (h : SameMoments c X y X' y') (k : Nat) :
    Verif.sq1 (plsT (pls1W y') X' k) = c * Verif.sq1 (plsT (pls1W y) X k) := by
  rw [Verif.plsT, Verif.plsT, h.plsW hc]
  exact (h.plsX hc k).sq1 _

theorem plsB_cross (A : Matrix (Fin n) (Fin p) ℝ) (w : Matrix (Fin p) (Fin 1) ℝ) (b : Matrix (Fin n) (Fin 1) ℝ) :
    ∑ l, (A * w) l 0 * b l 0 = (wᵀ * (Aᵀ * b)) 0 0 := by
  rw [← Matrix.mul_assoc, ← Matrix.transpose_mul, Matrix.mul_apply]
  rfl

theorem SameMoments.plsB (hc : 0 < c) (h : SameMoments c X y X' y') (k : Nat) :
    plsB (pls1W y') X' y' k = plsB (pls1W y) X y k := by
  rw [Verif.plsB, Verif.plsB, h.plsT hc, Verif.plsT, Verif.plsT, h.plsW hc, plsB_cross, plsB_cross,
    (h.plsX hc k).2, Matrix.mul_smul, Matrix.smul_apply, smul_eq_mul, mul_div_mul_left _ _ hc.ne']

theorem SameMoments.regular (hc : 0 < c) (h : SameMoments c X y X' y') {K : Nat} (hr : Regular (pls1W y) K X) :
    Regular (pls1W y') K X' :=
  Regular.of_sq1 fun k hk => by
    rw [h.plsT hc]
    exact mul_ne_zero hc.ne' (hr.sq1_ne k hk)

end

/-- **C128.** Training `PLS1` on two data sets with proportional second moments gives the same weights, loadings and
coefficients, whatever the numbers of samples. -/
theorem C128_pls1 (hn : 0 < n) (hn' : 0 < n') (hp : 0 < p) {K : Nat} (hK : 0 < K) {c : ℝ} (hc : 0 < c)
    (X : Matrix (Fin n) (Fin p) ℝ) (y : Matrix (Fin n) (Fin 1) ℝ) (X' : Matrix (Fin n') (Fin p) ℝ)
    (y' : Matrix (Fin n') (Fin 1) ℝ) (hX : X'ᵀ * X' = c • (Xᵀ * X)) (hy : X'ᵀ * y' = c • (Xᵀ * y))
    (hr : Regular (pls1W y) K X) :
    ∃ (m : Pls1Model ℝ) (T T' : Mat ℝ), pls1Train pls1Weights K (of X) (of y) = .ok (m, T) ∧
      pls1Train pls1Weights K (of X') (of y') = .ok (m, T') := by
  have h : SameMoments c X y X' y' := ⟨hX, hy⟩
  refine ⟨_, _, of (plsTM (pls1W y') K X'),
    pls1Train_eq (pls1W y) pls1Weights K hn hp hK X y (fun k _ => pls1Weights_eq y _) hr.sq1_ne, ?_⟩
  have e := pls1Train_eq (pls1W y') pls1Weights K hn' hp hK X' y' (fun k _ => pls1Weights_eq y' _)
    (h.regular hc hr).sq1_ne
  have hW : plsWM (pls1W y') K X' = plsWM (pls1W y) K X := by
    ext i j
    simp only [plsWM, Matrix.of_apply, h.plsW hc]
  have hP : plsPM (pls1W y') K X' = plsPM (pls1W y) K X := by
    ext i j
    simp only [plsPM, Matrix.of_apply, h.plsP hc]
  have hB : plsBM (pls1W y') K X' y' = plsBM (pls1W y) K X y := by
    ext i j
    simp only [plsBM, Matrix.of_apply, h.plsB hc]
  rw [hW, hP, hB] at e
  exact e

/-- **C128.** `SIMPLS` on two data sets with the same second moments: the same result, slimmed or not, whether training
succeeds or fails, for every scalar type and every eigenvector routine. -/
theorem C128_simpls {α : Type} [Field α] [LinearOrder α] [HasSqrt α] (dom : Mat α → Except PyErr (Mat α))
    (K count : Int) {q : Nat} (X : Matrix (Fin n) (Fin p) α) (y : Matrix (Fin n) (Fin q) α)
    (X' : Matrix (Fin n') (Fin p) α) (y' : Matrix (Fin n') (Fin q) α) (hX : X'ᵀ * X' = Xᵀ * X)
    (hy : X'ᵀ * y' = Xᵀ * y) :
    simplsTrain dom K count (of X') (of y') = simplsTrain dom K count (of X) (of y) := by
  have h : simplsInit K (of X') (of y') = simplsInit K (of X) (of y) := by
    unfold simplsInit
    simp only [transpose_of, mul_of, hX, hy]
  unfold simplsTrain
  rw [h]

/-- **C128.** `SIMPLS` on two data sets with proportional second moments predicts the same. -/
theorem C128_simpls_scaled {eig : Mat ℝ → Mat ℝ × Mat ℝ} (he : EigOne eig) (hn : 0 < n) (hn' : 0 < n') (hp : 0 < p)
    {K : Nat} (hK : 0 < K) {count : Int} (hcount : count ≤ 0) {c : ℝ} (hc : 0 < c)
    (X : Matrix (Fin n) (Fin p) ℝ) (y : Matrix (Fin n) (Fin 1) ℝ) (X' : Matrix (Fin n') (Fin p) ℝ)
    (y' : Matrix (Fin n') (Fin 1) ℝ) (hX : X'ᵀ * X' = c • (Xᵀ * X)) (hy : X'ᵀ * y' = c • (Xᵀ * y))
    (hr : Regular (pls1W y) K X) :
    ∃ m m' : SimplsModel ℝ, simplsTrain (domOf eig) K count (of X) (of y) = .ok m ∧
      simplsTrain (domOf eig) K count (of X') (of y') = .ok m' ∧
      ∀ (r : Nat), 0 < r → ∀ Z : Matrix (Fin r) (Fin p) ℝ, ∃ F : Matrix (Fin r) (Fin 1) ℝ,
        simplsPredict m (of Z) = .ok (of F) ∧ simplsPredict m' (of Z) = .ok (of F) := by
  have h : SameMoments c X y X' y' := ⟨hX, hy⟩
  obtain ⟨m, b, T, h1, h2, h3⟩ := C73_same_predictions he hn hp hK hcount X y hr
  obtain ⟨m', b', T', h1', h2', h3'⟩ := C73_same_predictions he hn' hp hK hcount X' y' (h.regular hc hr)
  obtain ⟨b0, T0, T0', e, e'⟩ := C128_pls1 hn hn' hp hK hc X y X' y' hX hy hr
  refine ⟨m, m', h1, h1', fun r hr0 Z => ?_⟩
  obtain ⟨F, f1, f2⟩ := h3 r hr0 Z
  obtain ⟨F', f1', f2'⟩ := h3' r hr0 Z
  have hb : b = b' := by
    rw [h2] at e
    rw [h2'] at e'
    injection e with e
    injection e' with e'
    exact (congrArg Prod.fst e).trans (congrArg Prod.fst e').symm
  subst hb
  rw [f2] at f2'
  injection f2' with f2'
  exact ⟨F, f1, by rw [f1', ← f2']⟩

/-! ## Repeating every sample -/

section
variable {f : Fin n' → Fin n} {m : Nat}

/-- Sums over a sample in which everyone occurs `m` times. -/
theorem sum_repeat (hf : ∀ i, (Finset.univ.filter fun j => f j = i).card = m) (g : Fin n → ℝ) :
    ∑ j, g (f j) = (m : ℝ) * ∑ i, g i := by
  rw [← Finset.sum_fiberwise Finset.univ f, Finset.mul_sum]
  refine Finset.sum_congr rfl fun i _ => ?_
  rw [Finset.sum_congr rfl fun j hj => congrArg g (Finset.mem_filter.1 hj).2, Finset.sum_const, hf i,
    nsmul_eq_mul]

theorem card_repeat (hf : ∀ i, (Finset.univ.filter fun j => f j = i).card = m) : (n' : ℝ) = m * n := by
  have := sum_repeat hf fun _ => 1
  simpa using this

theorem mul_repeat {q : Nat} (hf : ∀ i, (Finset.univ.filter fun j => f j = i).card = m)
    (A : Matrix (Fin n) (Fin p) ℝ) (B : Matrix (Fin n) (Fin q) ℝ) :
    (A.submatrix f id)ᵀ * B.submatrix f id = (m : ℝ) • (Aᵀ * B) := by
  ext a b
  simp only [Matrix.mul_apply, Matrix.smul_apply, Matrix.transpose_apply, Matrix.submatrix_apply, id, smul_eq_mul]
  exact sum_repeat hf fun i => A i a * B i b

theorem mu_repeat (hm : 0 < m) (hf : ∀ i, (Finset.univ.filter fun j => f j = i).card = m) (g : Fin n → ℝ) :
    (mu fun j => g (f j)) = mu g := by
  rw [mu, mu, sum_repeat hf, card_repeat hf, mul_div_mul_left _ _ (by positivity)]

theorem cen_repeat {q : Nat} (hm : 0 < m) (hf : ∀ i, (Finset.univ.filter fun j => f j = i).card = m)
    (A : Matrix (Fin n) (Fin q) ℝ) :
    cen (A.submatrix f id) (A.submatrix f id) = (cen A A).submatrix f id := by
  ext i j
  simp only [cen, Matrix.of_apply, Matrix.submatrix_apply, id]
  rw [mu_repeat hm hf fun i => A i j]

end

/-- **C128.** Entering every sample `m` times leaves a `PLS1` trained without preprocessing unchanged. -/
theorem C128_repeat (hn : 0 < n) (hn' : 0 < n') (hp : 0 < p) {K m : Nat} (hK : 0 < K) (hm : 0 < m)
    (f : Fin n' → Fin n) (hf : ∀ i, (Finset.univ.filter fun j => f j = i).card = m)
    (X : Matrix (Fin n) (Fin p) ℝ) (y : Matrix (Fin n) (Fin 1) ℝ) (hr : Regular (pls1W y) K X)
    (isZero : ℝ → Bool) :
    ∃ s, singleTrain isZero (pls1Base K) .none (of X) (of y) = .ok s ∧
      singleTrain isZero (pls1Base K) .none (of (X.submatrix f id)) (of (y.submatrix f id)) = .ok s := by
  obtain ⟨b, T, T', h, h'⟩ := C128_pls1 hn hn' hp hK (Nat.cast_pos.2 hm) X y _ _ (mul_repeat hf X X)
    (mul_repeat hf X y) hr
  refine ⟨⟨0, 1, false, b⟩, ?_, ?_⟩
  · simp only [singleTrain, classStats, prepApply, except_bind_ok, pls1Base, h]
    rfl
  · simp only [singleTrain, classStats, prepApply, except_bind_ok, pls1Base, h']
    rfl

/-- **C128.** Entering every sample `m` times leaves a `PLS1` trained with centering unchanged, the stored response mean
included. -/
theorem C128_repeat_center (hn : 0 < n) (hn' : 0 < n') (hp : 0 < p) {K m : Nat} (hK : 0 < K) (hm : 0 < m)
    (f : Fin n' → Fin n) (hf : ∀ i, (Finset.univ.filter fun j => f j = i).card = m)
    (X : Matrix (Fin n) (Fin p) ℝ) (y : Matrix (Fin n) (Fin 1) ℝ)
    (hr : Regular (pls1W (cen y y)) K (cen X X)) (isZero : ℝ → Bool) :
    ∃ s, singleTrain isZero (pls1Base K) .center (of X) (of y) = .ok s ∧
      singleTrain isZero (pls1Base K) .center (of (X.submatrix f id)) (of (y.submatrix f id)) = .ok s := by
  obtain ⟨b, T, T', h, h'⟩ := C128_pls1 hn hn' hp hK (Nat.cast_pos.2 hm) (cen X X) (cen y y) _ _
    (mul_repeat hf _ _) (mul_repeat hf _ _) hr
  refine ⟨⟨mu fun i => y i 0, 1, true, b⟩, ?_, ?_⟩
  · simp only [singleTrain, classStats_center, prepApply_center, except_bind_ok, pls1Base, h]
    rfl
  · simp only [singleTrain, classStats_center, prepApply_center, except_bind_ok, pls1Base, cen_repeat hm hf, h',
      Matrix.submatrix_apply, id]
    rw [mu_repeat hm hf fun i => y i 0]
    rfl

/-! ## A case -/

/-- Two samples, each entered twice: the hypotheses of the theorems hold, and so do the conclusions. -/
example : ∃ s, singleTrain (fun _ => false) (pls1Base 2) .none (of exX) (of exY) = .ok s ∧
    singleTrain (fun _ => false) (pls1Base 2) .none (of (!![1, 0; 1, 0; 0, 2; 0, 2] : Matrix (Fin 4) (Fin 2) ℝ))
      (of (!![3; 3; 2; 2] : Matrix (Fin 4) (Fin 1) ℝ)) = .ok s := by
  have h := C128_repeat (by norm_num) (by norm_num) (by norm_num) (K := 2) (m := 2) (by norm_num) (by norm_num)
    (![0, 0, 1, 1] : Fin 4 → Fin 2) (by decide) exX exY ex_regular fun _ => false
  have e1 : exX.submatrix (![0, 0, 1, 1] : Fin 4 → Fin 2) id = !![1, 0; 1, 0; 0, 2; 0, 2] := by
    ext i j
    fin_cases i <;> fin_cases j <;> rfl
  have e2 : exY.submatrix (![0, 0, 1, 1] : Fin 4 → Fin 2) id = !![3; 3; 2; 2] := by
    ext i j
    fin_cases i <;> fin_cases j <;> rfl
  rw [e1, e2] at h
  exact h

end Verif.Props
