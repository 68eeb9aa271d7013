import Verif.Alg.OPLS
import Verif.Alg.NipalsPls1
import Verif.Props.PLS1Props

/-!
# C57: OPLS

`OrthVar` says that the predictors have variation orthogonal to the weights before each of the `K` components, which
is what excludes a division by zero in the loop.  The base algorithm is arbitrary.
-/

set_option linter.unusedSimpArgs false

namespace Verif.Props

open Verif Mat
open scoped Matrix

variable {M : Type} {n p K : Nat}

/-- The textbook recursion for a unit weight vector `w`: the part of `X^T X w` orthogonal to `w` does not vanish, and
the same after removing its score `X v` from `X`. -/
def OrthVar (w : Matrix (Fin p) (Fin 1) ℝ) : Nat → Matrix (Fin n) (Fin p) ℝ → Prop
  | 0, _ => True
  | K + 1, X =>
    let v := Xᵀ * (X * w) - w * (wᵀ * (Xᵀ * (X * w)))
    let t := X * v
    v ≠ 0 ∧ OrthVar w K (X - ((tᵀ * t) 0 0)⁻¹ • (t * (tᵀ * X)))

theorem oV_eq {w : Matrix (Fin p) (Fin 1) ℝ} (hw : sq1 w = 1) (X : Matrix (Fin n) (Fin p) ℝ) :
    oV w X = (sq1 (X * w))⁻¹ • (Xᵀ * (X * w) - w * (wᵀ * (Xᵀ * (X * w)))) := by
  have hs : oS w X = X * w := by rw [oS, hw, div_one, one_smul]
  rw [oV, oL, hs, hw, div_one, one_smul, mul_one_one, smul_sub, one_div, Matrix.mul_smul, smul_smul]
  rfl

theorem oX_shift (w : Matrix (Fin p) (Fin 1) ℝ) (X : Matrix (Fin n) (Fin p) ℝ) (k : Nat) :
    oX w X (k + 1) = oX w (oX w X 1) k := by
  induction k with
  | zero => rfl
  | succ k ih => rw [oX_next, ih, ← oX_next w (oX w X 1) k]

theorem nrm_smul {m : Nat} {c : ℝ} (hc : 0 < c) (v : Matrix (Fin m) (Fin 1) ℝ) : nrm (c • v) = nrm v := by
  rw [nrm, nrm, sq1_smul, Real.sqrt_mul (by positivity), Real.sqrt_mul_self hc.le, smul_smul]
  congr 1
  by_cases h : Real.sqrt (sq1 v) = 0
  · rw [h]; simp
  · field_simp

theorem oX_one {w : Matrix (Fin p) (Fin 1) ℝ} (X : Matrix (Fin n) (Fin p) ℝ) (hv : oV w X ≠ 0) :
    oX w X 1 = deflate X (X * oV w X) := by
  have h1 : sq1 (oW w X) = 1 := sq1_nrm _ hv
  have ht : oT w X = (Real.sqrt (sq1 (oV w X)))⁻¹ • (X * oV w X) := by
    rw [oT, h1, div_one, one_smul, oW, nrm, Matrix.mul_smul]
  have h0 : (Real.sqrt (sq1 (oV w X)))⁻¹ ≠ 0 := by
    intro e
    rw [oW, nrm, e, zero_smul, (sq1_eq_zero _).mpr rfl] at h1
    exact zero_ne_one h1
  rw [← deflate_smul _ _ h0, ← ht, deflate, loading_eq, oX_next, oX, oP, one_div]

theorem OrthVar.oV_ne {w : Matrix (Fin p) (Fin 1) ℝ} (hw : sq1 w = 1) {X : Matrix (Fin n) (Fin p) ℝ}
    (h : OrthVar w K X) (hs : ∀ k < K, sq1 (oX w X k * w) ≠ 0) : ∀ k < K, oV w (oX w X k) ≠ 0 := by
  induction K generalizing X with
  | zero => intro k hk; omega
  | succ K ih =>
    obtain ⟨h1, h2⟩ := h
    have h0 : sq1 (X * w) ≠ 0 := hs 0 (by omega)
    have hne : oV w X ≠ 0 := by
      rw [oV_eq hw]
      exact smul_ne_zero (inv_ne_zero h0) h1
    intro k hk
    cases k with
    | zero => exact hne
    | succ k =>
      rw [oX_shift]
      refine ih ?_ (fun j hj => ?_) k (by omega)
      · rw [sq1_eq, ← deflate_eq] at h2
        rw [oX_one X hne, oV_eq hw, Matrix.mul_smul, deflate_smul _ _ (inv_ne_zero h0)]
        exact h2
      · rw [← oX_shift]
        exact hs (j + 1) (by omega)

section facts
variable (X : Matrix (Fin n) (Fin p) ℝ) (y : Matrix (Fin n) (Fin 1) ℝ)

theorem opW_eq (hXy : Xᵀ * y ≠ 0) : opW X y = pls1W y X ∧ sq1 (opW X y) = 1 ∧
    Xᵀ * y = Real.sqrt (sq1 (Xᵀ * y)) • opW X y ∧ Real.sqrt (sq1 (Xᵀ * y)) ≠ 0 := by
  have hy : sq1 y ≠ 0 := by
    intro e
    rw [(sq1_eq_zero y).mp e, Matrix.mul_zero] at hXy
    exact hXy rfl
  have hpos : 0 < sq1 y := lt_of_le_of_ne (sq1_nonneg y) (Ne.symm hy)
  have hs : 0 < sq1 (Xᵀ * y) := lt_of_le_of_ne (sq1_nonneg _) fun e => hXy ((sq1_eq_zero _).mp e.symm)
  have hr : Real.sqrt (sq1 (Xᵀ * y)) ≠ 0 := (Real.sqrt_pos.2 hs).ne'
  have e : opW X y = nrm (Xᵀ * y) := nrm_smul (by positivity) _
  refine ⟨by rw [e, pls1W_eq, nrm], by rw [e, sq1_nrm _ hXy], ?_, hr⟩
  rw [e, nrm, smul_smul, mul_inv_cancel₀ hr, one_smul]

variable {X y}

theorem opls_facts (hXy : Xᵀ * y ≠ 0) (h : OrthVar (pls1W y X) K X) :
    sq1 (opW X y) = 1 ∧ (∀ k, (oT (opW X y) (oX (opW X y) X k))ᵀ * y = 0) ∧
      (∀ k < K, sq1 (oT (opW X y) (oX (opW X y) X k)) ≠ 0) ∧
      ∀ k < K, sq1 (oW (opW X y) (oX (opW X y) X k)) = 1 := by
  obtain ⟨e, hw, hc, ha⟩ := opW_eq X y hXy
  rw [← e] at h
  have hv := h.oV_ne hw fun k _ => by
    have := oS_ne X y hw ha hc k
    rwa [oS, hw, div_one, one_smul] at this
  exact ⟨hw, oT_orth_y X y hw hc, fun k hk => oT_ne X y hw ha hc k (hv k hk), fun k hk => sq1_nrm _ (hv k hk)⟩

end facts

/-- The base algorithm accepts the data it is given. -/
def Accepts (base : BasePls ℝ M) : Prop := ∀ X y, ∃ msg, (base.init X y).2 = .ok msg

/-- **C57.** The scores `T` of the removed components are orthogonal to the response and to each other, none is zero,
the predictors left over are `X - T P^T`, they are orthogonal to every removed score, and their covariance with the
response is that of the original predictors: nothing predictive is removed. -/
theorem C57_orthogonal (base : BasePls ℝ M) (hb : Accepts base) (hn : 0 < n) (hp : 0 < p)
    (X : Matrix (Fin n) (Fin p) ℝ) (y : Matrix (Fin n) (Fin 1) ℝ) (hXy : Xᵀ * y ≠ 0) (h : OrthVar (pls1W y X) K X) :
    ∃ (m : OplsModel ℝ M) (T : Matrix (Fin n) (Fin K) ℝ) (P : Matrix (Fin p) (Fin K) ℝ) (F : Matrix (Fin n) (Fin p) ℝ),
      oplsTrain base K (of X) (of y) = .ok (m, none) ∧ m.T = of T ∧ m.P = of P ∧ m.Xosc = of F ∧
      (∀ k, ∑ i, T i k * y i 0 = 0) ∧ (∀ j k, j ≠ k → ∑ i, T i j * T i k = 0) ∧ (∀ k, ∑ i, T i k * T i k ≠ 0) ∧
      F = X - T * Pᵀ ∧ Tᵀ * F = 0 ∧ Fᵀ * y = Xᵀ * y := by
  obtain ⟨hw, hty, htn, -⟩ := opls_facts hXy h
  obtain ⟨-, -, hc, -⟩ := opW_eq X y hXy
  obtain ⟨msg, hmsg⟩ := hb (of (X - X * oWM (opW X y) X K * (oPM (opW X y) X K)ᵀ)) (of y)
  have horth : ∀ i < K, ∀ j < K, i < j →
      (oT (opW X y) (oX (opW X y) X i))ᵀ * oT (opW X y) (oX (opW X y) X j) = 0 := by
    intro i hi j hj hij
    obtain ⟨d, rfl⟩ : ∃ d, j = i + d + 1 := ⟨j - i - 1, by omega⟩
    have := oT_orth_X (w := opW X y) X i d fun k hk => htn k (by omega)
    rw [← oT_def _ (oX (opW X y) X (i + d + 1)), Matrix.mul_smul, ← Matrix.mul_assoc, this, Matrix.zero_mul, smul_zero]
  refine ⟨⟨of (oWM (opW X y) X K), of (oPM (opW X y) X K), of (oTM (opW X y) X K), of (oX (opW X y) X K),
      (base.init (of (X - X * oWM (opW X y) X K * (oPM (opW X y) X K)ᵀ)) (of y)).1⟩, oTM (opW X y) X K, oPM (opW X y) X K, oX (opW X y) X K, ?_, rfl, rfl, rfl, fun k => ?_, fun j k hjk => ?_,
    fun k => ?_, oX_sum X K, ?_, ?_⟩
  · rw [oplsTrain_eq X y base K hn hp, hmsg]
    rfl
  · have := congrFun (congrFun (hty k.1) 0) 0
    rw [Matrix.mul_apply] at this
    exact this
  · rcases Nat.lt_or_gt_of_ne fun e => hjk (Fin.ext e) with hlt | hgt
    · have := congrFun (congrFun (horth j.1 j.2 k.1 k.2 hlt) 0) 0
      rw [Matrix.mul_apply] at this
      exact this
    · have := congrFun (congrFun (horth k.1 k.2 j.1 j.2 hgt) 0) 0
      rw [Matrix.mul_apply] at this
      rw [← show (0 : Matrix (Fin 1) (Fin 1) ℝ) 0 0 = 0 from rfl, ← this]
      exact Finset.sum_congr rfl fun i _ => mul_comm _ _
  · exact htn k.1 k.2
  · ext i j
    obtain ⟨d, hd⟩ : ∃ d, K = i.1 + d + 1 := ⟨K - i.1 - 1, by have := i.2; omega⟩
    have := oT_orth_X (w := opW X y) X i.1 d (by rw [← hd]; exact htn)
    rw [← hd] at this
    have h2 := congrFun (congrFun this 0) j
    rw [Matrix.mul_apply] at h2 ⊢
    exact h2
  · rw [oX_cov X y hw hc K, ← hc]

/-- **C57.** The base model is trained on exactly what `transform` returns for the training data, and predictions are
the base predictions for the transformed data.  The transformation is `Z ↦ Z - Z W P^T`; on the training data it
leaves the covariance with the response alone. -/
theorem C57_base_data (base : BasePls ℝ M) (hb : Accepts base) (hn : 0 < n) (hp : 0 < p)
    (X : Matrix (Fin n) (Fin p) ℝ) (y : Matrix (Fin n) (Fin 1) ℝ) (hXy : Xᵀ * y ≠ 0) (h : OrthVar (pls1W y X) K X) :
    ∃ (m : OplsModel ℝ M) (W P : Matrix (Fin p) (Fin K) ℝ) (F : Matrix (Fin n) (Fin p) ℝ),
      oplsTrain base K (of X) (of y) = .ok (m, none) ∧ m.W = of W ∧ m.P = of P ∧
      oplsTransform m (of X) = .ok (of F) ∧ m.base = (base.init (of F) (of y)).1 ∧ Fᵀ * y = Xᵀ * y ∧
      (∀ k, ∑ i, W i k * W i k = 1) ∧
      ∀ (r : Nat) (Z : Matrix (Fin r) (Fin p) ℝ), oplsTransform m (of Z) = .ok (of (Z - Z * W * Pᵀ)) ∧
        oplsPredict base m (of Z) = base.predict m.base (of (Z - Z * W * Pᵀ)) := by
  obtain ⟨hw, -, -, hw1⟩ := opls_facts hXy h
  obtain ⟨-, -, hc, -⟩ := opW_eq X y hXy
  obtain ⟨msg, hmsg⟩ := hb (of (X - X * oWM (opW X y) X K * (oPM (opW X y) X K)ᵀ)) (of y)
  refine ⟨⟨of (oWM (opW X y) X K), of (oPM (opW X y) X K), of (oTM (opW X y) X K), of (oX (opW X y) X K), _⟩,
    oWM (opW X y) X K, oPM (opW X y) X K, X - X * oWM (opW X y) X K * (oPM (opW X y) X K)ᵀ, ?_, rfl, rfl,
    oplsFilter_eq _ _ _, rfl, ?_, fun k => hw1 k.1 k.2, fun r Z => ⟨oplsFilter_eq _ _ _, ?_⟩⟩
  · rw [oplsTrain_eq X y base K hn hp, hmsg]
    rfl
  · have : (oWM (opW X y) X K)ᵀ * (Xᵀ * y) = 0 := by
      rw [hc, Matrix.mul_smul]
      ext i j
      have := congrFun (congrFun (congrArg Matrix.transpose (oWn_orth (w := opW X y) (oX (opW X y) X i.1) hw)) 0) 0
      rw [Matrix.transpose_mul, Matrix.transpose_transpose, Matrix.mul_apply] at this
      rw [Subsingleton.elim j 0, Matrix.smul_apply, Matrix.mul_apply]
      refine (congrArg _ this).trans ?_
      simp
    rw [Matrix.transpose_sub, Matrix.sub_mul, Matrix.transpose_mul, Matrix.transpose_mul, Matrix.transpose_transpose,
      Matrix.mul_assoc, Matrix.mul_assoc, this, Matrix.mul_zero, sub_zero]
  · unfold oplsPredict oplsTransform
    rw [oplsFilter_eq, except_bind_ok]

/-- **C57.** With one component the transformed training data are the predictors with the orthogonal score removed
(`X_osc`).  Missing for C57: more components, where it is false (`C57_filtered_violation`). -/
theorem C57_filtered_partial (base : BasePls ℝ M) (hb : Accepts base) (hn : 0 < n) (hp : 0 < p)
    (X : Matrix (Fin n) (Fin p) ℝ) (y : Matrix (Fin n) (Fin 1) ℝ) (hXy : Xᵀ * y ≠ 0) (h : OrthVar (pls1W y X) 1 X) :
    ∃ m, oplsTrain base 1 (of X) (of y) = .ok (m, none) ∧ oplsTransform m (of X) = .ok m.Xosc := by
  obtain ⟨-, -, -, hw1⟩ := opls_facts hXy h
  obtain ⟨msg, hmsg⟩ := hb (of (X - X * oWM (opW X y) X 1 * (oPM (opW X y) X 1)ᵀ)) (of y)
  refine ⟨⟨of (oWM (opW X y) X 1), of (oPM (opW X y) X 1), of (oTM (opW X y) X 1), of (oX (opW X y) X 1),
      (base.init (of (X - X * oWM (opW X y) X 1 * (oPM (opW X y) X 1)ᵀ)) (of y)).1⟩, ?_,
    (oplsFilter_eq _ _ _).trans ?_⟩
  · refine (oplsTrain_eq X y base 1 hn hp).trans ?_
    rw [hmsg]
    rfl
  · congr 2
    rw [oX_sum X 1]
    congr 2
    ext i j
    rw [Subsingleton.elim j 0]
    show (X * oWM (opW X y) X 1) i 0 = oT (opW X y) X i 0
    rw [← oT_def (opW X y) X, show sq1 (oW (opW X y) X) = 1 from hw1 0 (by decide), div_one, one_smul, Matrix.mul_apply,
      Matrix.mul_apply]
    rfl

/-! ### Two components -/

def osX : Matrix (Fin 3) (Fin 3) ℝ := !![1, 1, 0; 0, 1, 1; 0, 0, 1]
def osY : Matrix (Fin 3) (Fin 1) ℝ := !![1; -1; 1]

theorem osXy : osXᵀ * osY = !![1; 0; 0] := by
  ext i j
  fin_cases i <;> fin_cases j <;> simp [osX, osY, Matrix.mul_apply, Fin.sum_univ_three]

theorem nrm_unit {m : Nat} (v : Matrix (Fin m) (Fin 1) ℝ) (h : sq1 v = 1) : nrm v = v := by
  rw [nrm, h, Real.sqrt_one, inv_one, one_smul]

theorem osW : opW osX osY = !![1; 0; 0] := by
  have h : osXᵀ * osY ≠ 0 := by
    rw [osXy]
    intro e
    have := congrFun (congrFun e 0) 0
    simp at this
  rw [(opW_eq osX osY h).1, pls1W_eq, osXy]
  exact nrm_unit _ (by simp [sq1, Fin.sum_univ_three])

/-- One component when the orthogonal direction is already a unit vector. -/
theorem o_step {w v t q : Matrix (Fin 3) (Fin 1) ℝ} {X X' : Matrix (Fin 3) (Fin 3) ℝ} (hw : sq1 w = 1)
    (hv : (sq1 (X * w))⁻¹ • (Xᵀ * (X * w) - w * (wᵀ * (Xᵀ * (X * w)))) = v) (h1 : sq1 v = 1) (ht : X * v = t)
    (hq : (1 / sq1 t) • (Xᵀ * t) = q) (hX : X - t * qᵀ = X') :
    oV w X = v ∧ oW w X = v ∧ oT w X = t ∧ oP w X = q ∧ oX w X 1 = X' := by
  have a : oV w X = v := by rw [oV_eq hw, hv]
  have b : oW w X = v := by rw [oW, a, nrm_unit v h1]
  have c : oT w X = t := by rw [oT, b, h1, div_one, one_smul, ht]
  have d : oP w X = q := by rw [oP, c, hq]
  exact ⟨a, b, c, d, by rw [oX_next, oX, c, d, hX]⟩

theorem os_first : oV !![1; 0; 0] osX = !![0; 1; 0] ∧ oW !![1; 0; 0] osX = !![0; 1; 0] ∧ oT !![1; 0; 0] osX = !![1; 1; 0] ∧
    oP !![1; 0; 0] osX = !![1 / 2; 1; 1 / 2] ∧
    oX !![1; 0; 0] osX 1 = (!![1 / 2, 0, -(1 / 2); -(1 / 2), 0, 1 / 2; 0, 0, 1] : Matrix (Fin 3) (Fin 3) ℝ) := by
  have hXw : osX * (!![1; 0; 0] : Matrix (Fin 3) (Fin 1) ℝ) = !![1; 0; 0] := by
    ext i j
    simp only [Matrix.sub_apply, Matrix.smul_apply, Matrix.mul_apply, Matrix.transpose_apply, Fin.sum_univ_three,
      Fin.sum_univ_one]
    fin_cases i <;> fin_cases j <;> simp [osX]
  have hs : sq1 (!![1; 0; 0] : Matrix (Fin 3) (Fin 1) ℝ) = 1 := by simp [sq1, Fin.sum_univ_three]
  have hs2 : sq1 (!![1; 1; 0] : Matrix (Fin 3) (Fin 1) ℝ) = 2 := by simp [sq1, Fin.sum_univ_three]; norm_num
  refine o_step hs ?_ (by simp [sq1, Fin.sum_univ_three]) ?_ ?_ ?_
  · rw [hXw, hs, inv_one, one_smul]
    ext i j
    simp only [Matrix.sub_apply, Matrix.smul_apply, Matrix.mul_apply, Matrix.transpose_apply, Fin.sum_univ_three,
      Fin.sum_univ_one]
    fin_cases i <;> fin_cases j <;> simp [osX]
  · ext i j
    simp only [Matrix.sub_apply, Matrix.smul_apply, Matrix.mul_apply, Matrix.transpose_apply, Fin.sum_univ_three,
      Fin.sum_univ_one]
    fin_cases i <;> fin_cases j <;> simp [osX]
  · rw [hs2]
    ext i j
    simp only [Matrix.sub_apply, Matrix.smul_apply, Matrix.mul_apply, Matrix.transpose_apply, Fin.sum_univ_three,
      Fin.sum_univ_one]
    fin_cases i <;> fin_cases j <;> (simp [osX]; try norm_num)
  · ext i j
    simp only [Matrix.sub_apply, Matrix.smul_apply, Matrix.mul_apply, Matrix.transpose_apply, Fin.sum_univ_three,
      Fin.sum_univ_one]
    fin_cases i <;> fin_cases j <;> (simp [osX]; try norm_num)

theorem os_second :
    let X : Matrix (Fin 3) (Fin 3) ℝ := !![1 / 2, 0, -(1 / 2); -(1 / 2), 0, 1 / 2; 0, 0, 1]
    oV !![1; 0; 0] X = !![0; 0; -1] ∧ oW !![1; 0; 0] X = !![0; 0; -1] ∧ oT !![1; 0; 0] X = !![1 / 2; -(1 / 2); -1] ∧
    oP !![1; 0; 0] X = !![1 / 3; 0; -1] ∧
    oX !![1; 0; 0] X 1 = (!![1 / 3, 0, 0; -(1 / 3), 0, 0; 1 / 3, 0, 0] : Matrix (Fin 3) (Fin 3) ℝ) := by
  intro X
  have hXw : X * (!![1; 0; 0] : Matrix (Fin 3) (Fin 1) ℝ) = !![1 / 2; -(1 / 2); 0] := by
    ext i j
    simp only [Matrix.sub_apply, Matrix.smul_apply, Matrix.mul_apply, Matrix.transpose_apply, Fin.sum_univ_three,
      Fin.sum_univ_one]
    fin_cases i <;> fin_cases j <;> simp [X]
  have hs : sq1 (!![1; 0; 0] : Matrix (Fin 3) (Fin 1) ℝ) = 1 := by simp [sq1, Fin.sum_univ_three]
  have hs1 : sq1 (!![1 / 2; -(1 / 2); 0] : Matrix (Fin 3) (Fin 1) ℝ) = 1 / 2 := by
    simp [sq1, Fin.sum_univ_three]; norm_num
  have hs2 : sq1 (!![1 / 2; -(1 / 2); -1] : Matrix (Fin 3) (Fin 1) ℝ) = 3 / 2 := by
    simp [sq1, Fin.sum_univ_three]; norm_num
  refine o_step hs ?_ (by simp [sq1, Fin.sum_univ_three]) ?_ ?_ ?_
  · rw [hXw, hs1]
    ext i j
    simp only [Matrix.sub_apply, Matrix.smul_apply, Matrix.mul_apply, Matrix.transpose_apply, Fin.sum_univ_three,
      Fin.sum_univ_one]
    fin_cases i <;> fin_cases j <;> (simp [X]; try norm_num)
  · ext i j
    simp only [Matrix.sub_apply, Matrix.smul_apply, Matrix.mul_apply, Matrix.transpose_apply, Fin.sum_univ_three,
      Fin.sum_univ_one]
    fin_cases i <;> fin_cases j <;> simp [X]
  · rw [hs2]
    ext i j
    simp only [Matrix.sub_apply, Matrix.smul_apply, Matrix.mul_apply, Matrix.transpose_apply, Fin.sum_univ_three,
      Fin.sum_univ_one]
    fin_cases i <;> fin_cases j <;> (simp [X]; try norm_num)
  · ext i j
    simp only [Matrix.sub_apply, Matrix.smul_apply, Matrix.mul_apply, Matrix.transpose_apply, Fin.sum_univ_three,
      Fin.sum_univ_one]
    fin_cases i <;> fin_cases j <;> (simp [X]; try norm_num)

/-- **C57, violated.** With two components the data the base model is trained on (`transform` of the training data) are
not the filtered predictors `X_osc`: the removal is sequential, but `transform` applies both components to the
original data. -/
theorem C57_filtered_violation (base : BasePls ℝ M) (hb : Accepts base) :
    ∃ (m : OplsModel ℝ M) (F : Mat ℝ), oplsTrain base 2 (of osX) (of osY) = .ok (m, none) ∧
      m.Xosc = of (!![1 / 3, 0, 0; -(1 / 3), 0, 0; 1 / 3, 0, 0] : Matrix (Fin 3) (Fin 3) ℝ) ∧
      oplsTransform m (of osX) = .ok F ∧ m.base = (base.init F (of osY)).1 ∧ F ≠ m.Xosc := by
  obtain ⟨-, b1, c1, d1, e1⟩ := os_first
  obtain ⟨-, b2, c2, d2, e2⟩ := os_second
  obtain ⟨msg, hmsg⟩ := hb (of (osX - osX * oWM (opW osX osY) osX 2 * (oPM (opW osX osY) osX 2)ᵀ)) (of osY)
  have hX2 : oX (opW osX osY) osX 2 = (!![1 / 3, 0, 0; -(1 / 3), 0, 0; 1 / 3, 0, 0] : Matrix (Fin 3) (Fin 3) ℝ) := by
    rw [osW, oX_shift, e1, e2]
  refine ⟨⟨of (oWM (opW osX osY) osX 2), of (oPM (opW osX osY) osX 2), of (oTM (opW osX osY) osX 2),
    of (oX (opW osX osY) osX 2),
    (base.init (of (osX - osX * oWM (opW osX osY) osX 2 * (oPM (opW osX osY) osX 2)ᵀ)) (of osY)).1⟩,
    of (osX - osX * oWM (opW osX osY) osX 2 * (oPM (opW osX osY) osX 2)ᵀ), ?_, congrArg of hX2, oplsFilter_eq _ _ _, rfl, ?_⟩
  · refine (oplsTrain_eq osX osY base 2 (by decide) (by decide)).trans ?_
    rw [hmsg]
    rfl
  · intro e
    have e := of_inj.mp e
    rw [hX2] at e
    have e := congrFun (congrFun e 0) 2
    have hW0 : ∀ i, oWM (opW osX osY) osX 2 i 0 = (!![0; 1; 0] : Matrix (Fin 3) (Fin 1) ℝ) i 0 := by
      intro i
      rw [osW, ← b1]
      rfl
    have hW1 : ∀ i, oWM (opW osX osY) osX 2 i 1 = (!![0; 0; -1] : Matrix (Fin 3) (Fin 1) ℝ) i 0 := by
      intro i
      rw [osW, ← b2, ← e1]
      rfl
    have hP0 : oPM (opW osX osY) osX 2 2 0 = 1 / 2 := by
      rw [osW]
      show oP !![1; 0; 0] osX 2 0 = _
      rw [d1]
      rfl
    have hP1 : oPM (opW osX osY) osX 2 2 1 = -1 := by
      rw [osW]
      show oP !![1; 0; 0] (oX !![1; 0; 0] osX 1) 2 0 = _
      rw [e1, d2]
      rfl
    rw [Matrix.sub_apply, Matrix.mul_apply, Fin.sum_univ_two, Matrix.transpose_apply, Matrix.transpose_apply, hP0, hP1,
      Matrix.mul_apply, Matrix.mul_apply, Fin.sum_univ_three, Fin.sum_univ_three, hW0, hW0, hW0, hW1, hW1, hW1] at e
    simp [osX] at e

/-- The example meets the hypotheses of `C57_orthogonal` and `C57_base_data` with two components. -/
example : osXᵀ * osY ≠ 0 ∧ OrthVar (pls1W osY osX) 2 osX := by
  have h : osXᵀ * osY ≠ 0 := by
    rw [osXy]
    intro e
    have := congrFun (congrFun e 0) 0
    simp at this
  have hs : sq1 (!![1; 0; 0] : Matrix (Fin 3) (Fin 1) ℝ) = 1 := by simp [sq1, Fin.sum_univ_three]
  obtain ⟨a1, b1, c1, d1, e1⟩ := os_first
  obtain ⟨a2, b2, c2, d2, e2⟩ := os_second
  refine ⟨h, ?_⟩
  rw [← (opW_eq osX osY h).1, osW]
  have h1 : oV !![1; 0; 0] osX ≠ 0 := by
    rw [a1]
    intro e
    have := congrFun (congrFun e 1) 0
    simp at this
  have h2 := h1
  rw [oV_eq hs] at h2
  have h3 := right_ne_zero_of_smul h2
  refine ⟨h3, ?_, trivial⟩
  rw [sq1_eq, ← deflate_eq, ← deflate_smul _ _ (left_ne_zero_of_smul h2), ← Matrix.mul_smul, ← oV_eq hs, ← oX_one _ h1,
    e1]
  have h4 : oV !![1; 0; 0] (!![1 / 2, 0, -(1 / 2); -(1 / 2), 0, 1 / 2; 0, 0, 1] : Matrix (Fin 3) (Fin 3) ℝ) ≠ 0 := by
    rw [a2]
    intro e
    have := congrFun (congrFun e 2) 0
    simp at this
  rw [oV_eq hs] at h4
  exact right_ne_zero_of_smul h4

/-- **C57, violated.** A message of the base algorithm is dropped: whenever training reaches the base algorithm and that
reports an error message, OPLS still reports success. -/
theorem C57_base_error_violation (base : BasePls ℝ M) (msg : String)
    (hb : ∀ X y, (base.init X y).2 = .ok (some msg)) (hn : 0 < n) (hp : 0 < p)
    (X : Matrix (Fin n) (Fin p) ℝ) (y : Matrix (Fin n) (Fin 1) ℝ) :
    ∃ m, oplsTrain base K (of X) (of y) = .ok (m, none) := by
  refine ⟨⟨of (oWM (opW X y) X K), of (oPM (opW X y) X K), of (oTM (opW X y) X K), of (oX (opW X y) X K),
    (base.init (of (X - X * oWM (opW X y) X K * (oPM (opW X y) X K)ᵀ)) (of y)).1⟩,
    (oplsTrain_eq X y base K hn hp).trans ?_⟩
  rw [hb]
  rfl

/-- An exception of the base algorithm is not dropped. -/
theorem C57_base_exception (base : BasePls ℝ M) (e : PyErr) (hb : ∀ X y, (base.init X y).2 = .error e) (hn : 0 < n)
    (hp : 0 < p) (X : Matrix (Fin n) (Fin p) ℝ) (y : Matrix (Fin n) (Fin 1) ℝ) :
    oplsTrain base K (of X) (of y) = .error e := by
  refine (oplsTrain_eq X y base K hn hp).trans ?_
  rw [hb]
  rfl

end Verif.Props
