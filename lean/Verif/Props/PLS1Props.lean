import Verif.Alg.PLS1

/-!
# C49, C50: PLS1

The theorems hold for any rule for the weights (`weights`, computing `wf` on the deflated predictors
met during training); `C49_pls1`, `C50_pls1` and `C50_pls1_monotone` instantiate it with the weights of
PLS1.  `VCPLS` is the same code with another rule.

`Regular` says that no score has length zero, i.e. that no division by zero occurs in the loop.
-/

namespace Verif.Props

open Verif Mat
open scoped Matrix

variable {n p : Nat}

/-- The textbook recursion: score, deflate.  No score has length zero in the first `K` passes. -/
def Regular (wf : Matrix (Fin n) (Fin p) ℝ → Matrix (Fin p) (Fin 1) ℝ) :
    Nat → Matrix (Fin n) (Fin p) ℝ → Prop
  | 0, _ => True
  | K + 1, X =>
    let t := X * wf X
    tᵀ * t ≠ 0 ∧ Regular wf K (X - ((tᵀ * t) 0 0)⁻¹ • (t * (tᵀ * X)))

theorem plsX_shift (wf : Matrix (Fin n) (Fin p) ℝ → Matrix (Fin p) (Fin 1) ℝ) (X : Matrix (Fin n) (Fin p) ℝ)
    (k : Nat) : plsX wf X (k + 1) = plsX wf (deflate X (X * wf X)) k := by
  induction k with
  | zero => rfl
  | succ k ih => rw [plsX, ih]; rfl

theorem Regular.sq1_ne {wf : Matrix (Fin n) (Fin p) ℝ → Matrix (Fin p) (Fin 1) ℝ} {K : Nat}
    {X : Matrix (Fin n) (Fin p) ℝ} (h : Regular wf K X) : ∀ k < K, sq1 (plsT wf X k) ≠ 0 := by
  induction K generalizing X with
  | zero => intro k hk; omega
  | succ K ih =>
    obtain ⟨h1, h2⟩ := h
    intro k hk
    cases k with
    | zero =>
      intro h0
      refine h1 ?_
      rw [col_gram]
      show sq1 (plsT wf X 0) • _ = _
      rw [h0, zero_smul]
    | succ k =>
      rw [sq1_eq, ← deflate_eq] at h2
      have := ih h2 k (by omega)
      rwa [plsT, plsW, plsX_shift]

theorem Regular.of_sq1 {wf : Matrix (Fin n) (Fin p) ℝ → Matrix (Fin p) (Fin 1) ℝ} {K : Nat}
    {X : Matrix (Fin n) (Fin p) ℝ} (h : ∀ k < K, sq1 (plsT wf X k) ≠ 0) : Regular wf K X := by
  induction K generalizing X with
  | zero => trivial
  | succ K ih =>
    refine ⟨fun h0 => h 0 (by omega) ?_, ?_⟩
    · rw [← sq1_eq]
      show ((X * wf X)ᵀ * (X * wf X)) 0 0 = 0
      rw [h0]
      rfl
    · rw [sq1_eq, ← deflate_eq]
      refine ih fun k hk => ?_
      have := h (k + 1) (by omega)
      rwa [plsT, plsW, plsX_shift] at this

/-- `weights` computes `wf` for the response `y`. -/
def Computes (weights : Mat ℝ → Mat ℝ → Except PyErr (Mat ℝ))
    (wf : Matrix (Fin n) (Fin p) ℝ → Matrix (Fin p) (Fin 1) ℝ) (y : Matrix (Fin n) (Fin 1) ℝ) : Prop :=
  ∀ X : Matrix (Fin n) (Fin p) ℝ, weights (of X) (of y) = .ok (of (wf X))

section general
variable {weights : Mat ℝ → Mat ℝ → Except PyErr (Mat ℝ)}
  {wf : Matrix (Fin n) (Fin p) ℝ → Matrix (Fin p) (Fin 1) ℝ} {y : Matrix (Fin n) (Fin 1) ℝ}

/-- **C49.** Training succeeds; `transform` of the training data returns the training scores `T`; the
columns of `T` are mutually orthogonal and none is zero; the predictors remaining after the last
component are orthogonal to every score.  The remaining predictors are `X - T P^T`. -/
theorem C49_scores (hn : 0 < n) (hp : 0 < p) {K : Nat} (hK : 0 < K) (X : Matrix (Fin n) (Fin p) ℝ)
    (hw : Computes weights wf y) (h : Regular wf K X) :
    ∃ (m : Pls1Model ℝ) (T : Matrix (Fin n) (Fin K) ℝ) (P : Matrix (Fin p) (Fin K) ℝ),
      pls1Train weights K (of X) (of y) = .ok (m, of T) ∧ m.P = of P ∧
      pls1Transform K m (of X) = .ok (of T) ∧
      (∀ i j, i ≠ j → ∑ l, T l i * T l j = 0) ∧ (∀ i, ∑ l, T l i * T l i ≠ 0) ∧
      Tᵀ * (X - T * Pᵀ) = 0 := by
  have hs := h.sq1_ne
  refine ⟨_, plsTM wf K X, plsPM wf K X, pls1Train_eq wf weights K hn hp hK X y (fun k _ => hw _) hs, rfl, ?_, ?_, ?_, ?_⟩
  · rw [pls1Transform_eq wf hn, plsSM_train]
  · intro i j hij
    have := congrFun (congrFun (plsTM_gram wf K X hs) i) j
    rw [Matrix.mul_apply, Matrix.diagonal_apply_ne _ hij] at this
    exact this
  · intro i
    have := congrFun (congrFun (plsTM_gram wf K X hs) i) i
    rw [Matrix.mul_apply, Matrix.diagonal_apply_eq] at this
    intro h0
    exact hs i.1 i.2 (this.symm.trans h0)
  · have hres : X - plsTM wf K X * (plsPM wf K X)ᵀ = plsX wf X K := by
      rw [← plsZ_train, plsZ_sum]
      congr 1
      ext a b
      rw [Matrix.mul_apply, Matrix.sum_apply, Finset.sum_range]
      refine Finset.sum_congr rfl fun i _ => ?_
      rw [Matrix.mul_apply, Fin.sum_univ_one]
      simp only [plsS, plsZ_train]
      rfl
    rw [hres]
    ext i j
    obtain ⟨d, hd⟩ : ∃ d, K = i.1 + d + 1 := ⟨K - i.1 - 1, by have := i.2; omega⟩
    have := plsT_orth_X wf X i.1 d (by rw [← hd]; exact hs)
    rw [← hd] at this
    have h2 := congrFun (congrFun this 0) j
    rw [Matrix.mul_apply] at h2 ⊢
    exact h2

/-- **C49.** For every further data set, `transform` is the linear map `Z ↦ Z W (P^T W)⁻¹`, where the
matrix inverted is never singular. -/
theorem C49_transform (hn : 0 < n) (hp : 0 < p) {K : Nat} (hK : 0 < K) (X : Matrix (Fin n) (Fin p) ℝ)
    (hw : Computes weights wf y) (h : Regular wf K X) :
    ∃ (m : Pls1Model ℝ) (T : Mat ℝ) (W P : Matrix (Fin p) (Fin K) ℝ),
      pls1Train weights K (of X) (of y) = .ok (m, T) ∧ m.W = of W ∧ m.P = of P ∧ (Pᵀ * W).det = 1 ∧
      ∀ {r : Nat}, 0 < r → ∀ Z : Matrix (Fin r) (Fin p) ℝ,
        pls1Transform K m (of Z) = .ok (of (Z * (W * (Pᵀ * W)⁻¹))) := by
  have hs := h.sq1_ne
  refine ⟨_, _, _, _, pls1Train_eq wf weights K hn hp hK X y (fun k _ => hw _) hs, rfl, rfl,
    det_ptw wf K X hs, fun hr Z => ?_⟩
  rw [pls1Transform_eq wf hr, plsSM_eq wf K X Z hs]

/-- **C50.** Predictions are the linear map given by the stored regression vector `r_hat`. -/
theorem C50_linear (hn : 0 < n) (hp : 0 < p) {K : Nat} (hK : 0 < K) (X : Matrix (Fin n) (Fin p) ℝ)
    (hw : Computes weights wf y) (h : Regular wf K X) :
    ∃ (m : Pls1Model ℝ) (T : Mat ℝ) (R : Matrix (Fin p) (Fin 1) ℝ),
      pls1Train weights K (of X) (of y) = .ok (m, T) ∧ m.rHat = of R ∧
      ∀ {r : Nat}, 0 < r → ∀ Z : Matrix (Fin r) (Fin p) ℝ, pls1Predict K m (of Z) = .ok (of (Z * R)) := by
  have hs := h.sq1_ne
  refine ⟨_, _, _, pls1Train_eq wf weights K hn hp hK X y (fun k _ => hw _) hs, rfl, fun hr Z => ?_⟩
  rw [pls1Predict_eq wf hr, plsSM_eq wf K X Z hs]
  simp only [Matrix.mul_assoc]

/-- **C50.** The fitted values `F` of the training data lie in the score space and are the least-squares
fit there: the residual is orthogonal to every score, and no other combination of the scores has a
smaller residual. -/
theorem C50_least_squares (hn : 0 < n) (hp : 0 < p) {K : Nat} (hK : 0 < K) (X : Matrix (Fin n) (Fin p) ℝ)
    (hw : Computes weights wf y) (h : Regular wf K X) :
    ∃ (m : Pls1Model ℝ) (T : Matrix (Fin n) (Fin K) ℝ) (F : Matrix (Fin n) (Fin 1) ℝ),
      pls1Train weights K (of X) (of y) = .ok (m, of T) ∧ pls1Predict K m (of X) = .ok (of F) ∧
      (∃ b, F = T * b) ∧ Tᵀ * (y - F) = 0 ∧
      ∀ c : Matrix (Fin K) (Fin 1) ℝ, ∑ i, (y i 0 - F i 0) ^ 2 ≤ ∑ i, (y i 0 - (T * c) i 0) ^ 2 := by
  have hs := h.sq1_ne
  refine ⟨_, _, _, pls1Train_eq wf weights K hn hp hK X y (fun k _ => hw _) hs, pls1Predict_eq wf hn _ _ _ _ _,
    ⟨plsBM wf K X y, ?_⟩, ?_, ?_⟩
  · rw [plsSM_train]
  · rw [plsSM_train]
    exact pls_resid wf K X y hs
  · intro c
    rw [plsSM_train]
    have := lsq_of_orth (plsTM wf K X) y (plsBM wf K X y) c (pls_resid wf K X y hs)
    simp only [sq1, ← sq, Matrix.sub_apply] at this
    exact this

/-- **C50.** More components never increase the training residual. -/
theorem C50_monotone (hn : 0 < n) (hp : 0 < p) {K K' : Nat} (hK : 0 < K) (hKK : K ≤ K')
    (X : Matrix (Fin n) (Fin p) ℝ) (hw : Computes weights wf y) (h : Regular wf K' X) :
    ∃ (m m' : Pls1Model ℝ) (T T' : Mat ℝ) (F F' : Matrix (Fin n) (Fin 1) ℝ),
      pls1Train weights K (of X) (of y) = .ok (m, T) ∧ pls1Predict K m (of X) = .ok (of F) ∧
      pls1Train weights K' (of X) (of y) = .ok (m', T') ∧ pls1Predict K' m' (of X) = .ok (of F') ∧
      ∑ i, (y i 0 - F' i 0) ^ 2 ≤ ∑ i, (y i 0 - F i 0) ^ 2 := by
  have hs' := h.sq1_ne
  have hs : ∀ k < K, sq1 (plsT wf X k) ≠ 0 := fun k hk => hs' k (by omega)
  refine ⟨_, _, _, _, _, _, pls1Train_eq wf weights K hn hp hK X y (fun k _ => hw _) hs,
    pls1Predict_eq wf hn _ _ _ _ _,
    pls1Train_eq wf weights K' hn hp (by omega) X y (fun k _ => hw _) hs', pls1Predict_eq wf hn _ _ _ _ _, ?_⟩
  rw [plsSM_train, plsSM_train]
  have := lsq_of_orth (plsTM wf K' X) y (plsBM wf K' X y)
    (Matrix.of fun j _ => if j.1 < K then plsB wf X y j.1 else 0) (pls_resid wf K' X y hs')
  have e : plsTM wf K' X * (Matrix.of fun (j : Fin K') (_ : Fin 1) => if j.1 < K then plsB wf X y j.1 else 0) =
      plsTM wf K X * plsBM wf K X y := by
    ext a b
    rw [Matrix.mul_apply, Matrix.mul_apply]
    simp only [plsTM, plsBM, Matrix.of_apply]
    rw [← Finset.sum_range (fun j => plsT wf X j a 0 * if j < K then plsB wf X y j else 0),
      ← Finset.sum_range (fun j => plsT wf X j a 0 * plsB wf X y j)]
    symm
    rw [Finset.sum_congr rfl (g := fun j => plsT wf X j a 0 * if j < K then plsB wf X y j else 0) fun j hj => by
      rw [if_pos (Finset.mem_range.1 hj)]]
    refine Finset.sum_subset (Finset.range_mono hKK) fun j _ hj => ?_
    rw [if_neg fun h => hj (Finset.mem_range.2 h), mul_zero]
  rw [e] at this
  simp only [sq1, ← sq, Matrix.sub_apply] at this
  exact this

/-- **C50.** New data with the wrong number of columns is rejected. -/
theorem C50_width (hn : 0 < n) (hp : 0 < p) {K : Nat} (hK : 0 < K) (X : Matrix (Fin n) (Fin p) ℝ)
    (hw : Computes weights wf y) (h : Regular wf K X) :
    ∃ (m : Pls1Model ℝ) (T : Mat ℝ), pls1Train weights K (of X) (of y) = .ok (m, T) ∧
      ∀ {r c : Nat}, 0 < r → c ≠ p → ∀ Z : Matrix (Fin r) (Fin c) ℝ,
        pls1Predict K m (of Z) = .error .valueError ∧ pls1Transform K m (of Z) = .error .valueError := by
  have hs := h.sq1_ne
  refine ⟨_, _, pls1Train_eq wf weights K hn hp hK X y (fun k _ => hw _) hs, fun {r c} hr hc Z => ?_⟩
  have hrow : ∀ x : Matrix (Fin 1) (Fin c) ℝ,
      pls1Row (K : Int) (of (plsWM wf K X)) (of (plsPM wf K X)) (of x) = .error .valueError := by
    intro x
    unfold pls1Row
    have hz : Factory.zeros (α := ℝ) 1 (K : Int) = .ok (of (0 : Matrix (Fin 1) (Fin K) ℝ)) :=
      Factory.zeros_nat (m := 1) (by decide) K
    rw [hz]
    simp only [except_bind_ok]
    have := loopM_range_error (pls1RowStep (of (plsWM wf K X)) (of (plsPM wf K X)))
      (fun _ => (of x, of (0 : Matrix (Fin 1) (Fin K) ℝ))) K 0 hK .valueError (fun j hj => by omega) (by
        unfold pls1RowStep
        rw [getColumn_of (plsWM wf K X) ⟨0, hK⟩]
        simp only [except_bind_ok]
        rw [mul_error (show (of x).cols ≠ _ from hc)]
        rfl)
    rw [this]
    rfl
  have hR : (of Z).getRow ((0 : Nat) : Int) = .ok (of (rowOf Z ⟨0, hr⟩)) := getRow_of Z ⟨0, hr⟩
  constructor
  · unfold pls1Predict
    have hz : Factory.zeros (α := ℝ) ((of Z).rows : Int) 1 = .ok (of (0 : Matrix (Fin r) (Fin 1) ℝ)) :=
      Factory.zeros_nat hr 1
    rw [hz]
    simp only [except_bind_ok]
    refine loopM_range_error _ (fun _ => of (0 : Matrix (Fin r) (Fin 1) ℝ)) r 0 hr .valueError
      (fun j hj => by omega) ?_
    unfold pls1PredictRow
    rw [hR]
    simp only [except_bind_ok, hrow]
    rfl
  · unfold pls1Transform
    rw [Factory.zeros_nat hr]
    simp only [except_bind_ok]
    refine loopM_range_error _ (fun _ => of (0 : Matrix (Fin r) (Fin K) ℝ)) r 0 hr .valueError
      (fun j hj => by omega) ?_
    unfold pls1TransformRow
    rw [hR]
    simp only [except_bind_ok, hrow]
    rfl

end general

/-! ## PLS1 -/

/-- The weights of PLS1: the covariances with the response, scaled to length one. -/
theorem pls1_computes (y : Matrix (Fin n) (Fin 1) ℝ) :
    Computes (n := n) (p := p) pls1Weights (pls1W y) y := fun X => pls1Weights_eq y X

/-- **C49** for PLS1. -/
theorem C49_pls1 (hn : 0 < n) (hp : 0 < p) {K : Nat} (hK : 0 < K) (X : Matrix (Fin n) (Fin p) ℝ)
    (y : Matrix (Fin n) (Fin 1) ℝ) (h : Regular (pls1W y) K X) :
    ∃ (m : Pls1Model ℝ) (T : Matrix (Fin n) (Fin K) ℝ) (P : Matrix (Fin p) (Fin K) ℝ),
      pls1Train pls1Weights K (of X) (of y) = .ok (m, of T) ∧ m.P = of P ∧
      pls1Transform K m (of X) = .ok (of T) ∧
      (∀ i j, i ≠ j → ∑ l, T l i * T l j = 0) ∧ (∀ i, ∑ l, T l i * T l i ≠ 0) ∧
      Tᵀ * (X - T * Pᵀ) = 0 :=
  C49_scores hn hp hK X (pls1_computes y) h

/-- **C50** for PLS1: linear predictions, least-squares fit on the scores. -/
theorem C50_pls1 (hn : 0 < n) (hp : 0 < p) {K : Nat} (hK : 0 < K) (X : Matrix (Fin n) (Fin p) ℝ)
    (y : Matrix (Fin n) (Fin 1) ℝ) (h : Regular (pls1W y) K X) :
    ∃ (m : Pls1Model ℝ) (T : Matrix (Fin n) (Fin K) ℝ) (R : Matrix (Fin p) (Fin 1) ℝ),
      pls1Train pls1Weights K (of X) (of y) = .ok (m, of T) ∧ m.rHat = of R ∧
      (∀ {r : Nat}, 0 < r → ∀ Z : Matrix (Fin r) (Fin p) ℝ, pls1Predict K m (of Z) = .ok (of (Z * R))) ∧
      Tᵀ * (y - X * R) = 0 ∧
      ∀ c : Matrix (Fin K) (Fin 1) ℝ, ∑ i, (y i 0 - (X * R) i 0) ^ 2 ≤ ∑ i, (y i 0 - (T * c) i 0) ^ 2 := by
  obtain ⟨m, T, R, h1, h2, h3⟩ := C50_linear hn hp hK X (pls1_computes y) h
  obtain ⟨m', T', F, h1', h2', -, h4, h5⟩ := C50_least_squares hn hp hK X (pls1_computes y) h
  rw [h1] at h1'
  obtain ⟨rfl, rfl⟩ := Prod.mk.inj (Except.ok.inj h1')
  rw [h3 hn X] at h2'
  have hF : X * R = F := of_inj.1 (Except.ok.inj h2')
  subst hF
  exact ⟨m, T', R, h1, h2, h3, h4, h5⟩

/-- **C50** for PLS1: the residual does not grow with the number of components. -/
theorem C50_pls1_monotone (hn : 0 < n) (hp : 0 < p) {K K' : Nat} (hK : 0 < K) (hKK : K ≤ K')
    (X : Matrix (Fin n) (Fin p) ℝ) (y : Matrix (Fin n) (Fin 1) ℝ) (h : Regular (pls1W y) K' X) :
    ∃ (m m' : Pls1Model ℝ) (T T' : Mat ℝ) (F F' : Matrix (Fin n) (Fin 1) ℝ),
      pls1Train pls1Weights K (of X) (of y) = .ok (m, T) ∧ pls1Predict K m (of X) = .ok (of F) ∧
      pls1Train pls1Weights K' (of X) (of y) = .ok (m', T') ∧ pls1Predict K' m' (of X) = .ok (of F') ∧
      ∑ i, (y i 0 - F' i 0) ^ 2 ≤ ∑ i, (y i 0 - F i 0) ^ 2 :=
  C50_monotone hn hp hK hKK X (pls1_computes y) h

/-! A concrete case: two predictors, two components. -/

/-- Predictors `diag(1, 2)`. -/
def exX : Matrix (Fin 2) (Fin 2) ℝ := !![1, 0; 0, 2]
/-- Response `(3, 2)`. -/
def exY : Matrix (Fin 2) (Fin 1) ℝ := !![3; 2]

theorem exW0 : pls1W exY exX = !![3 / 5; 4 / 5] := by
  have h5 : Real.sqrt (sq1 (exXᵀ * exY)) = 5 := by
    have : sq1 (exXᵀ * exY) = 5 ^ 2 := by
      simp [sq1, exX, exY, Matrix.mul_apply, Fin.sum_univ_two]
      norm_num
    rw [this, Real.sqrt_sq (by norm_num)]
  unfold pls1W
  rw [h5]
  ext i j
  fin_cases i <;> fin_cases j <;> (simp [exX, exY, Matrix.mul_apply, Fin.sum_univ_two]; try norm_num)

theorem exX1 : plsX (pls1W exY) exX 1 = !![64 / 73, -48 / 73; -24 / 73, 18 / 73] := by
  show deflate exX (exX * pls1W exY exX) = _
  rw [exW0]
  have ht : exX * (!![3 / 5; 4 / 5] : Matrix (Fin 2) (Fin 1) ℝ) = !![3 / 5; 8 / 5] := by
    ext i j
    fin_cases i <;> fin_cases j <;> (simp [exX, Matrix.mul_apply, Fin.sum_univ_two]; try norm_num)
  rw [ht, deflate_eq]
  have hs : sq1 (!![3 / 5; 8 / 5] : Matrix (Fin 2) (Fin 1) ℝ) = 73 / 25 := by
    simp [sq1, Fin.sum_univ_two]
    norm_num
  rw [hs]
  have ho : (!![3 / 5; 8 / 5] : Matrix (Fin 2) (Fin 1) ℝ) * ((!![3 / 5; 8 / 5] : Matrix (Fin 2) (Fin 1) ℝ)ᵀ * exX) =
      !![9 / 25, 48 / 25; 24 / 25, 128 / 25] := by
    ext i j
    rw [Matrix.mul_apply, Fin.sum_univ_one, Matrix.mul_apply, Fin.sum_univ_two]
    fin_cases i <;> fin_cases j <;> (simp [exX]; try norm_num)
  rw [ho]
  ext i j
  fin_cases i <;> fin_cases j <;> (simp [exX]; try norm_num)

theorem exW1 : pls1W exY (plsX (pls1W exY) exX 1) = !![4 / 5; -3 / 5] := by
  rw [exX1]
  have h5 : Real.sqrt (sq1 ((!![64 / 73, -48 / 73; -24 / 73, 18 / 73] : Matrix (Fin 2) (Fin 2) ℝ)ᵀ * exY)) =
      180 / 73 := by
    have : sq1 ((!![64 / 73, -48 / 73; -24 / 73, 18 / 73] : Matrix (Fin 2) (Fin 2) ℝ)ᵀ * exY) =
        (180 / 73) ^ 2 := by
      simp [sq1, exY, Matrix.mul_apply, Fin.sum_univ_two]
      norm_num
    rw [this, Real.sqrt_sq (by norm_num)]
  unfold pls1W
  rw [h5]
  ext i j
  fin_cases i <;> fin_cases j <;> simp [exY, Matrix.mul_apply, Fin.sum_univ_two] <;> norm_num

theorem ex_regular : Regular (pls1W exY) 2 exX := by
  refine Regular.of_sq1 fun k hk => ?_
  rcases (by omega : k = 0 ∨ k = 1) with rfl | rfl
  · show sq1 (exX * pls1W exY exX) ≠ 0
    rw [exW0]
    simp [sq1, exX, Matrix.mul_apply, Fin.sum_univ_two]
    norm_num
  · show sq1 (plsX (pls1W exY) exX 1 * pls1W exY (plsX (pls1W exY) exX 1)) ≠ 0
    rw [exW1, exX1]
    simp [sq1, Matrix.mul_apply, Fin.sum_univ_two]
    norm_num

example := C49_pls1 (by decide) (by decide) (K := 2) (by decide) exX exY ex_regular
example := C50_pls1_monotone (by decide) (by decide) (K := 1) (K' := 2) (by decide) (by decide) exX exY ex_regular

end Verif.Props
