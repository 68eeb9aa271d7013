import Verif.Alg.Preproc
import Verif.Props.PLS1Props

/-!
# C51, C52: preprocessing around the PLS algorithms

The concrete algorithm is arbitrary (`train`, `predict`); the theorems assume only that its predictions
for the model obtained from the preprocessed training data are a linear map `Z ↦ Z R`, which for PLS1 is
`C50_linear`.  `X` and `Y` are the training data, `Z` the data to predict.
-/

namespace Verif.Props

open Verif Mat Transf
open scoped Matrix

variable {M : Type} {n p q r : Nat}

/-- The prediction in original units: predictors get the training preprocessing, the response is
transformed back with the statistics of its own column. -/
noncomputable def rightPrediction (prep : Prep) (X : Matrix (Fin n) (Fin p) ℝ) (Y : Matrix (Fin n) (Fin q) ℝ)
    (R : Matrix (Fin p) (Fin q) ℝ) (Z : Matrix (Fin r) (Fin p) ℝ) : Matrix (Fin r) (Fin q) ℝ :=
  match prep with
  | .center => Matrix.of fun i j => (∑ l, (Z i l - mu fun k => X k l) * R l j) + mu fun k => Y k j
  | .standardize => Matrix.of fun i j =>
      (∑ l, (Z i l - mu fun k => X k l) / divisor X l * R l j) * (sd fun k => Y k j) + mu fun k => Y k j
  | _ => Z * R

section single
variable (train : Mat ℝ → Mat ℝ → Except PyErr M) (predict : M → Mat ℝ → Except PyErr (Mat ℝ))
  (isZero : ℝ → Bool)

/-- **C51.** Without preprocessing the wrapper predicts exactly what the algorithm predicts. -/
theorem C51_none (X Y : Mat ℝ) (m : M) (ht : train X Y = .ok m) :
    ∃ s, singleTrain isZero train .none X Y = .ok s ∧
      ∀ Z, singlePredict predict s Z = predict m Z := by
  refine ⟨⟨0, 1, false, m⟩, ?_, fun Z => ?_⟩
  · show (do let m ← train X Y; Except.ok _) = _
    rw [ht]
    rfl
  · unfold singlePredict
    cases predict m Z <;> rfl

/-- **C51.** An object that is not a `PreprocessingType` is rejected at training. -/
theorem C51_unknown (X Y : Mat ℝ) : singleTrain isZero train .unknown X Y = .error .runtimeError := rfl

/-- What CENTER predicts: the raw predictors are multiplied by the regression matrix of the centred
model. -/
theorem C51_center_value (X : Matrix (Fin n) (Fin p) ℝ) (y : Matrix (Fin n) (Fin 1) ℝ) (m : M)
    (ht : train (of (cen X X)) (of (cen y y)) = .ok m) :
    ∃ s, singleTrain isZero train .center (of X) (of y) = .ok s ∧
      ∀ {r : Nat} (Z : Matrix (Fin r) (Fin p) ℝ) (F : Matrix (Fin r) (Fin 1) ℝ), predict m (of Z) = .ok (of F) →
        singlePredict predict s (of Z) = .ok (of (Matrix.of fun i j => F i j + mu fun k => y k 0)) := by
  refine ⟨⟨mu fun k => y k 0, 1, true, m⟩, ?_, fun Z F hF => ?_⟩
  · unfold singleTrain
    simp only [classStats_center, prepApply_center, except_bind_ok, ht]
    rfl
  · unfold singlePredict
    rw [hF]
    simp only [except_bind_ok, if_true]
    refine (denorm_loop F _ _).trans ?_
    simp only [mul_one]

/-- What STANDARDIZE predicts. -/
theorem C51_standardize_value (hz : ∀ x, isZero x = true ↔ x = 0) (X : Matrix (Fin n) (Fin (p + 1)) ℝ)
    (y : Matrix (Fin n) (Fin 1) ℝ) (m : M) (ht : train (of (std X X)) (of (std y y)) = .ok m) :
    ∃ s, singleTrain isZero train .standardize (of X) (of y) = .ok s ∧
      ∀ {r : Nat} (Z : Matrix (Fin r) (Fin (p + 1)) ℝ) (F : Matrix (Fin r) (Fin 1) ℝ),
        predict m (of Z) = .ok (of F) →
        singlePredict predict s (of Z) =
          .ok (of (Matrix.of fun i j => F i j * (sd fun k => y k 0) + mu fun k => y k 0)) := by
  refine ⟨⟨mu fun k => y k 0, sd fun k => y k 0, true, m⟩, ?_, fun Z F hF => ?_⟩
  · unfold singleTrain
    simp only [classStats_standardize, prepApply_standardize isZero hz, except_bind_ok, ht]
    rfl
  · unfold singlePredict
    rw [hF]
    simp only [except_bind_ok, if_true]
    exact denorm_loop F _ _

/-- **C51 (what remains true with CENTER).** The prediction is right for all new data iff the model
predicts `0` for the vector of training means; otherwise every prediction is off by that value. -/
theorem C51_center_partial (X : Matrix (Fin n) (Fin p) ℝ) (y : Matrix (Fin n) (Fin 1) ℝ) (m : M)
    (ht : train (of (cen X X)) (of (cen y y)) = .ok m) (R : Matrix (Fin p) (Fin 1) ℝ)
    (hp : ∀ {r : Nat}, 0 < r → ∀ Z : Matrix (Fin r) (Fin p) ℝ, predict m (of Z) = .ok (of (Z * R))) :
    ∃ s, singleTrain isZero train .center (of X) (of y) = .ok s ∧
      (∀ {r : Nat}, 0 < r → ∀ Z : Matrix (Fin r) (Fin p) ℝ, ∃ F : Matrix (Fin r) (Fin 1) ℝ, singlePredict predict s (of Z) = .ok (of F) ∧
        ∀ i, F i 0 = rightPrediction .center X y R Z i 0 + ∑ l, (mu fun k => X k l) * R l 0) ∧
      ((∀ {r : Nat}, 0 < r → ∀ Z : Matrix (Fin r) (Fin p) ℝ,
          singlePredict predict s (of Z) = .ok (of (rightPrediction .center X y R Z))) ↔
        ∑ l, (mu fun k => X k l) * R l 0 = 0) := by
  obtain ⟨s, h1, h2⟩ := C51_center_value train predict isZero X y m ht
  have key : ∀ {r : Nat}, 0 < r → ∀ Z : Matrix (Fin r) (Fin p) ℝ, ∃ F : Matrix (Fin r) (Fin 1) ℝ,
      singlePredict predict s (of Z) = .ok (of F) ∧
        ∀ i, F i 0 = rightPrediction .center X y R Z i 0 + ∑ l, (mu fun k => X k l) * R l 0 := by
    intro r hr Z
    refine ⟨_, h2 Z _ (hp hr Z), fun i => ?_⟩
    simp only [rightPrediction, Matrix.of_apply, Matrix.mul_apply]
    rw [add_right_comm, ← Finset.sum_add_distrib]
    congr 1
    exact Finset.sum_congr rfl fun l _ => by ring
  refine ⟨s, h1, key, fun h => ?_, fun h {r} hr Z => ?_⟩
  · obtain ⟨F, hF, hF'⟩ := key (r := 1) (by decide) 0
    rw [h (by decide) 0] at hF
    have := of_inj.1 (Except.ok.inj hF)
    have h3 := hF' 0
    rw [← this] at h3
    linarith
  · obtain ⟨F, hF, hF'⟩ := key hr Z
    rw [hF]
    congr 2
    ext i j
    rw [Subsingleton.elim j 0, hF' i, h, add_zero]

/-- **C51 (what remains true with STANDARDIZE).** For a response that is not constant, the prediction is
right for all new data iff every predictor used has divisor `1` and the model predicts `0` for the vector
of training means. -/
theorem C51_standardize_partial (hz : ∀ x, isZero x = true ↔ x = 0) (X : Matrix (Fin n) (Fin (p + 1)) ℝ)
    (hX : ∀ l, divisor X l ≠ 0)
    (y : Matrix (Fin n) (Fin 1) ℝ) (hy : sd (fun k => y k 0) ≠ 0) (m : M)
    (ht : train (of (std X X)) (of (std y y)) = .ok m) (R : Matrix (Fin (p + 1)) (Fin 1) ℝ)
    (hp : ∀ {r : Nat}, 0 < r → ∀ Z : Matrix (Fin r) (Fin (p + 1)) ℝ, predict m (of Z) = .ok (of (Z * R))) :
    ∃ s, singleTrain isZero train .standardize (of X) (of y) = .ok s ∧
      ((∀ {r : Nat}, 0 < r → ∀ Z : Matrix (Fin r) (Fin (p + 1)) ℝ,
          singlePredict predict s (of Z) = .ok (of (rightPrediction .standardize X y R Z))) ↔
        (∀ l, divisor X l = 1 ∨ R l 0 = 0) ∧ ∑ l, (mu fun k => X k l) * R l 0 = 0) := by
  obtain ⟨s, h1, h2⟩ := C51_standardize_value train predict isZero hz X y m ht
  refine ⟨s, h1, fun h => ?_, fun h {r} hr Z => ?_⟩
  · have key : ∀ z : Fin (p + 1) → ℝ, ∑ l, z l * R l 0 =
        ∑ l, (z l - mu fun k => X k l) / divisor X l * R l 0 := by
      intro z
      have e1 := h2 (r := 1) (Matrix.of fun _ l => z l) _ (hp (by decide) _)
      rw [h (by decide) _] at e1
      have e2 := congrFun (congrFun (of_inj.1 (Except.ok.inj e1)) 0) 0
      simp only [rightPrediction, Matrix.of_apply, Matrix.mul_apply] at e2
      have e3 := add_right_cancel e2
      exact (mul_right_cancel₀ hy e3).symm
    have k0 := key fun _ => 0
    simp only [zero_mul, Finset.sum_const_zero, zero_sub] at k0
    have k1 : ∀ l, R l 0 = 1 / divisor X l * R l 0 := by
      intro l
      have kl := key fun l' => if l' = l then 1 else 0
      have e : ∀ l', ((if l' = l then (1 : ℝ) else 0) - mu fun k => X k l') / divisor X l' * R l' 0 =
          (if l' = l then 1 / divisor X l' * R l' 0 else 0) + (-mu fun k => X k l') / divisor X l' * R l' 0 := by
        intro l'
        split <;> ring
      simp only [e, Finset.sum_add_distrib, ← k0, add_zero, ite_mul, one_mul, zero_mul,
        Finset.sum_ite_eq', Finset.mem_univ, if_true] at kl
      exact kl
    have k2 : ∀ l, divisor X l = 1 ∨ R l 0 = 0 := by
      intro l
      by_cases hR : R l 0 = 0
      · exact Or.inr hR
      · left
        have h3 : (1 : ℝ) = 1 / divisor X l := by
          have := k1 l
          exact mul_right_cancel₀ hR (by rw [one_mul]; exact this)
        have h4 := hX l
        field_simp at h3
        exact h3
    refine ⟨k2, ?_⟩
    have : ∀ l, (mu fun k => X k l) * R l 0 = -((-mu fun k => X k l) / divisor X l * R l 0) := by
      intro l
      rcases k2 l with h | h
      · rw [h]; ring
      · rw [h]; ring
    rw [Finset.sum_congr rfl fun l _ => this l, Finset.sum_neg_distrib, ← k0, neg_zero]
  · refine (h2 Z _ (hp hr Z)).trans ?_
    congr 2
    ext i j
    rw [Subsingleton.elim j 0]
    simp only [rightPrediction, Matrix.of_apply, Matrix.mul_apply]
    congr 2
    have : ∀ l, (Z i l - mu fun k => X k l) / divisor X l * R l 0 =
        Z i l * R l 0 - (mu fun k => X k l) * R l 0 := by
      intro l
      rcases h.1 l with h | h
      · rw [h]; ring
      · rw [h]; ring
    rw [Finset.sum_congr rfl fun l _ => this l, Finset.sum_sub_distrib, h.2, sub_zero]

end single

/-! ### PLS1 with CENTER -/

/-- PLS1 as base algorithm of the wrapper. -/
noncomputable def pls1Base (K : Int) (X y : Mat ℝ) : Except PyErr (Pls1Model ℝ) := do
  let r ← pls1Train pls1Weights K X y
  .ok r.1

/-- Training predictors and response `1, 2, 3`. -/
def ramp : Matrix (Fin 3) (Fin 1) ℝ := !![1; 2; 3]

theorem mu_ramp : (mu fun k => ramp k 0) = 2 := by
  simp [mu, ramp, Fin.sum_univ_three]
  norm_num

theorem cen_ramp : cen ramp ramp = !![-1; 0; 1] := by
  ext i j
  have : (mu fun k => ramp k j) = 2 := by rw [Subsingleton.elim j 0]; exact mu_ramp
  fin_cases i <;> fin_cases j <;> (simp only [cen, Matrix.of_apply, this]; simp [ramp]; try norm_num)

theorem ramp_weights (y X : Matrix (Fin 3) (Fin 1) ℝ) (h : X = !![-1; 0; 1]) (hy : y = !![-1; 0; 1]) :
    pls1W y X = !![1] := by
  have h5 : Real.sqrt (sq1 (Xᵀ * y)) = 2 := by
    have : sq1 (Xᵀ * y) = 2 ^ 2 := by
      simp [sq1, h, hy, Matrix.mul_apply, Fin.sum_univ_three]
      norm_num
    rw [this, Real.sqrt_sq (by norm_num)]
  unfold pls1W
  rw [h5]
  ext i j
  fin_cases i
  fin_cases j
  simp [h, hy, Matrix.mul_apply, Fin.sum_univ_three]

/-- **C51, violated.** PLS1 with one component and CENTER, trained on `x = y = 1, 2, 3`, a relation it
represents exactly, predicts `3, 4, 5` for the training data: the predictors are not centred at
prediction. -/
theorem C51_center_violation (isZero : ℝ → Bool) :
    ∃ s, singleTrain isZero (pls1Base 1) .center (of ramp) (of ramp) = .ok s ∧
      singlePredict (fun m Z => pls1Predict 1 m Z) s (of ramp) =
        .ok (of (!![3; 4; 5] : Matrix (Fin 3) (Fin 1) ℝ)) := by
  have hw : pls1W (cen ramp ramp) (cen ramp ramp) = !![1] := ramp_weights _ _ cen_ramp cen_ramp
  have hreg : Regular (pls1W (cen ramp ramp)) 1 (cen ramp ramp) := by
    refine Regular.of_sq1 fun k hk => ?_
    obtain rfl : k = 0 := by omega
    show sq1 (cen ramp ramp * pls1W (cen ramp ramp) (cen ramp ramp)) ≠ 0
    rw [hw, cen_ramp]
    simp [sq1, Matrix.mul_apply, Fin.sum_univ_three]
  obtain ⟨m, T, R, h1, -, h3, h4, -⟩ := C50_pls1 (by decide) (by decide) (K := 1) (by decide)
    (cen ramp ramp) (cen ramp ramp) hreg
  have hT := pls1Train_eq (pls1W (cen ramp ramp)) pls1Weights 1 (by decide) (by decide) (by decide)
    (cen ramp ramp) (cen ramp ramp) (fun k _ => pls1_computes _ _) hreg.sq1_ne
  rw [h1] at hT
  have hT' : T = plsTM (pls1W (cen ramp ramp)) 1 (cen ramp ramp) :=
    of_inj.1 (Prod.mk.inj (Except.ok.inj hT)).2
  have hTv : ∀ i, T i 0 = cen ramp ramp i 0 := by
    intro i
    rw [hT']
    show (cen ramp ramp * pls1W (cen ramp ramp) (cen ramp ramp)) i 0 = _
    rw [hw, Matrix.mul_apply]
    simp
  have hR : R 0 0 = 1 := by
    have e := congrFun (congrFun h4 0) 0
    rw [Matrix.mul_apply, Fin.sum_univ_three] at e
    simp only [Matrix.transpose_apply, Matrix.sub_apply, Matrix.mul_apply, hTv, cen_ramp] at e
    simp at e
    linarith
  obtain ⟨s, g1, g2⟩ := C51_center_value (pls1Base 1) (fun m Z => pls1Predict 1 m Z) isZero ramp ramp m (by
    unfold pls1Base
    rw [show pls1Train pls1Weights 1 (of (cen ramp ramp)) (of (cen ramp ramp)) = _ from h1]
    rfl)
  refine ⟨s, g1, (g2 ramp _ (h3 (by decide) ramp)).trans ?_⟩
  congr 2
  ext i j
  rw [Subsingleton.elim j 0]
  simp only [Matrix.of_apply, mu_ramp, Matrix.mul_apply, Fin.sum_univ_one, hR]
  fin_cases i <;> (simp [ramp]; try norm_num)

section multi
variable (train : Mat ℝ → Mat ℝ → Except PyErr M) (predict : M → Mat ℝ → Except PyErr (Mat ℝ))
  (isZero : ℝ → Bool)

theorem const_list {q : Nat} (a : ℝ) : (pyRange 0 (q : Int)).map (fun _ => a) = List.ofFn fun _ : Fin q => a := by
  rw [pyRange_finRange', List.map_map, List.ofFn_eq_map]
  rfl

/-- What CENTER predicts with several responses: the mean of response column `0` is added to every
column. -/
theorem C52_center_value (X : Matrix (Fin n) (Fin p) ℝ) (Y : Matrix (Fin n) (Fin (q + 1)) ℝ) (m : M)
    (ht : train (of (cen X X)) (of (cen Y Y)) = .ok m) :
    ∃ s, multiTrain isZero train .center (of X) (of Y) = .ok s ∧
      ∀ {r : Nat} (Z : Matrix (Fin r) (Fin p) ℝ) (F : Matrix (Fin r) (Fin (q + 1)) ℝ),
        predict m (of Z) = .ok (of F) →
        multiPredict predict s (of Z) = .ok (of (Matrix.of fun i j => F i j + mu fun k => Y k 0)) := by
  refine ⟨⟨List.ofFn fun _ : Fin (q + 1) => mu fun k => Y k 0, List.ofFn fun _ : Fin (q + 1) => 1, true, m⟩, ?_,
    fun Z F hF => ?_⟩
  · unfold multiTrain
    rw [multiStats_eq .center (of Y) _ (classStats_center Y)]
    simp only [prepApply_center, except_bind_ok, ht, List.map_map]
    rw [show (pyRange 0 ((of Y).cols : Int)).map (Prod.fst ∘ fun _ => ((mu fun k => Y k 0 : ℝ), (1 : ℝ))) = _ from
      const_list _, show (pyRange 0 ((of Y).cols : Int)).map (Prod.snd ∘ fun _ => ((mu fun k => Y k 0 : ℝ), (1 : ℝ))) = _ from
      const_list _]
    rfl
  · unfold multiPredict
    rw [hF]
    simp only [except_bind_ok, if_true]
    refine (multi_loop F _ _).trans ?_
    simp only [mul_one]

/-- What STANDARDIZE predicts with several responses. -/
theorem C52_standardize_value (hz : ∀ x, isZero x = true ↔ x = 0) (X : Matrix (Fin n) (Fin (p + 1)) ℝ)
    (Y : Matrix (Fin n) (Fin (q + 1)) ℝ) (m : M) (ht : train (of (std X X)) (of (std Y Y)) = .ok m) :
    ∃ s, multiTrain isZero train .standardize (of X) (of Y) = .ok s ∧
      ∀ {r : Nat} (Z : Matrix (Fin r) (Fin (p + 1)) ℝ) (F : Matrix (Fin r) (Fin (q + 1)) ℝ),
        predict m (of Z) = .ok (of F) →
        multiPredict predict s (of Z) =
          .ok (of (Matrix.of fun i j => F i j * (sd fun k => Y k 0) + mu fun k => Y k 0)) := by
  refine ⟨⟨List.ofFn fun _ : Fin (q + 1) => mu fun k => Y k 0, List.ofFn fun _ : Fin (q + 1) => sd fun k => Y k 0,
    true, m⟩, ?_, fun Z F hF => ?_⟩
  · unfold multiTrain
    rw [multiStats_eq .standardize (of Y) _ (classStats_standardize Y)]
    simp only [prepApply_standardize isZero hz, except_bind_ok, ht, List.map_map]
    rw [show (pyRange 0 ((of Y).cols : Int)).map (Prod.fst ∘ fun _ => ((mu fun k => Y k 0 : ℝ), (sd fun k => Y k 0 : ℝ))) = _ from
      const_list _, show (pyRange 0 ((of Y).cols : Int)).map (Prod.snd ∘ fun _ => ((mu fun k => Y k 0 : ℝ), (sd fun k => Y k 0 : ℝ))) = _ from
      const_list _]
    rfl
  · unfold multiPredict
    rw [hF]
    simp only [except_bind_ok, if_true]
    exact multi_loop F _ _

/-- The back-transformation asked for: every response column with its own statistics. -/
noncomputable def denorm (prep : Prep) (Y : Matrix (Fin n) (Fin q) ℝ) (F : Matrix (Fin r) (Fin q) ℝ) :
    Matrix (Fin r) (Fin q) ℝ :=
  match prep with
  | .center => Matrix.of fun i j => F i j + mu fun k => Y k j
  | .standardize => Matrix.of fun i j => F i j * (sd fun k => Y k j) + mu fun k => Y k j
  | _ => F

/-- **C52 (CENTER, what remains true).** The back-transformation is per response iff all response columns
have the mean of column `0`. -/
theorem C52_center_partial (X : Matrix (Fin n) (Fin p) ℝ) (Y : Matrix (Fin n) (Fin (q + 1)) ℝ) (m : M)
    (ht : train (of (cen X X)) (of (cen Y Y)) = .ok m) (hr : 0 < r) (Z : Matrix (Fin r) (Fin p) ℝ)
    (F : Matrix (Fin r) (Fin (q + 1)) ℝ) (hF : predict m (of Z) = .ok (of F)) :
    ∃ s, multiTrain isZero train .center (of X) (of Y) = .ok s ∧
      (multiPredict predict s (of Z) = .ok (of (denorm .center Y F)) ↔
        ∀ j, (mu fun k => Y k j) = mu fun k => Y k 0) := by
  obtain ⟨s, h1, h2⟩ := C52_center_value train predict isZero X Y m ht
  refine ⟨s, h1, ?_⟩
  rw [h2 Z F hF]
  refine ⟨fun h j => ?_, fun h => ?_⟩
  · have := congrFun (congrFun (of_inj.1 (Except.ok.inj h)) ⟨0, hr⟩) j
    simp only [denorm, Matrix.of_apply] at this
    linarith
  · congr 2
    ext i j
    simp only [denorm, Matrix.of_apply, h j]

/-- **C52 (STANDARDIZE, what remains true).** The back-transformation is per response if all response
columns have the mean and standard deviation of column `0`. -/
theorem C52_standardize_partial (hz : ∀ x, isZero x = true ↔ x = 0) (X : Matrix (Fin n) (Fin (p + 1)) ℝ)
    (Y : Matrix (Fin n) (Fin (q + 1)) ℝ) (m : M) (ht : train (of (std X X)) (of (std Y Y)) = .ok m)
    (Z : Matrix (Fin r) (Fin (p + 1)) ℝ) (F : Matrix (Fin r) (Fin (q + 1)) ℝ)
    (hF : predict m (of Z) = .ok (of F))
    (hY : ∀ j, (mu fun k => Y k j) = (mu fun k => Y k 0) ∧ (sd fun k => Y k j) = sd fun k => Y k 0) :
    ∃ s, multiTrain isZero train .standardize (of X) (of Y) = .ok s ∧
      multiPredict predict s (of Z) = .ok (of (denorm .standardize Y F)) := by
  obtain ⟨s, h1, h2⟩ := C52_standardize_value train predict isZero hz X Y m ht
  refine ⟨s, h1, (h2 Z F hF).trans ?_⟩
  congr 2
  ext i j
  simp only [denorm, Matrix.of_apply, (hY j).1, (hY j).2]

/-- **C52, violated.** Whatever the algorithm, as soon as a response column has another mean than column
`0` the predictions of that column are shifted by the difference of the means, for all data. -/
theorem C52_center_violation (X : Matrix (Fin n) (Fin p) ℝ) (Y : Matrix (Fin n) (Fin (q + 1)) ℝ) (m : M)
    (ht : train (of (cen X X)) (of (cen Y Y)) = .ok m) (j : Fin (q + 1))
    (hj : (mu fun k => Y k j) ≠ mu fun k => Y k 0) (Z : Matrix (Fin r) (Fin p) ℝ)
    (F : Matrix (Fin r) (Fin (q + 1)) ℝ) (hF : predict m (of Z) = .ok (of F)) :
    ∃ s G, multiTrain isZero train .center (of X) (of Y) = .ok s ∧ multiPredict predict s (of Z) = .ok (of G) ∧
      ∀ i, G i j - denorm .center Y F i j = (mu fun k => Y k 0) - (mu fun k => Y k j) ∧
        G i j ≠ denorm .center Y F i j := by
  obtain ⟨s, h1, h2⟩ := C52_center_value train predict isZero X Y m ht
  refine ⟨s, _, h1, h2 Z F hF, fun i => ?_⟩
  simp only [denorm, Matrix.of_apply]
  refine ⟨by ring, fun h => hj ?_⟩
  linarith

/-- A case: two responses `(1, 10)`, `(3, 30)`, whose means are `2` and `20`. -/
example : (mu fun k : Fin 2 => (!![1, 10; 3, 30] : Matrix (Fin 2) (Fin 2) ℝ) k 1) ≠
    mu fun k : Fin 2 => (!![1, 10; 3, 30] : Matrix (Fin 2) (Fin 2) ℝ) k 0 := by
  simp [mu, Fin.sum_univ_two]
  norm_num

/-- Without preprocessing nothing is done to the predictions. -/
theorem C52_none (X Y : Mat ℝ) (m : M) (ht : train X Y = .ok m) :
    ∃ s, multiTrain isZero train .none X Y = .ok s ∧ ∀ Z, multiPredict predict s Z = predict m Z := by
  refine ⟨⟨((pyRange 0 Y.cols).map fun _ => ((0 : ℝ), (1 : ℝ))).map Prod.fst,
    ((pyRange 0 Y.cols).map fun _ => ((0 : ℝ), (1 : ℝ))).map Prod.snd, false, m⟩, ?_, fun Z => ?_⟩
  · unfold multiTrain
    rw [multiStats_eq .none Y (0, 1) rfl]
    show (do let m ← train X Y; Except.ok _) = _
    rw [ht]
    rfl
  · unfold multiPredict
    cases predict m Z <;> rfl

end multi

end Verif.Props
