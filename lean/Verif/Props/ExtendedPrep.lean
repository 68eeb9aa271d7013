import Verif.Alg.PrepExt
import Verif.Props.ExtendedPls
import Verif.Props.TransfProps

/-!
# C146 through the preprocessing of PLS1

The options `NONE`, `CENTER` and `STANDARDIZE` of `_AbstractSingleResponsePLS.py` around PLS1, over `X ℝ`.
-/

namespace Verif.Props
open Verif Mat Transf
open Verif.X (finMat IsFinite)
open scoped Matrix

section
variable {n p K : Nat}

/-- Training `PLS1` with preprocessing. -/
noncomputable def pls1SingleG (isZero : X ℝ → Bool) (inv : Mat (X ℝ) → Except PyErr (Mat (X ℝ))) (K : Nat) (prep : Prep) (A y : Mat (X ℝ)) :
    Except PyErr (SingleModel (X ℝ) (Pls1Model (X ℝ))) :=
  singleTrainG isZero (fun A y => pls1TrainG pls1Weights inv (K : Int) A y >>= fun m => .ok m.1) prep A y

/-- Predicting with it. -/
noncomputable def pls1SinglePredictG (K : Nat) (m : SingleModel (X ℝ) (Pls1Model (X ℝ))) (Z : Mat (X ℝ)) : Except PyErr (Mat (X ℝ)) :=
  singlePredictG (pls1PredictG (K : Int)) m Z

/-- If the base model only predicts NaN, so does the algorithm with preprocessing. -/
theorem nan_through {r : Nat} (m : SingleModel (X ℝ) (Pls1Model (X ℝ))) (Z : Matrix (Fin r) (Fin p) (X ℝ))
    (h : pls1PredictG (K : Int) m.base (of Z) = .ok (of (Matrix.of fun (_ : Fin r) (_ : Fin 1) => X.nan))) :
    pls1SinglePredictG K m (of Z) = .ok (of (Matrix.of fun (_ : Fin r) (_ : Fin 1) => X.nan)) := by
  unfold pls1SinglePredictG singlePredictG
  rw [h, except_bind_ok]
  split
  · refine (denorm_loopG (r := r) _ _ _).trans ?_
    rw [ok_inj]
    refine mk_congr fun i j => ?_
    rw [Matrix.of_apply, Matrix.of_apply, X.nan_mul, X.nan_add]
  · rfl

/-- What a trained model was trained on. -/
theorem single_base {isZero : X ℝ → Bool} {inv : Mat (X ℝ) → Except PyErr (Mat (X ℝ))} {prep : Prep} {A y A' y' : Mat (X ℝ)}
    {m : SingleModel (X ℝ) (Pls1Model (X ℝ))} (hm : pls1SingleG isZero inv K prep A y = .ok m) (hA : prepApplyG isZero prep A = .ok A')
    (hy : prepApplyG isZero prep y = .ok y') : ∃ T, pls1TrainG pls1Weights inv (K : Int) A' y' = .ok (m.base, T) := by
  unfold pls1SingleG singleTrainG at hm
  rw [hA, hy] at hm
  cases h0 : classStatsG prep y with
  | error e => rw [h0] at hm; cases hm
  | ok st =>
    rw [h0] at hm
    simp only [except_bind_ok] at hm
    cases h1 : pls1TrainG pls1Weights inv (K : Int) A' y' with
    | error e => rw [h1] at hm; cases hm
    | ok q =>
      rw [h1] at hm
      cases hm
      exact ⟨q.2, rfl⟩

/-- A value that is not finite stays so under division. -/
theorem quot_not_finite {a b : X ℝ} (ha : ¬ IsFinite a) : ¬ IsFinite (a / b) := by
  cases a with
  | fin x => exact absurd trivial ha
  | nan => exact fun h => h
  | pinf =>
    cases b with
    | fin y =>
      show ¬ IsFinite (if y < 0 then X.ninf else X.pinf)
      split <;> exact fun h => h
    | _ => exact fun h => h
  | ninf =>
    cases b with
    | fin y =>
      show ¬ IsFinite (if y < 0 then X.pinf else X.ninf)
      split <;> exact fun h => h
    | _ => exact fun h => h

/-- No preprocessing hides a bad entry: its column still has one afterwards. -/
theorem prep_bad (isZero : X ℝ → Bool) (prep : Prep) (hprep : prep ≠ .unknown) (A : Matrix (Fin n) (Fin p) (X ℝ))
    {i : Fin n} {j : Fin p} (h : ¬ IsFinite (A i j)) :
    ∃ A' : Matrix (Fin n) (Fin p) (X ℝ), prepApplyG isZero prep (of A) = .ok (of A') ∧ ¬ IsFinite (A' i j) := by
  cases prep with
  | none => exact ⟨A, rfl, h⟩
  | center => exact ⟨_, fitTransformG_center A, sub_not_finite (.inl h)⟩
  | standardize =>
    rcases p with _ | p
    · exact j.elim0
    · exact ⟨_, fitTransformG_standardize isZero A, quot_not_finite (sub_not_finite (.inl h))⟩
  | unknown => exact absurd rfl hprep

/-- The preprocessing of a matrix with columns ends. -/
theorem prep_ends (isZero : X ℝ → Bool) (prep : Prep) (hprep : prep ≠ .unknown) (hp : 0 < p) (A : Matrix (Fin n) (Fin p) (X ℝ)) :
    ∃ A' : Matrix (Fin n) (Fin p) (X ℝ), prepApplyG isZero prep (of A) = .ok (of A') := by
  cases prep with
  | none => exact ⟨A, rfl⟩
  | center => exact ⟨_, fitTransformG_center A⟩
  | standardize =>
    rcases p with _ | p
    · omega
    · exact ⟨_, fitTransformG_standardize isZero A⟩
  | unknown => exact absurd rfl hprep

/-- C146.  **Bad training data, with preprocessing.**  Whatever the preprocessing option, one infinite or NaN entry in the predictors or
the response makes every prediction NaN. -/
theorem C146_prep_bad_training (isZero : X ℝ → Bool) (inv : Mat (X ℝ) → Except PyErr (Mat (X ℝ))) (hn : 0 < n) (hp : 0 < p) (hK : 0 < K)
    (prep : Prep) (hprep : prep ≠ .unknown) (A : Matrix (Fin n) (Fin p) (X ℝ)) (y : Matrix (Fin n) (Fin 1) (X ℝ))
    (hbad : (∃ i j, ¬ IsFinite (A i j)) ∨ ∃ i, ¬ IsFinite (y i 0)) (m : SingleModel (X ℝ) (Pls1Model (X ℝ)))
    (hm : pls1SingleG isZero inv K prep (of A) (of y) = .ok m) {r : Nat} (hr : 0 < r) (Z : Matrix (Fin r) (Fin p) (X ℝ)) :
    pls1SinglePredictG K m (of Z) = .ok (of (Matrix.of fun (_ : Fin r) (_ : Fin 1) => X.nan)) := by
  obtain ⟨A', y', hA, hy, hb⟩ : ∃ (A' : Matrix (Fin n) (Fin p) (X ℝ)) (y' : Matrix (Fin n) (Fin 1) (X ℝ)),
      prepApplyG isZero prep (of A) = .ok (of A') ∧ prepApplyG isZero prep (of y) = .ok (of y') ∧
      ((∃ i j, ¬ IsFinite (A' i j)) ∨ ∃ i, ¬ IsFinite (y' i 0)) := by
    rcases hbad with ⟨i, j, h⟩ | ⟨i, h⟩
    · obtain ⟨A', hA, hb⟩ := prep_bad isZero prep hprep A h
      obtain ⟨y', hy⟩ := prep_ends isZero prep hprep Nat.one_pos y
      exact ⟨A', y', hA, hy, .inl ⟨i, j, hb⟩⟩
    · obtain ⟨A', hA⟩ := prep_ends isZero prep hprep hp A
      obtain ⟨y', hy, hb⟩ := prep_bad isZero prep hprep y h
      exact ⟨A', y', hA, hy, .inr ⟨i, hb⟩⟩
  obtain ⟨T, hT⟩ := single_base hm hA hy
  exact nan_through m Z (C146_bad_training inv hn hp hK A' y' hb m.base T hT hr Z)

theorem gMean_fin (hn : 0 < n) (A : Matrix (Fin n) (Fin p) ℝ) (j : Fin p) : gMean (finMat A) j = X.fin (mu fun i => A i j) := by
  have hn' : (n : ℝ) ≠ 0 := by
    have h0 : n ≠ 0 := by omega
    exact_mod_cast h0
  show (sumFin fun k => (X.fin (A k j) : X ℝ)) / ((n : Nat) : X ℝ) = _
  rw [X.sumFin_fin, X.natCast_fin, X.fin_div _ hn', sumFin_eq]
  rfl

theorem center_fin (hn : 0 < n) (isZero : X ℝ → Bool) (A : Matrix (Fin n) (Fin p) ℝ) :
    prepApplyG isZero .center (of (finMat A)) = .ok (of (finMat (cen A A))) := by
  refine (fitTransformG_center _).trans ?_
  rw [ok_inj]
  refine mk_congr fun i j => ?_
  rw [Matrix.of_apply, gMean_fin hn]
  rfl

/-- C146.  **Too many components, with `CENTER`**: the components are counted in the centred data. -/
theorem C146_prep_exhausted (isZero : X ℝ → Bool) (inv : Mat (X ℝ) → Except PyErr (Mat (X ℝ))) (hn : 0 < n) (hp : 0 < p)
    (A : Matrix (Fin n) (Fin p) ℝ) (y : Matrix (Fin n) (Fin 1) ℝ) (h : ¬ Regular (pls1W (cen y y)) K (cen A A))
    (m : SingleModel (X ℝ) (Pls1Model (X ℝ))) (hm : pls1SingleG isZero inv K .center (of (finMat A)) (of (finMat y)) = .ok m)
    {r : Nat} (hr : 0 < r) (Z : Matrix (Fin r) (Fin p) (X ℝ)) :
    pls1SinglePredictG K m (of Z) = .ok (of (Matrix.of fun (_ : Fin r) (_ : Fin 1) => X.nan)) := by
  obtain ⟨T, hT⟩ := single_base hm (center_fin hn isZero A) (center_fin hn isZero y)
  exact nan_through m Z (C146_exhausted inv hn hp _ _ h m.base T hT hr Z)

/-- The number of components is at most the rank of the predictors. -/
theorem regular_rank {wf : Matrix (Fin n) (Fin p) ℝ → Matrix (Fin p) (Fin 1) ℝ} {A : Matrix (Fin n) (Fin p) ℝ} (h : Regular wf K A) :
    K ≤ A.rank := by
  have h1 : ((plsTM wf K A)ᵀ * plsTM wf K A).rank = K := by
    have := Matrix.rank_of_isUnit _ ((Matrix.isUnit_iff_isUnit_det _).2 (isUnit_iff_ne_zero.2 (gram_det h)))
    simpa using this
  have h2 := Matrix.rank_mul_le_right (plsTM wf K A)ᵀ (plsTM wf K A)
  rw [h1, plsTM_mul] at h2
  exact h2.trans (Matrix.rank_mul_le_left A _)

/-- Centred data have rank less than the number of samples. -/
theorem cen_rank (hn : 0 < n) (A : Matrix (Fin n) (Fin p) ℝ) : (cen A A).rank < n := by
  rw [← Matrix.rank_transpose]
  have hk := LinearMap.finrank_range_add_finrank_ker ((cen A A)ᵀ.mulVecLin)
  rw [Module.finrank_fin_fun] at hk
  have h1 : (fun _ => 1 : Fin n → ℝ) ∈ LinearMap.ker ((cen A A)ᵀ.mulVecLin) := by
    rw [LinearMap.mem_ker]
    funext j
    have hn' : (n : ℝ) ≠ 0 := by
      have h0 : n ≠ 0 := by omega
      exact_mod_cast h0
    show ∑ i, (A i j - mu fun k => A k j) * 1 = 0
    simp only [mul_one]
    rw [Finset.sum_sub_distrib, Finset.sum_const, Finset.card_univ, Fintype.card_fin, nsmul_eq_mul]
    unfold mu
    rw [mul_div_cancel₀ _ hn', sub_self]
  have h2 : 0 < Module.finrank ℝ (LinearMap.ker ((cen A A)ᵀ.mulVecLin)) := by
    have : Nontrivial (LinearMap.ker ((cen A A)ᵀ.mulVecLin)) :=
      ⟨⟨⟨_, h1⟩, 0, fun h => one_ne_zero (congrFun (congrArg Subtype.val h) (⟨0, hn⟩ : Fin n))⟩⟩
    exact Module.finrank_pos
  unfold Matrix.rank
  omega

/-- C146.  With `CENTER`, asking for as many components as there are samples never gives a number. -/
theorem C146_prep_few_samples (isZero : X ℝ → Bool) (inv : Mat (X ℝ) → Except PyErr (Mat (X ℝ))) (hn : 0 < n) (hp : 0 < p)
    (A : Matrix (Fin n) (Fin p) ℝ) (y : Matrix (Fin n) (Fin 1) ℝ) (hK : n ≤ K)
    (m : SingleModel (X ℝ) (Pls1Model (X ℝ))) (hm : pls1SingleG isZero inv K .center (of (finMat A)) (of (finMat y)) = .ok m)
    {r : Nat} (hr : 0 < r) (Z : Matrix (Fin r) (Fin p) (X ℝ)) :
    pls1SinglePredictG K m (of Z) = .ok (of (Matrix.of fun (_ : Fin r) (_ : Fin 1) => X.nan)) :=
  C146_prep_exhausted isZero inv hn hp A y (fun h => by have := regular_rank h; have := cen_rank hn A; omega) m hm hr Z

/-- If every covariance is zero or NaN, then every weight is NaN. -/
theorem weights_of_zero_or_nan (A : Matrix (Fin n) (Fin p) (X ℝ)) (y : Matrix (Fin n) (Fin 1) (X ℝ))
    (h : ∀ j, gmul Aᵀ y j 0 = 0 ∨ gmul Aᵀ y j 0 = X.nan) (j : Fin p) : gWeights y A j 0 = X.nan := by
  show gmul Aᵀ y j 0 / HasSqrt.sqrt (sumFin fun k => gmul Aᵀ y k (0 : Fin 1) * gmul Aᵀ y k 0) = X.nan
  by_cases hc : ∃ k, gmul Aᵀ y k 0 = X.nan
  · obtain ⟨k, hk⟩ := hc
    have e : (sumFin fun k => gmul Aᵀ y k (0 : Fin 1) * gmul Aᵀ y k 0) = X.nan := sumFin_of_nan (i := k) (by rw [hk, X.mul_nan])
    rw [e]
    exact X.div_nan _
  · have h0 : ∀ k, gmul Aᵀ y k 0 = X.fin 0 := fun k => (h k).resolve_right fun hk => hc ⟨k, hk⟩
    have e : (sumFin fun k => gmul Aᵀ y k (0 : Fin 1) * gmul Aᵀ y k 0) = X.fin 0 := by
      simp only [h0, X.fin_mul]
      rw [X.sumFin_fin, sumFin_eq]
      simp
    rw [e, h0]
    have hs : HasSqrt.sqrt (X.fin 0 : X ℝ) = X.fin 0 := by
      show (if (0 : ℝ) < 0 then X.nan else X.fin (Real.sqrt 0)) = _
      rw [if_neg (lt_irrefl _), Real.sqrt_zero]
    rw [hs, X.fin_div_zero]
    exact X.signedInf_zero

/-- A column of zeros has zero or NaN covariances with anything. -/
theorem cov_zero_or_nan (A : Matrix (Fin n) (Fin p) (X ℝ)) (y : Matrix (Fin n) (Fin 1) (X ℝ)) (hy : ∀ i, y i 0 = 0 ∨ y i 0 = X.nan) (j : Fin p) :
    gmul Aᵀ y j 0 = 0 ∨ gmul Aᵀ y j 0 = X.nan := by
  have hm : ∀ a b : X ℝ, b = 0 ∨ b = X.nan → a * b = X.fin 0 ∨ a * b = X.nan := by
    rintro a b (rfl | rfl)
    · cases a with
      | fin x => exact .inl ((X.fin_mul x 0).trans (by rw [mul_zero]))
      | nan => exact .inr rfl
      | pinf => exact .inr X.signedInf_zero
      | ninf =>
        refine .inr ?_
        show X.signedInf (-(0 : ℝ)) = X.nan
        rw [neg_zero]
        exact X.signedInf_zero
    · exact .inr (X.mul_nan a)
  have hs : ∀ i, Aᵀ j i * y i 0 = X.fin 0 ∨ Aᵀ j i * y i 0 = X.nan := fun i => hm _ _ (hy i)
  by_cases hc : ∃ i, Aᵀ j i * y i 0 = X.nan
  · obtain ⟨i, hi⟩ := hc
    exact .inr (sumFin_of_nan (i := i) hi)
  · left
    have h0 : ∀ i, Aᵀ j i * y i 0 = X.fin 0 := fun i => (hs i).resolve_right fun hi => hc ⟨i, hi⟩
    show (sumFin fun i => Aᵀ j i * y i 0) = _
    simp only [h0]
    rw [X.sumFin_fin, sumFin_eq]
    simp
    rfl

/-- Deviations of a constant column are zero. -/
theorem const_dev (hn : 0 < n) (A : Matrix (Fin n) (Fin p) ℝ) (j : Fin p) (hc : ∀ i k, A i j = A k j) (i : Fin n) :
    finMat A i j - gMean (finMat A) j = X.fin 0 := by
  rw [gMean_fin hn]
  show X.fin (A i j) - X.fin (mu fun k => A k j) = X.fin 0
  rw [X.fin_sub]
  congr 1
  have hn' : (n : ℝ) ≠ 0 := by
    have h0 : n ≠ 0 := by omega
    exact_mod_cast h0
  have : (fun k => A k j) = fun _ : Fin n => A i j := funext fun k => hc k i
  rw [this]
  unfold mu
  rw [Finset.sum_const, Finset.card_univ, Fintype.card_fin, nsmul_eq_mul, mul_div_cancel_left₀ _ hn', sub_self]

/-- C146.  **A constant response** has no covariance with anything once it is centred: with `CENTER` or `STANDARDIZE` every prediction is
NaN, rather than the constant. -/
theorem C146_constant_response (isZero : X ℝ → Bool) (inv : Mat (X ℝ) → Except PyErr (Mat (X ℝ))) (hn : 0 < n) (hp : 0 < p) (hK : 0 < K)
    (prep : Prep) (hprep : prep = .center ∨ prep = .standardize) (A : Matrix (Fin n) (Fin p) (X ℝ)) (y : Matrix (Fin n) (Fin 1) ℝ)
    (hy : ∀ i k, y i 0 = y k 0) (m : SingleModel (X ℝ) (Pls1Model (X ℝ)))
    (hm : pls1SingleG isZero inv K prep (of A) (of (finMat y)) = .ok m) {r : Nat} (hr : 0 < r) (Z : Matrix (Fin r) (Fin p) (X ℝ)) :
    pls1SinglePredictG K m (of Z) = .ok (of (Matrix.of fun (_ : Fin r) (_ : Fin 1) => X.nan)) := by
  have hu : prep ≠ .unknown := by rcases hprep with rfl | rfl <;> decide
  obtain ⟨A', hA⟩ := prep_ends isZero prep hu hp A
  obtain ⟨y', hy', h0⟩ : ∃ y' : Matrix (Fin n) (Fin 1) (X ℝ), prepApplyG isZero prep (of (finMat y)) = .ok (of y') ∧
      ∀ i, y' i 0 = 0 ∨ y' i 0 = X.nan := by
    rcases hprep with rfl | rfl
    · exact ⟨_, fitTransformG_center _, fun i => .inl (const_dev hn y 0 hy i)⟩
    · refine ⟨_, fitTransformG_standardize isZero _, fun i => ?_⟩
      rw [Matrix.of_apply, const_dev hn y 0 hy i]
      generalize (if (0 : Fin 1) = 0 ∧ isZero (gStd (finMat y) 0) = true then (1 : X ℝ) else gStd (finMat y) 0) = d
      cases d with
      | fin x =>
        by_cases hx : x = 0
        · subst hx
          exact .inr ((X.fin_div_zero 0).trans X.signedInf_zero)
        · exact .inl ((X.fin_div 0 hx).trans (by rw [zero_div]; rfl))
      | nan => exact .inr rfl
      | pinf => exact .inl rfl
      | ninf => exact .inl rfl
  obtain ⟨T, hT⟩ := single_base hm hA hy'
  refine nan_through m Z (spoiled inv hn hp A' y' (⟨0, hK⟩ : Fin K) ⟨0, hp⟩ ?_ m.base T hT hr Z)
  exact weights_of_zero_or_nan A' y' (cov_zero_or_nan A' y' h0) _

/-- C146.  **A constant predictor** that is not the first becomes NaN under `STANDARDIZE`, and with it every prediction. -/
theorem C146_constant_predictor (isZero : X ℝ → Bool) (inv : Mat (X ℝ) → Except PyErr (Mat (X ℝ))) (hn : 0 < n) (hK : 0 < K)
    (A : Matrix (Fin n) (Fin (p + 1)) ℝ) (y : Matrix (Fin n) (Fin 1) (X ℝ)) (j : Fin (p + 1)) (hj : j ≠ 0) (hc : ∀ i k, A i j = A k j)
    (m : SingleModel (X ℝ) (Pls1Model (X ℝ))) (hm : pls1SingleG isZero inv K .standardize (of (finMat A)) (of y) = .ok m)
    {r : Nat} (hr : 0 < r) (Z : Matrix (Fin r) (Fin (p + 1)) (X ℝ)) :
    pls1SinglePredictG K m (of Z) = .ok (of (Matrix.of fun (_ : Fin r) (_ : Fin 1) => X.nan)) := by
  obtain ⟨y', hy⟩ := prep_ends isZero .standardize (by decide) Nat.one_pos y
  obtain ⟨T, hT⟩ := single_base hm (fitTransformG_standardize isZero _) hy
  refine nan_through m Z (C146_bad_training inv hn (Nat.succ_pos p) hK _ y' (.inl ⟨⟨0, hn⟩, j, ?_⟩) m.base T hT hr Z)
  rw [Matrix.of_apply, const_dev hn A j hc, if_neg fun h => hj h.1]
  have hs : (sumFin fun i => (finMat A i j - gMean (finMat A) j) * (finMat A i j - gMean (finMat A) j)) = X.fin 0 := by
    simp only [const_dev hn A j hc, X.fin_mul]
    rw [X.sumFin_fin, sumFin_eq]
    simp
  have hd : gStd (finMat A) j = X.fin 0 ∨ gStd (finMat A) j = X.nan := by
    unfold gStd
    rw [hs, X.natCast_fin]
    by_cases h0 : ((n - 1 : Nat) : ℝ) = 0
    · rw [h0, X.fin_div_zero, X.signedInf_zero]
      exact .inr rfl
    · left
      rw [X.fin_div _ h0, zero_div]
      show (if (0 : ℝ) < 0 then X.nan else X.fin (Real.sqrt 0)) = _
      rw [if_neg (lt_irrefl _), Real.sqrt_zero]
  rcases hd with hd | hd
  · rw [hd, X.fin_div_zero, X.signedInf_zero]
    exact not_finite_nan
  · rw [hd, X.div_nan]
    exact not_finite_nan

/-- Training with preprocessing ends whenever the inverse does. -/
theorem C146_prep_training_ends (isZero : X ℝ → Bool) (inv : Mat (X ℝ) → Except PyErr (Mat (X ℝ)))
    (hinv : ∀ (k : Nat) (M : Matrix (Fin k) (Fin k) (X ℝ)), ∃ R : Matrix (Fin k) (Fin k) (X ℝ), inv (of M) = .ok (of R))
    (hn : 0 < n) (hp : 0 < p) (hK : 0 < K) (prep : Prep) (hprep : prep ≠ .unknown) (A : Matrix (Fin n) (Fin p) (X ℝ))
    (y : Matrix (Fin n) (Fin 1) (X ℝ)) : ∃ m, pls1SingleG isZero inv K prep (of A) (of y) = .ok m := by
  obtain ⟨A', hA⟩ := prep_ends isZero prep hprep hp A
  obtain ⟨y', hy⟩ := prep_ends isZero prep hprep Nat.one_pos y
  obtain ⟨mT, hT⟩ := C146_training_ends inv hinv hn hp hK A' y'
  obtain ⟨st, hst⟩ : ∃ st, classStatsG prep (of y) = .ok st := by
    cases prep with
    | none => exact ⟨_, rfl⟩
    | center => exact ⟨(gMean y 0, 1), rfl⟩
    | standardize => exact ⟨(gMean y 0, gStd y 0), rfl⟩
    | unknown => exact absurd rfl hprep
  unfold pls1SingleG singleTrainG
  rw [hst, except_bind_ok, hA, except_bind_ok, hy, except_bind_ok]
  dsimp only
  rw [hT]
  exact ⟨_, rfl⟩

/-- Both constant cases do occur. -/
example : (∃ m, pls1SingleG isZeroX nanInverse 1 .center (of (finMat (!![1, 0; 0, 2] : Matrix (Fin 2) (Fin 2) ℝ)))
      (of (finMat (!![3; 3] : Matrix (Fin 2) (Fin 1) ℝ))) = .ok m ∧
    pls1SinglePredictG 1 m (of (finMat (!![1, 1] : Matrix (Fin 1) (Fin 2) ℝ))) = .ok (of (Matrix.of fun (_ : Fin 1) (_ : Fin 1) => X.nan))) ∧
    ∃ m, pls1SingleG isZeroX nanInverse 1 .standardize (of (finMat (!![1, 5; 0, 5] : Matrix (Fin 2) (Fin 2) ℝ)))
      (of (finMat (!![3; 4] : Matrix (Fin 2) (Fin 1) ℝ))) = .ok m ∧
    pls1SinglePredictG 1 m (of (finMat (!![1, 1] : Matrix (Fin 1) (Fin 2) ℝ))) = .ok (of (Matrix.of fun (_ : Fin 1) (_ : Fin 1) => X.nan)) := by
  constructor
  · obtain ⟨m, hm⟩ := C146_prep_training_ends isZeroX nanInverse nanInverse_ends (n := 2) (p := 2) (K := 1) (by omega) (by omega) (by omega)
      .center (by decide) (finMat (!![1, 0; 0, 2] : Matrix (Fin 2) (Fin 2) ℝ)) (finMat (!![3; 3] : Matrix (Fin 2) (Fin 1) ℝ))
    refine ⟨m, hm, C146_constant_response isZeroX nanInverse (by omega) (by omega) (by omega) .center (.inl rfl) _ _ ?_ m hm (by omega) _⟩
    intro i k
    fin_cases i <;> fin_cases k <;> rfl
  · obtain ⟨m, hm⟩ := C146_prep_training_ends isZeroX nanInverse nanInverse_ends (n := 2) (p := 2) (K := 1) (by omega) (by omega) (by omega)
      .standardize (by decide) (finMat (!![1, 5; 0, 5] : Matrix (Fin 2) (Fin 2) ℝ)) (finMat (!![3; 4] : Matrix (Fin 2) (Fin 1) ℝ))
    refine ⟨m, hm, C146_constant_predictor isZeroX nanInverse (p := 1) (by omega) (by omega) _ _ 1 (by decide) ?_ m hm (by omega) _⟩
    intro i k
    fin_cases i <;> fin_cases k <;> rfl

end
end Verif.Props
