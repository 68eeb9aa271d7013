import Verif.Alg.Pls1Ext
import Verif.Core.ExtLemmas
import Verif.Props.PlsInvariance

/-!
# C146: PLS1 never turns impossible requests or bad data into plausible numbers

Scalars are `X ℝ`: real numbers, infinities and NaN with the rules of IEEE 754, without rounding.
-/

namespace Verif.Props
open Verif Mat Transf
open Verif.X (finMat IsFinite)
open scoped Matrix

section scalars
variable {K : Type} [Field K] [LinearOrder K]

theorem nan_of_mem_sum {l : List (X K)} (h : X.nan ∈ l) : l.sum = X.nan := by
  induction l with
  | nil => cases h
  | cons a l ih =>
    rw [List.sum_cons]
    rcases List.mem_cons.1 h with rfl | h
    · exact X.nan_add _
    · rw [ih h]
      exact X.add_nan a

theorem sumFin_of_nan {n : Nat} {f : Fin n → X K} {i : Fin n} (h : f i = X.nan) : sumFin f = X.nan :=
  nan_of_mem_sum (List.mem_ofFn.2 ⟨i, h⟩)

omit [Field K] [LinearOrder K] in
theorem not_finite_nan : ¬ IsFinite (X.nan : X K) := fun h => h

omit [LinearOrder K] in
theorem add_not_finite {a b : X K} (h : ¬ IsFinite a ∨ ¬ IsFinite b) : ¬ IsFinite (a + b) := by
  cases a <;> cases b <;> first
    | exact fun hh => hh
    | exact absurd trivial (h.elim id id)

omit [LinearOrder K] in
theorem sub_not_finite {a b : X K} (h : ¬ IsFinite a ∨ ¬ IsFinite b) : ¬ IsFinite (a - b) := by
  cases a <;> cases b <;> first
    | exact fun hh => hh
    | exact absurd trivial (h.elim id id)

theorem signedInf_not_finite (x : K) : ¬ IsFinite (X.signedInf x) := by
  unfold X.signedInf
  split
  · exact fun hh => hh
  · split <;> exact fun hh => hh

theorem mul_not_finite {a b : X K} (h : ¬ IsFinite a ∨ ¬ IsFinite b) : ¬ IsFinite (a * b) := by
  cases a <;> cases b <;> first
    | exact fun hh => hh
    | exact signedInf_not_finite _
    | exact absurd trivial (h.elim id id)

omit [LinearOrder K] in
theorem sum_not_finite {l : List (X K)} {a : X K} (h : a ∈ l) (ha : ¬ IsFinite a) : ¬ IsFinite l.sum := by
  induction l with
  | nil => cases h
  | cons b l ih =>
    rw [List.sum_cons]
    rcases List.mem_cons.1 h with rfl | h
    · exact add_not_finite (.inl ha)
    · exact add_not_finite (.inr (ih h))

omit [LinearOrder K] in
theorem sumFin_not_finite {n : Nat} {f : Fin n → X K} (i : Fin n) (h : ¬ IsFinite (f i)) : ¬ IsFinite (sumFin f) :=
  sum_not_finite (List.mem_ofFn.2 ⟨i, rfl⟩) h

/-- A value that is not finite, divided by its own length, is NaN: the length is infinite or NaN. -/
theorem div_not_finite {a b : X K} (ha : ¬ IsFinite a) (hb : ¬ IsFinite b) : a / b = X.nan := by
  cases a <;> cases b <;> first
    | rfl
    | exact absurd trivial ha
    | exact absurd trivial hb

theorem sqrt_not_finite [HasSqrt K] {a : X K} (ha : ¬ IsFinite a) : ¬ IsFinite (HasSqrt.sqrt a) := by
  cases a with
  | fin x => exact absurd trivial ha
  | _ => exact fun hh => hh

end scalars

/-! ## One bad weight spoils everything -/

section spoil
variable {n p K : Nat}

/-- If some weight of some component is NaN, then that component's coefficient is NaN. -/
theorem gB_nan (wf : Matrix (Fin n) (Fin p) (X ℝ) → Matrix (Fin p) (Fin 1) (X ℝ)) (hn : 0 < n) (A : Matrix (Fin n) (Fin p) (X ℝ))
    (y : Matrix (Fin n) (Fin 1) (X ℝ)) (k : Nat) (j : Fin p) (h : gW wf A k j 0 = X.nan) : gB wf A y k = X.nan := by
  have ht : ∀ i, gT wf A k i 0 = X.nan := fun i => sumFin_of_nan (i := j) (by rw [h, X.mul_nan])
  have hd : gdot (gT wf A k) (gT wf A k) = X.nan := sumFin_of_nan (i := ⟨0, hn⟩) (by rw [ht, X.mul_nan])
  unfold gB
  rw [hd, X.div_nan]

theorem spoiled (inv : Mat (X ℝ) → Except PyErr (Mat (X ℝ))) (hn : 0 < n) (hp : 0 < p) (A : Matrix (Fin n) (Fin p) (X ℝ))
    (y : Matrix (Fin n) (Fin 1) (X ℝ)) (k : Fin K) (j : Fin p) (h : gW (gWeights y) A k.1 j 0 = X.nan) (m : Pls1Model (X ℝ)) (T : Mat (X ℝ))
    (hm : pls1TrainG pls1Weights inv (K : Int) (of A) (of y) = .ok (m, T)) {r : Nat} (hr : 0 < r) (Z : Matrix (Fin r) (Fin p) (X ℝ)) :
    pls1PredictG (K : Int) m (of Z) = .ok (of (Matrix.of fun (_ : Fin r) (_ : Fin 1) => X.nan)) := by
  rw [pls1TrainG_eq (gWeights y) pls1Weights inv K hn hp (by have := k.2; omega) A y fun k _ => pls1Weights_gen y _] at hm
  cases h1 : inv (of (gmul (gPM (gWeights y) K A)ᵀ (gWM (gWeights y) K A))) with
  | error e => rw [h1] at hm; cases hm
  | ok R =>
    rw [h1, except_bind_ok] at hm
    cases h2 : (of (gWM (gWeights y) K A)).mul R with
    | error e => rw [h2] at hm; cases hm
    | ok C =>
      rw [h2, except_bind_ok] at hm
      cases h3 : C.mul (of (gBM (gWeights y) K A y)) with
      | error e => rw [h3] at hm; cases hm
      | ok rh =>
        rw [h3, except_bind_ok] at hm
        cases hm
        rw [pls1PredictG_eq hr]
        congr 1
        refine mk_congr fun i _ => ?_
        refine sumFin_of_nan (i := k) ?_
        show _ * gB (gWeights y) A y k.1 = X.nan
        rw [gB_nan _ hn A y k.1 j h, X.mul_nan]

/-- C146.  **Bad training data.**  If any entry of the predictors or of the response is infinite or NaN, then whenever training ends, every
prediction for every data set is NaN: nothing can be mistaken for a result. -/
theorem C146_bad_training (inv : Mat (X ℝ) → Except PyErr (Mat (X ℝ))) (hn : 0 < n) (hp : 0 < p) (hK : 0 < K)
    (A : Matrix (Fin n) (Fin p) (X ℝ)) (y : Matrix (Fin n) (Fin 1) (X ℝ))
    (hbad : (∃ i j, ¬ IsFinite (A i j)) ∨ ∃ i, ¬ IsFinite (y i 0)) (m : Pls1Model (X ℝ)) (T : Mat (X ℝ))
    (hm : pls1TrainG pls1Weights inv (K : Int) (of A) (of y) = .ok (m, T)) {r : Nat} (hr : 0 < r) (Z : Matrix (Fin r) (Fin p) (X ℝ)) :
    pls1PredictG (K : Int) m (of Z) = .ok (of (Matrix.of fun (_ : Fin r) (_ : Fin 1) => X.nan)) := by
  have hc : ∃ j, ¬ IsFinite (gmul Aᵀ y j 0) := by
    rcases hbad with ⟨i, j, h⟩ | ⟨i, h⟩
    · exact ⟨j, sumFin_not_finite i (mul_not_finite (.inl h))⟩
    · exact ⟨⟨0, hp⟩, sumFin_not_finite i (mul_not_finite (.inr h))⟩
  obtain ⟨j, hj⟩ := hc
  refine spoiled inv hn hp A y (⟨0, hK⟩ : Fin K) j ?_ m T hm hr Z
  exact div_not_finite hj (sqrt_not_finite (sumFin_not_finite j (mul_not_finite (.inl hj))))

end spoil

/-! ## Finite data -/

section finite
variable {n p : Nat}

theorem gmul_fin {m n p : Nat} (A : Matrix (Fin m) (Fin n) ℝ) (B : Matrix (Fin n) (Fin p) ℝ) : gmul (finMat A) (finMat B) = finMat (A * B) := by
  ext i j
  show (sumFin fun l => (X.fin (A i l) * X.fin (B l j) : X ℝ)) = X.fin ((A * B) i j)
  simp only [X.fin_mul]
  rw [X.sumFin_fin, sumFin_eq, Matrix.mul_apply]

theorem gdot_fin (a b : Matrix (Fin n) (Fin 1) ℝ) : gdot (finMat a) (finMat b) = X.fin (∑ l, a l 0 * b l 0) := by
  show (sumFin fun l => (X.fin (a l 0) * X.fin (b l 0) : X ℝ)) = _
  simp only [X.fin_mul]
  rw [X.sumFin_fin, sumFin_eq]

theorem norm_fin (A : Matrix (Fin n) (Fin p) ℝ) (y : Matrix (Fin n) (Fin 1) ℝ) :
    HasSqrt.sqrt (sumFin fun k => gmul (finMat A)ᵀ (finMat y) k (0 : Fin 1) * gmul (finMat A)ᵀ (finMat y) k 0) =
      (X.fin (Real.sqrt (sq1 (Aᵀ * y))) : X ℝ) := by
  have e : gmul (finMat A)ᵀ (finMat y) = finMat (Aᵀ * y) := gmul_fin Aᵀ y
  rw [e]
  have h : (sumFin fun k => (finMat (Aᵀ * y) k (0 : Fin 1) * finMat (Aᵀ * y) k 0 : X ℝ)) = X.fin (sq1 (Aᵀ * y)) := by
    show (sumFin fun k => (X.fin ((Aᵀ * y) k 0) * X.fin ((Aᵀ * y) k 0) : X ℝ)) = _
    simp only [X.fin_mul]
    rw [X.sumFin_fin, sumFin_eq]
    rfl
  rw [h]
  exact if_neg (not_lt.2 (Finset.sum_nonneg fun l _ => mul_self_nonneg _))

theorem gWeights_fin (A : Matrix (Fin n) (Fin p) ℝ) (y : Matrix (Fin n) (Fin 1) ℝ) (h : Aᵀ * y ≠ 0) :
    gWeights (finMat y) (finMat A) = finMat (pls1W y A) := by
  have hs : Real.sqrt (sq1 (Aᵀ * y)) ≠ 0 := by
    intro h0
    have h1 : sq1 (Aᵀ * y) = 0 := (Real.sqrt_eq_zero (Finset.sum_nonneg fun l _ => mul_self_nonneg _)).1 h0
    have h2 := (Finset.sum_eq_zero_iff_of_nonneg fun l _ => mul_self_nonneg ((Aᵀ * y) l 0)).1 h1
    refine h ?_
    ext i j
    rw [Subsingleton.elim j 0]
    exact mul_self_eq_zero.1 (h2 i (Finset.mem_univ i))
  ext i j
  rw [Subsingleton.elim j 0]
  show gmul (finMat A)ᵀ (finMat y) i 0 / _ = _
  rw [norm_fin]
  have e : gmul (finMat A)ᵀ (finMat y) i 0 = X.fin ((Aᵀ * y) i 0) := congrFun (congrFun (gmul_fin Aᵀ y) i) 0
  rw [e, X.fin_div _ hs]
  rfl

theorem gWeights_nan (A : Matrix (Fin n) (Fin p) ℝ) (y : Matrix (Fin n) (Fin 1) ℝ) (h : Aᵀ * y = 0) (i : Fin p) :
    gWeights (finMat y) (finMat A) i 0 = X.nan := by
  show gmul (finMat A)ᵀ (finMat y) i 0 / _ = _
  rw [norm_fin]
  have e : gmul (finMat A)ᵀ (finMat y) i 0 = X.fin ((Aᵀ * y) i 0) := congrFun (congrFun (gmul_fin Aᵀ y) i) 0
  have h0 : sq1 (0 : Matrix (Fin p) (Fin 1) ℝ) = 0 := by simp [sq1]
  rw [e, h, h0, Real.sqrt_zero, X.fin_div_zero]
  exact X.signedInf_zero

theorem cov_ne {A : Matrix (Fin n) (Fin p) ℝ} {y : Matrix (Fin n) (Fin 1) ℝ} (h : sq1 (A * pls1W y A) ≠ 0) : Aᵀ * y ≠ 0 := by
  intro h0
  refine h ?_
  have hw : pls1W y A = 0 := by
    ext i j
    simp [pls1W, h0]
  rw [hw, Matrix.mul_zero]
  simp [sq1]

theorem gload_fin (A : Matrix (Fin n) (Fin p) ℝ) (t : Matrix (Fin n) (Fin 1) ℝ) (h : sq1 t ≠ 0) : gload (finMat A) (finMat t) = finMat (loading A t) := by
  ext i j
  rw [Subsingleton.elim j 0]
  show gmul (finMat A)ᵀ (finMat t) i 0 / gdot (finMat t) (finMat t) = X.fin ((Aᵀ * t) i 0 / sq1 t)
  rw [gdot_fin]
  have e : gmul (finMat A)ᵀ (finMat t) i 0 = X.fin ((Aᵀ * t) i 0) := congrFun (congrFun (gmul_fin Aᵀ t) i) 0
  rw [e]
  exact X.fin_div _ h

/-- As long as scores exist, the computation stays finite and is that of the reals. -/
theorem gX_fin (A : Matrix (Fin n) (Fin p) ℝ) (y : Matrix (Fin n) (Fin 1) ℝ) (d : Nat) (h : ∀ k < d, sq1 (plsT (pls1W y) A k) ≠ 0) :
    gX (gWeights (finMat y)) (finMat A) d = finMat (plsX (pls1W y) A d) := by
  induction d with
  | zero => rfl
  | succ d ih =>
    have ih := ih fun k hk => h k (by omega)
    have hd : sq1 (plsX (pls1W y) A d * pls1W y (plsX (pls1W y) A d)) ≠ 0 := h d (by omega)
    have hT : gT (gWeights (finMat y)) (finMat A) d = finMat (plsT (pls1W y) A d) := by
      unfold gT gW
      rw [ih, gWeights_fin _ _ (cov_ne hd), gmul_fin]
      rfl
    rw [gX_succ, gP, hT, ih, gload_fin _ _ (h d (by omega))]
    have e : gmul (finMat (plsT (pls1W y) A d)) (finMat (loading (plsX (pls1W y) A d) (plsT (pls1W y) A d)))ᵀ =
        finMat (plsT (pls1W y) A d * (plsP (pls1W y) A d)ᵀ) := gmul_fin _ (plsP (pls1W y) A d)ᵀ
    rw [e, plsX_succ]
    rfl

/-- C146.  **Too many components.**  If the data do not have `K` components (some score of the exact recursion vanishes), then whenever
training ends, every prediction for every data set is NaN. -/
theorem C146_exhausted (inv : Mat (X ℝ) → Except PyErr (Mat (X ℝ))) (hn : 0 < n) (hp : 0 < p) {K : Nat} (A : Matrix (Fin n) (Fin p) ℝ)
    (y : Matrix (Fin n) (Fin 1) ℝ) (h : ¬ Regular (pls1W y) K A) (m : Pls1Model (X ℝ)) (T : Mat (X ℝ))
    (hm : pls1TrainG pls1Weights inv (K : Int) (of (finMat A)) (of (finMat y)) = .ok (m, T)) {r : Nat} (hr : 0 < r)
    (Z : Matrix (Fin r) (Fin p) (X ℝ)) :
    pls1PredictG (K : Int) m (of Z) = .ok (of (Matrix.of fun (_ : Fin r) (_ : Fin 1) => X.nan)) := by
  classical
  have hex : ∃ k, k < K ∧ sq1 (plsT (pls1W y) A k) = 0 := by
    by_contra hc
    push Not at hc
    exact h (Regular.of_sq1 hc)
  obtain ⟨hd, h0⟩ := Nat.find_spec hex
  have hmin : ∀ k < Nat.find hex, sq1 (plsT (pls1W y) A k) ≠ 0 := fun k hk hk0 => Nat.find_min hex hk ⟨hk.trans hd, hk0⟩
  refine spoiled inv hn hp _ _ (⟨Nat.find hex, hd⟩ : Fin K) ⟨0, hp⟩ ?_ m T hm hr Z
  show gWeights _ (gX _ _ _) _ _ = _
  rw [gX_fin A y _ hmin]
  exact gWeights_nan _ _ (cov_zero h0) _

/-- C146.  In particular asking for more components than there are predictors never gives a number (the default is five components). -/
theorem C146_more_than_predictors (inv : Mat (X ℝ) → Except PyErr (Mat (X ℝ))) (hn : 0 < n) (hp : 0 < p) {K : Nat} (hK : p < K)
    (A : Matrix (Fin n) (Fin p) ℝ) (y : Matrix (Fin n) (Fin 1) ℝ) (m : Pls1Model (X ℝ)) (T : Mat (X ℝ))
    (hm : pls1TrainG pls1Weights inv (K : Int) (of (finMat A)) (of (finMat y)) = .ok (m, T)) {r : Nat} (hr : 0 < r)
    (Z : Matrix (Fin r) (Fin p) (X ℝ)) :
    pls1PredictG (K : Int) m (of Z) = .ok (of (Matrix.of fun (_ : Fin r) (_ : Fin 1) => X.nan)) :=
  C146_exhausted inv hn hp A y (fun h => absurd (regular_le h) (by omega)) m T hm hr Z

theorem gRow_fin {K : Nat} (A : Matrix (Fin n) (Fin p) ℝ) (wf : Matrix (Fin n) (Fin p) ℝ → Matrix (Fin p) (Fin 1) ℝ)
    (x : Matrix (Fin 1) (Fin p) ℝ) (j : Nat) (hj : j ≤ K) :
    gRow (finMat (plsWM wf K A)) (finMat (plsPM wf K A)) (fun c => X.fin (x 0 c)) j = fun c => X.fin (plsZ wf A x j 0 c) := by
  induction j with
  | zero => rfl
  | succ j ih =>
    funext c
    rw [gRow, ih (by omega)]
    have hjK : j < K := hj
    simp only [dif_pos hjK]
    have e : (sumFin fun l => (X.fin (plsZ wf A x j 0 l) * finMat (plsWM wf K A) l ⟨j, hjK⟩ : X ℝ)) = X.fin (plsS wf A x j 0 0) := by
      show (sumFin fun l => (X.fin (plsZ wf A x j 0 l) * X.fin (plsW wf A j l 0) : X ℝ)) = _
      simp only [X.fin_mul]
      rw [X.sumFin_fin, sumFin_eq, plsS, Matrix.mul_apply]
    rw [e]
    show X.fin (plsZ wf A x j 0 c) - X.fin (plsP wf A j c 0) * X.fin (plsS wf A x j 0 0) = _
    rw [X.fin_mul, X.fin_sub, plsZ]
    congr 1
    rw [Matrix.sub_apply, Matrix.mul_apply]
    simp [plsS, mul_comm]

/-- C146.  **Otherwise everything is as over the reals**: finite data with enough components are trained without NaN, and the predictions
for finite samples are the real ones. -/
theorem C146_regular (inv : Mat (X ℝ) → Except PyErr (Mat (X ℝ)))
    (hinv : ∀ (k : Nat) (M : Matrix (Fin k) (Fin k) ℝ), M.det ≠ 0 → inv (of (finMat M)) = .ok (of (finMat M⁻¹)))
    (hn : 0 < n) (hp : 0 < p) {K : Nat} (hK : 0 < K) (A : Matrix (Fin n) (Fin p) ℝ) (y : Matrix (Fin n) (Fin 1) ℝ)
    (h : Regular (pls1W y) K A) :
    ∃ (m : Pls1Model ℝ) (T : Mat ℝ) (m' : Pls1Model (X ℝ)) (T' : Mat (X ℝ)), pls1Train pls1Weights (K : Int) (of A) (of y) = .ok (m, T) ∧
      pls1TrainG pls1Weights inv (K : Int) (of (finMat A)) (of (finMat y)) = .ok (m', T') ∧
      ∀ (r : Nat), 0 < r → ∀ Z : Matrix (Fin r) (Fin p) ℝ, ∃ F : Matrix (Fin r) (Fin 1) ℝ,
        pls1Predict (K : Int) m (of Z) = .ok (of F) ∧ pls1PredictG (K : Int) m' (of (finMat Z)) = .ok (of (finMat F)) := by
  have hs := h.sq1_ne
  have hT : ∀ k < K, gT (gWeights (finMat y)) (finMat A) k = finMat (plsT (pls1W y) A k) := fun k hk => by
    unfold gT gW
    rw [gX_fin A y k fun i hi => hs i (by omega), gWeights_fin _ _ (cov_ne (hs k hk)), gmul_fin]
    rfl
  have hW : gWM (gWeights (finMat y)) K (finMat A) = finMat (plsWM (pls1W y) K A) := by
    ext i j
    show gWeights _ (gX _ _ _) i 0 = _
    rw [gX_fin A y j.1 fun i hi => hs i (by have := j.2; omega), gWeights_fin _ _ (cov_ne (hs j.1 j.2))]
    rfl
  have hP : gPM (gWeights (finMat y)) K (finMat A) = finMat (plsPM (pls1W y) K A) := by
    ext i j
    show gload (gX _ _ _) (gT _ _ _) i 0 = _
    rw [hT j.1 j.2, gX_fin A y j.1 fun i hi => hs i (by have := j.2; omega), gload_fin _ _ (hs j.1 j.2)]
    rfl
  have hTM : gTM (gWeights (finMat y)) K (finMat A) = finMat (plsTM (pls1W y) K A) := by
    ext i j
    show gT _ _ _ i 0 = _
    rw [hT j.1 j.2]
    rfl
  have hB : gBM (gWeights (finMat y)) K (finMat A) (finMat y) = finMat (plsBM (pls1W y) K A y) := by
    ext j i
    show gdot (gT _ _ _) _ / gdot (gT _ _ _) (gT _ _ _) = X.fin (plsB (pls1W y) A y j.1)
    rw [hT j.1 j.2, gdot_fin, gdot_fin]
    exact X.fin_div _ (hs j.1 j.2)
  have htrain : pls1TrainG pls1Weights inv (K : Int) (of (finMat A)) (of (finMat y)) =
      .ok (⟨of (gmul (gmul (finMat (plsWM (pls1W y) K A)) (finMat ((plsPM (pls1W y) K A)ᵀ * plsWM (pls1W y) K A)⁻¹))
        (finMat (plsBM (pls1W y) K A y))), of (finMat (plsPM (pls1W y) K A)), of (finMat (plsWM (pls1W y) K A)),
        of (finMat (plsBM (pls1W y) K A y))⟩, of (finMat (plsTM (pls1W y) K A))) := by
    rw [pls1TrainG_eq (gWeights (finMat y)) pls1Weights inv K hn hp hK (finMat A) (finMat y) fun k _ => pls1Weights_gen _ _, hW, hP, hTM, hB]
    have e : gmul (finMat (plsPM (pls1W y) K A))ᵀ (finMat (plsWM (pls1W y) K A)) = finMat ((plsPM (pls1W y) K A)ᵀ * plsWM (pls1W y) K A) :=
      gmul_fin _ _
    rw [e, hinv _ _ (by rw [det_ptw (pls1W y) K A hs]; exact one_ne_zero), except_bind_ok, mul_gen, except_bind_ok, mul_gen, except_bind_ok]
  refine ⟨_, _, _, _, pls1Train_eq (pls1W y) pls1Weights K hn hp hK A y (fun k _ => pls1Weights_eq y _) hs, htrain,
    fun r hr Z => ⟨_, pls1Predict_eq _ hr K A _ _ Z, ?_⟩⟩
  · rw [pls1PredictG_eq hr]
    congr 1
    refine mk_congr fun i j => ?_
    rw [Subsingleton.elim j 0]
    have hg : ∀ k : Fin K, gScore (finMat (plsWM (pls1W y) K A)) (finMat (plsPM (pls1W y) K A)) (finMat Z i) k =
        X.fin (plsSM (pls1W y) K A Z i k) := fun k => by
      unfold gScore
      have e := gRow_fin (K := K) A (pls1W y) (rowOf Z i) k.1 (by have := k.2; omega)
      rw [show (finMat Z i) = fun c => X.fin (rowOf Z i 0 c) from rfl, e]
      show (sumFin fun l => (X.fin (plsZ (pls1W y) A (rowOf Z i) k.1 0 l) * X.fin (plsW (pls1W y) A k.1 l 0) : X ℝ)) = _
      simp only [X.fin_mul]
      rw [X.sumFin_fin, sumFin_eq, plsZ_row]
      show _ = X.fin ((plsZ (pls1W y) A Z k.1 * plsW (pls1W y) A k.1) i 0)
      rw [Matrix.mul_apply]
      rfl
    have hf : (fun k : Fin K => (gScore (finMat (plsWM (pls1W y) K A)) (finMat (plsPM (pls1W y) K A)) (finMat Z i) k *
        finMat (plsBM (pls1W y) K A y) k 0 : X ℝ)) = fun k => X.fin (plsSM (pls1W y) K A Z i k) * X.fin (plsBM (pls1W y) K A y k 0) :=
      funext fun k => by rw [hg k]; rfl
    refine (congrArg sumFin hf).trans ?_
    show (sumFin fun k => (X.fin (plsSM (pls1W y) K A Z i k) * X.fin (plsBM (pls1W y) K A y k 0) : X ℝ)) = X.fin ((plsSM (pls1W y) K A Z * plsBM (pls1W y) K A y) i 0)
    simp only [X.fin_mul]
    rw [X.sumFin_fin, sumFin_eq, Matrix.mul_apply]

/-- C146.  **Bad new samples.**  Whatever the trained model holds, a sample with an infinite or NaN entry gets a prediction that is infinite
or NaN. -/
theorem C146_bad_sample {K r : Nat} (hK : 0 < K) (hr : 0 < r) (rh : Mat (X ℝ)) (W P : Matrix (Fin p) (Fin K) (X ℝ))
    (b : Matrix (Fin K) (Fin 1) (X ℝ)) (Z : Matrix (Fin r) (Fin p) (X ℝ)) :
    ∃ F : Matrix (Fin r) (Fin 1) (X ℝ), pls1PredictG (K : Int) ⟨rh, of P, of W, of b⟩ (of Z) = .ok (of F) ∧
      ∀ i, (∃ j, ¬ IsFinite (Z i j)) → ¬ IsFinite (F i 0) := by
  refine ⟨_, pls1PredictG_eq hr rh W P b Z, fun i ⟨j, hj⟩ => ?_⟩
  refine sumFin_not_finite (⟨0, hK⟩ : Fin K) (mul_not_finite (.inl ?_))
  exact sumFin_not_finite j (mul_not_finite (.inl hj))

/-- Training ends whenever the inverse does (it returns a matrix of the same shape). -/
theorem C146_training_ends (inv : Mat (X ℝ) → Except PyErr (Mat (X ℝ)))
    (hinv : ∀ (k : Nat) (M : Matrix (Fin k) (Fin k) (X ℝ)), ∃ R : Matrix (Fin k) (Fin k) (X ℝ), inv (of M) = .ok (of R))
    (hn : 0 < n) (hp : 0 < p) {K : Nat} (hK : 0 < K) (A : Matrix (Fin n) (Fin p) (X ℝ)) (y : Matrix (Fin n) (Fin 1) (X ℝ)) :
    ∃ m, pls1TrainG pls1Weights inv (K : Int) (of A) (of y) = .ok m := by
  obtain ⟨R, hR⟩ := hinv K (gmul (gPM (gWeights y) K A)ᵀ (gWM (gWeights y) K A))
  rw [pls1TrainG_eq (gWeights y) pls1Weights inv K hn hp hK A y fun k _ => pls1Weights_gen y _, hR, except_bind_ok, mul_gen,
    except_bind_ok, mul_gen, except_bind_ok]
  exact ⟨_, rfl⟩

/-- An inverse that always returns: the real inverse for finite matrices with one, NaN otherwise. -/
noncomputable def nanInverse (M : Mat (X ℝ)) : Except PyErr (Mat (X ℝ)) := by
  classical
  exact .ok (if h : ∃ (k : Nat) (A : Matrix (Fin k) (Fin k) ℝ), M = of (finMat A) ∧ A.det ≠ 0 then
    of (finMat h.choose_spec.choose⁻¹) else ⟨M.rows, M.cols, Matrix.of fun _ _ => X.nan⟩)

theorem finMat_injective {a b : Nat} {A B : Matrix (Fin a) (Fin b) ℝ} (h : finMat A = finMat B) : A = B := by
  ext i j
  exact X.fin.inj (congrFun (congrFun h i) j)

/-- It meets the hypothesis of `C146_regular`. -/
theorem nanInverse_fin (k : Nat) (M : Matrix (Fin k) (Fin k) ℝ) (hM : M.det ≠ 0) : nanInverse (of (finMat M)) = .ok (of (finMat M⁻¹)) := by
  have h : ∃ (k' : Nat) (A : Matrix (Fin k') (Fin k') ℝ), of (finMat M) = of (finMat A) ∧ A.det ≠ 0 := ⟨k, M, rfl, hM⟩
  unfold nanInverse
  rw [dif_pos h]
  congr 1
  have e := h.choose_spec.choose_spec.1
  generalize h.choose_spec.choose = B at e
  revert B
  generalize h.choose = k'
  intro B e
  obtain rfl : k = k' := congrArg Mat.rows e
  rw [finMat_injective (of_injective e)]

/-- It meets the hypothesis of `C146_training_ends`. -/
theorem nanInverse_ends (k : Nat) (M : Matrix (Fin k) (Fin k) (X ℝ)) : ∃ R : Matrix (Fin k) (Fin k) (X ℝ), nanInverse (of M) = .ok (of R) := by
  unfold nanInverse
  split
  · next h =>
    have e := h.choose_spec.choose_spec.1
    generalize h.choose_spec.choose = B at e ⊢
    revert B
    generalize h.choose = k'
    intro B e
    obtain rfl : k = k' := congrArg Mat.rows e
    exact ⟨_, rfl⟩
  · exact ⟨_, rfl⟩

/-- One predictor, the default number of components: training ends and every prediction is NaN. -/
example : ∃ m T, pls1TrainG pls1Weights nanInverse (5 : Nat) (of (finMat (!![1; 2; 3] : Matrix (Fin 3) (Fin 1) ℝ)))
      (of (finMat (!![2; 4; 6] : Matrix (Fin 3) (Fin 1) ℝ))) = .ok (m, T) ∧
    pls1PredictG (5 : Nat) m (of (finMat (!![4] : Matrix (Fin 1) (Fin 1) ℝ))) = .ok (of (Matrix.of fun (_ : Fin 1) (_ : Fin 1) => X.nan)) := by
  obtain ⟨⟨m, T⟩, h⟩ := C146_training_ends nanInverse nanInverse_ends (n := 3) (p := 1) (by omega) (by omega) (K := 5) (by omega)
    (finMat (!![1; 2; 3] : Matrix (Fin 3) (Fin 1) ℝ)) (finMat (!![2; 4; 6] : Matrix (Fin 3) (Fin 1) ℝ))
  exact ⟨m, T, h, C146_more_than_predictors nanInverse (by omega) (by omega) (by omega) _ _ m T h (by omega) _⟩

/-- Two components of the two-predictor data used elsewhere: finite. -/
example : ∃ m' T', pls1TrainG pls1Weights nanInverse (2 : Nat) (of (finMat exX)) (of (finMat exY)) = .ok (m', T') ∧
    ∃ F : Matrix (Fin 2) (Fin 1) ℝ, pls1PredictG (2 : Nat) m' (of (finMat exX)) = .ok (of (finMat F)) := by
  obtain ⟨_, _, m', T', -, h, h'⟩ := C146_regular nanInverse nanInverse_fin (n := 2) (p := 2) (by omega) (by omega) (K := 2) (by omega) exX exY
    ex_regular
  obtain ⟨F, -, hF⟩ := h' 2 (by omega) exX
  exact ⟨m', T', h, F, hF⟩

/-- A missing value in the response. -/
example : ∃ m T, pls1TrainG pls1Weights nanInverse (1 : Nat) (of (finMat exX)) (of (!![X.fin 1; X.nan] : Matrix (Fin 2) (Fin 1) (X ℝ))) = .ok (m, T) ∧
    pls1PredictG (1 : Nat) m (of (finMat exX)) = .ok (of (Matrix.of fun (_ : Fin 2) (_ : Fin 1) => X.nan)) := by
  obtain ⟨⟨m, T⟩, h⟩ := C146_training_ends nanInverse nanInverse_ends (n := 2) (p := 2) (by omega) (by omega) (K := 1) (by omega)
    (finMat exX) (!![X.fin 1; X.nan] : Matrix (Fin 2) (Fin 1) (X ℝ))
  exact ⟨m, T, h, C146_bad_training nanInverse (by omega) (by omega) (by omega) _ _ (.inr ⟨1, not_finite_nan⟩) m T h (by omega) _⟩

end finite

end Verif.Props
