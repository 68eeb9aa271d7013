import Verif.Alg.YGrad
import Verif.Core.ExtLemmas
import Verif.Props.GlswProps
import Mathlib.Analysis.SpecialFunctions.Pow.Real

/-!
# C85, C86: the Y-gradient filter and covariance
-/

set_option linter.unusedSectionVars false
set_option linter.unusedSimpArgs false

namespace Verif.Props
open Verif Verif.Mat Verif.Transf
open scoped Matrix

variable {n p : Nat}

/-! ## Specification -/

/-- The row `k` after row `i`, or the last one. -/
def rowUp (i : Fin n) (k : Nat) : Fin n := ⟨min (i.1 + k) (n - 1), by have := i.2; omega⟩
/-- The row `k` before row `i`, or the first one. -/
def rowDown (i : Fin n) (k : Nat) : Fin n := ⟨i.1 - k, by have := i.2; omega⟩

/-- Least-squares slope of a parabola through five points: the five-point first-derivative Savitzky-Golay filter, the first
and last value being repeated beyond the ends. -/
noncomputable def slope (f : Fin n → ℝ) (i : Fin n) : ℝ :=
  (2 * (f (rowUp i 2) - f (rowDown i 2)) + (f (rowUp i 1) - f (rowDown i 1))) / 10

/-- It is the slope of the parabola: for a parabola the value inside is its derivative. -/
theorem slope_parabola (a b c : ℝ) (i : Fin n) (h1 : 2 ≤ i.1) (h2 : i.1 + 2 < n) :
    slope (fun k : Fin n => a + b * (k.1 : ℝ) + c * (k.1 : ℝ) ^ 2) i = b + 2 * c * (i.1 : ℝ) := by
  unfold slope rowUp rowDown
  simp only []
  rw [min_eq_left (by omega), min_eq_left (by omega), Nat.cast_sub h1, Nat.cast_sub (by omega)]
  push_cast
  ring

/-! ## Lemmas -/

theorem ygCoef_real (k : Fin 5) : (ygCoef k : ℝ) = ![2 / 10, 1 / 10, 0, -1 / 10, -2 / 10] k := by
  unfold ygCoef
  fin_cases k <;> simp

theorem ygSmooth_slope (hn : n ≠ 0) (A : Matrix (Fin n) (Fin p) ℝ) (i : Fin n) (j : Fin p) :
    ygSmooth hn A i j = - slope (fun k => A k j) i := by
  unfold ygSmooth ygSum slope
  simp only [Matrix.of_apply, ygCoef_real]
  have e : ∀ k : Fin 5, clampRow hn (i.1 + k.1) = if 2 ≤ k.1 then rowUp i (k.1 - 2) else rowDown i (2 - k.1) := by
    intro k
    have := i.2
    have := k.2
    apply Fin.ext
    split
    · simp only [clampRow, rowUp]
      omega
    · simp only [clampRow, rowDown]
      omega
  simp only [e]
  simp
  ring

theorem slope_nonneg (f : Fin n → ℝ) (hf : Monotone f) (i : Fin n) : 0 ≤ slope f i := by
  unfold slope
  have h : ∀ k, f (rowDown i k) ≤ f (rowUp i k) := by
    intro k
    apply hf
    have := i.2
    show i.1 - k ≤ min (i.1 + k) (n - 1)
    omega
  have h1 := h 1
  have h2 := h 2
  have : 0 ≤ 2 * (f (rowUp i 2) - f (rowDown i 2)) + (f (rowUp i 1) - f (rowDown i 1)) := by linarith
  positivity

/-! ## C85 -/

/-- For data with at least one row the filter, in whatever state, returns a matrix of the same shape holding the negated
five-point slopes of the columns.  Each column is treated on its own. -/
theorem C85_values (hn : n ≠ 0) (A : Matrix (Fin n) (Fin p) ℝ) (s : Bool) :
    (transform ygSavGol (of A) s).2 = .ok (of (Matrix.of fun i j => - slope (fun k => A k j) i)) := by
  rw [ygTransform, ygFilter_of hn, ok_inj]
  exact mk_congr fun i j => by rw [ygSmooth_slope]; rfl

/-- Up to its sign the result is the first derivative: exact for parabolas away from the ends, zero for constant columns,
and linear in the data. -/
theorem C85_derivative_partial (hn : n ≠ 0) (s : Bool) : ∃ F : Matrix (Fin n) (Fin p) ℝ → Matrix (Fin n) (Fin p) ℝ,
    (∀ A, (transform ygSavGol (of A) s).2 = .ok (of (- F A))) ∧
    (∀ (a b c : Fin p → ℝ) (i : Fin n) (j : Fin p), 2 ≤ i.1 → i.1 + 2 < n →
      F (Matrix.of fun k j => a j + b j * (k.1 : ℝ) + c j * (k.1 : ℝ) ^ 2) i j = b j + 2 * c j * (i.1 : ℝ)) ∧
    (∀ (a : Fin p → ℝ), F (Matrix.of fun _ j => a j) = 0) ∧
    (∀ (x y : ℝ) A B, F (x • A + y • B) = x • F A + y • F B) := by
  refine ⟨fun A => Matrix.of fun i j => slope (fun k => A k j) i, fun A => C85_values hn A s, fun a b c i j h1 h2 => ?_, fun a => ?_,
    fun x y A B => ?_⟩
  · exact slope_parabola (a j) (b j) (c j) i h1 h2
  · ext i j
    simp [slope]
  · ext i j
    simp only [slope, Matrix.of_apply, Matrix.add_apply, Matrix.smul_apply, smul_eq_mul]
    ring

/-- The filter does not return the first derivative but its negative: for a parabola, at every inner row where the
derivative is not zero, the returned value has the opposite sign. -/
theorem C85_sign_violation (a b c : ℝ) (i : Fin n) (h1 : 2 ≤ i.1) (h2 : i.1 + 2 < n) (hd : b + 2 * c * (i.1 : ℝ) ≠ 0) (s : Bool) :
    ∃ B : Matrix (Fin n) (Fin 1) ℝ,
      (transform ygSavGol (of (Matrix.of fun (k : Fin n) (_ : Fin 1) => a + b * (k.1 : ℝ) + c * (k.1 : ℝ) ^ 2)) s).2 = .ok (of B) ∧
      B i 0 = -(b + 2 * c * (i.1 : ℝ)) ∧ B i 0 * (b + 2 * c * (i.1 : ℝ)) < 0 := by
  refine ⟨_, C85_values (by omega) _ s, ?_, ?_⟩
  · exact congrArg Neg.neg (slope_parabola a b c i h1 h2)
  · have : (Matrix.of fun (i : Fin n) (j : Fin 1) => - slope (fun k : Fin n =>
        (Matrix.of fun (k : Fin n) (_ : Fin 1) => a + b * (k.1 : ℝ) + c * (k.1 : ℝ) ^ 2) k j) i) i 0 = -(b + 2 * c * (i.1 : ℝ)) :=
      congrArg Neg.neg (slope_parabola a b c i h1 h2)
    rw [this]
    have := mul_self_pos.2 hd
    linarith

/-- Data without rows raises an `IndexError`; the inverse always raises. -/
theorem C85_errors (A : Matrix (Fin 0) (Fin p) ℝ) (M : Mat ℝ) (s : Bool) :
    (transform ygSavGol (of A) s).2 = .error .indexError ∧ (inverseTransform ygSavGol M s).2 = .error .matrixAlgorithms := by
  refine ⟨by rw [ygTransform]; exact ygFilter_empty A, ?_⟩
  cases s <;> rfl

/-- The hypotheses of `C85_sign_violation` hold for a ramp of five values. -/
example : 2 ≤ (2 : Fin 5).1 ∧ (2 : Fin 5).1 + 2 < 5 ∧ (1 : ℝ) + 2 * 0 * (((2 : Fin 5).1 : Nat) : ℝ) ≠ 0 := by norm_num

/-! ## C86 -/

/-- Sample standard deviation. -/
noncomputable def sampleSd (v : Fin n → ℝ) : ℝ := Real.sqrt ((∑ i, (v i - (∑ k, v k) / n) ^ 2) / (n - 1 : Nat))

/-- Weighted covariance of the slopes of the columns. -/
noncomputable def slopeCov (X : Matrix (Fin n) (Fin p) ℝ) (w : Fin n → ℝ) : Matrix (Fin p) (Fin p) ℝ :=
  Matrix.of fun j k => ∑ i, w i ^ 2 * slope (fun r => X r j) i * slope (fun r => X r k) i

/-- The documented weight `2 ^ (-yd / syd)` where `yd` is the smoothed first derivative of the sorted response. -/
noncomputable def docWeight (y : Fin n → ℝ) (i : Fin n) : ℝ := 2 ^ (-(slope y i) / sampleSd (slope y))

/-- The order and the power function used by Python. -/
noncomputable abbrev leY : ℝ → ℝ → Bool := fun a b => decide (a ≤ b)
noncomputable abbrev pow2R : ℝ → ℝ := fun x => (2 : ℝ) ^ x

theorem ygSpread_real (v : Fin n → ℝ) : ygSpread (of (Matrix.of fun i (_ : Fin 1) => v i)) = sampleSd v := by
  unfold ygSpread sampleSd meanAll total subScalar Mat.map
  simp only [sumFin_eq, of_rows, of_cols]
  show Real.sqrt _ = _
  congr 2
  · simp [pow_two]

theorem sampleSd_neg (v : Fin n → ℝ) : sampleSd (fun i => - v i) = sampleSd v := by
  unfold sampleSd
  congr 2
  refine Finset.sum_congr rfl fun i _ => ?_
  rw [Finset.sum_neg_distrib]
  ring

theorem order_monotone (y : Fin n → ℝ) (σ : Fin n → Fin n) (hσ : ygOrder leY (List.ofFn y) = List.ofFn fun i => ((σ i : Nat) : Int)) :
    Monotone (y ∘ σ) := by
  have h1 := List.pairwise_mergeSort (le := fun (a b : Int) => leY ((List.ofFn y).getD a.toNat 0) ((List.ofFn y).getD b.toNat 0))
    (fun a b c hab hbc => by simp only [decide_eq_true_eq] at *; exact le_trans hab hbc)
    (fun a b => by simp only [Bool.or_eq_true, decide_eq_true_eq]; exact le_total _ _) (pyRange 0 ((List.ofFn y).length : Int))
  unfold ygOrder at hσ
  rw [hσ, List.pairwise_ofFn] at h1
  intro i j hij
  rcases eq_or_lt_of_le hij with e | e
  · rw [e]
  · have := h1 e
    simpa using this

theorem ygWeight_real (hn : n ≠ 0) (y : Fin n → ℝ) :
    ygWeight pow2R (of (ygSmooth hn (Matrix.of fun i (_ : Fin 1) => y i))) (fun i => ygSmooth hn (Matrix.of fun i (_ : Fin 1) => y i) i 0) =
      Matrix.diagonal fun i => (2 : ℝ) ^ (slope y i / sampleSd (slope y)) := by
  have h3 : ygSmooth hn (Matrix.of fun i (_ : Fin 1) => y i) = Matrix.of fun i (_ : Fin 1) => - slope y i := by
    ext i j
    rw [ygSmooth_slope]
    rfl
  ext i j
  unfold ygWeight
  rw [h3, ygSpread_real, sampleSd_neg, Matrix.of_apply, Matrix.diagonal_apply]
  by_cases h : i = j
  · rw [if_pos h, if_pos h]
    show (2 : ℝ) ^ (-1 * -slope y i / _) = _
    norm_num
  · rw [if_neg h, if_neg h]

theorem yGradCov_real (hn : n ≠ 0) (X : Matrix (Fin n) (Fin p) ℝ) (y : Fin n → ℝ) (σ : Fin n → Fin n)
    (hσ : ygOrder leY (List.ofFn y) = List.ofFn fun i => ((σ i : Nat) : Int)) :
    yGradCov leY pow2R (of X) (of (Matrix.of fun i (_ : Fin 1) => y i)) =
      .ok (of (slopeCov (X.submatrix σ id) fun i => 2 ^ (slope (y ∘ σ) i / sampleSd (slope (y ∘ σ))))) := by
  rw [yGradCov_of hn leY pow2R X y σ hσ]
  have := ygWeight_real hn (y ∘ σ)
  simp only [Function.comp_apply] at this
  simp only []
  rw [this, mul_of, except_bind_ok, mul_of, except_bind_ok, mul_of, ok_inj]
  refine mk_congr fun j k => ?_
  rw [Matrix.diagonal_mul_diagonal, Matrix.mul_apply]
  unfold slopeCov
  rw [Matrix.of_apply]
  refine Finset.sum_congr rfl fun i _ => ?_
  rw [Matrix.mul_diagonal, Matrix.transpose_apply, ygSmooth_slope, ygSmooth_slope]
  show -slope (fun k => X (σ k) j) i * _ * -slope (fun k' => X (σ k') k) i = _
  simp only [Matrix.submatrix_apply, id]
  ring

/-- With a response column the covariance is computed from the samples in an order sorting the response, as a weighted sum
over the samples of products of slopes; it is symmetric and has a non-negative quadratic form. -/
theorem C86_covariance_partial (hn : n ≠ 0) (X : Matrix (Fin n) (Fin p) ℝ) (y : Fin n → ℝ) :
    ∃ (σ : Fin n → Fin n) (w : Fin n → ℝ), Function.Bijective σ ∧ Monotone (y ∘ σ) ∧ (∀ i, 0 < w i) ∧
      yGradCov leY pow2R (of X) (of (Matrix.of fun i (_ : Fin 1) => y i)) = .ok (of (slopeCov (X.submatrix σ id) w)) ∧
      (slopeCov (X.submatrix σ id) w)ᵀ = slopeCov (X.submatrix σ id) w ∧
      ∀ v : Fin p → ℝ, 0 ≤ v ⬝ᵥ (slopeCov (X.submatrix σ id) w) *ᵥ v := by
  obtain ⟨σ, hb, hσ⟩ := ygOrder_of leY y
  refine ⟨σ, _, hb, order_monotone y σ hσ, fun i => Real.rpow_pos_of_pos two_pos _, yGradCov_real hn X y σ hσ, ?_, fun v => ?_⟩
  · ext j k
    rw [Matrix.transpose_apply]
    simp only [slopeCov, Matrix.of_apply]
    exact Finset.sum_congr rfl fun i _ => by ring
  · set w : Fin n → ℝ := fun i => 2 ^ (slope (y ∘ σ) i / sampleSd (slope (y ∘ σ)))
    have : v ⬝ᵥ (slopeCov (X.submatrix σ id) w) *ᵥ v = ∑ i, (w i * ∑ j, slope (fun r => X (σ r) j) i * v j) ^ 2 := by
      simp only [dotProduct, Matrix.mulVec, slopeCov, Matrix.of_apply, Matrix.submatrix_apply, id, Finset.sum_mul, Finset.mul_sum, pow_two]
      have : ∀ j, ∑ k, ∑ i, v j * (w i * w i * slope (fun r => X (σ r) j) i * slope (fun r => X (σ r) k) i * v k) =
          ∑ i, ∑ k, w i * (slope (fun r => X (σ r) j) i * v j) * (w i * (slope (fun r => X (σ r) k) i * v k)) := by
        intro j
        rw [Finset.sum_comm]
        exact Finset.sum_congr rfl fun i _ => Finset.sum_congr rfl fun k _ => by ring
      simp only [this]
      rw [Finset.sum_comm]
      refine Finset.sum_congr rfl fun i _ => ?_
      rw [Finset.sum_comm]
    rw [this]
    exact Finset.sum_nonneg fun i _ => sq_nonneg _

/-- For pairwise different response values the result does not depend on the order of the samples. -/
theorem C86_order_partial (hn : n ≠ 0) (X : Matrix (Fin n) (Fin p) ℝ) (y : Fin n → ℝ) (hy : Function.Injective y) (τ : Fin n → Fin n)
    (hτ : Function.Bijective τ) :
    yGradCov leY pow2R (of (X.submatrix τ id)) (of (Matrix.of fun i (_ : Fin 1) => y (τ i))) =
      yGradCov leY pow2R (of X) (of (Matrix.of fun i (_ : Fin 1) => y i)) := by
  obtain ⟨σ, hb, hσ⟩ := ygOrder_of leY y
  obtain ⟨σ', hb', hσ'⟩ := ygOrder_of leY fun i => y (τ i)
  have m1 : StrictMono (y ∘ σ) := (order_monotone y σ hσ).strictMono_of_injective (hy.comp hb.1)
  have m2 : StrictMono (y ∘ (τ ∘ σ')) :=
    (order_monotone (fun i => y (τ i)) σ' hσ').strictMono_of_injective (hy.comp (hτ.comp hb').1)
  have hr : Set.range (y ∘ (τ ∘ σ')) = Set.range (y ∘ σ) := by
    rw [Set.range_comp y (τ ∘ σ'), Set.range_comp y σ, (hτ.comp hb').2.range_eq, hb.2.range_eq]
  have he : y ∘ (τ ∘ σ') = y ∘ σ := (StrictMono.range_inj m2 m1).1 hr
  have hts : τ ∘ σ' = σ := funext fun i => hy (congrFun he i)
  rw [yGradCov_real hn X y σ hσ, yGradCov_real hn (X.submatrix τ id) (fun i => y (τ i)) σ' hσ', ← hts]
  rfl

/-- The weights have the wrong sign in the exponent, because the smoothed response is the negated derivative: every sample
has weight at least one, and samples where the response changes faster get more weight, not less. -/
theorem C86_weights_violation (hn : n ≠ 0) (X : Matrix (Fin n) (Fin p) ℝ) (y : Fin n → ℝ) :
    ∃ (σ : Fin n → Fin n) (w : Fin n → ℝ), Function.Bijective σ ∧ Monotone (y ∘ σ) ∧
      yGradCov leY pow2R (of X) (of (Matrix.of fun i (_ : Fin 1) => y i)) = .ok (of (slopeCov (X.submatrix σ id) w)) ∧
      (∀ i, 1 ≤ w i ∧ docWeight (y ∘ σ) i ≤ 1 ∧ w i * docWeight (y ∘ σ) i = 1) ∧
      (0 < sampleSd (slope (y ∘ σ)) → ∀ i k, slope (y ∘ σ) i < slope (y ∘ σ) k → w i < w k) ∧
      (0 < sampleSd (slope (y ∘ σ)) → ∀ i j, 0 < slope (y ∘ σ) i → slope (fun r => X (σ r) j) i ≠ 0 →
        slopeCov (X.submatrix σ id) (docWeight (y ∘ σ)) j j < slopeCov (X.submatrix σ id) w j j) := by
  obtain ⟨σ, hb, hσ⟩ := ygOrder_of leY y
  have hm := order_monotone y σ hσ
  have hs : 0 ≤ sampleSd (slope (y ∘ σ)) := Real.sqrt_nonneg _
  have hw : ∀ i, (1 : ℝ) ≤ 2 ^ (slope (y ∘ σ) i / sampleSd (slope (y ∘ σ))) := fun i =>
    Real.one_le_rpow one_le_two (div_nonneg (slope_nonneg _ hm i) hs)
  have hd : ∀ i, docWeight (y ∘ σ) i ≤ 1 := fun i =>
    Real.rpow_le_one_of_one_le_of_nonpos one_le_two (by rw [neg_div]; exact neg_nonpos.2 (div_nonneg (slope_nonneg _ hm i) hs))
  have hd0 : ∀ i, 0 < docWeight (y ∘ σ) i := fun i => Real.rpow_pos_of_pos two_pos _
  refine ⟨σ, _, hb, hm, yGradCov_real hn X y σ hσ, fun i => ⟨hw i, hd i, ?_⟩, fun hpos i k hik => ?_, fun hpos i j hi hx => ?_⟩
  · unfold docWeight
    rw [← Real.rpow_add two_pos, neg_div, add_neg_cancel, Real.rpow_zero]
  · exact Real.rpow_lt_rpow_of_exponent_lt one_lt_two (by gcongr)
  · unfold slopeCov
    simp only [Matrix.of_apply]
    have hle : ∀ r, docWeight (y ∘ σ) r ^ 2 ≤ ((2 : ℝ) ^ (slope (y ∘ σ) r / sampleSd (slope (y ∘ σ)))) ^ 2 := fun r =>
      pow_le_pow_left₀ (hd0 r).le ((hd r).trans (hw r)) 2
    refine Finset.sum_lt_sum (fun r _ => ?_) ⟨i, Finset.mem_univ i, ?_⟩
    · rw [mul_assoc, mul_assoc]
      exact mul_le_mul_of_nonneg_right (hle r) (mul_self_nonneg _)
    · rw [mul_assoc, mul_assoc]
      refine mul_lt_mul_of_pos_right ?_ (mul_self_pos.2 hx)
      refine pow_lt_pow_left₀ ?_ (hd0 i).le two_ne_zero
      refine lt_of_le_of_lt (hd i) ?_
      exact Real.one_lt_rpow one_lt_two (div_pos hi hpos)

/-- A response with several columns raises an `IndexError`; a response with another number of rows is refused. -/
theorem C86_errors {q r : Nat} (cfg : GlswCfg ℝ) (hn : n ≠ 0) (hq : 2 ≤ q) (X : Matrix (Fin n) (Fin p) ℝ) (Y : Matrix (Fin n) (Fin q) ℝ)
    (hr : n ≠ r) (Z : Matrix (Fin r) (Fin q) ℝ) :
    yGlswFit cfg (of X) (of Y) = .error .indexError ∧
    yGlswFit cfg (of X) (of Z) = .ok (.message "Predictors and response must have the same number of rows!") ∧
    yEpoFit cfg (of X) (of Y) = .error .indexError ∧
    yEpoFit cfg (of X) (of Z) = .ok (.message "Predictors and response must have the same number of rows!") := by
  have c1 : yGradCheck (of X) (of Y) = none := if_neg (by simp)
  have c2 : yGradCheck (of X) (of Z) = some "Predictors and response must have the same number of rows!" := if_pos hr
  refine ⟨?_, ?_, ?_, ?_⟩
  · unfold yGlswFit glswInit glswDo
    rw [c1, yGradCov_wide _ _ hn hq]
    rfl
  · unfold yGlswFit glswInit
    rw [c2]
  · unfold yEpoFit glswInit glswDo
    rw [c1, yGradCov_wide _ _ hn hq]
    rfl
  · unfold yEpoFit glswInit
    rw [c2]

/-! ### A constant response -/

theorem ygCoef_fin (k : Fin 5) : (ygCoef k : X ℝ) = .fin (ygCoef k : ℝ) := by
  have h10 : ((10 : Nat) : ℝ) ≠ 0 := by norm_num
  unfold ygCoef
  fin_cases k
  · exact X.fin_div _ h10
  · exact X.fin_div _ h10
  · rfl
  · exact X.fin_div _ h10
  · exact X.fin_div _ h10

theorem ygSum_const (c : ℝ) : ygSum (fun _ => (X.fin c : X ℝ)) = .fin 0 := by
  unfold ygSum
  simp only [ygCoef_fin, X.fin_mul, X.zero_fin, X.fin_add, ygCoef_real]
  congr 1
  simp
  ring

theorem sumFin_const_fin (m : Nat) : sumFin (fun _ : Fin m => (X.fin 0 : X ℝ)) = .fin 0 := by
  rw [X.sumFin_fin]
  simp [sumFin_eq]

theorem list_sum_nan (l : List (X ℝ)) (h : X.nan ∈ l) : l.sum = X.nan := by
  induction l with
  | nil => cases h
  | cons a l ih =>
    rw [List.sum_cons]
    rcases List.mem_cons.1 h with h | h
    · rw [← h, X.nan_add]
    · rw [ih h, X.add_nan]

theorem sumFin_nan {m : Nat} (f : Fin m → X ℝ) (i : Fin m) (h : f i = X.nan) : sumFin f = X.nan :=
  list_sum_nan _ ((List.mem_ofFn' _ _).2 ⟨i, h⟩)

/-- If all response values are equal the spread is zero (or, for a single sample, undefined), and every entry of the
covariance is NaN, whatever the predictors. -/
theorem C86_constant_violation (hn : n ≠ 0) (le : X ℝ → X ℝ → Bool) (pow2 : X ℝ → X ℝ) (hp : pow2 .nan = .nan)
    (A : Matrix (Fin n) (Fin p) (X ℝ)) (c : ℝ) :
    yGradCov le pow2 (of A) (of (Matrix.of fun (_ : Fin n) (_ : Fin 1) => X.fin c)) =
      .ok (of (Matrix.of fun (_ _ : Fin p) => (X.nan : X ℝ))) := by
  obtain ⟨σ, hb, hσ⟩ := ygOrder_of le fun _ : Fin n => (X.fin c : X ℝ)
  rw [yGradCov_of hn le pow2 A (fun _ => X.fin c) σ hσ]
  have hsm : ygSmooth hn (Matrix.of fun (_ : Fin n) (_ : Fin 1) => (X.fin c : X ℝ)) = Matrix.of fun _ _ => X.fin 0 := by
    ext i j
    exact ygSum_const c
  rw [hsm]
  have hsp : ygSpread (of (Matrix.of fun (_ : Fin n) (_ : Fin 1) => (X.fin 0 : X ℝ))) = .fin 0 ∨
      ygSpread (of (Matrix.of fun (_ : Fin n) (_ : Fin 1) => (X.fin 0 : X ℝ))) = .nan := by
    have hmean : (of (Matrix.of fun (_ : Fin n) (_ : Fin 1) => (X.fin 0 : X ℝ))).meanAll = .fin 0 := by
      have : ((n * 1 : Nat) : ℝ) ≠ 0 := by simpa using hn
      show sumFin (fun _ : Fin 1 => sumFin fun _ : Fin n => (X.fin 0 : X ℝ)) / X.fin ((n * 1 : Nat) : ℝ) = _
      rw [sumFin_const_fin, sumFin_const_fin, X.fin_div _ this, zero_div]
    have htot : (((of (Matrix.of fun (_ : Fin n) (_ : Fin 1) => (X.fin 0 : X ℝ))).subScalar (.fin 0)).map fun x => x * x).total = .fin 0 := by
      show sumFin (fun _ : Fin 1 => sumFin fun _ : Fin n => ((X.fin 0 - X.fin 0) * (X.fin 0 - X.fin 0) : X ℝ)) = _
      rw [X.fin_sub, X.fin_mul, sub_zero, mul_zero, sumFin_const_fin, sumFin_const_fin]
    unfold ygSpread
    rw [hmean, htot]
    show X.sqrt (X.fin 0 / X.fin ((n - 1 : Nat) : ℝ)) = _ ∨ X.sqrt (X.fin 0 / X.fin ((n - 1 : Nat) : ℝ)) = _
    by_cases h : ((n - 1 : Nat) : ℝ) = 0
    · right
      rw [h, X.fin_div_zero, X.signedInf_zero]
      rfl
    · left
      rw [X.fin_div _ h, zero_div]
      show (if (0 : ℝ) < 0 then X.nan else X.fin (Real.sqrt 0)) = _
      rw [if_neg (lt_irrefl _), Real.sqrt_zero]
  have hw : ∀ i, ygWeight pow2 (of (Matrix.of fun (_ : Fin n) (_ : Fin 1) => (X.fin 0 : X ℝ)))
      (fun i => (Matrix.of fun (_ : Fin n) (_ : Fin 1) => (X.fin 0 : X ℝ)) i 0) i i = .nan := by
    intro i
    show (if i = i then pow2 (-1 * X.fin 0 / _) else 0) = _
    rw [if_pos rfl]
    have : (-1 * X.fin 0 : X ℝ) = .fin 0 := by
      show (X.fin (-1) * X.fin 0 : X ℝ) = _
      rw [X.fin_mul, mul_zero]
    rw [this]
    rcases hsp with h | h
    · rw [h, X.fin_div_zero, X.signedInf_zero, hp]
    · rw [h, X.div_nan, hp]
  set W := ygWeight pow2 (of (Matrix.of fun (_ : Fin n) (_ : Fin 1) => (X.fin 0 : X ℝ)))
      (fun i => (Matrix.of fun (_ : Fin n) (_ : Fin 1) => (X.fin 0 : X ℝ)) i 0) with hW
  set S := ygSmooth hn (A.submatrix σ id) with hS
  have h1 : (of W).mul (of W) = .ok (of (Matrix.of fun i j => sumFin fun k => W i k * W k j)) := dif_pos rfl
  have h2 : (of Sᵀ).mul (of (Matrix.of fun i j => sumFin fun k => W i k * W k j)) =
      .ok (of (Matrix.of fun i j => sumFin fun k => Sᵀ i k * sumFin fun l => W k l * W l j)) := dif_pos rfl
  have h3 : (of (Matrix.of fun i j => sumFin fun k => Sᵀ i k * sumFin fun l => W k l * W l j)).mul (of S) =
      .ok (of (Matrix.of fun i j => sumFin fun m => (sumFin fun k => Sᵀ i k * sumFin fun l => W k l * W l m) * S m j)) := dif_pos rfl
  simp only []
  rw [h1, except_bind_ok, h2, except_bind_ok, h3, ok_inj]
  refine mk_congr fun i j => ?_
  simp only [Matrix.of_apply]
  have z : Fin n := ⟨0, by omega⟩
  refine sumFin_nan _ z ?_
  have e1 : (sumFin fun l => W z l * W l z) = X.nan := sumFin_nan _ z (by rw [hw z, X.nan_mul])
  have e2 : (sumFin fun k => Sᵀ i k * sumFin fun l => W k l * W l z) = X.nan := sumFin_nan _ z (by rw [e1, X.mul_nan])
  rw [e2, X.nan_mul]

/-- The power function of the extended scalars has the property assumed. -/
example : ∃ pow2 : X ℝ → X ℝ, pow2 .nan = .nan ∧ ∀ x : ℝ, pow2 (.fin x) = .fin (2 ^ x) :=
  ⟨fun x => match x with | .fin x => .fin (2 ^ x) | .pinf => .pinf | .ninf => .fin 0 | .nan => .nan, rfl, fun _ => rfl⟩

/-! ### The filter built on it -/

/-- With orthonormal eigenvectors listed by decreasing eigenvalue, YGradientGLSW multiplies every eigenvector of the slope
covariance by the weight of its own eigenvalue. -/
theorem C86_filter_partial (cfg : GlswCfg ℝ) (ha : 0 < cfg.alpha) (hle : cfg.le = leY) (hpow : cfg.pow2 = pow2R) (hn : n ≠ 0) (hp : p ≠ 0)
    (X : Matrix (Fin n) (Fin p) ℝ) (y : Fin n → ℝ) :
    ∃ C : Matrix (Fin p) (Fin p) ℝ, yGradCov leY pow2R (of X) (of (Matrix.of fun i (_ : Fin 1) => y i)) = .ok (of C) ∧
      ∀ (ev : Fin p → ℝ) (V : Matrix (Fin p) (Fin p) ℝ) (s : Fin p → ℝ), Solved cfg C ev V s → OrthoEig C ev V → Antitone ev →
      ∃ G : Matrix (Fin p) (Fin p) ℝ, yGlswFit cfg (of X) (of (Matrix.of fun i (_ : Fin 1) => y i)) = .ok (.ready (of G)) ∧ Gᵀ = G ∧
        ∀ j, G *ᵥ V.col j = wt cfg.alpha (ev j) • V.col j := by
  obtain ⟨σ, w, hb, hm, hw, hc, hs, hq⟩ := C86_covariance_partial hn X y
  refine ⟨_, hc, fun ev V s h ho hd => ?_⟩
  have hnn : ∀ i, 0 ≤ ev i := by
    intro i
    have h1 := hq (V.col i)
    rw [ho.col i, dotProduct_smul] at h1
    have h2 : V.col i ⬝ᵥ V.col i = 1 := by
      have := congrFun (congrFun ho.ortho i) i
      rw [Matrix.one_apply_eq] at this
      exact this
    rw [h2, smul_eq_mul, mul_one] at h1
    exact h1
  have hse : s = ev := singular_eq ho hnn h.singular id Function.bijective_id hd
  subst hse
  obtain ⟨u, vh, hsv⟩ := h.svd
  have := glswDo_of cfg ha hp (yGradCov cfg.le cfg.pow2) (of X) (of (Matrix.of fun i (_ : Fin 1) => y i)) _ V s s u vh
    (by rw [hle, hpow]; exact hc) h.eig hsv
  refine ⟨_, ?_, diag_symm V fun i => wt cfg.alpha (s i), fun j => diag_col ho.ortho _ j⟩
  unfold yGlswFit glswInit
  have hck : yGradCheck (of X) (of (Matrix.of fun i (_ : Fin 1) => y i)) = none := if_neg (by simp)
  rw [hck]
  simp only []
  rw [this]
  simp only [weight_eq]
  rfl

/-! ### Examples -/

theorem sampleSd_pos (h2 : 2 ≤ n) (v : Fin n → ℝ) (i k : Fin n) (h : v i ≠ v k) : 0 < sampleSd v := by
  unfold sampleSd
  refine Real.sqrt_pos.2 (div_pos ?_ (by exact_mod_cast (by omega : 0 < n - 1)))
  by_contra hle
  push Not at hle
  have h0 := (Finset.sum_eq_zero_iff_of_nonneg fun i _ => sq_nonneg (v i - (∑ k, v k) / n)).1
    (le_antisymm hle (Finset.sum_nonneg fun i _ => sq_nonneg _))
  have hi := h0 i (Finset.mem_univ i)
  have hk := h0 k (Finset.mem_univ k)
  exact h (by nlinarith [pow_eq_zero_iff (two_ne_zero) |>.1 hi, pow_eq_zero_iff (two_ne_zero) |>.1 hk])

/-- For the response `0, …, 4` the slopes differ, so that the strict parts of `C86_weights_violation` apply. -/
example : 0 < sampleSd (slope fun i : Fin 5 => (i.1 : ℝ)) ∧
    slope (fun i : Fin 5 => (i.1 : ℝ)) 0 < slope (fun i : Fin 5 => (i.1 : ℝ)) 2 := by
  have h0 : slope (fun i : Fin 5 => (i.1 : ℝ)) 0 = 1 / 2 := by
    unfold slope rowUp rowDown
    simp
    norm_num
  have h2 : slope (fun i : Fin 5 => (i.1 : ℝ)) 2 = 1 := by
    unfold slope rowUp rowDown
    simp
    norm_num
  refine ⟨sampleSd_pos (by norm_num) _ 0 2 (by rw [h0, h2]; norm_num), by rw [h0, h2]; norm_num⟩

end Verif.Props
