import Verif.Alg.NipalsPls1
import Verif.Props.PlsPrepProps

/-!
# C53, C54, C74: NIPALS

`NipalsReal c` fixes the scalars: the reals with their order.  `PinvTotal` and `PinvRegular` are the only facts used
about `numpy.linalg.pinv`.
-/

namespace Verif.Props

open Verif Mat Transf
open scoped Matrix

variable {n p q K : Nat}

/-! ## C53 -/

section generic
variable {α : Type} [Add α] [Sub α] [Mul α] [Zero α] [One α] [Div α] [NatCast α] [HasSqrt α]

omit [Add α] [Sub α] [Mul α] [Zero α] [Div α] [NatCast α] [HasSqrt α] in
theorem guardLoop_cols (isZero : α → Bool) (l : List Int) (m d : Mat α) (h : guardLoop isZero l m = .ok d) :
    d.cols = m.cols := by
  induction l generalizing m with
  | nil =>
    injection h with h
    rw [h]
  | cons i l ih =>
    rw [guardLoop] at h
    cases hg : m.get i 0 with
    | error e => rw [hg] at h; cases h
    | ok x =>
      rw [hg] at h
      simp only [except_bind_ok] at h
      split at h
      · cases hs : m.set i 0 1 with
        | error e => rw [hs] at h; cases h
        | ok m' =>
          rw [hs] at h
          rw [ih m' h]
          unfold Mat.set at hs
          cases hr : pyIndex m.rows i with
          | error e => rw [hr] at hs; cases hs
          | ok r =>
            cases hcc : pyIndex m.cols 0 with
            | error e => rw [hr, hcc] at hs; cases hs
            | ok c =>
              rw [hr, hcc] at hs
              injection hs with hs
              rw [← hs]
      · exact ih m h

/-- **C53, violated.** Over any scalars (floats, reals, …), in either mode (NIPALS and CCARegression), whatever the
options and the external routines do: training with two or more response columns never succeeds. -/
theorem C53_never_violation (c : NipalsCfg α) (X Y : Mat α) (h : 2 ≤ Y.cols) (m : NipalsModel α) :
    nipalsTrain c X Y ≠ .ok m := by
  intro hm
  unfold nipalsTrain at hm
  simp only [] at hm
  cases hsx : (transform (standardize c.isZero) X (standardize c.isZero).init).2 with
  | error e => rw [hsx] at hm; cases hm
  | ok X' =>
    rw [hsx] at hm
    simp only [except_bind_ok] at hm
    have hst : ∀ Y', (transform (standardize c.isZero) Y (standardize c.isZero).init).2 = .ok Y' →
        ∃ d, (transform (standardize c.isZero) Y (standardize c.isZero).init).1.stds = some d ∧ d.cols = Y.cols := by
      intro Y' hY
      have hc : (standardize c.isZero).configured (standardize c.isZero).init = false := rfl
      unfold transform at hY ⊢
      rw [hc] at hY ⊢
      simp only [Bool.false_eq_true, if_false] at hY ⊢
      cases hg : guardStds c.isZero Y.columnStdevs with
      | error e =>
        have : (standardize c.isZero).configure Y (standardize c.isZero).init =
            (⟨false, some Y.columnMeans, some Y.columnStdevs⟩, .error e) := by
          simp only [standardize, hg]
        rw [this] at hY
        cases hY
      | ok d =>
        have : (standardize c.isZero).configure Y (standardize c.isZero).init =
            (⟨true, some Y.columnMeans, some d⟩, .ok ()) := by
          simp only [standardize, hg]
        rw [this]
        exact ⟨d, rfl, guardLoop_cols c.isZero _ Y.columnStdevs d hg⟩
    cases hsy : (transform (standardize c.isZero) Y (standardize c.isZero).init).2 with
    | error e => rw [hsy] at hm; cases hm
    | ok Y' =>
      obtain ⟨d, hd, hcols⟩ := hst Y' hsy
      rw [hsy] at hm
      simp only [except_bind_ok] at hm
      cases h1 : nipalsInit c X' Y' with
      | error e => rw [h1] at hm; cases hm
      | ok s =>
        rw [h1] at hm
        simp only [except_bind_ok] at hm
        cases h2 : loopM (nipalsStep c) (pyRange 0 c.K) s with
        | error e => rw [h2] at hm; cases hm
        | ok s =>
          rw [h2] at hm
          simp only [except_bind_ok] at hm
          cases h3 : nipalsRot c s.W s.P with
          | error e => rw [h3] at hm; cases hm
          | ok xr =>
            rw [h3] at hm
            simp only [except_bind_ok] at hm
            cases h4 : nipalsYRot c s with
            | error e => rw [h4] at hm; cases hm
            | ok yr =>
              rw [h4] at hm
              simp only [except_bind_ok] at hm
              cases h5 : xr.mul s.Q.transpose with
              | error e => rw [h5] at hm; cases hm
              | ok b =>
                rw [h5] at hm
                simp only [except_bind_ok, hd] at hm
                have : b.scaleByRowVector d = .error .valueError := by
                  unfold scaleByRowVector mustBeColumnVector
                  rw [isColumnVector_eq, decide_eq_false (by omega)]
                  rfl
                rw [this] at hm
                cases hm

end generic

/-- `pinv` returns a matrix of the transposed shape for every matrix. -/
def PinvTotal (pinv : Mat ℝ → Except PyErr (Mat ℝ)) : Prop :=
  ∀ {a b : Nat} (A : Matrix (Fin a) (Fin b) ℝ), ∃ G : Matrix (Fin b) (Fin a) ℝ, pinv (of A) = .ok (of G)

theorem nipals_vars {c : NipalsCfg ℝ} (hc : NipalsReal c) (hcca : c.cca = false) (hK : c.K = (K : Int)) (hn : 0 < n)
    (X : Matrix (Fin n) (Fin (p + 1)) ℝ) (Y : Matrix (Fin n) (Fin (q + 1)) ℝ) :
    ∃ s, (do let s ← nipalsInit c (of X) (of Y); loopM (nipalsStep c) (pyRange 0 c.K) s) = .ok s ∧
      NipTyped n (p + 1) (q + 1) K s := by
  rw [nipalsInit_eq c hK hn (by omega) (by omega), hK]
  simp only [except_bind_ok]
  exact loopM_ok (nipalsStep c) (NipTyped n (p + 1) (q + 1) K) K
    (fun k hk s hs => nipalsStep_typed hc hcca (by omega) k hk s hs) _ ⟨_, _, _, _, _, _, _, _, _, _, rfl⟩

/-- **C53, violated.** In PLS mode, over the reals: for every data set with two or more responses, whatever the number
of components and the other options, training raises `ValueError` (the row of standard deviations is passed
where a column vector is demanded). -/
theorem C53_multi_violation {c : NipalsCfg ℝ} (hc : NipalsReal c) (hcca : c.cca = false) (hK : c.K = (K : Int))
    (hpinv : PinvTotal c.pinv) (hn : 0 < n) (X : Matrix (Fin n) (Fin (p + 1)) ℝ)
    (Y : Matrix (Fin n) (Fin (q + 2)) ℝ) : nipalsTrain c (of X) (of Y) = .error .valueError := by
  obtain ⟨s, hs, hty⟩ := nipals_vars hc hcca hK hn (std X X) (std Y Y)
  unfold nipalsTrain
  rw [std_fit c.isZero hc.zero X, std_fit c.isZero hc.zero Y]
  simp only [except_bind_ok]
  cases h1 : nipalsInit c (of (std X X)) (of (std Y Y)) with
  | error e => rw [h1] at hs; cases hs
  | ok s0 =>
    rw [h1] at hs
    simp only [except_bind_ok] at hs ⊢
    rw [hs]
    simp only [except_bind_ok]
    obtain ⟨X', Y', T, U, W, C, P, Q, yk, b, rfl⟩ := hty
    obtain ⟨G, hG⟩ := hpinv (Pᵀ * W)
    obtain ⟨H, hH⟩ := hpinv (Qᵀ * C)
    unfold nipalsYRot nipalsRot
    rw [if_pos (by show 1 < q + 2; omega)]
    simp only [transpose_of, mul_of, except_bind_ok, hG, hH, stdState]
    exact congrArg (fun e => e >>= _) (scale_row_error _ (Matrix.of fun (_ : Fin 1) j => divisor Y j))

/-- **C53.** With one response column training succeeds on every data set, and every data set with as many columns
as the training data is predicted, one value per row.  Missing for C53: two or more responses, which fail. -/
theorem C53_single_partial {c : NipalsCfg ℝ} (hc : NipalsReal c) (hcca : c.cca = false) (hK : c.K = (K : Int))
    (hpinv : PinvTotal c.pinv) (hn : 0 < n) (X : Matrix (Fin n) (Fin (p + 1)) ℝ) (y : Matrix (Fin n) (Fin 1) ℝ) :
    ∃ m, nipalsTrain c (of X) (of y) = .ok m ∧
      ∀ (r : Nat) (Z : Matrix (Fin r) (Fin (p + 1)) ℝ), ∃ F : Matrix (Fin r) (Fin 1) ℝ,
        nipalsPredict c m (of Z) = .ok (of F) := by
  obtain ⟨s, hs, hty⟩ := nipals_vars (q := 0) hc hcca hK hn (std X X) (std y y)
  unfold nipalsTrain
  rw [std_fit c.isZero hc.zero X, std_fit (p := 0) c.isZero hc.zero y]
  simp only [except_bind_ok]
  cases h1 : nipalsInit c (of (std X X)) (of (std y y)) with
  | error e => rw [h1] at hs; cases hs
  | ok s0 =>
    rw [h1] at hs
    simp only [except_bind_ok] at hs ⊢
    rw [hs]
    simp only [except_bind_ok]
    obtain ⟨X', Y', T, U, W, C, P, Q, yk, b, rfl⟩ := hty
    obtain ⟨G, hG⟩ := hpinv (Pᵀ * W)
    unfold nipalsYRot nipalsRot
    rw [if_neg (by show ¬ 1 < 1; omega)]
    simp only [transpose_of, mul_of, except_bind_ok, hG]
    have e := scale_row_one (W * G * Qᵀ) (Matrix.of fun (_ : Fin 1) (j : Fin 1) => divisor y j)
    refine ⟨⟨stdState X, stdState y, ⟨of X', of Y', of T, of U, of W, of C, of P, of Q, of yk, b⟩, of (W * G),
      ⟨1, 1, Matrix.of fun _ _ => 1⟩,
      of ((Matrix.of fun (_ : Fin 1) (j : Fin 1) => divisor y j) 0 0 • (W * G * Qᵀ))⟩, ?_, fun r Z => ?_⟩
    · exact congrArg (fun e => e >>= _) e
    · unfold nipalsPredict
      rw [std_do]
      simp only [except_bind_ok, stdState, mul_of]
      exact ⟨_, vectorOp_row _ _ _⟩

/-! ## C54 -/

/-- The weights `w` of the textbook iteration do not change any more: `X^T Y Y^T X w` is a multiple of `w`. -/
def FixedPoint (X : Matrix (Fin n) (Fin p) ℝ) (Y : Matrix (Fin n) (Fin q) ℝ) (w : Matrix (Fin p) (Fin 1) ℝ) : Prop :=
  ∃ a : ℝ, Xᵀ * (Y * (Yᵀ * (X * w))) = a • w

/-- **C54.** The inner loop always terminates with a result, its iteration count does not exceed the maximum, and the
weights do not depend on `tol` and `max_iter` at all. -/
theorem C54_result {c : NipalsCfg ℝ} (hc : NipalsReal c) (hcca : c.cca = false) (X : Matrix (Fin n) (Fin (p + 1)) ℝ)
    (Y : Matrix (Fin n) (Fin (q + 1)) ℝ) :
    ∃ (w : Matrix (Fin (p + 1)) (Fin 1) ℝ) (v : Matrix (Fin (q + 1)) (Fin 1) ℝ),
      ∀ (tol : ℝ) (maxIter : Int), ∃ iter : Int, 0 ≤ iter ∧ iter ≤ max 0 maxIter ∧
        nipalsLoop { c with tol := tol, maxIter := maxIter } (of X) (of Y) = .ok (of w, of v, iter) := by
  refine ⟨xwF X (col0 Y), ywF c.normY Y (X * xwF X (col0 Y)), fun tol maxIter =>
    ⟨iterCount tol maxIter 0 (q + 1) (xwF X (col0 Y)) 0, ?_, ?_,
      nipalsLoop_eq (c := { c with tol := tol, maxIter := maxIter }) ⟨hc.lt, hc.zero⟩ hcca (by omega) X Y⟩⟩
  · unfold iterCount
    split
    · exact le_refl _
    · split
      · decide
      · rename_i h _
        have : ¬ (0 : Int) ≥ maxIter := fun h' => h (Or.inr (Or.inr h'))
        omega
  · unfold iterCount
    split
    · exact le_max_left _ _
    · rename_i h
      have : ¬ (0 : Int) ≥ maxIter := fun h' => h (Or.inr (Or.inr h'))
      split <;> omega

/-- **C54, violated.** For `X = I` and responses `(1,0)`, `(1,1)`, with any tolerance below `1/2` and any maximum
above one, the loop stops after one iteration, before the maximum, with weights that are no fixed point: `X^T Y Y^T X w`
stays at squared distance at least `1/4` from every multiple of `w`. -/
theorem C54_fixed_point_violation {c : NipalsCfg ℝ} (hc : NipalsReal c) (hcca : c.cca = false) (htol : 0 < c.tol)
    (htol' : c.tol < 1 / 2) (hmax : 1 < c.maxIter) :
    ∃ (w v : Matrix (Fin 2) (Fin 1) ℝ),
      nipalsLoop c (of (1 : Matrix (Fin 2) (Fin 2) ℝ)) (of (!![1, 1; 0, 1] : Matrix (Fin 2) (Fin 2) ℝ)) =
        .ok (of w, of v, 1) ∧
      ∀ a : ℝ, 1 / 4 ≤ ∑ i, (((1 : Matrix (Fin 2) (Fin 2) ℝ)ᵀ * ((!![1, 1; 0, 1] : Matrix (Fin 2) (Fin 2) ℝ) *
        ((!![1, 1; 0, 1] : Matrix (Fin 2) (Fin 2) ℝ)ᵀ * ((1 : Matrix (Fin 2) (Fin 2) ℝ) * w)))) i 0 - a * w i 0) ^ 2 := by
  have h0 : col0 (!![1, 1; 0, 1] : Matrix (Fin 2) (Fin 2) ℝ) = !![1; 0] := by
    ext i j
    fin_cases i <;> fin_cases j <;> rfl
  have he : (0 : ℝ) < e16 := e16_pos
  have he1 : (e16 : ℝ) < 1 / 10 := by unfold e16; norm_num
  have hs : sq1 (!![1; 0] : Matrix (Fin 2) (Fin 1) ℝ) = 1 := by simp [sq1, Fin.sum_univ_two]
  have hw : xwF (1 : Matrix (Fin 2) (Fin 2) ℝ) !![1; 0] = (1 + (e16 : ℝ))⁻¹ • (!![1; 0] : Matrix (Fin 2) (Fin 1) ℝ) := by
    unfold xwF bump shrink
    rw [Matrix.transpose_one, Matrix.one_mul, hs, inv_one, one_smul, if_neg (by rw [hs]; linarith), hs, Real.sqrt_one]
  have hsq : sq1 ((1 + (e16 : ℝ))⁻¹ • (!![1; 0] : Matrix (Fin 2) (Fin 1) ℝ)) = (1 + (e16 : ℝ))⁻¹ * (1 + (e16 : ℝ))⁻¹ := by
    rw [sq1_smul, hs, mul_one]
  have hd : (9 : ℝ) / 10 ≤ (1 + (e16 : ℝ))⁻¹ := by
    rw [le_inv_comm₀ (by norm_num) (by linarith)]
    norm_num
    linarith
  refine ⟨xwF 1 (col0 !![1, 1; 0, 1]), ywF c.normY !![1, 1; 0, 1] ((1 : Matrix (Fin 2) (Fin 2) ℝ) * xwF 1 (col0 !![1, 1; 0, 1])),
    (nipalsLoop_eq (q := 1) hc hcca (by decide) _ _).trans ?_, fun a => ?_⟩
  · rw [h0, hw]
    have : iterCount c.tol c.maxIter 0 (1 + 1) ((1 + (e16 : ℝ))⁻¹ • (!![1; 0] : Matrix (Fin 2) (Fin 1) ℝ)) 0 = 1 := by
      unfold iterCount
      rw [sub_zero, hsq, if_neg, if_pos htol, zero_add]
      rintro (h | h | h)
      · nlinarith
      · omega
      · omega
    rw [this]
  · rw [h0, hw, Fin.sum_univ_two]
    have e1 : ((1 : Matrix (Fin 2) (Fin 2) ℝ)ᵀ * ((!![1, 1; 0, 1] : Matrix (Fin 2) (Fin 2) ℝ) *
        ((!![1, 1; 0, 1] : Matrix (Fin 2) (Fin 2) ℝ)ᵀ * ((1 : Matrix (Fin 2) (Fin 2) ℝ) *
          ((1 + (e16 : ℝ))⁻¹ • (!![1; 0] : Matrix (Fin 2) (Fin 1) ℝ)))))) = (1 + (e16 : ℝ))⁻¹ • (!![2; 1] : Matrix (Fin 2) (Fin 1) ℝ) := by
      rw [Matrix.transpose_one, Matrix.one_mul, Matrix.one_mul, Matrix.mul_smul, Matrix.mul_smul]
      congr 1
      ext i j
      fin_cases i <;> fin_cases j <;> (simp [Matrix.mul_apply, Fin.sum_univ_two]; try norm_num)
    rw [e1]
    have e2 : ((1 + (e16 : ℝ))⁻¹ • (!![2; 1] : Matrix (Fin 2) (Fin 1) ℝ)) 1 0 = (1 + (e16 : ℝ))⁻¹ := by simp
    have e3 : ((1 + (e16 : ℝ))⁻¹ • (!![1; 0] : Matrix (Fin 2) (Fin 1) ℝ)) 1 0 = 0 := by simp
    rw [e2, e3]
    nlinarith [sq_nonneg (((1 + (e16 : ℝ))⁻¹ • (!![2; 1] : Matrix (Fin 2) (Fin 1) ℝ)) 0 0 -
      a * ((1 + (e16 : ℝ))⁻¹ • (!![1; 0] : Matrix (Fin 2) (Fin 1) ℝ)) 0 0)]

/-- **C54.** With one response column, and weights not shorter than the guard, the result is a fixed point and has
length almost one.  Missing for C54: several response columns, where it is false. -/
theorem C54_single_partial {c : NipalsCfg ℝ} (hc : NipalsReal c) (hcca : c.cca = false)
    (X : Matrix (Fin n) (Fin (p + 1)) ℝ) (y : Matrix (Fin n) (Fin 1) ℝ) (hy : 0 < ∑ i, y i 0 ^ 2)
    (hw : 1 / 10 ^ 16 * (∑ i, y i 0 ^ 2) ^ 2 ≤ ∑ j, (Xᵀ * y) j 0 ^ 2) :
    ∃ (w : Matrix (Fin (p + 1)) (Fin 1) ℝ) (v : Matrix (Fin 1) (Fin 1) ℝ),
      nipalsLoop c (of X) (of y) = .ok (of w, of v, 0) ∧ FixedPoint X y w ∧
      9 / 16 ≤ ∑ j, w j 0 ^ 2 ∧ ∑ j, w j 0 ^ 2 < 1 := by
  have hsq : ∀ {m : Nat} (u : Matrix (Fin m) (Fin 1) ℝ), ∑ i, u i 0 ^ 2 = sq1 u := by
    intro m u
    simp only [sq1, sq]
  rw [hsq] at hy hw
  rw [hsq] at hw
  have he : (e16 : ℝ) = 1 / 10 ^ 16 := by unfold e16; norm_num
  rw [← he] at hw
  obtain ⟨d, hd1, hd2, hd⟩ := xwF_eq' hy hw
  have hpos : 0 < sq1 (Xᵀ * y) := by
    have := e16_pos
    have : 0 < e16 * sq1 y ^ 2 := by positivity
    linarith
  have hunit : sq1 (pls1W y X) = 1 := by
    rw [pls1W_eq, sq1_smul]
    have := Real.mul_self_sqrt hpos.le
    have h0 : Real.sqrt (sq1 (Xᵀ * y)) ≠ 0 := (Real.sqrt_pos.2 hpos).ne'
    field_simp
    nlinarith
  refine ⟨xwF X (col0 y), ywF c.normY y (X * xwF X (col0 y)),
    (nipalsLoop_eq (q := 0) hc hcca (by omega) X y).trans ?_, ⟨sq1 (Xᵀ * y), ?_⟩, ?_, ?_⟩
  · have : iterCount c.tol c.maxIter 0 (0 + 1) (xwF X (col0 y)) 0 = 0 := if_pos (Or.inr (Or.inl rfl))
    rw [this]
  · rw [col0_one, hd, pls1W_eq, smul_smul, Matrix.mul_smul, Matrix.mul_smul, Matrix.mul_smul, Matrix.mul_smul]
    have : yᵀ * (X * (Xᵀ * y)) = sq1 (Xᵀ * y) • (1 : Matrix (Fin 1) (Fin 1) ℝ) := by
      rw [← col_gram, Matrix.transpose_mul, Matrix.transpose_transpose, Matrix.mul_assoc]
    rw [this, Matrix.mul_smul, Matrix.mul_one, Matrix.mul_smul, smul_smul, smul_smul, mul_comm]
  · rw [hsq, col0_one, hd, sq1_smul, hunit]
    nlinarith
  · rw [hsq, col0_one, hd, sq1_smul, hunit]
    nlinarith

/-- A case for `C54_single_partial`. -/
example : ∃ (X : Matrix (Fin 2) (Fin 2) ℝ) (y : Matrix (Fin 2) (Fin 1) ℝ), 0 < ∑ i, y i 0 ^ 2 ∧
    1 / 10 ^ 16 * (∑ i, y i 0 ^ 2) ^ 2 ≤ ∑ j, (Xᵀ * y) j 0 ^ 2 := by
  refine ⟨1, !![1; 2], ?_, ?_⟩
  · simp [Fin.sum_univ_two]
    norm_num
  · rw [Matrix.transpose_one, Matrix.one_mul]
    simp [Fin.sum_univ_two]
    norm_num

/-! ## C74 -/

/-- The textbook recursion on `X` and `y`, deflating both by the score of the unit weights: none of the code's
thresholds is met in the first `K` passes. -/
def NipRegular : Nat → Matrix (Fin n) (Fin p) ℝ → Matrix (Fin n) (Fin 1) ℝ → Prop
  | 0, _, _ => True
  | K + 1, X, y =>
    let t := X * pls1W y X
    1 / 10 ^ 10 ≤ ∑ i, y i 0 ^ 2 ∧ 1 / 10 ^ 16 * (∑ i, y i 0 ^ 2) ^ 2 ≤ ∑ j, (Xᵀ * y) j 0 ^ 2 ∧
      2 / 10 ^ 10 ≤ ∑ i, t i 0 ^ 2 ∧
      NipRegular K (X - (∑ i, t i 0 ^ 2)⁻¹ • (t * (tᵀ * X))) (y - (∑ i, t i 0 ^ 2)⁻¹ • (t * (tᵀ * y)))

theorem tb_shift (X : Matrix (Fin n) (Fin p) ℝ) (y : Matrix (Fin n) (Fin 1) ℝ) (k : Nat) :
    tb X y (k + 1) = tb (tb X y 1).1 (tb X y 1).2 k := by
  induction k with
  | zero => rfl
  | succ k ih => rw [tb, ih]; rfl

theorem NipRegular.passOk {X : Matrix (Fin n) (Fin p) ℝ} {y : Matrix (Fin n) (Fin 1) ℝ} (h : NipRegular K X y) :
    ∀ k < K, PassOk (tb X y k) := by
  have hsq : ∀ {m : Nat} (u : Matrix (Fin m) (Fin 1) ℝ), ∑ i, u i 0 ^ 2 = sq1 u := by
    intro m u
    simp only [sq1, sq]
  induction K generalizing X y with
  | zero => intro k hk; omega
  | succ K ih =>
    obtain ⟨h1, h2, h3, h4⟩ := h
    intro k hk
    cases k with
    | zero =>
      refine ⟨?_, ?_, ?_⟩
      · show e10 ≤ sq1 y
        rw [← hsq]
        refine le_trans (le_of_eq ?_) h1
        unfold e10
        norm_num
      · show e16 * sq1 y ^ 2 ≤ sq1 (Xᵀ * y)
        rw [← hsq, ← hsq]
        refine le_trans (le_of_eq ?_) h2
        unfold e16
        norm_num
      · show 2 * e10 ≤ sq1 (X * pls1W y X)
        rw [← hsq]
        refine le_trans (le_of_eq ?_) h3
        unfold e10
        norm_num
    | succ k =>
      rw [tb_shift]
      refine ih ?_ k (by omega)
      rw [hsq, ← deflate_eq, ← deflate_eq] at h4
      exact h4

/-- **C74.** NIPALS (PLS weights, regression deflation) with one response column predicts exactly what PLS1 predicts
on standardised data: train PLS1 on the standardised predictors and the standardised response, standardise new data
with the training statistics, predict, and convert back to the units of the response. -/
theorem C74_same_predictions {c : NipalsCfg ℝ} (hc : NipalsReal c) (hcca : c.cca = false) (hdefl : c.defl = .regression)
    (hpinv : PinvRegular c.pinv) (hK0 : 0 < K) (hK : c.K = (K : Int)) (hn : 0 < n) (X : Matrix (Fin n) (Fin (p + 1)) ℝ)
    (y : Matrix (Fin n) (Fin 1) ℝ) (h : NipRegular K (std X X) (std y y)) :
    ∃ (m : NipalsModel ℝ) (m' : Pls1Model ℝ) (T : Mat ℝ),
      nipalsTrain c (of X) (of y) = .ok m ∧
      pls1Train pls1Weights K (of (std X X)) (of (std y y)) = .ok (m', T) ∧
      ∀ (r : Nat), 0 < r → ∀ Z : Matrix (Fin r) (Fin (p + 1)) ℝ, ∃ F : Matrix (Fin r) (Fin 1) ℝ,
        pls1Predict K m' (of (std X Z)) = .ok (of F) ∧
        nipalsPredict c m (of Z) = .ok (of (Matrix.of fun i (_ : Fin 1) => divisor y 0 * F i 0 + mu fun k => y k 0)) := by
  have hp := h.passOk
  obtain ⟨hdet, d, hd, -, hcoef⟩ := nip_det hp
  have hs := PassOk.sq1_ne hp
  refine ⟨_, _, _, nipalsTrain_eq hc hcca hdefl hpinv hK hn X y (nip_proceeds hp) (by rw [hdet]; exact one_ne_zero),
    pls1Train_eq (pls1W (std y y)) pls1Weights K hn (by omega) hK0 (std X X) (std y y)
      (fun k _ => pls1Weights_eq (std y y) _) hs, fun r hr Z =>
    ⟨_, pls1Predict_eq (pls1W (std y y)) hr K _ _ _ _, (nipalsPredict_eq c c.normY X y Z).trans ?_⟩⟩
  rw [plsSM_eq _ K _ _ hs, hcoef, ← Matrix.mul_assoc (std X Z)]

/-- **C74.** `transform_response` of a model trained on one response standardises with the training mean and deviation and returns
one column, whatever the number of components; on the training response that column sums to zero. -/
theorem C74_response {c : NipalsCfg ℝ} (hc : NipalsReal c) (hcca : c.cca = false) (hdefl : c.defl = .regression)
    (hpinv : PinvRegular c.pinv) (hK : c.K = (K : Int)) (hn : 0 < n) (X : Matrix (Fin n) (Fin (p + 1)) ℝ)
    (y : Matrix (Fin n) (Fin 1) ℝ) (h : NipRegular K (std X X) (std y y)) :
    ∃ m : NipalsModel ℝ, nipalsTrain c (of X) (of y) = .ok m ∧
      (∀ (r : Nat) (z : Matrix (Fin r) (Fin 1) ℝ), nipalsTransformResponse c m (of z) =
        .ok (of (Matrix.of fun i (_ : Fin 1) => (z i 0 - (∑ k, y k 0) / n) / divisor y 0))) ∧
      ∑ i, (y i 0 - (∑ k, y k 0) / n) / divisor y 0 = 0 := by
  have hp := h.passOk
  obtain ⟨hdet, d, hd, -, hcoef⟩ := nip_det hp
  refine ⟨_, nipalsTrain_eq hc hcca hdefl hpinv hK hn X y (nip_proceeds hp) (by rw [hdet]; exact one_ne_zero), fun r z => ?_, ?_⟩
  · unfold nipalsTransformResponse
    have e : (transform (standardize c.isZero) (of z) (nipModel c.normY K X y).stdY).2 = .ok (of (std y z)) := std_do c.isZero y z
    rw [e, except_bind_ok]
    have e2 : (nipModel c.normY K X y).yRot = of (Matrix.of fun (_ _ : Fin 1) => (1 : ℝ)) := rfl
    rw [e2, mul_of, ok_inj, of_inj]
    ext i j
    rw [Subsingleton.elim j 0, Matrix.mul_apply, Fin.sum_univ_one]
    simp [std, mu]
  · rw [← Finset.sum_div, Finset.sum_sub_distrib]
    have : (n : ℝ) ≠ 0 := by exact_mod_cast hn.ne'
    have e : ∑ _i : Fin n, (∑ k, y k 0) / (n : ℝ) = ∑ k, y k 0 := by
      rw [Finset.sum_const, Finset.card_univ, Fintype.card_fin, nsmul_eq_mul]
      field_simp
    rw [e, sub_self, zero_div]

/-- **C74.** The scores agree up to a factor between `3/4` and `1` for each component. -/
theorem C74_same_scores {c : NipalsCfg ℝ} (hc : NipalsReal c) (hcca : c.cca = false) (hdefl : c.defl = .regression)
    (hpinv : PinvRegular c.pinv) (hK0 : 0 < K) (hK : c.K = (K : Int)) (hn : 0 < n) (X : Matrix (Fin n) (Fin (p + 1)) ℝ)
    (y : Matrix (Fin n) (Fin 1) ℝ) (h : NipRegular K (std X X) (std y y)) :
    ∃ (m : NipalsModel ℝ) (m' : Pls1Model ℝ) (T : Mat ℝ) (d : Fin K → ℝ),
      nipalsTrain c (of X) (of y) = .ok m ∧
      pls1Train pls1Weights K (of (std X X)) (of (std y y)) = .ok (m', T) ∧ (∀ k, 3 / 4 ≤ d k ∧ d k < 1) ∧
      ∀ (r : Nat), 0 < r → ∀ Z : Matrix (Fin r) (Fin (p + 1)) ℝ, ∃ S : Matrix (Fin r) (Fin K) ℝ,
        pls1Transform K m' (of (std X Z)) = .ok (of S) ∧
        nipalsTransform c m (of Z) = .ok (of (Matrix.of fun i k => d k * S i k)) := by
  have hp := h.passOk
  obtain ⟨hdet, d, hd, hrot, -⟩ := nip_det hp
  have hs := PassOk.sq1_ne hp
  refine ⟨_, _, _, d, nipalsTrain_eq hc hcca hdefl hpinv hK hn X y (nip_proceeds hp) (by rw [hdet]; exact one_ne_zero),
    pls1Train_eq (pls1W (std y y)) pls1Weights K hn (by omega) hK0 (std X X) (std y y)
      (fun k _ => pls1Weights_eq (std y y) _) hs, hd, fun r hr Z =>
    ⟨_, pls1Transform_eq (pls1W (std y y)) hr K _ _ _ _, (nipalsTransform_eq c c.normY X y Z).trans ?_⟩⟩
  rw [plsSM_eq _ K _ _ hs, hrot, ← Matrix.mul_assoc]
  congr 1
  refine mk_congr fun i j => ?_
  rw [Matrix.mul_diagonal, mul_comm]
  rfl

/-- A case for C74: one component on `x = y = 1, 2, 3`. -/
theorem ramp_std : std ramp ramp = !![-1; 0; 1] := by
  have hsd : (sd fun k => ramp k 0) = 1 := by
    unfold sd
    rw [mu_ramp]
    simp [ramp, Fin.sum_univ_three]
    norm_num
  have hd : divisor ramp 0 = 1 := by
    unfold divisor
    rw [hsd]
    simp
  ext i j
  rw [Subsingleton.elim j 0]
  show (ramp i 0 - mu fun k => ramp k 0) / divisor ramp 0 = _
  rw [mu_ramp, hd]
  fin_cases i <;> (simp [ramp]; try norm_num)

example : NipRegular 1 (std ramp ramp) (std ramp ramp) := by
  rw [ramp_std]
  refine ⟨?_, ?_, ?_, trivial⟩
  · simp [Fin.sum_univ_three]
    norm_num
  · simp [Fin.sum_univ_three, Matrix.mul_apply]
    norm_num
  · rw [ramp_weights _ _ rfl rfl]
    simp [Fin.sum_univ_three, Matrix.mul_apply]
    norm_num

/-- A configuration meeting the hypotheses: the pseudo-inverse of a regular matrix is its inverse, and any other
matrix is mapped to its transpose. -/
noncomputable def exCfg : NipalsCfg ℝ where
  K := 1
  tol := 1 / 10 ^ 6
  maxIter := 500
  normY := true
  cca := false
  defl := .regression
  lt a b := decide (a < b)
  isZero := fun x => decide (x = 0)
  inv A := .ok A
  pinv A := if h : A.rows = A.cols then
      if ((h ▸ A.data : Matrix (Fin A.cols) (Fin A.cols) ℝ)).det ≠ 0 then
        .ok (of (h ▸ A.data : Matrix (Fin A.cols) (Fin A.cols) ℝ)⁻¹) else .ok A.transpose
    else .ok A.transpose

theorem exCfg_real : NipalsReal exCfg := ⟨fun _ _ => rfl, fun _ => by simp [exCfg]⟩

theorem exCfg_pinv : PinvRegular exCfg.pinv := by
  intro m A hA
  show (if h : m = m then _ else _) = _
  rw [dif_pos rfl]
  exact if_pos hA

theorem exCfg_total : PinvTotal exCfg.pinv := by
  intro a b A
  by_cases h : a = b
  · subst h
    by_cases hA : A.det ≠ 0
    · exact ⟨_, exCfg_pinv A hA⟩
    · refine ⟨Aᵀ, ?_⟩
      show (if h : a = a then _ else _) = _
      rw [dif_pos rfl]
      exact if_neg hA
  · exact ⟨Aᵀ, dif_neg h⟩

end Verif.Props
