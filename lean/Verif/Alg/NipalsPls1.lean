import Verif.Alg.NIPALS

/-!
# NIPALS with one response column

For one response column, regression deflation and no early `break`, NIPALS on the standardised data builds the
PLS1 model: its weights are multiples of the PLS1 weights.
-/

namespace Verif

open Mat Transf
open scoped Matrix

variable {n p K : Nat}

/-! ## Deflating predictors and response -/

/-- Predictors and response after `k` components of the textbook recursion which deflates both. -/
noncomputable def tb (X : Matrix (Fin n) (Fin p) ℝ) (y : Matrix (Fin n) (Fin 1) ℝ) :
    Nat → Matrix (Fin n) (Fin p) ℝ × Matrix (Fin n) (Fin 1) ℝ
  | 0 => (X, y)
  | k + 1 =>
    (deflate (tb X y k).1 ((tb X y k).1 * pls1W (tb X y k).2 (tb X y k).1),
      deflate (tb X y k).2 ((tb X y k).1 * pls1W (tb X y k).2 (tb X y k).1))

/-- Predictors and response after `k` components of NIPALS. -/
noncomputable def nip (X : Matrix (Fin n) (Fin p) ℝ) (y : Matrix (Fin n) (Fin 1) ℝ) :
    Nat → Matrix (Fin n) (Fin p) ℝ × Matrix (Fin n) (Fin 1) ℝ
  | 0 => (X, y)
  | k + 1 =>
    (deflate (nip X y k).1 ((nip X y k).1 * xwF (nip X y k).1 (nip X y k).2),
      deflate (nip X y k).2 ((nip X y k).1 * xwF (nip X y k).1 (nip X y k).2))

variable {X : Matrix (Fin n) (Fin p) ℝ} {y : Matrix (Fin n) (Fin 1) ℝ}

theorem loading_one (y t : Matrix (Fin n) (Fin 1) ℝ) : t * (loading y t)ᵀ = ((∑ l, t l 0 * y l 0) / sq1 t) • t := by
  rw [mul_one_one]
  congr 1
  rw [Matrix.transpose_apply, loading, Matrix.of_apply, Matrix.mul_apply]
  congr 1
  refine Finset.sum_congr rfl fun l _ => ?_
  rw [Matrix.transpose_apply, mul_comm]

/-- Deflating the response changes nothing for the weights and the predictors. -/
theorem tb_eq {k : Nat} (h : ∀ j < k, sq1 (plsT (pls1W y) X j) ≠ 0) :
    tb X y k = (plsX (pls1W y) X k, y - ∑ j ∈ Finset.range k, plsB (pls1W y) X y j • plsT (pls1W y) X j) := by
  induction k with
  | zero => simp [tb, plsX]
  | succ k ih =>
    have ih := ih fun j hj => h j (by omega)
    have hort : ∀ j < k, (plsX (pls1W y) X k)ᵀ * plsT (pls1W y) X j = 0 := by
      intro j hj
      obtain ⟨d, rfl⟩ : ∃ d, k = j + d + 1 := ⟨k - j - 1, by omega⟩
      have := congrArg Matrix.transpose (plsT_orth_X (pls1W y) X j d fun i hi => h i (by omega))
      rwa [Matrix.transpose_mul, Matrix.transpose_transpose] at this
    have hw : pls1W (tb X y k).2 (tb X y k).1 = plsW (pls1W y) X k := by
      rw [ih, plsW, pls1W_eq, pls1W_eq]
      have : (plsX (pls1W y) X k)ᵀ * (y - ∑ j ∈ Finset.range k, plsB (pls1W y) X y j • plsT (pls1W y) X j) =
          (plsX (pls1W y) X k)ᵀ * y := by
        rw [Matrix.mul_sub, Matrix.mul_sum, Finset.sum_eq_zero, sub_zero]
        intro j hj
        rw [Matrix.mul_smul, hort j (Finset.mem_range.mp hj), smul_zero]
      simp only [this]
    rw [tb, hw, ih]
    refine Prod.ext rfl ?_
    show deflate _ (plsT (pls1W y) X k) = _
    rw [deflate, loading_one, Finset.sum_range_succ, ← sub_sub]
    congr 1
    rw [plsB]
    congr 2
    have hT : ∀ j < k, (plsT (pls1W y) X k)ᵀ * plsT (pls1W y) X j = 0 := by
      intro j hj
      have := congrArg Matrix.transpose (plsT_orth (pls1W y) X j k hj fun i hi => h i (by omega))
      rwa [Matrix.transpose_mul, Matrix.transpose_transpose] at this
    have : (plsT (pls1W y) X k)ᵀ * (y - ∑ j ∈ Finset.range k, plsB (pls1W y) X y j • plsT (pls1W y) X j) =
        (plsT (pls1W y) X k)ᵀ * y := by
      rw [Matrix.mul_sub, Matrix.mul_sum, Finset.sum_eq_zero, sub_zero]
      intro j hj
      rw [Matrix.mul_smul, hT j (Finset.mem_range.mp hj), smul_zero]
    have := congrFun (congrFun this 0) 0
    rw [Matrix.mul_apply, Matrix.mul_apply] at this
    exact this

theorem deflate_smul {m : Nat} (A : Matrix (Fin n) (Fin m) ℝ) (t : Matrix (Fin n) (Fin 1) ℝ) {c : ℝ} (hc : c ≠ 0) :
    deflate A (c • t) = deflate A t := by
  rw [deflate_eq, deflate_eq, sq1_smul]
  congr 1
  rw [Matrix.smul_mul, Matrix.transpose_smul, Matrix.smul_mul, Matrix.mul_smul, smul_smul, smul_smul]
  congr 1
  by_cases h : sq1 t = 0
  · rw [h]; simp
  · field_simp

/-- No weight is too short, no response too small, no score too small in pass `k` of the recursion on `s`. -/
structure PassOk (s : Matrix (Fin n) (Fin p) ℝ × Matrix (Fin n) (Fin 1) ℝ) : Prop where
  resp : e10 ≤ sq1 s.2
  weight : e16 * sq1 s.2 ^ 2 ≤ sq1 (s.1ᵀ * s.2)
  score : 2 * e10 ≤ sq1 (s.1 * pls1W s.2 s.1)

theorem e16_pos : (0 : ℝ) < e16 := by
  unfold e16
  positivity

theorem e10_pos : (0 : ℝ) < e10 := by
  unfold e10
  positivity

/-- The NIPALS weights are a multiple of the unit weights, with factor between `3/4` and `1`. -/
theorem xwF_eq' {A : Matrix (Fin n) (Fin p) ℝ} {b : Matrix (Fin n) (Fin 1) ℝ} (hb : 0 < sq1 b)
    (this : e16 * sq1 b ^ 2 ≤ sq1 (Aᵀ * b)) :
    ∃ c : ℝ, 3 / 4 ≤ c ∧ c < 1 ∧ xwF A b = c • pls1W b A := by
  have hw : e16 ≤ sq1 ((sq1 b)⁻¹ • (Aᵀ * b)) := by
    rw [sq1_smul]
    rw [← mul_inv, inv_mul_eq_div, le_div_iff₀ (by positivity)]
    linarith [sq (sq1 b)]
  have hN : (10 : ℝ)⁻¹ ^ 8 ≤ Real.sqrt (sq1 ((sq1 b)⁻¹ • (Aᵀ * b))) := by
    refine Real.le_sqrt_of_sq_le (le_trans (le_of_eq ?_) hw)
    unfold e16
    norm_num
  set N := Real.sqrt (sq1 ((sq1 b)⁻¹ • (Aᵀ * b))) with hNdef
  have hN0 : 0 < N := lt_of_lt_of_le (by norm_num) hN
  refine ⟨N / (N + e16), ?_, ?_, ?_⟩
  · rw [le_div_iff₀ (by linarith [e16_pos])]
    have : (e16 : ℝ) = (10 : ℝ)⁻¹ ^ 16 := by unfold e16; norm_num
    rw [this]
    have h2 : (10 : ℝ)⁻¹ ^ 16 ≤ (10 : ℝ)⁻¹ ^ 8 / 3 := by norm_num
    linarith
  · rw [div_lt_one (by linarith [e16_pos])]
    linarith [e16_pos]
  · rw [xwF, bump, if_neg (not_lt.mpr hw), shrink, ← hNdef, pls1W_eq, smul_smul, smul_smul]
    congr 1
    have hs : Real.sqrt (sq1 (Aᵀ * b)) = N * sq1 b := by
      rw [hNdef, sq1_smul, ← mul_inv, Real.sqrt_mul (by positivity), Real.sqrt_inv, Real.sqrt_mul_self hb.le]
      field_simp
    rw [hs]
    have := e16_pos
    field_simp

theorem xwF_eq {A : Matrix (Fin n) (Fin p) ℝ} {b : Matrix (Fin n) (Fin 1) ℝ} (h : PassOk (A, b)) :
    ∃ c : ℝ, 3 / 4 ≤ c ∧ c < 1 ∧ xwF A b = c • pls1W b A :=
  xwF_eq' (lt_of_lt_of_le e10_pos h.resp) h.weight

theorem nip_eq (h : ∀ j < K, PassOk (tb X y j)) : ∀ k ≤ K, nip X y k = tb X y k := by
  intro k hk
  induction k with
  | zero => rfl
  | succ k ih =>
    have ih := ih (by omega)
    obtain ⟨c, hc, -, hw⟩ := xwF_eq (A := (tb X y k).1) (b := (tb X y k).2) (h k (by omega))
    rw [nip, tb, ih, hw, Matrix.mul_smul, deflate_smul _ _ (by linarith), deflate_smul _ _ (by linarith)]

theorem PassOk.sq1_ne (h : ∀ j < K, PassOk (tb X y j)) : ∀ k < K, sq1 (plsT (pls1W y) X k) ≠ 0 := by
  intro k
  induction k using Nat.strong_induction_on with
  | _ k ih =>
    intro hk
    have hs := (h k hk).score
    have htb := tb_eq (X := X) (y := y) (k := k) fun j hj => ih j hj (by omega)
    have ht : (tb X y k).1 * pls1W (tb X y k).2 (tb X y k).1 = plsT (pls1W y) X k := by
      have hX : (tb X y k).1 = plsX (pls1W y) X k := by rw [htb]
      have hw : pls1W (tb X y k).2 (tb X y k).1 = plsW (pls1W y) X k := by
        rw [htb, plsW, pls1W_eq, pls1W_eq]
        have : (plsX (pls1W y) X k)ᵀ * (y - ∑ j ∈ Finset.range k, plsB (pls1W y) X y j • plsT (pls1W y) X j) =
            (plsX (pls1W y) X k)ᵀ * y := by
          rw [Matrix.mul_sub, Matrix.mul_sum, Finset.sum_eq_zero, sub_zero]
          intro j hj
          have hj := Finset.mem_range.mp hj
          obtain ⟨d, rfl⟩ : ∃ d, k = j + d + 1 := ⟨k - j - 1, by omega⟩
          have := congrArg Matrix.transpose (plsT_orth_X (pls1W y) X j d fun i hi => ih i (by omega) (by omega))
          rw [Matrix.transpose_mul, Matrix.transpose_transpose] at this
          rw [Matrix.mul_smul, this]
          exact smul_zero _
        simp only [this]
      rw [hw, hX]
      rfl
    rw [ht] at hs
    have := e10_pos
    intro e
    rw [e] at hs
    linarith

/-! ## The training loop -/

section run
variable (normY : Bool) (X : Matrix (Fin n) (Fin p) ℝ) (y : Matrix (Fin n) (Fin 1) ℝ)

noncomputable def nW (k : Nat) : Matrix (Fin p) (Fin 1) ℝ := xwF (nip X y k).1 (nip X y k).2
noncomputable def nT (k : Nat) : Matrix (Fin n) (Fin 1) ℝ := (nip X y k).1 * nW X y k
noncomputable def nC (k : Nat) : Matrix (Fin 1) (Fin 1) ℝ := ywF normY (nip X y k).2 (nT X y k)
noncomputable def nU (k : Nat) : Matrix (Fin n) (Fin 1) ℝ :=
  (sq1 (nC normY X y k))⁻¹ • ((nip X y k).2 * nC normY X y k)
noncomputable def nP (k : Nat) : Matrix (Fin p) (Fin 1) ℝ := loading (nip X y k).1 (nT X y k)
noncomputable def nQ (k : Nat) : Matrix (Fin 1) (Fin 1) ℝ := loading (nip X y k).2 (nT X y k)
noncomputable def nYk (k : Nat) : Matrix (Fin 1) (Fin 1) ℝ := if k = 0 then 0 else nQ X y (k - 1)

/-- The variables after `k` components. -/
noncomputable def nVars (K k : Nat) : NipalsVars ℝ :=
  ⟨of (nip X y k).1, of (nip X y k).2, of (colsUpTo (nT X y) k : Matrix (Fin n) (Fin K) ℝ),
    of (colsUpTo (nU normY X y) k : Matrix (Fin n) (Fin K) ℝ),
    of (colsUpTo (nW X y) k : Matrix (Fin p) (Fin K) ℝ),
    of (colsUpTo (nC normY X y) k : Matrix (Fin 1) (Fin K) ℝ),
    of (colsUpTo (nP X y) k : Matrix (Fin p) (Fin K) ℝ),
    of (colsUpTo (nQ X y) k : Matrix (Fin 1) (Fin K) ℝ), of (nYk X y k), false⟩

/-- NIPALS does not stop early at component `k`. -/
structure Proceeds (k : Nat) : Prop where
  resp : e10 ≤ sq1 (nip X y k).2
  score : e10 ≤ sq1 (nT X y k)

theorem col0_one (b : Matrix (Fin n) (Fin 1) ℝ) : col0 b = b := by
  ext i j
  rw [Subsingleton.elim j 0]
  rfl

theorem all_one (a : ℝ) (f : ℝ → Bool) : (of (a • (1 : Matrix (Fin 1) (Fin 1) ℝ))).all f = f a := by
  simp [Mat.all, Mat.any, Mat.coords, of, List.finRange_succ]

theorem nipalsStep_eq {c : NipalsCfg ℝ} (hc : NipalsReal c) (hcca : c.cca = false) (hdefl : c.defl = .regression)
    (hp : 0 < p) (k : Nat) (hk : k < K) (h : Proceeds X y k) :
    nipalsStep c (k : Int) (nVars c.normY X y K k) = .ok (nVars c.normY X y K (k + 1)) := by
  have h1 : c.lt (sq1 (nip X y k).2) e10 = false := by
    rw [hc.lt]
    simpa using h.resp
  have h2 : c.lt (sq1 (nT X y k)) e10 = false := by
    rw [hc.lt]
    simpa using h.score
  unfold nipalsStep nVars
  simp only [Bool.false_eq_true, if_false, transpose_of, mul_of, except_bind_ok, col_gram, all_one, h1]
  rw [nipalsLoop_eq hc hcca hp]
  simp only [except_bind_ok, mul_of, norm2Squared_col, div_col, col0_one]
  rw [show (nip X y k).1 * xwF (nip X y k).1 (nip X y k).2 = nT X y k from rfl,
    show xwF (nip X y k).1 (nip X y k).2 = nW X y k from rfl,
    show ywF c.normY (nip X y k).2 (nT X y k) = nC c.normY X y k from rfl,
    show (sq1 (nC c.normY X y k))⁻¹ • ((nip X y k).2 * nC c.normY X y k) = nU c.normY X y k from rfl, h2]
  unfold deflateY
  rw [hdefl]
  simp only [Bool.false_eq_true, if_false, transpose_of, mul_of, except_bind_ok, sub_of, norm2Squared_col,
    div_col, ← loading_eq]
  rw [show loading (nip X y k).1 (nT X y k) = nP X y k from rfl,
    show loading (nip X y k).2 (nT X y k) = nQ X y k from rfl]
  rw [colsUpTo_set _ k hk, colsUpTo_set _ k hk, colsUpTo_set _ k hk, colsUpTo_set _ k hk, colsUpTo_set _ k hk,
    colsUpTo_set _ k hk]
  rfl

/-- The matrices of the trained model. -/
noncomputable def nWM (K : Nat) : Matrix (Fin p) (Fin K) ℝ := Matrix.of fun i j => nW X y j.1 i 0
noncomputable def nPM (K : Nat) : Matrix (Fin p) (Fin K) ℝ := Matrix.of fun i j => nP X y j.1 i 0
noncomputable def nQM (K : Nat) : Matrix (Fin 1) (Fin K) ℝ := Matrix.of fun i j => nQ X y j.1 i 0

theorem nipalsLoop_run {c : NipalsCfg ℝ} (hc : NipalsReal c) (hcca : c.cca = false) (hdefl : c.defl = .regression)
    (hp : 0 < p) (h : ∀ k < K, Proceeds X y k) :
    loopM (nipalsStep c) (pyRange 0 (K : Int)) (nVars c.normY X y K 0) = .ok (nVars c.normY X y K K) :=
  loopM_range _ (fun k => nVars c.normY X y K k) K fun k hk => nipalsStep_eq X y hc hcca hdefl hp k hk (h k hk)

/-- The pseudo-inverse of a regular square matrix is the inverse. -/
def PinvRegular (pinv : Mat ℝ → Except PyErr (Mat ℝ)) : Prop :=
  ∀ {m : Nat} (A : Matrix (Fin m) (Fin m) ℝ), A.det ≠ 0 → pinv (of A) = .ok (of A⁻¹)

end run

/-- The model built by NIPALS for one response column. -/
noncomputable def nipModel {p : Nat} (normY : Bool) (K : Nat) (X : Matrix (Fin n) (Fin p) ℝ)
    (y : Matrix (Fin n) (Fin 1) ℝ) : NipalsModel ℝ :=
  ⟨stdState X, stdState y, nVars normY (std X X) (std y y) K K,
    of (nWM (std X X) (std y y) K * ((nPM (std X X) (std y y) K)ᵀ * nWM (std X X) (std y y) K)⁻¹),
    ⟨1, 1, Matrix.of fun _ _ => 1⟩,
    of (divisor y 0 • (nWM (std X X) (std y y) K * ((nPM (std X X) (std y y) K)ᵀ * nWM (std X X) (std y y) K)⁻¹ *
      (nQM (std X X) (std y y) K)ᵀ))⟩

theorem scale_row_one {m : Nat} (b : Matrix (Fin m) (Fin 1) ℝ) (d : Matrix (Fin 1) (Fin 1) ℝ) :
    (of b).scaleByRowVector (of d) = .ok (of (d 0 0 • b)) := by
  unfold scaleByRowVector mustBeColumnVector
  rw [isColumnVector_eq]
  simp only [except_bind_ok, decide_true, if_true]
  unfold mulByVector
  rw [transpose_of]
  refine (vectorOp_row _ b dᵀ).trans ?_
  congr 1
  refine mk_congr fun i j => ?_
  rw [Subsingleton.elim j 0]
  exact mul_comm (b i 0) (d 0 0)

theorem nipalsTrain_eq {c : NipalsCfg ℝ} (hc : NipalsReal c) (hcca : c.cca = false) (hdefl : c.defl = .regression)
    (hpinv : PinvRegular c.pinv) (hK : c.K = (K : Int)) (hn : 0 < n) (X : Matrix (Fin n) (Fin (p + 1)) ℝ)
    (y : Matrix (Fin n) (Fin 1) ℝ) (h : ∀ k < K, Proceeds (std X X) (std y y) k)
    (hdet : ((nPM (std X X) (std y y) K)ᵀ * nWM (std X X) (std y y) K).det ≠ 0) :
    nipalsTrain c (of X) (of y) = .ok (nipModel c.normY K X y) := by
  unfold nipalsTrain
  rw [std_fit c.isZero hc.zero X, std_fit (p := 0) c.isZero hc.zero y]
  simp only [except_bind_ok]
  rw [nipalsInit_eq c hK hn (by omega) (by omega)]
  simp only [except_bind_ok]
  have h0 : (⟨of (std X X), of (std y y), of (0 : Matrix (Fin n) (Fin K) ℝ),
      of (0 : Matrix (Fin n) (Fin K) ℝ), of (0 : Matrix (Fin (p + 1)) (Fin K) ℝ), of (0 : Matrix (Fin 1) (Fin K) ℝ),
      of (0 : Matrix (Fin (p + 1)) (Fin K) ℝ), of (0 : Matrix (Fin 1) (Fin K) ℝ),
      of (0 : Matrix (Fin 1) (Fin 1) ℝ), false⟩ : NipalsVars ℝ) = nVars c.normY (std X X) (std y y) K 0 := by
    unfold nVars
    rw [colsUpTo_zero, colsUpTo_zero, colsUpTo_zero, colsUpTo_zero, colsUpTo_zero, colsUpTo_zero]
    rfl
  rw [hK, h0, nipalsLoop_run _ _ hc hcca hdefl (by omega) h]
  simp only [except_bind_ok]
  have hW : (nVars c.normY (std X X) (std y y) K K).W = of (nWM (std X X) (std y y) K) :=
    congrArg of (colsUpTo_all _)
  have hP : (nVars c.normY (std X X) (std y y) K K).P = of (nPM (std X X) (std y y) K) :=
    congrArg of (colsUpTo_all _)
  have hQ : (nVars c.normY (std X X) (std y y) K K).Q = of (nQM (std X X) (std y y) K) :=
    congrArg of (colsUpTo_all _)
  unfold nipalsRot nipalsYRot
  rw [hW, hP, hQ]
  simp only [transpose_of, mul_of, except_bind_ok, hpinv _ hdet]
  rw [if_neg (by show ¬ 1 < 1; omega)]
  simp only [except_bind_ok, stdState]
  rw [scale_row_one _ (Matrix.of fun (_ : Fin 1) (j : Fin 1) => divisor y j)]
  rfl

theorem nipalsPredict_eq {r : Nat} (c : NipalsCfg ℝ) (normY : Bool) (X : Matrix (Fin n) (Fin (p + 1)) ℝ)
    (y : Matrix (Fin n) (Fin 1) ℝ) (Z : Matrix (Fin r) (Fin (p + 1)) ℝ) :
    nipalsPredict c (nipModel normY K X y) (of Z) = .ok (of (Matrix.of fun i (_ : Fin 1) =>
      divisor y 0 * (std X Z * (nWM (std X X) (std y y) K * ((nPM (std X X) (std y y) K)ᵀ *
        nWM (std X X) (std y y) K)⁻¹ * (nQM (std X X) (std y y) K)ᵀ)) i 0 + mu fun k => y k 0)) := by
  unfold nipalsPredict nipModel
  rw [std_do]
  simp only [except_bind_ok, stdState, mul_of]
  unfold addByVector
  rw [vectorOp_row]
  congr 1
  refine mk_congr fun i j => ?_
  rw [Subsingleton.elim j 0, Matrix.mul_smul]
  rfl

theorem nipalsTransform_eq {r : Nat} (c : NipalsCfg ℝ) (normY : Bool) (X : Matrix (Fin n) (Fin (p + 1)) ℝ)
    (y : Matrix (Fin n) (Fin 1) ℝ) (Z : Matrix (Fin r) (Fin (p + 1)) ℝ) :
    nipalsTransform c (nipModel normY K X y) (of Z) = .ok (of (std X Z * (nWM (std X X) (std y y) K *
      ((nPM (std X X) (std y y) K)ᵀ * nWM (std X X) (std y y) K)⁻¹))) := by
  unfold nipalsTransform nipModel
  rw [std_do]
  simp only [except_bind_ok, mul_of]

/-! ## Comparison with PLS1 -/

section compare
variable {X : Matrix (Fin n) (Fin p) ℝ} {y : Matrix (Fin n) (Fin 1) ℝ}

theorem tb_pls (h : ∀ j < K, PassOk (tb X y j)) {k : Nat} (hk : k < K) :
    (tb X y k).1 = plsX (pls1W y) X k ∧ pls1W (tb X y k).2 (tb X y k).1 = plsW (pls1W y) X k ∧
      loading (tb X y k).2 (plsT (pls1W y) X k) = plsB (pls1W y) X y k • (1 : Matrix (Fin 1) (Fin 1) ℝ) := by
  have hs := PassOk.sq1_ne h
  have htb := tb_eq (X := X) (y := y) (k := k) fun j hj => hs j (by omega)
  have hort : ∀ j < k, (plsX (pls1W y) X k)ᵀ * plsT (pls1W y) X j = 0 := by
    intro j hj
    obtain ⟨d, rfl⟩ : ∃ d, k = j + d + 1 := ⟨k - j - 1, by omega⟩
    have := congrArg Matrix.transpose (plsT_orth_X (pls1W y) X j d fun i hi => hs i (by omega))
    rwa [Matrix.transpose_mul, Matrix.transpose_transpose] at this
  refine ⟨by rw [htb], ?_, ?_⟩
  · rw [htb, plsW, pls1W_eq, pls1W_eq]
    have : (plsX (pls1W y) X k)ᵀ * (y - ∑ j ∈ Finset.range k, plsB (pls1W y) X y j • plsT (pls1W y) X j) =
        (plsX (pls1W y) X k)ᵀ * y := by
      rw [Matrix.mul_sub, Matrix.mul_sum, Finset.sum_eq_zero, sub_zero]
      intro j hj
      rw [Matrix.mul_smul, hort j (Finset.mem_range.mp hj), smul_zero]
    simp only [this]
  · rw [htb]
    have hT : ∀ j < k, (plsT (pls1W y) X k)ᵀ * plsT (pls1W y) X j = 0 := by
      intro j hj
      have := congrArg Matrix.transpose (plsT_orth (pls1W y) X j k hj fun i hi => hs i (by omega))
      rwa [Matrix.transpose_mul, Matrix.transpose_transpose] at this
    have : (plsT (pls1W y) X k)ᵀ * (y - ∑ j ∈ Finset.range k, plsB (pls1W y) X y j • plsT (pls1W y) X j) =
        (plsT (pls1W y) X k)ᵀ * y := by
      rw [Matrix.mul_sub, Matrix.mul_sum, Finset.sum_eq_zero, sub_zero]
      intro j hj
      rw [Matrix.mul_smul, hT j (Finset.mem_range.mp hj), smul_zero]
    have h2 := congrArg Matrix.transpose this
    rw [Matrix.transpose_mul, Matrix.transpose_mul, Matrix.transpose_transpose] at h2
    rw [loading_eq, h2]
    ext i j
    rw [Subsingleton.elim i 0, Subsingleton.elim j 0, Matrix.smul_apply, Matrix.smul_apply, Matrix.one_apply_eq,
      Matrix.mul_apply, plsB, smul_eq_mul, smul_eq_mul, mul_one, div_eq_inv_mul]
    congr 1
    exact Finset.sum_congr rfl fun l _ => mul_comm _ _

/-- Factors of the weights. -/
theorem nW_eq (h : ∀ j < K, PassOk (tb X y j)) : ∃ d : Fin K → ℝ, (∀ k, 3 / 4 ≤ d k ∧ d k < 1) ∧
    ∀ k : Fin K, nW X y k.1 = d k • plsW (pls1W y) X k.1 ∧ nT X y k.1 = d k • plsT (pls1W y) X k.1 ∧
      nP X y k.1 = (d k)⁻¹ • plsP (pls1W y) X k.1 ∧
      nQ X y k.1 = ((d k)⁻¹ * plsB (pls1W y) X y k.1) • (1 : Matrix (Fin 1) (Fin 1) ℝ) := by
  have hx : ∀ k : Fin K, ∃ c : ℝ, 3 / 4 ≤ c ∧ c < 1 ∧ nW X y k.1 = c • plsW (pls1W y) X k.1 := by
    intro k
    obtain ⟨c, h1, h2, h3⟩ := xwF_eq (A := (tb X y k.1).1) (b := (tb X y k.1).2) (h k.1 k.2)
    refine ⟨c, h1, h2, ?_⟩
    rw [nW, nip_eq h k.1 (by omega), h3, (tb_pls h k.2).2.1]
  choose d h1 h2 h3 using hx
  have hl : ∀ {m : Nat} (A : Matrix (Fin n) (Fin m) ℝ) (t : Matrix (Fin n) (Fin 1) ℝ) {c : ℝ}, 3 / 4 ≤ c →
      sq1 t ≠ 0 → loading A (c • t) = c⁻¹ • loading A t := by
    intro m A t c hc ht
    rw [loading_eq, loading_eq, sq1_smul, Matrix.mul_smul, smul_smul, smul_smul]
    congr 1
    have : c ≠ 0 := by
      intro e
      rw [e] at hc
      norm_num at hc
    field_simp
  refine ⟨d, fun k => ⟨h1 k, h2 k⟩, fun k => ?_⟩
  have hX : (nip X y k.1).1 = plsX (pls1W y) X k.1 := by
    rw [nip_eq h k.1 (by omega), (tb_pls h k.2).1]
  have hT : nT X y k.1 = d k • plsT (pls1W y) X k.1 := by
    rw [nT, h3, hX, Matrix.mul_smul]
    rfl
  have hs := PassOk.sq1_ne h k.1 k.2
  refine ⟨h3 k, hT, ?_, ?_⟩
  · rw [nP, hT, hX, hl _ _ (h1 k) hs]
    rfl
  · rw [nQ, hT, hl _ _ (h1 k) hs, nip_eq h k.1 (by omega), (tb_pls h k.2).2.2, smul_smul]

theorem nip_proceeds (h : ∀ j < K, PassOk (tb X y j)) : ∀ k < K, Proceeds X y k := by
  intro k hk
  obtain ⟨d, hd, he⟩ := nW_eq h
  refine ⟨?_, ?_⟩
  · rw [nip_eq h k (by omega)]
    exact (h k hk).resp
  · rw [(he ⟨k, hk⟩).2.1, sq1_smul]
    have h2 := (h k hk).score
    rw [(tb_pls h hk).2.1, (tb_pls h hk).1] at h2
    change 2 * e10 ≤ sq1 (plsT (pls1W y) X k) at h2
    have := e10_pos
    have hd := (hd ⟨k, hk⟩).1
    have : (1 : ℝ) / 2 ≤ d ⟨k, hk⟩ * d ⟨k, hk⟩ := by nlinarith
    nlinarith

/-- Weights, loadings and coefficients of NIPALS against those of PLS1. -/
theorem nip_mats (h : ∀ j < K, PassOk (tb X y j)) : ∃ d : Fin K → ℝ, (∀ k, 3 / 4 ≤ d k ∧ d k < 1) ∧
    nWM X y K = plsWM (pls1W y) K X * Matrix.diagonal d ∧
    nPM X y K = plsPM (pls1W y) K X * Matrix.diagonal (fun k => (d k)⁻¹) ∧
    (nQM X y K)ᵀ = Matrix.diagonal (fun k => (d k)⁻¹) * plsBM (pls1W y) K X y := by
  obtain ⟨d, hd, he⟩ := nW_eq h
  refine ⟨d, hd, ?_, ?_, ?_⟩
  · ext i j
    rw [Matrix.mul_diagonal]
    simp only [nWM, plsWM, Matrix.of_apply]
    rw [(he j).1, Matrix.smul_apply, smul_eq_mul, mul_comm]
  · ext i j
    rw [Matrix.mul_diagonal]
    simp only [nPM, plsPM, Matrix.of_apply]
    rw [(he j).2.2.1, Matrix.smul_apply, smul_eq_mul, mul_comm]
  · ext i j
    rw [Subsingleton.elim j 0, Matrix.diagonal_mul, Matrix.transpose_apply]
    simp only [nQM, plsBM, Matrix.of_apply]
    rw [(he i).2.2.2, Matrix.smul_apply, Matrix.one_apply_eq, smul_eq_mul, mul_one]

theorem nip_det (h : ∀ j < K, PassOk (tb X y j)) : ((nPM X y K)ᵀ * nWM X y K).det = 1 ∧
    ∃ d : Fin K → ℝ, (∀ k, 3 / 4 ≤ d k ∧ d k < 1) ∧
      nWM X y K * ((nPM X y K)ᵀ * nWM X y K)⁻¹ =
        plsWM (pls1W y) K X * ((plsPM (pls1W y) K X)ᵀ * plsWM (pls1W y) K X)⁻¹ * Matrix.diagonal d ∧
      nWM X y K * ((nPM X y K)ᵀ * nWM X y K)⁻¹ * (nQM X y K)ᵀ =
        plsWM (pls1W y) K X * ((plsPM (pls1W y) K X)ᵀ * plsWM (pls1W y) K X)⁻¹ * plsBM (pls1W y) K X y := by
  obtain ⟨d, hd, hW, hP, hQ⟩ := nip_mats h
  have hdet := det_ptw (pls1W y) K X (PassOk.sq1_ne h)
  have hne : ∀ k, d k ≠ 0 := fun k => by have := (hd k).1; intro e; rw [e] at this; norm_num at this
  have hdd : Matrix.diagonal (fun k => (d k)⁻¹) * Matrix.diagonal d = 1 := by
    rw [Matrix.diagonal_mul_diagonal]
    simp only [inv_mul_cancel₀ (hne _)]
    exact Matrix.diagonal_one
  have hdd' : Matrix.diagonal d * Matrix.diagonal (fun k => (d k)⁻¹) = 1 := by
    rw [Matrix.diagonal_mul_diagonal]
    simp only [mul_inv_cancel₀ (hne _)]
    exact Matrix.diagonal_one
  have e : (nPM X y K)ᵀ * nWM X y K = Matrix.diagonal (fun k => (d k)⁻¹) *
      ((plsPM (pls1W y) K X)ᵀ * plsWM (pls1W y) K X) * Matrix.diagonal d := by
    rw [hP, hW, Matrix.transpose_mul, Matrix.diagonal_transpose]
    simp only [Matrix.mul_assoc]
  set A := (plsPM (pls1W y) K X)ᵀ * plsWM (pls1W y) K X with hA
  have hAu : IsUnit A.det := by rw [hdet]; exact isUnit_one
  have hinv : ((nPM X y K)ᵀ * nWM X y K)⁻¹ =
      Matrix.diagonal (fun k => (d k)⁻¹) * A⁻¹ * Matrix.diagonal d := by
    rw [e]
    refine Matrix.inv_eq_right_inv ?_
    have : Matrix.diagonal (fun k => (d k)⁻¹) * A * Matrix.diagonal d *
        (Matrix.diagonal (fun k => (d k)⁻¹) * A⁻¹ * Matrix.diagonal d) =
        Matrix.diagonal (fun k => (d k)⁻¹) * (A * (Matrix.diagonal d * Matrix.diagonal (fun k => (d k)⁻¹)) * A⁻¹) *
          Matrix.diagonal d := by
      simp only [Matrix.mul_assoc]
    rw [this, hdd', Matrix.mul_one, Matrix.mul_nonsing_inv _ hAu, Matrix.mul_one, hdd]
  have hr : nWM X y K * ((nPM X y K)ᵀ * nWM X y K)⁻¹ = plsWM (pls1W y) K X * A⁻¹ * Matrix.diagonal d := by
    rw [hinv, hW]
    have : plsWM (pls1W y) K X * Matrix.diagonal d * (Matrix.diagonal (fun k => (d k)⁻¹) * A⁻¹ * Matrix.diagonal d) =
        plsWM (pls1W y) K X * (Matrix.diagonal d * Matrix.diagonal (fun k => (d k)⁻¹)) * A⁻¹ * Matrix.diagonal d := by
      simp only [Matrix.mul_assoc]
    rw [this, hdd', Matrix.mul_one]
  refine ⟨?_, d, hd, hr, ?_⟩
  · rw [e, Matrix.det_mul, Matrix.det_mul, hdet, mul_one, ← Matrix.det_mul, hdd, Matrix.det_one]
  · rw [hr, hQ, Matrix.mul_assoc _ (Matrix.diagonal d), ← Matrix.mul_assoc (Matrix.diagonal d), hdd', Matrix.one_mul]

end compare

end Verif
