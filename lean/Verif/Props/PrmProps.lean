import Verif.Alg.PrmLemmas
import Verif.Core.ExtLemmas
import Verif.Props.Decomp
import Mathlib.Algebra.Order.BigOperators.Ring.Finset
import Mathlib.Tactic.FieldSimp
import Mathlib.Tactic.Positivity

/-!
# C60, C80, C81 — PRM: weights, the training loop, the geometric median, wide predictors
-/

set_option linter.unusedSimpArgs false
set_option linter.unusedSectionVars false

namespace Verif.Props
open Verif Verif.Mat
open scoped Matrix
open Matrix (diagonal)

/-! ## C60: the weights -/

section ext
variable {K : Type} [Field K] [LinearOrder K] [IsStrictOrderedRing K] [HasSqrt K]

omit [HasSqrt K] in
theorem pyAbs_fin (x : K) : pyAbs (X.fin x) = X.fin |x| := by
  unfold pyAbs
  by_cases h : x < 0
  · have h' : (X.fin x : X K) < 0 := show X.ltb (X.fin x) (X.fin 0) = true by simp [X.ltb, h]
    rw [if_pos h', X.fin_neg, abs_of_neg h]
  · have h' : ¬ (X.fin x : X K) < 0 := show ¬ X.ltb (X.fin x) (X.fin 0) = true by simp [X.ltb, h]
    rw [if_neg h', abs_of_nonneg (not_lt.1 h)]

/-- The fair weight `1 / (1 + |z/c|)²`. -/
def fairSpec (z c : K) : K := 1 / ((1 + |z / c|) * (1 + |z / c|))

omit [HasSqrt K] in
theorem fairSpec_pos (z c : K) : 0 < fairSpec z c ∧ fairSpec z c ≤ 1 := by
  have h : (1 : K) ≤ 1 + |z / c| := le_add_of_nonneg_right (abs_nonneg _)
  have h2 : (1 : K) ≤ (1 + |z / c|) * (1 + |z / c|) := one_le_mul_of_one_le_of_one_le h h
  exact ⟨div_pos one_pos (lt_of_lt_of_le one_pos h2), div_le_one_of_le₀ h2 (le_trans zero_le_one h2)⟩

theorem fair_fin (z c : K) (hc : c ≠ 0) : fair (X.fin z) (X.fin c) = X.fin (fairSpec z c) := by
  unfold fair
  have h : (1 : K) ≤ 1 + |z / c| := le_add_of_nonneg_right (abs_nonneg _)
  rw [X.fin_div z hc, pyAbs_fin, X.one_fin, X.fin_add, X.fin_mul, X.fin_div]
  · rfl
  · exact (mul_pos (lt_of_lt_of_le one_pos h) (lt_of_lt_of_le one_pos h)).ne'

/-- A scaled residual or distance `z / s` and its weight, whatever the scale `s`: with a zero scale the weight is NaN
where `z` is zero, and zero elsewhere. -/
theorem fair_scaled (z s c : K) (hc : c ≠ 0) : fair (X.fin z / X.fin s) (X.fin c) =
    if s ≠ 0 then X.fin (fairSpec (z / s) c) else if z = 0 then X.nan else X.fin 0 := by
  by_cases hs : s = 0
  · rw [if_neg (not_not.2 hs), hs, X.fin_div_zero]
    by_cases hz : z = 0
    · rw [if_pos hz, hz, X.signedInf_zero]
      rfl
    · rw [if_neg hz]
      have hone : X.signedInf z = X.pinf ∨ X.signedInf z = X.ninf := by
        unfold X.signedInf
        rcases lt_or_gt_of_ne hz with h | h
        · exact Or.inr (by rw [if_neg (not_lt.2 h.le), if_pos h])
        · exact Or.inl (by rw [if_pos h])
      unfold fair
      have habs : pyAbs (X.signedInf z / X.fin c) = X.pinf := by
        have e1 : (X.pinf / X.fin c : X K) = if c < 0 then X.ninf else X.pinf := rfl
        have e2 : (X.ninf / X.fin c : X K) = if c < 0 then X.pinf else X.ninf := rfl
        rcases hone with h | h <;> rw [h] <;> simp only [e1, e2] <;> split <;> rfl
      rw [habs]
      rfl
  · rw [if_pos hs, X.fin_div z hs, fair_fin _ _ hc]

/-- `np.median` of a column of finite numbers. -/
def IsMedian (med : Mat (X K) → X K) : Prop :=
  ∀ (n : Nat) (f : Fin n → K), 0 < n →
    med (of (Matrix.of fun i (_ : Fin 1) => X.fin (f i))) = X.fin (medianList (List.ofFn f))

/-- C60 (weights, partial: the claim is that they always lie in (0,1]).  The weight of finite residuals `r` with a
finite scale `s` (their median absolute deviation) lies in (0,1] if the scale is not zero; if it is zero, no weight
lies in (0,1].  The same computation gives the leverage weights from the distances. -/
theorem C60_weights_partial (cfg : PrmCfg (X K)) {c : K} (hc : c ≠ 0) (hC : cfg.C = X.fin c) {n : Nat} (hn : 0 < n)
    (y : Mat (X K)) (tg : Option (Mat (X K) × Mat (X K))) (r : Fin n → K) (s : K)
    (hr : prmResiduals cfg n y tg = .ok (of (Matrix.of fun i (_ : Fin 1) => X.fin (r i))))
    (hs : prmMad cfg (of (Matrix.of fun i (_ : Fin 1) => X.fin (r i))) = X.fin s) :
    ∃ W : Matrix (Fin n) (Fin 1) (X K), residualWeights cfg n y tg = .ok (of W) ∧
      (s ≠ 0 → ∀ i, ∃ w, W i 0 = X.fin w ∧ 0 < w ∧ w ≤ 1) ∧
      (s = 0 → ∀ i, W i 0 = if r i = 0 then X.nan else X.fin 0) := by
  refine ⟨_, residualWeights_of cfg hn y tg _ hr, fun h i => ?_, fun h i => ?_⟩
  · refine ⟨fairSpec (r i / s) c, ?_, (fairSpec_pos _ _).1, (fairSpec_pos _ _).2⟩
    simp only [Matrix.of_apply, hs, hC]
    rw [fair_scaled _ _ _ hc, if_pos h]
  · simp only [Matrix.of_apply, hs, hC]
    rw [fair_scaled _ _ _ hc, if_neg (not_not.2 h)]

/-- C60 (leverage weights, partial).  As for the residual weights, with the median distance as the scale. -/
theorem C60_leverage_partial (cfg : PrmCfg (X K)) {c : K} (hc : c ≠ 0) (hC : cfg.C = X.fin c) {n : Nat} (hn : 0 < n)
    (T m : Mat (X K)) (hT : T.rows = n) (d : Fin n → K) (s : K) (hm : geoMedian cfg T = .ok m)
    (hd : cDist T m = .ok (of (Matrix.of fun i (_ : Fin 1) => X.fin (d i))))
    (hs : cfg.med (of (Matrix.of fun i (_ : Fin 1) => X.fin (d i))) = X.fin s) :
    ∃ W : Matrix (Fin n) (Fin 1) (X K), leverageWeights cfg T = .ok (of W) ∧
      (s ≠ 0 → ∀ i, ∃ w, W i 0 = X.fin w ∧ 0 < w ∧ w ≤ 1) ∧
      (s = 0 → ∀ i, W i 0 = if d i = 0 then X.nan else X.fin 0) := by
  refine ⟨_, leverageWeights_of cfg hn T m hT _ hm hd, fun h i => ?_, fun h i => ?_⟩
  · refine ⟨fairSpec (d i / s) c, ?_, (fairSpec_pos _ _).1, (fairSpec_pos _ _).2⟩
    simp only [Matrix.of_apply, hs, hC]
    rw [fair_scaled _ _ _ hc, if_pos h]
  · simp only [Matrix.of_apply, hs, hC]
    rw [fair_scaled _ _ _ hc, if_neg (not_not.2 h)]

omit [HasSqrt K] [IsStrictOrderedRing K] [Field K] in
theorem count_ofFn_map {n : Nat} (f : Fin n → K) (g : K → K) (a : K) (hg : ∀ x, g x = g a ↔ x = a) :
    (List.ofFn fun i => g (f i)).count (g a) = (List.ofFn f).count a := by
  have e : (List.ofFn fun i => g (f i)) = (List.ofFn f).map g := by rw [List.map_ofFn]; rfl
  rw [e, List.count, List.count, List.countP_map]
  congr 1
  funext x
  simp only [Function.comp, beq_eq_decide, hg x]

/-- C60 (weights) is violated: if more than half of the responses share a value, then none of the initial residual
weights lies in (0,1] — they are NaN for these responses and zero for all others. -/
theorem C60_weights_violation (cfg : PrmCfg (X K)) (hmed : IsMedian cfg.med) {c : K} (hc : c ≠ 0) (hC : cfg.C = X.fin c)
    {n : Nat} (f : Fin n → K) (a : K) (ha : n < 2 * (List.ofFn f).count a) :
    ∃ W : Matrix (Fin n) (Fin 1) (X K),
      residualWeights cfg n (of (Matrix.of fun i (_ : Fin 1) => X.fin (f i))) none = .ok (of W) ∧
      ∀ i, W i 0 = if f i = a then X.nan else X.fin 0 := by
  have hcl : (List.ofFn f).count a ≤ n := le_trans List.count_le_length (List.length_ofFn (f := f)).le
  have hn : 0 < n := by omega
  have hm : cfg.med (of (Matrix.of fun i (_ : Fin 1) => X.fin (f i))) = X.fin a := by
    rw [hmed n f hn, median_majority _ a (by rw [List.length_ofFn]; exact ha)]
  have hr : prmResiduals cfg n (of (Matrix.of fun i (_ : Fin 1) => X.fin (f i))) none =
      .ok (of (Matrix.of fun i (_ : Fin 1) => X.fin (f i - a))) := by
    rw [residuals_first cfg hn, hm]
    simp only [Matrix.of_apply, X.fin_sub]
  have hc0 : n < 2 * (List.ofFn fun i => f i - a).count 0 := by
    have := count_ofFn_map f (fun x => x - a) a (fun x => by simp only [sub_self]; exact sub_eq_zero)
    simp only [sub_self] at this
    rw [this]
    exact ha
  have hm0 : cfg.med (of (Matrix.of fun i (_ : Fin 1) => X.fin (f i - a))) = X.fin 0 := by
    rw [hmed n _ hn, median_majority _ 0 (by rw [List.length_ofFn]; exact hc0)]
  have hs : prmMad cfg (of (Matrix.of fun i (_ : Fin 1) => X.fin (f i - a))) = X.fin 0 := by
    unfold prmMad
    rw [hm0]
    have he : ((of (Matrix.of fun i (_ : Fin 1) => X.fin (f i - a))).subScalar (X.fin 0)).abs =
        of (Matrix.of fun i (_ : Fin 1) => X.fin |f i - a|) := by
      refine mk_congr fun i j => ?_
      show pyAbs (X.fin (f i - a) - X.fin 0) = X.fin |f i - a|
      rw [X.fin_sub, pyAbs_fin, sub_zero]
    rw [he, hmed n _ hn, median_majority _ 0]
    rw [List.length_ofFn]
    have := count_ofFn_map f (fun x => |x - a|) a
      (fun x => by simp only [sub_self, abs_zero]; rw [abs_eq_zero, sub_eq_zero])
    simp only [sub_self, abs_zero] at this
    rw [this]
    exact ha
  obtain ⟨W, hW, _, h0⟩ := C60_weights_partial cfg hc hC hn _ none _ 0 hr hs
  exact ⟨W, hW, fun i => by rw [h0 rfl i]; simp only [sub_eq_zero]⟩

end ext

/-- Three of four responses agree: no usable weight. -/
example (cfg : PrmCfg (X ℚ)) (hmed : IsMedian cfg.med) (hC : cfg.C = X.fin 4) [HasSqrt ℚ] :
    ∃ W : Matrix (Fin 4) (Fin 1) (X ℚ),
      residualWeights cfg 4 (of (Matrix.of fun i (_ : Fin 1) => X.fin ((![1, 1, 7, 1] : Fin 4 → ℚ) i))) none = .ok (of W) ∧
      W 0 0 = X.nan ∧ W 2 0 = X.fin 0 := by
  obtain ⟨W, h1, h2⟩ := C60_weights_violation cfg hmed (by norm_num) hC (![1, 1, 7, 1] : Fin 4 → ℚ) 1 (by decide +kernel)
  exact ⟨W, h1, by rw [h2]; simp, by rw [h2]; rw [if_neg]; decide +kernel⟩

/-! ## C60: the training loop -/

section loop
variable {α : Type} [Add α] [Sub α] [Mul α] [Neg α] [Zero α] [One α] [Div α] [NatCast α] [HasSqrt α] [LT α]
  [DecidableLT α]


theorem prmMore_bound (cfg : PrmCfg α) (X y : Mat α) : ∀ (k : Nat) (iter : Int), (cfg.maxIter - iter).toNat = k →
    ∀ (old : Mat α) (s s' : PrmState α) (it : Int), prmMore cfg X y iter old s = .ok (s', it) →
      iter ≤ it ∧ it ≤ max iter cfg.maxIter := by
  intro k
  induction k with
  | zero =>
    intro iter hk old s s' it h
    rw [prmMore] at h
    cases hd : s.gamma.sub old with
    | error e => rw [hd] at h; cases h
    | ok d =>
      rw [hd, except_bind_ok, dif_neg (by omega)] at h
      cases h
      omega
  | succ k ih =>
    intro iter hk old s s' it h
    rw [prmMore] at h
    cases hd : s.gamma.sub old with
    | error e => rw [hd] at h; cases h
    | ok d =>
      rw [hd, except_bind_ok] at h
      split at h
      · cases hp : prmPass cfg X y s with
        | error e => rw [hp] at h; cases h
        | ok s1 =>
          rw [hp, except_bind_ok] at h
          have := ih (iter + 1) (by omega) _ _ _ _ h
          omega
      · cases h
        omega

/-- C60 (termination).  Training performs at least one pass and at most `max_iter` passes (one if `max_iter < 1`). -/
theorem C60_bound (cfg : PrmCfg α) (X y : Mat α) (m : PrmModel α) (h : prmTrain cfg X y = .ok m) :
    1 ≤ m.iterations ∧ m.iterations ≤ max 1 cfg.maxIter := by
  unfold prmTrain at h
  cases h1 : prmReplace cfg X with
  | error e => rw [h1] at h; cases h
  | ok r =>
  rw [h1, except_bind_ok] at h
  cases h2 : residualWeights cfg r.2.rows y none with
  | error e => rw [h2] at h; cases h
  | ok Wr =>
  rw [h2, except_bind_ok] at h
  cases h3 : leverageWeights cfg r.2 with
  | error e => rw [h3] at h; cases h
  | ok Wx =>
  rw [h3, except_bind_ok] at h
  cases h4 : prmLoop cfg r.2 y Wr Wx with
  | error e => rw [h4] at h; cases h
  | ok s =>
  rw [h4, except_bind_ok] at h
  cases h5 : prmCoefs r.1 s.1.base with
  | error e => rw [h5] at h; cases h
  | ok B =>
  rw [h5, except_bind_ok] at h
  cases h
  unfold prmLoop at h4
  cases h6 : Factory.zeros (α := α) cfg.K 1 with
  | error e => rw [h6] at h4; cases h4
  | ok g =>
  rw [h6, except_bind_ok] at h4
  cases h7 : prmPass cfg r.2 y ⟨Wr, Wx, none, g, none⟩ with
  | error e => rw [h7] at h4; cases h4
  | ok s1 =>
  rw [h7, except_bind_ok] at h4
  exact prmMore_bound cfg _ _ _ 1 rfl _ _ s.1 s.2 h4

/-- C60 (loop) is violated: the loop test at line 237 is inverted.  If the first pass moved the coefficients by *at
least* the tolerance, training stops right there, however large `max_iter` is. -/
theorem C60_loop_violation (cfg : PrmCfg α) (X y Wr Wx g d : Mat α) (s1 : PrmState α)
    (hz : Factory.zeros cfg.K 1 = .ok g) (hp : prmPass cfg X y ⟨Wr, Wx, none, g, none⟩ = .ok s1)
    (hd : s1.gamma.sub g = .ok d) (hlarge : ¬ d.norm2Squared < cfg.tol) :
    prmLoop cfg X y Wr Wx = .ok (s1, 1) := by
  unfold prmLoop
  rw [hz, except_bind_ok, hp, except_bind_ok, prmMore, hd, except_bind_ok, dif_neg fun h => hlarge h.1]

end loop

/-- C60 (loop) is violated in the other direction too: from a state that a pass reproduces — the re-weighting has
converged — the loop goes on until `max_iter` passes are done. -/
theorem C60_converged_violation (cfg : PrmCfg ℝ) (ht : 0 < cfg.tol) (X y : Mat ℝ) (s : PrmState ℝ)
    (hfix : prmPass cfg X y s = .ok s) (iter : Int) :
    prmMore cfg X y iter s.gamma s = .ok (s, max iter cfg.maxIter) := by
  have h0 : ∀ G : Mat ℝ, ∃ d, G.sub G = .ok d ∧ d.norm2Squared = 0 := by
    rintro ⟨a, b, G⟩
    refine ⟨of (0 : Matrix (Fin a) (Fin b) ℝ), ?_, ?_⟩
    · have := sub_of G G
      rw [sub_self] at this
      exact this
    · have hs : (of (0 : Matrix (Fin a) (Fin b) ℝ)).sumSq = 0 := by
        unfold sumSq
        simp [sumFin_eq]
      have hn : (of (0 : Matrix (Fin a) (Fin b) ℝ)).norm2 = 0 := by
        unfold norm2
        rw [hs]
        have : (HasSqrt.sqrt (0 : ℝ)) = 0 := Real.sqrt_zero
        rw [this]
        split <;> simp
      unfold norm2Squared
      rw [hn, mul_zero]
  generalize hk : (cfg.maxIter - iter).toNat = k
  induction k generalizing iter with
  | zero =>
    obtain ⟨d, hd, _⟩ := h0 s.gamma
    rw [prmMore, hd, except_bind_ok, dif_neg (by omega), max_eq_left (by omega)]
  | succ k ih =>
    obtain ⟨d, hd, h2⟩ := h0 s.gamma
    rw [prmMore, hd, except_bind_ok, dif_pos ⟨by rw [h2]; exact ht, by omega⟩, hfix, except_bind_ok,
      ih (iter + 1) (by omega)]
    congr 2
    omega

section real
variable {n p : Nat}

/-- C60 (loop, end to end).  For at least two rows and whatever the inner model returns (with `k` scores), the loop
succeeds after a single pass as soon as the squared norm of the coefficients is at least the tolerance. -/
theorem C60_single_pass_violation (cfg : PrmCfg ℝ) (he : 0 < cfg.eps) (hn : 2 ≤ n) {k : Nat} (hk : 0 < k)
    (hK : cfg.K = (k : Int)) (X : Matrix (Fin n) (Fin p) ℝ) (y Wr Wx : Matrix (Fin n) (Fin 1) ℝ)
    (T : Matrix (Fin n) (Fin k) ℝ) (Q : Matrix (Fin 1) (Fin k) ℝ) (B W : Mat ℝ)
    (hb : cfg.base (of (weightRows Wr Wx X)) (of (weightRows Wr Wx y)) = .ok ⟨of T, of Q, B, W⟩)
    (ht : cfg.tol ≤ ∑ j, Q 0 j * Q 0 j) :
    ∃ s, prmLoop cfg (of X) (of y) (of Wr) (of Wx) = .ok (s, 1) ∧ s.gamma = of Qᵀ ∧
      s.base = some ⟨of T, of Q, B, W⟩ := by
  have hz : Factory.zeros (α := ℝ) cfg.K 1 = .ok (of (0 : Matrix (Fin k) (Fin 1) ℝ)) := by
    rw [hK]
    exact Factory.zeros_nat hk 1
  obtain ⟨m, _, _, hp⟩ := prmPass_ok cfg he hn X y Wr Wx none (of (0 : Matrix (Fin k) (Fin 1) ℝ)) none T Q B W hb
  refine ⟨_, C60_loop_violation cfg _ _ _ _ _ (of Qᵀ) _ hz hp ?_ ?_, rfl, rfl⟩
  · show (of Qᵀ).sub (of 0) = _
    rw [sub_of, sub_zero]
  · rw [norm2Squared_col]
    exact not_lt.2 ht

/-- C60 (residuals) is violated: the residuals that determine the next weights compare the *re-weighted* response with
the *un-weighted* scores.  Even when the inner model fits its (re-weighted) response exactly, the residual of row `i` is
`(√wᵢ - 1)·yᵢ`, which is zero only for a weight of one or a zero response. -/
theorem C60_residuals_violation (y Wr Wx : Matrix (Fin n) (Fin 1) ℝ) {k : Nat} (T : Matrix (Fin n) (Fin k) ℝ)
    (Q : Matrix (Fin 1) (Fin k) ℝ) (hfit : T * Qᵀ = weightRows Wr Wx y) (hpos : ∀ i, 0 < Wr i 0 * Wx i 0) (i : Fin n) :
    passResid y Wr Wx T Q i 0 = (Real.sqrt (Wr i 0 * Wx i 0) - 1) * y i 0 ∧
      (passResid y Wr Wx T Q i 0 = 0 ↔ Wr i 0 * Wx i 0 = 1 ∨ y i 0 = 0) := by
  have hs : 0 < Real.sqrt (Wr i 0 * Wx i 0) := Real.sqrt_pos.2 (hpos i)
  have hu : (unweight Wr Wx T * Qᵀ) i 0 = y i 0 := by
    have h1 : (unweight Wr Wx T * Qᵀ) i 0 = (T * Qᵀ) i 0 / Real.sqrt (Wr i 0 * Wx i 0) := by
      rw [Matrix.mul_apply, Matrix.mul_apply, Finset.sum_div]
      refine Finset.sum_congr rfl fun l _ => ?_
      show T i l / Real.sqrt (Wx i 0 * Wr i 0) * _ = _
      rw [mul_comm (Wx i 0)]
      ring
    rw [h1, hfit]
    exact mul_div_cancel_right₀ _ hs.ne'
  have h : passResid y Wr Wx T Q i 0 = (Real.sqrt (Wr i 0 * Wx i 0) - 1) * y i 0 := by
    show y i 0 * Real.sqrt (Wr i 0 * Wx i 0) - (unweight Wr Wx T * Qᵀ) i 0 = _
    rw [hu]
    ring
  refine ⟨h, ?_⟩
  rw [h, mul_eq_zero, sub_eq_zero, Real.sqrt_eq_one]

/-- C60 (predictions).  Predictions are the predictors times the stored coefficients, and for data with at least as many
rows as columns these are the coefficients of the inner model of the last pass. -/
theorem C60_predict (cfg : PrmCfg ℝ) (X y : Mat ℝ) (hX : X.cols ≤ X.rows) (m : PrmModel ℝ)
    (h : prmTrain cfg X y = .ok m) (Z : Mat ℝ) :
    ∃ b, m.state.base = some b ∧ prmPredict m Z = Z.mul b.B := by
  unfold prmTrain prmReplace at h
  rw [if_neg (by omega), except_bind_ok] at h
  cases h2 : residualWeights cfg X.rows y none with
  | error e => rw [h2] at h; cases h
  | ok Wr =>
  rw [h2, except_bind_ok] at h
  cases h3 : leverageWeights cfg X with
  | error e => rw [h3] at h; cases h
  | ok Wx =>
  rw [h3, except_bind_ok] at h
  cases h4 : prmLoop cfg X y Wr Wx with
  | error e => rw [h4] at h; cases h
  | ok s =>
  rw [h4, except_bind_ok] at h
  unfold prmCoefs at h
  cases hb : s.1.base with
  | none => rw [hb] at h; cases h
  | some b =>
    rw [hb] at h
    cases h
    exact ⟨b, hb, rfl⟩

/-- A concrete inner model for the loop theorems. -/
noncomputable def prmDemo (maxIter : Int) : PrmCfg ℝ where
  K := 1
  tol := 1 / 2
  maxIter := maxIter
  C := 4
  eps := 1 / 10
  med := fun _ => 1
  base := fun _ _ => .ok ⟨of (!![1; 2] : Matrix (Fin 2) (Fin 1) ℝ), of (!![1] : Matrix (Fin 1) (Fin 1) ℝ),
    of (!![1] : Matrix (Fin 1) (Fin 1) ℝ), of (!![1] : Matrix (Fin 1) (Fin 1) ℝ)⟩
  svd := fun _ => .error .linAlgError

/-- Whatever `max_iter` is, one pass. -/
example (maxIter : Int) : ∃ s, prmLoop (prmDemo maxIter) (of (!![1; 2] : Matrix (Fin 2) (Fin 1) ℝ))
    (of (!![1; 3] : Matrix (Fin 2) (Fin 1) ℝ)) (of (!![1; 1] : Matrix (Fin 2) (Fin 1) ℝ))
    (of (!![1; 1] : Matrix (Fin 2) (Fin 1) ℝ)) = .ok (s, 1) := by
  obtain ⟨s, hs, _⟩ := C60_single_pass_violation (prmDemo maxIter) (by norm_num [prmDemo]) (le_refl 2) one_pos rfl
    !![1; 2] !![1; 3] !![1; 1] !![1; 1] !![1; 2] !![1] _ _ rfl (by
      show (1 / 2 : ℝ) ≤ ∑ j : Fin 1, (!![1] : Matrix (Fin 1) (Fin 1) ℝ) 0 j * (!![1] : Matrix (Fin 1) (Fin 1) ℝ) 0 j
      rw [Fin.sum_univ_one]
      norm_num)
  exact ⟨s, hs⟩

/-- An inner model for which the re-weighting has a fixed point with weights `1/4`. -/
noncomputable def prmFix (maxIter : Int) : PrmCfg ℝ where
  K := 1
  tol := 1 / 2
  maxIter := maxIter
  C := 4
  eps := 1 / 10
  med := fun _ => 1
  base := fun _ _ => .ok ⟨of (!![1; -1] : Matrix (Fin 2) (Fin 1) ℝ), of (!![1] : Matrix (Fin 1) (Fin 1) ℝ),
    of (!![1] : Matrix (Fin 1) (Fin 1) ℝ), of (!![1] : Matrix (Fin 1) (Fin 1) ℝ)⟩
  svd := fun _ => .error .linAlgError

/-- A converged state: all weights are `1/4`, a pass changes nothing, and still `max_iter` passes are made. -/
example (maxIter : Int) : ∃ s, prmPass (prmFix maxIter) (of (!![1; -1] : Matrix (Fin 2) (Fin 1) ℝ))
      (of (!![32; -32] : Matrix (Fin 2) (Fin 1) ℝ)) s = .ok s ∧
    prmMore (prmFix maxIter) (of (!![1; -1] : Matrix (Fin 2) (Fin 1) ℝ))
      (of (!![32; -32] : Matrix (Fin 2) (Fin 1) ℝ)) 1 s.gamma s = .ok (s, max 1 maxIter) := by
  have hq : Real.sqrt ((1 / 4 : ℝ) * (1 / 4)) = 1 / 4 := Real.sqrt_mul_self (by norm_num)
  have hu : unweight (!![1 / 4; 1 / 4] : Matrix (Fin 2) (Fin 1) ℝ) !![1 / 4; 1 / 4] (!![1; -1] : Matrix (Fin 2) (Fin 1) ℝ) =
      !![4; -4] := by
    ext i j
    fin_cases i <;> fin_cases j
    · show (1 : ℝ) / Real.sqrt ((1 / 4 : ℝ) * (1 / 4)) = 4
      rw [hq]
      norm_num
    · show (-1 : ℝ) / Real.sqrt ((1 / 4 : ℝ) * (1 / 4)) = -4
      rw [hq]
      norm_num
  have hd : distM (!![4; -4] : Matrix (Fin 2) (Fin 1) ℝ) (0 : Matrix (Fin 1) (Fin 1) ℝ) = !![4; 4] := by
    have e : Real.sqrt ((4 : ℝ) * 4) = 4 := Real.sqrt_mul_self (by norm_num)
    ext i j
    fin_cases i <;> fin_cases j <;> simp [distM, rdist, e]
  have hw : weis (1 / 10) (!![4; -4] : Matrix (Fin 2) (Fin 1) ℝ) (0 : Matrix (Fin 1) (Fin 1) ℝ) = 0 := by
    have h0 : rdist (!![4; -4] : Matrix (Fin 2) (Fin 1) ℝ) (0 : Matrix (Fin 1) (Fin 1) ℝ) 0 = 4 := congrFun (congrFun hd 0) 0
    have h1 : rdist (!![4; -4] : Matrix (Fin 2) (Fin 1) ℝ) (0 : Matrix (Fin 1) (Fin 1) ℝ) 1 = 4 := congrFun (congrFun hd 1) 0
    ext i j
    rw [Subsingleton.elim i 0, Subsingleton.elim j 0]
    simp only [weis, Matrix.of_apply, weisW, Fin.sum_univ_two, h0, h1]
    norm_num
  have hg : geoMedian (prmFix maxIter) (of (!![4; -4] : Matrix (Fin 2) (Fin 1) ℝ)) =
      .ok (of (0 : Matrix (Fin 1) (Fin 1) ℝ)) := by
    have hm : (of (!![4; -4] : Matrix (Fin 2) (Fin 1) ℝ)).columnMeans = of (0 : Matrix (Fin 1) (Fin 1) ℝ) := by
      rw [Transf.columnMeans_of]
      refine mk_congr fun i j => ?_
      rw [Subsingleton.elim i 0, Subsingleton.elim j 0]
      simp [Transf.mu, Fin.sum_univ_two]
    unfold geoMedian
    rw [hm, geoLoop]
    split
    · rw [geoStep_of _ (le_refl 2), except_bind_ok]
      show (do
        let d ← (of (weis (1 / 10) (!![4; -4] : Matrix (Fin 2) (Fin 1) ℝ) 0)).sub (of 0)
        if d.norm2Squared < 1 / 2 then _ else _) = _
      rw [hw, sub_of, except_bind_ok, sub_self, if_pos]
      · exact congrArg (fun z => Except.ok (of z)) hw
      · rw [norm2Squared_col, (sq1_eq_zero _).2 rfl]
        norm_num
    · rfl
  have hf : fairM (!![4; 4] : Matrix (Fin 2) (Fin 1) ℝ) 1 4 = !![1 / 4; 1 / 4] := by
    ext i j
    fin_cases i <;> fin_cases j <;> norm_num [fairM, fair, pyAbs]
  have hr : passResid (!![32; -32] : Matrix (Fin 2) (Fin 1) ℝ) !![1 / 4; 1 / 4] !![1 / 4; 1 / 4]
      (!![1; -1] : Matrix (Fin 2) (Fin 1) ℝ) !![1] = !![4; -4] := by
    have e : ∀ i j, passResid (!![32; -32] : Matrix (Fin 2) (Fin 1) ℝ) !![1 / 4; 1 / 4] !![1 / 4; 1 / 4]
        (!![1; -1] : Matrix (Fin 2) (Fin 1) ℝ) !![1] i j =
        (!![32; -32] : Matrix (Fin 2) (Fin 1) ℝ) i 0 * Real.sqrt ((!![1 / 4; 1 / 4] : Matrix (Fin 2) (Fin 1) ℝ) i 0 *
          (!![1 / 4; 1 / 4] : Matrix (Fin 2) (Fin 1) ℝ) i 0) - ((!![4; -4] : Matrix (Fin 2) (Fin 1) ℝ) *
          (!![1] : Matrix (Fin 1) (Fin 1) ℝ)ᵀ) i 0 := by
      intro i j
      rw [← hu]
      rfl
    ext i j
    rw [e, Matrix.mul_apply, Fin.sum_univ_one]
    fin_cases i <;> fin_cases j
    · show (32 : ℝ) * Real.sqrt ((1 / 4 : ℝ) * (1 / 4)) - 4 * 1 = 4
      rw [hq]
      norm_num
    · show (-32 : ℝ) * Real.sqrt ((1 / 4 : ℝ) * (1 / 4)) - -4 * 1 = -4
      rw [hq]
      norm_num
  have hf2 : fairM (!![4; -4] : Matrix (Fin 2) (Fin 1) ℝ) 1 4 = !![1 / 4; 1 / 4] := by
    ext i j
    fin_cases i <;> fin_cases j <;> norm_num [fairM, fair, pyAbs]
  have key : prmPass (prmFix maxIter) (of (!![1; -1] : Matrix (Fin 2) (Fin 1) ℝ))
      (of (!![32; -32] : Matrix (Fin 2) (Fin 1) ℝ))
      ⟨of !![1 / 4; 1 / 4], of !![1 / 4; 1 / 4], some (of (!![4; -4] : Matrix (Fin 2) (Fin 1) ℝ)),
        of (!![1] : Matrix (Fin 1) (Fin 1) ℝ)ᵀ, some ⟨of !![1; -1], of !![1], of !![1], of !![1]⟩⟩ =
      .ok ⟨of !![1 / 4; 1 / 4], of !![1 / 4; 1 / 4], some (of (!![4; -4] : Matrix (Fin 2) (Fin 1) ℝ)),
        of (!![1] : Matrix (Fin 1) (Fin 1) ℝ)ᵀ, some ⟨of !![1; -1], of !![1], of !![1], of !![1]⟩⟩ := by
    obtain ⟨m, hm, _, hp⟩ := prmPass_ok (prmFix maxIter) (by norm_num [prmFix]) (le_refl 2) !![1; -1] !![32; -32]
      !![1 / 4; 1 / 4] !![1 / 4; 1 / 4] (some (of (!![4; -4] : Matrix (Fin 2) (Fin 1) ℝ)))
      (of (!![1] : Matrix (Fin 1) (Fin 1) ℝ)ᵀ) (some ⟨of !![1; -1], of !![1], of !![1], of !![1]⟩)
      !![1; -1] !![1] _ _ rfl
    rw [hu, hg, ok_inj, of_inj] at hm
    subst hm
    refine hp.trans ?_
    rw [hu, hd, hr]
    show Except.ok (PrmState.mk (of (fairM _ 1 4)) (of (fairM _ 1 4)) _ _ _) = _
    rw [hf, hf2]
  exact ⟨_, key, C60_converged_violation (prmFix maxIter) (by norm_num [prmFix]) _ _ _ key 1⟩

/-! ## C80: the geometric median -/

/-- Sum of the distances of the rows of `X` from `v`. -/
noncomputable def distSum (X : Matrix (Fin n) (Fin p) ℝ) (v : Matrix (Fin 1) (Fin p) ℝ) : ℝ :=
  ∑ i, Real.sqrt (∑ j, (X i j - v 0 j) ^ 2)

theorem distSum_eq (X : Matrix (Fin n) (Fin p) ℝ) (v : Matrix (Fin 1) (Fin p) ℝ) : distSum X v = ∑ i, rdist X v i := by
  unfold distSum rdist
  simp only [pow_two]

/-- C80 (hull).  For at least two points the geometric median succeeds, and its result is a convex combination of the
points with positive weights — for every tolerance and every `max_iter`. -/
theorem C80_hull (cfg : PrmCfg ℝ) (he : 0 < cfg.eps) (hn : 2 ≤ n) (X : Matrix (Fin n) (Fin p) ℝ) :
    ∃ m : Matrix (Fin 1) (Fin p) ℝ, geoMedian cfg (of X) = .ok (of m) ∧
      ∃ w : Fin n → ℝ, (∀ i, 0 < w i) ∧ ∑ i, w i = 1 ∧ ∀ j, m 0 j = ∑ i, w i * X i j :=
  geoMedian_hull cfg he hn X

/-- C80 (bounds).  In particular each coordinate lies between the least and the greatest coordinate of the points. -/
theorem C80_bounds (cfg : PrmCfg ℝ) (he : 0 < cfg.eps) (hn : 2 ≤ n) (X : Matrix (Fin n) (Fin p) ℝ)
    (m : Matrix (Fin 1) (Fin p) ℝ) (h : geoMedian cfg (of X) = .ok (of m)) (j : Fin p) (a b : ℝ)
    (ha : ∀ i, a ≤ X i j) (hb : ∀ i, X i j ≤ b) : a ≤ m 0 j ∧ m 0 j ≤ b := by
  obtain ⟨m', h', w, hw, h1, hm⟩ := C80_hull cfg he hn X
  rw [h, ok_inj, of_inj] at h'
  subst h'
  rw [hm j]
  constructor
  · calc a = ∑ i, w i * a := by rw [← Finset.sum_mul, h1, one_mul]
      _ ≤ _ := Finset.sum_le_sum fun i _ => mul_le_mul_of_nonneg_left (ha i) (hw i).le
  · calc ∑ i, w i * X i j ≤ ∑ i, w i * b := Finset.sum_le_sum fun i _ => mul_le_mul_of_nonneg_left (hb i) (hw i).le
      _ = b := by rw [← Finset.sum_mul, h1, one_mul]

theorem rdist_sq (X : Matrix (Fin n) (Fin p) ℝ) (v : Matrix (Fin 1) (Fin p) ℝ) (i : Fin n) :
    rdist X v i * rdist X v i = ∑ j, (X i j - v 0 j) * (X i j - v 0 j) :=
  Real.mul_self_sqrt (Finset.sum_nonneg fun _ _ => mul_self_nonneg _)

/-- Cauchy–Schwarz for the differences of a row from two points. -/
theorem rdist_inner (X : Matrix (Fin n) (Fin p) ℝ) (u v : Matrix (Fin 1) (Fin p) ℝ) (i : Fin n) :
    ∑ j, (X i j - u 0 j) * (X i j - v 0 j) ≤ rdist X u i * rdist X v i := by
  have h := Finset.sum_mul_sq_le_sq_mul_sq Finset.univ (fun j => X i j - u 0 j) (fun j => X i j - v 0 j)
  have h2 : (∑ j, (X i j - u 0 j) * (X i j - v 0 j)) ^ 2 ≤ (rdist X u i * rdist X v i) ^ 2 := by
    refine h.trans (le_of_eq ?_)
    rw [mul_pow, pow_two (rdist X u i), pow_two (rdist X v i), rdist_sq, rdist_sq]
    simp only [pow_two]
  exact le_trans (le_abs_self _) (abs_le_of_sq_le_sq h2 (mul_nonneg (rdist_nonneg _ _ _) (rdist_nonneg _ _ _)))

/-- The step balances the weighted differences. -/
theorem weis_balance {eps : ℝ} (he : 0 < eps) (hn : 0 < n) (X : Matrix (Fin n) (Fin p) ℝ)
    (v : Matrix (Fin 1) (Fin p) ℝ) (j : Fin p) : ∑ i, weisW eps X v i * (X i j - weis eps X v 0 j) = 0 := by
  have hs := sum_pos_of hn (weisW_pos he X v)
  have : ∑ i, weisW eps X v i * (X i j - weis eps X v 0 j) =
      ∑ i, X i j * weisW eps X v i - (∑ i, weisW eps X v i) * weis eps X v 0 j := by
    rw [Finset.sum_mul, ← Finset.sum_sub_distrib]
    refine Finset.sum_congr rfl fun i _ => ?_
    ring
  rw [this]
  show _ - _ * ((∑ i, X i j * weisW eps X v i) / ∑ i, weisW eps X v i) = 0
  rw [mul_div_cancel₀ _ hs.ne', sub_self]

/-- C80 (fixed points).  A point that a step leaves unchanged, and that is not within `eps` of a row, minimises the sum
of distances over *all* points: a converged iteration has found the geometric median. -/
theorem C80_optimal (cfg : PrmCfg ℝ) (he : 0 < cfg.eps) (hn : 2 ≤ n) (X : Matrix (Fin n) (Fin p) ℝ)
    (v : Matrix (Fin 1) (Fin p) ℝ) (hfix : geoStep cfg (of X) (of v) = .ok (of v))
    (hfar : ∀ i, cfg.eps ≤ Real.sqrt (∑ j, (X i j - v 0 j) ^ 2)) (u : Matrix (Fin 1) (Fin p) ℝ) :
    distSum X v ≤ distSum X u := by
  rw [geoStep_of cfg hn, ok_inj, of_inj] at hfix
  rw [distSum_eq, distSum_eq]
  have hfar' : ∀ i, cfg.eps ≤ rdist X v i := by
    intro i
    have := hfar i
    simp only [pow_two] at this
    exact this
  have hd : ∀ i, 0 < rdist X v i := fun i => lt_of_lt_of_le he (hfar' i)
  have hw : ∀ i, weisW cfg.eps X v i = (rdist X v i)⁻¹ := fun i => if_neg (not_lt.2 (hfar' i))
  have hbal : ∀ j, ∑ i, (rdist X v i)⁻¹ * (X i j - v 0 j) = 0 := by
    intro j
    have := weis_balance he (by omega : 0 < n) X v j
    rw [hfix] at this
    simpa only [hw] using this
  have h1 : ∀ i, (rdist X v i)⁻¹ * ∑ j, (X i j - u 0 j) * (X i j - v 0 j) ≤ rdist X u i := by
    intro i
    rw [inv_mul_le_iff₀ (hd i), mul_comm]
    exact rdist_inner X u v i
  refine le_trans (le_of_eq ?_) (Finset.sum_le_sum fun i _ => h1 i)
  have h2 : ∀ i, (rdist X v i)⁻¹ * ∑ j, (X i j - u 0 j) * (X i j - v 0 j) =
      rdist X v i + ∑ j, (v 0 j - u 0 j) * ((rdist X v i)⁻¹ * (X i j - v 0 j)) := by
    intro i
    have e : ∑ j, (X i j - u 0 j) * (X i j - v 0 j) =
        rdist X v i * rdist X v i + ∑ j, (v 0 j - u 0 j) * (X i j - v 0 j) := by
      rw [rdist_sq, ← Finset.sum_add_distrib]
      refine Finset.sum_congr rfl fun j _ => ?_
      ring
    rw [e, mul_add, inv_mul_cancel_left₀ (hd i).ne', Finset.mul_sum]
    congr 1
    refine Finset.sum_congr rfl fun j _ => ?_
    ring
  simp only [h2]
  rw [Finset.sum_add_distrib, Finset.sum_comm]
  simp only [← Finset.mul_sum, hbal, mul_zero, Finset.sum_const_zero, add_zero]

/-- The midpoint of two points is left unchanged, hence optimal. -/
example (cfg : PrmCfg ℝ) (he : 0 < cfg.eps) (he1 : cfg.eps ≤ 1) (u : Matrix (Fin 1) (Fin 1) ℝ) :
    distSum (!![1; -1] : Matrix (Fin 2) (Fin 1) ℝ) 0 ≤ distSum (!![1; -1] : Matrix (Fin 2) (Fin 1) ℝ) u := by
  have r : ∀ i, rdist (!![1; -1] : Matrix (Fin 2) (Fin 1) ℝ) (0 : Matrix (Fin 1) (Fin 1) ℝ) i = 1 := by
    intro i
    fin_cases i <;> simp [rdist]
  refine C80_optimal cfg he (le_refl 2) _ 0 ?_ (fun i => ?_) u
  · rw [geoStep_of cfg (le_refl 2), ok_inj, of_inj]
    ext i j
    rw [Subsingleton.elim i 0, Subsingleton.elim j 0]
    simp [weis, weisW, r, Fin.sum_univ_two]
  · have := r i
    unfold rdist at this
    simp only [pow_two]
    rw [this]
    exact he1

/-- C80 (descent).  A step from a point that is not within `eps` of a row never increases the sum of distances. -/
theorem C80_descent (cfg : PrmCfg ℝ) (he : 0 < cfg.eps) (hn : 2 ≤ n) (X : Matrix (Fin n) (Fin p) ℝ)
    (v : Matrix (Fin 1) (Fin p) ℝ) (hfar : ∀ i, cfg.eps ≤ Real.sqrt (∑ j, (X i j - v 0 j) ^ 2)) :
    ∃ v' : Matrix (Fin 1) (Fin p) ℝ, geoStep cfg (of X) (of v) = .ok (of v') ∧ distSum X v' ≤ distSum X v := by
  refine ⟨_, geoStep_of cfg hn X v, ?_⟩
  rw [distSum_eq, distSum_eq]
  have hfar' : ∀ i, cfg.eps ≤ rdist X v i := by
    intro i
    have := hfar i
    simp only [pow_two] at this
    exact this
  have hd : ∀ i, 0 < rdist X v i := fun i => lt_of_lt_of_le he (hfar' i)
  have hw : ∀ i, weisW cfg.eps X v i = (rdist X v i)⁻¹ := fun i => if_neg (not_lt.2 (hfar' i))
  set v' := weis cfg.eps X v with hv'
  have hbal : ∀ j, ∑ i, (rdist X v i)⁻¹ * (X i j - v' 0 j) = 0 := by
    intro j
    have := weis_balance he (by omega : 0 < n) X v j
    simpa only [hw] using this
  -- the weighted sum of squares is least at the new point
  have hq : ∑ i, (rdist X v i)⁻¹ * (rdist X v' i * rdist X v' i) ≤ ∑ i, rdist X v i := by
    have e : ∀ i, rdist X v i = (rdist X v i)⁻¹ * (rdist X v' i * rdist X v' i) +
        (∑ j, (2 * (v' 0 j - v 0 j)) * ((rdist X v i)⁻¹ * (X i j - v' 0 j))) +
        (rdist X v i)⁻¹ * ∑ j, (v' 0 j - v 0 j) * (v' 0 j - v 0 j) := by
      intro i
      have h0 : rdist X v i = (rdist X v i)⁻¹ * (rdist X v i * rdist X v i) := by
        rw [inv_mul_cancel_left₀ (hd i).ne']
      conv_lhs => rw [h0]
      rw [rdist_sq, rdist_sq, Finset.mul_sum, Finset.mul_sum, Finset.mul_sum, ← Finset.sum_add_distrib,
        ← Finset.sum_add_distrib]
      refine Finset.sum_congr rfl fun j _ => ?_
      ring
    have e2 : ∑ i, rdist X v i = ∑ i, (rdist X v i)⁻¹ * (rdist X v' i * rdist X v' i) +
        ∑ i, (rdist X v i)⁻¹ * ∑ j, (v' 0 j - v 0 j) * (v' 0 j - v 0 j) := by
      rw [Finset.sum_congr rfl fun i _ => e i, Finset.sum_add_distrib, Finset.sum_add_distrib, Finset.sum_comm (γ := Fin n)]
      simp only [← Finset.mul_sum, hbal, mul_zero, Finset.sum_const_zero, add_zero]
    rw [e2]
    refine le_add_of_nonneg_right (Finset.sum_nonneg fun i _ => mul_nonneg (inv_pos.2 (hd i)).le ?_)
    exact Finset.sum_nonneg fun j _ => mul_self_nonneg _
  have h2 : ∀ i, 2 * rdist X v' i ≤ (rdist X v i)⁻¹ * (rdist X v' i * rdist X v' i) + rdist X v i := by
    intro i
    have h3 := mul_nonneg (inv_pos.2 (hd i)).le (mul_self_nonneg (rdist X v' i - rdist X v i))
    have h4 : (rdist X v i)⁻¹ * ((rdist X v' i - rdist X v i) * (rdist X v' i - rdist X v i)) =
        (rdist X v i)⁻¹ * (rdist X v' i * rdist X v' i) - 2 * rdist X v' i + rdist X v i := by
      have := (hd i).ne'
      field_simp
      ring
    rw [h4] at h3
    linarith
  have h5 := Finset.sum_le_sum fun i (_ : i ∈ (Finset.univ : Finset (Fin n))) => h2 i
  rw [← Finset.mul_sum, Finset.sum_add_distrib] at h5
  linarith

/-- C80 (a point near a row) is violated without the distance condition: the constant `10` that replaces the inverse
distance is not a large weight.  The points 0, 1 and 1 on a line have the geometric median 1, and an iteration standing
on it moves away to `20/21`. -/
theorem C80_violation (cfg : PrmCfg ℝ) (he : 0 < cfg.eps) (he1 : cfg.eps ≤ 1) :
    ∃ (X : Matrix (Fin 3) (Fin 1) ℝ) (v v' : Matrix (Fin 1) (Fin 1) ℝ),
      geoStep cfg (of X) (of v) = .ok (of v') ∧ distSum X v < distSum X v' := by
  have r0 : rdist (!![0; 1; 1] : Matrix (Fin 3) (Fin 1) ℝ) !![1] 0 = 1 := by simp [rdist]
  have r1 : rdist (!![0; 1; 1] : Matrix (Fin 3) (Fin 1) ℝ) !![1] 1 = 0 := by simp [rdist]
  have r2 : rdist (!![0; 1; 1] : Matrix (Fin 3) (Fin 1) ℝ) !![1] 2 = 0 := by simp [rdist]
  have hv : weis cfg.eps (!![0; 1; 1] : Matrix (Fin 3) (Fin 1) ℝ) !![1] = !![20 / 21] := by
    ext i j
    simp only [weis, Matrix.of_apply, Fin.sum_univ_three, weisW, r0, r1, r2, if_pos he, if_neg (not_lt.2 he1)]
    fin_cases i; fin_cases j
    show ((0 : ℝ) * 1⁻¹ + 1 * 10 + 1 * 10) / (1⁻¹ + 10 + 10) = 20 / 21
    norm_num
  refine ⟨!![0; 1; 1], !![1], !![20 / 21], ?_, ?_⟩
  · rw [geoStep_of cfg (by norm_num), hv]
  · have q1 : Real.sqrt ((1 - 20 / 21 : ℝ) ^ 2) = 1 / 21 := by
      rw [Real.sqrt_sq_eq_abs, abs_of_pos] <;> norm_num
    have q0 : Real.sqrt ((0 - 20 / 21 : ℝ) ^ 2) = 20 / 21 := by
      rw [Real.sqrt_sq_eq_abs, abs_of_neg] <;> norm_num
    have t0 : Real.sqrt ((0 - 1 : ℝ) ^ 2) = 1 := by norm_num
    have t1 : Real.sqrt ((1 - 1 : ℝ) ^ 2) = 0 := by norm_num
    unfold distSum
    simp only [Fin.sum_univ_three, Fin.sum_univ_one]
    show Real.sqrt ((0 - 1 : ℝ) ^ 2) + Real.sqrt ((1 - 1 : ℝ) ^ 2) + Real.sqrt ((1 - 1 : ℝ) ^ 2) <
      Real.sqrt ((0 - 20 / 21 : ℝ) ^ 2) + Real.sqrt ((1 - 20 / 21 : ℝ) ^ 2) + Real.sqrt ((1 - 20 / 21 : ℝ) ^ 2)
    rw [q0, q1, t0, t1]
    norm_num

/-! ## C81: wide predictors -/

/-- `np.linalg.svd(A, full_matrices=False)` for a matrix with more rows than columns. -/
structure IsTallSVD (A : Matrix (Fin p) (Fin n) ℝ) (u : Matrix (Fin p) (Fin n) ℝ) (s : Fin n → ℝ)
    (vh : Matrix (Fin n) (Fin n) ℝ) : Prop where
  eq : A = u * diagonal s * vh
  left : uᵀ * u = 1
  right : vh * vhᵀ = 1
  nonneg : ∀ i, 0 ≤ s i
  anti : Antitone s

theorem replace_of (cfg : PrmCfg ℝ) (hn : 0 < n) (hnp : n < p) (X : Matrix (Fin n) (Fin p) ℝ)
    (u : Matrix (Fin p) (Fin n) ℝ) (s : Fin n → ℝ) (vh : Matrix (Fin n) (Fin n) ℝ)
    (hs : cfg.svd (of Xᵀ) = .ok (of u, ofFn (fun (_ : Fin 1) j => s j), of vh)) :
    prmReplace cfg (of X) = .ok (some (of (-u)), of (-(vh * diagonal s))) := by
  unfold prmReplace
  rw [if_pos (show n < p from hnp), transpose_of, hs, except_bind_ok]
  simp only []
  rw [svdS_of n (by omega), except_bind_ok]
  unfold svdV svdU
  rw [smul_of, smul_of, mul_of, except_bind_ok]
  simp

/-- C81 (partial).  For wide data the inner model is trained on `-(Vh·S)`; the coefficients are right for the original
data — the replaced matrix is `X·U` — exactly when `Vh·S` equals `Vhᵀ·S`, in particular for a symmetric `Vh`. -/
theorem C81_partial (cfg : PrmCfg ℝ) (hn : 0 < n) (hnp : n < p) (X : Matrix (Fin n) (Fin p) ℝ)
    (u : Matrix (Fin p) (Fin n) ℝ) (s : Fin n → ℝ) (vh : Matrix (Fin n) (Fin n) ℝ) (h : IsTallSVD Xᵀ u s vh)
    (hs : cfg.svd (of Xᵀ) = .ok (of u, ofFn (fun (_ : Fin 1) j => s j), of vh)) :
    ∃ (U : Matrix (Fin p) (Fin n) ℝ) (X' : Matrix (Fin n) (Fin n) ℝ),
      prmReplace cfg (of X) = .ok (some (of U), of X') ∧
      (X' = X * U ↔ vh * diagonal s = vhᵀ * diagonal s) ∧
      (∀ b : Matrix (Fin n) (Fin 1) ℝ, vh * diagonal s = vhᵀ * diagonal s → X * (U * b) = X' * b) := by
  have hX : X = vhᵀ * diagonal s * uᵀ := by
    have := congrArg Matrix.transpose h.eq
    rw [Matrix.transpose_transpose, Matrix.transpose_mul, Matrix.transpose_mul, Matrix.diagonal_transpose] at this
    rw [this, Matrix.mul_assoc]
  have hXU : X * (-u) = -(vhᵀ * diagonal s) := by
    rw [Matrix.mul_neg, hX, Matrix.mul_assoc, h.left, Matrix.mul_one]
  refine ⟨-u, -(vh * diagonal s), replace_of cfg hn hnp X u s vh hs, ?_, fun b hv => ?_⟩
  · rw [hXU, neg_inj]
  · rw [← Matrix.mul_assoc, hXU, hv]

/-- C81 is violated: two observations of three variables.  The inner model sees a matrix that is not `X·U`, and for the
coefficients `b` it finds, the predictions for the training data differ from the fitted values `X'·b`. -/
theorem C81_violation : ∃ (X : Matrix (Fin 2) (Fin 3) ℝ) (u : Matrix (Fin 3) (Fin 2) ℝ) (s : Fin 2 → ℝ)
    (vh : Matrix (Fin 2) (Fin 2) ℝ) (b : Matrix (Fin 2) (Fin 1) ℝ), IsTallSVD Xᵀ u s vh ∧
    ∀ cfg : PrmCfg ℝ, cfg.svd (of Xᵀ) = .ok (of u, ofFn (fun (_ : Fin 1) j => s j), of vh) →
      ∃ U X', prmReplace cfg (of X) = .ok (some (of U), of X') ∧ X * (U * b) ≠ X' * b := by
  have hu : (!![1, 0; 0, 1; 0, 0] : Matrix (Fin 3) (Fin 2) ℝ)ᵀ * (!![1, 0; 0, 1; 0, 0] : Matrix (Fin 3) (Fin 2) ℝ) = 1 := by
    ext i j
    simp only [Matrix.mul_apply, Matrix.transpose_apply, Fin.sum_univ_three]
    fin_cases i <;> fin_cases j <;> simp
  have hv : (!![3 / 5, 4 / 5; -4 / 5, 3 / 5] : Matrix (Fin 2) (Fin 2) ℝ) * (!![3 / 5, 4 / 5; -4 / 5, 3 / 5] : Matrix (Fin 2) (Fin 2) ℝ)ᵀ = 1 := by
    ext i j
    simp only [Matrix.mul_apply, Matrix.transpose_apply, Fin.sum_univ_two]
    fin_cases i <;> fin_cases j <;> (simp; try norm_num)
  refine ⟨((!![1, 0; 0, 1; 0, 0] : Matrix (Fin 3) (Fin 2) ℝ) * diagonal (![2, 1] : Fin 2 → ℝ) *
      (!![3 / 5, 4 / 5; -4 / 5, 3 / 5] : Matrix (Fin 2) (Fin 2) ℝ))ᵀ,
    !![1, 0; 0, 1; 0, 0], ![2, 1], !![3 / 5, 4 / 5; -4 / 5, 3 / 5], !![1; 0], ⟨?_, hu, hv, ?_, ?_⟩, ?_⟩
  · rw [Matrix.transpose_transpose]
  · intro i
    fin_cases i <;> simp
  · intro i j hij
    fin_cases i <;> fin_cases j <;> simp_all
  · intro cfg hs
    refine ⟨_, _, replace_of cfg (by norm_num) (by norm_num) _ _ _ _ hs, ?_⟩
    rw [← Matrix.mul_assoc, Matrix.mul_neg, Matrix.transpose_mul, Matrix.transpose_mul, Matrix.diagonal_transpose,
      Matrix.mul_assoc, Matrix.mul_assoc, hu, Matrix.mul_one]
    intro h
    have h1 := congrFun (congrFun h 1) 0
    rw [Matrix.mul_apply, Matrix.mul_apply, Fin.sum_univ_two, Fin.sum_univ_two] at h1
    simp only [Matrix.neg_apply, Matrix.mul_diagonal, Matrix.transpose_apply] at h1
    have h2 : -((4 / 5 : ℝ) * 2) * 1 + -((3 / 5 : ℝ) * 1) * 0 = -((-4 / 5 : ℝ) * 2) * 1 + -((3 / 5 : ℝ) * 1) * 0 := h1
    norm_num at h2

/-- **C60.** The case weights reported as `W` are the products of the two weights the model ends with; if those lie in `(0, 1]` so do
the products, and no product exceeds either factor. -/
theorem C60_case_weights (m : PrmModel ℝ) {n : Nat} (A B : Matrix (Fin n) (Fin 1) ℝ) (hA : m.state.Wr = of A) (hB : m.state.Wx = of B)
    (hA' : ∀ i, 0 < A i 0 ∧ A i 0 ≤ 1) (hB' : ∀ i, 0 < B i 0 ∧ B i 0 ≤ 1) :
    ∃ W : Matrix (Fin n) (Fin 1) ℝ, prmW m = .ok (of W) ∧ ∀ i, W i 0 = A i 0 * B i 0 ∧ 0 < W i 0 ∧ W i 0 ≤ A i 0 ∧ W i 0 ≤ B i 0 := by
  unfold prmW
  rw [hA, hB]
  refine ⟨_, mulElementwise_of A B, fun i => ⟨rfl, ?_⟩⟩
  obtain ⟨a1, a2⟩ := hA' i
  obtain ⟨b1, b2⟩ := hB' i
  exact ⟨mul_pos a1 b1, mul_le_of_le_one_right a1.le b2, mul_le_of_le_one_left b1.le a2⟩

/-- Halves and quarters. -/
example : ∃ (m : PrmModel ℝ) (W : Matrix (Fin 2) (Fin 1) ℝ), prmW m = .ok (of W) ∧ W 1 0 = 1 / 8 := by
  obtain ⟨W, h1, h2⟩ := C60_case_weights ⟨⟨of (!![1; 1 / 2] : Matrix (Fin 2) (Fin 1) ℝ), of (!![1; 1 / 4] : Matrix (Fin 2) (Fin 1) ℝ), none,
    of (0 : Matrix (Fin 1) (Fin 1) ℝ), none⟩, 1, of (0 : Matrix (Fin 1) (Fin 1) ℝ)⟩ !![1; 1 / 2] !![1; 1 / 4] rfl rfl
    (fun i => by fin_cases i <;> norm_num) (fun i => by fin_cases i <;> norm_num)
  refine ⟨_, W, h1, ?_⟩
  rw [(h2 1).1]
  norm_num

end real

end Verif.Props
