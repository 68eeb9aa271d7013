import Verif.Props.PrmProps

/-!
# C133: wrong responses cannot carry PRM away

The first pass of `_PRM.py` 221-245 weights every sample by its residual from the median of the responses.  If more than half of
the responses are at most `M` in absolute value, then whatever the other responses are, every weighted response handed to
the inner model is at most `(1 + 2 C) M`.
-/

namespace Verif.Props

open Verif Verif.Mat
open scoped Matrix

/-! ## The median resists a minority -/

section med
variable {K : Type} [Field K] [LinearOrder K]

omit [Field K] in
theorem sorted_upper (s : List K) (hs : s.Pairwise (· ≤ ·)) (b : K) (k : Nat) (hk : k < s.length)
    (h : k < s.countP (fun x => decide (x ≤ b))) : s[k] ≤ b := by
  by_contra hb
  have hp := List.pairwise_iff_getElem.1 hs
  have h0 : (s.drop k).countP (fun x => decide (x ≤ b)) = 0 := by
    refine List.countP_eq_zero.2 fun x hx => ?_
    obtain ⟨i, hi, rfl⟩ := List.mem_iff_getElem.1 hx
    rw [List.length_drop] at hi
    rw [List.getElem_drop, decide_eq_true_eq, not_le]
    rcases Nat.eq_zero_or_pos i with rfl | hik
    · exact not_le.1 hb
    · exact lt_of_lt_of_le (not_le.1 hb) (hp k (k + i) _ _ (by omega))
  have h1 : s.countP (fun x => decide (x ≤ b)) = (s.take k).countP (fun x => decide (x ≤ b)) +
      (s.drop k).countP (fun x => decide (x ≤ b)) := by rw [← List.countP_append, List.take_append_drop]
  have h2 : (s.take k).countP (fun x => decide (x ≤ b)) ≤ (s.take k).length := List.countP_le_length
  rw [List.length_take] at h2
  omega

omit [Field K] in
theorem sorted_lower (s : List K) (hs : s.Pairwise (· ≤ ·)) (a : K) (k : Nat) (hk : k < s.length)
    (h : s.length - s.countP (fun x => decide (a ≤ x)) ≤ k) : a ≤ s[k] := by
  by_contra hb
  have hp := List.pairwise_iff_getElem.1 hs
  have h0 : (s.take (k + 1)).countP (fun x => decide (a ≤ x)) = 0 := by
    refine List.countP_eq_zero.2 fun x hx => ?_
    obtain ⟨i, hi, rfl⟩ := List.mem_iff_getElem.1 hx
    rw [List.length_take] at hi
    rw [List.getElem_take, decide_eq_true_eq, not_le]
    rcases Nat.lt_or_ge i k with hik | hik
    · exact lt_of_le_of_lt (hp i k _ _ hik) (not_le.1 hb)
    · have : i = k := by omega
      subst this
      exact not_le.1 hb
  have h1 : s.countP (fun x => decide (a ≤ x)) = (s.take (k + 1)).countP (fun x => decide (a ≤ x)) +
      (s.drop (k + 1)).countP (fun x => decide (a ≤ x)) := by rw [← List.countP_append, List.take_append_drop]
  have h2 : (s.drop (k + 1)).countP (fun x => decide (a ≤ x)) ≤ (s.drop (k + 1)).length := List.countP_le_length
  rw [List.length_drop] at h2
  omega

omit [Field K] in
theorem mergeSort_sorted (l : List K) : (l.mergeSort fun a b => decide (a ≤ b)).Pairwise (· ≤ ·) := by
  have := List.pairwise_mergeSort (le := fun a b : K => decide (a ≤ b))
    (fun a b c h1 h2 => by simp only [decide_eq_true_eq] at h1 h2 ⊢; exact h1.trans h2)
    (fun a b => by simp only [Bool.or_eq_true, decide_eq_true_eq]; exact le_total a b) l
  exact this.imp fun h => by simpa using h

variable [IsStrictOrderedRing K]

/-- If more than half of the elements lie in an interval, so does the median. -/
theorem median_within (l : List K) (a b : K) (h : l.length < 2 * l.countP (fun x => decide (a ≤ x ∧ x ≤ b))) :
    a ≤ medianList l ∧ medianList l ≤ b := by
  have hperm := List.mergeSort_perm l (fun a b => decide (a ≤ b))
  have hlen : (l.mergeSort (fun a b => decide (a ≤ b))).length = l.length := hperm.length_eq
  have hs := mergeSort_sorted l
  have c1 : l.countP (fun x => decide (a ≤ x ∧ x ≤ b)) ≤
      (l.mergeSort (fun a b => decide (a ≤ b))).countP (fun x => decide (a ≤ x)) := by
    rw [hperm.countP_eq]
    exact List.countP_mono_left fun x _ hx => by
      simp only [decide_eq_true_eq] at hx ⊢
      exact hx.1
  have c2 : l.countP (fun x => decide (a ≤ x ∧ x ≤ b)) ≤
      (l.mergeSort (fun a b => decide (a ≤ b))).countP (fun x => decide (x ≤ b)) := by
    rw [hperm.countP_eq]
    exact List.countP_mono_left fun x _ hx => by
      simp only [decide_eq_true_eq] at hx ⊢
      exact hx.2
  have hc : l.countP (fun x => decide (a ≤ x ∧ x ≤ b)) ≤ l.length := List.countP_le_length
  unfold medianList
  generalize l.mergeSort (fun a b => decide (a ≤ b)) = s at *
  have l1 := sorted_lower s hs a ((l.length - 1) / 2) (by omega) (by omega)
  have l2 := sorted_lower s hs a (l.length / 2) (by omega) (by omega)
  have u1 := sorted_upper s hs b ((l.length - 1) / 2) (by omega) (by omega)
  have u2 := sorted_upper s hs b (l.length / 2) (by omega) (by omega)
  rw [List.getD_eq_getElem?_getD, List.getD_eq_getElem?_getD, List.getElem?_eq_getElem (by omega),
    List.getElem?_eq_getElem (by omega), Option.getD_some, Option.getD_some]
  constructor
  · rw [le_div_iff₀ two_pos, mul_two]
    exact add_le_add l1 l2
  · rw [div_le_iff₀ two_pos, mul_two]
    exact add_le_add u1 u2

/-- Shifting all elements shifts the median. -/
theorem median_shift (l : List K) (c : K) (hl : l ≠ []) : medianList (l.map fun x => x - c) = medianList l - c := by
  have hpos : 0 < l.length := List.length_pos_iff.2 hl
  have e : (l.map fun x => x - c).mergeSort (fun a b => decide (a ≤ b)) =
      (l.mergeSort fun a b => decide (a ≤ b)).map fun x => x - c := by
    refine (List.map_mergeSort fun a _ b _ => ?_).symm
    simp only [sub_le_sub_iff_right]
  have hlen : (l.mergeSort (fun a b => decide (a ≤ b))).length = l.length := List.length_mergeSort l
  unfold medianList
  rw [e, List.length_map]
  generalize l.mergeSort (fun a b => decide (a ≤ b)) = s at *
  have g : ∀ k, k < l.length → (s.map fun x => x - c).getD k 0 = s.getD k 0 - c := by
    intro k hk
    rw [List.getD_eq_getElem?_getD, List.getD_eq_getElem?_getD, List.getElem?_map, List.getElem?_eq_getElem (by omega)]
    rfl
  rw [g _ (by omega), g _ (by omega)]
  ring

end med

/-! ## The first pass -/

/-- `np.median` of a column. -/
def MedCol (med : Mat ℝ → ℝ) : Prop :=
  ∀ (n : Nat) (f : Fin n → ℝ), 0 < n → med (of (Matrix.of fun i (_ : Fin 1) => f i)) = medianList (List.ofFn f)

variable {n : Nat}

/-- The scale of the first residuals: the median absolute deviation of the responses. -/
noncomputable def firstScale (f : Fin n → ℝ) : ℝ := medianList (List.ofFn fun i => |f i - medianList (List.ofFn f)|)

theorem mad_first {cfg : PrmCfg ℝ} (hmed : MedCol cfg.med) (hn : 0 < n) (f : Fin n → ℝ) :
    prmMad cfg (of (Matrix.of fun i (_ : Fin 1) => f i - medianList (List.ofFn f))) = firstScale f := by
  have h0 : cfg.med (of (Matrix.of fun i (_ : Fin 1) => f i - medianList (List.ofFn f))) = 0 := by
    rw [hmed n (fun i => f i - medianList (List.ofFn f)) hn]
    have : List.ofFn (fun i => f i - medianList (List.ofFn f)) = (List.ofFn f).map fun x => x - medianList (List.ofFn f) := by
      rw [List.map_ofFn]
      rfl
    rw [this, median_shift _ _ (fun h => by
      have := congrArg List.length h
      simp at this
      omega), sub_self]
  unfold prmMad
  rw [h0]
  have he : ((of (Matrix.of fun i (_ : Fin 1) => f i - medianList (List.ofFn f))).subScalar 0).abs =
      of (Matrix.of fun i (_ : Fin 1) => |f i - medianList (List.ofFn f)|) := by
    refine mk_congr fun i j => ?_
    show pyAbs (f i - medianList (List.ofFn f) - 0) = _
    rw [sub_zero, pyAbs]
    split
    · rename_i h
      exact (abs_of_neg h).symm
    · rename_i h
      exact (abs_of_nonneg (not_lt.1 h)).symm
  rw [he, hmed n _ hn]
  rfl

theorem first_weights {cfg : PrmCfg ℝ} (hmed : MedCol cfg.med) (hn : 0 < n) (f : Fin n → ℝ) :
    residualWeights cfg n (of (Matrix.of fun i (_ : Fin 1) => f i)) none =
      .ok (of (Matrix.of fun i (_ : Fin 1) => fairSpec ((f i - medianList (List.ofFn f)) / firstScale f) cfg.C)) := by
  have hr := residuals_first cfg hn (Matrix.of fun i (_ : Fin 1) => f i)
  rw [hmed n f hn] at hr
  rw [residualWeights_of cfg hn _ _ _ hr]
  have hs := mad_first hmed hn f
  simp only [Matrix.of_apply]
  rw [hs]
  congr 2
  ext i j
  simp only [Matrix.of_apply]
  have ha : ∀ z : ℝ, pyAbs z = |z| := fun z => by
    rw [pyAbs]
    split
    · rename_i h
      exact (abs_of_neg h).symm
    · rename_i h
      exact (abs_of_nonneg (not_lt.1 h)).symm
  rw [fair, fairSpec, ha]

/-- More than half of the responses are at most `M` in absolute value. -/
def MostWithin (M : ℝ) (f : Fin n → ℝ) : Prop := n < 2 * (List.ofFn f).countP (fun x => decide (|x| ≤ M))

theorem MostWithin.median {M : ℝ} {f : Fin n → ℝ} (h : MostWithin M f) : |medianList (List.ofFn f)| ≤ M := by
  rw [abs_le]
  refine median_within _ _ _ ?_
  rw [List.length_ofFn]
  refine lt_of_lt_of_le h (Nat.mul_le_mul_left 2 (List.countP_mono_left fun x _ hx => ?_))
  simp only [decide_eq_true_eq] at hx ⊢
  exact abs_le.1 hx

theorem MostWithin.scale {M : ℝ} {f : Fin n → ℝ} (h : MostWithin M f) : 0 ≤ firstScale f ∧ firstScale f ≤ 2 * M := by
  refine median_within _ _ _ ?_
  rw [List.length_ofFn]
  have e : (List.ofFn fun i => |f i - medianList (List.ofFn f)|) =
      (List.ofFn f).map fun x => |x - medianList (List.ofFn f)| := by
    rw [List.map_ofFn]
    rfl
  rw [e, List.countP_map]
  refine lt_of_lt_of_le h (Nat.mul_le_mul_left 2 (List.countP_mono_left fun x _ hx => ?_))
  simp only [Function.comp, decide_eq_true_eq] at hx ⊢
  refine ⟨abs_nonneg _, ?_⟩
  have h1 := abs_sub x (medianList (List.ofFn f))
  have h2 := h.median
  linarith

theorem MostWithin.nonneg {M : ℝ} {f : Fin n → ℝ} (h : MostWithin M f) : 0 ≤ M := (abs_nonneg _).trans h.median

/-- The square root of a fair weight. -/
theorem sqrt_fair (z c : ℝ) : Real.sqrt (fairSpec z c) = 1 / (1 + |z / c|) := by
  have h : 0 ≤ 1 + |z / c| := by positivity
  rw [fairSpec, Real.sqrt_div zero_le_one, Real.sqrt_one, Real.sqrt_mul_self h]

/-- **C133.** If more than half of the responses are at most `M` in absolute value then, whatever the other responses are, the
first residual weights lie in `(0, 1]`, a response `y` beyond `M` gets a weight of at most `(2 C M / (|y| - M))^2`, and every
response handed to the inner model of the first pass is at most `(1 + 2 C) M` in absolute value. -/
theorem C133_bounded {cfg : PrmCfg ℝ} (hmed : MedCol cfg.med) (hC : 0 < cfg.C) (hn : 2 ≤ n) {M : ℝ} (f : Fin n → ℝ)
    (hf : MostWithin M f) (hs : firstScale f ≠ 0) (Wx : Matrix (Fin n) (Fin 1) ℝ) (hx : ∀ i, 0 ≤ Wx i 0 ∧ Wx i 0 ≤ 1) :
    ∃ Wr yw : Matrix (Fin n) (Fin 1) ℝ,
      residualWeights cfg n (of (Matrix.of fun i (_ : Fin 1) => f i)) none = .ok (of Wr) ∧
      (∀ i, 0 < Wr i 0 ∧ Wr i 0 ≤ 1) ∧
      (∀ i, M < |f i| → Wr i 0 ≤ (2 * cfg.C * M / (|f i| - M)) ^ 2) ∧
      reweight (of Wr) (of Wx) (of (Matrix.of fun i (_ : Fin 1) => f i)) = .ok (of yw) ∧
      ∀ i, |yw i 0| ≤ (1 + 2 * cfg.C) * M := by
  have hs0 : 0 < firstScale f := lt_of_le_of_ne hf.scale.1 hs.symm
  have hm := hf.median
  have hM := hf.nonneg
  refine ⟨_, _, first_weights hmed (by omega) f, fun i => fairSpec_pos _ _, fun i hi => ?_, reweight_of hn _ _ _, fun i => ?_⟩
  · simp only [Matrix.of_apply]
    set r := f i - medianList (List.ofFn f) with hr
    have h1 : |f i| - M ≤ |r| := by
      have := abs_sub_abs_le_abs_sub (f i) (medianList (List.ofFn f))
      rw [← hr] at this
      linarith
    have h2 : 0 < |f i| - M := sub_pos.2 hi
    have h3 : 1 / (1 + |r / firstScale f / cfg.C|) ≤ 2 * cfg.C * M / (|f i| - M) := by
      rw [abs_div, abs_div, abs_of_pos hs0, abs_of_pos hC, div_div]
      have hsc : 0 < firstScale f * cfg.C := mul_pos hs0 hC
      have h4 : 1 / (1 + |r| / (firstScale f * cfg.C)) ≤ firstScale f * cfg.C / |r| := by
        rw [one_div_le (by positivity) (div_pos hsc (lt_of_lt_of_le h2 h1)), one_div_div]
        linarith
      refine h4.trans (div_le_div₀ (by positivity) ?_ h2 h1)
      nlinarith [hf.scale.2]
    have h5 : fairSpec (r / firstScale f) cfg.C = (1 / (1 + |r / firstScale f / cfg.C|)) ^ 2 := by
      rw [fairSpec, div_pow, one_pow, pow_two]
    rw [h5]
    exact pow_le_pow_left₀ (by positivity) h3 2
  · simp only [Matrix.of_apply]
    set r := f i - medianList (List.ofFn f) with hr
    have h1 : Real.sqrt (fairSpec (r / firstScale f) cfg.C * Wx i 0) ≤ 1 / (1 + |r / firstScale f / cfg.C|) := by
      rw [← sqrt_fair]
      exact Real.sqrt_le_sqrt (mul_le_of_le_one_right (fairSpec_pos _ _).1.le (hx i).2)
    have h2 : |f i| ≤ M + |r| := by
      have : f i = medianList (List.ofFn f) + r := by rw [hr]; ring
      rw [this]
      exact (abs_add_le _ _).trans (by linarith)
    rw [abs_mul, abs_of_nonneg (Real.sqrt_nonneg _)]
    refine (mul_le_mul h2 h1 (Real.sqrt_nonneg _) (by positivity)).trans ?_
    rw [abs_div, abs_div, abs_of_pos hs0, abs_of_pos hC, div_div, mul_one_div]
    have hsc : 0 < firstScale f * cfg.C := mul_pos hs0 hC
    rw [div_le_iff₀ (by positivity)]
    have h3 : |r| ≤ 2 * cfg.C * M * (1 + |r| / (firstScale f * cfg.C)) := by
      have h4 : firstScale f * cfg.C ≤ 2 * cfg.C * M := by nlinarith [hf.scale.2]
      have h5 : |r| ≤ firstScale f * cfg.C * (1 + |r| / (firstScale f * cfg.C)) := by
        rw [mul_add, mul_div_cancel₀ _ hsc.ne']
        linarith
      exact h5.trans (mul_le_mul_of_nonneg_right h4 (by positivity))
    have h6 : M ≤ M * (1 + |r| / (firstScale f * cfg.C)) := le_mul_of_one_le_right hM (le_add_of_nonneg_right (by positivity))
    nlinarith

/-- **C133 (the model).** A model trained in one pass predicts with the coefficients of an inner model that was trained on responses
of at most `(1 + 2 C) M`, whatever the minority of the responses are, and on predictors no larger than the given ones. -/
theorem C133_model {p : Nat} {cfg : PrmCfg ℝ} (hmed : MedCol cfg.med) (hC : 0 < cfg.C) (he : 0 < cfg.eps) (hn : 2 ≤ n)
    (hpn : p ≤ n) (A : Matrix (Fin n) (Fin p) ℝ) {M : ℝ} (f : Fin n → ℝ) (hf : MostWithin M f) (hs : firstScale f ≠ 0)
    (_hlev : ∀ v, geoMedian cfg (of A) = .ok (of v) → cfg.med (of (distM A v)) ≠ 0) {m : PrmModel ℝ}
    (h : prmTrain cfg (of A) (of (Matrix.of fun i (_ : Fin 1) => f i)) = .ok m) (h1 : m.iterations = 1) :
    ∃ (A' : Matrix (Fin n) (Fin p) ℝ) (b : Matrix (Fin n) (Fin 1) ℝ) (base : PrmBase ℝ),
      cfg.base (of A') (of b) = .ok base ∧ (∀ Z, prmPredict m Z = Z.mul base.B) ∧ (∀ i j, |A' i j| ≤ |A i j|) ∧
      ∀ i, |b i 0| ≤ (1 + 2 * cfg.C) * M := by
  obtain ⟨v, -, -, hl⟩ := leverage_ok cfg he hn A
  set Wx := fairM (distM A v) (cfg.med (of (distM A v))) cfg.C with hWx
  have hx : ∀ i, 0 ≤ Wx i 0 ∧ Wx i 0 ≤ 1 := by
    intro i
    have ha : ∀ z : ℝ, pyAbs z = |z| := fun z => by
      rw [pyAbs]
      split
      · rename_i h
        exact (abs_of_neg h).symm
      · rename_i h
        exact (abs_of_nonneg (not_lt.1 h)).symm
    have e : Wx i 0 = fairSpec (distM A v i 0 / cfg.med (of (distM A v))) cfg.C := by
      rw [hWx]
      simp only [fairM, Matrix.of_apply, fair, fairSpec, ha]
    rw [e]
    exact ⟨(fairSpec_pos _ _).1.le, (fairSpec_pos _ _).2⟩
  obtain ⟨Wr, yw, e1, e2, -, e4, e5⟩ := C133_bounded hmed hC hn f hf hs Wx hx
  unfold prmTrain prmReplace at h
  rw [if_neg (show ¬ n < p by omega), except_bind_ok] at h
  simp only [] at h
  rw [e1, except_bind_ok, hl, except_bind_ok] at h
  cases h4 : prmLoop cfg (of A) (of (Matrix.of fun i (_ : Fin 1) => f i)) (of Wr) (of Wx) with
  | error e => rw [h4] at h; cases h
  | ok s =>
  rw [h4, except_bind_ok] at h
  cases h5 : prmCoefs none s.1.base with
  | error e => rw [h5] at h; cases h
  | ok B =>
  rw [h5, except_bind_ok] at h
  cases h
  unfold prmLoop at h4
  cases h6 : Factory.zeros (α := ℝ) cfg.K 1 with
  | error e => rw [h6] at h4; cases h4
  | ok g =>
  rw [h6, except_bind_ok] at h4
  cases h7 : prmPass cfg (of A) (of (Matrix.of fun i (_ : Fin 1) => f i)) ⟨of Wr, of Wx, none, g, none⟩ with
  | error e => rw [h7] at h4; cases h4
  | ok s1 =>
  rw [h7, except_bind_ok, prmMore] at h4
  cases h8 : s1.gamma.sub g with
  | error e => rw [h8] at h4; cases h4
  | ok d =>
  rw [h8, except_bind_ok] at h4
  have hs1 : s.1 = s1 := by
    split at h4
    · cases h9 : prmPass cfg (of A) (of (Matrix.of fun i (_ : Fin 1) => f i)) s1 with
      | error e => rw [h9] at h4; cases h4
      | ok s2 =>
        rw [h9, except_bind_ok] at h4
        have := (prmMore_bound cfg _ _ _ (1 + 1) rfl _ _ s.1 s.2 h4).1
        simp only [] at h1
        omega
    · cases h4
      rfl
  unfold prmPass at h7
  simp only [] at h7
  rw [reweight_of hn Wr Wx A, except_bind_ok, e4, except_bind_ok] at h7
  cases h10 : cfg.base (of (Matrix.of fun i j => A i j * Real.sqrt (Wr i 0 * Wx i 0))) (of yw) with
  | error e => rw [h10] at h7; cases h7
  | ok b =>
  rw [h10, except_bind_ok] at h7
  have hb : s1.base = some b := by
    revert h7
    generalize loopM (rescaleRow (of Wr) (of Wx)) (pyRange 0 (b.T.rows : Int)) b.T = r1
    cases r1 with
    | error e => intro h7; cases h7
    | ok T =>
      rw [except_bind_ok]
      generalize residualWeights cfg _ (of yw) (some (T, b.Q.transpose)) = r2
      cases r2 with
      | error e => intro h7; cases h7
      | ok W1 =>
        rw [except_bind_ok]
        generalize leverageWeights cfg T = r3
        cases r3 with
        | error e => intro h7; cases h7
        | ok W2 =>
          rw [except_bind_ok]
          intro h7
          cases h7
          rfl
  rw [hs1, hb] at h5
  refine ⟨_, yw, b, h10, fun Z => ?_, fun i j => ?_, e5⟩
  · cases h5
    rfl
  · simp only [Matrix.of_apply]
    rw [abs_mul, abs_of_nonneg (Real.sqrt_nonneg _)]
    refine mul_le_of_le_one_right (abs_nonneg _) (Real.sqrt_le_one.2 ?_)
    exact mul_le_one₀ (e2 i).2 (hx i).1 (hx i).2

theorem median_pair {a b : ℝ} (h : a ≤ b) : medianList [a, b] = (a + b) / 2 := by
  simp [medianList, List.mergeSort, h]

/-- **C133 (limits).** Half of the responses are enough to break the bound: with the responses `0` and `R` the second one reaches the
inner model as `R C / (1 + C)`, however large `R` is. -/
theorem C133_half_limits {cfg : PrmCfg ℝ} (hmed : MedCol cfg.med) (hC : 0 < cfg.C) {R : ℝ} (hR : 0 < R) :
    ∃ Wr : Matrix (Fin 2) (Fin 1) ℝ,
      residualWeights cfg 2 (of (Matrix.of fun i (_ : Fin 1) => (![0, R] : Fin 2 → ℝ) i)) none = .ok (of Wr) ∧
      reweight (of Wr) (of (Matrix.of fun (_ : Fin 2) (_ : Fin 1) => (1 : ℝ))) (of (Matrix.of fun i (_ : Fin 1) => (![0, R] : Fin 2 → ℝ) i)) =
        .ok (of (!![0; R * cfg.C / (1 + cfg.C)] : Matrix (Fin 2) (Fin 1) ℝ)) := by
  refine ⟨_, first_weights hmed (by omega) _, ?_⟩
  rw [reweight_of (by omega)]
  have m1 : medianList (List.ofFn (![0, R] : Fin 2 → ℝ)) = R / 2 := by
    have : List.ofFn (![0, R] : Fin 2 → ℝ) = [0, R] := by simp [List.ofFn_succ]
    rw [this, median_pair hR.le]
    ring
  have s1 : firstScale (![0, R] : Fin 2 → ℝ) = R / 2 := by
    have : (List.ofFn fun i => |(![0, R] : Fin 2 → ℝ) i - medianList (List.ofFn (![0, R] : Fin 2 → ℝ))|) = [R / 2, R / 2] := by
      rw [m1]
      simp only [List.ofFn_succ, List.ofFn_zero, Matrix.cons_val_zero, Matrix.cons_val_succ]
      rw [zero_sub, abs_neg, abs_of_pos (half_pos hR), show R - R / 2 = R / 2 by ring, abs_of_pos (half_pos hR)]
    rw [firstScale, this, median_pair le_rfl]
    ring
  congr 2
  ext i j
  fin_cases i <;> fin_cases j
  · simp
  · simp only [Matrix.of_apply, m1, s1, mul_one]
    show R * Real.sqrt (fairSpec ((R - R / 2) / (R / 2)) cfg.C) = R * cfg.C / (1 + cfg.C)
    rw [sqrt_fair, show R - R / 2 = R / 2 by ring, div_self (half_pos hR).ne', abs_of_pos (by positivity)]
    field_simp
    ring

/-! ## A concrete case -/

/-- Two of three responses within one. -/
theorem most_example (R : ℝ) : MostWithin 1 (![1, -1, R] : Fin 3 → ℝ) := by
  have : List.ofFn (![1, -1, R] : Fin 3 → ℝ) = [1, -1, R] := by simp [List.ofFn_succ]
  rw [MostWithin, this]
  simp only [List.countP_cons, List.countP_nil]
  simp
  split <;> omega

theorem scale_example {R : ℝ} (hR : 3 ≤ R) : firstScale (![1, -1, R] : Fin 3 → ℝ) = 2 := by
  have m1 : medianList (List.ofFn (![1, -1, R] : Fin 3 → ℝ)) = 1 := by
    have : List.ofFn (![1, -1, R] : Fin 3 → ℝ) = [1, -1, R] := by simp [List.ofFn_succ]
    rw [this]
    have h : (1 : ℝ) ≤ R := by linarith
    have h2 : ¬ (1 : ℝ) ≤ -1 := by norm_num
    have h3 : (-1 : ℝ) ≤ R := by linarith
    simp [medianList, List.mergeSort, h, h2, h3]
  rw [firstScale, m1]
  have : (List.ofFn fun i => |(![1, -1, R] : Fin 3 → ℝ) i - 1|) = [0, 2, R - 1] := by
    simp only [List.ofFn_succ, List.ofFn_zero, Matrix.cons_val_zero, Matrix.cons_val_succ]
    rw [sub_self, abs_zero, show (-1 - 1 : ℝ) = -2 by norm_num, abs_neg, abs_two, abs_of_nonneg (by linarith : (0 : ℝ) ≤ R - 1)]
  rw [this]
  have h : (2 : ℝ) ≤ R - 1 := by linarith
  have h1 : (1 : ℝ) ≤ R := by linarith
  simp [medianList, List.mergeSort, h, h1]

/-- The code's median as an option of the configuration. -/
noncomputable def medCfg : PrmCfg ℝ :=
  { prmDemo 1 with med := fun M => medianList (List.ofFn fun i : Fin M.rows => if h : 0 < M.cols then M.data i ⟨0, h⟩ else 0) }

theorem medCfg_med : MedCol medCfg.med := by
  intro n f _
  simp [medCfg, of]

/-- A response of a million, or any other value, counts for at most nine. -/
example {R : ℝ} (hR : 3 ≤ R) :=
  C133_bounded medCfg_med (by norm_num [medCfg, prmDemo]) (by omega) (![1, -1, R] : Fin 3 → ℝ) (most_example R) (by rw [scale_example hR]; norm_num)
    (Matrix.of fun _ _ => 1) (fun _ => ⟨zero_le_one, le_rfl⟩)

end Verif.Props
