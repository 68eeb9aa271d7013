import Verif.Alg.SparsePLS
import Verif.Props.NipalsProps
import Verif.Alg.NipalsPls1
import Verif.Props.PrmProps
import Mathlib.Tactic.Linarith

/-!
# C61, C82, C83 — SparsePLS
-/

set_option linter.unusedSimpArgs false
set_option linter.unusedSectionVars false

namespace Verif.Props
open Verif Verif.Mat Transf
open scoped Matrix

/-! ## C61: the direction vector -/

/-- Soft thresholding: `x` moved towards zero by `t`. -/
noncomputable def soft (x t : ℝ) : ℝ := max (x - t) 0 - max (-x - t) 0

theorem soft_eq (x t : ℝ) (ht : 0 ≤ t) : soft x t = if 0 ≤ |x| - t then (|x| - t) * sgn x else 0 := by
  unfold soft sgn
  rcases lt_trichotomy x 0 with h | h | h
  · rw [abs_of_neg h, if_pos h, max_eq_right (by linarith : x - t ≤ 0)]
    split
    · rename_i h2
      rw [max_eq_left h2]
      ring
    · rename_i h2
      rw [max_eq_right (le_of_lt (not_le.1 h2))]
      ring
  · subst h
    simp only [abs_zero, lt_irrefl, if_false, mul_zero, neg_zero, sub_self]
    split <;> simp
  · rw [abs_of_pos h, if_neg (not_lt.2 h.le), if_pos h, max_eq_right (by linarith : -x - t ≤ 0)]
    split
    · rename_i h2
      rw [max_eq_left h2]
      ring
    · rename_i h2
      rw [max_eq_right (le_of_lt (not_le.1 h2))]
      ring

theorem soft_div (x t s : ℝ) (hs : 0 < s) : soft (x / s) (t / s) = soft x t / s := by
  unfold soft
  have h1 : max (x / s - t / s) 0 = max (x - t) 0 / s := by
    rw [← sub_div, ← max_div_div_right hs.le, zero_div]
  have h2 : max (-(x / s) - t / s) 0 = max (-x - t) 0 / s := by
    rw [← neg_div, ← sub_div, ← max_div_div_right hs.le, zero_div]
  rw [h1, h2, sub_div]

/-- `np.amax` of a column of numbers. -/
def IsAmax (amax : Mat ℝ → ℝ) : Prop :=
  ∀ {p : Nat}, 0 < p → ∀ f : Fin p → ℝ, ∃ k, amax (of (Matrix.of fun i (_ : Fin 1) => f i)) = f k ∧ ∀ i, f i ≤ f k

theorem pyAbs_real (x : ℝ) : pyAbs x = |x| := by
  unfold pyAbs
  split
  · rename_i h; rw [abs_of_neg h]
  · rename_i h; rw [abs_of_nonneg (not_lt.1 h)]

theorem geZero_real {isZero : ℝ → Bool} (hz : ∀ x, isZero x = true ↔ x = 0) (d : ℝ) : geZero isZero d = true ↔ 0 ≤ d := by
  unfold geZero
  rw [Bool.or_eq_true, decide_eq_true_eq, hz, le_iff_lt_or_eq, eq_comm]

theorem spC_real (cfg : SpCfg ℝ) (hz : ∀ x, cfg.isZero x = true ↔ x = 0) {p : Nat} (zs : Matrix (Fin p) (Fin 1) ℝ) (M : ℝ)
    (h : 0 ≤ cfg.lam * M) : spC cfg zs M = Matrix.of fun i (_ : Fin 1) => soft (zs i 0) (cfg.lam * M) := by
  ext i j
  simp only [spC, Matrix.of_apply, soft_eq _ _ h, geZero_real hz, pyAbs_real]

section real
variable {n p q r : Nat}

/-- The largest absolute value of the column `z` is that of entry `k`. -/
def IsTop (z : Matrix (Fin p) (Fin 1) ℝ) (k : Fin p) : Prop := ∀ i, |z i 0| ≤ |z k 0|

theorem spDirection_real (cfg : SpCfg ℝ) (hz : ∀ x, cfg.isZero x = true ↔ x = 0) (hmax : IsAmax cfg.amax) (hp : 0 < p)
    (hl : 0 ≤ cfg.lam) (z : Matrix (Fin p) (Fin 1) ℝ) (s : ℝ) (hs : cfg.med (of (absM z)) = s) (hs0 : 0 < s) :
    ∃ k, IsTop z k ∧ spShrink cfg (of z) = .ok (of (Matrix.of fun i (_ : Fin 1) =>
      soft (z i 0) (cfg.lam * |z k 0|) / s / (∑ j, soft (z j 0) (cfg.lam * |z k 0|) ^ 2 / s ^ 2))) := by
  rw [spShrink_of cfg hp, hs]
  obtain ⟨k, hk, htop⟩ := hmax hp fun i => |z i 0| / s
  have habs : absM (divM z s) = Matrix.of fun i (_ : Fin 1) => |z i 0| / s := by
    ext i j
    simp only [absM, divM, Matrix.of_apply, pyAbs_real, abs_div, abs_of_pos hs0]
  have htop' : IsTop z k := fun i => (div_le_div_iff_of_pos_right hs0).1 (htop i)
  refine ⟨k, htop', ?_⟩
  rw [habs, hk, spC_real cfg hz _ _ (mul_nonneg hl (div_nonneg (abs_nonneg _) hs0.le))]
  have e : (Matrix.of fun i (_ : Fin 1) => soft (divM z s i 0) (cfg.lam * (|z k 0| / s))) =
      Matrix.of fun i (_ : Fin 1) => soft (z i 0) (cfg.lam * |z k 0|) / s := by
    ext i j
    simp only [Matrix.of_apply, divM, ← mul_div_assoc]
    exact soft_div _ _ _ hs0
  rw [e, norm2Squared_col, div_of, ok_inj]
  refine mk_congr fun i j => ?_
  show _ / s / sq1 _ = _ / s / _
  congr 1
  unfold sq1
  refine Finset.sum_congr rfl fun l _ => ?_
  simp only [Matrix.of_apply]
  ring

theorem soft_top (x t : ℝ) (h : t < |x|) : soft x t ≠ 0 ∨ t < 0 := by
  by_cases ht : 0 ≤ t
  · left
    rw [soft_eq x t ht, if_pos (by linarith)]
    have hx : x ≠ 0 := by
      rintro rfl
      rw [abs_zero] at h
      linarith
    refine mul_ne_zero (by linarith) ?_
    unfold sgn
    rcases lt_or_gt_of_ne hx with h1 | h1
    · rw [if_pos h1]; norm_num
    · rw [if_neg (not_lt.2 h1.le), if_pos h1]; norm_num
  · exact Or.inr (not_le.1 ht)

/-- C61 (direction, partial: the vector is soft-thresholded but not of unit norm).  With `z = Xᵀ·y`, a threshold
`λ < 1` and a positive median `s` of the absolute values of `z`, the direction vector is a positive multiple of `z`
soft-thresholded at `λ·max|z|`; its squared norm is `s²` over the squared norm of the thresholded vector, and the
entries that remain are those with `|zᵢ| > λ·max|z|`. -/
theorem C61_direction_partial (cfg : SpCfg ℝ) (hz : ∀ x, cfg.isZero x = true ↔ x = 0) (hmax : IsAmax cfg.amax) (hp : 0 < p)
    (hl : 0 ≤ cfg.lam) (hl1 : cfg.lam < 1) (X : Matrix (Fin n) (Fin p) ℝ) (y : Matrix (Fin n) (Fin 1) ℝ) (s : ℝ)
    (hs : cfg.med (of (Matrix.of fun i (_ : Fin 1) => |(Xᵀ * y) i 0|)) = s) (hs0 : 0 < s) (hz0 : Xᵀ * y ≠ 0) :
    ∃ (w : Matrix (Fin p) (Fin 1) ℝ) (k : Fin p) (c : ℝ), spDirection cfg (of X) (of y) = .ok (of w) ∧
      (∀ i, |(Xᵀ * y) i 0| ≤ |(Xᵀ * y) k 0|) ∧ 0 < c ∧
      (∀ i, w i 0 = c * soft ((Xᵀ * y) i 0) (cfg.lam * |(Xᵀ * y) k 0|)) ∧
      ∑ i, w i 0 ^ 2 = s ^ 2 / ∑ i, soft ((Xᵀ * y) i 0) (cfg.lam * |(Xᵀ * y) k 0|) ^ 2 ∧
      (∀ i, w i 0 ≠ 0 ↔ cfg.lam * |(Xᵀ * y) k 0| < |(Xᵀ * y) i 0|) := by
  have hs' : cfg.med (of (absM (Xᵀ * y))) = s := by
    rw [← hs]
    congr 1
    refine mk_congr fun i j => ?_
    exact pyAbs_real _
  obtain ⟨k, hk, hd⟩ := spDirection_real cfg hz hmax hp hl (Xᵀ * y) s hs' hs0
  set t := cfg.lam * |(Xᵀ * y) k 0| with ht
  have hk0 : 0 < |(Xᵀ * y) k 0| := by
    rcases lt_or_eq_of_le (abs_nonneg ((Xᵀ * y) k 0)) with h | h
    · exact h
    · exfalso
      apply hz0
      ext i j
      rw [Subsingleton.elim j 0]
      have := hk i
      rw [← h] at this
      exact abs_eq_zero.1 (le_antisymm this (abs_nonneg _))
  have ht0 : 0 ≤ t := mul_nonneg hl (abs_nonneg _)
  have htk : t < |(Xᵀ * y) k 0| := by
    rw [ht]
    nlinarith
  have hN : 0 < ∑ i, soft ((Xᵀ * y) i 0) t ^ 2 := by
    refine Finset.sum_pos' (fun i _ => sq_nonneg _) ⟨k, Finset.mem_univ k, ?_⟩
    rcases soft_top _ _ htk with h | h
    · positivity
    · exact absurd ht0 (not_le.2 h)
  have hw : ∀ i, soft ((Xᵀ * y) i 0) t / s / (∑ j, soft ((Xᵀ * y) j 0) t ^ 2 / s ^ 2) =
      s / (∑ i, soft ((Xᵀ * y) i 0) t ^ 2) * soft ((Xᵀ * y) i 0) t := by
    intro i
    rw [← Finset.sum_div]
    have := hN.ne'
    field_simp
  refine ⟨Matrix.of fun i (_ : Fin 1) => soft ((Xᵀ * y) i 0) t / s / (∑ j, soft ((Xᵀ * y) j 0) t ^ 2 / s ^ 2), k,
    s / (∑ i, soft ((Xᵀ * y) i 0) t ^ 2), ?_, hk, div_pos hs0 hN, fun i => hw i, ?_, fun i => ?_⟩
  · unfold spDirection
    rw [transpose_of, mul_of, except_bind_ok, hd]
  · rw [← ht]
    simp only [Matrix.of_apply, hw, mul_pow, ← Finset.mul_sum]
    have := hN.ne'
    field_simp
  · simp only [Matrix.of_apply, hw]
    rw [mul_ne_zero_iff]
    constructor
    · rintro ⟨_, h⟩
      by_contra hc
      apply h
      rw [soft_eq _ _ ht0]
      split
      · rename_i h2
        have : |(Xᵀ * y) i 0| - t = 0 := le_antisymm (by linarith [not_lt.1 hc]) h2
        rw [this, zero_mul]
      · rfl
    · intro h
      exact ⟨(div_pos hs0 hN).ne', (soft_top _ _ h).resolve_right (not_lt.2 ht0)⟩

/-- The hypotheses can be met: `np.amax`-like and median-like routines exist. -/
noncomputable def spDemo (lam : ℝ) (med : Mat ℝ → ℝ) (amax : Mat ℝ → ℝ) : SpCfg ℝ where
  K := 1
  lam := lam
  thr := 1 / 10 ^ 6
  isZero := fun x => by classical exact decide (x = 0)
  med := med
  amax := amax
  nip := fun _ _ _ => .error .valueError

/-- C61 (norm) is violated: two equally correlated variables, no sparsity.  The direction vector is (1/2, 1/2), of
squared norm 1/2. -/
theorem C61_norm_violation (med amax : Mat ℝ → ℝ) (hmed : ∀ p (f : Fin p → ℝ) (a : ℝ), 0 < p → (∀ i, f i = a) →
    med (of (Matrix.of fun i (_ : Fin 1) => f i)) = a) (hmax : IsAmax amax) :
    ∃ (X : Matrix (Fin 2) (Fin 2) ℝ) (y : Matrix (Fin 2) (Fin 1) ℝ) (w : Matrix (Fin 2) (Fin 1) ℝ),
      spDirection (spDemo 0 med amax) (of X) (of y) = .ok (of w) ∧ ∑ i, w i 0 ^ 2 = 1 / 2 := by
  have hv : ((!![2, 0; 0, 2] : Matrix (Fin 2) (Fin 2) ℝ)ᵀ * (!![1; 1] : Matrix (Fin 2) (Fin 1) ℝ)) = !![2; 2] := by
    ext i j
    simp only [Matrix.mul_apply, Matrix.transpose_apply, Fin.sum_univ_two]
    fin_cases i <;> fin_cases j <;> simp
  have hi : ∀ i : Fin 2, (!![2; 2] : Matrix (Fin 2) (Fin 1) ℝ) i 0 = 2 := by
    intro i
    fin_cases i <;> rfl
  obtain ⟨w, k, c, h1, _, _, _, h2, _⟩ := C61_direction_partial (spDemo 0 med amax) (fun x => by simp [spDemo]) hmax
    (by norm_num : 0 < 2) (le_refl _) (by norm_num [spDemo]) (!![2, 0; 0, 2] : Matrix (Fin 2) (Fin 2) ℝ)
    (!![1; 1] : Matrix (Fin 2) (Fin 1) ℝ) 2 (hmed 2 _ 2 (by norm_num) (fun i => by rw [hv, hi]; norm_num)) (by norm_num)
    (by
      rw [hv]
      intro h
      have := congrFun (congrFun h 0) 0
      rw [hi] at this
      norm_num at this)
  refine ⟨_, _, w, h1, h2.trans ?_⟩
  rw [hv]
  simp only [hi, spDemo, Fin.sum_univ_two, zero_mul]
  norm_num [soft]

/-! ## C61: sparsity parameter one or more -/

/-- `np.amax` of a column: the largest of finite numbers; NaN as soon as an entry is NaN. -/
structure IsAmaxX (amax : Mat (X ℝ) → X ℝ) : Prop where
  fin : ∀ {p : Nat}, 0 < p → ∀ f : Fin p → ℝ,
    ∃ k, amax (of (Matrix.of fun i (_ : Fin 1) => X.fin (f i))) = X.fin (f k) ∧ ∀ i, f i ≤ f k
  nan : ∀ {p : Nat} (M : Matrix (Fin p) (Fin 1) (X ℝ)) (i : Fin p), M i 0 = X.nan → amax (of M) = X.nan

theorem spC_zero_nan (cfg : SpCfg (X ℝ)) (zs : Matrix (Fin p) (Fin 1) (X ℝ)) (M : X ℝ)
    (h : spC cfg zs M = Matrix.of fun (_ : Fin p) (_ : Fin 1) => X.fin 0) :
    (of (spC cfg zs M)).div (of (spC cfg zs M)).norm2Squared = of (Matrix.of fun (_ : Fin p) (_ : Fin 1) => X.nan) := by
  have hs : (of (spC cfg zs M)).sumSq = X.fin 0 := by
    rw [h]
    unfold sumSq
    show (sumFin fun _ : Fin p => sumFin fun _ : Fin 1 => (X.fin 0 * X.fin 0 : X ℝ)) = _
    simp only [X.fin_mul, X.sumFin_fin]
    congr 1
    simp [sumFin_eq]
  have hn : (of (spC cfg zs M)).norm2Squared = X.fin 0 := by
    have h1 : (of (spC cfg zs M)).norm2 = X.fin 0 := by
      unfold norm2
      rw [hs, if_pos (by simp [isVector])]
      show (if (0 : ℝ) < 0 then X.nan else X.fin (Real.sqrt 0)) = X.fin 0
      rw [if_neg (lt_irrefl _), Real.sqrt_zero]
    unfold norm2Squared
    rw [h1, X.fin_mul, zero_mul]
  rw [hn, h]
  refine mk_congr fun i j => ?_
  show (X.fin 0 / X.fin 0 : X ℝ) = X.nan
  rw [X.fin_div_zero, X.signedInf_zero]

theorem pyAbs_nan : pyAbs (X.nan : X ℝ) = X.nan := rfl

/-- C61 (lambda) is violated: the setter accepts every `lambda >= 0`, but from 1 on the thresholded vector is zero and
the direction vector consists of NaN only, whatever the data. -/
theorem C61_lambda_violation (cfg : SpCfg (X ℝ)) (hz : ∀ x : ℝ, cfg.isZero (X.fin x) = true ↔ x = 0)
    (hmax : IsAmaxX cfg.amax) (hp : 0 < p) (l : ℝ) (hl : cfg.lam = X.fin l) (hl1 : 1 ≤ l) (z : Fin p → ℝ) (s : ℝ)
    (hs : cfg.med (of (Matrix.of fun i (_ : Fin 1) => X.fin |z i|)) = X.fin s) (hs0 : 0 < s) :
    spShrink cfg (of (Matrix.of fun i (_ : Fin 1) => X.fin (z i))) =
      .ok (of (Matrix.of fun (_ : Fin p) (_ : Fin 1) => X.nan)) := by
  have ha : absM (Matrix.of fun i (_ : Fin 1) => X.fin (z i)) = Matrix.of fun i (_ : Fin 1) => X.fin |z i| := by
    ext i j
    exact pyAbs_fin (z i)
  rw [spShrink_of cfg hp, ha, hs]
  obtain ⟨k, hk, htop⟩ := hmax.fin hp fun i => |z i| / s
  have hd : divM (Matrix.of fun i (_ : Fin 1) => X.fin (z i)) (X.fin s) =
      Matrix.of fun i (_ : Fin 1) => X.fin (z i / s) := by
    ext i j
    exact X.fin_div _ hs0.ne'
  have ha2 : absM (Matrix.of fun i (_ : Fin 1) => X.fin (z i / s)) = Matrix.of fun i (_ : Fin 1) => X.fin (|z i| / s) := by
    ext i j
    show pyAbs (X.fin (z i / s)) = X.fin (|z i| / s)
    rw [pyAbs_fin, abs_div, abs_of_pos hs0]
  rw [hd, ha2, hk, ok_inj]
  apply spC_zero_nan
  ext i j
  show (if geZero cfg.isZero (pyAbs (X.fin (z i / s)) - cfg.lam * X.fin (|z k| / s)) then
    (pyAbs (X.fin (z i / s)) - cfg.lam * X.fin (|z k| / s)) * sgn (X.fin (z i / s)) else 0) = X.fin 0
  rw [hl, pyAbs_fin, X.fin_mul, X.fin_sub, abs_div, abs_of_pos hs0]
  have hle : |z i| / s - l * (|z k| / s) ≤ 0 := by
    have h0 : 0 ≤ |z k| / s := div_nonneg (abs_nonneg _) hs0.le
    have := htop i
    nlinarith
  rcases lt_or_eq_of_le hle with h | h
  · rw [if_neg]
    · rfl
    · unfold geZero
      rw [Bool.or_eq_true, decide_eq_true_eq, hz, not_or]
      refine ⟨?_, h.ne⟩
      show ¬ X.ltb (X.fin 0) (X.fin _) = true
      simp only [X.ltb, decide_eq_true_eq]
      exact not_lt.2 hle
  · rw [h]
    have hsg : ∀ v : X ℝ, sgn v = -1 ∨ sgn v = 1 ∨ sgn v = 0 := by
      intro v
      unfold sgn
      split
      · exact Or.inl rfl
      · split
        · exact Or.inr (Or.inl rfl)
        · exact Or.inr (Or.inr rfl)
    split
    · have e1 : (-1 : X ℝ) = X.fin (-1) := rfl
      rcases hsg (X.fin (z i / s)) with h | h | h <;> rw [h]
      · rw [e1, X.fin_mul, zero_mul]
      · rw [X.one_fin, X.fin_mul, zero_mul]
      · rw [X.zero_fin, X.fin_mul, zero_mul]
    · rfl

/-- C61 (scale) is violated: if the median of `|Xᵀ·y|` is zero and one entry is zero — more than half of the variables
uncorrelated with the response suffice — the direction vector consists of NaN only. -/
theorem C61_median_violation (cfg : SpCfg (X ℝ)) (hz : cfg.isZero X.nan = false)
    (hmax : IsAmaxX cfg.amax) (z : Fin p → ℝ) (i0 : Fin p) (hi0 : z i0 = 0)
    (hs : cfg.med (of (Matrix.of fun i (_ : Fin 1) => X.fin |z i|)) = X.fin 0) :
    spShrink cfg (of (Matrix.of fun i (_ : Fin 1) => X.fin (z i))) =
      .ok (of (Matrix.of fun (_ : Fin p) (_ : Fin 1) => X.nan)) := by
  have ha : absM (Matrix.of fun i (_ : Fin 1) => X.fin (z i)) = Matrix.of fun i (_ : Fin 1) => X.fin |z i| := by
    ext i j
    exact pyAbs_fin (z i)
  rw [spShrink_of cfg i0.pos, ha, hs]
  have hn : absM (divM (Matrix.of fun i (_ : Fin 1) => X.fin (z i)) (X.fin 0)) i0 0 = X.nan := by
    show pyAbs (X.fin (z i0) / X.fin 0) = X.nan
    rw [hi0, X.fin_div_zero, X.signedInf_zero]
    rfl
  rw [hmax.nan _ i0 hn, ok_inj]
  apply spC_zero_nan
  ext i j
  show (if geZero cfg.isZero (pyAbs _ - cfg.lam * X.nan) then _ else 0) = X.fin 0
  rw [X.mul_nan, X.sub_nan, if_neg]
  · rfl
  · unfold geZero
    rw [hz]
    show ¬ ((decide (X.ltb (X.fin 0) (X.nan : X ℝ) = true)) || false) = true
    simp [X.ltb]

/-! ## C61: the selected variables -/

/-- Ascending, duplicate-free, in range. -/
structure GoodIdx (p : Nat) (A : List Nat) : Prop where
  lt : ∀ i ∈ A, i < p
  sorted : A.Pairwise (· < ·)

theorem GoodIdx.nodup {A : List Nat} (h : GoodIdx p A) : A.Nodup := h.sorted.imp fun h => h.ne

/-- Collecting indices of two columns. -/
theorem spCollect_of (cfg : SpCfg ℝ) (w B : Matrix (Fin p) (Fin 1) ℝ) : ∃ A, spCollect cfg (of w) (of B) = .ok A ∧
    GoodIdx p A ∧ ∀ i : Fin p, i.1 ∈ A ↔ cfg.thr < |w i 0| ∨ cfg.thr < |B i 0| := by
  unfold spCollect
  rw [whereVector_col, except_bind_ok, whereVector_col, except_bind_ok]
  have hnum : ∀ v : Matrix (Fin p) (Fin 1) ℝ, (of v).numElements = p := fun v => Nat.mul_one p
  refine ⟨_, rfl, ⟨fun i hi => ?_, ?_⟩, fun i => ?_⟩
  · have := (List.mem_filter.1 hi).1
    rw [hnum, hnum, max_self] at this
    exact List.mem_range.1 this
  · exact List.Pairwise.filter _ List.pairwise_lt_range
  · have hm : ∀ v : Matrix (Fin p) (Fin 1) ℝ,
        i.1 ∈ ((List.finRange p).filter fun i => above cfg (v i 0)).map (·.val) ↔ cfg.thr < |v i 0| := by
      intro v
      rw [List.mem_map]
      constructor
      · rintro ⟨a, ha, e⟩
        have e' : a = i := Fin.ext e
        subst e'
        have := (List.mem_filter.1 ha).2
        unfold above at this
        rw [decide_eq_true_eq, pyAbs_real] at this
        exact this
      · intro h
        refine ⟨i, List.mem_filter.2 ⟨List.mem_finRange i, ?_⟩, rfl⟩
        unfold above
        rw [decide_eq_true_eq, pyAbs_real]
        exact h
    rw [List.mem_filter, hnum, hnum, max_self, Bool.or_eq_true, decide_eq_true_eq, decide_eq_true_eq, hm, hm]
    exact ⟨fun h => h.2, fun h => ⟨List.mem_range.2 i.2, h⟩⟩

/-- What a pass produces. -/
theorem spStep_out (cfg : SpCfg ℝ) (hn : 0 < n) (hp : 0 < p) (X : Matrix (Fin n) (Fin p) ℝ) (y yj : Matrix (Fin n) (Fin 1) ℝ)
    (A0 : List Nat) (B0 : Matrix (Fin p) (Fin 1) ℝ) (W : Mat ℝ) (k : Int) (s' : SpVars ℝ)
    (h : spStep cfg (of X) (of y) k ⟨of yj, A0, of B0, W⟩ = .ok s') :
    ∃ (hA : GoodIdx p s'.A) (B : Matrix (Fin p) (Fin 1) ℝ) (coef : Mat ℝ), s'.B = of B ∧ s'.yj = of (y - X * B) ∧
      (∀ i : Fin p, i.1 ∉ s'.A → B i 0 = 0) ∧
      cfg.nip (min (s'.A.length : Int) (k + 1))
        (of (Matrix.of fun i (j : Fin s'.A.length) => X i ⟨s'.A[j.1], hA.lt _ (List.getElem_mem j.2)⟩)) (of y) = .ok coef ∧
      scatter coef s'.A 0 (of (0 : Matrix (Fin p) (Fin 1) ℝ)) = .ok (of B) ∧
      ∃ w : Matrix (Fin p) (Fin 1) ℝ, spDirection cfg (of X) (of yj) = .ok (of w) ∧
        ∀ i : Fin p, i.1 ∈ s'.A ↔ cfg.thr < |w i 0| ∨ cfg.thr < |B0 i 0| := by
  unfold spStep at h
  obtain ⟨w, hw⟩ : ∃ w : Matrix (Fin p) (Fin 1) ℝ, spDirection cfg (of X) (of yj) = .ok (of w) := by
    unfold spDirection
    rw [transpose_of, mul_of, except_bind_ok, spShrink_of cfg hp]
    exact ⟨_, rfl⟩
  simp only [] at h
  rw [hw, except_bind_ok] at h
  cases h1 : W.setColumn k (of w) with
  | error e => rw [h1] at h; cases h
  | ok W' =>
  rw [h1, except_bind_ok] at h
  obtain ⟨A, hA1, hA, hA2⟩ := spCollect_of cfg w B0
  rw [hA1, except_bind_ok, spCols_of hn X A hA.lt, except_bind_ok] at h
  have hz : Factory.zeros (α := ℝ) ((of X).cols : Int) ((of y).cols : Int) = .ok (of (0 : Matrix (Fin p) (Fin 1) ℝ)) :=
    Factory.zeros_nat hp 1
  rw [hz, except_bind_ok] at h
  cases h2 : spCoef cfg (of (Matrix.of fun i (j : Fin A.length) => X i ⟨A[j.1], hA.lt _ (List.getElem_mem j.2)⟩)) (of y) k with
  | error e => rw [h2] at h; cases h
  | ok coef =>
  rw [h2, except_bind_ok] at h
  cases h3 : scatter coef A 0 (of (0 : Matrix (Fin p) (Fin 1) ℝ)) with
  | error e => rw [h3] at h; cases h
  | ok B =>
  rw [h3, except_bind_ok] at h
  obtain ⟨e1, e2, he⟩ := scatter_inv coef A 0 _ B h3
  obtain ⟨r, c, Bd⟩ := B
  simp only at e1 e2
  cases e1
  cases e2
  have hm : (of X).mul ⟨p, 1, Bd⟩ = .ok (of (X * Bd)) := mul_of X Bd
  have hsub : (of y).sub (of (X * Bd)) = .ok (of (y - X * Bd)) := sub_of y (X * Bd)
  have h' : ((of X).mul ⟨p, 1, Bd⟩ >>= fun f => (of y).sub f >>= fun yj => Except.ok (SpVars.mk yj A ⟨p, 1, Bd⟩ W')) =
    .ok s' := h
  rw [hm, except_bind_ok, hsub, except_bind_ok] at h'
  cases h'
  exact ⟨hA, Bd, coef, rfl, rfl, fun i hi => he i 0 hi, h2, h3, w, hw, hA2⟩

/-- The state during training. -/
def SpInv (n p : Nat) (s : SpVars ℝ) : Prop :=
  ∃ (yj : Matrix (Fin n) (Fin 1) ℝ) (B : Matrix (Fin p) (Fin 1) ℝ), s.yj = of yj ∧ s.B = of B ∧ GoodIdx p s.A ∧
    ∀ i : Fin p, i.1 ∉ s.A → B i 0 = 0

theorem spStep_inv (cfg : SpCfg ℝ) (hn : 0 < n) (hp : 0 < p) (X : Matrix (Fin n) (Fin p) ℝ) (y : Matrix (Fin n) (Fin 1) ℝ)
    (k : Int) (s s' : SpVars ℝ) (hs : SpInv n p s) (h : spStep cfg (of X) (of y) k s = .ok s') : SpInv n p s' := by
  obtain ⟨yj, A0, B0, W⟩ := s
  obtain ⟨yj', B', e1, e2, _, _⟩ := hs
  simp only at e1 e2
  subst e1 e2
  obtain ⟨hA, B, _, hB, hy, h0, _⟩ := spStep_out cfg hn hp X y yj' A0 B' W k s' h
  exact ⟨_, B, hy, hB, hA, h0⟩

/-- The last pass of training, and the statistics kept. -/
theorem spTrain_last (cfg : SpCfg ℝ) (hz : ∀ x, cfg.isZero x = true ↔ x = 0) (hn : 0 < n) {k : Nat} (hK : cfg.K = ((k + 1 : Nat) : Int))
    (X : Matrix (Fin n) (Fin (p + 1)) ℝ) (y : Matrix (Fin n) (Fin 1) ℝ) (m : SpModel ℝ)
    (h : spTrain cfg (of X) (of y) = .ok m) :
    m.stdX = stdState X ∧ m.stdY = stdState y ∧ ∃ s, SpInv n (p + 1) s ∧
      spStep cfg (of (std X X)) (of (std y y)) (k : Int) s = .ok m.vars := by
  unfold spTrain at h
  rw [std_fit cfg.isZero hz X, std_fit (p := 0) cfg.isZero hz y] at h
  simp only [except_bind_ok] at h
  have hi : ∃ W, spInit cfg (of (std X X)) (of (std y y)) =
      .ok ⟨of (std y y), [], of (0 : Matrix (Fin (p + 1)) (Fin 1) ℝ), W⟩ := by
    unfold spInit
    have hz : Factory.zeros (α := ℝ) ((of (std X X)).cols : Int) ((of (std y y)).cols : Int) =
        .ok (of (0 : Matrix (Fin (p + 1)) (Fin 1) ℝ)) := Factory.zeros_nat (Nat.succ_pos p) 1
    have hw : Factory.zeros (α := ℝ) ((of (std X X)).cols : Int) cfg.K =
        .ok (of (0 : Matrix (Fin (p + 1)) (Fin (k + 1)) ℝ)) := by
      rw [hK]
      exact Factory.zeros_nat (Nat.succ_pos p) (k + 1)
    rw [hz, except_bind_ok, hw, except_bind_ok]
    exact ⟨_, rfl⟩
  obtain ⟨W, hW⟩ := hi
  rw [hW, except_bind_ok, hK, pyRange_succ, loopM_append] at h
  cases h1 : loopM (spStep cfg (of (std X X)) (of (std y y))) (pyRange 0 (k : Int))
      ⟨of (std y y), [], of (0 : Matrix (Fin (p + 1)) (Fin 1) ℝ), W⟩ with
  | error e => rw [h1] at h; cases h
  | ok s =>
  rw [h1, except_bind_ok] at h
  have hs : SpInv n (p + 1) s := by
    refine loopM_inv _ (SpInv n (p + 1)) (fun k s s' => spStep_inv cfg hn (Nat.succ_pos p) _ _ k s s') _ _ _ ?_ h1
    exact ⟨_, _, rfl, rfl, ⟨fun i hi => absurd hi (by simp), List.Pairwise.nil⟩, fun i _ => rfl⟩
  rw [loopM] at h
  cases h2 : spStep cfg (of (std X X)) (of (std y y)) (k : Int) s with
  | error e => rw [h2] at h; cases h
  | ok s' =>
  rw [h2] at h
  cases h
  exact ⟨rfl, rfl, s, hs, h2⟩

/-- C61 (selection).  After training with at least one component, the selected indices are ascending column numbers,
and the coefficient of every variable that is not selected is zero. -/
theorem C61_support (cfg : SpCfg ℝ) (hz : ∀ x, cfg.isZero x = true ↔ x = 0) (hn : 0 < n) (hK : 1 ≤ cfg.K)
    (X : Matrix (Fin n) (Fin (p + 1)) ℝ) (y : Matrix (Fin n) (Fin 1) ℝ) (m : SpModel ℝ)
    (h : spTrain cfg (of X) (of y) = .ok m) :
    ∃ B : Matrix (Fin (p + 1)) (Fin 1) ℝ, m.vars.B = of B ∧ (∀ i ∈ m.vars.A, i < p + 1) ∧ m.vars.A.Pairwise (· < ·) ∧
      ∀ i : Fin (p + 1), i.1 ∉ m.vars.A → B i 0 = 0 := by
  obtain ⟨k, hk⟩ : ∃ k : Nat, cfg.K = ((k + 1 : Nat) : Int) := ⟨(cfg.K - 1).toNat, by omega⟩
  obtain ⟨_, _, s, hs, hl⟩ := spTrain_last cfg hz hn hk X y m h
  obtain ⟨_, B, _, e, hA, h0⟩ := spStep_inv cfg hn (Nat.succ_pos p) _ _ _ _ _ hs hl
  exact ⟨B, e, hA.lt, hA.sorted, h0⟩

/-- C61 (dependence).  Predictions depend only on the selected variables: two data sets that agree in the selected
columns get the same predictions. -/
theorem C61_dependence (cfg : SpCfg ℝ) (hz : ∀ x, cfg.isZero x = true ↔ x = 0) (hn : 0 < n) (hK : 1 ≤ cfg.K)
    (X : Matrix (Fin n) (Fin (p + 1)) ℝ) (y : Matrix (Fin n) (Fin 1) ℝ) (m : SpModel ℝ)
    (h : spTrain cfg (of X) (of y) = .ok m) (hr : 0 < r) (Z1 Z2 : Matrix (Fin r) (Fin (p + 1)) ℝ)
    (hZ : ∀ (i : Fin r) (j : Fin (p + 1)), j.1 ∈ m.vars.A → Z1 i j = Z2 i j) :
    spPredict cfg m (of Z1) = spPredict cfg m (of Z2) := by
  obtain ⟨k, hk⟩ : ∃ k : Nat, cfg.K = ((k + 1 : Nat) : Int) := ⟨(cfg.K - 1).toNat, by omega⟩
  obtain ⟨hx, _, s, hs, hl⟩ := spTrain_last cfg hz hn hk X y m h
  obtain ⟨_, B, _, e, hA, h0⟩ := spStep_inv cfg hn (Nat.succ_pos p) _ _ _ _ _ hs hl
  unfold spPredict
  rw [hx, std_do, std_do, except_bind_ok, except_bind_ok, spCols_of hr _ _ hA.lt, spCols_of hr _ _ hA.lt]
  have : (Matrix.of fun i (j : Fin m.vars.A.length) => std X Z1 i ⟨m.vars.A[j.1], hA.lt _ (List.getElem_mem j.2)⟩) =
      Matrix.of fun i (j : Fin m.vars.A.length) => std X Z2 i ⟨m.vars.A[j.1], hA.lt _ (List.getElem_mem j.2)⟩ := by
    ext i j
    show (Z1 i _ - _) / _ = (Z2 i _ - _) / _
    rw [hZ i _ (List.getElem_mem j.2)]
  rw [this]

theorem sel_sum (A : List Nat) (hA : GoodIdx p A) (f : Fin p → ℝ) (h0 : ∀ i : Fin p, i.1 ∉ A → f i = 0) :
    ∑ k : Fin A.length, f ⟨A[k.1], hA.lt _ (List.getElem_mem k.2)⟩ = ∑ i, f i := by
  refine Finset.sum_of_injOn (fun k : Fin A.length => (⟨A[k.1], hA.lt _ (List.getElem_mem k.2)⟩ : Fin p)) ?_ ?_ ?_ ?_
  · intro a _ b _ hab
    have := Fin.val_eq_of_eq hab
    exact Fin.ext ((List.Nodup.getElem_inj_iff hA.nodup).1 this)
  · intro a _
    exact Finset.mem_coe.2 (Finset.mem_univ _)
  · intro i _ hi
    apply h0
    intro hm
    apply hi
    obtain ⟨k, hk, e⟩ := List.mem_iff_getElem.1 hm
    exact ⟨⟨k, hk⟩, Finset.mem_coe.2 (Finset.mem_univ _), Fin.ext e⟩
  · intro k _
    rfl

/-- C61 (predictions).  If something is selected, the prediction is the standardised data times the coefficients,
scaled back to the units of the response. -/
theorem C61_predict (cfg : SpCfg ℝ) (hz : ∀ x, cfg.isZero x = true ↔ x = 0) (hn : 0 < n) (hK : 1 ≤ cfg.K)
    (X : Matrix (Fin n) (Fin (p + 1)) ℝ) (y : Matrix (Fin n) (Fin 1) ℝ) (m : SpModel ℝ)
    (h : spTrain cfg (of X) (of y) = .ok m) (hne : m.vars.A ≠ []) (hr : 0 < r) (Z : Matrix (Fin r) (Fin (p + 1)) ℝ) :
    ∃ B : Matrix (Fin (p + 1)) (Fin 1) ℝ, m.vars.B = of B ∧ spPredict cfg m (of Z) =
      .ok (of (Matrix.of fun i (_ : Fin 1) => (std X Z * B) i 0 * divisor y 0 + mu fun k => y k 0)) := by
  obtain ⟨k, hk⟩ : ∃ k : Nat, cfg.K = ((k + 1 : Nat) : Int) := ⟨(cfg.K - 1).toNat, by omega⟩
  obtain ⟨hx, hy, s, hs, hl⟩ := spTrain_last cfg hz hn hk X y m h
  obtain ⟨_, B, _, e, hA, h0⟩ := spStep_inv cfg hn (Nat.succ_pos p) _ _ _ _ _ hs hl
  refine ⟨B, e, ?_⟩
  unfold spPredict
  rw [hx, std_do, except_bind_ok, spCols_of hr _ _ hA.lt, except_bind_ok, e,
    spRows_of B _ hA.lt (List.length_pos_iff.2 hne), except_bind_ok, hy]
  show (do
    let r ← (of _).mul (of _)
    let r ← r.scaleByRowVector (of (Matrix.of fun (_ : Fin 1) j => divisor y j))
    r.addByVector (of (Matrix.of fun (_ : Fin 1) j => mu fun k => y k j))) = _
  rw [mul_of, except_bind_ok, scale_row_one, except_bind_ok]
  unfold addByVector
  rw [vectorOp_row, ok_inj]
  refine mk_congr fun i j => ?_
  rw [Subsingleton.elim j 0]
  show divisor y 0 * ((Matrix.of _ * Matrix.of _ : Matrix _ _ ℝ) i 0) + (mu fun k => y k 0) = _
  rw [Matrix.mul_apply, Matrix.of_apply, Matrix.mul_apply, mul_comm]
  congr 2
  refine sel_sum m.vars.A hA (fun l => std X Z i l * B l 0) fun l hl => ?_
  show std X Z i l * B l 0 = 0
  rw [h0 l hl, mul_zero]

/-! ## C82: without sparsity -/

/-- C82 (coefficients).  If all variables are selected in the last pass, the coefficients are those of the inner NIPALS
model for `min(columns, components)` components on the standardised data. -/
theorem C82_all_selected (cfg : SpCfg ℝ) (hz : ∀ x, cfg.isZero x = true ↔ x = 0) (hn : 0 < n) {k : Nat}
    (hK : cfg.K = ((k + 1 : Nat) : Int)) (X : Matrix (Fin n) (Fin (p + 1)) ℝ) (y : Matrix (Fin n) (Fin 1) ℝ) (m : SpModel ℝ)
    (h : spTrain cfg (of X) (of y) = .ok m) (hall : m.vars.A = List.range (p + 1)) (b : Matrix (Fin (p + 1)) (Fin 1) ℝ)
    (hb : cfg.nip (min ((p + 1 : Nat) : Int) (k + 1)) (of (std X X)) (of (std y y)) = .ok (of b)) :
    m.vars.B = of b := by
  obtain ⟨sx, sy, ⟨vy, vA, vB, vW⟩⟩ := m
  simp only at hall
  subst hall
  show vB = of b
  obtain ⟨_, _, s, hs, hl⟩ := spTrain_last cfg hz hn hK X y _ h
  obtain ⟨yj, A0, B0, W⟩ := s
  obtain ⟨yj', B', e1, e2, _, _⟩ := hs
  simp only at e1 e2
  subst e1 e2
  obtain ⟨hA, B, coef, hB, _, h0, hnip, hsc, _⟩ := spStep_out cfg hn (Nat.succ_pos p) _ _ _ _ _ _ _ _ hl
  simp only at hB
  have hX : of (Matrix.of fun i (j : Fin (List.range (p + 1)).length) =>
      std X X i ⟨(List.range (p + 1))[j.1], hA.lt _ (List.getElem_mem j.2)⟩) = of (std X X) := by
    refine mk_eq rfl (List.length_range) fun i j => ?_
    simp only [Matrix.of_apply, List.getElem_range]
    rfl
  rw [hX, List.length_range, hb, ok_inj] at hnip
  subst hnip
  rw [hB]
  have hcoef : of b = of (Matrix.of fun (i : Fin (List.range (p + 1)).length) (j : Fin 1) =>
      b (i.cast List.length_range) j) := by
    refine mk_eq List.length_range.symm rfl fun i j => ?_
    rfl
  have hs2 := scatter_of (p := p + 1) (List.range (p + 1)) hA.lt hA.nodup
    (Matrix.of fun (i : Fin (List.range (p + 1)).length) (j : Fin 1) => b (i.cast List.length_range) j) [] (List.range (p + 1)) rfl
  rw [← hcoef] at hs2
  have hz0 : (Matrix.of fun (i : Fin (p + 1)) (j : Fin 1) =>
      if h : i.1 ∈ List.range (p + 1) then (if i.1 ∈ ([] : List Nat) then
        (Matrix.of fun (i : Fin (List.range (p + 1)).length) (j : Fin 1) => b (i.cast List.length_range) j)
          ⟨(List.range (p + 1)).idxOf i.1, List.idxOf_lt_length_iff.2 h⟩ j else 0) else 0) =
      (0 : Matrix (Fin (p + 1)) (Fin 1) ℝ) := by
    ext i j
    simp
  have hsc' : scatter (of b) (List.range (p + 1)) 0 (of (0 : Matrix (Fin (p + 1)) (Fin 1) ℝ)) = .ok (of B) := hsc
  rw [hz0, List.length_nil, hsc', ok_inj] at hs2
  rw [hs2]
  refine mk_congr fun i j => ?_
  have hmem : i.1 ∈ List.range (p + 1) := List.mem_range.2 i.2
  simp only [Matrix.of_apply]
  rw [dif_pos hmem]
  have hidx : (List.range (p + 1)).idxOf i.1 = i.1 := by
    have := List.Nodup.idxOf_getElem (List.nodup_range (n := p + 1)) i.1 (by rw [List.length_range]; exact i.2)
    rwa [List.getElem_range] at this
  congr 1
  exact Fin.ext hidx

theorem std_std (hn : 2 ≤ n) (X : Matrix (Fin n) (Fin p) ℝ) (hsd : ∀ j, sd (fun k => X k j) ≠ 0) :
    std (std X X) (std X X) = std X X ∧ ∀ j, divisor (std X X) j = 1 := by
  have hd : ∀ j, divisor X j = sd fun k => X k j := fun j => if_neg fun h => hsd j h.2
  have hcol : ∀ j, (fun k => std X X k j) = fun k => (X k j - mu fun k => X k j) / sd fun k => X k j := by
    intro j
    funext k
    show (X k j - mu fun k => X k j) / divisor X j = _
    rw [hd]
  have hmu : ∀ j, mu (fun k => std X X k j) = 0 := by
    intro j
    rw [hcol]
    exact mu_standard (by omega) _ _
  have hsd1 : ∀ j, sd (fun k => std X X k j) = 1 := by
    intro j
    rw [hcol]
    exact sd_standard hn _ (hsd j)
  have hd1 : ∀ j, divisor (std X X) j = 1 := by
    intro j
    unfold divisor
    rw [hsd1, if_neg]
    exact fun h => one_ne_zero h.2
  refine ⟨?_, hd1⟩
  ext i j
  show (std X X i j - mu fun k => std X X k j) / divisor (std X X) j = _
  rw [hmu, hd1, sub_zero, div_one]

/-- The inner model: `coef` of a trained NIPALS object. -/
noncomputable def nipCoef (c : NipalsCfg ℝ) (k : Int) (X y : Mat ℝ) : Except PyErr (Mat ℝ) := do
  let m ← nipalsTrain { c with K := k } X y
  .ok m.coef

/-- C82 (equality with NIPALS, as the class documentation promises for small `lambda`).  If no column of the data is
constant and all variables are selected in the last pass, the predictions of SparsePLS are those of NIPALS with the
same number of components (at most the number of columns), for every new data matrix. -/
theorem C82_nipals (cfg : SpCfg ℝ) (hz : ∀ x, cfg.isZero x = true ↔ x = 0) (hn : 2 ≤ n) {k : Nat}
    (hK : cfg.K = ((k + 1 : Nat) : Int)) (hkp : k ≤ p) {c : NipalsCfg ℝ} (hc : NipalsReal c) (hcca : c.cca = false)
    (hdefl : c.defl = .regression) (hpinv : PinvRegular c.pinv) (hnip : cfg.nip = nipCoef c) (hcK : c.K = ((k + 1 : Nat) : Int))
    (X : Matrix (Fin n) (Fin (p + 1)) ℝ) (y : Matrix (Fin n) (Fin 1) ℝ) (hX : ∀ j, sd (fun i => X i j) ≠ 0)
    (hy : ∀ j, sd (fun i => y i j) ≠ 0) (hreg : NipRegular (k + 1) (std X X) (std y y)) (m : SpModel ℝ)
    (h : spTrain cfg (of X) (of y) = .ok m) (hall : m.vars.A = List.range (p + 1)) (hr : 0 < r)
    (Z : Matrix (Fin r) (Fin (p + 1)) ℝ) :
    ∃ (N : NipalsModel ℝ) (P : Matrix (Fin r) (Fin 1) ℝ), nipalsTrain c (of X) (of y) = .ok N ∧
      nipalsPredict c N (of Z) = .ok (of P) ∧ spPredict cfg m (of Z) = .ok (of P) := by
  have hpro := nip_proceeds hreg.passOk
  have hdet : ((nPM (std X X) (std y y) (k + 1))ᵀ * nWM (std X X) (std y y) (k + 1)).det ≠ 0 := by
    rw [(nip_det hreg.passOk).1]
    exact one_ne_zero
  obtain ⟨hXX, _⟩ := std_std hn X hX
  obtain ⟨hyy, hdy⟩ := std_std hn y hy
  have hN := nipalsTrain_eq hc hcca hdefl hpinv hcK (by omega) X y hpro hdet
  have hc' : NipalsReal { c with K := ((k + 1 : Nat) : Int) } := ⟨hc.1, hc.2⟩
  have hI := nipalsTrain_eq (c := { c with K := ((k + 1 : Nat) : Int) }) hc' hcca hdefl hpinv rfl (by omega : 0 < n)
    (std X X) (std y y) (by rw [hXX, hyy]; exact hpro) (by rw [hXX, hyy]; exact hdet)
  set b0 := nWM (std X X) (std y y) (k + 1) * ((nPM (std X X) (std y y) (k + 1))ᵀ * nWM (std X X) (std y y) (k + 1))⁻¹ *
      (nQM (std X X) (std y y) (k + 1))ᵀ with hb0
  have hb : cfg.nip (min ((p + 1 : Nat) : Int) (k + 1)) (of (std X X)) (of (std y y)) = .ok (of b0) := by
    rw [hnip, show min ((p + 1 : Nat) : Int) (k + 1) = ((k + 1 : Nat) : Int) by omega]
    unfold nipCoef
    rw [hI, except_bind_ok]
    unfold nipModel
    simp only []
    rw [hXX, hyy, hdy, one_smul]
  have hB := C82_all_selected cfg hz (by omega) hK X y m h hall b0 hb
  obtain ⟨B, e, hp⟩ := C61_predict cfg hz (by omega) (by omega) X y m h (by rw [hall]; simp) hr Z
  rw [hB, of_inj] at e
  subst e
  refine ⟨_, _, hN, ?_, hp⟩
  unfold nipalsPredict nipModel
  simp only []
  rw [std_do, except_bind_ok]
  show (do
    let r ← (of (std X Z)).mul (of (divisor y 0 • b0))
    r.addByVector (of (Matrix.of fun (_ : Fin 1) j => mu fun k => y k j))) = _
  rw [mul_of, except_bind_ok]
  unfold addByVector
  rw [vectorOp_row, ok_inj]
  refine mk_congr fun i j => ?_
  rw [Subsingleton.elim j 0]
  show (std X Z * divisor y 0 • b0) i 0 + (mu fun k => y k 0) = (std X Z * b0) i 0 * divisor y 0 + mu fun k => y k 0
  rw [Matrix.mul_smul, Matrix.smul_apply, smul_eq_mul, mul_comm]

/-- A pass that selects everything. -/
theorem spStep_all (cfg : SpCfg ℝ) (hn : 0 < n) (X : Matrix (Fin n) (Fin (p + 1)) ℝ) (y yj : Matrix (Fin n) (Fin 1) ℝ)
    (w B0 b : Matrix (Fin (p + 1)) (Fin 1) ℝ) (hw : spDirection cfg (of X) (of yj) = .ok (of w))
    (hbig : ∀ i, cfg.thr < |w i 0|) {K : Nat} (W : Matrix (Fin (p + 1)) (Fin K) ℝ) (k : Fin K)
    (hb : cfg.nip (min ((p + 1 : Nat) : Int) ((k : Nat) + 1)) (of X) (of y) = .ok (of b)) (A0 : List Nat) :
    ∃ s', spStep cfg (of X) (of y) ((k : Nat) : Int) ⟨of yj, A0, of B0, of W⟩ = .ok s' ∧ s'.A = List.range (p + 1) := by
  obtain ⟨A, hA1, hA, hA2⟩ := spCollect_of cfg w B0
  have hAr : A = List.range (p + 1) := by
    refine List.Perm.eq_of_pairwise (fun a b _ _ h1 h2 => (lt_asymm h1 h2).elim) hA.sorted List.pairwise_lt_range ?_
    rw [List.perm_ext_iff_of_nodup hA.nodup List.nodup_range]
    intro a
    rw [List.mem_range]
    exact ⟨fun h => hA.lt a h, fun h => (hA2 ⟨a, h⟩).2 (Or.inl (hbig _))⟩
  subst hAr
  unfold spStep
  simp only []
  rw [hw, except_bind_ok, setColumn_of, except_bind_ok, hA1, except_bind_ok, spCols_of hn X _ hA.lt, except_bind_ok]
  have hz : Factory.zeros (α := ℝ) ((of X).cols : Int) ((of y).cols : Int) = .ok (of (0 : Matrix (Fin (p + 1)) (Fin 1) ℝ)) :=
    Factory.zeros_nat (Nat.succ_pos p) 1
  have hX : of (Matrix.of fun i (j : Fin (List.range (p + 1)).length) =>
      X i ⟨(List.range (p + 1))[j.1], hA.lt _ (List.getElem_mem j.2)⟩) = of X := by
    refine mk_eq rfl (List.length_range) fun i j => ?_
    simp only [Matrix.of_apply, List.getElem_range]
    rfl
  have hc : spCoef cfg (of X) (of y) ((k : Nat) : Int) = .ok (of b) := hb
  rw [hz, except_bind_ok, hX, hc, except_bind_ok]
  have hcoef : of b = of (Matrix.of fun (i : Fin (List.range (p + 1)).length) (j : Fin 1) =>
      b (i.cast List.length_range) j) := by
    refine mk_eq List.length_range.symm rfl fun i j => ?_
    rfl
  have hs2 := scatter_of (p := p + 1) (List.range (p + 1)) hA.lt hA.nodup
    (Matrix.of fun (i : Fin (List.range (p + 1)).length) (j : Fin 1) => b (i.cast List.length_range) j) []
    (List.range (p + 1)) rfl
  rw [← hcoef] at hs2
  have hz0 : (Matrix.of fun (i : Fin (p + 1)) (j : Fin 1) =>
      if h : i.1 ∈ List.range (p + 1) then (if i.1 ∈ ([] : List Nat) then
        (Matrix.of fun (i : Fin (List.range (p + 1)).length) (j : Fin 1) => b (i.cast List.length_range) j)
          ⟨(List.range (p + 1)).idxOf i.1, List.idxOf_lt_length_iff.2 h⟩ j else 0) else 0) =
      (0 : Matrix (Fin (p + 1)) (Fin 1) ℝ) := by
    ext i j
    simp
  rw [hz0, List.length_nil] at hs2
  rw [hs2, except_bind_ok, mul_of, except_bind_ok, sub_of, except_bind_ok]
  exact ⟨_, rfl, rfl⟩

/-- C82 (training succeeds).  With one component and a direction vector whose entries all exceed the constant
`1e-6`, training succeeds and selects all variables. -/
theorem C82_trained (cfg : SpCfg ℝ) (hz : ∀ x, cfg.isZero x = true ↔ x = 0) (hn : 0 < n) (hK : cfg.K = 1)
    (X : Matrix (Fin n) (Fin (p + 1)) ℝ) (y : Matrix (Fin n) (Fin 1) ℝ) (w b : Matrix (Fin (p + 1)) (Fin 1) ℝ)
    (hw : spDirection cfg (of (std X X)) (of (std y y)) = .ok (of w)) (hbig : ∀ i, cfg.thr < |w i 0|)
    (hb : cfg.nip 1 (of (std X X)) (of (std y y)) = .ok (of b)) :
    ∃ m, spTrain cfg (of X) (of y) = .ok m ∧ m.vars.A = List.range (p + 1) := by
  have hb' : cfg.nip (min ((p + 1 : Nat) : Int) (((0 : Fin 1) : Nat) + 1)) (of (std X X)) (of (std y y)) = .ok (of b) := by
    rw [← hb]
    congr 1
    show min ((p + 1 : Nat) : Int) (0 + 1) = 1
    omega
  obtain ⟨s', h1, h2⟩ := spStep_all cfg hn (std X X) (std y y) (std y y) w 0 b hw hbig
    (0 : Matrix (Fin (p + 1)) (Fin 1) ℝ) 0 hb' []
  unfold spTrain
  rw [std_fit cfg.isZero hz X, std_fit (p := 0) cfg.isZero hz y]
  simp only [except_bind_ok]
  have hz : Factory.zeros (α := ℝ) ((of (std X X)).cols : Int) ((of (std y y)).cols : Int) =
      .ok (of (0 : Matrix (Fin (p + 1)) (Fin 1) ℝ)) := Factory.zeros_nat (Nat.succ_pos p) 1
  have hw' : Factory.zeros (α := ℝ) ((of (std X X)).cols : Int) cfg.K =
      .ok (of (0 : Matrix (Fin (p + 1)) (Fin 1) ℝ)) := by
    rw [hK]
    exact Factory.zeros_nat (Nat.succ_pos p) 1
  unfold spInit
  rw [hz, except_bind_ok, hw', except_bind_ok, except_bind_ok, hK]
  have hl : loopM (spStep cfg (of (std X X)) (of (std y y))) (pyRange 0 1)
      ⟨of (std y y), [], of (0 : Matrix (Fin (p + 1)) (Fin 1) ℝ), of (0 : Matrix (Fin (p + 1)) (Fin 1) ℝ)⟩ = .ok s' := by
    have e : pyRange 0 1 = [0] := rfl
    rw [e, loopM]
    have h1' : spStep cfg (of (std X X)) (of (std y y)) 0
        ⟨of (std y y), [], of (0 : Matrix (Fin (p + 1)) (Fin 1) ℝ), of (0 : Matrix (Fin (p + 1)) (Fin 1) ℝ)⟩ = .ok s' := h1
    rw [h1']
    rfl
  rw [hl, except_bind_ok]
  exact ⟨_, rfl, h2⟩

/-- A configuration for the examples. -/
noncomputable def spRamp (med amax : Mat ℝ → ℝ) : SpCfg ℝ := { spDemo (1 / 2) med amax with nip := nipCoef exCfg }

/-- All hypotheses of C61 and C82 can be met at once: `x = y = 1, 2, 3`, one component, `lambda = 1/2`. -/
theorem sp_example (med amax : Mat ℝ → ℝ) (hmed : ∀ p (f : Fin p → ℝ) (a : ℝ), 0 < p → (∀ i, f i = a) →
    med (of (Matrix.of fun i (_ : Fin 1) => f i)) = a) (hmax : IsAmax amax) :
    ∃ m, spTrain (spRamp med amax) (of ramp) (of ramp) = .ok m ∧ m.vars.A = [0] := by
  have hv : ((std ramp ramp)ᵀ * std ramp ramp) = (!![2] : Matrix (Fin 1) (Fin 1) ℝ) := by
    rw [ramp_std]
    ext i j
    simp only [Matrix.mul_apply, Matrix.transpose_apply, Fin.sum_univ_three]
    fin_cases i; fin_cases j
    simp
    norm_num
  obtain ⟨w, k, c, h1, _, _, _, h2, _⟩ := C61_direction_partial (spRamp med amax) (fun x => by simp [spRamp, spDemo]) hmax
    (by norm_num : 0 < 1) (by norm_num [spRamp, spDemo]) (by norm_num [spRamp, spDemo]) (std ramp ramp) (std ramp ramp) 2
    (hmed 1 _ 2 (by norm_num) (fun i => by rw [hv, Subsingleton.elim i 0]; norm_num)) (by norm_num)
    (by
      rw [hv]
      intro h
      have := congrFun (congrFun h 0) 0
      norm_num at this)
  have hreg : NipRegular 1 (std ramp ramp) (std ramp ramp) := by
    rw [ramp_std]
    refine ⟨?_, ?_, ?_, trivial⟩
    · simp [Fin.sum_univ_three]
      norm_num
    · simp [Fin.sum_univ_three, Matrix.mul_apply]
      norm_num
    · rw [ramp_weights _ _ rfl rfl]
      simp [Fin.sum_univ_three, Matrix.mul_apply]
      norm_num
  have hsd : ∀ j, sd (fun k => ramp k j) ≠ 0 := by
    intro j
    rw [Subsingleton.elim j 0]
    unfold sd
    rw [mu_ramp]
    simp [ramp, Fin.sum_univ_three]
    norm_num
  obtain ⟨e1, e2⟩ := std_std (by norm_num : 2 ≤ 3) ramp hsd
  have hI := nipalsTrain_eq (c := { exCfg with K := 1 }) (K := 1) ⟨exCfg_real.1, exCfg_real.2⟩ rfl rfl exCfg_pinv rfl
    (by norm_num : 0 < 3) (std ramp ramp) (std ramp ramp) (by rw [e1]; exact nip_proceeds hreg.passOk)
    (by rw [e1, (nip_det hreg.passOk).1]; exact one_ne_zero)
  obtain ⟨b, hb⟩ : ∃ b : Matrix (Fin 1) (Fin 1) ℝ, nipCoef exCfg 1 (of (std ramp ramp)) (of (std ramp ramp)) = .ok (of b) := by
    unfold nipCoef
    rw [hI, except_bind_ok]
    exact ⟨_, rfl⟩
  refine C82_trained (p := 0) (spRamp med amax) (fun x => by simp [spRamp, spDemo]) (by norm_num) rfl ramp ramp w b h1 ?_ hb
  · intro (i : Fin 1)
    rw [Subsingleton.elim i 0]
    rw [hv, Fin.sum_univ_one, Fin.sum_univ_one, Subsingleton.elim k 0] at h2
    have h4 : (w 0 0) ^ 2 = 2 ^ 2 := by
      rw [h2]
      norm_num [soft, spRamp, spDemo]
    rw [sq_eq_sq_iff_abs_eq_abs] at h4
    rw [h4]
    norm_num [spRamp, spDemo]

/-! ## C83: transforming row by row -/

/-- Column `k` of `W`. -/
def wcol {K : Nat} (W : Matrix (Fin p) (Fin K) ℝ) (k : Nat) : Matrix (Fin p) (Fin 1) ℝ :=
  Matrix.of fun i (_ : Fin 1) => if h : k < K then W i ⟨k, h⟩ else 0

/-- The data after removing the component along the score `t`. -/
noncomputable def deflate (X : Matrix (Fin r) (Fin p) ℝ) (t : Matrix (Fin r) (Fin 1) ℝ) : Matrix (Fin r) (Fin p) ℝ :=
  X - t * (Matrix.of fun i j => (Xᵀ * t) i j / sq1 t)ᵀ

/-- The data left in pass `k` of `transform`. -/
noncomputable def tX {K : Nat} (W : Matrix (Fin p) (Fin K) ℝ) (Z : Matrix (Fin r) (Fin p) ℝ) : Nat → Matrix (Fin r) (Fin p) ℝ
  | 0 => Z
  | k + 1 => deflate (tX W Z k) (tX W Z k * wcol W k)

theorem spTransform_of (cfg : SpCfg ℝ) {K : Nat} (hK : cfg.K = (K : Int)) (m : SpModel ℝ) (W : Matrix (Fin p) (Fin K) ℝ)
    (hW : m.vars.W = of W) (hr : 0 < r) (Z : Matrix (Fin r) (Fin p) ℝ) :
    spTransform cfg m (of Z) = .ok (of (Matrix.of fun i (k : Fin K) => (tX W Z k * wcol W k) i 0)) := by
  unfold spTransform
  have hz : Factory.zeros (α := ℝ) ((of Z).rows : Int) cfg.K = .ok (of (0 : Matrix (Fin r) (Fin K) ℝ)) := by
    rw [hK]
    exact Factory.zeros_nat hr K
  rw [hz, except_bind_ok, hK, hW]
  have hl := loopM_range (spTransformStep (of W))
    (fun k => (of (tX W Z k), of (colsUpTo (fun k => tX W Z k * wcol W k) k : Matrix (Fin r) (Fin K) ℝ))) K (by
      intro k hk
      unfold spTransformStep
      have hc : (of W).getColumn (k : Int) = .ok (of (wcol W k)) := by
        have h := getColumn_of W ⟨k, hk⟩
        refine h.trans ?_
        rw [ok_inj]
        refine mk_congr fun i j => ?_
        simp only [wcol, Matrix.of_apply]
        rw [dif_pos hk]
      rw [hc, except_bind_ok]
      show ((of (tX W Z k)).mul (of (wcol W k)) >>= _) = _
      rw [mul_of, except_bind_ok, colsUpTo_set _ k hk, except_bind_ok]
      simp only [transpose_of, mul_of, except_bind_ok]
      rw [norm2Squared_col, div_of, transpose_of, mul_of, except_bind_ok, sub_of, except_bind_ok]
      rfl)
  simp only [colsUpTo_zero] at hl
  have hl' : loopM (spTransformStep (of W)) (pyRange 0 (K : Int)) ((of Z).copy, of (0 : Matrix (Fin r) (Fin K) ℝ)) = _ := hl
  rw [hl', except_bind_ok, colsUpTo_all]

/-- C83 (one component).  The score is the product of the raw, un-standardised data with the direction vector; each
row is then transformed on its own. -/
theorem C83_one_component_partial (cfg : SpCfg ℝ) (hK : cfg.K = 1) (m : SpModel ℝ) (W : Matrix (Fin p) (Fin 1) ℝ)
    (hW : m.vars.W = of W) (hr : 0 < r) (Z : Matrix (Fin r) (Fin p) ℝ) :
    spTransform cfg m (of Z) = .ok (of (Z * W)) := by
  rw [spTransform_of cfg (K := 1) hK m W hW hr Z, ok_inj]
  refine mk_congr fun i j => ?_
  rw [Subsingleton.elim j 0]
  show (Z * wcol W 0) i 0 = (Z * W) i 0
  rw [Matrix.mul_apply, Matrix.mul_apply]
  rfl

/-- A single row is used up by its first score. -/
theorem deflate_row (z : Matrix (Fin 1) (Fin p) ℝ) (w : Matrix (Fin p) (Fin 1) ℝ) (h : (z * w) 0 0 ≠ 0) :
    deflate z (z * w) = 0 := by
  ext i j
  rw [Subsingleton.elim i 0]
  show z 0 j - ((z * w) * (Matrix.of fun i j => (zᵀ * (z * w)) i j / sq1 (z * w))ᵀ : Matrix (Fin 1) (Fin p) ℝ) 0 j = 0
  rw [Matrix.mul_apply, Fin.sum_univ_one, Matrix.transpose_apply, Matrix.of_apply, Matrix.mul_apply (M := zᵀ), Fin.sum_univ_one,
    Matrix.transpose_apply]
  unfold sq1
  rw [Fin.sum_univ_one]
  field_simp
  ring

/-- C83 is violated: `transform` computes the loadings from the data being transformed.  For every single row with a
non-zero first score, the second score is zero, whatever the model. -/
theorem C83_single_row_violation (cfg : SpCfg ℝ) {k : Nat} (hK : cfg.K = ((k + 2 : Nat) : Int)) (m : SpModel ℝ)
    (W : Matrix (Fin p) (Fin (k + 2)) ℝ) (hW : m.vars.W = of W) (z : Matrix (Fin 1) (Fin p) ℝ)
    (hz : ∑ l, z 0 l * W l 0 ≠ 0) :
    ∃ T : Matrix (Fin 1) (Fin (k + 2)) ℝ, spTransform cfg m (of z) = .ok (of T) ∧ T 0 0 = ∑ l, z 0 l * W l 0 ∧ T 0 1 = 0 := by
  have h0 : (z * wcol W 0) 0 0 = ∑ l, z 0 l * W l 0 := by
    rw [Matrix.mul_apply]
    rfl
  refine ⟨_, spTransform_of cfg hK m W hW one_pos z, h0, ?_⟩
  show (deflate z (z * wcol W 0) * wcol W 1) 0 0 = 0
  rw [deflate_row z _ (by rw [h0]; exact hz), Matrix.zero_mul]
  rfl

/-- C83 is violated: the same row gets another second score when a second row is transformed along with it.  With
the directions (1,1) and (1,0), the row (1,0) alone has the scores (1, 0); together with the row (0,1) it has the
scores (1, 1/2). -/
theorem C83_batch_violation (cfg : SpCfg ℝ) (hK : cfg.K = 2) (m : SpModel ℝ)
    (hW : m.vars.W = of (!![1, 1; 1, 0] : Matrix (Fin 2) (Fin 2) ℝ)) :
    ∃ (T1 : Matrix (Fin 1) (Fin 2) ℝ) (T2 : Matrix (Fin 2) (Fin 2) ℝ),
      spTransform cfg m (of (!![1, 0] : Matrix (Fin 1) (Fin 2) ℝ)) = .ok (of T1) ∧
      spTransform cfg m (of (!![1, 0; 0, 1] : Matrix (Fin 2) (Fin 2) ℝ)) = .ok (of T2) ∧
      T1 0 0 = T2 0 0 ∧ T1 0 1 = 0 ∧ T2 0 1 = 1 / 2 := by
  obtain ⟨T1, h1, h2, h3⟩ := C83_single_row_violation (k := 0) cfg hK m _ hW (!![1, 0] : Matrix (Fin 1) (Fin 2) ℝ)
    (by rw [Fin.sum_univ_two]; norm_num)
  refine ⟨T1, _, h1, spTransform_of cfg (K := 2) hK m _ hW (by norm_num) _, ?_, h3, ?_⟩
  · rw [h2]
    show _ = ((!![1, 0; 0, 1] : Matrix (Fin 2) (Fin 2) ℝ) * wcol (!![1, 1; 1, 0] : Matrix (Fin 2) (Fin 2) ℝ) 0) 0 0
    rw [Matrix.mul_apply, Fin.sum_univ_two, Fin.sum_univ_two]
    simp [wcol]
  · show (deflate (!![1, 0; 0, 1] : Matrix (Fin 2) (Fin 2) ℝ) (!![1, 0; 0, 1] * wcol (!![1, 1; 1, 0] : Matrix (Fin 2) (Fin 2) ℝ) 0) *
      wcol (!![1, 1; 1, 0] : Matrix (Fin 2) (Fin 2) ℝ) 1) 0 0 = 1 / 2
    have e : (!![1, 0; 0, 1] : Matrix (Fin 2) (Fin 2) ℝ) * wcol (!![1, 1; 1, 0] : Matrix (Fin 2) (Fin 2) ℝ) 0 = !![1; 1] := by
      ext i j
      rw [Matrix.mul_apply, Fin.sum_univ_two]
      fin_cases i <;> fin_cases j <;> simp [wcol]
    rw [e]
    unfold deflate sq1
    rw [Matrix.mul_apply, Fin.sum_univ_two]
    simp only [Matrix.sub_apply, Matrix.mul_apply, Matrix.transpose_apply, Matrix.of_apply, Fin.sum_univ_two, Fin.sum_univ_one]
    simp [wcol]
    norm_num

end real

end Verif.Props
