import Verif.Props.ScatterProps
import Verif.Props.SavGolProps

/-!
# C107 — normalisations remove the offset and gain they are meant to remove

`Center` and `Standardize` remove an offset and a positive gain of a column, `RowNorm` those of a row,
multiplicative scatter correction those of a spectrum within a range, and a Savitzky-Golay derivative of order `d` any
polynomial baseline of degree below `d`.  Normalising normalised data changes nothing.
-/

namespace Verif.Props
open Verif Verif.Mat Verif.Transf Finset
open Polynomial (natDegree taylor)
open scoped Polynomial

variable {m n k : Nat}

theorem mu_affine (hm : m ≠ 0) (f : Fin m → ℝ) (g o : ℝ) : mu (fun i => g * f i + o) = g * mu f + o := by
  have : (m : ℝ) ≠ 0 := by exact_mod_cast hm
  unfold mu
  rw [sum_add_distrib, ← mul_sum, sum_const, card_univ, Fintype.card_fin, nsmul_eq_mul]
  field_simp

theorem sd_affine (hm : m ≠ 0) (f : Fin m → ℝ) (g o : ℝ) : sd (fun i => g * f i + o) = |g| * sd f := by
  unfold sd
  rw [mu_affine hm]
  have : ∑ i, (g * f i + o - (g * mu f + o)) ^ 2 = g ^ 2 * ∑ i, (f i - mu f) ^ 2 := by
    rw [mul_sum]
    exact sum_congr rfl fun i _ => by ring
  rw [this, mul_div_assoc, Real.sqrt_mul (sq_nonneg g), Real.sqrt_sq_eq_abs]

/-- The score of a value does not depend on the units, up to the sign of the gain. -/
theorem score_affine (hm : m ≠ 0) (f : Fin m → ℝ) {g : ℝ} (hg : g ≠ 0) (o v : ℝ) :
    (g * v + o - mu fun i => g * f i + o) / (if sd (fun i => g * f i + o) = 0 then 1 else sd fun i => g * f i + o) =
      if sd f = 0 then g * (v - mu f) else g / |g| * ((v - mu f) / sd f) := by
  have hag : |g| ≠ 0 := abs_ne_zero.2 hg
  rw [sd_affine hm, mu_affine hm]
  by_cases h : sd f = 0
  · rw [if_pos (by rw [h, mul_zero]), if_pos h]
    ring
  · rw [if_neg (mul_ne_zero hag h), if_neg h]
    field_simp
    ring

/-! ## RowNorm -/

/-- **C107** (RowNorm).  A positive gain and an offset per row do not change the result; a negative gain changes its
sign. -/
theorem C107_rowNorm (hn : 2 ≤ n) (A : Matrix (Fin m) (Fin n) ℝ) (g o : Fin m → ℝ) (hg : ∀ i, g i ≠ 0) :
    ∃ C : Matrix (Fin m) (Fin n) ℝ, quickApply (rowNorm isZeroR) (of A) = .ok (of C) ∧
      quickApply (rowNorm isZeroR) (of (Matrix.of fun i j => g i * A i j + o i)) =
        .ok (of (Matrix.of fun i j => g i / |g i| * C i j)) ∧
      ((∀ i, 0 < g i) → quickApply (rowNorm isZeroR) (of (Matrix.of fun i j => g i * A i j + o i)) = .ok (of C)) := by
  have hn0 : n ≠ 0 := by omega
  have e : rowStd (Matrix.of fun i j => g i * A i j + o i) = Matrix.of fun i j => g i / |g i| * rowStd A i j := by
    ext i j
    have h := score_affine hn0 (A i) (hg i) (o i) (A i j)
    refine Eq.trans ?_ (h.trans ?_)
    · rfl
    · simp only [rowStd, Matrix.of_apply]
      by_cases h0 : sd (A i) = 0
      · rw [if_pos h0, if_pos h0]
        have hz : A i j - mu (A i) = 0 := by
          have hc := (sd_eq_zero_iff hn _).1 h0
          have := sum_sub_mu hn0 (A i)
          rw [sum_congr rfl fun r _ => by rw [hc r j], sum_const, card_univ, Fintype.card_fin, nsmul_eq_mul] at this
          exact (mul_eq_zero.1 this).resolve_left (by exact_mod_cast hn0)
        rw [hz]
        ring
      · rw [if_neg h0, if_neg h0]
  have h2 : quickApply (rowNorm isZeroR) (of (Matrix.of fun i j => g i * A i j + o i)) =
      .ok (of (Matrix.of fun i j => g i / |g i| * rowStd A i j)) := by
    rw [← e]
    exact (rowNorm_fresh _ _ rfl).1
  refine ⟨rowStd A, (rowNorm_fresh A _ rfl).1, h2, fun hp => h2.trans ?_⟩
  congr 1
  refine mk_congr fun i j => ?_
  rw [Matrix.of_apply, abs_of_pos (hp i), div_self (hg i), one_mul]

/-- **C107** (RowNorm, idempotence). -/
theorem C107_rowNorm_idempotent (hn : 2 ≤ n) (A : Matrix (Fin m) (Fin n) ℝ) :
    ∃ C : Matrix (Fin m) (Fin n) ℝ, quickApply (rowNorm isZeroR) (of A) = .ok (of C) ∧
      quickApply (rowNorm isZeroR) (of C) = .ok (of C) := by
  refine ⟨rowStd A, (rowNorm_fresh A _ rfl).1, (rowNorm_fresh _ _ rfl).1.trans ?_⟩
  congr 1
  refine mk_congr fun i j => ?_
  have hn0 : n ≠ 0 := by omega
  show (rowStd A i j - mu (rowStd A i)) / (if sd (rowStd A i) = 0 then 1 else sd (rowStd A i)) = _
  have hmu : mu (rowStd A i) = 0 := mu_standard hn0 (A i) _
  rw [hmu, sub_zero]
  by_cases h0 : sd (A i) = 0
  · have hz := (C29_rowStd A hn i).2 ((sd_eq_zero_iff hn _).1 h0) j
    rw [hz, zero_div]
  · have hrow : rowStd A i = fun j => (A i j - mu (A i)) / sd (A i) := by
      funext j
      simp only [rowStd, Matrix.of_apply, if_neg h0]
    have h1 : sd (rowStd A i) = 1 := by
      rw [hrow]
      exact sd_standard hn (A i) h0
    rw [h1, if_neg one_ne_zero, div_one]

/-! ## Center and Standardize -/

/-- **C107** (Center).  Configured on and applied to data with other offsets the result is the same; gains pass
through. -/
theorem C107_center (hm : m ≠ 0) (A : Matrix (Fin m) (Fin n) ℝ) (B : Matrix (Fin k) (Fin n) ℝ) (g o : Fin n → ℝ) :
    ∃ C : Matrix (Fin k) (Fin n) ℝ, (transform center (of B) (centerOn A)).2 = .ok (of C) ∧
      (transform center (of (Matrix.of fun i j => g j * B i j + o j))
        (centerOn (Matrix.of fun i j => g j * A i j + o j))).2 = .ok (of (Matrix.of fun i j => g j * C i j)) := by
  obtain ⟨C, h1, h2, _⟩ := C27_center A B
  obtain ⟨D, h3, h4, _⟩ := C27_center (Matrix.of fun i j => g j * A i j + o j) (Matrix.of fun i j => g j * B i j + o j)
  refine ⟨C, h1, h3.trans ?_⟩
  congr 1
  refine mk_congr fun i j => ?_
  have e := mu_affine hm (fun r => A r j) (g j) (o j)
  unfold mu at e
  show D i j = g j * C i j
  rw [h4, h2]
  simp only [Matrix.of_apply]
  rw [e]
  ring

/-- **C107** (Standardize).  Configured on and applied to data in other units (positive gain and offset per column) the
result is the same, provided no column but the first is constant; a negative gain changes the sign. -/
theorem C107_standardize (hm : 2 ≤ m) (A : Matrix (Fin m) (Fin (n + 1)) ℝ) (hc : ∀ j, ∃ i l, A i j ≠ A l j)
    (B : Matrix (Fin k) (Fin (n + 1)) ℝ) (g o : Fin (n + 1) → ℝ) (hg : ∀ j, g j ≠ 0) :
    ∃ C : Matrix (Fin k) (Fin (n + 1)) ℝ, (transform (standardize isZeroR) (of B) (standardizeOn A)).2 = .ok (of C) ∧
      (transform (standardize isZeroR) (of (Matrix.of fun i j => g j * B i j + o j))
        (standardizeOn (Matrix.of fun i j => g j * A i j + o j))).2 = .ok (of (Matrix.of fun i j => g j / |g j| * C i j)) ∧
      ((∀ j, 0 < g j) → (transform (standardize isZeroR) (of (Matrix.of fun i j => g j * B i j + o j))
        (standardizeOn (Matrix.of fun i j => g j * A i j + o j))).2 = .ok (of C)) := by
  have hm0 : m ≠ 0 := by omega
  obtain ⟨C, h1, h2⟩ := C28_standardize A B
  obtain ⟨D, h3, h4⟩ := C28_standardize (Matrix.of fun i j => g j * A i j + o j)
    (Matrix.of fun i j => g j * B i j + o j)
  have hsd : ∀ j, sd (fun r => A r j) ≠ 0 := fun j h => by
    obtain ⟨i, l, hil⟩ := hc j
    exact hil ((sd_eq_zero_iff hm _).1 h i l)
  have hsd' : ∀ j, (sd fun r => g j * A r j + o j) = |g j| * sd fun r => A r j :=
    fun j => sd_affine hm0 (fun r => A r j) (g j) (o j)
  have hne : ∀ j, (sd fun r => g j * A r j + o j) ≠ 0 := fun j => by
    rw [hsd']
    exact mul_ne_zero (abs_ne_zero.2 (hg j)) (hsd j)
  have key : (transform (standardize isZeroR) (of (Matrix.of fun i j => g j * B i j + o j))
      (standardizeOn (Matrix.of fun i j => g j * A i j + o j))).2 = .ok (of (Matrix.of fun i j => g j / |g j| * C i j)) := by
    refine h3.trans ?_
    congr 1
    refine mk_congr fun i j => ?_
    show D i j = g j / |g j| * C i j
    rw [h4, h2]
    simp only [Matrix.of_apply]
    simp only [hsd 0, hne 0, and_false, if_false]
    have h := score_affine hm0 (fun r => A r j) (hg j) (o j) (B i j)
    rw [if_neg (hne j), if_neg (hsd j)] at h
    exact h
  refine ⟨C, h1, key, fun hp => key.trans ?_⟩
  congr 1
  refine mk_congr fun i j => ?_
  rw [Matrix.of_apply, abs_of_pos (hp j), div_self (hg j), one_mul]

/-- **C107** (Center and Standardize, idempotence). -/
theorem C107_column_idempotent (hm : 2 ≤ m) (A : Matrix (Fin m) (Fin (n + 1)) ℝ) :
    (∃ C : Matrix (Fin m) (Fin (n + 1)) ℝ, quickApply center (of A) = .ok (of C) ∧
      quickApply center (of C) = .ok (of C)) ∧
    ((∀ j, ∃ i l, A i j ≠ A l j) → ∃ C : Matrix (Fin m) (Fin (n + 1)) ℝ,
      quickApply (standardize isZeroR) (of A) = .ok (of C) ∧ quickApply (standardize isZeroR) (of C) = .ok (of C)) := by
  have hm0 : m ≠ 0 := by omega
  constructor
  · obtain ⟨C, h1, h2⟩ := C27_center_zero_means A hm0
    obtain ⟨D, h3, h4, _⟩ := C27_center C C
    refine ⟨C, h1, ?_⟩
    have h5 : quickApply center (of C) = .ok (of D) := by rw [← h3]; rfl
    rw [h5]
    congr 1
    refine mk_congr fun i j => ?_
    rw [h4, h2 j, zero_div, sub_zero]
  · intro hc
    obtain ⟨C, h1, h2, _⟩ := C28_unit_variance A hm
    have hq : ∀ (E : Matrix (Fin m) (Fin (n + 1)) ℝ), quickApply (standardize isZeroR) (of E) =
        (transform (standardize isZeroR) (of E) (standardizeOn E)).2 := by
      intro E
      rw [standardizeOn_eq]
      unfold quickApply
      rw [← standardizeOn_eq]
      unfold standardizeOn transform
      have hg := guardStds_row isZeroR (Matrix.of fun (_ : Fin 1) j => sd fun i => E i j)
      simp only [standardize, columnStdevs_of, columnMeans_of, hg, Bool.false_eq_true, if_false, if_true]
    obtain ⟨D, h3, h4⟩ := C28_standardize C C
    refine ⟨C, h1, (hq C).trans (h3.trans ?_)⟩
    congr 1
    refine mk_congr fun i j => ?_
    obtain ⟨hs, hd⟩ := h2 j (hc j)
    have hmu : (mu fun r => C r j) = 0 := by unfold mu; rw [hs, zero_div]
    have hsd : ∀ j, (sd fun r => C r j) = 1 := by
      intro j
      obtain ⟨hs, hd⟩ := h2 j (hc j)
      have hmu : (mu fun r => C r j) = 0 := by unfold mu; rw [hs, zero_div]
      unfold sd
      rw [hmu]
      simp only [sub_zero]
      rw [Nat.cast_sub (by omega : 1 ≤ m), Nat.cast_one]
      exact hd
    rw [h4, hmu, sub_zero, if_neg fun h => one_ne_zero ((hsd 0).symm.trans h.2), hsd, div_one]

/-! ## Multiplicative scatter correction -/

/-- The regression line of an affine image of the response. -/
theorem linearRegression_affine (data : List (ℝ × ℝ)) (hc : NotConstant data) (g o : ℝ) :
    Utils.linearRegression (data.map (·.1)) (data.map fun p => g * p.2 + o) =
      (g * (Utils.linearRegression (data.map (·.1)) (data.map (·.2))).1 + o,
        g * (Utils.linearRegression (data.map (·.1)) (data.map (·.2))).2) := by
  have hd := denom_ne_zero data hc
  have h := linearRegression_eq (data.map fun p => (p.1, g * p.2 + o))
  have m1 : (data.map fun p => (p.1, g * p.2 + o)).map (·.1) = data.map (·.1) := by rw [List.map_map]; rfl
  have m2 : (data.map fun p => (p.1, g * p.2 + o)).map (·.2) = data.map fun p => g * p.2 + o := by
    rw [List.map_map]; rfl
  have m3 : (data.map fun p => (p.1, g * p.2 + o)).map (fun p => p.1 * p.1) = data.map fun p => p.1 * p.1 := by
    rw [List.map_map]; rfl
  have m4 : (data.map fun p => (p.1, g * p.2 + o)).map (fun p => p.1 * p.2) =
      data.map fun p => p.1 * (g * p.2 + o) := by rw [List.map_map]; rfl
  rw [m1, m2, m3, m4, List.length_map] at h
  have s1 : (data.map fun p => g * p.2 + o).sum = g * (data.map (·.2)).sum + o * data.length := by
    have := sums_lin o 0 g 0 0 data
    rw [show (fun p : ℝ × ℝ => g * p.2 + o) = fun p => o + 0 * p.1 + g * p.2 + 0 * (p.1 * p.1) + 0 * (p.1 * p.2) from
      funext fun p => by ring, this]
    ring
  have s2 : (data.map fun p => p.1 * (g * p.2 + o)).sum =
      g * (data.map fun p => p.1 * p.2).sum + o * (data.map (·.1)).sum := by
    have := sums_lin 0 o 0 0 g data
    rw [show (fun p : ℝ × ℝ => p.1 * (g * p.2 + o)) = fun p => 0 + o * p.1 + 0 * p.2 + 0 * (p.1 * p.1) + g * (p.1 * p.2) from
      funext fun p => by ring, this]
    ring
  rw [h, linearRegression_eq]
  simp only [s1, s2]
  generalize (data.map fun p => p.1 * p.1).sum = sxx at hd ⊢
  generalize (data.map (·.1)).sum = sx at hd ⊢
  refine Prod.ext ?_ ?_
  · simp only []
    rw [div_eq_iff hd]
    linear_combination (-g) * div_mul_cancel₀ ((data.map (·.2)).sum * sxx - sx * (data.map fun p => p.1 * p.2).sum) hd
  · simp only []
    rw [div_eq_iff hd]
    linear_combination (-g) * div_mul_cancel₀
      ((data.length : ℝ) * (data.map fun p => p.1 * p.2).sum - sx * (data.map (·.2)).sum) hd

/-- Two ranges without a common wave number of the spectrum. -/
def Apart (w : Fin m → ℝ) (r s : ℝ × ℝ) : Prop := ∀ i, ¬ ((r.1 ≤ w i ∧ w i ≤ r.2) ∧ (s.1 ≤ w i ∧ w i ≤ s.2))

theorem mscValue_out (R : Matrix (Fin m) (Fin 2) ℝ) (A : Matrix (Fin m) (Fin (k + 2)) ℝ) (i : Fin m) :
    ∀ (rs : List (ℝ × ℝ)) (v : ℝ), (∀ s ∈ rs, ¬ (s.1 ≤ A i 0 ∧ A i 0 ≤ s.2)) → mscValue leR R A i rs v = v
  | [], _, _ => rfl
  | s :: rs, v, h => by
    rw [mscValue, if_neg (fun hr => h s (List.mem_cons_self ..) ((inRange_iff _ _).1 hr))]
    exact mscValue_out R A i rs v fun s hs => h s (List.mem_cons_of_mem _ hs)

theorem mscValue_in (R : Matrix (Fin m) (Fin 2) ℝ) (A : Matrix (Fin m) (Fin (k + 2)) ℝ) (i : Fin m) (r : ℝ × ℝ)
    (hin : r.1 ≤ A i 0 ∧ A i 0 ≤ r.2) : ∀ (rs : List (ℝ × ℝ)) (v : ℝ), rs.Pairwise (Apart fun i => A i 0) → r ∈ rs →
      mscValue leR R A i rs v = (v - (mscLine leR R A r).1) / (mscLine leR R A r).2
  | [], _, _, h => by cases h
  | s :: rs, v, hp, hmem => by
    rw [List.pairwise_cons] at hp
    rw [mscValue]
    by_cases hsr : s = r
    · subst hsr
      rw [if_pos ((inRange_iff _ _).2 hin), mscValue_out]
      exact fun t ht h => hp.1 t ht i ⟨hin, h⟩
    · have hmem' : r ∈ rs := (List.mem_cons.1 hmem).resolve_left fun h => hsr h.symm
      rw [if_neg (fun h => hp.1 r hmem' i ⟨(inRange_iff _ _).1 h, hin⟩)]
      exact mscValue_in R A i r hin rs v hp.2 hmem'

/-- **C107** (multiplicative scatter correction).  Let `A'` be a spectrum that differs from `A` by a gain and an offset
per range.  The corrected spectra are the same, if the ranges have no wave number in common and for each range
containing data the reference is not constant and the spectrum has a non-zero slope against it. -/
theorem C107_msc (ranges : List (ℝ × ℝ)) (R : Matrix (Fin m) (Fin 2) ℝ) (A A' : Matrix (Fin m) (Fin (k + 2)) ℝ)
    (hp : ranges.Pairwise (Apart fun i => A i 0))
    (hok : ∀ r ∈ ranges, (∃ i, r.1 ≤ A i 0 ∧ A i 0 ≤ r.2) →
      NotConstant (samples R A r) ∧ (mscLine leR R A r).2 ≠ 0)
    (g o : ℝ × ℝ → ℝ) (hg : ∀ r ∈ ranges, g r ≠ 0) (h0 : ∀ i j, j ≠ 1 → A' i j = A i j)
    (hin : ∀ r ∈ ranges, ∀ i, r.1 ≤ A i 0 ∧ A i 0 ≤ r.2 → A' i 1 = g r * A i 1 + o r)
    (hout : ∀ i, (∀ r ∈ ranges, ¬ (r.1 ≤ A i 0 ∧ A i 0 ≤ r.2)) → A' i 1 = A i 1) :
    ∃ C : Matrix (Fin m) (Fin (k + 2)) ℝ, mscApply leR none ranges (of R) (of A) = .ok (of C) ∧
      mscApply leR none ranges (of R) (of A') = .ok (of C) := by
  refine ⟨_, mscApply_of leR ranges R A, (mscApply_of leR ranges R A').trans ?_⟩
  congr 1
  refine mk_congr fun i j => ?_
  simp only [Matrix.of_apply]
  have hw : (fun i => A' i 0) = fun i => A i 0 := funext fun i => h0 i 0 (by simp)
  by_cases hj : j = 1
  · rw [if_pos hj, if_pos hj]
    by_cases hex : ∃ r ∈ ranges, r.1 ≤ A i 0 ∧ A i 0 ≤ r.2
    · obtain ⟨r, hr, hri⟩ := hex
      obtain ⟨hc, hs⟩ := hok r hr ⟨i, hri⟩
      rw [mscValue_in R A i r hri ranges _ hp hr,
        mscValue_in R A' i r (by rw [h0 i 0 (by simp)]; exact hri) ranges _ (by rw [hw]; exact hp) hr]
      have hline : mscLine leR R A' r = (g r * (mscLine leR R A r).1 + o r, g r * (mscLine leR R A r).2) := by
        rw [mscLine_eq R A]
        rw [← linearRegression_affine _ hc]
        unfold mscLine samples
        rw [List.map_map, List.map_map, hw]
        congr 1
        refine List.map_congr_left fun l hl => ?_
        exact hin r hr l ((inRange_iff _ _).1 (List.mem_filter.1 hl).2)
      rw [hline, hin r hr i hri]
      have hgr := hg r hr
      field_simp
      ring
    · have hno : ∀ r ∈ ranges, ¬ (r.1 ≤ A i 0 ∧ A i 0 ≤ r.2) := fun r hr h => hex ⟨r, hr, h⟩
      rw [mscValue_out R A i ranges _ hno, mscValue_out R A' i ranges _ (by rw [h0 i 0 (by simp)]; exact hno),
        hout i hno]
  · rw [if_neg hj, if_neg hj, h0 i j hj]

/-- Intercept 0 and slope 1 are the only solution of the normal equations they solve. -/
theorem linearRegression_identity (data : List (ℝ × ℝ)) (hc : NotConstant data)
    (h1 : (data.map fun p => p.2 - p.1).sum = 0) (h2 : (data.map fun p => (p.2 - p.1) * p.1).sum = 0) :
    Utils.linearRegression (data.map (·.1)) (data.map (·.2)) = (0, 1) := by
  have hd := denom_ne_zero data hc
  have e1 : (data.map (·.2)).sum = (data.map (·.1)).sum := by
    have := sums_lin 0 (-1) 1 0 0 data
    rw [show (fun p : ℝ × ℝ => 0 + -1 * p.1 + 1 * p.2 + 0 * (p.1 * p.1) + 0 * (p.1 * p.2)) = fun p => p.2 - p.1 from
      funext fun p => by ring, h1] at this
    linarith
  have e2 : (data.map fun p => p.1 * p.2).sum = (data.map fun p => p.1 * p.1).sum := by
    have := sums_lin 0 0 0 (-1) 1 data
    rw [show (fun p : ℝ × ℝ => 0 + 0 * p.1 + 0 * p.2 + -1 * (p.1 * p.1) + 1 * (p.1 * p.2)) =
      fun p => (p.2 - p.1) * p.1 from funext fun p => by ring, h2] at this
    linarith
  rw [linearRegression_eq]
  simp only [e1, e2]
  rw [div_self hd, show (data.map (·.1)).sum * (data.map fun p => p.1 * p.1).sum -
    (data.map (·.1)).sum * (data.map fun p => p.1 * p.1).sum = 0 by ring, zero_div]

/-- **C107** (multiplicative scatter correction, idempotence).  Correcting a corrected spectrum changes nothing. -/
theorem C107_msc_idempotent (ranges : List (ℝ × ℝ)) (R : Matrix (Fin m) (Fin 2) ℝ) (A : Matrix (Fin m) (Fin (k + 2)) ℝ)
    (hp : ranges.Pairwise (Apart fun i => A i 0))
    (hok : ∀ r ∈ ranges, (∃ i, r.1 ≤ A i 0 ∧ A i 0 ≤ r.2) →
      NotConstant (samples R A r) ∧ (mscLine leR R A r).2 ≠ 0) :
    ∃ C : Matrix (Fin m) (Fin (k + 2)) ℝ, mscApply leR none ranges (of R) (of A) = .ok (of C) ∧
      mscApply leR none ranges (of R) (of C) = .ok (of C) := by
  obtain ⟨C, hC, h0, hout⟩ := C34_total ranges R A
  refine ⟨C, hC, (mscApply_of leR ranges R C).trans ?_⟩
  congr 1
  refine mk_congr fun i j => ?_
  simp only [Matrix.of_apply]
  have hw : (fun i => C i 0) = fun i => A i 0 := funext fun i => h0 i 0 (by simp)
  by_cases hj : j = 1
  · subst hj
    rw [if_pos rfl]
    by_cases hex : ∃ r ∈ ranges, r.1 ≤ A i 0 ∧ A i 0 ≤ r.2
    · obtain ⟨r, hr, hri⟩ := hex
      obtain ⟨hc, hs⟩ := hok r hr ⟨i, hri⟩
      obtain ⟨C', hC', e1, e2⟩ := C34_corrected_partial ranges R A hp r hr hc hs
      have hCC : C' = C := of_injective (Except.ok.inj (hC'.symm.trans hC))
      subst hCC
      have hc' : NotConstant (samples R C' r) := by
        obtain ⟨p, hp, q, hq, hpq⟩ := hc
        unfold samples at hp hq ⊢
        obtain ⟨a, ha, rfl⟩ := List.mem_map.1 hp
        obtain ⟨b, hb, rfl⟩ := List.mem_map.1 hq
        rw [hw]
        exact ⟨(R a 1, C' a 1), List.mem_map.2 ⟨a, ha, rfl⟩, (R b 1, C' b 1), List.mem_map.2 ⟨b, hb, rfl⟩, hpq⟩
      rw [mscValue_in R C' i r (by rw [h0 i 0 (by simp)]; exact hri) ranges _ (by rw [hw]; exact hp) hr, mscLine_eq,
        linearRegression_identity _ hc' e1 e2, sub_zero, div_one]
    · have hno : ∀ r ∈ ranges, ¬ (r.1 ≤ A i 0 ∧ A i 0 ≤ r.2) := fun r hr h => hex ⟨r, hr, h⟩
      rw [mscValue_out R C i ranges _ (by rw [h0 i 0 (by simp)]; exact hno)]
  · rw [if_neg hj]

/-! ## Savitzky-Golay -/

/-- **C107** (Savitzky-Golay).  The derivative of order `d` ignores a polynomial baseline of degree below `d` in each
row. -/
theorem C107_savitzkyGolay {l r p d : Nat} (h1 : 1 ≤ l + r) (hp : p ≤ l + r) (hd : d ≤ p)
    (A : Matrix (Fin m) (Fin (n + (l + r) + 1)) ℝ) (f : Fin m → ℝ[X]) (hf : ∀ i, (f i).degree < d) :
    ∃ (c : Mat ℝ) (F : Matrix (Fin m) (Fin (n + 1)) ℝ),
      sgCoefficients (l : Int) (r : Int) (p : Int) (d : Int) = .ok c ∧ sgApply c (of A) = .ok (of F) ∧
      sgApply c (of (Matrix.of fun i j => A i j + (f i).eval ((j : Nat) : ℝ))) = .ok (of F) := by
  obtain ⟨c, hc, hex⟩ := C31_coefficients h1 hp hd
  have hcm : Factory.create [List.ofFn c] = .ok (of (Matrix.of fun (_ : Fin 1) k => c k)) := by
    have := Factory.create_ofFn (m := 1) Nat.one_pos (Matrix.of fun (_ : Fin 1) k => c k)
    simpa using this
  refine ⟨of (Matrix.of fun (_ : Fin 1) k => c k), _, ?_, C32_values _ _, (C32_values _ _).trans ?_⟩
  · unfold sgCoefficients
    rw [hc]
    exact hcm
  · congr 1
    refine mk_congr fun i j => ?_
    simp only [Matrix.of_apply]
    have hnd : (f i).natDegree ≤ p := (Polynomial.natDegree_le_of_degree_le (hf i).le).trans hd
    have h2 := hex (taylor (((j : Nat) : ℝ) + l) (f i)) (by rw [Polynomial.natDegree_taylor]; exact hnd)
    have h3 : ∑ k : Fin (l + r + 1), (f i).eval (((j.val + k.val : Nat) : ℝ)) * c k = 0 := by
      have h0 : (taylor (((j : Nat) : ℝ) + l) (f i)).coeff d = 0 :=
        Polynomial.coeff_eq_zero_of_degree_lt (by rw [Polynomial.degree_taylor]; exact hf i)
      rw [← h0, ← h2]
      refine sum_congr rfl fun k _ => ?_
      rw [Polynomial.taylor_eval, mul_comm]
      congr 2
      push_cast
      ring
    simp only [add_mul, sum_add_distrib]
    rw [h3, add_zero]

/-! ## Cases meeting the hypotheses -/

/-- Doubling two spectra and adding three changes nothing. -/
example : ∃ C : Matrix (Fin 2) (Fin 3) ℝ,
    quickApply (rowNorm isZeroR) (of (!![1, 2, 4; 5, 0, 1] : Matrix (Fin 2) (Fin 3) ℝ)) = .ok (of C) ∧
    quickApply (rowNorm isZeroR) (of (Matrix.of fun (i : Fin 2) (j : Fin 3) =>
      (2 : ℝ) * (!![1, 2, 4; 5, 0, 1] : Matrix (Fin 2) (Fin 3) ℝ) i j + 3)) = .ok (of C) := by
  obtain ⟨C, h1, _, h3⟩ := C107_rowNorm (n := 3) (by decide) (!![1, 2, 4; 5, 0, 1] : Matrix (Fin 2) (Fin 3) ℝ)
    (fun _ => 2) (fun _ => 3) (fun _ => two_ne_zero)
  exact ⟨C, h1, h3 fun _ => two_pos⟩

/-- No constant columns. -/
example : ∀ j, ∃ i l, (!![1, 2; 5, 0] : Matrix (Fin 2) (Fin 2) ℝ) i j ≠ (!![1, 2; 5, 0] : Matrix (Fin 2) (Fin 2) ℝ) l j := by
  intro j
  refine ⟨0, 1, ?_⟩
  fin_cases j <;> norm_num

/-- A first derivative ignores a constant offset per row, a second derivative a linear baseline. -/
example : ∀ i : Fin 2, ((fun i : Fin 2 => (Polynomial.C (i : ℝ) : ℝ[X])) i).degree < (1 : Nat) := by
  intro i
  exact lt_of_le_of_lt Polynomial.degree_C_le (by norm_num)

end Verif.Props
