import Verif.Props.TransfProps
import Verif.Props.FilterProps

/-!
# C163 — the order of the values survives the transformations
-/

namespace Verif.Props
open Verif Verif.Mat Verif.Transf
open scoped Matrix

variable {m n k : Nat}

/-- **C163 (Center).** In every column the centred values are ordered like the values. (Of no samples there is no mean.) -/
theorem C163_center (_hm : 0 < m) (A : Matrix (Fin m) (Fin n) ℝ) (B : Matrix (Fin k) (Fin n) ℝ) :
    ∃ C : Matrix (Fin k) (Fin n) ℝ, (transform center (of B) (centerOn A)).2 = .ok (of C) ∧
      ∀ i i' j, C i j < C i' j ↔ B i j < B i' j := by
  obtain ⟨C, h1, h2, -⟩ := C27_center A B
  refine ⟨C, h1, fun i i' j => ?_⟩
  rw [h2, h2, sub_lt_sub_iff_right]

theorem sd_pos_of_ne {f : Fin m → ℝ} (h : sd f ≠ 0) : 0 < sd f := lt_of_le_of_ne (Real.sqrt_nonneg _) h.symm

/-- **C163 (Standardize).** In every column that is not constant in the data it was fitted on, and in the first column in any case.
(Of one sample there is no standard deviation.) -/
theorem C163_standardize (_hm : 2 ≤ m) (A : Matrix (Fin m) (Fin (n + 1)) ℝ) (B : Matrix (Fin k) (Fin (n + 1)) ℝ) :
    ∃ C : Matrix (Fin k) (Fin (n + 1)) ℝ, (transform (standardize isZeroR) (of B) (standardizeOn A)).2 = .ok (of C) ∧
      ∀ i i' j, (j = 0 ∨ (sd fun r => A r j) ≠ 0) → (C i j < C i' j ↔ B i j < B i' j) := by
  obtain ⟨C, h1, h2⟩ := C28_standardize A B
  refine ⟨C, h1, fun i i' j hj => ?_⟩
  rw [h2, h2]
  have hp : 0 < (if j = 0 ∧ sd (fun r => A r 0) = 0 then 1 else sd fun r => A r j) := by
    split
    · exact one_pos
    · rename_i h0
      refine sd_pos_of_ne ?_
      rcases hj with rfl | hj
      · exact fun h => h0 ⟨rfl, h⟩
      · exact hj
  rw [div_lt_div_iff_of_pos_right hp, sub_lt_sub_iff_right]

/-- **C163 (RowNorm).** In every row, whatever was transformed before. -/
theorem C163_rowNorm (cs : List (TCall ℝ Empty)) (h : ∀ c ∈ cs, NoInverse c) (A : Matrix (Fin m) (Fin n) ℝ) (hn : 2 ≤ n) :
    ∃ C : Matrix (Fin m) (Fin n) ℝ,
      (tRun (rowNorm isZeroR) (cs ++ [.transform (of A)]) (rowNorm isZeroR).init).getLast? = some (.ok (some (of C))) ∧
      ∀ i j j', C i j < C i j' ↔ A i j < A i j' := by
  refine ⟨rowStd A, C29_transform_partial cs h A, fun i j j' => ?_⟩
  by_cases h0 : sd (A i) = 0
  · have e := (sd_eq_zero_iff hn _).1 h0
    have z := (C29_rowStd A hn i).2 e
    rw [z j, z j', e j j']
    simp
  · simp only [rowStd, Matrix.of_apply, if_neg h0]
    rw [div_lt_div_iff_of_pos_right (sd_pos_of_ne h0), sub_lt_sub_iff_right]

/-- **C163 (Log).** Between any two entries for a base larger than one; for a base smaller than one the order is reversed everywhere. -/
theorem C163_log (s : LogState ℝ) (A : Matrix (Fin m) (Fin n) ℝ) (hb : 0 < s.base) (hb1 : s.base ≠ 1) (hA : ∀ i j, 0 < A i j + s.offset) :
    ∃ C : Matrix (Fin m) (Fin n) ℝ, (transform logR (of A) s).2 = .ok (of C) ∧
      (1 < s.base → ∀ i j i' j', C i j < C i' j' ↔ A i j < A i' j') ∧
      (s.base < 1 → ∀ i j i' j', C i j < C i' j' ↔ A i' j' < A i j) := by
  obtain ⟨C, h1, h2, -⟩ := C30_values s A hb hb1 hA
  refine ⟨C, h1, fun h i j i' j' => ?_, fun h i j i' j' => ?_⟩
  · rw [h2, h2, Real.logb_lt_logb_iff h (hA i j) (hA i' j'), add_lt_add_iff_right]
  · rw [h2, h2, Real.logb_lt_logb_iff_of_base_lt_one hb h (hA i j) (hA i' j'), add_lt_add_iff_right]

/-- **C163 (inverse Log).** -/
theorem C163_log_inverse (s : LogState ℝ) (A : Matrix (Fin m) (Fin n) ℝ) (hb : 0 < s.base) (hb1 : s.base ≠ 1) :
    ∃ C : Matrix (Fin m) (Fin n) ℝ, (inverseTransform logR (of A) s).2 = .ok (of C) ∧
      (1 < s.base → ∀ i j i' j', C i j < C i' j' ↔ A i j < A i' j') ∧
      (s.base < 1 → ∀ i j i' j', C i j < C i' j' ↔ A i' j' < A i j) := by
  obtain ⟨C, h1, h2, -⟩ := C30_inverse_first s A hb hb1
  refine ⟨C, h1, fun h i j i' j' => ?_, fun h i j i' j' => ?_⟩
  · rw [h2, h2, sub_lt_sub_iff_right, Real.rpow_lt_rpow_left_iff h]
  · rw [h2, h2, sub_lt_sub_iff_right, Real.rpow_lt_rpow_left_iff_of_base_lt_one hb h]

example := C163_log_inverse ⟨false, 1 / 2, 1⟩ (!![1, 2; 3, 4] : Matrix (Fin 2) (Fin 2) ℝ) (by norm_num) (by norm_num)
example := C163_log ⟨false, 10, 1⟩ (!![1, 2; 3, 4] : Matrix (Fin 2) (Fin 2) ℝ) (by norm_num) (by norm_num) (fun i j => by
  fin_cases i <;> fin_cases j <;> norm_num)
example := C163_rowNorm [.transform (of (!![1, 2] : Matrix (Fin 1) (Fin 2) ℝ))] (by simp [NoInverse])
  (!![1, 2; 3, 4] : Matrix (Fin 2) (Fin 2) ℝ) le_rfl
example := C163_standardize le_rfl (!![1, 2; 3, 4] : Matrix (Fin 2) (Fin 2) ℝ) (!![5, 6; 0, 1; 2, 2] : Matrix (Fin 3) (Fin 2) ℝ)
example := C163_center one_pos (!![1, 2] : Matrix (Fin 1) (Fin 2) ℝ) (!![5, 6; 0, 1; 2, 2] : Matrix (Fin 3) (Fin 2) ℝ)

/-! ## Resampling -/

theorem interp_le {f g : ℤ → ℝ} (h : ∀ c, f c ≤ g c) (p : ℝ) : interp f p ≤ interp g p := by
  unfold interp
  have h0 : 0 ≤ p - ⌊p⌋ := Int.fract_nonneg p
  have h1 : p - ⌊p⌋ ≤ 1 := (Int.fract_lt_one p).le
  nlinarith [h ⌊p⌋, h (⌊p⌋ + 1), mul_nonneg h0 (sub_nonneg.2 (h (⌊p⌋ + 1))), mul_nonneg (sub_nonneg.2 h1) (sub_nonneg.2 (h ⌊p⌋))]

theorem interp_mono {f : ℤ → ℝ} (h : Monotone f) : Monotone (interp f) := by
  intro p q hpq
  have b : ∀ x : ℝ, f ⌊x⌋ ≤ interp f x ∧ interp f x ≤ f (⌊x⌋ + 1) := fun x => by
    have h0 : 0 ≤ x - ⌊x⌋ := Int.fract_nonneg x
    have h1 : x - ⌊x⌋ ≤ 1 := (Int.fract_lt_one x).le
    have h2 : f ⌊x⌋ ≤ f (⌊x⌋ + 1) := h (by omega)
    unfold interp
    constructor <;> nlinarith
  rcases (Int.floor_le_floor hpq).eq_or_lt with e | e
  · unfold interp
    rw [← e]
    have h2 : f ⌊p⌋ ≤ f (⌊p⌋ + 1) := h (by omega)
    nlinarith
  · exact (b p).2.trans ((h (by omega)).trans (b q).1)

/-- A row continued by its last value. -/
noncomputable def clampRowZ (r : Fin (n + 1) → ℝ) (c : ℤ) : ℝ := r ⟨min c.toNat n, by omega⟩

theorem interp_clamp (hk : 2 ≤ k) (r : Fin (n + 1) → ℝ) (j : Fin k) :
    interp (extRow r) (samplePos (n + 1) k j) = interp (clampRowZ r) (samplePos (n + 1) k j) := by
  obtain ⟨hfl, hfr⟩ := floor_samplePos (n := n + 1) (j := j) (by omega) hk
  rw [Nat.add_sub_cancel] at hfl hfr
  have hle : n * j.1 / (k - 1) ≤ n := by
    refine Nat.div_le_of_le_mul ?_
    rw [mul_comm]
    exact Nat.mul_le_mul_right _ (by omega)
  have e : ∀ c : Nat, c ≤ n → extRow r (c : ℤ) = clampRowZ r c := fun c hc => by
    unfold extRow clampRowZ
    rw [dif_pos ⟨by omega, by simp; omega⟩]
    congr 1
    ext
    simp
    omega
  unfold interp
  rw [hfl]
  rcases hle.eq_or_lt with h | h
  · have h0 : samplePos (n + 1) k j - ((n * j.1 / (k - 1) : Nat) : ℝ) = 0 := by
      rw [hfr]
      have hd := Nat.div_add_mod (n * j.1) (k - 1)
      rw [h] at hd
      have hj : n * j.1 ≤ (k - 1) * n := by
        rw [mul_comm]
        exact Nat.mul_le_mul_right _ (by omega)
      have : n * j.1 % (k - 1) = 0 := by omega
      rw [this]
      simp
    have h0' : samplePos (n + 1) k j - (((n * j.1 / (k - 1) : Nat) : ℤ) : ℝ) = 0 := by exact_mod_cast h0
    rw [h0', zero_mul, zero_mul, e _ hle]
  · have e1 := e (n * j.1 / (k - 1) + 1) h
    push_cast at e1 ⊢
    have e0 := e _ hle
    push_cast at e0
    rw [e0, e1]

/-- **C163 (Equidistance).** A spectrum that lies below another one does so after resampling, and a spectrum that never falls, or never rises,
from one column to the next does not do so after resampling. -/
theorem C163_equidistance (hm : 0 < m) (hk : 2 ≤ k) (A : Matrix (Fin m) (Fin (n + 1)) ℝ) :
    ∃ R : Matrix (Fin m) (Fin k) ℝ, equidistance (k : Int) (of A) = .ok (of R) ∧
      (∀ i i', (∀ c, A i c ≤ A i' c) → ∀ j, R i j ≤ R i' j) ∧
      (∀ i, Monotone (A i) → Monotone (R i)) ∧ ∀ i, Antitone (A i) → Antitone (R i) := by
  have hk0 : (0 : ℝ) < (k : ℝ) - 1 := by
    have : (2 : ℝ) ≤ k := by exact_mod_cast hk
    linarith
  have hpos : Monotone fun j : Fin k => samplePos (n + 1) k j := fun j j' h => by
    have h1 : (j.1 : ℝ) ≤ j'.1 := by exact_mod_cast h
    have h2 : (0 : ℝ) ≤ ((n + 1 : Nat) : ℝ) - 1 := by
      push_cast
      have : (0 : ℝ) ≤ n := Nat.cast_nonneg n
      linarith
    simp only [samplePos]
    exact div_le_div_of_nonneg_right (mul_le_mul_of_nonneg_left h1 h2) hk0.le
  have hz : ∀ r : Fin (n + 1) → ℝ, Monotone r → Monotone (clampRowZ r) := fun r hr c d h => hr (by
    simp only [Fin.mk_le_mk]
    omega)
  refine ⟨_, C43_interpolation hm (by omega) hk A, fun i i' h j => ?_, fun i h j j' hj => ?_, fun i h j j' hj => ?_⟩
  · refine interp_le (fun c => ?_) _
    unfold extRow
    split
    · exact h _
    · exact le_rfl
  · simp only [Matrix.of_apply, interp_clamp hk]
    exact interp_mono (hz _ h) (hpos hj)
  · have hn : Monotone (clampRowZ fun c => -A i c) := hz _ fun a b hab => neg_le_neg (h hab)
    have := interp_mono hn (hpos hj)
    have neg : ∀ p, interp (clampRowZ fun c => -A i c) p = -interp (clampRowZ (A i)) p := fun p => by
      unfold interp clampRowZ
      ring
    simp only [neg] at this
    simp only [Matrix.of_apply, interp_clamp hk]
    exact neg_le_neg_iff.1 this

example := C163_equidistance (k := 5) two_pos (by norm_num) (!![1, 2, 4; 3, 2, 1] : Matrix (Fin 2) (Fin 3) ℝ)

end Verif.Props
