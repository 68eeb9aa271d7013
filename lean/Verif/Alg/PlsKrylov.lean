import Verif.Alg.PLS1
import Mathlib.LinearAlgebra.Span.Basic
import Mathlib.Data.Matrix.Mul

/-!
# PLS1 in terms of the cross products `XᵀX` and `Xᵀy`

The recursion of `PLS1.lean` with the weights of PLS1: the weights are orthonormal, the loadings are two-term combinations of weights, and
the directions `krR` with `X krR k = plsT k` obey a two-term recursion.
-/

namespace Verif
open scoped Matrix

/-- Inner product of two columns. -/
def ip {m : Nat} (a b : Matrix (Fin m) (Fin 1) ℝ) : ℝ := (aᵀ * b) 0 0

section ip
variable {m n : Nat} (a b c : Matrix (Fin m) (Fin 1) ℝ)

theorem ip_sq1 : ip a a = sq1 a := sq1_eq a

theorem ip_comm : ip a b = ip b a := by
  unfold ip
  rw [← Matrix.transpose_apply (aᵀ * b), Matrix.transpose_mul, Matrix.transpose_transpose]

theorem ip_add : ip a (b + c) = ip a b + ip a c := by
  unfold ip
  rw [Matrix.mul_add]; rfl

theorem ip_sub : ip a (b - c) = ip a b - ip a c := by
  unfold ip
  rw [Matrix.mul_sub]; rfl

theorem ip_smul (x : ℝ) : ip a (x • b) = x * ip a b := by
  unfold ip
  rw [Matrix.mul_smul]; rfl

theorem ip_add_self : ip (a + b) (a + b) = ip a a + 2 * ip a b + ip b b := by
  rw [ip_add, ip_comm (a + b) a, ip_comm (a + b) b, ip_add, ip_add, ip_comm b a]
  ring

theorem ip_zero : ip a 0 = 0 := by
  unfold ip
  rw [Matrix.mul_zero]; rfl

theorem ip_sum {ι : Type} (s : Finset ι) (f : ι → Matrix (Fin m) (Fin 1) ℝ) : ip a (∑ i ∈ s, f i) = ∑ i ∈ s, ip a (f i) := by
  unfold ip
  rw [Matrix.mul_sum, Matrix.sum_apply]

theorem ip_mul (M : Matrix (Fin m) (Fin n) ℝ) (v : Matrix (Fin n) (Fin 1) ℝ) : ip a (M * v) = ip (Mᵀ * a) v := by
  unfold ip
  rw [Matrix.transpose_mul, Matrix.transpose_transpose, Matrix.mul_assoc]

theorem ip_self_nonneg : 0 ≤ ip a a := by
  rw [ip_sq1]
  exact Finset.sum_nonneg fun l _ => mul_self_nonneg _

theorem ip_self_eq_zero : ip a a = 0 ↔ a = 0 := by
  rw [ip_sq1]
  constructor
  · intro h
    rw [sq1, Finset.sum_eq_zero_iff_of_nonneg fun l _ => mul_self_nonneg _] at h
    ext i j
    rw [Subsingleton.elim j 0]
    exact mul_self_eq_zero.mp (h i (Finset.mem_univ _))
  · rintro rfl
    simp [sq1]

theorem outer_mul (d : Matrix (Fin n) (Fin 1) ℝ) : a * (dᵀ * d) = ip d d • a := by
  rw [col_gram, ip_sq1, Matrix.mul_smul, Matrix.mul_one]

theorem outer_ip {k : Nat} (t : Matrix (Fin k) (Fin 1) ℝ) : t * (aᵀ * b) = ip a b • t := by
  ext i j
  rw [Subsingleton.elim j 0, Matrix.mul_apply, Fin.sum_univ_one, Matrix.smul_apply, smul_eq_mul, mul_comm]
  rfl

end ip

section krylov
variable {n p : Nat} (X : Matrix (Fin n) (Fin p) ℝ) (y : Matrix (Fin n) (Fin 1) ℝ)

/-- Length of the cross product of the deflated predictors with the response. -/
noncomputable def plsC (k : Nat) : ℝ := Real.sqrt (sq1 ((plsX (pls1W y) X k)ᵀ * y))

theorem plsC_nonneg (k : Nat) : 0 ≤ plsC X y k := Real.sqrt_nonneg _

/-- The cross product is a multiple of the weights. -/
theorem cross_eq (k : Nat) : (plsX (pls1W y) X k)ᵀ * y = plsC X y k • plsW (pls1W y) X k := by
  by_cases h : plsC X y k = 0
  · rw [h, zero_smul, ← ip_self_eq_zero, ip_sq1]
    exact (Real.sqrt_eq_zero (Finset.sum_nonneg fun l _ => mul_self_nonneg _)).mp h
  · ext i j
    rw [Matrix.smul_apply, smul_eq_mul]
    show _ = plsC X y k * (_ / plsC X y k)
    rw [mul_div_cancel₀ _ h]

/-- No weight vanishes before a score does. -/
theorem plsC_pos {k : Nat} (h : sq1 (plsT (pls1W y) X k) ≠ 0) : 0 < plsC X y k := by
  refine lt_of_le_of_ne (plsC_nonneg X y k) fun h0 => h ?_
  have hw : plsW (pls1W y) X k = 0 := by
    ext i j
    show _ / plsC X y k = 0
    rw [← h0, div_zero]
  rw [plsT, hw, Matrix.mul_zero]
  simp [sq1]

/-- The weights have length one. -/
theorem plsW_unit {k : Nat} (h : 0 < plsC X y k) : ip (plsW (pls1W y) X k) (plsW (pls1W y) X k) = 1 := by
  have h1 : ip ((plsX (pls1W y) X k)ᵀ * y) ((plsX (pls1W y) X k)ᵀ * y) = plsC X y k ^ 2 := by
    rw [ip_sq1]
    exact (Real.sq_sqrt (Finset.sum_nonneg fun l _ => mul_self_nonneg _)).symm
  rw [cross_eq, ip_smul, ip_comm, ip_smul] at h1
  have : plsC X y k ≠ 0 := h.ne'
  field_simp at h1
  exact h1

/-- The score and the response. -/
theorem score_y {k : Nat} (h : 0 < plsC X y k) : ip (plsT (pls1W y) X k) y = plsC X y k := by
  rw [ip_comm, plsT, ip_mul, cross_eq, ip_comm, ip_smul, plsW_unit X y h, mul_one]

theorem plsB_eq (k : Nat) (h : 0 < plsC X y k) : plsB (pls1W y) X y k = plsC X y k / sq1 (plsT (pls1W y) X k) := by
  rw [← score_y X y h]
  unfold plsB ip
  rw [Matrix.mul_apply]
  rfl

/-- The weights are orthogonal. -/
theorem plsW_orth {i j : Nat} (hij : i < j) (hi : sq1 (plsT (pls1W y) X i) ≠ 0) (hj : 0 < plsC X y j) :
    ip (plsW (pls1W y) X i) (plsW (pls1W y) X j) = 0 := by
  obtain ⟨d, rfl⟩ : ∃ d, j = i + d + 1 := ⟨j - i - 1, by omega⟩
  have h : ip (plsW (pls1W y) X i) ((plsX (pls1W y) X (i + d + 1))ᵀ * y) = 0 := by
    rw [ip_mul, Matrix.transpose_transpose, plsX_W _ _ _ _ hi, ip_comm, ip_zero]
  rw [cross_eq, ip_smul] at h
  exact (mul_eq_zero.mp h).resolve_left hj.ne'

/-- Ratio of successive cross products. -/
noncomputable def plsG (k : Nat) : ℝ := plsC X y (k + 1) / plsC X y k

theorem plsG_nonneg (k : Nat) : 0 ≤ plsG X y k := div_nonneg (plsC_nonneg ..) (plsC_nonneg ..)

/-- A loading is a combination of two weights. -/
theorem plsP_two {k : Nat} (h : 0 < plsC X y k) :
    plsP (pls1W y) X k = plsW (pls1W y) X k - plsG X y k • plsW (pls1W y) X (k + 1) := by
  have h1 : (plsX (pls1W y) X (k + 1))ᵀ * y = (plsX (pls1W y) X k)ᵀ * y - plsC X y k • plsP (pls1W y) X k := by
    rw [plsX_succ, Matrix.transpose_sub, Matrix.sub_mul, Matrix.transpose_mul, Matrix.transpose_transpose, Matrix.mul_assoc, outer_ip,
      score_y X y h]
  rw [cross_eq, cross_eq] at h1
  have h2 : plsC X y k • plsP (pls1W y) X k = plsC X y k • (plsW (pls1W y) X k - plsG X y k • plsW (pls1W y) X (k + 1)) := by
    rw [smul_sub, smul_smul, plsG, mul_div_cancel₀ _ h.ne', h1]
    abel
  exact smul_right_injective _ h.ne' h2

theorem plsP_W_next {k : Nat} (hk : sq1 (plsT (pls1W y) X k) ≠ 0) (h : 0 < plsC X y (k + 1)) :
    ip (plsP (pls1W y) X k) (plsW (pls1W y) X (k + 1)) = - plsG X y k := by
  rw [plsP_two X y (plsC_pos X y hk), ip_comm, ip_sub, ip_smul, ip_comm, plsW_orth X y (Nat.lt_succ_self k) hk h, plsW_unit X y h]
  ring

theorem plsP_W_far {k j : Nat} (hj : k + 1 < j) (h : ∀ i ≤ j, sq1 (plsT (pls1W y) X i) ≠ 0) :
    ip (plsP (pls1W y) X k) (plsW (pls1W y) X j) = 0 := by
  have hc := plsC_pos X y (h j le_rfl)
  rw [plsP_two X y (plsC_pos X y (h k (by omega))), ip_comm, ip_sub, ip_smul, ip_comm, plsW_orth X y (by omega) (h k (by omega)) hc,
    ip_comm, plsW_orth X y hj (h _ (by omega)) hc]
  ring

/-- Directions in the space of predictors that give the scores. -/
noncomputable def krR : Nat → Matrix (Fin p) (Fin 1) ℝ
  | 0 => plsW (pls1W y) X 0
  | k + 1 => plsW (pls1W y) X (k + 1) + plsG X y k • krR k

/-- The deflated predictors are the predictors minus what the scores explain. -/
theorem plsX_unroll (k : Nat) : plsX (pls1W y) X k =
    X - ∑ i ∈ Finset.range k, plsT (pls1W y) X i * (plsP (pls1W y) X i)ᵀ := by
  induction k with
  | zero => simp [plsX]
  | succ k ih => rw [plsX_succ, Finset.sum_range_succ, ← sub_sub, ← ih]

theorem krR_score {k : Nat} (h : ∀ i ≤ k, sq1 (plsT (pls1W y) X i) ≠ 0) : X * krR X y k = plsT (pls1W y) X k := by
  induction k with
  | zero => rfl
  | succ k ih =>
    rw [krR, Matrix.mul_add, Matrix.mul_smul, ih fun i hi => h i (by omega)]
    show _ = plsX (pls1W y) X (k + 1) * plsW (pls1W y) X (k + 1)
    rw [plsX_unroll, Matrix.sub_mul, Finset.sum_range_succ, Matrix.add_mul, Matrix.sum_mul, Finset.sum_eq_zero, zero_add, Matrix.mul_assoc,
      outer_ip, plsP_W_next X y (h k (by omega)) (plsC_pos X y (h _ le_rfl)), neg_smul, sub_neg_eq_add]
    intro i hi
    rw [Matrix.mul_assoc, outer_ip, plsP_W_far X y (by have := Finset.mem_range.mp hi; omega) h, zero_smul]

/-- The cross products with a score do not need the deflation. -/
theorem cross_score {k : Nat} (h : ∀ i ≤ k, sq1 (plsT (pls1W y) X i) ≠ 0) :
    Xᵀ * plsT (pls1W y) X k = sq1 (plsT (pls1W y) X k) • plsP (pls1W y) X k := by
  have h1 : (plsX (pls1W y) X k)ᵀ * plsT (pls1W y) X k = Xᵀ * plsT (pls1W y) X k := by
    rw [plsX_unroll, Matrix.transpose_sub, Matrix.sub_mul, sub_eq_self, Matrix.transpose_sum, Matrix.sum_mul]
    refine Finset.sum_eq_zero fun i hi => ?_
    have hi := Finset.mem_range.mp hi
    rw [Matrix.transpose_mul, Matrix.transpose_transpose, Matrix.mul_assoc, plsT_orth _ X i k hi fun j hj => h j (by omega), Matrix.mul_zero]
  rw [← h1, plsP, loading_eq, smul_smul, mul_inv_cancel₀ (h k le_rfl), one_smul]

/-- `XᵀX` maps a direction to two weights. -/
theorem gram_R {k : Nat} (h : ∀ i ≤ k, sq1 (plsT (pls1W y) X i) ≠ 0) : Xᵀ * X * krR X y k =
    sq1 (plsT (pls1W y) X k) • (plsW (pls1W y) X k - plsG X y k • plsW (pls1W y) X (k + 1)) := by
  rw [Matrix.mul_assoc, krR_score X y h, cross_score X y h, plsP_two X y (plsC_pos X y (h k le_rfl))]

end krylov

end Verif
