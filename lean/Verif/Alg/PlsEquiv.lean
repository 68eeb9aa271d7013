import Verif.Alg.SimplsPls1

/-!
# The PLS1 recursion on rotated and rescaled data
-/

namespace Verif

open Mat
open scoped Matrix

variable {n p : Nat}

theorem sq1_orth {U : Matrix (Fin n) (Fin n) ℝ} (hU : Uᵀ * U = 1) (t : Matrix (Fin n) (Fin 1) ℝ) :
    sq1 (U * t) = sq1 t := by
  rw [← sq1_eq, ← sq1_eq, Matrix.transpose_mul, Matrix.mul_assoc, ← Matrix.mul_assoc Uᵀ, hU, Matrix.one_mul]

theorem orth_cancel {U : Matrix (Fin n) (Fin n) ℝ} (hU : Uᵀ * U = 1) {k : Nat} (M : Matrix (Fin n) (Fin k) ℝ) :
    Uᵀ * (U * M) = M := by rw [← Matrix.mul_assoc, hU, Matrix.one_mul]

theorem orth_cancel' {V : Matrix (Fin n) (Fin n) ℝ} (hV : Vᵀ * V = 1) {k : Nat} (M : Matrix (Fin n) (Fin k) ℝ) :
    V * (Vᵀ * M) = M := by rw [← Matrix.mul_assoc, mul_eq_one_comm.1 hV, Matrix.one_mul]

section equiv

variable {wf wf' : Matrix (Fin n) (Fin p) ℝ → Matrix (Fin p) (Fin 1) ℝ} {U : Matrix (Fin n) (Fin n) ℝ}
  {V : Matrix (Fin p) (Fin p) ℝ} {c d s : ℝ}

/-- The weights of the changed data are the rotated weights, up to sign. -/
def WRel (wf wf' : Matrix (Fin n) (Fin p) ℝ → Matrix (Fin p) (Fin 1) ℝ) (U : Matrix (Fin n) (Fin n) ℝ)
    (V : Matrix (Fin p) (Fin p) ℝ) (d s : ℝ) : Prop :=
  ∀ M, wf' (d • (U * M * V)) = s • (Vᵀ * wf M)

theorem score_equiv (hV : Vᵀ * V = 1) (M : Matrix (Fin n) (Fin p) ℝ) (w : Matrix (Fin p) (Fin 1) ℝ) :
    (d • (U * M * V)) * (s • (Vᵀ * w)) = (d * s) • (U * (M * w)) := by
  rw [Matrix.smul_mul, Matrix.mul_smul, smul_smul, Matrix.mul_assoc, orth_cancel' hV, Matrix.mul_assoc]

theorem loading_equiv (hU : Uᵀ * U = 1) (hd : d ≠ 0) (hs : s * s = 1) (M : Matrix (Fin n) (Fin p) ℝ)
    (t : Matrix (Fin n) (Fin 1) ℝ) :
    loading (d • (U * M * V)) ((d * s) • (U * t)) = s • (Vᵀ * loading M t) := by
  rw [loading_eq, loading_eq, sq1_smul, sq1_orth hU, Matrix.transpose_smul, Matrix.transpose_mul, Matrix.transpose_mul,
    Matrix.smul_mul, Matrix.mul_smul, Matrix.mul_assoc, Matrix.mul_assoc, orth_cancel hU, Matrix.mul_smul, smul_smul,
    smul_smul, smul_smul]
  congr 1
  have e : d * s * (d * s) = d ^ 2 := by rw [mul_mul_mul_comm, hs, mul_one, sq]
  rw [e, mul_inv]
  field_simp

theorem plsX_equiv (hU : Uᵀ * U = 1) (hV : Vᵀ * V = 1) (hd : d ≠ 0) (hs : s * s = 1) (hw : WRel wf wf' U V d s)
    (X : Matrix (Fin n) (Fin p) ℝ) (k : Nat) :
    plsX wf' (d • (U * X * V)) k = d • (U * plsX wf X k * V) := by
  induction k with
  | zero => rfl
  | succ k ih =>
    rw [plsX, ih, hw, score_equiv hV, deflate, loading_equiv hU hd hs, plsX, deflate]
    rw [Matrix.transpose_smul, Matrix.transpose_mul, Matrix.transpose_transpose, Matrix.smul_mul, Matrix.mul_smul,
      smul_smul, mul_assoc, hs, mul_one, ← smul_sub, Matrix.mul_sub, Matrix.sub_mul]
    simp only [Matrix.mul_assoc]

theorem plsW_equiv (hU : Uᵀ * U = 1) (hV : Vᵀ * V = 1) (hd : d ≠ 0) (hs : s * s = 1) (hw : WRel wf wf' U V d s)
    (X : Matrix (Fin n) (Fin p) ℝ) (k : Nat) : plsW wf' (d • (U * X * V)) k = s • (Vᵀ * plsW wf X k) := by
  rw [plsW, plsX_equiv hU hV hd hs hw, hw]; rfl

theorem plsT_equiv (hU : Uᵀ * U = 1) (hV : Vᵀ * V = 1) (hd : d ≠ 0) (hs : s * s = 1) (hw : WRel wf wf' U V d s)
    (X : Matrix (Fin n) (Fin p) ℝ) (k : Nat) : plsT wf' (d • (U * X * V)) k = (d * s) • (U * plsT wf X k) := by
  rw [plsT, plsX_equiv hU hV hd hs hw, plsW_equiv hU hV hd hs hw, score_equiv hV]; rfl

theorem plsP_equiv (hU : Uᵀ * U = 1) (hV : Vᵀ * V = 1) (hd : d ≠ 0) (hs : s * s = 1) (hw : WRel wf wf' U V d s)
    (X : Matrix (Fin n) (Fin p) ℝ) (k : Nat) : plsP wf' (d • (U * X * V)) k = s • (Vᵀ * plsP wf X k) := by
  rw [plsP, plsX_equiv hU hV hd hs hw, plsT_equiv hU hV hd hs hw, loading_equiv hU hd hs]; rfl

theorem plsB_equiv (hU : Uᵀ * U = 1) (hV : Vᵀ * V = 1) (hd : d ≠ 0) (hs : s * s = 1) (hw : WRel wf wf' U V d s)
    (X : Matrix (Fin n) (Fin p) ℝ) (y : Matrix (Fin n) (Fin 1) ℝ) (k : Nat) :
    plsB wf' (d • (U * X * V)) (c • (U * y)) k = s * c / d * plsB wf X y k := by
  have dot : ∀ t u : Matrix (Fin n) (Fin 1) ℝ, ∑ l, t l 0 * u l 0 = (tᵀ * u) 0 0 := fun t u => by
    rw [Matrix.mul_apply]; rfl
  rw [plsB, plsB, plsT_equiv hU hV hd hs hw, sq1_smul, sq1_orth hU, dot, dot, Matrix.transpose_smul,
    Matrix.transpose_mul, Matrix.smul_mul, Matrix.mul_smul, Matrix.mul_assoc, orth_cancel hU, Matrix.smul_apply,
    Matrix.smul_apply, smul_eq_mul, smul_eq_mul]
  have e : d * s * (d * s) = d ^ 2 := by rw [mul_mul_mul_comm, hs, mul_one, sq]
  rw [e]
  by_cases h0 : sq1 (plsT wf X k) = 0
  · rw [h0]; simp
  · field_simp

theorem plsZ_equiv (hU : Uᵀ * U = 1) (hV : Vᵀ * V = 1) (hd : d ≠ 0) (hs : s * s = 1) (hw : WRel wf wf' U V d s)
    (X : Matrix (Fin n) (Fin p) ℝ) {r : Nat} (Z : Matrix (Fin r) (Fin p) ℝ) (k : Nat) :
    plsZ wf' (d • (U * X * V)) (d • (Z * V)) k = d • (plsZ wf X Z k * V) := by
  induction k with
  | zero => rfl
  | succ k ih =>
    rw [plsZ, ih, plsW_equiv hU hV hd hs hw, plsP_equiv hU hV hd hs hw, plsZ]
    have e1 : (d • (plsZ wf X Z k * V)) * (s • (Vᵀ * plsW wf X k)) = (d * s) • (plsZ wf X Z k * plsW wf X k) := by
      rw [Matrix.smul_mul, Matrix.mul_smul, smul_smul, Matrix.mul_assoc, orth_cancel' hV]
    rw [e1, Matrix.transpose_smul, Matrix.transpose_mul, Matrix.transpose_transpose, Matrix.smul_mul, Matrix.mul_smul,
      smul_smul, mul_assoc, hs, mul_one, ← smul_sub, Matrix.sub_mul]
    simp only [Matrix.mul_assoc]

theorem plsS_equiv (hU : Uᵀ * U = 1) (hV : Vᵀ * V = 1) (hd : d ≠ 0) (hs : s * s = 1) (hw : WRel wf wf' U V d s)
    (X : Matrix (Fin n) (Fin p) ℝ) {r : Nat} (Z : Matrix (Fin r) (Fin p) ℝ) (k : Nat) :
    plsS wf' (d • (U * X * V)) (d • (Z * V)) k = (d * s) • plsS wf X Z k := by
  rw [plsS, plsZ_equiv hU hV hd hs hw, plsW_equiv hU hV hd hs hw, Matrix.smul_mul, Matrix.mul_smul, smul_smul,
    Matrix.mul_assoc, orth_cancel' hV]
  rfl

theorem plsFit_equiv (hU : Uᵀ * U = 1) (hV : Vᵀ * V = 1) (hd : d ≠ 0) (hs : s * s = 1) (hw : WRel wf wf' U V d s)
    (K : Nat) (X : Matrix (Fin n) (Fin p) ℝ) (y : Matrix (Fin n) (Fin 1) ℝ) {r : Nat} (Z : Matrix (Fin r) (Fin p) ℝ) :
    plsSM wf' K (d • (U * X * V)) (d • (Z * V)) * plsBM wf' K (d • (U * X * V)) (c • (U * y)) =
      c • (plsSM wf K X Z * plsBM wf K X y) := by
  ext i j
  rw [Matrix.smul_apply, Matrix.mul_apply, Matrix.mul_apply, smul_eq_mul, Finset.mul_sum]
  refine Finset.sum_congr rfl fun k _ => ?_
  show plsS wf' (d • (U * X * V)) (d • (Z * V)) k.1 i 0 * plsB wf' (d • (U * X * V)) (c • (U * y)) k.1 =
    c * (plsS wf X Z k.1 i 0 * plsB wf X y k.1)
  rw [plsS_equiv hU hV hd hs hw, plsB_equiv hU hV hd hs hw, Matrix.smul_apply, smul_eq_mul]
  field_simp
  linear_combination (plsS wf X Z k.1 i 0 * c * plsB wf X y k.1) * hs

end equiv

/-- The weights of PLS1 follow rotations and changes of unit. -/
theorem pls1W_rel {U : Matrix (Fin n) (Fin n) ℝ} {V : Matrix (Fin p) (Fin p) ℝ} (hU : Uᵀ * U = 1) (hV : Vᵀ * V = 1)
    {c d : ℝ} (y : Matrix (Fin n) (Fin 1) ℝ) :
    WRel (pls1W y) (pls1W (c • (U * y))) U V d (c * d / |c * d|) := by
  intro M
  have hVt : Vᵀᵀ * Vᵀ = 1 := by rw [Matrix.transpose_transpose]; exact mul_eq_one_comm.1 hV
  have e : (d • (U * M * V))ᵀ * (c • (U * y)) = (c * d) • (Vᵀ * (Mᵀ * y)) := by
    rw [Matrix.transpose_smul, Matrix.transpose_mul, Matrix.transpose_mul, Matrix.smul_mul, Matrix.mul_smul, smul_smul,
      Matrix.mul_assoc, Matrix.mul_assoc, orth_cancel hU, mul_comm]
  rw [pls1W_eq, pls1W_eq, e, sq1_smul, sq1_orth hVt, Real.sqrt_mul (mul_self_nonneg _), Real.sqrt_mul_self_eq_abs, smul_smul,
    Matrix.mul_smul, smul_smul, mul_inv]
  congr 1
  ring

theorem sign_sq {x : ℝ} (h : x ≠ 0) : x / |x| * (x / |x|) = 1 := by
  have h1 : |x| ≠ 0 := abs_ne_zero.2 h
  field_simp
  rw [sq_abs]

end Verif
