import Verif.Alg.NipalsPls1
import Verif.Props.EigSpec
import Verif.Props.FitQuality
import Mathlib.Algebra.Order.Star.Real

/-!
# C124 — what CCARegression fits for one response

`CCARegression` (`_CCARegression.py`) is NIPALS with pseudo-inverses for the weights and canonical deflation.  With more than
one response training raises (C53), so one response is the case that can be used.
-/

namespace Verif.Props
open Verif Verif.Mat Transf
open scoped Matrix

variable {n p q k r : Nat}

/-! ## Moore-Penrose inverses -/

/-- `G` is the Moore-Penrose inverse of `A`. -/
structure MoorePenrose {a b : Nat} (A : Matrix (Fin a) (Fin b) ℝ) (G : Matrix (Fin b) (Fin a) ℝ) : Prop where
  left : A * G * A = A
  right : G * A * G = G
  symL : (A * G)ᵀ = A * G
  symR : (G * A)ᵀ = G * A

theorem MoorePenrose.unique {a b : Nat} {A : Matrix (Fin a) (Fin b) ℝ} {G H : Matrix (Fin b) (Fin a) ℝ}
    (hG : MoorePenrose A G) (hH : MoorePenrose A H) : G = H := by
  have h1 : A * G = A * H := by
    have : (A * H * (A * G))ᵀ = (A * G)ᵀ := by rw [← Matrix.mul_assoc, hH.left]
    rw [Matrix.transpose_mul, hG.symL, hH.symL, ← Matrix.mul_assoc, hG.left] at this
    exact this.symm
  have h2 : G * A = H * A := by
    have : (G * A * (H * A))ᵀ = (G * A)ᵀ := by rw [Matrix.mul_assoc, ← Matrix.mul_assoc A H A, hH.left]
    rw [Matrix.transpose_mul, hG.symR, hH.symR, Matrix.mul_assoc, ← Matrix.mul_assoc A G A, hG.left] at this
    exact this.symm
  rw [← hG.right, Matrix.mul_assoc, h1, ← Matrix.mul_assoc, h2, hH.right]

/-- Every real matrix has a Moore-Penrose inverse. -/
theorem exists_moorePenrose {a b : Nat} (A : Matrix (Fin a) (Fin b) ℝ) : ∃ G, MoorePenrose A G := by
  obtain ⟨ev, V, hV, hVV⟩ := symm_eig (Aᵀ * A) (by rw [Matrix.transpose_mul, Matrix.transpose_transpose])
  have hVV' : V * Vᵀ = 1 := mul_eq_one_comm.1 hVV
  have hM : Aᵀ * A = V * Matrix.diagonal ev * Vᵀ := by
    rw [← hV.eigen, Matrix.mul_assoc, hVV', Matrix.mul_one]
  set N := V * Matrix.diagonal (fun i => (ev i)⁻¹) * Vᵀ with hN
  have prod : ∀ d e : Fin b → ℝ, V * Matrix.diagonal d * Vᵀ * (V * Matrix.diagonal e * Vᵀ) =
      V * Matrix.diagonal (fun i => d i * e i) * Vᵀ := by
    intro d e
    rw [show V * Matrix.diagonal d * Vᵀ * (V * Matrix.diagonal e * Vᵀ) =
      V * Matrix.diagonal d * (Vᵀ * V) * Matrix.diagonal e * Vᵀ by simp only [Matrix.mul_assoc], hVV, Matrix.mul_one,
      Matrix.mul_assoc V, Matrix.diagonal_mul_diagonal]
  have symm : ∀ d : Fin b → ℝ, (V * Matrix.diagonal d * Vᵀ)ᵀ = V * Matrix.diagonal d * Vᵀ := by
    intro d
    rw [Matrix.transpose_mul, Matrix.transpose_mul, Matrix.transpose_transpose, Matrix.diagonal_transpose, Matrix.mul_assoc]
  have hNt : Nᵀ = N := symm _
  have hMNM : Aᵀ * A * N * (Aᵀ * A) = Aᵀ * A := by
    rw [hM, hN, prod, prod]
    congr 3
    funext i
    by_cases h : ev i = 0
    · simp [h]
    · field_simp
  have hNMN : N * (Aᵀ * A) * N = N := by
    rw [hM, hN, prod, prod]
    congr 3
    funext i
    by_cases h : ev i = 0
    · simp [h]
    · field_simp
  have hANM : A * N * (Aᵀ * A) = A := by
    have hz : (A * N * (Aᵀ * A) - A)ᵀ * (A * N * (Aᵀ * A) - A) = 0 := by
      rw [Matrix.transpose_sub, Matrix.transpose_mul, Matrix.transpose_mul, Matrix.transpose_mul, Matrix.transpose_transpose, hNt,
        Matrix.sub_mul, Matrix.mul_sub, Matrix.mul_sub]
      have e1 : Aᵀ * A * (N * Aᵀ) * (A * N * (Aᵀ * A)) = Aᵀ * A * N * (Aᵀ * A) * N * (Aᵀ * A) := by
        simp only [Matrix.mul_assoc]
      have e2 : Aᵀ * A * (N * Aᵀ) * A = Aᵀ * A * N * (Aᵀ * A) := by simp only [Matrix.mul_assoc]
      have e3 : Aᵀ * (A * N * (Aᵀ * A)) = Aᵀ * A * N * (Aᵀ * A) := by simp only [Matrix.mul_assoc]
      rw [e1, e2, e3, hMNM, hMNM]
      simp
    have := Matrix.conjTranspose_mul_self_eq_zero.1
      (by rw [Matrix.conjTranspose_eq_transpose_of_trivial]; exact hz : (A * N * (Aᵀ * A) - A)ᴴ * (A * N * (Aᵀ * A) - A) = 0)
    exact sub_eq_zero.1 this
  refine ⟨N * Aᵀ, ⟨?_, ?_, ?_, ?_⟩⟩
  · rw [← Matrix.mul_assoc, Matrix.mul_assoc (A * N)]
    exact hANM
  · rw [show N * Aᵀ * A * (N * Aᵀ) = N * (Aᵀ * A) * N * Aᵀ by simp only [Matrix.mul_assoc], hNMN]
  · rw [Matrix.transpose_mul, Matrix.transpose_mul, Matrix.transpose_transpose, hNt, Matrix.mul_assoc]
  · rw [Matrix.mul_assoc, hM, hN, prod, symm]

/-- Contract of `np.linalg.lstsq(A, identity)` and `np.linalg.pinv(A)`: the Moore-Penrose inverse. -/
def PinvRoutine (f : Mat ℝ → Except PyErr (Mat ℝ)) : Prop :=
  ∀ {a b : Nat} (A : Matrix (Fin a) (Fin b) ℝ), ∃ G, f (of A) = .ok (of G) ∧ MoorePenrose A G

theorem PinvRoutine.eq {f : Mat ℝ → Except PyErr (Mat ℝ)} (hf : PinvRoutine f) {a b : Nat} {A : Matrix (Fin a) (Fin b) ℝ}
    {G : Matrix (Fin b) (Fin a) ℝ} (hG : MoorePenrose A G) : f (of A) = .ok (of G) := by
  obtain ⟨H, h1, h2⟩ := hf A
  rw [h1, h2.unique hG]

theorem pinv_col {y : Matrix (Fin n) (Fin 1) ℝ} (hy : sq1 y ≠ 0) : MoorePenrose y ((sq1 y)⁻¹ • yᵀ) := by
  have h : (sq1 y)⁻¹ • yᵀ * y = 1 := by rw [Matrix.smul_mul, col_gram, smul_smul, inv_mul_cancel₀ hy, one_smul]
  refine ⟨?_, ?_, ?_, ?_⟩
  · rw [Matrix.mul_assoc, h, Matrix.mul_one]
  · rw [h, Matrix.one_mul]
  · rw [Matrix.mul_smul, Matrix.transpose_smul, Matrix.transpose_mul, Matrix.transpose_transpose]
  · rw [h, Matrix.transpose_one]

/-- The coefficients `G y` solve the least squares problem and no other solution is shorter. -/
theorem MoorePenrose.least_squares {A : Matrix (Fin n) (Fin p) ℝ} {G : Matrix (Fin p) (Fin n) ℝ} (h : MoorePenrose A G)
    (y : Matrix (Fin n) (Fin 1) ℝ) : Aᵀ * (y - A * (G * y)) = 0 := by
  have : Aᵀ * (A * G) = Aᵀ := by
    have := congrArg Matrix.transpose h.left
    rwa [Matrix.transpose_mul, h.symL] at this
  rw [Matrix.mul_sub, ← Matrix.mul_assoc A, ← Matrix.mul_assoc, this, sub_self]

/-! ## Training -/

section train

/-- Y weights of CCARegression for a score whose regression weight is `v`. -/
noncomputable def ccaV (normY : Bool) (v : Matrix (Fin 1) (Fin 1) ℝ) : Matrix (Fin 1) (Fin 1) ℝ := if normY then shrink v else v

theorem ccaLoop_eq {c : NipalsCfg ℝ} (hc : NipalsReal c) (hcca : c.cca = true) (hp : 0 < p) {X : Matrix (Fin n) (Fin p) ℝ}
    {Y : Matrix (Fin n) (Fin 1) ℝ} {G : Matrix (Fin p) (Fin n) ℝ} {H : Matrix (Fin 1) (Fin n) ℝ}
    (hG : c.inv (of X) = .ok (of G)) (hH : c.inv (of Y) = .ok (of H)) (hw : e16 ≤ sq1 (G * Y)) :
    nipalsLoop c (of X) (of Y) = .ok (of (shrink (G * Y)), of (ccaV c.normY (H * (X * shrink (G * Y)))), 0) := by
  unfold nipalsLoop
  have hg : (of Y).getColumn 0 = .ok (of Y) := by
    have := getColumn_of Y 0
    rw [show (Matrix.of fun i (_ : Fin 1) => Y i 0) = Y from col0_one Y] at this
    exact this
  rw [hg, show Factory.zeros (α := ℝ) ((of X).cols : Int) 1 = .ok (of (0 : Matrix (Fin p) (Fin 1) ℝ)) from
    Factory.zeros_nat hp 1]
  simp only [except_bind_ok]
  have hpass : nipalsPass c (of X) (of Y) (of Y) =
      .ok (of (shrink (G * Y)), of (ccaV c.normY (H * (X * shrink (G * Y))))) := by
    unfold nipalsPass nipalsXWeight nipalsYWeight
    rw [hcca, hG, hH]
    simp only [if_true, mul_of, except_bind_ok, norm2Squared_col, hc.lt]
    rw [if_neg (by simpa using hw)]
    simp only [norm2_col, div_col, mul_of, except_bind_ok]
    rw [show (√(sq1 (G * Y)) + e16)⁻¹ • (G * Y) = shrink (G * Y) from rfl]
    cases hn : c.normY with
    | true =>
      simp only [if_true, mul_of, except_bind_ok]
      rfl
    | false =>
      simp only [Bool.false_eq_true, if_false, mul_of, except_bind_ok]
      rfl
  rw [nipalsIter, hpass]
  simp only [except_bind_ok, sub_of]
  rw [if_pos]
  simp

/-- What the first component leaves in the variables of the training loop. -/
noncomputable def ccaVars (K : Nat) (X : Matrix (Fin n) (Fin p) ℝ) (Y : Matrix (Fin n) (Fin 1) ℝ) (w : Matrix (Fin p) (Fin 1) ℝ)
    (a : ℝ) (stop : Bool) : NipalsVars ℝ :=
  ⟨of (deflate X (X * w)), of (0 : Matrix (Fin n) (Fin 1) ℝ), of (colsUpTo (fun _ => X * w) 1 : Matrix (Fin n) (Fin K) ℝ),
    of (colsUpTo (fun _ => a⁻¹ • Y) 1 : Matrix (Fin n) (Fin K) ℝ), of (colsUpTo (fun _ => w) 1 : Matrix (Fin p) (Fin K) ℝ),
    of (colsUpTo (fun _ => a • (1 : Matrix (Fin 1) (Fin 1) ℝ)) 1 : Matrix (Fin 1) (Fin K) ℝ),
    of (colsUpTo (fun _ => loading X (X * w)) 1 : Matrix (Fin p) (Fin K) ℝ),
    of (colsUpTo (fun _ => a • (1 : Matrix (Fin 1) (Fin 1) ℝ)) 1 : Matrix (Fin 1) (Fin K) ℝ),
    of (a • (1 : Matrix (Fin 1) (Fin 1) ℝ)), stop⟩

theorem ccaStep_eq {c : NipalsCfg ℝ} (hc : NipalsReal c) (hcca : c.cca = true) (hdefl : c.defl = .canonical) (hp : 0 < p)
    (hk : 0 < k) {X : Matrix (Fin n) (Fin p) ℝ} {Y : Matrix (Fin n) (Fin 1) ℝ} {G : Matrix (Fin p) (Fin n) ℝ}
    {H : Matrix (Fin 1) (Fin n) ℝ} (hG : c.inv (of X) = .ok (of G)) (hH : c.inv (of Y) = .ok (of H)) (hw : e16 ≤ sq1 (G * Y))
    (hY : e10 ≤ sq1 Y) (ht : e10 ≤ sq1 (X * shrink (G * Y))) {a : ℝ} (ha : a ≠ 0)
    (hv : ccaV c.normY (H * (X * shrink (G * Y))) = a • 1) :
    nipalsStep c 0 ⟨of X, of Y, of (0 : Matrix (Fin n) (Fin k) ℝ), of (0 : Matrix (Fin n) (Fin k) ℝ),
      of (0 : Matrix (Fin p) (Fin k) ℝ), of (0 : Matrix (Fin 1) (Fin k) ℝ), of (0 : Matrix (Fin p) (Fin k) ℝ),
      of (0 : Matrix (Fin 1) (Fin k) ℝ), of (0 : Matrix (Fin 1) (Fin 1) ℝ), false⟩ =
      .ok (ccaVars k X Y (shrink (G * Y)) a false) := by
  have h1 : c.lt (sq1 Y) e10 = false := by
    rw [hc.lt]
    simpa using hY
  have h2 : c.lt (sq1 (X * shrink (G * Y))) e10 = false := by
    rw [hc.lt]
    simpa using ht
  have hY0 : sq1 Y ≠ 0 := (lt_of_lt_of_le e10_pos hY).ne'
  have hs1 : sq1 (a • (1 : Matrix (Fin 1) (Fin 1) ℝ)) = a * a := by simp [sq1]
  have hu : (a * a)⁻¹ • (Y * (a • (1 : Matrix (Fin 1) (Fin 1) ℝ))) = a⁻¹ • Y := by
    rw [Matrix.mul_smul, Matrix.mul_one, smul_smul]
    congr 1
    field_simp
  have hl : (sq1 (a⁻¹ • Y))⁻¹ • (Yᵀ * (a⁻¹ • Y)) = a • (1 : Matrix (Fin 1) (Fin 1) ℝ) := by
    rw [sq1_smul, Matrix.mul_smul, col_gram, smul_smul, smul_smul]
    congr 1
    field_simp
  have hd : Y - a⁻¹ • Y * (a • (1 : Matrix (Fin 1) (Fin 1) ℝ))ᵀ = 0 := by
    rw [Matrix.transpose_smul, Matrix.transpose_one, Matrix.mul_smul, Matrix.mul_one, smul_smul, mul_inv_cancel₀ ha, one_smul,
      sub_self]
  unfold nipalsStep
  simp only [Bool.false_eq_true, if_false, transpose_of, mul_of, except_bind_ok, col_gram, all_one, h1]
  rw [ccaLoop_eq hc hcca hp hG hH hw, hv]
  simp only [except_bind_ok, mul_of, norm2Squared_col, div_col, hs1, hu, h2]
  unfold deflateY
  rw [hdefl]
  simp only [Bool.false_eq_true, if_false, transpose_of, mul_of, except_bind_ok, sub_of, norm2Squared_col, div_col, hl, hd]
  have hset : ∀ {m : Nat} (v : Matrix (Fin m) (Fin 1) ℝ), (of (0 : Matrix (Fin m) (Fin k) ℝ)).setColumn 0 (of v) =
      .ok (of (colsUpTo (fun _ => v) 1 : Matrix (Fin m) (Fin k) ℝ)) := by
    intro m v
    have := colsUpTo_set (fun _ => v) 0 hk
    rw [colsUpTo_zero] at this
    exact this
  simp only [hset, except_bind_ok, ← loading_eq]
  rfl

/-- The variables before component `j`. -/
noncomputable def ccaState (K : Nat) (X : Matrix (Fin n) (Fin p) ℝ) (Y : Matrix (Fin n) (Fin 1) ℝ) (w : Matrix (Fin p) (Fin 1) ℝ)
    (a : ℝ) : Nat → NipalsVars ℝ
  | 0 => ⟨of X, of Y, of (0 : Matrix (Fin n) (Fin K) ℝ), of (0 : Matrix (Fin n) (Fin K) ℝ), of (0 : Matrix (Fin p) (Fin K) ℝ),
      of (0 : Matrix (Fin 1) (Fin K) ℝ), of (0 : Matrix (Fin p) (Fin K) ℝ), of (0 : Matrix (Fin 1) (Fin K) ℝ),
      of (0 : Matrix (Fin 1) (Fin 1) ℝ), false⟩
  | 1 => ccaVars K X Y w a false
  | _ + 2 => ccaVars K X Y w a true

/-- The second component finds nothing left of the response and ends the loop. -/
theorem ccaStop {c : NipalsCfg ℝ} (hc : NipalsReal c) (K : Nat) (X : Matrix (Fin n) (Fin p) ℝ) (Y : Matrix (Fin n) (Fin 1) ℝ)
    (w : Matrix (Fin p) (Fin 1) ℝ) (a : ℝ) (j : Nat) (hj : 0 < j) :
    nipalsStep c (j : Int) (ccaState K X Y w a j) = .ok (ccaState K X Y w a (j + 1)) := by
  match j, hj with
  | 1, _ =>
    show nipalsStep c _ (ccaVars K X Y w a false) = .ok (ccaVars K X Y w a true)
    have h0 : c.lt (0 : ℝ) e10 = true := by
      rw [hc.lt]
      simpa using e10_pos
    have h1 : (of ((0 : Matrix (Fin n) (Fin 1) ℝ)ᵀ * (0 : Matrix (Fin n) (Fin 1) ℝ))).all (fun e => c.lt e e10) = true := by
      rw [col_gram, all_one, show sq1 (0 : Matrix (Fin n) (Fin 1) ℝ) = 0 from (sq1_eq_zero _).2 rfl, h0]
    unfold nipalsStep ccaVars
    simp only [Bool.false_eq_true, if_false, transpose_of, mul_of, except_bind_ok]
    rw [if_pos h1]
  | j + 2, _ =>
    show nipalsStep c _ (ccaVars K X Y w a true) = .ok (ccaVars K X Y w a true)
    unfold nipalsStep
    exact if_pos rfl

/-- The projection on the first coordinate. -/
def unit1 (K : Nat) : Matrix (Fin K) (Fin K) ℝ := Matrix.of fun i j => if i.1 < 1 ∧ j.1 < 1 then 1 else 0

theorem unit1_colsUpTo {m : Nat} (A B : Matrix (Fin m) (Fin 1) ℝ) (h : Aᵀ * B = 1) :
    (colsUpTo (fun _ => A) 1 : Matrix (Fin m) (Fin k) ℝ)ᵀ * colsUpTo (fun _ => B) 1 = unit1 k := by
  ext i j
  have h0 := congrFun (congrFun h 0) 0
  rw [Matrix.mul_apply] at h0
  rw [Matrix.mul_apply]
  simp only [Matrix.transpose_apply, colsUpTo, unit1, Matrix.of_apply]
  by_cases hi : i.1 < 1
  · by_cases hj : j.1 < 1
    · simpa [hi, hj] using h0
    · simp [hj]
  · simp [hi]

theorem colsUpTo_unit1 {m : Nat} (A : Matrix (Fin m) (Fin 1) ℝ) :
    (colsUpTo (fun _ => A) 1 : Matrix (Fin m) (Fin (k + 1)) ℝ) * unit1 (k + 1) = colsUpTo (fun _ => A) 1 := by
  ext i j
  rw [Matrix.mul_apply, Fin.sum_univ_succ, Finset.sum_eq_zero]
  · simp [colsUpTo, unit1]
  · intro l _
    simp [colsUpTo]

theorem colsUpTo_mul {m : Nat} (A : Matrix (Fin m) (Fin 1) ℝ) (B : Matrix (Fin q) (Fin 1) ℝ) :
    (colsUpTo (fun _ => A) 1 : Matrix (Fin m) (Fin (k + 1)) ℝ) * (colsUpTo (fun _ => B) 1)ᵀ = A * Bᵀ := by
  ext i j
  rw [Matrix.mul_apply, Matrix.mul_apply, Fin.sum_univ_succ, Finset.sum_eq_zero]
  · simp [colsUpTo]
  · intro l _
    simp [colsUpTo]

theorem unit1_pinv : MoorePenrose (unit1 (k + 1)) (unit1 (k + 1)) := by
  have h : unit1 (k + 1) * unit1 (k + 1) = unit1 (k + 1) := by
    have : unit1 (k + 1) = (colsUpTo (fun _ => (1 : Matrix (Fin 1) (Fin 1) ℝ)) 1 : Matrix (Fin 1) (Fin (k + 1)) ℝ)ᵀ *
        colsUpTo (fun _ => (1 : Matrix (Fin 1) (Fin 1) ℝ)) 1 := (unit1_colsUpTo _ _ (by simp)).symm
    conv_lhs => rw [this]
    rw [Matrix.mul_assoc, ← this, colsUpTo_unit1, this]
  have ht : (unit1 (k + 1))ᵀ = unit1 (k + 1) := by
    ext i j
    simp [unit1, and_comm]
  exact ⟨by rw [h, h], by rw [h, h], by rw [h, ht], by rw [h, ht]⟩

end train

/-! ## Predictions -/

theorem sq1_std (hn : 2 ≤ n) (y : Matrix (Fin n) (Fin 1) ℝ) (hy : sd (fun i => y i 0) ≠ 0) : sq1 (std y y) = (n - 1 : Nat) := by
  have hd : divisor y 0 = sd fun i => y i 0 := if_neg fun h => hy h.2
  have hn' : ((n - 1 : Nat) : ℝ) ≠ 0 := by
    rw [Nat.cast_ne_zero]
    omega
  have h2 : sd (fun i => y i 0) * sd (fun i => y i 0) = (∑ i, (y i 0 - mu fun i => y i 0) ^ 2) / ((n - 1 : Nat) : ℝ) :=
    Real.mul_self_sqrt (div_nonneg (Finset.sum_nonneg fun i _ => sq_nonneg _) (Nat.cast_nonneg _))
  have h3 : sq1 (std y y) = (∑ i, (y i 0 - mu fun i => y i 0) ^ 2) / (sd (fun i => y i 0) * sd (fun i => y i 0)) := by
    rw [Finset.sum_div]
    unfold sq1
    refine Finset.sum_congr rfl fun i _ => ?_
    show (y i 0 - mu fun i => y i 0) / divisor y 0 * ((y i 0 - mu fun i => y i 0) / divisor y 0) = _
    rw [hd]
    field_simp
  have h4 : (∑ i, (y i 0 - mu fun i => y i 0) ^ 2) = sd (fun i => y i 0) * sd (fun i => y i 0) * ((n - 1 : Nat) : ℝ) := by
    rw [h2]
    field_simp
  rw [h3, h4]
  field_simp

/-- The factor by which CCARegression multiplies the least-squares coefficients `b` of the standardised data. -/
noncomputable def ccaFactor (normY : Bool) (X : Matrix (Fin n) (Fin p) ℝ) (y : Matrix (Fin n) (Fin 1) ℝ)
    (b : Matrix (Fin p) (Fin 1) ℝ) : ℝ :=
  let s := sq1 (X * b) / sq1 y / (Real.sqrt (sq1 b) + e16)
  (if normY then s / (s + e16) else s) / (Real.sqrt (sq1 b) + e16)

/-- **C124, predictions.**  With one response, as many components as wanted and unless the response is constant or practically
unrelated to the predictors, CCARegression trains, and its predictions and scores are those of the minimum-norm least-squares
coefficients `b = G y` of the standardised data multiplied by a number. -/
theorem C124_predictions {c : NipalsCfg ℝ} (hc : NipalsReal c) (hcca : c.cca = true) (hdefl : c.defl = .canonical)
    {lstsq : Mat ℝ → Except PyErr (Mat ℝ)} (hinv : c.inv = inverse lstsq) (hls : PinvRoutine lstsq) (hpinv : PinvRoutine c.pinv)
    (hK : c.K = ((k + 1 : Nat) : Int)) (hn : 2 ≤ n) (hnp : n ≠ p + 1) (X : Matrix (Fin n) (Fin (p + 1)) ℝ)
    (y : Matrix (Fin n) (Fin 1) ℝ) (hy : sd (fun i => y i 0) ≠ 0) {G : Matrix (Fin (p + 1)) (Fin n) ℝ}
    (hG : MoorePenrose (std X X) G) (hb : e16 ≤ sq1 (G * std y y))
    (ht : e10 * (Real.sqrt (sq1 (G * std y y)) + e16) ^ 2 ≤ sq1 (std X X * (G * std y y))) :
    ∃ m, nipalsTrain c (of X) (of y) = .ok m ∧ ∀ {r : Nat} (Z : Matrix (Fin r) (Fin (p + 1)) ℝ),
      nipalsPredict c m (of Z) = .ok (of (Matrix.of fun i (_ : Fin 1) => (mu fun i => y i 0) + sd (fun i => y i 0) *
        (ccaFactor c.normY (std X X) (std y y) (G * std y y) * (std X Z * (G * std y y)) i 0))) ∧
      nipalsTransform c m (of Z) = .ok (of (colsUpTo (fun _ =>
        (Real.sqrt (sq1 (G * std y y)) + e16)⁻¹ • (std X Z * (G * std y y))) 1 : Matrix (Fin r) (Fin (k + 1)) ℝ)) := by
  set b := G * std y y with hbdef
  set N := Real.sqrt (sq1 b) + e16 with hN
  have hN0 : 0 < N := add_pos_of_nonneg_of_pos (Real.sqrt_nonneg _) e16_pos
  have hsy := sq1_std hn y hy
  have hsy1 : (1 : ℝ) ≤ sq1 (std y y) := by
    rw [hsy, Nat.one_le_cast]
    omega
  have hsy0 : sq1 (std y y) ≠ 0 := by linarith
  have hw : shrink b = N⁻¹ • b := rfl
  have ht1 : std X X * shrink b = N⁻¹ • (std X X * b) := by rw [hw, Matrix.mul_smul]
  have hst : e10 ≤ sq1 (std X X * shrink b) := by
    rw [ht1, sq1_smul, ← mul_inv, inv_mul_eq_div, le_div_iff₀ (by positivity)]
    linarith [sq N]
  have hst0 : sq1 (std X X * shrink b) ≠ 0 := (lt_of_lt_of_le e10_pos hst).ne'
  have hsx0 : 0 < sq1 (std X X * b) := lt_of_lt_of_le (by have := e10_pos; positivity) ht
  -- `y^T X b = |X b|^2`
  have hdot : (std y y)ᵀ * (std X X * b) = sq1 (std X X * b) • 1 := by
    have h0 := congrArg (fun M => bᵀ * M) (hG.least_squares (std y y))
    simp only [Matrix.mul_zero] at h0
    rw [← Matrix.mul_assoc, ← Matrix.transpose_mul, Matrix.mul_sub, ← hbdef, col_gram, sub_eq_zero] at h0
    have := congrArg Matrix.transpose h0
    rwa [Matrix.transpose_mul, Matrix.transpose_transpose, Matrix.transpose_smul, Matrix.transpose_one] at this
  have hH : c.inv (of (std y y)) = .ok (of ((sq1 (std y y))⁻¹ • (std y y)ᵀ)) := by
    rw [hinv]
    unfold inverse
    rw [dif_neg (by show ¬ n = 1; omega)]
    exact hls.eq (pinv_col hsy0)
  have hGi : c.inv (of (std X X)) = .ok (of G) := by
    rw [hinv]
    unfold inverse
    rw [dif_neg hnp]
    exact hls.eq hG
  set s := sq1 (std X X * b) / sq1 (std y y) / N with hs
  have hs0 : 0 < s := by positivity
  have hv0 : ((sq1 (std y y))⁻¹ • (std y y)ᵀ) * (std X X * shrink b) = s • 1 := by
    rw [ht1, Matrix.smul_mul, Matrix.mul_smul, hdot, smul_smul, smul_smul, hs]
    congr 1
    field_simp
  set a := if c.normY then s / (s + e16) else s with ha
  have ha0 : a ≠ 0 := by
    have := e16_pos
    rw [ha]
    split
    · positivity
    · exact hs0.ne'
  have hv : ccaV c.normY (((sq1 (std y y))⁻¹ • (std y y)ᵀ) * (std X X * shrink b)) = a • 1 := by
    rw [hv0, ccaV, ha]
    cases c.normY with
    | false => rfl
    | true =>
      show shrink (s • 1) = (s / (s + e16)) • 1
      rw [shrink, show sq1 (s • (1 : Matrix (Fin 1) (Fin 1) ℝ)) = s * s by simp [sq1], Real.sqrt_mul_self hs0.le, smul_smul,
        inv_mul_eq_div]
  have hcons : (loading (std X X) (std X X * shrink b))ᵀ * shrink b = 1 := by
    rw [loading_eq, Matrix.transpose_smul, Matrix.transpose_mul, Matrix.transpose_transpose, Matrix.smul_mul, Matrix.mul_assoc,
      col_gram, smul_smul, inv_mul_cancel₀ hst0, one_smul]
  have hloop : loopM (nipalsStep c) (pyRange 0 ((k + 1 : Nat) : Int)) (ccaState (k + 1) (std X X) (std y y) (shrink b) a 0) =
      .ok (ccaState (k + 1) (std X X) (std y y) (shrink b) a (k + 1)) := by
    refine loopM_range _ (ccaState (k + 1) (std X X) (std y y) (shrink b) a) (k + 1) fun j _ => ?_
    rcases Nat.eq_zero_or_pos j with rfl | hj
    · exact ccaStep_eq hc hcca hdefl (by omega) (by omega) hGi hH hb (by
        refine le_trans ?_ hsy1
        unfold e10
        norm_num) hst ha0 hv
    · exact ccaStop hc _ _ _ _ _ j hj
  obtain ⟨stop, hstate⟩ : ∃ stop, ccaState (k + 1) (std X X) (std y y) (shrink b) a (k + 1) =
      ccaVars (k + 1) (std X X) (std y y) (shrink b) a stop := by
    cases k with
    | zero => exact ⟨false, rfl⟩
    | succ k => exact ⟨true, rfl⟩
  refine ⟨⟨stdState X, stdState y, ccaVars (k + 1) (std X X) (std y y) (shrink b) a stop,
    of (colsUpTo (fun _ => shrink b) 1 : Matrix (Fin (p + 1)) (Fin (k + 1)) ℝ), ⟨1, 1, Matrix.of fun _ _ => 1⟩,
    of (divisor y 0 • (a • shrink b))⟩, ?_, fun Z => ⟨?_, ?_⟩⟩
  · unfold nipalsTrain
    rw [std_fit c.isZero hc.zero X, std_fit (p := 0) c.isZero hc.zero y]
    simp only [except_bind_ok]
    rw [nipalsInit_eq c hK (by omega) (by omega) (by omega)]
    simp only [except_bind_ok]
    rw [hK]
    show (loopM (nipalsStep c) (pyRange 0 ((k + 1 : Nat) : Int)) (ccaState (k + 1) (std X X) (std y y) (shrink b) a 0) >>= fun s => _) = _
    rw [hloop, hstate]
    simp only [except_bind_ok]
    unfold nipalsRot nipalsYRot ccaVars
    simp only [transpose_of, mul_of, except_bind_ok]
    rw [unit1_colsUpTo _ _ hcons, hpinv.eq unit1_pinv]
    simp only [except_bind_ok, mul_of]
    rw [colsUpTo_unit1, if_neg (by show ¬ 1 < 1; omega)]
    simp only [except_bind_ok, stdState]
    rw [colsUpTo_mul, scale_row_one _ (Matrix.of fun (_ : Fin 1) (j : Fin 1) => divisor y j)]
    rw [Matrix.transpose_smul, Matrix.transpose_one, Matrix.mul_smul, Matrix.mul_one]
    rfl
  · unfold nipalsPredict
    rw [std_do]
    simp only [except_bind_ok, stdState, mul_of]
    unfold addByVector
    rw [vectorOp_row]
    congr 1
    refine mk_congr fun i j => ?_
    rw [Subsingleton.elim j 0, show divisor y 0 = sd fun i => y i 0 from if_neg fun h => hy h.2, Matrix.mul_smul, Matrix.mul_smul,
      hw, Matrix.mul_smul]
    show sd (fun i => y i 0) * (a * (N⁻¹ * (std X Z * b) i 0)) + (mu fun k => y k 0) = _
    rw [show ccaFactor c.normY (std X X) (std y y) b = a / N from rfl]
    show _ = (mu fun k => y k 0) + sd (fun i => y i 0) * (a / N * (std X Z * b) i 0)
    ring
  · unfold nipalsTransform
    rw [std_do]
    simp only [except_bind_ok, mul_of]
    congr 2
    ext i j
    rw [Matrix.mul_apply]
    simp only [colsUpTo, Matrix.of_apply, hw, Matrix.smul_apply, smul_eq_mul]
    by_cases hj : j.1 < 1
    · simp only [hj, if_true]
      rw [Matrix.mul_apply, Finset.mul_sum]
      exact Finset.sum_congr rfl fun l _ => by ring
    · simp [hj]

/-! ## Correlation, scale, failures -/

/-- **C124, correlation.**  The training score is the combination of the predictors with the highest squared correlation with the
response: no coefficients `v` do better. -/
theorem C124_correlation {c : NipalsCfg ℝ} (hc : NipalsReal c) (hcca : c.cca = true) (hdefl : c.defl = .canonical)
    {lstsq : Mat ℝ → Except PyErr (Mat ℝ)} (hinv : c.inv = inverse lstsq) (hls : PinvRoutine lstsq) (hpinv : PinvRoutine c.pinv)
    (hK : c.K = ((k + 1 : Nat) : Int)) (hn : 2 ≤ n) (hnp : n ≠ p + 1) (X : Matrix (Fin n) (Fin (p + 1)) ℝ)
    (y : Matrix (Fin n) (Fin 1) ℝ) (hy : sd (fun i => y i 0) ≠ 0) {G : Matrix (Fin (p + 1)) (Fin n) ℝ}
    (hG : MoorePenrose (std X X) G) (hb : e16 ≤ sq1 (G * std y y))
    (ht : e10 * (Real.sqrt (sq1 (G * std y y)) + e16) ^ 2 ≤ sq1 (std X X * (G * std y y))) :
    ∃ m, ∃ T : Matrix (Fin n) (Fin (k + 1)) ℝ, nipalsTrain c (of X) (of y) = .ok m ∧ nipalsTransform c m (of X) = .ok (of T) ∧
      (∃ i, T i 0 ≠ 0) ∧ ∀ v : Fin (p + 1) → ℝ,
        (∑ i, std y y i 0 * ∑ j, std X X i j * v j) ^ 2 * (∑ i, T i 0 ^ 2) ≤
          (∑ i, std y y i 0 * T i 0) ^ 2 * ∑ i, (∑ j, std X X i j * v j) ^ 2 := by
  obtain ⟨m, hm, hpred⟩ := C124_predictions hc hcca hdefl hinv hls hpinv hK hn hnp X y hy hG hb ht
  set N := Real.sqrt (sq1 (G * std y y)) + e16 with hN
  have hN0 : 0 < N := add_pos_of_nonneg_of_pos (Real.sqrt_nonneg _) e16_pos
  refine ⟨m, _, hm, (hpred X).2, ?_, fun v => ?_⟩
  · by_contra hz
    push Not at hz
    have : sq1 (std X X * (G * std y y)) = 0 := by
      refine (sq1_eq_zero _).2 ?_
      ext i j
      rw [Subsingleton.elim j 0]
      have := hz i
      simp only [colsUpTo, Fin.val_zero, Nat.lt_one_iff, if_true, Matrix.of_apply, Matrix.smul_apply, smul_eq_mul] at this
      rcases mul_eq_zero.1 this with h | h
      · exact absurd h (inv_ne_zero hN0.ne')
      · exact h
    rw [this] at ht
    have := e10_pos
    have : 0 < e10 * N ^ 2 := by positivity
    linarith
  · set b := G * std y y with hbd
    set f : Fin n → ℝ := fun i => (std X X * b) i 0 with hf
    set g : Fin n → ℝ := fun i => ∑ j, std X X i j * v j with hg
    have horth : ∀ w : Fin (p + 1) → ℝ, ∑ i, (std y y i 0 - f i) * ∑ j, std X X i j * w j = 0 := by
      intro w
      have h0 := hG.least_squares (std y y)
      have h1 : ∀ j, ∑ i, std X X i j * (std y y i 0 - f i) = 0 := by
        intro j
        have := congrFun (congrFun h0 j) 0
        rw [Matrix.mul_apply] at this
        exact this
      calc ∑ i, (std y y i 0 - f i) * ∑ j, std X X i j * w j
          = ∑ j, w j * ∑ i, std X X i j * (std y y i 0 - f i) := by
            simp only [Finset.mul_sum]
            rw [Finset.sum_comm]
            exact Finset.sum_congr rfl fun j _ => Finset.sum_congr rfl fun i _ => by ring
        _ = 0 := Finset.sum_eq_zero fun j _ => by rw [h1, mul_zero]
    have h1 : ∑ i, std y y i 0 * g i = ∑ i, f i * g i := by
      have := horth v
      simp only [sub_mul, Finset.sum_sub_distrib] at this
      exact sub_eq_zero.1 this
    have h2 : ∑ i, std y y i 0 * f i = ∑ i, f i * f i := by
      have := horth fun j => b j 0
      simp only [sub_mul, Finset.sum_sub_distrib] at this
      have hfe : ∀ i, ∑ j, std X X i j * b j 0 = f i := fun i => by rw [hf]; exact (Matrix.mul_apply).symm
      simp only [hfe] at this
      exact sub_eq_zero.1 this
    have hT : ∀ i, (colsUpTo (fun _ => N⁻¹ • (std X X * b)) 1 : Matrix (Fin n) (Fin (k + 1)) ℝ) i 0 = N⁻¹ * f i := by
      intro i
      simp [colsUpTo, hf]
    have h3 : ∑ i, std y y i 0 * (N⁻¹ * f i) = N⁻¹ * ∑ i, f i * f i := by
      rw [← h2, Finset.mul_sum]
      exact Finset.sum_congr rfl fun i _ => by ring
    have h4 : ∑ i, (N⁻¹ * f i) ^ 2 = N⁻¹ ^ 2 * ∑ i, f i * f i := by
      rw [Finset.mul_sum]
      exact Finset.sum_congr rfl fun i _ => by ring
    have hcs : (∑ i, f i * g i) ^ 2 ≤ (∑ i, f i * f i) * ∑ i, g i ^ 2 := by
      have := Finset.sum_mul_sq_le_sq_mul_sq Finset.univ f g
      simpa [sq] using this
    simp only [hT]
    show (∑ i, std y y i 0 * g i) ^ 2 * _ ≤ _ * ∑ i, g i ^ 2
    rw [h3, h4, h1]
    have hff : 0 ≤ ∑ i, f i * f i := Finset.sum_nonneg fun i _ => mul_self_nonneg _
    have := mul_le_mul_of_nonneg_left hcs (mul_nonneg (sq_nonneg N⁻¹) hff)
    calc _ = N⁻¹ ^ 2 * (∑ i, f i * f i) * (∑ i, f i * g i) ^ 2 := by ring
      _ ≤ _ := this
      _ = _ := by ring

/-- **C124, scale.**  For uncorrelated predictors the factor is 1 up to the `1e-16` added to the norm of the weights: the
predictions are those of least squares. -/
theorem C124_uncorrelated (hn : 2 ≤ n) (X : Matrix (Fin n) (Fin (p + 1)) ℝ) (y : Matrix (Fin n) (Fin 1) ℝ)
    (hy : sd (fun i => y i 0) ≠ 0) (hX : (std X X)ᵀ * std X X = ((n - 1 : Nat) : ℝ) • 1) (b : Matrix (Fin (p + 1)) (Fin 1) ℝ) :
    ccaFactor false (std X X) (std y y) b = (Real.sqrt (sq1 b) / (Real.sqrt (sq1 b) + e16)) ^ 2 := by
  have hn' : ((n - 1 : Nat) : ℝ) ≠ 0 := by
    rw [Nat.cast_ne_zero]
    omega
  have h1 : sq1 (std X X * b) = ((n - 1 : Nat) : ℝ) * sq1 b := by
    have := col_gram (std X X * b)
    rw [Matrix.transpose_mul, Matrix.mul_assoc, ← Matrix.mul_assoc (std X X)ᵀ, hX, Matrix.smul_mul, Matrix.one_mul, Matrix.mul_smul,
      col_gram, smul_smul] at this
    have := congrFun (congrFun this 0) 0
    simpa using this.symm
  have hN0 : 0 < Real.sqrt (sq1 b) + e16 := add_pos_of_nonneg_of_pos (Real.sqrt_nonneg _) e16_pos
  unfold ccaFactor
  simp only [Bool.false_eq_true, if_false]
  rw [h1, sq1_std hn y hy, div_pow, Real.sq_sqrt (sq1_nonneg _)]
  field_simp

/-- One predictor that varies is such a case. -/
example (hn : 2 ≤ n) (x y : Matrix (Fin n) (Fin 1) ℝ) (hx : sd (fun i => x i 0) ≠ 0) (hy : sd (fun i => y i 0) ≠ 0)
    (b : Matrix (Fin 1) (Fin 1) ℝ) :
    ccaFactor false (std x x) (std y y) b = (Real.sqrt (sq1 b) / (Real.sqrt (sq1 b) + e16)) ^ 2 :=
  C124_uncorrelated (p := 0) hn x y hy (by rw [col_gram, sq1_std hn x hx]) b

/-- **C124 fails for correlated predictors.**  A predictor given twice reproduces the response exactly, but CCARegression predicts
the training responses (almost) twice as large. -/
theorem C124_violation {c : NipalsCfg ℝ} (hc : NipalsReal c) (hcca : c.cca = true) (hdefl : c.defl = .canonical)
    {lstsq : Mat ℝ → Except PyErr (Mat ℝ)} (hinv : c.inv = inverse lstsq) (hls : PinvRoutine lstsq) (hpinv : PinvRoutine c.pinv)
    (hK : c.K = ((k + 1 : Nat) : Int)) (hnorm : c.normY = false) :
    let X : Matrix (Fin 3) (Fin 2) ℝ := !![-1, -1; 0, 0; 1, 1]
    let y : Matrix (Fin 3) (Fin 1) ℝ := !![-1; 0; 1]
    (∀ i, y i 0 = 1 / 2 * X i 0 + 1 / 2 * X i 1) ∧
    ∃ m, ∃ P : Matrix (Fin 3) (Fin 1) ℝ, nipalsTrain c (of X) (of y) = .ok m ∧ nipalsPredict c m (of X) = .ok (of P) ∧
      P 0 0 < -1.99 ∧ P 1 0 = 0 ∧ 1.99 < P 2 0 := by
  intro X y
  have hmu : ∀ f : Fin 3 → ℝ, mu f = (f 0 + f 1 + f 2) / 3 := by
    intro f
    unfold mu
    rw [Fin.sum_univ_three]
    norm_num
  have hsd : ∀ f : Fin 3 → ℝ, f 0 = -1 → f 1 = 0 → f 2 = 1 → mu f = 0 ∧ sd f = 1 := by
    intro f h0 h1 h2
    have hm : mu f = 0 := by
      rw [hmu, h0, h1, h2]
      norm_num
    refine ⟨hm, ?_⟩
    unfold sd
    rw [hm, Fin.sum_univ_three, h0, h1, h2]
    norm_num
  have hyy := hsd (fun i => y i 0) (by simp [y]) (by simp [y]) (by simp [y])
  have hxx : ∀ j, mu (fun i => X i j) = 0 ∧ sd (fun i => X i j) = 1 := by
    intro j
    fin_cases j
    · exact hsd _ (by simp [X]) (by simp [X]) (by simp [X])
    · exact hsd _ (by simp [X]) (by simp [X]) (by simp [X])
  have hstd : ∀ {a : Nat} (A : Matrix (Fin 3) (Fin a) ℝ), (∀ j, mu (fun i => A i j) = 0 ∧ sd (fun i => A i j) = 1) →
      std A A = A := by
    intro a A h
    ext i j
    show (A i j - mu fun i => A i j) / divisor A j = A i j
    rw [show divisor A j = 1 from (if_neg fun h' => by rw [(h j).2] at h'; exact one_ne_zero h'.2).trans (h j).2, (h j).1]
    simp
  have hX := hstd X hxx
  have hY := hstd y fun j => by
    rw [Subsingleton.elim j 0]
    exact hyy
  set G : Matrix (Fin 2) (Fin 3) ℝ := (1 / 4 : ℝ) • Xᵀ with hGdef
  have hXX : Xᵀ * X = !![2, 2; 2, 2] := by
    ext i j
    fin_cases i <;> fin_cases j <;> simp [X, Matrix.mul_apply, Fin.sum_univ_three] <;> norm_num
  have hG : MoorePenrose (std X X) G := by
    rw [hX]
    refine ⟨?_, ?_, ?_, ?_⟩
    · rw [hGdef, Matrix.mul_assoc, Matrix.smul_mul, hXX]
      ext i j
      fin_cases i <;> fin_cases j <;> simp [X, Matrix.mul_apply, Fin.sum_univ_two] <;> norm_num
    · rw [hGdef, Matrix.smul_mul, hXX]
      ext i j
      fin_cases i <;> fin_cases j <;> simp [X, Matrix.mul_apply, Fin.sum_univ_two] <;> norm_num
    · rw [hGdef, Matrix.mul_smul, Matrix.transpose_smul, Matrix.transpose_mul, Matrix.transpose_transpose]
    · rw [hGdef, Matrix.smul_mul, Matrix.transpose_smul, Matrix.transpose_mul, Matrix.transpose_transpose]
  have hb : G * y = !![1 / 2; 1 / 2] := by
    ext i j
    rw [Subsingleton.elim j 0]
    fin_cases i <;> simp [G, X, y, Matrix.mul_apply, Fin.sum_univ_three] <;> norm_num
  have hsb : sq1 (!![1 / 2; 1 / 2] : Matrix (Fin 2) (Fin 1) ℝ) = 1 / 2 := by
    simp [sq1, Fin.sum_univ_two]
    norm_num
  have hXb : X * (!![1 / 2; 1 / 2] : Matrix (Fin 2) (Fin 1) ℝ) = y := by
    ext i j
    rw [Subsingleton.elim j 0]
    fin_cases i <;> simp [X, y, Matrix.mul_apply, Fin.sum_univ_two] <;> norm_num
  have hsy : sq1 y = 2 := by
    simp [sq1, Fin.sum_univ_three, y]
    norm_num
  have hr1 : Real.sqrt (1 / 2) < 0.7072 := by
    rw [Real.sqrt_lt' (by norm_num)]
    norm_num
  have hr0 : 0 ≤ Real.sqrt (1 / 2) := Real.sqrt_nonneg _
  have he16 : (e16 : ℝ) < 0.0001 := by
    unfold e16
    norm_num
  have he10 : (e10 : ℝ) < 0.0001 := by
    unfold e10
    norm_num
  have hN0 : 0 < Real.sqrt (1 / 2) + e16 := add_pos_of_nonneg_of_pos hr0 e16_pos
  have hN1 : (Real.sqrt (1 / 2) + e16) ^ 2 < 0.5017 := by nlinarith [e16_pos]
  have hf : ccaFactor c.normY (std X X) (std y y) (G * std y y) = 1 / (Real.sqrt (1 / 2) + e16) ^ 2 := by
    rw [hnorm]
    unfold ccaFactor
    simp only [Bool.false_eq_true, if_false]
    rw [hX, hY, hb, hXb, hsb, hsy]
    field_simp
  refine ⟨fun i => ?_, ?_⟩
  · fin_cases i <;> simp [X, y] <;> norm_num
  obtain ⟨m, hm, hpred⟩ := C124_predictions (G := G) hc hcca hdefl hinv hls hpinv hK (by omega) (by omega) X y
    (by rw [hyy.2]; exact one_ne_zero) hG (by rw [hY, hb, hsb]; linarith)
    (by
      rw [hX, hY, hb, hXb, hsb, hsy]
      nlinarith [e10_pos])
  refine ⟨m, _, hm, (hpred X).1, ?_⟩
  have hfac : 1.99 < 1 / (Real.sqrt (1 / 2) + e16) ^ 2 := by
    rw [lt_div_iff₀ (by positivity)]
    nlinarith
  simp only [Matrix.of_apply]
  rw [hf, hX, hY, hb, hXb, hyy.1, hyy.2]
  refine ⟨?_, ?_, ?_⟩
  · simp only [y, Matrix.of_apply, Matrix.cons_val_zero]
    simp
    norm_num at hfac ⊢
    linarith
  · simp [y]
  · simp [y]
    norm_num at hfac ⊢
    linarith

/-- **C124 fails when there are as many predictors as samples.**  The standardised predictors sum to 0, the matrix is singular, and
`Matrix.inverse` only takes the pseudo-inverse of matrices that are not square: training raises on all data. -/
theorem C124_square_violation {c : NipalsCfg ℝ} (hc : NipalsReal c) (hcca : c.cca = true)
    {lstsq : Mat ℝ → Except PyErr (Mat ℝ)} (hinv : c.inv = inverse lstsq) (hK : c.K = ((k + 1 : Nat) : Int))
    (X : Matrix (Fin (p + 2)) (Fin (p + 2)) ℝ) (y : Matrix (Fin (p + 2)) (Fin 1) ℝ) (hy : sd (fun i => y i 0) ≠ 0) :
    nipalsTrain c (of X) (of y) = .error .linAlgError := by
  have hdet : (std X X).det = 0 := by
    refine Matrix.exists_vecMul_eq_zero_iff.1 ⟨fun _ => 1, ?_, ?_⟩
    · intro h
      exact one_ne_zero (congrFun h 0)
    · funext j
      simp only [Matrix.vecMul, dotProduct, one_mul]
      exact std_sum (by omega) X j
  have hsy := sq1_std (by omega) y hy
  have h1 : c.lt (sq1 (std y y)) e10 = false := by
    rw [hc.lt, hsy]
    have : (e10 : ℝ) ≤ 1 := by
      unfold e10
      norm_num
    have h2 : (1 : ℝ) ≤ ((p + 2 - 1 : Nat) : ℝ) := by
      rw [Nat.one_le_cast]
      omega
    simpa using this.trans h2
  have hstep : nipalsStep c ((0 : Nat) : Int) (ccaState (k + 1) (std X X) (std y y) 0 0 0) = .error .linAlgError := by
    unfold nipalsStep ccaState
    simp only [Bool.false_eq_true, if_false, transpose_of, mul_of, except_bind_ok, col_gram, all_one, h1]
    unfold nipalsLoop
    have hg : (of (std y y)).getColumn 0 = .ok (of (std y y)) := by
      have := getColumn_of (std y y) 0
      rw [show (Matrix.of fun i (_ : Fin 1) => std y y i 0) = std y y from col0_one _] at this
      exact this
    rw [hg, show Factory.zeros (α := ℝ) ((of (std X X)).cols : Int) 1 = .ok (of (0 : Matrix (Fin (p + 2)) (Fin 1) ℝ)) from
      Factory.zeros_nat (Nat.succ_pos (p + 1)) 1]
    simp only [except_bind_ok]
    rw [nipalsIter, nipalsPass, nipalsXWeight, hcca, if_pos rfl, hinv, inverse_singular lstsq _ hdet]
    rfl
  unfold nipalsTrain
  rw [std_fit (p := p + 1) c.isZero hc.zero X, std_fit (p := 0) c.isZero hc.zero y]
  simp only [except_bind_ok]
  rw [nipalsInit_eq c hK (by omega) (by omega) (by omega)]
  simp only [except_bind_ok]
  rw [hK]
  show (loopM (nipalsStep c) (pyRange 0 ((k + 1 : Nat) : Int)) (ccaState (k + 1) (std X X) (std y y) 0 0 0) >>= fun s => _) = _
  rw [loopM_range_error (nipalsStep c) (ccaState (k + 1) (std X X) (std y y) 0 0) (k + 1) 0 (by omega) .linAlgError (by simp) hstep]
  rfl

/-! The hypotheses are met: a routine computing Moore-Penrose inverses exists. -/

noncomputable def pinvOf (A : Mat ℝ) : Except PyErr (Mat ℝ) := .ok (of (Classical.choose (exists_moorePenrose A.data)))

theorem pinvOf_routine : PinvRoutine pinvOf := fun A => ⟨_, rfl, Classical.choose_spec (exists_moorePenrose A)⟩

noncomputable def ccaCfg : NipalsCfg ℝ :=
  ⟨2, 0, 500, false, true, .canonical, fun a b => decide (a < b), fun x => decide (x = 0), inverse pinvOf, pinvOf⟩

theorem ccaCfg_real : NipalsReal ccaCfg := ⟨fun _ _ => rfl, fun _ => decide_eq_true_iff⟩

example : ∃ m, ∃ P : Matrix (Fin 3) (Fin 1) ℝ,
    nipalsTrain ccaCfg (of (!![-1, -1; 0, 0; 1, 1] : Matrix (Fin 3) (Fin 2) ℝ)) (of (!![-1; 0; 1] : Matrix (Fin 3) (Fin 1) ℝ)) =
      .ok m ∧ nipalsPredict ccaCfg m (of (!![-1, -1; 0, 0; 1, 1] : Matrix (Fin 3) (Fin 2) ℝ)) = .ok (of P) ∧
      P 0 0 < -1.99 ∧ P 1 0 = 0 ∧ 1.99 < P 2 0 :=
  (C124_violation (k := 1) ccaCfg_real rfl rfl rfl pinvOf_routine pinvOf_routine rfl rfl).2

end Verif.Props
