import Verif.Props.PlsRotation

/-!
# C136: PLS1 and SIMPLS use the predictors only through inner products

What `PLS1` and `SIMPLS` compute about samples - scores, fitted values, predictions - is determined by the inner products
of the training samples with each other, those of the new samples with the training samples, and the response.  The
columns in which the samples are written down do not matter, not even their number.
-/

namespace Verif.Props

open Verif Mat Factory Transf
open scoped Matrix

variable {n p p' r : Nat}

/-! ## One component -/

theorem score_gram (y : Matrix (Fin n) (Fin 1) ℝ) (M : Matrix (Fin n) (Fin p) ℝ) (Z : Matrix (Fin r) (Fin p) ℝ) :
    Z * pls1W y M = (Real.sqrt ((yᵀ * (M * Mᵀ * y)) 0 0))⁻¹ • (Z * Mᵀ * y) := by
  have e : sq1 (Mᵀ * y) = (yᵀ * (M * Mᵀ * y)) 0 0 := by
    rw [← sq1_eq, Matrix.transpose_mul, Matrix.transpose_transpose]
    simp only [Matrix.mul_assoc]
  rw [pls1W_eq, e, Matrix.mul_smul, Matrix.mul_assoc Z]

theorem deflate_gram (M : Matrix (Fin n) (Fin p) ℝ) (t : Matrix (Fin n) (Fin 1) ℝ) :
    deflate M t = (1 - (sq1 t)⁻¹ • (t * tᵀ)) * M := by
  rw [deflate_eq, Matrix.sub_mul, Matrix.one_mul, Matrix.smul_mul, Matrix.mul_assoc]

theorem loading_gram (M : Matrix (Fin n) (Fin p) ℝ) (t : Matrix (Fin n) (Fin 1) ℝ) :
    (loading M t)ᵀ * Mᵀ = (sq1 t)⁻¹ • (tᵀ * (M * Mᵀ)) := by
  rw [loading_eq, Matrix.transpose_smul, Matrix.transpose_mul, Matrix.transpose_transpose, Matrix.smul_mul, Matrix.mul_assoc]

/-! ## All components -/

section
variable {X : Matrix (Fin n) (Fin p) ℝ} {X' : Matrix (Fin n) (Fin p') ℝ} (hX : X * Xᵀ = X' * X'ᵀ)
  (y : Matrix (Fin n) (Fin 1) ℝ)
include hX

theorem gram_plsX (k : Nat) : plsX (pls1W y) X k * (plsX (pls1W y) X k)ᵀ = plsX (pls1W y) X' k * (plsX (pls1W y) X' k)ᵀ := by
  induction k with
  | zero => exact hX
  | succ k ih =>
    have ht : plsX (pls1W y) X k * pls1W y (plsX (pls1W y) X k) = plsX (pls1W y) X' k * pls1W y (plsX (pls1W y) X' k) := by
      rw [score_gram, score_gram, ih]
    have e : ∀ {d : Nat} (M : Matrix (Fin n) (Fin d) ℝ) (t : Matrix (Fin n) (Fin 1) ℝ), deflate M t * (deflate M t)ᵀ =
        (1 - (sq1 t)⁻¹ • (t * tᵀ)) * (M * Mᵀ) * (1 - (sq1 t)⁻¹ • (t * tᵀ))ᵀ := by
      intro d M t
      rw [deflate_gram, Matrix.transpose_mul]
      simp only [Matrix.mul_assoc]
    rw [plsX, plsX, ht, e, e, ih]

theorem gram_plsT (k : Nat) : plsT (pls1W y) X k = plsT (pls1W y) X' k := by
  rw [plsT, plsT, plsW, plsW, score_gram, score_gram, gram_plsX hX]

theorem gram_plsB (k : Nat) : plsB (pls1W y) X y k = plsB (pls1W y) X' y k := by
  rw [plsB, plsB, gram_plsT hX]

theorem gram_plsZ {Z : Matrix (Fin r) (Fin p) ℝ} {Z' : Matrix (Fin r) (Fin p') ℝ} (hZ : Z * Xᵀ = Z' * X'ᵀ) (k : Nat) :
    plsZ (pls1W y) X Z k * (plsX (pls1W y) X k)ᵀ = plsZ (pls1W y) X' Z' k * (plsX (pls1W y) X' k)ᵀ := by
  induction k with
  | zero => exact hZ
  | succ k ih =>
    have ht := gram_plsT hX y k
    have e : ∀ {d : Nat} (A : Matrix (Fin n) (Fin d) ℝ) (W : Matrix (Fin r) (Fin d) ℝ),
        plsZ (pls1W y) A W (k + 1) * (plsX (pls1W y) A (k + 1))ᵀ =
          (plsZ (pls1W y) A W k * (plsX (pls1W y) A k)ᵀ -
            plsZ (pls1W y) A W k * plsW (pls1W y) A k * ((plsP (pls1W y) A k)ᵀ * (plsX (pls1W y) A k)ᵀ)) *
          (1 - (sq1 (plsT (pls1W y) A k))⁻¹ • (plsT (pls1W y) A k * (plsT (pls1W y) A k)ᵀ))ᵀ := by
      intro d A W
      rw [plsZ, show plsX (pls1W y) A (k + 1) = deflate (plsX (pls1W y) A k) (plsT (pls1W y) A k) from rfl, deflate_gram,
        Matrix.transpose_mul, ← Matrix.mul_assoc, Matrix.sub_mul]
      congr 2
      rw [Matrix.mul_assoc]
    rw [e, e, plsP, plsP, loading_gram, loading_gram, plsW, plsW, score_gram, score_gram, ht, gram_plsX hX, ih]

theorem gram_plsSM (K : Nat) {Z : Matrix (Fin r) (Fin p) ℝ} {Z' : Matrix (Fin r) (Fin p') ℝ} (hZ : Z * Xᵀ = Z' * X'ᵀ) :
    plsSM (pls1W y) K X Z = plsSM (pls1W y) K X' Z' := by
  ext i j
  simp only [plsSM, plsS, Matrix.of_apply]
  rw [plsW, plsW, score_gram, score_gram, gram_plsX hX, gram_plsZ hX y hZ]

theorem Regular.gram {K : Nat} (h : Regular (pls1W y) K X) : Regular (pls1W y) K X' :=
  Regular.of_sq1 fun k hk => by
    rw [← gram_plsT hX]
    exact h.sq1_ne k hk

end

/-- **C136.** Two sets of training samples with the same inner products and the same response, described by any two
numbers of columns: `PLS1` finds the same scores, and new samples with the same inner products with the training samples
get the same scores and the same predictions. -/
theorem C136_pls1 (hn : 0 < n) (hp : 0 < p) (hp' : 0 < p') {K : Nat} (hK : 0 < K) (X : Matrix (Fin n) (Fin p) ℝ)
    (X' : Matrix (Fin n) (Fin p') ℝ) (hX : ∀ i j, ∑ l, X i l * X j l = ∑ l, X' i l * X' j l)
    (y : Matrix (Fin n) (Fin 1) ℝ) (h : Regular (pls1W y) K X) :
    ∃ (m m' : Pls1Model ℝ) (T : Mat ℝ), pls1Train pls1Weights K (of X) (of y) = .ok (m, T) ∧
      pls1Train pls1Weights K (of X') (of y) = .ok (m', T) ∧
      ∀ {r : Nat}, 0 < r → ∀ (Z : Matrix (Fin r) (Fin p) ℝ) (Z' : Matrix (Fin r) (Fin p') ℝ),
        (∀ i j, ∑ l, Z i l * X j l = ∑ l, Z' i l * X' j l) →
        ∃ (S : Matrix (Fin r) (Fin K) ℝ) (F : Matrix (Fin r) (Fin 1) ℝ),
        pls1Transform K m (of Z) = .ok (of S) ∧ pls1Transform K m' (of Z') = .ok (of S) ∧
        pls1Predict K m (of Z) = .ok (of F) ∧ pls1Predict K m' (of Z') = .ok (of F) := by
  have hX' : X * Xᵀ = X' * X'ᵀ := by
    ext i j
    simpa only [Matrix.mul_apply, Matrix.transpose_apply] using hX i j
  have hT : plsTM (pls1W y) K X' = plsTM (pls1W y) K X := by
    ext i j
    simp only [plsTM, Matrix.of_apply, gram_plsT hX']
  have hB : plsBM (pls1W y) K X' y = plsBM (pls1W y) K X y := by
    ext i j
    simp only [plsBM, Matrix.of_apply, gram_plsB hX']
  have e := pls1Train_eq (pls1W y) pls1Weights K hn hp' hK X' y (fun k _ => pls1Weights_eq y _) (h.gram hX').sq1_ne
  rw [hT] at e
  refine ⟨_, _, _, pls1Train_eq (pls1W y) pls1Weights K hn hp hK X y (fun k _ => pls1Weights_eq y _) h.sq1_ne, e,
    fun {r} hr Z Z' hZ => ?_⟩
  have hZ' : Z * Xᵀ = Z' * X'ᵀ := by
    ext i j
    simpa only [Matrix.mul_apply, Matrix.transpose_apply] using hZ i j
  refine ⟨_, _, pls1Transform_eq (pls1W y) hr K X _ _ Z, ?_, pls1Predict_eq (pls1W y) hr K X _ _ Z, ?_⟩
  · rw [pls1Transform_eq (pls1W y) hr, gram_plsSM hX' y K hZ']
  · rw [pls1Predict_eq (pls1W y) hr, gram_plsSM hX' y K hZ', hB]

/-- **C136.** The same for the predictions of `SIMPLS` without slimming. -/
theorem C136_simpls {eig : Mat ℝ → Mat ℝ × Mat ℝ} (he : EigOne eig) (hn : 0 < n) (hp : 0 < p) (hp' : 0 < p') {K : Nat}
    (hK : 0 < K) {count : Int} (hcount : count ≤ 0) (X : Matrix (Fin n) (Fin p) ℝ)
    (X' : Matrix (Fin n) (Fin p') ℝ) (hX : ∀ i j, ∑ l, X i l * X j l = ∑ l, X' i l * X' j l)
    (y : Matrix (Fin n) (Fin 1) ℝ) (h : Regular (pls1W y) K X) :
    ∃ m m' : SimplsModel ℝ, simplsTrain (domOf eig) K count (of X) (of y) = .ok m ∧
      simplsTrain (domOf eig) K count (of X') (of y) = .ok m' ∧
      ∀ {r : Nat}, 0 < r → ∀ (Z : Matrix (Fin r) (Fin p) ℝ) (Z' : Matrix (Fin r) (Fin p') ℝ),
        (∀ i j, ∑ l, Z i l * X j l = ∑ l, Z' i l * X' j l) → ∃ F : Matrix (Fin r) (Fin 1) ℝ,
        simplsPredict m (of Z) = .ok (of F) ∧ simplsPredict m' (of Z') = .ok (of F) := by
  have hX' : X * Xᵀ = X' * X'ᵀ := by
    ext i j
    simpa only [Matrix.mul_apply, Matrix.transpose_apply] using hX i j
  obtain ⟨m, b, T, h1, h2, h3⟩ := C73_same_predictions he hn hp hK hcount X y h
  obtain ⟨m', b', T', h1', h2', h3'⟩ := C73_same_predictions he hn hp' hK hcount X' y (h.gram hX' y)
  obtain ⟨b0, b0', T0, e, e', e''⟩ := C136_pls1 hn hp hp' hK X X' hX y h
  refine ⟨m, m', h1, h1', fun {r} hr Z Z' hZ => ?_⟩
  obtain ⟨F, f1, f2⟩ := h3 r hr Z
  obtain ⟨F', f1', f2'⟩ := h3' r hr Z'
  obtain ⟨S, G, -, -, g1, g2⟩ := e'' hr Z Z' hZ
  have hb : b = b0 := by
    rw [h2] at e
    injection e with e
    exact congrArg Prod.fst e
  have hb' : b' = b0' := by
    rw [h2'] at e'
    injection e' with e'
    exact congrArg Prod.fst e'
  subst hb hb'
  rw [f2] at g1
  rw [f2'] at g2
  exact ⟨F, f1, f1'.trans (g2.trans g1.symm)⟩

/-- Two samples described by two columns and by three: `1, 0` and `0, 2` have the inner products of `0, 1, 0` and
`6/5, 0, 8/5`. -/
example : ∃ (m m' : Pls1Model ℝ) (T : Mat ℝ), pls1Train pls1Weights 2 (of exX) (of exY) = .ok (m, T) ∧
    pls1Train pls1Weights 2 (of (!![0, 1, 0; 6 / 5, 0, 8 / 5] : Matrix (Fin 2) (Fin 3) ℝ)) (of exY) = .ok (m', T) := by
  obtain ⟨m, m', T, h, h', -⟩ := C136_pls1 (by norm_num) (by norm_num) (by norm_num) (K := 2) (by norm_num) exX
    (!![0, 1, 0; 6 / 5, 0, 8 / 5] : Matrix (Fin 2) (Fin 3) ℝ) (fun i j => by
      fin_cases i <;> fin_cases j <;> (simp [exX, Fin.sum_univ_two, Fin.sum_univ_three]; try norm_num)) exY ex_regular
  exact ⟨m, m', T, h, h'⟩

end Verif.Props
