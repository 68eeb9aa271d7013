import Verif.Props.PlsGram
import Verif.Props.ColumnWise
import Verif.Props.DeadChannel

/-!
# C151: predictors given several times

A predictor given `k` times counts in PLS1 and SIMPLS like one given once in a unit `√k` times as small; if all are given equally often, nothing
changes.
-/

namespace Verif.Props
open Verif Mat Factory Transf
open scoped Matrix

variable {n p p' r : Nat}

/-- How often predictor `l` is given, when column `k` holds predictor `f k`. -/
def tally (f : Fin p' → Fin p) (l : Fin p) : Nat := (Finset.univ.filter fun k => f k = l).card

/-- Every predictor multiplied by the square root of the number of times it is given. -/
noncomputable def weighted (f : Fin p' → Fin p) (X : Matrix (Fin n) (Fin p) ℝ) : Matrix (Fin n) (Fin p) ℝ :=
  Matrix.of fun i l => Real.sqrt (tally f l) * X i l

theorem sum_fibres (f : Fin p' → Fin p) (g : Fin p → ℝ) : ∑ k, g (f k) = ∑ l, (tally f l : ℝ) * g l := by
  rw [← Finset.sum_fiberwise Finset.univ f]
  refine Finset.sum_congr rfl fun l _ => ?_
  rw [Finset.sum_congr rfl fun k hk => by rw [(Finset.mem_filter.1 hk).2], Finset.sum_const, nsmul_eq_mul]
  rfl

theorem gram_repeat (f : Fin p' → Fin p) (Z : Matrix (Fin r) (Fin p) ℝ) (X : Matrix (Fin n) (Fin p) ℝ) (i : Fin r) (j : Fin n) :
    ∑ l, weighted f Z i l * weighted f X j l = ∑ k, chosen f Z i k * chosen f X j k := by
  show _ = ∑ k, Z i (f k) * X j (f k)
  rw [sum_fibres f fun l => Z i l * X j l]
  refine Finset.sum_congr rfl fun l _ => ?_
  show Real.sqrt _ * Z i l * (Real.sqrt _ * X j l) = _
  rw [mul_mul_mul_comm, Real.mul_self_sqrt (Nat.cast_nonneg _)]

/-- C151.  **PLS1** on repeated predictors is PLS1 on the predictors scaled by the square roots of their numbers of repetitions. -/
theorem C151_pls1 (hn : 0 < n) (hp : 0 < p) (hp' : 0 < p') {K : Nat} (hK : 0 < K) (f : Fin p' → Fin p)
    (X : Matrix (Fin n) (Fin p) ℝ) (y : Matrix (Fin n) (Fin 1) ℝ) (hr : Regular (pls1W y) K (weighted f X)) :
    ∃ (m m' : Pls1Model ℝ) (T : Mat ℝ), pls1Train pls1Weights K (of (weighted f X)) (of y) = .ok (m, T) ∧
      pls1Train pls1Weights K (of (chosen f X)) (of y) = .ok (m', T) ∧
      ∀ {r : Nat}, 0 < r → ∀ Z : Matrix (Fin r) (Fin p) ℝ, ∃ F : Matrix (Fin r) (Fin 1) ℝ,
        pls1Predict K m (of (weighted f Z)) = .ok (of F) ∧ pls1Predict K m' (of (chosen f Z)) = .ok (of F) := by
  obtain ⟨m, m', T, h1, h2, h3⟩ := C136_pls1 hn hp hp' hK _ _ (gram_repeat f X X) y hr
  refine ⟨m, m', T, h1, h2, fun {r} hr Z => ?_⟩
  obtain ⟨S, F, -, -, h4, h5⟩ := h3 hr _ _ (gram_repeat f Z X)
  exact ⟨F, h4, h5⟩

/-- C151.  **SIMPLS** (not slimmed) on repeated predictors. -/
theorem C151_simpls {eig : Mat ℝ → Mat ℝ × Mat ℝ} (he : EigOne eig) (hn : 0 < n) (hp : 0 < p) (hp' : 0 < p') {K : Nat} (hK : 0 < K)
    {count : Int} (hcount : count ≤ 0) (f : Fin p' → Fin p)
    (X : Matrix (Fin n) (Fin p) ℝ) (y : Matrix (Fin n) (Fin 1) ℝ) (hr : Regular (pls1W y) K (weighted f X)) :
    ∃ m m' : SimplsModel ℝ, simplsTrain (domOf eig) K count (of (weighted f X)) (of y) = .ok m ∧
      simplsTrain (domOf eig) K count (of (chosen f X)) (of y) = .ok m' ∧
      ∀ {r : Nat}, 0 < r → ∀ Z : Matrix (Fin r) (Fin p) ℝ, ∃ F : Matrix (Fin r) (Fin 1) ℝ,
        simplsPredict m (of (weighted f Z)) = .ok (of F) ∧ simplsPredict m' (of (chosen f Z)) = .ok (of F) := by
  obtain ⟨m, m', h1, h2, h3⟩ := C136_simpls he hn hp hp' hK hcount _ _ (gram_repeat f X X) y hr
  exact ⟨m, m', h1, h2, fun hr Z => h3 hr _ _ (gram_repeat f Z X)⟩

theorem cen_weighted (f : Fin p' → Fin p) (X : Matrix (Fin n) (Fin p) ℝ) (Z : Matrix (Fin r) (Fin p) ℝ) :
    cen (weighted f X) (weighted f Z) = weighted f (cen X Z) := by
  ext i l
  show Real.sqrt _ * Z i l - (∑ k, Real.sqrt _ * X k l) / n = Real.sqrt _ * (Z i l - (∑ k, X k l) / n)
  rw [← Finset.mul_sum]
  ring

/-- C151.  **PLS1 with CENTER** on repeated predictors. -/
theorem C151_pls1_center (hn : 0 < n) (hp : 0 < p) (hp' : 0 < p') {K : Nat} (hK : 0 < K) (f : Fin p' → Fin p)
    (X : Matrix (Fin n) (Fin p) ℝ) (y : Matrix (Fin n) (Fin 1) ℝ) (hr : Regular (pls1W (cen y y)) K (weighted f (cen X X)))
    (isZero : ℝ → Bool) :
    ∃ s s', singleTrain isZero (pls1Base K) .center (of (weighted f X)) (of y) = .ok s ∧
      singleTrain isZero (pls1Base K) .center (of (chosen f X)) (of y) = .ok s' ∧
      ∀ {r : Nat}, 0 < r → ∀ Z : Matrix (Fin r) (Fin p) ℝ, ∃ F : Matrix (Fin r) (Fin 1) ℝ,
        singlePredict (pls1Predict K) s (of (weighted f Z)) = .ok (of F) ∧ singlePredict (pls1Predict K) s' (of (chosen f Z)) = .ok (of F) := by
  have hc : ∀ {r : Nat} (Z : Matrix (Fin r) (Fin p) ℝ), cen (chosen f X) (chosen f Z) = chosen f (cen X Z) := fun Z => rfl
  obtain ⟨m, m', T, h1, h2, h3⟩ := C151_pls1 hn hp hp' hK f (cen X X) (cen y y) hr
  rw [← cen_weighted] at h1
  rw [← hc] at h2
  obtain ⟨s, g1, g2⟩ := C51_center_value (pls1Base K) (pls1Predict K) isZero (weighted f X) y m (by unfold pls1Base; rw [h1]; rfl)
  obtain ⟨s', g1', g2'⟩ := C51_center_value (pls1Base K) (pls1Predict K) isZero (chosen f X) y m' (by unfold pls1Base; rw [h2]; rfl)
  refine ⟨s, s', g1, g1', fun {r} hr Z => ?_⟩
  obtain ⟨F, h4, h5⟩ := h3 hr Z
  exact ⟨_, g2 _ _ h4, g2' _ _ h5⟩

/-- C151.  **Every predictor equally often**: repeating all predictors the same number of times, in any arrangement, changes no prediction of PLS1. -/
theorem C151_evenly (hn : 0 < n) (hp : 0 < p) (hp' : 0 < p') {K : Nat} (hK : 0 < K) (f : Fin p' → Fin p) {c : Nat} (hc : 0 < c)
    (hf : ∀ l, tally f l = c) (X : Matrix (Fin n) (Fin p) ℝ) (y : Matrix (Fin n) (Fin 1) ℝ) (hr : Regular (pls1W y) K X) :
    ∃ (m m' : Pls1Model ℝ) (T T' : Mat ℝ), pls1Train pls1Weights K (of X) (of y) = .ok (m, T) ∧
      pls1Train pls1Weights K (of (chosen f X)) (of y) = .ok (m', T') ∧
      ∀ {r : Nat}, 0 < r → ∀ Z : Matrix (Fin r) (Fin p) ℝ, ∃ F : Matrix (Fin r) (Fin 1) ℝ,
        pls1Predict K m (of Z) = .ok (of F) ∧ pls1Predict K m' (of (chosen f Z)) = .ok (of F) := by
  have hw : ∀ {s : Nat} (Z : Matrix (Fin s) (Fin p) ℝ), weighted f Z = Real.sqrt c • Z := fun Z => by
    ext i l
    show Real.sqrt (tally f l) * Z i l = Real.sqrt c * Z i l
    rw [hf]
  have hd : Real.sqrt c ≠ 0 := (Real.sqrt_pos.2 (by exact_mod_cast hc)).ne'
  have h1n : (1 : Matrix (Fin n) (Fin n) ℝ)ᵀ * 1 = 1 := by rw [Matrix.transpose_one, Matrix.one_mul]
  have h1p : (1 : Matrix (Fin p) (Fin p) ℝ)ᵀ * 1 = 1 := by rw [Matrix.transpose_one, Matrix.one_mul]
  have hreg := (pls1_equiv hn hp hK X y hr h1n h1p one_ne_zero hd).1
  rw [Matrix.one_mul, Matrix.one_mul, Matrix.mul_one, one_smul] at hreg
  obtain ⟨m, m1, T, T1, h1, h2, h3⟩ := C99_units hn hp hK X y hr one_ne_zero hd
  rw [one_smul] at h2
  obtain ⟨m2, m', T', g1, g2, g3⟩ := C151_pls1 hn hp hp' hK f X y (by rw [hw]; exact hreg)
  rw [hw, h2] at g1
  cases g1
  refine ⟨m, m', T, T1, h1, g2, fun {r} hr Z => ?_⟩
  obtain ⟨F, e1, e2⟩ := h3 hr Z
  obtain ⟨F', e3, e4⟩ := g3 hr Z
  rw [hw, e2] at e3
  rw [one_smul] at e3
  cases e3
  exact ⟨F, e1, e4⟩

/-! ## Concrete cases -/

/-- Both predictors twice, in the order 0, 1, 1, 0. -/
example := C151_evenly (by decide) (by decide) (by decide) (K := 2) (by decide) (![0, 1, 1, 0] : Fin 4 → Fin 2) (c := 2) (by decide)
  (fun l => by fin_cases l <;> rfl) exX exY ex_regular

end Verif.Props
