import Verif.Alg.FastICA
import Verif.Core.RealInst
import Mathlib.Analysis.SpecialFunctions.Trigonometric.DerivHyp
import Mathlib.Analysis.SpecialFunctions.ExpDeriv

/-!
# C89: the non-linearities of FastICA
-/

set_option linter.unusedSectionVars false

namespace Verif.Props
open Verif Verif.Mat Verif.Transf
open scoped Matrix

variable {n p q r k : Nat}

/-! ## Specification -/

/-- `apply` returns `f` of every element, and for every row the mean of the derivative of `f` over the row. -/
def ValueAndMeanDeriv (apply : Mat ℝ → Except PyErr (Mat ℝ × Mat ℝ)) (f : ℝ → ℝ) : Prop :=
  ∀ (m n : Nat) (x : Matrix (Fin m) (Fin n) ℝ), m ≠ 0 → n ≠ 0 → ∃ (G : Matrix (Fin m) (Fin n) ℝ) (D : Matrix (Fin m) (Fin n) ℝ) (g : Matrix (Fin m) (Fin 1) ℝ),
    apply (of x) = .ok (of G, of g) ∧ (∀ i j, G i j = f (x i j)) ∧ (∀ i j, HasDerivAt f (D i j) (x i j)) ∧
    ∀ i, g i 0 = (∑ j, D i j) / n

/-! ## Theorems -/

theorem C89_cube : ValueAndMeanDeriv cubeApply fun t => t ^ 3 := by
  intro m n x _ _
  refine ⟨Matrix.of fun i j => x i j ^ 3, Matrix.of fun i j => 3 * x i j ^ 2, Matrix.of fun i _ => (∑ j, 3 * x i j ^ 2) / n, ?_,
    fun i j => rfl, fun i j => ?_, fun i => rfl⟩
  · unfold cubeApply powElementwise smul
    rw [map_of, map_of, map_of, rowMeans_of, ok_inj]
    refine Prod.ext rfl ?_
    refine mk_congr fun i j => ?_
    simp only [mu, Matrix.of_apply]
    simp only [mul_comm]
  · simpa using hasDerivAt_pow 3 (x i j)

theorem C89_exponential : ValueAndMeanDeriv exponentialApply fun t => t * Real.exp (-(t ^ 2) / 2) := by
  intro m n x _ _
  refine ⟨Matrix.of fun i j => x i j * Real.exp (-(x i j ^ 2) / 2), Matrix.of fun i j => (1 - x i j ^ 2) * Real.exp (-(x i j ^ 2) / 2),
    Matrix.of fun i _ => (∑ j, (1 - x i j ^ 2) * Real.exp (-(x i j ^ 2) / 2)) / n, ?_, fun i j => rfl, fun i j => ?_, fun i => rfl⟩
  · have he : (((of x).powElementwise 2).div 2 |>.smul (-1)).exp = of (Matrix.of fun i j => Real.exp (-(x i j ^ 2) / 2)) := by
      refine mk_congr fun i j => ?_
      show Real.exp (x i j ^ 2 / 2 * -1) = _
      congr 1
      ring
    unfold exponentialApply
    simp only [he]
    have h1 : (of x).mulElementwise (of (Matrix.of fun i j => Real.exp (-(x i j ^ 2) / 2))) = .ok (of (Matrix.of fun i j => x i j * Real.exp (-(x i j ^ 2) / 2))) :=
      (dif_pos ⟨rfl, rfl⟩).trans rfl
    rw [h1, except_bind_ok]
    have h2 : Factory.filledLike (of (Matrix.of fun i j => x i j * Real.exp (-(x i j ^ 2) / 2))) (1 : ℝ) = .ok (of (Matrix.of fun (_ : Fin m) (_ : Fin n) => (1 : ℝ))) := by
      unfold Factory.filledLike Factory.filled
      refine (if_neg (by simp)).trans ?_
      rfl
    rw [h2, except_bind_ok]
    have h3 : (of (Matrix.of fun (_ : Fin m) (_ : Fin n) => (1 : ℝ))).sub ((of x).powElementwise 2) = .ok (of (Matrix.of fun i j => 1 - x i j ^ 2)) :=
      (dif_pos ⟨rfl, rfl⟩).trans rfl
    rw [h3, except_bind_ok]
    have h4 : (of (Matrix.of fun i j => 1 - x i j ^ 2)).mulElementwise (of (Matrix.of fun i j => Real.exp (-(x i j ^ 2) / 2))) =
        .ok (of (Matrix.of fun i j => (1 - x i j ^ 2) * Real.exp (-(x i j ^ 2) / 2))) :=
      (dif_pos ⟨rfl, rfl⟩).trans rfl
    rw [h4, except_bind_ok, rowMeans_of]
    rfl
  · have h1 : HasDerivAt (fun t : ℝ => -(t ^ 2) / 2) (-x i j) (x i j) := by
      refine (((hasDerivAt_pow 2 (x i j)).neg).div_const 2).congr_deriv ?_
      norm_num
      ring
    refine ((hasDerivAt_id (x i j)).mul h1.exp).congr_deriv ?_
    show 1 * Real.exp (-(x i j ^ 2) / 2) + x i j * (Real.exp (-(x i j ^ 2) / 2) * -x i j) = (1 - x i j ^ 2) * Real.exp (-(x i j ^ 2) / 2)
    ring

theorem C89_logCosH (a : ℝ) : ValueAndMeanDeriv (logCosHApply a) fun t => Real.tanh (a * t) := by
  intro m n x hm hn
  refine ⟨Matrix.of fun i j => Real.tanh (a * x i j), Matrix.of fun i j => a * (1 - Real.tanh (a * x i j) ^ 2),
    Matrix.of fun i _ => (∑ j, a * (1 - Real.tanh (a * x i j) ^ 2)) / n, ?_, fun i j => rfl, fun i j => ?_, fun i => rfl⟩
  · unfold logCosHApply
    have hg : ((of x).smul a).tanh = of (Matrix.of fun i j => Real.tanh (a * x i j)) := by
      refine mk_congr fun i j => ?_
      show Real.tanh (x i j * a) = Real.tanh (a * x i j)
      rw [mul_comm]
    simp only [hg]
    have hz : Factory.zeros (((of (Matrix.of fun i j => Real.tanh (a * x i j))).rows : Nat) : Int) 1 = .ok (of (0 : Matrix (Fin m) (Fin 1) ℝ)) :=
      Factory.zeros_nat (Nat.pos_of_ne_zero hm) 1
    have ho : Factory.filled 1 (((of (Matrix.of fun i j => Real.tanh (a * x i j))).cols : Nat) : Int) (1 : ℝ) = .ok (of (Matrix.of fun (_ : Fin 1) (_ : Fin n) => (1 : ℝ))) := by
      unfold Factory.filled
      refine (if_neg (by simp)).trans ?_
      rfl
    rw [hz, except_bind_ok, ho, except_bind_ok]
    have key := loopM_range (fun i g => do
      let gxi ← (of (Matrix.of fun i j => Real.tanh (a * x i j))).getRow i
      let t ← (of (Matrix.of fun (_ : Fin 1) (_ : Fin n) => (1 : ℝ))).sub (gxi.powElementwise 2)
      Mat.set g i 0 ((t.smul a).meanAll)) (fun k => of (Matrix.of fun (i : Fin m) (_ : Fin 1) => if i.1 < k then (∑ j, a * (1 - Real.tanh (a * x i j) ^ 2)) / n else 0)) m (by
        intro k hk
        have e1 : (of (Matrix.of fun i j => Real.tanh (a * x i j))).getRow (k : Int) = .ok (of (Matrix.of fun (_ : Fin 1) j => Real.tanh (a * x ⟨k, hk⟩ j))) := by
          unfold getRow
          rw [show ((k : Nat) : Int) = (((⟨k, hk⟩ : Fin m) : Nat) : Int) from rfl, pyIndex_fin]
          rfl
        simp only [e1, except_bind_ok]
        have e2 : (of (Matrix.of fun (_ : Fin 1) (_ : Fin n) => (1 : ℝ))).sub ((of (Matrix.of fun (_ : Fin 1) j => Real.tanh (a * x ⟨k, hk⟩ j))).powElementwise 2) =
            .ok (of (Matrix.of fun (_ : Fin 1) j => 1 - Real.tanh (a * x ⟨k, hk⟩ j) ^ 2)) := (dif_pos ⟨rfl, rfl⟩).trans rfl
        rw [e2, except_bind_ok]
        have e3 : ((of (Matrix.of fun (_ : Fin 1) j => 1 - Real.tanh (a * x ⟨k, hk⟩ j) ^ 2)).smul a).meanAll = (∑ j, a * (1 - Real.tanh (a * x ⟨k, hk⟩ j) ^ 2)) / n := by
          unfold meanAll total
          simp only [sumFin_eq]
          show (∑ j : Fin n, ∑ i : Fin 1, (1 - Real.tanh (a * x ⟨k, hk⟩ j) ^ 2) * a) / ((1 * n : Nat) : ℝ) = _
          simp only [Fin.sum_univ_one, one_mul, mul_comm a]
        rw [e3]
        have e4 : ∀ (A : Matrix (Fin m) (Fin 1) ℝ) (v : ℝ), (of A).set (k : Int) 0 v = .ok (of (Matrix.of fun i j => if i = ⟨k, hk⟩ ∧ j = 0 then v else A i j)) := by
          intro A v
          unfold Mat.set
          rw [show ((k : Nat) : Int) = (((⟨k, hk⟩ : Fin m) : Nat) : Int) from rfl, pyIndex_fin, except_bind_ok,
            show (0 : Int) = (((0 : Fin 1) : Nat) : Int) from rfl, pyIndex_fin]
          rfl
        rw [e4, ok_inj]
        refine mk_congr fun i j => ?_
        simp only [Matrix.of_apply, Subsingleton.elim j 0, and_true]
        by_cases h1 : i = ⟨k, hk⟩
        · rw [if_pos h1, h1, if_pos (Nat.lt_succ_self k)]
        · have : i.1 ≠ k := fun e => h1 (Fin.ext e)
          rw [if_neg h1]
          by_cases h2 : i.1 < k
          · rw [if_pos h2, if_pos (by omega)]
          · rw [if_neg h2, if_neg (by omega)])
    have e0 : of (0 : Matrix (Fin m) (Fin 1) ℝ) = of (Matrix.of fun (i : Fin m) (_ : Fin 1) => if i.1 < 0 then (∑ j, a * (1 - Real.tanh (a * x i j) ^ 2)) / (n : ℝ) else 0) :=
      mk_congr fun i j => by simp
    rw [e0]
    refine (congrArg (· >>= _) key).trans ?_
    rw [except_bind_ok, ok_inj]
    refine Prod.ext rfl ?_
    refine mk_congr fun i j => ?_
    simp only [Matrix.of_apply]
    exact if_pos i.2
  · have h1 : HasDerivAt (fun t : ℝ => a * t) a (x i j) := by simpa using (hasDerivAt_id (x i j)).const_mul a
    have h2 : HasDerivAt Real.tanh (1 - Real.tanh (a * x i j) ^ 2) (a * x i j) := by
      have hc := (Real.cosh_pos (a * x i j)).ne'
      have := (Real.hasDerivAt_sinh (a * x i j)).div (Real.hasDerivAt_cosh (a * x i j)) hc
      refine (this.congr_deriv ?_).congr_of_eventuallyEq (Filter.Eventually.of_forall fun t => Real.tanh_eq_sinh_div_cosh t)
      rw [Real.tanh_eq_sinh_div_cosh]
      field_simp
    exact (h2.comp (x i j) h1).congr_deriv (mul_comm _ _)

end Verif.Props
