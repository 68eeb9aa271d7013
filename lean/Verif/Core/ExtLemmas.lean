import Verif.Core.Ext
import Verif.Core.MatLemmas
import Verif.Transf.StatLemmas

/-!
# Finite values inside the extended scalars
-/

namespace Verif.X
open Verif Mat Transf

section
set_option linter.unusedSectionVars false
variable {K : Type} [Field K] [LinearOrder K]

@[simp] theorem fin_add (x y : K) : (fin x + fin y : X K) = fin (x + y) := rfl
@[simp] theorem fin_mul (x y : K) : (fin x * fin y : X K) = fin (x * y) := rfl
@[simp] theorem fin_neg (x : K) : (-fin x : X K) = fin (-x) := rfl
@[simp] theorem fin_sub (x y : K) : (fin x - fin y : X K) = fin (x - y) := by
  rw [sub_eq_add_neg]; rfl
theorem fin_div (x : K) {y : K} (h : y ≠ 0) : (fin x / fin y : X K) = fin (x / y) := if_neg h
theorem fin_div_zero (x : K) : (fin x / fin 0 : X K) = signedInf x := if_pos rfl
theorem signedInf_zero : signedInf (0 : K) = nan := by simp [signedInf]
theorem natCast_fin (n : Nat) : ((n : Nat) : X K) = fin (n : K) := rfl
theorem zero_fin : (0 : X K) = fin 0 := rfl
theorem one_fin : (1 : X K) = fin 1 := rfl
theorem add_nan (x : X K) : x + nan = nan := by cases x <;> rfl
theorem nan_add (x : X K) : nan + x = nan := by cases x <;> rfl
theorem sub_nan (x : X K) : x - nan = nan := add_nan x
theorem mul_nan (x : X K) : x * nan = nan := by cases x <;> rfl
theorem nan_mul (x : X K) : nan * x = nan := by cases x <;> rfl
theorem div_nan (x : X K) : x / nan = nan := by cases x <;> rfl
theorem nan_div (x : X K) : nan / x = nan := by cases x <;> rfl

theorem list_sum_fin (l : List K) : (l.map X.fin).sum = X.fin l.sum := by
  induction l with
  | nil => rfl
  | cons x l ih => rw [List.map_cons, List.sum_cons, List.sum_cons, ih, fin_add]

theorem sumFin_fin {n : Nat} (f : Fin n → K) :
    (sumFin fun i => (fin (f i) : X K)) = fin (sumFin f) := by
  unfold sumFin
  have h := list_sum_fin (List.ofFn f)
  rw [List.map_ofFn] at h
  exact h

end

/-- The matrix of finite values `A`. -/
def finMat {K : Type} {m n : Nat} (A : Matrix (Fin m) (Fin n) K) : Matrix (Fin m) (Fin n) (X K) :=
  Matrix.of fun i j => fin (A i j)

section stat
variable {m n : Nat}

theorem columnMeans_fin (A : Matrix (Fin m) (Fin n) ℝ) (hm : m ≠ 0) :
    (Mat.of (finMat A)).columnMeans =
      Mat.of (Matrix.of fun (_ : Fin 1) j => (fin (mu fun i => A i j) : X ℝ)) := by
  refine mk_congr fun i j => ?_
  show (sumFin fun i => (fin (A i j) : X ℝ)) / ((m : Nat) : X ℝ) = _
  have hm' : (m : ℝ) ≠ 0 := by exact_mod_cast hm
  rw [sumFin_fin, natCast_fin, fin_div _ hm', sumFin_eq]
  rfl

theorem columnStdevs_fin (A : Matrix (Fin m) (Fin n) ℝ) (hm : 2 ≤ m) :
    (Mat.of (finMat A)).columnStdevs =
      Mat.of (Matrix.of fun (_ : Fin 1) j => (fin (sd fun i => A i j) : X ℝ)) := by
  refine mk_congr fun i j => ?_
  show HasSqrt.sqrt ((sumFin fun i =>
      ((fin (A i j) : X ℝ) - (sumFin fun k => (fin (A k j) : X ℝ)) / ((m : Nat) : X ℝ)) *
      ((fin (A i j) : X ℝ) - (sumFin fun k => (fin (A k j) : X ℝ)) / ((m : Nat) : X ℝ))) /
        ((m - 1 : Nat) : X ℝ)) = fin (sd fun i => A i j)
  have hm' : (m : ℝ) ≠ 0 := by
    have : m ≠ 0 := by omega
    exact_mod_cast this
  have hp := pred_pos hm
  simp only [sumFin_fin, natCast_fin, fin_div _ hm', fin_sub, fin_mul, fin_div _ hp.ne']
  show (if _ < (0 : ℝ) then nan else _) = _
  rw [if_neg]
  · show fin (Real.sqrt _) = _
    simp only [sumFin_eq]
    unfold sd mu
    congr 3
    exact Finset.sum_congr rfl fun i _ => (sq _).symm
  · rw [not_lt, sumFin_eq]
    exact div_nonneg (Finset.sum_nonneg fun i _ => mul_self_nonneg _) hp.le

/-- With a single row every standard deviation is `0/0`. -/
theorem columnStdevs_single (A : Matrix (Fin 1) (Fin n) ℝ) :
    (Mat.of (finMat A)).columnStdevs = Mat.of (Matrix.of fun (_ : Fin 1) (_ : Fin n) => (nan : X ℝ)) := by
  refine mk_congr fun i j => ?_
  show HasSqrt.sqrt ((sumFin fun i =>
      ((fin (A i j) : X ℝ) - (sumFin fun k => (fin (A k j) : X ℝ)) / ((1 : Nat) : X ℝ)) *
      ((fin (A i j) : X ℝ) - (sumFin fun k => (fin (A k j) : X ℝ)) / ((1 : Nat) : X ℝ))) /
        ((1 - 1 : Nat) : X ℝ)) = nan
  have h1 : ((1 : Nat) : ℝ) ≠ 0 := by norm_num
  simp only [sumFin_fin, natCast_fin, fin_div _ h1, fin_sub, fin_mul]
  have h0 : (((1 - 1 : Nat) : ℝ)) = 0 := by norm_num
  rw [h0, fin_div_zero]
  have : (sumFin fun i => (A i j - (sumFin fun k => A k j) / ((1 : Nat) : ℝ)) *
      (A i j - (sumFin fun k => A k j) / ((1 : Nat) : ℝ))) = 0 := by
    simp [sumFin_eq]
  rw [this, signedInf_zero]
  rfl

end stat
end Verif.X
