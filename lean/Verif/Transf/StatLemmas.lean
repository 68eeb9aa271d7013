import Verif.Transf.Basic
import Verif.Core.MatLemmas
import Verif.Core.RealInst
import Mathlib.Algebra.BigOperators.Field
import Mathlib.Algebra.Order.BigOperators.Ring.Finset
import Mathlib.Tactic.Linarith
import Mathlib.Tactic.FieldSimp
import Mathlib.Tactic.Ring

/-!
# Mean and standard deviation of a finite family of reals
-/

namespace Verif.Transf
open Verif Mat Finset

/-- Arithmetic mean. -/
noncomputable def mu {m : Nat} (f : Fin m → ℝ) : ℝ := (∑ i, f i) / m

/-- Sample standard deviation (`ddof = 1`), meaningful for at least two values. -/
noncomputable def sd {m : Nat} (f : Fin m → ℝ) : ℝ :=
  Real.sqrt ((∑ i, (f i - mu f) ^ 2) / ((m - 1 : Nat) : ℝ))

variable {m : Nat}

theorem sum_sub_mu (hm : m ≠ 0) (f : Fin m → ℝ) : ∑ i, (f i - mu f) = 0 := by
  have : (m : ℝ) ≠ 0 := by exact_mod_cast hm
  rw [sum_sub_distrib, sum_const, card_univ, Fintype.card_fin, nsmul_eq_mul, mu]
  field_simp
  ring

theorem mu_sub_mu (hm : m ≠ 0) (f : Fin m → ℝ) : mu (fun i => f i - mu f) = 0 := by
  unfold mu
  rw [show (∑ i, (f i - (∑ i, f i) / m)) = ∑ i, (f i - mu f) from rfl, sum_sub_mu hm, zero_div]

theorem sd_nonneg (f : Fin m → ℝ) : 0 ≤ sd f := Real.sqrt_nonneg _

theorem pred_pos (hm : 2 ≤ m) : (0 : ℝ) < ((m - 1 : Nat) : ℝ) := by
  have : 0 < m - 1 := by omega
  exact_mod_cast this

theorem sd_sq (hm : 2 ≤ m) (f : Fin m → ℝ) :
    sd f ^ 2 * ((m - 1 : Nat) : ℝ) = ∑ i, (f i - mu f) ^ 2 := by
  unfold sd
  have h := pred_pos hm
  rw [Real.sq_sqrt (div_nonneg (sum_nonneg fun i _ => sq_nonneg _) h.le)]
  field_simp

theorem sd_eq_zero_iff (hm : 2 ≤ m) (f : Fin m → ℝ) : sd f = 0 ↔ ∀ i k, f i = f k := by
  constructor
  · intro h
    have h2 := sd_sq hm f
    rw [h] at h2
    have h3 : ∑ i, (f i - mu f) ^ 2 = 0 := by rw [← h2]; ring
    have h4 := (sum_eq_zero_iff_of_nonneg fun i _ => sq_nonneg (f i - mu f)).1 h3
    have h5 : ∀ i, f i = mu f := fun i => by
      have := pow_eq_zero_iff (two_ne_zero) |>.1 (h4 i (mem_univ i))
      linarith
    intro i k; rw [h5 i, h5 k]
  · intro h
    have h5 : ∀ i, f i = mu f := fun i => by
      unfold mu
      rw [sum_congr rfl fun k _ => h k i, sum_const, card_univ, Fintype.card_fin, nsmul_eq_mul]
      have : (m : ℝ) ≠ 0 := by
        have : m ≠ 0 := by omega
        exact_mod_cast this
      field_simp
    unfold sd
    rw [sum_eq_zero fun i _ => by rw [h5 i]; ring]
    simp

theorem mu_div (f : Fin m → ℝ) (c : ℝ) : mu (fun i => f i / c) = mu f / c := by
  unfold mu
  rw [← sum_div]
  ring

theorem mu_standard (hm : m ≠ 0) (f : Fin m → ℝ) (c : ℝ) : mu (fun i => (f i - mu f) / c) = 0 := by
  rw [mu_div, mu_sub_mu hm, zero_div]

theorem sd_standard (hm : 2 ≤ m) (f : Fin m → ℝ) (h : sd f ≠ 0) :
    sd (fun i => (f i - mu f) / sd f) = 1 := by
  have hp := pred_pos hm
  have hm0 : m ≠ 0 := by omega
  rw [sd, mu_standard hm0]
  have : ∑ i, ((f i - mu f) / sd f - 0) ^ 2 = ((m - 1 : Nat) : ℝ) := by
    have e : ∀ i, ((f i - mu f) / sd f - 0) ^ 2 = (f i - mu f) ^ 2 / sd f ^ 2 := fun i => by
      rw [sub_zero, div_pow]
    rw [sum_congr rfl fun i _ => e i, ← sum_div, ← sd_sq hm]
    field_simp
  rw [this, div_self hp.ne', Real.sqrt_one]

/-! ## The model's statistics -/

theorem columnMeans_of {m n : Nat} (A : Matrix (Fin m) (Fin n) ℝ) :
    (Mat.of A).columnMeans = Mat.of (Matrix.of fun (_ : Fin 1) j => mu fun i => A i j) := by
  refine mk_congr fun i j => ?_
  show (sumFin fun i => A i j) / (m : ℝ) = _
  rw [sumFin_eq]
  rfl

theorem rowMeans_of {m n : Nat} (A : Matrix (Fin m) (Fin n) ℝ) :
    (Mat.of A).rowMeans = Mat.of (Matrix.of fun i (_ : Fin 1) => mu fun j => A i j) := by
  refine mk_congr fun i j => ?_
  show (sumFin fun j => A i j) / (n : ℝ) = _
  rw [sumFin_eq]
  rfl

theorem columnStdevs_of {m n : Nat} (A : Matrix (Fin m) (Fin n) ℝ) :
    (Mat.of A).columnStdevs = Mat.of (Matrix.of fun (_ : Fin 1) j => sd fun i => A i j) := by
  refine mk_congr fun i j => ?_
  show Real.sqrt ((sumFin fun i => (A i j - (sumFin fun k => A k j) / (m : ℝ)) *
    (A i j - (sumFin fun k => A k j) / (m : ℝ))) / ((m - 1 : Nat) : ℝ)) = sd fun i => A i j
  simp only [sumFin_eq]
  unfold sd mu
  congr 2
  exact sum_congr rfl fun i _ => (sq _).symm

theorem rowStdevs_of {m n : Nat} (A : Matrix (Fin m) (Fin n) ℝ) :
    (Mat.of A).rowStdevs = Mat.of (Matrix.of fun i (_ : Fin 1) => sd fun j => A i j) := by
  refine mk_congr fun i j => ?_
  show Real.sqrt ((sumFin fun j => (A i j - (sumFin fun k => A i k) / (n : ℝ)) *
    (A i j - (sumFin fun k => A i k) / (n : ℝ))) / ((n - 1 : Nat) : ℝ)) = sd fun j => A i j
  simp only [sumFin_eq]
  unfold sd mu
  congr 2
  exact sum_congr rfl fun i _ => (sq _).symm

/-! ## The guard loop -/

section guard
variable {α : Type} [One α]

/-- On a column vector the guard replaces every zero by one. -/
theorem guardLoop_col (isZero : α → Bool) {m : Nat} (is : List (Fin m))
    (v : Matrix (Fin m) (Fin 1) α) (h1 : isZero 1 = false) :
    guardLoop isZero (is.map fun (i : Fin m) => ((i.1 : Nat) : Int)) (Mat.of v) =
      .ok (Mat.of (Matrix.of fun i j => if i ∈ is ∧ isZero (v i j) then 1 else v i j)) := by
  induction is generalizing v with
  | nil =>
    show Except.ok _ = _
    congr 1
  | cons i is ih =>
    rw [List.map_cons, guardLoop]
    have hg : (Mat.of v).get ((i : Nat) : Int) 0 = .ok (v i 0) := get_of v i 0
    rw [hg]
    show (if isZero (v i 0) = true then _ else _) = _
    by_cases hz : isZero (v i 0) = true
    · rw [if_pos hz]
      have hs : (Mat.of v).set ((i : Nat) : Int) 0 1 = _ := set_of v i 0 1
      rw [hs]
      refine (ih _).trans ?_
      congr 1
      refine mk_congr fun a b => ?_
      have hb : b = 0 := Subsingleton.elim _ _
      subst hb
      simp only [Matrix.of_apply, List.mem_cons]
      by_cases ha : a = i
      · subst ha; simp [hz, h1]
      · simp [ha]
    · rw [if_neg hz]
      refine (ih v).trans ?_
      congr 1
      refine mk_congr fun a b => ?_
      have hb : b = 0 := Subsingleton.elim _ _
      subst hb
      simp only [Matrix.of_apply, List.mem_cons]
      by_cases ha : a = i
      · subst ha; simp [hz]
      · simp [ha]

theorem guardStds_col (isZero : α → Bool) (v : Matrix (Fin m) (Fin 1) α) (h1 : isZero 1 = false) :
    guardStds isZero (Mat.of v) =
      .ok (Mat.of (Matrix.of fun i j => if isZero (v i j) then 1 else v i j)) := by
  unfold guardStds
  have : pyRange 0 ((Mat.of v).rows : Int) =
      (List.finRange m).map fun (i : Fin m) => ((i.1 : Nat) : Int) := by
    show pyRange 0 (m : Int) = _
    rw [pyRange_zero, ← List.map_coe_finRange_eq_range, List.map_map]
    rfl
  rw [this, guardLoop_col isZero _ v h1]
  congr 1
  refine mk_congr fun i j => ?_
  simp

/-- On the row vector of column statistics the guard only looks at column 0. -/
theorem guardStds_row (isZero : α → Bool) {n : Nat} (v : Matrix (Fin 1) (Fin (n + 1)) α) :
    guardStds isZero (Mat.of v) =
      .ok (Mat.of (Matrix.of fun i j => if j = 0 ∧ isZero (v 0 0) then 1 else v i j)) := by
  unfold guardStds
  have : pyRange 0 ((Mat.of v).rows : Int) = [0] := rfl
  rw [this, guardLoop]
  have hg : (Mat.of v).get 0 0 = .ok (v 0 0) := get_of v 0 0
  rw [hg]
  show (if isZero (v 0 0) = true then _ else _) = _
  by_cases hz : isZero (v 0 0) = true
  · rw [if_pos hz]
    have hs : (Mat.of v).set 0 0 1 =
      .ok (Mat.of (Matrix.of fun a b => if a = 0 ∧ b = 0 then 1 else v a b)) := set_of v 0 0 1
    rw [hs]
    show Except.ok _ = _
    congr 1
    refine mk_congr fun i j => ?_
    have hi : i = 0 := Subsingleton.elim _ _
    subst hi
    simp [hz]
  · rw [if_neg hz]
    show Except.ok _ = _
    congr 1
    refine mk_congr fun i j => ?_
    simp [hz]

theorem guardStds_nocols (isZero : α → Bool) (v : Matrix (Fin 1) (Fin 0) α) :
    guardStds isZero (Mat.of v) = .error .indexError := rfl

end guard
end Verif.Transf
