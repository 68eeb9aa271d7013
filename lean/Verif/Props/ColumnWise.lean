import Verif.Alg.PrepExt
import Verif.Props.TransfProps
import Verif.Props.ExtendedPrep

/-!
# C150: column-wise transformations

`Center`, `Standardize` and `Log` work on every column on its own: choosing, reordering or repeating columns may be done before or after, and what
happens in one column (an outlier, a NaN) stays in that column.  All but the last section holds for any scalars, so for floats with NaN and
infinities and for any rounding.
-/

namespace Verif.Props
open Verif Mat Transf

/-- The columns `e 0, e 1, …` of a matrix. -/
def chosen {α : Type} {n p p' : Nat} (e : Fin p → Fin p') (A : Matrix (Fin n) (Fin p') α) : Matrix (Fin n) (Fin p) α :=
  Matrix.of fun i j => A i (e j)

/-- A new object that first sees `A` transforms `Z`. -/
def later {α σ P : Type} (T : Trans α σ P) (A Z : Mat α) : Except PyErr (Mat α) := (transform T Z (transform T A T.init).1).2

/-- A new object that first sees `A` transforms `Z` back. -/
def back {α σ P : Type} (T : Trans α σ P) (A Z : Mat α) : Except PyErr (Mat α) := (inverseTransform T Z (transform T A T.init).1).2

variable {α : Type} {n p p' r : Nat}

section center
variable [Add α] [Sub α] [Zero α] [Div α] [NatCast α]

theorem later_center (A : Matrix (Fin n) (Fin p) α) (Z : Matrix (Fin r) (Fin p) α) :
    later center (of A) (of Z) = .ok (of (Matrix.of fun i j => Z i j - gMean A j)) := by
  show subByVector (of Z) (of A).columnMeans = _
  have hm : (of A).columnMeans = of (Matrix.of fun (_ : Fin 1) j => gMean A j) := mk_congr fun i j => rfl
  rw [hm]
  exact vectorOp_row _ _ _

theorem back_center (A : Matrix (Fin n) (Fin p) α) (Z : Matrix (Fin r) (Fin p) α) :
    back center (of A) (of Z) = .ok (of (Matrix.of fun i j => Z i j + gMean A j)) := by
  show addByVector (of Z) (of A).columnMeans = _
  have hm : (of A).columnMeans = of (Matrix.of fun (_ : Fin 1) j => gMean A j) := mk_congr fun i j => rfl
  rw [hm]
  exact vectorOp_row _ _ _

/-- C150.  **Center**: choosing columns before or after makes no difference, in both directions. -/
theorem C150_center (e : Fin p → Fin p') (A : Matrix (Fin n) (Fin p') α) (Z : Matrix (Fin r) (Fin p') α) :
    ∃ B C : Matrix (Fin r) (Fin p') α, later center (of A) (of Z) = .ok (of B) ∧ back center (of A) (of Z) = .ok (of C) ∧
      later center (of (chosen e A)) (of (chosen e Z)) = .ok (of (chosen e B)) ∧
      back center (of (chosen e A)) (of (chosen e Z)) = .ok (of (chosen e C)) :=
  ⟨_, _, later_center A Z, back_center A Z, later_center _ _, back_center _ _⟩

/-- C150.  **Center**: a column of the result depends on nothing but this column of the two data sets. -/
theorem C150_center_local (A A' : Matrix (Fin n) (Fin p) α) (Z Z' : Matrix (Fin r) (Fin p) α) (j : Fin p) (hA : ∀ i, A i j = A' i j)
    (hZ : ∀ i, Z i j = Z' i j) :
    ∃ B B' : Matrix (Fin r) (Fin p) α, later center (of A) (of Z) = .ok (of B) ∧ later center (of A') (of Z') = .ok (of B') ∧
      ∀ i, B i j = B' i j := by
  refine ⟨_, _, later_center A Z, later_center A' Z', fun i => ?_⟩
  simp only [Matrix.of_apply, hZ, gMean, hA]

end center

section standardize
variable [Add α] [Sub α] [Mul α] [Zero α] [One α] [Div α] [NatCast α] [HasSqrt α]

/-- What `Standardize` divides by. -/
def gDiv (isZero : α → Bool) (A : Matrix (Fin n) (Fin (p + 1)) α) (j : Fin (p + 1)) : α :=
  if j = 0 ∧ isZero (gStd A 0) = true then 1 else gStd A j

theorem standardize_on (isZero : α → Bool) (A : Matrix (Fin n) (Fin (p + 1)) α) :
    (transform (standardize isZero) (of A) (standardize isZero).init).1 =
      ⟨true, some (of (Matrix.of fun (_ : Fin 1) j => gMean A j)), some (of (Matrix.of fun (_ : Fin 1) j => gDiv isZero A j))⟩ := by
  have hm : (of A).columnMeans = of (Matrix.of fun (_ : Fin 1) j => gMean A j) := mk_congr fun i j => rfl
  have hs : (of A).columnStdevs = of (Matrix.of fun (_ : Fin 1) j => gStd A j) := mk_congr fun i j => rfl
  have hg : guardStds isZero (of A).columnStdevs = .ok (of (Matrix.of fun (_ : Fin 1) j => gDiv isZero A j)) := by
    rw [hs]
    exact guardStds_row isZero _
  have hc : (standardize isZero).configure (of A) (standardize isZero).init =
      (⟨true, some (of A).columnMeans, some (of (Matrix.of fun (_ : Fin 1) j => gDiv isZero A j))⟩, .ok ()) := by
    simp only [standardize, hg]
  unfold transform
  rw [hc, hm]
  rfl

theorem later_standardize (isZero : α → Bool) (A : Matrix (Fin n) (Fin (p + 1)) α) (Z : Matrix (Fin r) (Fin (p + 1)) α) :
    later (standardize isZero) (of A) (of Z) = .ok (of (Matrix.of fun i j => (Z i j - gMean A j) / gDiv isZero A j)) := by
  unfold later
  rw [standardize_on]
  show (do let r ← subByVector (of Z) _; r.divByVector _) = _
  unfold subByVector divByVector
  rw [vectorOp_row, except_bind_ok, vectorOp_row]
  rfl

theorem back_standardize (isZero : α → Bool) (A : Matrix (Fin n) (Fin (p + 1)) α) (Z : Matrix (Fin r) (Fin (p + 1)) α) :
    back (standardize isZero) (of A) (of Z) = .ok (of (Matrix.of fun i j => Z i j * gDiv isZero A j + gMean A j)) := by
  unfold back
  rw [standardize_on]
  show (do let r ← mulByVector (of Z) _; r.addByVector _) = _
  unfold mulByVector addByVector
  rw [vectorOp_row, except_bind_ok, vectorOp_row]
  rfl

/-- C150 (what remains true).  **Standardize**: choosing columns before or after makes no difference if no column with deviation zero moves into
or out of the first place. -/
theorem C150_standardize_partial (isZero : α → Bool) (e : Fin (p + 1) → Fin (p' + 1)) (A : Matrix (Fin n) (Fin (p' + 1)) α)
    (he : ∀ j, isZero (gStd A (e j)) = true → (j = 0 ↔ e j = 0)) (Z : Matrix (Fin r) (Fin (p' + 1)) α) :
    ∃ B C : Matrix (Fin r) (Fin (p' + 1)) α, later (standardize isZero) (of A) (of Z) = .ok (of B) ∧
      back (standardize isZero) (of A) (of Z) = .ok (of C) ∧
      later (standardize isZero) (of (chosen e A)) (of (chosen e Z)) = .ok (of (chosen e B)) ∧
      back (standardize isZero) (of (chosen e A)) (of (chosen e Z)) = .ok (of (chosen e C)) := by
  have hs : ∀ j, gStd (chosen e A) j = gStd A (e j) := fun j => rfl
  have hd : ∀ j, gDiv isZero (chosen e A) j = gDiv isZero A (e j) := by
    intro j
    unfold gDiv
    rw [hs, hs]
    by_cases h : j = 0 ∧ isZero (gStd A (e 0)) = true
    · have h1 : e j = 0 := (he j (by rw [h.1]; exact h.2)).1 h.1
      rw [if_pos h, if_pos ⟨h1, by rw [← h1, h.1]; exact h.2⟩]
    · rw [if_neg h, if_neg]
      rintro ⟨h1, h2⟩
      have h3 := (he j (by rw [h1]; exact h2)).2 h1
      exact h ⟨h3, by rw [← h3, h1]; exact h2⟩
  refine ⟨_, _, later_standardize isZero A Z, back_standardize isZero A Z, ?_, ?_⟩
  · rw [later_standardize]
    simp only [hd]
    rfl
  · rw [back_standardize]
    simp only [hd]
    rfl

/-- C150.  **Standardize**: a column of the result depends on nothing but this column of the two data sets. -/
theorem C150_standardize_local (isZero : α → Bool) (A A' : Matrix (Fin n) (Fin (p + 1)) α) (Z Z' : Matrix (Fin r) (Fin (p + 1)) α)
    (j : Fin (p + 1)) (hA : ∀ i, A i j = A' i j) (hZ : ∀ i, Z i j = Z' i j) :
    ∃ B B' : Matrix (Fin r) (Fin (p + 1)) α, later (standardize isZero) (of A) (of Z) = .ok (of B) ∧
      later (standardize isZero) (of A') (of Z') = .ok (of B') ∧ ∀ i, B i j = B' i j := by
  refine ⟨_, _, later_standardize isZero A Z, later_standardize isZero A' Z', fun i => ?_⟩
  have hm : gMean A j = gMean A' j := by simp only [gMean, hA]
  have hs : gStd A j = gStd A' j := by simp only [gStd, hm, hA]
  have hd : gDiv isZero A j = gDiv isZero A' j := by
    unfold gDiv
    by_cases h0 : j = 0
    · subst h0; rw [hs]
    · rw [if_neg fun h => h0 h.1, if_neg fun h => h0 h.1, hs]
  simp only [Matrix.of_apply, hZ, hm, hd]

end standardize

section log
variable [Zero α] [One α] [Add α] [Sub α] [Mul α] [Div α] [HasLog α] [HasExp α]

theorem log_value (E : α) (eq le : α → α → Bool) (s : LogState α) (Z : Matrix (Fin r) (Fin p) α) :
    ((∃ i j, le (Z i j + s.offset) 0 = true) → (log E eq le).doTransform s (of Z) = .error .valueError) ∧
    ((∀ i j, le (Z i j + s.offset) 0 = false) → (log E eq le).doTransform s (of Z) =
      .ok (((of (Matrix.of fun i j => HasLog.log (Z i j + s.offset))).smul (logFactor E eq s.base)))) := by
  have ha : ∀ b, ((of Z).addScalar s.offset).any (fun x => le x 0) = b → (log E eq le).doTransform s (of Z) = if b = true then .error .valueError
      else .ok ((of (Matrix.of fun i j => HasLog.log (Z i j + s.offset))).smul (logFactor E eq s.base)) := fun b hb => by
    rw [← hb]; rfl
  refine ⟨fun h => ?_, fun h => ?_⟩
  · rw [ha true ((any_of_iff (Matrix.of fun i j => Z i j + s.offset) _).2 h), if_pos rfl]
  · rw [ha false (by
      rw [← Bool.not_eq_true]
      intro hc
      obtain ⟨i, j, hij⟩ := (any_of_iff (Matrix.of fun i j => Z i j + s.offset) _).1 hc
      have := h i j
      rw [Matrix.of_apply] at hij
      rw [hij] at this
      cases this), if_neg (by simp)]

/-- C150.  **Log** on data it accepts: choosing columns before or after makes no difference, in both directions.  Base and offset are arbitrary. -/
theorem C150_log (E : α) (eq le : α → α → Bool) (s : LogState α) (e : Fin p → Fin p') (Z : Matrix (Fin r) (Fin p') α) :
    (∀ B : Matrix (Fin r) (Fin p') α, (log E eq le).doTransform s (of Z) = .ok (of B) →
      (log E eq le).doTransform s (of (chosen e Z)) = .ok (of (chosen e B))) ∧
    ∃ C : Matrix (Fin r) (Fin p') α, (log E eq le).doInverse s (of Z) = .ok (of C) ∧
      (log E eq le).doInverse s (of (chosen e Z)) = .ok (of (chosen e C)) := by
  refine ⟨fun B hB => ?_, _, rfl, rfl⟩
  by_cases h : ∃ i j, le (Z i j + s.offset) 0 = true
  · rw [(log_value E eq le s Z).1 h] at hB
    cases hB
  · have h' : ∀ i j, le (Z i j + s.offset) 0 = false := fun i j => by
      rw [← Bool.not_eq_true]
      exact fun hc => h ⟨i, j, hc⟩
    rw [(log_value E eq le s Z).2 h', ok_inj] at hB
    rw [(log_value E eq le s (chosen e Z)).2 fun i j => h' i (e j), ok_inj]
    have : B = Matrix.of fun i j => HasLog.log (Z i j + s.offset) * logFactor E eq s.base := (of_inj.1 hB).symm
    rw [this]
    rfl

/-- C150.  **Log refuses** data if and only if it refuses one of their columns alone. -/
theorem C150_log_refuses (E : α) (eq le : α → α → Bool) (s : LogState α) (Z : Matrix (Fin r) (Fin p) α) :
    (log E eq le).doTransform s (of Z) = .error .valueError ↔
      ∃ j, (log E eq le).doTransform s (of (chosen (fun _ : Fin 1 => j) Z)) = .error .valueError := by
  constructor
  · intro hr
    by_contra hc
    push Not at hc
    have h' : ∀ i j, le (Z i j + s.offset) 0 = false := fun i j => by
      rw [← Bool.not_eq_true]
      exact fun h => hc j ((log_value E eq le s _).1 ⟨i, 0, h⟩)
    rw [(log_value E eq le s Z).2 h'] at hr
    cases hr
  · rintro ⟨j, hj⟩
    by_contra hc
    have h' : ∀ i k, le (Z i k + s.offset) 0 = false := fun i k => by
      rw [← Bool.not_eq_true]
      exact fun h => hc ((log_value E eq le s Z).1 ⟨i, k, h⟩)
    rw [(log_value E eq le s (chosen (fun _ : Fin 1 => j) Z)).2 fun i k => h' i j] at hj
    cases hj

end log

/-! ## The first column of Standardize -/

/-- C150 (false for Standardize).  **A constant column behind the first** becomes NaN, but standardised alone it becomes zero: choosing columns before
or after makes a difference. -/
theorem C150_standardize_violation (A : Matrix (Fin n) (Fin (p + 1)) ℝ) (hn : 2 ≤ n) (j : Fin (p + 1)) (hj : j ≠ 0)
    (hc : ∀ i k, A i j = A k j) :
    ∃ (B : Matrix (Fin n) (Fin (p + 1)) (X ℝ)) (C : Matrix (Fin n) (Fin 1) (X ℝ)),
      later (standardize isZeroX) (of (X.finMat A)) (of (X.finMat A)) = .ok (of B) ∧
      later (standardize isZeroX) (of (chosen (fun _ : Fin 1 => j) (X.finMat A))) (of (chosen (fun _ : Fin 1 => j) (X.finMat A))) = .ok (of C) ∧
      (∀ i, B i j = .nan) ∧ ∀ i, C i 0 = .fin 0 := by
  have h0 : 0 < n := by omega
  have hs : gStd (X.finMat A) j = X.fin 0 := by
    unfold gStd
    simp only [const_dev h0 A j hc, X.fin_mul]
    have hm : ((n - 1 : Nat) : ℝ) ≠ 0 := by
      have : n - 1 ≠ 0 := by omega
      exact_mod_cast this
    rw [X.sumFin_fin, sumFin_eq, X.natCast_fin, X.fin_div _ hm]
    show (if (∑ _ : Fin n, (0 * 0 : ℝ)) / _ < 0 then X.nan else X.fin (Real.sqrt _)) = _
    have h00 : (∑ _ : Fin n, (0 * 0 : ℝ)) = 0 := by simp
    rw [h00, zero_div, if_neg (lt_irrefl _), Real.sqrt_zero]
  refine ⟨_, _, later_standardize _ _ _, later_standardize _ _ _, fun i => ?_, fun i => ?_⟩
  · rw [Matrix.of_apply, const_dev h0 A j hc]
    unfold gDiv
    rw [if_neg fun h => hj h.1, hs]
    exact (X.fin_div_zero 0).trans X.signedInf_zero
  · rw [Matrix.of_apply]
    have h1 : chosen (fun _ : Fin 1 => j) (X.finMat A) i 0 - gMean (chosen (fun _ : Fin 1 => j) (X.finMat A)) 0 = X.fin 0 :=
      const_dev h0 A j hc i
    have h2 : gStd (chosen (fun _ : Fin 1 => j) (X.finMat A)) 0 = X.fin 0 := hs
    rw [h1]
    unfold gDiv
    rw [h2, if_pos ⟨rfl, by simp [isZeroX, X.eqb]⟩]
    exact (X.fin_div 0 one_ne_zero).trans (by rw [zero_div])

/-! ## Concrete cases -/

/-- NaN in the first column does not reach the second. -/
example : ∃ B B' : Matrix (Fin 2) (Fin 2) (X ℝ),
    later (standardize isZeroX) (of (!![.nan, .fin 1; .fin 3, .fin 4] : Matrix (Fin 2) (Fin 2) (X ℝ)))
      (of (!![.nan, .fin 1; .fin 3, .fin 4] : Matrix (Fin 2) (Fin 2) (X ℝ))) = .ok (of B) ∧
    later (standardize isZeroX) (of (!![.fin 7, .fin 1; .fin 3, .fin 4] : Matrix (Fin 2) (Fin 2) (X ℝ)))
      (of (!![.fin 7, .fin 1; .fin 3, .fin 4] : Matrix (Fin 2) (Fin 2) (X ℝ))) = .ok (of B') ∧ ∀ i, B i 1 = B' i 1 :=
  C150_standardize_local isZeroX _ _ _ _ 1 (fun i => by fin_cases i <;> rfl) (fun i => by fin_cases i <;> rfl)

/-- Columns 1, 0, 1 of data without constant columns. -/
example (Z : Matrix (Fin 1) (Fin 2) ℝ) := C150_standardize_partial (p := 2) (p' := 1) (fun _ : ℝ => false) ![1, 0, 1]
  (!![0, 1; 2, 5] : Matrix (Fin 2) (Fin 2) ℝ) (fun j h => by cases h) Z

/-- A column of fives in second place. -/
example := C150_standardize_violation (!![0, 5; 2, 5] : Matrix (Fin 2) (Fin 2) ℝ) (by decide) 1 (by decide) (fun i k => by
  fin_cases i <;> fin_cases k <;> rfl)

end Verif.Props
