import Verif.Core.SelLemmas
import Verif.Core.Factory
import Verif.Props.Factory
import Mathlib.Algebra.BigOperators.Ring.Finset
import Mathlib.Algebra.BigOperators.Field
import Mathlib.Tactic.FieldSimp

/-!
# C07–C09 — arithmetic, vector broadcasting, sums and means
-/

namespace Verif.Props
open Verif Verif.Mat

variable {α : Type}

/-! ## C07 -/

/-- Specification: `C` is the entrywise combination of `M` and `N`. -/
def EntrywiseOf (f : α → α → α) (M N C : Mat α) : Prop :=
  C.rows = M.rows ∧ C.cols = M.cols ∧
  ∀ i j x y, M.entry? i j = some x → N.entry? i j = some y → C.entry? i j = some (f x y)

theorem zipWith_spec (e : PyErr) (f : α → α → α) (M N : Mat α) :
    (M.rows = N.rows ∧ M.cols = N.cols →
      ∃ C, zipWith e f M N = .ok C ∧ EntrywiseOf f M N C) ∧
    (¬(M.rows = N.rows ∧ M.cols = N.cols) → zipWith e f M N = .error e) := by
  constructor
  · intro h
    obtain ⟨m, n, A⟩ := M
    obtain ⟨m', n', B⟩ := N
    obtain ⟨h1, h2⟩ := h
    dsimp at h1 h2
    subst h1 h2
    refine ⟨_, zipWith_of e f A B, rfl, rfl, ?_⟩
    intro i j x y hx hy
    obtain ⟨hi, hj, rfl⟩ := entry?_eq_some.1 hx
    obtain ⟨_, _, rfl⟩ := entry?_eq_some.1 hy
    exact entry?_eq_some.2 ⟨hi, hj, rfl⟩
  · intro h; unfold zipWith; rw [dif_neg h]

/-- C07: matrix addition, subtraction and entrywise product / quotient are entrywise on equal
shapes and raise `InvalidShapeError` on any other pair of shapes. -/
theorem C07_entrywise [Add α] [Sub α] [Mul α] [Div α] (M N : Mat α) :
    (M.rows = N.rows ∧ M.cols = N.cols →
      (∃ C, M.add N = .ok C ∧ EntrywiseOf (· + ·) M N C) ∧
      (∃ C, M.sub N = .ok C ∧ EntrywiseOf (· - ·) M N C) ∧
      (∃ C, M.mulElementwise N = .ok C ∧ EntrywiseOf (· * ·) M N C) ∧
      (∃ C, M.divElementwise N = .ok C ∧ EntrywiseOf (· / ·) M N C)) ∧
    (¬(M.rows = N.rows ∧ M.cols = N.cols) →
      M.add N = .error .invalidShape ∧ M.sub N = .error .invalidShape ∧
      M.mulElementwise N = .error .invalidShape ∧ M.divElementwise N = .error .invalidShape) :=
  ⟨fun h => ⟨(zipWith_spec _ _ M N).1 h, (zipWith_spec _ _ M N).1 h, (zipWith_spec _ _ M N).1 h,
    (zipWith_spec _ _ M N).1 h⟩,
   fun h => ⟨(zipWith_spec _ _ M N).2 h, (zipWith_spec _ _ M N).2 h, (zipWith_spec _ _ M N).2 h,
    (zipWith_spec _ _ M N).2 h⟩⟩

/-- C07: scalar operations act on every entry. -/
theorem C07_scalar [Add α] [Sub α] [Mul α] [Div α] (M : Mat α) (s : α) (i j : Nat) :
    (M.addScalar s).entry? i j = (M.entry? i j).map (· + s) ∧
    (M.subScalar s).entry? i j = (M.entry? i j).map (· - s) ∧
    (M.smul s).entry? i j = (M.entry? i j).map (· * s) ∧
    (M.div s).entry? i j = (M.entry? i j).map (· / s) := by
  unfold addScalar subScalar Mat.smul Mat.div Mat.map Mat.entry?
  by_cases h : i < M.rows ∧ j < M.cols <;> simp [h]

/-- C07: the product is row-by-column; incompatible shapes raise `ValueError`. -/
theorem C07_mul [CommSemiring α] (M N : Mat α) :
    (M.cols = N.rows → ∃ C, M.mul N = .ok C ∧ C.rows = M.rows ∧ C.cols = N.cols ∧
      ∀ i j, i < M.rows → j < N.cols → C.entry? i j =
        some (∑ k ∈ Finset.range M.cols, (M.entry? i k).getD 0 * (N.entry? k j).getD 0)) ∧
    (M.cols ≠ N.rows → M.mul N = .error .valueError) := by
  refine ⟨fun h => ?_, mul_error⟩
  obtain ⟨m, n, A⟩ := M
  obtain ⟨n', p, B⟩ := N
  dsimp at h
  subst h
  refine ⟨_, mul_of A B, rfl, rfl, fun i j hi hj => ?_⟩
  refine entry?_eq_some.2 ⟨hi, hj, ?_⟩
  dsimp only at hi hj ⊢
  rw [Matrix.mul_apply, Finset.sum_range]
  refine Finset.sum_congr rfl fun k _ => ?_
  rw [entry?_of A ⟨i, hi⟩ k, entry?_of B k ⟨j, hj⟩]
  rfl

/-- C07: the product is associative; both association orders reject the same triples. -/
theorem C07_mul_assoc [CommSemiring α] (M N P : Mat α) :
    (M.mul N >>= fun C => C.mul P) = (N.mul P >>= fun C => M.mul C) := by
  by_cases h1 : M.cols = N.rows
  · by_cases h2 : N.cols = P.rows
    · obtain ⟨m, n, A⟩ := M
      obtain ⟨n', p, B⟩ := N
      obtain ⟨p', q, C⟩ := P
      dsimp at h1 h2
      subst h1 h2
      rw [mul_of, mul_of, except_bind_ok, except_bind_ok, mul_of, mul_of, Matrix.mul_assoc]
    · rw [mul_error h2]
      obtain ⟨C, hC, hr, hc, _⟩ := (C07_mul M N).1 h1
      rw [hC, except_bind_ok, mul_error (by omega)]; rfl
  · rw [mul_error h1]
    by_cases h2 : N.cols = P.rows
    · obtain ⟨C, hC, hr, hc, _⟩ := (C07_mul N P).1 h2
      rw [hC, except_bind_ok, mul_error (by omega)]; rfl
    · rw [mul_error h2]; rfl

/-- C07: the product distributes over addition on both sides. -/
theorem C07_mul_add [CommSemiring α] (M N P : Mat α) (h : N.rows = P.rows ∧ N.cols = P.cols) :
    (N.add P >>= fun S => M.mul S) =
      (do let A ← M.mul N; let B ← M.mul P; A.add B) ∧
    (N.add P >>= fun S => S.mul M) =
      (do let A ← N.mul M; let B ← P.mul M; A.add B) := by
  obtain ⟨n, p, A⟩ := N
  obtain ⟨n', p', B⟩ := P
  obtain ⟨m, q, C⟩ := M
  obtain ⟨h1, h2⟩ := h
  dsimp at h1 h2
  subst h1 h2
  constructor
  · by_cases hq : q = n
    · subst hq
      simp [Matrix.mul_add]
    · rw [add_of, except_bind_ok, mul_error (M := ⟨m, q, C⟩) hq,
        mul_error (M := ⟨m, q, C⟩) (N := ⟨n, p, A⟩) hq]
      rfl
  · by_cases hq : p = m
    · subst hq
      simp [Matrix.add_mul]
    · rw [add_of, except_bind_ok, mul_error (N := ⟨m, q, C⟩) hq,
        mul_error (M := ⟨n, p, A⟩) (N := ⟨m, q, C⟩) hq]
      rfl

example : ∃ C, (of !![1, 2; 3, (4 : Int)]).mul (of !![1; 1]) = .ok C ∧
    C.entry? 1 0 = some 7 := ⟨_, rfl, rfl⟩
example : (of !![1, 2; 3, (4 : Int)]).mul (of !![1, 1]) = .error .valueError := rfl

/-! ## C08 -/

/-- C08: the vector operations accept exactly row vectors matching the column count and column
vectors (of length other than one) matching the row count; everything else is a `ValueError`. -/
theorem C08_vectorOp (f : α → α → α) (M v : Mat α) :
    (v.rows = 1 ∧ v.cols = M.cols → ∃ C, vectorOp f M v = .ok C ∧ C.rows = M.rows ∧
      C.cols = M.cols ∧ ∀ i j x y, M.entry? i j = some x → v.entry? 0 j = some y →
        C.entry? i j = some (f x y)) ∧
    (v.rows ≠ 1 ∧ v.cols = 1 ∧ v.rows = M.rows → ∃ C, vectorOp f M v = .ok C ∧ C.rows = M.rows ∧
      C.cols = M.cols ∧ ∀ i j x y, M.entry? i j = some x → v.entry? i 0 = some y →
        C.entry? i j = some (f x y)) ∧
    (¬(v.rows = 1 ∧ v.cols = M.cols) ∧ ¬(v.rows ≠ 1 ∧ v.cols = 1 ∧ v.rows = M.rows) →
      vectorOp f M v = .error .valueError) := by
  refine ⟨?_, ?_, ?_⟩
  · rintro ⟨h1, h2⟩
    obtain ⟨m, n, A⟩ := M
    obtain ⟨m', n', v⟩ := v
    dsimp at h1 h2
    subst h1 h2
    refine ⟨_, vectorOp_row f A v, rfl, rfl, ?_⟩
    intro i j x y hx hy
    obtain ⟨hi, hj, rfl⟩ := entry?_eq_some.1 hx
    obtain ⟨_, _, rfl⟩ := entry?_eq_some.1 hy
    exact entry?_eq_some.2 ⟨hi, hj, rfl⟩
  · rintro ⟨h1, h2, h3⟩
    obtain ⟨m, n, A⟩ := M
    obtain ⟨m', n', v⟩ := v
    dsimp at h1 h2 h3
    subst h2 h3
    refine ⟨_, vectorOp_col f A v h1, rfl, rfl, ?_⟩
    intro i j x y hx hy
    obtain ⟨hi, hj, rfl⟩ := entry?_eq_some.1 hx
    obtain ⟨_, _, rfl⟩ := entry?_eq_some.1 hy
    exact entry?_eq_some.2 ⟨hi, hj, rfl⟩
  · rintro ⟨h1, h2⟩
    unfold vectorOp mustBeVector
    by_cases hv : v.isVector = true
    · rw [if_pos hv, except_bind_ok, if_neg]
      unfold vectorSizeMatches
      rw [hv]
      rw [isVector_iff] at hv
      by_cases hr : v.rows = 1
      · simp [isRowVector_eq, hr]; omega
      · simp [isRowVector_eq, hr]; omega
    · rw [if_neg hv]; rfl

/-- C08: `add_by_vector`, `sub_by_vector`, `mul_by_vector` and their in-place variants (and
`div_by_vector_modify`) are the broadcasts of `+ - * /`. -/
theorem C08_named_ops [Add α] [Sub α] [Mul α] [Div α] {m n : Nat} (A : Matrix (Fin m) (Fin n) α)
    (v : Matrix (Fin 1) (Fin n) α) :
    (of A).addByVector (of v) = .ok (ofFn fun i j => A i j + v 0 j) ∧
    (of A).subByVector (of v) = .ok (ofFn fun i j => A i j - v 0 j) ∧
    (of A).mulByVector (of v) = .ok (ofFn fun i j => A i j * v 0 j) ∧
    (of A).divByVector (of v) = .ok (ofFn fun i j => A i j / v 0 j) :=
  ⟨vectorOp_row _ A v, vectorOp_row _ A v, vectorOp_row _ A v, vectorOp_row _ A v⟩

/-- C08: `scale_by_row_vector` takes a *column* vector with one entry per column and multiplies
column `j` by its `j`-th entry; anything else is rejected. -/
theorem C08_scaleByRowVector [Mul α] (M v : Mat α) :
    (v.cols = 1 ∧ v.rows = M.cols → ∃ C, M.scaleByRowVector v = .ok C ∧ C.rows = M.rows ∧
      C.cols = M.cols ∧ ∀ i j x y, M.entry? i j = some x → v.entry? j 0 = some y →
        C.entry? i j = some (x * y)) ∧
    (v.cols ≠ 1 → M.scaleByRowVector v = .error .valueError) ∧
    (v.cols = 1 ∧ v.rows ≠ M.cols → M.scaleByRowVector v = .error .invalidShape) := by
  refine ⟨?_, ?_, ?_⟩
  · rintro ⟨h1, h2⟩
    obtain ⟨C, hC, hr, hc, he⟩ := (C08_vectorOp (· * ·) M v.transpose).1 ⟨h1, h2⟩
    refine ⟨C, ?_, hr, hc, fun i j x y hx hy => he i j x y hx ?_⟩
    · unfold scaleByRowVector mustBeColumnVector
      rw [if_pos (by simp [h1]), except_bind_ok, if_pos h2.symm]; exact hC
    · obtain ⟨hi, hj, rfl⟩ := entry?_eq_some.1 hy
      exact entry?_eq_some.2 ⟨hj, hi, rfl⟩
  · intro h
    unfold scaleByRowVector mustBeColumnVector
    rw [if_neg (by simp [h])]; rfl
  · rintro ⟨h1, h2⟩
    unfold scaleByRowVector mustBeColumnVector
    rw [if_pos (by simp [h1]), except_bind_ok, if_neg (fun h => h2 h.symm)]

/-- C08 (partial: needs more than one row, see the violation below): `scale_by_column_vector`
multiplies row `i` by the `i`-th entry of a column vector. -/
theorem C08_scaleByColumnVector_partial [Mul α] (M v : Mat α) :
    (v.cols = 1 ∧ v.rows = M.rows ∧ (M.rows ≠ 1 ∨ M.cols = 1) →
      ∃ C, M.scaleByColumnVector v = .ok C ∧ C.rows = M.rows ∧
      C.cols = M.cols ∧ ∀ i j x y, M.entry? i j = some x → v.entry? i 0 = some y →
        C.entry? i j = some (x * y)) ∧
    (v.cols ≠ 1 → M.scaleByColumnVector v = .error .valueError) ∧
    (v.cols = 1 ∧ v.rows ≠ M.rows → M.scaleByColumnVector v = .error .invalidShape) := by
  refine ⟨?_, ?_, ?_⟩
  · rintro ⟨h1, h2, h3⟩
    have hrun : M.scaleByColumnVector v = vectorOp (· * ·) M v := by
      unfold scaleByColumnVector mustBeColumnVector
      rw [if_pos (by simp [h1]), except_bind_ok, if_pos h2.symm]; rfl
    by_cases h : v.rows = 1
    · obtain ⟨C, hC, hr, hc, he⟩ := (C08_vectorOp (· * ·) M v).1 ⟨h, by omega⟩
      refine ⟨C, by rw [hrun, hC], hr, hc, fun i j x y hx hy => he i j x y hx ?_⟩
      obtain ⟨hi, hj, _⟩ := entry?_eq_some.1 hx
      have : i = 0 := by omega
      have : j = 0 := by omega
      subst i j; exact hy
    · obtain ⟨C, hC, hr, hc, he⟩ := (C08_vectorOp (· * ·) M v).2.1 ⟨h, h1, h2⟩
      exact ⟨C, by rw [hrun, hC], hr, hc, he⟩
  · intro h
    unfold scaleByColumnVector mustBeColumnVector
    rw [if_neg (by simp [h])]; rfl
  · rintro ⟨h1, h2⟩
    unfold scaleByColumnVector mustBeColumnVector
    rw [if_pos (by simp [h1]), except_bind_ok, if_neg (fun h => h2 h.symm)]

/-- C08 is violated: a one-row matrix with several columns rejects its (1×1) column vector of
row scales, because a 1×1 vector is treated as a row vector. -/
theorem C08_scaleByColumnVector_violation [Mul α] (M v : Mat α) (hv : v.rows = 1 ∧ v.cols = 1)
    (hM : M.rows = 1) (hc : M.cols ≠ 1) : M.scaleByColumnVector v = .error .valueError := by
  unfold scaleByColumnVector mustBeColumnVector
  rw [if_pos (by simp [hv.2]), except_bind_ok, if_pos (by omega)]
  exact (C08_vectorOp _ M v).2.2 ⟨by omega, by omega⟩

example : (of !![2, 3, (4 : Int)]).scaleByColumnVector (of !![5]) = .error .valueError := rfl
example : ∃ C, (of !![2, 3; 4, (5 : Int)]).scaleByColumnVector (of !![5; 7]) = .ok C ∧
    C.entry? 1 0 = some 28 := ⟨_, rfl, rfl⟩

/-! ## C09 -/

/-- Entry as a number (0 outside the matrix), used only inside sums over in-range indices. -/
def val [Zero α] (M : Mat α) (i j : Nat) : α := (M.entry? i j).getD 0

theorem val_data [Zero α] (M : Mat α) (i : Fin M.rows) (j : Fin M.cols) :
    val M i j = M.data i j := by simp [val, entry?_mk]

theorem total_eq [AddCommMonoid α] (M : Mat α) :
    M.total = ∑ j ∈ Finset.range M.cols, ∑ i ∈ Finset.range M.rows, val M i j := by
  unfold total
  rw [sumFin_eq, Finset.sum_range]
  refine Finset.sum_congr rfl fun j _ => ?_
  rw [sumFin_eq, Finset.sum_range]
  exact Finset.sum_congr rfl fun i _ => (val_data M i j).symm

/-- C09: axis 0 gives the row vector of column sums, axis 1 the column vector of row sums, axis
-1 a 1×1 matrix with the grand total, no axis the grand total; any other axis is rejected. -/
theorem C09_sum [AddCommMonoid α] (M : Mat α) :
    (∃ C, M.sum (some 0) = .ok (.mat C) ∧ C.rows = 1 ∧ C.cols = M.cols ∧
      ∀ j < M.cols, C.entry? 0 j = some (∑ i ∈ Finset.range M.rows, val M i j)) ∧
    (∃ C, M.sum (some 1) = .ok (.mat C) ∧ C.rows = M.rows ∧ C.cols = 1 ∧
      ∀ i < M.rows, C.entry? i 0 = some (∑ j ∈ Finset.range M.cols, val M i j)) ∧
    (∃ C, M.sum (some (-1)) = .ok (.mat C) ∧ C.rows = 1 ∧ C.cols = 1 ∧
      C.entry? 0 0 = some (∑ i ∈ Finset.range M.rows, ∑ j ∈ Finset.range M.cols, val M i j)) ∧
    M.sum none = .ok (.real (∑ i ∈ Finset.range M.rows, ∑ j ∈ Finset.range M.cols, val M i j)) ∧
    (∀ a, a ≠ 0 → a ≠ 1 → a ≠ -1 → M.sum (some a) = .error .valueError) := by
  have ht : M.total = ∑ i ∈ Finset.range M.rows, ∑ j ∈ Finset.range M.cols, val M i j := by
    rw [total_eq, Finset.sum_comm]
  refine ⟨⟨M.colSums, rfl, rfl, rfl, fun j hj => ?_⟩, ⟨M.rowSums, rfl, rfl, rfl, fun i hi => ?_⟩,
    ⟨⟨1, 1, Matrix.of fun _ _ => M.total⟩, rfl, rfl, rfl, ?_⟩, ?_, ?_⟩
  · refine entry?_eq_some.2 ⟨Nat.one_pos, hj, ?_⟩
    simp only [colSums, Matrix.of_apply]
    rw [sumFin_eq, Finset.sum_range]
    exact Finset.sum_congr rfl fun i _ => (val_data M i ⟨j, hj⟩).symm
  · refine entry?_eq_some.2 ⟨hi, Nat.one_pos, ?_⟩
    simp only [rowSums, Matrix.of_apply]
    rw [sumFin_eq, Finset.sum_range]
    exact Finset.sum_congr rfl fun j _ => (val_data M ⟨i, hi⟩ j).symm
  · rw [← ht]; rfl
  · rw [← ht]; rfl
  · intro a h0 h1 h2
    simp [Mat.sum, h0, h1, h2]

/-- C09: the mean is the sum divided by the number of summands (over a field of characteristic
zero; the axis must be non-empty), and any other axis is rejected. -/
theorem C09_mean [Field α] [CharZero α] (M : Mat α) (hr : M.rows ≠ 0) (hc : M.cols ≠ 0) :
    (∃ C, M.mean (some 0) = .ok (.mat C) ∧ C.rows = 1 ∧ C.cols = M.cols ∧
      ∀ j < M.cols, ∃ m, C.entry? 0 j = some m ∧
        m * M.rows = ∑ i ∈ Finset.range M.rows, val M i j) ∧
    (∃ C, M.mean (some 1) = .ok (.mat C) ∧ C.rows = M.rows ∧ C.cols = 1 ∧
      ∀ i < M.rows, ∃ m, C.entry? i 0 = some m ∧
        m * M.cols = ∑ j ∈ Finset.range M.cols, val M i j) ∧
    (∃ m, M.mean none = .ok (.real m) ∧ m * (M.rows * M.cols : Nat) =
      ∑ i ∈ Finset.range M.rows, ∑ j ∈ Finset.range M.cols, val M i j) ∧
    (∃ m, M.mean (some (-1)) = .ok (.mat (ofFn fun (_ _ : Fin 1) => m)) ∧
      m * (M.rows * M.cols : Nat) =
        ∑ i ∈ Finset.range M.rows, ∑ j ∈ Finset.range M.cols, val M i j) ∧
    (∀ a, a ≠ 0 → a ≠ 1 → a ≠ -1 → M.mean (some a) = .error .invalidAxis) := by
  have hr' : (M.rows : α) ≠ 0 := Nat.cast_ne_zero.2 hr
  have hc' : (M.cols : α) ≠ 0 := Nat.cast_ne_zero.2 hc
  have ht : M.meanAll * (M.rows * M.cols : Nat) =
      ∑ i ∈ Finset.range M.rows, ∑ j ∈ Finset.range M.cols, val M i j := by
    unfold meanAll
    rw [total_eq, Finset.sum_comm, div_mul_cancel₀]
    exact Nat.cast_ne_zero.2 (Nat.mul_ne_zero hr hc)
  refine ⟨⟨M.columnMeans, rfl, rfl, rfl, fun j hj => ?_⟩,
    ⟨M.rowMeans, rfl, rfl, rfl, fun i hi => ?_⟩, ⟨M.meanAll, rfl, ht⟩, ⟨M.meanAll, rfl, ht⟩, ?_⟩
  · refine ⟨_, entry?_eq_some.2 ⟨Nat.one_pos, hj, rfl⟩, ?_⟩
    show (sumFin fun i => M.data i ⟨j, hj⟩) / (M.rows : α) * _ = _
    rw [div_mul_cancel₀ _ hr', sumFin_eq, Finset.sum_range]
    exact Finset.sum_congr rfl fun i _ => (val_data M i ⟨j, hj⟩).symm
  · refine ⟨_, entry?_eq_some.2 ⟨hi, Nat.one_pos, rfl⟩, ?_⟩
    show (sumFin fun j => M.data ⟨i, hi⟩ j) / (M.cols : α) * _ = _
    rw [div_mul_cancel₀ _ hc', sumFin_eq, Finset.sum_range]
    exact Finset.sum_congr rfl fun j _ => (val_data M ⟨i, hi⟩ j).symm
  · intro a h0 h1 h2
    simp [Mat.mean, h0, h1, h2]

example : ∃ C, (of !![1, 2; 3, (4 : Int)]).sum (some 1) = .ok (.mat C) ∧
    C.entry? 1 0 = some 7 := ⟨_, rfl, rfl⟩

end Verif.Props
