import Verif.Core.Mat
import Mathlib.LinearAlgebra.Matrix.RowCol
import Mathlib.Algebra.BigOperators.Fin

/-!
# Helper lemmas: running matrix methods on typed matrices

`of A` is a typed matrix; these lemmas evaluate each method on matrices of known shape.
-/

namespace Verif
namespace Mat

variable {α : Type}

theorem ext' {M N : Mat α} (hr : M.rows = N.rows) (hc : M.cols = N.cols)
    (h : ∀ i j, M.data i j = N.data (i.cast hr) (j.cast hc)) : M = N := by
  obtain ⟨r, c, A⟩ := M
  obtain ⟨r', c', B⟩ := N
  dsimp at hr hc
  subst hr hc
  congr
  funext i j
  exact h i j

/-- Equality of two matrices of literally the same shape. -/
theorem mk_congr {m n : Nat} {A B : Matrix (Fin m) (Fin n) α} (h : ∀ i j, A i j = B i j) :
    (⟨m, n, A⟩ : Mat α) = ⟨m, n, B⟩ := by
  have : A = B := by funext i j; exact h i j
  rw [this]

/-- Equality of two matrices given by their components. -/
theorem mk_eq {m n m' n' : Nat} {A : Matrix (Fin m) (Fin n) α} {B : Matrix (Fin m') (Fin n') α}
    (hm : m = m') (hn : n = n') (h : ∀ i j, A i j = B (i.cast hm) (j.cast hn)) :
    (⟨m, n, A⟩ : Mat α) = ⟨m', n', B⟩ := by
  subst hm hn
  exact mk_congr h

theorem ext_iff' {M N : Mat α} : M = N ↔ ∃ (hr : M.rows = N.rows) (hc : M.cols = N.cols),
    ∀ i j, M.data i j = N.data (i.cast hr) (j.cast hc) := by
  constructor
  · rintro rfl; exact ⟨rfl, rfl, fun _ _ => rfl⟩
  · rintro ⟨hr, hc, h⟩; exact ext' hr hc h

theorem of_injective {m n : Nat} {A B : Matrix (Fin m) (Fin n) α} (h : of A = of B) : A = B := by
  unfold of at h
  injection h

@[simp] theorem of_inj {m n : Nat} {A B : Matrix (Fin m) (Fin n) α} :
    of A = of B ↔ A = B := ⟨of_injective, fun h => by rw [h]⟩

theorem exists_of (M : Mat α) : M = of M.data := rfl

theorem ok_inj {ε β : Type _} {a b : β} : (Except.ok a : Except ε β) = .ok b ↔ a = b :=
  ⟨fun h => by injection h, fun h => by rw [h]⟩

theorem entry?_of {m n : Nat} (A : Matrix (Fin m) (Fin n) α) (i : Fin m) (j : Fin n) :
    (of A).entry? i j = some (A i j) := by
  simp [entry?]

theorem entry?_mk (M : Mat α) (i : Fin M.rows) (j : Fin M.cols) :
    M.entry? i j = some (M.data i j) := by
  simp [entry?]

theorem entry?_eq_some {M : Mat α} {i j : Nat} {x : α} :
    M.entry? i j = some x ↔ ∃ (hi : i < M.rows) (hj : j < M.cols), M.data ⟨i, hi⟩ ⟨j, hj⟩ = x := by
  unfold entry?
  by_cases h : i < M.rows ∧ j < M.cols
  · rw [dif_pos h]
    constructor
    · intro h'; injection h' with h'; exact ⟨h.1, h.2, h'⟩
    · rintro ⟨_, _, h'⟩; rw [h']
  · rw [dif_neg h]
    constructor
    · intro h'; cases h'
    · rintro ⟨h1, h2, _⟩; exact absurd ⟨h1, h2⟩ h

theorem ext_entry {M N : Mat α} (hr : M.rows = N.rows) (hc : M.cols = N.cols)
    (h : ∀ i j, M.entry? i j = N.entry? i j) : M = N := by
  refine ext' hr hc fun i j => ?_
  have h1 := h i j
  rw [entry?_mk] at h1
  obtain ⟨_, _, h2⟩ := entry?_eq_some.1 h1.symm
  exact h2.symm

/-! ### shape predicates -/

@[simp] theorem isVector_iff (M : Mat α) : M.isVector = true ↔ M.rows = 1 ∨ M.cols = 1 := by
  simp [isVector]

@[simp] theorem isRowVector_iff (M : Mat α) : M.isRowVector = true ↔ M.rows = 1 := by
  simp [isRowVector, isVector]
  intro h; exact .inl h

@[simp] theorem isColumnVector_iff (M : Mat α) : M.isColumnVector = true ↔ M.cols = 1 := by
  simp [isColumnVector, isVector]
  intro h; exact .inr h

theorem isRowVector_eq (M : Mat α) : M.isRowVector = decide (M.rows = 1) := by
  rw [Bool.eq_iff_iff]; simp
theorem isColumnVector_eq (M : Mat α) : M.isColumnVector = decide (M.cols = 1) := by
  rw [Bool.eq_iff_iff]; simp

/-! ### get / set -/

@[simp] theorem get_of {m n : Nat} (A : Matrix (Fin m) (Fin n) α) (i : Fin m) (j : Fin n) :
    (of A).get ((i : Nat) : Int) ((j : Nat) : Int) = .ok (A i j) := by
  simp [get]

@[simp] theorem get_of_col {m : Nat} (A : Matrix (Fin m) (Fin 1) α) (i : Fin m) :
    (of A).get ((i : Nat) : Int) 0 = .ok (A i 0) := by
  simp [get]

@[simp] theorem get_of_row {n : Nat} (A : Matrix (Fin 1) (Fin n) α) (j : Fin n) :
    (of A).get 0 ((j : Nat) : Int) = .ok (A 0 j) := by
  simp [get]

@[simp] theorem set_of {m n : Nat} (A : Matrix (Fin m) (Fin n) α) (i : Fin m) (j : Fin n) (v : α) :
    (of A).set ((i : Nat) : Int) ((j : Nat) : Int) v =
      .ok (of (Matrix.of fun a b => if a = i ∧ b = j then v else A a b)) := by
  simp [set]

@[simp] theorem transpose_of {m n : Nat} (A : Matrix (Fin m) (Fin n) α) :
    (of A).transpose = of A.transpose := rfl

@[simp] theorem copy_eq (M : Mat α) : M.copy = M := rfl

@[simp] theorem getRow_of {m n : Nat} (A : Matrix (Fin m) (Fin n) α) (i : Fin m) :
    (of A).getRow ((i : Nat) : Int) = .ok (of (Matrix.of fun (_ : Fin 1) b => A i b)) := by
  simp [getRow]

@[simp] theorem getColumn_of {m n : Nat} (A : Matrix (Fin m) (Fin n) α) (j : Fin n) :
    (of A).getColumn ((j : Nat) : Int) = .ok (of (Matrix.of fun a (_ : Fin 1) => A a j)) := by
  simp [getColumn]

@[simp] theorem mustBeVector_row {n : Nat} (v : Matrix (Fin 1) (Fin n) α) :
    (of v).mustBeVector = .ok () := by simp [mustBeVector]
@[simp] theorem mustBeVector_col {n : Nat} (v : Matrix (Fin n) (Fin 1) α) :
    (of v).mustBeVector = .ok () := by simp [mustBeVector]

theorem setRow_of {m n : Nat} (A : Matrix (Fin m) (Fin n) α) (i : Fin m)
    (v : Matrix (Fin 1) (Fin n) α) :
    (of A).setRow ((i : Nat) : Int) (of v) = .ok (of (A.updateRow i (v 0))) := by
  unfold setRow
  simp only [mustBeVector_row, except_bind_ok, pyIndex_fin, except_pure, ok_inj]
  refine mk_congr fun a b => ?_
  simp only [Matrix.updateRow_apply]
  by_cases hn : n = 1
  · subst hn
    simp [isColumnVector_eq, transpose, entry?, Subsingleton.elim b 0]
  · have hcv : (of v).isColumnVector = false := by simp [isColumnVector_eq, hn]
    simp only [hcv, Bool.false_eq_true, if_false]
    simp [entry?]

theorem setColumn_of {m n : Nat} (A : Matrix (Fin m) (Fin n) α) (j : Fin n)
    (v : Matrix (Fin m) (Fin 1) α) :
    (of A).setColumn ((j : Nat) : Int) (of v) = .ok (of (A.updateCol j (fun i => v i 0))) := by
  unfold setColumn
  simp only [mustBeVector_col, except_bind_ok, pyIndex_fin, except_pure, ok_inj]
  refine mk_congr fun a b => ?_
  simp only [Matrix.updateCol_apply]
  by_cases hn : m = 1
  · subst hn
    simp [isRowVector_eq, transpose, entry?, Subsingleton.elim a 0]
  · have hcv : (of v).isRowVector = false := by simp [isRowVector_eq, hn]
    simp only [hcv, Bool.false_eq_true, if_false]
    simp [entry?]

/-! ### arithmetic -/

@[simp] theorem sumFin_eq [AddCommMonoid α] {n : Nat} (f : Fin n → α) : sumFin f = ∑ i, f i := by
  unfold sumFin; exact List.sum_ofFn

@[simp] theorem zipWith_of (e : PyErr) (f : α → α → α) {m n : Nat} (A B : Matrix (Fin m) (Fin n) α) :
    zipWith e f (of A) (of B) = .ok (of (Matrix.of fun i j => f (A i j) (B i j))) := by
  simp [zipWith]

@[simp] theorem add_of [Add α] {m n : Nat} (A B : Matrix (Fin m) (Fin n) α) :
    (of A).add (of B) = .ok (of (A + B)) := zipWith_of _ _ A B
@[simp] theorem sub_of [Sub α] {m n : Nat} (A B : Matrix (Fin m) (Fin n) α) :
    (of A).sub (of B) = .ok (of (A - B)) := zipWith_of _ _ A B
@[simp] theorem mulElementwise_of [Mul α] {m n : Nat} (A B : Matrix (Fin m) (Fin n) α) :
    (of A).mulElementwise (of B) = .ok (of (Matrix.of fun i j => A i j * B i j)) := zipWith_of _ _ A B
@[simp] theorem divElementwise_of [Div α] {m n : Nat} (A B : Matrix (Fin m) (Fin n) α) :
    (of A).divElementwise (of B) = .ok (of (Matrix.of fun i j => A i j / B i j)) := zipWith_of _ _ A B
theorem smul_of [CommMonoid α] {m n : Nat} (A : Matrix (Fin m) (Fin n) α) (s : α) :
    (of A).smul s = of (s • A) := by
  refine mk_congr fun i j => ?_
  simp [mul_comm]
theorem div_of [Div α] {m n : Nat} (A : Matrix (Fin m) (Fin n) α) (s : α) :
    (of A).div s = of (Matrix.of fun i j => A i j / s) := rfl
theorem map_of {m n : Nat} (f : α → α) (A : Matrix (Fin m) (Fin n) α) :
    (of A).map f = of (Matrix.of fun i j => f (A i j)) := rfl

@[simp] theorem mul_of [NonUnitalNonAssocSemiring α] {m n p : Nat} (A : Matrix (Fin m) (Fin n) α)
    (B : Matrix (Fin n) (Fin p) α) : (of A).mul (of B) = .ok (of (A * B)) := by
  unfold mul
  rw [dif_pos rfl]
  congr 1
  refine mk_congr fun i j => ?_
  simp [Matrix.mul_apply]

theorem mul_error [Add α] [Mul α] [Zero α] {M N : Mat α} (h : M.cols ≠ N.rows) :
    M.mul N = .error .valueError := by
  unfold mul; rw [dif_neg h]

/-! ### vector broadcasting -/

theorem vectorOp_row (f : α → α → α) {m n : Nat} (A : Matrix (Fin m) (Fin n) α)
    (v : Matrix (Fin 1) (Fin n) α) :
    vectorOp f (of A) (of v) = .ok (of (Matrix.of fun i j => f (A i j) (v 0 j))) := by
  unfold vectorOp
  simp only [mustBeVector_row, except_bind_ok]
  rw [if_pos (by simp [vectorSizeMatches, isRowVector_eq, isVector])]
  congr 1
  refine mk_congr fun i j => ?_
  simp [isRowVector_eq, entry?]

theorem vectorOp_col (f : α → α → α) {m n : Nat} (A : Matrix (Fin m) (Fin n) α)
    (v : Matrix (Fin m) (Fin 1) α) (h : m ≠ 1) :
    vectorOp f (of A) (of v) = .ok (of (Matrix.of fun i j => f (A i j) (v i 0))) := by
  unfold vectorOp
  simp only [mustBeVector_col, except_bind_ok]
  rw [if_pos (by simp [vectorSizeMatches, isRowVector_eq, isVector, h])]
  congr 1
  refine mk_congr fun i j => ?_
  simp [isRowVector_eq, h, entry?]

theorem vectorOp_row_bad (f : α → α → α) (M v : Mat α) (h1 : v.rows = 1) (h : M.cols ≠ v.cols) :
    vectorOp f M v = .error .valueError := by
  unfold vectorOp
  have hv : v.isVector = true := by simp [isVector, h1]
  have hr : v.isRowVector = true := by simp [isRowVector, isVector, h1]
  have hm : v.mustBeVector = .ok () := by simp [mustBeVector, hv]
  rw [hm]
  show (if M.vectorSizeMatches v = true then _ else _) = _
  rw [if_neg]
  simp [vectorSizeMatches, hv, hr, h]

/-- `any` in terms of the entries. -/
theorem any_of_iff {m n : Nat} (A : Matrix (Fin m) (Fin n) α) (p : α → Bool) :
    (of A).any p = true ↔ ∃ i j, p (A i j) = true := by
  simp only [any, List.any_eq_true]
  constructor
  · rintro ⟨c, _, hc⟩; exact ⟨c.1, c.2, hc⟩
  · rintro ⟨i, j, h⟩
    refine ⟨(i, j), ?_, h⟩
    simp [coords]

end Mat
end Verif
