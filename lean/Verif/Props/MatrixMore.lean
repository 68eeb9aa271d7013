import Verif.Core.MatLemmas
import Verif.Core.SelLemmas
import Verif.Core.Loop
import Verif.Core.LinAlg
import Verif.Core.RealInst
import Verif.Core.ExtLemmas
import Verif.Props.MatrixAccess
import Mathlib.Analysis.SpecialFunctions.Trigonometric.DerivHyp
import Mathlib.LinearAlgebra.Matrix.NonsingularInverse
import Mathlib.LinearAlgebra.Matrix.DotProduct
import Mathlib.Tactic.Linarith

/-!
# C93 to C96 — normalising, vectors and diagonals, element-wise functions, inverses
-/

namespace Verif.Props
open Verif Verif.Mat
open scoped Matrix

variable {α : Type} {m n : Nat}

/-! ## C93 `normalized` -/

theorem normalized_zero (A : Matrix (Fin m) (Fin n) ℝ) {ax : Int} (h : ax = 0 ∨ ax = -2) :
    (of A).normalized ax = .ok (of (Matrix.of fun i j => A i j / Real.sqrt (∑ k, A k j * A k j))) := by
  unfold normalized
  rw [if_pos h]
  refine congrArg Except.ok (mk_congr fun i j => ?_)
  show A i j / HasSqrt.sqrt (sumFin fun k => A k j * A k j) = _
  rw [sumFin_eq]; rfl

theorem normalized_one (A : Matrix (Fin m) (Fin n) ℝ) {ax : Int} (h : ax = 1 ∨ ax = -1) :
    (of A).normalized ax = .ok (of (Matrix.of fun i j => A i j / Real.sqrt (∑ k, A i k * A i k))) := by
  unfold normalized
  rw [if_neg (by omega), if_pos h]
  refine congrArg Except.ok (mk_congr fun i j => ?_)
  show A i j / HasSqrt.sqrt (sumFin fun k => A i k * A i k) = _
  rw [sumFin_eq]; rfl

theorem sumSq_pos {ι : Type} [Fintype ι] (f : ι → ℝ) {i : ι} (h : f i ≠ 0) : 0 < ∑ k, f k * f k :=
  Finset.sum_pos' (fun _ _ => mul_self_nonneg _) ⟨i, Finset.mem_univ _, mul_self_pos.2 h⟩

theorem unit_of_div {ι : Type} [Fintype ι] (f : ι → ℝ) (h : 0 < ∑ k, f k * f k) :
    ∑ i, (f i / Real.sqrt (∑ k, f k * f k)) ^ 2 = 1 := by
  have e : ∀ i, (f i / Real.sqrt (∑ k, f k * f k)) ^ 2 = f i * f i / ∑ k, f k * f k := fun i => by
    rw [div_pow, Real.sq_sqrt h.le, sq]
  simp_rw [e]
  rw [← Finset.sum_div, div_self h.ne']

/-- C93: `normalized()` along axis 0 turns every column that is not zero into a unit vector of the same
direction. -/
theorem C93_columns (A : Matrix (Fin m) (Fin n) ℝ) (ax : Int) (h : ax = 0 ∨ ax = -2) :
    ∃ B : Matrix (Fin m) (Fin n) ℝ, (of A).normalized ax = .ok (of B) ∧
      ∀ j, A.col j ≠ 0 → ∑ i, B i j ^ 2 = 1 ∧ ∃ c : ℝ, 0 < c ∧ ∀ i, A i j = c * B i j := by
  refine ⟨_, normalized_zero A h, fun j hj => ?_⟩
  obtain ⟨i, hi⟩ := Function.ne_iff.1 hj
  have hp := sumSq_pos (fun k => A k j) (i := i) hi
  refine ⟨unit_of_div (fun k => A k j) hp, Real.sqrt (∑ k, A k j * A k j), Real.sqrt_pos.2 hp, fun i => ?_⟩
  exact (mul_div_cancel₀ _ (Real.sqrt_pos.2 hp).ne').symm

/-- C93: `normalized(1)` does the same for the rows. -/
theorem C93_rows (A : Matrix (Fin m) (Fin n) ℝ) (ax : Int) (h : ax = 1 ∨ ax = -1) :
    ∃ B : Matrix (Fin m) (Fin n) ℝ, (of A).normalized ax = .ok (of B) ∧
      ∀ i, A i ≠ 0 → ∑ j, B i j ^ 2 = 1 ∧ ∃ c : ℝ, 0 < c ∧ ∀ j, A i j = c * B i j := by
  refine ⟨_, normalized_one A h, fun i hi => ?_⟩
  obtain ⟨j, hj⟩ := Function.ne_iff.1 hi
  have hp := sumSq_pos (fun k => A i k) (i := j) hj
  refine ⟨unit_of_div (fun k => A i k) hp, Real.sqrt (∑ k, A i k * A i k), Real.sqrt_pos.2 hp, fun j => ?_⟩
  exact (mul_div_cancel₀ _ (Real.sqrt_pos.2 hp).ne').symm

/-- C93: any other axis is rejected (`numpy.AxisError` is a `ValueError`). -/
theorem C93_axis (M : Mat ℝ) (ax : Int) (h : ax < -2 ∨ 1 < ax) : M.normalized ax = .error .valueError := by
  unfold normalized
  rw [if_neg (by omega), if_neg (by omega)]

/-- C93: normalising the columns twice is normalising once, and positive factors per column do not matter. -/
theorem C93_invariant (A : Matrix (Fin m) (Fin n) ℝ) (c : Fin n → ℝ) (hc : ∀ j, 0 < c j)
    (hA : ∀ j, A.col j ≠ 0) :
    ∃ B : Matrix (Fin m) (Fin n) ℝ, (of A).normalized = .ok (of B) ∧ (of B).normalized = .ok (of B) ∧
      (of (Matrix.of fun i j => c j * A i j)).normalized = .ok (of B) := by
  obtain ⟨B, hB, hu⟩ := C93_columns A 0 (.inl rfl)
  refine ⟨B, hB, ?_, ?_⟩
  · rw [normalized_zero B (.inl rfl)]
    refine congrArg Except.ok (mk_congr fun i j => ?_)
    have h1 : ∑ k, B k j * B k j = 1 := by
      rw [← (hu j (hA j)).1]; exact Finset.sum_congr rfl fun k _ => (sq _).symm
    show B i j / Real.sqrt (∑ k, B k j * B k j) = _
    rw [h1, Real.sqrt_one, div_one]
  · rw [normalized_zero _ (.inl rfl), ← hB, normalized_zero A (.inl rfl)]
    refine congrArg Except.ok (mk_congr fun i j => ?_)
    have h1 : ∑ k, (c j * A k j) * (c j * A k j) = c j ^ 2 * ∑ k, A k j * A k j := by
      rw [Finset.mul_sum]; exact Finset.sum_congr rfl fun k _ => by ring
    show c j * A i j / Real.sqrt (∑ k, (c j * A k j) * (c j * A k j)) = A i j / Real.sqrt (∑ k, A k j * A k j)
    rw [h1, Real.sqrt_mul (sq_nonneg _), Real.sqrt_sq (hc j).le, mul_div_mul_left _ _ (hc j).ne']

/-- C93: a column without any non-zero entry becomes NaN, whatever the other columns hold. -/
theorem C93_zero_column_violation (M : Mat (X ℝ)) (j : Fin M.cols) (h : ∀ i, M.data i j = 0) (i : Fin M.rows) :
    ∃ B, M.normalized = .ok B ∧ B.entry? i j = some .nan := by
  refine ⟨_, if_pos (.inl rfl), ?_⟩
  have e : (sumFin fun k => M.data k j * M.data k j) = (0 : X ℝ) := by
    unfold sumFin
    have : (List.ofFn fun k => M.data k j * M.data k j) = List.replicate M.rows (0 : X ℝ) := by
      rw [← List.ofFn_const]
      congr 1; funext k; rw [h k]
      show X.fin (0 * 0 : ℝ) = X.fin 0
      rw [mul_zero]
    rw [this]
    generalize M.rows = r
    induction r with
    | zero => rfl
    | succ r ih =>
      rw [List.replicate_succ, List.sum_cons, ih]
      show X.fin (0 + 0 : ℝ) = X.fin 0
      rw [add_zero]
  rw [entry?_eq_some]
  refine ⟨i.2, j.2, ?_⟩
  show M.data i j / HasSqrt.sqrt (sumFin fun k => M.data k j * M.data k j) = X.nan
  rw [e, h i]
  show X.div (X.fin 0) (X.sqrt (X.fin 0)) = X.nan
  simp [X.sqrt, X.div, X.signedInf]

/-- The 3-4-5 triangle, and a case for the invariance theorem. -/
example : ∃ B : Matrix (Fin 2) (Fin 1) ℝ, (of (!![3; 4] : Matrix (Fin 2) (Fin 1) ℝ)).normalized = .ok (of B) ∧
    B 0 0 = 3 / 5 ∧ B 1 0 = 4 / 5 := by
  have h : Real.sqrt 25 = 5 := by
    rw [show (25 : ℝ) = 5 ^ 2 by norm_num]; exact Real.sqrt_sq (by norm_num)
  refine ⟨_, normalized_zero _ (.inl rfl), ?_, ?_⟩ <;>
    · simp [Fin.sum_univ_two]; norm_num [h]

/-! ## C94 vectors and diagonals -/

theorem get_addr (M : Mat α) {i j : Int} {a b : Nat} (ha : Addresses M.rows i a) (hb : Addresses M.cols j b) :
    ∃ x, M.get i j = .ok x ∧ M.entry? a b = some x := (C02_get M i j).1 a b ha hb

/-- C94: `get_from_vector(k)` is entry `k` of a row or column vector, negative positions counting from the end. -/
theorem C94_get_from_vector (M : Mat α) (k : Int) :
    (M.rows = 1 → ∀ a, Addresses M.cols k a → ∃ x, M.getFromVector k = .ok x ∧ M.entry? 0 a = some x) ∧
    (M.cols = 1 → ∀ a, Addresses M.rows k a → ∃ x, M.getFromVector k = .ok x ∧ M.entry? a 0 = some x) ∧
    (M.rows = 1 ∧ ¬(∃ a, Addresses M.cols k a) ∨ M.cols = 1 ∧ ¬(∃ a, Addresses M.rows k a) →
      M.getFromVector k = .error .indexError) ∧
    (M.rows ≠ 1 → M.cols ≠ 1 → M.getFromVector k = .error .valueError) := by
  have hrow : M.rows = 1 → M.getFromVector k = M.get 0 k := fun h => by
    unfold getFromVector mustBeVector
    rw [if_pos (by simp [h]), if_pos (by simp [h])]; rfl
  have hcol : M.rows ≠ 1 → M.cols = 1 → M.getFromVector k = M.get k 0 := fun h h' => by
    unfold getFromVector mustBeVector
    rw [if_pos (by simp [h']), if_neg (by simp [h])]; rfl
  have h0 : ∀ {n : Nat}, n = 1 → Addresses n 0 0 := fun h => by subst h; simp [Addresses]
  refine ⟨fun h a ha => ?_, fun h a ha => ?_, fun h => ?_, fun h h' => ?_⟩
  · rw [hrow h]; exact get_addr M (h0 h) ha
  · by_cases hr : M.rows = 1
    · rw [hrow hr]
      have e : a = 0 := by have := ha.1; omega
      subst e
      exact get_addr M (h0 hr) (by rw [h, ← hr]; exact ha)
    · rw [hcol hr h]; exact get_addr M ha (h0 h)
  · by_cases hr : M.rows = 1
    · rw [hrow hr]
      rcases h with h | h
      · exact (C02_get M 0 k).2 (.inr h.2)
      · refine (C02_get M 0 k).2 (.inr ?_)
        rw [h.1, ← hr]; exact h.2
    · rcases h with h | h
      · exact absurd h.1 hr
      · rw [hcol hr h.1]; exact (C02_get M k 0).2 (.inl h.2)
  · unfold getFromVector mustBeVector
    rw [if_neg (by simp [h, h'])]; rfl

/-- C94: `num_elements` counts the entries of either raw copy. -/
theorem C94_num_elements (M : Mat α) :
    M.numElements = M.toRawCopy1D.length ∧ M.numElements = M.toRawCopy2D.flatten.length := by
  constructor
  · simp [numElements, toRawCopy1D, List.length_flatten, Function.comp_def, mul_comm]
  · simp [numElements, toRawCopy2D, List.length_flatten, Function.comp_def]

theorem fillDiagonalFrom_spec (v : α) (k i : Nat) (M : Mat α) (hk : i + k = min M.rows M.cols) :
    fillDiagonalFrom v k i M =
      ⟨M.rows, M.cols, Matrix.of fun a b => if a.val = b.val ∧ i ≤ a.val then v else M.data a b⟩ := by
  induction k generalizing i M with
  | zero =>
    refine mk_congr (A := M.data) fun a b => ?_
    show M.data a b = if a.val = b.val ∧ i ≤ a.val then v else M.data a b
    rw [if_neg (by have := a.2; have := b.2; omega)]
  | succ k ih =>
    rw [fillDiagonalFrom, if_pos (by omega)]
    rw [ih (i + 1) (M.put i i v) (by show i + 1 + k = min M.rows M.cols; omega)]
    refine mk_congr (m := M.rows) (n := M.cols) fun a b => ?_
    show (if a.val = b.val ∧ i + 1 ≤ a.val then v else if a.val = i ∧ b.val = i then v else M.data a b) =
      if a.val = b.val ∧ i ≤ a.val then v else M.data a b
    by_cases h1 : a.val = b.val ∧ i + 1 ≤ a.val
    · rw [if_pos h1, if_pos ⟨h1.1, by omega⟩]
    · rw [if_neg h1]
      by_cases h2 : a.val = i ∧ b.val = i
      · rw [if_pos h2, if_pos ⟨by omega, by omega⟩]
      · rw [if_neg h2, if_neg (by omega)]

/-- C94: `fill_diagonal` sets exactly the cells of the main diagonal, for every shape. -/
theorem C94_fill_diagonal (A : Matrix (Fin m) (Fin n) α) (v : α) :
    ∃ B : Matrix (Fin m) (Fin n) α, (of A).fillDiagonal v = of B ∧
      ∀ i j, B i j = if (i : Nat) = j then v else A i j := by
  refine ⟨_, fillDiagonalFrom_spec v _ 0 (of A) (Nat.zero_add _), fun i j => ?_⟩
  show (if (i : Nat) = j ∧ 0 ≤ (i : Nat) then v else A i j) = _
  by_cases h : (i : Nat) = j
  · rw [if_pos ⟨h, Nat.zero_le _⟩, if_pos h]
  · rw [if_neg fun h' => h h'.1, if_neg h]

/-- C94: `diag` is the column of diagonal entries of any matrix with at least one row and column. -/
theorem C94_diag (A : Matrix (Fin m) (Fin n) α) (h : 0 < min m n) :
    (of A).diag = ofFn fun (i : Fin (min m n)) (_ : Fin 1) =>
      A ⟨i, lt_of_lt_of_le i.2 (min_le_left _ _)⟩ ⟨i, lt_of_lt_of_le i.2 (min_le_right _ _)⟩ := by
  unfold diag
  exact if_neg (by show ¬ min m n = 0; omega)

theorem vectorToDiagonal_any [Zero α] (hn : 0 < n) (v : Fin n → α) (M : Mat α)
    (h : M.vecEntries = some (List.ofFn v)) : M.vectorToDiagonal = .ok (of (Matrix.diagonal v)) := by
  unfold vectorToDiagonal
  rw [h]
  show (if (List.ofFn v).length = 0 then _ else _) = _
  rw [if_neg (by rw [List.length_ofFn]; omega)]
  refine congrArg Except.ok (mk_eq List.length_ofFn List.length_ofFn fun i j => ?_)
  show (if j = i then (List.ofFn v).get j else 0) = Matrix.diagonal v _ _
  by_cases hij : j = i
  · subst hij
    rw [if_pos rfl, Matrix.diagonal_apply_eq, List.get_ofFn]
  · rw [if_neg hij, Matrix.diagonal_apply_ne]
    intro h'
    exact hij (Fin.ext (by simpa using (congrArg Fin.val h').symm))

/-- C94: `vector_to_diagonal` places a row or column vector on the diagonal of a square matrix of zeros; `diag`
takes it back; other matrices are rejected. -/
theorem C94_vector_to_diagonal [Zero α] (hn : 0 < n) (v : Fin n → α) :
    (ofFn fun (_ : Fin 1) j => v j : Mat α).vectorToDiagonal = .ok (of (Matrix.diagonal v)) ∧
    (ofFn fun i (_ : Fin 1) => v i : Mat α).vectorToDiagonal = .ok (of (Matrix.diagonal v)) ∧
    (of (Matrix.diagonal v)).diag = (ofFn fun i (_ : Fin 1) => v i : Mat α) ∧
    ∀ M : Mat α, M.rows ≠ 1 → M.cols ≠ 1 → M.vectorToDiagonal = .error .valueError := by
  refine ⟨vectorToDiagonal_any hn v _ ?_, vectorToDiagonal_any hn v _ ?_, ?_, fun M h h' => ?_⟩
  · unfold vecEntries
    by_cases h : n = 1
    · subst h
      rw [dif_pos rfl]; rfl
    · rw [dif_neg h, dif_pos rfl]; rfl
  · unfold vecEntries
    rw [dif_pos rfl]; rfl
  · rw [C94_diag _ (by omega)]
    refine mk_eq (min_self n) rfl fun i j => ?_
    exact Matrix.diagonal_apply_eq v _
  · unfold vectorToDiagonal vecEntries
    rw [dif_neg h', dif_neg h]

/-- C94: multiplying by the diagonal matrix from the left scales the rows, from the right the columns. -/
theorem C94_diagonal_scales (v : Fin m → ℝ) (w : Fin n → ℝ) (hm : 0 < m) (hn : 0 < n) (A : Matrix (Fin m) (Fin n) ℝ) :
    (do let D ← (ofFn fun i (_ : Fin 1) => v i : Mat ℝ).vectorToDiagonal; D.mul (of A)) =
      .ok (of (Matrix.of fun i j => v i * A i j)) ∧
    (do let D ← (ofFn fun i (_ : Fin 1) => w i : Mat ℝ).vectorToDiagonal; (of A).mul D) =
      .ok (of (Matrix.of fun i j => A i j * w j)) := by
  constructor
  · rw [(C94_vector_to_diagonal hm v).2.1, except_bind_ok, mul_of]
    refine congrArg Except.ok (mk_congr fun i j => ?_)
    rw [Matrix.diagonal_mul]; rfl
  · rw [(C94_vector_to_diagonal hn w).2.1, except_bind_ok, mul_of]
    refine congrArg Except.ok (mk_congr fun i j => ?_)
    rw [Matrix.mul_diagonal]; rfl

/-- A 2 by 3 matrix: the diagonal is filled, the rest is kept. -/
example : (of (!![1, 2, 3; 4, 5, 6] : Matrix (Fin 2) (Fin 3) ℤ)).fillDiagonal 9 =
    of (!![9, 2, 3; 4, 9, 6] : Matrix (Fin 2) (Fin 3) ℤ) := by
  obtain ⟨B, hB, h⟩ := C94_fill_diagonal (!![1, 2, 3; 4, 5, 6] : Matrix (Fin 2) (Fin 3) ℤ) 9
  rw [hB]
  refine mk_congr fun i j => ?_
  rw [h]
  fin_cases i <;> fin_cases j <;> rfl

/-! ## C95 element-wise functions -/

/-- C95: `apply_elementwise` applies the function to every cell and keeps the shape; applying two functions in
turn is applying their composition. -/
theorem C95_apply (f g : α → α) (A : Matrix (Fin m) (Fin n) α) :
    (of A).applyElementwise f = of (Matrix.of fun i j => f (A i j)) ∧
    ((of A).applyElementwise f).applyElementwise g = (of A).applyElementwise (g ∘ f) := ⟨rfl, rfl⟩

/-- C95: `sqrt` inverts squaring and squaring inverts `sqrt` on non-negative entries; off them `sqrt` of the square
is the absolute value. -/
theorem C95_sqrt (A : Matrix (Fin m) (Fin n) ℝ) :
    ((of A).powElementwise 2).sqrt = (of A).abs ∧
    ((∀ i j, 0 ≤ A i j) → (of A).sqrt.powElementwise 2 = of A ∧ (of A).sqrt.mulElementwise (of A).sqrt = .ok (of A)) := by
  refine ⟨mk_congr fun i j => ?_, fun h => ⟨mk_congr fun i j => ?_, ?_⟩⟩
  · show Real.sqrt (A i j ^ 2) = if A i j < 0 then -A i j else A i j
    rw [Real.sqrt_sq_eq_abs]
    split
    · exact abs_of_neg (by assumption)
    · exact abs_of_nonneg (not_lt.1 (by assumption))
  · exact Real.sq_sqrt (h i j)
  · show mulElementwise (of (Matrix.of fun i j => Real.sqrt (A i j))) (of (Matrix.of fun i j => Real.sqrt (A i j))) = _
    rw [mulElementwise_of]
    exact congrArg Except.ok (mk_congr fun i j => Real.mul_self_sqrt (h i j))

/-- C95: a negative entry has no square root: NaN. -/
theorem C95_sqrt_negative (M : Mat (X ℝ)) (i : Fin M.rows) (j : Fin M.cols) {x : ℝ} (h : M.data i j = .fin x)
    (hx : x < 0) : M.sqrt.entry? i j = some .nan := by
  rw [entry?_eq_some]
  refine ⟨i.2, j.2, ?_⟩
  show X.sqrt (M.data i j) = X.nan
  rw [h]
  simp [X.sqrt, hx]

/-- C95: powers multiply by adding exponents; power 0 is all ones, power 1 the matrix itself. -/
theorem C95_pow (A : Matrix (Fin m) (Fin n) ℝ) (k l : Nat) :
    ((of A).powElementwise k).mulElementwise ((of A).powElementwise l) = .ok ((of A).powElementwise (k + l)) ∧
    ((of A).powElementwise k).powElementwise l = (of A).powElementwise (k * l) ∧
    (of A).powElementwise 1 = of A ∧ (of A).powElementwise 0 = ofFn fun (_ : Fin m) (_ : Fin n) => (1 : ℝ) := by
  refine ⟨?_, mk_congr fun i j => (pow_mul _ _ _).symm, mk_congr fun i j => pow_one _, mk_congr fun i j => pow_zero _⟩
  show mulElementwise (of (Matrix.of fun i j => A i j ^ k)) (of (Matrix.of fun i j => A i j ^ l)) = _
  rw [mulElementwise_of]
  exact congrArg Except.ok (mk_congr fun i j => (pow_add _ _ _).symm)

/-- C95: `exp` turns sums into element-wise products, is positive everywhere and strictly monotone. -/
theorem C95_exp (A B : Matrix (Fin m) (Fin n) ℝ) :
    (do let S ← (of A).add (of B); pure S.exp) = (of A).exp.mulElementwise (of B).exp ∧
    (∃ E : Matrix (Fin m) (Fin n) ℝ, (of A).exp = of E ∧ ∀ i j, 0 < E i j ∧ Real.log (E i j) = A i j) := by
  refine ⟨?_, Matrix.of fun i j => Real.exp (A i j), rfl, fun i j => ⟨Real.exp_pos _, Real.log_exp _⟩⟩
  rw [add_of, except_bind_ok]
  show _ = mulElementwise (of (Matrix.of fun i j => Real.exp (A i j))) (of (Matrix.of fun i j => Real.exp (B i j)))
  rw [mulElementwise_of]
  exact congrArg Except.ok (mk_congr fun i j => Real.exp_add _ _)

/-- C95: `tanh` is the quotient of `exp` expressions, odd, and strictly between -1 and 1. -/
theorem C95_tanh (A : Matrix (Fin m) (Fin n) ℝ) :
    ∃ T : Matrix (Fin m) (Fin n) ℝ, (of A).tanh = of T ∧
      (∀ i j, -1 < T i j ∧ T i j < 1 ∧ (0 < T i j ↔ 0 < A i j) ∧
        T i j = (Real.exp (2 * A i j) - 1) / (Real.exp (2 * A i j) + 1)) ∧
      (of (-A)).tanh = of (-T) := by
  have e : ∀ x : ℝ, Real.tanh x = (Real.exp (2 * x) - 1) / (Real.exp (2 * x) + 1) := fun x => by
    have h1 : Real.exp x * Real.exp (-x) = 1 := by rw [← Real.exp_add]; simp
    have h2 := Real.exp_pos x
    have h3 := Real.exp_pos (-x)
    have h4 : Real.exp (2 * x) = Real.exp x * Real.exp x := by rw [← Real.exp_add]; ring_nf
    rw [Real.tanh_eq_sinh_div_cosh, Real.sinh_eq, Real.cosh_eq, h4]
    rw [div_div_div_cancel_right₀ two_ne_zero, div_eq_div_iff (by positivity) (by positivity)]
    linear_combination (-2 * Real.exp x) * h1
  refine ⟨Matrix.of fun i j => Real.tanh (A i j), rfl, fun i j => ?_, mk_congr fun i j => Real.tanh_neg _⟩
  show -1 < Real.tanh (A i j) ∧ Real.tanh (A i j) < 1 ∧ (0 < Real.tanh (A i j) ↔ _) ∧ Real.tanh (A i j) = _
  have h0 := Real.exp_pos (2 * A i j)
  rw [e]
  refine ⟨?_, ?_, ?_, rfl⟩
  · rw [lt_div_iff₀ (by linarith)]; linarith
  · rw [div_lt_one (by linarith)]; linarith
  · rw [div_pos_iff_of_pos_right (by linarith), sub_pos, Real.one_lt_exp_iff]
    constructor <;> intro h <;> linarith

/-! ## C96 inverse and solve -/

/-- A least-squares solution of smallest length of `A x = b`, as `np.linalg.lstsq` documents it. -/
def MinNormLS (A : Matrix (Fin m) (Fin n) ℝ) (b : Fin m → ℝ) (x : Fin n → ℝ) : Prop :=
  (∀ y, (A *ᵥ x - b) ⬝ᵥ (A *ᵥ x - b) ≤ (A *ᵥ y - b) ⬝ᵥ (A *ᵥ y - b)) ∧
  ∀ y, (∀ z, (A *ᵥ y - b) ⬝ᵥ (A *ᵥ y - b) ≤ (A *ᵥ z - b) ⬝ᵥ (A *ᵥ z - b)) → x ⬝ᵥ x ≤ y ⬝ᵥ y

/-- The four Penrose conditions: `X` is the pseudo-inverse of `A`. -/
def Penrose (A : Matrix (Fin m) (Fin n) ℝ) (X : Matrix (Fin n) (Fin m) ℝ) : Prop :=
  A * X * A = A ∧ X * A * X = X ∧ (A * X)ᵀ = A * X ∧ (X * A)ᵀ = X * A

theorem lin_zero {p q : ℝ} (hq : 0 ≤ q) (h : ∀ t : ℝ, 0 ≤ 2 * t * p + t ^ 2 * q) : p = 0 := by
  by_contra hp
  have h1 := h (-p / (q + 1))
  have h2 : 2 * (-p / (q + 1)) * p + (-p / (q + 1)) ^ 2 * q = -(p ^ 2 * (q + 2)) / (q + 1) ^ 2 := by
    field_simp; ring
  rw [h2] at h1
  have h3 : 0 < p ^ 2 * (q + 2) / (q + 1) ^ 2 := by positivity
  rw [neg_div] at h1
  linarith

theorem expand_sq {k : Nat} (u d : Fin k → ℝ) (t : ℝ) :
    (u + t • d) ⬝ᵥ (u + t • d) = u ⬝ᵥ u + (2 * t * (u ⬝ᵥ d) + t ^ 2 * (d ⬝ᵥ d)) := by
  simp only [dotProduct_add, add_dotProduct, dotProduct_smul, smul_dotProduct, smul_eq_mul]
  rw [dotProduct_comm d u]; ring

theorem dot_self_nonneg {k : Nat} (d : Fin k → ℝ) : 0 ≤ d ⬝ᵥ d :=
  Finset.sum_nonneg fun _ _ => mul_self_nonneg _

theorem MinNormLS.normal {A : Matrix (Fin m) (Fin n) ℝ} {b : Fin m → ℝ} {x : Fin n → ℝ} (h : MinNormLS A b x) :
    Aᵀ *ᵥ (A *ᵥ x) = Aᵀ *ᵥ b := by
  have key : ∀ d, (A *ᵥ x - b) ⬝ᵥ (A *ᵥ d) = 0 := fun d => by
    refine lin_zero (dot_self_nonneg (A *ᵥ d)) fun t => ?_
    have h1 := h.1 (x + t • d)
    have e : A *ᵥ (x + t • d) - b = (A *ᵥ x - b) + t • (A *ᵥ d) := by
      rw [Matrix.mulVec_add, Matrix.mulVec_smul]; abel
    rw [e, expand_sq] at h1
    linarith
  have h2 : ∀ d, (Aᵀ *ᵥ (A *ᵥ x - b)) ⬝ᵥ d = 0 := fun d => by
    rw [Matrix.mulVec_transpose, ← Matrix.dotProduct_mulVec]; exact key d
  have h3 := dotProduct_eq_zero _ h2
  rw [Matrix.mulVec_sub, sub_eq_zero] at h3
  exact h3

theorem MinNormLS.perp {A : Matrix (Fin m) (Fin n) ℝ} {b : Fin m → ℝ} {x : Fin n → ℝ} (h : MinNormLS A b x)
    {z : Fin n → ℝ} (hz : A *ᵥ z = 0) : x ⬝ᵥ z = 0 := by
  refine lin_zero (dot_self_nonneg z) fun t => ?_
  have h1 := h.2 (x + t • z) fun y => by
    rw [Matrix.mulVec_add, Matrix.mulVec_smul, hz, smul_zero, add_zero]; exact h.1 y
  rw [expand_sq] at h1
  linarith

theorem penrose_of {A : Matrix (Fin m) (Fin n) ℝ} {X : Matrix (Fin n) (Fin m) ℝ}
    (h : ∀ k, MinNormLS A (Pi.single k 1) (X.col k)) : Penrose A X := by
  have hn : Aᵀ * (A * X) = Aᵀ := by
    ext i k
    have h1 := congrFun (h k).normal i
    rw [Matrix.mulVec_single_one] at h1
    rw [← Matrix.mul_assoc]
    rw [Matrix.mulVec_mulVec] at h1
    exact h1
  have hp : ∀ {l : Nat} (Z : Matrix (Fin n) (Fin l) ℝ), A * Z = 0 → Xᵀ * Z = 0 := fun Z hZ => by
    ext k j
    have h1 : A *ᵥ Z.col j = 0 := by
      funext i; exact congrFun (congrFun hZ i) j
    exact (h k).perp h1
  have hP : (A * X)ᵀ * (A * X) = (A * X)ᵀ := by
    rw [Matrix.transpose_mul, Matrix.mul_assoc, hn]
  have hPs : (A * X)ᵀ = A * X := by
    have h1 := congrArg Matrix.transpose hP
    rw [Matrix.transpose_mul, Matrix.transpose_transpose, hP] at h1
    exact h1
  have hA : A * X * A = A := by
    have h1 := congrArg Matrix.transpose hn
    rw [Matrix.transpose_mul, Matrix.transpose_transpose, hPs] at h1
    exact h1
  have hQ0 : A * (X * A - 1) = 0 := by rw [Matrix.mul_sub, ← Matrix.mul_assoc, hA, Matrix.mul_one, sub_self]
  have hQ1 : Xᵀ * (X * A) = Xᵀ := by
    have h1 := hp _ hQ0
    rw [Matrix.mul_sub, Matrix.mul_one, sub_eq_zero] at h1; exact h1
  have hQ2 : (X * A)ᵀ * X = X := by
    have h1 := congrArg Matrix.transpose hQ1
    rw [Matrix.transpose_mul, Matrix.transpose_transpose] at h1; exact h1
  have hQ3 : (X * A)ᵀ * (X * A) = X * A := by rw [← Matrix.mul_assoc, hQ2]
  have hQs : (X * A)ᵀ = X * A := by
    have h1 := congrArg Matrix.transpose hQ3
    rw [Matrix.transpose_mul, Matrix.transpose_transpose, hQ3] at h1
    exact h1.symm
  exact ⟨hA, by rw [← hQs]; exact hQ2, hPs, hQs⟩

theorem penrose_unique {A : Matrix (Fin m) (Fin n) ℝ} {X Y : Matrix (Fin n) (Fin m) ℝ} (hX : Penrose A X)
    (hY : Penrose A Y) : X = Y := by
  obtain ⟨x1, x2, x3, x4⟩ := hX
  obtain ⟨y1, y2, y3, y4⟩ := hY
  have hAX : A * X = A * Y := by
    calc A * X = (A * Y * A) * X := by rw [y1]
      _ = (A * Y)ᵀ * (A * X)ᵀ := by rw [y3, x3, Matrix.mul_assoc]
      _ = (A * X * A * Y)ᵀ := by rw [← Matrix.transpose_mul]; simp only [Matrix.mul_assoc]
      _ = (A * Y)ᵀ := by rw [x1]
      _ = A * Y := y3
  have hXA : X * A = Y * A := by
    calc X * A = X * (A * Y * A) := by rw [y1]
      _ = (X * A)ᵀ * (Y * A)ᵀ := by rw [y4, x4]; simp only [Matrix.mul_assoc]
      _ = (Y * (A * X * A))ᵀ := by rw [← Matrix.transpose_mul]; simp only [Matrix.mul_assoc]
      _ = (Y * A)ᵀ := by rw [x1]
      _ = Y * A := y4
  calc X = X * A * X := x2.symm
    _ = Y * (A * X) := by rw [hXA, Matrix.mul_assoc]
    _ = Y * A * Y := by rw [hAX, Matrix.mul_assoc]
    _ = Y := y2

/-- C96: a regular square matrix has a two-sided inverse, and `inverse()` returns it. -/
theorem C96_square (lstsq : Mat ℝ → Except PyErr (Mat ℝ)) (A : Matrix (Fin n) (Fin n) ℝ) (h : A.det ≠ 0) :
    ∃ B : Matrix (Fin n) (Fin n) ℝ, (of A).inverse lstsq = .ok (of B) ∧ A * B = 1 ∧ B * A = 1 ∧
      (of B).inverse lstsq = .ok (of A) := by
  have hu : IsUnit A.det := isUnit_iff_ne_zero.2 h
  refine ⟨A⁻¹, inverse_of lstsq A h, Matrix.mul_nonsing_inv A hu, Matrix.nonsing_inv_mul A hu, ?_⟩
  rw [inverse_of lstsq A⁻¹ (Matrix.isUnit_nonsing_inv_det A hu).ne_zero, Matrix.nonsing_inv_nonsing_inv A hu]

/-- C96: for a singular square matrix (no inverse exists) `inverse()` raises `LinAlgError`. -/
theorem C96_singular (lstsq : Mat ℝ → Except PyErr (Mat ℝ)) (A : Matrix (Fin n) (Fin n) ℝ) :
    (of A).inverse lstsq = .error .linAlgError ↔ ¬∃ B : Matrix (Fin n) (Fin n) ℝ, A * B = 1 := by
  constructor
  · rintro h ⟨B, hB⟩
    have hd : A.det ≠ 0 := fun h0 => by
      have := congrArg Matrix.det hB
      rw [Matrix.det_mul, h0, zero_mul, Matrix.det_one] at this
      exact zero_ne_one this
    rw [inverse_of lstsq A hd] at h
    cases h
  · intro h
    have hd : A.det = 0 := by
      by_contra h0
      exact h ⟨A⁻¹, Matrix.mul_nonsing_inv A (isUnit_iff_ne_zero.2 h0)⟩
    unfold inverse
    rw [dif_pos rfl]
    exact if_pos hd

/-- C96: for a matrix that is not square, `inverse()` returns the Moore-Penrose pseudo-inverse, provided that `lstsq`
does what NumPy documents (a least-squares solution of smallest length for each column of the identity). -/
theorem C96_rectangular (lstsq : Mat ℝ → Except PyErr (Mat ℝ)) (A : Matrix (Fin m) (Fin n) ℝ) (hmn : m ≠ n)
    (X : Matrix (Fin n) (Fin m) ℝ) (hl : lstsq (of A) = .ok (of X))
    (h : ∀ k, MinNormLS A (Pi.single k 1) (X.col k)) :
    (of A).inverse lstsq = .ok (of X) ∧ Penrose A X ∧ ∀ Y, Penrose A Y → Y = X := by
  refine ⟨?_, penrose_of h, fun Y hY => penrose_unique hY (penrose_of h)⟩
  unfold inverse
  rw [dif_neg hmn]; exact hl

/-- C96: hence a left inverse when the columns are independent, a right inverse when the rows are. -/
theorem C96_one_sided (A : Matrix (Fin m) (Fin n) ℝ) (X : Matrix (Fin n) (Fin m) ℝ)
    (h : ∀ k, MinNormLS A (Pi.single k 1) (X.col k)) :
    (Function.Injective A.mulVec → X * A = 1) ∧ (Function.Injective Aᵀ.mulVec → A * X = 1) := by
  obtain ⟨h1, -, h3, -⟩ := penrose_of h
  constructor
  · intro hi
    ext i j
    have h2 : A *ᵥ (X * A).col j = A *ᵥ (1 : Matrix (Fin n) (Fin n) ℝ).col j := by
      funext k
      have := congrFun (congrFun h1 k) j
      rw [Matrix.mul_assoc] at this
      have e : (A * (1 : Matrix (Fin n) (Fin n) ℝ)) k j = A k j := by rw [Matrix.mul_one]
      exact this.trans e.symm
    exact congrFun (hi h2) i
  · intro hi
    have h4 : Aᵀ * (A * X) = Aᵀ := by
      have := congrArg Matrix.transpose h1
      rw [Matrix.transpose_mul, h3] at this; exact this
    ext i j
    have h2 : Aᵀ *ᵥ (A * X).col j = Aᵀ *ᵥ (1 : Matrix (Fin m) (Fin m) ℝ).col j := by
      funext k
      have e : (Aᵀ * (1 : Matrix (Fin m) (Fin m) ℝ)) k j = Aᵀ k j := by rw [Matrix.mul_one]
      exact (congrFun (congrFun h4 k) j).trans e.symm
    exact congrFun (hi h2) i

/-- C96: `solve(A, b)` returns the one solution of `A x = b` for regular `A`. -/
theorem C96_solve {k : Nat} (A : Matrix (Fin n) (Fin n) ℝ) (b : Matrix (Fin n) (Fin k) ℝ) (h : A.det ≠ 0) :
    ∃ x : Matrix (Fin n) (Fin k) ℝ, Mat.solve (of A) (of b) = .ok (of x) ∧ A * x = b ∧ ∀ y, A * y = b → y = x := by
  have hu : IsUnit A.det := isUnit_iff_ne_zero.2 h
  refine ⟨A⁻¹ * b, solve_of A b h, Matrix.mul_nonsing_inv_cancel_left A b hu, fun y hy => ?_⟩
  rw [← hy, Matrix.nonsing_inv_mul_cancel_left A y hu]

/-- C96: the errors of `solve`. -/
theorem C96_solve_errors (A b : Mat ℝ) :
    (A.rows ≠ A.cols → Mat.solve A b = .error .linAlgError) ∧
    (A.rows = A.cols → b.rows ≠ A.cols → Mat.solve A b = .error .valueError) ∧
    (∀ {k : Nat} (S : Matrix (Fin n) (Fin n) ℝ) (c : Matrix (Fin n) (Fin k) ℝ), S.det = 0 →
      Mat.solve (of S) (of c) = .error .linAlgError) := by
  refine ⟨fun h => ?_, fun h h' => ?_, fun S c h => ?_⟩
  · unfold Mat.solve; rw [dif_neg h]
  · unfold Mat.solve; rw [dif_pos h, dif_neg h']
  · unfold Mat.solve
    rw [dif_pos rfl, dif_pos rfl]
    exact if_pos h

/-- The pseudo-inverse of the column (1, 1) is the row (1/2, 1/2): the contract of `lstsq` can be met. -/
example : ∀ k, MinNormLS (!![1; 1] : Matrix (Fin 2) (Fin 1) ℝ) (Pi.single k 1)
    ((!![1/2, 1/2] : Matrix (Fin 1) (Fin 2) ℝ).col k) := by
  have e : ∀ (k : Fin 2) (y : Fin 1 → ℝ),
      ((!![1; 1] : Matrix (Fin 2) (Fin 1) ℝ) *ᵥ y - Pi.single k 1) ⬝ᵥ
        ((!![1; 1] : Matrix (Fin 2) (Fin 1) ℝ) *ᵥ y - Pi.single k 1) = (y 0 - 1) ^ 2 + y 0 ^ 2 := by
    intro k y
    fin_cases k <;> simp [dotProduct, Fin.sum_univ_two] <;> ring
  have e0 : ∀ k : Fin 2, (!![1/2, 1/2] : Matrix (Fin 1) (Fin 2) ℝ).col k 0 = 1 / 2 := by
    intro k; fin_cases k <;> rfl
  intro k
  refine ⟨fun y => ?_, fun y hy => ?_⟩
  · rw [e, e, e0]; nlinarith [sq_nonneg (y 0 - 1 / 2)]
  · have h1 := hy (fun _ => 1 / 2)
    rw [e, e] at h1
    have h2 : y 0 = 1 / 2 := by nlinarith [sq_nonneg (y 0 - 1 / 2)]
    simp only [dotProduct, Fin.sum_univ_one, Fin.isValue]
    rw [e0, h2]

end Verif.Props
