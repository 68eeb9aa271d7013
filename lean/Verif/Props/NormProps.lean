import Verif.Core.MatLemmas
import Verif.Core.SelLemmas
import Verif.Core.Loop
import Verif.Alg.SIMPLS
import Verif.Core.RealInst
import Mathlib.LinearAlgebra.Matrix.Trace
import Mathlib.Algebra.Order.BigOperators.Ring.Finset
import Mathlib.Tactic.Linarith

/-!
# C90, C91 — norms, trace, maximum, leading rows, shape predicates
-/

namespace Verif.Props
open Verif Verif.Mat
open scoped Matrix

variable {α : Type} {m n : Nat}

/-! ## Specification -/

/-- Sum of the squares of the entries. -/
def frobSq (A : Matrix (Fin m) (Fin n) ℝ) : ℝ := ∑ i, ∑ j, A i j ^ 2

/-- The divisor of `norm2`: one for vectors, the smaller dimension otherwise. -/
def normDim (m n : Nat) : ℝ := if m = 1 ∨ n = 1 then 1 else ((min m n : Nat) : ℝ)

theorem normDim_pos (hm : 0 < m) (hn : 0 < n) : 0 < normDim m n := by
  unfold normDim
  split
  · exact one_pos
  · have : 0 < min m n := lt_min hm hn
    exact_mod_cast this

theorem normDim_comm : normDim m n = normDim n m := by
  unfold normDim
  by_cases h : m = 1 ∨ n = 1
  · rw [if_pos h, if_pos h.symm]
  · rw [if_neg h, if_neg fun h' => h h'.symm, min_comm]

theorem frobSq_nonneg (A : Matrix (Fin m) (Fin n) ℝ) : 0 ≤ frobSq A :=
  Finset.sum_nonneg fun _ _ => Finset.sum_nonneg fun _ _ => sq_nonneg _

theorem frobSq_eq_zero (A : Matrix (Fin m) (Fin n) ℝ) : frobSq A = 0 ↔ A = 0 := by
  constructor
  · intro h
    ext i j
    have h1 := (Finset.sum_eq_zero_iff_of_nonneg
      (fun i _ => Finset.sum_nonneg fun j _ => sq_nonneg (A i j))).1 h i (Finset.mem_univ _)
    have h2 := (Finset.sum_eq_zero_iff_of_nonneg (fun j _ => sq_nonneg (A i j))).1 h1 j (Finset.mem_univ _)
    exact pow_eq_zero_iff (two_ne_zero) |>.1 h2
  · rintro rfl; simp [frobSq]

theorem frobSq_smul (A : Matrix (Fin m) (Fin n) ℝ) (s : ℝ) : frobSq (s • A) = s ^ 2 * frobSq A := by
  simp [frobSq, Finset.mul_sum, mul_pow]

theorem frobSq_prod (A : Matrix (Fin m) (Fin n) ℝ) : frobSq A = ∑ x : Fin m × Fin n, A x.1 x.2 ^ 2 :=
  (Fintype.sum_prod_type (fun x : Fin m × Fin n => A x.1 x.2 ^ 2)).symm

theorem frob_cauchy (A B : Matrix (Fin m) (Fin n) ℝ) :
    ∑ x : Fin m × Fin n, A x.1 x.2 * B x.1 x.2 ≤ Real.sqrt (frobSq A) * Real.sqrt (frobSq B) := by
  rw [← Real.sqrt_mul (frobSq_nonneg A)]
  refine Real.le_sqrt_of_sq_le ?_
  rw [frobSq_prod, frobSq_prod]
  exact Finset.sum_mul_sq_le_sq_mul_sq _ _ _

theorem frob_triangle (A B : Matrix (Fin m) (Fin n) ℝ) :
    Real.sqrt (frobSq (A + B)) ≤ Real.sqrt (frobSq A) + Real.sqrt (frobSq B) := by
  refine Real.sqrt_le_iff.2 ⟨add_nonneg (Real.sqrt_nonneg _) (Real.sqrt_nonneg _), ?_⟩
  have h : frobSq (A + B) = frobSq A + 2 * (∑ x : Fin m × Fin n, A x.1 x.2 * B x.1 x.2) + frobSq B := by
    rw [frobSq_prod, frobSq_prod, frobSq_prod, Finset.mul_sum, ← Finset.sum_add_distrib, ← Finset.sum_add_distrib]
    refine Finset.sum_congr rfl fun x _ => ?_
    simp only [Matrix.add_apply]; ring
  have h2 := frob_cauchy A B
  have ha := Real.sq_sqrt (frobSq_nonneg A)
  have hb := Real.sq_sqrt (frobSq_nonneg B)
  rw [h]
  nlinarith

theorem norm2_real (A : Matrix (Fin m) (Fin n) ℝ) :
    (of A).norm2 = Real.sqrt (frobSq A) / Real.sqrt (normDim m n) := by
  have hs : (of A).sumSq = frobSq A := by
    simp only [sumSq, sumFin_eq, frobSq, sq]
  unfold norm2 normDim
  simp only [hs, hasSqrt_real]
  by_cases h : m = 1 ∨ n = 1
  · have hv : (of A).isVector = true := by
      rcases h with h | h <;> simp [isVector, h]
    rw [if_pos hv, if_pos h, Real.sqrt_one, div_one]
  · have hv : ¬ (of A).isVector = true := by
      simpa [isVector] using h
    rw [if_neg hv, if_neg h]

/-! ## C90 -/

/-- C90: `norm1` adds up the absolute values of all entries, and is a norm: non-negative, zero only for
the zero matrix, multiplied by `|s|` when the matrix is scaled, and subadditive. -/
theorem C90_norm1 (A B : Matrix (Fin m) (Fin n) ℝ) (s : ℝ) :
    (of A).norm1 (fun x => |x|) = ∑ i, ∑ j, |A i j| ∧
    0 ≤ (of A).norm1 (fun x => |x|) ∧
    ((of A).norm1 (fun x => |x|) = 0 ↔ A = 0) ∧
    ((of A).smul s).norm1 (fun x => |x|) = |s| * (of A).norm1 (fun x => |x|) ∧
    ∃ S, (of A).add (of B) = .ok S ∧
      S.norm1 (fun x => |x|) ≤ (of A).norm1 (fun x => |x|) + (of B).norm1 (fun x => |x|) := by
  have key : ∀ C : Matrix (Fin m) (Fin n) ℝ, (of C).norm1 (fun x => |x|) = ∑ i, ∑ j, |C i j| := by
    intro C
    simp only [norm1, sumFin_eq]
    rw [Finset.sum_comm]
    refine Finset.sum_congr rfl fun j _ => ?_
    exact abs_of_nonneg (Finset.sum_nonneg fun _ _ => abs_nonneg _)
  have hnn : ∀ C : Matrix (Fin m) (Fin n) ℝ, 0 ≤ ∑ i, ∑ j, |C i j| :=
    fun C => Finset.sum_nonneg fun _ _ => Finset.sum_nonneg fun _ _ => abs_nonneg _
  refine ⟨key A, ?_, ?_, ?_, of (A + B), add_of A B, ?_⟩
  · rw [key]; exact hnn A
  · rw [key]
    constructor
    · intro h
      rw [Finset.sum_eq_zero_iff_of_nonneg (fun _ _ => Finset.sum_nonneg fun _ _ => abs_nonneg _)] at h
      ext i j
      have h1 := h i (Finset.mem_univ _)
      rw [Finset.sum_eq_zero_iff_of_nonneg (fun _ _ => abs_nonneg _)] at h1
      exact abs_eq_zero.1 (h1 j (Finset.mem_univ _))
    · rintro rfl; simp
  · rw [smul_of, key, key]
    simp [Finset.mul_sum, abs_mul]
  · rw [key, key, key, ← Finset.sum_add_distrib]
    refine Finset.sum_le_sum fun i _ => ?_
    rw [← Finset.sum_add_distrib]
    exact Finset.sum_le_sum fun j _ => abs_add_le _ _

/-- C90: `norm2` of a non-empty matrix is the root of the sum of squares, divided by the root of the smaller
dimension unless the matrix is a vector; `norm2_squared` is the sum of squares with the same divisor. -/
theorem C90_norm2_value (hm : 0 < m) (hn : 0 < n) (A : Matrix (Fin m) (Fin n) ℝ) :
    (of A).norm2 = Real.sqrt ((∑ i, ∑ j, A i j ^ 2) / if m = 1 ∨ n = 1 then 1 else ((min m n : Nat) : ℝ)) ∧
    (of A).norm2Squared = (∑ i, ∑ j, A i j ^ 2) / if m = 1 ∨ n = 1 then 1 else ((min m n : Nat) : ℝ) := by
  have h : (of A).norm2 = Real.sqrt (frobSq A / normDim m n) := by
    rw [norm2_real, Real.sqrt_div (frobSq_nonneg A)]
  refine ⟨h, ?_⟩
  unfold norm2Squared
  rw [h]
  exact Real.mul_self_sqrt (div_nonneg (frobSq_nonneg A) (normDim_pos hm hn).le)

/-- C90: on the non-empty matrices of each shape `norm2` is a norm, and transposing does not change it. -/
theorem C90_norm2 (hm : 0 < m) (hn : 0 < n) (A B : Matrix (Fin m) (Fin n) ℝ) (s : ℝ) :
    0 ≤ (of A).norm2 ∧
    ((of A).norm2 = 0 ↔ A = 0) ∧
    ((of A).smul s).norm2 = |s| * (of A).norm2 ∧
    (∃ S, (of A).add (of B) = .ok S ∧ S.norm2 ≤ (of A).norm2 + (of B).norm2) ∧
    (of A).transpose.norm2 = (of A).norm2 := by
  have hd := Real.sqrt_pos.2 (normDim_pos hm hn)
  refine ⟨?_, ?_, ?_, ⟨of (A + B), add_of A B, ?_⟩, ?_⟩
  · rw [norm2_real]; exact div_nonneg (Real.sqrt_nonneg _) hd.le
  · rw [norm2_real, div_eq_zero_iff, or_iff_left hd.ne', Real.sqrt_eq_zero (frobSq_nonneg A), frobSq_eq_zero]
  · rw [smul_of, norm2_real, norm2_real, frobSq_smul, Real.sqrt_mul (sq_nonneg s), Real.sqrt_sq_eq_abs, mul_div_assoc]
  · rw [norm2_real, norm2_real, norm2_real, ← add_div]
    exact div_le_div_of_nonneg_right (frob_triangle A B) hd.le
  · have ht : frobSq Aᵀ = frobSq A := by
      unfold frobSq; rw [Finset.sum_comm]; rfl
    rw [transpose_of, norm2_real, norm2_real, ht, normDim_comm]

/-- C90: the identity matrix has `norm2` one, whatever its size. -/
theorem C90_norm2_eye (hn : 0 < n) :
    ∃ I : Mat ℝ, Factory.eye (n : Int) (n : Int) = .ok I ∧ I.norm2 = 1 ∧ I.norm2Squared = 1 := by
  have hf : frobSq (1 : Matrix (Fin n) (Fin n) ℝ) = n := by
    unfold frobSq
    have : ∀ i j : Fin n, (1 : Matrix (Fin n) (Fin n) ℝ) i j ^ 2 = if i = j then 1 else 0 := by
      intro i j; by_cases h : i = j <;> simp [Matrix.one_apply, h]
    simp [this]
  have h1 : (of (1 : Matrix (Fin n) (Fin n) ℝ)).norm2 = 1 := by
    rw [norm2_real, hf]
    have hN : normDim n n = (n : ℝ) := by
      unfold normDim
      by_cases h : n = 1
      · subst h; simp
      · simp [h]
    rw [hN, div_self]
    exact (Real.sqrt_pos.2 (by exact_mod_cast hn)).ne'
  refine ⟨of 1, ?_, h1, ?_⟩
  · exact Factory.eye_nat n
  · unfold norm2Squared; rw [h1, mul_one]

/-- C90: for vectors of the same length `vector_dot` obeys the Cauchy-Schwarz inequality with `norm2`. -/
theorem C90_cauchy_schwarz (u v : Matrix (Fin n) (Fin 1) ℝ) :
    ∃ d, (of u).vectorDot (of v) = .ok d ∧ |d| ≤ (of u).norm2 * (of v).norm2 := by
  refine ⟨_, vectorDot_cols u v, ?_⟩
  have hd : normDim n 1 = 1 := by unfold normDim; rw [if_pos (Or.inr rfl)]
  have hs : ∀ w : Matrix (Fin n) (Fin 1) ℝ, ∑ i, u i 0 * w i 0 = ∑ x : Fin n × Fin 1, u x.1 x.2 * w x.1 x.2 := by
    intro w
    rw [Fintype.sum_prod_type]
    refine Finset.sum_congr rfl fun i _ => ?_
    simp
  rw [norm2_real, norm2_real, hd, Real.sqrt_one, div_one, div_one]
  refine abs_le.2 ⟨?_, ?_⟩
  · have h := frob_cauchy u (-v)
    have hn : frobSq (-v) = frobSq v := by
      have := frobSq_smul v (-1)
      simpa using this
    rw [hn, ← hs (-v)] at h
    simp only [Matrix.neg_apply, mul_neg, Finset.sum_neg_distrib] at h
    linarith
  · rw [hs v]; exact frob_cauchy u v

/-- C90: `norm2` is not compatible with multiplication: for the 2×2 matrix of ones the norm of the square
exceeds the square of the norm, and likewise for the product with a vector. -/
theorem C90_submultiplicative_violation :
    ∃ (A : Matrix (Fin 2) (Fin 2) ℝ) (v : Matrix (Fin 2) (Fin 1) ℝ) (S w : Mat ℝ),
      (of A).mul (of A) = .ok S ∧ (of A).mul (of v) = .ok w ∧
      (of A).norm2 * (of A).norm2 < S.norm2 ∧ (of A).norm2 * (of v).norm2 < w.norm2 := by
  refine ⟨Matrix.of fun _ _ => 1, Matrix.of fun _ _ => 1, _, _, mul_of _ _, mul_of _ _, ?_, ?_⟩
  · have hA : (of (Matrix.of fun (_ _ : Fin 2) => (1 : ℝ))).norm2Squared = 2 := by
      rw [(C90_norm2_value (by norm_num) (by norm_num) _).2]; norm_num
    show (of (Matrix.of fun (_ _ : Fin 2) => (1 : ℝ))).norm2Squared < _
    rw [hA, (C90_norm2_value (by norm_num) (by norm_num) _).1]
    refine Real.lt_sqrt_of_sq_lt ?_
    simp [Matrix.mul_apply]
    try norm_num
  · have hA : (of (Matrix.of fun (_ _ : Fin 2) => (1 : ℝ))).norm2 = Real.sqrt 2 := by
      rw [(C90_norm2_value (by norm_num) (by norm_num) _).1]; norm_num
    have hv : (of (Matrix.of fun (_ : Fin 2) (_ : Fin 1) => (1 : ℝ))).norm2 = Real.sqrt 2 := by
      rw [(C90_norm2_value (by norm_num) (by norm_num) _).1]; norm_num
    rw [hA, hv, (C90_norm2_value (by norm_num) (by norm_num) _).1, Real.mul_self_sqrt (by norm_num)]
    refine Real.lt_sqrt_of_sq_lt ?_
    simp [Matrix.mul_apply]
    try norm_num

/-! ## C91 -/

/-- C91: `trace` adds up the diagonal, also of a matrix that is not square. -/
theorem C91_trace_value (M : Mat ℝ) :
    M.trace = ∑ k : Fin (min M.rows M.cols), M.data ⟨k, by have := k.2; omega⟩ ⟨k, by have := k.2; omega⟩ := by
  unfold trace diag
  by_cases h : min M.rows M.cols = 0
  · rw [if_pos h]
    have he : IsEmpty (Fin (min M.rows M.cols)) := by rw [h]; infer_instance
    simp [total]
  · rw [if_neg h]
    simp [total]

/-- C91: `trace` is linear, ignores transposition, and does not depend on the order of the factors of a
product, even when the factors are not square. -/
theorem C91_trace (A C : Matrix (Fin m) (Fin n) ℝ) (B : Matrix (Fin n) (Fin m) ℝ) (s : ℝ) :
    (∃ S, (of A).add (of C) = .ok S ∧ S.trace = (of A).trace + (of C).trace) ∧
    ((of A).smul s).trace = s * (of A).trace ∧
    (of A).transpose.trace = (of A).trace ∧
    ∃ P Q, (of A).mul (of B) = .ok P ∧ (of B).mul (of A) = .ok Q ∧ P.trace = Q.trace := by
  refine ⟨⟨_, add_of A C, ?_⟩, ?_, ?_, _, _, mul_of A B, mul_of B A, ?_⟩
  · rw [C91_trace_value, C91_trace_value, C91_trace_value, ← Finset.sum_add_distrib]; rfl
  · rw [smul_of, C91_trace_value, C91_trace_value, Finset.mul_sum]; rfl
  · rw [transpose_of, C91_trace_value, C91_trace_value]
    exact Fintype.sum_equiv (finCongr (min_comm n m)) _ _ fun k => rfl
  · have hsq : ∀ {r : Nat} (D : Matrix (Fin r) (Fin r) ℝ), (of D).trace = D.trace := by
      intro r D
      rw [C91_trace_value]
      exact Fintype.sum_equiv (finCongr (min_self r)) _ _ fun k => rfl
    rw [hsq, hsq, Matrix.trace_mul_comm]

/-- C91: `max` returns an entry that no other entry exceeds; only an empty matrix has none. -/
theorem C91_max [LinearOrder α] (M : Mat α) :
    (M.rows = 0 ∨ M.cols = 0 → M.max = .error .valueError) ∧
    (0 < M.rows → 0 < M.cols → ∃ x, M.max = .ok x ∧ (∃ i j, M.data i j = x) ∧ ∀ i j, M.data i j ≤ x) := by
  have hmem : ∀ x, x ∈ M.toRawCopy2D.flatten ↔ ∃ i j, M.data i j = x := by
    intro x
    simp [toRawCopy2D, List.mem_flatten, List.mem_ofFn]
  have hfold : ∀ (l : List α) (x : α), (l.foldl Max.max x = x ∨ l.foldl Max.max x ∈ l) ∧ x ≤ l.foldl Max.max x ∧
      ∀ y ∈ l, y ≤ l.foldl Max.max x := by
    intro l
    induction l with
    | nil => intro x; simp
    | cons a l ih =>
      intro x
      obtain ⟨h1, h2, h3⟩ := ih (Max.max x a)
      rw [List.foldl_cons]
      refine ⟨?_, le_trans (le_max_left x a) h2, ?_⟩
      · rcases h1 with h1 | h1
        · rcases max_choice x a with h | h
          · left; rw [h1, h]
          · right; rw [h1, h]; exact List.mem_cons_self
        · right; exact List.mem_cons_of_mem _ h1
      · intro y hy
        rcases List.mem_cons.1 hy with rfl | hy
        · exact le_trans (le_max_right x y) h2
        · exact h3 y hy
  unfold Mat.max
  constructor
  · intro h
    have : M.toRawCopy2D.flatten = [] := by
      rw [List.eq_nil_iff_forall_not_mem]
      intro x hx
      obtain ⟨i, j, -⟩ := (hmem x).1 hx
      rcases h with h | h
      · exact absurd i.2 (by omega)
      · exact absurd j.2 (by omega)
    rw [this]
  · intro hr hc
    cases hl : M.toRawCopy2D.flatten with
    | nil =>
      have := (hmem (M.data ⟨0, hr⟩ ⟨0, hc⟩)).2 ⟨_, _, rfl⟩
      rw [hl] at this; simp at this
    | cons x xs =>
      obtain ⟨h1, h2, h3⟩ := hfold xs x
      refine ⟨_, rfl, ?_, ?_⟩
      · refine (hmem _).1 ?_
        rw [hl]
        rcases h1 with h1 | h1
        · rw [h1]; exact List.mem_cons_self
        · exact List.mem_cons_of_mem _ h1
      · intro i j
        have := (hmem (M.data i j)).2 ⟨i, j, rfl⟩
        rw [hl] at this
        rcases List.mem_cons.1 this with h | h
        · rw [h]; exact h2
        · exact h3 _ h

/-- C91: `head n` holds the first `n` rows, all of them when there are fewer; a negative `n` leaves out the
last `-n`. -/
theorem C91_head (M : Mat α) (k : Nat) :
    ((M.head k).rows = min k M.rows ∧ (M.head k).cols = M.cols) ∧
    ((M.head (-(k : Int) - 1)).rows = M.rows - (k + 1) ∧ (M.head (-(k : Int) - 1)).cols = M.cols) ∧
    (∀ i j, i < min k M.rows → (M.head k).entry? i j = M.entry? i j) ∧
    (∀ i j, i < M.rows - (k + 1) → (M.head (-(k : Int) - 1)).entry? i j = M.entry? i j) := by
  have hr : (M.head k).rows = min k M.rows := by simp [head]
  have hr' : (M.head (-(k : Int) - 1)).rows = M.rows - (k + 1) := by
    show (if 0 ≤ -(k : Int) - 1 then min (-(k : Int) - 1).toNat M.rows else (M.rows + (-(k : Int) - 1)).toNat) = _
    rw [if_neg (by omega)]; omega
  have he : ∀ (z : Int) (i j : Nat), i < (M.head z).rows → (M.head z).entry? i j = M.entry? i j := by
    intro z i j hi
    have hle : (M.head z).rows ≤ M.rows := by
      show (if 0 ≤ z then min z.toNat M.rows else (M.rows + z).toNat) ≤ M.rows
      split <;> omega
    unfold entry?
    by_cases hj : j < M.cols
    · rw [dif_pos ⟨hi, hj⟩, dif_pos ⟨lt_of_lt_of_le hi hle, hj⟩]; rfl
    · rw [dif_neg fun h => hj h.2, dif_neg fun h => hj h.2]
  exact ⟨⟨hr, rfl⟩, ⟨hr', rfl⟩, fun i j hi => he _ i j (by rw [hr]; exact hi),
    fun i j hi => he _ i j (by rw [hr']; exact hi)⟩

/-- C91: `is_multiplicable_with` answers exactly whether `mul` succeeds, `same_shape_as` whether `add` does. -/
theorem C91_shape_predicates [NonUnitalNonAssocSemiring α] (M N : Mat α) :
    (M.isMultiplicableWith N = true ↔ ∃ P, M.mul N = .ok P) ∧
    (M.isMultiplicableWith N = false ↔ M.mul N = .error .valueError) ∧
    (M.sameShapeAs N = true ↔ ∃ P, M.add N = .ok P) ∧
    (M.isSquare = true ↔ M.isMultiplicableWith M = true) := by
  have hm : ∀ h : M.cols = N.rows, ∃ P, M.mul N = .ok P := fun h => by unfold mul; rw [dif_pos h]; exact ⟨_, rfl⟩
  have hb : M.isMultiplicableWith N = decide (M.cols = N.rows) := by
    rw [Bool.eq_iff_iff]; simp [isMultiplicableWith]
  refine ⟨?_, ?_, ?_, ?_⟩
  · rw [hb, decide_eq_true_iff]
    refine ⟨hm, ?_⟩
    rintro ⟨P, hP⟩
    by_contra h
    rw [mul_error h] at hP; cases hP
  · rw [hb, decide_eq_false_iff_not]
    refine ⟨mul_error, ?_⟩
    intro he h
    obtain ⟨P, hP⟩ := hm h
    rw [hP] at he; cases he
  · unfold add zipWith sameShapeAs
    by_cases h : M.rows = N.rows ∧ M.cols = N.cols
    · rw [dif_pos h]; simp [h.1, h.2]
    · rw [dif_neg h]
      simpa using h
  · simp only [isSquare, isMultiplicableWith, beq_iff_eq]
    exact eq_comm

/-! Cases meeting the hypotheses. -/

example : (of (!![3, 4] : Matrix (Fin 1) (Fin 2) ℝ)).norm2 = 5 := by
  rw [(C90_norm2_value (by norm_num) (by norm_num) _).1]
  have : Real.sqrt 25 = 5 := by rw [show (25 : ℝ) = 5 ^ 2 by norm_num]; exact Real.sqrt_sq (by norm_num)
  simpa [Fin.sum_univ_two, show (3 : ℝ) ^ 2 + 4 ^ 2 = 25 by norm_num] using this
example : ((of (!![1, 5; 7, 2] : Matrix (Fin 2) (Fin 2) ℤ)).max = .ok 7) := by decide
example : (of (!![1, 2; 3, 4; 5, 6] : Matrix (Fin 3) (Fin 2) ℤ)).trace = 5 := by decide

end Verif.Props
