import Verif.Core.Shuffle
import Verif.Core.LinAlg
import Verif.Core.SelLemmas
import Mathlib.LinearAlgebra.Matrix.NonsingularInverse

/-!
# Two runs of the same code on data whose columns are in a different order

Rules for `ShufC` (columns reordered) and `Shuf2` (rows and columns of a square matrix reordered alike).
-/

namespace Verif

open Mat

variable {α : Type} {n : Nat} {σ : Equiv.Perm (Fin n)} {A A' B B' C C' : Mat α}

/-- `B` has the rows and the columns of the square matrix `A` in the order `σ 0, σ 1, …`. -/
def Shuf2 (σ : Equiv.Perm (Fin n)) (A B : Mat α) : Prop :=
  ∃ M : Matrix (Fin n) (Fin n) α, A = of M ∧ B = of (Matrix.of fun i j => M (σ i) (σ j))

theorem ShufC.rows_eq (h : ShufC σ A B) : B.rows = A.rows := by
  obtain ⟨c, M, rfl, rfl⟩ := h
  rfl

theorem ShufC.cols (h : ShufC σ A B) : A.cols = n ∧ B.cols = n := by
  obtain ⟨c, M, rfl, rfl⟩ := h
  exact ⟨rfl, rfl⟩

theorem ShufC.cols_eq (h : ShufC σ A B) : B.cols = A.cols := by rw [h.cols.1, h.cols.2]

theorem ShufC.isVector (h : ShufC σ A B) : B.isVector = A.isVector := by
  unfold Mat.isVector
  rw [h.rows_eq, h.cols_eq]

/-- Being reordered, said of the transposed matrices. -/
theorem ShufC.of_transpose (h : Shuf σ A.transpose B.transpose) : ShufC σ A B := h.transpose

theorem ShufC.map (f : α → α) (h : ShufC σ A B) : ShufC σ (A.map f) (B.map f) := by
  obtain ⟨c, M, rfl, rfl⟩ := h
  exact ⟨c, Matrix.of fun i j => f (M i j), rfl, rfl⟩

theorem ShufC.copy (h : ShufC σ A B) : ShufC σ A.copy B.copy := by
  obtain ⟨c, M, rfl, rfl⟩ := h
  exact ⟨c, M, rfl, rfl⟩

theorem ShufC.zipWith (e : PyErr) (f : α → α → α) (h : ShufC σ A A') (h' : ShufC σ B B') :
    ERel (ShufC σ) (A.zipWith e f B) (A'.zipWith e f B') := by
  obtain ⟨c, M, rfl, rfl⟩ := h
  obtain ⟨d, N, rfl, rfl⟩ := h'
  unfold Mat.zipWith
  by_cases hc : c = d
  · subst hc
    rw [dif_pos ⟨rfl, rfl⟩, dif_pos ⟨rfl, rfl⟩]
    exact ⟨c, Matrix.of fun i j => f (M i j) (N i j), rfl, rfl⟩
  · rw [dif_neg fun hh => hc hh.1, dif_neg fun hh => hc hh.1]
    rfl

theorem ShufC.sub [Sub α] (h : ShufC σ A A') (h' : ShufC σ B B') : ERel (ShufC σ) (A.sub B) (A'.sub B') :=
  h.zipWith _ _ h'

theorem ShufC.add [Add α] (h : ShufC σ A A') (h' : ShufC σ B B') : ERel (ShufC σ) (A.add B) (A'.add B') :=
  h.zipWith _ _ h'

theorem ShufC.getRow (k : Int) (h : ShufC σ A B) : ERel (ShufC σ) (A.getRow k) (B.getRow k) := by
  obtain ⟨c, M, rfl, rfl⟩ := h
  unfold Mat.getRow
  refine ERel.bindEq rfl fun j => ?_
  exact ⟨1, Matrix.of fun _ i => M j i, rfl, rfl⟩

theorem ShufC.colSums [Add α] [Zero α] (h : ShufC σ A B) : ShufC σ A.colSums B.colSums := by
  obtain ⟨c, M, rfl, rfl⟩ := h
  exact ⟨1, Matrix.of fun _ j => sumFin fun i => M i j, rfl, rfl⟩

theorem ShufC.columnMeans [Add α] [Zero α] [Div α] [NatCast α] (h : ShufC σ A B) :
    ShufC σ A.columnMeans B.columnMeans := by
  unfold Mat.columnMeans
  rw [h.rows_eq]
  exact h.colSums.map _

theorem ShufC.columnStdevs [Add α] [Sub α] [Mul α] [Zero α] [Div α] [NatCast α] [HasSqrt α] (h : ShufC σ A B) :
    ShufC σ A.columnStdevs B.columnStdevs := by
  obtain ⟨c, M, rfl, rfl⟩ := h
  exact ⟨1, _, rfl, rfl⟩

/-- Broadcasting a row that is reordered as well. -/
theorem ShufC.vectorOp (f : α → α → α) {v v' : Mat α} (hr : v.rows = 1) (h : ShufC σ A B) (hv : ShufC σ v v') :
    ERel (ShufC σ) (A.vectorOp f v) (B.vectorOp f v') := by
  obtain ⟨c, M, rfl, rfl⟩ := h
  obtain ⟨d, N, rfl, rfl⟩ := hv
  change d = 1 at hr
  subst hr
  have e : ∀ (M : Matrix (Fin c) (Fin n) α) (N : Matrix (Fin 1) (Fin n) α),
      (of M).vectorOp f (of N) = .ok (of (Matrix.of fun i j => f (M i j) (N 0 j))) := fun M N => by
    unfold Mat.vectorOp Mat.mustBeVector Mat.vectorSizeMatches Mat.broadcastVec Mat.isRowVector Mat.isVector
    simp only [beq_self_eq_true, Bool.true_or, Bool.and_true, if_true, Bool.not_true, Bool.false_eq_true, if_false]
    rw [except_bind_ok, ok_inj]
    refine mk_congr fun i j => ?_
    simp only [Matrix.of_apply]
    unfold Mat.entry?
    rw [dif_pos ⟨Nat.one_pos, j.2⟩]
    rfl
  rw [e, e]
  exact ⟨c, Matrix.of fun i j => f (M i j) (N 0 j), rfl, rfl⟩

/-- Broadcasting one factor per row. -/
theorem ShufC.scaleByColumnVector [Mul α] (v : Mat α) (h : ShufC σ A B) :
    ERel (ShufC σ) (A.scaleByColumnVector v) (B.scaleByColumnVector v) := by
  obtain ⟨c, M, rfl, rfl⟩ := h
  unfold Mat.scaleByColumnVector
  obtain ⟨r, d, N⟩ := v
  by_cases hd : d = 1
  · subst hd
    refine ERel.bindEq rfl fun _ => ?_
    by_cases hc : c = r
    · subst hc
      rw [if_pos rfl, if_pos rfl]
      unfold Mat.mulByVector Mat.vectorOp
      refine ERel.bindEq rfl fun _ => ?_
      unfold Mat.vectorSizeMatches Mat.broadcastVec Mat.isRowVector Mat.isVector
      by_cases h1 : c = 1
      · subst h1
        simp only [beq_self_eq_true, Bool.or_true, Bool.and_true, if_true, Bool.not_true, Bool.false_eq_true, if_false]
        by_cases hn : n = 1
        · subst hn
          have hσ : ∀ i, σ i = i := fun i => Subsingleton.elim _ _
          simp only [Matrix.of_apply, hσ, beq_self_eq_true, if_true]
          exact ⟨1, Matrix.of fun i j => match (⟨1, 1, N⟩ : Mat α).entry? 0 j.1 with
            | some x => M i j * x
            | none => M i j, rfl, mk_congr fun i j => by
              simp only [Matrix.of_apply, hσ]
              cases (⟨1, 1, N⟩ : Mat α).entry? 0 j.1 <;> rfl⟩
        · have hb : (n == 1) = false := by simpa using hn
          simp only [hb, Bool.false_eq_true, if_false]
          rfl
      · have hb : (c == 1) = false := by simpa using h1
        simp only [hb, Bool.and_false, Bool.false_or, beq_self_eq_true, if_true, Bool.not_true, Bool.false_eq_true, if_false]
        exact ⟨c, Matrix.of fun i j => match (⟨c, 1, N⟩ : Mat α).entry? i.1 0 with
            | some x => M i j * x
            | none => M i j, rfl, rfl⟩
    · have hc' : ¬ (of M).rows = (⟨r, 1, N⟩ : Mat α).rows := hc
      have hc'' : ¬ (of (Matrix.of fun i j => M i (σ j))).rows = (⟨r, 1, N⟩ : Mat α).rows := hc
      rw [if_neg hc', if_neg hc'']
      rfl
  · have e : (⟨r, d, N⟩ : Mat α).mustBeColumnVector = .error .valueError := by
      simp [Mat.mustBeColumnVector, Mat.isColumnVector, hd]
    rw [e]
    rfl

/-- A new matrix of zeros with one row per column of the data. -/
theorem ShufC.zeros [Zero α] (hn : n ≠ 0) (h : ShufC σ A B) (K : Int) :
    ERel (Shuf σ) (Factory.zeros (α := α) (A.cols : Int) K) (Factory.zeros (B.cols : Int) K) :=
  h.transpose.zeros hn K

theorem ShufC.zeros_self [Zero α] (hn : n ≠ 0) (h : ShufC σ A B) (K : Int) {W : Mat α}
    (hW : Factory.zeros (α := α) (A.cols : Int) K = .ok W) : Shuf σ W W := by
  have := h.zeros hn K
  rw [h.cols_eq, hW] at this
  exact this

/-- Rows of the reordered matrix. -/
theorem ShufC.getRows (s : Mat.Sel) (h : ShufC σ A B) : ERel (ShufC σ) (A.getRows s) (B.getRows s) := by
  obtain ⟨c, M, rfl, rfl⟩ := h
  unfold Mat.getRows Mat.getSubMatrix
  refine ERel.bindEq rfl fun rs => ?_
  have er : Mat.resolve n (pyRange 0 (n : Int)) = .ok (List.ofFn fun k : Fin (n - 0) => ⟨0 + k, by have := k.2; omega⟩) :=
    Mat.resolve_range 0 n (Nat.zero_le _) le_rfl
  have e : ∀ N : Matrix (Fin c) (Fin n) α, ((Mat.resolve (of N).cols (Mat.Sel.tuple 0 ((of N).cols : Int)).positions >>= fun cs =>
      pure (⟨rs.length, cs.length, Matrix.of fun i j => (of N).data (rs.get i) (cs.get j)⟩ : Mat α)) : Except PyErr (Mat α)) =
      .ok (of (Matrix.of fun i j => N (rs.get i) j)) := fun N => by
    show (Mat.resolve n (pyRange 0 (n : Int)) >>= _) = _
    rw [er, except_bind_ok, except_pure, ok_inj]
    refine mk_eq rfl (by simp) fun i j => ?_
    simp only [Matrix.of_apply, List.get_ofFn]
    congr 1
    exact Fin.ext (Nat.zero_add _)
  refine Eq.mpr (congrArg₂ (ERel (ShufC σ)) (e M) (e (Matrix.of fun i j => M i (σ j)))) ?_
  exact ⟨_, Matrix.of fun i j => M (rs.get i) j, rfl, rfl⟩

section field
variable [Field α]

theorem ShufC.sumSq (h : ShufC σ A B) : B.sumSq = A.sumSq := by
  obtain ⟨c, M, rfl, rfl⟩ := h
  show sumFin (fun i => sumFin fun j => M i (σ j) * M i (σ j)) = sumFin fun i => sumFin fun j => M i j * M i j
  congr 1
  funext i
  exact sumFin_perm σ fun j => M i j * M i j

theorem ShufC.norm2 [HasSqrt α] (h : ShufC σ A B) : B.norm2 = A.norm2 := by
  unfold Mat.norm2
  rw [h.sumSq, h.isVector, h.rows_eq, h.cols_eq]

theorem ShufC.norm2Squared [HasSqrt α] (h : ShufC σ A B) : B.norm2Squared = A.norm2Squared := by
  unfold Mat.norm2Squared
  rw [h.norm2]

/-! ## Both sides -/

/-- Products `A C` with `A` reordered in its rows and `C` in its columns. -/
theorem Shuf.outer (h : Shuf σ A A') (h' : ShufC σ B B') : ERel (Shuf2 σ) (A.mul B) (A'.mul B') := by
  obtain ⟨c, M, rfl, rfl⟩ := h
  obtain ⟨d, N, rfl, rfl⟩ := h'
  unfold Mat.mul
  by_cases hc : c = d
  · subst hc
    rw [dif_pos rfl, dif_pos rfl]
    exact ⟨Matrix.of fun i j => sumFin fun k => M i k * N k j, rfl, rfl⟩
  · have h1 : ¬ (of M).cols = (of N).rows := hc
    have h2 : ¬ (of (Matrix.of fun i j => M (σ i) j)).cols = (of (Matrix.of fun i j => N i (σ j))).rows := hc
    rw [dif_neg h1, dif_neg h2]
    rfl

omit [Field α] in
theorem Shuf2.transpose (h : Shuf2 σ A B) : Shuf2 σ A.transpose B.transpose := by
  obtain ⟨M, rfl, rfl⟩ := h
  exact ⟨Matrix.of fun i j => M j i, rfl, rfl⟩

omit [Field α] in
theorem Shuf2.map (f : α → α) (h : Shuf2 σ A B) : Shuf2 σ (A.map f) (B.map f) := by
  obtain ⟨M, rfl, rfl⟩ := h
  exact ⟨Matrix.of fun i j => f (M i j), rfl, rfl⟩

omit [Field α] in
theorem Shuf2.zipWith (e : PyErr) (f : α → α → α) (h : Shuf2 σ A A') (h' : Shuf2 σ B B') :
    ERel (Shuf2 σ) (A.zipWith e f B) (A'.zipWith e f B') := by
  obtain ⟨M, rfl, rfl⟩ := h
  obtain ⟨N, rfl, rfl⟩ := h'
  unfold Mat.zipWith
  rw [dif_pos ⟨rfl, rfl⟩, dif_pos ⟨rfl, rfl⟩]
  exact ⟨Matrix.of fun i j => f (M i j) (N i j), rfl, rfl⟩

theorem Shuf2.sub (h : Shuf2 σ A A') (h' : Shuf2 σ B B') : ERel (Shuf2 σ) (A.sub B) (A'.sub B') := h.zipWith _ _ h'
theorem Shuf2.add (h : Shuf2 σ A A') (h' : Shuf2 σ B B') : ERel (Shuf2 σ) (A.add B) (A'.add B') := h.zipWith _ _ h'

theorem Shuf2.mul (h : Shuf2 σ A A') (h' : Shuf σ B B') : ERel (Shuf σ) (A.mul B) (A'.mul B') := by
  obtain ⟨M, rfl, rfl⟩ := h
  obtain ⟨d, N, rfl, rfl⟩ := h'
  unfold Mat.mul
  rw [dif_pos rfl, dif_pos rfl]
  exact ⟨d, Matrix.of fun i j => sumFin fun k => M i k * N k j, rfl, mk_congr fun i j => sumFin_perm σ fun k => M (σ i) k * N k j⟩

theorem Shuf2.mul2 (h : Shuf2 σ A A') (h' : Shuf2 σ B B') : ERel (Shuf2 σ) (A.mul B) (A'.mul B') := by
  obtain ⟨M, rfl, rfl⟩ := h
  obtain ⟨N, rfl, rfl⟩ := h'
  unfold Mat.mul
  rw [dif_pos rfl, dif_pos rfl]
  exact ⟨Matrix.of fun i j => sumFin fun k => M i k * N k j, rfl,
    mk_congr fun i j => sumFin_perm σ fun k => M (σ i) k * N k (σ j)⟩

theorem ShufC.mul2 (h : ShufC σ A A') (h' : Shuf2 σ B B') : ERel (ShufC σ) (A.mul B) (A'.mul B') := by
  obtain ⟨d, M, rfl, rfl⟩ := h
  obtain ⟨N, rfl, rfl⟩ := h'
  unfold Mat.mul
  rw [dif_pos rfl, dif_pos rfl]
  exact ⟨d, Matrix.of fun i j => sumFin fun k => M i k * N k j, rfl,
    mk_congr fun i j => sumFin_perm σ fun k => M i k * N k (σ j)⟩

/-- The identity matrix is the same in every order. -/
theorem Shuf2.eye (h : ShufC σ A B) (c : Int) (hc : c = -1 ∨ c = A.cols) :
    ERel (Shuf2 σ) (Factory.eye (α := α) (A.cols : Int) c) (Factory.eye (α := α) (B.cols : Int) c) := by
  rw [h.cols_eq, h.cols.1]
  have hd : Factory.defaultColumns (n : Int) c = n := by
    rw [h.cols.1] at hc
    unfold Factory.defaultColumns
    split <;> omega
  have e : Factory.eye (α := α) (n : Int) c = .ok (of (1 : Matrix (Fin n) (Fin n) α)) := by
    unfold Factory.eye
    simp only [hd]
    rw [if_neg (by omega), ok_inj]
    refine mk_eq (by simp) (by simp [hd]) fun i j => ?_
    simp only [Matrix.of_apply, Matrix.one_apply, Fin.ext_iff]
    rfl
  rw [e]
  refine ⟨1, rfl, mk_congr fun i j => ?_⟩
  simp only [Matrix.of_apply, Matrix.one_apply, σ.injective.eq_iff]

/-- The inverse of a reordered matrix. -/
theorem Shuf2.inverse [DecidableEq α] (l : Mat α → Except PyErr (Mat α)) (h : Shuf2 σ A B) :
    ERel (Shuf2 σ) (A.inverse l) (B.inverse l) := by
  obtain ⟨M, rfl, rfl⟩ := h
  have e : ∀ N : Matrix (Fin n) (Fin n) α, (of N).inverse l = if N.det = 0 then .error .linAlgError else .ok (of N⁻¹) :=
    fun N => by
      unfold Mat.inverse
      rw [dif_pos rfl]
      dsimp only
      rw [invMatrix_eq]
      rfl
  have hs : (Matrix.of fun i j => M (σ i) (σ j)) = M.submatrix σ σ := rfl
  rw [e, e, hs, Matrix.det_submatrix_equiv_self]
  by_cases hd : M.det = 0
  · rw [if_pos hd, if_pos hd]
    rfl
  · rw [if_neg hd, if_neg hd]
    refine ⟨M⁻¹, rfl, ?_⟩
    rw [Matrix.inv_submatrix_equiv]
    rfl

end field

end Verif
