import Verif.Alg.Preproc

/-!
# The preprocessing around single-response PLS, for scalars without algebraic laws

`_AbstractSingleResponsePLS.py` again, for any scalar type with the operations the code uses, so that it can be run on scalars with NaN and
infinities.  For a field these are the programs of `Verif.Alg.Preproc` (`singleTrainG_field`, `singlePredictG_field`: equal by unfolding).
-/

namespace Verif
open Mat Transf

variable {α M : Type}

section programs
variable [Add α] [Sub α] [Mul α] [Zero α] [One α] [Div α] [NatCast α] [HasSqrt α]

/-- The transformation chosen for a matrix, `_AbstractSingleResponsePLS.py` 61-84. -/
def prepApplyG (isZero : α → Bool) : Prep → Mat α → Except PyErr (Mat α)
  | .none, A => .ok A
  | .center, A => fitTransform center A
  | .standardize, A => fitTransform (standardize isZero) A
  | .unknown, _ => .error .runtimeError

/-- `class_mean` and `class_std_dev`, `_AbstractSingleResponsePLS.py` 61-77. -/
def classStatsG : Prep → Mat α → Except PyErr (α × α)
  | .none, _ => .ok (0, 1)
  | .center, Y => do let m ← Y.columnMeans.get 0 0; .ok (m, 1)
  | .standardize, Y => do let m ← Y.columnMeans.get 0 0; let s ← Y.columnStdevs.get 0 0; .ok (m, s)
  | .unknown, _ => .error .runtimeError

/-- `do_initialize`, `_AbstractSingleResponsePLS.py` 60-88. -/
def singleTrainG (isZero : α → Bool) (train : Mat α → Mat α → Except PyErr M) (prep : Prep) (X Y : Mat α) :
    Except PyErr (SingleModel α M) := do
  let st ← classStatsG prep Y
  let X ← prepApplyG isZero prep X
  let Y ← prepApplyG isZero prep Y
  let m ← train X Y
  .ok ⟨st.1, st.2, prep.hasTrans, m⟩

/-- One pass of the loop of `do_predict`, `_AbstractSingleResponsePLS.py` 99-100. -/
def denormStepG (mean sd : α) (i : Int) (R : Mat α) : Except PyErr (Mat α) := do
  let v ← R.get i 0
  R.set i 0 (v * sd + mean)

/-- `do_predict`, `_AbstractSingleResponsePLS.py` 90-102. -/
def singlePredictG (predict : M → Mat α → Except PyErr (Mat α)) (m : SingleModel α M) (Z : Mat α) :
    Except PyErr (Mat α) := do
  let R ← predict m.base Z
  if m.hasTrans then loopM (denormStepG m.mean m.sd) (pyRange 0 R.rows) R else .ok R

end programs

/-- For a field this is the training of `Verif.Alg.Preproc`. -/
theorem singleTrainG_field [Field α] [HasSqrt α] (isZero : α → Bool) (train : Mat α → Mat α → Except PyErr M) (prep : Prep) (X Y : Mat α) :
    singleTrainG isZero train prep X Y = singleTrain isZero train prep X Y := by
  unfold singleTrainG singleTrain
  cases prep <;> rfl

/-- For a field this is the prediction of `Verif.Alg.Preproc`. -/
theorem singlePredictG_field [Field α] (predict : M → Mat α → Except PyErr (Mat α)) (m : SingleModel α M) (Z : Mat α) :
    singlePredictG predict m Z = singlePredict predict m Z := rfl

section stats
variable [Add α] [Sub α] [Mul α] [Zero α] [One α] [Div α] [NatCast α] [HasSqrt α]

omit [Sub α] [Zero α] [One α] [Div α] [NatCast α] [HasSqrt α] in
theorem denorm_loopG {r : Nat} (R : Matrix (Fin r) (Fin 1) α) (m s : α) :
    loopM (denormStepG m s) (pyRange 0 (r : Int)) (of R) = .ok (of (Matrix.of fun i j => R i j * s + m)) := by
  have h := loopM_range (denormStepG m s)
    (fun k => of (Matrix.of fun (i : Fin r) (j : Fin 1) => if i.1 < k then R i j * s + m else R i j)) r ?_
  · have e0 : (Matrix.of fun (i : Fin r) (j : Fin 1) => if i.1 < 0 then R i j * s + m else R i j) = R := by
      ext i j; simp
    have e1 : (Matrix.of fun (i : Fin r) (j : Fin 1) => if i.1 < r then R i j * s + m else R i j) =
        Matrix.of fun i j => R i j * s + m := by
      ext i j; simp
    rwa [e0, e1] at h
  · intro k hk
    unfold denormStepG
    have hg := get_of_col (Matrix.of fun (i : Fin r) (j : Fin 1) => if i.1 < k then R i j * s + m else R i j) ⟨k, hk⟩
    have hs := fun v => set_of (Matrix.of fun (i : Fin r) (j : Fin 1) => if i.1 < k then R i j * s + m else R i j)
      ⟨k, hk⟩ (0 : Fin 1) v
    simp only [] at hg hs
    rw [hg]
    refine (hs _).trans ?_
    congr 1
    refine mk_congr fun i j => ?_
    simp only [Matrix.of_apply]
    rw [Subsingleton.elim j 0]
    by_cases hi : i = ⟨k, hk⟩
    · subst hi
      rw [if_pos ⟨rfl, rfl⟩, if_pos (Nat.lt_succ_self k), if_neg (Nat.lt_irrefl k)]
    · have hi' : i.1 ≠ k := fun h => hi (Fin.ext h)
      rw [if_neg fun h => hi h.1]
      by_cases h1 : i.1 < k
      · rw [if_pos h1, if_pos (by omega)]
      · rw [if_neg h1, if_neg (by omega)]

/-! ## What the preprocessing computes -/

/-- The mean of column `j`, as computed. -/
def gMean {n p : Nat} (A : Matrix (Fin n) (Fin p) α) (j : Fin p) : α := (sumFin fun k => A k j) / (n : α)

/-- The standard deviation of column `j`, as computed. -/
def gStd {n p : Nat} (A : Matrix (Fin n) (Fin p) α) (j : Fin p) : α :=
  HasSqrt.sqrt ((sumFin fun i => (A i j - gMean A j) * (A i j - gMean A j)) / ((n - 1 : Nat) : α))

omit [Mul α] [One α] [HasSqrt α] in
theorem fitTransformG_center {n p : Nat} (A : Matrix (Fin n) (Fin p) α) :
    fitTransform center (of A) = .ok (of (Matrix.of fun i j => A i j - gMean A j)) := by
  have hm : (of A).columnMeans = of (Matrix.of fun (_ : Fin 1) j => gMean A j) := mk_congr fun i j => rfl
  show subByVector (of A) (of A).columnMeans = _
  rw [hm]
  exact vectorOp_row _ _ _

theorem fitTransformG_standardize {n p : Nat} (isZero : α → Bool) (A : Matrix (Fin n) (Fin (p + 1)) α) :
    fitTransform (standardize isZero) (of A) = .ok (of (Matrix.of fun i j =>
      (A i j - gMean A j) / if j = 0 ∧ isZero (gStd A 0) = true then 1 else gStd A j)) := by
  have hm : (of A).columnMeans = of (Matrix.of fun (_ : Fin 1) j => gMean A j) := mk_congr fun i j => rfl
  have hs : (of A).columnStdevs = of (Matrix.of fun (_ : Fin 1) j => gStd A j) := mk_congr fun i j => rfl
  have hg : guardStds isZero (of A).columnStdevs = .ok (of (Matrix.of fun (_ : Fin 1) j =>
      if j = 0 ∧ isZero (gStd A 0) = true then 1 else gStd A j)) := by
    rw [hs]
    exact guardStds_row isZero _
  have hc : (standardize isZero).configure (of A) (standardize isZero).init =
      (⟨true, some (of A).columnMeans, some (of (Matrix.of fun (_ : Fin 1) j =>
        if j = 0 ∧ isZero (gStd A 0) = true then 1 else gStd A j))⟩, .ok ()) := by
    simp only [standardize, hg]
  unfold fitTransform
  rw [hc]
  show (do let r ← subByVector (of A) (of A).columnMeans; r.divByVector _) = _
  rw [hm]
  unfold subByVector divByVector
  rw [vectorOp_row, except_bind_ok, vectorOp_row]
  rfl

end stats

end Verif
