import Verif.Alg.PLS1
import Verif.Transf.Basic
import Verif.Transf.StatLemmas
import Verif.Core.UtilsLemmas

/-!
# Preprocessing around the PLS algorithms

`src/wai/ma/algorithm/pls/_AbstractSingleResponsePLS.py` and `_AbstractMultiResponsePLS.py`.
The training and prediction of the concrete algorithm are parameters.
-/

namespace Verif

open Mat Transf

variable {α M : Type}

/-- `PreprocessingType` (`_PreprocessingType.py` 19-25, members NONE, CENTER, STANDARDIZE); the setter accepts any
object, so a value that is none of the members is possible. -/
inductive Prep where
  | none | center | standardize | unknown
  deriving DecidableEq

/-- `trans.configure(data); data = trans.transform(data)` on a fresh transformation,
`_AbstractSingleResponsePLS.py` 80-81 and 83-84. -/
def fitTransform {σ P : Type} (T : Trans α σ P) (data : Mat α) : Except PyErr (Mat α) :=
  match T.configure data T.init with
  | (_, .error e) => .error e
  | (s, .ok _) => (transform T data s).2

section
variable [Field α] [HasSqrt α]

/-- The transformation chosen for a matrix, `_AbstractSingleResponsePLS.py` 61-84. -/
def prepApply (isZero : α → Bool) : Prep → Mat α → Except PyErr (Mat α)
  | .none, A => .ok A
  | .center, A => fitTransform center A
  | .standardize, A => fitTransform (standardize isZero) A
  | .unknown, _ => .error .runtimeError

/-- `helper.mean(response, 0)`, `helper.py` 43-47 and 198-199. -/
def mean0 (Y : Mat α) : Except PyErr α := Y.columnMeans.get 0 0

/-- `helper.stdev(response, 0)`, `helper.py` 50-54 and 216-217. -/
def stdev0 (Y : Mat α) : Except PyErr α := Y.columnStdevs.get 0 0

/-- `class_mean` and `class_std_dev`, `_AbstractSingleResponsePLS.py` 61-77. -/
def classStats : Prep → Mat α → Except PyErr (α × α)
  | .none, _ => .ok (0, 1)
  | .center, Y => do let m ← mean0 Y; .ok (m, 1)
  | .standardize, Y => do let m ← mean0 Y; let s ← stdev0 Y; .ok (m, s)
  | .unknown, _ => .error .runtimeError

/-- Whether `trans_response` is set. -/
def Prep.hasTrans : Prep → Bool
  | .none => false
  | .unknown => false
  | _ => true

/-- State of a trained single-response algorithm. -/
structure SingleModel (α M : Type) where
  mean : α
  sd : α
  hasTrans : Bool
  base : M

/-- `do_initialize`, `_AbstractSingleResponsePLS.py` 60-88. -/
def singleTrain (isZero : α → Bool) (train : Mat α → Mat α → Except PyErr M) (prep : Prep) (X Y : Mat α) :
    Except PyErr (SingleModel α M) := do
  let st ← classStats prep Y
  let X ← prepApply isZero prep X
  let Y ← prepApply isZero prep Y
  let m ← train X Y
  .ok ⟨st.1, st.2, prep.hasTrans, m⟩

/-- One pass of the loop of `do_predict`, `_AbstractSingleResponsePLS.py` 99-100. -/
def denormStep (mean sd : α) (i : Int) (R : Mat α) : Except PyErr (Mat α) := do
  let v ← R.get i 0
  R.set i 0 (v * sd + mean)

/-- `do_predict`, `_AbstractSingleResponsePLS.py` 90-102. -/
def singlePredict (predict : M → Mat α → Except PyErr (Mat α)) (m : SingleModel α M) (Z : Mat α) :
    Except PyErr (Mat α) := do
  let R ← predict m.base Z
  if m.hasTrans then loopM (denormStep m.mean m.sd) (pyRange 0 R.rows) R else .ok R

/-! ## Multi-response -/

/-- State of a trained multi-response algorithm. -/
structure MultiModel (α M : Type) where
  means : List α
  sds : List α
  hasTrans : Bool
  base : M

/-- The lists `class_mean` and `class_std_dev`, `_AbstractMultiResponsePLS.py` 97-116: the same statistic
of response column `0` is computed for every `i`. -/
def multiStats (prep : Prep) (Y : Mat α) : List Int → Except PyErr (List (α × α))
  | [] => .ok []
  | _ :: is => do
    let a ← classStats prep Y
    let l ← multiStats prep Y is
    .ok (a :: l)

/-- `do_initialize`, `_AbstractMultiResponsePLS.py` 89-127 (for a response with at least one column, as
`check` demands). -/
def multiTrain (isZero : α → Bool) (train : Mat α → Mat α → Except PyErr M) (prep : Prep) (X Y : Mat α) :
    Except PyErr (MultiModel α M) := do
  let st ← multiStats prep Y (pyRange 0 Y.cols)
  let X ← prepApply isZero prep X
  let Y ← prepApply isZero prep Y
  let m ← train X Y
  .ok ⟨st.map Prod.fst, st.map Prod.snd, prep.hasTrans, m⟩

/-- The assignment of `do_predict`, `_AbstractMultiResponsePLS.py` 140. -/
def multiDenormCell (means sds : List α) (i j : Int) (R : Mat α) : Except PyErr (Mat α) := do
  let v ← R.get i j
  let s ← Utils.item sds j
  let m ← Utils.item means j
  R.set i j (v * s + m)

/-- `do_predict`, `_AbstractMultiResponsePLS.py` 129-142. -/
def multiPredict (predict : M → Mat α → Except PyErr (Mat α)) (m : MultiModel α M) (Z : Mat α) :
    Except PyErr (Mat α) := do
  let R ← predict m.base Z
  if m.hasTrans then
    loopM (fun i R => loopM (fun j R => multiDenormCell m.means m.sds i j R) (pyRange 0 R.cols) R)
      (pyRange 0 R.rows) R
  else .ok R

end

/-! ## Lemmas over the reals -/

section real
variable {n p q r : Nat}

/-- Centred data. -/
noncomputable def cen (A : Matrix (Fin n) (Fin p) ℝ) (B : Matrix (Fin r) (Fin p) ℝ) : Matrix (Fin r) (Fin p) ℝ :=
  Matrix.of fun i j => B i j - mu fun k => A k j

/-- The divisor `Standardize` uses for column `j`. -/
noncomputable def divisor (A : Matrix (Fin n) (Fin p) ℝ) (j : Fin p) : ℝ :=
  if j.1 = 0 ∧ sd (fun k => A k j) = 0 then 1 else sd fun k => A k j

/-- Standardised data. -/
noncomputable def std (A : Matrix (Fin n) (Fin p) ℝ) (B : Matrix (Fin r) (Fin p) ℝ) : Matrix (Fin r) (Fin p) ℝ :=
  Matrix.of fun i j => (B i j - mu fun k => A k j) / divisor A j

theorem fitTransform_center (A : Matrix (Fin n) (Fin p) ℝ) :
    fitTransform center (of A) = .ok (of (cen A A)) := by
  show subByVector (of A) (of A).columnMeans = _
  rw [columnMeans_of]
  exact vectorOp_row _ _ _

theorem fitTransform_standardize (A : Matrix (Fin n) (Fin (p + 1)) ℝ) (isZero : ℝ → Bool)
    (hz : ∀ x, isZero x = true ↔ x = 0) :
    fitTransform (standardize isZero) (of A) = .ok (of (std A A)) := by
  have hg : guardStds isZero (of A).columnStdevs = .ok (of (Matrix.of fun (_ : Fin 1) j => divisor A j)) := by
    rw [columnStdevs_of, guardStds_row]
    congr 1
    refine mk_congr fun i j => ?_
    show (if j = 0 ∧ isZero (sd fun k => A k 0) = true then (1 : ℝ) else sd fun k => A k j) =
      if j.1 = 0 ∧ sd (fun k => A k j) = 0 then 1 else sd fun k => A k j
    by_cases h0 : j = 0
    · subst h0
      by_cases h : sd (fun k => A k 0) = 0
      · exact (if_pos ⟨rfl, (hz _).2 h⟩).trans (if_pos ⟨rfl, h⟩).symm
      · exact (if_neg fun hh => h ((hz _).1 hh.2)).trans (if_neg fun hh => h hh.2).symm
    · exact (if_neg fun hh => h0 hh.1).trans (if_neg fun hh => h0 (Fin.ext hh.1)).symm
  have hc : (standardize isZero).configure (of A) (standardize isZero).init =
      (⟨true, some (of A).columnMeans, some (of (Matrix.of fun (_ : Fin 1) j => divisor A j))⟩, .ok ()) := by
    simp only [standardize, hg]
  unfold fitTransform
  rw [hc]
  show (do let r ← subByVector (of A) (of A).columnMeans; r.divByVector _) = _
  rw [columnMeans_of]
  unfold subByVector divByVector
  rw [vectorOp_row, except_bind_ok, vectorOp_row]
  rfl

theorem denorm_loop (R : Matrix (Fin r) (Fin 1) ℝ) (m s : ℝ) :
    loopM (denormStep m s) (pyRange 0 (r : Int)) (of R) =
      .ok (of (Matrix.of fun i j => R i j * s + m)) := by
  have h := loopM_range (denormStep m s)
    (fun k => of (Matrix.of fun (i : Fin r) (j : Fin 1) => if i.1 < k then R i j * s + m else R i j)) r ?_
  · have e0 : (Matrix.of fun (i : Fin r) (j : Fin 1) => if i.1 < 0 then R i j * s + m else R i j) = R := by
      ext i j; simp
    have e1 : (Matrix.of fun (i : Fin r) (j : Fin 1) => if i.1 < r then R i j * s + m else R i j) =
        Matrix.of fun i j => R i j * s + m := by
      ext i j; simp
    rwa [e0, e1] at h
  · intro k hk
    unfold denormStep
    have hg := get_of_col (Matrix.of fun (i : Fin r) (j : Fin 1) => if i.1 < k then R i j * s + m else R i j) ⟨k, hk⟩
    have hs := fun v => set_of (Matrix.of fun (i : Fin r) (j : Fin 1) => if i.1 < k then R i j * s + m else R i j)
      ⟨k, hk⟩ (0 : Fin 1) v
    simp only [] at hg hs
    rw [hg]
    refine (hs _).trans ?_
    congr 1
    refine mk_congr fun i j => ?_
    simp only [Matrix.of_apply]
    rw [Subsingleton.elim j 0]
    by_cases hi : i = ⟨k, hk⟩
    · subst hi
      rw [if_pos ⟨rfl, rfl⟩, if_pos (Nat.lt_succ_self k), if_neg (Nat.lt_irrefl k)]
    · have hi' : i.1 ≠ k := fun h => hi (Fin.ext h)
      rw [if_neg fun h => hi h.1]
      by_cases h1 : i.1 < k
      · rw [if_pos h1, if_pos (by omega)]
      · rw [if_neg h1, if_neg (by omega)]

theorem mean0_of (Y : Matrix (Fin n) (Fin (q + 1)) ℝ) : mean0 (of Y) = .ok (mu fun k => Y k 0) := by
  unfold mean0
  rw [columnMeans_of]
  exact get_of_row _ (0 : Fin (q + 1))

theorem stdev0_of (Y : Matrix (Fin n) (Fin (q + 1)) ℝ) : stdev0 (of Y) = .ok (sd fun k => Y k 0) := by
  unfold stdev0
  rw [columnStdevs_of]
  exact get_of_row _ (0 : Fin (q + 1))

theorem classStats_center (Y : Matrix (Fin n) (Fin (q + 1)) ℝ) :
    classStats .center (of Y) = .ok (mu fun k => Y k 0, 1) := by
  rw [classStats, mean0_of]
  rfl

theorem classStats_standardize (Y : Matrix (Fin n) (Fin (q + 1)) ℝ) :
    classStats .standardize (of Y) = .ok (mu fun k => Y k 0, sd fun k => Y k 0) := by
  rw [classStats, mean0_of, stdev0_of]
  rfl

theorem prepApply_center (isZero : ℝ → Bool) (A : Matrix (Fin n) (Fin p) ℝ) :
    prepApply isZero .center (of A) = .ok (of (cen A A)) := fitTransform_center A

theorem prepApply_standardize (isZero : ℝ → Bool) (hz : ∀ x, isZero x = true ↔ x = 0)
    (A : Matrix (Fin n) (Fin (p + 1)) ℝ) :
    prepApply isZero .standardize (of A) = .ok (of (std A A)) := fitTransform_standardize A isZero hz

/-! ### Multi-response lemmas -/

theorem multiStats_eq (prep : Prep) (Y : Mat ℝ) (a : ℝ × ℝ) (h : classStats prep Y = .ok a) (is : List Int) :
    multiStats prep Y is = .ok (is.map fun _ => a) := by
  induction is with
  | nil => rfl
  | cons i is ih => rw [multiStats, h, ih]; rfl

theorem multiCell_eq (R : Matrix (Fin r) (Fin q) ℝ) (means sds : Fin q → ℝ) (i : Fin r) (j : Fin q) :
    multiDenormCell (List.ofFn means) (List.ofFn sds) ((i : Nat) : Int) ((j : Nat) : Int) (of R) =
      .ok (of (Matrix.of fun a b => if a = i ∧ b = j then R i j * sds j + means j else R a b)) := by
  unfold multiDenormCell
  have h1 : Utils.item (List.ofFn means) ((j : Nat) : Int) = .ok (means j) := by
    rw [Utils.item_ok (by simp [j.2])]
    simp
  have h2 : Utils.item (List.ofFn sds) ((j : Nat) : Int) = .ok (sds j) := by
    rw [Utils.item_ok (by simp [j.2])]
    simp
  rw [get_of, h1, h2]
  exact set_of _ _ _ _

theorem multi_row (R : Matrix (Fin r) (Fin q) ℝ) (means sds : Fin q → ℝ) (i : Fin r) :
    loopM (fun j R => multiDenormCell (List.ofFn means) (List.ofFn sds) ((i : Nat) : Int) j R)
      (pyRange 0 (q : Int)) (of R) =
      .ok (of (Matrix.of fun a b => if a = i then R a b * sds b + means b else R a b)) := by
  have h := loopM_range (fun j R => multiDenormCell (List.ofFn means) (List.ofFn sds) ((i : Nat) : Int) j R)
    (fun k => of (Matrix.of fun (a : Fin r) (b : Fin q) =>
      if a = i ∧ b.1 < k then R a b * sds b + means b else R a b)) q ?_
  · have e0 : (Matrix.of fun (a : Fin r) (b : Fin q) =>
        if a = i ∧ b.1 < 0 then R a b * sds b + means b else R a b) = R := by
      ext a b; simp
    have e1 : (Matrix.of fun (a : Fin r) (b : Fin q) =>
        if a = i ∧ b.1 < q then R a b * sds b + means b else R a b) =
        Matrix.of fun a b => if a = i then R a b * sds b + means b else R a b := by
      ext a b; simp
    rwa [e0, e1] at h
  · intro k hk
    have := multiCell_eq (Matrix.of fun (a : Fin r) (b : Fin q) =>
      if a = i ∧ b.1 < k then R a b * sds b + means b else R a b) means sds i ⟨k, hk⟩
    refine this.trans ?_
    congr 1
    refine mk_congr fun a b => ?_
    simp only [Matrix.of_apply]
    by_cases ha : a = i
    · subst ha
      by_cases hb : b = ⟨k, hk⟩
      · subst hb
        simp
      · have hb' : b.1 ≠ k := fun h => hb (Fin.ext h)
        rw [if_neg fun h => hb h.2]
        by_cases h1 : b.1 < k
        · rw [if_pos ⟨rfl, h1⟩, if_pos ⟨rfl, by omega⟩]
        · rw [if_neg fun h => h1 h.2, if_neg fun h => by omega]
    · rw [if_neg fun h => ha h.1, if_neg fun h => ha h.1, if_neg fun h => ha h.1]

theorem multi_loop (R : Matrix (Fin r) (Fin q) ℝ) (means sds : Fin q → ℝ) :
    loopM (fun i R => loopM (fun j R => multiDenormCell (List.ofFn means) (List.ofFn sds) i j R)
      (pyRange 0 R.cols) R) (pyRange 0 (r : Int)) (of R) =
      .ok (of (Matrix.of fun a b => R a b * sds b + means b)) := by
  have h := loopM_range (fun i R => loopM (fun j R => multiDenormCell (List.ofFn means) (List.ofFn sds) i j R)
      (pyRange 0 R.cols) R)
    (fun k => of (Matrix.of fun (a : Fin r) (b : Fin q) =>
      if a.1 < k then R a b * sds b + means b else R a b)) r ?_
  · have e0 : (Matrix.of fun (a : Fin r) (b : Fin q) =>
        if a.1 < 0 then R a b * sds b + means b else R a b) = R := by
      ext a b; simp
    have e1 : (Matrix.of fun (a : Fin r) (b : Fin q) =>
        if a.1 < r then R a b * sds b + means b else R a b) =
        Matrix.of fun a b => R a b * sds b + means b := by
      ext a b; simp
    rwa [e0, e1] at h
  · intro k hk
    have := multi_row (Matrix.of fun (a : Fin r) (b : Fin q) =>
      if a.1 < k then R a b * sds b + means b else R a b) means sds ⟨k, hk⟩
    refine this.trans ?_
    congr 1
    refine mk_congr fun a b => ?_
    simp only [Matrix.of_apply]
    by_cases ha : a = ⟨k, hk⟩
    · subst ha
      simp
    · have ha' : a.1 ≠ k := fun h => ha (Fin.ext h)
      rw [if_neg ha]
      by_cases h1 : a.1 < k
      · rw [if_pos h1, if_pos (by omega)]
      · rw [if_neg h1, if_neg (by omega)]

end real

end Verif
