import Verif.Alg.SimplsPls1
import Verif.Alg.Preproc

/-!
# NIPALS and CCARegression

`src/wai/ma/algorithm/pls/_NIPALS.py`, `_CCARegression.py`.  The comparison `<`, the (least-squares) inverse and
the pseudo-inverse are parameters.
-/

namespace Verif

open Mat Transf

variable {α : Type}

/-! ## The code -/

/-- `DeflationMode`, `_NIPALS.py` 294-299; the attribute is not validated, any other object is possible. -/
inductive Defl where
  | canonical | regression | other
  deriving DecidableEq

/-- Options and external routines. -/
structure NipalsCfg (α : Type) where
  K : Int
  tol : α
  maxIter : Int
  normY : Bool
  /-- `get_weight_calculation_mode() is CCA` (`CCARegression`). -/
  cca : Bool
  defl : Defl
  lt : α → α → Bool
  isZero : α → Bool
  inv : Mat α → Except PyErr (Mat α)
  pinv : Mat α → Except PyErr (Mat α)

section code
variable [Add α] [Sub α] [Mul α] [Zero α] [One α] [Div α] [NatCast α] [HasSqrt α]

/-- `real(1e-16)`, `_NIPALS.py` 175. -/
def e16 : α := 1 / ((10 ^ 16 : Nat) : α)
/-- `real(1e-10)`, `_NIPALS.py` 110. -/
def e10 : α := 1 / ((10 ^ 10 : Nat) : α)

/-- X weights, `_NIPALS.py` 181-187. -/
def nipalsXWeight (c : NipalsCfg α) (X u : Mat α) : Except PyErr (Mat α) :=
  if c.cca then do
    let i ← c.inv X
    i.mul u
  else do
    let w ← X.transpose.mul u
    .ok (w.div u.norm2Squared)

/-- Y weights, `_NIPALS.py` 199-207. -/
def nipalsYWeight (c : NipalsCfg α) (Y t : Mat α) : Except PyErr (Mat α) :=
  if c.cca then do
    let i ← c.inv Y
    i.mul t
  else do
    let v ← Y.transpose.mul t
    .ok (v.div t.norm2Squared)

/-- One pass of the inner loop, `_NIPALS.py` 180-214; `u` is `y_score`, which no pass changes.  The cached inverses
do not change either.  The product for `Y_score` is formed but not used. -/
def nipalsPass (c : NipalsCfg α) (X Y u : Mat α) : Except PyErr (Mat α × Mat α) := do
  let w ← nipalsXWeight c X u
  let w := if c.lt w.norm2Squared e16 then w.addScalar e16 else w
  let w := w.div (w.norm2 + e16)
  let t ← X.mul w
  let v ← nipalsYWeight c Y t
  let v := if c.normY then v.div (v.norm2 + e16) else v
  let _ ← Y.mul v
  .ok (w, v)

/-- The `while True` loop, `_NIPALS.py` 179-226: weights and number of iterations. -/
def nipalsIter (c : NipalsCfg α) (X Y u : Mat α) (iter : Int) (wOld : Mat α) :
    Except PyErr (Mat α × Mat α × Int) := do
  let r ← nipalsPass c X Y u
  let d ← r.1.sub wOld
  if c.lt d.norm2Squared c.tol || Y.cols == 1 then .ok (r.1, r.2, iter)
  else if h : iter ≥ c.maxIter then .ok (r.1, r.2, iter)
  else nipalsIter c X Y u (iter + 1) r.1
termination_by (c.maxIter - iter).toNat

/-- `nipals_loop`, `_NIPALS.py` 160-228. -/
def nipalsLoop (c : NipalsCfg α) (X Y : Mat α) : Except PyErr (Mat α × Mat α × Int) := do
  let u ← Y.getColumn 0
  let w0 ← Factory.zeros (X.cols : Int) 1
  nipalsIter c X Y u 0 w0

/-- Variables of the training loop. -/
structure NipalsVars (α : Type) where
  X : Mat α
  Y : Mat α
  T : Mat α
  U : Mat α
  W : Mat α
  C : Mat α
  P : Mat α
  Q : Mat α
  yk : Mat α
  stop : Bool

/-- Deflation of `Y`, `_NIPALS.py` 134-140: new `Y` and `yk_loading`. -/
def deflateY (c : NipalsCfg α) (Y t u yk : Mat α) : Except PyErr (Mat α × Mat α) :=
  match c.defl with
  | .canonical => do
    let l ← Y.transpose.mul u
    let l := l.div u.norm2Squared
    let d ← u.mul l.transpose
    let Y ← Y.sub d
    .ok (Y, l)
  | .regression => do
    let l ← Y.transpose.mul t
    let l := l.div t.norm2Squared
    let d ← t.mul l.transpose
    let Y ← Y.sub d
    .ok (Y, l)
  | .other => .ok (Y, yk)

/-- One component, `_NIPALS.py` 112-148; after `break` (`stop`) nothing happens. -/
def nipalsStep (c : NipalsCfg α) (k : Int) (s : NipalsVars α) : Except PyErr (NipalsVars α) :=
  if s.stop then .ok s else do
    let yty ← s.Y.transpose.mul s.Y
    if yty.all (fun e => c.lt e e10) then .ok { s with stop := true } else do
      let r ← nipalsLoop c s.X s.Y
      let t ← s.X.mul r.1
      let u ← s.Y.mul r.2.1
      let u := u.div r.2.1.norm2Squared
      if c.lt t.norm2Squared e10 then .ok { s with stop := true } else do
        let p ← s.X.transpose.mul t
        let p := p.div t.norm2Squared
        let tp ← t.mul p.transpose
        let X ← s.X.sub tp
        let d ← deflateY c s.Y t u s.yk
        let T ← s.T.setColumn k t
        let U ← s.U.setColumn k u
        let W ← s.W.setColumn k r.1
        let C ← s.C.setColumn k r.2.1
        let P ← s.P.setColumn k p
        let Q ← s.Q.setColumn k d.2
        .ok ⟨X, d.1, T, U, W, C, P, Q, d.2, false⟩

/-- Initial values, `_NIPALS.py` 93-108. -/
def nipalsInit (c : NipalsCfg α) (X Y : Mat α) : Except PyErr (NipalsVars α) := do
  let T ← Factory.zeros (X.rows : Int) c.K
  let U ← Factory.zeros (X.rows : Int) c.K
  let W ← Factory.zeros (X.cols : Int) c.K
  let C ← Factory.zeros (Y.cols : Int) c.K
  let P ← Factory.zeros (X.cols : Int) c.K
  let Q ← Factory.zeros (Y.cols : Int) c.K
  let yk ← Factory.zeros (Y.cols : Int) 1
  .ok ⟨X, Y, T, U, W, C, P, Q, yk, false⟩

/-- Attributes set by training. -/
structure NipalsModel (α : Type) where
  stdX : StatState α
  stdY : StatState α
  vars : NipalsVars α
  xRot : Mat α
  yRot : Mat α
  coef : Mat α

/-- `W * pinv(P^T W)`, `_NIPALS.py` 151 and 153. -/
def nipalsRot (c : NipalsCfg α) (W P : Mat α) : Except PyErr (Mat α) := do
  let pw ← P.transpose.mul W
  let g ← c.pinv pw
  W.mul g

/-- `Y_rotations`, `_NIPALS.py` 152-155. -/
def nipalsYRot (c : NipalsCfg α) (s : NipalsVars α) : Except PyErr (Mat α) :=
  if s.Y.cols > 1 then nipalsRot c s.C s.Q else .ok ⟨1, 1, Matrix.of fun _ _ => 1⟩

/-- `do_perform_initialization`, `_NIPALS.py` 85-158 (the standardisers are fresh, `reset` 268-269). -/
def nipalsTrain (c : NipalsCfg α) (X Y : Mat α) : Except PyErr (NipalsModel α) := do
  let sx := transform (standardize c.isZero) X (standardize c.isZero).init
  let X ← sx.2
  let sy := transform (standardize c.isZero) Y (standardize c.isZero).init
  let Y ← sy.2
  let s ← nipalsInit c X Y
  let s ← loopM (nipalsStep c) (pyRange 0 c.K) s
  let xRot ← nipalsRot c s.W s.P
  let yRot ← nipalsYRot c s
  let b ← xRot.mul s.Q.transpose
  match sy.1.stds with
  | none => .error .attributeError
  | some d => do
    let coef ← b.scaleByRowVector d
    .ok ⟨sx.1, sy.1, s, xRot, yRot, coef⟩

/-- `do_perform_predictions`, `_NIPALS.py` 230-235. -/
def nipalsPredict (c : NipalsCfg α) (m : NipalsModel α) (Z : Mat α) : Except PyErr (Mat α) := do
  let Z ← (transform (standardize c.isZero) Z m.stdX).2
  match m.stdY.means with
  | none => .error .attributeError
  | some mean => do
    let r ← Z.mul m.coef
    r.addByVector mean

/-- `do_transform`, `_NIPALS.py` 237-242. -/
def nipalsTransform (c : NipalsCfg α) (m : NipalsModel α) (Z : Mat α) : Except PyErr (Mat α) := do
  let Z ← (transform (standardize c.isZero) Z m.stdX).2
  Z.mul m.xRot

/-- `do_transform_response`, `_NIPALS.py` 244-249. -/
def nipalsTransformResponse (c : NipalsCfg α) (m : NipalsModel α) (Y : Mat α) : Except PyErr (Mat α) := do
  let Y ← (transform (standardize c.isZero) Y m.stdY).2
  Y.mul m.yRot

end code

/-! ## Standardising -/

section standardise
variable {n p r : Nat}

/-- State of a standardiser fitted to `A`. -/
noncomputable def stdState (A : Matrix (Fin n) (Fin p) ℝ) : StatState ℝ :=
  ⟨true, some (of (Matrix.of fun (_ : Fin 1) j => mu fun k => A k j)),
    some (of (Matrix.of fun (_ : Fin 1) j => divisor A j))⟩

theorem std_do (isZero : ℝ → Bool) (A : Matrix (Fin n) (Fin p) ℝ) (B : Matrix (Fin r) (Fin p) ℝ) :
    (transform (standardize isZero) (of B) (stdState A)).2 = .ok (of (std A B)) := by
  show (do let r ← subByVector (of B) _; r.divByVector _) = _
  unfold subByVector divByVector
  rw [vectorOp_row, except_bind_ok, vectorOp_row]
  rfl

theorem std_fit (isZero : ℝ → Bool) (hz : ∀ x, isZero x = true ↔ x = 0) (A : Matrix (Fin n) (Fin (p + 1)) ℝ) :
    transform (standardize isZero) (of A) (standardize isZero).init = (stdState A, .ok (of (std A A))) := by
  have hg : guardStds isZero (of A).columnStdevs = .ok (of (Matrix.of fun (_ : Fin 1) j => divisor A j)) := by
    rw [columnStdevs_of, guardStds_row]
    congr 1
    refine mk_congr fun i j => ?_
    show (if j = 0 ∧ isZero (sd fun k => A k 0) = true then (1 : ℝ) else sd fun k => A k j) =
      if j.1 = 0 ∧ sd (fun k => A k j) = 0 then 1 else sd fun k => A k j
    by_cases h0 : j = 0
    · subst h0
      by_cases h : sd (fun k => A k 0) = 0
      · exact (if_pos ⟨rfl, (hz _).2 h⟩).trans (if_pos ⟨rfl, h⟩).symm
      · exact (if_neg fun hh => h ((hz _).1 hh.2)).trans (if_neg fun hh => h hh.2).symm
    · exact (if_neg fun hh => h0 hh.1).trans (if_neg fun hh => h0 (Fin.ext hh.1)).symm
  have hc : (standardize isZero).configure (of A) (standardize isZero).init = (stdState A, .ok ()) := by
    simp only [standardize, hg]
    rw [columnMeans_of]
    rfl
  have hu : transform (standardize isZero) (of A) (standardize isZero).init =
      (stdState A, (transform (standardize isZero) (of A) (stdState A)).2) := by
    unfold transform
    rw [hc]
    rfl
  rw [hu, std_do]

end standardise

/-! ## The inner loop -/

open scoped Matrix

section inner

theorem norm2_col {p : Nat} (v : Matrix (Fin p) (Fin 1) ℝ) : (of v).norm2 = Real.sqrt (sq1 v) := by
  have hs : (of v).sumSq = sq1 v := by
    unfold sumSq
    simp only [sumFin_eq, sq1]
    refine Finset.sum_congr rfl fun i _ => ?_
    exact Fin.sum_univ_one fun j => v i j * v i j
  unfold norm2
  rw [hs]
  exact if_pos (by simp [isVector])

theorem norm2Squared_col {p : Nat} (v : Matrix (Fin p) (Fin 1) ℝ) : (of v).norm2Squared = sq1 v := by
  unfold norm2Squared
  rw [norm2_col, Real.mul_self_sqrt (sq1_nonneg v)]

variable {n p q : Nat}

/-- The `eps` guard of the weights. -/
noncomputable def bump (w : Matrix (Fin p) (Fin 1) ℝ) : Matrix (Fin p) (Fin 1) ℝ :=
  if sq1 w < e16 then Matrix.of fun i j => w i j + e16 else w

/-- Division by the length plus `eps`. -/
noncomputable def shrink (w : Matrix (Fin p) (Fin 1) ℝ) : Matrix (Fin p) (Fin 1) ℝ :=
  (Real.sqrt (sq1 w) + e16)⁻¹ • w

/-- X weights for the scores `u`. -/
noncomputable def xwF (X : Matrix (Fin n) (Fin p) ℝ) (u : Matrix (Fin n) (Fin 1) ℝ) : Matrix (Fin p) (Fin 1) ℝ :=
  shrink (bump ((sq1 u)⁻¹ • (Xᵀ * u)))

/-- Y weights for the scores `t`. -/
noncomputable def ywF (normY : Bool) (Y : Matrix (Fin n) (Fin q) ℝ) (t : Matrix (Fin n) (Fin 1) ℝ) :
    Matrix (Fin q) (Fin 1) ℝ :=
  if normY then shrink ((sq1 t)⁻¹ • (Yᵀ * t)) else (sq1 t)⁻¹ • (Yᵀ * t)

/-- The configuration over the reals. -/
structure NipalsReal (c : NipalsCfg ℝ) : Prop where
  lt : ∀ a b, c.lt a b = decide (a < b)
  zero : ∀ x, c.isZero x = true ↔ x = 0

theorem div_col (w : Matrix (Fin p) (Fin 1) ℝ) (s : ℝ) : (of w).div s = of (s⁻¹ • w) := by
  rw [div_of]
  refine congrArg of ?_
  ext i j
  simp [div_eq_inv_mul]

theorem nipalsPass_eq {c : NipalsCfg ℝ} (hc : NipalsReal c) (hp : c.cca = false) (X : Matrix (Fin n) (Fin p) ℝ)
    (Y : Matrix (Fin n) (Fin q) ℝ) (u : Matrix (Fin n) (Fin 1) ℝ) :
    nipalsPass c (of X) (of Y) (of u) = .ok (of (xwF X u), of (ywF c.normY Y (X * xwF X u))) := by
  unfold nipalsPass nipalsXWeight nipalsYWeight
  rw [hp]
  simp only [Bool.false_eq_true, if_false, transpose_of, mul_of, except_bind_ok, norm2Squared_col, div_col]
  have hb : (if c.lt (sq1 ((sq1 u)⁻¹ • (Xᵀ * u))) e16 = true then (of ((sq1 u)⁻¹ • (Xᵀ * u))).addScalar e16
      else of ((sq1 u)⁻¹ • (Xᵀ * u))) = of (bump ((sq1 u)⁻¹ • (Xᵀ * u))) := by
    rw [hc.lt, bump]
    by_cases h : sq1 ((sq1 u)⁻¹ • (Xᵀ * u)) < e16
    · rw [if_pos h, if_pos (by simpa using h)]
      rfl
    · rw [if_neg h, if_neg (by simpa using h)]
  rw [hb]
  simp only [norm2_col, div_col, mul_of, except_bind_ok, norm2Squared_col]
  rw [show (√(sq1 (bump ((sq1 u)⁻¹ • (Xᵀ * u)))) + e16)⁻¹ • bump ((sq1 u)⁻¹ • (Xᵀ * u)) = xwF X u from rfl]
  cases hn : c.normY with
  | true =>
    simp only [if_true, mul_of, except_bind_ok]
    rfl
  | false =>
    simp only [Bool.false_eq_true, if_false, mul_of, except_bind_ok]
    rfl

/-- Number of iterations counted by the inner loop, entered with the old weights `w0`. -/
noncomputable def iterCount (tol : ℝ) (maxIter iter : Int) (q : Nat) (w w0 : Matrix (Fin p) (Fin 1) ℝ) : Int :=
  if sq1 (w - w0) < tol ∨ q = 1 ∨ iter ≥ maxIter then iter else if 0 < tol then iter + 1 else maxIter

theorem nipalsIter_eq {c : NipalsCfg ℝ} (hc : NipalsReal c) (hp : c.cca = false) (X : Matrix (Fin n) (Fin p) ℝ)
    (Y : Matrix (Fin n) (Fin q) ℝ) (u : Matrix (Fin n) (Fin 1) ℝ) (iter : Int) (w0 : Matrix (Fin p) (Fin 1) ℝ) :
    nipalsIter c (of X) (of Y) (of u) iter (of w0) =
      .ok (of (xwF X u), of (ywF c.normY Y (X * xwF X u)), iterCount c.tol c.maxIter iter q (xwF X u) w0) := by
  obtain ⟨d, hd⟩ : ∃ d : Nat, d = (c.maxIter - iter).toNat := ⟨_, rfl⟩
  induction d generalizing iter w0 with
  | zero =>
    rw [nipalsIter, nipalsPass_eq hc hp]
    simp only [except_bind_ok, sub_of, norm2Squared_col, hc.lt]
    have hge : iter ≥ c.maxIter := by omega
    have : iterCount c.tol c.maxIter iter q (xwF X u) w0 = iter := if_pos (Or.inr (Or.inr hge))
    rw [this, dif_pos hge, ite_self]
  | succ d ih =>
    rw [nipalsIter, nipalsPass_eq hc hp]
    simp only [except_bind_ok, sub_of, norm2Squared_col, hc.lt]
    have hge : ¬ iter ≥ c.maxIter := by omega
    by_cases h1 : (decide (sq1 (xwF X u - w0) < c.tol) || (of Y).cols == 1) = true
    · have h2 : sq1 (xwF X u - w0) < c.tol ∨ q = 1 := by
        simpa [of_cols] using h1
      have : iterCount c.tol c.maxIter iter q (xwF X u) w0 = iter := if_pos (by tauto)
      rw [if_pos h1, this]
    · have h2 : ¬ (sq1 (xwF X u - w0) < c.tol ∨ q = 1) := by
        simpa [of_cols] using h1
      rw [if_neg h1, dif_neg hge, ih (iter + 1) (xwF X u) (by omega)]
      have hz : sq1 (xwF X u - xwF X u) = 0 := by rw [sub_self, sq1_eq_zero]
      have e1 : iterCount c.tol c.maxIter iter q (xwF X u) w0 = if 0 < c.tol then iter + 1 else c.maxIter :=
        if_neg (by tauto)
      have e2 : iterCount c.tol c.maxIter (iter + 1) q (xwF X u) (xwF X u) =
          if 0 < c.tol then iter + 1 else c.maxIter := by
        unfold iterCount
        rw [hz]
        by_cases ht : 0 < c.tol
        · rw [if_pos (Or.inl ht), if_pos ht]
        · by_cases hm : iter + 1 ≥ c.maxIter
          · rw [if_pos (Or.inr (Or.inr hm)), if_neg ht]
            omega
          · rw [if_neg (by tauto), if_neg ht, if_neg ht]
      rw [e1, e2]

/-- First column. -/
def col0 (Y : Matrix (Fin n) (Fin (q + 1)) ℝ) : Matrix (Fin n) (Fin 1) ℝ := Matrix.of fun i _ => Y i 0

theorem nipalsLoop_eq {c : NipalsCfg ℝ} (hc : NipalsReal c) (hcca : c.cca = false) (hp : 0 < p)
    (X : Matrix (Fin n) (Fin p) ℝ) (Y : Matrix (Fin n) (Fin (q + 1)) ℝ) :
    nipalsLoop c (of X) (of Y) = .ok (of (xwF X (col0 Y)), of (ywF c.normY Y (X * xwF X (col0 Y))),
      iterCount c.tol c.maxIter 0 (q + 1) (xwF X (col0 Y)) 0) := by
  unfold nipalsLoop
  have hg : (of Y).getColumn 0 = .ok (of (col0 Y)) := getColumn_of Y 0
  rw [hg, show Factory.zeros (α := ℝ) ((of X).cols : Int) 1 = .ok (of (0 : Matrix (Fin p) (Fin 1) ℝ)) from
    Factory.zeros_nat hp 1]
  simp only [except_bind_ok]
  exact nipalsIter_eq hc hcca X Y (col0 Y) 0 0

end inner

/-! ## The training loop -/

section train
variable {n p q K : Nat}

/-- All matrices have the expected shapes. -/
def NipTyped (n p q K : Nat) (s : NipalsVars ℝ) : Prop :=
  ∃ (X : Matrix (Fin n) (Fin p) ℝ) (Y : Matrix (Fin n) (Fin q) ℝ) (T U : Matrix (Fin n) (Fin K) ℝ)
    (W : Matrix (Fin p) (Fin K) ℝ) (C : Matrix (Fin q) (Fin K) ℝ) (P : Matrix (Fin p) (Fin K) ℝ)
    (Q : Matrix (Fin q) (Fin K) ℝ) (yk : Matrix (Fin q) (Fin 1) ℝ) (b : Bool),
    s = ⟨of X, of Y, of T, of U, of W, of C, of P, of Q, of yk, b⟩

theorem deflateY_typed (c : NipalsCfg ℝ) (Y : Matrix (Fin n) (Fin q) ℝ) (t u : Matrix (Fin n) (Fin 1) ℝ)
    (yk : Matrix (Fin q) (Fin 1) ℝ) : ∃ (Y' : Matrix (Fin n) (Fin q) ℝ) (l : Matrix (Fin q) (Fin 1) ℝ),
    deflateY c (of Y) (of t) (of u) (of yk) = .ok (of Y', of l) := by
  unfold deflateY
  cases c.defl with
  | canonical =>
    simp only [transpose_of, mul_of, except_bind_ok, div_col, sub_of]
    exact ⟨_, _, rfl⟩
  | regression =>
    simp only [transpose_of, mul_of, except_bind_ok, div_col, sub_of]
    exact ⟨_, _, rfl⟩
  | other => exact ⟨_, _, rfl⟩

theorem setColumn_typed {m K : Nat} (A : Matrix (Fin m) (Fin K) ℝ) (k : Nat) (hk : k < K)
    (v : Matrix (Fin m) (Fin 1) ℝ) : ∃ B : Matrix (Fin m) (Fin K) ℝ, (of A).setColumn (k : Int) (of v) = .ok (of B) :=
  ⟨_, setColumn_of A ⟨k, hk⟩ v⟩

theorem nipalsStep_typed {c : NipalsCfg ℝ} (hc : NipalsReal c) (hcca : c.cca = false) (hp : 0 < p) (k : Nat)
    (hk : k < K) (s : NipalsVars ℝ) (hs : NipTyped n p (q + 1) K s) :
    ∃ s', nipalsStep c (k : Int) s = .ok s' ∧ NipTyped n p (q + 1) K s' := by
  obtain ⟨X, Y, T, U, W, C, P, Q, yk, b, rfl⟩ := hs
  unfold nipalsStep
  simp only []
  cases b with
  | true => exact ⟨_, rfl, X, Y, T, U, W, C, P, Q, yk, true, rfl⟩
  | false =>
    simp only [Bool.false_eq_true, if_false, transpose_of, mul_of, except_bind_ok]
    split
    · exact ⟨_, rfl, X, Y, T, U, W, C, P, Q, yk, true, rfl⟩
    · rw [nipalsLoop_eq hc hcca hp]
      simp only [except_bind_ok, mul_of, norm2Squared_col, div_col]
      split
      · exact ⟨_, rfl, X, Y, T, U, W, C, P, Q, yk, true, rfl⟩
      · simp only [transpose_of, mul_of, except_bind_ok, sub_of]
        obtain ⟨Y', l, h⟩ := deflateY_typed c Y (X * xwF X (col0 Y))
          ((sq1 (ywF c.normY Y (X * xwF X (col0 Y))))⁻¹ • (Y * ywF c.normY Y (X * xwF X (col0 Y)))) yk
        rw [h]
        simp only [except_bind_ok]
        obtain ⟨T', h1⟩ := setColumn_typed T k hk (X * xwF X (col0 Y))
        obtain ⟨U', h2⟩ := setColumn_typed U k hk
          ((sq1 (ywF c.normY Y (X * xwF X (col0 Y))))⁻¹ • (Y * ywF c.normY Y (X * xwF X (col0 Y))))
        obtain ⟨W', h3⟩ := setColumn_typed W k hk (xwF X (col0 Y))
        obtain ⟨C', h4⟩ := setColumn_typed C k hk (ywF c.normY Y (X * xwF X (col0 Y)))
        obtain ⟨P', h5⟩ := setColumn_typed P k hk
          ((sq1 (X * xwF X (col0 Y)))⁻¹ • (Xᵀ * (X * xwF X (col0 Y))))
        obtain ⟨Q', h6⟩ := setColumn_typed Q k hk l
        rw [h1, h2, h3, h4, h5, h6]
        exact ⟨_, rfl, _, Y', T', U', W', C', P', Q', l, false, rfl⟩

theorem nipalsInit_eq (c : NipalsCfg ℝ) (hK : c.K = (K : Int)) (hn : 0 < n) (hp : 0 < p) (hq : 0 < q)
    (X : Matrix (Fin n) (Fin p) ℝ) (Y : Matrix (Fin n) (Fin q) ℝ) :
    nipalsInit c (of X) (of Y) = .ok ⟨of X, of Y, of (0 : Matrix (Fin n) (Fin K) ℝ),
      of (0 : Matrix (Fin n) (Fin K) ℝ), of (0 : Matrix (Fin p) (Fin K) ℝ), of (0 : Matrix (Fin q) (Fin K) ℝ),
      of (0 : Matrix (Fin p) (Fin K) ℝ), of (0 : Matrix (Fin q) (Fin K) ℝ), of (0 : Matrix (Fin q) (Fin 1) ℝ),
      false⟩ := by
  unfold nipalsInit
  have h1 : Factory.zeros (α := ℝ) (q : Int) 1 = .ok (of (0 : Matrix (Fin q) (Fin 1) ℝ)) := Factory.zeros_nat hq 1
  simp only [hK, Factory.zeros_nat hn, Factory.zeros_nat hp, Factory.zeros_nat hq, h1,
    except_bind_ok]

/-- With at least two response columns the regression coefficients cannot be scaled. -/
theorem scale_row_error {m : Nat} (b : Mat ℝ) (d : Matrix (Fin 1) (Fin (m + 2)) ℝ) :
    b.scaleByRowVector (of d) = .error .valueError := by
  unfold scaleByRowVector mustBeColumnVector
  rw [isColumnVector_eq]
  rfl

end train

end Verif
