import Verif.Alg.NIPALS
import Verif.Transf.Kernel

/-!
# KernelPLS

`src/wai/ma/algorithm/pls/_KernelPLS.py`.  The kernel object, the random start vectors and the inverse are parameters.
-/

namespace Verif

open Mat Transf

variable {α σ : Type}

/-! ## The code -/

/-- Options, kernel object (its state is a `σ`) and external routines. -/
structure KplsCfg (α σ : Type) where
  K : Int
  tol : α
  maxIter : Int
  /-- `kernel.apply_matrix(X)`. -/
  kern1 : σ → Mat α → σ × Except PyErr (Mat α)
  /-- `kernel.apply_matrix(X, Y)`. -/
  kern2 : σ → Mat α → Mat α → σ × Except PyErr (Mat α)
  /-- `factory.randn(rows, 1, seed)`. -/
  start : Int → Int → Except PyErr (Mat α)
  lt : α → α → Bool
  inv : Mat α → Except PyErr (Mat α)

/-- Variables of the inner loop (`w` always equals `t`). -/
structure KplsInner (α : Type) where
  t : Mat α
  q : Mat α
  u : Mat α

/-- Variables of the training loop. -/
structure KplsVars (α : Type) where
  Kd : Mat α
  Y : Mat α
  T : Mat α
  U : Mat α
  P : Mat α
  Q : Mat α
  t : Mat α
  q : Mat α

/-- Attributes set by training. -/
structure KplsModel (α σ : Type) where
  kern : σ
  centerX : CenterState α
  centerY : CenterState α
  X : Mat α
  Korig : Mat α
  vars : KplsVars α
  B : Mat α

section code
variable [Add α] [Sub α] [Mul α] [Zero α] [One α] [Div α] [NatCast α] [HasSqrt α]

/-- One pass of the inner loop, `_KernelPLS.py` 117-126. -/
def kplsPass (Kd Y u : Mat α) : Except PyErr (KplsInner α) := do
  let t ← Kd.mul u
  let t ← t.normalized
  let q ← Y.transpose.mul t
  let u ← Y.mul q
  let u ← u.normalized
  .ok ⟨t, q, u⟩

/-- The inner loop, `_KernelPLS.py` 115-130. -/
def kplsInner (c : KplsCfg α σ) (Kd Y : Mat α) (iter : Int) (change : α) (s : KplsInner α) :
    Except PyErr (KplsInner α) :=
  if h : c.lt c.tol change = true ∧ iter < c.maxIter then do
    let r ← kplsPass Kd Y s.u
    let d ← r.u.sub s.u
    kplsInner c Kd Y (iter + 1) d.norm2 r
  else .ok s
termination_by (c.maxIter - iter).toNat

/-- Deflation of the kernel, `_KernelPLS.py` 133-136. -/
def kplsDeflate (Kd t : Mat α) : Except PyErr (Mat α) := do
  let I ← Factory.eye (α := α) (t.rows : Int) (t.rows : Int)
  let tt ← t.mul t.transpose
  let part ← I.sub tt
  let a ← part.mul Kd
  a.mul part

/-- Loadings, `_KernelPLS.py` 138. -/
def kplsLoad (Kd t : Mat α) : Except PyErr (Mat α) := do
  let a ← Kd.transpose.mul t
  let b ← t.transpose.mul t
  let b ← b.asReal
  .ok (a.div b)

/-- One component, `_KernelPLS.py` 107-144.  `real(self.tol * 10)` is the first value of the change. -/
def kplsStep (c : KplsCfg α σ) (k : Int) (s : KplsVars α) : Except PyErr (KplsVars α) := do
  let u ← c.start (s.T.rows : Int) k
  let r ← kplsInner c s.Kd s.Y 0 (c.tol * ((10 : Nat) : α)) ⟨s.t, s.q, u⟩
  let Kd ← kplsDeflate s.Kd r.t
  let d ← r.t.mul r.q.transpose
  let Y ← s.Y.sub d
  let p ← kplsLoad Kd r.t
  let T ← s.T.setColumn k r.t
  let U ← s.U.setColumn k r.u
  let Q ← s.Q.setColumn k r.q
  let P ← s.P.setColumn k p
  .ok ⟨Kd, Y, T, U, P, Q, r.t, r.q⟩

/-- `I - 1/n * 1_n * 1_n^T`, `_KernelPLS.py` 160-165. -/
def kplsCentring (n : Nat) : Except PyErr (Mat α) := do
  let I ← Factory.eye (α := α) (n : Int) (n : Int)
  let one ← Factory.filled (n : Int) 1 (1 : α)
  let o ← one.mul one.transpose
  I.sub (o.div (n : α))

/-- `centralize_train_in_kernel_space`, `_KernelPLS.py` 152-166; `n` is the number of rows of `self.X`. -/
def kplsCentreTrain (n : Nat) (K : Mat α) : Except PyErr (Mat α) := do
  let part ← kplsCentring n
  let a ← part.mul K
  a.mul part

/-- `centralize_test_in_kernel_space`, `_KernelPLS.py` 168-179. -/
def kplsCentreTest (n : Nat) (Korig K : Mat α) : Except PyErr (Mat α) := do
  let I ← Factory.eye (α := α) (n : Int) (n : Int)
  let a ← Factory.filled (K.rows : Int) (n : Int) (1 / (n : α))
  let b ← Factory.filled (n : Int) (n : Int) (1 / (n : α))
  let a ← a.mul Korig
  let d ← K.sub a
  let e ← I.sub b
  d.mul e

/-- Initial values, `_KernelPLS.py` 93-105. -/
def kplsInit (c : KplsCfg α σ) (Kc Y : Mat α) (n : Nat) : Except PyErr (KplsVars α) := do
  let q ← Factory.zeros (Y.cols : Int) 1
  let t ← Factory.zeros (n : Int) 1
  let T ← Factory.zeros (n : Int) c.K
  let U ← Factory.zeros (n : Int) c.K
  let P ← Factory.zeros (n : Int) c.K
  let Q ← Factory.zeros (Y.cols : Int) c.K
  .ok ⟨Kc, Y, T, U, P, Q, t, q⟩

/-- `B_RHS`, `_KernelPLS.py` 147-149. -/
def kplsRhs (c : KplsCfg α σ) (T Korig U Q : Mat α) : Except PyErr (Mat α) := do
  let a ← T.transpose.mul Korig
  let a ← a.mul U
  let i ← c.inv a
  i.mul Q.transpose

/-- `do_perform_initialization`, `_KernelPLS.py` 82-150 (the centerings are fresh, `reset` 225-226).  The kernel object
keeps changes made before an exception, which is not modelled. -/
def kplsTrain (c : KplsCfg α σ) (kern : σ) (X Y : Mat α) : Except PyErr (KplsModel α σ) := do
  let cx := transform center X center.init
  let X ← cx.2
  let cy := transform center Y center.init
  let Y ← cy.2
  let K ← (c.kern1 kern X).2
  let K ← kplsCentreTrain X.rows K
  let s ← kplsInit c K Y X.rows
  let s ← loopM (kplsStep c) (pyRange 0 c.K) s
  let B ← kplsRhs c s.T K s.U s.Q
  .ok ⟨(c.kern1 kern X).1, cx.1, cy.1, X, K, s, B⟩

/-- `do_transform`, `_KernelPLS.py` 187-192. -/
def kplsTransform (c : KplsCfg α σ) (m : KplsModel α σ) (Z : Mat α) : Except PyErr (Mat α) := do
  let Z ← (transform center Z m.centerX).2
  let K ← (c.kern2 m.kern Z m.X).2
  let K ← kplsCentreTest m.X.rows m.Korig K
  K.mul m.vars.U

/-- `do_perform_predictions`, `_KernelPLS.py` 181-185. -/
def kplsPredict (c : KplsCfg α σ) (m : KplsModel α σ) (Z : Mat α) : Except PyErr (Mat α) := do
  let K ← kplsTransform c m Z
  let Y ← K.mul m.B
  (inverseTransform center Y m.centerY).2

end code

/-! ## Centring -/

open scoped Matrix

section centring
variable {n p r : Nat}

/-- State of a centring fitted to `A`. -/
noncomputable def cenState (A : Matrix (Fin n) (Fin p) ℝ) : CenterState ℝ :=
  ⟨true, some (of (Matrix.of fun (_ : Fin 1) j => mu fun k => A k j))⟩

theorem cen_do (A : Matrix (Fin n) (Fin p) ℝ) (B : Matrix (Fin r) (Fin p) ℝ) :
    (transform center (of B) (cenState A)).2 = .ok (of (cen A B)) := by
  show subByVector (of B) _ = _
  exact vectorOp_row _ _ _

theorem cen_fit (A : Matrix (Fin n) (Fin p) ℝ) :
    transform center (of A) center.init = (cenState A, .ok (of (cen A A))) := by
  have hu : transform center (of A) center.init =
      (⟨true, some (of A).columnMeans⟩, subByVector (of A) (of A).columnMeans) := rfl
  rw [hu, columnMeans_of]
  exact Prod.ext rfl (vectorOp_row _ _ _)

/-- Adding the means back. -/
noncomputable def uncen (A : Matrix (Fin n) (Fin p) ℝ) (B : Matrix (Fin r) (Fin p) ℝ) : Matrix (Fin r) (Fin p) ℝ :=
  Matrix.of fun i j => B i j + mu fun k => A k j

theorem cen_undo (A : Matrix (Fin n) (Fin p) ℝ) (B : Matrix (Fin r) (Fin p) ℝ) :
    (inverseTransform center (of B) (cenState A)).2 = .ok (of (uncen A B)) := by
  show addByVector (of B) _ = _
  exact vectorOp_row _ _ _

/-- The matrix of ones divided by `n`. -/
noncomputable def avg (r n : Nat) : Matrix (Fin r) (Fin n) ℝ := Matrix.of fun _ _ => 1 / (n : ℝ)

theorem filled_nat (r m : Nat) (v : ℝ) :
    Factory.filled (r : Int) (m : Int) v = .ok (of (Matrix.of fun (_ : Fin r) (_ : Fin m) => v)) := by
  unfold Factory.filled
  rw [if_neg (by omega)]
  rfl

theorem kplsCentring_eq : kplsCentring (α := ℝ) n = .ok (of (1 - avg n n)) := by
  unfold kplsCentring
  have := filled_nat n 1 (1 : ℝ)
  rw [show ((1 : Nat) : Int) = 1 from rfl] at this
  rw [Factory.eye_nat, this]
  simp only [except_bind_ok, transpose_of, mul_of, div_of, sub_of]
  refine congrArg (fun A => Except.ok (of (1 - A))) ?_
  ext i j
  simp [avg, Matrix.mul_apply]

theorem kplsCentreTrain_eq (G : Matrix (Fin n) (Fin n) ℝ) :
    kplsCentreTrain n (of G) = .ok (of ((1 - avg n n) * G * (1 - avg n n))) := by
  unfold kplsCentreTrain
  simp only [kplsCentring_eq, except_bind_ok, mul_of]

theorem kplsCentreTest_eq (Ko : Matrix (Fin n) (Fin n) ℝ) (G : Matrix (Fin r) (Fin n) ℝ) :
    kplsCentreTest n (of Ko) (of G) = .ok (of ((G - avg r n * Ko) * (1 - avg n n))) := by
  unfold kplsCentreTest
  simp only [filled_nat, Factory.eye_nat, except_bind_ok, mul_of, sub_of]
  rfl

theorem avg_mul (hn : 0 < n) : avg r n * avg n n = avg r n := by
  ext i j
  have : (n : ℝ) ≠ 0 := by positivity
  simp [avg, Matrix.mul_apply, this]

/-- Averaging removes nothing after centring. -/
theorem avg_centred (hn : 0 < n) : avg r n * (1 - avg n n) = 0 := by
  rw [Matrix.mul_sub, Matrix.mul_one, avg_mul hn, sub_self]

theorem centred_avg (hn : 0 < n) : (1 - avg n n) * avg n n = 0 := by
  rw [Matrix.sub_mul, Matrix.one_mul, avg_mul hn, sub_self]

theorem avg_transpose : (avg n n)ᵀ = avg n n := rfl

end centring

/-! ## The loops -/

section loops
variable {n q K : Nat}

/-- The next `u`. -/
noncomputable def kU (Y : Matrix (Fin n) (Fin q) ℝ) (t : Matrix (Fin n) (Fin 1) ℝ) : Matrix (Fin n) (Fin 1) ℝ :=
  nrm (Y * (Yᵀ * t))

/-- The `u` the last pass starts with. -/
noncomputable def kLast (tol : ℝ) (Kd : Matrix (Fin n) (Fin n) ℝ) (Y : Matrix (Fin n) (Fin q) ℝ) :
    Nat → Matrix (Fin n) (Fin 1) ℝ → Matrix (Fin n) (Fin 1) ℝ
  | 0, u => u
  | f + 1, u =>
    if tol < Real.sqrt (sq1 (kU Y (nrm (Kd * u)) - u)) then kLast tol Kd Y f (kU Y (nrm (Kd * u))) else u

theorem kLast_zero (tol : ℝ) (Kd : Matrix (Fin n) (Fin n) ℝ) (Y : Matrix (Fin n) (Fin q) ℝ)
    (u : Matrix (Fin n) (Fin 1) ℝ) : kLast tol Kd Y 0 u = u := rfl

theorem kLast_succ (tol : ℝ) (Kd : Matrix (Fin n) (Fin n) ℝ) (Y : Matrix (Fin n) (Fin q) ℝ) (f : Nat)
    (u : Matrix (Fin n) (Fin 1) ℝ) : kLast tol Kd Y (f + 1) u =
    if tol < Real.sqrt (sq1 (kU Y (nrm (Kd * u)) - u)) then kLast tol Kd Y f (kU Y (nrm (Kd * u))) else u := rfl

/-- A property of the start vector kept by every pass holds for the last one. -/
theorem kLast_inv (tol : ℝ) (Kd : Matrix (Fin n) (Fin n) ℝ) (Y : Matrix (Fin n) (Fin q) ℝ)
    (Inv : Matrix (Fin n) (Fin 1) ℝ → Prop) (h : ∀ u, Inv u → Inv (kU Y (nrm (Kd * u)))) (f : Nat)
    (u : Matrix (Fin n) (Fin 1) ℝ) (hu : Inv u) : Inv (kLast tol Kd Y f u) := by
  induction f generalizing u with
  | zero => exact hu
  | succ f ih =>
    rw [kLast_succ]
    split_ifs
    · exact ih _ (h u hu)
    · exact hu

theorem kplsPass_eq (Kd : Matrix (Fin n) (Fin n) ℝ) (Y : Matrix (Fin n) (Fin q) ℝ) (u : Matrix (Fin n) (Fin 1) ℝ) :
    kplsPass (of Kd) (of Y) (of u) =
      .ok ⟨of (nrm (Kd * u)), of (Yᵀ * nrm (Kd * u)), of (kU Y (nrm (Kd * u)))⟩ := by
  unfold kplsPass
  simp only [mul_of, transpose_of, except_bind_ok, normalized_col]
  rfl

/-- The configuration over the reals, with start vectors `v`. -/
structure KplsReal (c : KplsCfg ℝ σ) (n : Nat) (v : Nat → Matrix (Fin n) (Fin 1) ℝ) : Prop where
  lt : ∀ a b, c.lt a b = decide (a < b)
  start : ∀ k : Nat, c.start (n : Int) (k : Int) = .ok (of (v k))

theorem kplsInner_stop {c : KplsCfg ℝ σ} (Kd Y : Mat ℝ) (iter : Int) (change : ℝ) (s : KplsInner ℝ)
    (h : ¬ (c.lt c.tol change = true ∧ iter < c.maxIter)) : kplsInner c Kd Y iter change s = .ok s := by
  rw [kplsInner, dif_neg h]

theorem kplsInner_eq {c : KplsCfg ℝ σ} {v : Nat → Matrix (Fin n) (Fin 1) ℝ} (hc : KplsReal c n v)
    (Kd : Matrix (Fin n) (Fin n) ℝ) (Y : Matrix (Fin n) (Fin q) ℝ) (f : Nat) (iter : Int) (change : ℝ)
    (hf : c.maxIter - iter = f + 1) (hch : c.tol < change) (t0 : Mat ℝ) (q0 : Mat ℝ) (u : Matrix (Fin n) (Fin 1) ℝ) :
    kplsInner c (of Kd) (of Y) iter change ⟨t0, q0, of u⟩ =
      .ok ⟨of (nrm (Kd * kLast c.tol Kd Y f u)), of (Yᵀ * nrm (Kd * kLast c.tol Kd Y f u)),
        of (kU Y (nrm (Kd * kLast c.tol Kd Y f u)))⟩ := by
  induction f generalizing iter change t0 q0 u with
  | zero =>
    rw [kplsInner, dif_pos ⟨by rw [hc.lt]; simpa using hch, by omega⟩, kplsPass_eq, kLast_zero]
    simp only [except_bind_ok, sub_of]
    exact kplsInner_stop _ _ _ _ _ fun h => by omega
  | succ f ih =>
    rw [kplsInner, dif_pos ⟨by rw [hc.lt]; simpa using hch, by omega⟩, kplsPass_eq, kLast_succ]
    simp only [except_bind_ok, sub_of, norm2_col]
    by_cases h : c.tol < Real.sqrt (sq1 (kU Y (nrm (Kd * u)) - u))
    · rw [ih (iter + 1) _ (by omega) h, if_pos h]
    · rw [if_neg h]
      exact kplsInner_stop _ _ _ _ _ fun h' => h (by simpa [hc.lt] using h'.1)

theorem kplsDeflate_eq (Kd : Matrix (Fin n) (Fin n) ℝ) (t : Matrix (Fin n) (Fin 1) ℝ) :
    kplsDeflate (of Kd) (of t) = .ok (of ((1 - t * tᵀ) * Kd * (1 - t * tᵀ))) := by
  unfold kplsDeflate
  simp only [Factory.eye_nat, except_bind_ok, transpose_of, mul_of, sub_of]

theorem kplsLoad_eq (Kd : Matrix (Fin n) (Fin n) ℝ) (t : Matrix (Fin n) (Fin 1) ℝ) :
    kplsLoad (of Kd) (of t) = .ok (of ((sq1 t)⁻¹ • (Kdᵀ * t))) := by
  unfold kplsLoad
  simp only [transpose_of, mul_of, except_bind_ok, asReal_of, div_col]
  rw [sq1_eq]

variable (tol : ℝ) (f : Nat) (v : Nat → Matrix (Fin n) (Fin 1) ℝ)

/-- The score of a component. -/
noncomputable def kT1 (Kd : Matrix (Fin n) (Fin n) ℝ) (Y : Matrix (Fin n) (Fin q) ℝ) (u : Matrix (Fin n) (Fin 1) ℝ) :
    Matrix (Fin n) (Fin 1) ℝ := nrm (Kd * kLast tol Kd Y f u)

variable (K0 : Matrix (Fin n) (Fin n) ℝ) (Y0 : Matrix (Fin n) (Fin q) ℝ)

/-- Kernel and response before component `k`. -/
noncomputable def kS : Nat → Matrix (Fin n) (Fin n) ℝ × Matrix (Fin n) (Fin q) ℝ
  | 0 => (K0, Y0)
  | k + 1 =>
    let t := kT1 tol f (kS k).1 (kS k).2 (v k)
    ((1 - t * tᵀ) * (kS k).1 * (1 - t * tᵀ), (kS k).2 - t * ((kS k).2ᵀ * t)ᵀ)

/-- Scores. -/
noncomputable def kT (k : Nat) : Matrix (Fin n) (Fin 1) ℝ :=
  kT1 tol f (kS tol f v K0 Y0 k).1 (kS tol f v K0 Y0 k).2 (v k)
/-- Loadings on `Y`. -/
noncomputable def kQ (k : Nat) : Matrix (Fin q) (Fin 1) ℝ := (kS tol f v K0 Y0 k).2ᵀ * kT tol f v K0 Y0 k
/-- Scores on `Y`. -/
noncomputable def kUs (k : Nat) : Matrix (Fin n) (Fin 1) ℝ := kU (kS tol f v K0 Y0 k).2 (kT tol f v K0 Y0 k)
/-- Loadings on the kernel. -/
noncomputable def kP (k : Nat) : Matrix (Fin n) (Fin 1) ℝ :=
  (sq1 (kT tol f v K0 Y0 k))⁻¹ • ((kS tol f v K0 Y0 (k + 1)).1ᵀ * kT tol f v K0 Y0 k)

theorem kS_succ (k : Nat) : kS tol f v K0 Y0 (k + 1) =
    ((1 - kT tol f v K0 Y0 k * (kT tol f v K0 Y0 k)ᵀ) * (kS tol f v K0 Y0 k).1 *
      (1 - kT tol f v K0 Y0 k * (kT tol f v K0 Y0 k)ᵀ),
      (kS tol f v K0 Y0 k).2 - kT tol f v K0 Y0 k * (kQ tol f v K0 Y0 k)ᵀ) := rfl

/-- A matrix given by its columns. -/
def colsM {m K : Nat} (g : Nat → Matrix (Fin m) (Fin 1) ℝ) : Matrix (Fin m) (Fin K) ℝ := Matrix.of fun i j => g j.1 i 0

variable {tol f v K0 Y0}

/-- Variables before component `k`; `t`, `q` are those of the component before. -/
noncomputable def kVars (tol : ℝ) (f : Nat) (v : Nat → Matrix (Fin n) (Fin 1) ℝ) (K0 : Matrix (Fin n) (Fin n) ℝ)
    (Y0 : Matrix (Fin n) (Fin q) ℝ) (K : Nat) (k : Nat) : KplsVars ℝ :=
  ⟨of (kS tol f v K0 Y0 k).1, of (kS tol f v K0 Y0 k).2,
    of (colsUpTo (kT tol f v K0 Y0) k : Matrix (Fin n) (Fin K) ℝ),
    of (colsUpTo (kUs tol f v K0 Y0) k : Matrix (Fin n) (Fin K) ℝ),
    of (colsUpTo (kP tol f v K0 Y0) k : Matrix (Fin n) (Fin K) ℝ),
    of (colsUpTo (kQ tol f v K0 Y0) k : Matrix (Fin q) (Fin K) ℝ),
    of (if k = 0 then 0 else kT tol f v K0 Y0 (k - 1)), of (if k = 0 then 0 else kQ tol f v K0 Y0 (k - 1))⟩

theorem kplsStep_eq {c : KplsCfg ℝ σ} (hc : KplsReal c n v) (htol : 0 < c.tol) (hf : c.maxIter = f + 1) (k : Nat)
    (hk : k < K) : kplsStep c (k : Int) (kVars c.tol f v K0 Y0 K k) = .ok (kVars c.tol f v K0 Y0 K (k + 1)) := by
  have hi := kplsInner_eq hc (kS c.tol f v K0 Y0 k).1 (kS c.tol f v K0 Y0 k).2 f 0 (c.tol * ((10 : Nat) : ℝ))
    (by omega) (by push_cast; linarith) (of (if k = 0 then 0 else kT c.tol f v K0 Y0 (k - 1)))
    (of (if k = 0 then 0 else kQ c.tol f v K0 Y0 (k - 1))) (v k)
  rw [show nrm ((kS c.tol f v K0 Y0 k).1 * kLast c.tol (kS c.tol f v K0 Y0 k).1 (kS c.tol f v K0 Y0 k).2 f (v k)) =
    kT c.tol f v K0 Y0 k from rfl, show (kS c.tol f v K0 Y0 k).2ᵀ * kT c.tol f v K0 Y0 k = kQ c.tol f v K0 Y0 k from rfl,
    show kU (kS c.tol f v K0 Y0 k).2 (kT c.tol f v K0 Y0 k) = kUs c.tol f v K0 Y0 k from rfl] at hi
  have hst : c.start ((kVars c.tol f v K0 Y0 K k).T.rows : Int) (k : Int) = .ok (of (v k)) := hc.start k
  unfold kplsStep
  rw [hst, except_bind_ok]
  rw [show kplsInner c (kVars c.tol f v K0 Y0 K k).Kd (kVars c.tol f v K0 Y0 K k).Y 0 (c.tol * ((10 : Nat) : ℝ))
    ⟨(kVars c.tol f v K0 Y0 K k).t, (kVars c.tol f v K0 Y0 K k).q, of (v k)⟩ = _ from hi, except_bind_ok]
  have e1 := congrArg Prod.fst (kS_succ c.tol f v K0 Y0 k)
  have e2 := congrArg Prod.snd (kS_succ c.tol f v K0 Y0 k)
  simp only [kVars, kplsDeflate_eq, except_bind_ok, transpose_of, mul_of, sub_of]
  simp only [] at e1 e2
  rw [← e1, ← e2, kplsLoad_eq, except_bind_ok,
    show (sq1 (kT c.tol f v K0 Y0 k))⁻¹ • ((kS c.tol f v K0 Y0 (k + 1)).1ᵀ * kT c.tol f v K0 Y0 k) =
      kP c.tol f v K0 Y0 k from rfl, colsUpTo_set _ k hk, except_bind_ok, colsUpTo_set _ k hk, except_bind_ok,
    colsUpTo_set _ k hk, except_bind_ok, colsUpTo_set _ k hk, except_bind_ok]
  rfl

theorem kplsInit_eq {c : KplsCfg ℝ σ} (hK : c.K = K) (hn : 0 < n) (hq : 0 < q) :
    kplsInit c (of K0) (of Y0) n = .ok (kVars c.tol f v K0 Y0 K 0) := by
  unfold kplsInit
  have h1 := Factory.zeros_nat (α := ℝ) hn 1
  have h2 := Factory.zeros_nat (α := ℝ) hq 1
  rw [show ((1 : Nat) : Int) = 1 from rfl] at h1 h2
  simp only [hK, h1, h2, Factory.zeros_nat hn, Factory.zeros_nat hq, except_bind_ok]
  unfold kVars
  simp only [colsUpTo_zero, if_true]
  rfl

/-- The variables after the loop. -/
theorem kplsLoop_eq {c : KplsCfg ℝ σ} (hc : KplsReal c n v) (htol : 0 < c.tol) (hf : c.maxIter = f + 1) :
    loopM (kplsStep c) (pyRange 0 (K : Int)) (kVars c.tol f v K0 Y0 K 0) = .ok (kVars c.tol f v K0 Y0 K K) :=
  loopM_range _ (kVars c.tol f v K0 Y0 K) K fun k hk => kplsStep_eq hc htol hf k hk

end loops

/-! ## Training -/

section train
variable {n p q K : Nat}

/-- The centred kernel. -/
noncomputable def cenK (G : Matrix (Fin n) (Fin n) ℝ) : Matrix (Fin n) (Fin n) ℝ := (1 - avg n n) * G * (1 - avg n n)

/-- Training after the centrings and the kernel. -/
theorem kplsTrain_eq' {c : KplsCfg ℝ σ} (kern : σ) (X : Matrix (Fin n) (Fin p) ℝ) (Y : Matrix (Fin n) (Fin q) ℝ)
    (G : Matrix (Fin n) (Fin n) ℝ) (hG : (c.kern1 kern (of (cen X X))).2 = .ok (of G)) :
    kplsTrain c kern (of X) (of Y) = (do
      let s ← kplsInit c (of (cenK G)) (of (cen Y Y)) n
      let s ← loopM (kplsStep c) (pyRange 0 c.K) s
      let B ← kplsRhs c s.T (of (cenK G)) s.U s.Q
      .ok ⟨(c.kern1 kern (of (cen X X))).1, cenState X, cenState Y, of (cen X X), of (cenK G), s, B⟩) := by
  unfold kplsTrain
  simp only [cen_fit, except_bind_ok, hG, kplsCentreTrain_eq]
  rfl

theorem kVars_T (tol : ℝ) (f : Nat) (v : Nat → Matrix (Fin n) (Fin 1) ℝ) (K0 : Matrix (Fin n) (Fin n) ℝ)
    (Y0 : Matrix (Fin n) (Fin q) ℝ) : (kVars tol f v K0 Y0 K K).T = of (colsM (K := K) (kT tol f v K0 Y0)) :=
  congrArg of (colsUpTo_all _)
theorem kVars_U (tol : ℝ) (f : Nat) (v : Nat → Matrix (Fin n) (Fin 1) ℝ) (K0 : Matrix (Fin n) (Fin n) ℝ)
    (Y0 : Matrix (Fin n) (Fin q) ℝ) : (kVars tol f v K0 Y0 K K).U = of (colsM (K := K) (kUs tol f v K0 Y0)) :=
  congrArg of (colsUpTo_all _)
theorem kVars_P (tol : ℝ) (f : Nat) (v : Nat → Matrix (Fin n) (Fin 1) ℝ) (K0 : Matrix (Fin n) (Fin n) ℝ)
    (Y0 : Matrix (Fin n) (Fin q) ℝ) : (kVars tol f v K0 Y0 K K).P = of (colsM (K := K) (kP tol f v K0 Y0)) :=
  congrArg of (colsUpTo_all _)
theorem kVars_Q (tol : ℝ) (f : Nat) (v : Nat → Matrix (Fin n) (Fin 1) ℝ) (K0 : Matrix (Fin n) (Fin n) ℝ)
    (Y0 : Matrix (Fin n) (Fin q) ℝ) : (kVars tol f v K0 Y0 K K).Q = of (colsM (K := K) (kQ tol f v K0 Y0)) :=
  congrArg of (colsUpTo_all _)

theorem kplsRhs_eq {c : KplsCfg ℝ σ} (T U : Matrix (Fin n) (Fin K) ℝ) (K0 : Matrix (Fin n) (Fin n) ℝ)
    (Q : Matrix (Fin q) (Fin K) ℝ) : kplsRhs c (of T) (of K0) (of U) (of Q) = (do
      let i ← c.inv (of (Tᵀ * K0 * U))
      i.mul (of Qᵀ)) := by
  unfold kplsRhs
  simp only [transpose_of, mul_of, except_bind_ok]

/-- Training in closed form. -/
theorem kplsTrain_eq {c : KplsCfg ℝ σ} {v : Nat → Matrix (Fin n) (Fin 1) ℝ} {f : Nat} (hc : KplsReal c n v)
    (htol : 0 < c.tol) (hf : c.maxIter = f + 1) (hK : c.K = K) (hn : 0 < n) (hq : 0 < q) (kern : σ)
    (X : Matrix (Fin n) (Fin p) ℝ) (Y : Matrix (Fin n) (Fin q) ℝ)
    (G : Matrix (Fin n) (Fin n) ℝ) (hG : (c.kern1 kern (of (cen X X))).2 = .ok (of G)) :
    kplsTrain c kern (of X) (of Y) = (do
      let i ← c.inv (of ((colsM (K := K) (kT c.tol f v (cenK G) (cen Y Y)))ᵀ * cenK G *
        colsM (K := K) (kUs c.tol f v (cenK G) (cen Y Y))))
      let B ← i.mul (of (colsM (K := K) (kQ c.tol f v (cenK G) (cen Y Y)))ᵀ)
      .ok ⟨(c.kern1 kern (of (cen X X))).1, cenState X, cenState Y, of (cen X X), of (cenK G),
        kVars c.tol f v (cenK G) (cen Y Y) K K, B⟩) := by
  rw [kplsTrain_eq' kern X Y G hG, kplsInit_eq (f := f) (v := v) hK hn hq, except_bind_ok, hK, kplsLoop_eq hc htol hf,
    except_bind_ok, kVars_T, kVars_U, kVars_Q, kplsRhs_eq]
  cases c.inv (of ((colsM (K := K) (kT c.tol f v (cenK G) (cen Y Y)))ᵀ * cenK G *
        colsM (K := K) (kUs c.tol f v (cenK G) (cen Y Y)))) with
  | error e => rfl
  | ok i => rfl

end train

/-! ## Orthogonality of the scores -/

section orth
variable {n q : Nat} {tol : ℝ} {f : Nat} {v : Nat → Matrix (Fin n) (Fin 1) ℝ} {K0 : Matrix (Fin n) (Fin n) ℝ}
  {Y0 : Matrix (Fin n) (Fin q) ℝ}

theorem kT_form (k : Nat) : ∃ u, kT tol f v K0 Y0 k = nrm ((kS tol f v K0 Y0 k).1 * u) :=
  ⟨_, rfl⟩

/-- What is orthogonal to the kernel from the left is orthogonal to the next score and stays so. -/
theorem kS_left {s : Matrix (Fin n) (Fin 1) ℝ} {k : Nat} (h : sᵀ * (kS tol f v K0 Y0 k).1 = 0) :
    sᵀ * kT tol f v K0 Y0 k = 0 ∧ sᵀ * (kS tol f v K0 Y0 (k + 1)).1 = 0 := by
  obtain ⟨u, hu⟩ := kT_form (tol := tol) (f := f) (v := v) (K0 := K0) (Y0 := Y0) k
  have h1 : sᵀ * kT tol f v K0 Y0 k = 0 := by
    rw [hu, nrm, Matrix.mul_smul, ← Matrix.mul_assoc, h, Matrix.zero_mul, smul_zero]
  refine ⟨h1, ?_⟩
  rw [congrArg Prod.fst (kS_succ tol f v K0 Y0 k)]
  simp only []
  have h2 : sᵀ * (1 - kT tol f v K0 Y0 k * (kT tol f v K0 Y0 k)ᵀ) = sᵀ := by
    rw [Matrix.mul_sub, ← Matrix.mul_assoc, h1, Matrix.zero_mul, sub_zero, Matrix.mul_one]
  rw [← Matrix.mul_assoc, ← Matrix.mul_assoc, h2, h, Matrix.zero_mul]

theorem unit_left {t : Matrix (Fin n) (Fin 1) ℝ} (ht : sq1 t = 1) : tᵀ * (1 - t * tᵀ) = 0 := by
  rw [Matrix.mul_sub, ← Matrix.mul_assoc, col_gram, ht, one_smul, Matrix.mul_one, Matrix.one_mul, sub_self]

/-- After deflation the kernel is orthogonal to the score. -/
theorem kS_own {k : Nat} (ht : sq1 (kT tol f v K0 Y0 k) = 1) :
    (kT tol f v K0 Y0 k)ᵀ * (kS tol f v K0 Y0 (k + 1)).1 = 0 := by
  rw [congrArg Prod.fst (kS_succ tol f v K0 Y0 k)]
  simp only []
  rw [← Matrix.mul_assoc, ← Matrix.mul_assoc, unit_left ht, Matrix.zero_mul, Matrix.zero_mul]

theorem kS_later {k : Nat} (ht : sq1 (kT tol f v K0 Y0 k) = 1) (d : Nat) :
    (kT tol f v K0 Y0 k)ᵀ * (kS tol f v K0 Y0 (k + 1 + d)).1 = 0 := by
  induction d with
  | zero => exact kS_own ht
  | succ d ih => exact (kS_left ih).2

theorem kT_orth {j k : Nat} (ht : sq1 (kT tol f v K0 Y0 j) = 1) (hjk : j < k) :
    (kT tol f v K0 Y0 j)ᵀ * kT tol f v K0 Y0 k = 0 := by
  obtain ⟨d, rfl⟩ : ∃ d, k = j + 1 + d := ⟨k - (j + 1), by omega⟩
  exact (kS_left (kS_later ht d)).1

/-- The loadings on the kernel vanish: they are computed from the kernel that has already been deflated. -/
theorem kP_zero {k : Nat} (ht : sq1 (kT tol f v K0 Y0 k) = 1) : kP tol f v K0 Y0 k = 0 := by
  have h : (kS tol f v K0 Y0 (k + 1)).1ᵀ * kT tol f v K0 Y0 k = 0 := by
    have hr : (1 - kT tol f v K0 Y0 k * (kT tol f v K0 Y0 k)ᵀ) * kT tol f v K0 Y0 k = 0 := by
      have := congrArg Matrix.transpose (unit_left ht)
      rw [Matrix.transpose_mul, Matrix.transpose_sub, Matrix.transpose_mul, Matrix.transpose_transpose,
        Matrix.transpose_one, Matrix.transpose_zero] at this
      exact this
    have hs : (1 - kT tol f v K0 Y0 k * (kT tol f v K0 Y0 k)ᵀ)ᵀ = 1 - kT tol f v K0 Y0 k * (kT tol f v K0 Y0 k)ᵀ := by
      rw [Matrix.transpose_sub, Matrix.transpose_mul, Matrix.transpose_transpose, Matrix.transpose_one]
    rw [congrArg Prod.fst (kS_succ tol f v K0 Y0 k)]
    simp only []
    rw [Matrix.transpose_mul, Matrix.transpose_mul, hs, Matrix.mul_assoc, Matrix.mul_assoc, hr, Matrix.mul_zero,
      Matrix.mul_zero]
  rw [kP, h, smul_zero]

/-- A score is a unit vector unless it is zero. -/
theorem kT_unit {k : Nat} (h : kT tol f v K0 Y0 k ≠ 0) : sq1 (kT tol f v K0 Y0 k) = 1 := by
  obtain ⟨u, hu⟩ := kT_form (tol := tol) (f := f) (v := v) (K0 := K0) (Y0 := Y0) k
  rw [hu] at h ⊢
  refine sq1_nrm _ fun e => h ?_
  rw [e, nrm, smul_zero]

/-- The response left over. -/
theorem kQ_eq {k : Nat} (ht : ∀ j < k, sq1 (kT tol f v K0 Y0 j) = 1) :
    kQ tol f v K0 Y0 k = Y0ᵀ * kT tol f v K0 Y0 k := by
  have : ∀ j ≤ k, (kS tol f v K0 Y0 j).2ᵀ * kT tol f v K0 Y0 k = Y0ᵀ * kT tol f v K0 Y0 k := by
    intro j hj
    induction j with
    | zero => rfl
    | succ j ih =>
      rw [congrArg Prod.snd (kS_succ tol f v K0 Y0 j)]
      simp only []
      rw [Matrix.transpose_sub, Matrix.sub_mul, ih (by omega), Matrix.transpose_mul, Matrix.mul_assoc,
        kT_orth (ht j (by omega)) (by omega), Matrix.mul_zero, sub_zero]
  exact this k le_rfl

end orth

end Verif
