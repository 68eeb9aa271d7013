import Verif.Alg.PLS1
import Verif.Core.Eigen
import Verif.Core.UtilsLemmas
import Mathlib.Order.Interval.Finset.Fin

/-!
# SIMPLS

`src/wai/ma/algorithm/pls/_SIMPLS.py`.  The dominant eigenvector is a parameter `dom`; the matrix it is applied to
is `1 × 1`, since `check` only admits one response column.
-/

namespace Verif

open Mat

variable {α : Type}

/-! ## The code -/

/-- Loop variables of training. -/
structure SimplsVars (α : Type) where
  A : Mat α
  M : Mat α
  C : Mat α
  W : Mat α
  P : Mat α
  Q : Mat α

/-- Attributes set by training, `_SIMPLS.py` 168-170. -/
structure SimplsModel (α : Type) where
  W : Mat α
  B : Mat α
  Q : Mat α

/-- One pass of the training loop, `_SIMPLS.py` 132-162. -/
def simplsStep [Field α] [HasSqrt α] (dom : Mat α → Except PyErr (Mat α)) (h : Int) (s : SimplsVars α) :
    Except PyErr (SimplsVars α) := do
  let ata ← s.A.transpose.mul s.A
  let q ← dom ata
  let w ← s.A.mul q
  let wm ← w.transpose.mul s.M
  let c ← wm.mul w
  let cr ← c.asReal
  let w := w.smul (1 / HasSqrt.sqrt cr)
  let W ← s.W.setColumn h w
  let p ← s.M.mul w
  let P ← s.P.setColumn h p
  let q ← s.A.transpose.mul w
  let Q ← s.Q.setColumn h q
  let v ← s.C.mul p
  let v ← v.normalized
  let vv ← v.mul v.transpose
  let C ← s.C.sub vv
  let pp ← p.mul p.transpose
  let M ← s.M.sub pp
  let A ← C.mul s.A
  .ok ⟨A, M, C, W, P, Q⟩

/-- Initial values, `_SIMPLS.py` 123-129. -/
def simplsInit [Field α] (K : Int) (X y : Mat α) : Except PyErr (SimplsVars α) := do
  let A ← X.transpose.mul y
  let M ← X.transpose.mul X
  let C ← Factory.eye (X.cols : Int) (X.cols : Int)
  let W ← Factory.zeros (X.cols : Int) K
  let P ← Factory.zeros (X.cols : Int) K
  let Q ← Factory.zeros 1 K
  .ok ⟨A, M, C, W, P, Q⟩

/-- The order of `abs` values `slim` sorts by. -/
def realCmp [LinearOrder α] : Utils.Cmp α := ⟨fun a b => decide (a < b), fun a b => decide (a > b)⟩

/-- Inner loop of `slim`, `_SIMPLS.py` 111-113; `B` is the copy made on line 101. -/
def slimCell [Field α] [LinearOrder α] (B : Mat α) (val : α) (i c : Int) (R : Mat α) : Except PyErr (Mat α) := do
  let b ← B.get c i
  if |b| < val then R.set c i 0 else .ok R

/-- One column of `slim`, `_SIMPLS.py` 103-113. -/
def slimColumn [Field α] [LinearOrder α] (count : Int) (B : Mat α) (i : Int) (R : Mat α) :
    Except PyErr (Mat α) := do
  let l ← R.getColumn i
  let ld := l.toRawCopy1D.map fun x => |x|
  let srt ← Utils.sort realCmp true (ld.length + 1) ld
  let index ← Utils.item srt (max ((srt.length : Int) - 1 - count) 0)
  let val ← Utils.item ld (index : Int)
  loopM (slimCell B val i) (pyRange 0 R.rows) R

/-- `slim`, `_SIMPLS.py` 94-113. -/
def slim [Field α] [LinearOrder α] (count : Int) (W : Mat α) : Except PyErr (Mat α) :=
  loopM (slimColumn count W) (pyRange 0 W.cols) W

/-- `do_perform_initialization`, `_SIMPLS.py` 115-172. -/
def simplsTrain [Field α] [LinearOrder α] [HasSqrt α] (dom : Mat α → Except PyErr (Mat α)) (K count : Int)
    (X y : Mat α) : Except PyErr (SimplsModel α) := do
  let s ← simplsInit K X y
  let s ← loopM (simplsStep dom) (pyRange 0 K) s
  let W ← if count > 0 then slim count s.W else .ok s.W
  let B ← W.mul s.Q.transpose
  .ok ⟨W, B, s.Q⟩

/-- `do_transform`, `_SIMPLS.py` 174-181. -/
def simplsTransform [Field α] (m : SimplsModel α) (X : Mat α) : Except PyErr (Mat α) := X.mul m.W

/-- `do_perform_predictions`, `_SIMPLS.py` 191-198. -/
def simplsPredict [Field α] (m : SimplsModel α) (X : Mat α) : Except PyErr (Mat α) := X.mul m.B

/-- `serialise_state`, `_SIMPLS.py` 200-206: the part of the state written. -/
def simplsState (initialised : Bool) (m : SimplsModel α) : Except PyErr (Mat α) :=
  if initialised then .ok m.W else .error .runtimeError

/-! ## Columns -/

open scoped Matrix

theorem Factory.eye_nat (p : Nat) :
    Factory.eye (α := ℝ) (p : Int) (p : Int) = .ok (of (1 : Matrix (Fin p) (Fin p) ℝ)) := by
  unfold Factory.eye Factory.defaultColumns
  simp only [show ¬((p : Int) = -1) by omega, if_false]
  rw [if_neg (by omega)]
  congr 1
  refine mk_eq (by simp) (by simp) fun i j => ?_
  simp [Matrix.one_apply, Fin.ext_iff]

/-- A column divided by its length. -/
noncomputable def nrm {p : Nat} (v : Matrix (Fin p) (Fin 1) ℝ) : Matrix (Fin p) (Fin 1) ℝ :=
  (Real.sqrt (sq1 v))⁻¹ • v

theorem sq1_nonneg {p : Nat} (v : Matrix (Fin p) (Fin 1) ℝ) : 0 ≤ sq1 v :=
  Finset.sum_nonneg fun _ _ => mul_self_nonneg _

theorem sq1_eq_zero {p : Nat} (v : Matrix (Fin p) (Fin 1) ℝ) : sq1 v = 0 ↔ v = 0 := by
  unfold sq1
  rw [Finset.sum_eq_zero_iff_of_nonneg fun _ _ => mul_self_nonneg _]
  constructor
  · intro h
    ext i j
    rw [Subsingleton.elim j 0]
    exact mul_self_eq_zero.mp (h i (Finset.mem_univ _))
  · rintro rfl i _
    simp

theorem sq1_smul {p : Nat} (a : ℝ) (v : Matrix (Fin p) (Fin 1) ℝ) : sq1 (a • v) = a * a * sq1 v := by
  unfold sq1
  rw [Finset.mul_sum]
  refine Finset.sum_congr rfl fun l _ => ?_
  rw [Matrix.smul_apply, smul_eq_mul]
  ring

theorem sq1_nrm {p : Nat} (v : Matrix (Fin p) (Fin 1) ℝ) (h : v ≠ 0) : sq1 (nrm v) = 1 := by
  have h0 : sq1 v ≠ 0 := fun e => h ((sq1_eq_zero v).mp e)
  rw [nrm, sq1_smul, ← mul_inv, Real.mul_self_sqrt (sq1_nonneg v), inv_mul_cancel₀ h0]

theorem normalized_col {p : Nat} (v : Matrix (Fin p) (Fin 1) ℝ) : (of v).normalized = .ok (of (nrm v)) := by
  show Except.ok _ = _
  congr 1
  refine mk_congr fun i j => ?_
  simp only [Matrix.of_apply, nrm, Matrix.smul_apply, smul_eq_mul, sumFin_eq]
  rw [div_eq_inv_mul, Subsingleton.elim j 0]
  rfl

theorem unit_gram {p : Nat} (v : Matrix (Fin p) (Fin 1) ℝ) (h : sq1 v = 1) : vᵀ * v = 1 := by
  rw [col_gram, h, one_smul]

/-- A scalar as a `1 × 1` matrix commutes out. -/
theorem mul_one_one {p : Nat} (v : Matrix (Fin p) (Fin 1) ℝ) (q : Matrix (Fin 1) (Fin 1) ℝ) : v * q = q 0 0 • v := by
  ext i j
  rw [Subsingleton.elim j 0, Matrix.mul_apply]
  simp [mul_comm]

/-! ## The recursion -/

section recursion

variable {n p : Nat} (qf : Matrix (Fin 1) (Fin 1) ℝ → Matrix (Fin 1) (Fin 1) ℝ)
  (X : Matrix (Fin n) (Fin p) ℝ) (y : Matrix (Fin n) (Fin 1) ℝ)

/-- `A`, `C`, `M`. -/
structure Sim (p : Nat) where
  A : Matrix (Fin p) (Fin 1) ℝ
  C : Matrix (Fin p) (Fin p) ℝ
  M : Matrix (Fin p) (Fin p) ℝ

/-- Unscaled weights. -/
def Sim.u (s : Sim p) : Matrix (Fin p) (Fin 1) ℝ := s.A * qf (s.Aᵀ * s.A)
/-- Weights. -/
noncomputable def Sim.w (s : Sim p) : Matrix (Fin p) (Fin 1) ℝ :=
  (1 / Real.sqrt (((s.u qf)ᵀ * s.M * s.u qf) 0 0)) • s.u qf
/-- Loadings. -/
noncomputable def Sim.ld (s : Sim p) : Matrix (Fin p) (Fin 1) ℝ := s.M * s.w qf
/-- New direction of the loadings. -/
noncomputable def Sim.v (s : Sim p) : Matrix (Fin p) (Fin 1) ℝ := nrm (s.C * s.ld qf)
/-- One component. -/
noncomputable def Sim.next (s : Sim p) : Sim p where
  A := (s.C - s.v qf * (s.v qf)ᵀ) * s.A
  C := s.C - s.v qf * (s.v qf)ᵀ
  M := s.M - s.ld qf * (s.ld qf)ᵀ

/-- State before component `h`. -/
noncomputable def sim : Nat → Sim p
  | 0 => ⟨Xᵀ * y, 1, Xᵀ * X⟩
  | h + 1 => (sim h).next qf

/-- Weights of component `h`. -/
noncomputable def simW (h : Nat) : Matrix (Fin p) (Fin 1) ℝ := (sim qf X y h).w qf
/-- Loadings of component `h`. -/
noncomputable def simP (h : Nat) : Matrix (Fin p) (Fin 1) ℝ := (sim qf X y h).ld qf
/-- Response loading of component `h`. -/
noncomputable def simQ (h : Nat) : Matrix (Fin 1) (Fin 1) ℝ := (sim qf X y h).Aᵀ * simW qf X y h
/-- Norm the code divides by, before the root: the squared length of the unscaled scores. -/
noncomputable def simU (h : Nat) : Matrix (Fin p) (Fin 1) ℝ := (sim qf X y h).u qf

/-- What holds before component `h`. -/
structure SimInv (h : Nat) : Prop where
  symm : (sim qf X y h).Cᵀ = (sim qf X y h).C
  idem : (sim qf X y h).C * (sim qf X y h).C = (sim qf X y h).C
  kill : ∀ j < h, (sim qf X y h).C * simP qf X y j = 0
  fix : (sim qf X y h).C * (sim qf X y h).A = (sim qf X y h).A
  mSymm : (sim qf X y h).Mᵀ = (sim qf X y h).M
  mSum : (sim qf X y h).M = Xᵀ * X - ∑ j ∈ Finset.range h, simP qf X y j * (simP qf X y j)ᵀ
  mKill : ∀ j < h, (sim qf X y h).M * simW qf X y j = 0

variable {qf X y}

/-- On vectors fixed by `C` the deflated `M` acts as `XᵀX`. -/
theorem SimInv.M_fixed {h : Nat} (i : SimInv qf X y h) {x : Matrix (Fin p) (Fin 1) ℝ}
    (hx : (sim qf X y h).C * x = x) : (sim qf X y h).M * x = Xᵀ * X * x := by
  rw [i.mSum, Matrix.sub_mul, Matrix.sum_mul, Finset.sum_eq_zero, sub_zero]
  intro j hj
  have h1 := i.kill j (Finset.mem_range.mp hj)
  rw [Matrix.mul_assoc]
  have : (simP qf X y j)ᵀ * x = 0 := by
    rw [← hx, ← Matrix.mul_assoc]
    have := congrArg Matrix.transpose h1
    rw [Matrix.transpose_mul, i.symm, Matrix.transpose_zero] at this
    rw [this, Matrix.zero_mul]
  rw [this, Matrix.mul_zero]

theorem SimInv.u_fixed {h : Nat} (i : SimInv qf X y h) : (sim qf X y h).C * simU qf X y h = simU qf X y h := by
  unfold simU Sim.u
  rw [← Matrix.mul_assoc, i.fix]

/-- The number under the root is the squared length of the unscaled scores. -/
theorem SimInv.c_eq {h : Nat} (i : SimInv qf X y h) :
    ((simU qf X y h)ᵀ * (sim qf X y h).M * simU qf X y h) 0 0 = sq1 (X * simU qf X y h) := by
  rw [Matrix.mul_assoc, i.M_fixed i.u_fixed, ← sq1_eq, Matrix.transpose_mul, Matrix.mul_assoc, Matrix.mul_assoc]

theorem SimInv.w_eq {h : Nat} (i : SimInv qf X y h) :
    simW qf X y h = (Real.sqrt (sq1 (X * simU qf X y h)))⁻¹ • simU qf X y h := by
  show (1 / Real.sqrt (((simU qf X y h)ᵀ * (sim qf X y h).M * simU qf X y h) 0 0)) • simU qf X y h = _
  rw [i.c_eq, one_div]

theorem SimInv.w_fixed {h : Nat} (i : SimInv qf X y h) : (sim qf X y h).C * simW qf X y h = simW qf X y h := by
  rw [i.w_eq, Matrix.mul_smul, i.u_fixed]

theorem SimInv.p_eq {h : Nat} (i : SimInv qf X y h) : simP qf X y h = Xᵀ * X * simW qf X y h :=
  i.M_fixed i.w_fixed

/-- Scores have unit length. -/
theorem SimInv.t_unit {h : Nat} (i : SimInv qf X y h) (hc : X * simU qf X y h ≠ 0) :
    sq1 (X * simW qf X y h) = 1 := by
  have h0 : sq1 (X * simU qf X y h) ≠ 0 := fun e => hc ((sq1_eq_zero _).mp e)
  rw [i.w_eq, Matrix.mul_smul, sq1_smul, ← mul_inv, Real.mul_self_sqrt (sq1_nonneg _), inv_mul_cancel₀ h0]

theorem SimInv.w_p {h : Nat} (i : SimInv qf X y h) (hc : X * simU qf X y h ≠ 0) :
    (simW qf X y h)ᵀ * simP qf X y h = 1 := by
  rw [i.p_eq, Matrix.mul_assoc, ← Matrix.mul_assoc, ← Matrix.transpose_mul, unit_gram _ (i.t_unit hc)]

theorem SimInv.Cp_ne {h : Nat} (i : SimInv qf X y h) (hc : X * simU qf X y h ≠ 0) :
    (sim qf X y h).C * simP qf X y h ≠ 0 := by
  intro e
  have h1 := i.w_p hc
  have h2 : (simW qf X y h)ᵀ * ((sim qf X y h).C * simP qf X y h) = 1 := by
    have := congrArg Matrix.transpose i.w_fixed
    rw [Matrix.transpose_mul, i.symm] at this
    rw [← Matrix.mul_assoc, this, h1]
  rw [e, Matrix.mul_zero] at h2
  have := congrFun (congrFun h2 0) 0
  simp at this

/-- New direction of component `h`. -/
noncomputable def simV (qf : Matrix (Fin 1) (Fin 1) ℝ → Matrix (Fin 1) (Fin 1) ℝ) (X : Matrix (Fin n) (Fin p) ℝ)
    (y : Matrix (Fin n) (Fin 1) ℝ) (h : Nat) : Matrix (Fin p) (Fin 1) ℝ := (sim qf X y h).v qf

theorem SimInv.v_gram {h : Nat} (i : SimInv qf X y h) (hc : X * simU qf X y h ≠ 0) :
    (simV qf X y h)ᵀ * simV qf X y h = 1 := unit_gram _ (sq1_nrm _ (i.Cp_ne hc))

theorem SimInv.v_fixed {h : Nat} (i : SimInv qf X y h) : (sim qf X y h).C * simV qf X y h = simV qf X y h := by
  show _ * nrm ((sim qf X y h).C * simP qf X y h) = nrm ((sim qf X y h).C * simP qf X y h)
  rw [nrm, Matrix.mul_smul, ← Matrix.mul_assoc, i.idem]

theorem sim_C_succ (h : Nat) : (sim qf X y (h + 1)).C =
    (sim qf X y h).C - simV qf X y h * (simV qf X y h)ᵀ := rfl
theorem sim_M_succ (h : Nat) : (sim qf X y (h + 1)).M =
    (sim qf X y h).M - simP qf X y h * (simP qf X y h)ᵀ := rfl
theorem sim_A_succ (h : Nat) : (sim qf X y (h + 1)).A = (sim qf X y (h + 1)).C * (sim qf X y h).A := rfl

theorem simInv_zero : SimInv qf X y 0 where
  symm := Matrix.transpose_one
  idem := Matrix.one_mul _
  kill := fun j hj => absurd hj (Nat.not_lt_zero j)
  fix := Matrix.one_mul _
  mSymm := by
    show (Xᵀ * X)ᵀ = Xᵀ * X
    rw [Matrix.transpose_mul, Matrix.transpose_transpose]
  mSum := by simp [sim]
  mKill := fun j hj => absurd hj (Nat.not_lt_zero j)

theorem SimInv.succ {h : Nat} (i : SimInv qf X y h) (hc : X * simU qf X y h ≠ 0) : SimInv qf X y (h + 1) := by
  have hvv := i.v_gram hc
  have hCv := i.v_fixed
  have hvC : (simV qf X y h)ᵀ * (sim qf X y h).C = (simV qf X y h)ᵀ := by
    have := congrArg Matrix.transpose hCv
    rwa [Matrix.transpose_mul, i.symm] at this
  have hidem : (sim qf X y (h + 1)).C * (sim qf X y (h + 1)).C = (sim qf X y (h + 1)).C := by
    rw [sim_C_succ, Matrix.mul_sub, Matrix.sub_mul, Matrix.sub_mul, i.idem, ← Matrix.mul_assoc, hCv,
      Matrix.mul_assoc (simV qf X y h) _ (sim qf X y h).C, hvC, Matrix.mul_assoc (simV qf X y h),
      ← Matrix.mul_assoc (simV qf X y h)ᵀ (simV qf X y h), hvv, Matrix.one_mul, sub_self, sub_zero]
  refine ⟨?_, hidem, ?_, ?_, ?_, ?_, ?_⟩
  · rw [sim_C_succ, Matrix.transpose_sub, i.symm, Matrix.transpose_mul, Matrix.transpose_transpose]
  · intro j hj
    have hvk : ∀ x : Matrix (Fin p) (Fin 1) ℝ, (sim qf X y h).C * x = 0 → (simV qf X y h)ᵀ * x = 0 := by
      intro x hx
      rw [← hvC, Matrix.mul_assoc, hx, Matrix.mul_zero]
    rcases Nat.lt_succ_iff_lt_or_eq.mp hj with hj | rfl
    · rw [sim_C_succ, Matrix.sub_mul, i.kill j hj, Matrix.mul_assoc, hvk _ (i.kill j hj), Matrix.mul_zero, sub_zero]
    · -- `v vᵀ p = C p`
      have hr : Real.sqrt (sq1 ((sim qf X y j).C * simP qf X y j)) ≠ 0 := by
        rw [Ne, Real.sqrt_eq_zero (sq1_nonneg _)]
        exact fun e => i.Cp_ne hc ((sq1_eq_zero _).mp e)
      have hCp : (sim qf X y j).C * simP qf X y j =
          Real.sqrt (sq1 ((sim qf X y j).C * simP qf X y j)) • simV qf X y j := by
        show _ = _ • nrm ((sim qf X y j).C * simP qf X y j)
        rw [nrm, smul_smul, mul_inv_cancel₀ hr, one_smul]
      rw [sim_C_succ, Matrix.sub_mul, Matrix.mul_assoc, ← hvC, Matrix.mul_assoc (simV qf X y j)ᵀ, hCp,
        Matrix.mul_smul, hvv, Matrix.mul_smul, Matrix.mul_one, sub_self]
  · rw [sim_A_succ, ← Matrix.mul_assoc, hidem]
  · rw [sim_M_succ, Matrix.transpose_sub, i.mSymm, Matrix.transpose_mul, Matrix.transpose_transpose]
  · rw [sim_M_succ, Finset.sum_range_succ, ← sub_sub, ← i.mSum]
  · intro j hj
    rcases Nat.lt_succ_iff_lt_or_eq.mp hj with hj | rfl
    · have : (simP qf X y h)ᵀ * simW qf X y j = 0 := by
        show ((sim qf X y h).M * simW qf X y h)ᵀ * simW qf X y j = 0
        rw [Matrix.transpose_mul, i.mSymm, Matrix.mul_assoc, i.mKill j hj, Matrix.mul_zero]
      rw [sim_M_succ, Matrix.sub_mul, i.mKill j hj, Matrix.mul_assoc, this, Matrix.mul_zero, sub_zero]
    · have h1 := congrArg Matrix.transpose (i.w_p hc)
      rw [Matrix.transpose_mul, Matrix.transpose_transpose, Matrix.transpose_one] at h1
      rw [sim_M_succ, Matrix.sub_mul, Matrix.mul_assoc, h1, Matrix.mul_one]
      exact sub_self _

theorem simInv {K : Nat} (hc : ∀ h < K, X * simU qf X y h ≠ 0) : ∀ h ≤ K, SimInv qf X y h
  | 0, _ => simInv_zero
  | h + 1, hh => (simInv hc h (by omega)).succ (hc h (by omega))

/-- Scores are orthonormal. -/
theorem sim_orth {K : Nat} (hc : ∀ h < K, X * simU qf X y h ≠ 0) (i j : Nat) (hi : i < K) (hj : j < K) :
    (X * simW qf X y i)ᵀ * (X * simW qf X y j) = if i = j then 1 else 0 := by
  have key : ∀ i j, i < j → j < K → (X * simW qf X y i)ᵀ * (X * simW qf X y j) = 0 := by
    intro i j hij hj
    have I := simInv hc j (by omega)
    have h1 := I.M_fixed I.w_fixed
    rw [Matrix.transpose_mul, Matrix.mul_assoc, ← Matrix.mul_assoc Xᵀ, ← h1]
    have h2 := congrArg Matrix.transpose (I.mKill i hij)
    rw [Matrix.transpose_mul, I.mSymm, Matrix.transpose_zero] at h2
    rw [← Matrix.mul_assoc, h2, Matrix.zero_mul]
  rcases lt_trichotomy i j with h | rfl | h
  · rw [if_neg (by omega), key i j h hj]
  · rw [if_pos rfl]
    exact unit_gram _ ((simInv hc i (by omega)).t_unit (hc i hi))
  · have := congrArg Matrix.transpose (key j i h hi)
    rw [Matrix.transpose_mul, Matrix.transpose_transpose, Matrix.transpose_zero] at this
    rw [if_neg (by omega), this]

/-- Vectors fixed by a later projection are fixed by the earlier ones. -/
theorem sim_fixed_down {K : Nat} (hc : ∀ h < K, X * simU qf X y h ≠ 0) {x : Matrix (Fin p) (Fin 1) ℝ} (j d : Nat)
    (hd : j + d ≤ K) (hx : (sim qf X y (j + d)).C * x = x) : (sim qf X y j).C * x = x := by
  induction d with
  | zero => exact hx
  | succ d ih =>
    refine ih (by omega) ?_
    have I := simInv hc (j + d) (by omega)
    have I1 := simInv hc (j + d + 1) (by omega)
    have hcv : (sim qf X y (j + d + 1)).C * simV qf X y (j + d) = 0 := by
      rw [sim_C_succ, Matrix.sub_mul, I.v_fixed, Matrix.mul_assoc, I.v_gram (hc _ (by omega)), Matrix.mul_one, sub_self]
    have hv : (simV qf X y (j + d))ᵀ * x = 0 := by
      have h2 := congrArg Matrix.transpose hcv
      rw [Matrix.transpose_mul, I1.symm, Matrix.transpose_zero] at h2
      have hx' : (sim qf X y (j + d + 1)).C * x = x := hx
      rw [← hx', ← Matrix.mul_assoc, h2, Matrix.zero_mul]
    have h3 : (sim qf X y (j + d + 1)).C * x = x := hx
    rw [sim_C_succ, Matrix.sub_mul, Matrix.mul_assoc, hv, Matrix.mul_zero, sub_zero] at h3
    exact h3

/-- The response loading is the product of score and response. -/
theorem simQ_eq {K : Nat} (hc : ∀ h < K, X * simU qf X y h ≠ 0) (h : Nat) (hh : h < K) :
    simQ qf X y h = yᵀ * (X * simW qf X y h) := by
  have key : ∀ d j, j + d = h → (sim qf X y h).Aᵀ * simW qf X y h = (sim qf X y j).Aᵀ * simW qf X y h := by
    intro d
    induction d with
    | zero => rintro j rfl; rfl
    | succ d ih =>
      intro j hj
      rw [ih (j + 1) (by omega), sim_A_succ, Matrix.transpose_mul, (simInv hc (j + 1) (by omega)).symm,
        Matrix.mul_assoc]
      congr 1
      refine sim_fixed_down hc (j + 1) d (by omega) ?_
      rw [show j + 1 + d = h by omega]
      exact (simInv hc h (by omega)).w_fixed
  unfold simQ
  rw [key h 0 (by omega)]
  rw [show (sim qf X y 0).A = Xᵀ * y from rfl, Matrix.transpose_mul, Matrix.transpose_transpose, Matrix.mul_assoc]

end recursion

/-! ## Matrices -/

section code

variable {n p : Nat} (qf : Matrix (Fin 1) (Fin 1) ℝ → Matrix (Fin 1) (Fin 1) ℝ)
  (X : Matrix (Fin n) (Fin p) ℝ) (y : Matrix (Fin n) (Fin 1) ℝ)

/-- All weights. -/
noncomputable def simWM (K : Nat) : Matrix (Fin p) (Fin K) ℝ := Matrix.of fun i j => simW qf X y j.1 i 0
/-- All response loadings. -/
noncomputable def simQM (K : Nat) : Matrix (Fin 1) (Fin K) ℝ := Matrix.of fun i j => simQ qf X y j.1 i 0

theorem simplsStep_eq (dom : Mat ℝ → Except PyErr (Mat ℝ)) (K h : Nat) (hh : h < K)
    (hdom : ∀ a : Matrix (Fin 1) (Fin 1) ℝ, dom (of a) = .ok (of (qf a))) :
    simplsStep dom (h : Int)
      ⟨of (sim qf X y h).A, of (sim qf X y h).M, of (sim qf X y h).C,
        of (colsUpTo (simW qf X y) h : Matrix (Fin p) (Fin K) ℝ),
        of (colsUpTo (simP qf X y) h : Matrix (Fin p) (Fin K) ℝ),
        of (colsUpTo (simQ qf X y) h : Matrix (Fin 1) (Fin K) ℝ)⟩ =
      .ok ⟨of (sim qf X y (h + 1)).A, of (sim qf X y (h + 1)).M, of (sim qf X y (h + 1)).C,
        of (colsUpTo (simW qf X y) (h + 1) : Matrix (Fin p) (Fin K) ℝ),
        of (colsUpTo (simP qf X y) (h + 1) : Matrix (Fin p) (Fin K) ℝ),
        of (colsUpTo (simQ qf X y) (h + 1) : Matrix (Fin 1) (Fin K) ℝ)⟩ := by
  unfold simplsStep
  simp only [transpose_of, mul_of, except_bind_ok, hdom, asReal_of, smul_of]
  rw [show (1 / HasSqrt.sqrt (((((sim qf X y h).A * qf ((sim qf X y h).Aᵀ * (sim qf X y h).A))ᵀ *
    (sim qf X y h).M) * ((sim qf X y h).A * qf ((sim qf X y h).Aᵀ * (sim qf X y h).A))) 0 0)) •
    ((sim qf X y h).A * qf ((sim qf X y h).Aᵀ * (sim qf X y h).A)) = simW qf X y h from rfl]
  simp only [except_bind_ok, colsUpTo_set _ h hh]
  rw [show (sim qf X y h).M * simW qf X y h = simP qf X y h from rfl,
    show (sim qf X y h).Aᵀ * simW qf X y h = simQ qf X y h from rfl]
  simp only [mul_of, except_bind_ok, colsUpTo_set _ h hh, normalized_col, transpose_of, sub_of]
  rfl

theorem simplsTrain_eq (dom : Mat ℝ → Except PyErr (Mat ℝ)) (K : Nat) (hp : 0 < p) (count : Int)
    (hdom : ∀ a : Matrix (Fin 1) (Fin 1) ℝ, dom (of a) = .ok (of (qf a))) :
    simplsTrain dom (K : Int) count (of X) (of y) =
      if count > 0 then do
        let W ← slim count (of (simWM qf X y K))
        let B ← W.mul (of (simQM qf X y K)ᵀ)
        .ok ⟨W, B, of (simQM qf X y K)⟩
      else .ok ⟨of (simWM qf X y K), of (simWM qf X y K * (simQM qf X y K)ᵀ), of (simQM qf X y K)⟩ := by
  unfold simplsTrain simplsInit
  have he := Factory.eye_nat p
  have hz : Factory.zeros (α := ℝ) 1 (K : Int) = .ok (of (0 : Matrix (Fin 1) (Fin K) ℝ)) :=
    Factory.zeros_nat (m := 1) (by decide) K
  simp only [transpose_of, mul_of, except_bind_ok, he, hz, Factory.zeros_nat hp]
  have hloop := loopM_range (simplsStep dom) (fun h =>
      ⟨of (sim qf X y h).A, of (sim qf X y h).M, of (sim qf X y h).C,
        of (colsUpTo (simW qf X y) h : Matrix (Fin p) (Fin K) ℝ),
        of (colsUpTo (simP qf X y) h : Matrix (Fin p) (Fin K) ℝ),
        of (colsUpTo (simQ qf X y) h : Matrix (Fin 1) (Fin K) ℝ)⟩) K
    fun h hh => simplsStep_eq qf X y dom K h hh hdom
  simp only [colsUpTo_zero, colsUpTo_all] at hloop
  rw [show (sim qf X y 0).A = Xᵀ * y from rfl, show (sim qf X y 0).M = Xᵀ * X from rfl,
    show (sim qf X y 0).C = 1 from rfl] at hloop
  rw [hloop]
  simp only [except_bind_ok]
  by_cases h : count > 0
  · rw [if_pos h, if_pos h]
    rfl
  · rw [if_neg h, if_neg h]
    simp only [except_bind_ok, transpose_of, mul_of]
    rfl

/-- Orthonormal scores, as one matrix equation. -/
theorem simWM_gram (K : Nat) (hc : ∀ h < K, X * simU qf X y h ≠ 0) :
    (X * simWM qf X y K)ᵀ * (X * simWM qf X y K) = 1 := by
  have hcol : ∀ (a : Fin n) (j : Fin K), (X * simWM qf X y K) a j = (X * simW qf X y j.1) a 0 := by
    intro a j
    simp only [Matrix.mul_apply, simWM, Matrix.of_apply]
  ext i j
  have h1 := congrFun (congrFun (sim_orth hc i.1 j.1 i.2 j.2) 0) 0
  rw [Matrix.mul_apply] at h1 ⊢
  simp only [Matrix.transpose_apply, hcol] at h1 ⊢
  rw [h1]
  by_cases hij : i = j
  · subst hij; simp
  · have : i.1 ≠ j.1 := fun e => hij (Fin.ext e)
    rw [if_neg this, Matrix.one_apply_ne hij, Matrix.zero_apply]

theorem simQM_eq (K : Nat) (hc : ∀ h < K, X * simU qf X y h ≠ 0) :
    (simQM qf X y K)ᵀ = (X * simWM qf X y K)ᵀ * y := by
  ext j a
  rw [Subsingleton.elim a 0]
  show simQ qf X y j.1 0 0 = _
  rw [simQ_eq hc j.1 j.2, Matrix.mul_apply, Matrix.mul_apply]
  refine Finset.sum_congr rfl fun l _ => ?_
  rw [Matrix.transpose_apply, Matrix.transpose_apply, mul_comm]
  congr 1

/-! ## Slimming -/

theorem realCmp_eq : (realCmp : Utils.Cmp ℝ) = Utils.keyCmp some := rfl

/-- What `utils.sort` gives for a list of reals: a permutation reading the list in ascending order. -/
theorem sort_real (f : Fin p → ℝ) : ∃ srt : List Nat, ∃ σ : Fin p → Fin p,
    Utils.sort realCmp true ((List.ofFn f).length + 1) (List.ofFn f) = .ok srt ∧
      srt = List.ofFn (fun i => (σ i).1) ∧ Function.Bijective σ ∧ ∀ i j, i ≤ j → f (σ i) ≤ f (σ j) := by
  obtain ⟨srt, h, hs⟩ := Utils.sort_ok (key := some) (List.ofFn f) ((List.ofFn f).length + 1) (Nat.lt_succ_self _)
  have hperm := Utils.sort_perm h
  rw [List.length_ofFn] at hperm
  have hlen : srt.length = p := by rw [hperm.length_eq, List.length_range]
  have hlt : ∀ i (hi : i < srt.length), srt[i] < p := fun i hi =>
    List.mem_range.mp (hperm.mem_iff.mp (List.getElem_mem hi))
  let σ : Fin p → Fin p := fun i => ⟨srt[i.1]'(by omega), hlt _ _⟩
  have hinj : Function.Injective σ := by
    intro a b hab
    have hnd : srt.Nodup := hperm.nodup_iff.mpr List.nodup_range
    have h1 : srt[a.1]'(by omega) = srt[b.1]'(by omega) := congrArg Fin.val hab
    exact Fin.ext ((List.Nodup.getElem_inj_iff hnd).mp h1)
  refine ⟨srt, σ, ?_, ?_, Finite.injective_iff_bijective.mp hinj, ?_⟩
  · exact h
  · refine List.ext_getElem (by simp [hlen]) fun i h1 h2 => ?_
    simp [σ]
  · intro i j hij
    have h1 := hs (fun a _ => by simp) 0 i.1 j.1 hij (by simp)
    have e : ∀ k : Fin p, Utils.X (List.ofFn f) 0 srt k.1 = f (σ k) := by
      intro k
      have hk : k.1 < srt.length := by omega
      unfold Utils.X
      rw [List.getD_eq_getElem?_getD, List.getD_eq_getElem?_getD, List.getElem?_eq_getElem hk, Option.getD_some,
        List.getElem?_eq_getElem (by rw [List.length_ofFn]; exact hlt _ hk), Option.getD_some, List.getElem_ofFn]
    rw [e, e] at h1
    have h2 : decide (f (σ i) > f (σ j)) = false := h1
    exact not_lt.mp (of_decide_eq_false h2)

theorem card_below {f : Fin p → ℝ} {σ : Fin p → Fin p} (hb : Function.Bijective σ)
    (hm : ∀ i j, i ≤ j → f (σ i) ≤ f (σ j)) (m : Fin p) :
    (Finset.univ.filter fun i => f i < f (σ m)).card ≤ m.1 ∧
      m.1 + 1 ≤ (Finset.univ.filter fun i => f i ≤ f (σ m)).card := by
  have hcard : ((Finset.univ.filter fun i : Fin p => i < m).image σ).card = m.1 := by
    rw [Finset.card_image_of_injective _ hb.1, show (Finset.univ.filter fun i : Fin p => i < m) = Finset.Iio m by
      ext i; simp]
    exact Fin.card_Iio m
  have hsub : (Finset.univ.filter fun i => f i < f (σ m)) ⊆ (Finset.univ.filter fun i : Fin p => i < m).image σ := by
    intro i hi
    obtain ⟨k, rfl⟩ := hb.2 i
    refine Finset.mem_image.mpr ⟨k, Finset.mem_filter.mpr ⟨Finset.mem_univ _, ?_⟩, rfl⟩
    by_contra h
    exact absurd (Finset.mem_filter.mp hi).2 (not_lt.mpr (hm m k (not_lt.mp h)))
  refine ⟨hcard ▸ Finset.card_le_card hsub, ?_⟩
  have hcard' : ((Finset.Iic m).image σ).card = m.1 + 1 := by
    rw [Finset.card_image_of_injective _ hb.1]
    exact Fin.card_Iic m
  rw [← hcard']
  refine Finset.card_le_card fun i hi => ?_
  obtain ⟨k, hk, rfl⟩ := Finset.mem_image.mp hi
  exact Finset.mem_filter.mpr ⟨Finset.mem_univ _, hm k m (Finset.mem_Iic.mp hk)⟩

/-- Partially slimmed column `i`: rows before `c` are done. -/
noncomputable def slimCells {K : Nat} (W R : Matrix (Fin p) (Fin K) ℝ) (val : ℝ) (i : Fin K) (c : Nat) :
    Matrix (Fin p) (Fin K) ℝ :=
  Matrix.of fun a b => if b = i ∧ a.1 < c ∧ |W a b| < val then 0 else R a b

theorem slimCell_eq {K : Nat} (W R : Matrix (Fin p) (Fin K) ℝ) (val : ℝ) (i : Fin K) (c : Nat) (hc : c < p) :
    slimCell (of W) val (i.1 : Int) (c : Int) (of (slimCells W R val i c)) = .ok (of (slimCells W R val i (c + 1))) := by
  unfold slimCell
  have hg := get_of W ⟨c, hc⟩ i
  simp only [] at hg
  rw [hg]
  simp only [except_bind_ok]
  by_cases h : |W ⟨c, hc⟩ i| < val
  · rw [if_pos h]
    have hs := set_of (slimCells W R val i c) ⟨c, hc⟩ i 0
    refine hs.trans ?_
    congr 1
    refine mk_congr fun a b => ?_
    simp only [slimCells, Matrix.of_apply]
    by_cases hb : b = i
    · subst hb
      by_cases ha : a = ⟨c, hc⟩
      · subst ha
        rw [if_pos ⟨rfl, rfl⟩, if_pos ⟨rfl, Nat.lt_succ_self c, h⟩]
      · have ha' : a.1 ≠ c := fun e => ha (Fin.ext e)
        rw [if_neg fun e => ha e.1]
        have : a.1 < c ↔ a.1 < c + 1 := by omega
        simp only [this]
    · rw [if_neg fun e => hb e.2, if_neg fun e => hb e.1, if_neg fun e => hb e.1]
  · rw [if_neg h]
    congr 1
    refine mk_congr fun a b => ?_
    simp only [slimCells, Matrix.of_apply]
    by_cases hb : b = i
    · subst hb
      by_cases ha : a = ⟨c, hc⟩
      · subst ha
        rw [if_neg fun e => h e.2.2, if_neg fun e => h e.2.2]
      · have ha' : a.1 ≠ c := fun e => ha (Fin.ext e)
        have : a.1 < c ↔ a.1 < c + 1 := by omega
        simp only [this]
    · rw [if_neg fun e => hb e.1, if_neg fun e => hb e.1]

/-- Columns before `k` slimmed with thresholds `thr`. -/
noncomputable def slimCols {K : Nat} (W : Matrix (Fin p) (Fin K) ℝ) (thr : Fin K → ℝ) (k : Nat) :
    Matrix (Fin p) (Fin K) ℝ :=
  Matrix.of fun a b => if b.1 < k ∧ |W a b| < thr b then 0 else W a b

/-- `slim` zeroes, in each column, the entries below a threshold; at most `m = max(p - 1 - count, 0)` entries are
below the threshold and at least `m + 1` do not exceed it. -/
theorem slim_eq {K : Nat} (hp : 0 < p) (count : Nat) (W : Matrix (Fin p) (Fin K) ℝ) :
    ∃ thr : Fin K → ℝ, slim (count : Int) (of W) = .ok (of (slimCols W thr K)) ∧
      ∀ j, (Finset.univ.filter fun i => |W i j| < thr j).card ≤ p - 1 - count ∧
        p - 1 - count + 1 ≤ (Finset.univ.filter fun i => |W i j| ≤ thr j).card := by
  have hm : p - 1 - count < p := by omega
  choose srt σ hsort hsrt hbij hmono using fun j : Fin K => sort_real fun i => |W i j|
  refine ⟨fun j => |W (σ j ⟨p - 1 - count, hm⟩) j|, ?_, fun j => card_below (f := fun i => |W i j|) (hbij j) (hmono j) _⟩
  unfold slim
  have hloop := loopM_range (slimColumn (count : Int) (of W))
    (fun k => of (slimCols W (fun j => |W (σ j ⟨p - 1 - count, hm⟩) j|) k)) K ?_
  · have h0 : slimCols W (fun j => |W (σ j ⟨p - 1 - count, hm⟩) j|) 0 = W := by
      ext a b
      simp [slimCols]
    rw [h0] at hloop
    exact hloop
  · intro k hk
    unfold slimColumn
    have hg := getColumn_of (slimCols W (fun j => |W (σ j ⟨p - 1 - count, hm⟩) j|) k) ⟨k, hk⟩
    have ecol : (Matrix.of fun a (_ : Fin 1) => slimCols W (fun j => |W (σ j ⟨p - 1 - count, hm⟩) j|) k a ⟨k, hk⟩) =
        Matrix.of fun a (_ : Fin 1) => W a ⟨k, hk⟩ := by
      ext a b
      simp [slimCols]
    rw [ecol] at hg
    simp only [] at hg
    rw [hg]
    simp only [except_bind_ok]
    have eraw : ((of (Matrix.of fun a (_ : Fin 1) => W a ⟨k, hk⟩)).toRawCopy1D.map fun x => |x|) =
        List.ofFn fun i => |W i ⟨k, hk⟩| := by
      simp [toRawCopy1D, List.map_ofFn, Function.comp_def]
    rw [eraw, hsort ⟨k, hk⟩]
    simp only [except_bind_ok]
    have hlen : (srt ⟨k, hk⟩).length = p := by rw [hsrt]; simp
    have hidx : max (((srt ⟨k, hk⟩).length : Int) - 1 - (count : Int)) 0 = ((p - 1 - count : Nat) : Int) := by
      rw [hlen]
      omega
    rw [hidx, Utils.item_ok (by omega)]
    simp only [except_bind_ok]
    have hval : (srt ⟨k, hk⟩)[p - 1 - count]'(by omega) = (σ ⟨k, hk⟩ ⟨p - 1 - count, hm⟩).1 := by
      simp [hsrt]
    rw [hval, Utils.item_ok (by simp)]
    simp only [except_bind_ok, List.getElem_ofFn, Fin.eta]
    have hl2 := loopM_range (slimCell (of W) |W (σ ⟨k, hk⟩ ⟨p - 1 - count, hm⟩) ⟨k, hk⟩| (k : Int))
      (fun c => of (slimCells W (slimCols W (fun j => |W (σ j ⟨p - 1 - count, hm⟩) j|) k)
        |W (σ ⟨k, hk⟩ ⟨p - 1 - count, hm⟩) ⟨k, hk⟩| ⟨k, hk⟩ c)) p
      (fun c hc => slimCell_eq _ _ _ ⟨k, hk⟩ c hc)
    have e0 : slimCells W (slimCols W (fun j => |W (σ j ⟨p - 1 - count, hm⟩) j|) k)
        |W (σ ⟨k, hk⟩ ⟨p - 1 - count, hm⟩) ⟨k, hk⟩| ⟨k, hk⟩ 0 =
        slimCols W (fun j => |W (σ j ⟨p - 1 - count, hm⟩) j|) k := by
      ext a b
      simp [slimCells]
    have e1 : slimCells W (slimCols W (fun j => |W (σ j ⟨p - 1 - count, hm⟩) j|) k)
        |W (σ ⟨k, hk⟩ ⟨p - 1 - count, hm⟩) ⟨k, hk⟩| ⟨k, hk⟩ p =
        slimCols W (fun j => |W (σ j ⟨p - 1 - count, hm⟩) j|) (k + 1) := by
      ext a b
      simp only [slimCells, slimCols, Matrix.of_apply, a.2, true_and]
      by_cases hb : b = ⟨k, hk⟩
      · subst hb
        simp
      · have hb' : b.1 ≠ k := fun e => hb (Fin.ext e)
        have : b.1 < k + 1 ↔ b.1 < k := by omega
        rw [if_neg fun e => hb e.1]
        simp only [this]
    simp only [e0, e1] at hl2
    exact hl2

end code

end Verif
