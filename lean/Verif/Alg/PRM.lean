import Verif.Alg.NIPALS
import Verif.Core.Eigen
import Verif.Core.Ext

/-!
# PRM

`src/wai/ma/algorithm/pls/_PRM.py`.  The inner SIMPLS model, `np.median` and `np.linalg.svd` are parameters.
-/

set_option linter.unusedSectionVars false

namespace Verif

open Mat

variable {α : Type}

/-! ## The code -/

/-- What training reads from the inner SIMPLS model: `transform(X_p)`, and the matrices `Q`, `B` and `W`. -/
structure PrmBase (α : Type) where
  T : Mat α
  Q : Mat α
  B : Mat α
  W : Mat α

/-- Options and external routines. -/
structure PrmCfg (α : Type) where
  K : Int
  tol : α
  maxIter : Int
  C : α
  /-- The constant `1e-10`. -/
  eps : α
  /-- `np.median(data)`. -/
  med : Mat α → α
  /-- Training a new SIMPLS object and reading its matrices, lines 242-250 and 264. -/
  base : Mat α → Mat α → Except PyErr (PrmBase α)
  /-- `np.linalg.svd(data, full_matrices=False)`. -/
  svd : Mat α → Except PyErr (Mat α × Mat α × Mat α)

/-- Attributes during training. -/
structure PrmState (α : Type) where
  Wr : Mat α
  Wx : Mat α
  T : Option (Mat α)
  gamma : Mat α
  base : Option (PrmBase α)

/-- Attributes after training, and the local variable `iteration`. -/
structure PrmModel (α : Type) where
  state : PrmState α
  iterations : Int
  B : Mat α

/-- `for i in range(n): M.set(i, 0, f(i))`. -/
def fillCol (n : Nat) (f : Int → Except PyErr α) (M : Mat α) : Except PyErr (Mat α) :=
  fillLoop (fun i _ => f i) (pairs (pyRange 0 (n : Int)) (pyRange 0 (1 : Nat))) M

section code
variable [Add α] [Sub α] [Mul α] [Neg α] [Zero α] [One α] [Div α] [NatCast α] [HasSqrt α] [LT α] [DecidableLT α]

/-- Python's `abs` of a number. -/
def pyAbs (x : α) : α := if x < 0 then -x else x

/-- `fair_function`, `_PRM.py` 116-126. -/
def fair (z c : α) : α := 1 / ((1 + pyAbs (z / c)) * (1 + pyAbs (z / c)))

/-- `c_dist`, `_PRM.py` 329-342. -/
def cDist (X v : Mat α) : Except PyErr (Mat α) := do
  let D ← Factory.zeros (X.rows : Int) 1
  fillCol X.rows (fun i => do
    let r ← X.getRow i
    let d ← r.sub v
    .ok d.norm2) D

/-- The inverted distance, `_PRM.py` 309-314; `1.0 / 0.1` is `10`. -/
def invDist (eps v : α) : α := if pyAbs v < eps then ((10 : Nat) : α) else 1 / v

/-- One Weiszfeld step, `_PRM.py` 307-318. -/
def geoStep (cfg : PrmCfg α) (X guess : Mat α) : Except PyErr (Mat α) := do
  let d ← cDist X guess
  let d := d.map (invDist cfg.eps)
  let a ← X.scaleByColumnVector d
  let s ← d.colSums.asReal
  .ok (a.colSums.div s)

/-- `geometric_median` loop, `_PRM.py` 305-327. -/
def geoLoop (cfg : PrmCfg α) (X : Mat α) (iter : Int) (guess : Mat α) : Except PyErr (Mat α) :=
  if h : iter < cfg.maxIter then do
    let next ← geoStep cfg X guess
    let d ← next.sub guess
    if d.norm2Squared < cfg.tol then .ok next else geoLoop cfg X (iter + 1) next
  else .ok guess
termination_by (cfg.maxIter - iter).toNat

/-- `geometric_median`, `_PRM.py` 290-327. -/
def geoMedian (cfg : PrmCfg α) (X : Mat α) : Except PyErr (Mat α) := geoLoop cfg X 0 X.columnMeans

/-- `update_leverage_weights`, `_PRM.py` 138-156. -/
def leverageWeights (cfg : PrmCfg α) (T : Mat α) : Except PyErr (Mat α) := do
  let W ← Factory.zeros (T.rows : Int) 1
  let m ← geoMedian cfg T
  let D ← cDist T m
  fillCol T.rows (fun i => do
    let d ← D.get i 0
    .ok (fair (d / cfg.med D) cfg.C)) W

/-- The estimate of response `i`, `_PRM.py` 170-177; `tg` is `None` in the first iteration. -/
def prmEstimate (cfg : PrmCfg α) (y : Mat α) (tg : Option (Mat α × Mat α)) (i : Int) : Except PyErr α :=
  match tg with
  | none => .ok (cfg.med y)
  | some (T, g) => do
    let r ← T.getRow i
    let e ← r.mul g
    e.asReal

/-- The residuals, `_PRM.py` 168-182. -/
def prmResiduals (cfg : PrmCfg α) (n : Nat) (y : Mat α) (tg : Option (Mat α × Mat α)) : Except PyErr (Mat α) := do
  let R ← Factory.zeros (n : Int) 1
  fillCol n (fun i => do
    let e ← prmEstimate cfg y tg i
    let v ← y.get i 0
    .ok (v - e)) R

/-- `median_absolute_deviation`, `_PRM.py` 194-202. -/
def prmMad (cfg : PrmCfg α) (v : Mat α) : α := cfg.med (v.subScalar (cfg.med v)).abs

/-- `update_residual_weights`, `_PRM.py` 158-192. -/
def residualWeights (cfg : PrmCfg α) (n : Nat) (y : Mat α) (tg : Option (Mat α × Mat α)) : Except PyErr (Mat α) := do
  let W ← Factory.zeros (n : Int) 1
  let R ← prmResiduals cfg n y tg
  let R := R.div (prmMad cfg R)
  fillCol n (fun i => do
    let r ← R.get i 0
    .ok (fair r cfg.C)) W

/-- `get_reweighted_matrix`, `_PRM.py` 282-283. -/
def reweight (Wr Wx A : Mat α) : Except PyErr (Mat α) := do
  let w ← Wr.mulElementwise Wx
  A.scaleByColumnVector w.sqrt

/-- `get_combined_weight`, `_PRM.py` 285-288. -/
def combinedWeight (Wr Wx : Mat α) (i : Int) : Except PyErr α := do
  let a ← Wx.getRow i
  let a ← a.asReal
  let b ← Wr.getRow i
  let b ← b.asReal
  .ok (a * b)

/-- Rescaling a score, `_PRM.py` 253-256. -/
def rescaleRow (Wr Wx : Mat α) (i : Int) (T : Mat α) : Except PyErr (Mat α) := do
  let w ← combinedWeight Wr Wx i
  let r ← T.getRow i
  T.setRow i (r.div (HasSqrt.sqrt w))

/-- One pass of the training loop, `_PRM.py` 238-261. -/
def prmPass (cfg : PrmCfg α) (X y : Mat α) (s : PrmState α) : Except PyErr (PrmState α) := do
  let Xp ← reweight s.Wr s.Wx X
  let yp ← reweight s.Wr s.Wx y
  let b ← cfg.base Xp yp
  let T ← loopM (rescaleRow s.Wr s.Wx) (pyRange 0 (b.T.rows : Int)) b.T
  let Wr ← residualWeights cfg Xp.rows yp (some (T, b.Q.transpose))
  let Wx ← leverageWeights cfg T
  .ok ⟨Wr, Wx, some T, b.Q.transpose, some b⟩

/-- The loop after `iter` passes, `_PRM.py` 237: it goes on while the change is *below* the tolerance. -/
def prmMore (cfg : PrmCfg α) (X y : Mat α) (iter : Int) (old : Mat α) (s : PrmState α) :
    Except PyErr (PrmState α × Int) := do
  let d ← s.gamma.sub old
  if h : d.norm2Squared < cfg.tol ∧ iter < cfg.maxIter then do
    let s' ← prmPass cfg X y s
    prmMore cfg X y (iter + 1) s.gamma s'
  else .ok (s, iter)
termination_by (cfg.maxIter - iter).toNat

/-- The whole loop, `_PRM.py` 231-261: the first pass is unconditional. -/
def prmLoop (cfg : PrmCfg α) (X y Wr Wx : Mat α) : Except PyErr (PrmState α × Int) := do
  let g ← Factory.zeros cfg.K 1
  let s ← prmPass cfg X y ⟨Wr, Wx, none, g, none⟩
  prmMore cfg X y 1 g s

/-- Replacing wide predictors, `_PRM.py` 216-226. -/
def prmReplace (cfg : PrmCfg α) (X : Mat α) : Except PyErr (Option (Mat α) × Mat α) :=
  if X.rows < X.cols then do
    let d ← cfg.svd X.transpose
    let S ← svdS d.2.1
    let X' ← (svdV d.2.2).mul S
    .ok (some (svdU d.1), X')
  else .ok (none, X)

/-- The coefficients, `_PRM.py` 263-269. -/
def prmCoefs (U : Option (Mat α)) (b : Option (PrmBase α)) : Except PyErr (Mat α) :=
  match b with
  | none => .error .attributeError
  | some b =>
    match U with
    | none => .ok b.B
    | some U => U.mul b.B

/-- `do_perform_initialization`, `_PRM.py` 204-271. -/
def prmTrain (cfg : PrmCfg α) (X y : Mat α) : Except PyErr (PrmModel α) := do
  let r ← prmReplace cfg X
  let Wr ← residualWeights cfg r.2.rows y none
  let Wx ← leverageWeights cfg r.2
  let s ← prmLoop cfg r.2 y Wr Wx
  let B ← prmCoefs r.1 s.1.base
  .ok ⟨s.1, s.2, B⟩

/-- `do_perform_predictions`, `_PRM.py` 279-280. -/
def prmPredict (m : PrmModel α) (Z : Mat α) : Except PyErr (Mat α) := Z.mul m.B

/-- `do_transform`, `_PRM.py` 276-277: the weights `W` of the inner model, which is `None` before training. -/
def prmTransform (m : PrmModel α) (Z : Mat α) : Except PyErr (Mat α) :=
  match m.state.base with
  | none => .error .attributeError
  | some b => Z.mul b.W

/-- `get_matrix('W')`, `_PRM.py` 103-104. -/
def prmW (m : PrmModel α) : Except PyErr (Mat α) := m.state.Wr.mulElementwise m.state.Wx

end code

/-! ## Filling a column -/

theorem fillCol_of {n : Nat} (f : Int → Except PyErr α) (g : Fin n → α)
    (hf : ∀ i : Fin n, f ((i.1 : Nat) : Int) = .ok (g i)) (A : Matrix (Fin n) (Fin 1) α) :
    fillCol n f (of A) = .ok (of (Matrix.of fun i (_ : Fin 1) => g i)) :=
  fillLoop_all (fun i _ => f i) (fun i (_ : Fin 1) => g i) (fun i _ => hf i) A

section gen
variable [Add α] [Sub α] [Mul α] [Neg α] [Zero α] [One α] [Div α] [NatCast α] [HasSqrt α] [LT α] [DecidableLT α]

/-- The residuals of the first iteration. -/
theorem residuals_first (cfg : PrmCfg α) {n : Nat} (hn : 0 < n) (y : Matrix (Fin n) (Fin 1) α) :
    prmResiduals cfg n (of y) none = .ok (of (Matrix.of fun i (_ : Fin 1) => y i 0 - cfg.med (of y))) := by
  unfold prmResiduals
  have hz : Factory.zeros (α := α) (n : Int) 1 = .ok (of (0 : Matrix (Fin n) (Fin 1) α)) := Factory.zeros_nat hn 1
  rw [hz, except_bind_ok]
  refine fillCol_of _ _ (fun i => ?_) _
  have hg : (of y).get ((i.1 : Nat) : Int) 0 = .ok (y i 0) := get_of y i 0
  simp only [prmEstimate, except_bind_ok, hg]

/-- The residual weights from the residuals. -/
theorem residualWeights_of (cfg : PrmCfg α) {n : Nat} (hn : 0 < n) (y : Mat α) (tg : Option (Mat α × Mat α))
    (r : Matrix (Fin n) (Fin 1) α) (hr : prmResiduals cfg n y tg = .ok (of r)) :
    residualWeights cfg n y tg = .ok (of (Matrix.of fun i (_ : Fin 1) => fair (r i 0 / prmMad cfg (of r)) cfg.C)) := by
  unfold residualWeights
  have hz : Factory.zeros (α := α) (n : Int) 1 = .ok (of (0 : Matrix (Fin n) (Fin 1) α)) := Factory.zeros_nat hn 1
  rw [hz, except_bind_ok, hr, except_bind_ok]
  refine fillCol_of _ _ (fun i => ?_) _
  have hg : ((of r).div (prmMad cfg (of r))).get ((i.1 : Nat) : Int) 0 = .ok (r i 0 / prmMad cfg (of r)) := by
    rw [div_of]
    exact get_of _ i 0
  simp only [except_bind_ok, hg]

/-- The leverage weights from the distances. -/
theorem leverageWeights_of (cfg : PrmCfg α) {n : Nat} (hn : 0 < n) (T m : Mat α) (hT : T.rows = n)
    (D : Matrix (Fin n) (Fin 1) α) (hm : geoMedian cfg T = .ok m) (hD : cDist T m = .ok (of D)) :
    leverageWeights cfg T =
      .ok (of (Matrix.of fun i (_ : Fin 1) => fair (D i 0 / cfg.med (of D)) cfg.C)) := by
  unfold leverageWeights
  have hz : Factory.zeros (α := α) (n : Int) 1 = .ok (of (0 : Matrix (Fin n) (Fin 1) α)) := Factory.zeros_nat hn 1
  rw [hT, hz, except_bind_ok, hm, except_bind_ok, hD, except_bind_ok]
  refine fillCol_of _ _ (fun i => ?_) _
  have hg : (of D).get ((i.1 : Nat) : Int) 0 = .ok (D i 0) := get_of D i 0
  simp only [except_bind_ok, hg]

end gen

/-! ## The median -/

section median
variable {K : Type} [Field K] [LinearOrder K]

/-- The median: the mean of the two middle elements (which coincide for an odd number) in sorted order. -/
def medianList (l : List K) : K :=
  ((l.mergeSort (fun a b => decide (a ≤ b))).getD ((l.length - 1) / 2) 0 +
    (l.mergeSort (fun a b => decide (a ≤ b))).getD (l.length / 2) 0) / 2

theorem sorted_majority (s : List K) (hs : s.Pairwise (· ≤ ·)) (a : K) (k : Nat) (hk : k < s.length)
    (h1 : s.length - s.count a ≤ k) (h2 : k < s.count a) : s[k] = a := by
  have hsplit : s.count a = (s.take k).count a + (s.drop k).count a := by
    rw [← List.count_append, List.take_append_drop]
  have hsplit' : s.count a = (s.take (k + 1)).count a + (s.drop (k + 1)).count a := by
    rw [← List.count_append, List.take_append_drop]
  have hp := List.pairwise_iff_getElem.1 hs
  rcases lt_trichotomy s[k] a with h | h | h
  · exfalso
    have h0 : (s.take (k + 1)).count a = 0 := by
      refine List.count_eq_zero.2 fun hm => ?_
      obtain ⟨i, hi, he⟩ := List.mem_iff_getElem.1 hm
      rw [List.length_take] at hi
      rw [List.getElem_take] at he
      have hle : s[i] ≤ s[k] := by
        rcases Nat.lt_or_ge i k with hik | hik
        · exact hp i k _ _ hik
        · exact le_of_eq (by congr 1; omega)
      rw [he] at hle
      exact absurd h (not_lt.2 hle)
    have h3 : (s.drop (k + 1)).count a ≤ (s.drop (k + 1)).length := List.count_le_length
    rw [List.length_drop] at h3
    omega
  · exact h
  · exfalso
    have h0 : (s.drop k).count a = 0 := by
      refine List.count_eq_zero.2 fun hm => ?_
      obtain ⟨i, hi, he⟩ := List.mem_iff_getElem.1 hm
      rw [List.length_drop] at hi
      rw [List.getElem_drop] at he
      have hle : s[k] ≤ s[k + i] := by
        rcases Nat.eq_zero_or_pos i with rfl | hik
        · exact le_rfl
        · exact hp k (k + i) _ _ (by omega)
      rw [he] at hle
      exact absurd h (not_lt.2 hle)
    have h3 : (s.take k).count a ≤ (s.take k).length := List.count_le_length
    rw [List.length_take] at h3
    omega

/-- A value taken by more than half of the elements is the median. -/
theorem median_majority [IsStrictOrderedRing K] (l : List K) (a : K) (h : l.length < 2 * l.count a) :
    medianList l = a := by
  have hc : l.count a ≤ l.length := List.count_le_length
  have hperm := List.mergeSort_perm l (fun a b => decide (a ≤ b))
  have hlen : (l.mergeSort (fun a b => decide (a ≤ b))).length = l.length := hperm.length_eq
  have hcount : (l.mergeSort (fun a b => decide (a ≤ b))).count a = l.count a := hperm.count_eq a
  have hs : (l.mergeSort (fun a b => decide (a ≤ b))).Pairwise (· ≤ ·) := by
    have := List.pairwise_mergeSort (le := fun a b : K => decide (a ≤ b))
      (fun a b c h1 h2 => by simp only [decide_eq_true_eq] at h1 h2 ⊢; exact h1.trans h2)
      (fun a b => by simp only [Bool.or_eq_true, decide_eq_true_eq]; exact le_total a b) l
    exact this.imp fun h => by simpa using h
  unfold medianList
  generalize l.mergeSort (fun a b => decide (a ≤ b)) = s at *
  have e1 := sorted_majority s hs a ((l.length - 1) / 2) (by omega) (by omega) (by omega)
  have e2 := sorted_majority s hs a (l.length / 2) (by omega) (by omega) (by omega)
  rw [List.getD_eq_getElem?_getD, List.getD_eq_getElem?_getD, List.getElem?_eq_getElem (by omega),
    List.getElem?_eq_getElem (by omega), Option.getD_some, Option.getD_some, e1, e2]
  exact add_self_div_two a

end median

end Verif
