import Verif.Props.PrmProps
import Verif.Props.SimplsProps

/-!
# C104 — the scores of PRM

`PRM.transform` multiplies by the weights of the inner SIMPLS model.  The inner model is trained here as the code does
it: `simplsBase` runs the SIMPLS of `Alg/SIMPLS.lean`.
-/

namespace Verif.Props
open Verif Verif.Mat
open scoped Matrix
open Matrix (diagonal)

/-- The inner model: a new SIMPLS object is trained on the re-weighted data and its matrices are read,
`_PRM.py` 242-250 and 264.  Its preprocessing is the default `NONE`. -/
noncomputable def simplsBase (eig : Mat ℝ → Mat ℝ × Mat ℝ) (K count : Int) (X y : Mat ℝ) : Except PyErr (PrmBase ℝ) := do
  let m ← simplsTrain (domOf eig) K count X y
  let T ← simplsTransform m X
  .ok ⟨T, m.Q, m.B, m.W⟩

/-- SIMPLS always trains on data of the right shapes, slimmed or not. -/
theorem simplsBase_ok {n q : Nat} {eig : Mat ℝ → Mat ℝ × Mat ℝ} (he : EigOne eig) (hq : 0 < q) (K : Nat) (count : Int)
    (X : Matrix (Fin n) (Fin q) ℝ) (y : Matrix (Fin n) (Fin 1) ℝ) :
    ∃ (W : Matrix (Fin q) (Fin K) ℝ) (Q : Matrix (Fin 1) (Fin K) ℝ),
      simplsBase eig (K : Int) count (of X) (of y) = .ok ⟨of (X * W), of Q, of (W * Qᵀ), of W⟩ := by
  obtain ⟨qf, hqf, -⟩ := domOf_one he
  have h := simplsTrain_eq qf X y (domOf eig) K hq count hqf
  by_cases hc : count > 0
  · obtain ⟨c, rfl⟩ : ∃ c : Nat, count = (c : Int) := ⟨count.toNat, by omega⟩
    obtain ⟨thr, hs, -⟩ := slim_eq hq c (simWM qf X y K)
    rw [if_pos hc, hs, except_bind_ok, mul_of, except_bind_ok] at h
    refine ⟨slimCols (simWM qf X y K) thr K, simQM qf X y K, ?_⟩
    unfold simplsBase simplsTransform
    rw [h, except_bind_ok, mul_of, except_bind_ok]
  · rw [if_neg hc] at h
    refine ⟨simWM qf X y K, simQM qf X y K, ?_⟩
    unfold simplsBase simplsTransform
    rw [h, except_bind_ok, mul_of, except_bind_ok]

/-- A state of the training loop on an `n × q` matrix: one weight per row, `gamma` and the inner model fit together. -/
structure PrmGood (n q K : Nat) (s : PrmState ℝ) (W : Matrix (Fin q) (Fin K) ℝ) (g : Matrix (Fin K) (Fin 1) ℝ) : Prop where
  wr : ∃ w : Matrix (Fin n) (Fin 1) ℝ, s.Wr = of w
  wx : ∃ w : Matrix (Fin n) (Fin 1) ℝ, s.Wx = of w
  gamma : s.gamma = of g
  base : ∃ T Q, s.base = some ⟨T, Q, of (W * g), of W⟩

section run
variable {n q : Nat} {eig : Mat ℝ → Mat ℝ × Mat ℝ} {K : Nat} {count : Int} {cfg : PrmCfg ℝ}

theorem prmPass_good (he : EigOne eig) (hq : 0 < q) (heps : 0 < cfg.eps) (hn : 2 ≤ n)
    (hbase : cfg.base = simplsBase eig (K : Int) count) (X : Matrix (Fin n) (Fin q) ℝ) (y : Matrix (Fin n) (Fin 1) ℝ)
    (s : PrmState ℝ) (hr : ∃ w : Matrix (Fin n) (Fin 1) ℝ, s.Wr = of w) (hx : ∃ w : Matrix (Fin n) (Fin 1) ℝ, s.Wx = of w) :
    ∃ s' W g, prmPass cfg (of X) (of y) s = .ok s' ∧ PrmGood n q K s' W g := by
  obtain ⟨Wr, Wx, T0, g0, b0⟩ := s
  obtain ⟨wr, rfl⟩ := hr
  obtain ⟨wx, rfl⟩ := hx
  obtain ⟨W, Q, hb⟩ := simplsBase_ok he hq K count (weightRows wr wx X) (weightRows wr wx y)
  rw [← hbase] at hb
  obtain ⟨m, -, -, hp⟩ := prmPass_ok cfg heps hn X y wr wx T0 g0 b0 _ _ _ _ hb
  exact ⟨_, W, Qᵀ, hp, ⟨_, rfl⟩, ⟨_, rfl⟩, rfl, ⟨_, _, rfl⟩⟩

theorem prmMore_good (he : EigOne eig) (hq : 0 < q) (heps : 0 < cfg.eps) (hn : 2 ≤ n)
    (hbase : cfg.base = simplsBase eig (K : Int) count) (X : Matrix (Fin n) (Fin q) ℝ) (y : Matrix (Fin n) (Fin 1) ℝ) :
    ∀ (k : Nat) (iter : Int), (cfg.maxIter - iter).toNat = k → ∀ (old : Matrix (Fin K) (Fin 1) ℝ) (s : PrmState ℝ) W g,
      PrmGood n q K s W g →
      ∃ s' it W' g', prmMore cfg (of X) (of y) iter (of old) s = .ok (s', it) ∧ PrmGood n q K s' W' g' := by
  intro k
  induction k with
  | zero =>
    intro iter hk old s W g hs
    rw [prmMore, hs.gamma, sub_of, except_bind_ok, dif_neg (by omega)]
    exact ⟨s, iter, W, g, rfl, hs⟩
  | succ k ih =>
    intro iter hk old s W g hs
    rw [prmMore, hs.gamma, sub_of, except_bind_ok]
    split
    · obtain ⟨s', W', g', hp, hg'⟩ := prmPass_good he hq heps hn hbase X y s hs.wr hs.wx
      rw [hp, except_bind_ok]
      exact ih (iter + 1) (by omega) g s' W' g' hg'
    · exact ⟨s, iter, W, g, rfl, hs⟩

theorem prmLoop_good (he : EigOne eig) (hq : 0 < q) (heps : 0 < cfg.eps) (hn : 2 ≤ n) (hK : cfg.K = (K : Int)) (hK0 : 0 < K)
    (hbase : cfg.base = simplsBase eig (K : Int) count) (X : Matrix (Fin n) (Fin q) ℝ) (y wr wx : Matrix (Fin n) (Fin 1) ℝ) :
    ∃ s it W g, prmLoop cfg (of X) (of y) (of wr) (of wx) = .ok (s, it) ∧ PrmGood n q K s W g := by
  have hz : Factory.zeros (α := ℝ) (K : Int) 1 = .ok (of (0 : Matrix (Fin K) (Fin 1) ℝ)) := Factory.zeros_nat hK0 1
  obtain ⟨s', W', g', hp, hg'⟩ := prmPass_good (cfg := cfg) he hq heps hn hbase X y
    ⟨of wr, of wx, none, of (0 : Matrix (Fin K) (Fin 1) ℝ), none⟩ ⟨wr, rfl⟩ ⟨wx, rfl⟩
  unfold prmLoop
  rw [hK, hz, except_bind_ok, hp, except_bind_ok]
  exact prmMore_good he hq heps hn hbase X y _ 1 rfl 0 s' W' g' hg'

end run

section claims
variable {n p : Nat} {eig : Mat ℝ → Mat ℝ × Mat ℝ} {K : Nat} {count : Int} (cfg : PrmCfg ℝ)

/-- C104 (partial: the claim is for all training data; here at least as many samples as predictors).  Training
succeeds, `transform` gives scores `Z·W`, and the prediction is these scores times `gamma` — for every tolerance,
iteration limit, tuning constant and slimming. -/
theorem C104_partial (he : EigOne eig) (hp : 0 < p) (heps : 0 < cfg.eps) (hn : 2 ≤ n) (hpn : p ≤ n)
    (hK : cfg.K = (K : Int)) (hK0 : 0 < K) (hbase : cfg.base = simplsBase eig (K : Int) count)
    (X : Matrix (Fin n) (Fin p) ℝ) (y : Matrix (Fin n) (Fin 1) ℝ) :
    ∃ (m : PrmModel ℝ) (W : Matrix (Fin p) (Fin K) ℝ) (g : Matrix (Fin K) (Fin 1) ℝ),
      prmTrain cfg (of X) (of y) = .ok m ∧ m.state.gamma = of g ∧
      ∀ (r : Nat) (Z : Matrix (Fin r) (Fin p) ℝ),
        prmTransform m (of Z) = .ok (of (Z * W)) ∧ prmPredict m (of Z) = .ok (of (Z * W * g)) := by
  obtain ⟨_, hwx⟩ := leverage_ok cfg heps hn X
  have hwr := residualWeights_of (n := n) cfg (by omega) (of y) none _ (residuals_first cfg (by omega) y)
  obtain ⟨s, it, W, g, hl, hg⟩ := prmLoop_good (cfg := cfg) he hp heps hn hK hK0 hbase X y _ _
  obtain ⟨T, Q, hb⟩ := hg.base
  refine ⟨⟨s, it, of (W * g)⟩, W, g, ?_, hg.gamma, fun r Z => ⟨?_, ?_⟩⟩
  · unfold prmTrain prmReplace
    rw [if_neg (show ¬ n < p by omega), except_bind_ok]
    show (residualWeights cfg n (of y) none >>= _) = _
    rw [hwr, except_bind_ok]
    show (leverageWeights cfg (of X) >>= _) = _
    rw [hwx.2.2, except_bind_ok]
    show (prmLoop cfg (of X) (of y) _ _ >>= _) = _
    rw [hl, except_bind_ok]
    simp only [prmCoefs, hb, except_bind_ok]
  · unfold prmTransform
    simp only [hb]
    exact mul_of _ _
  · unfold prmPredict
    rw [Matrix.mul_assoc]
    exact mul_of _ _

/-- C104 is violated: with more predictors than samples training succeeds and predictions work, but the weights of the
inner model belong to the reduced `n × n` matrix, so `transform` raises `ValueError` for every matrix with as many
columns as the training data — the training data included. -/
theorem C104_violation (he : EigOne eig) (heps : 0 < cfg.eps) (hn : 2 ≤ n) (hnp : n < p)
    (hK : cfg.K = (K : Int)) (hK0 : 0 < K) (hbase : cfg.base = simplsBase eig (K : Int) count)
    (X : Matrix (Fin n) (Fin p) ℝ) (y : Matrix (Fin n) (Fin 1) ℝ) (u : Matrix (Fin p) (Fin n) ℝ) (sv : Fin n → ℝ)
    (vh : Matrix (Fin n) (Fin n) ℝ)
    (hs : cfg.svd (of Xᵀ) = .ok (of u, ofFn (fun (_ : Fin 1) j => sv j), of vh)) :
    ∃ m : PrmModel ℝ, prmTrain cfg (of X) (of y) = .ok m ∧
      ∀ (r : Nat) (Z : Matrix (Fin r) (Fin p) ℝ),
        prmTransform m (of Z) = .error .valueError ∧ ∃ Y : Matrix (Fin r) (Fin 1) ℝ, prmPredict m (of Z) = .ok (of Y) := by
  have hrep := replace_of cfg (by omega) hnp X u sv vh hs
  obtain ⟨_, hwx⟩ := leverage_ok cfg heps hn (-(vh * diagonal sv))
  have hwr := residualWeights_of (n := n) cfg (by omega) (of y) none _ (residuals_first cfg (by omega) y)
  obtain ⟨s, it, W, g, hl, hg⟩ := prmLoop_good (cfg := cfg) he (by omega) heps hn hK hK0 hbase (-(vh * diagonal sv)) y _ _
  obtain ⟨T, Q, hb⟩ := hg.base
  refine ⟨⟨s, it, of (-u * (W * g))⟩, ?_, fun r Z => ⟨?_, ?_⟩⟩
  · unfold prmTrain
    rw [hrep, except_bind_ok]
    show (residualWeights cfg n (of y) none >>= _) = _
    rw [hwr, except_bind_ok]
    show (leverageWeights cfg (of (-(vh * diagonal sv))) >>= _) = _
    rw [hwx.2.2, except_bind_ok]
    show (prmLoop cfg (of (-(vh * diagonal sv))) (of y) _ _ >>= _) = _
    rw [hl, except_bind_ok]
    simp only [prmCoefs, hb, mul_of, except_bind_ok]
  · unfold prmTransform
    simp only [hb]
    exact mul_error (show p ≠ n by omega)
  · exact ⟨_, mul_of _ _⟩

end claims

/-- Options meeting the hypotheses of both theorems. -/
noncomputable def prmScoresCfg : PrmCfg ℝ where
  K := 1
  tol := 1
  maxIter := 500
  C := 4
  eps := 1 / 10
  med := fun _ => 1
  base := simplsBase eigOne ((1 : Nat) : Int) (-1)
  svd := fun _ => .ok (of (!![1, 0; 0, 1; 0, 0] : Matrix (Fin 3) (Fin 2) ℝ),
    ofFn (fun (_ : Fin 1) j => (![2, 1] : Fin 2 → ℝ) j), of (!![1, 0; 0, 1] : Matrix (Fin 2) (Fin 2) ℝ))

/-- Three samples of two predictors: scores for any further data. -/
example (Z : Matrix (Fin 5) (Fin 2) ℝ) : ∃ m S, prmTrain prmScoresCfg (of (!![1, 2; 3, 5; 8, 13] : Matrix (Fin 3) (Fin 2) ℝ))
    (of (!![1; 4; 9] : Matrix (Fin 3) (Fin 1) ℝ)) = .ok m ∧ prmTransform m (of Z) = .ok S := by
  obtain ⟨m, W, g, h1, -, h2⟩ := C104_partial (K := 1) (count := -1) prmScoresCfg eigOne_ok (by decide)
    (by norm_num [prmScoresCfg]) (by decide) (by decide) rfl (by decide) rfl
    (!![1, 2; 3, 5; 8, 13] : Matrix (Fin 3) (Fin 2) ℝ) (!![1; 4; 9] : Matrix (Fin 3) (Fin 1) ℝ)
  exact ⟨m, _, h1, (h2 5 Z).1⟩

/-- Two samples of three predictors: the training data themselves have no scores. -/
example : ∃ m, prmTrain prmScoresCfg (of (!![2, 0, 0; 0, 1, 0] : Matrix (Fin 2) (Fin 3) ℝ))
    (of (!![1; 4] : Matrix (Fin 2) (Fin 1) ℝ)) = .ok m ∧
    prmTransform m (of (!![2, 0, 0; 0, 1, 0] : Matrix (Fin 2) (Fin 3) ℝ)) = .error .valueError := by
  obtain ⟨m, h1, h2⟩ := C104_violation (K := 1) (count := -1) prmScoresCfg eigOne_ok
    (by norm_num [prmScoresCfg]) (by decide) (by decide) rfl (by decide) rfl
    (!![2, 0, 0; 0, 1, 0] : Matrix (Fin 2) (Fin 3) ℝ) (!![1; 4] : Matrix (Fin 2) (Fin 1) ℝ) _ _ _ rfl
  exact ⟨m, h1, (h2 2 _).1⟩

end Verif.Props
