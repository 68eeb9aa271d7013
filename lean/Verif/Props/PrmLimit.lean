import Verif.Props.PrmProps

/-!
# C105 — PRM with an infinite tuning constant

The class documentation of `_PRM.py` (line 35) promises "c=Infinity is equal to SIMPLS result".
Over `X ℝ`, where `C = inf` can be expressed.
-/

set_option linter.unusedSimpArgs false

namespace Verif.Props
open Verif Verif.Mat Verif.Transf
open Verif.X (finMat)
open scoped Matrix

variable {n p : Nat}

/-- A column of ones: no sample is down-weighted. -/
noncomputable def onesX (n : Nat) : Mat (X ℝ) := of (finMat (Matrix.of fun (_ : Fin n) (_ : Fin 1) => (1 : ℝ)))

/-- The fair weight for `c = inf`: one, provided that the scale is not zero. -/
theorem fair_inf (z : ℝ) {s : ℝ} (hs : s ≠ 0) : fair (X.fin z / X.fin s) (X.pinf : X ℝ) = X.fin 1 := by
  rw [X.fin_div z hs]
  unfold fair
  have h : (X.fin (z / s) / X.pinf : X ℝ) = X.fin 0 := rfl
  rw [h, pyAbs_fin, abs_zero, X.one_fin, X.fin_add, X.fin_mul, X.fin_div _ (by norm_num)]
  norm_num

/-- With a zero scale every weight is NaN. -/
theorem fair_inf_zero (z : ℝ) : fair (X.fin z / X.fin 0) (X.pinf : X ℝ) = X.nan := by
  rw [X.fin_div_zero]
  unfold X.signedInf
  split
  · rfl
  · split <;> rfl

theorem sqrt_finX {x : ℝ} (h : 0 ≤ x) : HasSqrt.sqrt (X.fin x : X ℝ) = X.fin (Real.sqrt x) :=
  if_neg (not_lt.2 h)

theorem sumFin_finX {m : Nat} (f : Fin m → ℝ) : (sumFin fun i => (X.fin (f i) : X ℝ)) = X.fin (∑ i, f i) := by
  rw [X.sumFin_fin, sumFin_eq]

theorem mul_finX {m k : Nat} (A : Matrix (Fin m) (Fin n) ℝ) (B : Matrix (Fin n) (Fin k) ℝ) :
    (of (finMat A)).mul (of (finMat B)) = .ok (of (finMat (A * B))) := by
  unfold Mat.mul
  rw [dif_pos rfl]
  congr 1
  refine mk_congr fun i j => ?_
  show (sumFin fun l => (X.fin (A i l) * X.fin (B l j) : X ℝ)) = X.fin ((A * B) i j)
  simp only [X.fin_mul]
  rw [sumFin_finX, Matrix.mul_apply]

theorem sub_finX (A B : Matrix (Fin n) (Fin p) ℝ) :
    (of (finMat A)).sub (of (finMat B)) = .ok (of (finMat (A - B))) := by
  rw [sub_of]
  congr 1

/-! ## Distances and the geometric median stay finite -/

theorem norm2_finX (v : Matrix (Fin 1) (Fin p) ℝ) :
    (of (finMat v)).norm2 = X.fin (Real.sqrt (∑ j, v 0 j * v 0 j)) := by
  have hs : (of (finMat v)).sumSq = X.fin (∑ j, v 0 j * v 0 j) := by
    show (sumFin fun i : Fin 1 => sumFin fun j => (X.fin (v i j) * X.fin (v i j) : X ℝ)) = _
    simp only [X.fin_mul, sumFin_finX]
    rw [Fin.sum_univ_one]
  unfold norm2
  rw [hs, if_pos (by simp [isVector]), sqrt_finX (Finset.sum_nonneg fun j _ => mul_self_nonneg _)]

theorem cDist_fin (hn : 0 < n) (A : Matrix (Fin n) (Fin p) ℝ) (v : Matrix (Fin 1) (Fin p) ℝ) :
    cDist (of (finMat A)) (of (finMat v)) = .ok (of (finMat (distM A v))) := by
  unfold cDist
  have hz : Factory.zeros (α := X ℝ) (n : Int) 1 = .ok (of (0 : Matrix (Fin n) (Fin 1) (X ℝ))) := Factory.zeros_nat hn 1
  show (Factory.zeros (n : Int) 1 >>= _) = _
  rw [hz, except_bind_ok]
  refine fillCol_of (n := n) _ (fun i => (X.fin (rdist A v i) : X ℝ)) (fun i => ?_) _
  rw [getRow_of, except_bind_ok]
  show ((of (finMat (Matrix.of fun (_ : Fin 1) b => A i b))).sub _ >>= _) = _
  rw [sub_finX, except_bind_ok, norm2_finX]
  rfl

theorem scaleCol_finX (hn : 2 ≤ n) (A : Matrix (Fin n) (Fin p) ℝ) (d : Matrix (Fin n) (Fin 1) ℝ) :
    (of (finMat A)).scaleByColumnVector (of (finMat d)) = .ok (of (finMat (Matrix.of fun i j => A i j * d i 0))) := by
  have hc : (of (finMat d)).mustBeColumnVector = .ok () := by
    simp [mustBeColumnVector, isColumnVector, isVector]
  unfold scaleByColumnVector
  rw [hc, except_bind_ok, if_pos rfl]
  refine (vectorOp_col _ (finMat A) (finMat d) (by omega)).trans ?_
  congr 1

theorem invDist_finX {e : ℝ} (he : 0 < e) (A : Matrix (Fin n) (Fin p) ℝ) (v : Matrix (Fin 1) (Fin p) ℝ) (i : Fin n) :
    invDist (X.fin e) (X.fin (rdist A v i) : X ℝ) = X.fin (weisW e A v i) := by
  unfold invDist weisW
  rw [pyAbs_fin, abs_of_nonneg (rdist_nonneg A v i)]
  by_cases h : rdist A v i < e
  · have h' : (X.fin (rdist A v i) : X ℝ) < X.fin e := show X.ltb _ _ = true by simp [X.ltb, h]
    rw [if_pos h', if_pos h, X.natCast_fin]
    norm_num
  · have h' : ¬ (X.fin (rdist A v i) : X ℝ) < X.fin e := show ¬ X.ltb _ _ = true by simp [X.ltb, h]
    rw [if_neg h', if_neg h, X.one_fin, X.fin_div _ (lt_of_lt_of_le he (not_lt.1 h)).ne', one_div]

theorem geoStep_finX (cfg : PrmCfg (X ℝ)) {e : ℝ} (he : 0 < e) (hcfg : cfg.eps = X.fin e) (hn : 2 ≤ n)
    (A : Matrix (Fin n) (Fin p) ℝ) (v : Matrix (Fin 1) (Fin p) ℝ) :
    geoStep cfg (of (finMat A)) (of (finMat v)) = .ok (of (finMat (weis e A v))) := by
  unfold geoStep
  have hd : (of (finMat (distM A v))).map (invDist cfg.eps) =
      of (finMat (Matrix.of fun i (_ : Fin 1) => weisW e A v i)) := by
    refine mk_congr fun i j => ?_
    rw [hcfg]
    exact invDist_finX he A v i
  have hc : ∀ {q : Nat} (d : Matrix (Fin n) (Fin q) ℝ),
      (of (finMat d)).colSums = of (finMat (Matrix.of fun (_ : Fin 1) j => ∑ i, d i j)) := by
    intro q d
    refine mk_congr fun i j => ?_
    exact sumFin_finX _
  rw [cDist_fin (by omega), except_bind_ok]
  show ((of (finMat A)).scaleByColumnVector ((of (finMat (distM A v))).map (invDist cfg.eps)) >>= fun a =>
    ((of (finMat (distM A v))).map (invDist cfg.eps)).colSums.asReal >>= fun s => .ok (a.colSums.div s)) = _
  rw [hd, scaleCol_finX hn, except_bind_ok, hc, asReal_of, except_bind_ok, hc, div_of]
  congr 1
  refine mk_congr fun i j => ?_
  have hpos := sum_pos_of (n := n) (by omega) (weisW_pos he A v)
  exact X.fin_div _ hpos.ne'

theorem geoLoop_finX (cfg : PrmCfg (X ℝ)) {e : ℝ} (he : 0 < e) (hcfg : cfg.eps = X.fin e) (hn : 2 ≤ n)
    (A : Matrix (Fin n) (Fin p) ℝ) : ∀ (k : Nat) (iter : Int), (cfg.maxIter - iter).toNat = k →
      ∀ v : Matrix (Fin 1) (Fin p) ℝ, ∃ m : Matrix (Fin 1) (Fin p) ℝ,
        geoLoop cfg (of (finMat A)) iter (of (finMat v)) = .ok (of (finMat m)) := by
  intro k
  induction k with
  | zero =>
    intro iter hk v
    rw [geoLoop, dif_neg (by omega)]
    exact ⟨v, rfl⟩
  | succ k ih =>
    intro iter hk v
    rw [geoLoop, dif_pos (by omega), geoStep_finX cfg he hcfg hn, except_bind_ok, sub_finX, except_bind_ok]
    split
    · exact ⟨_, rfl⟩
    · exact ih (iter + 1) (by omega) _

theorem geoMedian_finX (cfg : PrmCfg (X ℝ)) {e : ℝ} (he : 0 < e) (hcfg : cfg.eps = X.fin e) (hn : 2 ≤ n)
    (A : Matrix (Fin n) (Fin p) ℝ) : ∃ m : Matrix (Fin 1) (Fin p) ℝ, geoMedian cfg (of (finMat A)) = .ok (of (finMat m)) := by
  unfold geoMedian
  rw [X.columnMeans_fin A (by omega)]
  exact geoLoop_finX cfg he hcfg hn A _ 0 rfl (Matrix.of fun (_ : Fin 1) j => mu fun i => A i j)

/-! ## Data with usable scales -/

/-- The median of a column. -/
noncomputable def colMedian (f : Fin n → ℝ) : ℝ := medianList (List.ofFn f)

/-- The median absolute deviation. -/
noncomputable def colMad (f : Fin n → ℝ) : ℝ := colMedian fun i => |f i - colMedian f|

/-- Around every point, the median distance of the rows is not zero. -/
def Spread (A : Matrix (Fin n) (Fin p) ℝ) : Prop := ∀ v : Matrix (Fin 1) (Fin p) ℝ, colMedian (rdist A v) ≠ 0

section weights
variable (cfg : PrmCfg (X ℝ)) (hmed : IsMedian cfg.med) (hC : cfg.C = X.pinf)
include hmed hC

theorem residual_ones (hn : 0 < n) (y : Mat (X ℝ)) (tg : Option (Mat (X ℝ) × Mat (X ℝ))) (r : Fin n → ℝ)
    (hr : prmResiduals cfg n y tg = .ok (of (finMat (Matrix.of fun i (_ : Fin 1) => r i)))) (hs : colMad r ≠ 0) :
    residualWeights cfg n y tg = .ok (onesX n) := by
  rw [residualWeights_of cfg hn y tg _ hr]
  congr 1
  refine mk_congr fun i j => ?_
  have hmad : prmMad cfg (of (finMat (Matrix.of fun i (_ : Fin 1) => r i))) = X.fin (colMad r) := by
    unfold prmMad
    have h1 : cfg.med (of (finMat (Matrix.of fun i (_ : Fin 1) => r i))) = X.fin (colMedian r) := hmed n r hn
    rw [h1]
    have he : ((of (finMat (Matrix.of fun i (_ : Fin 1) => r i))).subScalar (X.fin (colMedian r))).abs =
        of (Matrix.of fun i (_ : Fin 1) => X.fin |r i - colMedian r|) := by
      refine mk_congr fun i j => ?_
      show pyAbs (X.fin (r i) - X.fin (colMedian r)) = X.fin |r i - colMedian r|
      rw [X.fin_sub, pyAbs_fin]
    rw [he]
    exact hmed n _ hn
  rw [hmad, hC]
  exact fair_inf _ hs

theorem leverage_ones {e : ℝ} (he : 0 < e) (heps : cfg.eps = X.fin e) (hn : 2 ≤ n) (A : Matrix (Fin n) (Fin p) ℝ)
    (hs : Spread A) : leverageWeights cfg (of (finMat A)) = .ok (onesX n) := by
  obtain ⟨m, hm⟩ := geoMedian_finX cfg he heps hn A
  rw [leverageWeights_of (n := n) cfg (by omega) _ _ rfl _ hm (cDist_fin (by omega) A m)]
  congr 1
  refine mk_congr fun i j => ?_
  have h1 : cfg.med (of (finMat (distM A m))) = X.fin (colMedian (rdist A m)) := hmed n (rdist A m) (by omega)
  rw [h1, hC]
  exact fair_inf _ (hs m)

end weights

theorem reweight_ones (hn : 2 ≤ n) (A : Matrix (Fin n) (Fin p) ℝ) :
    reweight (onesX n) (onesX n) (of (finMat A)) = .ok (of (finMat A)) := by
  unfold reweight
  have h1 : (onesX n).mulElementwise (onesX n) = .ok (onesX n) := by
    unfold onesX
    rw [mulElementwise_of]
    congr 1
    refine mk_congr fun i j => ?_
    show X.fin ((1 : ℝ) * 1) = X.fin 1
    rw [mul_one]
  have h2 : (onesX n).sqrt = onesX n := by
    refine mk_congr fun i j => ?_
    show HasSqrt.sqrt (X.fin (1 : ℝ)) = X.fin 1
    rw [sqrt_finX zero_le_one, Real.sqrt_one]
  rw [h1, except_bind_ok, h2]
  refine (scaleCol_finX hn A _).trans ?_
  congr 1
  refine mk_congr fun i j => ?_
  show X.fin (A i j * 1) = X.fin (A i j)
  rw [mul_one]

theorem rescale_ones (T : Matrix (Fin n) (Fin p) ℝ) :
    loopM (rescaleRow (onesX n) (onesX n)) (pyRange 0 (n : Int)) (of (finMat T)) = .ok (of (finMat T)) := by
  refine loopM_range (rescaleRow (onesX n) (onesX n)) (fun _ => of (finMat T)) n fun k hk => ?_
  have hw : combinedWeight (onesX n) (onesX n) ((k : Nat) : Int) = .ok (X.fin 1) := by
    unfold combinedWeight
    have h : (onesX n).getRow ((k : Nat) : Int) = .ok (of (finMat (Matrix.of fun (_ : Fin 1) (_ : Fin 1) => (1 : ℝ)))) :=
      getRow_of (finMat (Matrix.of fun (_ : Fin n) (_ : Fin 1) => (1 : ℝ))) ⟨k, hk⟩
    simp only [h, except_bind_ok, asReal_of]
    show Except.ok (X.fin ((1 : ℝ) * 1)) = _
    rw [mul_one]
  unfold rescaleRow
  have hr := getRow_of (finMat T) ⟨k, hk⟩
  simp only at hr
  rw [hw, except_bind_ok, hr, except_bind_ok, div_of]
  refine (setRow_of _ ⟨k, hk⟩ _).trans ?_
  congr 1
  refine mk_congr fun i j => ?_
  rw [Matrix.updateRow_apply]
  split
  · rename_i h
    subst h
    show X.fin (T ⟨k, hk⟩ j) / HasSqrt.sqrt (X.fin (1 : ℝ)) = X.fin (T ⟨k, hk⟩ j)
    rw [sqrt_finX zero_le_one, Real.sqrt_one, X.fin_div _ one_ne_zero, div_one]
  · rfl

theorem residuals_finX (cfg : PrmCfg (X ℝ)) (hn : 0 < n) (y : Matrix (Fin n) (Fin 1) ℝ) (T : Matrix (Fin n) (Fin p) ℝ)
    (g : Matrix (Fin p) (Fin 1) ℝ) :
    prmResiduals cfg n (of (finMat y)) (some (of (finMat T), of (finMat g))) =
      .ok (of (finMat (Matrix.of fun i (_ : Fin 1) => y i 0 - (T * g) i 0))) := by
  unfold prmResiduals
  have hz : Factory.zeros (α := X ℝ) (n : Int) 1 = .ok (of (0 : Matrix (Fin n) (Fin 1) (X ℝ))) := Factory.zeros_nat hn 1
  rw [hz, except_bind_ok]
  refine fillCol_of (n := n) _ (fun i => (X.fin (y i 0 - (T * g) i 0) : X ℝ)) (fun i => ?_) _
  have hg : (of (finMat y)).get ((i.1 : Nat) : Int) 0 = .ok (X.fin (y i 0)) := get_of (finMat y) i 0
  have hm := mul_finX (Matrix.of fun (_ : Fin 1) b => T i b) g
  have hr : (of (finMat T)).getRow ((i.1 : Nat) : Int) = .ok (of (finMat (Matrix.of fun (_ : Fin 1) b => T i b))) :=
    getRow_of (finMat T) i
  simp only [prmEstimate]
  rw [hr, except_bind_ok, hm, except_bind_ok, asReal_of, except_bind_ok, hg, except_bind_ok]
  congr 1

/-! ## Training -/

section train
variable (cfg : PrmCfg (X ℝ)) (hmed : IsMedian cfg.med) (hC : cfg.C = X.pinf) {e : ℝ} (he : 0 < e)
  (heps : cfg.eps = X.fin e) (hn : 2 ≤ n) (A : Matrix (Fin n) (Fin p) ℝ) (y : Matrix (Fin n) (Fin 1) ℝ)
  {K : Nat} (T : Matrix (Fin n) (Fin K) ℝ) (Q : Matrix (Fin 1) (Fin K) ℝ) (B W : Mat (X ℝ))
  (hb : cfg.base (of (finMat A)) (of (finMat y)) = .ok ⟨of (finMat T), of (finMat Q), B, W⟩)
  (hT : Spread T) (hr : colMad (fun i => y i 0 - (T * Qᵀ) i 0) ≠ 0)
include hmed hC he heps hn hb hT hr

theorem prmPass_ones (T0 : Option (Mat (X ℝ))) (g0 : Mat (X ℝ)) (b0 : Option (PrmBase (X ℝ))) :
    prmPass cfg (of (finMat A)) (of (finMat y)) ⟨onesX n, onesX n, T0, g0, b0⟩ =
      .ok ⟨onesX n, onesX n, some (of (finMat T)), of (finMat Qᵀ), some ⟨of (finMat T), of (finMat Q), B, W⟩⟩ := by
  unfold prmPass
  simp only []
  have hQ : (of (finMat Q)).transpose = of (finMat Qᵀ) := by rw [transpose_of]; rfl
  have hL : loopM (rescaleRow (onesX n) (onesX n)) (pyRange 0 ((of (finMat T)).rows : Int)) (of (finMat T)) =
      .ok (of (finMat T)) := rescale_ones T
  rw [reweight_ones hn, except_bind_ok, reweight_ones hn, except_bind_ok, hb, except_bind_ok, hL, except_bind_ok, hQ]
  show (residualWeights cfg n _ _ >>= _) = _
  rw [residual_ones cfg hmed hC (by omega) _ _ _ (residuals_finX cfg (by omega) y T Qᵀ) hr, except_bind_ok,
    leverage_ones cfg hmed hC he heps hn T hT, except_bind_ok]

theorem prmMore_ones : ∀ (k : Nat) (iter : Int), (cfg.maxIter - iter).toNat = k → ∀ old : Matrix (Fin K) (Fin 1) ℝ,
    ∃ it, prmMore cfg (of (finMat A)) (of (finMat y)) iter (of (finMat old))
      ⟨onesX n, onesX n, some (of (finMat T)), of (finMat Qᵀ), some ⟨of (finMat T), of (finMat Q), B, W⟩⟩ =
      .ok (⟨onesX n, onesX n, some (of (finMat T)), of (finMat Qᵀ), some ⟨of (finMat T), of (finMat Q), B, W⟩⟩, it) := by
  intro k
  induction k with
  | zero =>
    intro iter hk old
    rw [prmMore]
    simp only [sub_finX, except_bind_ok]
    rw [dif_neg (by omega)]
    exact ⟨_, rfl⟩
  | succ k ih =>
    intro iter hk old
    rw [prmMore]
    simp only [sub_finX, except_bind_ok]
    split
    · rw [prmPass_ones cfg hmed hC he heps hn A y T Q B W hb hT hr, except_bind_ok]
      exact ih (iter + 1) (by omega) _
    · exact ⟨_, rfl⟩

/-- C105 (partial: the claim is for all data; here the data must have non-zero scales).  With `C = inf` PRM trained on
`n ≥ 2` samples of at most `n` predictors holds the coefficients and weights of one SIMPLS model trained on the
original data: it predicts `Z·B` and transforms to `Z·W` as that model does, every sample has weight one — for every
tolerance and iteration limit.  The scales: the median absolute deviations of the response and of the residuals of the
SIMPLS model, and the median distance of the samples and of their scores from any point. -/
theorem C105_partial (hpn : p ≤ n) (hK : cfg.K = (K : Int)) (hK0 : 0 < K) (hA : Spread A)
    (hy : colMad (fun i => y i 0 - colMedian fun i => y i 0) ≠ 0) :
    ∃ m, prmTrain cfg (of (finMat A)) (of (finMat y)) = .ok m ∧ prmW m = .ok (onesX n) ∧
      ∀ Z, prmPredict m Z = Z.mul B ∧ prmTransform m Z = Z.mul W := by
  have hz : Factory.zeros (α := X ℝ) (K : Int) 1 = .ok (of (finMat (0 : Matrix (Fin K) (Fin 1) ℝ))) :=
    Factory.zeros_nat hK0 1
  have hy1 : Matrix.of (fun i (_ : Fin 1) => X.fin (y i 0)) = finMat y := by
    ext i j
    rw [Subsingleton.elim j 0]
    rfl
  have hm : cfg.med (of (finMat y)) = X.fin (colMedian fun i => y i 0) := by
    have := hmed n (fun i => y i 0) (by omega)
    rw [hy1] at this
    exact this
  have h0 : residualWeights cfg n (of (finMat y)) none = .ok (onesX n) := by
    refine residual_ones cfg hmed hC (by omega) _ _ _ ?_ hy
    rw [residuals_first cfg (by omega), hm]
    congr 1
  obtain ⟨it, hit⟩ := prmMore_ones cfg hmed hC he heps hn A y T Q B W hb hT hr _ 1 rfl 0
  refine ⟨⟨⟨onesX n, onesX n, some (of (finMat T)), of (finMat Qᵀ), some ⟨of (finMat T), of (finMat Q), B, W⟩⟩, it, B⟩,
    ?_, ?_, fun Z => ⟨rfl, rfl⟩⟩
  · unfold prmTrain prmReplace
    rw [if_neg (show ¬ n < p by omega), except_bind_ok]
    show (residualWeights cfg n (of (finMat y)) none >>= _) = _
    rw [h0, except_bind_ok]
    show (leverageWeights cfg (of (finMat A)) >>= _) = _
    rw [leverage_ones cfg hmed hC he heps hn A hA, except_bind_ok]
    show (prmLoop cfg (of (finMat A)) (of (finMat y)) _ _ >>= _) = _
    unfold prmLoop
    rw [hK, hz, except_bind_ok, prmPass_ones cfg hmed hC he heps hn A y T Q B W hb hT hr, except_bind_ok, hit, except_bind_ok]
    rfl
  · unfold prmW onesX
    simp only []
    rw [mulElementwise_of]
    congr 1
    refine mk_congr fun i j => ?_
    show X.fin ((1 : ℝ) * 1) = X.fin 1
    rw [mul_one]

end train

/-- A matrix of NaNs. -/
def nanMat (m k : Nat) : Mat (X ℝ) := of (Matrix.of fun (_ : Fin m) (_ : Fin k) => X.nan)

/-- C105 is violated: if more than half of the responses share a value, `C = inf` makes every initial residual weight
NaN — and whatever the leverage weights are, the predictors and the response handed to the inner model in the first pass
consist of NaNs only. -/
theorem C105_violation (cfg : PrmCfg (X ℝ)) (hmed : IsMedian cfg.med) (hC : cfg.C = X.pinf) (hn : 2 ≤ n) (f : Fin n → ℝ)
    (a : ℝ) (ha : n < 2 * (List.ofFn f).count a) :
    residualWeights cfg n (of (finMat (Matrix.of fun i (_ : Fin 1) => f i))) none = .ok (nanMat n 1) ∧
    ∀ (Wx : Matrix (Fin n) (Fin 1) (X ℝ)) (k : Nat) (M : Matrix (Fin n) (Fin k) (X ℝ)),
      reweight (nanMat n 1) (of Wx) (of M) = .ok (nanMat n k) := by
  constructor
  · have hm : cfg.med (of (finMat (Matrix.of fun i (_ : Fin 1) => f i))) = X.fin a := by
      have h := hmed n f (by omega)
      rw [median_majority _ a (by rw [List.length_ofFn]; exact ha)] at h
      exact h
    have hr : prmResiduals cfg n (of (finMat (Matrix.of fun i (_ : Fin 1) => f i))) none =
        .ok (of (Matrix.of fun i (_ : Fin 1) => X.fin (f i - a))) := by
      rw [residuals_first cfg (by omega), hm]
      congr 1
    have hc0 : n < 2 * (List.ofFn fun i => f i - a).count 0 := by
      have := count_ofFn_map f (fun x => x - a) a (fun x => by simp only [sub_self]; exact sub_eq_zero)
      simp only [sub_self] at this
      rw [this]
      exact ha
    have hm0 : cfg.med (of (Matrix.of fun i (_ : Fin 1) => X.fin (f i - a))) = X.fin 0 := by
      rw [hmed n _ (by omega), median_majority _ 0 (by rw [List.length_ofFn]; exact hc0)]
    have hs : prmMad cfg (of (Matrix.of fun i (_ : Fin 1) => X.fin (f i - a))) = X.fin 0 := by
      unfold prmMad
      rw [hm0]
      have he : ((of (Matrix.of fun i (_ : Fin 1) => X.fin (f i - a))).subScalar (X.fin 0)).abs =
          of (Matrix.of fun i (_ : Fin 1) => X.fin |f i - a|) := by
        refine mk_congr fun i j => ?_
        show pyAbs (X.fin (f i - a) - X.fin 0) = X.fin |f i - a|
        rw [X.fin_sub, pyAbs_fin, sub_zero]
      rw [he, hmed n _ (by omega), median_majority _ 0]
      rw [List.length_ofFn]
      have := count_ofFn_map f (fun x => |x - a|) a
        (fun x => by simp only [sub_self, abs_zero]; rw [abs_eq_zero, sub_eq_zero])
      simp only [sub_self, abs_zero] at this
      rw [this]
      exact ha
    rw [residualWeights_of cfg (by omega) _ none _ hr]
    congr 1
    refine mk_congr fun i j => ?_
    rw [hs, hC]
    exact fair_inf_zero _
  · intro Wx k M
    unfold reweight
    have h1 : (nanMat n 1).mulElementwise (of Wx) = .ok (nanMat n 1) := by
      unfold nanMat
      rw [mulElementwise_of]
      congr 1
    have h2 : (nanMat n 1).sqrt = nanMat n 1 := rfl
    rw [h1, except_bind_ok, h2]
    have hc : (nanMat n 1).mustBeColumnVector = .ok () := by
      simp [nanMat, mustBeColumnVector, isColumnVector, isVector]
    unfold scaleByColumnVector
    rw [hc, except_bind_ok, if_pos (show (of M).rows = (nanMat n 1).rows from rfl)]
    refine (vectorOp_col _ M _ (by omega)).trans ?_
    congr 1
    refine mk_congr fun i j => ?_
    exact X.mul_nan _

/-! ## A sufficient condition and concrete cases -/

/-- The median of non-negative numbers of which at most one is zero. -/
theorem colMedian_pos (hn : 2 ≤ n) (f : Fin n → ℝ) (h0 : ∀ i, 0 ≤ f i) (h1 : ∀ i j, f i = 0 → f j = 0 → i = j) :
    colMedian f ≠ 0 := by
  unfold colMedian medianList
  have hperm := List.mergeSort_perm (List.ofFn f) (fun a b => decide (a ≤ b))
  have hlen : ((List.ofFn f).mergeSort (fun a b => decide (a ≤ b))).length = n := by
    rw [hperm.length_eq, List.length_ofFn]
  have hsorted : ((List.ofFn f).mergeSort (fun a b => decide (a ≤ b))).Pairwise (· ≤ ·) := by
    have := List.pairwise_mergeSort (le := fun a b : ℝ => decide (a ≤ b))
      (fun a b c h1 h2 => by simp only [decide_eq_true_eq] at h1 h2 ⊢; exact h1.trans h2)
      (fun a b => by simp only [Bool.or_eq_true, decide_eq_true_eq]; exact le_total a b) (List.ofFn f)
    exact this.imp fun h => by simpa using h
  have hnn : ∀ x ∈ (List.ofFn f).mergeSort (fun a b => decide (a ≤ b)), 0 ≤ x := by
    intro x hx
    obtain ⟨i, rfl⟩ := List.mem_ofFn.1 (hperm.mem_iff.1 hx)
    exact h0 i
  have hz : ((List.ofFn f).mergeSort (fun a b => decide (a ≤ b))).Pairwise (fun a b => ¬ (a = 0 ∧ b = 0)) := by
    refine (hperm.pairwise_iff (fun {a b} h => fun e => h e.symm)).2 ?_
    rw [List.pairwise_ofFn]
    intro i j hij e
    exact absurd (h1 i j e.1 e.2) hij.ne
  rw [List.length_ofFn]
  generalize (List.ofFn f).mergeSort (fun a b => decide (a ≤ b)) = s at *
  rw [List.getD_eq_getElem?_getD, List.getD_eq_getElem?_getD, List.getElem?_eq_getElem (by omega),
    List.getElem?_eq_getElem (by omega), Option.getD_some, Option.getD_some]
  intro he
  have ha : 0 ≤ s[(n - 1) / 2] := hnn _ (List.getElem_mem _)
  have hb : 0 ≤ s[n / 2] := hnn _ (List.getElem_mem _)
  have hb0 : s[n / 2] = 0 := by linarith
  have hc : s[0] ≤ s[n / 2] := List.pairwise_iff_getElem.1 hsorted 0 (n / 2) (by omega) (by omega) (by omega)
  have hc0 : s[0] = 0 := le_antisymm (hb0 ▸ hc) (hnn _ (List.getElem_mem _))
  exact List.pairwise_iff_getElem.1 hz 0 (n / 2) (by omega) (by omega) (by omega) ⟨hc0, hb0⟩

/-- Pairwise different numbers have a positive median absolute deviation. -/
theorem colMad_distinct (hn : 2 ≤ n) (f : Fin n → ℝ) (h : Function.Injective f) : colMad f ≠ 0 :=
  colMedian_pos hn _ (fun _ => abs_nonneg _) fun _ _ hi hj =>
    h ((sub_eq_zero.1 (abs_eq_zero.1 hi)).trans (sub_eq_zero.1 (abs_eq_zero.1 hj)).symm)

theorem rdist_zero (A : Matrix (Fin n) (Fin p) ℝ) (v : Matrix (Fin 1) (Fin p) ℝ) (i : Fin n) (h : rdist A v i = 0) (j : Fin p) :
    A i j = v 0 j := by
  unfold rdist at h
  rw [Real.sqrt_eq_zero (Finset.sum_nonneg fun j _ => mul_self_nonneg _),
    Finset.sum_eq_zero_iff_of_nonneg fun j _ => mul_self_nonneg _] at h
  exact sub_eq_zero.1 (mul_self_eq_zero.1 (h j (Finset.mem_univ j)))

/-- Pairwise different rows are spread. -/
theorem spread_distinct (hn : 2 ≤ n) (A : Matrix (Fin n) (Fin p) ℝ) (h : Function.Injective A) : Spread A := fun v =>
  colMedian_pos hn _ (rdist_nonneg A v) fun i i' hi hi' =>
    h (funext fun j => (rdist_zero A v i hi j).trans (rdist_zero A v i' hi' j).symm)

/-- `np.median` on finite entries. -/
noncomputable def medX (M : Mat (X ℝ)) : X ℝ :=
  X.fin (medianList (M.toRawCopy1D.map fun x => match x with | X.fin a => a | _ => 0))

theorem medX_ok : IsMedian medX := by
  intro n f _
  unfold medX
  congr 2
  simp [toRawCopy1D, Function.comp_def]

/-- Options with an infinite tuning constant; the inner model is given by its results. -/
noncomputable def prmInf (T : Matrix (Fin 3) (Fin 1) ℝ) : PrmCfg (X ℝ) where
  K := 1
  tol := X.fin 1
  maxIter := 500
  C := X.pinf
  eps := X.fin (1 / 10)
  med := medX
  base := fun _ _ => .ok ⟨of (finMat T), of (finMat (!![1] : Matrix (Fin 1) (Fin 1) ℝ)),
    of (finMat (!![1] : Matrix (Fin 1) (Fin 1) ℝ)), of (finMat (!![1] : Matrix (Fin 1) (Fin 1) ℝ))⟩
  svd := fun _ => .error .linAlgError

theorem prmInf_inj {a b c : ℝ} (h1 : a ≠ b) (h2 : a ≠ c) (h3 : b ≠ c) :
    Function.Injective (!![a; b; c] : Matrix (Fin 3) (Fin 1) ℝ) := by
  intro i j h
  have h' := congrFun h 0
  fin_cases i <;> fin_cases j <;> simp at h' ⊢
  · exact h1 h'
  · exact h2 h'
  · exact h1 h'.symm
  · exact h3 h'
  · exact h2 h'.symm
  · exact h3 h'.symm

/-- Three samples: all weights are one. -/
example : ∃ m, prmTrain (prmInf !![1; 2; 4]) (of (finMat (!![1; 2; 4] : Matrix (Fin 3) (Fin 1) ℝ)))
    (of (finMat (!![1; 3; 7] : Matrix (Fin 3) (Fin 1) ℝ))) = .ok m ∧ prmW m = .ok (onesX 3) := by
  have hi : Function.Injective (!![1; 2; 4] : Matrix (Fin 3) (Fin 1) ℝ) := prmInf_inj (by norm_num) (by norm_num) (by norm_num)
  have hy : Function.Injective (!![1; 3; 7] : Matrix (Fin 3) (Fin 1) ℝ) := prmInf_inj (by norm_num) (by norm_num) (by norm_num)
  have hinj : ∀ {f : Fin 3 → ℝ}, f 0 ≠ f 1 → f 0 ≠ f 2 → f 1 ≠ f 2 → Function.Injective f := by
    intro f h1 h2 h3 i j h
    fin_cases i <;> fin_cases j <;> simp at h ⊢
    · exact h1 h
    · exact h2 h
    · exact h1 h.symm
    · exact h3 h
    · exact h2 h.symm
    · exact h3 h.symm
  have hr : (fun i => (!![1; 3; 7] : Matrix (Fin 3) (Fin 1) ℝ) i 0 -
      ((!![1; 2; 4] : Matrix (Fin 3) (Fin 1) ℝ) * (!![1] : Matrix (Fin 1) (Fin 1) ℝ)ᵀ) i 0) = ![0, 1, 3] := by
    funext i
    simp only [Matrix.mul_apply, Fin.sum_univ_one]
    fin_cases i <;> norm_num
  obtain ⟨m, h1, h2, -⟩ := C105_partial (prmInf !![1; 2; 4]) medX_ok rfl (e := 1 / 10) (by norm_num) rfl (by decide)
    (!![1; 2; 4] : Matrix (Fin 3) (Fin 1) ℝ) (!![1; 3; 7] : Matrix (Fin 3) (Fin 1) ℝ) (K := 1) !![1; 2; 4] !![1] _ _ rfl
    (spread_distinct (by decide) _ hi)
    (by
      rw [hr]
      exact colMad_distinct (by decide) _ (hinj (by simp) (by simp) (by simp)))
    (by decide) rfl (by decide) (spread_distinct (by decide) _ hi)
    (colMad_distinct (by decide) _ fun i j h => hy (funext fun k => by
      rw [Subsingleton.elim k 0]
      exact sub_left_injective h))
  exact ⟨m, h1, h2⟩

/-- Two of three responses agree: the inner model sees NaNs. -/
example : residualWeights (prmInf !![1; 2; 4]) 3
    (of (finMat (Matrix.of fun i (_ : Fin 1) => (![5, 5, 7] : Fin 3 → ℝ) i))) none = .ok (nanMat 3 1) :=
  (C105_violation (prmInf !![1; 2; 4]) medX_ok rfl (by decide) (![5, 5, 7] : Fin 3 → ℝ) 5 (by
    simp [List.ofFn_succ, List.count_cons])).1

end Verif.Props
