import Verif.Alg.PRM

/-!
# PRM on real matrices
-/

set_option linter.unusedSectionVars false

namespace Verif

open Mat Transf

variable {n p : Nat}

/-- Distance of row `i` of `X` from the row vector `v`. -/
noncomputable def rdist (X : Matrix (Fin n) (Fin p) ℝ) (v : Matrix (Fin 1) (Fin p) ℝ) (i : Fin n) : ℝ :=
  Real.sqrt (∑ j, (X i j - v 0 j) * (X i j - v 0 j))

theorem rdist_nonneg (X : Matrix (Fin n) (Fin p) ℝ) (v : Matrix (Fin 1) (Fin p) ℝ) (i : Fin n) : 0 ≤ rdist X v i :=
  Real.sqrt_nonneg _

theorem norm2_row (v : Matrix (Fin 1) (Fin p) ℝ) : (of v).norm2 = Real.sqrt (∑ j, v 0 j * v 0 j) := by
  have hs : (of v).sumSq = ∑ j, v 0 j * v 0 j := by
    unfold sumSq
    simp only [sumFin_eq]
    exact Fin.sum_univ_one fun i => ∑ j, v i j * v i j
  unfold norm2
  rw [hs, if_pos (by simp [isVector])]
  rfl

/-- The column of distances. -/
noncomputable def distM (X : Matrix (Fin n) (Fin p) ℝ) (v : Matrix (Fin 1) (Fin p) ℝ) : Matrix (Fin n) (Fin 1) ℝ :=
  Matrix.of fun i _ => rdist X v i

theorem scaleCol_of (hn : 2 ≤ n) (X : Matrix (Fin n) (Fin p) ℝ) (d : Matrix (Fin n) (Fin 1) ℝ) :
    (of X).scaleByColumnVector (of d) = .ok (of (Matrix.of fun i j => X i j * d i 0)) := by
  have hc : (of d).mustBeColumnVector = .ok () := by
    simp [mustBeColumnVector, isColumnVector, isVector]
  unfold scaleByColumnVector
  rw [hc, except_bind_ok, if_pos rfl]
  exact vectorOp_col _ X d (by omega)

theorem cDist_of (hn : 0 < n) (X : Matrix (Fin n) (Fin p) ℝ) (v : Matrix (Fin 1) (Fin p) ℝ) :
    cDist (of X) (of v) = .ok (of (distM X v)) := by
  unfold cDist
  have hz : Factory.zeros (α := ℝ) (n : Int) 1 = .ok (of (0 : Matrix (Fin n) (Fin 1) ℝ)) := Factory.zeros_nat hn 1
  show (Factory.zeros (n : Int) 1 >>= _) = _
  rw [hz, except_bind_ok]
  refine fillCol_of _ _ (fun i => ?_) _
  rw [getRow_of, except_bind_ok, sub_of, except_bind_ok, norm2_row]
  rfl

/-- The weight of a row in a Weiszfeld step. -/
noncomputable def weisW (eps : ℝ) (X : Matrix (Fin n) (Fin p) ℝ) (v : Matrix (Fin 1) (Fin p) ℝ) (i : Fin n) : ℝ :=
  if rdist X v i < eps then 10 else (rdist X v i)⁻¹

theorem weisW_pos {eps : ℝ} (h : 0 < eps) (X : Matrix (Fin n) (Fin p) ℝ) (v : Matrix (Fin 1) (Fin p) ℝ) (i : Fin n) :
    0 < weisW eps X v i := by
  unfold weisW
  split
  · norm_num
  · rename_i h1
    exact inv_pos.2 (lt_of_lt_of_le h (not_lt.1 h1))

/-- The next Weiszfeld iterate. -/
noncomputable def weis (eps : ℝ) (X : Matrix (Fin n) (Fin p) ℝ) (v : Matrix (Fin 1) (Fin p) ℝ) :
    Matrix (Fin 1) (Fin p) ℝ :=
  Matrix.of fun _ j => (∑ i, X i j * weisW eps X v i) / ∑ i, weisW eps X v i

theorem invDist_eq (eps : ℝ) (X : Matrix (Fin n) (Fin p) ℝ) (v : Matrix (Fin 1) (Fin p) ℝ) (i : Fin n) :
    invDist eps (rdist X v i) = weisW eps X v i := by
  unfold invDist weisW pyAbs
  rw [if_neg (not_lt.2 (rdist_nonneg X v i)), one_div]
  norm_num

theorem geoStep_of (cfg : PrmCfg ℝ) (hn : 2 ≤ n) (X : Matrix (Fin n) (Fin p) ℝ) (v : Matrix (Fin 1) (Fin p) ℝ) :
    geoStep cfg (of X) (of v) = .ok (of (weis cfg.eps X v)) := by
  unfold geoStep
  have hd : (of (distM X v)).map (invDist cfg.eps) = of (Matrix.of fun i (_ : Fin 1) => weisW cfg.eps X v i) := by
    refine mk_congr fun i j => ?_
    exact invDist_eq _ X v i
  have hc : ∀ {q : Nat} (d : Matrix (Fin n) (Fin q) ℝ),
      (of d).colSums = of (Matrix.of fun (_ : Fin 1) j => ∑ i, d i j) := by
    intro q d
    refine mk_congr fun i j => ?_
    exact sumFin_eq _
  rw [cDist_of (by omega), except_bind_ok]
  show ((of X).scaleByColumnVector ((of (distM X v)).map (invDist cfg.eps)) >>= fun a =>
    ((of (distM X v)).map (invDist cfg.eps)).colSums.asReal >>= fun s => .ok (a.colSums.div s)) = _
  rw [hd, scaleCol_of hn, except_bind_ok, hc, asReal_of, except_bind_ok, hc, div_of]
  rfl

/-- `v` is a convex combination, with positive weights, of the rows of `X`. -/
def RowHull (X : Matrix (Fin n) (Fin p) ℝ) (v : Matrix (Fin 1) (Fin p) ℝ) : Prop :=
  ∃ w : Fin n → ℝ, (∀ i, 0 < w i) ∧ ∑ i, w i = 1 ∧ ∀ j, v 0 j = ∑ i, w i * X i j

theorem sum_pos_of {f : Fin n → ℝ} (hn : 0 < n) (h : ∀ i, 0 < f i) : 0 < ∑ i, f i :=
  Finset.sum_pos (fun i _ => h i) ⟨⟨0, hn⟩, Finset.mem_univ _⟩

theorem weis_hull {eps : ℝ} (h : 0 < eps) (hn : 0 < n) (X : Matrix (Fin n) (Fin p) ℝ) (v : Matrix (Fin 1) (Fin p) ℝ) :
    RowHull X (weis eps X v) := by
  have hs := sum_pos_of hn (weisW_pos h X v)
  refine ⟨fun i => weisW eps X v i / ∑ i, weisW eps X v i, fun i => div_pos (weisW_pos h X v i) hs, ?_, fun j => ?_⟩
  · rw [← Finset.sum_div, div_self hs.ne']
  · show (∑ i, X i j * weisW eps X v i) / _ = _
    rw [Finset.sum_div]
    refine Finset.sum_congr rfl fun i _ => ?_
    ring

theorem mean_hull (hn : 0 < n) (X : Matrix (Fin n) (Fin p) ℝ) :
    RowHull X (Matrix.of fun (_ : Fin 1) j => mu fun i => X i j) := by
  have h0 : (0 : ℝ) < n := by exact_mod_cast hn
  refine ⟨fun _ => (n : ℝ)⁻¹, fun _ => inv_pos.2 h0, ?_, fun j => ?_⟩
  · rw [Finset.sum_const, Finset.card_univ, Fintype.card_fin, nsmul_eq_mul, mul_inv_cancel₀ h0.ne']
  · show (∑ i, X i j) / (n : ℝ) = _
    rw [Finset.sum_div]
    refine Finset.sum_congr rfl fun i _ => ?_
    rw [div_eq_inv_mul]

theorem geoLoop_hull (cfg : PrmCfg ℝ) (he : 0 < cfg.eps) (hn : 2 ≤ n) (X : Matrix (Fin n) (Fin p) ℝ) :
    ∀ (k : Nat) (iter : Int), (cfg.maxIter - iter).toNat = k → ∀ v : Matrix (Fin 1) (Fin p) ℝ, RowHull X v →
      ∃ m, geoLoop cfg (of X) iter (of v) = .ok (of m) ∧ RowHull X m := by
  intro k
  induction k with
  | zero =>
    intro iter hk v hv
    rw [geoLoop, dif_neg (by omega)]
    exact ⟨v, rfl, hv⟩
  | succ k ih =>
    intro iter hk v hv
    rw [geoLoop, dif_pos (by omega), geoStep_of cfg hn, except_bind_ok, sub_of, except_bind_ok]
    split
    · exact ⟨_, rfl, weis_hull he (by omega) X v⟩
    · exact ih (iter + 1) (by omega) _ (weis_hull he (by omega) X v)

theorem geoMedian_hull (cfg : PrmCfg ℝ) (he : 0 < cfg.eps) (hn : 2 ≤ n) (X : Matrix (Fin n) (Fin p) ℝ) :
    ∃ m, geoMedian cfg (of X) = .ok (of m) ∧ RowHull X m := by
  unfold geoMedian
  rw [columnMeans_of]
  exact geoLoop_hull cfg he hn X _ 0 rfl _ (mean_hull (by omega) X)

/-! ## A pass of the training loop -/

theorem reweight_of (hn : 2 ≤ n) (Wr Wx : Matrix (Fin n) (Fin 1) ℝ) (A : Matrix (Fin n) (Fin p) ℝ) :
    reweight (of Wr) (of Wx) (of A) =
      .ok (of (Matrix.of fun i j => A i j * Real.sqrt (Wr i 0 * Wx i 0))) := by
  unfold reweight
  rw [mulElementwise_of, except_bind_ok]
  exact scaleCol_of hn A (Matrix.of fun i j => Real.sqrt (Wr i j * Wx i j))

theorem combinedWeight_of (Wr Wx : Matrix (Fin n) (Fin 1) ℝ) (i : Fin n) :
    combinedWeight (of Wr) (of Wx) ((i.1 : Nat) : Int) = .ok (Wx i 0 * Wr i 0) := by
  unfold combinedWeight
  rw [getRow_of, except_bind_ok, asReal_of, except_bind_ok, getRow_of, except_bind_ok, asReal_of, except_bind_ok]
  rfl

/-- The rescaled scores. -/
noncomputable def unweight (Wr Wx : Matrix (Fin n) (Fin 1) ℝ) (T : Matrix (Fin n) (Fin p) ℝ) : Matrix (Fin n) (Fin p) ℝ :=
  Matrix.of fun i j => T i j / Real.sqrt (Wx i 0 * Wr i 0)

theorem rescale_of (Wr Wx : Matrix (Fin n) (Fin 1) ℝ) (T : Matrix (Fin n) (Fin p) ℝ) :
    loopM (rescaleRow (of Wr) (of Wx)) (pyRange 0 (n : Int)) (of T) = .ok (of (unweight Wr Wx T)) := by
  have h := loopM_range (rescaleRow (of Wr) (of Wx))
    (fun k => of (Matrix.of fun i j => if i.1 < k then T i j / Real.sqrt (Wx i 0 * Wr i 0) else T i j)) n ?_
  · have h0 : of (Matrix.of fun i j => if i.1 < 0 then T i j / Real.sqrt (Wx i 0 * Wr i 0) else T i j) = of T :=
      mk_congr fun i j => by simp
    have h1 : of (Matrix.of fun i j => if i.1 < n then T i j / Real.sqrt (Wx i 0 * Wr i 0) else T i j) =
        of (unweight Wr Wx T) := mk_congr fun i j => if_pos i.2
    rw [h0, h1] at h
    exact h
  · intro k hk
    unfold rescaleRow
    have hw := combinedWeight_of Wr Wx ⟨k, hk⟩
    have hr := getRow_of (Matrix.of fun (i : Fin n) j => if i.1 < k then T i j / Real.sqrt (Wx i 0 * Wr i 0) else T i j) ⟨k, hk⟩
    simp only at hw hr
    rw [hw, except_bind_ok, hr, except_bind_ok, div_of]
    refine (setRow_of _ ⟨k, hk⟩ _).trans ?_
    congr 1
    refine mk_congr fun i j => ?_
    rw [Matrix.updateRow_apply]
    simp only [Matrix.of_apply]
    by_cases hik : i = ⟨k, hk⟩
    · subst hik
      rw [if_pos rfl, if_neg (lt_irrefl _), if_pos (Nat.lt_succ_self k)]
      rfl
    · have : i.1 ≠ k := fun e => hik (Fin.ext e)
      rw [if_neg hik]
      by_cases h1 : i.1 < k
      · rw [if_pos h1, if_pos (by omega)]
      · rw [if_neg h1, if_neg (by omega)]

/-- The residuals of a later iteration. -/
theorem residuals_later (cfg : PrmCfg ℝ) (hn : 0 < n) (y : Matrix (Fin n) (Fin 1) ℝ) (T : Matrix (Fin n) (Fin p) ℝ)
    (g : Matrix (Fin p) (Fin 1) ℝ) :
    prmResiduals cfg n (of y) (some (of T, of g)) =
      .ok (of (Matrix.of fun i (_ : Fin 1) => y i 0 - (T * g) i 0)) := by
  unfold prmResiduals
  have hz : Factory.zeros (α := ℝ) (n : Int) 1 = .ok (of (0 : Matrix (Fin n) (Fin 1) ℝ)) := Factory.zeros_nat hn 1
  rw [hz, except_bind_ok]
  refine fillCol_of _ _ (fun i => ?_) _
  have hg : (of y).get ((i.1 : Nat) : Int) 0 = .ok (y i 0) := get_of y i 0
  simp only [prmEstimate, except_bind_ok, hg, getRow_of, mul_of, asReal_of]
  rfl

/-- The fair function of the entries of a column divided by `s`. -/
noncomputable def fairM (D : Matrix (Fin n) (Fin 1) ℝ) (s c : ℝ) : Matrix (Fin n) (Fin 1) ℝ :=
  Matrix.of fun i _ => fair (D i 0 / s) c

theorem leverage_ok (cfg : PrmCfg ℝ) (he : 0 < cfg.eps) (hn : 2 ≤ n) (T : Matrix (Fin n) (Fin p) ℝ) :
    ∃ m : Matrix (Fin 1) (Fin p) ℝ, geoMedian cfg (of T) = .ok (of m) ∧ RowHull T m ∧ leverageWeights cfg (of T) =
      .ok (of (fairM (distM T m) (cfg.med (of (distM T m))) cfg.C)) := by
  obtain ⟨m, hm, hh⟩ := geoMedian_hull cfg he hn T
  exact ⟨m, hm, hh, leverageWeights_of (n := n) cfg (by omega) (of T) (of m) rfl _ hm (cDist_of (by omega) T m)⟩

/-- The residuals used in a pass. -/
noncomputable def passResid (y Wr Wx : Matrix (Fin n) (Fin 1) ℝ) (T : Matrix (Fin n) (Fin p) ℝ)
    (Q : Matrix (Fin 1) (Fin p) ℝ) : Matrix (Fin n) (Fin 1) ℝ :=
  Matrix.of fun i _ => y i 0 * Real.sqrt (Wr i 0 * Wx i 0) - (unweight Wr Wx T * Q.transpose) i 0

/-- Rows scaled by the square roots of the combined weights. -/
noncomputable def weightRows (Wr Wx : Matrix (Fin n) (Fin 1) ℝ) (A : Matrix (Fin n) (Fin p) ℝ) : Matrix (Fin n) (Fin p) ℝ :=
  Matrix.of fun i j => A i j * Real.sqrt (Wr i 0 * Wx i 0)

/-- The outcome of a pass on data of the right shapes. -/
theorem prmPass_ok (cfg : PrmCfg ℝ) (he : 0 < cfg.eps) (hn : 2 ≤ n) {k : Nat}
    (X : Matrix (Fin n) (Fin p) ℝ) (y Wr Wx : Matrix (Fin n) (Fin 1) ℝ) (T0 : Option (Mat ℝ)) (g : Mat ℝ)
    (b0 : Option (PrmBase ℝ)) (T : Matrix (Fin n) (Fin k) ℝ) (Q : Matrix (Fin 1) (Fin k) ℝ) (B W : Mat ℝ)
    (hb : cfg.base (of (weightRows Wr Wx X)) (of (weightRows Wr Wx y)) = .ok ⟨of T, of Q, B, W⟩) :
    ∃ m : Matrix (Fin 1) (Fin k) ℝ, geoMedian cfg (of (unweight Wr Wx T)) = .ok (of m) ∧ RowHull (unweight Wr Wx T) m ∧
      prmPass cfg (of X) (of y) ⟨of Wr, of Wx, T0, g, b0⟩ =
        .ok ⟨of (fairM (passResid y Wr Wx T Q) (prmMad cfg (of (passResid y Wr Wx T Q))) cfg.C),
          of (fairM (distM (unweight Wr Wx T) m) (cfg.med (of (distM (unweight Wr Wx T) m))) cfg.C),
          some (of (unweight Wr Wx T)), of Q.transpose, some ⟨of T, of Q, B, W⟩⟩ := by
  obtain ⟨m, hg, hm, hl⟩ := leverage_ok cfg he hn (unweight Wr Wx T)
  have hres : prmResiduals cfg n (of (weightRows Wr Wx y)) (some (of (unweight Wr Wx T), of Q.transpose)) =
      .ok (of (passResid y Wr Wx T Q)) :=
    residuals_later cfg (by omega) (weightRows Wr Wx y) (unweight Wr Wx T) Q.transpose
  have hr : residualWeights cfg n (of (weightRows Wr Wx y)) (some (of (unweight Wr Wx T), of Q.transpose)) =
      .ok (of (fairM (passResid y Wr Wx T Q) (prmMad cfg (of (passResid y Wr Wx T Q))) cfg.C)) :=
    residualWeights_of (n := n) cfg (by omega) _ _ _ hres
  refine ⟨m, hg, hm, ?_⟩
  have hX : reweight (of Wr) (of Wx) (of X) = .ok (of (weightRows Wr Wx X)) := reweight_of hn Wr Wx X
  have hy : reweight (of Wr) (of Wx) (of y) = .ok (of (weightRows Wr Wx y)) := reweight_of hn Wr Wx y
  have hT : loopM (rescaleRow (of Wr) (of Wx)) (pyRange 0 ((of T).rows : Int)) (of T) =
        .ok (of (unweight Wr Wx T)) := rescale_of Wr Wx T
  unfold prmPass
  simp only []
  rw [hX, except_bind_ok, hy, except_bind_ok, hb, except_bind_ok, hT, except_bind_ok, transpose_of]
  show (residualWeights cfg n _ _ >>= _) = _
  rw [hr, except_bind_ok, hl, except_bind_ok]

end Verif
