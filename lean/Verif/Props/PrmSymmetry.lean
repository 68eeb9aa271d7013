import Verif.Props.PrmScores
import Verif.Props.WeiszfeldStop
import Verif.Props.PrmRobust
import Verif.Props.StatsProps
import Verif.Core.UtilsLemmas

/-!
# C155 — orientation of the axes and unit of the response in PRM

The robust regression re-weights samples by distances and by residuals relative to their spread.  Both survive a rotation
of the predictor space and a change of the unit of the response, and so does the inner SIMPLS; what does not survive a
change of unit is the test that ends the re-weighting, which compares `gamma` with an absolute tolerance.
-/

namespace Verif.Props
open Verif Verif.Mat
open scoped Matrix

/-! ## SIMPLS -/

section simpls
variable {n p q : Nat} {qf : Matrix (Fin 1) (Fin 1) ℝ → Matrix (Fin 1) (Fin 1) ℝ} {V : Matrix (Fin p) (Fin q) ℝ} {c : ℝ}

/-- The states of SIMPLS on `(X, y)` and on `(X·V, c·y)`; `V` need not be square. -/
structure SimRot (V : Matrix (Fin p) (Fin q) ℝ) (c : ℝ) (s : Sim p) (t : Sim q) : Prop where
  A : t.A = c • (Vᵀ * s.A)
  C : t.C * Vᵀ = Vᵀ * s.C
  M : t.M = Vᵀ * s.M * V

/-- A sign. -/
def IsSign (e : ℝ) : Prop := e * e = 1

theorem sq1_rotV (hV : V * Vᵀ = 1) (v : Matrix (Fin p) (Fin 1) ℝ) : sq1 (Vᵀ * v) = sq1 v := by
  have h : ∀ {k : Nat} (x : Matrix (Fin k) (Fin 1) ℝ), sq1 x = (xᵀ * x) 0 0 := fun x => by
    rw [Matrix.mul_apply]
    rfl
  rw [h, h, Matrix.transpose_mul, Matrix.transpose_transpose, Matrix.mul_assoc, ← Matrix.mul_assoc V, hV, Matrix.one_mul]

theorem sq1_sign {e : ℝ} (he : IsSign e) (v : Matrix (Fin p) (Fin 1) ℝ) : sq1 (e • v) = sq1 v := by
  unfold sq1
  refine Finset.sum_congr rfl fun i _ => ?_
  rw [Matrix.smul_apply, smul_eq_mul, mul_mul_mul_comm, he, one_mul]

theorem SimRot.w {s : Sim p} {t : Sim q} (h : SimRot V c s t) (hV : V * Vᵀ = 1) (hc : c ≠ 0) (hq : ∀ a, qf a 0 0 ≠ 0) :
    ∃ e, IsSign e ∧ (c = 1 → e = 1) ∧ t.w qf = e • (Vᵀ * s.w qf) := by
  have hu : t.u qf = (c * qf (t.Aᵀ * t.A) 0 0 / qf (s.Aᵀ * s.A) 0 0) • (Vᵀ * s.u qf) := by
    unfold Sim.u
    rw [mul_one_one, mul_one_one, Matrix.mul_smul, smul_smul]
    conv_lhs => rw [show t.A = c • (Vᵀ * s.A) from h.A, smul_smul]
    rw [← h.A, div_mul_cancel₀ _ (hq _), mul_comm]
  have hk1 : c = 1 → c * qf (t.Aᵀ * t.A) 0 0 / qf (s.Aᵀ * s.A) 0 0 = 1 := by
    rintro rfl
    have e : t.Aᵀ * t.A = s.Aᵀ * s.A := by
      rw [h.A, one_smul, Matrix.transpose_mul, Matrix.transpose_transpose, Matrix.mul_assoc, ← Matrix.mul_assoc V, hV,
        Matrix.one_mul]
    rw [e, one_mul, div_self (hq _)]
  have hk0 : c * qf (t.Aᵀ * t.A) 0 0 / qf (s.Aᵀ * s.A) 0 0 ≠ 0 := div_ne_zero (mul_ne_zero hc (hq _)) (hq _)
  generalize c * qf (t.Aᵀ * t.A) 0 0 / qf (s.Aᵀ * s.A) 0 0 = k at hu hk1 hk0
  have hn : ((t.u qf)ᵀ * t.M * t.u qf) 0 0 = k ^ 2 * ((s.u qf)ᵀ * s.M * s.u qf) 0 0 := by
    have e : (t.u qf)ᵀ * t.M * t.u qf = k ^ 2 • ((s.u qf)ᵀ * s.M * s.u qf) := by
      rw [hu, h.M, Matrix.transpose_smul, Matrix.transpose_mul, Matrix.transpose_transpose, Matrix.smul_mul, Matrix.smul_mul,
        Matrix.mul_smul, smul_smul, pow_two]
      congr 1
      calc (s.u qf)ᵀ * V * (Vᵀ * s.M * V) * (Vᵀ * s.u qf)
          = (s.u qf)ᵀ * (V * Vᵀ) * s.M * (V * Vᵀ) * s.u qf := by simp only [Matrix.mul_assoc]
        _ = _ := by rw [hV, Matrix.mul_one, Matrix.mul_one]
    rw [e]
    rfl
  refine ⟨k / |k|, ?_, fun h1 => ?_, ?_⟩
  · unfold IsSign
    rw [div_mul_div_comm, abs_mul_abs_self, div_self (mul_self_ne_zero.2 hk0)]
  · rw [hk1 h1, abs_one, div_one]
  · unfold Sim.w
    rw [hn, Real.sqrt_mul (sq_nonneg k), Real.sqrt_sq_eq_abs, hu, Matrix.mul_smul, smul_smul, smul_smul]
    congr 1
    rw [one_div, one_div, mul_inv, div_eq_mul_inv]
    ring

theorem SimRot.ld {s : Sim p} {t : Sim q} (h : SimRot V c s t) (hV : V * Vᵀ = 1) {e : ℝ} (hw : t.w qf = e • (Vᵀ * s.w qf)) :
    t.ld qf = e • (Vᵀ * s.ld qf) := by
  unfold Sim.ld
  rw [hw, h.M, Matrix.mul_smul]
  congr 1
  calc Vᵀ * s.M * V * (Vᵀ * s.w qf) = Vᵀ * s.M * (V * Vᵀ) * s.w qf := by simp only [Matrix.mul_assoc]
    _ = _ := by rw [hV, Matrix.mul_one, Matrix.mul_assoc]

theorem SimRot.v {s : Sim p} {t : Sim q} (h : SimRot V c s t) (hV : V * Vᵀ = 1) {e : ℝ} (he : IsSign e)
    (hw : t.w qf = e • (Vᵀ * s.w qf)) : t.v qf = e • (Vᵀ * s.v qf) := by
  have e1 : t.C * t.ld qf = e • (Vᵀ * (s.C * s.ld qf)) := by
    rw [h.ld hV hw, Matrix.mul_smul, ← Matrix.mul_assoc, h.C, Matrix.mul_assoc]
  unfold Sim.v nrm
  rw [e1, sq1_sign he, sq1_rotV hV, Matrix.mul_smul, smul_comm]

theorem outer_rot {e : ℝ} (he : IsSign e) (v : Matrix (Fin p) (Fin 1) ℝ) :
    (e • (Vᵀ * v)) * (e • (Vᵀ * v))ᵀ = Vᵀ * (v * vᵀ) * V := by
  rw [Matrix.transpose_smul, Matrix.smul_mul, Matrix.mul_smul, smul_smul, he, one_smul, Matrix.transpose_mul,
    Matrix.transpose_transpose]
  simp only [Matrix.mul_assoc]

theorem SimRot.next {s : Sim p} {t : Sim q} (h : SimRot V c s t) (hV : V * Vᵀ = 1) (hc : c ≠ 0) (hq : ∀ a, qf a 0 0 ≠ 0) :
    SimRot V c (s.next qf) (t.next qf) := by
  obtain ⟨e, he, -, hw⟩ := h.w hV hc hq
  have hC : (t.C - t.v qf * (t.v qf)ᵀ) * Vᵀ = Vᵀ * (s.C - s.v qf * (s.v qf)ᵀ) := by
    rw [h.v hV he hw, outer_rot he, Matrix.sub_mul, h.C, Matrix.mul_sub, Matrix.mul_assoc (Vᵀ * _) V, hV, Matrix.mul_one]
  refine ⟨?_, hC, ?_⟩
  · show (t.C - t.v qf * (t.v qf)ᵀ) * t.A = c • (Vᵀ * ((s.C - s.v qf * (s.v qf)ᵀ) * s.A))
    rw [h.A, Matrix.mul_smul, ← Matrix.mul_assoc, hC, Matrix.mul_assoc]
  · show t.M - t.ld qf * (t.ld qf)ᵀ = Vᵀ * (s.M - s.ld qf * (s.ld qf)ᵀ) * V
    rw [h.ld hV hw, outer_rot he, h.M, Matrix.mul_sub, Matrix.sub_mul]

theorem sim_rot (hV : V * Vᵀ = 1) (hc : c ≠ 0) (hq : ∀ a, qf a 0 0 ≠ 0) (X : Matrix (Fin n) (Fin p) ℝ)
    (y : Matrix (Fin n) (Fin 1) ℝ) (h : Nat) : SimRot V c (sim qf X y h) (sim qf (X * V) (c • y) h) := by
  induction h with
  | zero =>
    refine ⟨?_, ?_, ?_⟩
    · show (X * V)ᵀ * (c • y) = c • (Vᵀ * (Xᵀ * y))
      rw [Matrix.transpose_mul, Matrix.mul_smul, Matrix.mul_assoc]
    · show (1 : Matrix (Fin q) (Fin q) ℝ) * Vᵀ = Vᵀ * 1
      rw [Matrix.mul_one, Matrix.one_mul]
    · show (X * V)ᵀ * (X * V) = Vᵀ * (Xᵀ * X) * V
      rw [Matrix.transpose_mul]
      simp only [Matrix.mul_assoc]
  | succ h ih => exact ih.next hV hc hq

theorem pos_of_rot (hV : V * Vᵀ = 1) (hp : 0 < p) : 0 < q := by
  rcases Nat.eq_zero_or_pos q with rfl | h
  · have h0 := congrFun (congrFun hV ⟨0, hp⟩) ⟨0, hp⟩
    rw [Matrix.mul_apply, Finset.univ_eq_empty, Finset.sum_empty, Matrix.one_apply_eq] at h0
    exact absurd h0 zero_ne_one
  · exact h

/-- The inner model of PRM without slimming on rotated predictors and a rescaled response. -/
theorem simplsBase_rot {eig : Mat ℝ → Mat ℝ × Mat ℝ} (he : EigOne eig) (hp : 0 < p) (K : Nat) {count : Int}
    (hcount : count ≤ 0) (hV : V * Vᵀ = 1) (hc : c ≠ 0) (X : Matrix (Fin n) (Fin p) ℝ) (y : Matrix (Fin n) (Fin 1) ℝ) :
    ∃ (W : Matrix (Fin p) (Fin K) ℝ) (Q : Matrix (Fin 1) (Fin K) ℝ) (D : Matrix (Fin K) (Fin K) ℝ),
      D * Dᵀ = 1 ∧ (c = 1 → D = 1) ∧
      simplsBase eig (K : Int) count (of X) (of y) = .ok ⟨of (X * W), of Q, of (W * Qᵀ), of W⟩ ∧
      simplsBase eig (K : Int) count (of (X * V)) (of (c • y)) =
        .ok ⟨of (X * W * D), of (c • (Q * D)), of (c • (Vᵀ * (W * Qᵀ))), of (Vᵀ * W * D)⟩ := by
  obtain ⟨qf, hqf, hq⟩ := domOf_one he
  have key := fun h => (sim_rot (n := n) hV hc hq X y h).w (qf := qf) hV hc hq
  choose e hs h1 hw using key
  have hW : simWM qf (X * V) (c • y) K = Vᵀ * simWM qf X y K * Matrix.diagonal fun j : Fin K => e j.1 := by
    ext i j
    rw [Matrix.mul_diagonal]
    show simW qf (X * V) (c • y) j.1 i 0 = _
    rw [show simW qf (X * V) (c • y) j.1 = _ from hw j.1, Matrix.smul_apply, smul_eq_mul, mul_comm]
    rfl
  have hQ : simQM qf (X * V) (c • y) K = c • (simQM qf X y K * Matrix.diagonal fun j : Fin K => e j.1) := by
    ext i j
    rw [Matrix.smul_apply, Matrix.mul_diagonal]
    show ((sim qf (X * V) (c • y) j.1).Aᵀ * simW qf (X * V) (c • y) j.1) i 0 = _
    rw [show simW qf (X * V) (c • y) j.1 = _ from hw j.1, (sim_rot hV hc hq X y j.1).A, Matrix.transpose_smul,
      Matrix.transpose_mul, Matrix.transpose_transpose, Matrix.smul_mul, Matrix.mul_smul, Matrix.mul_assoc,
      ← Matrix.mul_assoc V, hV, Matrix.one_mul, Matrix.smul_apply, Matrix.smul_apply, smul_eq_mul, smul_eq_mul, smul_eq_mul,
      mul_comm (e j.1)]
    rfl
  have hD : (Matrix.diagonal fun j : Fin K => e j.1) * (Matrix.diagonal fun j : Fin K => e j.1)ᵀ = 1 := by
    rw [Matrix.diagonal_transpose, Matrix.diagonal_mul_diagonal]
    simp only [show ∀ j, e j * e j = 1 from hs]
    exact Matrix.diagonal_one
  refine ⟨simWM qf X y K, simQM qf X y K, Matrix.diagonal fun j : Fin K => e j.1, hD, fun hc1 => ?_, ?_, ?_⟩
  · simp only [show ∀ j, e j = 1 from fun j => h1 j hc1]
    exact Matrix.diagonal_one
  · unfold simplsBase simplsTransform
    rw [simplsTrain_eq qf X y (domOf eig) K hp count hqf, if_neg (by omega), except_bind_ok, mul_of, except_bind_ok]
  · unfold simplsBase simplsTransform
    rw [simplsTrain_eq qf (X * V) (c • y) (domOf eig) K (pos_of_rot hV hp) count hqf, if_neg (by omega), except_bind_ok, mul_of,
      except_bind_ok, hW, hQ]
    generalize (Matrix.diagonal fun j : Fin K => e j.1) = D at hD
    have e1 : X * V * (Vᵀ * simWM qf X y K * D) = X * simWM qf X y K * D := by
      calc X * V * (Vᵀ * simWM qf X y K * D) = X * (V * Vᵀ) * simWM qf X y K * D := by simp only [Matrix.mul_assoc]
        _ = _ := by rw [hV, Matrix.mul_one]
    have e2 : Vᵀ * simWM qf X y K * D * (c • (simQM qf X y K * D))ᵀ = c • (Vᵀ * (simWM qf X y K * (simQM qf X y K)ᵀ)) := by
      rw [Matrix.transpose_smul, Matrix.mul_smul, Matrix.transpose_mul]
      congr 1
      calc Vᵀ * simWM qf X y K * D * (Dᵀ * (simQM qf X y K)ᵀ) =
            Vᵀ * simWM qf X y K * (D * Dᵀ) * (simQM qf X y K)ᵀ := by simp only [Matrix.mul_assoc]
        _ = _ := by rw [hD, Matrix.mul_one, Matrix.mul_assoc]
    rw [e1, e2]

end simpls

/-! ## The geometric median -/

section geo
variable {n p q : Nat} {D : Matrix (Fin p) (Fin q) ℝ}

theorem sqSum_rot (hD : D * Dᵀ = 1) (v : Matrix (Fin 1) (Fin p) ℝ) :
    ∑ j, (v * D) 0 j * (v * D) 0 j = ∑ j, v 0 j * v 0 j := by
  have h : ∀ {k : Nat} (x : Matrix (Fin 1) (Fin k) ℝ), ∑ j, x 0 j * x 0 j = (x * xᵀ) 0 0 := fun x => by
    rw [Matrix.mul_apply]
    rfl
  rw [h, h, Matrix.transpose_mul, Matrix.mul_assoc, ← Matrix.mul_assoc D, hD, Matrix.one_mul]

theorem rdist_rot (hD : D * Dᵀ = 1) (T : Matrix (Fin n) (Fin p) ℝ) (v : Matrix (Fin 1) (Fin p) ℝ) (i : Fin n) :
    rdist (T * D) (v * D) i = rdist T v i := by
  unfold rdist
  have e : ∀ j, (T * D) i j - (v * D) 0 j = ((Matrix.of fun (_ : Fin 1) j => T i j - v 0 j) * D) 0 j := by
    intro j
    simp only [Matrix.mul_apply, ← Finset.sum_sub_distrib, Matrix.of_apply, sub_mul]
  simp only [e]
  rw [sqSum_rot hD]
  rfl

theorem distM_rot (hD : D * Dᵀ = 1) (T : Matrix (Fin n) (Fin p) ℝ) (v : Matrix (Fin 1) (Fin p) ℝ) :
    distM (T * D) (v * D) = distM T v := by
  ext i j
  exact rdist_rot hD T v i

theorem weis_rot (hD : D * Dᵀ = 1) (eps : ℝ) (T : Matrix (Fin n) (Fin p) ℝ) (v : Matrix (Fin 1) (Fin p) ℝ) :
    weis eps (T * D) (v * D) = weis eps T v * D := by
  have hw : ∀ i, weisW eps (T * D) (v * D) i = weisW eps T v i := fun i => by
    unfold weisW
    rw [rdist_rot hD]
  ext i j
  simp only [weis, Matrix.of_apply, Matrix.mul_apply, hw, Finset.sum_mul]
  rw [Finset.sum_comm, Finset.sum_div]
  refine Finset.sum_congr rfl fun k _ => ?_
  rw [div_mul_eq_mul_div, Finset.sum_mul]
  congr 1
  refine Finset.sum_congr rfl fun i _ => ?_
  ring

theorem geoLoop_rot (cfg : PrmCfg ℝ) (hn : 2 ≤ n) (hD : D * Dᵀ = 1) (T : Matrix (Fin n) (Fin p) ℝ) :
    ∀ (k : Nat) (iter : Int), (cfg.maxIter - iter).toNat = k → ∀ v m : Matrix (Fin 1) (Fin p) ℝ,
      geoLoop cfg (of T) iter (of v) = .ok (of m) → geoLoop cfg (of (T * D)) iter (of (v * D)) = .ok (of (m * D)) := by
  intro k
  induction k with
  | zero =>
    intro iter hk v m h
    rw [geoLoop, dif_neg (by omega), ok_inj, of_inj] at h
    rw [geoLoop, dif_neg (by omega), h]
  | succ k ih =>
    intro iter hk v m h
    rw [geoLoop, dif_pos (by omega), geoStep_of cfg hn, except_bind_ok, sub_of, except_bind_ok, norm2Squared_row] at h
    rw [geoLoop, dif_pos (by omega), geoStep_of cfg hn, except_bind_ok, sub_of, except_bind_ok, norm2Squared_row,
      weis_rot hD, ← Matrix.sub_mul]
    have e : ∑ j, ((weis cfg.eps T v - v) * D) 0 j ^ 2 = ∑ j, (weis cfg.eps T v - v) 0 j ^ 2 := by
      simp only [pow_two]
      exact sqSum_rot hD _
    rw [e]
    by_cases ht : ∑ j, (weis cfg.eps T v - v) 0 j ^ 2 < cfg.tol
    · rw [if_pos ht, ok_inj, of_inj] at h
      rw [if_pos ht, h]
    · rw [if_neg ht] at h
      rw [if_neg ht]
      exact ih (iter + 1) (by omega) _ _ h

theorem geoMedian_rot (cfg : PrmCfg ℝ) (hn : 2 ≤ n) (hD : D * Dᵀ = 1) (T : Matrix (Fin n) (Fin p) ℝ)
    (m : Matrix (Fin 1) (Fin p) ℝ) (h : geoMedian cfg (of T) = .ok (of m)) :
    geoMedian cfg (of (T * D)) = .ok (of (m * D)) := by
  unfold geoMedian at h ⊢
  rw [Transf.columnMeans_of] at h ⊢
  have e : (Matrix.of fun (_ : Fin 1) j => Transf.mu fun i => (T * D) i j) =
      (Matrix.of fun (_ : Fin 1) j => Transf.mu fun i => T i j) * D := by
    ext i j
    simp only [Matrix.of_apply, Transf.mu, Matrix.mul_apply]
    rw [Finset.sum_comm, Finset.sum_div]
    refine Finset.sum_congr rfl fun k _ => ?_
    rw [div_mul_eq_mul_div, Finset.sum_mul]
  rw [e]
  exact geoLoop_rot cfg hn hD T _ 0 rfl _ _ h

end geo

/-! ## Residuals -/

section resid
variable {n p : Nat} {cfg : PrmCfg ℝ} {c : ℝ}

/-- The median of a column in another unit is the median in that unit. -/
def MedUnit (med : Mat ℝ → ℝ) : Prop :=
  ∀ (c : ℝ) (n : Nat) (v : Matrix (Fin n) (Fin 1) ℝ), 0 < n → med (of (c • v)) = c * med (of v)

theorem MedCol.unit {med : Mat ℝ → ℝ} (h : MedCol med) : MedUnit med := by
  intro c n v hn
  have e : ∀ u : Matrix (Fin n) (Fin 1) ℝ, u = Matrix.of fun i (_ : Fin 1) => u i 0 := fun u => by
    ext i j
    rw [Subsingleton.elim j 0]
    rfl
  have hne : ∀ f : Fin n → ℝ, List.ofFn f ≠ [] := fun f hf => by
    have := congrArg List.length hf
    simp at this
    omega
  rw [e (c • v), e v, h n _ hn, h n _ hn]
  refine (median_middle _ (hne _)).unique ?_
  have h2 := (median_middle _ (hne fun i => v i 0)).affine c 0
  rw [List.map_ofFn, add_zero] at h2
  simp only [add_zero] at h2
  exact h2

theorem mad_unit (hn : 0 < n) (hm : c = 1 ∨ MedUnit cfg.med) (v : Matrix (Fin n) (Fin 1) ℝ) :
    prmMad cfg (of (c • v)) = |c| * prmMad cfg (of v) := by
  rcases hm with rfl | hm
  · rw [one_smul, abs_one, one_mul]
  · unfold prmMad
    rw [hm _ _ _ hn]
    have ha : ∀ (u : Matrix (Fin n) (Fin 1) ℝ) (m : ℝ), ((of u).subScalar m).abs =
        of (Matrix.of fun i j => |u i j - m| : Matrix (Fin n) (Fin 1) ℝ) := by
      intro u m
      refine mk_congr fun i j => ?_
      show (if u i j - m < 0 then -(u i j - m) else u i j - m) = |u i j - m|
      split
      · rw [abs_of_neg ‹_›]
      · rw [abs_of_nonneg (not_lt.1 ‹_›)]
    have e : (Matrix.of fun i j => |(c • v) i j - c * cfg.med (of v)| : Matrix (Fin n) (Fin 1) ℝ) =
        |c| • (Matrix.of fun i j => |v i j - cfg.med (of v)| : Matrix (Fin n) (Fin 1) ℝ) := by
      ext i j
      simp only [Matrix.of_apply, Matrix.smul_apply, smul_eq_mul, ← mul_sub, abs_mul]
    rw [ha, ha, e, hm _ _ _ hn]

theorem fairM_unit (hc : c ≠ 0) (r : Matrix (Fin n) (Fin 1) ℝ) (s C : ℝ) :
    fairM (c • r) (|c| * s) C = fairM r s C := by
  have ha : ∀ x : ℝ, pyAbs x = |x| := fun x => by
    unfold pyAbs
    split
    · rw [abs_of_neg ‹_›]
    · rw [abs_of_nonneg (not_lt.1 ‹_›)]
  have hc' : |c| ≠ 0 := abs_ne_zero.2 hc
  ext i j
  have e : |c * r i 0 / (|c| * s) / C| = |r i 0 / s / C| := by
    rw [abs_div, abs_div, abs_mul, abs_mul, abs_abs, mul_div_mul_left _ _ hc', abs_div, abs_div]
  simp only [fairM, Matrix.of_apply, Matrix.smul_apply, smul_eq_mul, fair, ha, e]

theorem unweight_mul {q : Nat} (Wr Wx : Matrix (Fin n) (Fin 1) ℝ) (T : Matrix (Fin n) (Fin p) ℝ)
    (D : Matrix (Fin p) (Fin q) ℝ) : unweight Wr Wx (T * D) = unweight Wr Wx T * D := by
  ext i j
  simp only [unweight, Matrix.of_apply, Matrix.mul_apply, Finset.sum_div]
  refine Finset.sum_congr rfl fun k _ => ?_
  ring

theorem weightRows_mul {q : Nat} (Wr Wx : Matrix (Fin n) (Fin 1) ℝ) (X : Matrix (Fin n) (Fin p) ℝ)
    (D : Matrix (Fin p) (Fin q) ℝ) : weightRows Wr Wx (X * D) = weightRows Wr Wx X * D := by
  ext i j
  simp only [weightRows, Matrix.of_apply, Matrix.mul_apply, Finset.sum_mul]
  refine Finset.sum_congr rfl fun k _ => ?_
  ring

theorem weightRows_smul (Wr Wx : Matrix (Fin n) (Fin 1) ℝ) (y : Matrix (Fin n) (Fin 1) ℝ) :
    weightRows Wr Wx (c • y) = c • weightRows Wr Wx y := by
  ext i j
  simp only [weightRows, Matrix.of_apply, Matrix.smul_apply, smul_eq_mul, mul_assoc]

theorem passResid_rot {D : Matrix (Fin p) (Fin p) ℝ} (hD : D * Dᵀ = 1) (y Wr Wx : Matrix (Fin n) (Fin 1) ℝ)
    (T : Matrix (Fin n) (Fin p) ℝ) (Q : Matrix (Fin 1) (Fin p) ℝ) :
    passResid (c • y) Wr Wx (T * D) (c • (Q * D)) = c • passResid y Wr Wx T Q := by
  have e : unweight Wr Wx (T * D) * (c • (Q * D))ᵀ = c • (unweight Wr Wx T * Qᵀ) := by
    rw [unweight_mul, Matrix.transpose_smul, Matrix.mul_smul, Matrix.transpose_mul]
    congr 1
    calc unweight Wr Wx T * D * (Dᵀ * Qᵀ) = unweight Wr Wx T * (D * Dᵀ) * Qᵀ := by simp only [Matrix.mul_assoc]
      _ = _ := by rw [hD, Matrix.mul_one]
  ext i j
  simp only [passResid, Matrix.of_apply, Matrix.smul_apply, smul_eq_mul, e]
  ring

end resid

/-! ## The training loop -/

section loop
variable {n p q K : Nat} {V : Matrix (Fin p) (Fin q) ℝ} {c : ℝ} {eig : Mat ℝ → Mat ℝ × Mat ℝ} {count : Int} {cfg : PrmCfg ℝ}

/-- The states after the same number of passes on `(X, y)` and on `(X·V, c·y)`. -/
def PrmSym (n K : Nat) (V : Matrix (Fin p) (Fin q) ℝ) (c : ℝ) (s t : PrmState ℝ) : Prop :=
  ∃ (wr wx : Matrix (Fin n) (Fin 1) ℝ) (W : Matrix (Fin p) (Fin K) ℝ) (g : Matrix (Fin K) (Fin 1) ℝ)
    (D : Matrix (Fin K) (Fin K) ℝ) (T Q T' Q' : Mat ℝ) (S S' : Option (Mat ℝ)),
    D * Dᵀ = 1 ∧ (c = 1 → D = 1) ∧
    s = ⟨of wr, of wx, S, of g, some ⟨T, Q, of (W * g), of W⟩⟩ ∧
    t = ⟨of wr, of wx, S', of (c • (Dᵀ * g)), some ⟨T', Q', of (c • (Vᵀ * (W * g))), of (Vᵀ * W * D)⟩⟩

theorem prmPass_sym (he : EigOne eig) (hp : 0 < p) (heps : 0 < cfg.eps) (hn : 2 ≤ n) (hcount : count ≤ 0)
    (hbase : cfg.base = simplsBase eig (K : Int) count) (hV : V * Vᵀ = 1) (hc : c ≠ 0) (hm : c = 1 ∨ MedUnit cfg.med)
    (X : Matrix (Fin n) (Fin p) ℝ) (y wr wx : Matrix (Fin n) (Fin 1) ℝ) (T0 T0' : Option (Mat ℝ)) (g0 g0' : Mat ℝ)
    (b0 b0' : Option (PrmBase ℝ)) :
    ∃ s t, prmPass cfg (of X) (of y) ⟨of wr, of wx, T0, g0, b0⟩ = .ok s ∧
      prmPass cfg (of (X * V)) (of (c • y)) ⟨of wr, of wx, T0', g0', b0'⟩ = .ok t ∧ PrmSym n K V c s t := by
  obtain ⟨W, Q, D, hD, hD1, hb, hb'⟩ := simplsBase_rot (K := K) he hp hcount hV hc (weightRows wr wx X) (weightRows wr wx y)
  rw [← hbase] at hb hb'
  rw [← weightRows_mul, ← weightRows_smul] at hb'
  obtain ⟨m, hg, -, hp1⟩ := prmPass_ok cfg heps hn X y wr wx T0 g0 b0 _ _ _ _ hb
  obtain ⟨m', hg', -, hp2⟩ := prmPass_ok cfg heps hn (X * V) (c • y) wr wx T0' g0' b0' _ _ _ _ hb'
  rw [unweight_mul, geoMedian_rot cfg hn hD _ _ hg, ok_inj, of_inj] at hg'
  rw [unweight_mul, ← hg', distM_rot hD, passResid_rot hD, mad_unit (by omega) hm, fairM_unit hc,
    Matrix.transpose_smul, Matrix.transpose_mul] at hp2
  exact ⟨_, _, hp1, hp2, _, _, W, Qᵀ, D, _, _, _, _, _, _, hD, hD1, rfl, rfl⟩

/-- The state after `k` more passes. -/
noncomputable def prmPasses (cfg : PrmCfg ℝ) (X y : Mat ℝ) : Nat → PrmState ℝ → Except PyErr (PrmState ℝ)
  | 0, s => .ok s
  | k + 1, s => prmPass cfg X y s >>= prmPasses cfg X y k

theorem prmPasses_sym (he : EigOne eig) (hp : 0 < p) (heps : 0 < cfg.eps) (hn : 2 ≤ n) (hcount : count ≤ 0)
    (hbase : cfg.base = simplsBase eig (K : Int) count) (hV : V * Vᵀ = 1) (hc : c ≠ 0) (hm : c = 1 ∨ MedUnit cfg.med)
    (X : Matrix (Fin n) (Fin p) ℝ) (y : Matrix (Fin n) (Fin 1) ℝ) (k : Nat) (s t : PrmState ℝ)
    (h : PrmSym n K V c s t) :
    ∃ s' t', prmPasses cfg (of X) (of y) k s = .ok s' ∧ prmPasses cfg (of (X * V)) (of (c • y)) k t = .ok t' ∧
      PrmSym n K V c s' t' := by
  induction k generalizing s t with
  | zero => exact ⟨s, t, rfl, rfl, h⟩
  | succ k ih =>
    obtain ⟨wr, wx, W, g, D, T, Q, T', Q', S, S', -, -, rfl, rfl⟩ := h
    obtain ⟨s1, t1, h1, h2, h3⟩ := prmPass_sym (K := K) he hp heps hn hcount hbase hV hc hm X y wr wx S S' (of g)
      (of (c • (Dᵀ * g))) (some ⟨T, Q, of (W * g), of W⟩)
      (some ⟨T', Q', of (c • (Vᵀ * (W * g))), of (Vᵀ * W * D)⟩)
    unfold prmPasses
    rw [h1, h2, except_bind_ok, except_bind_ok]
    exact ih s1 t1 h3

/-- What the loop returns is the state after the passes it counted. -/
theorem prmMore_passes (X y : Mat ℝ) : ∀ (k : Nat) (iter : Int), (cfg.maxIter - iter).toNat = k →
    ∀ (old : Mat ℝ) (s s' : PrmState ℝ) (it : Int), prmMore cfg X y iter old s = .ok (s', it) →
      ∃ j : Nat, it = iter + j ∧ prmPasses cfg X y j s = .ok s' := by
  intro k
  induction k with
  | zero =>
    intro iter hk old s s' it h
    rw [prmMore] at h
    obtain ⟨d, hd, h⟩ := Utils.bind_ok_iff.1 h
    rw [dif_neg (by omega), ok_inj, Prod.mk.injEq] at h
    exact ⟨0, by omega, by rw [h.1]; rfl⟩
  | succ k ih =>
    intro iter hk old s s' it h
    rw [prmMore] at h
    obtain ⟨d, hd, h⟩ := Utils.bind_ok_iff.1 h
    split at h
    · obtain ⟨s1, h1, h⟩ := Utils.bind_ok_iff.1 h
      obtain ⟨j, hj, h2⟩ := ih (iter + 1) (by omega) _ _ _ _ h
      refine ⟨j + 1, by omega, ?_⟩
      unfold prmPasses
      rw [h1, except_bind_ok, h2]
    · rw [ok_inj, Prod.mk.injEq] at h
      exact ⟨0, by omega, by rw [h.1]; rfl⟩

/-- Without a change of unit the loops also stop together. -/
theorem prmMore_rot (he : EigOne eig) (hp : 0 < p) (heps : 0 < cfg.eps) (hn : 2 ≤ n) (hcount : count ≤ 0)
    (hbase : cfg.base = simplsBase eig (K : Int) count) (hV : V * Vᵀ = 1)
    (X : Matrix (Fin n) (Fin p) ℝ) (y : Matrix (Fin n) (Fin 1) ℝ) : ∀ (k : Nat) (iter : Int),
    (cfg.maxIter - iter).toNat = k → ∀ (old : Matrix (Fin K) (Fin 1) ℝ) (s t : PrmState ℝ), PrmSym n K V 1 s t →
      ∃ s' t' it, prmMore cfg (of X) (of y) iter (of old) s = .ok (s', it) ∧
        prmMore cfg (of (X * V)) (of ((1 : ℝ) • y)) iter (of old) t = .ok (t', it) ∧ PrmSym n K V 1 s' t' := by
  intro k
  induction k with
  | zero =>
    intro iter hk old s t h
    have h' := h
    obtain ⟨wr, wx, W, g, D, T, Q, T', Q', S, S', -, hD, rfl, rfl⟩ := h'
    rw [prmMore, prmMore, sub_of, sub_of, except_bind_ok, except_bind_ok, dif_neg (by omega), dif_neg (by omega)]
    exact ⟨_, _, _, rfl, rfl, h⟩
  | succ k ih =>
    intro iter hk old s t h
    have h' := h
    obtain ⟨wr, wx, W, g, D, T, Q, T', Q', S, S', -, hD, rfl, rfl⟩ := h'
    have e : (1 : ℝ) • (Dᵀ * g) = g := by rw [hD rfl, one_smul, Matrix.transpose_one, Matrix.one_mul]
    rw [prmMore, prmMore, sub_of, sub_of, except_bind_ok, except_bind_ok]
    dsimp only
    rw [e]
    by_cases hs : (of (g - old)).norm2Squared < cfg.tol ∧ iter < cfg.maxIter
    · rw [dif_pos hs, dif_pos hs]
      obtain ⟨s1, t1, h1, h2, h3⟩ := prmPass_sym (K := K) he hp heps hn hcount hbase hV one_ne_zero (Or.inl rfl) X y wr wx
        S S' (of g) (of g) (some ⟨T, Q, of (W * g), of W⟩)
        (some ⟨T', Q', of ((1 : ℝ) • (Vᵀ * (W * g))), of (Vᵀ * W * D)⟩)
      rw [h1, h2, except_bind_ok, except_bind_ok]
      exact ih (iter + 1) (by omega) g s1 t1 h3
    · rw [dif_neg hs, dif_neg hs]
      refine ⟨_, _, _, rfl, rfl, ?_⟩
      rw [e] at h
      exact h

/-- The weights before the first pass. -/
theorem prmStart (heps : 0 < cfg.eps) (hn : 2 ≤ n) (hV : V * Vᵀ = 1) (hc : c ≠ 0)
    (hm : c = 1 ∨ MedUnit cfg.med) (X : Matrix (Fin n) (Fin p) ℝ) (y : Matrix (Fin n) (Fin 1) ℝ) :
    ∃ wr wx : Matrix (Fin n) (Fin 1) ℝ, residualWeights cfg n (of y) none = .ok (of wr) ∧
      residualWeights cfg n (of (c • y)) none = .ok (of wr) ∧
      leverageWeights cfg (of X) = .ok (of wx) ∧ leverageWeights cfg (of (X * V)) = .ok (of wx) := by
  have hwr := residualWeights_of (n := n) cfg (by omega) (of y) none _ (residuals_first cfg (by omega) y)
  have hwr' := residualWeights_of (n := n) cfg (by omega) (of (c • y)) none _ (residuals_first cfg (by omega) (c • y))
  obtain ⟨m, hg, -, hwx⟩ := leverage_ok cfg heps hn X
  obtain ⟨m', hg', -, hwx'⟩ := leverage_ok cfg heps hn (X * V)
  rw [geoMedian_rot cfg hn hV _ _ hg, ok_inj, of_inj] at hg'
  rw [← hg', distM_rot hV] at hwx'
  have e : (Matrix.of fun i (_ : Fin 1) => (c • y) i 0 - cfg.med (of (c • y))) =
      c • (Matrix.of fun i (_ : Fin 1) => y i 0 - cfg.med (of y) : Matrix (Fin n) (Fin 1) ℝ) := by
    ext i j
    simp only [Matrix.of_apply, Matrix.smul_apply, smul_eq_mul]
    rcases hm with rfl | hm
    · rw [one_smul, one_mul, one_mul]
    · rw [hm _ _ _ (by omega), mul_sub]
  have ef := fairM_unit hc (Matrix.of fun i (_ : Fin 1) => y i 0 - cfg.med (of y) : Matrix (Fin n) (Fin 1) ℝ)
    (prmMad cfg (of (Matrix.of fun i (_ : Fin 1) => y i 0 - cfg.med (of y) : Matrix (Fin n) (Fin 1) ℝ))) cfg.C
  rw [e, mad_unit (by omega) hm] at hwr'
  rw [show (Matrix.of fun i (_ : Fin 1) => fair ((c • (Matrix.of fun i (_ : Fin 1) => y i 0 - cfg.med (of y) :
    Matrix (Fin n) (Fin 1) ℝ)) i 0 / (|c| * prmMad cfg (of (Matrix.of fun i (_ : Fin 1) => y i 0 - cfg.med (of y) :
    Matrix (Fin n) (Fin 1) ℝ)))) cfg.C) = _ from ef] at hwr'
  obtain ⟨wr, hwr, hwr'⟩ : ∃ wr : Matrix (Fin n) (Fin 1) ℝ, residualWeights cfg n (of y) none = .ok (of wr) ∧
      residualWeights cfg n (of (c • y)) none = .ok (of wr) := ⟨_, hwr, hwr'⟩
  obtain ⟨wx, hwx, hwx'⟩ : ∃ wx : Matrix (Fin n) (Fin 1) ℝ, leverageWeights cfg (of X) = .ok (of wx) ∧
      leverageWeights cfg (of (X * V)) = .ok (of wx) := ⟨_, hwx, hwx'⟩
  exact ⟨wr, wx, hwr, hwr', hwx, hwx'⟩

/-- Without the replacement of wide predictors. -/
theorem prmTrain_low (hpn : p ≤ n) {X : Matrix (Fin n) (Fin p) ℝ} {y wr wx : Matrix (Fin n) (Fin 1) ℝ}
    (hwr : residualWeights cfg n (of y) none = .ok (of wr)) (hwx : leverageWeights cfg (of X) = .ok (of wx)) :
    prmTrain cfg (of X) (of y) = (do
      let s ← prmLoop cfg (of X) (of y) (of wr) (of wx)
      let B ← prmCoefs none s.1.base
      .ok ⟨s.1, s.2, B⟩) := by
  unfold prmTrain prmReplace
  rw [if_neg (show ¬ n < p by omega), except_bind_ok]
  show (residualWeights cfg n (of y) none >>= _) = _
  rw [hwr, except_bind_ok]
  show (leverageWeights cfg (of X) >>= _) = _
  rw [hwx, except_bind_ok]

end loop

section claims
variable {n p : Nat} {eig : Mat ℝ → Mat ℝ × Mat ℝ} {K : Nat} {count : Int} {cfg : PrmCfg ℝ}

/-- **C155** (partial: at least as many samples as predictors, no slimming).  The orientation of the axes of the predictor
space does not matter: on rotated or mirrored predictors PRM makes the same number of passes, gives the samples the same
weights, and has the same scores and predictions for new data rotated the same way. -/
theorem C155_rotation_partial (he : EigOne eig) (hp : 0 < p) (heps : 0 < cfg.eps) (hn : 2 ≤ n) (hpn : p ≤ n) (hK0 : 0 < K)
    (hK : cfg.K = (K : Int)) (hcount : count ≤ 0) (hbase : cfg.base = simplsBase eig (K : Int) count)
    {V : Matrix (Fin p) (Fin p) ℝ} (hV : V * Vᵀ = 1) (X : Matrix (Fin n) (Fin p) ℝ) (y : Matrix (Fin n) (Fin 1) ℝ) :
    ∃ m m' : PrmModel ℝ, prmTrain cfg (of X) (of y) = .ok m ∧ prmTrain cfg (of (X * V)) (of y) = .ok m' ∧
      m'.iterations = m.iterations ∧ (∃ w : Matrix (Fin n) (Fin 1) ℝ, prmW m = .ok (of w) ∧ prmW m' = .ok (of w)) ∧
      ∀ (r : Nat) (Z : Matrix (Fin r) (Fin p) ℝ),
        (∃ S : Matrix (Fin r) (Fin K) ℝ, prmTransform m (of Z) = .ok (of S) ∧ prmTransform m' (of (Z * V)) = .ok (of S)) ∧
        ∃ F : Matrix (Fin r) (Fin 1) ℝ, prmPredict m (of Z) = .ok (of F) ∧ prmPredict m' (of (Z * V)) = .ok (of F) := by
  obtain ⟨wr, wx, a1, a2, a3, a4⟩ := prmStart (c := 1) heps hn hV one_ne_zero (Or.inl rfl) X y
  have h1 := prmTrain_low hpn a1 a3
  have h2 := prmTrain_low hpn a2 a4
  have hz : Factory.zeros (α := ℝ) (K : Int) 1 = .ok (of (0 : Matrix (Fin K) (Fin 1) ℝ)) := Factory.zeros_nat hK0 1
  obtain ⟨s, t, p1, p2, p3⟩ := prmPass_sym (K := K) he hp heps hn hcount hbase hV one_ne_zero (Or.inl rfl) X y wr wx
    none none (of (0 : Matrix (Fin K) (Fin 1) ℝ)) (of (0 : Matrix (Fin K) (Fin 1) ℝ)) none none
  obtain ⟨s', t', it, q1, q2, q3⟩ := prmMore_rot he hp heps hn hcount hbase hV X y _ 1 rfl 0 s t p3
  have hl : prmLoop cfg (of X) (of y) (of wr) (of wx) = .ok (s', it) := by
    unfold prmLoop
    rw [hK, hz, except_bind_ok, p1, except_bind_ok, q1]
  have hl' : prmLoop cfg (of (X * V)) (of ((1 : ℝ) • y)) (of wr) (of wx) = .ok (t', it) := by
    unfold prmLoop
    rw [hK, hz, except_bind_ok, p2, except_bind_ok, q2]
  obtain ⟨vr, vx, W, g, D, T, Q, T', Q', S, S', -, hD, rfl, rfl⟩ := q3
  rw [hl, except_bind_ok] at h1
  rw [hl', except_bind_ok] at h2
  rw [one_smul] at h2
  refine ⟨_, _, h1, h2, rfl, ⟨_, mulElementwise_of vr vx, mulElementwise_of vr vx⟩, fun r Z => ⟨⟨Z * W, mul_of _ _, ?_⟩,
    ⟨Z * (W * g), mul_of _ _, ?_⟩⟩⟩
  · refine (mul_of _ _).trans ?_
    rw [hD rfl, Matrix.mul_one, Matrix.mul_assoc Z, ← Matrix.mul_assoc V, hV, Matrix.one_mul]
  · refine (mul_of _ _).trans ?_
    rw [one_smul, Matrix.mul_assoc Z, ← Matrix.mul_assoc V, hV, Matrix.one_mul]

/-- **C155** (partial: the same number of passes — see `C155_units_violation`).  With the response in another unit (factor
`c`, also negative) PRM trains as before, and if it makes the same number of passes, the samples have the same weights and
the predictions are the old ones in the new unit. -/
theorem C155_units_partial (he : EigOne eig) (hp : 0 < p) (heps : 0 < cfg.eps) (hn : 2 ≤ n) (hpn : p ≤ n) (hK0 : 0 < K)
    (hK : cfg.K = (K : Int)) (hcount : count ≤ 0) (hbase : cfg.base = simplsBase eig (K : Int) count)
    (hm : MedCol cfg.med) {c : ℝ} (hc : c ≠ 0) (X : Matrix (Fin n) (Fin p) ℝ) (y : Matrix (Fin n) (Fin 1) ℝ) :
    ∃ m m' : PrmModel ℝ, prmTrain cfg (of X) (of y) = .ok m ∧ prmTrain cfg (of X) (of (c • y)) = .ok m' ∧
      (m'.iterations = m.iterations →
        (∃ w : Matrix (Fin n) (Fin 1) ℝ, prmW m = .ok (of w) ∧ prmW m' = .ok (of w)) ∧
        ∀ (r : Nat) (Z : Matrix (Fin r) (Fin p) ℝ), ∃ F : Matrix (Fin r) (Fin 1) ℝ,
          prmPredict m (of Z) = .ok (of F) ∧ prmPredict m' (of Z) = .ok (of (c • F))) := by
  have hV : (1 : Matrix (Fin p) (Fin p) ℝ) * (1 : Matrix (Fin p) (Fin p) ℝ)ᵀ = 1 := by
    rw [Matrix.transpose_one, Matrix.one_mul]
  obtain ⟨wr, wx, a1, a2, a3, a4⟩ := prmStart heps hn hV hc (Or.inr hm.unit) X y
  have h1 := prmTrain_low hpn a1 a3
  have h2 := prmTrain_low hpn a2 a4
  have hz : Factory.zeros (α := ℝ) (K : Int) 1 = .ok (of (0 : Matrix (Fin K) (Fin 1) ℝ)) := Factory.zeros_nat hK0 1
  obtain ⟨s, t, p1, p2, p3⟩ := prmPass_sym (K := K) he hp heps hn hcount hbase hV hc (Or.inr hm.unit) X y wr wx
    none none (of (0 : Matrix (Fin K) (Fin 1) ℝ)) (of (0 : Matrix (Fin K) (Fin 1) ℝ)) none none
  obtain ⟨s', it, _, _, l1, g1⟩ := prmLoop_good (cfg := cfg) he hp heps hn hK hK0 hbase X y wr wx
  obtain ⟨t', it', _, _, l2, g2⟩ := prmLoop_good (cfg := cfg) he hp heps hn hK hK0 hbase (X * (1 : Matrix (Fin p) (Fin p) ℝ)) (c • y) wr wx
  obtain ⟨_, _, hb1⟩ := g1.base
  obtain ⟨_, _, hb2⟩ := g2.base
  rw [l1, except_bind_ok] at h1
  rw [l2, except_bind_ok] at h2
  dsimp only at h1 h2
  rw [hb1] at h1
  rw [hb2, Matrix.mul_one] at h2
  refine ⟨_, _, h1, h2, fun hi => ?_⟩
  have hi : it' = it := hi
  unfold prmLoop at l1 l2
  rw [hK, hz, except_bind_ok, p1, except_bind_ok] at l1
  rw [hK, hz, except_bind_ok, p2, except_bind_ok] at l2
  obtain ⟨j, hj, a1⟩ := prmMore_passes _ _ _ 1 rfl _ _ _ _ l1
  obtain ⟨j', hj', a2⟩ := prmMore_passes _ _ _ 1 rfl _ _ _ _ l2
  obtain rfl : j' = j := by omega
  obtain ⟨s2, t2, b1, b2, b3⟩ := prmPasses_sym he hp heps hn hcount hbase hV hc (Or.inr hm.unit) X y j' s t p3
  rw [a1, ok_inj] at b1
  rw [a2, ok_inj] at b2
  subst b1 b2
  obtain ⟨vr, vx, W, g, D, T, Q, T', Q', S, S', -, hD, rfl, rfl⟩ := b3
  simp only [Option.some.injEq, PrmBase.mk.injEq] at hb1 hb2
  refine ⟨⟨_, mulElementwise_of vr vx, mulElementwise_of vr vx⟩, fun r Z => ⟨Z * (W * g), ?_, ?_⟩⟩
  · show (of Z).mul _ = _
    rw [← hb1.2.2.1]
    exact mul_of _ _
  · show (of Z).mul _ = _
    rw [← hb2.2.2.1]
    refine (mul_of _ _).trans ?_
    rw [Matrix.transpose_one, Matrix.one_mul, Matrix.mul_smul]

end claims

/-! ## Where the unit matters -/

section two

/-- SIMPLS with one component on one predictor is regression through the origin. -/
theorem base_one {n : Nat} {eig : Mat ℝ → Mat ℝ × Mat ℝ} (he : EigOne eig) {count : Int} (hcount : count ≤ 0)
    (X y : Matrix (Fin n) (Fin 1) ℝ) {a m : ℝ} (ha : (Xᵀ * y) 0 0 = a) (hm : (Xᵀ * X) 0 0 = m) (ha0 : a ≠ 0) (hm0 : 0 < m) :
    ∃ (W : Matrix (Fin 1) (Fin 1) ℝ) (Q : Matrix (Fin 1) (Fin 1) ℝ),
      simplsBase eig ((1 : Nat) : Int) count (of X) (of y) = .ok ⟨of (X * W), of Q, of (W * Qᵀ), of W⟩ ∧
      W 0 0 ≠ 0 ∧ W 0 0 * Q 0 0 = a / m ∧ Q 0 0 * Q 0 0 = a ^ 2 / m := by
  obtain ⟨qf, hqf, hq⟩ := domOf_one he
  have hq0 := hq ((sim qf X y 0).Aᵀ * (sim qf X y 0).A)
  have hu : (sim qf X y 0).u qf 0 0 = a * qf ((sim qf X y 0).Aᵀ * (sim qf X y 0).A) 0 0 := by
    unfold Sim.u
    rw [Matrix.mul_apply, Fin.sum_univ_one]
    exact congrArg (· * _) ha
  generalize qf ((sim qf X y 0).Aᵀ * (sim qf X y 0).A) 0 0 = q at hu hq0
  have hn : (((sim qf X y 0).u qf)ᵀ * (sim qf X y 0).M * (sim qf X y 0).u qf) 0 0 = (a * q) ^ 2 * m := by
    rw [Matrix.mul_apply, Fin.sum_univ_one, Matrix.mul_apply, Fin.sum_univ_one, Matrix.transpose_apply, hu,
      show (sim qf X y 0).M 0 0 = m from hm]
    ring
  have hw : simW qf X y 0 0 0 = 1 / Real.sqrt ((a * q) ^ 2 * m) * (a * q) := by
    show (1 / Real.sqrt _) * (sim qf X y 0).u qf 0 0 = _
    rw [hn, hu]
  have hQ : simQ qf X y 0 0 0 = a * simW qf X y 0 0 0 := by
    show ((sim qf X y 0).Aᵀ * simW qf X y 0) 0 0 = _
    rw [Matrix.mul_apply, Fin.sum_univ_one, Matrix.transpose_apply]
    exact congrArg (· * _) ha
  have haq : a * q ≠ 0 := mul_ne_zero ha0 hq0
  have hpos : 0 < (a * q) ^ 2 * m := by positivity
  have hww : simW qf X y 0 0 0 * simW qf X y 0 0 0 = 1 / m := by
    rw [hw, mul_mul_mul_comm, div_mul_div_comm, Real.mul_self_sqrt hpos.le, one_mul]
    field_simp
  refine ⟨simWM qf X y 1, simQM qf X y 1, ?_, ?_, ?_, ?_⟩
  · unfold simplsBase simplsTransform
    rw [simplsTrain_eq qf X y (domOf eig) 1 one_pos count hqf, if_neg (by omega), except_bind_ok, mul_of, except_bind_ok]
  · show simW qf X y 0 0 0 ≠ 0
    rw [hw]
    exact mul_ne_zero (one_div_ne_zero (Real.sqrt_pos.2 hpos).ne') haq
  · show simW qf X y 0 0 0 * simQ qf X y 0 0 0 = _
    rw [hQ, mul_left_comm, hww]
    ring
  · show simQ qf X y 0 0 0 * simQ qf X y 0 0 0 = _
    rw [hQ, mul_mul_mul_comm, hww]
    ring

variable {cfg : PrmCfg ℝ}

theorem rdist_two (T : Matrix (Fin 2) (Fin 1) ℝ) (i : Fin 2) :
    rdist T (Matrix.of fun _ _ => (T 0 0 + T 1 0) / 2) i = |T 0 0 - T 1 0| / 2 := by
  unfold rdist
  rw [Fin.sum_univ_one, Real.sqrt_mul_self_eq_abs]
  show |T i 0 - (T 0 0 + T 1 0) / 2| = _
  fin_cases i
  · show |T 0 0 - (T 0 0 + T 1 0) / 2| = _
    rw [show T 0 0 - (T 0 0 + T 1 0) / 2 = (T 0 0 - T 1 0) / 2 by ring, abs_div, abs_two]
  · show |T 1 0 - (T 0 0 + T 1 0) / 2| = _
    rw [show T 1 0 - (T 0 0 + T 1 0) / 2 = -((T 0 0 - T 1 0) / 2) by ring, abs_neg, abs_div, abs_two]

/-- The geometric median of two numbers, as computed, is their mean. -/
theorem geo_two (heps : 0 < cfg.eps) (T : Matrix (Fin 2) (Fin 1) ℝ) (htol : 0 < cfg.tol) :
    geoMedian cfg (of T) = .ok (of (Matrix.of fun (_ : Fin 1) (_ : Fin 1) => (T 0 0 + T 1 0) / 2)) := by
  have hm : (of T).columnMeans = of (Matrix.of fun (_ : Fin 1) (_ : Fin 1) => (T 0 0 + T 1 0) / 2) := by
    rw [Transf.columnMeans_of]
    refine mk_congr fun i j => ?_
    rw [Subsingleton.elim j 0]
    simp [Transf.mu, Fin.sum_univ_two]
  have hw : weis cfg.eps T (Matrix.of fun _ _ => (T 0 0 + T 1 0) / 2) =
      Matrix.of fun (_ : Fin 1) (_ : Fin 1) => (T 0 0 + T 1 0) / 2 := by
    have h0 : ∀ i, weisW cfg.eps T (Matrix.of fun _ _ => (T 0 0 + T 1 0) / 2) i =
        weisW cfg.eps T (Matrix.of fun _ _ => (T 0 0 + T 1 0) / 2) 0 := fun i => by
      unfold weisW
      rw [rdist_two, rdist_two]
    have hp := weisW_pos heps T (Matrix.of fun _ _ => (T 0 0 + T 1 0) / 2) 0
    ext i j
    rw [Subsingleton.elim j 0]
    simp only [weis, Matrix.of_apply, Fin.sum_univ_two]
    rw [h0 1]
    generalize weisW cfg.eps T (Matrix.of fun _ _ => (T 0 0 + T 1 0) / 2) 0 = w at hp
    field_simp
    ring
  unfold geoMedian
  rw [hm, geoLoop]
  split
  · rw [geoStep_of _ (le_refl 2), except_bind_ok, hw, sub_of, except_bind_ok, sub_self, if_pos]
    rw [norm2Squared_col, (sq1_eq_zero _).2 rfl]
    exact htol
  · rfl

/-- Two different numbers have the same leverage weight. -/
theorem leverage_two (hmed : MedCol cfg.med) (T : Matrix (Fin 2) (Fin 1) ℝ) (h : T 0 0 ≠ T 1 0) :
    fairM (distM T (Matrix.of fun _ _ => (T 0 0 + T 1 0) / 2))
      (cfg.med (of (distM T (Matrix.of fun _ _ => (T 0 0 + T 1 0) / 2)))) cfg.C = Matrix.of fun _ _ => fair 1 cfg.C := by
  have hd : distM T (Matrix.of fun _ _ => (T 0 0 + T 1 0) / 2) = Matrix.of fun _ (_ : Fin 1) => |T 0 0 - T 1 0| / 2 := by
    ext i j
    exact rdist_two T i
  have h0 : |T 0 0 - T 1 0| / 2 ≠ 0 := div_ne_zero (abs_ne_zero.2 (sub_ne_zero.2 h)) two_ne_zero
  have hm : cfg.med (of (Matrix.of fun (_ : Fin 2) (_ : Fin 1) => |T 0 0 - T 1 0| / 2)) = |T 0 0 - T 1 0| / 2 := by
    rw [hmed 2 (fun _ => |T 0 0 - T 1 0| / 2) two_pos]
    have : (List.ofFn fun _ : Fin 2 => |T 0 0 - T 1 0| / 2) = [|T 0 0 - T 1 0| / 2, |T 0 0 - T 1 0| / 2] := by
      simp [List.ofFn_succ]
    rw [this, median_pair le_rfl]
    ring
  rw [hd, hm]
  ext i j
  simp only [fairM, Matrix.of_apply, div_self h0]

/-- One pass on the predictors `1, 2` and the responses `1, 0`. -/
theorem pass_two {eig : Mat ℝ → Mat ℝ × Mat ℝ} (he : EigOne eig) {count : Int} (hcount : count ≤ 0)
    (heps : 0 < cfg.eps) (htol : 0 < cfg.tol) (hmed : MedCol cfg.med)
    (hbase : cfg.base = simplsBase eig ((1 : Nat) : Int) count) (wr wx : Matrix (Fin 2) (Fin 1) ℝ) {u v : ℝ}
    (hu : wr 0 0 * wx 0 0 = u * u) (hv : wr 1 0 * wx 1 0 = v * v) (hu0 : 0 < u) (hv0 : 0 < v)
    (T0 : Option (Mat ℝ)) (g0 : Mat ℝ) (b0 : Option (PrmBase ℝ)) :
    ∃ (S T Q : Mat ℝ) (W g : Matrix (Fin 1) (Fin 1) ℝ),
      prmPass cfg (of (!![1; 2] : Matrix (Fin 2) (Fin 1) ℝ)) (of (!![1; 0] : Matrix (Fin 2) (Fin 1) ℝ))
        ⟨of wr, of wx, T0, g0, b0⟩ =
        .ok ⟨of (fairM (!![u - u * u / (u * u + 4 * (v * v)); -(2 * (u * u / (u * u + 4 * (v * v))))] : Matrix (Fin 2) (Fin 1) ℝ)
            (prmMad cfg (of (!![u - u * u / (u * u + 4 * (v * v)); -(2 * (u * u / (u * u + 4 * (v * v))))] :
              Matrix (Fin 2) (Fin 1) ℝ))) cfg.C),
          of (Matrix.of fun (_ : Fin 2) (_ : Fin 1) => fair 1 cfg.C), some S, of g, some ⟨T, Q, of (W * g), of W⟩⟩ ∧
      (W * g) 0 0 = u * u / (u * u + 4 * (v * v)) ∧ g 0 0 * g 0 0 = (u * u) ^ 2 / (u * u + 4 * (v * v)) := by
  have hs0 : Real.sqrt (wr 0 0 * wx 0 0) = u := by rw [hu, Real.sqrt_mul_self hu0.le]
  have hs1 : Real.sqrt (wr 1 0 * wx 1 0) = v := by rw [hv, Real.sqrt_mul_self hv0.le]
  have hX : weightRows wr wx (!![1; 2] : Matrix (Fin 2) (Fin 1) ℝ) = !![u; 2 * v] := by
    ext i j
    fin_cases i <;> fin_cases j
    · show 1 * Real.sqrt (wr 0 0 * wx 0 0) = u
      rw [hs0, one_mul]
    · show 2 * Real.sqrt (wr 1 0 * wx 1 0) = 2 * v
      rw [hs1]
  have hy : weightRows wr wx (!![1; 0] : Matrix (Fin 2) (Fin 1) ℝ) = !![u; 0] := by
    ext i j
    fin_cases i <;> fin_cases j
    · show 1 * Real.sqrt (wr 0 0 * wx 0 0) = u
      rw [hs0, one_mul]
    · show 0 * Real.sqrt (wr 1 0 * wx 1 0) = 0
      rw [zero_mul]
  have ha : ((!![u; 2 * v] : Matrix (Fin 2) (Fin 1) ℝ)ᵀ * (!![u; 0] : Matrix (Fin 2) (Fin 1) ℝ)) 0 0 = u * u := by
    rw [Matrix.mul_apply, Fin.sum_univ_two]
    show u * u + 2 * v * 0 = u * u
    ring
  have hm : ((!![u; 2 * v] : Matrix (Fin 2) (Fin 1) ℝ)ᵀ * (!![u; 2 * v] : Matrix (Fin 2) (Fin 1) ℝ)) 0 0 =
      u * u + 4 * (v * v) := by
    rw [Matrix.mul_apply, Fin.sum_univ_two]
    show u * u + 2 * v * (2 * v) = _
    ring
  obtain ⟨W, Q, hb, hW0, hWQ, hQQ⟩ := base_one he hcount _ _ ha hm (by positivity) (by positivity)
  rw [← hX] at hb
  rw [← hy, ← hbase] at hb
  have hun : unweight wr wx (weightRows wr wx (!![1; 2] : Matrix (Fin 2) (Fin 1) ℝ) * W) = !![W 0 0; 2 * W 0 0] := by
    rw [hX]
    ext i j
    fin_cases i <;> fin_cases j
    · show ((!![u; 2 * v] : Matrix (Fin 2) (Fin 1) ℝ) * W) 0 0 / Real.sqrt (wx 0 0 * wr 0 0) = W 0 0
      rw [mul_comm (wx 0 0), hs0, Matrix.mul_apply, Fin.sum_univ_one]
      show u * W 0 0 / u = W 0 0
      field_simp
    · show ((!![u; 2 * v] : Matrix (Fin 2) (Fin 1) ℝ) * W) 1 0 / Real.sqrt (wx 1 0 * wr 1 0) = 2 * W 0 0
      rw [mul_comm (wx 1 0), hs1, Matrix.mul_apply, Fin.sum_univ_one]
      show 2 * v * W 0 0 / v = 2 * W 0 0
      field_simp
  have hr : passResid (!![1; 0] : Matrix (Fin 2) (Fin 1) ℝ) wr wx
      (weightRows wr wx (!![1; 2] : Matrix (Fin 2) (Fin 1) ℝ) * W) Q =
      !![u - u * u / (u * u + 4 * (v * v)); -(2 * (u * u / (u * u + 4 * (v * v))))] := by
    have e : ∀ i j, passResid (!![1; 0] : Matrix (Fin 2) (Fin 1) ℝ) wr wx
      (weightRows wr wx (!![1; 2] : Matrix (Fin 2) (Fin 1) ℝ) * W) Q i j =
      (!![1; 0] : Matrix (Fin 2) (Fin 1) ℝ) i 0 * Real.sqrt (wr i 0 * wx i 0) -
        ((!![W 0 0; 2 * W 0 0] : Matrix (Fin 2) (Fin 1) ℝ) * Qᵀ) i 0 := fun i j => by
      rw [← hun]
      rfl
    ext i j
    rw [e, Matrix.mul_apply, Fin.sum_univ_one]
    fin_cases i <;> fin_cases j
    · show 1 * Real.sqrt (wr 0 0 * wx 0 0) - W 0 0 * Q 0 0 = u - u * u / (u * u + 4 * (v * v))
      rw [hs0, hWQ, one_mul]
    · show 0 * Real.sqrt (wr 1 0 * wx 1 0) - 2 * W 0 0 * Q 0 0 = -(2 * (u * u / (u * u + 4 * (v * v))))
      rw [mul_assoc, hWQ]
      ring
  obtain ⟨m, hg, -, hp⟩ := prmPass_ok cfg heps (le_refl 2) _ _ wr wx T0 g0 b0 _ _ _ _ hb
  rw [hun, geo_two heps _ htol, ok_inj, of_inj] at hg
  rw [hun, ← hg, hr, leverage_two hmed _ (by
    show W 0 0 ≠ 2 * W 0 0
    intro h
    exact hW0 (by linarith))] at hp
  refine ⟨_, _, _, W, Qᵀ, hp, ?_, hQQ⟩
  rw [Matrix.mul_apply, Fin.sum_univ_one]
  exact hWQ

end two

section violation
variable {cfg : PrmCfg ℝ} {eig : Mat ℝ → Mat ℝ × Mat ℝ} {count : Int}

theorem mad_two (hmed : MedCol cfg.med) (a b : ℝ) :
    prmMad cfg (of (!![a; b] : Matrix (Fin 2) (Fin 1) ℝ)) = |a - b| / 2 := by
  have hm : ∀ a b : ℝ, cfg.med (of (!![a; b] : Matrix (Fin 2) (Fin 1) ℝ)) = (a + b) / 2 := by
    intro a b
    have e : (!![a; b] : Matrix (Fin 2) (Fin 1) ℝ) = Matrix.of fun i (_ : Fin 1) => (![a, b] : Fin 2 → ℝ) i := by
      ext i j
      fin_cases i <;> fin_cases j <;> rfl
    rw [e, hmed 2 _ two_pos]
    have h1 : List.ofFn (![a, b] : Fin 2 → ℝ) = [a, b] := by simp [List.ofFn_succ]
    rw [h1]
    rcases le_total a b with h | h
    · exact median_pair h
    · by_cases h' : a ≤ b
      · exact median_pair h'
      · simp [medianList, List.mergeSort, h', add_comm]
  have ha : ∀ x : ℝ, (if x < 0 then -x else x) = |x| := fun x => by
    split
    · rw [abs_of_neg ‹_›]
    · rw [abs_of_nonneg (not_lt.1 ‹_›)]
  unfold prmMad
  rw [hm]
  have e : ((of (!![a; b] : Matrix (Fin 2) (Fin 1) ℝ)).subScalar ((a + b) / 2)).abs =
      of (!![|a - b| / 2; |a - b| / 2] : Matrix (Fin 2) (Fin 1) ℝ) := by
    refine mk_congr fun i j => (ha _).trans ?_
    fin_cases i <;> fin_cases j
    · show |a - (a + b) / 2| = |a - b| / 2
      rw [show a - (a + b) / 2 = (a - b) / 2 by ring, abs_div, abs_two]
    · show |b - (a + b) / 2| = |a - b| / 2
      rw [show b - (a + b) / 2 = -((a - b) / 2) by ring, abs_neg, abs_div, abs_two]
  rw [e, hm]
  ring

theorem fair_four {z w : ℝ} (h : w = 1 / ((1 + |z / 4|) * (1 + |z / 4|))) : fair z 4 = w := by
  have ha : ∀ x : ℝ, pyAbs x = |x| := fun x => by
    unfold pyAbs
    split
    · rw [abs_of_neg ‹_›]
    · rw [abs_of_nonneg (not_lt.1 ‹_›)]
  unfold fair
  rw [ha, h]

/-- C155 is violated: the re-weighting goes on while `gamma` changes by *less than an absolute tolerance*, so the unit of the
response decides how many passes are made.  With the default tuning constant and tolerance and at most two passes, the
responses `1, 0` at the predictors `1, 2` give one pass; the same responses in thousandths give two, and the predictions
are no longer the old ones in the new unit. -/
theorem C155_units_violation (he : EigOne eig) (hcount : count ≤ 0) (heps : 0 < cfg.eps) (hmed : MedCol cfg.med)
    (htol : cfg.tol = 1 / 1000000) (hC : cfg.C = 4) (hmax : cfg.maxIter = 2) (hK : cfg.K = 1)
    (hbase : cfg.base = simplsBase eig 1 count) :
    ∃ (m m' : PrmModel ℝ) (f f' : Matrix (Fin 1) (Fin 1) ℝ),
      prmTrain cfg (of (!![1; 2] : Matrix (Fin 2) (Fin 1) ℝ)) (of (!![1; 0] : Matrix (Fin 2) (Fin 1) ℝ)) = .ok m ∧
      prmTrain cfg (of (!![1; 2] : Matrix (Fin 2) (Fin 1) ℝ)) (of ((1 / 1000 : ℝ) • (!![1; 0] : Matrix (Fin 2) (Fin 1) ℝ))) =
        .ok m' ∧
      m.iterations = 1 ∧ m'.iterations = 2 ∧
      prmPredict m (of (1 : Matrix (Fin 1) (Fin 1) ℝ)) = .ok (of f) ∧
      prmPredict m' (of (1 : Matrix (Fin 1) (Fin 1) ℝ)) = .ok (of f') ∧ f' ≠ (1 / 1000 : ℝ) • f := by
  have hV : (1 : Matrix (Fin 1) (Fin 1) ℝ) * (1 : Matrix (Fin 1) (Fin 1) ℝ)ᵀ = 1 := by
    rw [Matrix.transpose_one, Matrix.one_mul]
  have hc : (1 / 1000 : ℝ) ≠ 0 := by norm_num
  have ht : 0 < cfg.tol := by rw [htol]; norm_num
  obtain ⟨wr, wx, hr, hr', hx, hx'⟩ := prmStart (cfg := cfg) heps (le_refl 2) hV hc (Or.inr hmed.unit)
    (!![1; 2] : Matrix (Fin 2) (Fin 1) ℝ) (!![1; 0] : Matrix (Fin 2) (Fin 1) ℝ)
  have h1 := prmTrain_low (cfg := cfg) (by decide) hr hx
  have h2 := prmTrain_low (cfg := cfg) (by decide) hr' hx'
  rw [Matrix.mul_one] at h2
  -- the first weights
  have f1 : fair (1 : ℝ) 4 = 16 / 25 := fair_four (by norm_num)
  have hwx : wx = Matrix.of fun _ _ => (16 / 25 : ℝ) := by
    obtain ⟨m, hg, -, hw⟩ := leverage_ok cfg heps (le_refl 2) (!![1; 2] : Matrix (Fin 2) (Fin 1) ℝ)
    rw [geo_two heps _ ht, ok_inj, of_inj] at hg
    rw [← hg, leverage_two hmed _ (by show (1 : ℝ) ≠ 2; norm_num), hC, f1, hx, ok_inj, of_inj] at hw
    exact hw
  have hwr : wr = Matrix.of fun _ _ => (16 / 25 : ℝ) := by
    have hw := residualWeights_of (n := 2) cfg two_pos (of (!![1; 0] : Matrix (Fin 2) (Fin 1) ℝ)) none _
      (residuals_first cfg two_pos _)
    have e : cfg.med (of (!![1; 0] : Matrix (Fin 2) (Fin 1) ℝ)) = 1 / 2 := by
      have e1 : (!![1; 0] : Matrix (Fin 2) (Fin 1) ℝ) = Matrix.of fun i (_ : Fin 1) => (![1, 0] : Fin 2 → ℝ) i := by
        ext i j
        fin_cases i <;> fin_cases j <;> rfl
      have e2 : List.ofFn (![1, 0] : Fin 2 → ℝ) = [1, 0] := by simp [List.ofFn_succ]
      rw [e1, hmed 2 _ two_pos, e2]
      have : ¬ (1 : ℝ) ≤ 0 := by norm_num
      simp [medianList, List.mergeSort, this]
    have e3 : (Matrix.of fun (i : Fin 2) (_ : Fin 1) => (!![1; 0] : Matrix (Fin 2) (Fin 1) ℝ) i 0 - 1 / 2) =
        (!![1 / 2; -(1 / 2)] : Matrix (Fin 2) (Fin 1) ℝ) := by
      ext i j
      fin_cases i <;> fin_cases j
      · show (1 : ℝ) - 1 / 2 = 1 / 2
        norm_num
      · show (0 : ℝ) - 1 / 2 = -(1 / 2)
        norm_num
    rw [e, e3, mad_two hmed, hC, hr, ok_inj, of_inj] at hw
    rw [hw]
    ext i j
    fin_cases i <;> fin_cases j
    · exact fair_four (by norm_num [abs_of_pos])
    · exact fair_four (by norm_num [abs_of_pos])
  subst hwr hwx
  have hz : Factory.zeros (α := ℝ) 1 1 = .ok (of (0 : Matrix (Fin 1) (Fin 1) ℝ)) := Factory.zeros_nat one_pos 1
  -- the first pass
  obtain ⟨S, T, Q, W, g, p1, hB, hg⟩ := pass_two he hcount heps ht hmed hbase
    (Matrix.of fun (_ : Fin 2) (_ : Fin 1) => (16 / 25 : ℝ)) (Matrix.of fun (_ : Fin 2) (_ : Fin 1) => (16 / 25 : ℝ))
    (u := 16 / 25) (v := 16 / 25) rfl rfl (by norm_num) (by norm_num) none (of (0 : Matrix (Fin 1) (Fin 1) ℝ)) none
  have q1 := prmPass_sym (K := 1) he one_pos heps (le_refl 2) hcount hbase hV hc (Or.inr hmed.unit)
    (!![1; 2] : Matrix (Fin 2) (Fin 1) ℝ) (!![1; 0] : Matrix (Fin 2) (Fin 1) ℝ)
    (Matrix.of fun (_ : Fin 2) (_ : Fin 1) => (16 / 25 : ℝ)) (Matrix.of fun (_ : Fin 2) (_ : Fin 1) => (16 / 25 : ℝ))
    none none (of (0 : Matrix (Fin 1) (Fin 1) ℝ)) (of (0 : Matrix (Fin 1) (Fin 1) ℝ)) none none
  obtain ⟨s, t, q1, q2, q3⟩ := q1
  rw [p1, ok_inj] at q1
  have hfm : fairM (!![16 / 25 - 16 / 25 * (16 / 25) / (16 / 25 * (16 / 25) + 4 * (16 / 25 * (16 / 25)));
      -(2 * (16 / 25 * (16 / 25) / (16 / 25 * (16 / 25) + 4 * (16 / 25 * (16 / 25)))))] : Matrix (Fin 2) (Fin 1) ℝ)
      (prmMad cfg (of (!![16 / 25 - 16 / 25 * (16 / 25) / (16 / 25 * (16 / 25) + 4 * (16 / 25 * (16 / 25)));
        -(2 * (16 / 25 * (16 / 25) / (16 / 25 * (16 / 25) + 4 * (16 / 25 * (16 / 25)))))] :
          Matrix (Fin 2) (Fin 1) ℝ))) cfg.C = !![(42 / 53) * (42 / 53); (21 / 26) * (21 / 26)] := by
    rw [mad_two hmed, hC]
    ext i j
    fin_cases i <;> fin_cases j
    · exact fair_four (by norm_num [abs_of_pos])
    · exact fair_four (by norm_num [abs_of_pos])
  rw [hfm, hC, f1] at p1 q1
  -- the second pass
  obtain ⟨S2, T2, Q2, W2, g2, p2, hB2, -⟩ := pass_two he hcount heps ht hmed hbase
    (!![(42 / 53) * (42 / 53); (21 / 26) * (21 / 26)] : Matrix (Fin 2) (Fin 1) ℝ)
    (Matrix.of fun (_ : Fin 2) (_ : Fin 1) => (16 / 25 : ℝ))
    (u := 42 / 53 * (4 / 5)) (v := 21 / 26 * (4 / 5)) (by
      show (42 / 53 : ℝ) * (42 / 53) * (16 / 25) = _
      norm_num) (by
      show (21 / 26 : ℝ) * (21 / 26) * (16 / 25) = _
      norm_num) (by norm_num) (by norm_num) (some S) (of g) (some ⟨T, Q, of (W * g), of W⟩)
  -- one pass for the original responses
  have hl : prmLoop cfg (of (!![1; 2] : Matrix (Fin 2) (Fin 1) ℝ)) (of (!![1; 0] : Matrix (Fin 2) (Fin 1) ℝ))
      (of (Matrix.of fun (_ : Fin 2) (_ : Fin 1) => (16 / 25 : ℝ))) (of (Matrix.of fun (_ : Fin 2) (_ : Fin 1) => (16 / 25 : ℝ))) =
      .ok (s, 1) := by
    unfold prmLoop
    rw [hK, hz, except_bind_ok, p1, except_bind_ok, prmMore, sub_of, except_bind_ok, dif_neg, q1]
    rintro ⟨h, -⟩
    rw [norm2Squared_col, sub_zero, htol] at h
    unfold sq1 at h
    rw [Fin.sum_univ_one, hg] at h
    norm_num at h
  -- two for the others
  obtain ⟨s2, t2, r1, r2, r3⟩ := prmPasses_sym (K := 1) he one_pos heps (le_refl 2) hcount hbase hV hc (Or.inr hmed.unit)
    (!![1; 2] : Matrix (Fin 2) (Fin 1) ℝ) (!![1; 0] : Matrix (Fin 2) (Fin 1) ℝ) 1 s t q3
  obtain ⟨vr, vx, W', g', D, T', Q', T'', Q'', S', S'', hD, -, hs, ht'⟩ := q3
  have hl' : prmLoop cfg (of (!![1; 2] : Matrix (Fin 2) (Fin 1) ℝ))
      (of ((1 / 1000 : ℝ) • (!![1; 0] : Matrix (Fin 2) (Fin 1) ℝ)))
      (of (Matrix.of fun (_ : Fin 2) (_ : Fin 1) => (16 / 25 : ℝ))) (of (Matrix.of fun (_ : Fin 2) (_ : Fin 1) => (16 / 25 : ℝ))) =
      .ok (t2, 2) := by
    rw [Matrix.mul_one] at q2 r2
    have hgg : g' = g := by
      rw [hs] at q1
      simp only [PrmState.mk.injEq, of_inj] at q1
      exact q1.2.2.2.1.symm
    unfold prmPasses at r2
    obtain ⟨t1, r5, r4⟩ := Utils.bind_ok_iff.1 r2
    unfold prmPasses at r4
    rw [ok_inj] at r4
    subst r4
    unfold prmLoop
    rw [hK, hz, except_bind_ok, q2, except_bind_ok, prmMore]
    have hsm : (of ((1 / 1000 : ℝ) • (Dᵀ * g')  - 0)).norm2Squared < cfg.tol := by
      have hD' : D 0 0 * D 0 0 = 1 := by
        have := congrFun (congrFun hD 0) 0
        rw [Matrix.mul_apply, Fin.sum_univ_one] at this
        exact this
      rw [norm2Squared_col, sub_zero, htol]
      unfold sq1
      rw [Fin.sum_univ_one, Matrix.smul_apply, Matrix.mul_apply, Fin.sum_univ_one, Matrix.transpose_apply, hgg, smul_eq_mul,
        show 1 / 1000 * (D 0 0 * g 0 0) * (1 / 1000 * (D 0 0 * g 0 0)) = 1 / 1000000 * ((D 0 0 * D 0 0) * (g 0 0 * g 0 0)) by ring,
        hD', hg]
      norm_num
    have hgam : t.gamma = of ((1 / 1000 : ℝ) • (Dᵀ * g')) := by rw [ht']
    rw [hgam, sub_of, except_bind_ok, dif_pos ⟨hsm, by rw [hmax]; decide⟩, r5, except_bind_ok]
    obtain ⟨_, _, _, _, _, _, _, _, _, _, _, -, -, -, rfl⟩ := r3
    rw [prmMore, sub_of, except_bind_ok, dif_neg (by rw [hmax]; rintro ⟨-, h⟩; exact absurd h (by decide))]
    rfl
  rw [hl, except_bind_ok] at h1
  rw [hl', except_bind_ok] at h2
  unfold prmPasses at r1
  rw [← q1, p2, except_bind_ok] at r1
  unfold prmPasses at r1
  rw [ok_inj] at r1
  obtain ⟨vr2, vx2, W2', g2', D2, T2', Q2', T2'', Q2'', S2', S2'', -, -, hs2, ht2⟩ := r3
  rw [hs2] at r1
  rw [ht2] at h2
  rw [← q1] at h1
  simp only [PrmState.mk.injEq, Option.some.injEq, PrmBase.mk.injEq, of_inj] at r1
  have hB2' : (W2' * g2') 0 0 = (W2 * g2) 0 0 := by rw [r1.2.2.2.2.2.2.1]
  refine ⟨_, _, (1 : Matrix (Fin 1) (Fin 1) ℝ) * (W * g), (1 : Matrix (Fin 1) (Fin 1) ℝ) *
    ((1 / 1000 : ℝ) • ((1 : Matrix (Fin 1) (Fin 1) ℝ)ᵀ * (W2' * g2'))), h1, h2, rfl, rfl, mul_of _ _, mul_of _ _, fun h => ?_⟩
  have h := congrFun (congrFun h 0) 0
  rw [Matrix.one_mul, Matrix.transpose_one, Matrix.one_mul, Matrix.one_mul, Matrix.smul_apply, Matrix.smul_apply, hB2', hB2,
    hB] at h
  norm_num at h

end violation

/-- Data, options and routines meeting the hypotheses of all three theorems. -/
example : ∃ cfg : PrmCfg ℝ, 0 < cfg.eps ∧ MedCol cfg.med ∧ cfg.tol = 1 / 1000000 ∧ cfg.C = 4 ∧ cfg.maxIter = 2 ∧ cfg.K = 1 ∧
    cfg.base = simplsBase eigOne 1 0 :=
  ⟨{ medCfg with tol := 1 / 1000000, C := 4, maxIter := 2, K := 1, base := simplsBase eigOne 1 0 },
    by norm_num [medCfg, prmDemo], medCfg_med, rfl, rfl, rfl, rfl, rfl⟩

/-- A rotation by a right angle. -/
example : (!![0, -1; 1, 0] : Matrix (Fin 2) (Fin 2) ℝ) * (!![0, -1; 1, 0] : Matrix (Fin 2) (Fin 2) ℝ)ᵀ = 1 := by
  ext i j
  fin_cases i <;> fin_cases j <;> simp [Matrix.mul_apply, Fin.sum_univ_two]

end Verif.Props
