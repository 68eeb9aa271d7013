import Verif.Props.PrmProps

/-!
# C126 — the geometric median of PRM: the iteration ends by its tolerance, near the minimum
-/

namespace Verif.Props
open Verif Verif.Mat Verif.Transf
open scoped Matrix

variable {n p : Nat}

theorem norm2Squared_row (v : Matrix (Fin 1) (Fin p) ℝ) : (of v).norm2Squared = ∑ j, v 0 j ^ 2 := by
  unfold norm2Squared
  rw [norm2_row, Real.mul_self_sqrt (Finset.sum_nonneg fun _ _ => mul_self_nonneg _)]
  exact Finset.sum_congr rfl fun j _ => (pow_two _).symm

/-- How much a step lowers the sum of distances. -/
theorem weis_gain {eps : ℝ} (he : 0 < eps) (hn : 0 < n) (X : Matrix (Fin n) (Fin p) ℝ) (v : Matrix (Fin 1) (Fin p) ℝ)
    (hfar : ∀ i, eps ≤ rdist X v i) :
    2 * distSum X (weis eps X v) + (∑ i, (rdist X v i)⁻¹) * ∑ j, (weis eps X v 0 j - v 0 j) ^ 2 ≤ 2 * distSum X v := by
  rw [distSum_eq, distSum_eq]
  have hd : ∀ i, 0 < rdist X v i := fun i => lt_of_lt_of_le he (hfar i)
  have hw : ∀ i, weisW eps X v i = (rdist X v i)⁻¹ := fun i => if_neg (not_lt.2 (hfar i))
  set v' := weis eps X v with hv'
  have hbal : ∀ j, ∑ i, (rdist X v i)⁻¹ * (X i j - v' 0 j) = 0 := by
    intro j
    have := weis_balance he hn X v j
    simpa only [hw] using this
  have e : ∀ i, rdist X v i = (rdist X v i)⁻¹ * (rdist X v' i * rdist X v' i) +
      (∑ j, (2 * (v' 0 j - v 0 j)) * ((rdist X v i)⁻¹ * (X i j - v' 0 j))) +
      (rdist X v i)⁻¹ * ∑ j, (v' 0 j - v 0 j) ^ 2 := by
    intro i
    have h0 : rdist X v i = (rdist X v i)⁻¹ * (rdist X v i * rdist X v i) := by
      rw [inv_mul_cancel_left₀ (hd i).ne']
    conv_lhs => rw [h0]
    rw [rdist_sq, rdist_sq, Finset.mul_sum, Finset.mul_sum, Finset.mul_sum, ← Finset.sum_add_distrib,
      ← Finset.sum_add_distrib]
    refine Finset.sum_congr rfl fun j _ => ?_
    ring
  have e2 : ∑ i, rdist X v i = ∑ i, (rdist X v i)⁻¹ * (rdist X v' i * rdist X v' i) +
      (∑ i, (rdist X v i)⁻¹) * ∑ j, (v' 0 j - v 0 j) ^ 2 := by
    rw [Finset.sum_congr rfl fun i _ => e i, Finset.sum_add_distrib, Finset.sum_add_distrib, Finset.sum_comm (γ := Fin n), Finset.sum_mul]
    simp only [← Finset.mul_sum, hbal, mul_zero, Finset.sum_const_zero, add_zero]
  have h2 : ∀ i, 2 * rdist X v' i ≤ (rdist X v i)⁻¹ * (rdist X v' i * rdist X v' i) + rdist X v i := by
    intro i
    have h3 := mul_nonneg (inv_pos.2 (hd i)).le (mul_self_nonneg (rdist X v' i - rdist X v i))
    have h4 : (rdist X v i)⁻¹ * ((rdist X v' i - rdist X v i) * (rdist X v' i - rdist X v i)) =
        (rdist X v i)⁻¹ * (rdist X v' i * rdist X v' i) - 2 * rdist X v' i + rdist X v i := by
      have := (hd i).ne'
      field_simp
      ring
    rw [h4] at h3
    linarith
  have h5 := Finset.sum_le_sum fun i (_ : i ∈ (Finset.univ : Finset (Fin n))) => h2 i
  rw [← Finset.mul_sum, Finset.sum_add_distrib] at h5
  linarith

/-- Harmonic and arithmetic mean. -/
theorem inv_sum_ge (d : Fin n → ℝ) (hd : ∀ i, 0 < d i) : (n : ℝ) ^ 2 ≤ (∑ i, (d i)⁻¹) * ∑ i, d i := by
  have h := Finset.sum_mul_sq_le_sq_mul_sq Finset.univ (fun i => Real.sqrt (d i)⁻¹) (fun i => Real.sqrt (d i))
  have e : ∀ i, Real.sqrt (d i)⁻¹ * Real.sqrt (d i) = 1 := by
    intro i
    rw [← Real.sqrt_mul (inv_pos.2 (hd i)).le, inv_mul_cancel₀ (hd i).ne', Real.sqrt_one]
  simp only [e, Real.sq_sqrt (hd _).le, Real.sq_sqrt (inv_pos.2 (hd _)).le, Finset.sum_const, Finset.card_univ, Fintype.card_fin,
    nsmul_eq_mul, mul_one] at h
  exact h

/-- A short step means a nearly optimal point. -/
theorem weis_near {eps : ℝ} (he : 0 < eps) (hn : 0 < n) (X : Matrix (Fin n) (Fin p) ℝ) (v : Matrix (Fin 1) (Fin p) ℝ)
    (hfar : ∀ i, eps ≤ rdist X v i) (u : Matrix (Fin 1) (Fin p) ℝ) :
    distSum X v ≤ distSum X u + (∑ i, (rdist X v i)⁻¹) * (Real.sqrt (∑ j, (weis eps X v 0 j - v 0 j) ^ 2) * Real.sqrt (∑ j, (u 0 j - v 0 j) ^ 2)) := by
  rw [distSum_eq, distSum_eq]
  have hd : ∀ i, 0 < rdist X v i := fun i => lt_of_lt_of_le he (hfar i)
  have hw : ∀ i, weisW eps X v i = (rdist X v i)⁻¹ := fun i => if_neg (not_lt.2 (hfar i))
  have hbal : ∀ j, ∑ i, (rdist X v i)⁻¹ * (X i j - v 0 j) = (∑ i, (rdist X v i)⁻¹) * (weis eps X v 0 j - v 0 j) := by
    intro j
    have := weis_balance he hn X v j
    simp only [hw] at this
    have e : ∑ i, (rdist X v i)⁻¹ * (X i j - v 0 j) = ∑ i, (rdist X v i)⁻¹ * (X i j - weis eps X v 0 j) + (∑ i, (rdist X v i)⁻¹) * (weis eps X v 0 j - v 0 j) := by
      rw [Finset.sum_mul, ← Finset.sum_add_distrib]
      exact Finset.sum_congr rfl fun i _ => by ring
    rw [e, this, zero_add]
  have h1 : ∀ i, (rdist X v i)⁻¹ * ∑ j, (X i j - u 0 j) * (X i j - v 0 j) ≤ rdist X u i := by
    intro i
    rw [inv_mul_le_iff₀ (hd i), mul_comm]
    exact rdist_inner X u v i
  have h2 : ∀ i, (rdist X v i)⁻¹ * ∑ j, (X i j - u 0 j) * (X i j - v 0 j) =
      rdist X v i - ∑ j, (u 0 j - v 0 j) * ((rdist X v i)⁻¹ * (X i j - v 0 j)) := by
    intro i
    have e : ∑ j, (X i j - u 0 j) * (X i j - v 0 j) =
        rdist X v i * rdist X v i - ∑ j, (u 0 j - v 0 j) * (X i j - v 0 j) := by
      rw [rdist_sq, ← Finset.sum_sub_distrib]
      refine Finset.sum_congr rfl fun j _ => ?_
      ring
    rw [e, mul_sub, inv_mul_cancel_left₀ (hd i).ne', Finset.mul_sum]
    congr 1
    refine Finset.sum_congr rfl fun j _ => ?_
    ring
  have h3 := Finset.sum_le_sum fun i (_ : i ∈ (Finset.univ : Finset (Fin n))) => h1 i
  simp only [h2] at h3
  rw [Finset.sum_sub_distrib, Finset.sum_comm] at h3
  simp only [← Finset.mul_sum, hbal] at h3
  have h4 : ∑ j, (u 0 j - v 0 j) * ((∑ i, (rdist X v i)⁻¹) * (weis eps X v 0 j - v 0 j)) =
      (∑ i, (rdist X v i)⁻¹) * ∑ j, (weis eps X v 0 j - v 0 j) * (u 0 j - v 0 j) := by
    rw [Finset.mul_sum]
    exact Finset.sum_congr rfl fun j _ => by ring
  rw [h4] at h3
  have h5 : ∑ j, (weis eps X v 0 j - v 0 j) * (u 0 j - v 0 j) ≤
      Real.sqrt (∑ j, (weis eps X v 0 j - v 0 j) ^ 2) * Real.sqrt (∑ j, (u 0 j - v 0 j) ^ 2) :=
    Real.sum_mul_le_sqrt_mul_sqrt _ _ _
  have h6 : 0 ≤ ∑ i, (rdist X v i)⁻¹ := Finset.sum_nonneg fun i _ => (inv_pos.2 (hd i)).le
  have h7 := mul_le_mul_of_nonneg_left h5 h6
  linarith

/-- The loop, unfolded to the first short step. -/
theorem geoLoop_stop (cfg : PrmCfg ℝ) (X : Matrix (Fin n) (Fin p) ℝ) (v : Nat → Matrix (Fin 1) (Fin p) ℝ)
    (hstep : ∀ k, geoStep cfg (of X) (of (v k)) = .ok (of (v (k + 1)))) (N : Nat)
    (hlong : ∀ k < N, cfg.tol ≤ ∑ j, (v (k + 1) 0 j - v k 0 j) ^ 2) (hshort : ∑ j, (v (N + 1) 0 j - v N 0 j) ^ 2 < cfg.tol)
    (hN : (N : Int) < cfg.maxIter) : ∀ (m k : Nat), k + m = N → geoLoop cfg (of X) k (of (v k)) = .ok (of (v (N + 1))) := by
  intro m
  induction m with
  | zero =>
    intro k hk
    obtain rfl : k = N := by omega
    rw [geoLoop, dif_pos hN, hstep, except_bind_ok, sub_of, except_bind_ok, norm2Squared_row]
    exact if_pos hshort
  | succ m ih =>
    intro k hk
    rw [geoLoop, dif_pos (by omega), hstep, except_bind_ok, sub_of, except_bind_ok, norm2Squared_row]
    refine (if_neg (not_lt.2 (hlong k (by omega)))).trans ?_
    have := ih (k + 1) (by omega)
    push_cast at this
    exact this

/-- **C126.**  Let `v 0, v 1, …` be the iterates of the geometric median of at least two points, none within `eps` of a point,
let `tol` be positive and `max_iter` larger than `2 (sum of distances from the mean)² / (n² tol)`.  Then the loop ends by its
tolerance, not by `max_iter`, after at most that many passes; every pass lowered the sum of distances by at least
`n² · |step|² / (2 · sum)`; and no point has a sum of distances smaller than the returned one by more than
`(sum of the inverse distances) · √tol · distance`. -/
theorem C126_terminates (cfg : PrmCfg ℝ) (he : 0 < cfg.eps) (ht : 0 < cfg.tol) (hn : 2 ≤ n) (X : Matrix (Fin n) (Fin p) ℝ)
    (v : Nat → Matrix (Fin 1) (Fin p) ℝ) (h0 : (of X).columnMeans = of (v 0))
    (hstep : ∀ k, geoStep cfg (of X) (of (v k)) = .ok (of (v (k + 1))))
    (hfar : ∀ k i, cfg.eps ≤ Real.sqrt (∑ j, (X i j - v k 0 j) ^ 2))
    (hmax : 2 * distSum X (v 0) ^ 2 / ((n : ℝ) ^ 2 * cfg.tol) < cfg.maxIter) :
    ∃ N : Nat, (N : Int) < cfg.maxIter ∧ (N : ℝ) ≤ 2 * distSum X (v 0) ^ 2 / ((n : ℝ) ^ 2 * cfg.tol) ∧
      geoMedian cfg (of X) = .ok (of (v (N + 1))) ∧
      (∀ k < N, cfg.tol ≤ ∑ j, (v (k + 1) 0 j - v k 0 j) ^ 2) ∧ ∑ j, (v (N + 1) 0 j - v N 0 j) ^ 2 < cfg.tol ∧
      (∀ k, distSum X (v (k + 1)) + (n : ℝ) ^ 2 * (∑ j, (v (k + 1) 0 j - v k 0 j) ^ 2) / (2 * distSum X (v k)) ≤ distSum X (v k)) ∧
      ∀ u : Matrix (Fin 1) (Fin p) ℝ, distSum X (v (N + 1)) ≤ distSum X u +
        (∑ i, (Real.sqrt (∑ j, (X i j - v N 0 j) ^ 2))⁻¹) * (Real.sqrt cfg.tol * Real.sqrt (∑ j, (u 0 j - v N 0 j) ^ 2)) := by
  have hr : ∀ k i, rdist X (v k) i = Real.sqrt (∑ j, (X i j - v k 0 j) ^ 2) := fun k i => by
    unfold rdist
    simp only [pow_two]
  have hfar' : ∀ k i, cfg.eps ≤ rdist X (v k) i := fun k i => by rw [hr]; exact hfar k i
  have hd : ∀ k i, 0 < rdist X (v k) i := fun k i => lt_of_lt_of_le he (hfar' k i)
  have hv : ∀ k, v (k + 1) = weis cfg.eps X (v k) := by
    intro k
    have := hstep k
    rw [geoStep_of cfg hn, ok_inj, of_inj] at this
    exact this.symm
  have hn0 : 0 < n := by omega
  have hnR : (0 : ℝ) < (n : ℝ) ^ 2 := by positivity
  have hF : ∀ k, 0 < distSum X (v k) := fun k => by
    rw [distSum_eq]
    exact sum_pos_of hn0 (hd k)
  have hgain : ∀ k, distSum X (v (k + 1)) + (n : ℝ) ^ 2 * (∑ j, (v (k + 1) 0 j - v k 0 j) ^ 2) / (2 * distSum X (v k)) ≤ distSum X (v k) := by
    intro k
    have h1 := weis_gain he hn0 X (v k) (hfar' k)
    rw [← hv] at h1
    have h2 := inv_sum_ge _ (hd k)
    rw [← distSum_eq] at h2
    have hs : 0 ≤ ∑ j, (v (k + 1) 0 j - v k 0 j) ^ 2 := Finset.sum_nonneg fun _ _ => sq_nonneg _
    have h3 : (n : ℝ) ^ 2 * (∑ j, (v (k + 1) 0 j - v k 0 j) ^ 2) / (2 * distSum X (v k)) ≤
        (∑ i, (rdist X (v k) i)⁻¹) * (∑ j, (v (k + 1) 0 j - v k 0 j) ^ 2) / 2 := by
      rw [div_le_div_iff₀ (mul_pos two_pos (hF k)) two_pos]
      have := mul_le_mul_of_nonneg_right h2 hs
      nlinarith
    linarith
  have hmono : ∀ k, distSum X (v k) ≤ distSum X (v 0) := by
    intro k
    induction k with
    | zero => exact le_rfl
    | succ k ih =>
      have h1 := hgain k
      have h2 : 0 ≤ (n : ℝ) ^ 2 * (∑ j, (v (k + 1) 0 j - v k 0 j) ^ 2) / (2 * distSum X (v k)) :=
        div_nonneg (mul_nonneg hnR.le (Finset.sum_nonneg fun _ _ => sq_nonneg _)) (mul_pos two_pos (hF k)).le
      linarith
  -- long steps use up the sum of distances
  have huse : ∀ k, (∀ i < k, cfg.tol ≤ ∑ j, (v (i + 1) 0 j - v i 0 j) ^ 2) →
      distSum X (v k) + k * ((n : ℝ) ^ 2 * cfg.tol / (2 * distSum X (v 0))) ≤ distSum X (v 0) := by
    intro k
    induction k with
    | zero => intro _; simp
    | succ k ih =>
      intro h
      have h1 := ih fun i hi => h i (by omega)
      have h2 := hgain k
      have h3 : (n : ℝ) ^ 2 * cfg.tol / (2 * distSum X (v 0)) ≤ (n : ℝ) ^ 2 * (∑ j, (v (k + 1) 0 j - v k 0 j) ^ 2) / (2 * distSum X (v k)) :=
        div_le_div₀ (mul_nonneg hnR.le (Finset.sum_nonneg fun _ _ => sq_nonneg _)) (mul_le_mul_of_nonneg_left (h k (by omega)) hnR.le)
          (mul_pos two_pos (hF k)) (mul_le_mul_of_nonneg_left (hmono k) two_pos.le)
      push_cast
      linarith
  have hbound : ∀ k : Nat, (∀ i < k, cfg.tol ≤ ∑ j, (v (i + 1) 0 j - v i 0 j) ^ 2) → (k : ℝ) ≤ 2 * distSum X (v 0) ^ 2 / ((n : ℝ) ^ 2 * cfg.tol) := by
    intro k hk
    have h1 := huse k hk
    have h2 := hF k
    have h3 : (k : ℝ) * ((n : ℝ) ^ 2 * cfg.tol / (2 * distSum X (v 0))) ≤ distSum X (v 0) := by linarith
    rw [le_div_iff₀ (mul_pos hnR ht)]
    rw [← mul_div_assoc, div_le_iff₀ (mul_pos two_pos (hF 0))] at h3
    nlinarith
  have hex : ∃ N : Nat, ∑ j, (v (N + 1) 0 j - v N 0 j) ^ 2 < cfg.tol := by
    by_contra hno
    push Not at hno
    obtain ⟨m, hm⟩ := exists_nat_gt (2 * distSum X (v 0) ^ 2 / ((n : ℝ) ^ 2 * cfg.tol))
    exact absurd (hbound m fun i _ => hno i) (not_le.2 hm)
  classical
  have hlong : ∀ k < Nat.find hex, cfg.tol ≤ ∑ j, (v (k + 1) 0 j - v k 0 j) ^ 2 := fun k hk => not_lt.1 (Nat.find_min hex hk)
  have hN : ((Nat.find hex : Nat) : Int) < cfg.maxIter := by
    have := lt_of_le_of_lt (hbound _ hlong) hmax
    exact_mod_cast this
  refine ⟨Nat.find hex, hN, hbound _ hlong, ?_, hlong, Nat.find_spec hex, hgain, fun u => ?_⟩
  · unfold geoMedian
    rw [h0]
    exact geoLoop_stop cfg X v hstep _ hlong (Nat.find_spec hex) hN _ 0 (Nat.zero_add _)
  · have h1 := weis_near he hn0 X (v (Nat.find hex)) (hfar' _) u
    rw [← hv] at h1
    simp only [← hr]
    have h2 : distSum X (v (Nat.find hex + 1)) ≤ distSum X (v (Nat.find hex)) := by
      have h3 := hgain (Nat.find hex)
      have h4 : 0 ≤ (n : ℝ) ^ 2 * (∑ j, (v (Nat.find hex + 1) 0 j - v (Nat.find hex) 0 j) ^ 2) / (2 * distSum X (v (Nat.find hex))) :=
        div_nonneg (mul_nonneg hnR.le (Finset.sum_nonneg fun _ _ => sq_nonneg _)) (mul_pos two_pos (hF _)).le
      linarith
    have h5 : (∑ i, (rdist X (v (Nat.find hex)) i)⁻¹) * (Real.sqrt (∑ j, (v (Nat.find hex + 1) 0 j - v (Nat.find hex) 0 j) ^ 2) * Real.sqrt (∑ j, (u 0 j - v (Nat.find hex) 0 j) ^ 2)) ≤
        (∑ i, (rdist X (v (Nat.find hex)) i)⁻¹) * (Real.sqrt cfg.tol * Real.sqrt (∑ j, (u 0 j - v (Nat.find hex) 0 j) ^ 2)) :=
      mul_le_mul_of_nonneg_left (mul_le_mul_of_nonneg_right (Real.sqrt_le_sqrt (Nat.find_spec hex).le) (Real.sqrt_nonneg _))
        (Finset.sum_nonneg fun i _ => (inv_pos.2 (hd _ i)).le)
    linarith

/-! ### A concrete case: a triangle -/

/-- The corners of a triangle. -/
def triX : Matrix (Fin 3) (Fin 2) ℝ := !![1, 0; -1, 0; 0, 2]

/-- The iterates stay on the axis of the triangle, below height one. -/
theorem tri_far {eps : ℝ} (h1 : eps ≤ 1) (v : Matrix (Fin 1) (Fin 2) ℝ) (h : v 0 0 = 0 ∧ 0 ≤ v 0 1 ∧ v 0 1 ≤ 1) :
    (∀ i, eps ≤ rdist triX v i) ∧ (weis eps triX v 0 0 = 0 ∧ 0 ≤ weis eps triX v 0 1 ∧ weis eps triX v 0 1 ≤ 1) := by
  obtain ⟨h0, hy0, hy1⟩ := h
  set y := v 0 1 with hy
  have r0 : rdist triX v 0 = Real.sqrt (1 + y * y) := by
    unfold rdist
    rw [Fin.sum_univ_two, h0, ← hy]
    congr 1
    simp [triX]
  have r1 : rdist triX v 1 = Real.sqrt (1 + y * y) := by
    unfold rdist
    rw [Fin.sum_univ_two, h0, ← hy]
    congr 1
    simp [triX]
  have r2 : rdist triX v 2 = 2 - y := by
    unfold rdist
    rw [Fin.sum_univ_two, h0, ← hy]
    have : (triX 2 0 - 0) * (triX 2 0 - 0) + (triX 2 1 - y) * (triX 2 1 - y) = (2 - y) ^ 2 := by
      simp [triX]
      ring
    rw [this]
    exact Real.sqrt_sq (by linarith)
  have hd1 : 1 ≤ Real.sqrt (1 + y * y) := by
    rw [Real.one_le_sqrt]
    nlinarith
  have hd2 : Real.sqrt (1 + y * y) ≤ 2 := by
    rw [Real.sqrt_le_left (by norm_num)]
    nlinarith
  have hfar : ∀ i, eps ≤ rdist triX v i := by
    intro i
    fin_cases i
    · exact h1.trans (hd1.trans r0.ge)
    · exact h1.trans (hd1.trans r1.ge)
    · show eps ≤ rdist triX v 2
      rw [r2]
      linarith
  refine ⟨hfar, ?_⟩
  have hw : ∀ i, weisW eps triX v i = (rdist triX v i)⁻¹ := fun i => if_neg (not_lt.2 (hfar i))
  have w0 : weis eps triX v 0 0 = 0 := by
    unfold weis
    rw [Matrix.of_apply, Fin.sum_univ_three, hw, hw, hw, r0, r1]
    simp [triX]
  have w1 : weis eps triX v 0 1 = 2 * (2 - y)⁻¹ / (2 * (Real.sqrt (1 + y * y))⁻¹ + (2 - y)⁻¹) := by
    unfold weis
    rw [Matrix.of_apply, Fin.sum_univ_three, Fin.sum_univ_three, hw, hw, hw, r0, r1, r2, ← two_mul]
    simp [triX]
  have hp : 0 < (2 - y)⁻¹ := inv_pos.2 (by linarith)
  have hq : 0 < (Real.sqrt (1 + y * y))⁻¹ := inv_pos.2 (by linarith)
  refine ⟨w0, ?_, ?_⟩
  · rw [w1]
    positivity
  · rw [w1, div_le_one (by positivity)]
    have a1 : (2 - y)⁻¹ ≤ 1 := inv_le_one_of_one_le₀ (by linarith)
    have a2 : (1 : ℝ) / 2 ≤ (Real.sqrt (1 + y * y))⁻¹ := by
      rw [one_div]
      exact inv_anti₀ (by linarith) hd2
    linarith

/-- The hypotheses of `C126_terminates` hold for a triangle, whatever the tolerance. -/
example (cfg : PrmCfg ℝ) (he : 0 < cfg.eps) (he1 : cfg.eps ≤ 1) (ht : 0 < cfg.tol)
    (hmax : 2 * distSum triX !![0, 2 / 3] ^ 2 / ((3 : Nat) ^ 2 * cfg.tol) < cfg.maxIter) :
    ∃ (N : Nat) (v : Matrix (Fin 1) (Fin 2) ℝ), (N : Int) < cfg.maxIter ∧ geoMedian cfg (of triX) = .ok (of v) ∧
      distSum triX v ≤ distSum triX !![0, 2 / 3] := by
  let v : Nat → Matrix (Fin 1) (Fin 2) ℝ := fun k => (weis cfg.eps triX)^[k] !![0, 2 / 3]
  have hs : ∀ k, v (k + 1) = weis cfg.eps triX (v k) := fun k => Function.iterate_succ_apply' _ _ _
  have hinv : ∀ k, v k 0 0 = 0 ∧ 0 ≤ v k 0 1 ∧ v k 0 1 ≤ 1 := by
    intro k
    induction k with
    | zero =>
      show (!![0, 2 / 3] : Matrix (Fin 1) (Fin 2) ℝ) 0 0 = 0 ∧ 0 ≤ (!![0, 2 / 3] : Matrix (Fin 1) (Fin 2) ℝ) 0 1 ∧ (!![0, 2 / 3] : Matrix (Fin 1) (Fin 2) ℝ) 0 1 ≤ 1
      refine ⟨by simp, ?_, ?_⟩ <;> (simp; try norm_num)
    | succ k ih =>
      rw [hs]
      exact (tri_far he1 _ ih).2
  obtain ⟨N, h1, _, h3, _, _, h6, _⟩ := C126_terminates cfg he ht (by decide) triX v (by
      rw [columnMeans_of, of_inj]
      ext i j
      rw [Subsingleton.elim i 0]
      show mu (fun i => triX i j) = (!![0, 2 / 3] : Matrix (Fin 1) (Fin 2) ℝ) 0 j
      unfold mu
      rw [Fin.sum_univ_three]
      fin_cases j <;> simp [triX])
    (fun k => by rw [geoStep_of cfg (by decide), hs])
    (fun k i => by
      have := (tri_far he1 _ (hinv k)).1 i
      unfold rdist at this
      simpa only [pow_two] using this) hmax
  refine ⟨N, _, h1, h3, ?_⟩
  have hm : ∀ k, distSum triX (v k) ≤ distSum triX (v 0) := by
    intro k
    induction k with
    | zero => exact le_rfl
    | succ k ih =>
      refine le_trans ?_ ih
      have hpos : 0 ≤ distSum triX (v k) := Finset.sum_nonneg fun _ _ => Real.sqrt_nonneg _
      have h2 : 0 ≤ ((3 : Nat) : ℝ) ^ 2 * (∑ j, (v (k + 1) 0 j - v k 0 j) ^ 2) / (2 * distSum triX (v k)) :=
        div_nonneg (mul_nonneg (by positivity) (Finset.sum_nonneg fun _ _ => sq_nonneg _)) (by linarith)
      have := h6 k
      linarith
  exact hm _

end Verif.Props
