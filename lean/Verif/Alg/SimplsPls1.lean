import Verif.Alg.SIMPLS

/-!
# SIMPLS and PLS1 build the same model

The rotated weights of PLS1 are multiples of the SIMPLS weights.
-/

namespace Verif

open Mat
open scoped Matrix

variable {n p : Nat}

/-! ## PLS1 in terms of rotated weights -/

section pls1

variable (wf : Matrix (Fin n) (Fin p) ℝ → Matrix (Fin p) (Fin 1) ℝ) (X : Matrix (Fin n) (Fin p) ℝ)

/-- Rotated weights: the scores of the identity. -/
noncomputable def plsR (h : Nat) : Matrix (Fin p) (Fin 1) ℝ := plsS wf X (1 : Matrix (Fin p) (Fin p) ℝ) h

theorem plsZ_mul {r : Nat} (Z : Matrix (Fin r) (Fin p) ℝ) (h : Nat) :
    plsZ wf X Z h = Z * plsZ wf X (1 : Matrix (Fin p) (Fin p) ℝ) h := by
  induction h with
  | zero => exact (Matrix.mul_one Z).symm
  | succ h ih =>
    rw [plsZ, plsZ, Matrix.mul_sub, ← ih, ← Matrix.mul_assoc, ← Matrix.mul_assoc, ← ih]

theorem plsS_mul {r : Nat} (Z : Matrix (Fin r) (Fin p) ℝ) (h : Nat) : plsS wf X Z h = Z * plsR wf X h := by
  unfold plsR plsS
  rw [plsZ_mul, Matrix.mul_assoc]

theorem plsT_mul (h : Nat) : plsT wf X h = X * plsR wf X h := by
  rw [← plsS_mul, plsS, plsZ_train]
  rfl

theorem plsR_eq (h : Nat) : plsR wf X h =
    plsW wf X h - ∑ j ∈ Finset.range h, ((plsP wf X j)ᵀ * plsW wf X h) 0 0 • plsR wf X j := by
  show plsZ wf X 1 h * plsW wf X h = _
  rw [plsZ_sum, Matrix.sub_mul, Matrix.one_mul, Matrix.sum_mul]
  congr 1
  refine Finset.sum_congr rfl fun j _ => ?_
  rw [Matrix.mul_assoc, mul_one_one]
  rfl

theorem plsX_sum (h : Nat) : plsX wf X h = X - ∑ j ∈ Finset.range h, plsT wf X j * (plsP wf X j)ᵀ := by
  rw [← plsZ_train, plsZ_sum]
  congr 1
  refine Finset.sum_congr rfl fun j _ => ?_
  rw [plsS, plsZ_train]
  rfl

/-- The prediction of PLS1 as a sum over the components. -/
theorem plsSM_BM {y : Matrix (Fin n) (Fin 1) ℝ} {r : Nat} (K : Nat) (Z : Matrix (Fin r) (Fin p) ℝ) :
    plsSM wf K X Z * plsBM wf K X y = Z * ∑ j : Fin K, plsB wf X y j.1 • plsR wf X j.1 := by
  ext a b
  rw [Subsingleton.elim b 0, Matrix.mul_apply, Matrix.mul_sum, Matrix.sum_apply]
  refine Finset.sum_congr rfl fun j _ => ?_
  rw [Matrix.mul_smul, ← plsS_mul, Matrix.smul_apply, smul_eq_mul, mul_comm]
  rfl

end pls1

theorem pls1W_eq (y : Matrix (Fin n) (Fin 1) ℝ) (X : Matrix (Fin n) (Fin p) ℝ) :
    pls1W y X = (Real.sqrt (sq1 (Xᵀ * y)))⁻¹ • (Xᵀ * y) := by
  ext i j
  simp only [pls1W, Matrix.of_apply, Matrix.smul_apply, smul_eq_mul]
  rw [div_eq_inv_mul]

/-! ## More on the SIMPLS projections -/

variable {qf : Matrix (Fin 1) (Fin 1) ℝ → Matrix (Fin 1) (Fin 1) ℝ}
  {X : Matrix (Fin n) (Fin p) ℝ} {y : Matrix (Fin n) (Fin 1) ℝ}

theorem sim_C_mul {K : Nat} (hc : ∀ h < K, X * simU qf X y h ≠ 0) (j d : Nat) (hd : j + d ≤ K) :
    (sim qf X y (j + d)).C * (sim qf X y j).C = (sim qf X y (j + d)).C := by
  induction d with
  | zero => exact (simInv hc j (by omega)).idem
  | succ d ih =>
    have I := simInv hc (j + d) (by omega)
    have hstep : (sim qf X y (j + d + 1)).C * (sim qf X y (j + d)).C = (sim qf X y (j + d + 1)).C := by
      have hvC := congrArg Matrix.transpose I.v_fixed
      rw [Matrix.transpose_mul, I.symm] at hvC
      rw [sim_C_succ, Matrix.sub_mul, I.idem, Matrix.mul_assoc, hvC]
    show (sim qf X y (j + d + 1)).C * _ = (sim qf X y (j + d + 1)).C
    rw [← hstep, Matrix.mul_assoc, ih (by omega)]

theorem sim_A_eq {K : Nat} (hc : ∀ h < K, X * simU qf X y h ≠ 0) (h : Nat) (hh : h ≤ K) :
    (sim qf X y h).A = (sim qf X y h).C * (Xᵀ * y) := by
  induction h with
  | zero => exact (Matrix.one_mul _).symm
  | succ h ih =>
    rw [sim_A_succ, ih (by omega), ← Matrix.mul_assoc, sim_C_mul hc h 1 hh]

/-- Vectors orthogonal to the earlier loadings are fixed by the projection. -/
theorem sim_fixed_of_orth {K : Nat} (hc : ∀ h < K, X * simU qf X y h ≠ 0) (h : Nat) (hh : h ≤ K)
    (x : Matrix (Fin p) (Fin 1) ℝ) (hx : ∀ j < h, (simP qf X y j)ᵀ * x = 0) : (sim qf X y h).C * x = x := by
  induction h with
  | zero => exact Matrix.one_mul x
  | succ h ih =>
    have hC := ih (by omega) fun j hj => hx j (by omega)
    have I := simInv hc h (by omega)
    have hv : (simV qf X y h)ᵀ * x = 0 := by
      show (nrm ((sim qf X y h).C * simP qf X y h))ᵀ * x = 0
      rw [nrm, Matrix.transpose_smul, Matrix.smul_mul, Matrix.transpose_mul, I.symm, Matrix.mul_assoc, hC,
        hx h (by omega), smul_zero]
    rw [sim_C_succ, Matrix.sub_mul, hC, Matrix.mul_assoc, hv, Matrix.mul_zero, sub_zero]

/-! ## Comparison -/

/-- The components before `h` agree up to a factor. -/
def SameUpTo (qf : Matrix (Fin 1) (Fin 1) ℝ → Matrix (Fin 1) (Fin 1) ℝ) (X : Matrix (Fin n) (Fin p) ℝ)
    (y : Matrix (Fin n) (Fin 1) ℝ) (h : Nat) : Prop :=
  ∀ j < h, X * simU qf X y j ≠ 0 ∧ ∃ c : ℝ, c ≠ 0 ∧ plsR (pls1W y) X j = c • simW qf X y j

theorem same_succ (hq : ∀ a, qf a 0 0 ≠ 0) {h : Nat} (hreg : ∀ k < h + 1, sq1 (plsT (pls1W y) X k) ≠ 0)
    (hs : SameUpTo qf X y h) : SameUpTo qf X y (h + 1) := by
  have hc : ∀ j < h, X * simU qf X y j ≠ 0 := fun j hj => (hs j hj).1
  have I := simInv hc h le_rfl
  -- loadings
  have hP : ∀ j < h, ∃ d : ℝ, plsP (pls1W y) X j = d • simP qf X y j := by
    intro j hj
    have Ij := simInv hc j (by omega)
    obtain ⟨-, c, hc0, hcr⟩ := hs j hj
    refine ⟨(sq1 (plsT (pls1W y) X j))⁻¹ * c, ?_⟩
    have hXt : (plsX (pls1W y) X j)ᵀ * plsT (pls1W y) X j = Xᵀ * plsT (pls1W y) X j := by
      rw [plsX_sum, Matrix.transpose_sub, Matrix.sub_mul, Matrix.transpose_sum, Matrix.sum_mul, Finset.sum_eq_zero,
        sub_zero]
      intro k hk
      rw [Matrix.transpose_mul, Matrix.transpose_transpose, Matrix.mul_assoc,
        plsT_orth (pls1W y) X k j (Finset.mem_range.mp hk) fun l hl => hreg l (by omega), Matrix.mul_zero]
    rw [plsP, loading_eq, hXt, Ij.p_eq, plsT_mul, hcr, Matrix.mul_smul, Matrix.mul_smul, smul_smul, Matrix.mul_assoc]
  -- the rotated weight is fixed by the projection
  have hfix : (sim qf X y h).C * plsR (pls1W y) X h = plsR (pls1W y) X h := by
    refine sim_fixed_of_orth hc h le_rfl _ fun j hj => ?_
    have Ij := simInv hc j (by omega)
    obtain ⟨-, c, hc0, hcr⟩ := hs j hj
    have h1 : X * simW qf X y j = c⁻¹ • plsT (pls1W y) X j := by
      rw [plsT_mul, hcr, Matrix.mul_smul, smul_smul, inv_mul_cancel₀ hc0, one_smul]
    rw [Ij.p_eq, Matrix.mul_assoc, Matrix.transpose_mul, Matrix.transpose_transpose, Matrix.mul_assoc, ← plsT_mul, h1,
      Matrix.transpose_smul, Matrix.smul_mul, plsT_orth (pls1W y) X j h hj fun l hl => hreg l (by omega), smul_zero]
  -- its image is a multiple of the projected covariance
  have hgood : ∃ g : ℝ, (sim qf X y h).C * plsR (pls1W y) X h = g • (sim qf X y h).A := by
    have hA := sim_A_eq hc h le_rfl
    have hW : ∃ g : ℝ, (sim qf X y h).C * plsW (pls1W y) X h = g • (sim qf X y h).A := by
      refine ⟨(Real.sqrt (sq1 ((plsX (pls1W y) X h)ᵀ * y)))⁻¹, ?_⟩
      show (sim qf X y h).C * pls1W y (plsX (pls1W y) X h) = _
      rw [pls1W_eq, Matrix.mul_smul]
      congr 1
      rw [plsX_sum, Matrix.transpose_sub, Matrix.sub_mul, Matrix.mul_sub, Matrix.transpose_sum, Matrix.sum_mul,
        Matrix.mul_sum, Finset.sum_eq_zero, sub_zero, hA]
      intro j hj
      obtain ⟨d, hd⟩ := hP j (Finset.mem_range.mp hj)
      rw [Matrix.transpose_mul, Matrix.transpose_transpose, Matrix.mul_assoc, ← Matrix.mul_assoc _ (plsP _ _ _), hd,
        Matrix.mul_smul, I.kill j (Finset.mem_range.mp hj), smul_zero, Matrix.zero_mul]
    have hR : ∀ j < h, ∃ g : ℝ, (sim qf X y h).C * plsR (pls1W y) X j = g • (sim qf X y h).A := by
      intro j hj
      obtain ⟨-, c, hc0, hcr⟩ := hs j hj
      obtain ⟨d, rfl⟩ : ∃ d, h = j + d := ⟨h - j, by omega⟩
      have Ij := simInv hc j (by omega)
      rw [hcr, Ij.w_eq, Matrix.mul_smul, Matrix.mul_smul, smul_smul]
      refine ⟨c * (Real.sqrt (sq1 (X * simU qf X y j)))⁻¹ * qf ((sim qf X y j).Aᵀ * (sim qf X y j).A) 0 0, ?_⟩
      have hCA : (sim qf X y (j + d)).C * (sim qf X y j).A = (sim qf X y (j + d)).A := by
        rw [sim_A_eq hc j (by omega), ← Matrix.mul_assoc, sim_C_mul hc j d le_rfl, hA]
      have hCu : (sim qf X y (j + d)).C * simU qf X y j =
          qf ((sim qf X y j).Aᵀ * (sim qf X y j).A) 0 0 • (sim qf X y (j + d)).A := by
        rw [← hCA, ← Matrix.mul_smul, ← mul_one_one]
        rfl
      rw [hCu, smul_smul]
    obtain ⟨g, hg⟩ := hW
    choose! k hk using hR
    refine ⟨g - ∑ j ∈ Finset.range h, ((plsP (pls1W y) X j)ᵀ * plsW (pls1W y) X h) 0 0 * k j, ?_⟩
    rw [plsR_eq, Matrix.mul_sub, hg, Matrix.mul_sum, sub_smul, Finset.sum_smul]
    congr 1
    refine Finset.sum_congr rfl fun j hj => ?_
    rw [Matrix.mul_smul, hk j (Finset.mem_range.mp hj), smul_smul]
  obtain ⟨g, hg⟩ := hgood
  rw [hfix] at hg
  intro j hj
  rcases Nat.lt_succ_iff_lt_or_eq.mp hj with hj | rfl
  · exact hs j hj
  have hT : plsT (pls1W y) X j ≠ 0 := fun e => hreg j (by omega) ((sq1_eq_zero _).mpr e)
  rw [plsT_mul, hg, Matrix.mul_smul] at hT
  have hg0 : g ≠ 0 := by
    rintro rfl
    exact hT (zero_smul _ _)
  have hXA : X * (sim qf X y j).A ≠ 0 := by
    intro e
    exact hT (by rw [e, smul_zero])
  have hu : simU qf X y j = qf ((sim qf X y j).Aᵀ * (sim qf X y j).A) 0 0 • (sim qf X y j).A := by
    unfold simU Sim.u
    exact mul_one_one _ _
  have hXu : X * simU qf X y j ≠ 0 := by
    rw [hu, Matrix.mul_smul]
    intro e
    rcases smul_eq_zero.mp e with e | e
    · exact hq _ e
    · exact hXA e
  refine ⟨hXu, ?_⟩
  have hr : Real.sqrt (sq1 (X * simU qf X y j)) ≠ 0 := by
    rw [Ne, Real.sqrt_eq_zero (sq1_nonneg _)]
    exact fun e => hXu ((sq1_eq_zero _).mp e)
  have hw : simW qf X y j = ((Real.sqrt (sq1 (X * simU qf X y j)))⁻¹ * qf ((sim qf X y j).Aᵀ * (sim qf X y j).A) 0 0) •
      (sim qf X y j).A := by
    rw [I.w_eq, mul_smul, ← hu]
  have hk : (Real.sqrt (sq1 (X * simU qf X y j)))⁻¹ * qf ((sim qf X y j).Aᵀ * (sim qf X y j).A) 0 0 ≠ 0 :=
    mul_ne_zero (inv_ne_zero hr) (hq _)
  refine ⟨g * ((Real.sqrt (sq1 (X * simU qf X y j)))⁻¹ * qf ((sim qf X y j).Aᵀ * (sim qf X y j).A) 0 0)⁻¹,
    mul_ne_zero hg0 (inv_ne_zero hk), ?_⟩
  rw [hg, hw, smul_smul, mul_assoc, inv_mul_cancel₀ hk, mul_one]

theorem same_all (hq : ∀ a, qf a 0 0 ≠ 0) {K : Nat} (hreg : ∀ k < K, sq1 (plsT (pls1W y) X k) ≠ 0) :
    SameUpTo qf X y K := by
  induction K with
  | zero => exact fun j hj => absurd hj (Nat.not_lt_zero j)
  | succ K ih => exact same_succ hq hreg (ih fun k hk => hreg k (by omega))

/-- The two regression matrices agree. -/
theorem simpls_eq_pls1 (hq : ∀ a, qf a 0 0 ≠ 0) {K : Nat} (hreg : ∀ k < K, sq1 (plsT (pls1W y) X k) ≠ 0) {r : Nat}
    (Z : Matrix (Fin r) (Fin p) ℝ) :
    plsSM (pls1W y) K X Z * plsBM (pls1W y) K X y = Z * (simWM qf X y K * (simQM qf X y K)ᵀ) := by
  have hs := same_all (qf := qf) hq hreg
  have hc : ∀ j < K, X * simU qf X y j ≠ 0 := fun j hj => (hs j hj).1
  rw [plsSM_BM]
  congr 1
  have hsum : simWM qf X y K * (simQM qf X y K)ᵀ = ∑ j : Fin K, simQ qf X y j.1 0 0 • simW qf X y j.1 := by
    ext a b
    rw [Subsingleton.elim b 0, Matrix.mul_apply, Matrix.sum_apply]
    refine Finset.sum_congr rfl fun j _ => ?_
    rw [Matrix.smul_apply, smul_eq_mul, mul_comm]
    rfl
  rw [hsum]
  refine Finset.sum_congr rfl fun j _ => ?_
  obtain ⟨-, c, hc0, hcr⟩ := hs j.1 j.2
  have hT : plsT (pls1W y) X j.1 = c • (X * simW qf X y j.1) := by rw [plsT_mul, hcr, Matrix.mul_smul]
  have hsq : sq1 (plsT (pls1W y) X j.1) = c * c := by
    rw [hT, sq1_smul, (simInv hc j.1 (by omega)).t_unit (hc _ j.2), mul_one]
  have hty : (∑ l, plsT (pls1W y) X j.1 l 0 * y l 0) = c * simQ qf X y j.1 0 0 := by
    rw [simQ_eq hc j.1 j.2, hT, Matrix.mul_apply, Finset.mul_sum]
    refine Finset.sum_congr rfl fun l _ => ?_
    rw [Matrix.smul_apply, Matrix.transpose_apply, smul_eq_mul]
    ring
  rw [plsB, hty, hsq, hcr, smul_smul]
  congr 1
  field_simp

end Verif
