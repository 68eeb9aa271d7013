import Verif.Alg.VCPLS
import Verif.Alg.GLSW
import Verif.Props.PLS1Props
import Verif.Props.CcaProps
import Mathlib.LinearAlgebra.Matrix.Rank

/-!
# C92: VCPLS

The weights maximise `((Xv)·y)² - lambda |v|²` relative to `|Xv|² + nu |v|²`.

`np.linalg.eig` is external: for every matrix that has a basis of real eigenvectors it is assumed to return such a
basis of unit vectors in some order (`VcEig`).  That the matrix VCPLS passes to it has one is proved.
-/

set_option linter.unusedSectionVars false
set_option linter.unusedSimpArgs false

namespace Verif.Props
open Verif Verif.Mat
open scoped Matrix

variable {n p : Nat}

/-! ## Specification -/

/-- Squared covariance with the response minus the penalty. -/
noncomputable def vcNum (X : Matrix (Fin n) (Fin p) ℝ) (y : Matrix (Fin n) (Fin 1) ℝ) (lam : ℝ) (v : Fin p → ℝ) : ℝ :=
  (∑ i, (∑ j, X i j * v j) * y i 0) ^ 2 - lam * ∑ j, v j ^ 2

/-- Variance of the score plus the regularisation. -/
noncomputable def vcDen (X : Matrix (Fin n) (Fin p) ℝ) (nu : ℝ) (v : Fin p → ℝ) : ℝ :=
  (∑ i, (∑ j, X i j * v j) ^ 2) + nu * ∑ j, v j ^ 2

/-- Contract of `np.linalg.eig`. -/
def VcEig (eig : Mat ℝ → Except PyErr (Mat ℝ × Mat ℝ)) : Prop :=
  ∀ {m : Nat} (C : Matrix (Fin m) (Fin m) ℝ), (∃ ev V, EigPair C ev V) →
    ∃ ev V, eig (of C) = .ok (of (Matrix.of fun i (_ : Fin 1) => ev i), of V) ∧ EigPair C ev V

/-- A routine meeting the contract exists. -/
theorem vcEig_exists : ∃ eig, VcEig eig := by
  classical
  let good (M : Mat ℝ) (o : Mat ℝ × Mat ℝ) : Prop := ∃ (m : Nat) (C : Matrix (Fin m) (Fin m) ℝ) (ev : Fin m → ℝ) (V : Matrix (Fin m) (Fin m) ℝ),
    M = of C ∧ o = (of (Matrix.of fun i (_ : Fin 1) => ev i), of V) ∧ EigPair C ev V
  refine ⟨fun M => if h : ∃ o, good M o then .ok h.choose else .error .linAlgError, ?_⟩
  rintro m C ⟨ev, V, hp⟩
  have h : ∃ o, good (of C) o := ⟨_, m, C, ev, V, rfl, rfl, hp⟩
  obtain ⟨m', C', ev', V', e1, e2, e3⟩ := h.choose_spec
  have hm : m = m' := congrArg Mat.rows e1
  subst hm
  rw [of_inj] at e1
  subst e1
  exact ⟨ev', V', (dif_pos h).trans (congrArg Except.ok e2), e3⟩

/-! ## Generalised eigenvectors -/

/-- `S⁻¹ G` has a basis of real unit eigenvectors when `S` is positive definite and `G` symmetric. -/
theorem gen_eig {S G W : Matrix (Fin p) (Fin p) ℝ} {d : Fin p → ℝ} (hS : OrthoEig S d W) (hd : ∀ i, 0 < d i) (hG : Gᵀ = G) :
    ∃ ev V, EigPair (S⁻¹ * G) ev V := by
  obtain ⟨f1, f2, f3⟩ := half_facts hS hd
  generalize W * Matrix.diagonal (fun i => 1 / Real.sqrt (d i)) * Wᵀ = H at f1 f2 f3
  have hinv : S⁻¹ = H * H := Matrix.inv_eq_left_inv f2
  obtain ⟨mu, U, hU, hUo⟩ := symm_eig (H * G * H) (by
    rw [Matrix.transpose_mul, Matrix.transpose_mul, f1, hG, Matrix.mul_assoc])
  have hHdet : H.det ≠ 0 := fun h0 => by
    have := congrArg Matrix.det f2
    rw [Matrix.det_mul, Matrix.det_mul, h0, zero_mul, zero_mul, Matrix.det_one] at this
    exact zero_ne_one this
  have hV : S⁻¹ * G * (H * U) = H * U * Matrix.diagonal mu := by
    rw [hinv]
    calc H * H * G * (H * U) = H * (H * G * H * U) := by simp only [Matrix.mul_assoc]
      _ = _ := by rw [hU.eigen]; simp only [Matrix.mul_assoc]
  have hdet : (H * U).det ≠ 0 := by rw [Matrix.det_mul]; exact mul_ne_zero hHdet hU.regular
  set N : Fin p → ℝ := fun j => ∑ k, (H * U) k j ^ 2 with hN
  have hNpos : ∀ j, 0 < N j := by
    intro j
    refine lt_of_le_of_ne (Finset.sum_nonneg fun k _ => sq_nonneg _) fun h0 => hdet ?_
    have hz : ∀ k, (H * U) k j = 0 := fun k =>
      pow_eq_zero_iff (two_ne_zero) |>.1 ((Finset.sum_eq_zero_iff_of_nonneg fun k _ => sq_nonneg _).1 h0.symm k (Finset.mem_univ k))
    exact Matrix.det_eq_zero_of_column_eq_zero j hz
  have hq : ∀ j, Real.sqrt (N j) ≠ 0 := fun j => (Real.sqrt_pos.2 (hNpos j)).ne'
  refine ⟨mu, H * U * Matrix.diagonal (fun j => 1 / Real.sqrt (N j)), ?_, ?_, ?_⟩
  · rw [← Matrix.mul_assoc, hV, Matrix.mul_assoc (H * U), Matrix.mul_assoc (H * U), Matrix.diagonal_mul_diagonal,
      Matrix.diagonal_mul_diagonal]
    simp only [mul_comm]
  · rw [Matrix.det_mul, Matrix.det_diagonal]
    exact mul_ne_zero hdet (Finset.prod_ne_zero_iff.2 fun j _ => one_div_ne_zero (hq j))
  · intro j
    simp only [Matrix.mul_diagonal, mul_pow, ← Finset.sum_mul]
    show N j * (1 / Real.sqrt (N j)) ^ 2 = 1
    rw [one_div, inv_pow, Real.sq_sqrt (hNpos j).le, mul_inv_cancel₀ (hNpos j).ne']

/-- The largest eigenvalue of `S⁻¹ G` bounds the quotient of the quadratic forms. -/
theorem gen_max {S G W V : Matrix (Fin p) (Fin p) ℝ} {d ev : Fin p → ℝ} (hS : OrthoEig S d W) (hd : ∀ i, 0 < d i) (hG : Gᵀ = G)
    (hV : EigPair (S⁻¹ * G) ev V) {l : ℝ} (hl : ∀ j, ev j ≤ l) (v : Fin p → ℝ) : v ⬝ᵥ G *ᵥ v ≤ l * (v ⬝ᵥ S *ᵥ v) := by
  obtain ⟨f1, f2, f3⟩ := half_facts hS hd
  generalize W * Matrix.diagonal (fun i => 1 / Real.sqrt (d i)) * Wᵀ = H at f1 f2 f3
  have hinv : S⁻¹ = H * H := Matrix.inv_eq_left_inv f2
  obtain ⟨mu, U, hU, hUo⟩ := symm_eig (H * G * H) (by
    rw [Matrix.transpose_mul, Matrix.transpose_mul, f1, hG, Matrix.mul_assoc])
  have hUo' : U * Uᵀ = 1 := mul_eq_one_comm.1 hUo
  have hHS : H * (S * H) = 1 := by rw [← Matrix.mul_assoc]; exact f3
  have hSH : S * H * H = 1 := mul_eq_one_comm.1 hHS
  -- every eigenvalue of `H G H` is one of `S⁻¹ G`
  have hmu : ∀ k, mu k ≤ l := by
    intro k
    have hu : IsUnit V.det := isUnit_iff_ne_zero.2 hV.regular
    set c : Fin p → ℝ := V⁻¹ *ᵥ (H * U).col k with hc
    have hVc : V *ᵥ c = (H * U).col k := by
      rw [hc, Matrix.mulVec_mulVec, Matrix.mul_nonsing_inv _ hu, Matrix.one_mulVec]
    have hcol : (S⁻¹ * G) *ᵥ (H * U).col k = mu k • (H * U).col k := by
      have h1 : S⁻¹ * G * (H * U) = H * U * Matrix.diagonal mu := by
        rw [hinv]
        calc H * H * G * (H * U) = H * (H * G * H * U) := by simp only [Matrix.mul_assoc]
          _ = _ := by rw [hU.eigen]; simp only [Matrix.mul_assoc]
      funext i
      have := congrFun (congrFun h1 i) k
      rw [Matrix.mul_diagonal, Matrix.mul_apply] at this
      rw [Pi.smul_apply, smul_eq_mul, mul_comm]
      exact this
    have hcne : c ≠ 0 := by
      intro h0
      rw [h0, Matrix.mulVec_zero] at hVc
      have hz : ∀ i, (H * U) i k = 0 := fun i => (congrFun hVc i).symm
      have := Matrix.det_eq_zero_of_column_eq_zero k hz
      rw [Matrix.det_mul] at this
      rcases mul_eq_zero.1 this with h | h
      · have h2 := congrArg Matrix.det f2
        rw [Matrix.det_mul, Matrix.det_mul, h, zero_mul, zero_mul, Matrix.det_one] at h2
        exact zero_ne_one h2
      · exact hU.regular h
    have hdc : Matrix.diagonal ev *ᵥ c = mu k • c := by
      have h1 : V *ᵥ (Matrix.diagonal ev *ᵥ c) = V *ᵥ (mu k • c) := by
        rw [Matrix.mulVec_mulVec, ← hV.eigen, ← Matrix.mulVec_mulVec, hVc, hcol, Matrix.mulVec_smul, hVc]
      have h2 := congrArg (fun z => V⁻¹ *ᵥ z) h1
      simp only [fun z => Matrix.mulVec_mulVec z V⁻¹ V, Matrix.nonsing_inv_mul _ hu, Matrix.one_mulVec] at h2
      exact h2
    obtain ⟨j, hj⟩ := Function.ne_iff.1 hcne
    have := congrFun hdc j
    rw [Matrix.mulVec_diagonal, Pi.smul_apply, smul_eq_mul] at this
    rw [← mul_right_cancel₀ hj this]
    exact hl j
  set z : Fin p → ℝ := Uᵀ *ᵥ ((S * H) *ᵥ v) with hz
  have hv : v = (H * U) *ᵥ z := by
    rw [hz, Matrix.mulVec_mulVec, Matrix.mulVec_mulVec]
    have : H * U * Uᵀ * (S * H) = 1 := by
      rw [Matrix.mul_assoc H, hUo', Matrix.mul_one]; exact hHS
    rw [this, Matrix.one_mulVec]
  have hquad : ∀ M : Matrix (Fin p) (Fin p) ℝ, v ⬝ᵥ M *ᵥ v = z ⬝ᵥ ((H * U)ᵀ * M * (H * U)) *ᵥ z := by
    intro M
    rw [hv]
    generalize z = z
    rw [← Matrix.mulVec_mulVec z ((H * U)ᵀ * M), ← Matrix.mulVec_mulVec _ (H * U)ᵀ, Matrix.dotProduct_mulVec z, Matrix.vecMul_transpose]
  have h1 : (H * U)ᵀ * G * (H * U) = Matrix.diagonal mu := by
    rw [Matrix.transpose_mul, f1]
    calc Uᵀ * H * G * (H * U) = Uᵀ * (H * G * H * U) := by simp only [Matrix.mul_assoc]
      _ = _ := by rw [hU.eigen, ← Matrix.mul_assoc, hUo, Matrix.one_mul]
  have h2 : (H * U)ᵀ * S * (H * U) = 1 := by
    rw [Matrix.transpose_mul, f1]
    calc Uᵀ * H * S * (H * U) = Uᵀ * (H * S * H) * U := by simp only [Matrix.mul_assoc]
      _ = _ := by rw [f3, Matrix.mul_one, hUo]
  rw [hquad G, hquad S, h1, h2, Matrix.one_mulVec]
  simp only [dotProduct, Matrix.mulVec_diagonal, Finset.mul_sum]
  refine Finset.sum_le_sum fun i _ => ?_
  nlinarith [mul_le_mul_of_nonneg_right (hmu i) (mul_self_nonneg (z i))]

/-! ## The matrices of VCPLS -/

/-- `S = Xᵀ X + nu I`. -/
noncomputable def vcS (X : Matrix (Fin n) (Fin p) ℝ) (nu : ℝ) : Matrix (Fin p) (Fin p) ℝ := Xᵀ * X + nu • (1 : Matrix (Fin p) (Fin p) ℝ)

/-- `G = Xᵀ y yᵀ X - lambda I`. -/
noncomputable def vcG (X : Matrix (Fin n) (Fin p) ℝ) (y : Matrix (Fin n) (Fin 1) ℝ) (lam : ℝ) : Matrix (Fin p) (Fin p) ℝ :=
  Xᵀ * y * yᵀ * X - lam • (1 : Matrix (Fin p) (Fin p) ℝ)

theorem vcG_symm (X : Matrix (Fin n) (Fin p) ℝ) (y : Matrix (Fin n) (Fin 1) ℝ) (lam : ℝ) : (vcG X y lam)ᵀ = vcG X y lam := by
  unfold vcG
  simp only [Matrix.transpose_sub, Matrix.transpose_smul, Matrix.transpose_one, Matrix.transpose_mul, Matrix.transpose_transpose,
    Matrix.mul_assoc]

theorem vcS_quad (X : Matrix (Fin n) (Fin p) ℝ) (nu : ℝ) (v : Fin p → ℝ) : v ⬝ᵥ vcS X nu *ᵥ v = vcDen X nu v := by
  unfold vcS vcDen
  rw [Matrix.add_mulVec, dotProduct_add, Matrix.smul_mulVec, Matrix.one_mulVec, dotProduct_smul, ← Matrix.mulVec_mulVec,
    Matrix.dotProduct_mulVec, Matrix.vecMul_transpose]
  simp only [dotProduct, Matrix.mulVec, smul_eq_mul, pow_two]

theorem vcG_quad (X : Matrix (Fin n) (Fin p) ℝ) (y : Matrix (Fin n) (Fin 1) ℝ) (lam : ℝ) (v : Fin p → ℝ) :
    v ⬝ᵥ vcG X y lam *ᵥ v = vcNum X y lam v := by
  unfold vcG vcNum
  rw [Matrix.sub_mulVec, dotProduct_sub, Matrix.smul_mulVec, Matrix.one_mulVec, dotProduct_smul]
  have h1 : v ⬝ᵥ (Xᵀ * y * yᵀ * X) *ᵥ v = (∑ i, (∑ j, X i j * v j) * y i 0) ^ 2 := by
    rw [Matrix.mul_assoc (Xᵀ * y), ← Matrix.mulVec_mulVec, Matrix.dotProduct_mulVec, ← Matrix.mulVec_mulVec]
    have a1 : v ᵥ* (Xᵀ * y) = yᵀ *ᵥ (X *ᵥ v) := by
      rw [← Matrix.vecMul_vecMul, Matrix.vecMul_transpose, Matrix.mulVec_transpose]
    rw [a1, dotProduct, Fin.sum_univ_one, pow_two]
    have a2 : (yᵀ *ᵥ (X *ᵥ v)) 0 = ∑ i, (∑ j, X i j * v j) * y i 0 := by
      show ∑ i, y i 0 * (∑ j, X i j * v j) = _
      exact Finset.sum_congr rfl fun i _ => mul_comm _ _
    rw [a2]
  rw [h1]
  simp only [dotProduct, smul_eq_mul, pow_two]

theorem vcS_eig (X : Matrix (Fin n) (Fin p) ℝ) {nu : ℝ} (hnu : 0 < nu) : ∃ d W, OrthoEig (vcS X nu) d W ∧ ∀ i, 0 < d i := by
  obtain ⟨d, W, h, ho⟩ := symm_eig (vcS X nu) (by
    unfold vcS
    simp only [Matrix.transpose_add, Matrix.transpose_smul, Matrix.transpose_one, Matrix.transpose_mul, Matrix.transpose_transpose])
  refine ⟨d, W, ⟨h.eigen, ho⟩, fun i => ?_⟩
  have h1 : W.col i ⬝ᵥ vcS X nu *ᵥ W.col i = d i := by
    have e : vcS X nu *ᵥ W.col i = d i • W.col i := by
      funext k
      have := congrFun (congrFun h.eigen k) i
      rw [Matrix.mul_diagonal, Matrix.mul_apply] at this
      rw [Pi.smul_apply, smul_eq_mul, mul_comm]
      exact this
    rw [e, dotProduct_smul, smul_eq_mul]
    have := h.unit i
    have e2 : W.col i ⬝ᵥ W.col i = 1 := by
      rw [← this]
      exact Finset.sum_congr rfl fun k _ => (pow_two _).symm
    rw [e2, mul_one]
  rw [← h1, vcS_quad]
  unfold vcDen
  have hu : ∑ j, W.col i j ^ 2 = 1 := h.unit i
  rw [hu, mul_one]
  exact add_pos_of_nonneg_of_pos (Finset.sum_nonneg fun _ _ => sq_nonneg _) hnu

theorem OrthoEig.det_ne {C W : Matrix (Fin p) (Fin p) ℝ} {d : Fin p → ℝ} (h : OrthoEig C d W) (hd : ∀ i, 0 < d i) : C.det ≠ 0 := by
  rw [h.eq, Matrix.det_mul, Matrix.det_mul, Matrix.det_diagonal]
  refine mul_ne_zero (mul_ne_zero ?_ (Finset.prod_ne_zero_iff.2 fun i _ => (hd i).ne')) ?_
  · exact h.eigPair.regular
  · rw [Matrix.det_transpose]; exact h.eigPair.regular

theorem vcplsTerm_of (cfg : VcplsCfg ℝ) (hnu : 0 < cfg.nu) (X : Matrix (Fin n) (Fin p) ℝ) (y : Matrix (Fin n) (Fin 1) ℝ) :
    vcplsTerm cfg (of X) (of y) = .ok (of ((vcS X cfg.nu)⁻¹ * vcG X y cfg.lam)) := by
  obtain ⟨d, W, h, hd⟩ := vcS_eig X hnu
  have hdet := h.det_ne hd
  unfold vcplsTerm
  have e : Factory.eye (α := ℝ) ((of X).cols : Int) = .ok (of (1 : Matrix (Fin p) (Fin p) ℝ)) := Factory.eye_square_nat p
  rw [e]
  simp only [except_bind_ok, transpose_of, mul_of, smul_of, sub_of, add_of]
  have hi : (of (Xᵀ * X + cfg.nu • (1 : Matrix (Fin p) (Fin p) ℝ))).inverse cfg.lstsq = .ok (of (vcS X cfg.nu)⁻¹) := inverse_of _ _ hdet
  rw [hi, except_bind_ok, mul_of]
  rfl

/-- The pair found: unit weights and the largest generalised eigenvalue. -/
theorem vcplsWeights_of (cfg : VcplsCfg ℝ) (hle : cfg.le = fun a b => decide (a ≤ b)) (heig : VcEig cfg.eig) (hnu : 0 < cfg.nu)
    (hp : p ≠ 0) (X : Matrix (Fin n) (Fin p) ℝ) (y : Matrix (Fin n) (Fin 1) ℝ) :
    ∃ (w : Fin p → ℝ) (rho : ℝ), vcplsWeights cfg (of X) (of y) = .ok (of (Matrix.of fun i (_ : Fin 1) => w i)) ∧
      ∑ j, w j ^ 2 = 1 ∧ vcG X y cfg.lam *ᵥ w = rho • (vcS X cfg.nu *ᵥ w) ∧
      ∀ v, vcNum X y cfg.lam v ≤ rho * vcDen X cfg.nu v := by
  obtain ⟨d, W, hS, hd⟩ := vcS_eig X hnu
  have hG := vcG_symm X y cfg.lam
  obtain ⟨ev, V, h1, h2⟩ := heig _ (gen_eig hS hd hG)
  have hE : IsEig ((vcS X cfg.nu)⁻¹ * vcG X y cfg.lam) V ev := by
    refine ⟨fun j => ?_, fun j h0 => ?_⟩
    · funext k
      have := congrFun (congrFun h2.eigen k) j
      rw [Matrix.mul_diagonal, Matrix.mul_apply] at this
      rw [Pi.smul_apply, smul_eq_mul, mul_comm]
      exact this
    · have := h2.unit j
      have hz : ∀ k, V k j = 0 := fun k => congrFun h0 k
      simp [hz] at this
  obtain ⟨w, l, a1, a2, a3, ⟨j, a4, a5⟩, a6⟩ := C16_dominant hp _ V ev hE
  refine ⟨w, l, ?_, ?_, ?_, fun v => ?_⟩
  · unfold vcplsWeights
    rw [vcplsTerm_of cfg hnu, except_bind_ok, h1, except_bind_ok, hle]
    exact a1
  · rw [← a5]; exact h2.unit j
  · have hu : IsUnit (vcS X cfg.nu).det := isUnit_iff_ne_zero.2 (hS.det_ne hd)
    have := congrArg (fun z => vcS X cfg.nu *ᵥ z) a2
    simp only [Matrix.mulVec_mulVec, Matrix.mulVec_smul] at this
    rwa [← Matrix.mul_assoc, Matrix.mul_nonsing_inv _ hu, Matrix.one_mul] at this
  · rw [← vcG_quad, ← vcS_quad]
    exact gen_max hS hd hG h2 a6 v

theorem vcDen_pos (X : Matrix (Fin n) (Fin p) ℝ) {nu : ℝ} (hnu : 0 < nu) {v : Fin p → ℝ} (hv : v ≠ 0) : 0 < vcDen X nu v := by
  unfold vcDen
  refine add_pos_of_nonneg_of_pos (Finset.sum_nonneg fun _ _ => sq_nonneg _) (mul_pos hnu ?_)
  obtain ⟨j, hj⟩ := Function.ne_iff.1 hv
  exact Finset.sum_pos' (fun _ _ => sq_nonneg _) ⟨j, Finset.mem_univ j, sq_pos_of_ne_zero hj⟩

/-! ## C92 -/

/-- **C92.** For all predictors, responses and penalties the weights are computed without error, have length one, and no
direction has a larger penalised squared covariance relative to the regularised variance. -/
theorem C92_weights (cfg : VcplsCfg ℝ) (hle : cfg.le = fun a b => decide (a ≤ b)) (heig : VcEig cfg.eig) (hnu : 0 < cfg.nu)
    (hp : p ≠ 0) (X : Matrix (Fin n) (Fin p) ℝ) (y : Matrix (Fin n) (Fin 1) ℝ) :
    ∃ w : Fin p → ℝ, vcplsWeights cfg (of X) (of y) = .ok (of (Matrix.of fun i (_ : Fin 1) => w i)) ∧
      ∑ j, w j ^ 2 = 1 ∧
      ∀ v : Fin p → ℝ, v ≠ 0 → vcNum X y cfg.lam v / vcDen X cfg.nu v ≤ vcNum X y cfg.lam w / vcDen X cfg.nu w := by
  obtain ⟨w, l, h1, h2, h3, h4⟩ := vcplsWeights_of cfg hle heig hnu hp X y
  refine ⟨w, h1, h2, fun v hv => ?_⟩
  have hw : w ≠ 0 := fun h0 => by simp [h0] at h2
  have h5 : vcNum X y cfg.lam w = l * vcDen X cfg.nu w := by
    rw [← vcG_quad, ← vcS_quad, h3, dotProduct_smul, smul_eq_mul]
  rw [h5, mul_div_cancel_right₀ _ (vcDen_pos X hnu hw).ne', div_le_iff₀ (vcDen_pos X hnu hv)]
  exact h4 v

/-- The score of the weights vanishes only if it has to. -/
theorem vcpls_score (X : Matrix (Fin n) (Fin p) ℝ) (y : Matrix (Fin n) (Fin 1) ℝ) {lam nu rho : ℝ} (hnu : 0 < nu) {w : Fin p → ℝ}
    (hu : ∑ j, w j ^ 2 = 1) (h : vcG X y lam *ᵥ w = rho • (vcS X nu *ᵥ w)) (hmax : ∀ v, vcNum X y lam v ≤ rho * vcDen X nu v)
    (hX : 0 < lam ∧ X ≠ 0 ∨ lam = 0 ∧ Xᵀ * y ≠ 0) : X *ᵥ w ≠ 0 := by
  intro h0
  have hrow : ∀ i, ∑ j, X i j * w j = 0 := fun i => congrFun h0 i
  have hnum : vcNum X y lam w = - lam := by simp [vcNum, hrow, hu]
  have hden : vcDen X nu w = nu := by simp [vcDen, hrow, hu]
  have hq : vcNum X y lam w = rho * vcDen X nu w := by
    rw [← vcG_quad, ← vcS_quad, h, dotProduct_smul, smul_eq_mul]
  rw [hnum, hden] at hq
  have key : ∀ v : Fin p → ℝ, nu * (∑ i, (∑ j, X i j * v j) * y i 0) ^ 2 + lam * ∑ i, (∑ j, X i j * v j) ^ 2 ≤ 0 := by
    intro v
    have h1 := mul_le_mul_of_nonneg_left (hmax v) hnu.le
    unfold vcNum vcDen at h1
    have h2 : nu * (rho * ((∑ i, (∑ j, X i j * v j) ^ 2) + nu * ∑ j, v j ^ 2)) =
        - lam * ((∑ i, (∑ j, X i j * v j) ^ 2) + nu * ∑ j, v j ^ 2) := by rw [hq]; ring
    rw [h2] at h1
    linarith
  rcases hX with ⟨hl, hne⟩ | ⟨hl, hne⟩
  · refine hne ?_
    ext i j
    have h1 := key (Pi.single j 1)
    have h2 : ∑ i, (∑ k, X i k * (Pi.single j (1 : ℝ) : Fin p → ℝ) k) ^ 2 = ∑ i, X i j ^ 2 := by simp [Pi.single_apply]
    rw [h2] at h1
    have h3 : ∑ i, X i j ^ 2 = 0 := by
      refine le_antisymm ?_ (Finset.sum_nonneg fun _ _ => sq_nonneg _)
      have := mul_nonneg hnu.le (sq_nonneg (∑ i, (∑ k, X i k * (Pi.single j (1 : ℝ) : Fin p → ℝ) k) * y i 0))
      nlinarith
    have h4 := (Finset.sum_eq_zero_iff_of_nonneg fun _ _ => sq_nonneg _).1 h3 i (Finset.mem_univ i)
    simpa using h4
  · refine hne ?_
    ext j c
    rw [Subsingleton.elim c 0]
    have h1 := key (Pi.single j 1)
    have h2 : ∑ i, (∑ k, X i k * (Pi.single j (1 : ℝ) : Fin p → ℝ) k) * y i 0 = ∑ i, X i j * y i 0 := by simp [Pi.single_apply]
    rw [hl, zero_mul, add_zero, h2] at h1
    have h3 : (∑ i, X i j * y i 0) ^ 2 = 0 := le_antisymm (by nlinarith) (sq_nonneg _)
    rw [Matrix.mul_apply]
    simpa using h3

/-- Without penalty the weights are, up to sign, the normalised ridge-regression coefficients: `(XᵀX + nu I) w` is a multiple
of `Xᵀy`, and the multiple is not zero. -/
theorem C92_ridge (cfg : VcplsCfg ℝ) (hle : cfg.le = fun a b => decide (a ≤ b)) (heig : VcEig cfg.eig) (hnu : 0 < cfg.nu)
    (hp : p ≠ 0) (hlam : cfg.lam = 0) (X : Matrix (Fin n) (Fin p) ℝ) (y : Matrix (Fin n) (Fin 1) ℝ) (hb : Xᵀ * y ≠ 0) :
    ∃ (w : Matrix (Fin p) (Fin 1) ℝ) (c : ℝ), vcplsWeights cfg (of X) (of y) = .ok (of w) ∧ ∑ j, w j 0 ^ 2 = 1 ∧ c ≠ 0 ∧
      (Xᵀ * X + cfg.nu • (1 : Matrix (Fin p) (Fin p) ℝ)) * w = c • (Xᵀ * y) := by
  obtain ⟨w, l, h1, h2, h3, h4⟩ := vcplsWeights_of cfg hle heig hnu hp X y
  have hs := vcpls_score X y hnu h2 h3 h4 (Or.inr ⟨hlam, hb⟩)
  have hw : w ≠ 0 := fun h0 => by simp [h0] at h2
  have hnum : vcNum X y cfg.lam w = l * vcDen X cfg.nu w := by
    rw [← vcG_quad, ← vcS_quad, h3, dotProduct_smul, smul_eq_mul]
  -- the covariance is a number `s`, and `Xᵀ y s = l (XᵀX + nu) w`
  set s : ℝ := (yᵀ *ᵥ (X *ᵥ w)) 0 with hsdef
  have h5 : vcG X y cfg.lam *ᵥ w = fun j => (Xᵀ * y) j 0 * s := by
    unfold vcG
    rw [hlam, zero_smul, sub_zero, Matrix.mul_assoc (Xᵀ * y), ← Matrix.mulVec_mulVec w (Xᵀ * y),
      ← Matrix.mulVec_mulVec w yᵀ]
    funext j
    rw [Matrix.mulVec, dotProduct, Fin.sum_univ_one]
  have hl : 0 < l := by
    obtain ⟨j, hj⟩ : ∃ j, (Xᵀ * y) j 0 ≠ 0 := by
      by_contra hcon
      push Not at hcon
      refine hb ?_
      ext j c
      rw [Subsingleton.elim c 0]; exact hcon j
    have h6 := h4 (Pi.single j 1)
    have h7 : vcNum X y cfg.lam (Pi.single j 1) = (Xᵀ * y) j 0 ^ 2 := by
      rw [Matrix.mul_apply]
      simp [vcNum, hlam, Pi.single_apply]
    rw [h7] at h6
    have h8 : 0 < (Xᵀ * y) j 0 ^ 2 := by positivity
    have hne : (Pi.single j (1 : ℝ) : Fin p → ℝ) ≠ 0 := fun h0 => by
      have := congrFun h0 j
      simp at this
    by_contra hcon
    have := mul_nonpos_of_nonpos_of_nonneg (not_lt.1 hcon) (vcDen_pos X hnu hne).le
    linarith
  have hs0 : s ≠ 0 := by
    intro h0
    have h6 : vcNum X y cfg.lam w = 0 := by
      rw [← vcG_quad, h5, h0]
      simp [dotProduct]
    rw [h6] at hnum
    exact (mul_pos hl (vcDen_pos X hnu hw)).ne hnum
  refine ⟨Matrix.of fun i _ => w i, s / l, h1, h2, div_ne_zero hs0 hl.ne', ?_⟩
  ext j c
  rw [Subsingleton.elim c 0]
  have h6 := congrFun h3 j
  rw [h5, Pi.smul_apply, smul_eq_mul] at h6
  show (vcS X cfg.nu *ᵥ w) j = s / l * (Xᵀ * y) j 0
  field_simp
  linarith

/-! ## Training -/

theorem rank_deflate (X : Matrix (Fin n) (Fin p) ℝ) (t : Matrix (Fin n) (Fin 1) ℝ) : X.rank ≤ (deflate X t).rank + 1 := by
  have hX : X = deflate X t + t * (loading X t)ᵀ := by unfold deflate; rw [sub_add_cancel]
  have hsub : LinearMap.range X.mulVecLin ≤
      LinearMap.range (deflate X t).mulVecLin ⊔ LinearMap.range (t * (loading X t)ᵀ).mulVecLin := by
    rintro _ ⟨v, rfl⟩
    have hv : X.mulVecLin v = (deflate X t).mulVecLin v + (t * (loading X t)ᵀ).mulVecLin v := by
      rw [Matrix.mulVecLin_apply, Matrix.mulVecLin_apply, Matrix.mulVecLin_apply, ← Matrix.add_mulVec, ← hX]
    rw [hv]
    exact Submodule.add_mem_sup ⟨v, rfl⟩ ⟨v, rfl⟩
  have h1 := Submodule.finrank_mono hsub
  have h2 := Submodule.finrank_add_le_finrank_add_finrank (LinearMap.range (deflate X t).mulVecLin)
    (LinearMap.range (t * (loading X t)ᵀ).mulVecLin)
  have h3 : (t * (loading X t)ᵀ).rank ≤ 1 := (Matrix.rank_mul_le_left _ _).trans (Matrix.rank_le_width _)
  unfold Matrix.rank at h3 ⊢
  omega

theorem regular_of_rank {wf : Matrix (Fin n) (Fin p) ℝ → Matrix (Fin p) (Fin 1) ℝ} (hwf : ∀ X, X ≠ 0 → X * wf X ≠ 0) :
    ∀ (K : Nat) (X : Matrix (Fin n) (Fin p) ℝ), K ≤ X.rank → Regular wf K X := by
  intro K
  induction K with
  | zero => intro X _; trivial
  | succ K ih =>
    intro X hX
    have hX0 : X ≠ 0 := fun h0 => by rw [h0, Matrix.rank_zero] at hX; omega
    have ht := hwf X hX0
    have hsq : sq1 (X * wf X) ≠ 0 := by
      intro h0
      refine ht ?_
      ext i c
      rw [Subsingleton.elim c 0]
      have := (Finset.sum_eq_zero_iff_of_nonneg fun _ _ => mul_self_nonneg _).1 h0 i (Finset.mem_univ i)
      simpa using this
    refine ⟨fun h0 => hsq ?_, ?_⟩
    · rw [← sq1_eq, h0]; rfl
    · rw [sq1_eq, ← deflate_eq]
      refine ih _ ?_
      have := rank_deflate X (X * wf X)
      omega

/-- The weights as a function of the predictors. -/
theorem vcpls_computes (cfg : VcplsCfg ℝ) (hle : cfg.le = fun a b => decide (a ≤ b)) (heig : VcEig cfg.eig) (hnu : 0 < cfg.nu)
    (hp : p ≠ 0) (hlam : 0 < cfg.lam) (y : Matrix (Fin n) (Fin 1) ℝ) :
    ∃ wf : Matrix (Fin n) (Fin p) ℝ → Matrix (Fin p) (Fin 1) ℝ, Computes (vcplsWeights cfg) wf y ∧ ∀ X, X ≠ 0 → X * wf X ≠ 0 := by
  have h : ∀ X : Matrix (Fin n) (Fin p) ℝ, ∃ w : Matrix (Fin p) (Fin 1) ℝ, vcplsWeights cfg (of X) (of y) = .ok (of w) ∧
      (X ≠ 0 → X * w ≠ 0) := by
    intro X
    obtain ⟨w, l, h1, h2, h3, h4⟩ := vcplsWeights_of cfg hle heig hnu hp X y
    refine ⟨_, h1, fun hX h0 => vcpls_score X y hnu h2 h3 h4 (Or.inl ⟨hlam, hX⟩) ?_⟩
    funext i
    exact congrFun (congrFun h0 i) 0
  choose wf h1 h2 using h
  exact ⟨wf, h1, h2⟩

/-- **C92.** With a positive penalty (the default is 1) VCPLS trains on all data of rank at least `K` without dividing by zero:
scores are orthogonal and not zero, predictions are linear, and the fit is least squares on the scores. -/
theorem C92_train (cfg : VcplsCfg ℝ) (hle : cfg.le = fun a b => decide (a ≤ b)) (heig : VcEig cfg.eig) (hnu : 0 < cfg.nu)
    (hlam : 0 < cfg.lam) {K : Nat} (hK : 0 < K) (X : Matrix (Fin n) (Fin p) ℝ) (y : Matrix (Fin n) (Fin 1) ℝ) (hr : K ≤ X.rank) :
    ∃ (m : Pls1Model ℝ) (T : Matrix (Fin n) (Fin K) ℝ) (R : Matrix (Fin p) (Fin 1) ℝ),
      pls1Train (vcplsWeights cfg) K (of X) (of y) = .ok (m, of T) ∧ m.rHat = of R ∧
      pls1Transform K m (of X) = .ok (of T) ∧
      (∀ i j, i ≠ j → ∑ l, T l i * T l j = 0) ∧ (∀ i, ∑ l, T l i * T l i ≠ 0) ∧
      (∀ {r : Nat}, 0 < r → ∀ Z : Matrix (Fin r) (Fin p) ℝ, pls1Predict K m (of Z) = .ok (of (Z * R))) ∧
      ∀ c : Matrix (Fin K) (Fin 1) ℝ, ∑ i, (y i 0 - (X * R) i 0) ^ 2 ≤ ∑ i, (y i 0 - (T * c) i 0) ^ 2 := by
  have hn : 0 < n := by have := X.rank_le_height; omega
  have hp : 0 < p := by have := X.rank_le_width; omega
  obtain ⟨wf, hw, hne⟩ := vcpls_computes (n := n) cfg hle heig hnu hp.ne' hlam y
  have hreg := regular_of_rank hne K X hr
  obtain ⟨m, T, P, a1, -, a3, a4, a5, -⟩ := C49_scores hn hp hK X hw hreg
  obtain ⟨m', T', R, b1, b2, b3⟩ := C50_linear hn hp hK X hw hreg
  obtain ⟨m2, T2, F, c1, c2, -, -, c5⟩ := C50_least_squares hn hp hK X hw hreg
  rw [a1] at b1 c1
  simp only [Except.ok.injEq, Prod.mk.injEq, of_inj] at b1 c1
  obtain ⟨rfl, -⟩ := b1
  obtain ⟨rfl, rfl⟩ := c1
  rw [b3 hn X] at c2
  simp only [Except.ok.injEq, of_inj] at c2
  subst c2
  exact ⟨m, T, R, a1, b2, a3, a4, a5, b3, c5⟩

/-- Changing the sign of the response leaves weights, loadings and scores as they are and changes the sign of the
coefficients. -/
theorem C92_sign (cfg : VcplsCfg ℝ) (hle : cfg.le = fun a b => decide (a ≤ b)) (heig : VcEig cfg.eig) (hnu : 0 < cfg.nu)
    (hlam : 0 < cfg.lam) {K : Nat} (hK : 0 < K) (X : Matrix (Fin n) (Fin p) ℝ) (y : Matrix (Fin n) (Fin 1) ℝ) (hr : K ≤ X.rank) :
    ∃ (m m' : Pls1Model ℝ) (T : Mat ℝ) (R : Matrix (Fin p) (Fin 1) ℝ),
      pls1Train (vcplsWeights cfg) K (of X) (of y) = .ok (m, T) ∧ pls1Train (vcplsWeights cfg) K (of X) (of (-y)) = .ok (m', T) ∧
      m'.W = m.W ∧ m'.P = m.P ∧ m.rHat = of R ∧ m'.rHat = of (-R) := by
  have hn : 0 < n := by have := X.rank_le_height; omega
  have hp : 0 < p := by have := X.rank_le_width; omega
  obtain ⟨wf, hw, hne⟩ := vcpls_computes (n := n) cfg hle heig hnu hp.ne' hlam y
  have hs := (regular_of_rank hne K X hr).sq1_ne
  have hw' : Computes (vcplsWeights cfg) wf (-y) := by
    intro Z
    rw [← hw Z]
    unfold vcplsWeights
    rw [vcplsTerm_of cfg hnu, vcplsTerm_of cfg hnu]
    have : vcG Z (-y) cfg.lam = vcG Z y cfg.lam := by
      unfold vcG
      simp only [Matrix.transpose_neg, Matrix.mul_neg, Matrix.neg_mul, neg_neg]
    rw [this]
  have hb : plsBM wf K X (-y) = - plsBM wf K X y := by
    ext i j
    simp [plsBM, plsB, Finset.sum_neg_distrib, neg_div]
  refine ⟨_, _, _, _, pls1Train_eq wf _ K hn hp hK X y (fun k _ => hw _) hs,
    pls1Train_eq wf _ K hn hp hK X (-y) (fun k _ => hw' _) hs, rfl, rfl, rfl, ?_⟩
  show of _ = of _
  rw [hb, Matrix.mul_neg]

/-- `validate_lambda_` accepts every number.  With a negative penalty the weights of a matrix with a redundant column can give a
score that is zero, by whose length the next step divides; the rank of the predictors is one, so that a component exists. -/
theorem C92_lambda_violation (cfg : VcplsCfg ℝ) (hle : cfg.le = fun a b => decide (a ≤ b)) (heig : VcEig cfg.eig)
    (hnu : cfg.nu = 1 / 10000000) (hlam : cfg.lam = -1) :
    ("lambda_", Life.Validator.always) ∈ (Life.vcpls (β := ℝ)).validators ∧
    ∃ w : Matrix (Fin 2) (Fin 1) ℝ,
      vcplsWeights cfg (of (!![1, 0] : Matrix (Fin 1) (Fin 2) ℝ)) (of (!![1] : Matrix (Fin 1) (Fin 1) ℝ)) = .ok (of w) ∧
      (!![1, 0] : Matrix (Fin 1) (Fin 2) ℝ) * w = 0 := by
  refine ⟨by simp [Life.vcpls], ?_⟩
  have hnu' : 0 < cfg.nu := by rw [hnu]; norm_num
  obtain ⟨w, l, h1, h2, h3, h4⟩ := vcplsWeights_of cfg hle heig hnu' (by norm_num) (!![1, 0] : Matrix (Fin 1) (Fin 2) ℝ)
    (!![1] : Matrix (Fin 1) (Fin 1) ℝ)
  refine ⟨_, h1, ?_⟩
  have e1 := h4 ![0, 1]
  have e2 : vcNum (!![1, 0] : Matrix (Fin 1) (Fin 2) ℝ) (!![1] : Matrix (Fin 1) (Fin 1) ℝ) cfg.lam w =
      l * vcDen (!![1, 0] : Matrix (Fin 1) (Fin 2) ℝ) cfg.nu w := by
    rw [← vcG_quad, ← vcS_quad, h3, dotProduct_smul, smul_eq_mul]
  simp [vcNum, vcDen, hlam, hnu, Fin.sum_univ_two] at e1 e2 h2
  have hw0 : w 0 = 0 := by
    by_contra hne
    have hpos : 0 < w 0 ^ 2 := by positivity
    nlinarith
  ext i j
  simp [Matrix.mul_apply, Fin.sum_univ_two, hw0]

/-! Concrete cases. -/

theorem vcEx_rank : (exX).rank = 2 := by
  have : IsUnit exX.det := by
    simp [exX, Matrix.det_fin_two]
  simpa using Matrix.rank_of_isUnit exX ((Matrix.isUnit_iff_isUnit_det _).2 this)

/-- A configuration with the default penalty. -/
noncomputable def vcExCfg (lam : ℝ) : VcplsCfg ℝ :=
  ⟨lam, 1 / 10000000, vcEig_exists.choose, fun a b => decide (a ≤ b), fun _ => .error .linAlgError⟩

/-- Two components for the predictors `diag(1, 2)`. -/
example : ∃ (m : Pls1Model ℝ) (T : Matrix (Fin 2) (Fin 2) ℝ), pls1Train (vcplsWeights (vcExCfg 1)) (2 : Nat) (of exX) (of exY) = .ok (m, of T) ∧
    ∀ i, ∑ l, T l i * T l i ≠ 0 := by
  obtain ⟨m, T, R, h1, -, -, -, h5, -⟩ := C92_train (vcExCfg 1) rfl vcEig_exists.choose_spec (by norm_num [vcExCfg])
    (by norm_num [vcExCfg]) (K := 2) (by norm_num) exX exY vcEx_rank.ge
  exact ⟨m, T, h1, h5⟩

example : ∃ (w : Matrix (Fin 2) (Fin 1) ℝ) (c : ℝ), vcplsWeights (vcExCfg 0) (of exX) (of exY) = .ok (of w) ∧ c ≠ 0 ∧
    (exXᵀ * exX + (1 / 10000000 : ℝ) • (1 : Matrix (Fin 2) (Fin 2) ℝ)) * w = c • (exXᵀ * exY) := by
  obtain ⟨w, c, h1, -, h3, h4⟩ := C92_ridge (vcExCfg 0) rfl vcEig_exists.choose_spec (by norm_num [vcExCfg]) (by norm_num) rfl exX exY
    (fun h => by
      have := congrFun (congrFun h 0) 0
      simp [exX, exY, Matrix.mul_apply, Fin.sum_univ_two] at this)
  exact ⟨w, c, h1, h3, h4⟩

end Verif.Props
