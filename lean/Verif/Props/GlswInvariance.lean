import Verif.Props.GlswProps

/-!
# C127 — what GLSW and EPO learn from, and that they never lengthen a sample
-/

namespace Verif.Props
open Verif Verif.Mat Verif.Transf
open scoped Matrix

variable {n p r : Nat}

theorem fit_congr (cfg : GlswCfg ℝ) {m : Nat} (A B : Matrix (Fin n) (Fin p) ℝ) (A' B' : Matrix (Fin m) (Fin p) ℝ)
    (h : clutterCov A B = clutterCov A' B') :
    glswFit cfg (of A) (of B) = glswFit cfg (of A') (of B') ∧ epoFit cfg (of A) (of B) = epoFit cfg (of A') (of B') := by
  have hcov : glswCov (of A) (of B) = glswCov (of A') (of B') := by
    rw [glswCov_of, glswCov_of, clutterCov_eq, clutterCov_eq, h]
  have hc : ∀ {k : Nat} (C D : Matrix (Fin k) (Fin p) ℝ), glswCheck (of C) (of D) = none := by
    intro k C D
    unfold glswCheck sameShapeAs
    exact if_pos (by simp)
  constructor
  · unfold glswFit glswInit
    rw [hc, hc]
    simp only []
    unfold glswDo
    rw [hcov]
  · unfold epoFit glswInit
    rw [hc, hc]
    simp only []
    unfold glswDo
    rw [hcov]

/-- **C127.**  Whatever the eigensolver returns, the fit depends only on the differences between paired samples, up to a common
offset per variable: changes that affect both samples of a pair alike, and shifts of either data set, change nothing. -/
theorem C127_differences (cfg : GlswCfg ℝ) (A B A' B' : Matrix (Fin n) (Fin p) ℝ) (c : Fin p → ℝ)
    (h : ∀ i j, B' i j - A' i j = B i j - A i j + c j) :
    glswFit cfg (of A') (of B') = glswFit cfg (of A) (of B) ∧ epoFit cfg (of A') (of B') = epoFit cfg (of A) (of B) := by
  refine fit_congr cfg _ _ _ _ ?_
  have e : centredDiff A' B' = centredDiff A B := by
    ext i j
    have hn : (n : ℝ) ≠ 0 := by
      have := i.2
      exact_mod_cast (by omega : n ≠ 0)
    have hs : (∑ k, B' k j) - (∑ k, A' k j) = (∑ k, B k j) - (∑ k, A k j) + n * c j := by
      rw [← Finset.sum_sub_distrib, ← Finset.sum_sub_distrib, Finset.sum_congr rfl fun k _ => h k j, Finset.sum_add_distrib]
      simp
    have h1 : (∑ k, B' k j) / n - (∑ k, A' k j) / n = (∑ k, B k j) / n - (∑ k, A k j) / n + c j := by
      rw [← sub_div, hs, add_div, sub_div, mul_div_cancel_left₀ _ hn]
    have h2 := h i j
    simp only [centredDiff, Matrix.of_apply]
    linarith
  unfold clutterCov
  rw [e]

/-- **C127.**  Which of the two data sets comes first does not matter, nor does the order of the pairs. -/
theorem C127_order (cfg : GlswCfg ℝ) (A B : Matrix (Fin n) (Fin p) ℝ) (σ : Equiv.Perm (Fin n)) :
    (glswFit cfg (of B) (of A) = glswFit cfg (of A) (of B) ∧ epoFit cfg (of B) (of A) = epoFit cfg (of A) (of B)) ∧
    (glswFit cfg (of (A.submatrix σ id)) (of (B.submatrix σ id)) = glswFit cfg (of A) (of B) ∧
      epoFit cfg (of (A.submatrix σ id)) (of (B.submatrix σ id)) = epoFit cfg (of A) (of B)) := by
  constructor
  · refine fit_congr cfg _ _ _ _ ?_
    ext j k
    simp only [clutterCov, Matrix.of_apply]
    refine Finset.sum_congr rfl fun i _ => ?_
    have : ∀ l, centredDiff B A i l = -centredDiff A B i l := fun l => by
      simp only [centredDiff, Matrix.of_apply]
      ring
    rw [this, this, neg_mul_neg]
  · refine fit_congr cfg _ _ _ _ ?_
    ext j k
    have hs : ∀ (M : Matrix (Fin n) (Fin p) ℝ) l, ∑ i, M.submatrix σ id i l = ∑ i, M i l := fun M l => Equiv.sum_comp σ fun i => M i l
    have : ∀ i l, centredDiff (A.submatrix σ id) (B.submatrix σ id) i l = centredDiff A B (σ i) l := fun i l => by
      simp only [centredDiff, Matrix.of_apply, hs]
      rfl
    simp only [clutterCov, Matrix.of_apply, this]
    exact Equiv.sum_comp σ fun i => centredDiff A B i j * centredDiff A B i k

/-- Squared length in an orthonormal basis. -/
theorem length_basis {V : Matrix (Fin p) (Fin p) ℝ} (hV : Vᵀ * V = 1) (X : Matrix (Fin r) (Fin p) ℝ) (i : Fin r) :
    ∑ j, (X * V) i j ^ 2 = ∑ j, X i j ^ 2 := by
  have hV' : V * Vᵀ = 1 := mul_eq_one_comm.1 hV
  have h : (X * V) * (X * V)ᵀ = X * Xᵀ := by
    rw [Matrix.transpose_mul, Matrix.mul_assoc, ← Matrix.mul_assoc V, hV', Matrix.one_mul]
  have h1 := congrFun (congrFun h i) i
  rw [Matrix.mul_apply, Matrix.mul_apply] at h1
  simpa only [Matrix.transpose_apply, pow_two] using h1

theorem diag_length {V : Matrix (Fin p) (Fin p) ℝ} (hV : Vᵀ * V = 1) (w : Fin p → ℝ) (X : Matrix (Fin r) (Fin p) ℝ) (i : Fin r) :
    ∑ j, (X * (V * Matrix.diagonal w * Vᵀ)) i j ^ 2 = ∑ j, w j ^ 2 * (X * V) i j ^ 2 := by
  rw [← length_basis hV (X * (V * Matrix.diagonal w * Vᵀ))]
  have : X * (V * Matrix.diagonal w * Vᵀ) * V = X * V * Matrix.diagonal w := by
    rw [Matrix.mul_assoc, Matrix.mul_assoc _ Vᵀ, hV, Matrix.mul_one, Matrix.mul_assoc]
  rw [this]
  refine Finset.sum_congr rfl fun j _ => ?_
  rw [Matrix.mul_diagonal]
  ring

/-- **C127.**  With orthonormal eigenvectors the filter of GLSW shortens every sample, or leaves its length, and hence brings no two
samples further apart; it shrinks no sample by more than the weight of the largest clutter eigenvalue, so distinct samples stay
distinct: no information is lost. -/
theorem C127_contracts (cfg : GlswCfg ℝ) (ha : 0 < cfg.alpha) (hp : p ≠ 0) (A B : Matrix (Fin n) (Fin p) ℝ) (ev : Fin p → ℝ)
    (V : Matrix (Fin p) (Fin p) ℝ) (s : Fin p → ℝ) (h : Solved cfg (clutterCov A B) ev V s) (ho : OrthoEig (clutterCov A B) ev V)
    (top : ℝ) (ht : ∀ j, ev j ≤ top) :
    ∃ G : Matrix (Fin p) (Fin p) ℝ, glswFit cfg (of A) (of B) = .ok (.ready (of G)) ∧
      ∀ (r : Nat) (X : Matrix (Fin r) (Fin p) ℝ), ∃ Z : Matrix (Fin r) (Fin p) ℝ, glswTransform (some (of G)) (of X) = .ok (of Z) ∧
        (∀ i, ∑ j, Z i j ^ 2 ≤ ∑ j, X i j ^ 2 ∧ wt cfg.alpha top ^ 2 * ∑ j, X i j ^ 2 ≤ ∑ j, Z i j ^ 2) ∧
        (∀ i k, ∑ j, (Z i j - Z k j) ^ 2 ≤ ∑ j, (X i j - X k j) ^ 2) ∧ ∀ i k, Z i = Z k → X i = X k := by
  have hn := clutter_nonneg A B ho
  have hs : ∀ j, 0 ≤ s j ∧ s j ≤ top := by
    obtain ⟨σ, hσ, _, _, hm, _⟩ := sorted_ortho hp ho false
    have := singular_eq ho hn h.singular σ hσ hm
    intro j
    rw [this]
    exact ⟨hn _, ht _⟩
  have hwt : ∀ j, wt cfg.alpha top ≤ wt cfg.alpha (s j) := by
    intro j
    unfold wt
    refine one_div_le_one_div_of_le (Real.sqrt_pos.2 (by positivity)) (Real.sqrt_le_sqrt ?_)
    have : s j ^ 2 ≤ top ^ 2 := pow_le_pow_left₀ (hs j).1 (hs j).2 2
    have := div_le_div_of_nonneg_right this ha.le
    linarith
  set G := V * Matrix.diagonal (fun i => wt cfg.alpha (s i)) * Vᵀ with hG
  have hup : ∀ {r : Nat} (X : Matrix (Fin r) (Fin p) ℝ) i, ∑ j, (X * G) i j ^ 2 ≤ ∑ j, X i j ^ 2 ∧
      wt cfg.alpha top ^ 2 * ∑ j, X i j ^ 2 ≤ ∑ j, (X * G) i j ^ 2 := by
    intro r X i
    rw [hG, diag_length ho.ortho, ← length_basis ho.ortho X]
    constructor
    · refine Finset.sum_le_sum fun j _ => mul_le_of_le_one_left (sq_nonneg _) ?_
      exact pow_le_one₀ (wt_pos ha _).le (wt_le_one ha _)
    · rw [Finset.mul_sum]
      exact Finset.sum_le_sum fun j _ => mul_le_mul_of_nonneg_right (pow_le_pow_left₀ (wt_pos ha _).le (hwt j) 2) (sq_nonneg _)
  refine ⟨G, glswFit_of cfg ha hp A B h, fun r X => ⟨X * G, mul_of X G, hup X, ?_⟩⟩
  have hrow : ∀ i k j, (X * G) i j - (X * G) k j = ((Matrix.of fun (_ : Fin 1) l => X i l - X k l) * G) 0 j := by
    intro i k j
    rw [Matrix.mul_apply, Matrix.mul_apply, Matrix.mul_apply, ← Finset.sum_sub_distrib]
    exact Finset.sum_congr rfl fun l _ => (sub_mul _ _ _).symm
  refine ⟨fun i k => ?_, fun i k hik => ?_⟩
  · simp only [hrow]
    exact (hup (Matrix.of fun (_ : Fin 1) l => X i l - X k l) 0).1
  · have h1 := (hup (Matrix.of fun (_ : Fin 1) l => X i l - X k l) 0).2
    simp only [← hrow, hik, sub_self] at h1
    have h2 : 0 < wt cfg.alpha top ^ 2 := pow_pos (wt_pos ha _) 2
    have h3 : ∑ j, (X i j - X k j) ^ 2 = 0 := by
      have h4 : 0 ≤ ∑ j, (X i j - X k j) ^ 2 := Finset.sum_nonneg fun _ _ => sq_nonneg _
      have h5 : wt cfg.alpha top ^ 2 * ∑ j, (X i j - X k j) ^ 2 ≤ 0 := by simpa using h1
      nlinarith
    funext j
    have := (Finset.sum_eq_zero_iff_of_nonneg fun j _ => sq_nonneg (X i j - X k j)).1 h3 j (Finset.mem_univ j)
    exact sub_eq_zero.1 (pow_eq_zero_iff two_ne_zero |>.1 this)

/-- **C127.**  EPO with at most as many components as features shortens every sample, or leaves its length, and applying it twice
is the same as applying it once. -/
theorem C127_epo (cfg : GlswCfg ℝ) (hp : p ≠ 0) (N : Nat) (hN : cfg.N = N) (hle : N ≤ p) (A B : Matrix (Fin n) (Fin p) ℝ)
    (ev : Fin p → ℝ) (V : Matrix (Fin p) (Fin p) ℝ) (h : EpoSolved cfg (clutterCov A B) ev V) :
    ∃ G : Matrix (Fin p) (Fin p) ℝ, epoFit cfg (of A) (of B) = .ok (.ready (of G)) ∧
      ∀ (r : Nat) (X : Matrix (Fin r) (Fin p) ℝ), ∃ Z : Matrix (Fin r) (Fin p) ℝ, glswTransform (some (of G)) (of X) = .ok (of Z) ∧
        glswTransform (some (of G)) (of Z) = .ok (of Z) ∧ (∀ i, ∑ j, Z i j ^ 2 ≤ ∑ j, X i j ^ 2) ∧
        ∀ i k, ∑ j, (Z i j - Z k j) ^ 2 ≤ ∑ j, (X i j - X k j) ^ 2 := by
  obtain ⟨d, W, h1, _, h3⟩ := epoFit_of cfg hp N hN hle A B h
  set F := W.submatrix id (Fin.castLE hle) with hF
  have hFF : Fᵀ * F = 1 := by
    ext a b
    have := congrFun (congrFun h1.ortho (Fin.castLE hle a)) (Fin.castLE hle b)
    rw [Matrix.one_apply] at this ⊢
    rw [Matrix.mul_apply] at this ⊢
    refine Eq.trans (this : _) ?_
    by_cases hab : a = b
    · rw [if_pos hab, if_pos (by rw [hab])]
    · rw [if_neg hab, if_neg fun e => hab (Fin.castLE_injective hle e)]
  have hup : ∀ {r : Nat} (X : Matrix (Fin r) (Fin p) ℝ) i, ∑ j, (X * (F * Fᵀ)) i j ^ 2 ≤ ∑ j, X i j ^ 2 := by
    intro r X i
    have e : (X - X * (F * Fᵀ)) * (X * (F * Fᵀ))ᵀ = 0 := by
      have : (F * Fᵀ)ᵀ = F * Fᵀ := by rw [Matrix.transpose_mul, Matrix.transpose_transpose]
      rw [Matrix.transpose_mul, this, Matrix.sub_mul, Matrix.mul_assoc X (F * Fᵀ), ← Matrix.mul_assoc (F * Fᵀ), Matrix.mul_assoc F Fᵀ (F * Fᵀ),
        ← Matrix.mul_assoc Fᵀ F, hFF, Matrix.one_mul, sub_self]
    have h0 := congrFun (congrFun e i) i
    rw [Matrix.mul_apply] at h0
    simp only [Matrix.sub_apply, Matrix.transpose_apply, Matrix.zero_apply, sub_mul, Finset.sum_sub_distrib] at h0
    have h1 : ∑ j, X i j ^ 2 = ∑ j, (X * (F * Fᵀ)) i j ^ 2 + ∑ j, (X i j - (X * (F * Fᵀ)) i j) ^ 2 := by
      have : ∀ j, X i j ^ 2 = (X * (F * Fᵀ)) i j ^ 2 + (X i j - (X * (F * Fᵀ)) i j) ^ 2 +
          2 * (X i j * (X * (F * Fᵀ)) i j - (X * (F * Fᵀ)) i j * (X * (F * Fᵀ)) i j) := fun j => by ring
      rw [Finset.sum_congr rfl fun j _ => this j, Finset.sum_add_distrib, Finset.sum_add_distrib, ← Finset.mul_sum, Finset.sum_sub_distrib, h0]
      ring
    have h2 : 0 ≤ ∑ j, (X i j - (X * (F * Fᵀ)) i j) ^ 2 := Finset.sum_nonneg fun _ _ => sq_nonneg _
    linarith
  refine ⟨F * Fᵀ, h3, fun r X => ⟨X * (F * Fᵀ), mul_of _ _, ?_, hup X, fun i k => ?_⟩⟩
  · refine (mul_of _ _).trans ?_
    rw [ok_inj, of_inj, Matrix.mul_assoc X, Matrix.mul_assoc F Fᵀ (F * Fᵀ), ← Matrix.mul_assoc Fᵀ F, hFF, Matrix.one_mul]
  · have hrow : ∀ j, (X * (F * Fᵀ)) i j - (X * (F * Fᵀ)) k j = ((Matrix.of fun (_ : Fin 1) l => X i l - X k l) * (F * Fᵀ)) 0 j := by
      intro j
      rw [Matrix.mul_apply, Matrix.mul_apply, Matrix.mul_apply, ← Finset.sum_sub_distrib]
      exact Finset.sum_congr rfl fun l _ => (sub_mul _ _ _).symm
    simp only [hrow]
    exact hup (Matrix.of fun (_ : Fin 1) l => X i l - X k l) 0

/-! ### Concrete cases -/

/-- Adding the same matrix to both data sets, and an offset to the second. -/
example (cfg : GlswCfg ℝ) (D : Matrix (Fin 4) (Fin 2) ℝ) (c : Fin 2 → ℝ) :
    glswFit cfg (of D) (of (Matrix.of fun i j => exB i j + D i j + c j)) = glswFit cfg (of (0 : Matrix (Fin 4) (Fin 2) ℝ)) (of exB) :=
  (C127_differences cfg 0 exB D _ c fun i j => by simp; ring).1

/-- A configuration and data for which the hypotheses of `C127_contracts` and `C127_epo` hold. -/
example : ∃ cfg : GlswCfg ℝ, 0 < cfg.alpha ∧ Solved cfg (clutterCov (0 : Matrix (Fin 4) (Fin 2) ℝ) exB) ![2, 8] 1 ![8, 2] ∧
    OrthoEig (clutterCov (0 : Matrix (Fin 4) (Fin 2) ℝ) exB) ![2, 8] 1 ∧ (∀ j, (![2, 8] : Fin 2 → ℝ) j ≤ 8) ∧
    EpoSolved cfg (clutterCov (0 : Matrix (Fin 4) (Fin 2) ℝ) exB) ![2, 8] 1 ∧ cfg.N = (1 : Nat) := by
  refine ⟨⟨1, 1, fun _ => .ok (of (Matrix.of fun i (_ : Fin 1) => (![2, 8] : Fin 2 → ℝ) i), of (1 : Matrix (Fin 2) (Fin 2) ℝ)),
    fun _ => .ok (of (1 : Matrix (Fin 2) (Fin 2) ℝ), of (Matrix.of fun (_ : Fin 1) i => (![8, 2] : Fin 2 → ℝ) i), of (1 : Matrix (Fin 2) (Fin 2) ℝ)),
    fun a b => decide (a ≤ b), fun _ => .error .linAlgError, fun x => x⟩, one_pos, ⟨rfl, ⟨_, _, rfl⟩, exB_singular⟩, exB_ortho, ?_,
    ⟨rfl, exB_ortho, rfl⟩, rfl⟩
  intro j
  fin_cases j <;> simp
  norm_num

end Verif.Props
