import Verif.Alg.GLSW
import Verif.Props.EigLemmas

/-!
# C64, C65: generalised least squares weighting and external parameter orthogonalisation
-/

set_option linter.unusedSectionVars false
set_option linter.unusedSimpArgs false

namespace Verif.Props
open Verif Verif.Mat Verif.Transf
open scoped Matrix

variable {n p : Nat}

/-! ## Specification -/

/-- Difference of two data sets after centring each of them. -/
noncomputable def centredDiff (A B : Matrix (Fin n) (Fin p) ℝ) : Matrix (Fin n) (Fin p) ℝ :=
  Matrix.of fun i j => (B i j - (∑ k, B k j) / n) - (A i j - (∑ k, A k j) / n)

/-- Covariance (up to a factor) of the clutter. -/
noncomputable def clutterCov (A B : Matrix (Fin n) (Fin p) ℝ) : Matrix (Fin p) (Fin p) ℝ :=
  Matrix.of fun j k => ∑ i, centredDiff A B i j * centredDiff A B i k

/-- The weight belonging to a clutter eigenvalue. -/
noncomputable def wt (alpha lam : ℝ) : ℝ := 1 / Real.sqrt (1 + lam ^ 2 / alpha)

/-- What the external routines return for `C`. -/
structure Solved (cfg : GlswCfg ℝ) (C : Matrix (Fin p) (Fin p) ℝ) (ev : Fin p → ℝ) (V : Matrix (Fin p) (Fin p) ℝ) (s : Fin p → ℝ) : Prop where
  eig : cfg.eig (of C) = .ok (of (Matrix.of fun i (_ : Fin 1) => ev i), of V)
  svd : ∃ u vh, cfg.svd (of C) = .ok (u, of (Matrix.of fun (_ : Fin 1) i => s i), vh)
  singular : IsSingular C s

/-! ## Lemmas -/

theorem clutterCov_eq (A B : Matrix (Fin n) (Fin p) ℝ) : (clutter A B)ᵀ * clutter A B = clutterCov A B := by
  ext j k
  rw [Matrix.mul_apply]
  rfl

theorem clutterCov_symm (A B : Matrix (Fin n) (Fin p) ℝ) : (clutterCov A B)ᵀ = clutterCov A B := by
  rw [← clutterCov_eq, Matrix.transpose_mul, Matrix.transpose_transpose]

theorem clutter_nonneg (A B : Matrix (Fin n) (Fin p) ℝ) {ev : Fin p → ℝ} {V : Matrix (Fin p) (Fin p) ℝ}
    (h : OrthoEig (clutterCov A B) ev V) (i : Fin p) : 0 ≤ ev i := by
  have h1 : (Vᵀ * (clutterCov A B * V)) i i = ev i := by
    rw [h.eigen, ← Matrix.mul_assoc, h.ortho, Matrix.one_mul, Matrix.diagonal_apply_eq]
  have h2 : Vᵀ * (clutterCov A B * V) = (clutter A B * V)ᵀ * (clutter A B * V) := by
    rw [← clutterCov_eq, Matrix.transpose_mul]
    simp only [Matrix.mul_assoc]
  rw [← h1, h2, Matrix.mul_apply]
  exact Finset.sum_nonneg fun k _ => mul_self_nonneg _

theorem weight_eq (alpha s : ℝ) : weight alpha s = wt alpha s := by
  unfold weight wt
  rw [add_comm]

theorem wt_pos {alpha : ℝ} (ha : 0 < alpha) (l : ℝ) : 0 < wt alpha l := by
  unfold wt
  have : 0 < Real.sqrt (1 + l ^ 2 / alpha) := Real.sqrt_pos.2 (by positivity)
  positivity

theorem one_le_root {alpha : ℝ} (ha : 0 < alpha) (l : ℝ) : 1 ≤ Real.sqrt (1 + l ^ 2 / alpha) :=
  Real.one_le_sqrt.2 (by have : 0 ≤ l ^ 2 / alpha := by positivity
                         linarith)

theorem wt_le_one {alpha : ℝ} (ha : 0 < alpha) (l : ℝ) : wt alpha l ≤ 1 := by
  unfold wt
  exact (div_le_one (by linarith [one_le_root ha l])).2 (one_le_root ha l)

theorem wt_inj {alpha : ℝ} (ha : 0 < alpha) {l l' : ℝ} (hl : 0 ≤ l) (hl' : 0 ≤ l') (h : wt alpha l = wt alpha l') : l = l' := by
  unfold wt at h
  rw [one_div, one_div] at h
  have h1 := inv_injective h
  rw [Real.sqrt_inj (by positivity) (by positivity)] at h1
  have h2 : l ^ 2 / alpha = l' ^ 2 / alpha := by linarith
  have h3 : l ^ 2 = l' ^ 2 := by
    field_simp at h2
    exact h2
  exact (pow_left_inj₀ hl hl' two_ne_zero).1 h3

theorem wt_zero (alpha : ℝ) : wt alpha 0 = 1 := by
  unfold wt
  norm_num

theorem wt_ge {alpha : ℝ} (ha : 0 < alpha) (l : ℝ) : 1 - wt alpha l ≤ l ^ 2 / alpha := by
  have ht : 0 ≤ l ^ 2 / alpha := by positivity
  unfold wt
  set t := l ^ 2 / alpha
  have h0 := one_le_root ha l
  have hs : Real.sqrt (1 + t) ≤ 1 + t := by
    rw [Real.sqrt_le_left (by linarith)]
    nlinarith
  have h1 : 1 / (1 + t) ≤ 1 / Real.sqrt (1 + t) := one_div_le_one_div_of_le (by linarith) hs
  have h2 : 1 - t ≤ 1 / (1 + t) := by
    rw [le_div_iff₀ (by linarith)]
    nlinarith
  linarith

theorem glswFit_of (cfg : GlswCfg ℝ) (ha : 0 < cfg.alpha) (hp : p ≠ 0) (A B : Matrix (Fin n) (Fin p) ℝ) {ev : Fin p → ℝ}
    {V : Matrix (Fin p) (Fin p) ℝ} {s : Fin p → ℝ} (h : Solved cfg (clutterCov A B) ev V s) :
    glswFit cfg (of A) (of B) = .ok (.ready (of (V * Matrix.diagonal (fun i => wt cfg.alpha (s i)) * Vᵀ))) := by
  obtain ⟨u, vh, hs⟩ := h.svd
  have := glswDo_of cfg ha hp glswCov (of A) (of B) (clutterCov A B) V ev s u vh
    (by rw [glswCov_of, clutterCov_eq]) h.eig hs
  unfold glswFit glswInit
  have hc : glswCheck (of A) (of B) = none := by
    unfold glswCheck sameShapeAs
    exact if_pos (by simp)
  rw [hc]
  simp only []
  rw [this]
  simp only [weight_eq]
  rfl

theorem diag_col {V : Matrix (Fin p) (Fin p) ℝ} (hV : Vᵀ * V = 1) (w : Fin p → ℝ) (j : Fin p) :
    (V * Matrix.diagonal w * Vᵀ) *ᵥ V.col j = w j • V.col j := by
  have h1 : V * Matrix.diagonal w * Vᵀ * V = V * Matrix.diagonal w := by rw [Matrix.mul_assoc, hV, Matrix.mul_one]
  ext i
  have := congrFun (congrFun h1 i) j
  rw [Matrix.mul_diagonal, mul_comm] at this
  exact this

theorem diag_symm (V : Matrix (Fin p) (Fin p) ℝ) (w : Fin p → ℝ) :
    (V * Matrix.diagonal w * Vᵀ)ᵀ = V * Matrix.diagonal w * Vᵀ := by
  rw [Matrix.transpose_mul, Matrix.transpose_mul, Matrix.transpose_transpose, Matrix.diagonal_transpose, Matrix.mul_assoc]

/-! ## C64 -/

/-- For all outputs of the external routines the matrix is symmetric, and `transform` multiplies by it. -/
theorem C64_symmetric (cfg : GlswCfg ℝ) (ha : 0 < cfg.alpha) (hp : p ≠ 0) (A B : Matrix (Fin n) (Fin p) ℝ) (ev : Fin p → ℝ)
    (V : Matrix (Fin p) (Fin p) ℝ) (s : Fin p → ℝ) (h : Solved cfg (clutterCov A B) ev V s) :
    ∃ G : Matrix (Fin p) (Fin p) ℝ, glswFit cfg (of A) (of B) = .ok (.ready (of G)) ∧ Gᵀ = G ∧
      ∀ (r : Nat) (X : Matrix (Fin r) (Fin p) ℝ), glswTransform (some (of G)) (of X) = .ok (of (X * G)) :=
  ⟨_, glswFit_of cfg ha hp A B h, diag_symm _ _, fun _ X => mul_of X _⟩

/-- With orthonormal eigenvectors, listed by decreasing eigenvalue, every clutter direction is multiplied by the weight of
its own eigenvalue; the weights lie in `(0, 1]` and are one exactly for directions without clutter. -/
theorem C64_downweights_partial (cfg : GlswCfg ℝ) (ha : 0 < cfg.alpha) (hp : p ≠ 0) (A B : Matrix (Fin n) (Fin p) ℝ) (ev : Fin p → ℝ)
    (V : Matrix (Fin p) (Fin p) ℝ) (s : Fin p → ℝ) (h : Solved cfg (clutterCov A B) ev V s) (ho : OrthoEig (clutterCov A B) ev V)
    (hd : Antitone ev) :
    ∃ G : Matrix (Fin p) (Fin p) ℝ, glswFit cfg (of A) (of B) = .ok (.ready (of G)) ∧ Gᵀ = G ∧
      ∀ j, G *ᵥ V.col j = wt cfg.alpha (ev j) • V.col j ∧ 0 < wt cfg.alpha (ev j) ∧ wt cfg.alpha (ev j) ≤ 1 ∧
        (wt cfg.alpha (ev j) = 1 ↔ ev j = 0) := by
  have hn := clutter_nonneg A B ho
  have hs : s = ev := singular_eq ho hn h.singular id Function.bijective_id hd
  subst hs
  refine ⟨_, glswFit_of cfg ha hp A B h, diag_symm _ _, fun j => ⟨diag_col ho.ortho _ j, wt_pos ha _, wt_le_one ha _, ?_⟩⟩
  refine ⟨fun h1 => wt_inj ha (hn j) le_rfl (by rw [h1, wt_zero]), fun h1 => by rw [h1, wt_zero]⟩

/-- Without an assumption on the order, the direction listed at position `j` is multiplied by the weight of the `j`-th
largest eigenvalue. -/
theorem C64_weights_partial (cfg : GlswCfg ℝ) (ha : 0 < cfg.alpha) (hp : p ≠ 0) (A B : Matrix (Fin n) (Fin p) ℝ) (ev : Fin p → ℝ)
    (V : Matrix (Fin p) (Fin p) ℝ) (s : Fin p → ℝ) (h : Solved cfg (clutterCov A B) ev V s) (ho : OrthoEig (clutterCov A B) ev V) :
    ∃ (G : Matrix (Fin p) (Fin p) ℝ) (σ : Fin p → Fin p), glswFit cfg (of A) (of B) = .ok (.ready (of G)) ∧
      Function.Bijective σ ∧ Antitone (ev ∘ σ) ∧
      ∀ j, G *ᵥ V.col j = wt cfg.alpha (ev (σ j)) • V.col j ∧ 0 < wt cfg.alpha (ev (σ j)) ∧ wt cfg.alpha (ev (σ j)) ≤ 1 := by
  have hn := clutter_nonneg A B ho
  obtain ⟨σ, hσ, _, _, hm, _⟩ := sorted_ortho hp ho false
  have ha' : Antitone (ev ∘ σ) := hm
  have hs := singular_eq ho hn h.singular σ hσ ha'
  subst hs
  exact ⟨_, σ, glswFit_of cfg ha hp A B h, hσ, ha', fun j => ⟨diag_col ho.ortho _ j, wt_pos ha _, wt_le_one ha _⟩⟩

/-- Whenever the eigensolver does not happen to list the eigenvalues in decreasing order, some clutter direction gets the
weight of another one: the eigenvectors are those of `np.linalg.eig`, in its order, the weights those of the sorted
singular values. -/
theorem C64_pairing_violation (cfg : GlswCfg ℝ) (ha : 0 < cfg.alpha) (hp : p ≠ 0) (A B : Matrix (Fin n) (Fin p) ℝ) (ev : Fin p → ℝ)
    (V : Matrix (Fin p) (Fin p) ℝ) (s : Fin p → ℝ) (h : Solved cfg (clutterCov A B) ev V s) (ho : OrthoEig (clutterCov A B) ev V)
    (hd : ¬ Antitone ev) :
    ∃ (G : Matrix (Fin p) (Fin p) ℝ) (j : Fin p), glswFit cfg (of A) (of B) = .ok (.ready (of G)) ∧
      G *ᵥ V.col j ≠ wt cfg.alpha (ev j) • V.col j := by
  have hn := clutter_nonneg A B ho
  obtain ⟨u, vh, _, _, _, hs0, hsa⟩ := h.singular
  have hne : ∃ j, s j ≠ ev j := by
    by_contra hall
    push Not at hall
    exact hd (by rw [← funext hall]; exact hsa)
  obtain ⟨j, hj⟩ := hne
  refine ⟨_, j, glswFit_of cfg ha hp A B h, fun heq => ?_⟩
  rw [diag_col ho.ortho] at heq
  have hv := ho.col_ne j
  have h0 : (wt cfg.alpha (s j) - wt cfg.alpha (ev j)) • V.col j = 0 := by rw [sub_smul, heq, sub_self]
  have := (smul_eq_zero.1 h0).resolve_right hv
  exact hj (wt_inj ha (hs0 j) (hn j) (by linarith))

theorem sum_sq_singular {C : Matrix (Fin p) (Fin p) ℝ} {s : Fin p → ℝ} (h : IsSingular C s) : ∑ k, s k ^ 2 = ∑ i, ∑ j, C i j ^ 2 := by
  obtain ⟨u, vh, hC, hu, hv, _, _⟩ := h
  have h1 : (Cᵀ * C).trace = ∑ k, s k ^ 2 := by
    have : Cᵀ * C = vhᵀ * ((Matrix.diagonal fun i => s i ^ 2) * vh) := by
      rw [hC, Matrix.transpose_mul, Matrix.transpose_mul, Matrix.diagonal_transpose]
      calc vhᵀ * (Matrix.diagonal s * uᵀ) * (u * Matrix.diagonal s * vh)
          = vhᵀ * (Matrix.diagonal s * (uᵀ * u) * Matrix.diagonal s * vh) := by simp only [Matrix.mul_assoc]
        _ = _ := by
          rw [hu, Matrix.mul_one, Matrix.diagonal_mul_diagonal]
          simp only [pow_two]
    rw [this, Matrix.trace_mul_comm, Matrix.mul_assoc, hv, Matrix.mul_one, Matrix.trace_diagonal]
  rw [← h1]
  show ∑ j, (Cᵀ * C) j j = _
  rw [Finset.sum_comm]
  refine Finset.sum_congr rfl fun j _ => ?_
  rw [Matrix.mul_apply]
  exact Finset.sum_congr rfl fun i _ => (pow_two _).symm

theorem ortho_entry {V : Matrix (Fin p) (Fin p) ℝ} (h : V * Vᵀ = 1) (i k : Fin p) : |V i k| ≤ 1 := by
  have h1 := congrFun (congrFun h i) i
  rw [Matrix.one_apply_eq, Matrix.mul_apply] at h1
  have h2 : V i k * V i k ≤ 1 := by
    rw [← h1]
    exact Finset.single_le_sum (f := fun k => V i k * Vᵀ k i) (fun k _ => mul_self_nonneg (V i k)) (Finset.mem_univ k)
  exact abs_le_one_iff_mul_self_le_one.2 h2

/-- The filter tends to the identity when the clutter vanishes: each entry differs from it by at most the squared norm of
the clutter covariance over `alpha`.  In particular it is the identity for equal data sets. -/
theorem C64_identity_partial (cfg : GlswCfg ℝ) (ha : 0 < cfg.alpha) (hp : p ≠ 0) (A B : Matrix (Fin n) (Fin p) ℝ) (ev : Fin p → ℝ)
    (V : Matrix (Fin p) (Fin p) ℝ) (s : Fin p → ℝ) (h : Solved cfg (clutterCov A B) ev V s) (ho : OrthoEig (clutterCov A B) ev V) :
    ∃ G : Matrix (Fin p) (Fin p) ℝ, glswFit cfg (of A) (of B) = .ok (.ready (of G)) ∧
      (∀ i j, |G i j - (1 : Matrix (Fin p) (Fin p) ℝ) i j| ≤ (∑ k, ∑ l, clutterCov A B k l ^ 2) / cfg.alpha) ∧ (A = B → G = 1) := by
  have key : ∀ i j, |(V * Matrix.diagonal (fun i => wt cfg.alpha (s i)) * Vᵀ) i j - (1 : Matrix (Fin p) (Fin p) ℝ) i j| ≤
      (∑ k, ∑ l, clutterCov A B k l ^ 2) / cfg.alpha := by
    intro i j
    have e : (V * Matrix.diagonal (fun i => wt cfg.alpha (s i)) * Vᵀ) i j - (1 : Matrix (Fin p) (Fin p) ℝ) i j =
        ∑ k, (wt cfg.alpha (s k) - 1) * (V i k * V j k) := by
      rw [← ho.ortho', Matrix.mul_apply, Matrix.mul_apply, ← Finset.sum_sub_distrib]
      refine Finset.sum_congr rfl fun k _ => ?_
      rw [Matrix.mul_diagonal, Matrix.transpose_apply]
      ring
    rw [e]
    refine (Finset.abs_sum_le_sum_abs _ _).trans ?_
    rw [← sum_sq_singular h.singular, Finset.sum_div]
    refine Finset.sum_le_sum fun k _ => ?_
    rw [abs_mul, abs_mul]
    have h1 : |wt cfg.alpha (s k) - 1| ≤ s k ^ 2 / cfg.alpha := by
      rw [abs_sub_comm, abs_of_nonneg (by linarith [wt_le_one ha (s k)])]
      exact wt_ge ha _
    have h2 : |V i k| * |V j k| ≤ 1 := mul_le_one₀ (ortho_entry ho.ortho' i k) (abs_nonneg _) (ortho_entry ho.ortho' j k)
    calc |wt cfg.alpha (s k) - 1| * (|V i k| * |V j k|) ≤ |wt cfg.alpha (s k) - 1| * 1 :=
          mul_le_mul_of_nonneg_left h2 (abs_nonneg _)
      _ ≤ _ := by rw [mul_one]; exact h1
  refine ⟨_, glswFit_of cfg ha hp A B h, key, fun hAB => ?_⟩
  subst hAB
  ext i j
  have h0 : ∀ k l, clutterCov A A k l = 0 := by
    intro k l
    simp [clutterCov, centredDiff]
  have := key i j
  simp only [h0] at this
  norm_num at this
  linarith

/-- If the eigensolver returns a basis of unit eigenvectors that is not orthogonal, as its contract allows for repeated
eigenvalues, the filter is not the identity even without any clutter. -/
theorem C64_nonorthogonal_violation (cfg : GlswCfg ℝ) (ha : 0 < cfg.alpha) (hs : cfg.svd (of (0 : Matrix (Fin 2) (Fin 2) ℝ)) =
      .ok (of (1 : Matrix (Fin 2) (Fin 2) ℝ), of (Matrix.of fun (_ : Fin 1) (_ : Fin 2) => (0 : ℝ)), of (1 : Matrix (Fin 2) (Fin 2) ℝ)))
    (he : cfg.eig (of (0 : Matrix (Fin 2) (Fin 2) ℝ)) =
      .ok (of (Matrix.of fun (_ : Fin 2) (_ : Fin 1) => (0 : ℝ)), of (!![1, 3 / 5; 0, 4 / 5] : Matrix (Fin 2) (Fin 2) ℝ)))
    (A : Matrix (Fin n) (Fin 2) ℝ) :
    EigPair (0 : Matrix (Fin 2) (Fin 2) ℝ) (fun _ => 0) !![1, 3 / 5; 0, 4 / 5] ∧
    ∃ G : Matrix (Fin 2) (Fin 2) ℝ, glswFit cfg (of A) (of A) = .ok (.ready (of G)) ∧ G ≠ 1 := by
  have h0 : clutterCov A A = 0 := by
    ext k l
    simp [clutterCov, centredDiff]
  refine ⟨⟨by simp, ?_, fun j => ?_⟩, ?_⟩
  · rw [Matrix.det_fin_two]
    norm_num
  · rw [Fin.sum_univ_two]
    fin_cases j
    · simp
    · simp; norm_num
  · have hsol : Solved cfg (clutterCov A A) (fun _ => 0) (!![1, 3 / 5; 0, 4 / 5] : Matrix (Fin 2) (Fin 2) ℝ) (fun _ => 0) := by
      rw [h0]
      exact ⟨he, ⟨_, _, hs⟩, 1, 1, by simp, by simp, by simp, fun _ => le_rfl, fun _ _ _ => le_rfl⟩
    refine ⟨_, glswFit_of cfg ha two_ne_zero A A hsol, fun h => ?_⟩
    have := congrFun (congrFun h 0) 1
    rw [Matrix.one_apply_ne (by decide), Matrix.mul_apply, Fin.sum_univ_two] at this
    simp [Matrix.mul_diagonal, wt_zero] at this

/-- Data of different shapes is refused with a message, and an untrained filter raises. -/
theorem C64_errors (cfg : GlswCfg ℝ) (x1 x2 : Mat ℝ) (h : ¬(x1.rows = x2.rows ∧ x1.cols = x2.cols)) (X : Mat ℝ) :
    glswFit cfg x1 x2 = .ok (.message "Matrices x1 and x2 must have the same shape") ∧
    glswTransform none X = .error .runtimeError := by
  refine ⟨?_, rfl⟩
  unfold glswFit glswInit
  have hc : glswCheck x1 x2 = some "Matrices x1 and x2 must have the same shape" := by
    unfold glswCheck sameShapeAs
    exact if_neg (by simpa using h)
  rw [hc]

/-! ### Examples -/

/-- Two data sets whose clutter covariance is `diag (2, 8)`. -/
noncomputable def exB : Matrix (Fin 4) (Fin 2) ℝ := !![1, 0; -1, 0; 0, 2; 0, -2]

theorem exB_cov : clutterCov (0 : Matrix (Fin 4) (Fin 2) ℝ) exB = Matrix.diagonal ![2, 8] := by
  ext i j
  simp only [clutterCov, centredDiff, Matrix.of_apply, Fin.sum_univ_four]
  fin_cases i <;> fin_cases j <;> (simp [exB]; try norm_num)

/-- An eigensolver listing the eigenvalues in increasing order, as `np.linalg.eig` does for this matrix. -/
theorem exB_ortho : OrthoEig (clutterCov (0 : Matrix (Fin 4) (Fin 2) ℝ) exB) ![2, 8] 1 := by
  rw [exB_cov]
  exact ⟨by simp, by simp⟩

theorem exB_singular : IsSingular (clutterCov (0 : Matrix (Fin 4) (Fin 2) ℝ) exB) ![8, 2] := by
  rw [exB_cov]
  refine ⟨!![0, 1; 1, 0], !![0, 1; 1, 0], ?_, ?_, ?_, ?_, ?_⟩
  · ext i j
    rw [Matrix.mul_apply, Fin.sum_univ_two, Matrix.mul_diagonal, Matrix.mul_diagonal]
    fin_cases i <;> fin_cases j <;> simp
  · ext i j; fin_cases i <;> fin_cases j <;> simp [Matrix.mul_apply, Fin.sum_univ_two]
  · ext i j; fin_cases i <;> fin_cases j <;> simp [Matrix.mul_apply, Fin.sum_univ_two]
  · intro i; fin_cases i <;> simp
  · intro i j hij
    fin_cases i <;> fin_cases j <;> simp at hij ⊢
    norm_num

/-- A configuration for which the hypotheses of `C64_pairing_violation` hold. -/
example : ∃ cfg : GlswCfg ℝ, 0 < cfg.alpha ∧ Solved cfg (clutterCov (0 : Matrix (Fin 4) (Fin 2) ℝ) exB) ![2, 8] 1 ![8, 2] ∧
    ¬ Antitone (![2, 8] : Fin 2 → ℝ) := by
  refine ⟨⟨1, 5, fun _ => .ok (of (Matrix.of fun i (_ : Fin 1) => (![2, 8] : Fin 2 → ℝ) i), of (1 : Matrix (Fin 2) (Fin 2) ℝ)),
    fun _ => .ok (of (1 : Matrix (Fin 2) (Fin 2) ℝ), of (Matrix.of fun (_ : Fin 1) i => (![8, 2] : Fin 2 → ℝ) i), of (1 : Matrix (Fin 2) (Fin 2) ℝ)),
    fun a b => decide (a ≤ b), fun _ => .error .linAlgError, fun x => x⟩, one_pos, ⟨rfl, ⟨_, _, rfl⟩, exB_singular⟩, fun h => ?_⟩
  have := h (show (0 : Fin 2) ≤ 1 by decide)
  simp at this
  norm_num at this

/-- The same data with the eigenvalues in decreasing order meets the hypotheses of the other theorems. -/
theorem exB_ortho' : OrthoEig (clutterCov (0 : Matrix (Fin 4) (Fin 2) ℝ) exB) ![8, 2] !![0, 1; 1, 0] := by
  rw [exB_cov]
  constructor
  · ext i j; fin_cases i <;> fin_cases j <;> simp [Matrix.mul_apply, Fin.sum_univ_two]
  · ext i j; fin_cases i <;> fin_cases j <;> simp [Matrix.mul_apply, Fin.sum_univ_two]

/-! ## C65 -/

/-- What `np.linalg.eig` returns for `C`, and the order used for sorting. -/
structure EpoSolved (cfg : GlswCfg ℝ) (C : Matrix (Fin p) (Fin p) ℝ) (ev : Fin p → ℝ) (V : Matrix (Fin p) (Fin p) ℝ) : Prop where
  eig : cfg.eig (of C) = .ok (of (Matrix.of fun i (_ : Fin 1) => ev i), of V)
  ortho : OrthoEig C ev V
  le : cfg.le = fun a b => decide (a ≤ b)

theorem epoFit_of (cfg : GlswCfg ℝ) (hp : p ≠ 0) (N : Nat) (hN : cfg.N = N) (hle : N ≤ p) (A B : Matrix (Fin n) (Fin p) ℝ) {ev : Fin p → ℝ}
    {V : Matrix (Fin p) (Fin p) ℝ} (h : EpoSolved cfg (clutterCov A B) ev V) :
    ∃ (d : Fin p → ℝ) (W : Matrix (Fin p) (Fin p) ℝ), OrthoEig (clutterCov A B) d W ∧ Antitone d ∧
      epoFit cfg (of A) (of B) = .ok (.ready (of ((W.submatrix id (Fin.castLE hle)) * (W.submatrix id (Fin.castLE hle))ᵀ))) := by
  obtain ⟨σ, hσ, h1, h2, h3, h4⟩ := sorted_ortho hp h.ortho false
  refine ⟨_, _, h4, h3, ?_⟩
  have := epoDo_of cfg N hN glswCov (of A) (of B) (clutterCov A B) (V.submatrix id σ) _ _
    (by rw [glswCov_of, clutterCov_eq]) h.eig (by rw [h.le]; exact h1) hle
  unfold epoFit glswInit
  have hc : glswCheck (of A) (of B) = none := by
    unfold glswCheck sameShapeAs
    exact if_pos (by simp)
  rw [hc]
  simp only []
  rw [this]
  rfl

theorem lead_col {W : Matrix (Fin p) (Fin p) ℝ} (hW : Wᵀ * W = 1) (N : Nat) (hle : N ≤ p) (j : Fin p) :
    ((W.submatrix id (Fin.castLE hle)) * (W.submatrix id (Fin.castLE hle))ᵀ) *ᵥ W.col j = if j.1 < N then W.col j else 0 := by
  have h1 : (W.submatrix id (Fin.castLE hle))ᵀ *ᵥ W.col j = fun c => if (Fin.castLE hle c) = j then 1 else 0 := by
    ext c
    have := congrFun (congrFun hW (Fin.castLE hle c)) j
    rw [Matrix.one_apply] at this
    exact this
  rw [← Matrix.mulVec_mulVec, h1]
  ext i
  show ∑ c, W i (Fin.castLE hle c) * (if Fin.castLE hle c = j then 1 else 0) = _
  by_cases hj : j.1 < N
  · rw [if_pos hj, Finset.sum_eq_single (⟨j.1, hj⟩ : Fin N)]
    · have e : Fin.castLE hle ⟨j.1, hj⟩ = j := Fin.ext rfl
      simp only [e, if_true, mul_one]
      rfl
    · intro c _ hc
      rw [if_neg, mul_zero]
      intro e
      have e' : c.1 = j.1 := congrArg Fin.val e
      exact hc (Fin.ext e')
    · intro h
      exact absurd (Finset.mem_univ _) h
  · rw [if_neg hj]
    refine Finset.sum_eq_zero fun c _ => ?_
    rw [if_neg, mul_zero]
    intro e
    have := congrArg Fin.val e
    simp at this
    omega

/-- For `N` up to the number of columns, `I - G` is a symmetric idempotent matrix that annihilates the `N` dominant clutter
directions and keeps the others. -/
theorem C65_projection_partial (cfg : GlswCfg ℝ) (hp : p ≠ 0) (N : Nat) (hN : cfg.N = N) (hle : N ≤ p) (A B : Matrix (Fin n) (Fin p) ℝ)
    (ev : Fin p → ℝ) (V : Matrix (Fin p) (Fin p) ℝ) (h : EpoSolved cfg (clutterCov A B) ev V) :
    ∃ (G W : Matrix (Fin p) (Fin p) ℝ) (d : Fin p → ℝ), epoFit cfg (of A) (of B) = .ok (.ready (of G)) ∧
      OrthoEig (clutterCov A B) d W ∧ Antitone d ∧ (1 - G)ᵀ = 1 - G ∧ (1 - G) * (1 - G) = 1 - G ∧
      ∀ j, (j.1 < N → (1 - G) *ᵥ W.col j = 0) ∧ (N ≤ j.1 → (1 - G) *ᵥ W.col j = W.col j) := by
  obtain ⟨d, W, h1, h2, h3⟩ := epoFit_of cfg hp N hN hle A B h
  have hid : (W.submatrix id (Fin.castLE hle))ᵀ * W.submatrix id (Fin.castLE hle) = 1 := by
    ext a b
    have := congrFun (congrFun h1.ortho (Fin.castLE hle a)) (Fin.castLE hle b)
    rw [Matrix.one_apply] at this ⊢
    rw [Matrix.mul_apply] at this ⊢
    refine this.trans ?_
    by_cases hab : a = b
    · rw [if_pos hab, if_pos (by rw [hab])]
    · rw [if_neg hab, if_neg fun e => hab (Fin.castLE_injective hle e)]
  set F := W.submatrix id (Fin.castLE hle) with hF
  have hGG : F * Fᵀ * (F * Fᵀ) = F * Fᵀ := by
    rw [Matrix.mul_assoc, ← Matrix.mul_assoc Fᵀ, hid, Matrix.one_mul]
  refine ⟨F * Fᵀ, W, d, h3, h1, h2, ?_, ?_, fun j => ⟨fun hj => ?_, fun hj => ?_⟩⟩
  · rw [Matrix.transpose_sub, Matrix.transpose_one, Matrix.transpose_mul, Matrix.transpose_transpose]
  · rw [Matrix.sub_mul, Matrix.mul_sub, Matrix.mul_sub, hGG, Matrix.one_mul, Matrix.one_mul, Matrix.mul_one, sub_self, sub_zero]
  · rw [Matrix.sub_mulVec, Matrix.one_mulVec, hF, lead_col h1.ortho N hle, if_pos hj, sub_self]
  · rw [Matrix.sub_mulVec, Matrix.one_mulVec, hF, lead_col h1.ortho N hle, if_neg (by omega), sub_zero]

/-- But the filter applies `G` itself: data lying in the dominant clutter directions passes unchanged, and data orthogonal
to them is removed. -/
theorem C65_keeps_clutter_violation (cfg : GlswCfg ℝ) (hp : p ≠ 0) (N : Nat) (hN : cfg.N = N) (hle : N ≤ p) (A B : Matrix (Fin n) (Fin p) ℝ)
    (ev : Fin p → ℝ) (V : Matrix (Fin p) (Fin p) ℝ) (h : EpoSolved cfg (clutterCov A B) ev V) :
    ∃ (G W : Matrix (Fin p) (Fin p) ℝ) (d : Fin p → ℝ), epoFit cfg (of A) (of B) = .ok (.ready (of G)) ∧
      OrthoEig (clutterCov A B) d W ∧ Antitone d ∧
      ∀ j, (j.1 < N → glswTransform (some (of G)) (of (Matrix.of fun (_ : Fin 1) k => W k j)) = .ok (of (Matrix.of fun (_ : Fin 1) k => W k j))) ∧
        (N ≤ j.1 → glswTransform (some (of G)) (of (Matrix.of fun (_ : Fin 1) k => W k j)) = .ok (of (0 : Matrix (Fin 1) (Fin p) ℝ))) := by
  obtain ⟨d, W, h1, h2, h3⟩ := epoFit_of cfg hp N hN hle A B h
  set F := W.submatrix id (Fin.castLE hle) with hF
  refine ⟨F * Fᵀ, W, d, h3, h1, h2, fun j => ?_⟩
  have key : glswTransform (some (of (F * Fᵀ))) (of (Matrix.of fun (_ : Fin 1) k => W k j)) =
      .ok (of (Matrix.of fun (_ : Fin 1) k => if j.1 < N then W k j else 0)) := by
    show (of (Matrix.of fun (_ : Fin 1) k => W k j)).mul (of (F * Fᵀ)) = _
    rw [mul_of, ok_inj]
    refine mk_congr fun i k => ?_
    have := congrFun (lead_col h1.ortho N hle j) k
    rw [← hF] at this
    rw [Matrix.of_apply]
    have e : (Matrix.of fun (_ : Fin 1) k => W k j) * (F * Fᵀ) = Matrix.of fun (_ : Fin 1) k => ((F * Fᵀ) *ᵥ W.col j) k := by
      ext a b
      rw [Matrix.mul_apply]
      show ∑ c, W c j * (F * Fᵀ) c b = ∑ c, (F * Fᵀ) b c * W c j
      refine Finset.sum_congr rfl fun c _ => ?_
      have hs : (F * Fᵀ)ᵀ = F * Fᵀ := by rw [Matrix.transpose_mul, Matrix.transpose_transpose]
      have := congrFun (congrFun hs c) b
      rw [Matrix.transpose_apply] at this
      rw [← this, mul_comm]
    rw [e, Matrix.of_apply, this]
    split <;> rfl
  refine ⟨fun hj => ?_, fun hj => ?_⟩
  · rw [key]
    simp only [if_pos hj]
  · rw [key]
    simp only [if_neg (show ¬ j.1 < N by omega)]
    rfl

/-- With more directions than columns (the default is five) training raises a `ValueError`. -/
theorem C65_N_violation (cfg : GlswCfg ℝ) (hp : p ≠ 0) (N : Nat) (hN : cfg.N = N) (hgt : p < N) (A B : Matrix (Fin n) (Fin p) ℝ)
    (ev : Fin p → ℝ) (V : Matrix (Fin p) (Fin p) ℝ) (h : EpoSolved cfg (clutterCov A B) ev V) :
    epoFit cfg (of A) (of B) = .error .valueError := by
  obtain ⟨σ, hσ, h1, h2, h3, h4⟩ := sorted_ortho hp h.ortho false
  have := epoDo_big cfg N hN glswCov (of A) (of B) (clutterCov A B) (V.submatrix id σ) _ _
    (by rw [glswCov_of, clutterCov_eq]) h.eig (by rw [h.le]; exact h1) hgt
  unfold epoFit glswInit
  have hc : glswCheck (of A) (of B) = none := by
    unfold glswCheck sameShapeAs
    exact if_pos (by simp)
  rw [hc]
  simp only []
  rw [this]
  rfl

/-- Configurations meeting the hypotheses: one direction, and the default of five. -/
example (N : Int) : ∃ cfg : GlswCfg ℝ, cfg.N = N ∧ EpoSolved cfg (clutterCov (0 : Matrix (Fin 4) (Fin 2) ℝ) exB) ![2, 8] 1 :=
  ⟨⟨1, N, fun _ => .ok (of (Matrix.of fun i (_ : Fin 1) => (![2, 8] : Fin 2 → ℝ) i), of (1 : Matrix (Fin 2) (Fin 2) ℝ)),
    fun _ => .error .linAlgError, fun a b => decide (a ≤ b), fun _ => .error .linAlgError, fun x => x⟩, rfl, rfl, exB_ortho, rfl⟩

end Verif.Props
