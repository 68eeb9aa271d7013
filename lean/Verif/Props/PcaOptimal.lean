import Verif.Props.PcaProps
import Verif.Props.EigLemmas

/-!
# C119: principal components are uncorrelated and retain the most variance
-/

namespace Verif.Props
open Verif Verif.Mat Verif.Transf
open scoped Matrix

variable {n p q K : Nat}

/-- Rows of a matrix with orthonormal columns have length at most one. -/
theorem row_le_one (M : Matrix (Fin p) (Fin K) ℝ) (h : Mᵀ * M = 1) (i : Fin p) : ∑ c, M i c ^ 2 ≤ 1 := by
  have hP : (M * Mᵀ) * (M * Mᵀ) = M * Mᵀ := by
    rw [Matrix.mul_assoc, ← Matrix.mul_assoc Mᵀ, h, Matrix.one_mul]
  have hd : (M * Mᵀ) i i = ∑ c, M i c ^ 2 := by
    rw [Matrix.mul_apply]
    exact Finset.sum_congr rfl fun c _ => (pow_two _).symm
  have hs : ∀ j, (M * Mᵀ) j i = (M * Mᵀ) i j := fun j => by
    rw [Matrix.mul_apply, Matrix.mul_apply]
    exact Finset.sum_congr rfl fun c _ => mul_comm _ _
  have h1 := congrFun (congrFun hP i) i
  rw [Matrix.mul_apply] at h1
  have h2 : (M * Mᵀ) i i * (M * Mᵀ) i i ≤ (M * Mᵀ) i i := by
    conv_rhs => rw [← h1]
    refine (Finset.single_le_sum (f := fun j => (M * Mᵀ) i j * (M * Mᵀ) j i) (fun j _ => ?_) (Finset.mem_univ i))
    rw [hs]
    exact mul_self_nonneg _
  rw [hd] at h2
  have h0 : 0 ≤ ∑ c, M i c ^ 2 := Finset.sum_nonneg fun c _ => sq_nonneg _
  by_contra hlt
  nlinarith

/-- Sum of squared entries. -/
theorem total_mul (M : Matrix (Fin p) (Fin K) ℝ) (h : Mᵀ * M = 1) : ∑ i, ∑ c, M i c ^ 2 = K := by
  rw [Finset.sum_comm]
  have : ∀ c, ∑ i, M i c ^ 2 = 1 := by
    intro c
    have := congrFun (congrFun h c) c
    rw [Matrix.one_apply_eq, Matrix.mul_apply] at this
    rw [← this]
    exact Finset.sum_congr rfl fun i _ => pow_two _
  simp [this]

/-- The `K` leading values of `ev` in the order `comp`. -/
theorem weighted_le {ev : Fin p → ℝ} {comp : Fin p → Fin p} (hb : Function.Bijective comp) (ha : Antitone (ev ∘ comp)) (hK : K ≤ p)
    (w : Fin p → ℝ) (h0 : ∀ i, 0 ≤ w i) (h1 : ∀ i, w i ≤ 1) (hs : ∑ i, w i = K) :
    ∑ i, ev i * w i ≤ ∑ c : Fin K, ev (comp ⟨c.1, lt_of_lt_of_le c.2 hK⟩) := by
  by_cases hK0 : K = 0
  · subst hK0
    have hw : ∀ i, w i = 0 := fun i => (Finset.sum_eq_zero_iff_of_nonneg fun i _ => h0 i).1 (by rw [hs]; simp) i (Finset.mem_univ i)
    simp [hw]
  let lam : ℝ := ev (comp ⟨K - 1, by omega⟩)
  have hre : ∑ i, ev i * w i = ∑ c, ev (comp c) * w (comp c) := (Function.Bijective.sum_comp hb fun i => ev i * w i).symm
  have hre1 : ∑ c, w (comp c) = K := by rw [← hs]; exact Function.Bijective.sum_comp hb w
  have hre2 : ∑ c : Fin K, ev (comp ⟨c.1, lt_of_lt_of_le c.2 hK⟩) = ∑ c : Fin p, if c.1 < K then ev (comp c) else 0 := by
    rw [← Finset.sum_filter]
    refine Finset.sum_bij' (fun c _ => ⟨c.1, lt_of_lt_of_le c.2 hK⟩) (fun c hc => ⟨c.1, (Finset.mem_filter.1 hc).2⟩) ?_ ?_ ?_ ?_ ?_
    · intro c _; exact Finset.mem_filter.2 ⟨Finset.mem_univ _, c.2⟩
    all_goals intros; first | exact Finset.mem_univ _ | rfl
  have hre3 : (K : ℝ) = ∑ c : Fin p, if c.1 < K then (1 : ℝ) else 0 := by
    have : ∑ c : Fin p, (if c.1 < K then (1 : ℝ) else 0) = ∑ c : Fin K, (1 : ℝ) := by
      rw [← Finset.sum_filter]
      refine Finset.sum_bij' (fun c hc => ⟨c.1, (Finset.mem_filter.1 hc).2⟩) (fun c _ => ⟨c.1, lt_of_lt_of_le c.2 hK⟩) ?_ ?_ ?_ ?_ ?_
      · intro c _; exact Finset.mem_univ _
      · intro c _; exact Finset.mem_filter.2 ⟨Finset.mem_univ _, c.2⟩
      all_goals intros; rfl
    rw [this]
    simp
  have key : ∀ c : Fin p, (ev (comp c) - lam) * w (comp c) ≤ (ev (comp c) - lam) * if c.1 < K then (1 : ℝ) else 0 := by
    intro c
    by_cases hc : c.1 < K
    · rw [if_pos hc]
      have : lam ≤ ev (comp c) := ha (show c ≤ ⟨K - 1, by omega⟩ from Fin.le_def.2 (by simp; omega))
      exact mul_le_mul_of_nonneg_left (h1 _) (by linarith)
    · rw [if_neg hc, mul_zero]
      have : ev (comp c) ≤ lam := ha (show (⟨K - 1, by omega⟩ : Fin p) ≤ c from Fin.le_def.2 (by simp; omega))
      exact mul_nonpos_of_nonpos_of_nonneg (by linarith) (h0 _)
  have hsum := Finset.sum_le_sum fun c (_ : c ∈ Finset.univ) => key c
  simp only [sub_mul, Finset.sum_sub_distrib, ← Finset.mul_sum] at hsum
  rw [hre1, ← hre3] at hsum
  rw [hre, hre2]
  have e : ∑ c : Fin p, ev (comp c) * (if c.1 < K then (1 : ℝ) else 0) = ∑ c : Fin p, if c.1 < K then ev (comp c) else 0 :=
    Finset.sum_congr rfl fun c _ => by split <;> simp
  rw [e] at hsum
  linarith

/-- Sum of squares of projected data in terms of the eigenvalues. -/
theorem proj_total {T : Matrix (Fin n) (Fin p) ℝ} {ev : Fin p → ℝ} {V : Matrix (Fin p) (Fin p) ℝ} (h : OrthoEig (Tᵀ * T) ev V)
    (Q : Matrix (Fin p) (Fin K) ℝ) : ∑ i, ∑ c, (T * Q) i c ^ 2 = ∑ i, ev i * ∑ c, (Vᵀ * Q) i c ^ 2 := by
  have h1 : ∑ i, ∑ c, (T * Q) i c ^ 2 = ((T * Q)ᵀ * (T * Q)).trace := by
    rw [Finset.sum_comm]
    refine Finset.sum_congr rfl fun c _ => ?_
    rw [Matrix.diag_apply, Matrix.mul_apply]
    exact Finset.sum_congr rfl fun i _ => pow_two _
  have h2 : (T * Q)ᵀ * (T * Q) = (Vᵀ * Q)ᵀ * (Matrix.diagonal ev * (Vᵀ * Q)) := by
    rw [Matrix.transpose_mul, Matrix.transpose_mul, Matrix.transpose_transpose, Matrix.mul_assoc, ← Matrix.mul_assoc Tᵀ, h.eq]
    simp only [Matrix.mul_assoc]
  rw [h1, h2, Matrix.trace_mul_comm]
  refine Finset.sum_congr rfl fun i _ => ?_
  rw [Matrix.diag_apply, Matrix.mul_apply, Finset.mul_sum]
  refine Finset.sum_congr rfl fun c _ => ?_
  rw [Matrix.diagonal_mul, Matrix.transpose_apply]
  ring

/-- What a projection loses. -/
theorem proj_residual (T : Matrix (Fin n) (Fin p) ℝ) (Q : Matrix (Fin p) (Fin K) ℝ) (h : Qᵀ * Q = 1) :
    ∑ i, ∑ j, (T i j - (T * Q * Qᵀ) i j) ^ 2 = ∑ i, ∑ j, T i j ^ 2 - ∑ i, ∑ c, (T * Q) i c ^ 2 := by
  rw [← Finset.sum_sub_distrib]
  refine Finset.sum_congr rfl fun i _ => ?_
  have e1 : ∑ j, T i j * (T * Q * Qᵀ) i j = ∑ c, (T * Q) i c ^ 2 := by
    have : ∀ j, T i j * (T * Q * Qᵀ) i j = ∑ c, (T * Q) i c * (T i j * Q j c) := by
      intro j
      rw [Matrix.mul_apply, Finset.mul_sum]
      refine Finset.sum_congr rfl fun c _ => ?_
      rw [Matrix.transpose_apply]
      ring
    rw [Finset.sum_congr rfl fun j _ => this j, Finset.sum_comm]
    refine Finset.sum_congr rfl fun c _ => ?_
    rw [← Finset.mul_sum, pow_two]
    congr 1
  have e2 : ∑ j, (T * Q * Qᵀ) i j ^ 2 = ∑ c, (T * Q) i c ^ 2 := by
    have h1 : ((T * Q * Qᵀ) * (T * Q * Qᵀ)ᵀ) i i = ((T * Q) * (T * Q)ᵀ) i i := by
      rw [Matrix.transpose_mul (T * Q), Matrix.transpose_transpose, Matrix.mul_assoc (T * Q), ← Matrix.mul_assoc Qᵀ, h, Matrix.one_mul]
    rw [Matrix.mul_apply, Matrix.mul_apply] at h1
    simp only [Matrix.transpose_apply, ← pow_two] at h1
    exact h1
  have : ∀ j, (T i j - (T * Q * Qᵀ) i j) ^ 2 = T i j ^ 2 - 2 * (T i j * (T * Q * Qᵀ) i j) + (T * Q * Qᵀ) i j ^ 2 := fun j => by ring
  rw [Finset.sum_congr rfl fun j _ => this j, Finset.sum_add_distrib, Finset.sum_sub_distrib, ← Finset.mul_sum, e1, e2]
  ring

/-- The columns of `V` belonging to the leading components. -/
def lead (V : Matrix (Fin p) (Fin p) ℝ) (comp : Fin p → Fin p) (hK : K ≤ p) : Matrix (Fin p) (Fin K) ℝ :=
  Matrix.of fun j c => V j (comp ⟨c.1, lt_of_lt_of_le c.2 hK⟩)

theorem lead_mul (T : Matrix (Fin n) (Fin p) ℝ) (V : Matrix (Fin p) (Fin p) ℝ) (comp : Fin p → Fin p) (hK : K ≤ p) (i : Fin n) (c : Fin K) :
    (T * lead V comp hK) i c = (T * V) i (comp ⟨c.1, lt_of_lt_of_le c.2 hK⟩) := by
  rw [Matrix.mul_apply, Matrix.mul_apply]
  rfl

theorem lead_gram (A V : Matrix (Fin p) (Fin p) ℝ) (comp : Fin p → Fin p) (hK : K ≤ p) (c c' : Fin K) :
    ((lead V comp hK)ᵀ * (A * lead V comp hK)) c c' =
      (Vᵀ * (A * V)) (comp ⟨c.1, lt_of_lt_of_le c.2 hK⟩) (comp ⟨c'.1, lt_of_lt_of_le c'.2 hK⟩) := by
  rw [Matrix.mul_apply, Matrix.mul_apply]
  refine Finset.sum_congr rfl fun j _ => ?_
  rw [lead_mul]
  rfl

/-- **C119.** The scores PCA returns have mean zero. If the eigenvectors are orthonormal, which they are whenever the eigenvalues are
different, the scores of different components are uncorrelated and the variance of each is its eigenvalue; no other `K` orthonormal
directions give scores with a larger total variance, and no other projection onto `K` directions reconstructs the prepared data with a
smaller squared error than scores times loadings. -/
theorem C119_optimal (cfg : PcaCfg ℝ) (hcfg : PcaReal cfg) (X : Matrix (Fin n) (Fin q) ℝ) (h : ∃ j i i', X i j ≠ X i' j) :
    ∃ (p : Nat) (κ : Fin p → Fin q) (ev : Fin p → ℝ) (V : Matrix (Fin p) (Fin p) ℝ) (comp : Fin p → Fin p) (K : Nat) (hK : K ≤ p)
      (st : PcaState ℝ) (S : Matrix (Fin n) (Fin K) ℝ) (L : Mat ℝ), pcaTransform cfg (of X) = .ok (st, of S, L) ∧
      PcaFit cfg X κ ev V comp K ∧ IsScores (prepared cfg.centered X κ X) V comp hK S ∧ (∀ c, ∑ i, S i c = 0) ∧
      (Function.Injective ev ∨ Vᵀ * V = 1 →
        (∀ c c', (∑ i, S i c * S i c') / ((n : ℝ) - 1) = if c = c' then ev (comp ⟨c.1, lt_of_lt_of_le c.2 hK⟩) else 0) ∧
        ∀ Q : Matrix (Fin p) (Fin K) ℝ, Qᵀ * Q = 1 →
          ∑ i, ∑ c, (prepared cfg.centered X κ X * Q) i c ^ 2 ≤ ∑ i, ∑ c, S i c ^ 2 ∧
          ∑ i, ∑ j, (prepared cfg.centered X κ X i j - ∑ c : Fin K, S i c * V j (comp ⟨c.1, lt_of_lt_of_le c.2 hK⟩)) ^ 2 ≤
            ∑ i, ∑ j, (prepared cfg.centered X κ X i j - (prepared cfg.centered X κ X * Q * Qᵀ) i j) ^ 2) := by
  obtain ⟨p, κ, ev, V, comp, K, hK, st, S, L, h1, h2, h3⟩ := C62_components_partial cfg hcfg X h
  have hn : 2 ≤ n := by
    obtain ⟨j, i, i', hi⟩ := h
    exact two_le_of_nonConst ⟨i, i', hi⟩
  have hn1 : (0 : ℝ) < (n : ℝ) - 1 := by
    have : (2 : ℝ) ≤ n := by exact_mod_cast hn
    linarith
  refine ⟨p, κ, ev, V, comp, K, hK, st, S, L, h1, h2, h3, fun c => ?_, fun ho => ?_⟩
  · have hz : ∀ j, ∑ i, prepared cfg.centered X κ X i j = 0 := by
      intro j
      unfold prepared
      simp only [Matrix.of_apply]
      rw [← Finset.sum_div, sum_sub_mu (by omega) fun i => X i (κ j), zero_div]
    simp only [h3 _ c, Matrix.mul_apply]
    rw [Finset.sum_comm]
    simp only [← Finset.sum_mul, hz, zero_mul, Finset.sum_const_zero]
  · generalize hT : prepared cfg.centered X κ X = T at *
    have hV : Vᵀ * V = 1 := by
      rcases ho with hi | hv
      · have := h2.eigen
        rw [hT] at this
        exact (this.orthoEig (cov_symm T) hi).ortho
      · exact hv
    have he : OrthoEig (Tᵀ * T) (fun i => ((n : ℝ) - 1) * ev i) V := by
      refine ⟨?_, hV⟩
      have h4 := h2.eigen.eigen
      rw [hT, cov, Matrix.smul_mul] at h4
      have h5 : Tᵀ * T * V = ((n : ℝ) - 1) • ((1 / ((n : ℝ) - 1)) • (Tᵀ * T * V)) := by
        rw [smul_smul, mul_one_div_cancel hn1.ne', one_smul]
      rw [h5, h4, ← Matrix.mul_smul]
      congr 1
      ext a b
      rw [Matrix.smul_apply, Matrix.diagonal_apply, Matrix.diagonal_apply]
      split <;> simp
    have hS : S = T * lead V comp hK := by
      ext i c
      rw [lead_mul]
      exact h3 i c
    have hL : (lead V comp hK)ᵀ * lead V comp hK = 1 := by
      ext c c'
      have := lead_gram (1 : Matrix (Fin p) (Fin p) ℝ) V comp hK c c'
      rw [Matrix.one_mul, Matrix.one_mul, hV] at this
      rw [this, Matrix.one_apply, Matrix.one_apply]
      refine if_congr ?_ rfl rfl
      rw [h2.order.1.1.eq_iff, Fin.mk.injEq, Fin.ext_iff]
    have hG : ∀ c c', ∑ i, S i c * S i c' = if c = c' then ((n : ℝ) - 1) * ev (comp ⟨c.1, lt_of_lt_of_le c.2 hK⟩) else 0 := by
      intro c c'
      have e : ∑ i, S i c * S i c' = ((lead V comp hK)ᵀ * (Tᵀ * T * lead V comp hK)) c c' := by
        rw [hS, Matrix.mul_assoc Tᵀ, ← Matrix.mul_assoc, ← Matrix.transpose_mul, Matrix.mul_apply]
        rfl
      rw [e, lead_gram, he.eigen, ← Matrix.mul_assoc, hV, Matrix.one_mul, Matrix.diagonal_apply]
      refine if_congr ?_ rfl rfl
      rw [h2.order.1.1.eq_iff, Fin.mk.injEq, Fin.ext_iff]
    refine ⟨fun c c' => ?_, fun Q hQ => ?_⟩
    · rw [hG]
      split
      · rw [mul_div_cancel_left₀ _ hn1.ne']
      · exact zero_div _
    · have hM : (Vᵀ * Q)ᵀ * (Vᵀ * Q) = 1 := by
        rw [Matrix.transpose_mul, Matrix.transpose_transpose, Matrix.mul_assoc, ← Matrix.mul_assoc V, he.ortho', Matrix.one_mul, hQ]
      have hmax : ∑ i, ∑ c, (T * Q) i c ^ 2 ≤ ∑ i, ∑ c, S i c ^ 2 := by
        rw [proj_total he Q]
        have hle := weighted_le (ev := fun i => ((n : ℝ) - 1) * ev i) h2.order.1
          (fun a b hab => mul_le_mul_of_nonneg_left (h2.order.2 hab) hn1.le) hK (fun i => ∑ c, (Vᵀ * Q) i c ^ 2)
          (fun i => Finset.sum_nonneg fun c _ => sq_nonneg _) (row_le_one _ hM) (total_mul _ hM)
        refine hle.trans (le_of_eq ?_)
        rw [Finset.sum_comm]
        refine Finset.sum_congr rfl fun c _ => ?_
        have := hG c c
        rw [if_pos rfl] at this
        rw [← this]
        exact Finset.sum_congr rfl fun i _ => (pow_two _).symm
      refine ⟨hmax, ?_⟩
      have e : ∀ i j, ∑ c : Fin K, S i c * V j (comp ⟨c.1, lt_of_lt_of_le c.2 hK⟩) = (T * lead V comp hK * (lead V comp hK)ᵀ) i j := by
        intro i j
        rw [← hS, Matrix.mul_apply]
        rfl
      simp only [e]
      rw [proj_residual T Q hQ, proj_residual T _ hL, ← hS]
      linarith

/-! A concrete case: a configuration that keeps every component, and data with a constant column before another. -/

example : ∃ cfg : PcaCfg ℝ, PcaReal cfg ∧ cfg.centered = true ∧
    ∃ j i i', (!![5, 1; 5, 2; 5, 7] : Matrix (Fin 3) (Fin 2) ℝ) i j ≠ (!![5, 1; 5, 2; 5, 7] : Matrix (Fin 3) (Fin 2) ℝ) i' j := by
  classical
  obtain ⟨eig, he⟩ := eigRoutine_exists
  obtain ⟨srt, hs⟩ := argsortRoutine_exists
  exact ⟨⟨1, 10, true, fun x => decide (x = 0), fun a b => decide (a = b), fun a b => decide (a ≤ b), eig, srt⟩,
    ⟨fun x => decide_eq_true_iff, fun a b => decide_eq_true_iff, fun a b => decide_eq_true_iff, he, hs⟩, rfl, 1, 0, 1, by simp⟩

end Verif.Props
