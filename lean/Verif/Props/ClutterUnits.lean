import Verif.Props.GlswInvariance
import Verif.Props.YGradProps

/-!
# C161 — the clutter filters are functions of the clutter: eigenbasis, unit and coordinates
-/

namespace Verif.Props
open Verif Verif.Mat Verif.Transf
open scoped Matrix

variable {n p : Nat}

/-- A matrix with the eigenvectors of `C` does not depend on the choice of these vectors, as long as equal eigenvalues get equal weights. -/
theorem weighted_unique {C : Matrix (Fin p) (Fin p) ℝ} (hC : Cᵀ = C) {ev d : Fin p → ℝ} {V W : Matrix (Fin p) (Fin p) ℝ}
    (h : OrthoEig C ev V) (h' : OrthoEig C d W) (w w' : Fin p → ℝ) (hw : ∀ i j, ev i = d j → w i = w' j) :
    V * Matrix.diagonal w * Vᵀ = W * Matrix.diagonal w' * Wᵀ := by
  have h1 : Vᵀ * C = Matrix.diagonal ev * Vᵀ := by
    have := congrArg Matrix.transpose h.eigen
    rw [Matrix.transpose_mul, Matrix.transpose_mul, hC, Matrix.diagonal_transpose] at this
    exact this
  have h2 : Matrix.diagonal ev * (Vᵀ * W) = Vᵀ * W * Matrix.diagonal d := by
    rw [← Matrix.mul_assoc, ← h1, Matrix.mul_assoc, h'.eigen, ← Matrix.mul_assoc]
  have h3 : Matrix.diagonal w * (Vᵀ * W) = Vᵀ * W * Matrix.diagonal w' := by
    ext i j
    have := congrFun (congrFun h2 i) j
    rw [Matrix.diagonal_mul, Matrix.mul_diagonal] at this ⊢
    by_cases he : ev i = d j
    · rw [hw i j he, mul_comm]
    · have h0 : (Vᵀ * W) i j = 0 := by
        have : (ev i - d j) * (Vᵀ * W) i j = 0 := by linear_combination this
        exact (mul_eq_zero.1 this).resolve_left (sub_ne_zero.2 he)
      rw [h0, mul_zero, zero_mul]
  calc V * Matrix.diagonal w * Vᵀ = V * (Matrix.diagonal w * (Vᵀ * W)) * Wᵀ := by
        rw [Matrix.mul_assoc, Matrix.mul_assoc V, Matrix.mul_assoc (Matrix.diagonal w), Matrix.mul_assoc Vᵀ, h'.ortho', Matrix.mul_one]
    _ = V * Vᵀ * (W * Matrix.diagonal w' * Wᵀ) := by rw [h3]; simp only [Matrix.mul_assoc]
    _ = _ := by rw [h.ortho', Matrix.one_mul]

/-- An orthonormal eigenbasis after a rotation of the coordinates and a change of unit. -/
theorem OrthoEig.turn {C : Matrix (Fin p) (Fin p) ℝ} {ev : Fin p → ℝ} {V : Matrix (Fin p) (Fin p) ℝ} (h : OrthoEig C ev V)
    {Q : Matrix (Fin p) (Fin p) ℝ} (hQ : Qᵀ * Q = 1) (c : ℝ) : OrthoEig (c • (Qᵀ * C * Q)) (fun i => c * ev i) (Qᵀ * V) := by
  have hQ' : Q * Qᵀ = 1 := mul_eq_one_comm.1 hQ
  constructor
  · have e : Matrix.diagonal (fun i => c * ev i) = c • Matrix.diagonal ev := by
      ext i j
      simp only [Matrix.diagonal_apply, Matrix.smul_apply, smul_eq_mul]
      split_ifs <;> simp
    rw [e, Matrix.smul_mul, Matrix.mul_smul]
    congr 1
    calc Qᵀ * C * Q * (Qᵀ * V) = Qᵀ * C * (Q * Qᵀ) * V := by simp only [Matrix.mul_assoc]
      _ = _ := by rw [hQ', Matrix.mul_one, Matrix.mul_assoc, h.eigen, Matrix.mul_assoc]
  · rw [Matrix.transpose_mul, Matrix.transpose_transpose, Matrix.mul_assoc, ← Matrix.mul_assoc Q, hQ', Matrix.one_mul, h.ortho]

/-- The clutter of data in another unit and other coordinates. -/
theorem clutter_turn (A B : Matrix (Fin n) (Fin p) ℝ) (Q : Matrix (Fin p) (Fin p) ℝ) (c : ℝ) :
    clutterCov (c • (A * Q)) (c • (B * Q)) = c ^ 2 • (Qᵀ * clutterCov A B * Q) := by
  have e : clutter (c • (A * Q)) (c • (B * Q)) = c • (clutter A B * Q) := by
    have : ∀ (M : Matrix (Fin n) (Fin p) ℝ) (_ : Fin n) (j : Fin p), (∑ k, (c • (M * Q)) k j) / (n : ℝ) = c * ∑ l, (∑ k, M k l) / n * Q l j := by
      intro M i j
      simp only [Matrix.smul_apply, smul_eq_mul, Matrix.mul_apply]
      rw [← Finset.mul_sum, Finset.sum_comm, mul_div_assoc, Finset.sum_div]
      congr 1
      refine Finset.sum_congr rfl fun l _ => ?_
      rw [← Finset.sum_mul]
      ring
    ext i j
    have hd : ∀ (M N : Matrix (Fin n) (Fin p) ℝ) i j, clutter M N i j = centredDiff M N i j := fun _ _ _ _ => rfl
    rw [hd]
    simp only [centredDiff, Matrix.of_apply]
    rw [this A i j, this B i j]
    simp only [Matrix.smul_apply, smul_eq_mul, Matrix.mul_apply, hd, centredDiff, Matrix.of_apply, sub_mul, Finset.sum_sub_distrib]
    ring
  rw [← clutterCov_eq, ← clutterCov_eq, e, Matrix.transpose_smul, Matrix.smul_mul, Matrix.mul_smul, smul_smul, ← pow_two,
    Matrix.transpose_mul]
  simp only [Matrix.mul_assoc]

theorem wt_unit {alpha c : ℝ} (hc : c ≠ 0) (l : ℝ) : wt (c ^ 4 * alpha) (c ^ 2 * l) = wt alpha l := by
  unfold wt
  congr 3
  by_cases ha : alpha = 0
  · rw [ha, mul_zero, div_zero, div_zero]
  · field_simp

theorem turned_filter {Q V : Matrix (Fin p) (Fin p) ℝ} (w : Fin p → ℝ) :
    Qᵀ * V * Matrix.diagonal w * (Qᵀ * V)ᵀ = Qᵀ * (V * Matrix.diagonal w * Vᵀ) * Q := by
  rw [Matrix.transpose_mul, Matrix.transpose_transpose]
  simp only [Matrix.mul_assoc]

/-- Filtering data in the new unit and coordinates is filtering in the old ones. -/
theorem turned_apply {Q G : Matrix (Fin p) (Fin p) ℝ} (hQ : Q * Qᵀ = 1) (c : ℝ) {r : Nat} (X : Matrix (Fin r) (Fin p) ℝ) :
    c • (X * Q) * (Qᵀ * G * Q) = c • (X * G * Q) := by
  rw [Matrix.smul_mul]
  congr 1
  calc X * Q * (Qᵀ * G * Q) = X * (Q * Qᵀ) * G * Q := by simp only [Matrix.mul_assoc]
    _ = _ := by rw [hQ, Matrix.mul_one]

/-- **C161 (GLSW).** Let the eigensolver list the eigenvalues in descending order.  In another unit and other orthogonal coordinates, with
`alpha` converted by the fourth power of the factor, and with whatever other orthonormal eigenvectors another eigensolver returns, the
filter does the same to every sample. -/
theorem C161_glsw_partial (cfg cfg' : GlswCfg ℝ) (ha : 0 < cfg.alpha) (c : ℝ) (hc : c ≠ 0) (ha' : cfg'.alpha = c ^ 4 * cfg.alpha) (hp : p ≠ 0)
    (A B : Matrix (Fin n) (Fin p) ℝ) (Q : Matrix (Fin p) (Fin p) ℝ) (hQ : Qᵀ * Q = 1) (ev ev' : Fin p → ℝ)
    (V V' : Matrix (Fin p) (Fin p) ℝ) (s s' : Fin p → ℝ)
    (h : Solved cfg (clutterCov A B) ev V s) (ho : OrthoEig (clutterCov A B) ev V) (hd : Antitone ev)
    (h' : Solved cfg' (clutterCov (c • (A * Q)) (c • (B * Q))) ev' V' s') (ho' : OrthoEig (clutterCov (c • (A * Q)) (c • (B * Q))) ev' V')
    (hd' : Antitone ev') :
    ∃ G G' : Matrix (Fin p) (Fin p) ℝ, glswFit cfg (of A) (of B) = .ok (.ready (of G)) ∧
      glswFit cfg' (of (c • (A * Q))) (of (c • (B * Q))) = .ok (.ready (of G')) ∧ G' = Qᵀ * G * Q ∧
      ∀ (r : Nat) (X : Matrix (Fin r) (Fin p) ℝ), ∃ Z : Matrix (Fin r) (Fin p) ℝ, glswTransform (some (of G)) (of X) = .ok (of Z) ∧
        glswTransform (some (of G')) (of (c • (X * Q))) = .ok (of (c • (Z * Q))) := by
  have hs : s = ev := singular_eq ho (clutter_nonneg A B ho) h.singular id Function.bijective_id hd
  have hs' : s' = ev' := singular_eq ho' (clutter_nonneg _ _ ho') h'.singular id Function.bijective_id hd'
  subst hs hs'
  have hpos : 0 < cfg'.alpha := by rw [ha']; positivity
  have hG : V' * Matrix.diagonal (fun i => wt cfg'.alpha (s' i)) * V'ᵀ =
      Qᵀ * (V * Matrix.diagonal (fun i => wt cfg.alpha (s i)) * Vᵀ) * Q := by
    have ht := ho.turn hQ (c ^ 2)
    rw [← clutter_turn] at ht
    rw [← turned_filter]
    refine weighted_unique (clutterCov_symm _ _) ho' ht _ _ fun i j he => ?_
    rw [he, ha', wt_unit hc]
  refine ⟨_, _, glswFit_of cfg ha hp A B h, glswFit_of cfg' hpos hp _ _ h', hG, fun r X => ⟨_, mul_of X _, ?_⟩⟩
  rw [hG]
  refine (mul_of _ _).trans ?_
  rw [turned_apply (mul_eq_one_comm.1 hQ)]

/-- **C161 (GLSW, violated).** If the eigensolver lists the same eigenvalues and eigenvectors in an order that is not descending, as
`np.linalg.eig` may, the filter is another one. -/
theorem C161_solver_order_violation (cfg cfg' : GlswCfg ℝ) (ha : 0 < cfg.alpha) (ha' : cfg'.alpha = cfg.alpha) (hp : p ≠ 0)
    (A B : Matrix (Fin n) (Fin p) ℝ) (ev : Fin p → ℝ) (V : Matrix (Fin p) (Fin p) ℝ) (s s' : Fin p → ℝ) (σ : Fin p → Fin p)
    (hσ : Function.Bijective σ) (h : Solved cfg (clutterCov A B) ev V s) (ho : OrthoEig (clutterCov A B) ev V) (hd : Antitone ev)
    (h' : Solved cfg' (clutterCov A B) (ev ∘ σ) (V.submatrix id σ) s') (hd' : ¬ Antitone (ev ∘ σ)) :
    glswFit cfg' (of A) (of B) ≠ glswFit cfg (of A) (of B) := by
  have ho' : OrthoEig (clutterCov A B) (ev ∘ σ) (V.submatrix id σ) := by
    constructor
    · ext i j
      have := congrFun (ho.col (σ j)) i
      rw [Matrix.mul_diagonal, mul_comm]
      exact this
    · ext i j
      have := congrFun (congrFun ho.ortho (σ i)) (σ j)
      rw [Matrix.one_apply] at this ⊢
      refine Eq.trans this ?_
      by_cases hij : i = j
      · rw [if_pos hij, if_pos (by rw [hij])]
      · rw [if_neg hij, if_neg fun e => hij (hσ.1 e)]
  obtain ⟨G, hG, -, hc⟩ := C64_downweights_partial cfg ha hp A B ev V s h ho hd
  obtain ⟨G', j, hG', hj⟩ := C64_pairing_violation cfg' (ha' ▸ ha) hp A B _ _ s' h' ho' hd'
  intro he
  rw [hG, hG'] at he
  have : G' = G := by
    injection he with he
    injection he with he
    exact of_inj.1 he
  apply hj
  rw [this, ha']
  exact (hc (σ j)).1

/-- **C161 (limits).** With `alpha` left as it is, a change of unit changes the filter whenever there is any clutter. -/
theorem C161_alpha_limits (cfg cfg' : GlswCfg ℝ) (ha : 0 < cfg.alpha) (ha' : cfg'.alpha = cfg.alpha) (c : ℝ) (hc : c ^ 2 ≠ 1) (hp : p ≠ 0)
    (A B : Matrix (Fin n) (Fin p) ℝ) (hAB : clutterCov A B ≠ 0) (ev ev' : Fin p → ℝ) (V V' : Matrix (Fin p) (Fin p) ℝ) (s s' : Fin p → ℝ)
    (h : Solved cfg (clutterCov A B) ev V s) (ho : OrthoEig (clutterCov A B) ev V) (hd : Antitone ev)
    (h' : Solved cfg' (clutterCov (c • A) (c • B)) ev' V' s') (ho' : OrthoEig (clutterCov (c • A) (c • B)) ev' V') (hd' : Antitone ev') :
    glswFit cfg' (of (c • A)) (of (c • B)) ≠ glswFit cfg (of A) (of B) := by
  have hs : s = ev := singular_eq ho (clutter_nonneg A B ho) h.singular id Function.bijective_id hd
  have hs' : s' = ev' := singular_eq ho' (clutter_nonneg _ _ ho') h'.singular id Function.bijective_id hd'
  subst hs hs'
  have ht := ho.turn (Q := 1) (by simp) (c ^ 2)
  rw [← clutter_turn, Matrix.mul_one, Matrix.mul_one, Matrix.transpose_one, Matrix.one_mul] at ht
  rw [glswFit_of cfg ha hp A B h, glswFit_of cfg' (ha' ▸ ha) hp _ _ h',
    weighted_unique (clutterCov_symm _ _) ho' ht _ (fun i => wt cfg'.alpha (c ^ 2 * s i)) fun i j he => by rw [he]]
  intro he
  have e : V * Matrix.diagonal (fun i => wt cfg'.alpha (c ^ 2 * s i)) * Vᵀ = V * Matrix.diagonal (fun i => wt cfg.alpha (s i)) * Vᵀ := by
    injection he with he
    injection he with he
    exact of_inj.1 he
  have hz : s = 0 := by
    funext j
    have h1 := diag_col ho.ortho (fun i => wt cfg'.alpha (c ^ 2 * s i)) j
    rw [e, diag_col ho.ortho] at h1
    have h2 : wt cfg.alpha (s j) = wt cfg'.alpha (c ^ 2 * s j) := by
      have h3 : (wt cfg.alpha (s j) - wt cfg'.alpha (c ^ 2 * s j)) • V.col j = 0 := by rw [sub_smul, h1, sub_self]
      exact sub_eq_zero.1 ((smul_eq_zero.1 h3).resolve_right (ho.col_ne j))
    rw [ha'] at h2
    have hn := clutter_nonneg A B ho j
    have := wt_inj ha hn (by positivity) h2
    have h4 : (1 - c ^ 2) * s j = 0 := by linear_combination this
    exact (mul_eq_zero.1 h4).resolve_left (sub_ne_zero.2 (Ne.symm hc))
  apply hAB
  rw [ho.eq, hz]
  simp

/-- **C161 (EPO).** If the eigenvalues next to the cut are different, then in another unit and other orthogonal coordinates, and with whatever other
orthonormal eigenvectors in whatever order another eigensolver returns, the filter does the same to every sample. -/
theorem C161_epo (cfg cfg' : GlswCfg ℝ) (c : ℝ) (hc : c ≠ 0) (hp : p ≠ 0) (N : Nat) (hN : cfg.N = N) (hN' : cfg'.N = N) (hle : N ≤ p)
    (A B : Matrix (Fin n) (Fin p) ℝ) (Q : Matrix (Fin p) (Fin p) ℝ) (hQ : Qᵀ * Q = 1) (ev ev' : Fin p → ℝ)
    (V V' : Matrix (Fin p) (Fin p) ℝ) (h : EpoSolved cfg (clutterCov A B) ev V)
    (h' : EpoSolved cfg' (clutterCov (c • (A * Q)) (c • (B * Q))) ev' V')
    (d₀ : Fin p → ℝ) (W₀ : Matrix (Fin p) (Fin p) ℝ) (ho₀ : OrthoEig (clutterCov A B) d₀ W₀) (hd₀ : Antitone d₀)
    (hgap₀ : ∀ i j : Fin p, i.1 < N → N ≤ j.1 → d₀ i ≠ d₀ j) :
    ∃ G G' : Matrix (Fin p) (Fin p) ℝ, epoFit cfg (of A) (of B) = .ok (.ready (of G)) ∧
      epoFit cfg' (of (c • (A * Q))) (of (c • (B * Q))) = .ok (.ready (of G')) ∧ G' = Qᵀ * G * Q ∧
      ∀ (r : Nat) (X : Matrix (Fin r) (Fin p) ℝ), ∃ Z : Matrix (Fin r) (Fin p) ℝ, glswTransform (some (of G)) (of X) = .ok (of Z) ∧
        glswTransform (some (of G')) (of (c • (X * Q))) = .ok (of (c • (Z * Q))) := by
  obtain ⟨d, W, ho, hd, hf⟩ := epoFit_of cfg hp N hN hle A B h
  have hdd₀ : d₀ = d :=
    singular_eq ho (clutter_nonneg _ _ ho) (isSingular_of_ortho ho₀ (clutter_nonneg _ _ ho₀) hd₀) id Function.bijective_id hd
  have hgap : ∀ i j : Fin p, i.1 < N → N ≤ j.1 → d i ≠ d j := hdd₀ ▸ hgap₀
  obtain ⟨d', W', ho', hd', hf'⟩ := epoFit_of cfg' hp N hN' hle _ _ h'
  have hc2 : 0 < c ^ 2 := by positivity
  have ht := ho.turn hQ (c ^ 2)
  rw [← clutter_turn] at ht
  have hta : Antitone fun i => c ^ 2 * d i := fun i j hij => mul_le_mul_of_nonneg_left (hd hij) hc2.le
  have hdd : d' = fun i => c ^ 2 * d i :=
    singular_eq ht (clutter_nonneg _ _ ht) (isSingular_of_ortho ho' (clutter_nonneg _ _ ho') hd') id Function.bijective_id hta
  have lead : ∀ W : Matrix (Fin p) (Fin p) ℝ, W.submatrix id (Fin.castLE hle) * (W.submatrix id (Fin.castLE hle))ᵀ =
      W * Matrix.diagonal (fun i : Fin p => if i.1 < N then (1 : ℝ) else 0) * Wᵀ := by
    intro W
    ext i k
    rw [Matrix.mul_apply, Matrix.mul_apply]
    simp only [Matrix.mul_diagonal, Matrix.transpose_apply, Matrix.submatrix_apply, id, mul_ite, mul_one, mul_zero, ite_mul, zero_mul]
    rw [← Finset.sum_filter]
    refine Finset.sum_bij' (fun c _ => Fin.castLE hle c) (fun j hj => ⟨j.1, (Finset.mem_filter.1 hj).2⟩) ?_ ?_ ?_ ?_ ?_
    · intro a _
      exact Finset.mem_filter.2 ⟨Finset.mem_univ _, a.2⟩
    · intro a _
      exact Finset.mem_univ _
    · intro a _
      rfl
    · intro a _
      rfl
    · intro a _
      rfl
  rw [lead] at hf hf'
  have hG : W' * Matrix.diagonal (fun i : Fin p => if i.1 < N then (1 : ℝ) else 0) * W'ᵀ =
      Qᵀ * (W * Matrix.diagonal (fun i : Fin p => if i.1 < N then (1 : ℝ) else 0) * Wᵀ) * Q := by
    rw [← turned_filter]
    refine weighted_unique (clutterCov_symm _ _) ho' ht _ _ fun i j he => ?_
    rw [hdd] at he
    have he' : d i = d j := mul_left_cancel₀ hc2.ne' he
    by_cases hi : i.1 < N <;> by_cases hj : j.1 < N
    · rw [if_pos hi, if_pos hj]
    · exact absurd he' (hgap i j hi (by omega))
    · exact absurd he'.symm (hgap j i hj (by omega))
    · rw [if_neg hi, if_neg hj]
  refine ⟨_, _, hf, hf', hG, fun r X => ⟨_, mul_of X _, ?_⟩⟩
  rw [hG]
  refine (mul_of _ _).trans ?_
  rw [turned_apply (mul_eq_one_comm.1 hQ)]

/-- Solvers for which the hypotheses of `C161_glsw_partial` and `C161_epo` hold, for every unit and all orthogonal coordinates; the second lists
the eigenvectors with the other sign. -/
example (Q : Matrix (Fin 2) (Fin 2) ℝ) (hQ : Qᵀ * Q = 1) (c : ℝ) :
    ∃ (cfg cfg' : GlswCfg ℝ) (ev : Fin 2 → ℝ) (V V' : Matrix (Fin 2) (Fin 2) ℝ), 0 < cfg.alpha ∧ cfg'.alpha = c ^ 4 * cfg.alpha ∧
      cfg.N = (1 : Nat) ∧ cfg'.N = (1 : Nat) ∧
      Solved cfg (clutterCov (0 : Matrix (Fin 4) (Fin 2) ℝ) exB) ev V ev ∧ EpoSolved cfg (clutterCov (0 : Matrix (Fin 4) (Fin 2) ℝ) exB) ev V ∧
      Antitone ev ∧ (∀ i j : Fin 2, i.1 < 1 → 1 ≤ j.1 → ev i ≠ ev j) ∧
      Solved cfg' (clutterCov (c • ((0 : Matrix (Fin 4) (Fin 2) ℝ) * Q)) (c • (exB * Q))) (fun i => c ^ 2 * ev i) V' (fun i => c ^ 2 * ev i) ∧
      EpoSolved cfg' (clutterCov (c • ((0 : Matrix (Fin 4) (Fin 2) ℝ) * Q)) (c • (exB * Q))) (fun i => c ^ 2 * ev i) V' ∧
      V' = -(Qᵀ * V) := by
  have hd : Antitone (![8, 2] : Fin 2 → ℝ) := by
    intro i j hij
    fin_cases i <;> fin_cases j <;> simp at hij ⊢
    norm_num
  have ho := exB_ortho'
  have ht := ho.turn hQ (c ^ 2)
  rw [← clutter_turn] at ht
  have ht' : OrthoEig (clutterCov (c • ((0 : Matrix (Fin 4) (Fin 2) ℝ) * Q)) (c • (exB * Q))) (fun i => c ^ 2 * (![8, 2] : Fin 2 → ℝ) i)
      (-(Qᵀ * !![0, 1; 1, 0])) :=
    ⟨by rw [Matrix.mul_neg, ht.eigen, Matrix.neg_mul], by rw [Matrix.transpose_neg, Matrix.neg_mul, Matrix.mul_neg, neg_neg, ht.ortho]⟩
  have hta : Antitone fun i => c ^ 2 * (![8, 2] : Fin 2 → ℝ) i := fun i j hij => mul_le_mul_of_nonneg_left (hd hij) (sq_nonneg c)
  let mk : ℝ → (Fin 2 → ℝ) → Matrix (Fin 2) (Fin 2) ℝ → GlswCfg ℝ := fun al ev V =>
    ⟨al, 1, fun _ => .ok (of (Matrix.of fun i (_ : Fin 1) => ev i), of V),
      fun _ => .ok (of (1 : Matrix (Fin 2) (Fin 2) ℝ), of (Matrix.of fun (_ : Fin 1) i => ev i), of (1 : Matrix (Fin 2) (Fin 2) ℝ)),
      fun a b => decide (a ≤ b), fun _ => .error .linAlgError, fun x => x⟩
  refine ⟨mk 1 _ _, mk (c ^ 4 * 1) _ _, ![8, 2], !![0, 1; 1, 0], _, one_pos, rfl, rfl, rfl,
    ⟨rfl, ⟨_, _, rfl⟩, isSingular_of_ortho ho (clutter_nonneg _ _ ho) hd⟩, ⟨rfl, ho, rfl⟩, hd, fun i j hi hj => ?_,
    ⟨rfl, ⟨_, _, rfl⟩, isSingular_of_ortho ht' (clutter_nonneg _ _ ht') hta⟩, ⟨rfl, ht', rfl⟩, rfl⟩
  fin_cases i <;> fin_cases j <;> simp at hi hj ⊢

/-! ## The Y-gradient filters -/

theorem slope_affine (a b : ℝ) (f : Fin n → ℝ) (i : Fin n) : slope (fun k => a * f k + b) i = a * slope f i := by
  unfold slope
  ring

theorem sampleSd_scale {a : ℝ} (ha : 0 ≤ a) (v : Fin n → ℝ) : sampleSd (fun i => a * v i) = a * sampleSd v := by
  unfold sampleSd
  have : ∀ i, (a * v i - (∑ k, a * v k) / n) ^ 2 = a ^ 2 * (v i - (∑ k, v k) / n) ^ 2 := fun i => by
    rw [← Finset.mul_sum]
    ring
  simp only [this]
  rw [← Finset.mul_sum, mul_div_assoc, Real.sqrt_mul (sq_nonneg a), Real.sqrt_sq ha]

theorem order_affine {a : ℝ} (ha : 0 < a) (b : ℝ) (y : Fin n → ℝ) :
    ygOrder leY (List.ofFn fun i => a * y i + b) = ygOrder leY (List.ofFn y) := by
  unfold ygOrder
  have h := List.map_mergeSort (r := fun (i j : Int) => leY ((List.ofFn fun i => a * y i + b).getD i.toNat 0) ((List.ofFn fun i => a * y i + b).getD j.toNat 0))
    (s := fun (i j : Int) => leY ((List.ofFn y).getD i.toNat 0) ((List.ofFn y).getD j.toNat 0)) (f := id)
    (l := pyRange 0 ((List.ofFn y).length : Int)) (fun i hi j hj => by
      have mem : ∀ k : Int, k ∈ pyRange 0 ((List.ofFn y).length : Int) → 0 ≤ k ∧ k < n := by
        intro k hk
        rw [List.length_ofFn, pyRange_zero] at hk
        simp only [List.mem_map, List.mem_range] at hk
        obtain ⟨l, hl, rfl⟩ := hk
        omega
      have hi' := mem i hi
      have hj' := mem j hj
      have e : ∀ k : Int, 0 ≤ k → k < n → ∃ l : Fin n, (List.ofFn fun i => a * y i + b).getD k.toNat 0 = a * y l + b ∧
          (List.ofFn y).getD k.toNat 0 = y l := fun k h0 h1 =>
        ⟨⟨k.toNat, by omega⟩, by simp [List.getD, (by omega : k.toNat < n)], by simp [List.getD, (by omega : k.toNat < n)]⟩
      obtain ⟨l, h1, h2⟩ := e i hi'.1 hi'.2
      obtain ⟨m, h3, h4⟩ := e j hj'.1 hj'.2
      simp only [id]
      rw [h1, h2, h3, h4]
      refine decide_eq_decide.2 ⟨fun h => ?_, fun h => ?_⟩
      · exact le_of_mul_le_mul_left (by linarith) ha
      · have := mul_le_mul_of_nonneg_left h ha.le
        linarith)
  simp only [List.map_id, List.length_ofFn] at h ⊢
  exact h

/-- **C161 (Y-gradient, response and offsets).** The covariance, and with it whatever the eigensolver makes of it, does not depend on the unit and
zero point of the response, nor on constants added to the predictors; another unit of the predictors multiplies it by the square. -/
theorem C161_ygrad (hn : n ≠ 0) (X : Matrix (Fin n) (Fin p) ℝ) (y : Fin n → ℝ) (a b : ℝ) (ha : 0 < a) (c : ℝ) (o : Fin p → ℝ) :
    ∃ C : Matrix (Fin p) (Fin p) ℝ, yGradCov leY pow2R (of X) (of (Matrix.of fun i (_ : Fin 1) => y i)) = .ok (of C) ∧
      yGradCov leY pow2R (of (Matrix.of fun i j => c * X i j + o j)) (of (Matrix.of fun i (_ : Fin 1) => a * y i + b)) = .ok (of (c ^ 2 • C)) := by
  obtain ⟨σ, -, hσ⟩ := ygOrder_of leY y
  refine ⟨_, yGradCov_real hn X y σ hσ, ?_⟩
  rw [yGradCov_real hn _ (fun i => a * y i + b) σ ((order_affine ha b y).trans hσ), ok_inj]
  refine mk_congr fun j k => ?_
  have e1 : ∀ i, slope ((fun i => a * y i + b) ∘ σ) i = a * slope (y ∘ σ) i := fun i => slope_affine a b (y ∘ σ) i
  have e2 : sampleSd (slope ((fun i => a * y i + b) ∘ σ)) = a * sampleSd (slope (y ∘ σ)) := by
    rw [← sampleSd_scale ha.le]
    exact congrArg sampleSd (funext e1)
  have e3 : ∀ i (l : Fin p), slope (fun r => ((Matrix.of fun i j => c * X i j + o j : Matrix (Fin n) (Fin p) ℝ).submatrix σ id) r l) i =
      c * slope (fun r => (X.submatrix σ id) r l) i := fun i l => slope_affine c (o l) (fun r => X (σ r) l) i
  rw [Matrix.smul_apply, smul_eq_mul]
  unfold slopeCov
  rw [Matrix.of_apply, Matrix.of_apply, Finset.mul_sum]
  refine Finset.sum_congr rfl fun i _ => ?_
  dsimp only
  rw [e1, e2, e3, e3, mul_div_mul_left _ _ ha.ne']
  ring

/-- **C161 (Y-gradient).** In particular both filters are those of the data as given. -/
theorem C161_ygrad_fit (cfg : GlswCfg ℝ) (hl : cfg.le = leY) (hw : cfg.pow2 = pow2R) (hn : n ≠ 0) (X : Matrix (Fin n) (Fin p) ℝ) (y : Fin n → ℝ)
    (a b : ℝ) (ha : 0 < a) (o : Fin p → ℝ) :
    yGlswFit cfg (of (Matrix.of fun i j => X i j + o j)) (of (Matrix.of fun i (_ : Fin 1) => a * y i + b)) =
      yGlswFit cfg (of X) (of (Matrix.of fun i (_ : Fin 1) => y i)) ∧
    yEpoFit cfg (of (Matrix.of fun i j => X i j + o j)) (of (Matrix.of fun i (_ : Fin 1) => a * y i + b)) =
      yEpoFit cfg (of X) (of (Matrix.of fun i (_ : Fin 1) => y i)) := by
  obtain ⟨C, h1, h2⟩ := C161_ygrad hn X y a b ha 1 o
  simp only [one_mul, one_pow, one_smul] at h2
  have hc : ∀ (D : Matrix (Fin n) (Fin p) ℝ) (z : Fin n → ℝ), yGradCheck (of D) (of (Matrix.of fun i (_ : Fin 1) => z i)) = none :=
    fun D z => if_neg (by simp)
  constructor
  · unfold yGlswFit glswInit
    rw [hc, hc]
    simp only []
    unfold glswDo
    rw [hl, hw, h1, h2]
  · unfold yEpoFit glswInit
    rw [hc, hc]
    simp only []
    unfold glswDo
    rw [hl, hw, h1, h2]

end Verif.Props
