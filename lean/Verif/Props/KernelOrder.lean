import Verif.Props.KernelFeature
import Verif.Props.PlsInvariance

/-!
# C108 for KernelPLS: neither the order of the samples nor the random start matters
-/

namespace Verif.Props
open Verif Mat Factory Transf
open scoped Matrix

variable {n p d K : Nat} {σ σ' : Type}

theorem mu_reorder (π : Equiv.Perm (Fin n)) (f : Fin n → ℝ) : (mu fun i => f (π i)) = mu f := by
  unfold mu
  rw [Equiv.sum_comp π f]

theorem cen_reorder {r : Nat} (π : Equiv.Perm (Fin n)) (X : Matrix (Fin n) (Fin p) ℝ) (Z : Matrix (Fin r) (Fin p) ℝ) :
    cen (X.submatrix π id) Z = cen X Z := by
  ext i j
  simp only [cen, Matrix.of_apply, Matrix.submatrix_apply, id]
  rw [mu_reorder π fun k => X k j]

theorem cen_reorder_self (π : Equiv.Perm (Fin n)) (X : Matrix (Fin n) (Fin p) ℝ) :
    cen (X.submatrix π id) (X.submatrix π id) = (cen X X).submatrix π id := by
  rw [cen_reorder]
  rfl

theorem plsCoef_reorder (hn : 0 < n) (hd : 0 < d) (hK : 0 < K) (π : Equiv.Perm (Fin n)) (A : Matrix (Fin n) (Fin d) ℝ)
    (y : Matrix (Fin n) (Fin 1) ℝ) (h : Regular (pls1W y) K A) :
    Regular (pls1W (y.submatrix π id)) K (A.submatrix π id) ∧ plsCoef K (A.submatrix π id) (y.submatrix π id) = plsCoef K A y := by
  obtain ⟨h1, -⟩ := pls1_equiv hn hd hK A y h (perm_orth π) (V := 1) (by simp) one_ne_zero one_ne_zero
  simp only [one_smul, Matrix.mul_one, perm_mul] at h1
  refine ⟨h1, ?_⟩
  obtain ⟨m, T, e1, e2⟩ := pls1_coef hn hd hK A y h
  obtain ⟨m', T', e1', e2'⟩ := pls1_coef hn hd hK _ _ h1
  obtain ⟨a, a', S, S', f1, f2, f3⟩ := C98_order hn hd hK A y h π (Equiv.refl _)
  rw [e1] at f1; cases f1
  have f2' : pls1Train pls1Weights K (of (A.submatrix π id)) (of (y.submatrix π id)) = .ok (a', S') := f2
  rw [e1'] at f2'; cases f2'
  obtain ⟨_, F, -, -, g1, g2⟩ := f3 hd (1 : Matrix (Fin d) (Fin d) ℝ)
  have g2' : pls1Predict K m' (of (1 : Matrix (Fin d) (Fin d) ℝ)) = .ok (of F) := g2
  rw [e2 hd, ok_inj, of_inj, Matrix.one_mul] at g1
  rw [e2' hd, ok_inj, of_inj, Matrix.one_mul] at g2'
  rw [g1, g2']

/-- **C108, KernelPLS with one response and a positive semidefinite kernel.**  Train twice, the second time with the samples in another
order, other random start vectors, another tolerance and another iteration limit: if no start vector is unsuitable, the two models make
the same predictions for all data. -/
theorem C108_kernel {c : KplsCfg ℝ σ} {c' : KplsCfg ℝ σ'} {v v' : Nat → Matrix (Fin n) (Fin 1) ℝ} (hc : KplsReal c n v) (hc' : KplsReal c' n v')
    (htol : 0 < c.tol) (htol' : 0 < c'.tol) (hmax : 2 ≤ c.maxIter) (hmax' : 2 ≤ c'.maxIter) (hK : c.K = K) (hK' : c'.K = K) (hK0 : 0 < K)
    (hn : 0 < n) (hd : 0 < d) {s : σ} {s' : σ'} {k : (Fin p → ℝ) → (Fin p → ℝ) → ℝ} (hk : Evaluates c s k) (hk' : Evaluates c' s' k)
    (hpsd : PsdKernel k)
    (X : Matrix (Fin n) (Fin p) ℝ) (y : Matrix (Fin n) (Fin 1) ℝ) (lstsq lstsq' : Mat ℝ → Except PyErr (Mat ℝ)) (hinv : c.inv = inverse lstsq)
    (hinv' : c'.inv = inverse lstsq') (π : Equiv.Perm (Fin n))
    (A : Matrix (Fin n) (Fin d) ℝ) (hA : cenK (Matrix.of fun i j => k (cen X X i) (cen X X j)) = A * Aᵀ)
    (h : Regular (pls1W (cen y y)) K A) (hv : GoodStart c.tol K A (cen y y) v)
    (hv' : GoodStart c'.tol K (A.submatrix π id) ((cen y y).submatrix π id) v') :
    ∃ (m : KplsModel ℝ σ) (m' : KplsModel ℝ σ'), kplsTrain c s (of X) (of y) = .ok m ∧
      kplsTrain c' s' (of (Matrix.of fun i j => X (π i) j)) (of (Matrix.of fun i j => y (π i) j)) = .ok m' ∧
      ∀ {r : Nat}, 0 < r → ∀ Z : Matrix (Fin r) (Fin p) ℝ, ∃ F : Matrix (Fin r) (Fin 1) ℝ,
        kplsPredict c m (of Z) = .ok (of F) ∧ kplsPredict c' m' (of Z) = .ok (of F) := by
  set G : Matrix (Fin n) (Fin n) ℝ := Matrix.of fun i j => k (cen X X i) (cen X X j) with hGdef
  have hG' : (Matrix.of fun i j => k (cen (X.submatrix π id) (X.submatrix π id) i) (cen (X.submatrix π id) (X.submatrix π id) j)) =
      G.submatrix π π := by
    rw [cen_reorder_self]
    rfl
  have hcG : ∀ M : Matrix (Fin n) (Fin n) ℝ, cenK (M.submatrix π π) = (cenK M).submatrix π π := fun M => by
    have ha : (1 - avg n n : Matrix (Fin n) (Fin n) ℝ).submatrix π π = 1 - avg n n := by
      ext i j
      simp [avg, Matrix.one_apply]
    unfold cenK
    nth_rewrite 1 [← ha]
    nth_rewrite 2 [← ha]
    rw [Matrix.submatrix_mul_equiv, Matrix.submatrix_mul_equiv]
  have hA' : cenK (G.submatrix π π) = A.submatrix π id * (A.submatrix π id)ᵀ := by
    rw [hcG, hA, Matrix.transpose_submatrix]
    exact (Matrix.submatrix_mul_equiv A Aᵀ π (Equiv.refl _) π).symm
  obtain ⟨hreg', -⟩ := plsCoef_reorder hn hd hK0 π A (cen y y) h
  have hy' : cen (y.submatrix π id) (y.submatrix π id) = (cen y y).submatrix π id := cen_reorder_self π y
  obtain ⟨m, β, h1, h2, h3, h4⟩ := kpls_dual hc htol hmax hK hn s X y lstsq hinv G (hk.train hn _) A hA h hv
  obtain ⟨m', β', h1', h2', h3', h4'⟩ := kpls_dual hc' htol' hmax' hK' hn s' (X.submatrix π id) (y.submatrix π id) lstsq' hinv'
    (G.submatrix π π) ((hk'.train hn _).trans (by rw [hG'])) (A.submatrix π id) hA' (by rw [hy']; exact hreg') (by rw [hy']; exact hv')
  refine ⟨m, m', h1, h1', fun {r} hr Z => ?_⟩
  obtain ⟨Φ, Ψ, f1, f2, f3⟩ := psd_features hpsd (cen X X) (cen X Z)
  have hG : G = Φ * Φᵀ := by
    ext i j
    rw [hGdef, Matrix.of_apply, f1, Matrix.mul_apply]
    rfl
  have hGp : G.submatrix π π = Φ.submatrix π id * (Φ.submatrix π id)ᵀ := by
    rw [hG, Matrix.transpose_submatrix]
    exact (Matrix.submatrix_mul_equiv Φ Φᵀ π (Equiv.refl _) π).symm
  have hg : cenK G = cen Φ Φ * (cen Φ Φ)ᵀ := by rw [hG, cenK_features]
  have hg' : cenK (G.submatrix π π) = cen (Φ.submatrix π id) (Φ.submatrix π id) * (cen (Φ.submatrix π id) (Φ.submatrix π id))ᵀ := by
    rw [hGp, cenK_features]
  have hAB := hA.symm.trans hg
  have hcoef := (plsCoef_reorder hn (by omega) hK0 π (cen Φ Φ) (cen y y) (h.gram hAB)).2
  have e : ∀ (Φ : Matrix (Fin n) (Fin (n + r)) ℝ) (β y : Matrix (Fin n) (Fin 1) ℝ), (cen Φ Φ)ᵀ * β = plsCoef K (cen Φ Φ) y →
      Ψ * Φᵀ * (1 - avg n n) * β = Ψ * plsCoef K (cen Φ Φ) y := by
    intro Φ β y h
    rw [← h, cen_self Φ, Matrix.transpose_mul, Matrix.transpose_sub, Matrix.transpose_one, avg_transpose]
    simp only [Matrix.mul_assoc]
  refine ⟨_, h4 Z (Ψ * Φᵀ) ?_, (h4' Z (Ψ * (Φ.submatrix π id)ᵀ) ?_).trans ?_⟩
  · rw [h2, hk.new hn hr]
    refine congrArg (fun A => Except.ok (of A)) ?_
    ext i j
    rw [Matrix.of_apply, f2, Matrix.mul_apply]
    rfl
  · rw [h2', hk'.new hn hr, cen_reorder, cen_reorder]
    refine congrArg (fun A => Except.ok (of A)) ?_
    ext i j
    rw [Matrix.of_apply, Matrix.mul_apply]
    exact f2 i (π j)
  · refine congrArg (fun A => Except.ok (of A)) ?_
    rw [e _ _ _ (h3 _ hg), e _ _ _ (h3' _ hg'), hy', cen_reorder_self, hcoef]
    ext i j
    rw [Matrix.of_apply, Matrix.of_apply]
    congr 1
    exact mu_reorder π fun i => y i 0

/-- Suitable start vectors stay so when they are reordered with the samples. -/
theorem GoodStart.reorder {tol : ℝ} {A : Matrix (Fin n) (Fin d) ℝ} {y : Matrix (Fin n) (Fin 1) ℝ} {v : Nat → Matrix (Fin n) (Fin 1) ℝ}
    (π : Equiv.Perm (Fin n)) (h : GoodStart tol K A y v) :
    GoodStart tol K (A.submatrix π id) (y.submatrix π id) fun k => (v k).submatrix π id := by
  have hT : ∀ k, plsT (pls1W (y.submatrix π id)) (A.submatrix π id) k = (plsT (pls1W y) A k).submatrix π id := fun k => by
    have hw := pls1W_rel (perm_orth π) (V := (1 : Matrix (Fin d) (Fin d) ℝ)) (by simp) (c := 1) (d := 1) y
    have e := plsT_equiv (perm_orth π) (V := (1 : Matrix (Fin d) (Fin d) ℝ)) (by simp) one_ne_zero (sign_sq (mul_ne_zero one_ne_zero one_ne_zero)) hw A k
    simpa only [one_smul, Matrix.mul_one, perm_mul, mul_one, abs_one, div_one] using e
  refine ⟨fun k hk => ?_, fun k hk => ?_⟩
  · have e : (∑ i, (v k).submatrix π id i 0 * (v k).submatrix π id i 0) = ∑ i, v k i 0 * v k i 0 :=
      Equiv.sum_comp π fun i => v k i 0 * v k i 0
    rw [e]
    exact h.length k hk
  · rw [hT]
    have e : (∑ i, (plsT (pls1W y) A k).submatrix π id i 0 * (v k).submatrix π id i 0) = ∑ i, plsT (pls1W y) A k i 0 * v k i 0 :=
      Equiv.sum_comp π fun i => plsT (pls1W y) A k i 0 * v k i 0
    rw [e]
    exact h.score k hk

/-- The same KernelPLS as in `kfCfg` with another start vector, tolerance and limit. -/
noncomputable def kfCfg' (lstsq : Mat ℝ → Except PyErr (Mat ℝ)) : KplsCfg ℝ (Option ℝ) :=
  { kfCfg lstsq with tol := 1 / 10, maxIter := 20, start := fun _ _ => .ok (of (!![3; 0] : Matrix (Fin 2) (Fin 1) ℝ)) }

/-- Exchanging the two samples of `kfX`. -/
example (lstsq : Mat ℝ → Except PyErr (Mat ℝ)) : ∃ m m' : KplsModel ℝ (Option ℝ),
    kplsTrain (kfCfg lstsq) none (of kfX) (of kfY) = .ok m ∧
    kplsTrain (kfCfg' lstsq) none (of (Matrix.of fun i j => kfX (Equiv.swap (0 : Fin 2) 1 i) j))
      (of (Matrix.of fun i j => kfY (Equiv.swap (0 : Fin 2) 1 i) j)) = .ok m' ∧
    ∀ {r : Nat}, 0 < r → ∀ Z : Matrix (Fin r) (Fin 1) ℝ, ∃ F : Matrix (Fin r) (Fin 1) ℝ,
      kplsPredict (kfCfg lstsq) m (of Z) = .ok (of F) ∧ kplsPredict (kfCfg' lstsq) m' (of Z) = .ok (of F) := by
  have hpos := kfa_pos
  have start : ∀ (tol a b : ℝ), tol < |Real.sqrt (a * a + b * b) - 1| → a ≠ b →
      GoodStart tol 1 kfA (cen kfY kfY) fun _ => (!![a; b] : Matrix (Fin 2) (Fin 1) ℝ) := by
    intro tol a b h1 h2
    refine ⟨fun k hk => ?_, fun k hk => ?_⟩
    · rw [Fin.sum_univ_two]
      exact h1
    · obtain rfl : k = 0 := by omega
      rw [kf_score, Fin.sum_univ_two]
      show -kfa * a + kfa * b ≠ 0
      have : kfa * (b - a) ≠ 0 := mul_ne_zero hpos.ne' (sub_ne_zero.2 h2.symm)
      intro h0
      exact this (by linarith)
  refine C108_kernel (c := kfCfg lstsq) (c' := kfCfg' lstsq) (v := fun _ => !![2; 0]) (v' := fun _ => !![3; 0]) (K := 1) (d := 1)
    ⟨fun _ _ => rfl, fun _ => rfl⟩ ⟨fun _ _ => rfl, fun _ => rfl⟩ (by norm_num [kfCfg]) (by norm_num [kfCfg']) (by norm_num [kfCfg])
    (by norm_num [kfCfg']) rfl rfl Nat.one_pos (by decide) Nat.one_pos (evaluates_rbf rfl rfl none) (evaluates_rbf rfl rfl none)
    (psd_rbf (by norm_num)) kfX kfY lstsq lstsq rfl rfl (Equiv.swap 0 1) kfA kf_gram (Regular.of_sq1 fun k hk => ?_) ?_ ?_
  · obtain rfl : k = 0 := by omega
    rw [kf_score]
    simp only [sq1]
    simp
    positivity
  · refine start _ 2 0 ?_ (by norm_num)
    rw [show (2 * 2 + 0 * 0 : ℝ) = 2 * 2 by norm_num, Real.sqrt_mul_self (by norm_num)]
    norm_num [kfCfg]
  · have h := (start (kfCfg' lstsq).tol 0 3 (by
      rw [show (0 * 0 + 3 * 3 : ℝ) = 3 * 3 by norm_num, Real.sqrt_mul_self (by norm_num)]
      norm_num [kfCfg']) (by norm_num)).reorder (Equiv.swap 0 1)
    have e : (!![0; 3] : Matrix (Fin 2) (Fin 1) ℝ).submatrix (Equiv.swap 0 1) id = !![3; 0] := by
      ext i j
      rw [Subsingleton.elim j 0]
      fin_cases i <;> simp
    rw [e] at h
    exact h

end Verif.Props
