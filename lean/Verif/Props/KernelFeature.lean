import Verif.Props.PlsGram
import Verif.Props.KernelMercer

/-!
# C137: KernelPLS with a positive semidefinite kernel is PLS1 on features

C101 says so for the linear kernel.  Here the kernel is any positive semidefinite one, which by C106 includes the three
kernels of the library.  New data are not centred in the feature space (see C75), so a constant is added to every
prediction; nothing else differs.
-/

namespace Verif.Props

open Verif Mat Factory Transf
open scoped Matrix

variable {n p r d K : Nat} {σ : Type}

/-! ## Centring -/

theorem cen_centring (Φ : Matrix (Fin n) (Fin d) ℝ) (Ψ : Matrix (Fin r) (Fin d) ℝ) : cen Φ Ψ = Ψ - avg r n * Φ := by
  ext i j
  simp only [cen, mu, Matrix.of_apply, Matrix.sub_apply, Matrix.mul_apply, avg]
  rw [← Finset.mul_sum, one_div, div_eq_inv_mul]

theorem cen_self (Φ : Matrix (Fin n) (Fin d) ℝ) : cen Φ Φ = (1 - avg n n) * Φ := by
  rw [cen_centring, Matrix.sub_mul, Matrix.one_mul]

theorem cenK_features (Φ : Matrix (Fin n) (Fin d) ℝ) : cenK (Φ * Φᵀ) = cen Φ Φ * (cen Φ Φ)ᵀ := by
  rw [cen_self, cenK, Matrix.transpose_mul, Matrix.transpose_sub, Matrix.transpose_one, avg_transpose]
  simp only [Matrix.mul_assoc]

/-! ## The model in terms of the training samples -/

/-- The coefficients of `PLS1` in the coordinates of the predictors. -/
noncomputable def plsCoef (K : Nat) (A : Matrix (Fin n) (Fin d) ℝ) (y : Matrix (Fin n) (Fin 1) ℝ) : Matrix (Fin d) (Fin 1) ℝ :=
  plsWM (pls1W y) K A * ((plsPM (pls1W y) K A)ᵀ * plsWM (pls1W y) K A)⁻¹ * plsBM (pls1W y) K A y

theorem GoodStart.gram {d' : Nat} {tol : ℝ} {A : Matrix (Fin n) (Fin d) ℝ} {A' : Matrix (Fin n) (Fin d') ℝ}
    {y : Matrix (Fin n) (Fin 1) ℝ} {v : Nat → Matrix (Fin n) (Fin 1) ℝ} (hA : A * Aᵀ = A' * A'ᵀ)
    (h : GoodStart tol K A y v) : GoodStart tol K A' y v :=
  ⟨h.length, fun k hk => by
    rw [← gram_plsT hA]
    exact h.score k hk⟩

/-- Training succeeds, and what it finds is the same as what `PLS1` finds in any coordinates with the centred kernel as
inner products. -/
theorem kpls_dual {c : KplsCfg ℝ σ} {v : Nat → Matrix (Fin n) (Fin 1) ℝ} (hc : KplsReal c n v) (htol : 0 < c.tol)
    (hmax : 2 ≤ c.maxIter) (hK : c.K = K) (hn : 0 < n) (s : σ) (X : Matrix (Fin n) (Fin p) ℝ)
    (y : Matrix (Fin n) (Fin 1) ℝ) (lstsq : Mat ℝ → Except PyErr (Mat ℝ)) (hinv : c.inv = inverse lstsq)
    (G : Matrix (Fin n) (Fin n) ℝ) (hG : (c.kern1 s (of (cen X X))).2 = .ok (of G))
    (A : Matrix (Fin n) (Fin d) ℝ) (hA : cenK G = A * Aᵀ) (h : Regular (pls1W (cen y y)) K A)
    (hv : GoodStart c.tol K A (cen y y) v) :
    ∃ (m : KplsModel ℝ σ) (β : Matrix (Fin n) (Fin 1) ℝ), kplsTrain c s (of X) (of y) = .ok m ∧
      m.kern = (c.kern1 s (of (cen X X))).1 ∧
      (∀ {e : Nat} (B : Matrix (Fin n) (Fin e) ℝ), cenK G = B * Bᵀ → Bᵀ * β = plsCoef K B (cen y y)) ∧
      ∀ {r : Nat} (Z : Matrix (Fin r) (Fin p) ℝ) (H : Matrix (Fin r) (Fin n) ℝ),
        (c.kern2 m.kern (of (cen X Z)) (of (cen X X))).2 = .ok (of H) →
        kplsPredict c m (of Z) =
          .ok (of (Matrix.of fun i j => ((H * (1 - avg n n) * β : Matrix (Fin r) (Fin 1) ℝ)) i j + mu fun i => y i 0)) := by
  obtain ⟨f, hf⟩ : ∃ f : Nat, c.maxIter = (f + 1 : Nat) + 1 := ⟨(c.maxIter - 2).toNat, by omega⟩
  have hdet := (kpls_coeff (f := f) h.sq1_ne hv rfl rfl rfl).1
  rw [← hA] at hdet
  have htrain := kplsTrain_eq hc htol hf hK hn Nat.one_pos s X y _ hG
  rw [hinv, inverse_of lstsq _ hdet, except_bind_ok, mul_of, except_bind_ok] at htrain
  refine ⟨_, colsM (K := K) (kUs c.tol (f + 1) v (cenK G) (cen y y)) *
    (((colsM (K := K) (kT c.tol (f + 1) v (cenK G) (cen y y)))ᵀ * cenK G *
        colsM (K := K) (kUs c.tol (f + 1) v (cenK G) (cen y y)))⁻¹ *
      (colsM (K := K) (kQ c.tol (f + 1) v (cenK G) (cen y y)))ᵀ), htrain, rfl, fun B hB => ?_, fun {r} Z H hH => ?_⟩
  · have hAB := hA.symm.trans hB
    have := (kpls_coeff (f := f) (h.gram hAB).sq1_ne (hv.gram hAB) rfl rfl rfl).2
    rw [← hB] at this
    rw [← Matrix.mul_assoc]
    exact this
  · obtain ⟨U, hU, ht⟩ := C75_transform hc htol (by omega) hK hn Nat.one_pos s X y _ hG _ htrain Z H hH
    have hU' : U = colsM (kUs c.tol (f + 1) v (cenK G) (cen y y)) :=
      (of_inj.mp ((kVars_U _ _ _ _ _).symm.trans hU)).symm
    unfold kplsPredict
    rw [ht, except_bind_ok, mul_of, except_bind_ok]
    refine (cen_undo _ _).trans (congrArg (fun A => Except.ok (of A)) ?_)
    have e : (Matrix.of fun i j => H i j - (∑ k, H i k) / (n : ℝ)) = H * (1 - avg n n) := by
      rw [Matrix.mul_sub, Matrix.mul_one]
      ext i j
      rw [Matrix.sub_apply, Matrix.mul_apply, Matrix.of_apply]
      simp only [avg, Matrix.of_apply, mul_one_div, Finset.sum_div]
    rw [e, hU', ← Matrix.mul_assoc, ← Matrix.mul_assoc, Matrix.mul_assoc _ _ (_ * _)]
    ext i j
    rw [Subsingleton.elim j 0]
    simp only [Matrix.mul_assoc]
    rfl

theorem pls1_coef (hn : 0 < n) (hd : 0 < d) (hK : 0 < K) (A : Matrix (Fin n) (Fin d) ℝ) (y : Matrix (Fin n) (Fin 1) ℝ)
    (h : Regular (pls1W y) K A) : ∃ (m : Pls1Model ℝ) (T : Mat ℝ), pls1Train pls1Weights K (of A) (of y) = .ok (m, T) ∧
      ∀ {r : Nat}, 0 < r → ∀ Z : Matrix (Fin r) (Fin d) ℝ, pls1Predict K m (of Z) = .ok (of (Z * plsCoef K A y)) := by
  have e := pls1Train_eq (pls1W y) pls1Weights K hn hd hK A y (fun k _ => pls1Weights_eq y _) h.sq1_ne
  refine ⟨_, _, e, fun hr Z => ?_⟩
  rw [pls1Predict_eq (pls1W y) hr, plsSM_eq (pls1W y) K A Z h.sq1_ne, plsCoef]
  simp only [Matrix.mul_assoc]

/-! ## Kernels -/

/-- On data with `p` columns, the kernel object in state `s` evaluates the function `k` on all pairs of rows. -/
structure Evaluates (c : KplsCfg ℝ σ) (s : σ) (k : (Fin p → ℝ) → (Fin p → ℝ) → ℝ) : Prop where
  train : ∀ {m : Nat}, 0 < m → ∀ A : Matrix (Fin m) (Fin p) ℝ,
    (c.kern1 s (of A)).2 = .ok (of (Matrix.of fun i j => k (A i) (A j)))
  new : ∀ {m r : Nat}, 0 < m → 0 < r → ∀ (A : Matrix (Fin m) (Fin p) ℝ) (B : Matrix (Fin r) (Fin p) ℝ),
    (c.kern2 (c.kern1 s (of A)).1 (of B) (of A)).2 = .ok (of (Matrix.of fun i j => k (B i) (A j)))

/-- Symmetric and positive semidefinite on every finite set of points. -/
def PsdKernel (k : (Fin p → ℝ) → (Fin p → ℝ) → ℝ) : Prop :=
  ∀ {m : Nat} (x : Fin m → Fin p → ℝ), Psd fun i j => k (x i) (x j)

open scoped MatrixOrder in
theorem psd_root {m : Nat} {M : Fin m → Fin m → ℝ} (h : Psd M) :
    ∃ B : Matrix (Fin m) (Fin m) ℝ, ∀ i j, M i j = ∑ l, B i l * B j l := by
  have hp := (psd_iff M).1 h
  refine ⟨CFC.sqrt (Matrix.of M), fun i j => ?_⟩
  have e := CFC.sqrt_mul_sqrt_self (Matrix.of M) hp.nonneg
  have hs : (CFC.sqrt (Matrix.of M))ᵀ = CFC.sqrt (Matrix.of M) := by
    have := (Matrix.nonneg_iff_posSemidef.1 (CFC.sqrt_nonneg (Matrix.of M))).1
    rw [Matrix.IsHermitian, Matrix.conjTranspose_eq_transpose_of_trivial] at this
    exact this
  have := congrFun (congrFun e i) j
  rw [Matrix.mul_apply] at this
  show Matrix.of M i j = _
  rw [← this]
  refine Finset.sum_congr rfl fun l _ => congrArg _ ?_
  exact congrFun (congrFun hs j) l

/-- Two finite sets of points have features in a common space. -/
theorem psd_features {k : (Fin p → ℝ) → (Fin p → ℝ) → ℝ} (hk : PsdKernel k) (x : Fin n → Fin p → ℝ) (z : Fin r → Fin p → ℝ) :
    ∃ (Φ : Matrix (Fin n) (Fin (n + r)) ℝ) (Ψ : Matrix (Fin r) (Fin (n + r)) ℝ),
      (∀ i j, k (x i) (x j) = ∑ l, Φ i l * Φ j l) ∧ (∀ i j, k (z i) (x j) = ∑ l, Ψ i l * Φ j l) ∧
      ∀ i j, k (z i) (z j) = ∑ l, Ψ i l * Ψ j l := by
  obtain ⟨B, hB⟩ := psd_root (hk (Fin.append x z))
  refine ⟨Matrix.of fun i => B (Fin.castAdd r i), Matrix.of fun i => B (Fin.natAdd n i), fun i j => ?_, fun i j => ?_,
    fun i j => ?_⟩
  · have := hB (Fin.castAdd r i) (Fin.castAdd r j)
    rwa [Fin.append_left, Fin.append_left] at this
  · have := hB (Fin.natAdd n i) (Fin.castAdd r j)
    rwa [Fin.append_left, Fin.append_right] at this
  · have := hB (Fin.natAdd n i) (Fin.natAdd n j)
    rwa [Fin.append_right, Fin.append_right] at this

/-! ## C137 -/

/-- **C137.** Features `Φ` of the (centred) training samples, that is vectors whose inner products are the kernel values.
`KernelPLS` succeeds whenever `PLS1` does on the centred features; its prediction for a new sample is what `PLS1` predicts
for the features of the sample - centred with the means of the training features, or not centred, the difference being
the same number `b` for all samples - plus the mean of the response. -/
theorem C137_features {c : KplsCfg ℝ σ} {v : Nat → Matrix (Fin n) (Fin 1) ℝ} (hc : KplsReal c n v) (htol : 0 < c.tol)
    (hmax : 2 ≤ c.maxIter) (hK : c.K = K) (hK0 : 0 < K) (hn : 0 < n) (hd : 0 < d) {s : σ}
    {k : (Fin p → ℝ) → (Fin p → ℝ) → ℝ} (hk : Evaluates c s k) (X : Matrix (Fin n) (Fin p) ℝ)
    (y : Matrix (Fin n) (Fin 1) ℝ) (lstsq : Mat ℝ → Except PyErr (Mat ℝ)) (hinv : c.inv = inverse lstsq)
    (Φ : Matrix (Fin n) (Fin d) ℝ) (hΦ : ∀ i j, k (cen X X i) (cen X X j) = ∑ l, Φ i l * Φ j l)
    (h : Regular (pls1W (cen y y)) K (cen Φ Φ)) (hv : GoodStart c.tol K (cen Φ Φ) (cen y y) v) :
    ∃ (m : KplsModel ℝ σ) (m' : Pls1Model ℝ) (T : Mat ℝ) (b : ℝ), kplsTrain c s (of X) (of y) = .ok m ∧
      pls1Train pls1Weights K (of (cen Φ Φ)) (of (cen y y)) = .ok (m', T) ∧
      ∀ {r : Nat}, 0 < r → ∀ (Z : Matrix (Fin r) (Fin p) ℝ) (Ψ : Matrix (Fin r) (Fin d) ℝ),
        (∀ i j, k (cen X Z i) (cen X X j) = ∑ l, Ψ i l * Φ j l) → ∃ F F' : Matrix (Fin r) (Fin 1) ℝ,
        pls1Predict K m' (of Ψ) = .ok (of F) ∧ pls1Predict K m' (of (cen Φ Ψ)) = .ok (of F') ∧
        (∀ i, F i 0 = F' i 0 + b) ∧
        kplsPredict c m (of Z) = .ok (of (Matrix.of fun i j => F i j + mu fun i => y i 0)) := by
  have hG : (c.kern1 s (of (cen X X))).2 = .ok (of (Φ * Φᵀ)) := by
    rw [hk.train hn]
    refine congrArg (fun A => Except.ok (of A)) ?_
    ext i j
    rw [Matrix.of_apply, hΦ, Matrix.mul_apply]
    rfl
  obtain ⟨m, β, h1, h2, h3, h4⟩ := kpls_dual hc htol hmax hK hn s X y lstsq hinv _ hG _ (cenK_features Φ) h hv
  obtain ⟨m', T, e1, e2⟩ := pls1_coef hn hd hK0 _ _ h
  refine ⟨m, m', T, (avg 1 n * Φ * plsCoef K (cen Φ Φ) (cen y y)) 0 0, h1, e1, fun {r} hr Z Ψ hΨ =>
    ⟨_, _, e2 hr Ψ, e2 hr (cen Φ Ψ), fun i => ?_, ?_⟩⟩
  · rw [cen_centring Φ Ψ, Matrix.sub_mul, Matrix.sub_apply]
    have : (avg r n * Φ * plsCoef K (cen Φ Φ) (cen y y)) i 0 = (avg 1 n * Φ * plsCoef K (cen Φ Φ) (cen y y)) 0 0 := rfl
    rw [this, sub_add_cancel]
  · rw [h4 Z (Ψ * Φᵀ) (by
      rw [h2, hk.new hn hr]
      refine congrArg (fun A => Except.ok (of A)) ?_
      ext i j
      rw [Matrix.of_apply, hΨ, Matrix.mul_apply]
      rfl)]
    refine congrArg (fun A => Except.ok (of A)) ?_
    have e : Ψ * Φᵀ * (1 - avg n n) * β = Ψ * plsCoef K (cen Φ Φ) (cen y y) := by
      rw [← h3 _ (cenK_features Φ), cen_self Φ, Matrix.transpose_mul, Matrix.transpose_sub, Matrix.transpose_one, avg_transpose]
      simp only [Matrix.mul_assoc]
    rw [e]

/-- **C137.** With a positive semidefinite kernel, whatever the new data, there are features such that `KernelPLS` predicts
what `PLS1`, trained on the centred features, predicts for the features centred with the training means, plus the mean of
the response, plus a number `b` that depends on the training data only.  It is enough that `PLS1` finds all components for
*one* matrix `A` with the centred kernel matrix as its inner products. -/
theorem C137_kernel {c : KplsCfg ℝ σ} {v : Nat → Matrix (Fin n) (Fin 1) ℝ} (hc : KplsReal c n v) (htol : 0 < c.tol)
    (hmax : 2 ≤ c.maxIter) (hK : c.K = K) (hK0 : 0 < K) (hn : 0 < n) {s : σ}
    {k : (Fin p → ℝ) → (Fin p → ℝ) → ℝ} (hk : Evaluates c s k) (hpsd : PsdKernel k) (X : Matrix (Fin n) (Fin p) ℝ)
    (y : Matrix (Fin n) (Fin 1) ℝ) (lstsq : Mat ℝ → Except PyErr (Mat ℝ)) (hinv : c.inv = inverse lstsq)
    (A : Matrix (Fin n) (Fin d) ℝ) (hA : cenK (Matrix.of fun i j => k (cen X X i) (cen X X j)) = A * Aᵀ)
    (h : Regular (pls1W (cen y y)) K A) (hv : GoodStart c.tol K A (cen y y) v) :
    ∃ (m : KplsModel ℝ σ) (b : ℝ), kplsTrain c s (of X) (of y) = .ok m ∧
      ∀ {r : Nat}, 0 < r → ∀ Z : Matrix (Fin r) (Fin p) ℝ,
      ∃ (e : Nat) (Φ : Matrix (Fin n) (Fin e) ℝ) (Ψ : Matrix (Fin r) (Fin e) ℝ) (m' : Pls1Model ℝ) (T : Mat ℝ)
        (F : Matrix (Fin r) (Fin 1) ℝ),
        (∀ i j, k (cen X X i) (cen X X j) = ∑ l, Φ i l * Φ j l) ∧ (∀ i j, k (cen X Z i) (cen X X j) = ∑ l, Ψ i l * Φ j l) ∧
        (∀ i j, k (cen X Z i) (cen X Z j) = ∑ l, Ψ i l * Ψ j l) ∧
        pls1Train pls1Weights K (of (cen Φ Φ)) (of (cen y y)) = .ok (m', T) ∧
        pls1Predict K m' (of (cen Φ Ψ)) = .ok (of F) ∧
        kplsPredict c m (of Z) = .ok (of (Matrix.of fun i j => F i j + (mu fun i => y i 0) + b)) := by
  set G : Matrix (Fin n) (Fin n) ℝ := Matrix.of fun i j => k (cen X X i) (cen X X j) with hGdef
  obtain ⟨m, β, h1, h2, h3, h4⟩ := kpls_dual hc htol hmax hK hn s X y lstsq hinv G (hk.train hn _) A hA h hv
  refine ⟨m, (avg 1 n * G * (1 - avg n n) * β : Matrix (Fin 1) (Fin 1) ℝ) 0 0, h1, fun {r} hr Z => ?_⟩
  obtain ⟨Φ, Ψ, f1, f2, f3⟩ := psd_features hpsd (cen X X) (cen X Z)
  have hG : G = Φ * Φᵀ := by
    ext i j
    rw [hGdef, Matrix.of_apply, f1, Matrix.mul_apply]
    rfl
  have hg : cenK G = cen Φ Φ * (cen Φ Φ)ᵀ := by rw [hG, cenK_features]
  have hAB := hA.symm.trans hg
  obtain ⟨m', T, e1, e2⟩ := pls1_coef hn (by omega) hK0 _ _ (h.gram hAB)
  refine ⟨n + r, Φ, Ψ, m', T, _, f1, f2, f3, e1, e2 hr (cen Φ Ψ), ?_⟩
  rw [h4 Z (Ψ * Φᵀ) (by
    rw [h2, hk.new hn hr]
    refine congrArg (fun A => Except.ok (of A)) ?_
    ext i j
    rw [Matrix.of_apply, f2, Matrix.mul_apply]
    rfl)]
  refine congrArg (fun A => Except.ok (of A)) ?_
  have e : ∀ {a : Nat} (M : Matrix (Fin a) (Fin (n + r)) ℝ), M * Φᵀ * (1 - avg n n) * β = M * plsCoef K (cen Φ Φ) (cen y y) := by
    intro a M
    rw [← h3 _ hg, cen_self Φ, Matrix.transpose_mul, Matrix.transpose_sub, Matrix.transpose_one, avg_transpose]
    simp only [Matrix.mul_assoc]
  have eb : avg 1 n * G * (1 - avg n n) * β = avg 1 n * Φ * plsCoef K (cen Φ Φ) (cen y y) := by
    rw [hG, ← Matrix.mul_assoc, e]
  rw [eb, e, cen_centring Φ Ψ, Matrix.sub_mul]
  ext i j
  rw [Subsingleton.elim j 0]
  have : (avg r n * Φ * plsCoef K (cen Φ Φ) (cen y y)) i 0 = (avg 1 n * Φ * plsCoef K (cen Φ Φ) (cen y y)) 0 0 := rfl
  simp only [Matrix.of_apply, Matrix.sub_apply]
  rw [this]
  ring

/-! ## The kernels of the library -/

theorem evaluates_linear {c : KplsCfg ℝ Unit} (h1 : c.kern1 = fun s A => (s, linearMatrix A none))
    (h2 : c.kern2 = fun s A B => (s, linearMatrix A (some B))) :
    Evaluates c () fun x y : Fin p → ℝ => ∑ l, x l * y l := by
  refine ⟨fun {m} _ A => ?_, fun {m r} _ _ A B => ?_⟩
  · rw [h1]
    show (of A).mul (of A).transpose = _
    rw [transpose_of, mul_of]
    rfl
  · rw [h2]
    show (of B).mul (of A).transpose = _
    rw [transpose_of, mul_of]
    rfl

/-- The function of the polynomial kernel in state `s`, on data with `p` columns. -/
noncomputable def polyFn (s : PolyState ℝ) (x y : Fin p → ℝ) : ℝ :=
  (s.gamma.getD (1 / (p : ℝ)) * (∑ l, x l * y l) + s.coef0) ^ s.degree

theorem evaluates_poly {c : KplsCfg ℝ (PolyState ℝ)} (h1 : c.kern1 = fun s A => polyMatrix s A none)
    (h2 : c.kern2 = fun s A B => polyMatrix s A (some B)) (s : PolyState ℝ) :
    Evaluates c s (polyFn (p := p) s) := by
  refine ⟨fun {m} _ A => ?_, fun {m r} _ _ A B => ?_⟩
  · rw [h1]
    show (polyMatrix s (of A) none).2 = _
    rw [polyMatrix_value]
    show ((of A).mul (of A).transpose).map _ = _
    rw [transpose_of, mul_of]
    rfl
  · rw [h1, h2]
    show (polyMatrix (polyMatrix s (of A) none).1 (of B) (some (of A))).2 = _
    rw [polyMatrix_value]
    show ((of B).mul (of A).transpose).map _ = _
    rw [transpose_of, mul_of]
    rfl

theorem evaluates_rbf {c : KplsCfg ℝ (Option ℝ)} (h1 : c.kern1 = applyMatrix1 rbfVector)
    (h2 : c.kern2 = applyMatrix2 rbfVector) (s : Option ℝ) :
    Evaluates c s (rbf (n := p) (s.getD (1 / (p : ℝ)))) := by
  refine ⟨fun {m} hm A => ?_, fun {m r} hm hr A B => ?_⟩
  · rw [h1, (C39_rbf hm s A A).2.1]
  · rw [h1, h2, (C39_rbf hm s A A).2.1, (C39_rbf hr _ B A).1]
    rfl

theorem psd_linear : PsdKernel fun x y : Fin p → ℝ => ∑ l, x l * y l := fun {_} x => psd_gram x

theorem psd_poly {s : PolyState ℝ} (hc : 0 ≤ s.coef0) (hg : ∀ g, s.gamma = some g → 0 ≤ g) : PsdKernel (polyFn (p := p) s) := by
  have h0 : 0 ≤ s.gamma.getD (1 / (p : ℝ)) := by
    cases h : s.gamma with
    | none => exact div_nonneg zero_le_one (Nat.cast_nonneg p)
    | some g => exact hg g h
  exact fun {m} x => psd_pow (psd_add (psd_smul (psd_gram x) h0) (psd_const hc)) s.degree

theorem psd_rbf {γ : ℝ} (hγ : 0 ≤ γ) : PsdKernel (rbf (n := p) γ) := fun {_} x => psd_laplace x hγ

/-! ## As many components as possible -/

/-- `PLS1` on `K + 1` centred samples with `K` components reproduces a centred response. -/
theorem pls1_interpolates (hK : 0 < K) (A : Matrix (Fin (K + 1)) (Fin d) ℝ) (hd : 0 < d) (hA : ∀ j, ∑ i, A i j = 0)
    (y : Matrix (Fin (K + 1)) (Fin 1) ℝ) (hy : ∑ i, y i 0 = 0) (h : Regular (pls1W y) K A) : A * plsCoef K A y = y := by
  obtain ⟨m, T, F, h1, h2, ⟨b, hb⟩, h4, -⟩ := C50_least_squares (Nat.succ_pos K) hd hK A (pls1_computes y) h
  obtain ⟨m', T', e1, e2⟩ := pls1_coef (Nat.succ_pos K) hd hK A y h
  rw [h1] at e1
  cases e1
  rw [e2 (Nat.succ_pos K), ok_inj, of_inj] at h2
  have eT : T = plsTM (pls1W y) K A := by
    rw [pls1Train_eq (pls1W y) pls1Weights K (Nat.succ_pos K) hd hK A y (fun k _ => pls1Weights_eq y _) h.sq1_ne] at h1
    exact (of_inj.1 (Prod.mk.inj (Except.ok.inj h1)).2).symm
  have hT : ∀ k : Fin K, ∑ i, T i k = 0 := by
    intro k
    have e : ∀ i, T i k = (plsX (pls1W y) A k.1 * plsW (pls1W y) A k.1) i 0 := fun i => by rw [eT]; rfl
    have hX : ∀ k j, ∑ i, plsX (pls1W y) A k i j = 0 := by
      intro k
      induction k with
      | zero => exact hA
      | succ k ih =>
        intro j
        have ht : ∑ i, (plsX (pls1W y) A k * pls1W y (plsX (pls1W y) A k)) i 0 = 0 := by
          simp only [Matrix.mul_apply]
          rw [Finset.sum_comm]
          refine Finset.sum_eq_zero fun l _ => ?_
          rw [← Finset.sum_mul, ih, zero_mul]
        rw [plsX, deflate]
        generalize plsX (pls1W y) A k * pls1W y (plsX (pls1W y) A k) = t at ht ⊢
        simp only [Matrix.sub_apply, Finset.sum_sub_distrib, ih, Matrix.mul_apply, Fin.sum_univ_one, ← Finset.sum_mul, ht,
          zero_mul, sub_zero]
    simp only [e, Matrix.mul_apply]
    rw [Finset.sum_comm]
    refine Finset.sum_eq_zero fun l _ => ?_
    rw [← Finset.sum_mul, hX, zero_mul]
  set E := y - F with hE
  have hF : ∑ i, F i 0 = 0 := by
    simp only [hb, Matrix.mul_apply]
    rw [Finset.sum_comm]
    refine Finset.sum_eq_zero fun l _ => ?_
    rw [← Finset.sum_mul, hT, zero_mul]
  let Q : Matrix (Fin (K + 1)) (Fin (K + 1)) ℝ := Matrix.of fun i j => Fin.cases 1 (fun k => T i k) j
  have hTT : ∀ a b : Fin K, ∑ i, T i a * T i b = if a = b then sq1 (plsT (pls1W y) A a.1) else 0 := by
    intro a b
    have e : ∑ i, T i a * T i b = ((plsT (pls1W y) A a.1)ᵀ * plsT (pls1W y) A b.1) 0 0 := by
      rw [Matrix.mul_apply, eT]
      rfl
    rw [e]
    split_ifs with hab
    · rw [hab, sq1_eq]
    · rcases lt_or_gt_of_ne (fun e => hab (Fin.ext e)) with hlt | hlt
      · rw [plsT_orth (pls1W y) A a.1 b.1 hlt fun k hk => h.sq1_ne k (by omega)]
        rfl
      · rw [plsT_orth' hlt fun k hk => h.sq1_ne k (by omega)]
        rfl
  have hQQ : Qᵀ * Q = Matrix.diagonal (Fin.cases ((K + 1 : Nat) : ℝ) fun k : Fin K => sq1 (plsT (pls1W y) A k.1)) := by
    ext a b
    rw [Matrix.mul_apply]
    refine Fin.cases ?_ (fun a => ?_) a <;> refine Fin.cases ?_ (fun b => ?_) b
    · simp [Q]
    · have : ((0 : Fin (K + 1)) ≠ b.succ) := (Fin.succ_ne_zero b).symm
      rw [Matrix.diagonal_apply_ne _ this]
      simpa [Q] using hT b
    · have : (a.succ ≠ (0 : Fin (K + 1))) := Fin.succ_ne_zero a
      rw [Matrix.diagonal_apply_ne _ this]
      simpa [Q] using hT a
    · have := hTT a b
      by_cases hab : a = b
      · subst hab
        rw [Matrix.diagonal_apply_eq]
        simpa [Q] using this
      · rw [Matrix.diagonal_apply_ne _ fun e => hab (Fin.succ_injective _ e)]
        simpa [Q, hab] using this
  have hdet : Q.det ≠ 0 := by
    intro h0
    have := congrArg Matrix.det hQQ
    rw [Matrix.det_mul, h0, mul_zero, Matrix.det_diagonal, Fin.prod_univ_succ] at this
    refine mul_ne_zero ?_ (Finset.prod_ne_zero_iff.2 fun k _ => h.sq1_ne k.1 k.2) this.symm
    exact Nat.cast_ne_zero.2 (Nat.succ_ne_zero K)
  have hQE : Qᵀ * E = 0 := by
    ext a j
    rw [Subsingleton.elim j 0, Matrix.mul_apply]
    refine Fin.cases ?_ (fun a => ?_) a
    · simp only [Q, Matrix.transpose_apply, Matrix.of_apply, Fin.cases_zero, one_mul, hE, Matrix.sub_apply, Finset.sum_sub_distrib,
        hy, hF, sub_zero, Matrix.zero_apply]
    · have := congrFun (congrFun h4 a) 0
      rw [Matrix.mul_apply] at this
      exact this
  have hE0 : E = 0 := by
    have hu : IsUnit Qᵀ.det := isUnit_iff_ne_zero.2 (by rwa [Matrix.det_transpose])
    have := congrArg (fun M => (Qᵀ)⁻¹ * M) hQE
    rwa [← Matrix.mul_assoc, Matrix.nonsing_inv_mul _ hu, Matrix.one_mul, Matrix.mul_zero] at this
  rw [h2]
  exact (sub_eq_zero.1 hE0).symm

/-- **C137.** With one component less than samples, `KernelPLS` misses every training response by the same number. -/
theorem C137_interpolates {c : KplsCfg ℝ σ} {v : Nat → Matrix (Fin (K + 1)) (Fin 1) ℝ} (hc : KplsReal c (K + 1) v) (htol : 0 < c.tol)
    (hmax : 2 ≤ c.maxIter) (hK : c.K = K) (hK0 : 0 < K) {s : σ}
    {k : (Fin p → ℝ) → (Fin p → ℝ) → ℝ} (hk : Evaluates c s k) (hpsd : PsdKernel k) (X : Matrix (Fin (K + 1)) (Fin p) ℝ)
    (y : Matrix (Fin (K + 1)) (Fin 1) ℝ) (lstsq : Mat ℝ → Except PyErr (Mat ℝ)) (hinv : c.inv = inverse lstsq)
    (A : Matrix (Fin (K + 1)) (Fin d) ℝ) (hA : cenK (Matrix.of fun i j => k (cen X X i) (cen X X j)) = A * Aᵀ)
    (h : Regular (pls1W (cen y y)) K A) (hv : GoodStart c.tol K A (cen y y) v) :
    ∃ (m : KplsModel ℝ σ) (b : ℝ), kplsTrain c s (of X) (of y) = .ok m ∧
      kplsPredict c m (of X) = .ok (of (Matrix.of fun i j => y i j + b)) := by
  have hn : 0 < K + 1 := Nat.succ_pos K
  obtain ⟨m, b, h1, h2⟩ := C137_kernel hc htol hmax hK hK0 hn hk hpsd X y lstsq hinv A hA h hv
  obtain ⟨e, Φ, Ψ, m', T, F, f1, f2, f3, f4, f5, f6⟩ := h2 hn X
  refine ⟨m, b, h1, f6.trans (congrArg (fun A => Except.ok (of A)) ?_)⟩
  have hG : (Matrix.of fun i j => k (cen X X i) (cen X X j)) = Φ * Φᵀ := by
    ext i j
    rw [Matrix.of_apply, f1, Matrix.mul_apply]
    rfl
  have hg := hA
  rw [hG, cenK_features] at hg
  have hr := h.gram hg.symm
  have he : 0 < e := by
    by_contra h0
    obtain rfl : e = 0 := by omega
    refine hr.sq1_ne 0 hK0 ?_
    rw [plsT, Subsingleton.elim (plsW (pls1W (cen y y)) (cen Φ Φ) 0) 0, Matrix.mul_zero]
    exact (sq1_eq_zero _).2 rfl
  obtain ⟨m'', T', e1, e2⟩ := pls1_coef hn he hK0 _ _ hr
  rw [e1] at f4
  cases f4
  rw [e2 hn, ok_inj, of_inj] at f5
  have e3 := pls1_interpolates hK0 (cen Φ Φ) he (cen_sum hn Φ) (cen y y) (cen_sum hn y 0) hr
  -- the features of the samples as new data and as training data have the same inner products with the latter
  have e4 : cen Φ Ψ * (cen Φ Φ)ᵀ = cen Φ Φ * (cen Φ Φ)ᵀ := by
    have hΨ : Ψ * Φᵀ = Φ * Φᵀ := by
      ext i j
      rw [Matrix.mul_apply, Matrix.mul_apply]
      exact (f2 i j).symm.trans (f1 i j)
    rw [cen_centring Φ Ψ, cen_self Φ, Matrix.transpose_mul, ← Matrix.mul_assoc, ← Matrix.mul_assoc, Matrix.sub_mul (Ψ), hΨ,
      Matrix.sub_mul 1, Matrix.one_mul, Matrix.sub_mul Φ]
  have e5 := gram_plsSM (X := cen Φ Φ) (X' := cen Φ Φ) rfl (cen y y) K e4
  rw [plsSM_eq _ _ _ _ hr.sq1_ne, plsSM_eq _ _ _ _ hr.sq1_ne] at e5
  have e6 : F = cen y y := by
    rw [← f5]
    refine Eq.trans ?_ e3
    rw [plsCoef, ← Matrix.mul_assoc, e5, Matrix.mul_assoc]
  ext i j
  rw [Subsingleton.elim j 0, e6]
  simp only [cen, Matrix.of_apply]
  ring

/-! ## A concrete case: two samples and the RBF kernel -/

/-- KernelPLS with one component, the RBF kernel and a start vector of length two. -/
noncomputable def kfCfg (lstsq : Mat ℝ → Except PyErr (Mat ℝ)) : KplsCfg ℝ (Option ℝ) where
  K := 1
  tol := 1 / 1000
  maxIter := 10
  kern1 := applyMatrix1 rbfVector
  kern2 := applyMatrix2 rbfVector
  start _ _ := .ok (of (!![2; 0] : Matrix (Fin 2) (Fin 1) ℝ))
  lt a b := decide (a < b)
  inv := inverse lstsq

def kfX : Matrix (Fin 2) (Fin 1) ℝ := !![-1; 1]
def kfY : Matrix (Fin 2) (Fin 1) ℝ := !![3; 5]

/-- `sqrt((1 - exp(-2)) / 2)`. -/
noncomputable def kfa : ℝ := Real.sqrt ((1 - Real.exp (-2)) / 2)

theorem kf_gap : 0 < (1 - Real.exp (-2)) / 2 := by
  have : Real.exp (-2) < 1 := by
    rw [← Real.exp_zero]
    exact Real.exp_lt_exp.2 (by norm_num)
  linarith

theorem kfa_pos : 0 < kfa := Real.sqrt_pos.2 kf_gap

noncomputable def kfA : Matrix (Fin 2) (Fin 1) ℝ := !![kfa; -kfa]

theorem kf_cenX : cen kfX kfX = kfX := cen_of_zero kfX fun j => by
  rw [Fin.sum_univ_two, Subsingleton.elim j 0]
  simp [kfX]

theorem kf_cenY : cen kfY kfY = !![-1; 1] := by
  ext i j
  rw [Subsingleton.elim j 0]
  fin_cases i <;> (simp [cen, mu, kfY, Fin.sum_univ_two]; norm_num)

theorem kf_gram : cenK (Matrix.of fun i j => rbf ((none : Option ℝ).getD (1 / ((1 : Nat) : ℝ))) (cen kfX kfX i) (cen kfX kfX j)) =
    kfA * kfAᵀ := by
  have hk : (Matrix.of fun i j => rbf ((none : Option ℝ).getD (1 / ((1 : Nat) : ℝ))) (cen kfX kfX i) (cen kfX kfX j)) =
      (!![1, Real.exp (-2); Real.exp (-2), 1] : Matrix (Fin 2) (Fin 2) ℝ) := by
    have h2 : Real.sqrt 4 = 2 := by
      rw [show (4 : ℝ) = 2 * 2 by norm_num, Real.sqrt_mul_self (by norm_num)]
    rw [kf_cenX]
    ext i j
    fin_cases i <;> fin_cases j <;> simp [rbf, dist2, kfX] <;> norm_num [h2]
  have ha : kfa * kfa = (1 - Real.exp (-2)) / 2 := Real.mul_self_sqrt kf_gap.le
  rw [hk, cenK]
  ext i j
  simp only [Matrix.mul_apply, Fin.sum_univ_two, Fin.sum_univ_one, Matrix.sub_apply, Matrix.one_apply, avg, Matrix.of_apply,
    Matrix.transpose_apply]
  fin_cases i <;> fin_cases j <;> simp [kfA] <;> rw [ha] <;> ring

theorem kf_score : plsT (pls1W (cen kfY kfY)) kfA 0 = !![-kfa; kfa] := by
  have e : kfAᵀ * (!![-1; 1] : Matrix (Fin 2) (Fin 1) ℝ) = !![-2 * kfa] := by
    ext i j
    rw [Subsingleton.elim i 0, Subsingleton.elim j 0, Matrix.mul_apply, Fin.sum_univ_two]
    simp [kfA]
    ring
  have hs : Real.sqrt (sq1 (!![-2 * kfa] : Matrix (Fin 1) (Fin 1) ℝ)) = 2 * kfa := by
    rw [show sq1 (!![-2 * kfa] : Matrix (Fin 1) (Fin 1) ℝ) = (2 * kfa) * (2 * kfa) by simp [sq1],
      Real.sqrt_mul_self (by have := kfa_pos; positivity)]
  show kfA * pls1W _ kfA = _
  rw [kf_cenY, pls1W_eq, e, hs]
  have ha := kfa_pos.ne'
  ext i j
  rw [Subsingleton.elim j 0, Matrix.mul_apply, Fin.sum_univ_one]
  fin_cases i <;> (simp [kfA]; field_simp)

/-- The predictors `-1, 1` and the response `3, 5`: the predictions are the response plus a constant. -/
example (lstsq : Mat ℝ → Except PyErr (Mat ℝ)) : ∃ (m : KplsModel ℝ (Option ℝ)) (b : ℝ),
    kplsTrain (kfCfg lstsq) none (of kfX) (of kfY) = .ok m ∧
      kplsPredict (kfCfg lstsq) m (of kfX) = .ok (of (Matrix.of fun i j => kfY i j + b)) := by
  refine C137_interpolates (c := kfCfg lstsq) (v := fun _ => !![2; 0]) (K := 1) (d := 1) ⟨fun _ _ => rfl, fun _ => rfl⟩
    (by norm_num [kfCfg]) (by norm_num [kfCfg]) rfl Nat.one_pos (evaluates_rbf rfl rfl none) (psd_rbf (by norm_num)) kfX kfY
    lstsq rfl kfA kf_gram (Regular.of_sq1 fun k hk => ?_) ⟨fun k hk => ?_, fun k hk => ?_⟩
  · obtain rfl : k = 0 := by omega
    rw [kf_score]
    have := kfa_pos
    simp only [sq1]
    simp
    positivity
  · rw [show ∑ i, (!![2; 0] : Matrix (Fin 2) (Fin 1) ℝ) i 0 * (!![2; 0] : Matrix (Fin 2) (Fin 1) ℝ) i 0 = 2 * 2 by
      simp [Fin.sum_univ_two], Real.sqrt_mul_self (by norm_num)]
    norm_num [kfCfg]
  · obtain rfl : k = 0 := by omega
    rw [kf_score, Fin.sum_univ_two]
    simpa using kfa_pos.ne'

end Verif.Props
