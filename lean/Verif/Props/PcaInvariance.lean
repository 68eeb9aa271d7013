import Verif.Props.PcaOptimal

/-!
# C159: what PCA does not depend on

Two runs of PCA are compared: on the same data with other eigenvalue routines, and on data whose columns are reordered, measured in other units or rotated.
-/

namespace Verif.Props
open Verif Verif.Mat Verif.Transf
open scoped Matrix

variable {n p q q' : Nat}

/-! ## Eigenpairs -/

theorem EigPair.charpoly {C : Matrix (Fin p) (Fin p) ℝ} {ev : Fin p → ℝ} {V : Matrix (Fin p) (Fin p) ℝ} (h : EigPair C ev V) :
    C.charpoly.roots = Finset.univ.val.map ev := by
  have hu : IsUnit V.det := isUnit_iff_ne_zero.2 h.regular
  have h1 : C = V * (Matrix.diagonal ev * V⁻¹) := by
    rw [← Matrix.mul_assoc, ← h.eigen, Matrix.mul_nonsing_inv_cancel_right _ _ hu]
  rw [h1, Matrix.charpoly_mul_comm, Matrix.mul_assoc, Matrix.nonsing_inv_mul _ hu, Matrix.mul_one, roots_diag]

theorem EigPair.injective {C : Matrix (Fin p) (Fin p) ℝ} {ev : Fin p → ℝ} {V : Matrix (Fin p) (Fin p) ℝ} (h : EigPair C ev V)
    (hd : C.charpoly.roots.Nodup) : Function.Injective ev := by
  rw [h.charpoly] at hd
  intro i j hij
  exact Multiset.inj_on_of_nodup_map hd i (Finset.mem_univ_val i) j (Finset.mem_univ_val j) hij

/-- Unit eigenvectors of a simple eigenvalue agree up to sign. -/
theorem eigen_unique {C : Matrix (Fin p) (Fin p) ℝ} {ev : Fin p → ℝ} {V : Matrix (Fin p) (Fin p) ℝ} (h : EigPair C ev V)
    (hi : Function.Injective ev) (k : Fin p) (u : Matrix (Fin p) (Fin 1) ℝ) (hu : C * u = ev k • u) (h1 : ∑ i, u i 0 ^ 2 = 1) :
    ∃ σ : ℝ, (σ = 1 ∨ σ = -1) ∧ ∀ i, u i 0 = σ * V i k := by
  have hd : IsUnit V.det := isUnit_iff_ne_zero.2 h.regular
  set a := V⁻¹ * u with ha
  have hua : u = V * a := by rw [ha, ← Matrix.mul_assoc, Matrix.mul_nonsing_inv _ hd, Matrix.one_mul]
  have h2 : Matrix.diagonal ev * a = ev k • a := by
    have h3 : V * (Matrix.diagonal ev * a) = V * (ev k • a) := by
      rw [← Matrix.mul_assoc, ← h.eigen, Matrix.mul_assoc, ← hua, hu, Matrix.mul_smul, ← hua]
    have := congrArg (fun M => V⁻¹ * M) h3
    simpa only [← Matrix.mul_assoc, Matrix.nonsing_inv_mul _ hd, Matrix.one_mul] using this
  have h0 : ∀ i, i ≠ k → a i 0 = 0 := by
    intro i hik
    have := congrFun (congrFun h2 i) 0
    rw [Matrix.diagonal_mul, Matrix.smul_apply, smul_eq_mul] at this
    have hne : ev i - ev k ≠ 0 := sub_ne_zero.2 fun e => hik (hi e)
    have h4 : (ev i - ev k) * a i 0 = 0 := by linear_combination this
    exact (mul_eq_zero.1 h4).resolve_left hne
  have hcol : ∀ i, u i 0 = a k 0 * V i k := by
    intro i
    have : u i 0 = (V * a) i 0 := congrFun (congrFun hua i) 0
    rw [this, Matrix.mul_apply, Finset.sum_eq_single k (fun j _ hj => by rw [h0 j hj, mul_zero]) (fun hk => absurd (Finset.mem_univ k) hk), mul_comm]
  refine ⟨a k 0, ?_, hcol⟩
  simp only [hcol, mul_pow, ← Finset.mul_sum, h.unit k, mul_one] at h1
  exact mul_self_eq_one_iff.1 (by rw [← pow_two]; exact h1)

/-! ## Two runs -/

/-- The two runs keep the same number of components, and component by component the scores differ at most in sign and by the factor `c`, for the training
data and for all new data; `new` says how a new sample of the first run is presented to the second. -/
def PcaAgree (cfg cfg' : PcaCfg ℝ) (X : Matrix (Fin n) (Fin q) ℝ) (X' : Matrix (Fin n) (Fin q') ℝ) (c : ℝ)
    (new : ∀ r, Matrix (Fin r) (Fin q) ℝ → Matrix (Fin r) (Fin q') ℝ) : Prop :=
  ∃ (K : Nat) (st st' : PcaState ℝ) (S S' : Matrix (Fin n) (Fin K) ℝ) (L L' : Mat ℝ) (σ : Fin K → ℝ),
    pcaTransform cfg (of X) = .ok (st, of S, L) ∧ pcaTransform cfg' (of X') = .ok (st', of S', L') ∧
    (∀ k, σ k = 1 ∨ σ k = -1) ∧ (∀ i k, S' i k = c * (σ k * S i k)) ∧
    ∀ (r : Nat) (Z : Matrix (Fin r) (Fin q) ℝ), 0 < r → ∃ T T' : Matrix (Fin r) (Fin K) ℝ,
      pcaScores cfg st (of Z) = .ok (of T) ∧ pcaScores cfg' st' (of (new r Z)) = .ok (of T') ∧ ∀ i k, T' i k = c * (σ k * T i k)

theorem leading_congr {ev ev' : Fin p → ℝ} {comp comp' : Fin p → Fin p} {c : ℝ} (h : ∀ k, ev' (comp' k) = c * ev (comp k)) (k : Nat) :
    leading ev' comp' k = c * leading ev comp k := by
  unfold leading
  rw [Finset.mul_sum]
  exact Finset.sum_congr rfl fun j _ => h j

theorem kept_le {n₂ : Nat} {cfg cfg' : PcaCfg ℝ} (hv : cfg'.variance = cfg.variance) (hm : cfg'.maxColumns = cfg.maxColumns)
    {X : Matrix (Fin n) (Fin q) ℝ} {X' : Matrix (Fin n₂) (Fin q') ℝ} {κ : Fin p → Fin q} {κ' : Fin p → Fin q'} {ev ev' : Fin p → ℝ}
    {V V' : Matrix (Fin p) (Fin p) ℝ} {comp comp' : Fin p → Fin p} {K K' : Nat} (h : PcaFit cfg X κ ev V comp K) (h' : PcaFit cfg' X' κ' ev' V' comp' K')
    {c : ℝ} (hc : 0 < c) (he : ∀ k, ev' (comp' k) = c * ev (comp k)) : K ≤ K' := by
  by_contra hlt
  rw [not_le] at hlt
  have ht : ∑ i, ev' i = c * ∑ i, ev i := by
    rw [← h'.order.1.sum_comp ev', ← h.order.1.sum_comp ev, Finset.mul_sum]
    exact Finset.sum_congr rfl fun k _ => he k
  have h1 := h.least K' h'.pos hlt
  rcases h'.reach with h2 | h2 | h2
  · rw [hv, ht, leading_congr he] at h2
    nlinarith
  · have := h.le
    omega
  · have h3 := h'.pos
    have h4 := h.max (by omega)
    omega

/-- Two runs, possibly with different numbers of samples: `f` says which sample of the first run each sample of the second is. -/
theorem pca_agree_rows {n₂ : Nat} {cfg cfg' : PcaCfg ℝ} (hcfg : PcaReal cfg) (hcfg' : PcaReal cfg') (hv : cfg'.variance = cfg.variance)
    (hm : cfg'.maxColumns = cfg.maxColumns) {X : Matrix (Fin n) (Fin q) ℝ} {X' : Matrix (Fin n₂) (Fin q') ℝ} {κ : Fin (p + 1) → Fin q}
    {κ' : Fin (p + 1) → Fin q'} (hκ : Enumerates X κ) (hκ' : Enumerates X' κ') {c d : ℝ} (hc2 : 0 < d) (Q : Matrix (Fin (p + 1)) (Fin (p + 1)) ℝ) (hQ : Qᵀ * Q = 1)
    (f : Fin n₂ → Fin n) (hT : ∀ i k, prepared cfg'.centered X' κ' X' i k = (c • (prepared cfg.centered X κ X * Q)) (f i) k)
    (hcov : cov (prepared cfg'.centered X' κ' X') = d • (Qᵀ * (cov (prepared cfg.centered X κ X) * Q)))
    (new : ∀ r, Matrix (Fin r) (Fin q) ℝ → Matrix (Fin r) (Fin q') ℝ)
    (hnew : ∀ r (Z : Matrix (Fin r) (Fin q) ℝ), prepared cfg'.centered X' κ' (new r Z) = c • (prepared cfg.centered X κ Z * Q))
    (hd : (cov (prepared cfg.centered X κ X)).charpoly.roots.Nodup) :
    ∃ (K : Nat) (st st' : PcaState ℝ) (S : Matrix (Fin n) (Fin K) ℝ) (S' : Matrix (Fin n₂) (Fin K) ℝ) (L L' : Mat ℝ) (σ : Fin K → ℝ),
      pcaTransform cfg (of X) = .ok (st, of S, L) ∧ pcaTransform cfg' (of X') = .ok (st', of S', L') ∧
      (∀ k, σ k = 1 ∨ σ k = -1) ∧ (∀ i k, S' i k = c * (σ k * S (f i) k)) ∧
      ∀ (r : Nat) (Z : Matrix (Fin r) (Fin q) ℝ), 0 < r → ∃ T T' : Matrix (Fin r) (Fin K) ℝ,
        pcaScores cfg st (of Z) = .ok (of T) ∧ pcaScores cfg' st' (of (new r Z)) = .ok (of T') ∧ ∀ i k, T' i k = c * (σ k * T i k) := by
  obtain ⟨ev, V, comp, K, hK, st, S, L, h1, hf, hS, -, -, -, hnewS⟩ := pca_general cfg hcfg X κ hκ
  obtain ⟨ev', V', comp', K', hK', st', S', L', h1', hf', hS', -, -, -, hnewS'⟩ := pca_general cfg' hcfg' X' κ' hκ'
  set T := prepared cfg.centered X κ X with hTd
  have hQ' : Q * Qᵀ = 1 := mul_eq_one_comm.1 hQ
  -- the eigenvectors of the second run, seen in the first
  have hE : cov T * (Q * V') = (Q * V') * Matrix.diagonal (fun i => ev' i / d) := by
    have h2 := hf'.eigen.eigen
    rw [hcov, Matrix.smul_mul] at h2
    have h3 : (d)⁻¹ • (Q * (d • (Qᵀ * (cov T * Q) * V'))) = (d)⁻¹ • (Q * (V' * Matrix.diagonal ev')) := by rw [h2]
    rw [Matrix.mul_smul, smul_smul, inv_mul_cancel₀ hc2.ne', one_smul] at h3
    have h4 : Q * (Qᵀ * (cov T * Q) * V') = cov T * (Q * V') := by
      rw [← Matrix.mul_assoc, ← Matrix.mul_assoc, hQ', Matrix.one_mul, Matrix.mul_assoc]
    rw [h4] at h3
    rw [h3]
    ext i j
    rw [Matrix.smul_apply, ← Matrix.mul_assoc, Matrix.mul_diagonal, Matrix.mul_diagonal, smul_eq_mul]
    ring
  have hunit : ∀ j, ∑ k, (Q * V') k j ^ 2 = 1 := by
    intro j
    rw [← hf'.eigen.unit j]
    have e : ∀ M : Matrix (Fin (p + 1)) (Fin (p + 1)) ℝ, ∑ k, M k j ^ 2 = (Mᵀ * M) j j := fun M => by
      rw [Matrix.mul_apply]
      exact Finset.sum_congr rfl fun k _ => pow_two _
    rw [e, e, Matrix.transpose_mul, Matrix.mul_assoc, ← Matrix.mul_assoc Qᵀ, hQ, Matrix.one_mul]
  have hpair : EigPair (cov T) (fun i => ev' i / d) (Q * V') := by
    refine ⟨hE, ?_, hunit⟩
    rw [Matrix.det_mul]
    refine mul_ne_zero (fun h0 => ?_) hf'.eigen.regular
    have := congrArg Matrix.det hQ
    rw [Matrix.det_mul, h0, mul_zero, Matrix.det_one] at this
    exact zero_ne_one this
  have hroots : Finset.univ.val.map (ev ∘ comp) = Finset.univ.val.map ((fun i => ev' i / d) ∘ comp') := by
    have e : ∀ {g : Fin (p + 1) → Fin (p + 1)}, Function.Bijective g → ∀ f : Fin (p + 1) → ℝ, Finset.univ.val.map (f ∘ g) = Finset.univ.val.map f := by
      intro g hg f
      rw [← Multiset.map_map]
      congr 1
      have := Finset.map_univ_equiv (Equiv.ofBijective g hg)
      have h5 := congrArg Finset.val this
      rwa [Finset.map_val] at h5
    rw [e hf.order.1, e hf'.order.1, ← hpair.charpoly, hf.eigen.charpoly]
  have hev := multiset_antitone hf.order.2 (fun a b hab => div_le_div_of_nonneg_right (hf'.order.2 hab) hc2.le) hroots
  have hev1 : ∀ k, ev' (comp' k) = d * ev (comp k) := fun k => by
    have := congrFun hev k
    simp only [Function.comp_apply] at this
    rw [this]
    field_simp
  have hev2 : ∀ k, ev (comp k) = (d)⁻¹ * ev' (comp' k) := fun k => by
    rw [hev1, ← mul_assoc, inv_mul_cancel₀ hc2.ne', one_mul]
  have hKK : K = K' := le_antisymm (kept_le hv hm hf hf' hc2 hev1) (kept_le hv.symm hm.symm hf' hf (inv_pos.2 hc2) hev2)
  subst hKK
  have hinj := hf.eigen.injective hd
  have hsig : ∀ k : Fin (p + 1), ∃ σ : ℝ, (σ = 1 ∨ σ = -1) ∧ ∀ i, (Q * V') i (comp' k) = σ * V i (comp k) := by
    intro k
    refine eigen_unique hf.eigen hinj (comp k) (Matrix.of fun i (_ : Fin 1) => (Q * V') i (comp' k)) ?_ (hunit (comp' k))
    ext i j
    have h6 := congrFun (congrFun hE i) (comp' k)
    rw [Matrix.mul_diagonal, Matrix.mul_apply] at h6
    rw [Matrix.mul_apply, Matrix.smul_apply, smul_eq_mul]
    simp only [Matrix.of_apply]
    rw [h6, hev2 k]
    ring
  choose σ hσ1 hσ2 using hsig
  have hscore : ∀ {r : Nat} (Z : Matrix (Fin r) (Fin (p + 1)) ℝ) i (k : Fin (p + 1)),
      (c • (Z * Q) * V') i (comp' k) = c * (σ k * (Z * V) i (comp k)) := by
    intro r Z i k
    have e : (Z * (Q * V')) i (comp' k) = σ k * (Z * V) i (comp k) := by
      rw [Matrix.mul_apply, Matrix.mul_apply, Finset.mul_sum]
      refine Finset.sum_congr rfl fun l _ => ?_
      rw [hσ2 k l]
      ring
    rw [Matrix.smul_mul, Matrix.smul_apply, smul_eq_mul, Matrix.mul_assoc, e]
  refine ⟨K, st, st', S, S', of L, of L', fun k => σ ⟨k.1, lt_of_lt_of_le k.2 hK⟩, h1, h1', fun k => hσ1 _, fun i k => ?_, fun r Z hr => ?_⟩
  · rw [hS' i k, hS (f i) k, ← hscore T (f i), Matrix.mul_apply, Matrix.mul_apply]
    exact Finset.sum_congr rfl fun l _ => by rw [hT]
  · obtain ⟨A, hA1, hA2⟩ := hnewS r Z hr
    obtain ⟨A', hA1', hA2'⟩ := hnewS' r (new r Z) hr
    refine ⟨A, A', hA1, hA1', fun i k => ?_⟩
    rw [hA2' i k, hA2 i k, hnew]
    exact hscore _ i _

theorem pca_agree {cfg cfg' : PcaCfg ℝ} (hcfg : PcaReal cfg) (hcfg' : PcaReal cfg') (hv : cfg'.variance = cfg.variance)
    (hm : cfg'.maxColumns = cfg.maxColumns) {X : Matrix (Fin n) (Fin q) ℝ} {X' : Matrix (Fin n) (Fin q') ℝ} {κ : Fin (p + 1) → Fin q}
    {κ' : Fin (p + 1) → Fin q'} (hκ : Enumerates X κ) (hκ' : Enumerates X' κ') {c : ℝ} (hc : c ≠ 0) (Q : Matrix (Fin (p + 1)) (Fin (p + 1)) ℝ) (hQ : Qᵀ * Q = 1)
    (hT : prepared cfg'.centered X' κ' X' = c • (prepared cfg.centered X κ X * Q))
    (new : ∀ r, Matrix (Fin r) (Fin q) ℝ → Matrix (Fin r) (Fin q') ℝ)
    (hnew : ∀ r (Z : Matrix (Fin r) (Fin q) ℝ), prepared cfg'.centered X' κ' (new r Z) = c • (prepared cfg.centered X κ Z * Q))
    (hd : (cov (prepared cfg.centered X κ X)).charpoly.roots.Nodup) : PcaAgree cfg cfg' X X' c new := by
  have hcov : cov (prepared cfg'.centered X' κ' X') = c ^ 2 • (Qᵀ * (cov (prepared cfg.centered X κ X) * Q)) := by
    rw [hT]
    unfold cov
    rw [Matrix.transpose_smul, Matrix.transpose_mul, Matrix.smul_mul, Matrix.mul_smul, Matrix.smul_mul, Matrix.mul_smul, Matrix.mul_assoc, Matrix.mul_assoc,
      smul_smul, smul_smul, smul_smul]
    congr 1
    ring
  exact pca_agree_rows hcfg hcfg' hv hm hκ hκ' (by positivity) Q hQ id (fun i k => by rw [hT]; rfl) hcov new hnew hd

/-! ## Instances -/

theorem pcaMu (hn : n ≠ 0) (f : Fin n → ℝ) (b a : ℝ) : (mu fun i => b * f i + a) = b * mu f + a := by
  have : (n : ℝ) ≠ 0 := by exact_mod_cast hn
  unfold mu
  rw [Finset.sum_add_distrib, ← Finset.mul_sum, Finset.sum_const, Finset.card_univ, Fintype.card_fin, nsmul_eq_mul]
  field_simp

theorem pcaSd (hn : n ≠ 0) (f : Fin n → ℝ) (b a : ℝ) : (sd fun i => b * f i + a) = |b| * sd f := by
  unfold sd
  rw [pcaMu hn]
  have e : ∀ i, (b * f i + a - (b * mu f + a)) ^ 2 = b ^ 2 * (f i - mu f) ^ 2 := fun i => by ring
  rw [Finset.sum_congr rfl fun i _ => e i, ← Finset.mul_sum, mul_div_assoc, Real.sqrt_mul (sq_nonneg b), Real.sqrt_sq_eq_abs]

theorem two_rows {X : Matrix (Fin n) (Fin q) ℝ} {κ : Fin (p + 1) → Fin q} (h : Enumerates X κ) : n ≠ 0 := by
  have := two_le_of_nonConst ((h.mem (κ 0)).1 ⟨0, rfl⟩)
  omega

/-- The columns PCA uses, and that their covariance matrix has no repeated eigenvalue. -/
def SimpleSpectrum (centered : Bool) (X : Matrix (Fin n) (Fin q) ℝ) (κ : Fin (p + 1) → Fin q) : Prop :=
  Enumerates X κ ∧ (cov (prepared centered X κ X)).charpoly.roots.Nodup

/-- **C159 (routines).**  Whichever eigenvalue and sorting routines are used, PCA keeps the same number of components and the scores differ at most in sign. -/
theorem C159_routines (cfg cfg' : PcaCfg ℝ) (hcfg : PcaReal cfg) (hcfg' : PcaReal cfg') (hv : cfg'.variance = cfg.variance)
    (hm : cfg'.maxColumns = cfg.maxColumns) (hc : cfg'.centered = cfg.centered) (X : Matrix (Fin n) (Fin q) ℝ) (κ : Fin (p + 1) → Fin q)
    (hX : SimpleSpectrum cfg.centered X κ) : PcaAgree cfg cfg' X X 1 fun _ Z => Z := by
  refine pca_agree hcfg hcfg' hv hm hX.1 hX.1 one_ne_zero 1 (by simp) ?_ _ (fun r Z => ?_) hX.2
  · rw [hc, Matrix.mul_one, one_smul]
  · rw [hc, Matrix.mul_one, one_smul]

/-- **C159 (order of the columns).** -/
theorem C159_order (cfg : PcaCfg ℝ) (hcfg : PcaReal cfg) (X : Matrix (Fin n) (Fin q) ℝ) (κ : Fin (p + 1) → Fin q) (hX : SimpleSpectrum cfg.centered X κ)
    (τ : Equiv.Perm (Fin q)) : PcaAgree cfg cfg X (X.submatrix id τ) 1 fun _ Z => Z.submatrix id τ := by
  obtain ⟨hκ, hd⟩ := hX
  have hnc : ∀ j, NonConst (X.submatrix id τ) j ↔ NonConst X (τ j) := fun j => Iff.rfl
  obtain ⟨p', κ', hκ'⟩ := enum_exists (X.submatrix id τ) ⟨τ.symm (κ 0), (hnc _).2 (by rw [τ.apply_symm_apply]; exact (hκ.mem _).1 ⟨0, rfl⟩)⟩
  have hex : ∀ j : Fin (p' + 1), ∃ l, κ l = τ (κ' j) := fun j => (hκ.mem _).2 ((hnc _).1 ((hκ'.mem _).1 ⟨j, rfl⟩))
  have hex' : ∀ l : Fin (p + 1), ∃ j, κ' j = τ.symm (κ l) := fun l =>
    (hκ'.mem _).2 ((hnc _).2 (by rw [τ.apply_symm_apply]; exact (hκ.mem _).1 ⟨l, rfl⟩))
  choose ρ hρ using hex
  choose ρ' hρ' using hex'
  have hi : Function.Injective ρ := fun a b h => hκ'.mono.injective (τ.injective (by rw [← hρ, ← hρ, h]))
  have hi' : Function.Injective ρ' := fun a b h => hκ.mono.injective (τ.symm.injective (by rw [← hρ', ← hρ', h]))
  have hpp : p' = p := by
    have h1 := Fintype.card_le_of_injective ρ hi
    have h2 := Fintype.card_le_of_injective ρ' hi'
    simp only [Fintype.card_fin] at h1 h2
    omega
  subst hpp
  have hsub : ∀ {r : Nat} (M : Matrix (Fin r) (Fin (p' + 1)) ℝ), M * (1 : Matrix (Fin (p' + 1)) (Fin (p' + 1)) ℝ).submatrix id ρ = M.submatrix id ρ := by
    intro r M
    ext i j
    rw [Matrix.mul_apply, Finset.sum_eq_single (ρ j)]
    · show M i (ρ j) * (1 : Matrix (Fin (p' + 1)) (Fin (p' + 1)) ℝ) (ρ j) (ρ j) = M i (ρ j)
      rw [Matrix.one_apply_eq, mul_one]
    · intro l _ hl
      rw [Matrix.submatrix_apply, id, Matrix.one_apply_ne hl, mul_zero]
    · exact fun h => absurd (Finset.mem_univ _) h
  have hprep : ∀ {r : Nat} (Z : Matrix (Fin r) (Fin q) ℝ),
      prepared cfg.centered (X.submatrix id τ) κ' (Z.submatrix id τ) = (prepared cfg.centered X κ Z).submatrix id ρ := by
    intro r Z
    ext i j
    simp only [prepared, Matrix.of_apply, Matrix.submatrix_apply, id, hρ]
  refine pca_agree hcfg hcfg rfl rfl hκ hκ' one_ne_zero ((1 : Matrix (Fin (p' + 1)) (Fin (p' + 1)) ℝ).submatrix id ρ) ?_ ?_ _ (fun r Z => ?_) hd
  · ext i j
    rw [Matrix.transpose_submatrix, Matrix.transpose_one, hsub]
    show (1 : Matrix (Fin (p' + 1)) (Fin (p' + 1)) ℝ) (ρ i) (ρ j) = _
    by_cases hij : i = j
    · rw [hij, Matrix.one_apply_eq, Matrix.one_apply_eq]
    · rw [Matrix.one_apply_ne hij, Matrix.one_apply_ne fun e => hij (hi e)]
  · rw [hprep, hsub, one_smul]
  · rw [hprep, hsub, one_smul]

theorem enum_units {X : Matrix (Fin n) (Fin q) ℝ} {κ : Fin (p + 1) → Fin q} (h : Enumerates X κ) (b a : Fin q → ℝ) (hb : ∀ j, b j ≠ 0) :
    Enumerates (Matrix.of fun i j => b j * X i j + a j) κ := by
  refine ⟨h.mono, fun j => (h.mem j).trans ⟨fun ⟨i, i', hij⟩ => ⟨i, i', fun e => hij ?_⟩, fun ⟨i, i', hij⟩ => ⟨i, i', fun e => hij ?_⟩⟩⟩
  · simp only [Matrix.of_apply] at e
    exact mul_left_cancel₀ (hb j) (add_right_cancel e)
  · simp only [Matrix.of_apply]
    rw [e]

/-- **C159 (units, standardised data).**  Every column may be measured in its own unit and from its own zero, even with its sign changed. -/
theorem C159_units (cfg : PcaCfg ℝ) (hcfg : PcaReal cfg) (hc : cfg.centered = false) (X : Matrix (Fin n) (Fin q) ℝ) (κ : Fin (p + 1) → Fin q)
    (hX : SimpleSpectrum cfg.centered X κ) (b a : Fin q → ℝ) (hb : ∀ j, b j ≠ 0) :
    PcaAgree cfg cfg X (Matrix.of fun i j => b j * X i j + a j) 1 fun _ Z => Matrix.of fun i j => b j * Z i j + a j := by
  obtain ⟨hκ, hd⟩ := hX
  have hn := two_rows hκ
  have hprep : ∀ {r : Nat} (Z : Matrix (Fin r) (Fin q) ℝ), prepared cfg.centered (Matrix.of fun i j => b j * X i j + a j) κ (Matrix.of fun i j => b j * Z i j + a j) =
      (1 : ℝ) • (prepared cfg.centered X κ Z * Matrix.diagonal fun j => b (κ j) / |b (κ j)|) := by
    intro r Z
    ext i j
    rw [one_smul, Matrix.mul_diagonal, hc]
    simp only [prepared, Matrix.of_apply, Bool.false_eq_true, if_false]
    rw [pcaMu hn, pcaSd hn, add_sub_add_right_eq_sub, ← mul_sub, div_mul_div_comm, mul_comm (b (κ j)), mul_comm (|b (κ j)|)]
  refine pca_agree hcfg hcfg rfl rfl hκ (enum_units hκ b a hb) one_ne_zero _ ?_ (hprep X) _ (fun r Z => hprep Z) hd
  rw [Matrix.diagonal_transpose, Matrix.diagonal_mul_diagonal, ← Matrix.diagonal_one]
  congr 1
  funext j
  rw [div_mul_div_comm, abs_mul_abs_self, div_self (mul_ne_zero (hb _) (hb _))]

/-- **C159 (units, centred data).**  With a common factor the scores are multiplied by it; the zero points do not matter. -/
theorem C159_units_centred (cfg : PcaCfg ℝ) (hcfg : PcaReal cfg) (hc : cfg.centered = true) (X : Matrix (Fin n) (Fin q) ℝ) (κ : Fin (p + 1) → Fin q)
    (hX : SimpleSpectrum cfg.centered X κ) (b : ℝ) (a : Fin q → ℝ) (hb : b ≠ 0) :
    PcaAgree cfg cfg X (Matrix.of fun i j => b * X i j + a j) b fun _ Z => Matrix.of fun i j => b * Z i j + a j := by
  obtain ⟨hκ, hd⟩ := hX
  have hn := two_rows hκ
  have hprep : ∀ {r : Nat} (Z : Matrix (Fin r) (Fin q) ℝ), prepared cfg.centered (Matrix.of fun i j => b * X i j + a j) κ (Matrix.of fun i j => b * Z i j + a j) =
      b • (prepared cfg.centered X κ Z * (1 : Matrix (Fin (p + 1)) (Fin (p + 1)) ℝ)) := by
    intro r Z
    ext i j
    rw [Matrix.mul_one, hc, Matrix.smul_apply, smul_eq_mul]
    simp only [prepared, Matrix.of_apply, if_true]
    rw [pcaMu hn]
    ring
  exact pca_agree hcfg hcfg rfl rfl hκ (enum_units hκ (fun _ => b) a fun _ => hb) hb 1 (by simp) (hprep X) _ (fun r Z => hprep Z) hd

/-- **C159 (orientation of the axes, centred data).**  Rotating or reflecting the space of the predictors; no column may be constant before or after. -/
theorem C159_rotation (cfg : PcaCfg ℝ) (hcfg : PcaReal cfg) (hc : cfg.centered = true) (X : Matrix (Fin n) (Fin (p + 1)) ℝ)
    (hX : SimpleSpectrum cfg.centered X id) (R : Matrix (Fin (p + 1)) (Fin (p + 1)) ℝ) (hR : Rᵀ * R = 1) (hXR : ∀ j, ∃ i i', (X * R) i j ≠ (X * R) i' j) :
    PcaAgree cfg cfg X (X * R) 1 fun _ Z => Z * R := by
  obtain ⟨hκ, hd⟩ := hX
  have hκ' : Enumerates (X * R) (id : Fin (p + 1) → Fin (p + 1)) := ⟨strictMono_id, fun j => ⟨fun _ => hXR j, fun _ => ⟨j, rfl⟩⟩⟩
  have hprep : ∀ {r : Nat} (Z : Matrix (Fin r) (Fin (p + 1)) ℝ), prepared cfg.centered (X * R) id (Z * R) = (1 : ℝ) • (prepared cfg.centered X id Z * R) := by
    intro r Z
    ext i j
    rw [one_smul, hc]
    simp only [prepared, Matrix.of_apply, if_true, div_one, id, Matrix.mul_apply, mu]
    rw [Finset.sum_comm, Finset.sum_div, ← Finset.sum_sub_distrib]
    exact Finset.sum_congr rfl fun l _ => by rw [← Finset.sum_mul]; ring
  exact pca_agree hcfg hcfg rfl rfl hκ hκ' one_ne_zero R hR (hprep X) _ (fun r Z => hprep Z) hd

/-! ## A case that meets the hypotheses -/

/-- Four samples of two uncorrelated columns with different variances. -/
theorem pcaEx_simple : SimpleSpectrum true (!![1, 2; -1, -2; 1, -2; -1, 2] : Matrix (Fin 4) (Fin 2) ℝ) (id : Fin 2 → Fin 2) := by
  refine ⟨⟨strictMono_id, fun j => ⟨fun _ => ?_, fun _ => ⟨j, rfl⟩⟩⟩, ?_⟩
  · fin_cases j
    · exact ⟨0, 1, by norm_num⟩
    · exact ⟨0, 1, by norm_num⟩
  · have e : cov (prepared true (!![1, 2; -1, -2; 1, -2; -1, 2] : Matrix (Fin 4) (Fin 2) ℝ) id (!![1, 2; -1, -2; 1, -2; -1, 2] : Matrix (Fin 4) (Fin 2) ℝ)) =
        Matrix.diagonal (![4 / 3, 16 / 3] : Fin 2 → ℝ) := by
      ext i j
      unfold cov prepared mu
      rw [Matrix.smul_apply, Matrix.mul_apply]
      fin_cases i <;> fin_cases j <;> simp [Fin.sum_univ_four, Matrix.diagonal] <;> norm_num
    rw [e, roots_diag]
    refine Multiset.Nodup.map ?_ Finset.univ.nodup
    intro i j
    fin_cases i <;> fin_cases j <;> simp

/-- The other order, other units and a rotation by a quarter turn. -/
example (cfg : PcaCfg ℝ) (hcfg : PcaReal cfg) (hc : cfg.centered = true) :=
  And.intro (C159_order cfg hcfg _ id (by rw [hc]; exact pcaEx_simple) (Equiv.swap 0 1))
    (And.intro (C159_units_centred cfg hcfg hc _ id (by rw [hc]; exact pcaEx_simple) (-3) ![5, 7] (by norm_num))
      (C159_rotation cfg hcfg hc _ (by rw [hc]; exact pcaEx_simple) (!![0, 1; -1, 0] : Matrix (Fin 2) (Fin 2) ℝ)
        (by ext i j; fin_cases i <;> fin_cases j <;> simp [Matrix.mul_apply, Fin.sum_univ_two])
        (fun j => by
          fin_cases j
          · exact ⟨0, 1, by norm_num [Matrix.mul_apply, Fin.sum_univ_two]⟩
          · exact ⟨0, 1, by norm_num [Matrix.mul_apply, Fin.sum_univ_two]⟩)))

example (cfg cfg' : PcaCfg ℝ) (hcfg : PcaReal cfg) (hcfg' : PcaReal cfg') (hv : cfg'.variance = cfg.variance) (hm : cfg'.maxColumns = cfg.maxColumns)
    (hc : cfg.centered = true) (hc' : cfg'.centered = true) :=
  C159_routines cfg cfg' hcfg hcfg' hv hm (hc'.trans hc.symm) _ id (by rw [hc]; exact pcaEx_simple)

/-- Standardised data: two perfectly correlated columns. -/
theorem pcaEx_standard : SimpleSpectrum false (!![1, 2; -1, -2] : Matrix (Fin 2) (Fin 2) ℝ) (id : Fin 2 → Fin 2) := by
  refine ⟨⟨strictMono_id, fun j => ⟨fun _ => ?_, fun _ => ⟨j, rfl⟩⟩⟩, ?_⟩
  · fin_cases j
    · exact ⟨0, 1, by norm_num⟩
    · exact ⟨0, 1, by norm_num⟩
  · have hs : ∀ a : ℝ, 0 ≤ a → (sd fun i : Fin 2 => Matrix.vecCons a (fun _ => -a) i) = Real.sqrt 2 * a := by
      intro a ha
      unfold sd mu
      rw [Real.sqrt_eq_iff_mul_self_eq (by positivity) (by positivity)]
      have h2 := Real.mul_self_sqrt (show (0 : ℝ) ≤ 2 by norm_num)
      norm_num [Fin.sum_univ_two]
      linear_combination -a ^ 2 * h2
    have e : cov (prepared false (!![1, 2; -1, -2] : Matrix (Fin 2) (Fin 2) ℝ) id (!![1, 2; -1, -2] : Matrix (Fin 2) (Fin 2) ℝ)) =
        (!![1, 1; 1, -1] : Matrix (Fin 2) (Fin 2) ℝ) * (Matrix.diagonal (![2, 0] : Fin 2 → ℝ) * (!![1 / 2, 1 / 2; 1 / 2, -(1 / 2)] : Matrix (Fin 2) (Fin 2) ℝ)) := by
      have h2 := Real.mul_self_sqrt (show (0 : ℝ) ≤ 2 by norm_num)
      have h0 : Real.sqrt 2 ≠ 0 := by positivity
      ext i j
      unfold cov prepared
      rw [Matrix.smul_apply, Matrix.mul_apply, Matrix.mul_apply]
      simp only [Matrix.of_apply, Matrix.transpose_apply, id, mu, Bool.false_eq_true, if_false, Matrix.diagonal_mul, Fin.sum_univ_two, smul_eq_mul]
      have s1 := hs 1 (by norm_num)
      have s2 := hs 2 (by norm_num)
      fin_cases i <;> fin_cases j <;> norm_num <;> simp only [s1, s2] <;> field_simp <;>
        nlinarith
    have hinv : (!![1 / 2, 1 / 2; 1 / 2, -(1 / 2)] : Matrix (Fin 2) (Fin 2) ℝ) * (!![1, 1; 1, -1] : Matrix (Fin 2) (Fin 2) ℝ) = 1 := by
      ext i j
      rw [Matrix.mul_apply, Fin.sum_univ_two]
      fin_cases i <;> fin_cases j <;> norm_num
    rw [e, Matrix.charpoly_mul_comm, Matrix.mul_assoc, hinv, Matrix.mul_one, roots_diag]
    refine Multiset.Nodup.map ?_ Finset.univ.nodup
    intro i j
    fin_cases i <;> fin_cases j <;> simp

example (cfg : PcaCfg ℝ) (hcfg : PcaReal cfg) (hc : cfg.centered = false) :=
  C159_units cfg hcfg hc _ id (by rw [hc]; exact pcaEx_standard) ![-3, 1000] ![5, 7] (fun j => by fin_cases j <;> norm_num)

end Verif.Props
