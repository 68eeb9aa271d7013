import Verif.Alg.PlsKrylov
import Verif.Props.PlsInvariance

/-!
# C114–C117: what PLS1 computes, without reference to the algorithm

C114: the regression vector of PLS1 is the least-squares solution over the Krylov space of `XᵀX` and `Xᵀy`.
C115: its length grows with the number of components and is bounded by that of least squares.
C116: the fit is at least as good as that of regression on as many principal components.
C117: each weight vector maximises the covariance with the response in the predictors left over.
-/

namespace Verif.Props
open Verif Mat
open scoped Matrix

variable {n p : Nat}

/-- The space spanned by `Xᵀy, (XᵀX) Xᵀy, …, (XᵀX)^(K-1) Xᵀy`. -/
def krylov (X : Matrix (Fin n) (Fin p) ℝ) (y : Matrix (Fin n) (Fin 1) ℝ) (K : Nat) : Submodule ℝ (Matrix (Fin p) (Fin 1) ℝ) :=
  Submodule.span ℝ {v | ∃ i < K, v = (Xᵀ * X) ^ i * (Xᵀ * y)}

theorem krylov_mono (X : Matrix (Fin n) (Fin p) ℝ) (y : Matrix (Fin n) (Fin 1) ℝ) {K K' : Nat} (h : K ≤ K') : krylov X y K ≤ krylov X y K' :=
  Submodule.span_mono fun _ ⟨i, hi, hv⟩ => ⟨i, by omega, hv⟩

/-- `XᵀX` takes one space into the next. -/
theorem krylov_gram (X : Matrix (Fin n) (Fin p) ℝ) (y : Matrix (Fin n) (Fin 1) ℝ) {K : Nat} {v : Matrix (Fin p) (Fin 1) ℝ} (h : v ∈ krylov X y K) :
    Xᵀ * X * v ∈ krylov X y (K + 1) := by
  unfold krylov at h
  induction h using Submodule.span_induction with
  | mem v hv =>
    obtain ⟨i, hi, rfl⟩ := hv
    exact Submodule.subset_span ⟨i + 1, by omega, by rw [← Matrix.mul_assoc, ← pow_succ']⟩
  | zero => rw [Matrix.mul_zero]; exact Submodule.zero_mem _
  | add a b _ _ ha hb => rw [Matrix.mul_add]; exact Submodule.add_mem _ ha hb
  | smul c a _ ha => rw [Matrix.mul_smul]; exact Submodule.smul_mem _ _ ha

section directions
variable (X : Matrix (Fin n) (Fin p) ℝ) (y : Matrix (Fin n) (Fin 1) ℝ)

/-- Span of the first directions. -/
def dirs (K : Nat) : Submodule ℝ (Matrix (Fin p) (Fin 1) ℝ) := Submodule.span ℝ {v | ∃ i < K, v = krR X y i}

theorem R_mem_dirs {i K : Nat} (h : i < K) : krR X y i ∈ dirs X y K := Submodule.subset_span ⟨i, h, rfl⟩

theorem dirs_mono {K K' : Nat} (h : K ≤ K') : dirs X y K ≤ dirs X y K' :=
  Submodule.span_mono fun _ ⟨i, hi, hv⟩ => ⟨i, by omega, hv⟩

theorem W_mem_dirs {i K : Nat} (h : i < K) : plsW (pls1W y) X i ∈ dirs X y K := by
  cases i with
  | zero => exact R_mem_dirs X y h
  | succ i =>
    have : plsW (pls1W y) X (i + 1) = krR X y (i + 1) - plsG X y i • krR X y i := by rw [krR]; abel
    rw [this]
    exact Submodule.sub_mem _ (R_mem_dirs X y h) (Submodule.smul_mem _ _ (R_mem_dirs X y (by omega)))

theorem R_mem_krylov {k : Nat} (h : ∀ i ≤ k, sq1 (plsT (pls1W y) X i) ≠ 0) :
    plsW (pls1W y) X k ∈ krylov X y (k + 1) ∧ krR X y k ∈ krylov X y (k + 1) := by
  induction k with
  | zero =>
    have hw : plsW (pls1W y) X 0 ∈ krylov X y 1 := by
      have h0 := (plsC_pos X y (h 0 le_rfl)).ne'
      have : plsW (pls1W y) X 0 = (plsC X y 0)⁻¹ • (Xᵀ * y) := by
        rw [show Xᵀ * y = plsC X y 0 • plsW (pls1W y) X 0 from cross_eq X y 0, smul_smul, inv_mul_cancel₀ h0, one_smul]
      rw [this]
      exact Submodule.smul_mem _ _ (Submodule.subset_span ⟨0, by omega, by rw [pow_zero, Matrix.one_mul]⟩)
    exact ⟨hw, hw⟩
  | succ k ih =>
    obtain ⟨hw, hr⟩ := ih fun i hi => h i (by omega)
    have hc := plsC_pos X y (h k (by omega))
    have hc' := plsC_pos X y (h (k + 1) le_rfl)
    have hs := h k (by omega)
    have hg : plsG X y k ≠ 0 := (div_pos hc' hc).ne'
    have hw' : plsW (pls1W y) X (k + 1) ∈ krylov X y (k + 1 + 1) := by
      have e : plsW (pls1W y) X (k + 1) = (plsG X y k)⁻¹ • (plsW (pls1W y) X k - (sq1 (plsT (pls1W y) X k))⁻¹ • (Xᵀ * X * krR X y k)) := by
        rw [gram_R X y fun i hi => h i (by omega), smul_smul, inv_mul_cancel₀ hs, one_smul, sub_sub_cancel, smul_smul, inv_mul_cancel₀ hg, one_smul]
      rw [e]
      exact Submodule.smul_mem _ _ (Submodule.sub_mem _ (krylov_mono X y (Nat.le_succ _) hw) (Submodule.smul_mem _ _ (krylov_gram X y hr)))
    exact ⟨hw', Submodule.add_mem _ hw' (Submodule.smul_mem _ _ (krylov_mono X y (Nat.le_succ _) hr))⟩

theorem dirs_gram {k : Nat} (h : ∀ i < k, sq1 (plsT (pls1W y) X i) ≠ 0) {v : Matrix (Fin p) (Fin 1) ℝ} (hv : v ∈ dirs X y k) :
    Xᵀ * X * v ∈ dirs X y (k + 1) := by
  unfold dirs at hv
  induction hv using Submodule.span_induction with
  | mem v hv =>
    obtain ⟨i, hi, rfl⟩ := hv
    rw [gram_R X y fun j hj => h j (by omega)]
    exact Submodule.smul_mem _ _ (Submodule.sub_mem _ (W_mem_dirs X y (by omega)) (Submodule.smul_mem _ _ (W_mem_dirs X y (by omega))))
  | zero => rw [Matrix.mul_zero]; exact Submodule.zero_mem _
  | add a b _ _ ha hb => rw [Matrix.mul_add]; exact Submodule.add_mem _ ha hb
  | smul c a _ ha => rw [Matrix.mul_smul]; exact Submodule.smul_mem _ _ ha

/-- The directions of `K` components span the Krylov space. -/
theorem dirs_eq {K : Nat} (h : ∀ i < K, sq1 (plsT (pls1W y) X i) ≠ 0) : dirs X y K = krylov X y K := by
  refine le_antisymm (Submodule.span_le.mpr ?_) (Submodule.span_le.mpr ?_)
  · rintro v ⟨i, hi, rfl⟩
    exact krylov_mono X y (by omega) (R_mem_krylov X y fun j hj => h j (by omega)).2
  · rintro v ⟨i, hi, rfl⟩
    have : ∀ i < K, (Xᵀ * X) ^ i * (Xᵀ * y) ∈ dirs X y (i + 1) := by
      intro i
      induction i with
      | zero =>
        intro _
        rw [pow_zero, Matrix.one_mul, show Xᵀ * y = plsC X y 0 • plsW (pls1W y) X 0 from cross_eq X y 0]
        exact Submodule.smul_mem _ _ (W_mem_dirs X y (by omega))
      | succ i ih =>
        intro hi
        rw [pow_succ', Matrix.mul_assoc]
        exact dirs_gram X y (fun j hj => h j (by omega)) (ih (by omega))
    exact dirs_mono X y (by omega) (this i hi)

/-- The regression vector of `K` components. -/
noncomputable def plsBeta (K : Nat) : Matrix (Fin p) (Fin 1) ℝ := ∑ k ∈ Finset.range K, plsB (pls1W y) X y k • krR X y k

theorem beta_eq {K : Nat} (h : ∀ i < K, sq1 (plsT (pls1W y) X i) ≠ 0) :
    plsWM (pls1W y) K X * ((plsPM (pls1W y) K X)ᵀ * plsWM (pls1W y) K X)⁻¹ * plsBM (pls1W y) K X y = plsBeta X y K := by
  have hR : (Matrix.of fun i (j : Fin K) => krR X y j.1 i 0) * ((plsPM (pls1W y) K X)ᵀ * plsWM (pls1W y) K X) = plsWM (pls1W y) K X := by
    ext a j
    rw [Matrix.mul_apply]
    have e : ∀ i : Fin K, ((plsPM (pls1W y) K X)ᵀ * plsWM (pls1W y) K X) i j = ip (plsP (pls1W y) X i.1) (plsW (pls1W y) X j.1) :=
      fun i => plsPM_WM_apply _ K X i j
    simp only [e, Matrix.of_apply]
    rw [Fin.sum_univ_eq_sum_range (fun i => krR X y i a 0 * ip (plsP (pls1W y) X i) (plsW (pls1W y) X j.1)) K]
    obtain ⟨j, hj⟩ := j
    simp only [plsWM, Matrix.of_apply]
    have hself : ip (plsP (pls1W y) X j) (plsW (pls1W y) X j) = 1 := by
      unfold ip
      rw [plsP_W_self _ X j (h j hj)]
      rfl
    have hlow : ∀ i < K, j < i → ip (plsP (pls1W y) X i) (plsW (pls1W y) X j) = 0 := by
      intro i hi hij
      unfold ip
      rw [plsP_W_lower _ X i j hij (h j hj)]
      rfl
    cases j with
    | zero =>
      rw [Finset.sum_eq_single_of_mem 0 (Finset.mem_range.mpr hj), hself, mul_one]
      · rfl
      · intro b hb hb0
        rw [hlow b (Finset.mem_range.mp hb) (by omega), mul_zero]
    | succ j =>
      rw [Finset.sum_eq_add_of_mem (j + 1) j (Finset.mem_range.mpr hj) (Finset.mem_range.mpr (by omega)) (by omega), hself, mul_one,
        plsP_W_next X y (h j (by omega)) (plsC_pos X y (h _ hj)), krR, Matrix.add_apply, Matrix.smul_apply, smul_eq_mul]
      · ring
      · rintro b hb ⟨h1, h2⟩
        rcases (by omega : j + 1 < b ∨ b + 1 < j + 1) with hlt | hlt
        · rw [hlow b (Finset.mem_range.mp hb) hlt, mul_zero]
        · rw [plsP_W_far X y hlt fun i hi => h i (by omega), mul_zero]
  have hd : IsUnit ((plsPM (pls1W y) K X)ᵀ * plsWM (pls1W y) K X).det := by rw [det_ptw _ K X h]; exact isUnit_one
  have hW : plsWM (pls1W y) K X * ((plsPM (pls1W y) K X)ᵀ * plsWM (pls1W y) K X)⁻¹ = Matrix.of fun i (j : Fin K) => krR X y j.1 i 0 := by
    calc _ = (Matrix.of fun i (j : Fin K) => krR X y j.1 i 0) * ((plsPM (pls1W y) K X)ᵀ * plsWM (pls1W y) K X) *
          ((plsPM (pls1W y) K X)ᵀ * plsWM (pls1W y) K X)⁻¹ := by rw [hR]
      _ = _ := by rw [Matrix.mul_assoc, Matrix.mul_nonsing_inv _ hd, Matrix.mul_one]
  rw [hW]
  ext a b
  rw [Subsingleton.elim b 0, Matrix.mul_apply, plsBeta, Matrix.sum_apply,
    ← Fin.sum_univ_eq_sum_range (fun k => (plsB (pls1W y) X y k • krR X y k) a 0) K]
  refine Finset.sum_congr rfl fun k _ => ?_
  rw [Matrix.smul_apply, smul_eq_mul, mul_comm]
  rfl

theorem beta_mem {K : Nat} : plsBeta X y K ∈ dirs X y K :=
  Submodule.sum_mem _ fun _ hk => Submodule.smul_mem _ _ (R_mem_dirs X y (Finset.mem_range.mp hk))

theorem mem_dirs {K : Nat} {v : Matrix (Fin p) (Fin 1) ℝ} (h : v ∈ dirs X y K) : ∃ c : Nat → ℝ, v = ∑ k ∈ Finset.range K, c k • krR X y k := by
  unfold dirs at h
  induction h using Submodule.span_induction with
  | mem v hv =>
    obtain ⟨i, hi, rfl⟩ := hv
    refine ⟨fun k => if k = i then 1 else 0, ?_⟩
    simp only [ite_smul, one_smul, zero_smul]
    rw [Finset.sum_eq_single_of_mem i (Finset.mem_range.mpr hi) fun b _ hb => if_neg hb, if_pos rfl]
  | zero => exact ⟨0, by simp⟩
  | add a b _ _ ha hb =>
    obtain ⟨c, rfl⟩ := ha
    obtain ⟨d, rfl⟩ := hb
    exact ⟨c + d, by simp only [Pi.add_apply, add_smul, Finset.sum_add_distrib]⟩
  | smul x a _ ha =>
    obtain ⟨c, rfl⟩ := ha
    exact ⟨x • c, by simp only [Pi.smul_apply, smul_eq_mul, ← smul_smul, Finset.smul_sum]⟩

/-- The predictors times a combination of directions are the scores times the coefficients. -/
theorem dirs_scores {K : Nat} (h : ∀ i < K, sq1 (plsT (pls1W y) X i) ≠ 0) (c : Nat → ℝ) :
    X * (∑ k ∈ Finset.range K, c k • krR X y k) = plsTM (pls1W y) K X * Matrix.of fun (k : Fin K) (_ : Fin 1) => c k.1 := by
  ext a b
  rw [Subsingleton.elim b 0, Matrix.mul_sum, Matrix.sum_apply, Matrix.mul_apply,
    ← Fin.sum_univ_eq_sum_range (fun k => (X * c k • krR X y k) a 0) K]
  refine Finset.sum_congr rfl fun k _ => ?_
  rw [Matrix.mul_smul, krR_score X y fun i hi => h i (by omega), Matrix.smul_apply, smul_eq_mul, mul_comm]
  rfl

/-- The columns of `W` span the same space. -/
theorem span_W {K : Nat} : Submodule.span ℝ {v | ∃ j : Fin K, v = Matrix.of fun i (_ : Fin 1) => plsWM (pls1W y) K X i j} = dirs X y K := by
  have e : ∀ j : Fin K, (Matrix.of fun i (_ : Fin 1) => plsWM (pls1W y) K X i j) = plsW (pls1W y) X j.1 := by
    intro j
    ext a b
    rw [Subsingleton.elim b 0]
    rfl
  refine le_antisymm (Submodule.span_le.mpr ?_) (Submodule.span_le.mpr ?_)
  · rintro v ⟨j, rfl⟩
    rw [e]
    exact W_mem_dirs X y j.2
  · rintro v ⟨i, hi, rfl⟩
    induction i with
    | zero => exact Submodule.subset_span ⟨⟨0, hi⟩, (e ⟨0, hi⟩).symm⟩
    | succ i ih =>
      exact Submodule.add_mem _ (Submodule.subset_span ⟨⟨i + 1, hi⟩, (e ⟨i + 1, hi⟩).symm⟩) (Submodule.smul_mem _ _ (ih (by omega)))

theorem WM_orthonormal {K : Nat} (h : ∀ i < K, sq1 (plsT (pls1W y) X i) ≠ 0) : (plsWM (pls1W y) K X)ᵀ * plsWM (pls1W y) K X = 1 := by
  ext i j
  have e : ((plsWM (pls1W y) K X)ᵀ * plsWM (pls1W y) K X) i j = ip (plsW (pls1W y) X i.1) (plsW (pls1W y) X j.1) := by
    unfold ip
    simp only [Matrix.mul_apply, Matrix.transpose_apply, plsWM, Matrix.of_apply]
  rw [e]
  rcases lt_trichotomy i.1 j.1 with hij | hij | hij
  · rw [plsW_orth X y hij (h _ i.2) (plsC_pos X y (h _ j.2)), Matrix.one_apply_ne (by rintro rfl; omega)]
  · obtain rfl : i = j := Fin.ext hij
    rw [plsW_unit X y (plsC_pos X y (h _ i.2)), Matrix.one_apply_eq]
  · rw [ip_comm, plsW_orth X y hij (h _ j.2) (plsC_pos X y (h _ i.2)), Matrix.one_apply_ne (by rintro rfl; omega)]

theorem sq1_sub (a b : Matrix (Fin n) (Fin 1) ℝ) : sq1 (a - b) = ∑ i, (a i 0 - b i 0) ^ 2 := by
  unfold sq1
  exact Finset.sum_congr rfl fun i _ => by rw [Matrix.sub_apply, sq]

/-- Least squares over the directions, with equality only for `plsBeta`. -/
theorem beta_lsq {K : Nat} (h : ∀ i < K, sq1 (plsT (pls1W y) X i) ≠ 0) {v : Matrix (Fin p) (Fin 1) ℝ} (hv : v ∈ dirs X y K) :
    sq1 (y - X * plsBeta X y K) ≤ sq1 (y - X * v) ∧ (sq1 (y - X * v) ≤ sq1 (y - X * plsBeta X y K) → v = plsBeta X y K) := by
  obtain ⟨c, rfl⟩ := mem_dirs X y hv
  have hB : X * plsBeta X y K = plsTM (pls1W y) K X * plsBM (pls1W y) K X y := dirs_scores X y h _
  have hr := pls_resid (pls1W y) K X y h
  rw [hB, dirs_scores X y h]
  refine ⟨lsq_of_orth _ _ _ _ hr, fun hle => ?_⟩
  generalize hcv : (Matrix.of fun (k : Fin K) (_ : Fin 1) => c k.1) = cv at hle
  have hx : sq1 (y - plsTM (pls1W y) K X * cv) = sq1 (y - plsTM (pls1W y) K X * plsBM (pls1W y) K X y) +
      sq1 (plsTM (pls1W y) K X * (plsBM (pls1W y) K X y - cv)) := by
    have e : y - plsTM (pls1W y) K X * cv =
        (y - plsTM (pls1W y) K X * plsBM (pls1W y) K X y) + plsTM (pls1W y) K X * (plsBM (pls1W y) K X y - cv) := by
      rw [Matrix.mul_sub]; abel
    rw [e, ← ip_sq1, ip_add, ip_comm, ip_add, ip_mul, hr, ip_comm _ (plsTM (pls1W y) K X * _), ip_add, ← ip_sq1, ← ip_sq1,
      ip_comm (plsTM (pls1W y) K X * _), ip_mul, hr, ip_comm 0, ip_zero]
    ring
  have h0 : plsTM (pls1W y) K X * (plsBM (pls1W y) K X y - cv) = 0 := by
    rw [← ip_self_eq_zero]
    refine le_antisymm ?_ (ip_self_nonneg _)
    rw [ip_sq1]
    linarith
  have h1 : plsBM (pls1W y) K X y - cv = 0 := by
    have := congrArg (fun Z => (plsTM (pls1W y) K X)ᵀ * Z) h0
    simp only [← Matrix.mul_assoc, plsTM_gram (pls1W y) K X h, Matrix.mul_zero] at this
    ext k j
    have hk := congrFun (congrFun this k) j
    rw [Matrix.diagonal_mul] at hk
    exact (mul_eq_zero.mp hk).resolve_left (h k k.2)
  refine Finset.sum_congr rfl fun k hk => ?_
  have := congrFun (congrFun h1 ⟨k, Finset.mem_range.mp hk⟩) 0
  rw [← hcv, Matrix.sub_apply, Matrix.of_apply, Matrix.zero_apply, sub_eq_zero] at this
  show c k • _ = plsB (pls1W y) X y k • _
  rw [← this]
  rfl

end directions

/-- **C114.** PLS1 with `K` components: the weights `W` are an orthonormal basis of the Krylov space, the stored regression vector lies in it,
predicts, fits the response better than every other vector of the space, and is the only one that does. -/
theorem C114_krylov (hn : 0 < n) (hp : 0 < p) {K : Nat} (hK : 0 < K) (X : Matrix (Fin n) (Fin p) ℝ) (y : Matrix (Fin n) (Fin 1) ℝ)
    (h : Regular (pls1W y) K X) :
    ∃ (m : Pls1Model ℝ) (T : Mat ℝ) (W : Matrix (Fin p) (Fin K) ℝ) (R : Matrix (Fin p) (Fin 1) ℝ),
      pls1Train pls1Weights K (of X) (of y) = .ok (m, T) ∧ m.W = of W ∧ m.rHat = of R ∧
      (∀ {r : Nat}, 0 < r → ∀ Z : Matrix (Fin r) (Fin p) ℝ, pls1Predict K m (of Z) = .ok (of (Z * R))) ∧
      Wᵀ * W = 1 ∧ Submodule.span ℝ {v | ∃ j : Fin K, v = Matrix.of fun i (_ : Fin 1) => W i j} = krylov X y K ∧
      R ∈ krylov X y K ∧
      ∀ v ∈ krylov X y K, ∑ i, (y i 0 - (X * R) i 0) ^ 2 ≤ ∑ i, (y i 0 - (X * v) i 0) ^ 2 ∧
        (∑ i, (y i 0 - (X * v) i 0) ^ 2 ≤ ∑ i, (y i 0 - (X * R) i 0) ^ 2 → v = R) := by
  have hs := h.sq1_ne
  obtain ⟨m, T, R, h1, h2, h3⟩ := C50_linear hn hp hK X (pls1_computes y) h
  have ht := pls1Train_eq (pls1W y) pls1Weights K hn hp hK X y (fun k _ => pls1_computes y _) hs
  rw [h1] at ht
  obtain ⟨rfl, rfl⟩ := Prod.mk.inj (Except.ok.inj ht)
  have hR : plsBeta X y K = R := (beta_eq X y hs).symm.trans (of_inj.1 h2)
  subst hR
  refine ⟨_, _, plsWM (pls1W y) K X, _, h1, rfl, h2, h3, WM_orthonormal X y hs, ?_, ?_, ?_⟩
  · rw [span_W, dirs_eq X y hs]
  · rw [← dirs_eq X y hs]
    exact beta_mem X y
  · intro v hv
    rw [← dirs_eq X y hs] at hv
    rw [← sq1_sub, ← sq1_sub]
    exact beta_lsq X y hs hv

/-! ## Shrinkage -/

section shrinkage
variable (X : Matrix (Fin n) (Fin p) ℝ) (y : Matrix (Fin n) (Fin 1) ℝ)

theorem W_R_nonneg {K i j : Nat} (h : ∀ k < K, sq1 (plsT (pls1W y) X k) ≠ 0) (hi : i < K) (hj : j < K) :
    0 ≤ ip (plsW (pls1W y) X j) (krR X y i) := by
  have hw : ∀ i < K, 0 ≤ ip (plsW (pls1W y) X j) (plsW (pls1W y) X i) := by
    intro i hi
    rcases lt_trichotomy i j with hij | rfl | hij
    · rw [ip_comm, plsW_orth X y hij (h _ hi) (plsC_pos X y (h _ hj))]
    · exact ip_self_nonneg _
    · rw [plsW_orth X y hij (h _ hj) (plsC_pos X y (h _ hi))]
  induction i with
  | zero => exact hw 0 hi
  | succ i ih =>
    rw [krR, ip_add, ip_smul]
    exact add_nonneg (hw _ hi) (mul_nonneg (plsG_nonneg ..) (ih (by omega)))

theorem R_R_nonneg {K i j : Nat} (h : ∀ k < K, sq1 (plsT (pls1W y) X k) ≠ 0) (hi : i < K) (hj : j < K) : 0 ≤ ip (krR X y j) (krR X y i) := by
  induction j with
  | zero => exact W_R_nonneg X y h hi hj
  | succ j ih =>
    rw [krR, ip_comm, ip_add, ip_smul, ip_comm, ip_comm _ (krR X y j)]
    exact add_nonneg (W_R_nonneg X y h hi hj) (mul_nonneg (plsG_nonneg ..) (ih (by omega)))

theorem R_ne {k : Nat} (h : ∀ i ≤ k, sq1 (plsT (pls1W y) X i) ≠ 0) : 0 < ip (krR X y k) (krR X y k) := by
  refine lt_of_le_of_ne (ip_self_nonneg _) fun h0 => h k le_rfl ?_
  rw [← krR_score X y h, (ip_self_eq_zero _).mp h0.symm, Matrix.mul_zero]
  simp [sq1]

theorem beta_growth {k : Nat} (h : ∀ i ≤ k, sq1 (plsT (pls1W y) X i) ≠ 0) : sq1 (plsBeta X y k) < sq1 (plsBeta X y (k + 1)) := by
  have hb : ∀ i ≤ k, 0 < plsB (pls1W y) X y i := by
    intro i hi
    rw [plsB_eq X y i (plsC_pos X y (h i hi))]
    refine div_pos (plsC_pos X y (h i hi)) (lt_of_le_of_ne ?_ (h i hi).symm)
    rw [← ip_sq1]
    exact ip_self_nonneg _
  have hc : 0 ≤ ip (krR X y k) (plsBeta X y k) := by
    rw [plsBeta, ip_sum]
    refine Finset.sum_nonneg fun i hi => ?_
    have hi := Finset.mem_range.mp hi
    rw [ip_smul]
    exact mul_nonneg (hb i (by omega)).le (R_R_nonneg X y (K := k + 1) (fun j hj => h j (by omega)) (by omega) (by omega))
  have e : sq1 (plsBeta X y (k + 1)) = sq1 (plsBeta X y k) + 2 * (plsB (pls1W y) X y k * ip (krR X y k) (plsBeta X y k)) +
      plsB (pls1W y) X y k ^ 2 * ip (krR X y k) (krR X y k) := by
    rw [← ip_sq1, ← ip_sq1, plsBeta, Finset.sum_range_succ, ← plsBeta, ip_add_self, ip_smul, ip_smul, ip_comm _ (krR X y k), ip_comm _ (krR X y k),
      ip_smul]
    ring
  rw [e]
  have h1 := mul_nonneg (hb k le_rfl).le hc
  have h2 := mul_pos (pow_pos (hb k le_rfl) 2) (R_ne X y h)
  linarith

theorem beta_growth_le {K K' : Nat} (hKK : K ≤ K') (h : ∀ i < K', sq1 (plsT (pls1W y) X i) ≠ 0) :
    sq1 (plsBeta X y K) ≤ sq1 (plsBeta X y K') := by
  induction K', hKK using Nat.le_induction with
  | base => exact le_rfl
  | succ k hk ih => exact (ih fun i hi => h i (by omega)).trans (beta_growth X y fun i hi => h i (by omega)).le

/-- Vectors of the Krylov space are combinations of samples. -/
theorem krylov_row {K : Nat} {v : Matrix (Fin p) (Fin 1) ℝ} (hv : v ∈ krylov X y K) : ∃ z : Matrix (Fin n) (Fin 1) ℝ, v = Xᵀ * z := by
  unfold krylov at hv
  induction hv using Submodule.span_induction with
  | mem v hv =>
    obtain ⟨i, -, rfl⟩ := hv
    cases i with
    | zero => exact ⟨y, by rw [pow_zero, Matrix.one_mul]⟩
    | succ i => exact ⟨X * ((Xᵀ * X) ^ i * (Xᵀ * y)), by rw [pow_succ', Matrix.mul_assoc, Matrix.mul_assoc]⟩
  | zero => exact ⟨0, by rw [Matrix.mul_zero]⟩
  | add a b _ _ ha hb =>
    obtain ⟨c, rfl⟩ := ha
    obtain ⟨d, rfl⟩ := hb
    exact ⟨c + d, by rw [Matrix.mul_add]⟩
  | smul x a _ ha =>
    obtain ⟨c, rfl⟩ := ha
    exact ⟨x • c, by rw [Matrix.mul_smul]⟩

end shrinkage

/-- **C115.** More components give a longer regression vector. -/
theorem C115_growth (hn : 0 < n) (hp : 0 < p) {K K' : Nat} (hK : 0 < K) (hKK : K < K') (X : Matrix (Fin n) (Fin p) ℝ)
    (y : Matrix (Fin n) (Fin 1) ℝ) (h : Regular (pls1W y) K' X) :
    ∃ (m m' : Pls1Model ℝ) (T T' : Mat ℝ) (R R' : Matrix (Fin p) (Fin 1) ℝ),
      pls1Train pls1Weights K (of X) (of y) = .ok (m, T) ∧ m.rHat = of R ∧
      pls1Train pls1Weights K' (of X) (of y) = .ok (m', T') ∧ m'.rHat = of R' ∧ ∑ i, R i 0 ^ 2 < ∑ i, R' i 0 ^ 2 := by
  have hs := h.sq1_ne
  have hs1 : ∀ i < K, sq1 (plsT (pls1W y) X i) ≠ 0 := fun i hi => hs i (by omega)
  refine ⟨_, _, _, _, plsBeta X y K, plsBeta X y K', pls1Train_eq (pls1W y) pls1Weights K hn hp hK X y (fun k _ => pls1_computes y _) hs1,
    by rw [beta_eq X y hs1], pls1Train_eq (pls1W y) pls1Weights K' hn hp (by omega) X y (fun k _ => pls1_computes y _) hs,
    by rw [beta_eq X y hs], ?_⟩
  have h1 := (beta_growth X y (k := K) fun i hi => hs i (by omega)).trans_le (beta_growth_le X y hKK hs)
  simpa only [sq1, sq] using h1

/-- **C115.** The regression vector is never longer than that of a least-squares fit with all predictors, whichever solution of the normal
equations is taken. -/
theorem C115_shrinks (hn : 0 < n) (hp : 0 < p) {K : Nat} (hK : 0 < K) (X : Matrix (Fin n) (Fin p) ℝ) (y : Matrix (Fin n) (Fin 1) ℝ)
    (h : Regular (pls1W y) K X) :
    ∃ (m : Pls1Model ℝ) (T : Mat ℝ) (R : Matrix (Fin p) (Fin 1) ℝ), pls1Train pls1Weights K (of X) (of y) = .ok (m, T) ∧ m.rHat = of R ∧
      ∀ c : Matrix (Fin p) (Fin 1) ℝ, Xᵀ * X * c = Xᵀ * y → ∑ i, R i 0 ^ 2 ≤ ∑ i, c i 0 ^ 2 := by
  classical
  have hs := h.sq1_ne
  refine ⟨_, _, plsBeta X y K, pls1Train_eq (pls1W y) pls1Weights K hn hp hK X y (fun k _ => pls1_computes y _) hs, by rw [beta_eq X y hs], ?_⟩
  intro c hc
  have hex : ∃ d, ¬ Regular (pls1W y) (K + d + 1) X := ⟨p, fun hr => by have := regular_le hr; omega⟩
  obtain ⟨d, hd, hmin⟩ : ∃ d, ¬ Regular (pls1W y) (K + d + 1) X ∧ Regular (pls1W y) (K + d) X := by
    refine ⟨Nat.find hex, Nat.find_spec hex, ?_⟩
    by_cases h0 : Nat.find hex = 0
    · rw [h0]; exact h
    · obtain ⟨e, he⟩ := Nat.exists_eq_succ_of_ne_zero h0
      have := Nat.find_min hex (m := e) (by omega)
      rw [he]
      exact not_not.mp this
  have hs' := hmin.sq1_ne
  obtain ⟨m, T, F, h1, h2, h3, -⟩ := C97_exhausted hn hp (by omega) X y hmin hd
  obtain ⟨m', T', W, R, h1', -, h4, h5, -, -, h6, -⟩ := C114_krylov hn hp (by omega) X y hmin
  rw [h1] at h1'
  obtain ⟨rfl, rfl⟩ := Prod.mk.inj (Except.ok.inj h1')
  rw [h5 hn X] at h2
  have hF : X * R = F := of_inj.1 (Except.ok.inj h2)
  have hR : R = plsBeta X y (K + d) := by
    have ht := pls1Train_eq (pls1W y) pls1Weights (K + d) hn hp (by omega) X y (fun k _ => pls1_computes y _) hs'
    rw [h1] at ht
    obtain ⟨rfl, rfl⟩ := Prod.mk.inj (Except.ok.inj ht)
    exact (of_inj.1 h4).symm.trans (beta_eq X y hs')
  subst hF
  have hX : X * (c - R) = 0 := by
    rw [← ip_self_eq_zero, ip_mul, Matrix.mul_sub X, Matrix.mul_sub, ← Matrix.mul_assoc, hc, ← Matrix.mul_sub, h3, ip_comm, ip_zero]
  obtain ⟨z, hz⟩ := krylov_row X y h6
  have ho : ip R (c - R) = 0 := by
    have : ip (Xᵀ * z) (c - R) = 0 := by rw [← ip_mul, hX, ip_zero]
    rwa [← hz] at this
  have hcc : sq1 c = sq1 R + sq1 (c - R) := by
    have e : c = R + (c - R) := by abel
    conv_lhs => rw [e]
    rw [← ip_sq1, ip_add_self, ho, ip_sq1, ip_sq1]
    ring
  have hle := beta_growth_le X y (Nat.le_add_right K d) hs'
  have hnn : 0 ≤ sq1 (c - R) := by rw [← ip_sq1]; exact ip_self_nonneg _
  rw [← hR] at hle
  have : sq1 (plsBeta X y K) ≤ sq1 c := by linarith
  simpa only [sq1, sq] using this

/-! ## Comparison with principal components -/

section pcr
variable (X : Matrix (Fin n) (Fin p) ℝ) (y : Matrix (Fin n) (Fin 1) ℝ) {V : Matrix (Fin p) (Fin p) ℝ} {lam : Fin p → ℝ}

/-- Residual of a fit in terms of an eigenbasis of `XᵀX`. -/
theorem pcr_residual (hV : Vᵀ * V = 1) (hS : Xᵀ * X * V = V * Matrix.diagonal lam) (d : Matrix (Fin p) (Fin 1) ℝ) :
    sq1 (y - X * (V * d)) = sq1 y + ∑ i, (lam i * d i 0 ^ 2 - 2 * ((Vᵀ * (Xᵀ * y)) i 0 * d i 0)) := by
  have e : y - X * (V * d) = y + (-1 : ℝ) • (X * (V * d)) := by rw [neg_one_smul]; abel
  have h1 : ip y (X * (V * d)) = ∑ i, (Vᵀ * (Xᵀ * y)) i 0 * d i 0 := by
    rw [ip_mul, ip_mul]
    unfold ip
    rw [Matrix.mul_apply]
    rfl
  have h2 : ip (X * (V * d)) (X * (V * d)) = ∑ i, lam i * d i 0 ^ 2 := by
    rw [ip_mul, ← Matrix.mul_assoc Xᵀ, ← Matrix.mul_assoc (Xᵀ * X), hS, ip_mul, Matrix.mul_assoc V, ← Matrix.mul_assoc Vᵀ, hV, Matrix.one_mul]
    unfold ip
    rw [Matrix.mul_apply]
    refine Finset.sum_congr rfl fun i _ => ?_
    rw [Matrix.transpose_apply, Matrix.diagonal_mul]
    ring
  rw [e, ← ip_sq1, ip_add_self, ip_smul, h1, ip_smul, ip_comm (_ • _) (X * _), ip_smul, h2, Finset.sum_sub_distrib, ← Finset.mul_sum, ip_sq1]
  ring

theorem pcr_nonneg (hV : Vᵀ * V = 1) (hS : Xᵀ * X * V = V * Matrix.diagonal lam) (i : Fin p) :
    0 ≤ lam i ∧ (lam i = 0 → (Vᵀ * (Xᵀ * y)) i 0 = 0) := by
  let v : Matrix (Fin p) (Fin 1) ℝ := Matrix.of fun a _ => V a i
  have hv : Xᵀ * X * v = lam i • v := by
    ext a b
    have := congrFun (congrFun hS a) i
    rw [Matrix.mul_diagonal, Matrix.mul_apply] at this
    rw [Matrix.mul_apply, Matrix.smul_apply, smul_eq_mul, mul_comm]
    exact this
  have h1 : ip v v = 1 := by
    have := congrFun (congrFun hV i) i
    rw [Matrix.one_apply_eq, Matrix.mul_apply] at this
    unfold ip
    rw [Matrix.mul_apply]
    exact this
  have h2 : ip (X * v) (X * v) = lam i := by
    rw [ip_mul, ← Matrix.mul_assoc, hv, ip_comm, ip_smul, h1, mul_one]
  refine ⟨h2 ▸ ip_self_nonneg _, fun h0 => ?_⟩
  rw [h0, ip_self_eq_zero] at h2
  have h3 : (Vᵀ * (Xᵀ * y)) i 0 = ip v (Xᵀ * y) := by
    unfold ip
    rw [Matrix.mul_apply, Matrix.mul_apply]
    rfl
  rw [h3, ip_mul, Matrix.transpose_transpose, h2, ip_comm, ip_zero]

/-- A vector of the Krylov space that fits the chosen eigenvectors exactly. -/
theorem pcr_vector (hS : Xᵀ * X * V = V * Matrix.diagonal lam) (J : Finset (Fin p)) (hJ : ∀ j ∈ J, lam j ≠ 0) :
    ∃ (q : ℝ → ℝ) (b : Matrix (Fin p) (Fin 1) ℝ), b ∈ krylov X y J.card ∧ (∀ i, (Vᵀ * b) i 0 = q (lam i) * (Vᵀ * (Xᵀ * y)) i 0) ∧
      ∀ x, x * q x = 1 - ∏ j ∈ J, (1 - x / lam j) := by
  have hS' : Vᵀ * (Xᵀ * X) = Matrix.diagonal lam * Vᵀ := by
    have := congrArg Matrix.transpose hS
    rwa [Matrix.transpose_mul, Matrix.transpose_mul, Matrix.transpose_mul, Matrix.transpose_transpose, Matrix.diagonal_transpose] at this
  induction J using Finset.induction_on with
  | empty => exact ⟨0, 0, Submodule.zero_mem _, by simp, by simp⟩
  | insert j J hj ih =>
    obtain ⟨q, b, h1, h2, h3⟩ := ih fun i hi => hJ i (Finset.mem_insert_of_mem hi)
    have hl := hJ j (Finset.mem_insert_self _ _)
    refine ⟨fun x => q x + (1 - x * q x) / lam j, b + (lam j)⁻¹ • (Xᵀ * y - Xᵀ * X * b), ?_, fun i => ?_, fun x => ?_⟩
    · rw [Finset.card_insert_of_notMem hj]
      refine Submodule.add_mem _ (krylov_mono X y (Nat.le_succ _) h1) (Submodule.smul_mem _ _ (Submodule.sub_mem _ ?_ (krylov_gram X y h1)))
      exact Submodule.subset_span ⟨0, by omega, by rw [pow_zero, Matrix.one_mul]⟩
    · rw [Matrix.mul_add, Matrix.mul_smul, Matrix.mul_sub, ← Matrix.mul_assoc Vᵀ (Xᵀ * X), hS', Matrix.mul_assoc, Matrix.add_apply, Matrix.smul_apply,
        Matrix.sub_apply, Matrix.diagonal_mul, h2 i, smul_eq_mul]
      ring
    · rw [Finset.prod_insert hj]
      have e : x * (q x + (1 - x * q x) / lam j) = x * q x + (1 - x * q x) * (x / lam j) := by ring
      rw [e, h3]
      ring

end pcr

/-- **C116.** PLS1 with `K` components fits the training response at least as well as least squares on the scores of any `K` principal
components with the largest variances: `V` is an orthonormal eigenbasis of `XᵀX` and `J` chooses the components. -/
theorem C116_principal_components (hn : 0 < n) (hp : 0 < p) {K : Nat} (hK : 0 < K) (X : Matrix (Fin n) (Fin p) ℝ)
    (y : Matrix (Fin n) (Fin 1) ℝ) (h : Regular (pls1W y) K X) {V : Matrix (Fin p) (Fin p) ℝ} {lam : Fin p → ℝ} (hV : Vᵀ * V = 1)
    (hS : Xᵀ * X * V = V * Matrix.diagonal lam) (J : Finset (Fin p)) (hJ : J.card ≤ K) (htop : ∀ j ∈ J, ∀ i ∉ J, lam i ≤ lam j) :
    ∃ (m : Pls1Model ℝ) (T : Mat ℝ) (F : Matrix (Fin n) (Fin 1) ℝ),
      pls1Train pls1Weights K (of X) (of y) = .ok (m, T) ∧ pls1Predict K m (of X) = .ok (of F) ∧
      ∀ c : Matrix (Fin p) (Fin 1) ℝ, (∀ i ∉ J, c i 0 = 0) →
        ∑ i, (y i 0 - F i 0) ^ 2 ≤ ∑ i, (y i 0 - (X * V * c) i 0) ^ 2 := by
  classical
  obtain ⟨m, T, W, R, h1, -, -, h4, -, -, -, h7⟩ := C114_krylov hn hp hK X y h
  refine ⟨m, T, X * R, h1, h4 hn X, fun c hc => ?_⟩
  have hnn := pcr_nonneg X y hV hS
  obtain ⟨q, b, hb, hq, hpi⟩ := pcr_vector X y hS (J.filter fun j => lam j ≠ 0) fun j hj => (Finset.mem_filter.mp hj).2
  refine (h7 b (krylov_mono X y ((Finset.card_filter_le _ _).trans hJ) hb)).1.trans ?_
  have hVV : V * Vᵀ = 1 := mul_eq_one_comm.mp hV
  have eb : b = V * (Vᵀ * b) := by rw [← Matrix.mul_assoc, hVV, Matrix.one_mul]
  rw [← sq1_sub, ← sq1_sub, eb, Matrix.mul_assoc X V c, pcr_residual X y hV hS, pcr_residual X y hV hS]
  refine add_le_add_right (Finset.sum_le_sum fun i _ => ?_) _
  rw [hq i]
  generalize hsig : (Vᵀ * (Xᵀ * y)) i 0 = sig
  by_cases h0 : lam i = 0
  · have := (hnn i).2 h0
    rw [hsig] at this
    rw [h0, this]
    simp
  have hl : 0 < lam i := lt_of_le_of_ne (hnn i).1 (Ne.symm h0)
  have hp := hpi (lam i)
  by_cases hi : i ∈ J
  · have : ∏ j ∈ J.filter (fun j => lam j ≠ 0), (1 - lam i / lam j) = 0 :=
      Finset.prod_eq_zero (Finset.mem_filter.mpr ⟨hi, h0⟩) (by rw [div_self h0, sub_self])
    rw [this, sub_zero] at hp
    have hqi : q (lam i) = 1 / lam i := by rw [eq_div_iff h0, mul_comm, hp]
    rw [hqi]
    have : lam i * c i 0 ^ 2 - 2 * (sig * c i 0) - (lam i * (1 / lam i * sig) ^ 2 - 2 * (sig * (1 / lam i * sig))) =
        lam i * (c i 0 - sig / lam i) ^ 2 := by
      field_simp
      ring
    have h2 := mul_nonneg hl.le (sq_nonneg (c i 0 - sig / lam i))
    linarith
  · rw [hc i hi]
    have h3 : 0 ≤ ∏ j ∈ J.filter (fun j => lam j ≠ 0), (1 - lam i / lam j) := Finset.prod_nonneg fun j hj => by
      have hj := Finset.mem_filter.mp hj
      have hlj : 0 < lam j := lt_of_le_of_ne (hnn j).1 (Ne.symm hj.2)
      have := (div_le_one hlj).mpr (htop j hj.1 i hi)
      linarith
    have h4 : ∏ j ∈ J.filter (fun j => lam j ≠ 0), (1 - lam i / lam j) ≤ 1 := Finset.prod_le_one (fun j hj => by
      have hj := Finset.mem_filter.mp hj
      have hlj : 0 < lam j := lt_of_le_of_ne (hnn j).1 (Ne.symm hj.2)
      have := (div_le_one hlj).mpr (htop j hj.1 i hi)
      linarith) fun j hj => by
      have hj := Finset.mem_filter.mp hj
      have hlj : 0 < lam j := lt_of_le_of_ne (hnn j).1 (Ne.symm hj.2)
      have := div_nonneg hl.le hlj.le
      linarith
    generalize ∏ j ∈ J.filter (fun j => lam j ≠ 0), (1 - lam i / lam j) = w at *
    have hq1 : q (lam i) = (1 - w) / lam i := by rw [eq_div_iff h0, mul_comm, hp]
    rw [hq1]
    have e : lam i * ((1 - w) / lam i * sig) ^ 2 - 2 * (sig * ((1 - w) / lam i * sig)) = - ((1 - w ^ 2) * (sig ^ 2 / lam i)) := by
      field_simp
      ring
    rw [e]
    have := mul_nonneg (by nlinarith : 0 ≤ 1 - w ^ 2) (div_nonneg (sq_nonneg sig) hl.le)
    simp only [ne_eq, OfNat.ofNat_ne_zero, not_false_eq_true, zero_pow, mul_zero, sub_zero]
    linarith

/-- **C117.** Every weight vector of PLS1 has length one and gives, in the predictors left by the earlier components, the score with the
largest inner product with the response among all directions of length one. -/
theorem C117_covariance (hn : 0 < n) (hp : 0 < p) {K : Nat} (hK : 0 < K) (X : Matrix (Fin n) (Fin p) ℝ) (y : Matrix (Fin n) (Fin 1) ℝ)
    (h : Regular (pls1W y) K X) :
    ∃ (m : Pls1Model ℝ) (T : Matrix (Fin n) (Fin K) ℝ) (W P : Matrix (Fin p) (Fin K) ℝ),
      pls1Train pls1Weights K (of X) (of y) = .ok (m, of T) ∧ m.W = of W ∧ m.P = of P ∧
      ∀ k : Fin K, ∃ Xk : Matrix (Fin n) (Fin p) ℝ,
        (∀ i j, Xk i j = X i j - ∑ l ∈ Finset.univ.filter (· < k), T i l * P j l) ∧
        (∀ i, T i k = ∑ j, Xk i j * W j k) ∧ ∑ j, W j k ^ 2 = 1 ∧
        ∀ u : Fin p → ℝ, ∑ j, u j ^ 2 = 1 → ∑ i, (∑ j, Xk i j * u j) * y i 0 ≤ ∑ i, T i k * y i 0 := by
  have hs := h.sq1_ne
  refine ⟨_, plsTM (pls1W y) K X, plsWM (pls1W y) K X, plsPM (pls1W y) K X,
    pls1Train_eq (pls1W y) pls1Weights K hn hp hK X y (fun k _ => pls1_computes y _) hs, rfl, rfl, fun k => ⟨plsX (pls1W y) X k.1, ?_, ?_, ?_, ?_⟩⟩
  · intro i j
    rw [plsX_unroll, Matrix.sub_apply, Matrix.sum_apply]
    congr 1
    refine Finset.sum_bij' (fun a ha => ⟨a, (Finset.mem_range.mp ha).trans k.2⟩) (fun a _ => a.1) ?_ ?_ ?_ ?_ ?_
    · intro a ha
      exact Finset.mem_filter.mpr ⟨Finset.mem_univ _, Finset.mem_range.mp ha⟩
    · intro a ha
      exact Finset.mem_range.mpr (Finset.mem_filter.mp ha).2
    · intros; rfl
    · intros; rfl
    · intro a ha
      rw [Matrix.mul_apply, Fin.sum_univ_one]
      rfl
  · intro i
    show (plsX (pls1W y) X k.1 * plsW (pls1W y) X k.1) i 0 = _
    rw [Matrix.mul_apply]
    rfl
  · have := plsW_unit X y (plsC_pos X y (hs k k.2))
    rw [ip_sq1] at this
    simp only [sq]
    exact this
  · intro u hu
    let v : Matrix (Fin p) (Fin 1) ℝ := Matrix.of fun j _ => u j
    have hvv : ip v v = 1 := by
      rw [ip_sq1]
      simp only [sq] at hu
      exact hu
    have hc := plsC_pos X y (hs k k.2)
    have h1 : ∑ i, (∑ j, plsX (pls1W y) X k.1 i j * u j) * y i 0 = ip (plsX (pls1W y) X k.1 * v) y := by
      unfold ip
      rw [Matrix.mul_apply]
      refine Finset.sum_congr rfl fun i _ => ?_
      rw [Matrix.transpose_apply, Matrix.mul_apply]
      rfl
    have h2 : ∑ i, plsTM (pls1W y) K X i k * y i 0 = ip (plsT (pls1W y) X k.1) y := by
      unfold ip
      rw [Matrix.mul_apply]
      rfl
    rw [h1, h2, score_y X y hc, ip_comm, ip_mul, cross_eq, ip_comm, ip_smul]
    have h3 := ip_self_nonneg (v + (-1 : ℝ) • plsW (pls1W y) X k.1)
    rw [ip_add_self, ip_smul, ip_smul, ip_comm (_ • _) (plsW _ _ _), ip_smul, plsW_unit X y hc, hvv] at h3
    have h4 : ip v (plsW (pls1W y) X k.1) ≤ 1 := by linarith
    calc _ ≤ plsC X y k.1 * 1 := mul_le_mul_of_nonneg_left h4 hc.le
      _ = _ := mul_one _

/-! Concrete cases: the data of `PLS1Props.lean`, whose cross products are `diag(1, 4)`. -/

example := C114_krylov (by decide) (by decide) (K := 2) (by decide) exX exY ex_regular
example := C115_growth (by decide) (by decide) (K := 1) (K' := 2) (by decide) (by decide) exX exY ex_regular
example := C115_shrinks (by decide) (by decide) (K := 2) (by decide) exX exY ex_regular
example := C117_covariance (by decide) (by decide) (K := 2) (by decide) exX exY ex_regular

example := C116_principal_components (by decide) (by decide) (K := 2) (by decide) exX exY ex_regular (V := 1) (lam := ![1, 4])
  (by simp) (by
    ext i j
    fin_cases i <;> fin_cases j <;> simp [exX, Matrix.mul_apply, Fin.sum_univ_two]
    norm_num) {1} (by simp) (by
    intro j hj i hi
    fin_cases j <;> fin_cases i <;> simp_all)

end Verif.Props
