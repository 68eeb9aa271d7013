import Verif.Props.GlswInvariance
import Verif.Props.PcaOptimal
import Verif.Props.PrmRobust
import Verif.Props.SavGolFit
import Verif.Props.SimplsProps
import Verif.Props.SparseProps
import Verif.Props.StatsProps
import Verif.Props.KernelProps
import Verif.Props.FilterProps
import Mathlib.Topology.Algebra.Order.Field

/-!
# C157: tuning parameters act in the documented direction

Two objects that differ in one parameter only are compared on the same data.
-/

set_option linter.unusedSectionVars false

namespace Verif.Props
open Verif Verif.Mat Verif.Transf
open scoped Matrix

variable {n p q r : Nat}

/-! ## GLSW: `alpha` -/

theorem wt_mono {a b : ℝ} (ha : 0 < a) (hab : a ≤ b) (l : ℝ) : wt a l ≤ wt b l := by
  unfold wt
  have hb : 0 < b := lt_of_lt_of_le ha hab
  refine one_div_le_one_div_of_le (Real.sqrt_pos.2 (by positivity)) (Real.sqrt_le_sqrt ?_)
  have := div_le_div_of_nonneg_left (sq_nonneg l) ha hab
  linarith

/-- **C157 (GLSW).**  A larger `alpha` filters less: with the same eigensolver every filtered sample, and every difference of two
filtered samples, is at least as long, and none is longer than the unfiltered one. -/
theorem C157_glsw_alpha (cfg : GlswCfg ℝ) (ha : 0 < cfg.alpha) (b : ℝ) (hab : cfg.alpha ≤ b) (hp : p ≠ 0)
    (A B : Matrix (Fin n) (Fin p) ℝ) (ev : Fin p → ℝ) (V : Matrix (Fin p) (Fin p) ℝ) (s : Fin p → ℝ)
    (h : Solved cfg (clutterCov A B) ev V s) (ho : Vᵀ * V = 1) :
    ∃ G G' : Matrix (Fin p) (Fin p) ℝ, glswFit cfg (of A) (of B) = .ok (.ready (of G)) ∧
      glswFit { cfg with alpha := b } (of A) (of B) = .ok (.ready (of G')) ∧
      ∀ (r : Nat) (X : Matrix (Fin r) (Fin p) ℝ), ∃ Z Z' : Matrix (Fin r) (Fin p) ℝ,
        glswTransform (some (of G)) (of X) = .ok (of Z) ∧ glswTransform (some (of G')) (of X) = .ok (of Z') ∧
        (∀ i, ∑ j, Z i j ^ 2 ≤ ∑ j, Z' i j ^ 2 ∧ ∑ j, Z' i j ^ 2 ≤ ∑ j, X i j ^ 2) ∧
        ∀ i k, ∑ j, (Z i j - Z k j) ^ 2 ≤ ∑ j, (Z' i j - Z' k j) ^ 2 := by
  have hb : 0 < b := lt_of_lt_of_le ha hab
  have h' : Solved { cfg with alpha := b } (clutterCov A B) ev V s := ⟨h.eig, h.svd, h.singular⟩
  set G := V * Matrix.diagonal (fun i => wt cfg.alpha (s i)) * Vᵀ with hG
  set G' := V * Matrix.diagonal (fun i => wt b (s i)) * Vᵀ with hG'
  have hmono : ∀ {r : Nat} (X : Matrix (Fin r) (Fin p) ℝ) i, ∑ j, (X * G) i j ^ 2 ≤ ∑ j, (X * G') i j ^ 2 := by
    intro r X i
    rw [hG, hG', diag_length ho, diag_length ho]
    exact Finset.sum_le_sum fun j _ => mul_le_mul_of_nonneg_right
      (pow_le_pow_left₀ (wt_pos ha _).le (wt_mono ha hab _) 2) (sq_nonneg _)
  refine ⟨G, G', glswFit_of cfg ha hp A B h, glswFit_of { cfg with alpha := b } hb hp A B h', fun r X =>
    ⟨X * G, X * G', mul_of X G, mul_of X G', fun i => ⟨hmono X i, ?_⟩, fun i k => ?_⟩⟩
  · rw [hG', diag_length ho, ← length_basis ho X]
    exact Finset.sum_le_sum fun j _ => mul_le_of_le_one_left (sq_nonneg _) (pow_le_one₀ (wt_pos hb _).le (wt_le_one hb _))
  · have hrow : ∀ (M : Matrix (Fin p) (Fin p) ℝ) j,
        (X * M) i j - (X * M) k j = ((Matrix.of fun (_ : Fin 1) l => X i l - X k l) * M) 0 j := by
      intro M j
      rw [Matrix.mul_apply, Matrix.mul_apply, Matrix.mul_apply, ← Finset.sum_sub_distrib]
      exact Finset.sum_congr rfl fun l _ => (sub_mul _ _ _).symm
    simp only [hrow]
    exact hmono (Matrix.of fun (_ : Fin 1) l => X i l - X k l) 0

/-! ## EPO: `N` -/

theorem lead_length {W : Matrix (Fin p) (Fin p) ℝ} (hW : Wᵀ * W = 1) {N : Nat} (hle : N ≤ p) (X : Matrix (Fin r) (Fin p) ℝ) (i : Fin r) :
    ∑ j, (X * ((W.submatrix id (Fin.castLE hle)) * (W.submatrix id (Fin.castLE hle))ᵀ)) i j ^ 2 =
      ∑ j, (if j.1 < N then 1 else 0) * (X * W) i j ^ 2 := by
  have e : (W.submatrix id (Fin.castLE hle)) * (W.submatrix id (Fin.castLE hle))ᵀ =
      W * Matrix.diagonal (fun j : Fin p => if j.1 < N then (1 : ℝ) else 0) * Wᵀ := by
    ext a b
    rw [Matrix.mul_apply, Matrix.mul_apply]
    simp only [Matrix.mul_diagonal, Matrix.transpose_apply, Matrix.submatrix_apply, id]
    rw [← Finset.sum_subset (Finset.subset_univ (Finset.univ.image (Fin.castLE hle)))]
    · rw [Finset.sum_image fun _ _ _ _ h => Fin.castLE_injective hle h]
      exact Finset.sum_congr rfl fun k _ => by simp
    · intro k _ hk
      rw [if_neg, mul_zero, zero_mul]
      intro hlt
      exact hk (Finset.mem_image.2 ⟨⟨k.1, hlt⟩, Finset.mem_univ _, rfl⟩)
  rw [e, diag_length hW]
  refine Finset.sum_congr rfl fun j _ => ?_
  split <;> norm_num

/-- **C157 (EPO).**  `N` is the number of dominant directions kept: a larger `N` never shortens a filtered sample. -/
theorem C157_epo_N (cfg : GlswCfg ℝ) (hp : p ≠ 0) (N N' : Nat) (hN : cfg.N = N) (hNN : N ≤ N') (hle : N' ≤ p)
    (A B : Matrix (Fin n) (Fin p) ℝ) (ev : Fin p → ℝ) (V : Matrix (Fin p) (Fin p) ℝ) (h : EpoSolved cfg (clutterCov A B) ev V) :
    ∃ G G' : Matrix (Fin p) (Fin p) ℝ, epoFit cfg (of A) (of B) = .ok (.ready (of G)) ∧
      epoFit { cfg with N := (N' : Int) } (of A) (of B) = .ok (.ready (of G')) ∧
      ∀ (r : Nat) (X : Matrix (Fin r) (Fin p) ℝ), ∃ Z Z' : Matrix (Fin r) (Fin p) ℝ,
        glswTransform (some (of G)) (of X) = .ok (of Z) ∧ glswTransform (some (of G')) (of X) = .ok (of Z') ∧
        ∀ i, ∑ j, Z i j ^ 2 ≤ ∑ j, Z' i j ^ 2 ∧ ∑ j, Z' i j ^ 2 ≤ ∑ j, X i j ^ 2 := by
  have hep : ∀ (c : GlswCfg ℝ) (M : Nat), c.N = M → c.eig = cfg.eig → c.le = cfg.le → ∀ hM : M ≤ p,
      ∀ σ : Fin p → Fin p, eigenvectorsSorted (fun a b => decide (a ≤ b)) p (ofFn fun i (_ : Fin 1) => ev i) (of V) false =
        .ok (of (V.submatrix id σ)) →
      epoFit c (of A) (of B) = .ok (.ready (of (((V.submatrix id σ).submatrix id (Fin.castLE hM)) *
        ((V.submatrix id σ).submatrix id (Fin.castLE hM))ᵀ))) := by
    intro c M hM1 he hl hM σ hσ
    have := epoDo_of c M hM1 glswCov (of A) (of B) (clutterCov A B) (V.submatrix id σ) _ _
      (by rw [glswCov_of, clutterCov_eq]) (by rw [he]; exact h.eig) (by rw [hl, h.le]; exact hσ) hM
    unfold epoFit glswInit
    have hc : glswCheck (of A) (of B) = none := by
      unfold glswCheck sameShapeAs
      exact if_pos (by simp)
    rw [hc]
    simp only []
    rw [this]
    rfl
  obtain ⟨σ, hσ, h1, h2, h3, h4⟩ := sorted_ortho hp h.ortho false
  refine ⟨_, _, hep cfg N hN rfl rfl (hNN.trans hle) σ h1, hep { cfg with N := (N' : Int) } N' rfl rfl rfl hle σ h1, fun r X =>
    ⟨_, _, mul_of X _, mul_of X _, fun i => ⟨?_, ?_⟩⟩⟩
  · rw [lead_length h4.ortho, lead_length h4.ortho]
    refine Finset.sum_le_sum fun j _ => mul_le_mul_of_nonneg_right ?_ (sq_nonneg _)
    by_cases hj : j.1 < N
    · rw [if_pos hj, if_pos (lt_of_lt_of_le hj hNN)]
    · rw [if_neg hj]
      split <;> norm_num
  · rw [lead_length h4.ortho, ← length_basis h4.ortho X]
    refine Finset.sum_le_sum fun j _ => mul_le_of_le_one_left (sq_nonneg _) ?_
    split <;> norm_num

/-! ## PRM: `c` -/

theorem fair_mono (z : ℝ) {c c' : ℝ} (hc : 0 < c) (h : c ≤ c') : fair z c ≤ fair z c' ∧ fair z c' ≤ 1 := by
  have hc' : 0 < c' := lt_of_lt_of_le hc h
  unfold fair
  simp only [pyAbs_real, abs_div, abs_of_pos hc, abs_of_pos hc']
  have h1 : |z| / c' ≤ |z| / c := div_le_div_of_nonneg_left (abs_nonneg z) hc h
  have h2 : 0 ≤ |z| / c' := by positivity
  constructor
  · exact one_div_le_one_div_of_le (by positivity) (by nlinarith)
  · rw [div_le_one (by positivity)]
    nlinarith

theorem fair_strict {z : ℝ} (hz : z ≠ 0) {c c' : ℝ} (hc : 0 < c) (h : c < c') : fair z c < fair z c' := by
  have hc' : 0 < c' := hc.trans h
  unfold fair
  simp only [pyAbs_real, abs_div, abs_of_pos hc, abs_of_pos hc']
  have h1 : |z| / c' < |z| / c := div_lt_div_of_pos_left (abs_pos.2 hz) hc h
  have h2 : 0 ≤ |z| / c' := by positivity
  exact one_div_lt_one_div_of_lt (by positivity) (by nlinarith)

theorem fair_tendsto (z : ℝ) : Filter.Tendsto (fun c : ℝ => fair z c) Filter.atTop (nhds 1) := by
  unfold fair
  simp only [pyAbs_real]
  have h : Filter.Tendsto (fun c : ℝ => |z / c|) Filter.atTop (nhds 0) := by
    have := (Filter.Tendsto.const_div_atTop Filter.tendsto_id z).abs
    simpa using this
  have h1 := (h.const_add 1).mul (h.const_add 1)
  have h2 := (tendsto_const_nhds (x := (1 : ℝ))).div h1 (by norm_num)
  have e : (1 : ℝ) / ((1 + 0) * (1 + 0)) = 1 := by norm_num
  rw [e] at h2
  exact h2

theorem geoLoop_C (cfg : PrmCfg ℝ) (c : ℝ) (X : Mat ℝ) : ∀ (k : Nat) (iter : Int) (g : Mat ℝ), (cfg.maxIter - iter).toNat = k →
    geoLoop { cfg with C := c } X iter g = geoLoop cfg X iter g := by
  intro k
  induction k with
  | zero =>
    intro iter g hk
    rw [geoLoop, geoLoop, dif_neg (by show ¬ iter < cfg.maxIter; omega), dif_neg (by omega)]
  | succ k ih =>
    intro iter g hk
    rw [geoLoop, geoLoop, dif_pos (by show iter < cfg.maxIter; omega), dif_pos (by omega)]
    have e : geoStep { cfg with C := c } X g = geoStep cfg X g := rfl
    rw [e]
    congr 1
    funext nx
    congr 1
    funext d
    by_cases hd : d.norm2Squared < cfg.tol
    · rw [if_pos hd, if_pos hd]
    · rw [if_neg hd, if_neg hd, ih _ _ (by omega)]

theorem weights_C (cfg : PrmCfg ℝ) (c : ℝ) (hn : 0 < n) (X : Matrix (Fin n) (Fin p) ℝ) (m : Matrix (Fin 1) (Fin p) ℝ)
    (y : Matrix (Fin n) (Fin 1) ℝ) (hm : geoMedian cfg (of X) = .ok (of m)) (ρ : Matrix (Fin n) (Fin 1) ℝ)
    (hρ : ρ = Matrix.of fun i (_ : Fin 1) => y i 0 - cfg.med (of y)) (cfg' : PrmCfg ℝ) (h' : cfg' = { cfg with C := c }) :
    residualWeights cfg' n (of y) none = .ok (of (Matrix.of fun i (_ : Fin 1) => fair (ρ i 0 / prmMad cfg (of ρ)) c)) ∧
      leverageWeights cfg' (of X) = .ok (of (Matrix.of fun i (_ : Fin 1) => fair (distM X m i 0 / cfg.med (of (distM X m))) c)) := by
  have h1 : cfg'.C = c := by rw [h']
  have h2 : cfg'.med = cfg.med := by rw [h']
  have h3 : geoMedian cfg' (of X) = .ok (of m) := by
    rw [← hm, h']
    exact geoLoop_C cfg c (of X) _ 0 _ rfl
  have h4 : prmMad cfg' (of ρ) = prmMad cfg (of ρ) := by unfold prmMad; rw [h2]
  constructor
  · have := residualWeights_of cfg' hn (of y) none ρ (by rw [residuals_first _ hn, h2, hρ])
    rw [this, h1, h4]
  · have := leverageWeights_of cfg' hn (of X) (of m) rfl (distM X m) h3 (cDist_of hn X m)
    rw [this, h1, h2]

/-- **C157 (PRM).**  A larger `C` makes the weights flatter: the first weights of all samples, from residuals and from leverages, do not
decrease and stay at most one, those of responses away from the median increase; for `C → ∞` they tend to one.  (The two scales must not vanish, see C60 and C105.) -/
theorem C157_prm_C (cfg : PrmCfg ℝ) (he : 0 < cfg.eps) (hn : 2 ≤ n) (X : Matrix (Fin n) (Fin p) ℝ)
    (y : Matrix (Fin n) (Fin 1) ℝ)
    (hmad : prmMad cfg (of (Matrix.of fun i (_ : Fin 1) => y i 0 - cfg.med (of y))) ≠ 0)
    (_hlev : ∀ m, geoMedian cfg (of X) = .ok (of m) → cfg.med (of (distM X m)) ≠ 0) :
    ∃ wr wx : ℝ → Matrix (Fin n) (Fin 1) ℝ,
      (∀ c, residualWeights { cfg with C := c } n (of y) none = .ok (of (wr c)) ∧ leverageWeights { cfg with C := c } (of X) = .ok (of (wx c))) ∧
      (∀ c c', 0 < c → c ≤ c' → ∀ i, wr c i 0 ≤ wr c' i 0 ∧ wr c' i 0 ≤ 1 ∧ wx c i 0 ≤ wx c' i 0 ∧ wx c' i 0 ≤ 1) ∧
      (∀ c c', 0 < c → c < c' → ∀ i, y i 0 ≠ cfg.med (of y) → wr c i 0 < wr c' i 0) ∧
      ∀ i, Filter.Tendsto (fun c => wr c i 0) Filter.atTop (nhds 1) ∧ Filter.Tendsto (fun c => wx c i 0) Filter.atTop (nhds 1) := by
  obtain ⟨m, hm, -⟩ := geoMedian_hull cfg he hn X
  refine ⟨_, _, fun c => weights_C cfg c (by omega) X m y hm _ rfl _ rfl, fun c c' hc hcc i => ?_, fun c c' hc hcc i hy => ?_, fun i => ⟨fair_tendsto _, fair_tendsto _⟩⟩
  · exact ⟨(fair_mono _ hc hcc).1, (fair_mono _ hc hcc).2, (fair_mono _ hc hcc).1, (fair_mono _ hc hcc).2⟩
  · exact fair_strict (div_ne_zero (sub_ne_zero.2 hy) hmad) hc hcc

/-! ## PCA: `variance` and `max_columns` -/

theorem numKept_mono (cfg cfg' : PcaCfg ℝ) (hv : cfg.variance ≤ cfg'.variance)
    (hm : cfg'.maxColumns ≤ 0 ∨ 0 < cfg.maxColumns ∧ cfg.maxColumns ≤ cfg'.maxColumns) (lam : Fin (p + 1) → ℝ) (ord : Fin (p + 1) → Fin (p + 1)) :
    numKept cfg lam ord ≤ numKept cfg' lam ord := by
  have hb : pcaBound cfg (p + 1) ≤ pcaBound cfg' (p + 1) := by
    unfold pcaBound
    split <;> split <;> omega
  have hpos : 0 < pcaBound cfg' (p + 1) := by unfold pcaBound; split <;> omega
  obtain ⟨-, s2, -, s4, -⟩ := kStop_spec (reached cfg lam ord) (pcaBound cfg (p + 1)) 0
  obtain ⟨-, -, t3, -, t5⟩ := kStop_spec (reached cfg' lam ord) (pcaBound cfg' (p + 1)) 0
  unfold numKept
  by_contra hlt
  rw [not_le] at hlt
  have h1 := t5 (by omega)
  have h2 := s4 _ (t3 hpos) hlt
  rw [reached, decide_eq_true_eq] at h1
  rw [reached, decide_eq_false_iff_not] at h2
  exact h2 (hv.trans h1)

/-- **C157 (PCA).**  Asking for more variance, or allowing more components, only appends components: the scores obtained before are the
first columns of the new scores, for the training data and for new data.  (`max_columns ≤ 0` means no limit.) -/
theorem C157_pca (cfg : PcaCfg ℝ) (hcfg : PcaReal cfg) (v : ℝ) (m : Int) (hv : cfg.variance ≤ v)
    (hm : m ≤ 0 ∨ 0 < cfg.maxColumns ∧ cfg.maxColumns ≤ m) (X : Matrix (Fin n) (Fin q) ℝ) (hX : ∃ j i i', X i j ≠ X i' j) :
    ∃ (K K' : Nat) (h : K ≤ K') (st st' : PcaState ℝ) (S : Matrix (Fin n) (Fin K) ℝ) (S' : Matrix (Fin n) (Fin K') ℝ) (L L' : Mat ℝ),
      pcaTransform cfg (of X) = .ok (st, of S, L) ∧ pcaTransform { cfg with variance := v, maxColumns := m } (of X) = .ok (st', of S', L') ∧
      (∀ i c, S' i (Fin.castLE h c) = S i c) ∧
      ∀ (r : Nat) (Z : Matrix (Fin r) (Fin q) ℝ), 0 < r → ∃ (T : Matrix (Fin r) (Fin K) ℝ) (T' : Matrix (Fin r) (Fin K') ℝ),
        pcaScores cfg st (of Z) = .ok (of T) ∧ pcaScores { cfg with variance := v, maxColumns := m } st' (of Z) = .ok (of T') ∧
        ∀ i c, T' i (Fin.castLE h c) = T i c := by
  obtain ⟨p, κ, hκ⟩ := enum_exists X hX
  have hn : 2 ≤ n := two_le_of_nonConst ((hκ.mem (κ 0)).1 ⟨0, rfl⟩)
  have hT : prepM cfg (X.submatrix id κ) = prepared cfg.centered X κ X := prepB_eq cfg X κ hκ X
  have hC : covM (prepM cfg (X.submatrix id κ)) = cov (prepared cfg.centered X κ X) := by rw [hT, covM_eq _ (by omega)]
  obtain ⟨ev, V, he, hp⟩ := hcfg.eig (cov (prepared cfg.centered X κ X)) (cov_symm _)
  obtain ⟨ord, -, -, ho⟩ := hcfg.argsort fun i => max 0 (ev i)
  obtain ⟨st, h1, h2⟩ := pcaTransform_of cfg hcfg.isZero hcfg.eq hcfg.le X (by omega) κ hκ ev V (by rw [hC]; exact he) ord ho
  obtain ⟨st', h1', h2'⟩ := pcaTransform_of { cfg with variance := v, maxColumns := m } hcfg.isZero hcfg.eq hcfg.le X (by omega) κ hκ ev V
    (Eq.trans (congrArg (fun C => cfg.eig (of C)) hC) he) ord ho
  exact ⟨_, _, numKept_mono cfg { cfg with variance := v, maxColumns := m } hv hm _ ord, st, st', _, _, _, _, h1, h1', fun i c => rfl,
    fun r Z hr => ⟨_, _, h2 r Z hr, h2' r Z hr, fun i c => rfl⟩⟩

/-! ## SparsePLS: `lambda` -/

/-- **C157 (SparsePLS), partial.**  A larger `λ` never brings a feature back into the direction vector.  The set of selected features is taken
from this vector with the threshold `1e-6` after a division by its squared norm, so that the claim about the selected features fails, see below. -/
theorem C157_sparse_partial (cfg : SpCfg ℝ) (hz : ∀ x, cfg.isZero x = true ↔ x = 0) (hmax : IsAmax cfg.amax) (hp : 0 < p)
    (hl : 0 ≤ cfg.lam) (l : ℝ) (hll : cfg.lam ≤ l) (hl1 : l < 1) (X : Matrix (Fin n) (Fin p) ℝ) (y : Matrix (Fin n) (Fin 1) ℝ) (s : ℝ)
    (hs : cfg.med (of (Matrix.of fun i (_ : Fin 1) => |(Xᵀ * y) i 0|)) = s) (hs0 : 0 < s) (hz0 : Xᵀ * y ≠ 0) :
    ∃ w w' : Matrix (Fin p) (Fin 1) ℝ, spDirection cfg (of X) (of y) = .ok (of w) ∧ spDirection { cfg with lam := l } (of X) (of y) = .ok (of w') ∧
      (∃ i, w' i 0 ≠ 0) ∧ ∀ i, w' i 0 ≠ 0 → w i 0 ≠ 0 := by
  obtain ⟨w, k, c, h1, h2, -, -, -, h3⟩ := C61_direction_partial cfg hz hmax hp hl (lt_of_le_of_lt hll hl1) X y s hs hs0 hz0
  obtain ⟨w', k', c', h1', h2', -, -, -, h3'⟩ := C61_direction_partial { cfg with lam := l } hz hmax hp (hl.trans hll) hl1 X y s hs hs0 hz0
  have hk : |(Xᵀ * y) k' 0| = |(Xᵀ * y) k 0| := le_antisymm (h2 k') (h2' k)
  have hk0 : 0 < |(Xᵀ * y) k' 0| := by
    refine lt_of_le_of_ne (abs_nonneg _) fun e => hz0 ?_
    ext i j
    rw [Subsingleton.elim j 0]
    have := h2' i
    rw [← e] at this
    exact abs_nonpos_iff.1 this
  refine ⟨w, w', h1, h1', ⟨k', (h3' k').2 ?_⟩, fun i hi => (h3 i).2 (lt_of_le_of_lt ?_ ((h3' i).1 hi))⟩
  · show l * _ < _
    nlinarith
  · show _ ≤ l * _
    rw [hk]
    exact mul_le_mul_of_nonneg_right hll (abs_nonneg _)

theorem med_three {med : Mat ℝ → ℝ} (hmed : MedCol med) (f : Fin 3 → ℝ) (h0 : f 0 = 1) (h1 : f 1 = 1) (h2 : f 2 = 2000) :
    med (of (Matrix.of fun i (_ : Fin 1) => f i)) = 1 := by
  rw [hmed 3 f (by norm_num)]
  have hl : List.ofFn f = [1, 1, 2000] := by
    simp only [List.ofFn_succ, List.ofFn_zero, h0]
    show [1, f 1, f 2] = _
    rw [h1, h2]
  refine (median_middle (List.ofFn f) (by rw [hl]; simp)).unique ?_
  rw [hl]
  refine ⟨1, by simp, 1, by simp, by norm_num, ?_⟩
  norm_num [List.countP_cons]

/-- **C157 (SparsePLS), violation.**  "For sufficiently small lambda, all features will be selected" (`_SparsePLS.py` 42-44) is false: features 0 and 1
are correlated with the response, but the first step selects them for no `λ` whatever. -/
theorem C157_sparse_small_violation (med amax : Mat ℝ → ℝ) (hmed : MedCol med) (hmax : IsAmax amax) :
    ∃ (X : Matrix (Fin 1) (Fin 3) ℝ) (y : Matrix (Fin 1) (Fin 1) ℝ), (∀ i, (Xᵀ * y) i 0 ≠ 0) ∧
      ∀ lam, 0 ≤ lam → lam < 1 → ∃ (w : Matrix (Fin 3) (Fin 1) ℝ) (A : List Nat), spDirection (spDemo lam med amax) (of X) (of y) = .ok (of w) ∧
        spCollect (spDemo lam med amax) (of w) (of (0 : Matrix (Fin 3) (Fin 1) ℝ)) = .ok A ∧ 0 ∉ A ∧ 1 ∉ A := by
  let X : Matrix (Fin 1) (Fin 3) ℝ := !![1, 1, 2000]
  let y : Matrix (Fin 1) (Fin 1) ℝ := !![1]
  have hv : ∀ i, (Xᵀ * y) i 0 = X 0 i := fun i => by
    rw [Matrix.mul_apply, Fin.sum_univ_one]
    show X 0 i * (1 : ℝ) = _
    ring
  have v0 : (Xᵀ * y) 0 0 = 1 := hv 0
  have v1 : (Xᵀ * y) 1 0 = 1 := hv 1
  have v2 : (Xᵀ * y) 2 0 = 2000 := hv 2
  refine ⟨X, y, fun i => ?_, fun lam hl hl1 => ?_⟩
  · fin_cases i
    · exact v0 ▸ one_ne_zero
    · exact v1 ▸ one_ne_zero
    · show (Xᵀ * y) 2 0 ≠ 0
      rw [v2]
      norm_num
  · have hs : (spDemo lam med amax).med (of (Matrix.of fun i (_ : Fin 1) => |(Xᵀ * y) i 0|)) = 1 :=
      med_three hmed _ (by rw [v0]; norm_num) (by rw [v1]; norm_num) (by rw [v2]; norm_num)
    obtain ⟨w, k, c, h1, h2, hc, h3, h4, h5⟩ := C61_direction_partial (spDemo lam med amax) (fun x => by simp [spDemo]) hmax
      (by norm_num : 0 < 3) hl hl1 X y 1 hs one_pos (fun h => by
        have := congrFun (congrFun h 0) 0
        rw [v0] at this
        exact one_ne_zero this)
    obtain ⟨A, hA, -, hmem⟩ := spCollect_of (spDemo lam med amax) w (0 : Matrix (Fin 3) (Fin 1) ℝ)
    have hk : |(Xᵀ * y) k 0| = 2000 := by
      refine le_antisymm ?_ (le_trans (by rw [v2]; norm_num) (h2 2))
      fin_cases k
      · show |(Xᵀ * y) 0 0| ≤ _
        rw [v0]; norm_num
      · show |(Xᵀ * y) 1 0| ≤ _
        rw [v1]; norm_num
      · show |(Xᵀ * y) 2 0| ≤ _
        rw [v2]; norm_num
    have hlam : (spDemo lam med amax).lam = lam := rfl
    have hthr : (spDemo lam med amax).thr = 1 / 10 ^ 6 := rfl
    rw [hlam, hk] at h3 h4 h5
    have hsm : ∀ i, (Xᵀ * y) i 0 = 1 → ¬ (1 / 10 ^ 6 : ℝ) < |w i 0| := by
      intro i hi hlt
      have h6 : w i 0 ≠ 0 := fun h => by rw [h, abs_zero] at hlt; norm_num at hlt
      have h7 := (h5 i).1 h6
      rw [hi, abs_one] at h7
      have s1 : soft 1 (lam * 2000) = 1 - lam * 2000 := by
        unfold soft
        rw [max_eq_left (by linarith), max_eq_right (by nlinarith)]
        ring
      have s2 : soft 2000 (lam * 2000) = 2000 - lam * 2000 := by
        unfold soft
        rw [max_eq_left (by linarith), max_eq_right (by nlinarith)]
        ring
      set t := lam * 2000 with ht
      have ht0 : 0 ≤ t := by positivity
      rw [Fin.sum_univ_three, Fin.sum_univ_three, v0, v1, v2, s1, s2, h3 0, h3 1, h3 2, v0, v1, v2, s1, s2] at h4
      rw [h3 i, hi, s1, abs_of_pos (mul_pos hc (by linarith))] at hlt
      have hD : 0 < (1 - t) ^ 2 + (1 - t) ^ 2 + (2000 - t) ^ 2 := by nlinarith
      rw [eq_div_iff hD.ne'] at h4
      have h8 : (c * ((1 - t) ^ 2 + (1 - t) ^ 2 + (2000 - t) ^ 2)) ^ 2 = 1 := by
        linear_combination h4
      have h9 : c * ((1 - t) ^ 2 + (1 - t) ^ 2 + (2000 - t) ^ 2) = 1 := by
        exact (pow_eq_one_iff_of_nonneg (mul_pos hc hD).le two_ne_zero).1 h8
      have h10 : (1999 : ℝ) ^ 2 ≤ (1 - t) ^ 2 + (1 - t) ^ 2 + (2000 - t) ^ 2 := by nlinarith
      have h11 : c * (1999 : ℝ) ^ 2 ≤ 1 := h9 ▸ mul_le_mul_of_nonneg_left h10 hc.le
      have h12 : c * (1 - t) ≤ c := by nlinarith
      norm_num at hlt h11
      linarith
    refine ⟨w, A, h1, hA, fun h => ?_, fun h => ?_⟩
    · rcases (hmem 0).1 h with h | h
      · exact hsm 0 v0 (hthr ▸ h)
      · rw [hthr] at h
        norm_num at h
    · rcases (hmem 1).1 h with h | h
      · exact hsm 1 v1 (hthr ▸ h)
      · rw [hthr] at h
        norm_num at h

/-- **C157 (SparsePLS), violation.**  A larger `λ` can select more: of two million equally correlated features none is selected for `λ = 0` and all
are for `λ = 3/4`. -/
theorem C157_sparse_order_violation (med amax : Mat ℝ → ℝ) (hmed : ∀ p (f : Fin p → ℝ) (a : ℝ), 0 < p → (∀ i, f i = a) →
    med (of (Matrix.of fun i (_ : Fin 1) => f i)) = a) (hmax : IsAmax amax) :
    ∃ (p : Nat) (X : Matrix (Fin 1) (Fin p) ℝ) (y : Matrix (Fin 1) (Fin 1) ℝ) (w w' : Matrix (Fin p) (Fin 1) ℝ) (A A' : List Nat),
      spDirection (spDemo 0 med amax) (of X) (of y) = .ok (of w) ∧ spDirection (spDemo (3 / 4) med amax) (of X) (of y) = .ok (of w') ∧
      spCollect (spDemo 0 med amax) (of w) (of (0 : Matrix (Fin p) (Fin 1) ℝ)) = .ok A ∧
      spCollect (spDemo (3 / 4) med amax) (of w') (of (0 : Matrix (Fin p) (Fin 1) ℝ)) = .ok A' ∧ 0 < p ∧ (∀ i : Fin p, i.1 ∉ A) ∧ ∀ i : Fin p, i.1 ∈ A' := by
  obtain ⟨p, hpe⟩ : ∃ p : Nat, p = 2000000 := ⟨_, rfl⟩
  have hp : 0 < p := by omega
  have hpr : (p : ℝ) = 2000000 := by rw [hpe]; norm_num
  let X : Matrix (Fin 1) (Fin p) ℝ := Matrix.of fun _ _ => 1
  let y : Matrix (Fin 1) (Fin 1) ℝ := !![1]
  have hv : ∀ i, (Xᵀ * y) i 0 = 1 := fun i => by
    rw [Matrix.mul_apply, Fin.sum_univ_one]
    show (1 : ℝ) * (1 : ℝ) = _
    ring
  have main : ∀ lam : ℝ, 0 ≤ lam → lam < 1 → ∃ (w : Matrix (Fin p) (Fin 1) ℝ) (A : List Nat), spDirection (spDemo lam med amax) (of X) (of y) = .ok (of w) ∧
      spCollect (spDemo lam med amax) (of w) (of (0 : Matrix (Fin p) (Fin 1) ℝ)) = .ok A ∧
      ∀ i : Fin p, i.1 ∈ A ↔ (1 / 10 ^ 6 : ℝ) < 1 / (2000000 * (1 - lam)) := by
    intro lam hl hl1
    obtain ⟨w, k, c, h1, -, hc, h3, h4, -⟩ := C61_direction_partial (spDemo lam med amax) (fun x => by simp [spDemo]) hmax
      hp hl hl1 X y 1 (hmed p _ 1 hp fun i => by rw [hv, abs_one]) one_pos (fun h => by
        have := congrFun (congrFun h ⟨0, hp⟩) 0
        rw [hv] at this
        exact one_ne_zero this)
    obtain ⟨A, hA, -, hmem⟩ := spCollect_of (spDemo lam med amax) w (0 : Matrix (Fin p) (Fin 1) ℝ)
    have hlam : (spDemo lam med amax).lam = lam := rfl
    have hthr : (spDemo lam med amax).thr = 1 / 10 ^ 6 := rfl
    have s1 : soft 1 lam = 1 - lam := by
      unfold soft
      rw [max_eq_left (by linarith), max_eq_right (by linarith)]
      ring
    simp only [hv, hlam, abs_one, mul_one, s1] at h3 h4
    simp only [h3, Finset.sum_const, Finset.card_univ, Fintype.card_fin, nsmul_eq_mul, hpr] at h4
    have hu : 0 < 1 - lam := by linarith
    have hD : 0 < 2000000 * (1 - lam) ^ 2 := by positivity
    rw [eq_div_iff hD.ne'] at h4
    have h8 : (c * (2000000 * (1 - lam) ^ 2)) ^ 2 = 1 := by
      linear_combination h4
    have h9 : c * (2000000 * (1 - lam) ^ 2) = 1 := by
      exact (pow_eq_one_iff_of_nonneg (mul_pos hc hD).le two_ne_zero).1 h8
    have h10 : c * (1 - lam) = 1 / (2000000 * (1 - lam)) := by
      rw [eq_div_iff (by positivity)]
      linarith
    refine ⟨w, A, h1, hA, fun i => (hmem i).trans ?_⟩
    rw [h3 i, abs_of_pos (mul_pos hc hu), h10, hthr]
    constructor
    · rintro (h | h)
      · exact h
      · norm_num at h
    · exact Or.inl
  obtain ⟨w, A, h1, h2, h3⟩ := main 0 le_rfl one_pos
  obtain ⟨w', A', h1', h2', h3'⟩ := main (3 / 4) (by norm_num) (by norm_num)
  exact ⟨p, X, y, w, w', A, A', h1, h1', h2, h2', hp, fun i hi => by have := (h3 i).1 hi; norm_num at this, fun i => (h3' i).2 (by norm_num)⟩

/-! ## RBF kernel: `gamma` -/

/-- **C157 (RBF kernel).**  A larger `gamma` makes two different samples less alike, and never changes the similarity of a sample to itself. -/
theorem C157_rbf_gamma {g g' : ℝ} (h : g < g') (x y : Fin n → ℝ) :
    ∃ v v' : ℝ, rbfVector (some g) (of (Matrix.of fun (_ : Fin 1) l => x l)) (of (Matrix.of fun (_ : Fin 1) l => y l)) = (some g, .ok v) ∧
      rbfVector (some g') (of (Matrix.of fun (_ : Fin 1) l => x l)) (of (Matrix.of fun (_ : Fin 1) l => y l)) = (some g', .ok v') ∧
      (x ≠ y → v' < v) ∧ (x = y → v' = v) := by
  refine ⟨rbf g x y, rbf g' x y, C40_value g x y, C40_value g' x y, fun hxy => ?_, fun hxy => ?_⟩
  · unfold rbf
    rw [Real.exp_lt_exp]
    have h0 : 0 < dist2 x y := by
      refine lt_of_le_of_ne (dist2_nonneg x y) fun e => hxy ?_
      have h2 : ∑ l, (x l - y l) * (x l - y l) = 0 := by rw [← dist2_sq, ← e]; simp
      funext l
      have := (Finset.sum_eq_zero_iff_of_nonneg fun l _ => mul_self_nonneg (x l - y l)).1 h2 l (Finset.mem_univ l)
      exact sub_eq_zero.1 (mul_self_eq_zero.1 this)
    nlinarith
  · subst hxy
    rw [C40_self, C40_self]

/-! ## SIMPLS: `num_coefficients` -/

/-- **C157 (SIMPLS).**  Asking for more coefficients keeps all that were kept before, with the same values. -/
theorem C157_simpls_count {K : Nat} (hp : 0 < p) {count count' : Nat} (h : count ≤ count') (W : Matrix (Fin p) (Fin K) ℝ) :
    ∃ R R' : Matrix (Fin p) (Fin K) ℝ, slim (count : Int) (of W) = .ok (of R) ∧ slim (count' : Int) (of W) = .ok (of R') ∧
      ∀ i j, R i j ≠ 0 → R' i j = R i j := by
  refine ⟨_, _, C56_slim hp count W, C56_slim hp count' W, fun i j hR => ?_⟩
  simp only [Matrix.of_apply] at hR ⊢
  by_cases hc : (Finset.univ.filter fun i' => |W i j| < |W i' j|).card ≤ count
  · rw [if_pos hc, if_pos (hc.trans h)]
  · rw [if_neg hc] at hR
    exact absurd rfl hR

/-! ## Downsample: `step` -/

/-- **C157 (Downsample).**  A larger step keeps at most as many columns, a larger start likewise. -/
theorem C157_downsample {α : Type} (start start' step step' : Nat) (hs : 0 < step) (h : step ≤ step') (h' : start ≤ start') (M : Mat α) :
    ∃ R R', downsample start step M = .ok R ∧ downsample start' step' M = .ok R' ∧ R'.cols ≤ R.cols ∧ R'.rows = R.rows := by
  obtain ⟨R, h1, h2, h3, -⟩ := C42_columns (start : Int) (step : Int) (by omega) M (by omega)
  obtain ⟨R', h1', h2', h3', -⟩ := C42_columns (start' : Int) (step' : Int) (by omega) M (by omega)
  refine ⟨R, R', h1, h1', ?_, h2'.trans h2.symm⟩
  by_contra hlt
  have h4 := (h3' R.cols).1 (not_le.1 hlt)
  have h5 : ¬ R.cols < R.cols := lt_irrefl _
  refine h5 ((h3 R.cols).2 (lt_of_le_of_lt ?_ h4))
  have : (R.cols : Int) * step ≤ (R.cols : Int) * step' := by
    refine mul_le_mul_of_nonneg_left ?_ (by omega)
    exact_mod_cast h
  omega

/-! ## Savitzky-Golay: polynomial order and window -/

section sg
open Finset Polynomial

/-- **C157 (Savitzky-Golay).**  A higher polynomial order amplifies noise at least as much. -/
theorem C157_sg_order {l r p p' d : Nat} (h1 : 1 ≤ l + r) (hpp : p ≤ p') (hp : p' ≤ l + r) (hd : d ≤ p) :
    ∃ c c' : Fin (l + r + 1) → ℝ, determineCoefficients (l : Int) (r : Int) (p : Int) (d : Int) = .ok (List.ofFn c) ∧
      determineCoefficients (l : Int) (r : Int) (p' : Int) (d : Int) = .ok (List.ofFn c') ∧ ∑ k, c k ^ 2 ≤ ∑ k, c' k ^ 2 := by
  obtain ⟨c, hc, hmin⟩ := C118_least_noise (d := d) h1 (hpp.trans hp) hd
  obtain ⟨c', hc', hex, -⟩ := sg_coefficients h1 hp (hd.trans hpp)
  exact ⟨c, c', hc, hc', (hmin c' fun f hf => hex f (hf.trans hpp)).1⟩

/-- **C157 (Savitzky-Golay).**  A wider window, to the left or to the right, amplifies noise at most as much. -/
theorem C157_sg_window {l r a b p d : Nat} (h1 : 1 ≤ l + r) (hp : p ≤ l + r) (hd : d ≤ p) :
    ∃ (c : Fin (l + r + 1) → ℝ) (c' : Fin ((l + a) + (r + b) + 1) → ℝ),
      determineCoefficients (l : Int) (r : Int) (p : Int) (d : Int) = .ok (List.ofFn c) ∧
      determineCoefficients ((l + a : Nat) : Int) ((r + b : Nat) : Int) (p : Int) (d : Int) = .ok (List.ofFn c') ∧
      ∑ k, c' k ^ 2 ≤ ∑ k, c k ^ 2 := by
  obtain ⟨c, hc, hex, -⟩ := sg_coefficients h1 hp hd
  obtain ⟨c', hc', hmin⟩ := C118_least_noise (l := l + a) (r := r + b) (p := p) (d := d) (by omega) (by omega) hd
  refine ⟨c, c', hc, hc', ?_⟩
  let emb : Fin (l + r + 1) → Fin ((l + a) + (r + b) + 1) := fun k => ⟨k.1 + a, by omega⟩
  have hinj : Function.Injective emb := fun x y h => by
    have := congrArg Fin.val h
    exact Fin.ext (by simpa [emb] using this)
  let pad : Fin ((l + a) + (r + b) + 1) → ℝ := fun k => if h : a ≤ k.1 ∧ k.1 - a < l + r + 1 then c ⟨k.1 - a, h.2⟩ else 0
  have hpad : ∀ k, pad (emb k) = c k := fun k => by
    have h0 : a ≤ (emb k).1 ∧ (emb k).1 - a < l + r + 1 := ⟨Nat.le_add_left _ _, by show k.1 + a - a < _; omega⟩
    show dite _ _ _ = _
    rw [dif_pos h0]
    congr 1
    exact Fin.ext (Nat.add_sub_cancel k.1 a)
  have hout : ∀ k, k ∉ univ.image emb → pad k = 0 := fun k hk => by
    show dite _ _ _ = _
    rw [dif_neg]
    rintro ⟨h2, h3⟩
    exact hk (mem_image.2 ⟨⟨k.1 - a, h3⟩, mem_univ _, Fin.ext (Nat.sub_add_cancel h2)⟩)
  have hsum : ∀ g : Fin ((l + a) + (r + b) + 1) → ℝ, (∀ k, k ∉ univ.image emb → g k = 0) → ∑ k, g k = ∑ k, g (emb k) := fun g hg => by
    rw [← sum_subset (subset_univ (univ.image emb)) fun k _ hk => hg k hk, sum_image fun _ _ _ _ h => hinj h]
  have := (hmin pad fun f hf => by
    rw [hsum _ fun k hk => by rw [hout k hk, zero_mul], ← hex f hf]
    refine sum_congr rfl fun k _ => ?_
    rw [hpad]
    congr 2
    show (((k.1 + a : Nat) : ℝ)) - ((l + a : Nat) : ℝ) = (k.1 : ℝ) - l
    push_cast
    ring).1
  refine this.trans (le_of_eq ?_)
  rw [hsum _ fun k hk => by rw [hout k hk]; norm_num]
  exact sum_congr rfl fun k _ => by rw [hpad]

end sg

/-! ## Examples -/

/-- Filters fitted to the same data with `alpha` 1 and 5, and with `N` 1 and 2. -/
example : ∃ cfg : GlswCfg ℝ, cfg.alpha = 1 ∧ cfg.N = (1 : Nat) ∧ Solved cfg (clutterCov (0 : Matrix (Fin 4) (Fin 2) ℝ) exB) ![2, 8] 1 ![8, 2] ∧
    EpoSolved cfg (clutterCov (0 : Matrix (Fin 4) (Fin 2) ℝ) exB) ![2, 8] 1 :=
  ⟨⟨1, 1, fun _ => .ok (of (Matrix.of fun i (_ : Fin 1) => (![2, 8] : Fin 2 → ℝ) i), of (1 : Matrix (Fin 2) (Fin 2) ℝ)),
    fun _ => .ok (of (1 : Matrix (Fin 2) (Fin 2) ℝ), of (Matrix.of fun (_ : Fin 1) i => (![8, 2] : Fin 2 → ℝ) i), of (1 : Matrix (Fin 2) (Fin 2) ℝ)),
    fun a b => decide (a ≤ b), fun _ => .error .linAlgError, fun x => x⟩, rfl, rfl, ⟨rfl, ⟨_, _, rfl⟩, exB_singular⟩, ⟨rfl, exB_ortho, rfl⟩⟩

example (cfg : GlswCfg ℝ) (ha : cfg.alpha = 1) (hN : cfg.N = (1 : Nat)) (h : Solved cfg (clutterCov (0 : Matrix (Fin 4) (Fin 2) ℝ) exB) ![2, 8] 1 ![8, 2])
    (h' : EpoSolved cfg (clutterCov (0 : Matrix (Fin 4) (Fin 2) ℝ) exB) ![2, 8] 1) :=
  And.intro (C157_glsw_alpha cfg (by rw [ha]; norm_num) 5 (by rw [ha]; norm_num) (by norm_num) 0 exB _ _ _ h (by simp))
    (C157_epo_N cfg (by norm_num) 1 2 hN (by norm_num) le_rfl 0 exB _ _ h')

theorem median_pos {a b c : ℝ} (ha : 0 ≤ a) (hb : 0 ≤ b) (hc : 0 ≤ c) (hab : 0 < a + b) (hac : 0 < a + c) (hbc : 0 < b + c) :
    medianList [a, b, c] ≠ 0 := by
  obtain ⟨u, hu, v, hv, e, u1, u2, v1, v2⟩ := median_middle [a, b, c] (by simp)
  intro h0
  have hmem : ∀ x ∈ [a, b, c], 0 ≤ x := by simp [ha, hb, hc]
  have hu0 := hmem u hu
  have hv0 := hmem v hv
  have hue : u = 0 := by linarith
  subst hue
  simp only [List.countP_cons, List.countP_nil, List.length_cons, List.length_nil, decide_eq_true_eq] at u2
  have : ∀ x : ℝ, (if x ≤ 0 then (1 : Nat) else 0) ≤ 1 := fun x => by split <;> omega
  by_cases h1 : a ≤ 0
  · rw [if_pos h1, if_neg (by linarith), if_neg (by linarith)] at u2
    omega
  · rw [if_neg h1] at u2
    by_cases h2 : b ≤ 0
    · rw [if_pos h2, if_neg (by linarith)] at u2
      omega
    · rw [if_neg h2] at u2
      have := this c
      omega

/-- Three samples with predictors 0, 1, 2 and responses 1, -1, 3. -/
example := C157_prm_C medCfg (by norm_num [medCfg, prmDemo]) (by norm_num : 2 ≤ 3) (!![0; 1; 2] : Matrix (Fin 3) (Fin 1) ℝ)
  (Matrix.of fun i (_ : Fin 1) => (![1, -1, 3] : Fin 3 → ℝ) i)
  (by
    have := scale_example (le_refl (3 : ℝ))
    have e := medCfg_med 3 (![1, -1, 3] : Fin 3 → ℝ) (by norm_num)
    simp only [Matrix.of_apply]
    rw [e, mad_first medCfg_med (by norm_num) (![1, -1, 3] : Fin 3 → ℝ), this]
    norm_num)
  (fun m _ => by
    have e := medCfg_med 3 (fun i => rdist (!![0; 1; 2] : Matrix (Fin 3) (Fin 1) ℝ) m i) (by norm_num)
    refine fun h => ?_
    have h' := e.symm.trans h
    have hr : ∀ i, rdist (!![0; 1; 2] : Matrix (Fin 3) (Fin 1) ℝ) m i = |(!![0; 1; 2] : Matrix (Fin 3) (Fin 1) ℝ) i 0 - m 0 0| := fun i => by
      unfold rdist
      rw [Fin.sum_univ_one, Real.sqrt_mul_self_eq_abs]
    have hl : List.ofFn (fun i => rdist (!![0; 1; 2] : Matrix (Fin 3) (Fin 1) ℝ) m i) = [|0 - m 0 0|, |1 - m 0 0|, |2 - m 0 0|] := by
      simp only [List.ofFn_succ, List.ofFn_zero, hr]
      rfl
    rw [hl] at h'
    have t := fun a b : ℝ => abs_sub (a - m 0 0) (b - m 0 0)
    refine median_pos (abs_nonneg _) (abs_nonneg _) (abs_nonneg _) ?_ ?_ ?_ h'
    · have := t 0 1; rw [sub_sub_sub_cancel_right] at this; norm_num at this ⊢; linarith
    · have := t 0 2; rw [sub_sub_sub_cancel_right] at this; norm_num at this ⊢; linarith
    · have := t 1 2; rw [sub_sub_sub_cancel_right] at this; norm_num at this ⊢; linarith)

/-- Half of the variance with at most three components, against 95 per cent with at most ten. -/
example : ∃ cfg : PcaCfg ℝ, PcaReal cfg ∧ cfg.variance ≤ 95 / 100 ∧ 0 < cfg.maxColumns ∧ cfg.maxColumns ≤ 10 := by
  classical
  obtain ⟨eig, he⟩ := eigRoutine_exists
  obtain ⟨srt, hs⟩ := argsortRoutine_exists
  exact ⟨⟨1 / 2, 3, true, fun x => decide (x = 0), fun a b => decide (a = b), fun a b => decide (a ≤ b), eig, srt⟩,
    ⟨fun x => decide_eq_true_iff, fun a b => decide_eq_true_iff, fun a b => decide_eq_true_iff, he, hs⟩, by norm_num, by norm_num, by norm_num⟩

example := C157_rbf_gamma (by norm_num : (1 / 10 : ℝ) < 2) ![1, 2] ![3, 5]

example := C157_simpls_count (by norm_num : 0 < 3) (by norm_num : 1 ≤ 2) (!![1; 2; 3] : Matrix (Fin 3) (Fin 1) ℝ)

example := C157_downsample 0 1 2 5 (by norm_num) (by norm_num) (by norm_num) (of (!![1, 2, 3, 4, 5, 6, 7] : Matrix (Fin 1) (Fin 7) ℝ))

example := C157_sg_order (l := 3) (r := 3) (p := 2) (p' := 4) (d := 0) (by norm_num) (by norm_num) (by norm_num) (by norm_num)

example := C157_sg_window (l := 3) (r := 3) (a := 2) (b := 1) (p := 2) (d := 1) (by norm_num) (by norm_num) (by norm_num)

end Verif.Props
