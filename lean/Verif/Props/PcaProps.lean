import Verif.Alg.PCA
import Verif.Props.EigSpec
import Mathlib.Data.Finset.Sort

/-!
# C62, C84: principal component analysis
-/

set_option linter.unusedSectionVars false
set_option linter.unusedSimpArgs false

namespace Verif.Props
open Verif Verif.Mat Verif.Transf
open scoped Matrix

variable {n p q r : Nat}

/-! ## Specification -/

/-- The comparisons are those of real numbers. -/
structure PcaReal (cfg : PcaCfg ℝ) : Prop where
  isZero : ∀ x, cfg.isZero x = true ↔ x = 0
  eq : ∀ a b, cfg.eq a b = true ↔ a = b
  le : ∀ a b, cfg.le a b = true ↔ a ≤ b
  eig : EigRoutine cfg.eig
  argsort : ArgsortRoutine cfg.argsort

/-- The columns `κ` of `B`, centred with the means of `X` and, unless only centring was asked for, divided by the
standard deviations of `X`. -/
noncomputable def prepared (centered : Bool) (X : Matrix (Fin n) (Fin q) ℝ) (κ : Fin p → Fin q) (B : Matrix (Fin r) (Fin q) ℝ) :
    Matrix (Fin r) (Fin p) ℝ :=
  Matrix.of fun i j => (B i (κ j) - mu fun k => X k (κ j)) / if centered then 1 else sd fun k => X k (κ j)

/-- Sample covariance matrix of centred data. -/
noncomputable def cov (T : Matrix (Fin n) (Fin p) ℝ) : Matrix (Fin p) (Fin p) ℝ := (1 / ((n : ℝ) - 1)) • (Tᵀ * T)

/-- Variance of the `k` leading components. -/
noncomputable def leading (ev : Fin p → ℝ) (comp : Fin p → Fin p) (k : Nat) : ℝ := ∑ c ∈ Finset.univ.filter (fun c : Fin p => c.1 < k), ev (comp c)

/-- What a principal component analysis with `K` components is: `comp` lists the components by decreasing variance. -/
structure PcaFit (cfg : PcaCfg ℝ) (X : Matrix (Fin n) (Fin q) ℝ) (κ : Fin p → Fin q) (ev : Fin p → ℝ)
    (V : Matrix (Fin p) (Fin p) ℝ) (comp : Fin p → Fin p) (K : Nat) : Prop where
  /-- Exactly the non-constant columns are used, in their order. -/
  kept : StrictMono κ ∧ ∀ j, (∃ t, κ t = j) ↔ ∃ i i', X i j ≠ X i' j
  eigen : EigPair (cov (prepared cfg.centered X κ X)) ev V
  nonneg : ∀ i, 0 ≤ ev i
  total : 0 < ∑ i, ev i
  order : Function.Bijective comp ∧ Antitone (ev ∘ comp)
  pos : 1 ≤ K
  le : K ≤ p
  max : 0 < cfg.maxColumns → (K : Int) ≤ cfg.maxColumns
  /-- Fewer components do not reach the requested fraction. -/
  least : ∀ k, 1 ≤ k → k < K → leading ev comp k < cfg.variance * ∑ i, ev i
  /-- The fraction is reached, unless a limit on the number of components stops it. -/
  reach : cfg.variance * ∑ i, ev i ≤ leading ev comp K ∨ K = p ∨ (K : Int) = cfg.maxColumns

/-- The scores of `B`. -/
def IsScores (T : Matrix (Fin r) (Fin p) ℝ) (V : Matrix (Fin p) (Fin p) ℝ) (comp : Fin p → Fin p) {K : Nat}
    (hK : K ≤ p) (S : Matrix (Fin r) (Fin K) ℝ) : Prop :=
  ∀ i c, S i c = (T * V) i (comp ⟨c.1, lt_of_lt_of_le c.2 hK⟩)

/-! ## Lemmas -/

theorem enum_exists (X : Matrix (Fin n) (Fin q) ℝ) (h : ∃ j, NonConst X j) : ∃ (p : Nat) (κ : Fin (p + 1) → Fin q), Enumerates X κ := by
  classical
  set s : Finset (Fin q) := Finset.univ.filter fun j => NonConst X j with hs
  have hpos : 0 < s.card := Finset.card_pos.2 ⟨h.choose, by rw [hs, Finset.mem_filter]; exact ⟨Finset.mem_univ _, h.choose_spec⟩⟩
  refine ⟨s.card - 1, s.orderEmbOfFin (by omega), (s.orderEmbOfFin _).strictMono, fun j => ?_⟩
  have := Finset.range_orderEmbOfFin s (k := s.card - 1 + 1) (by omega)
  have h2 : j ∈ Set.range (s.orderEmbOfFin (k := s.card - 1 + 1) (by omega)) ↔ j ∈ s := by rw [this]; exact Iff.rfl
  have h3 : j ∈ s ↔ NonConst X j := by
    rw [hs, Finset.mem_filter]
    exact ⟨fun h => h.2, fun h => ⟨Finset.mem_univ _, h⟩⟩
  exact h2.trans h3

theorem two_le_of_nonConst {X : Matrix (Fin n) (Fin q) ℝ} {j : Fin q} (h : NonConst X j) : 2 ≤ n := by
  obtain ⟨i, i', h⟩ := h
  by_contra hn
  have : i = i' := Fin.ext (by omega)
  exact h (by rw [this])

theorem prepB_eq (cfg : PcaCfg ℝ) (X : Matrix (Fin n) (Fin q) ℝ) (κ : Fin p → Fin q) (h : Enumerates X κ) (B : Matrix (Fin r) (Fin q) ℝ) :
    prepB cfg (X.submatrix id κ) (B.submatrix id κ) = prepared cfg.centered X κ B := by
  have hsd : ∀ j, (sd fun k => X k (κ j)) ≠ 0 := by
    intro j h0
    have hc := (h.mem (κ j)).1 ⟨j, rfl⟩
    have := (sd_eq_zero_iff (two_le_of_nonConst hc) _).1 h0
    obtain ⟨i, i', hi⟩ := hc
    exact hi (this i i')
  unfold prepB prepared
  by_cases hc : cfg.centered = true
  · rw [if_pos hc]
    ext i j
    simp only [Matrix.of_apply]
    rw [if_pos hc, div_one]
    rfl
  · rw [if_neg hc]
    ext i j
    simp only [Matrix.of_apply]
    rw [if_neg hc]
    have e : divisor (X.submatrix id κ) j = sd fun k => X k (κ j) := by
      unfold divisor
      exact if_neg fun h => hsd j h.2
    rw [std, Matrix.of_apply, e]
    rfl

theorem covM_eq (T : Matrix (Fin n) (Fin p) ℝ) (hn : 1 ≤ n) : covM T = cov T := by
  ext i j
  show (∑ k, T k i * T k j) / ((n - 1 : Nat) : ℝ) = (1 / ((n : ℝ) - 1)) * ∑ k, T k i * T k j
  rw [Nat.cast_sub hn, Nat.cast_one]
  ring

theorem cov_symm (T : Matrix (Fin n) (Fin p) ℝ) : (cov T)ᵀ = cov T := by
  unfold cov
  rw [Matrix.transpose_smul, Matrix.transpose_mul, Matrix.transpose_transpose]

/-- The eigenvalues of a covariance matrix are not negative. -/
theorem cov_eig_nonneg (T : Matrix (Fin n) (Fin p) ℝ) (hn : 2 ≤ n) {ev : Fin p → ℝ} {V : Matrix (Fin p) (Fin p) ℝ}
    (h : EigPair (cov T) ev V) (i : Fin p) : 0 ≤ ev i := by
  have hv : ∃ k, V k i ≠ 0 := by
    by_contra hall
    push Not at hall
    exact h.regular (Matrix.det_eq_zero_of_column_eq_zero i hall)
  obtain ⟨k, hk⟩ := hv
  have h1 : (Vᵀ * (cov T * V)) i i = ev i * ∑ k, V k i * V k i := by
    rw [h.eigen, ← Matrix.mul_assoc, Matrix.mul_diagonal, mul_comm]
    rfl
  have h2 : (Vᵀ * (cov T * V)) i i = (1 / ((n : ℝ) - 1)) * ∑ k, (T * V) k i * (T * V) k i := by
    have : Vᵀ * (cov T * V) = (1 / ((n : ℝ) - 1)) • ((T * V)ᵀ * (T * V)) := by
      unfold cov
      rw [Matrix.smul_mul, Matrix.mul_smul, Matrix.transpose_mul]
      simp only [Matrix.mul_assoc]
    rw [this]
    rfl
  have hpos : 0 < ∑ k, V k i * V k i := by
    refine Finset.sum_pos' (fun k _ => mul_self_nonneg _) ⟨k, Finset.mem_univ _, mul_self_pos.2 hk⟩
  have hn' : (0 : ℝ) < (n : ℝ) - 1 := by
    have : (2 : ℝ) ≤ n := by exact_mod_cast hn
    linarith
  have h3 : 0 ≤ ev i * ∑ k, V k i * V k i := by
    rw [← h1, h2]
    exact mul_nonneg (by positivity) (Finset.sum_nonneg fun k _ => mul_self_nonneg _)
  exact nonneg_of_mul_nonneg_left h3 hpos

/-- The total variance is positive if some column of the centred data is not zero. -/
theorem cov_trace_pos (T : Matrix (Fin n) (Fin p) ℝ) (hn : 2 ≤ n) (k : Fin n) (j : Fin p) (h : T k j ≠ 0) : 0 < (cov T).trace := by
  have hn' : (0 : ℝ) < (n : ℝ) - 1 := by
    have : (2 : ℝ) ≤ n := by exact_mod_cast hn
    linarith
  show 0 < ∑ i, (1 / ((n : ℝ) - 1)) * ∑ k, T k i * T k i
  refine Finset.sum_pos' (fun i _ => mul_nonneg (by positivity) (Finset.sum_nonneg fun k _ => mul_self_nonneg _)) ⟨j, Finset.mem_univ _, ?_⟩
  refine mul_pos (by positivity) ?_
  exact Finset.sum_pos' (fun k _ => mul_self_nonneg _) ⟨k, Finset.mem_univ _, mul_self_pos.2 h⟩

theorem cum_eq (ev : Fin p → ℝ) (ord : Fin p → Fin p) (k : Nat) (hk : k ≤ p) :
    cum ev ord k = leading ev (fun c => compIdx ord c.1 c.2) k := by
  unfold cum leading
  rw [Finset.sum_filter]
  rw [← Fin.sum_univ_eq_sum_range (fun c => if h : c < p then ev (compIdx ord c h) else 0) k]
  obtain ⟨d, rfl⟩ : ∃ d, p = k + d := ⟨p - k, by omega⟩
  rw [Fin.sum_univ_add]
  have e2 : ∑ i : Fin d, (if (Fin.natAdd k i).1 < k then ev (compIdx ord (Fin.natAdd k i).1 (Fin.natAdd k i).2) else 0) = 0 :=
    Finset.sum_eq_zero fun i _ => if_neg (by simp)
  rw [e2, add_zero]
  refine Finset.sum_congr rfl fun c _ => ?_
  rw [dif_pos (by have := c.2; omega : (c : Nat) < k + d), if_pos (by simp)]
  rfl

/-- A non-zero entry of the prepared data. -/
theorem prepared_ne_zero (centered : Bool) (X : Matrix (Fin n) (Fin q) ℝ) (κ : Fin p → Fin q) (h : Enumerates X κ) (j : Fin p) :
    ∃ k, prepared centered X κ X k j ≠ 0 := by
  have hc := (h.mem (κ j)).1 ⟨j, rfl⟩
  have hsd : (sd fun k => X k (κ j)) ≠ 0 := by
    intro h0
    have := (sd_eq_zero_iff (two_le_of_nonConst hc) _).1 h0
    obtain ⟨i, i', hi⟩ := hc
    exact hi (this i i')
  by_contra hall
  push Not at hall
  obtain ⟨i, i', hi⟩ := hc
  have key : ∀ k, X k (κ j) = mu fun k => X k (κ j) := by
    intro k
    have := hall k
    simp only [prepared, Matrix.of_apply] at this
    have hd : (if centered then (1 : ℝ) else sd fun k => X k (κ j)) ≠ 0 := by
      split
      · exact one_ne_zero
      · exact hsd
    have := (div_eq_zero_iff.1 this).resolve_right hd
    linarith
  exact hi ((key i).trans (key i').symm)

/-! ## C62 -/

/-- The general form behind the statements of C62 and C84. -/
theorem pca_general (cfg : PcaCfg ℝ) (hcfg : PcaReal cfg) (X : Matrix (Fin n) (Fin q) ℝ) (κ : Fin (p + 1) → Fin q) (hκ : Enumerates X κ) :
    ∃ (ev : Fin (p + 1) → ℝ) (V : Matrix (Fin (p + 1)) (Fin (p + 1)) ℝ) (comp : Fin (p + 1) → Fin (p + 1)) (K : Nat) (hK : K ≤ p + 1)
      (st : PcaState ℝ) (S : Matrix (Fin n) (Fin K) ℝ) (L : Matrix (Fin (p + 1)) (Fin (K + 1)) ℝ),
      pcaTransform cfg (of X) = .ok (st, of S, of L) ∧ PcaFit cfg X κ ev V comp K ∧
      IsScores (prepared cfg.centered X κ X) V comp hK S ∧
      (∀ a, L a (Fin.last K) = (a.1 : ℝ) + 1) ∧
      (∀ a (c : Fin K) j, (κ j).1 = a.1 → L a c.castSucc = V j (comp ⟨c.1, lt_of_lt_of_le c.2 hK⟩)) ∧
      (∀ a (c : Fin K), (∀ j, (κ j).1 ≠ a.1) → L a c.castSucc = 0) ∧
      ∀ (r : Nat) (Z : Matrix (Fin r) (Fin q) ℝ), 0 < r → ∃ S' : Matrix (Fin r) (Fin K) ℝ,
        pcaScores cfg st (of Z) = .ok (of S') ∧ IsScores (prepared cfg.centered X κ Z) V comp hK S' := by
  have hn : 2 ≤ n := two_le_of_nonConst ((hκ.mem (κ 0)).1 ⟨0, rfl⟩)
  have hT : prepM cfg (X.submatrix id κ) = prepared cfg.centered X κ X := prepB_eq cfg X κ hκ X
  have hC : covM (prepM cfg (X.submatrix id κ)) = cov (prepared cfg.centered X κ X) := by rw [hT, covM_eq _ (by omega)]
  obtain ⟨ev, V, he, hp⟩ := hcfg.eig (cov (prepared cfg.centered X κ X)) (cov_symm _)
  have hnn := cov_eig_nonneg _ hn hp
  have hmax : (fun i => max 0 (ev i)) = ev := by
    funext i
    exact max_eq_right (hnn i)
  have htot : 0 < ∑ i, ev i := by
    obtain ⟨k, hk⟩ := prepared_ne_zero cfg.centered X κ hκ 0
    rw [← hp.trace]
    exact cov_trace_pos _ hn k 0 hk
  obtain ⟨ord, hb, hm, ho⟩ := hcfg.argsort ev
  obtain ⟨st, h1, h2⟩ := pcaTransform_of cfg hcfg.isZero hcfg.eq hcfg.le X (by omega) κ hκ ev V (by rw [hC]; exact he) ord (by rw [hmax]; exact ho)
  rw [hmax] at h1 h2
  have hK := numKept_le' cfg ev ord
  have hbound := numKept_le cfg ev ord
  have hspec := kStop_spec (reached cfg ev ord) (pcaBound cfg (p + 1)) 0
  have hnk : kStop (reached cfg ev ord) (pcaBound cfg (p + 1)) 0 = numKept cfg ev ord := rfl
  rw [hnk] at hspec
  obtain ⟨_, _, hs3, hs4, hs5⟩ := hspec
  have hmc : 0 < pcaBound cfg (p + 1) := by unfold pcaBound; split <;> omega
  refine ⟨ev, V, fun c => compIdx ord c.1 c.2, numKept cfg ev ord, hK, st, _, _, h1, ⟨⟨hκ.mono, hκ.mem⟩, hp, hnn, htot, ⟨?_, ?_⟩, hs3 hmc, hK, ?_, ?_, ?_⟩,
    ?_, ?_, ?_, ?_, ?_⟩
  · have hr : Function.Bijective (fun c : Fin (p + 1) => (⟨p + 1 - 1 - c.1, by omega⟩ : Fin (p + 1))) := by
      refine Function.Involutive.bijective fun c => Fin.ext ?_
      show p + 1 - 1 - (p + 1 - 1 - c.1) = c.1
      omega
    exact hb.comp hr
  · intro a b hab
    refine hm ?_
    show p + 1 - 1 - b.1 ≤ p + 1 - 1 - a.1
    have : a.1 ≤ b.1 := hab
    omega
  · intro h0
    unfold pcaBound at hbound
    rw [if_pos h0] at hbound
    omega
  · intro k hk1 hk2
    have := hs4 k (by omega) hk2
    rw [reached, decide_eq_false_iff_not, not_le, div_lt_iff₀ htot, cum_eq _ _ _ (by omega)] at this
    exact this
  · by_cases hlt : numKept cfg ev ord < 0 + pcaBound cfg (p + 1)
    · left
      have := hs5 hlt
      rw [reached, decide_eq_true_eq, le_div_iff₀ htot, cum_eq _ _ _ hK] at this
      exact this
    · right
      unfold pcaBound at hlt hbound
      by_cases h0 : 0 < cfg.maxColumns
      · rw [if_pos h0] at hlt hbound
        omega
      · rw [if_neg h0] at hlt hbound
        omega
  · intro i c
    rw [Matrix.mul_apply, ← hT, scoreM, Matrix.of_apply]
    exact Finset.sum_congr rfl fun j _ => mul_comm _ _
  · intro a
    simp only [loadM, Matrix.of_apply]
    rw [dif_neg (by simp)]
    push_cast
    rfl
  · intro a c j hj
    have hex : ∃ j, (κ j).1 = a.1 := ⟨j, hj⟩
    simp only [loadM, Matrix.of_apply]
    rw [dif_pos (by simp), dif_pos hex]
    have : hex.choose = j := hκ.mono.injective (Fin.ext (hex.choose_spec.trans hj.symm))
    rw [this]
    rfl
  · intro a c hj
    simp only [loadM, Matrix.of_apply]
    rw [dif_pos (by simp), dif_neg (by simpa using hj)]
  · intro r Z hr
    refine ⟨_, h2 r Z hr, ?_⟩
    intro i c
    rw [prepB_eq cfg X κ hκ, Matrix.mul_apply, scoreM, Matrix.of_apply]
    exact Finset.sum_congr rfl fun j _ => mul_comm _ _

/-- On any data with a non-constant column PCA drops exactly the constant columns, computes the components from the
covariance (centred) or correlation (standardised) matrix of the others, keeps the least number of leading components
reaching the requested fraction of the variance (at least one, at most `max_columns`) and returns the scores. -/
theorem C62_components_partial (cfg : PcaCfg ℝ) (hcfg : PcaReal cfg) (X : Matrix (Fin n) (Fin q) ℝ) (h : ∃ j i i', X i j ≠ X i' j) :
    ∃ (p : Nat) (κ : Fin p → Fin q) (ev : Fin p → ℝ) (V : Matrix (Fin p) (Fin p) ℝ) (comp : Fin p → Fin p) (K : Nat) (hK : K ≤ p)
      (st : PcaState ℝ) (S : Matrix (Fin n) (Fin K) ℝ) (L : Mat ℝ), pcaTransform cfg (of X) = .ok (st, of S, L) ∧
      PcaFit cfg X κ ev V comp K ∧ IsScores (prepared cfg.centered X κ X) V comp hK S := by
  obtain ⟨p, κ, hκ⟩ := enum_exists X h
  obtain ⟨ev, V, comp, K, hK, st, S, L, h1, h2, h3, _⟩ := pca_general cfg hcfg X κ hκ
  exact ⟨p + 1, κ, ev, V, comp, K, hK, st, S, of L, h1, h2, h3⟩

/-- If no column is constant, the loadings have one row per attribute: the coefficients of the components followed by the
(one-based) number of the attribute. -/
theorem C62_loadings_partial (cfg : PcaCfg ℝ) (hcfg : PcaReal cfg) (X : Matrix (Fin n) (Fin (p + 1)) ℝ) (h : ∀ j, ∃ i i', X i j ≠ X i' j) :
    ∃ (ev : Fin (p + 1) → ℝ) (V : Matrix (Fin (p + 1)) (Fin (p + 1)) ℝ) (comp : Fin (p + 1) → Fin (p + 1)) (K : Nat) (hK : K ≤ p + 1)
      (st : PcaState ℝ) (S : Mat ℝ) (L : Matrix (Fin (p + 1)) (Fin (K + 1)) ℝ), pcaTransform cfg (of X) = .ok (st, S, of L) ∧
      PcaFit cfg X id ev V comp K ∧ (∀ a, L a (Fin.last K) = (a.1 : ℝ) + 1) ∧
      ∀ a (c : Fin K), L a c.castSucc = V a (comp ⟨c.1, lt_of_lt_of_le c.2 hK⟩) := by
  obtain ⟨ev, V, comp, K, hK, st, S, L, h1, h2, h3, h4, h5, _⟩ := pca_general cfg hcfg X id ⟨strictMono_id, fun j => ⟨fun _ => h j, fun _ => ⟨j, rfl⟩⟩⟩
  exact ⟨ev, V, comp, K, hK, st, of S, L, h1, h2, h4, fun a c => h5 a c a rfl⟩

/-- If a constant column precedes a non-constant one, some attribute taking part in the analysis has no row in the
loadings: no row carries its number. -/
theorem C62_loadings_violation (cfg : PcaCfg ℝ) (hcfg : PcaReal cfg) (X : Matrix (Fin n) (Fin q) ℝ) (d e : Fin q) (hde : d < e)
    (hd : ∀ i i', X i d = X i' d) (he : ∃ i i', X i e ≠ X i' e) :
    ∃ (st : PcaState ℝ) (S : Mat ℝ) (m K : Nat) (L : Matrix (Fin m) (Fin (K + 1)) ℝ) (a : Fin q),
      pcaTransform cfg (of X) = .ok (st, S, of L) ∧ (∃ i i', X i a ≠ X i' a) ∧ ∀ row, L row (Fin.last K) ≠ (a.1 : ℝ) + 1 := by
  obtain ⟨p, κ, hκ⟩ := enum_exists X ⟨e, he⟩
  obtain ⟨ev, V, comp, K, hK, st, S, L, h1, h2, h3, h4, _⟩ := pca_general cfg hcfg X κ hκ
  refine ⟨st, of S, p + 1, K, L, κ (Fin.last p), h1, (hκ.mem _).1 ⟨_, rfl⟩, fun row hrow => ?_⟩
  rw [h4] at hrow
  have hrow' : row.1 = (κ (Fin.last p)).1 := by
    have : (row.1 : ℝ) = ((κ (Fin.last p)).1 : ℝ) := by linarith
    exact_mod_cast this
  -- all attributes up to the last kept one would have to be kept
  have hsurj : ∀ t : Fin (p + 1), (κ t).1 = t.1 := by
    have hlast : (κ (Fin.last p)).1 ≤ p := by have := row.2; omega
    have hge : ∀ t : Nat, ∀ ht : t < p + 1, t ≤ (κ ⟨t, ht⟩).1 := by
      intro t
      induction t with
      | zero => intro _; exact Nat.zero_le _
      | succ t ih =>
        intro ht
        have h1 := ih (by omega)
        have h2 : (κ ⟨t, by omega⟩).1 < (κ ⟨t + 1, ht⟩).1 := hκ.mono (show t < t + 1 by omega)
        omega
    have hle : ∀ u : Nat, ∀ hu : u ≤ p, (κ ⟨p - u, by omega⟩).1 ≤ p - u := by
      intro u
      induction u with
      | zero => intro _; exact hlast
      | succ u ih =>
        intro hu
        have h1 := ih (by omega)
        have h2 : (κ ⟨p - (u + 1), by omega⟩).1 < (κ ⟨p - u, by omega⟩).1 := hκ.mono (show p - (u + 1) < p - u by omega)
        omega
    intro t
    have h1 := hge t.1 t.2
    have h2 := hle (p - t.1) (by omega)
    have e : (⟨p - (p - t.1), by omega⟩ : Fin (p + 1)) = t := Fin.ext (by show p - (p - t.1) = t.1; omega)
    rw [e] at h2
    exact le_antisymm (h2.trans (by omega)) h1
  obtain ⟨te, hte⟩ := (hκ.mem e).2 he
  have hlt : d.1 < p + 1 := by
    have h1 : d.1 < e.1 := hde
    rw [← hte, hsurj te] at h1
    have := te.2
    omega
  obtain ⟨i, i', hi⟩ := (hκ.mem d).1 ⟨⟨d.1, hlt⟩, Fin.ext (hsurj ⟨d.1, hlt⟩)⟩
  exact hi (hd i i')

/-- With standardisation (the default) data of which every column is constant raises an `IndexError`. -/
theorem C62_constant_violation (cfg : PcaCfg ℝ) (hcfg : PcaReal cfg) (hc : cfg.centered = false) (X : Matrix (Fin n) (Fin q) ℝ)
    (h : ∀ j i i', X i j = X i' j) : pcaTransform cfg (of X) = .error .indexError :=
  pcaTransform_const cfg hc hcfg.eq X fun j ⟨i, i', hi⟩ => hi (h j i i')

/-! ## C84 -/

/-- The components fitted by `transform` are those `do_transform` uses on further data, with the statistics of the data
they were fitted on. -/
theorem C84_do_transform_partial (cfg : PcaCfg ℝ) (hcfg : PcaReal cfg) (X : Matrix (Fin n) (Fin q) ℝ) (h : ∃ j i i', X i j ≠ X i' j) :
    ∃ (p : Nat) (κ : Fin p → Fin q) (ev : Fin p → ℝ) (V : Matrix (Fin p) (Fin p) ℝ) (comp : Fin p → Fin p) (K : Nat) (hK : K ≤ p)
      (st : PcaState ℝ) (S L : Mat ℝ), pcaTransform cfg (of X) = .ok (st, S, L) ∧ PcaFit cfg X κ ev V comp K ∧
      ∀ (r : Nat) (Z : Matrix (Fin r) (Fin q) ℝ), 0 < r → ∃ S' : Matrix (Fin r) (Fin K) ℝ,
        pcaScores cfg st (of Z) = .ok (of S') ∧ IsScores (prepared cfg.centered X κ Z) V comp hK S' := by
  obtain ⟨p, κ, hκ⟩ := enum_exists X h
  obtain ⟨ev, V, comp, K, hK, st, S, L, h1, h2, _, _, _, _, h7⟩ := pca_general cfg hcfg X κ hκ
  exact ⟨p + 1, κ, ev, V, comp, K, hK, st, of S, of L, h1, h2, h7⟩

/-- `transform` itself refits on whatever it is given: a single further row can never be transformed. -/
theorem C84_refit_violation (cfg : PcaCfg ℝ) (hcfg : PcaReal cfg) (hc : cfg.centered = false) (z : Matrix (Fin 1) (Fin q) ℝ) :
    pcaTransform cfg (of z) = .error .indexError :=
  C62_constant_violation cfg hcfg hc z fun j i i' => by rw [Subsingleton.elim i i']

/-- With centring only, the scores of one and the same row depend on the rows it is transformed with: here the data of one
attribute `0, 2` and `0, 4`. -/
theorem C84_same_row_violation (cfg : PcaCfg ℝ) (hcfg : PcaReal cfg) (hc : cfg.centered = true) :
    ∃ (st st' : PcaState ℝ) (S S' : Matrix (Fin 2) (Fin 1) ℝ) (L L' : Mat ℝ),
      pcaTransform cfg (of (!![0; 2] : Matrix (Fin 2) (Fin 1) ℝ)) = .ok (st, of S, L) ∧
      pcaTransform cfg (of (!![0; 4] : Matrix (Fin 2) (Fin 1) ℝ)) = .ok (st', of S', L') ∧
      |S 0 0| = 1 ∧ |S' 0 0| = 2 := by
  have key : ∀ t : ℝ, t ≠ 0 → ∃ (st : PcaState ℝ) (S : Matrix (Fin 2) (Fin 1) ℝ) (L : Mat ℝ),
      pcaTransform cfg (of (!![0; t] : Matrix (Fin 2) (Fin 1) ℝ)) = .ok (st, of S, L) ∧ |S 0 0| = |t / 2| := by
    intro t ht
    have hκ : Enumerates (!![0; t] : Matrix (Fin 2) (Fin 1) ℝ) (id : Fin (0 + 1) → Fin 1) :=
      ⟨strictMono_id, fun j => ⟨fun _ => ⟨0, 1, by fin_cases j; simpa using ht.symm⟩, fun _ => ⟨j, rfl⟩⟩⟩
    obtain ⟨ev, V, comp, K, hK, st, S, L, h1, h2, h3, _⟩ := pca_general cfg hcfg (!![0; t] : Matrix (Fin 2) (Fin 1) ℝ) id hκ
    have hK1 : K = 1 := by have := h2.pos; omega
    subst hK1
    refine ⟨st, S, of L, h1, ?_⟩
    have hu : |V 0 0| = 1 := by
      have := h2.eigen.unit 0
      rw [Fin.sum_univ_one] at this
      exact (pow_eq_one_iff_of_nonneg (abs_nonneg _) two_ne_zero).1 ((sq_abs _).trans this)
    rw [h3 0 0, Matrix.mul_apply]
    have hco : ∀ c, comp c = 0 := fun c => Subsingleton.elim (α := Fin 1) _ _
    rw [hco, Fin.sum_univ_one, abs_mul]
    refine (congrArg (_ * ·) hu).trans ?_
    rw [mul_one]
    simp [prepared, hc, mu, Fin.sum_univ_two]
  obtain ⟨st, S, L, h1, h2⟩ := key 2 two_ne_zero
  obtain ⟨st', S', L', h1', h2'⟩ := key 4 four_ne_zero
  refine ⟨st, st', S, S', L, L', h1, h1', ?_, ?_⟩
  · rw [h2]; norm_num
  · rw [h2']; norm_num

/-- Options meeting the hypotheses exist, for every variance, limit and kind of preparation; the data of
`C84_same_row_violation` meets the others. -/
example (v : ℝ) (mc : Int) (c : Bool) : ∃ cfg : PcaCfg ℝ, PcaReal cfg ∧ cfg.variance = v ∧ cfg.maxColumns = mc ∧ cfg.centered = c := by
  classical
  obtain ⟨eig, he⟩ := eigRoutine_exists
  obtain ⟨srt, hs⟩ := argsortRoutine_exists
  exact ⟨⟨v, mc, c, fun x => decide (x = 0), fun a b => decide (a = b), fun a b => decide (a ≤ b), eig, srt⟩,
    ⟨fun x => decide_eq_true_iff, fun a b => decide_eq_true_iff, fun a b => decide_eq_true_iff, he, hs⟩, rfl, rfl, rfl⟩

/-- Data with a constant column before a non-constant one. -/
example : ∃ X : Matrix (Fin 2) (Fin 2) ℝ, (∀ i i', X i 0 = X i' 0) ∧ ∃ i i', X i 1 ≠ X i' 1 :=
  ⟨!![5, 1; 5, 2], fun i i' => by fin_cases i <;> fin_cases i' <;> simp, 0, 1, by simp⟩

end Verif.Props
