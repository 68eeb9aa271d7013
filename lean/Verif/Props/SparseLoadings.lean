import Verif.Props.LoadingsProps
import Verif.Props.SparseProps
import Verif.Core.HeapSim
import Verif.Core.UtilsLemmas

/-!
# C120 continued: what SparsePLS calls loadings
-/

namespace Verif.Props
open Verif Mat Transf
open scoped Matrix

variable {n p r : Nat}

/-- `_SparsePLS.py` 144-145, 150, 165. -/
def SpModel.attr (m : SpModel ℝ) : String → Option (Mat ℝ) := fun k => [("B_pls", m.vars.B), ("W", m.vars.W)].lookup k

/-- A single column of weights serves as loadings of its own scores only if it has length one. -/
theorem unit_of_best (D : Matrix (Fin r) (Fin p) ℝ) (w : Matrix (Fin p) (Fin 1) ℝ) (ht : D * w ≠ 0)
    (h : BestLoadings D (D * w) w) : sq1 w = 1 := by
  have ht0 : ∀ i j, (D * w) i j = ∑ l, D i l * w l 0 := fun i j => by
    rw [Subsingleton.elim j 0, Matrix.mul_apply]
  set t : Fin r → ℝ := fun i => ∑ l, D i l * w l 0 with hT
  have key : ∀ s : ℝ, ∑ i, ∑ j, (D i j - (D * w * (s • w)ᵀ) i j) ^ 2 =
      ∑ i, ∑ j, D i j ^ 2 - 2 * s * ∑ i, t i ^ 2 + s ^ 2 * ((∑ i, t i ^ 2) * ∑ j, w j 0 ^ 2) := by
    intro s
    have e : ∀ i, ∑ j, (D i j - (D * w * (s • w)ᵀ) i j) ^ 2 =
        ∑ j, D i j ^ 2 - 2 * s * t i ^ 2 + s ^ 2 * (t i ^ 2 * ∑ j, w j 0 ^ 2) := by
      intro i
      have e1 : ∀ j, (D i j - (D * w * (s • w)ᵀ) i j) ^ 2 =
          D i j ^ 2 - 2 * s * t i * (D i j * w j 0) + s ^ 2 * t i ^ 2 * w j 0 ^ 2 := by
        intro j
        have e2 : (D * w * (s • w)ᵀ) i j = t i * (s * w j 0) := by
          rw [Matrix.mul_apply, Fin.sum_univ_one, ht0]
          rfl
        rw [e2]
        ring
      rw [Finset.sum_congr rfl fun j _ => e1 j, Finset.sum_add_distrib, Finset.sum_sub_distrib, ← Finset.mul_sum, ← Finset.mul_sum]
      have e3 : ∑ j, D i j * w j 0 = t i := rfl
      rw [e3]
      ring
    rw [Finset.sum_congr rfl fun i _ => e i, Finset.sum_add_distrib, Finset.sum_sub_distrib, ← Finset.mul_sum, ← Finset.mul_sum,
      ← Finset.sum_mul]
  have hpos : 0 < ∑ i, t i ^ 2 := by
    refine lt_of_le_of_ne (Finset.sum_nonneg fun i _ => sq_nonneg _) fun h0 => ht ?_
    ext i j
    have := (Finset.sum_eq_zero_iff_of_nonneg (s := Finset.univ) (f := fun i => t i ^ 2) fun i _ => sq_nonneg _).1 h0.symm i
      (Finset.mem_univ i)
    rw [ht0]
    exact pow_eq_zero_iff two_ne_zero |>.1 this
  have hw : 0 < ∑ j, w j 0 ^ 2 := by
    refine lt_of_le_of_ne (Finset.sum_nonneg fun i _ => sq_nonneg _) fun h0 => ht ?_
    have hz : w = 0 := by
      ext j b
      rw [Subsingleton.elim b 0]
      have := (Finset.sum_eq_zero_iff_of_nonneg (s := Finset.univ) (f := fun j => w j 0 ^ 2) fun i _ => sq_nonneg _).1 h0.symm j
        (Finset.mem_univ j)
      exact pow_eq_zero_iff two_ne_zero |>.1 this
    rw [hz, Matrix.mul_zero]
  have h1 := h ((1 / ∑ j, w j 0 ^ 2) • w)
  have k1 := key 1
  rw [one_smul] at k1
  rw [k1, key] at h1
  have hq : sq1 w = ∑ j, w j 0 ^ 2 := Finset.sum_congr rfl fun j _ => (sq (w j 0)).symm
  rw [hq]
  generalize ∑ j, w j 0 ^ 2 = q at *
  generalize ∑ i, t i ^ 2 = u at *
  have h2 : u * (q - 1) ^ 2 ≤ 0 := by
    have e : (1 / q) ^ 2 * (u * q) = u / q := by field_simp
    rw [e] at h1
    have e' : 2 * (1 / q) * u = 2 * (u / q) := by ring
    rw [e'] at h1
    have h3 : u * q - 2 * u + u / q ≤ 0 := by linarith
    have h4 : u * (q - 1) ^ 2 = q * (u * q - 2 * u + u / q) := by
      field_simp
      ring
    rw [h4]
    exact mul_nonpos_of_nonneg_of_nonpos hw.le h3
  have h5 : (q - 1) ^ 2 = 0 := le_antisymm (by
    by_contra hne
    push Not at hne
    exact absurd h2 (not_le.2 (mul_pos hpos hne))) (sq_nonneg _)
  have := pow_eq_zero_iff two_ne_zero |>.1 h5
  linarith

/-- Training keeps the shape of `W`. -/
theorem spTrain_W (cfg : SpCfg ℝ) (hz : ∀ x, cfg.isZero x = true ↔ x = 0) {K : Nat} (hK : cfg.K = (K : Int))
    (X : Matrix (Fin n) (Fin (p + 1)) ℝ) (y : Matrix (Fin n) (Fin 1) ℝ) (m : SpModel ℝ)
    (h : spTrain cfg (of X) (of y) = .ok m) : ∃ W : Matrix (Fin (p + 1)) (Fin K) ℝ, m.vars.W = of W := by
  unfold spTrain at h
  rw [std_fit cfg.isZero hz X, std_fit (p := 0) cfg.isZero hz y] at h
  simp only [except_bind_ok] at h
  unfold spInit at h
  have h0 : Factory.zeros (α := ℝ) ((of (std X X)).cols : Int) cfg.K = .ok (of (0 : Matrix (Fin (p + 1)) (Fin K) ℝ)) := by
    rw [hK]
    exact Factory.zeros_nat (Nat.succ_pos p) K
  rw [h0] at h
  simp only [Utils.bind_ok_iff] at h
  obtain ⟨s, ⟨B, _, W, hW, hs⟩, t, ht, hm⟩ := h
  cases hW
  cases hs
  cases hm
  have hinv : t.W.rows = p + 1 ∧ t.W.cols = K := by
    refine loopM_inv _ (fun s : SpVars ℝ => s.W.rows = p + 1 ∧ s.W.cols = K) (fun k s s' hs e => ?_) _ _ _ ⟨rfl, rfl⟩ ht
    unfold spStep at e
    simp only [Utils.bind_ok_iff] at e
    obtain ⟨w, _, W, hW, A, _, XA, _, B, _, coef, _, B', _, f, _, yj, _, e⟩ := e
    cases e
    obtain ⟨e1, e2⟩ := Heap.setColumn_shape hW
    exact ⟨e1.trans hs.1, e2.trans hs.2⟩
  obtain ⟨yj, A, B, ⟨a, b, W⟩⟩ := t
  obtain ⟨rfl, rfl⟩ := hinv
  exact ⟨W, rfl⟩

/-- **C120, violated by SparsePLS.**  `get_loadings` returns the directions `W`.  With one component they are not the loadings of the
scores that `transform` returns, on whatever data (the training data, standardised or not, or new data), unless they happen to have
length one. -/
theorem C120_sparse_violation (cfg : SpCfg ℝ) (hz : ∀ x, cfg.isZero x = true ↔ x = 0) (hK : cfg.K = 1)
    (X : Matrix (Fin n) (Fin (p + 1)) ℝ) (y : Matrix (Fin n) (Fin 1) ℝ) (m : SpModel ℝ)
    (h : spTrain cfg (of X) (of y) = .ok m) : ∃ W : Matrix (Fin (p + 1)) (Fin 1) ℝ,
      loadingsOf "SparsePLS" (SpModel.attr m) = some (of W) ∧
      ∀ (r : Nat) (D : Matrix (Fin (r + 1)) (Fin (p + 1)) ℝ), spTransform cfg m (of D) = .ok (of (D * W)) ∧
        (D * W ≠ 0 → sq1 W ≠ 1 → ¬ BestLoadings D (D * W) W) := by
  obtain ⟨W, hW⟩ := spTrain_W (K := 1) cfg hz hK X y m h
  refine ⟨W, congrArg some hW, fun r D => ⟨C83_one_component_partial cfg hK m W hW (Nat.succ_pos r) D, fun h1 h2 h3 => h2 ?_⟩⟩
  exact unit_of_best D W h1 h3

/-- With one component, `W` is the direction found for the standardised data. -/
theorem spTrain_W_one (cfg : SpCfg ℝ) (hz : ∀ x, cfg.isZero x = true ↔ x = 0) (hK : cfg.K = 1)
    (X : Matrix (Fin n) (Fin (p + 1)) ℝ) (y : Matrix (Fin n) (Fin 1) ℝ) (m : SpModel ℝ)
    (h : spTrain cfg (of X) (of y) = .ok m) (w : Matrix (Fin (p + 1)) (Fin 1) ℝ)
    (hw : spDirection cfg (of (std X X)) (of (std y y)) = .ok (of w)) : m.vars.W = of w := by
  unfold spTrain at h
  rw [std_fit cfg.isZero hz X, std_fit (p := 0) cfg.isZero hz y] at h
  simp only [except_bind_ok] at h
  unfold spInit at h
  have h0 : Factory.zeros (α := ℝ) ((of (std X X)).cols : Int) cfg.K = .ok (of (0 : Matrix (Fin (p + 1)) (Fin 1) ℝ)) := by
    rw [hK]
    exact Factory.zeros_nat (Nat.succ_pos p) 1
  rw [h0, hK] at h
  simp only [Utils.bind_ok_iff] at h
  obtain ⟨s, ⟨B, _, W, hW, hs⟩, t, ht, hm⟩ := h
  cases hW
  cases hs
  cases hm
  rw [show pyRange 0 1 = [0] from rfl, loopM, Utils.bind_ok_iff] at ht
  obtain ⟨t', ht, e⟩ := ht
  cases e
  unfold spStep at ht
  simp only [Utils.bind_ok_iff] at ht
  obtain ⟨w', hw', W, hW, A, _, XA, _, B, _, coef, _, B', _, f, _, yj, _, e⟩ := ht
  cases e
  rw [hw] at hw'
  cases hw'
  have := setColumn_of (0 : Matrix (Fin (p + 1)) (Fin 1) ℝ) 0 w
  rw [show (((0 : Fin 1) : Nat) : Int) = 0 from rfl, hW, ok_inj] at this
  refine this.trans (mk_congr fun i j => ?_)
  rw [Subsingleton.elim j 0, Matrix.updateCol_self]

/-- The model of `sp_example`: its one weight is two or minus two, so the loadings returned are wrong for every data set that is not
zero throughout. -/
theorem C120_sparse_example (med amax : Mat ℝ → ℝ) (hmed : ∀ p (f : Fin p → ℝ) (a : ℝ), 0 < p → (∀ i, f i = a) →
    med (of (Matrix.of fun i (_ : Fin 1) => f i)) = a) (hmax : IsAmax amax) : ∃ (m : SpModel ℝ) (W : Matrix (Fin 1) (Fin 1) ℝ),
      spTrain (spRamp med amax) (of ramp) (of ramp) = .ok m ∧ loadingsOf "SparsePLS" (SpModel.attr m) = some (of W) ∧
      sq1 W = 4 ∧ ramp * W ≠ 0 := by
  obtain ⟨m, hm, _⟩ := sp_example med amax hmed hmax
  have hv : ((std ramp ramp)ᵀ * std ramp ramp) = (!![2] : Matrix (Fin 1) (Fin 1) ℝ) := by
    rw [ramp_std]
    ext i j
    simp only [Matrix.mul_apply, Matrix.transpose_apply, Fin.sum_univ_three]
    fin_cases i; fin_cases j
    simp
    norm_num
  obtain ⟨w, k, c, h1, _, _, _, h2, _⟩ := C61_direction_partial (spRamp med amax) (fun x => by simp [spRamp, spDemo]) hmax
    (by norm_num : 0 < 1) (by norm_num [spRamp, spDemo]) (by norm_num [spRamp, spDemo]) (std ramp ramp) (std ramp ramp) 2
    (hmed 1 _ 2 (by norm_num) (fun i => by rw [hv, Subsingleton.elim i 0]; norm_num)) (by norm_num)
    (by
      rw [hv]
      intro h
      have := congrFun (congrFun h 0) 0
      norm_num at this)
  rw [hv, Fin.sum_univ_one, Fin.sum_univ_one, Subsingleton.elim k 0] at h2
  have h4 : (w 0 0) ^ 2 = 4 := by
    rw [h2]
    norm_num [soft, spRamp, spDemo]
  refine ⟨m, w, hm, congrArg some (spTrain_W_one (p := 0) _ (fun x => by simp [spRamp, spDemo]) rfl ramp ramp m hm w h1), ?_, ?_⟩
  · unfold sq1
    rw [Fin.sum_univ_one, ← sq, h4]
  · intro h0
    have := congrFun (congrFun h0 0) 0
    rw [Matrix.mul_apply, Fin.sum_univ_one] at this
    have e : w 0 0 = 0 := by simpa [ramp] using this
    rw [e] at h4
    norm_num at h4

end Verif.Props
