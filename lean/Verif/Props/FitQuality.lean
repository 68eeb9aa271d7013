import Verif.Props.KernelLinear
import Verif.Props.NipalsProps
import Verif.Props.SimplsProps
import Verif.Props.DiplsProps

/-!
# C122: the predictions for the training data explain a fraction of the response

On the training data the residuals sum to zero and are uncorrelated with the predictions, the variation of the response
splits into the variation of the predictions and that of the residuals, and R² lies between 0 and 1.
-/

namespace Verif.Props

open Verif Mat Transf
open scoped Matrix

variable {n p K K' : Nat}

/-- `F` are fitted values of `y`. -/
structure GoodFit (y F : Fin n → ℝ) : Prop where
  /-- The residuals sum to zero, so predictions and response have the same mean. -/
  mean : ∑ i, (y i - F i) = 0
  /-- The residuals are uncorrelated with the predictions. -/
  uncorrelated : ∑ i, (y i - F i) * (F i - mu y) = 0
  /-- Analysis of variance. -/
  split : ∑ i, (y i - mu y) ^ 2 = ∑ i, (F i - mu y) ^ 2 + ∑ i, (y i - F i) ^ 2

/-- The coefficient of determination. -/
noncomputable def rSquared (y F : Fin n → ℝ) : ℝ := 1 - (∑ i, (y i - F i) ^ 2) / ∑ i, (y i - mu y) ^ 2

/-- R² of fitted values is the explained fraction of the variation and lies between 0 and 1. -/
theorem GoodFit.range {y F : Fin n → ℝ} (h : GoodFit y F) (hy : ∃ i, y i ≠ mu y) :
    0 ≤ rSquared y F ∧ rSquared y F ≤ 1 ∧ rSquared y F = (∑ i, (F i - mu y) ^ 2) / ∑ i, (y i - mu y) ^ 2 := by
  obtain ⟨i, hi⟩ := hy
  have hpos : 0 < ∑ i, (y i - mu y) ^ 2 :=
    Finset.sum_pos' (fun _ _ => sq_nonneg _) ⟨i, Finset.mem_univ _, by have := sub_ne_zero.2 hi; positivity⟩
  have e : rSquared y F = (∑ i, (F i - mu y) ^ 2) / ∑ i, (y i - mu y) ^ 2 := by
    rw [rSquared, eq_div_iff hpos.ne', sub_mul, one_mul, div_mul_cancel₀ _ hpos.ne']
    have := h.split
    linarith
  refine ⟨?_, ?_, e⟩
  · rw [e]
    exact div_nonneg (Finset.sum_nonneg fun _ _ => sq_nonneg _) hpos.le
  · rw [rSquared, sub_le_self_iff]
    exact div_nonneg (Finset.sum_nonneg fun _ _ => sq_nonneg _) hpos.le

/-- A smaller residual means a higher R². -/
theorem rSquared_mono {y F F' : Fin n → ℝ} (h : ∑ i, (y i - F' i) ^ 2 ≤ ∑ i, (y i - F i) ^ 2) : rSquared y F ≤ rSquared y F' :=
  sub_le_sub_left (div_le_div_of_nonneg_right h (Finset.sum_nonneg fun _ _ => sq_nonneg _)) _

theorem goodFit_of {y F y0 F0 : Fin n → ℝ} (hn : n ≠ 0) (d : ℝ) (hy : ∀ i, y i = d * y0 i + mu y)
    (hF : ∀ i, F i = d * F0 i + mu y) (h1 : ∑ i, F0 i = 0) (h2 : ∑ i, (y0 i - F0 i) * F0 i = 0) : GoodFit y F := by
  have hs := sum_sub_mu hn y
  have hr : ∀ i, y i - F i = d * (y0 i - F0 i) := fun i => by rw [hy i, hF i]; ring
  have hf : ∀ i, F i - mu y = d * F0 i := fun i => by rw [hF i]; ring
  have hc : ∑ i, (y i - F i) * (F i - mu y) = 0 := by
    have : ∀ i, (y i - F i) * (F i - mu y) = d * d * ((y0 i - F0 i) * F0 i) := fun i => by rw [hr, hf]; ring
    rw [Finset.sum_congr rfl fun i _ => this i, ← Finset.mul_sum, h2, mul_zero]
  refine ⟨?_, hc, ?_⟩
  · have : ∀ i, y i - F i = (y i - mu y) - d * F0 i := fun i => by rw [← hf]; ring
    rw [Finset.sum_congr rfl fun i _ => this i, Finset.sum_sub_distrib, hs, ← Finset.mul_sum, h1, mul_zero, sub_zero]
  · have : ∀ i, (y i - mu y) ^ 2 = (F i - mu y) ^ 2 + (y i - F i) ^ 2 + 2 * ((y i - F i) * (F i - mu y)) := fun i => by ring
    rw [Finset.sum_congr rfl fun i _ => this i, Finset.sum_add_distrib, Finset.sum_add_distrib, ← Finset.mul_sum, hc, mul_zero,
      add_zero]

/-- Predictions and residuals of PLS1 on centred predictors. -/
theorem pls1_fit {weights : Mat ℝ → Mat ℝ → Except PyErr (Mat ℝ)} {wf : Matrix (Fin n) (Fin p) ℝ → Matrix (Fin p) (Fin 1) ℝ}
    (hn : 0 < n) (hp : 0 < p) (hK : 0 < K) (X : Matrix (Fin n) (Fin p) ℝ) {y : Matrix (Fin n) (Fin 1) ℝ}
    (hw : Computes weights wf y) (h : Regular wf K X) (hX : ∀ j, ∑ i, X i j = 0) :
    ∃ (m : Pls1Model ℝ) (T : Mat ℝ) (F : Matrix (Fin n) (Fin 1) ℝ), pls1Train weights K (of X) (of y) = .ok (m, T) ∧
      pls1Predict K m (of X) = .ok (of F) ∧ ∑ i, F i 0 = 0 ∧ ∑ i, (y i 0 - F i 0) * F i 0 = 0 := by
  obtain ⟨m, T, F, h1, h2, ⟨b, hb⟩, h4, -⟩ := C50_least_squares hn hp hK X hw h
  obtain ⟨m', T', R, h1', -, h3'⟩ := C50_linear hn hp hK X hw h
  rw [h1] at h1'
  cases h1'
  have hF : F = X * R := by
    have := h3' hn X
    rw [h2, ok_inj, of_inj] at this
    exact this
  refine ⟨m, of T, F, h1, h2, ?_, ?_⟩
  · rw [hF]
    simp only [Matrix.mul_apply]
    rw [Finset.sum_comm]
    refine Finset.sum_eq_zero fun l _ => ?_
    rw [← Finset.sum_mul, hX, zero_mul]
  · have e : (Fᵀ * (y - F)) 0 0 = 0 := by
      nth_rewrite 1 [hb]
      rw [Matrix.transpose_mul, Matrix.mul_assoc, h4, Matrix.mul_zero]
      rfl
    rw [Matrix.mul_apply] at e
    rw [← e]
    exact Finset.sum_congr rfl fun i _ => mul_comm _ _

/-- **C122, PLS1 and VCPLS** on centred data. -/
theorem C122_pls1 {weights : Mat ℝ → Mat ℝ → Except PyErr (Mat ℝ)} {wf : Matrix (Fin n) (Fin p) ℝ → Matrix (Fin p) (Fin 1) ℝ}
    (hn : 0 < n) (hp : 0 < p) (hK : 0 < K) (hKK : K ≤ K') (X : Matrix (Fin n) (Fin p) ℝ) {y : Matrix (Fin n) (Fin 1) ℝ}
    (hw : Computes weights wf y) (h : Regular wf K' X) (hX : ∀ j, ∑ i, X i j = 0) (hy : ∑ i, y i 0 = 0) :
    ∃ (m m' : Pls1Model ℝ) (T T' : Mat ℝ) (F F' : Matrix (Fin n) (Fin 1) ℝ),
      pls1Train weights K (of X) (of y) = .ok (m, T) ∧ pls1Predict K m (of X) = .ok (of F) ∧
      pls1Train weights K' (of X) (of y) = .ok (m', T') ∧ pls1Predict K' m' (of X) = .ok (of F') ∧
      GoodFit (fun i => y i 0) (fun i => F i 0) ∧ GoodFit (fun i => y i 0) (fun i => F' i 0) ∧
      rSquared (fun i => y i 0) (fun i => F i 0) ≤ rSquared (fun i => y i 0) fun i => F' i 0 := by
  obtain ⟨m, m', T, T', F, F', h1, h2, h3, h4, h5⟩ := C50_monotone hn hp hK hKK X hw h
  obtain ⟨_, _, G, e1, e2, e3, e4⟩ := pls1_fit hn hp hK X hw (Regular.of_sq1 fun k hk => h.sq1_ne k (by omega)) hX
  obtain ⟨_, _, G', g1, g2, g3, g4⟩ := pls1_fit hn hp (hK.trans_le hKK) X hw h hX
  rw [h1] at e1; cases e1
  rw [h2, ok_inj, of_inj] at e2; cases e2
  rw [h3] at g1; cases g1
  rw [h4, ok_inj, of_inj] at g2; cases g2
  have hmu : (mu fun i => y i 0) = 0 := by rw [mu, hy, zero_div]
  have good : ∀ F : Matrix (Fin n) (Fin 1) ℝ, ∑ i, F i 0 = 0 → ∑ i, (y i 0 - F i 0) * F i 0 = 0 →
      GoodFit (fun i => y i 0) fun i => F i 0 := fun F a b =>
    goodFit_of (y0 := fun i => y i 0) (F0 := fun i => F i 0) hn.ne' 1 (fun i => by rw [hmu]; ring) (fun i => by rw [hmu]; ring) a b
  exact ⟨m, m', T, T', F, F', h1, h2, h3, h4, good F e3 e4, good F' g3 g4, rSquared_mono h5⟩

/-- **C122, SIMPLS** (without slimming) on centred data. -/
theorem C122_simpls {eig : Mat ℝ → Mat ℝ × Mat ℝ} (he : EigOne eig) (hn : 0 < n) (hp : 0 < p) (hK : 0 < K) (hKK : K ≤ K')
    {count : Int} (hcount : count ≤ 0) (X : Matrix (Fin n) (Fin p) ℝ) (y : Matrix (Fin n) (Fin 1) ℝ)
    (h : Regular (pls1W y) K' X) (hX : ∀ j, ∑ i, X i j = 0) (hy : ∑ i, y i 0 = 0) :
    ∃ (m m' : SimplsModel ℝ) (F F' : Matrix (Fin n) (Fin 1) ℝ),
      simplsTrain (domOf eig) K count (of X) (of y) = .ok m ∧ simplsPredict m (of X) = .ok (of F) ∧
      simplsTrain (domOf eig) K' count (of X) (of y) = .ok m' ∧ simplsPredict m' (of X) = .ok (of F') ∧
      GoodFit (fun i => y i 0) (fun i => F i 0) ∧ GoodFit (fun i => y i 0) (fun i => F' i 0) ∧
      rSquared (fun i => y i 0) (fun i => F i 0) ≤ rSquared (fun i => y i 0) fun i => F' i 0 := by
  obtain ⟨m, m', T, T', F, F', h1, h2, h3, h4, h5⟩ := C122_pls1 hn hp hK hKK X (pls1_computes y) h hX hy
  obtain ⟨s, q, _, e1, e2, e3⟩ := C73_same_predictions he hn hp hK hcount X y
    (Regular.of_sq1 fun k hk => h.sq1_ne k (by omega))
  obtain ⟨s', q', _, e1', e2', e3'⟩ := C73_same_predictions he hn hp (hK.trans_le hKK) hcount X y h
  rw [h1] at e2; cases e2
  rw [h3] at e2'; cases e2'
  obtain ⟨G, a1, a2⟩ := e3 n hn X
  obtain ⟨G', a1', a2'⟩ := e3' n hn X
  rw [h2, ok_inj, of_inj] at a2; cases a2
  rw [h4, ok_inj, of_inj] at a2'; cases a2'
  exact ⟨s, s', F, F', e1, a1, e1', a1', h5⟩

theorem nipRegular_le {X : Matrix (Fin n) (Fin p) ℝ} {y : Matrix (Fin n) (Fin 1) ℝ} (hKK : K ≤ K') (h : NipRegular K' X y) :
    NipRegular K X y := by
  induction K' generalizing K X y with
  | zero =>
    obtain rfl : K = 0 := by omega
    trivial
  | succ K' ih =>
    cases K with
    | zero => trivial
    | succ K => exact ⟨h.1, h.2.1, h.2.2.1, ih (by omega) h.2.2.2⟩

theorem divisor_one_ne {n : Nat} (y : Matrix (Fin n) (Fin 1) ℝ) : divisor y 0 ≠ 0 := by
  unfold divisor
  split
  · exact one_ne_zero
  · rename_i h
    exact fun h0 => h ⟨rfl, h0⟩

theorem std_sum (hn : 0 < n) (A : Matrix (Fin n) (Fin p) ℝ) (j : Fin p) : ∑ i, std A A i j = 0 := by
  simp only [std, Matrix.of_apply]
  rw [← Finset.sum_div, sum_sub_mu hn.ne' fun i => A i j, zero_div]

/-- **C122, NIPALS with one response**, on any data: NIPALS standardises the data itself. -/
theorem C122_nipals {c : NipalsCfg ℝ} (hc : NipalsReal c) (hcca : c.cca = false) (hdefl : c.defl = .regression)
    (hpinv : PinvRegular c.pinv) (hK : 0 < K) (hKK : K ≤ K') (hn : 0 < n) (X : Matrix (Fin n) (Fin (p + 1)) ℝ)
    (y : Matrix (Fin n) (Fin 1) ℝ) (h : NipRegular K' (std X X) (std y y)) :
    ∃ (m m' : NipalsModel ℝ) (F F' : Matrix (Fin n) (Fin 1) ℝ),
      nipalsTrain { c with K := (K : Int) } (of X) (of y) = .ok m ∧ nipalsPredict { c with K := (K : Int) } m (of X) = .ok (of F) ∧
      nipalsTrain { c with K := (K' : Int) } (of X) (of y) = .ok m' ∧ nipalsPredict { c with K := (K' : Int) } m' (of X) = .ok (of F') ∧
      GoodFit (fun i => y i 0) (fun i => F i 0) ∧ GoodFit (fun i => y i 0) (fun i => F' i 0) ∧
      rSquared (fun i => y i 0) (fun i => F i 0) ≤ rSquared (fun i => y i 0) fun i => F' i 0 := by
  have hreg : Regular (pls1W (std y y)) K' (std X X) := Regular.of_sq1 (PassOk.sq1_ne h.passOk)
  obtain ⟨q, q', T, T', F, F', h1, h2, h3, h4, h5⟩ := C50_monotone hn (by omega) hK hKK (std X X) (pls1_computes (std y y)) hreg
  obtain ⟨_, _, G, e1, e2, e3, e4⟩ := pls1_fit hn (by omega) hK (std X X) (pls1_computes (std y y))
    (Regular.of_sq1 fun k hk => hreg.sq1_ne k (by omega)) (std_sum hn X)
  obtain ⟨_, _, G', g1, g2, g3, g4⟩ := pls1_fit hn (by omega) (hK.trans_le hKK) (std X X) (pls1_computes (std y y)) hreg (std_sum hn X)
  rw [h1] at e1; cases e1
  rw [h2, ok_inj, of_inj] at e2; cases e2
  rw [h3] at g1; cases g1
  rw [h4, ok_inj, of_inj] at g2; cases g2
  obtain ⟨m, _, _, a1, a2, a3⟩ := C74_same_predictions (c := { c with K := (K : Int) }) ⟨hc.lt, hc.zero⟩ hcca hdefl hpinv hK rfl hn X y
    (nipRegular_le hKK h)
  obtain ⟨m', _, _, b1, b2, b3⟩ := C74_same_predictions (c := { c with K := (K' : Int) }) ⟨hc.lt, hc.zero⟩ hcca hdefl hpinv
    (hK.trans_le hKK) rfl hn X y h
  rw [h1] at a2; cases a2
  rw [h3] at b2; cases b2
  obtain ⟨H, c1, c2⟩ := a3 n hn X
  obtain ⟨H', d1, d2⟩ := b3 n hn X
  rw [h2, ok_inj, of_inj] at c1; cases c1
  rw [h4, ok_inj, of_inj] at d1; cases d1
  have hy : ∀ i, y i 0 = divisor y 0 * std y y i 0 + mu fun k => y k 0 := fun i => by
    simp only [std, Matrix.of_apply]
    rw [mul_div_cancel₀ _ (divisor_one_ne y), sub_add_cancel]
  have good : ∀ F : Matrix (Fin n) (Fin 1) ℝ, ∑ i, F i 0 = 0 → ∑ i, (std y y i 0 - F i 0) * F i 0 = 0 →
      GoodFit (fun i => y i 0) fun i => divisor y 0 * F i 0 + mu fun k => y k 0 := fun F a b =>
    goodFit_of (y0 := fun i => std y y i 0) (F0 := fun i => F i 0) hn.ne' (divisor y 0) hy (fun _ => rfl) a b
  refine ⟨m, m', _, _, a1, c2, b1, d2, good F e3 e4, good F' g3 g4, rSquared_mono ?_⟩
  have e : ∀ (F : Matrix (Fin n) (Fin 1) ℝ) i, (y i 0 - (divisor y 0 * F i 0 + mu fun k => y k 0)) ^ 2 =
      divisor y 0 ^ 2 * (std y y i 0 - F i 0) ^ 2 := fun F i => by
    nth_rewrite 1 [hy i]
    ring
  simp only [Matrix.of_apply, e, ← Finset.mul_sum]
  exact mul_le_mul_of_nonneg_left h5 (sq_nonneg _)

/-- **C122, KernelPLS with the linear kernel**, on any data: KernelPLS centres the data itself. -/
theorem C122_kernel {c : KplsCfg ℝ Unit} {v : Nat → Matrix (Fin n) (Fin 1) ℝ} (hc : KplsReal c n v)
    (hl1 : ∀ A, c.kern1 () A = ((), linearMatrix A none)) (hl2 : ∀ A B, c.kern2 () A B = ((), linearMatrix A (some B)))
    (htol : 0 < c.tol) (hmax : 2 ≤ c.maxIter) (hK : 0 < K) (hKK : K ≤ K') (hn : 0 < n) (hp : 0 < p)
    (X : Matrix (Fin n) (Fin p) ℝ) (y : Matrix (Fin n) (Fin 1) ℝ) (lstsq : Mat ℝ → Except PyErr (Mat ℝ))
    (hinv : c.inv = inverse lstsq) (h : Regular (pls1W (cen y y)) K' (cen X X))
    (hv : GoodStart c.tol K' (cen X X) (cen y y) v) :
    ∃ (m m' : KplsModel ℝ Unit) (F F' : Matrix (Fin n) (Fin 1) ℝ),
      kplsTrain { c with K := (K : Int) } () (of X) (of y) = .ok m ∧ kplsPredict { c with K := (K : Int) } m (of X) = .ok (of F) ∧
      kplsTrain { c with K := (K' : Int) } () (of X) (of y) = .ok m' ∧ kplsPredict { c with K := (K' : Int) } m' (of X) = .ok (of F') ∧
      GoodFit (fun i => y i 0) (fun i => F i 0) ∧ GoodFit (fun i => y i 0) (fun i => F' i 0) ∧
      rSquared (fun i => y i 0) (fun i => F i 0) ≤ rSquared (fun i => y i 0) fun i => F' i 0 := by
  have hreg : Regular (pls1W (cen y y)) K (cen X X) := Regular.of_sq1 fun k hk => h.sq1_ne k (by omega)
  obtain ⟨q, q', T, T', F, F', h1, h2, h3, h4, h5⟩ := C50_monotone hn hp hK hKK (cen X X) (pls1_computes (cen y y)) h
  have hX : ∀ j, ∑ i, cen X X i j = 0 := fun j => sum_sub_mu hn.ne' fun i => X i j
  obtain ⟨_, _, G, e1, e2, e3, e4⟩ := pls1_fit hn hp hK (cen X X) (pls1_computes (cen y y)) hreg hX
  obtain ⟨_, _, G', g1, g2, g3, g4⟩ := pls1_fit hn hp (hK.trans_le hKK) (cen X X) (pls1_computes (cen y y)) h hX
  rw [h1] at e1; cases e1
  rw [h2, ok_inj, of_inj] at e2; cases e2
  rw [h3] at g1; cases g1
  rw [h4, ok_inj, of_inj] at g2; cases g2
  have hv' : GoodStart c.tol K (cen X X) (cen y y) v := ⟨fun k hk => hv.length k (by omega), fun k hk => hv.score k (by omega)⟩
  obtain ⟨m, _, _, a1, a2, a3⟩ := C101_linear_kernel (c := { c with K := (K : Int) }) ⟨hc.lt, hc.start⟩ hl1 hl2 htol hmax rfl hK hn hp X y
    lstsq hinv hreg hv'
  obtain ⟨m', _, _, b1, b2, b3⟩ := C101_linear_kernel (c := { c with K := (K' : Int) }) ⟨hc.lt, hc.start⟩ hl1 hl2 htol hmax rfl
    (hK.trans_le hKK) hn hp X y lstsq hinv h hv
  rw [h1] at a2; cases a2
  rw [h3] at b2; cases b2
  obtain ⟨H, c1, c2⟩ := a3 hn X
  obtain ⟨H', d1, d2⟩ := b3 hn X
  rw [h2, ok_inj, of_inj] at c1; cases c1
  rw [h4, ok_inj, of_inj] at d1; cases d1
  have good : ∀ F : Matrix (Fin n) (Fin 1) ℝ, ∑ i, F i 0 = 0 → ∑ i, (cen y y i 0 - F i 0) * F i 0 = 0 →
      GoodFit (fun i => y i 0) fun i => F i 0 + mu fun k => y k 0 := fun F a b =>
    goodFit_of (y0 := fun i => cen y y i 0) (F0 := fun i => F i 0) hn.ne' 1
      (fun i => by simp only [cen, Matrix.of_apply]; ring) (fun i => by ring) a b
  refine ⟨m, m', _, _, a1, c2, b1, d2, good F e3 e4, good F' g3 g4, rSquared_mono ?_⟩
  have e : ∀ (F : Matrix (Fin n) (Fin 1) ℝ) i, (y i 0 - (F i 0 + mu fun k => y k 0)) ^ 2 = (cen y y i 0 - F i 0) ^ 2 := fun F i => by
    simp only [cen, Matrix.of_apply]
    ring
  simp only [Matrix.of_apply, e]
  exact h5

/-! ## Concrete cases -/

example := C122_pls1 (K := 1) (K' := 2) (by decide) (by decide) (by decide) (by decide) dxA (pls1_computes dxY) kl_regular
  (by intro j; rw [Fin.sum_univ_three]; fin_cases j <;> (simp [dxA]; try norm_num))
  (by rw [Fin.sum_univ_three]; simp [dxY])

example (lstsq : Mat ℝ → Except PyErr (Mat ℝ)) :=
  C122_kernel (c := klCfg 10 lstsq) (v := klV) ⟨fun _ _ => rfl, fun _ => rfl⟩ (fun _ => rfl) (fun _ _ => rfl)
    (by norm_num [klCfg]) (by norm_num [klCfg]) (K := 1) (K' := 2) (by decide) (by decide) (by decide) (by decide) dxA dxY lstsq rfl
    (by rw [kl_cenX, kl_cenY]; exact kl_regular) (by rw [kl_cenX, kl_cenY]; exact kl_start)

/-- Fitted values that are not equal to the response: `y = 0, 1, 3, 4` fitted by its group means. -/
example : GoodFit ![0, 1, 3, 4] ![1 / 2, 1 / 2, 7 / 2, (7 / 2 : ℝ)] := by
  constructor <;> simp [mu, Fin.sum_univ_four] <;> norm_num

end Verif.Props
