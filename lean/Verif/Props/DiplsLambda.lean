import Verif.Props.DiplsReduction
import Verif.Props.EigSpec

/-!
# C132: what `lambda_` does in DIPLS

`_DIPLS.py` 160-167 choose the weights with a penalty on the difference of the score variances of the two domains.
The difference enters with its sign: a larger `lambda_` never increases (variance of the source scores) - (variance of the
target scores) of the first component.  The scores of the two domains therefore become more alike if the
source varies at least as much as the target in every direction, and less alike if it is the other way round.
-/

namespace Verif.Props

open Verif Mat Factory Transf
open scoped Matrix

variable {n s t p : Nat}

/-! ## Regularised directions -/

/-- The quadratic form of `D`. -/
def qform (D : Matrix (Fin p) (Fin p) ℝ) (w : Matrix (Fin p) (Fin 1) ℝ) : ℝ := (wᵀ * (D * w)) 0 0

theorem qform_smul (D : Matrix (Fin p) (Fin p) ℝ) (c : ℝ) (w : Matrix (Fin p) (Fin 1) ℝ) :
    qform D (c • w) = c ^ 2 * qform D w := by
  rw [qform, qform, Matrix.transpose_smul, Matrix.smul_mul, Matrix.mul_smul, Matrix.mul_smul, smul_smul, Matrix.smul_apply,
    smul_eq_mul, pow_two]

theorem qform_gram {m : Nat} (A : Matrix (Fin m) (Fin p) ℝ) (w : Matrix (Fin p) (Fin 1) ℝ) :
    qform (Aᵀ * A) w = sq1 (A * w) := by
  rw [qform, ← sq1_eq, Matrix.transpose_mul]
  simp only [Matrix.mul_assoc]

theorem qform_diff (A B : Matrix (Fin p) (Fin p) ℝ) (a b : ℝ) (w : Matrix (Fin p) (Fin 1) ℝ) :
    qform (a • A - b • B) w = a * qform A w - b * qform B w := by
  simp only [qform, Matrix.sub_mul, Matrix.smul_mul, Matrix.mul_sub, Matrix.mul_smul, Matrix.sub_apply, Matrix.smul_apply,
    smul_eq_mul]

theorem qform_nrm (D : Matrix (Fin p) (Fin p) ℝ) (w : Matrix (Fin p) (Fin 1) ℝ) :
    qform D (nrm w) = qform D w / sq1 w := by
  rw [nrm, qform_smul, inv_pow, Real.sq_sqrt (sq1_nonneg w), div_eq_inv_mul]

/-- In an orthonormal eigenbasis. -/
theorem qform_eig {D V : Matrix (Fin p) (Fin p) ℝ} {ev : Fin p → ℝ} (h : EigPair D ev V) (hV : Vᵀ * V = 1)
    (g : Matrix (Fin p) (Fin 1) ℝ) : qform D (V * g) = ∑ i, ev i * g i 0 ^ 2 ∧ sq1 (V * g) = ∑ i, g i 0 ^ 2 := by
  constructor
  · rw [qform, ← Matrix.mul_assoc D, h.eigen, Matrix.transpose_mul, Matrix.mul_assoc, Matrix.mul_assoc V, ← Matrix.mul_assoc Vᵀ,
      hV, Matrix.one_mul, Matrix.mul_apply]
    refine Finset.sum_congr rfl fun i _ => ?_
    rw [Matrix.diagonal_mul, Matrix.transpose_apply]
    ring
  · rw [← sq1_eq, Matrix.transpose_mul, Matrix.mul_assoc, ← Matrix.mul_assoc Vᵀ, hV, Matrix.one_mul, Matrix.mul_apply]
    exact Finset.sum_congr rfl fun i _ => by rw [Matrix.transpose_apply, pow_two]

/-- Chebyshev's inequality: weights that fall with `e` lower the weighted mean of `e`. -/
theorem chebyshev {ι : Type} [Fintype ι] (a e r : ι → ℝ) (ha : ∀ i, 0 ≤ a i)
    (hr : ∀ i j, (e i - e j) * (r i - r j) ≤ 0) :
    (∑ i, e i * (r i * a i)) * ∑ i, a i ≤ (∑ i, e i * a i) * ∑ i, r i * a i := by
  have h1 : (∑ i, e i * (r i * a i)) * ∑ i, a i - (∑ i, e i * a i) * ∑ i, r i * a i =
      ∑ i, ∑ j, a i * a j * (e i * (r i - r j)) := by
    rw [Finset.sum_mul_sum, Finset.sum_mul_sum, ← Finset.sum_sub_distrib]
    refine Finset.sum_congr rfl fun i _ => ?_
    rw [← Finset.sum_sub_distrib]
    exact Finset.sum_congr rfl fun j _ => by ring
  have h2 : ∑ i, ∑ j, a i * a j * (e i * (r i - r j)) = ∑ i, ∑ j, a i * a j * (e j * (r j - r i)) := by
    rw [Finset.sum_comm]
    exact Finset.sum_congr rfl fun i _ => Finset.sum_congr rfl fun j _ => by ring
  have h3 : ∑ i, ∑ j, a i * a j * (e i * (r i - r j)) + ∑ i, ∑ j, a i * a j * (e j * (r j - r i)) ≤ 0 := by
    rw [← Finset.sum_add_distrib]
    refine Finset.sum_nonpos fun i _ => ?_
    rw [← Finset.sum_add_distrib]
    refine Finset.sum_nonpos fun j _ => ?_
    have := mul_nonneg (mul_nonneg (ha i) (ha j)) (neg_nonneg.2 (hr i j))
    linarith
  linarith

/-- The quadratic form along `(1 + c D)⁻¹ v` falls with `c`. -/
theorem qform_falls {D : Matrix (Fin p) (Fin p) ℝ} (hD : Dᵀ = D) {c c' : ℝ} (hc : 0 ≤ c) (hcc : c ≤ c')
    (hpos : ∀ u, u ≠ 0 → 0 < sq1 u + c' * qform D u) {v w w' : Matrix (Fin p) (Fin 1) ℝ} (hw0 : w ≠ 0) (hw0' : w' ≠ 0)
    (hw : (1 + c • D) * w = v) (hw' : (1 + c' • D) * w' = v) :
    qform D (nrm w') ≤ qform D (nrm w) := by
  obtain ⟨ev, V, he, hV⟩ := symm_eig D hD
  have hV' : V * Vᵀ = 1 := mul_eq_one_comm.1 hV
  have hev : ∀ i, 0 < 1 + c' * ev i := by
    intro i
    have hs : qform D (V * Matrix.of fun j (_ : Fin 1) => if j = i then (1 : ℝ) else 0) = ev i ∧
        sq1 (V * Matrix.of fun j (_ : Fin 1) => if j = i then (1 : ℝ) else 0) = 1 := by
      obtain ⟨a, b⟩ := qform_eig he hV (Matrix.of fun j (_ : Fin 1) => if j = i then (1 : ℝ) else 0)
      rw [a, b]
      simp
    have := hpos (V * Matrix.of fun j (_ : Fin 1) => if j = i then (1 : ℝ) else 0) fun h0 => by
      rw [h0] at hs
      simp [sq1] at hs
    rwa [hs.1, hs.2] at this
  have hev0 : ∀ i, 0 < 1 + c * ev i := by
    intro i
    rcases le_total 0 (ev i) with h | h
    · have := mul_nonneg hc h
      linarith
    · have := mul_le_mul_of_nonpos_right hcc h
      linarith [hev i]
  have coord : ∀ (c : ℝ) (w : Matrix (Fin p) (Fin 1) ℝ), (1 + c • D) * w = v → ∀ i,
      (1 + c * ev i) * (Vᵀ * w) i 0 = (Vᵀ * v) i 0 := by
    intro c w h i
    have h1 : Vᵀ * v = Vᵀ * w + c • (Matrix.diagonal ev * (Vᵀ * w)) := by
      have h2 : Vᵀ * D = Matrix.diagonal ev * Vᵀ := by
        have := congrArg Matrix.transpose he.eigen
        rwa [Matrix.transpose_mul, Matrix.transpose_mul, hD, Matrix.diagonal_transpose] at this
      rw [← h, Matrix.add_mul, Matrix.one_mul, Matrix.mul_add, Matrix.smul_mul, Matrix.mul_smul, ← Matrix.mul_assoc Vᵀ, h2,
        Matrix.mul_assoc]
    rw [h1, Matrix.add_apply, Matrix.smul_apply, Matrix.diagonal_mul, smul_eq_mul]
    ring
  have hback : ∀ w : Matrix (Fin p) (Fin 1) ℝ, V * (Vᵀ * w) = w := fun w => by rw [← Matrix.mul_assoc, hV', Matrix.one_mul]
  have q := fun w : Matrix (Fin p) (Fin 1) ℝ => qform_eig he hV (Vᵀ * w)
  simp only [hback] at q
  have hpw : ∀ w : Matrix (Fin p) (Fin 1) ℝ, w ≠ 0 → 0 < sq1 w := fun w h =>
    lt_of_le_of_ne (sq1_nonneg w) fun e => h ((sq1_eq_zero w).1 e.symm)
  rw [qform_nrm, qform_nrm, div_le_div_iff₀ (hpw _ hw0') (hpw _ hw0)]
  have hr : ∀ i, (Vᵀ * w') i 0 ^ 2 = ((1 + c * ev i) / (1 + c' * ev i)) ^ 2 * (Vᵀ * w) i 0 ^ 2 := by
    intro i
    have h1 := coord c w hw i
    have h2 := coord c' w' hw' i
    have h3 : (Vᵀ * w') i 0 = (1 + c * ev i) / (1 + c' * ev i) * (Vᵀ * w) i 0 := by
      rw [div_mul_eq_mul_div, eq_div_iff (hev i).ne', mul_comm, h2, h1]
    rw [h3, mul_pow]
  rw [(q w').1, (q w').2, (q w).1, (q w).2]
  simp only [hr]
  refine chebyshev _ ev _ (fun i => sq_nonneg _) fun i j => ?_
  have hd : (1 + c * ev i) / (1 + c' * ev i) - (1 + c * ev j) / (1 + c' * ev j) =
      -((c' - c) * (ev i - ev j)) / ((1 + c' * ev i) * (1 + c' * ev j)) := by
    rw [div_sub_div _ _ (hev i).ne' (hev j).ne']
    congr 1
    ring
  have hp : 0 < (1 + c * ev i) / (1 + c' * ev i) + (1 + c * ev j) / (1 + c' * ev j) :=
    add_pos (div_pos (hev0 i) (hev i)) (div_pos (hev0 j) (hev j))
  have e : (ev i - ev j) * (((1 + c * ev i) / (1 + c' * ev i)) ^ 2 - ((1 + c * ev j) / (1 + c' * ev j)) ^ 2) =
      -(((c' - c) * (ev i - ev j) ^ 2) / ((1 + c' * ev i) * (1 + c' * ev j)) *
        ((1 + c * ev i) / (1 + c' * ev i) + (1 + c * ev j) / (1 + c' * ev j))) := by
    rw [sq_sub_sq, hd]
    ring
  rw [e]
  exact neg_nonpos.2 (mul_nonneg (div_nonneg (mul_nonneg (sub_nonneg.2 hcc) (sq_nonneg _))
    (mul_pos (hev i) (hev j)).le) hp.le)

/-! ## The trained model -/

/-- Variance of the first column of centred scores. -/
noncomputable def var0 {m K : Nat} (hK : 0 < K) (T : Matrix (Fin m) (Fin K) ℝ) : ℝ := (∑ i, T i ⟨0, hK⟩ ^ 2) / ((m : ℝ) - 1)

/-- Source and target scores kept by training. -/
def Scores (m : DiplsModel ℝ) {K : Nat} (Ts : Matrix (Fin s) (Fin K) ℝ) (Tt : Matrix (Fin t) (Fin K) ℝ) : Prop :=
  m.vars.Ts = some (of Ts) ∧ m.vars.Tt = some (of Tt)

theorem scores_of {K : Nat} (hK : 0 < K) (cfg : DiplsCfg ℝ) (st : Strategy) (cx cs ct : CenterState ℝ) (b0 : ℝ)
    (S : DState n s t p) : ∃ (Ts : Matrix (Fin s) (Fin K) ℝ) (Tt : Matrix (Fin t) (Fin K) ℝ),
      Scores (trainedOf cfg st s t cx cs ct b0 K S) Ts Tt ∧
      var0 hK Ts - var0 hK Tt = qform ((1 / ((s : ℝ) - 1)) • (S.Xsᵀ * S.Xs) - (1 / ((t : ℝ) - 1)) • (S.Xtᵀ * S.Xt))
        (dW cfg.lambda s t S) := by
  obtain ⟨k, rfl⟩ : ∃ k, K = k + 1 := ⟨K - 1, by omega⟩
  refine ⟨Matrix.of fun i j => ((dSt cfg.lambda s t S j.1).Xs * dW cfg.lambda s t (dSt cfg.lambda s t S j.1)) i 0,
    Matrix.of fun i j => ((dSt cfg.lambda s t S j.1).Xt * dW cfg.lambda s t (dSt cfg.lambda s t S j.1)) i 0, ⟨rfl, rfl⟩, ?_⟩
  rw [qform_diff, qform_gram, qform_gram, var0, var0, sq1, sq1]
  simp only [Matrix.of_apply, dSt, pow_two]
  ring

/-- The difference of the variances of the first scores falls with `lambda_`: the recursion. -/
theorem dW_falls {lam lam' : ℝ} (hl : 0 ≤ lam) (hll : lam ≤ lam') {S : DState n s t p} (h : DReg lam s t S)
    (h' : DReg lam' s t S)
    (hpos : ∀ u : Matrix (Fin p) (Fin 1) ℝ, u ≠ 0 → 0 < sq1 u + lam' / (2 * sq1 S.y) *
      (sq1 (S.Xs * u) / ((s : ℝ) - 1) - sq1 (S.Xt * u) / ((t : ℝ) - 1))) :
    qform ((1 / ((s : ℝ) - 1)) • (S.Xsᵀ * S.Xs) - (1 / ((t : ℝ) - 1)) • (S.Xtᵀ * S.Xt)) (dW lam' s t S) ≤
      qform ((1 / ((s : ℝ) - 1)) • (S.Xsᵀ * S.Xs) - (1 / ((t : ℝ) - 1)) • (S.Xtᵀ * S.Xt)) (dW lam s t S) := by
  have hy : 0 < 2 * sq1 S.y := mul_pos two_pos (lt_of_le_of_ne (sq1_nonneg _) h.y.symm)
  have hraw : ∀ {l : ℝ}, DReg l s t S → dRaw l s t S ≠ 0 := fun {l} hr h0 => hr.t (by
    rw [dW, h0, nrm, smul_zero, Matrix.mul_zero]
    simp [sq1])
  refine qform_falls ?_ (div_nonneg hl hy.le) (div_le_div_of_nonneg_right hll hy.le) (fun u hu => ?_) (hraw h) (hraw h')
    (C78_weights lam h).2 (C78_weights lam' h').2
  · rw [Matrix.transpose_sub, Matrix.transpose_smul, Matrix.transpose_smul, Matrix.transpose_mul, Matrix.transpose_transpose,
      Matrix.transpose_mul, Matrix.transpose_transpose]
  · have := hpos u hu
    rw [qform_diff, qform_gram, qform_gram, one_div_mul_eq_div, one_div_mul_eq_div]
    exact this

/-- What the penalty of `_DIPLS.py` 160-167 needs to be a trade-off at all: the penalised criterion is bounded below. -/
def Bounded (lam : ℝ) (y : Matrix (Fin n) (Fin 1) ℝ) (Xs : Matrix (Fin s) (Fin p) ℝ) (Xt : Matrix (Fin t) (Fin p) ℝ) : Prop :=
  ∀ u : Matrix (Fin p) (Fin 1) ℝ, u ≠ 0 → 0 < sq1 u + lam / (2 * sq1 (cen y y)) *
    (sq1 (cen Xs Xs * u) / ((s : ℝ) - 1) - sq1 (cen Xt Xt * u) / ((t : ℝ) - 1))

/-- **C132.** Unsupervised training: with a larger `lambda_` the variance of the first source scores minus that of the
first target scores is not larger. -/
theorem C132_unsupervised_partial {cfg cfg' : DiplsCfg ℝ} (hinv : IsInv cfg.inv) (hinv' : IsInv cfg'.inv) (o : DiplsObj ℝ)
    (ho : Initialised o) (hs : 2 ≤ s) (ht : 2 ≤ t) {K : Nat} (hK : 0 < K) (hcfg : cfg.K = K) (hcfg' : cfg'.K = K)
    (hl : 0 ≤ cfg.lambda) (hll : cfg.lambda ≤ cfg'.lambda)
    (Xs : Matrix (Fin s) (Fin p) ℝ) (Xt : Matrix (Fin t) (Fin p) ℝ) (ys : Matrix (Fin s) (Fin 1) ℝ)
    (h : ∀ k < K, DReg cfg.lambda s t (dSt cfg.lambda s t (unsupState Xs Xt ys) k))
    (h' : ∀ k < K, DReg cfg'.lambda s t (dSt cfg'.lambda s t (unsupState Xs Xt ys) k))
    (hb : Bounded cfg'.lambda ys Xs Xt) :
    ∃ (m m' : DiplsModel ℝ) (Ts Ts' : Matrix (Fin s) (Fin K) ℝ) (Tt Tt' : Matrix (Fin t) (Fin K) ℝ),
      diplsUnsupervised cfg o (of Xs) (of Xt) (of ys) = .ok (.trained m) ∧
      diplsUnsupervised cfg' o (of Xs) (of Xt) (of ys) = .ok (.trained m') ∧
      Scores m Ts Tt ∧ Scores m' Ts' Tt' ∧ var0 hK Ts' - var0 hK Tt' ≤ var0 hK Ts - var0 hK Tt := by
  have e := C59_unsupervised hinv o ho hs ht K hK hcfg Xs Xt ys h
  have e' := C59_unsupervised hinv' o ho hs ht K hK hcfg' Xs Xt ys h'
  obtain ⟨Ts, Tt, a, b⟩ := scores_of hK cfg .unsupervised (cenState Xs) (cenState Xs) (cenState Xt)
    (mu fun i => ys i 0) (unsupState Xs Xt ys)
  obtain ⟨Ts', Tt', a', b'⟩ := scores_of hK cfg' .unsupervised (cenState Xs) (cenState Xs) (cenState Xt)
    (mu fun i => ys i 0) (unsupState Xs Xt ys)
  refine ⟨_, _, Ts, Ts', Tt, Tt', e, e', a, a', ?_⟩
  rw [b, b']
  exact dW_falls hl hll (h 0 hK) (h' 0 hK) hb

/-- **C132.** The same for supervised training. -/
theorem C132_supervised_partial {cfg cfg' : DiplsCfg ℝ} (hinv : IsInv cfg.inv) (hinv' : IsInv cfg'.inv) (o : DiplsObj ℝ)
    (ho : Initialised o) (hs : 2 ≤ s) (ht : 2 ≤ t) {K : Nat} (hK : 0 < K) (hcfg : cfg.K = K) (hcfg' : cfg'.K = K)
    (hl : 0 ≤ cfg.lambda) (hll : cfg.lambda ≤ cfg'.lambda)
    (Xs : Matrix (Fin s) (Fin p) ℝ) (Xt : Matrix (Fin t) (Fin p) ℝ) (ys : Matrix (Fin s) (Fin 1) ℝ)
    (yt : Matrix (Fin t) (Fin 1) ℝ)
    (h : ∀ k < K, DReg cfg.lambda s t (dSt cfg.lambda s t (supState Xs Xt ys yt) k))
    (h' : ∀ k < K, DReg cfg'.lambda s t (dSt cfg'.lambda s t (supState Xs Xt ys yt) k))
    (hb : Bounded cfg'.lambda (stack ys yt) Xs Xt) :
    ∃ (m m' : DiplsModel ℝ) (Ts Ts' : Matrix (Fin s) (Fin K) ℝ) (Tt Tt' : Matrix (Fin t) (Fin K) ℝ),
      diplsSupervised cfg o (of Xs) (of Xt) (of ys) (of yt) = .ok (.trained m) ∧
      diplsSupervised cfg' o (of Xs) (of Xt) (of ys) (of yt) = .ok (.trained m') ∧
      Scores m Ts Tt ∧ Scores m' Ts' Tt' ∧ var0 hK Ts' - var0 hK Tt' ≤ var0 hK Ts - var0 hK Tt := by
  have e := C59_supervised hinv o ho hs ht K hK hcfg Xs Xt ys yt h
  have e' := C59_supervised hinv' o ho hs ht K hK hcfg' Xs Xt ys yt h'
  obtain ⟨Ts, Tt, a, b⟩ := scores_of hK cfg .supervised (cenState (stack Xs Xt)) (cenState Xs) (cenState Xt)
    (mu fun i => stack ys yt i 0) (supState Xs Xt ys yt)
  obtain ⟨Ts', Tt', a', b'⟩ := scores_of hK cfg' .supervised (cenState (stack Xs Xt)) (cenState Xs) (cenState Xt)
    (mu fun i => stack ys yt i 0) (supState Xs Xt ys yt)
  refine ⟨_, _, Ts, Ts', Tt, Tt', e, e', a, a', ?_⟩
  rw [b, b']
  exact dW_falls hl hll (h 0 hK) (h' 0 hK) hb

/-- **C132.** If the source varies at least as much as the target in every direction, a larger `lambda_` makes the
variances of the first scores of the two domains more alike (unsupervised training). -/
theorem C132_alike_partial {cfg cfg' : DiplsCfg ℝ} (hinv : IsInv cfg.inv) (hinv' : IsInv cfg'.inv) (o : DiplsObj ℝ)
    (ho : Initialised o) (hs : 2 ≤ s) (ht : 2 ≤ t) {K : Nat} (hK : 0 < K) (hcfg : cfg.K = K) (hcfg' : cfg'.K = K)
    (hl : 0 ≤ cfg.lambda) (hll : cfg.lambda ≤ cfg'.lambda)
    (Xs : Matrix (Fin s) (Fin p) ℝ) (Xt : Matrix (Fin t) (Fin p) ℝ) (ys : Matrix (Fin s) (Fin 1) ℝ)
    (h : ∀ k < K, DReg cfg.lambda s t (dSt cfg.lambda s t (unsupState Xs Xt ys) k))
    (h' : ∀ k < K, DReg cfg'.lambda s t (dSt cfg'.lambda s t (unsupState Xs Xt ys) k))
    (hv : ∀ u : Matrix (Fin p) (Fin 1) ℝ, sq1 (cen Xt Xt * u) / ((t : ℝ) - 1) ≤ sq1 (cen Xs Xs * u) / ((s : ℝ) - 1)) :
    ∃ (m m' : DiplsModel ℝ) (Ts Ts' : Matrix (Fin s) (Fin K) ℝ) (Tt Tt' : Matrix (Fin t) (Fin K) ℝ),
      diplsUnsupervised cfg o (of Xs) (of Xt) (of ys) = .ok (.trained m) ∧
      diplsUnsupervised cfg' o (of Xs) (of Xt) (of ys) = .ok (.trained m') ∧
      Scores m Ts Tt ∧ Scores m' Ts' Tt' ∧ |var0 hK Ts' - var0 hK Tt'| ≤ |var0 hK Ts - var0 hK Tt| := by
  have hb : Bounded cfg'.lambda ys Xs Xt := fun u hu => by
    have h1 : 0 < sq1 u := lt_of_le_of_ne (sq1_nonneg u) fun e => hu ((sq1_eq_zero u).1 e.symm)
    have h2 : 0 ≤ cfg'.lambda / (2 * sq1 (cen ys ys)) :=
      div_nonneg (hl.trans hll) (mul_nonneg two_pos.le (sq1_nonneg _))
    have h3 := mul_nonneg h2 (sub_nonneg.2 (hv u))
    linarith
  have e := C59_unsupervised hinv o ho hs ht K hK hcfg Xs Xt ys h
  have e' := C59_unsupervised hinv' o ho hs ht K hK hcfg' Xs Xt ys h'
  obtain ⟨Ts, Tt, a, b⟩ := scores_of hK cfg .unsupervised (cenState Xs) (cenState Xs) (cenState Xt)
    (mu fun i => ys i 0) (unsupState Xs Xt ys)
  obtain ⟨Ts', Tt', a', b'⟩ := scores_of hK cfg' .unsupervised (cenState Xs) (cenState Xs) (cenState Xt)
    (mu fun i => ys i 0) (unsupState Xs Xt ys)
  refine ⟨_, _, Ts, Ts', Tt, Tt', e, e', a, a', ?_⟩
  have hle : var0 hK Ts' - var0 hK Tt' ≤ var0 hK Ts - var0 hK Tt := by
    rw [b, b']
    exact dW_falls hl hll (h 0 hK) (h' 0 hK) hb
  have h0 : 0 ≤ var0 hK Ts' - var0 hK Tt' := by
    rw [b', qform_diff, qform_gram, qform_gram, one_div_mul_eq_div, one_div_mul_eq_div]
    exact sub_nonneg.2 (hv _)
  rwa [abs_of_nonneg h0, abs_of_nonneg (h0.trans hle)]

/-! ## A target that varies more than the source -/

/-- Source samples. -/
def lamXs : Matrix (Fin 4) (Fin 2) ℝ := !![1, 0; -1, 0; 0, 1; 0, -1]

/-- Target samples: the second feature varies twice as much. -/
def lamXt : Matrix (Fin 4) (Fin 2) ℝ := !![1, 0; -1, 0; 0, 2; 0, -2]

/-- The response of the source samples. -/
def lamY : Matrix (Fin 4) (Fin 1) ℝ := !![1; -1; 1; -1]

theorem lam_state : unsupState lamXs lamXt lamY = ⟨lamXs, lamXs, lamXt, lamY⟩ := by
  have c1 : cen lamXs lamXs = lamXs := by
    ext i j
    fin_cases i <;> fin_cases j <;> simp [cen, mu, lamXs, Fin.sum_univ_four]
  have c2 : cen lamXt lamXt = lamXt := by
    ext i j
    fin_cases i <;> fin_cases j <;> simp [cen, mu, lamXt, Fin.sum_univ_four]
  have c3 : cen lamY lamY = lamY := by
    ext i j
    fin_cases i <;> fin_cases j <;> simp [cen, mu, lamY, Fin.sum_univ_four]
  rw [unsupState, c1, c2, c3]

theorem lam_sqy : sq1 lamY = 4 := by
  simp [sq1, lamY, Fin.sum_univ_four]
  norm_num

theorem lam_dM (lam : ℝ) : dM lam 4 4 ⟨lamXs, lamXs, lamXt, lamY⟩ = !![1, 0; 0, 1 - lam / 4] := by
  rw [dM, lam_sqy]
  ext i j
  fin_cases i <;> fin_cases j <;>
    simp [lamXs, lamXt, Matrix.mul_apply, Fin.sum_univ_four]
  ring

theorem lam_dRaw {lam : ℝ} (hl : lam < 4) :
    dRaw lam 4 4 ⟨lamXs, lamXs, lamXt, lamY⟩ = !![1 / 2; 1 / 2 / (1 - lam / 4)] := by
  have h0 : 1 - lam / 4 ≠ 0 := by
    intro h
    linarith
  have hi : (!![1, 0; 0, 1 - lam / 4] : Matrix (Fin 2) (Fin 2) ℝ)⁻¹ = !![1, 0; 0, (1 - lam / 4)⁻¹] := by
    refine Matrix.inv_eq_left_inv ?_
    ext i j
    fin_cases i <;> fin_cases j <;> simp [Matrix.mul_apply, Fin.sum_univ_two, h0]
  rw [dRaw, lam_dM, lam_sqy, hi]
  ext i j
  fin_cases i <;> fin_cases j <;> simp [lamXs, lamY, Matrix.mul_apply, Fin.sum_univ_four, Fin.sum_univ_two] <;> norm_num
  rw [div_eq_mul_inv]
  ring

theorem lam_reg {lam : ℝ} (hl : lam < 4) : DReg lam 4 4 (unsupState lamXs lamXt lamY) := by
  rw [lam_state]
  have h0 : 1 - lam / 4 ≠ 0 := by
    intro h
    linarith
  have hne : dRaw lam 4 4 ⟨lamXs, lamXs, lamXt, lamY⟩ ≠ 0 := by
    intro h
    have := congrFun (congrFun h 0) 0
    rw [lam_dRaw hl] at this
    norm_num at this
  have hw : ∀ {m : Nat} (A : Matrix (Fin m) (Fin 2) ℝ), (∀ w : Matrix (Fin 2) (Fin 1) ℝ, A * w = 0 → w = 0) →
      sq1 (A * dW lam 4 4 ⟨lamXs, lamXs, lamXt, lamY⟩) ≠ 0 := by
    intro m A hA h
    have h1 := hA _ ((sq1_eq_zero _).1 h)
    have h2 := sq1_nrm _ hne
    rw [dW] at h1
    rw [h1] at h2
    simp [sq1] at h2
  have i1 : ∀ w : Matrix (Fin 2) (Fin 1) ℝ, lamXs * w = 0 → w = 0 := by
    intro w h
    ext i j
    have a := congrFun (congrFun h 0) 0
    have b := congrFun (congrFun h 2) 0
    simp [lamXs, Matrix.mul_apply, Fin.sum_univ_two] at a b
    fin_cases i <;> fin_cases j <;> simp [a, b]
  have i2 : ∀ w : Matrix (Fin 2) (Fin 1) ℝ, lamXt * w = 0 → w = 0 := by
    intro w h
    ext i j
    have a := congrFun (congrFun h 0) 0
    have b := congrFun (congrFun h 2) 0
    simp [lamXt, Matrix.mul_apply, Fin.sum_univ_two] at a b
    fin_cases i <;> fin_cases j <;> simp [a, b]
  refine ⟨?_, ?_, hw _ i1, hw _ i1, hw _ i2⟩
  · show sq1 lamY ≠ 0
    rw [lam_sqy]
    norm_num
  · rw [lam_dM, Matrix.det_fin_two_of]
    simpa using h0

theorem lam_gap {lam : ℝ} (hl : lam < 4) :
    qform ((1 / (((4 : ℕ) : ℝ) - 1)) • (lamXsᵀ * lamXs) - (1 / (((4 : ℕ) : ℝ) - 1)) • (lamXtᵀ * lamXt))
      (dW lam 4 4 ⟨lamXs, lamXs, lamXt, lamY⟩) = -(2 / (1 + (1 - lam / 4) ^ 2)) := by
  have h0 : 1 - lam / 4 ≠ 0 := by
    intro h
    linarith
  rw [dW, qform_nrm, lam_dRaw hl, qform_diff, qform_gram, qform_gram]
  generalize 1 - lam / 4 = a at h0 ⊢
  have h1 : 1 + a ^ 2 ≠ 0 := by positivity
  simp [sq1, lamXs, lamXt, Matrix.mul_apply, Fin.sum_univ_four, Fin.sum_univ_two]
  field_simp
  ring

/-- **C132 (violation).** For these samples, every larger `lambda_` below 4 makes the variances of the first scores
*less* alike. -/
theorem C132_violation {lam lam' : ℝ} (hll : lam < lam') (hl : lam' < 4) :
    ∃ (m m' : DiplsModel ℝ) (Ts Ts' Tt Tt' : Matrix (Fin 4) (Fin 1) ℝ),
      diplsUnsupervised (exactCfg 1 lam) diplsFresh (of lamXs) (of lamXt) (of lamY) = .ok (.trained m) ∧
      diplsUnsupervised (exactCfg 1 lam') diplsFresh (of lamXs) (of lamXt) (of lamY) = .ok (.trained m') ∧
      Scores m Ts Tt ∧ Scores m' Ts' Tt' ∧
      |var0 one_pos Ts - var0 one_pos Tt| < |var0 one_pos Ts' - var0 one_pos Tt'| := by
  have r : ∀ {l : ℝ}, l < 4 → ∀ k < 1, DReg l 4 4 (dSt l 4 4 (unsupState lamXs lamXt lamY) k) := by
    intro l hl k hk
    obtain rfl : k = 0 := by omega
    exact lam_reg hl
  have hi : Initialised diplsFresh := ⟨rfl, rfl, rfl⟩
  have e := C59_unsupervised (exactCfg_inv 1 lam) diplsFresh hi (by omega) (by omega) 1 one_pos rfl lamXs lamXt lamY
    (r (hll.trans hl))
  have e' := C59_unsupervised (exactCfg_inv 1 lam') diplsFresh hi (by omega) (by omega) 1 one_pos rfl lamXs lamXt lamY
    (r hl)
  obtain ⟨Ts, Tt, a, b⟩ := scores_of one_pos (exactCfg 1 lam) .unsupervised (cenState lamXs) (cenState lamXs) (cenState lamXt)
    (mu fun i => lamY i 0) (unsupState lamXs lamXt lamY)
  obtain ⟨Ts', Tt', a', b'⟩ := scores_of one_pos (exactCfg 1 lam') .unsupervised (cenState lamXs) (cenState lamXs)
    (cenState lamXt) (mu fun i => lamY i 0) (unsupState lamXs lamXt lamY)
  refine ⟨_, _, Ts, Ts', Tt, Tt', e, e', a, a', ?_⟩
  have g : var0 one_pos Ts - var0 one_pos Tt = -(2 / (1 + (1 - lam / 4) ^ 2)) := by
    rw [b, lam_state]
    exact lam_gap (hll.trans hl)
  have g' : var0 one_pos Ts' - var0 one_pos Tt' = -(2 / (1 + (1 - lam' / 4) ^ 2)) := by
    rw [b', lam_state]
    exact lam_gap hl
  rw [g, g', abs_neg, abs_neg, abs_of_pos (by positivity), abs_of_pos (by positivity)]
  refine div_lt_div_of_pos_left two_pos (by positivity) ?_
  nlinarith

/-- The hypotheses of `C132_unsupervised_partial` are met by these samples for `lambda_` 1 and 2. -/
example : ∃ (m m' : DiplsModel ℝ) (Ts Ts' : Matrix (Fin 4) (Fin 1) ℝ) (Tt Tt' : Matrix (Fin 4) (Fin 1) ℝ),
    diplsUnsupervised (exactCfg 1 1) diplsFresh (of lamXs) (of lamXt) (of lamY) = .ok (.trained m) ∧
    diplsUnsupervised (exactCfg 1 2) diplsFresh (of lamXs) (of lamXt) (of lamY) = .ok (.trained m') ∧
    Scores m Ts Tt ∧ Scores m' Ts' Tt' ∧ var0 one_pos Ts' - var0 one_pos Tt' ≤ var0 one_pos Ts - var0 one_pos Tt := by
  refine C132_unsupervised_partial (exactCfg_inv 1 1) (exactCfg_inv 1 2) diplsFresh ⟨rfl, rfl, rfl⟩ (by omega) (by omega) one_pos
    rfl rfl (by norm_num [exactCfg]) (by norm_num [exactCfg]) lamXs lamXt lamY (fun k hk => ?_) (fun k hk => ?_) fun u hu => ?_
  · obtain rfl : k = 0 := by omega
    exact lam_reg (by norm_num [exactCfg])
  · obtain rfl : k = 0 := by omega
    exact lam_reg (by norm_num [exactCfg])
  · have hs := lam_state
    simp only [unsupState, DState.mk.injEq] at hs
    rw [hs.2.1, hs.2.2.1, hs.2.2.2, lam_sqy]
    have h1 : 0 < sq1 u := lt_of_le_of_ne (sq1_nonneg u) fun e => hu ((sq1_eq_zero u).1 e.symm)
    simp [sq1, lamXs, lamXt, Matrix.mul_apply, Fin.sum_univ_four, Fin.sum_univ_two, exactCfg] at h1 ⊢
    nlinarith [sq_nonneg (u 0 0), sq_nonneg (u 1 0)]

/-- Swapping the domains (the source now varies more) meets the hypotheses of `C132_alike_partial`. -/
example (u : Matrix (Fin 2) (Fin 1) ℝ) : sq1 (cen lamXs lamXs * u) / (((4 : ℕ) : ℝ) - 1) ≤ sq1 (cen lamXt lamXt * u) / (((4 : ℕ) : ℝ) - 1) := by
  have hs := lam_state
  simp only [unsupState, DState.mk.injEq] at hs
  rw [hs.2.1, hs.2.2.1]
  refine div_le_div_of_nonneg_right ?_ (by norm_num)
  simp [sq1, lamXs, lamXt, Matrix.mul_apply, Fin.sum_univ_four, Fin.sum_univ_two]
  nlinarith [sq_nonneg (u 0 0), sq_nonneg (u 1 0)]

end Verif.Props
