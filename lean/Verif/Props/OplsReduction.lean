import Verif.Props.KernelLinear
import Verif.Props.PlsPrepProps

/-!
# C102: OPLS with one orthogonal component and PLS1 as base is PLS1 with one more component
-/

namespace Verif.Props

open Verif Mat
open scoped Matrix

variable {n p K : Nat}

/-- PLS1 as base algorithm of OPLS (`_OPLS.py` 61: the default). -/
noncomputable def pls1AsBase (K : Int) : BasePls ℝ (Except PyErr (Pls1Model ℝ)) where
  init X y := (pls1Base K X y, (pls1Base K X y).map fun _ => none)
  predict m Z := do
    let m ← m
    pls1Predict K m Z

theorem pls1AsBase_predict (K : Int) (m : Pls1Model ℝ) (Z : Mat ℝ) :
    (pls1AsBase K).predict (.ok m) Z = pls1Predict K m Z := rfl

/-! ## Inner products of columns -/

/-- Inner product of two columns. -/
def dt {m : Nat} (a b : Matrix (Fin m) (Fin 1) ℝ) : ℝ := ∑ i, a i 0 * b i 0

theorem dt_comm {m : Nat} (a b : Matrix (Fin m) (Fin 1) ℝ) : dt a b = dt b a :=
  Finset.sum_congr rfl fun _ _ => mul_comm _ _

theorem dt_self {m : Nat} (a : Matrix (Fin m) (Fin 1) ℝ) : dt a a = sq1 a := rfl

theorem dt_sub_smul {m : Nat} (a b c : Matrix (Fin m) (Fin 1) ℝ) (e : ℝ) : dt (a - e • b) c = dt a c - e * dt b c := by
  rw [dt, dt, dt, Finset.mul_sum, ← Finset.sum_sub_distrib]
  refine Finset.sum_congr rfl fun i _ => ?_
  rw [Matrix.sub_apply, Matrix.smul_apply, smul_eq_mul]
  ring

theorem sq1_sub_smul {m : Nat} (a b : Matrix (Fin m) (Fin 1) ℝ) (e : ℝ) :
    sq1 (a - e • b) = sq1 a - 2 * e * dt b a + e * e * sq1 b := by
  rw [← dt_self, dt_sub_smul, dt_comm a, dt_comm b, dt_sub_smul, dt_sub_smul, dt_self, dt_self, dt_comm a b]
  ring

theorem gram_dt {m : Nat} (a b : Matrix (Fin m) (Fin 1) ℝ) : aᵀ * b = dt a b • (1 : Matrix (Fin 1) (Fin 1) ℝ) := by
  ext i j
  rw [Subsingleton.elim i 0, Subsingleton.elim j 0, Matrix.mul_apply]
  simp [dt]

theorem dt_mul {m l : Nat} (A : Matrix (Fin m) (Fin l) ℝ) (a : Matrix (Fin m) (Fin 1) ℝ) (b : Matrix (Fin l) (Fin 1) ℝ) :
    dt (Aᵀ * a) b = dt a (A * b) := by
  have h : (Aᵀ * a)ᵀ * b = aᵀ * (A * b) := by
    rw [Matrix.transpose_mul, Matrix.transpose_transpose, Matrix.mul_assoc]
  have := congrFun (congrFun h 0) 0
  rw [Matrix.mul_apply, Matrix.mul_apply] at this
  exact this

theorem alg_first {a d c D : ℝ} (e zw zu : ℝ) (ha : a ≠ 0) (hd : d ≠ 0) (hD : D ≠ 0) (hDe : D = a * d - c * c) :
    (e - c / d * 0) / (D / d) * (zw - c / d * zu) = e / a * zw + (0 - c / a * e) / (D / a) * (zu - c / a * zw) := by
  field_simp
  rw [hDe]
  ring

theorem alg_rest {a d c D : ℝ} (z zw zu g1 g2 : ℝ) (ha : a ≠ 0) (hd : d ≠ 0) (hD : D ≠ 0) (hDe : D = a * d - c * c) :
    z - zu * (g2 / d) - (zw - c / d * zu) * ((d * g1 - c * g2) / D) =
      z - zw * (g1 / a) - (zu - c / a * zw) * ((a * g2 - c * g1) / D) := by
  field_simp
  rw [hDe]
  ring

/-! ## The first two components -/

section two
variable {X : Matrix (Fin n) (Fin p) ℝ} {y : Matrix (Fin n) (Fin 1) ℝ}

/-- The predictors with the score of `u` removed. -/
noncomputable def cutX (X : Matrix (Fin n) (Fin p) ℝ) (u : Matrix (Fin p) (Fin 1) ℝ) {r : Nat}
    (Z : Matrix (Fin r) (Fin p) ℝ) : Matrix (Fin r) (Fin p) ℝ := Z - Z * u * (loading X (X * u))ᵀ

theorem cut_apply (u : Matrix (Fin p) (Fin 1) ℝ) {r : Nat} (Z : Matrix (Fin r) (Fin p) ℝ) (v : Matrix (Fin p) (Fin 1) ℝ)
    (q : Matrix (Fin n) (Fin 1) ℝ) (hv : loading X q = (sq1 q)⁻¹ • (Xᵀ * q)) :
    (Z - Z * u * (loading X q)ᵀ) * v = Z * v - (dt q (X * v) / sq1 q) • (Z * u) := by
  rw [Matrix.sub_mul, hv, Matrix.mul_assoc (Z * u), Matrix.transpose_smul, Matrix.smul_mul, gram_dt, dt_mul,
    Matrix.mul_smul, Matrix.mul_smul, Matrix.mul_one, smul_smul, div_eq_inv_mul]

theorem outer_apply {m l : Nat} (A : Matrix (Fin m) (Fin 1) ℝ) (B : Matrix (Fin l) (Fin 1) ℝ) (i : Fin m) (j : Fin l) :
    (A * Bᵀ) i j = A i 0 * B j 0 := by
  rw [Matrix.mul_apply, Fin.sum_univ_one, Matrix.transpose_apply]

theorem loading_self (q : Matrix (Fin n) (Fin 1) ℝ) (j : Fin p) :
    loading X q j 0 = (Xᵀ * q) j 0 / sq1 q := rfl

/-- The second weights are orthogonal to the first. -/
theorem second_weights (h0 : sq1 (plsT (pls1W y) X 0) ≠ 0) : dt (pls1W y X) (plsW (pls1W y) X 1) = 0 := by
  have hz : plsX (pls1W y) X 1 * pls1W y X = 0 := plsX_W (pls1W y) X 0 0 h0
  rw [dt_comm, plsW, pls1W_eq _ (plsX (pls1W y) X 1)]
  have : dt ((plsX (pls1W y) X 1)ᵀ * y) (pls1W y X) = 0 := by
    rw [dt_mul, hz]
    simp [dt]
  have e := dt_sub_smul 0 ((plsX (pls1W y) X 1)ᵀ * y) (pls1W y X) (-(Real.sqrt (sq1 ((plsX (pls1W y) X 1)ᵀ * y)))⁻¹)
  rw [this, mul_zero, sub_zero, zero_sub, neg_smul, neg_neg] at e
  rw [e]
  simp [dt]

/-- The score of the second weights on the undeflated predictors is orthogonal to the response. -/
theorem second_score (h0 : sq1 (plsT (pls1W y) X 0) ≠ 0) : dt (X * plsW (pls1W y) X 1) y = 0 := by
  obtain ⟨-, hc⟩ := cov_weights (M := X) (y := y) h0
  rw [dt_comm, ← dt_mul, hc]
  have e := dt_sub_smul 0 (pls1W y X) (plsW (pls1W y) X 1) (-Real.sqrt (sq1 (Xᵀ * y)))
  rw [second_weights h0, mul_zero, sub_zero, zero_sub, neg_smul, neg_neg] at e
  rw [e]
  simp [dt]

theorem second_T : plsT (pls1W y) X 1 = X * plsW (pls1W y) X 1 -
    (dt (X * pls1W y X) (X * plsW (pls1W y) X 1) / sq1 (X * pls1W y X)) • (X * pls1W y X) :=
  cut_apply (X := X) (pls1W y X) X (plsW (pls1W y) X 1) (X * pls1W y X) (loading_eq _ _)

end two

/-- Everything the two algorithms use about the first two directions `w`, `u`. -/
structure TwoDirs (X : Matrix (Fin n) (Fin p) ℝ) (y : Matrix (Fin n) (Fin 1) ℝ) (w u : Matrix (Fin p) (Fin 1) ℝ) : Prop where
  ha : sq1 (X * w) ≠ 0
  hd : sq1 (X * u) ≠ 0
  hD : sq1 (X * w) * sq1 (X * u) - dt (X * w) (X * u) * dt (X * w) (X * u) ≠ 0
  hy : dt (X * u) y = 0

theorem twoDirs {X : Matrix (Fin n) (Fin p) ℝ} {y : Matrix (Fin n) (Fin 1) ℝ} (h0 : sq1 (plsT (pls1W y) X 0) ≠ 0)
    (h1 : sq1 (plsT (pls1W y) X 1) ≠ 0) : TwoDirs X y (pls1W y X) (plsW (pls1W y) X 1) := by
  have ha : sq1 (X * pls1W y X) ≠ 0 := h0
  have e : sq1 (plsT (pls1W y) X 1) = (sq1 (X * pls1W y X) * sq1 (X * plsW (pls1W y) X 1) -
      dt (X * pls1W y X) (X * plsW (pls1W y) X 1) * dt (X * pls1W y X) (X * plsW (pls1W y) X 1)) / sq1 (X * pls1W y X) := by
    rw [second_T, sq1_sub_smul]
    field_simp
    ring
  have hD : sq1 (X * pls1W y X) * sq1 (X * plsW (pls1W y) X 1) -
      dt (X * pls1W y X) (X * plsW (pls1W y) X 1) * dt (X * pls1W y X) (X * plsW (pls1W y) X 1) ≠ 0 := by
    intro e0
    rw [e0, zero_div] at e
    exact h1 e
  refine ⟨ha, fun e0 => hD ?_, hD, second_score h0⟩
  have := (sq1_eq_zero _).1 e0
  rw [e0, this]
  simp [dt]

section cut
variable {X : Matrix (Fin n) (Fin p) ℝ} {y : Matrix (Fin n) (Fin 1) ℝ}

/-- The same weights before and after the cut. -/
theorem cut_cov {u : Matrix (Fin p) (Fin 1) ℝ} (hy : dt (X * u) y = 0) : (cutX X u X)ᵀ * y = Xᵀ * y := by
  rw [cutX, Matrix.transpose_sub, Matrix.sub_mul, Matrix.transpose_mul, Matrix.mul_assoc, gram_dt, hy, zero_smul,
    Matrix.mul_zero, sub_zero]

theorem cut_weights {u : Matrix (Fin p) (Fin 1) ℝ} (hy : dt (X * u) y = 0) : pls1W y (cutX X u X) = pls1W y X := by
  rw [pls1W_eq, cut_cov hy, ← pls1W_eq]

variable {w u : Matrix (Fin p) (Fin 1) ℝ}

theorem cut_mul {r : Nat} (Z : Matrix (Fin r) (Fin p) ℝ) (v : Matrix (Fin p) (Fin 1) ℝ) :
    cutX X u Z * v = Z * v - (dt (X * u) (X * v) / sq1 (X * u)) • (Z * u) :=
  cut_apply u Z v (X * u) (loading_eq _ _)

theorem cut_sq (h : TwoDirs X y w u) : sq1 (cutX X u X * w) =
    (sq1 (X * w) * sq1 (X * u) - dt (X * w) (X * u) * dt (X * w) (X * u)) / sq1 (X * u) := by
  have := h.hd
  rw [cut_mul, sq1_sub_smul, dt_comm (X * u)]
  field_simp
  ring

theorem cut_loading (h : TwoDirs X y w u) (j : Fin p) : loading (cutX X u X) (cutX X u X * w) j 0 =
    (sq1 (X * u) * (Xᵀ * (X * w)) j 0 - dt (X * w) (X * u) * (Xᵀ * (X * u)) j 0) /
      (sq1 (X * w) * sq1 (X * u) - dt (X * w) (X * u) * dt (X * w) (X * u)) := by
  have hd := h.hd
  have hD := h.hD
  have ho : dt (X * u) (cutX X u X * w) = 0 := by
    rw [cut_mul, dt_comm, dt_sub_smul, dt_self, dt_comm (X * w)]
    field_simp
    ring
  have hF : (cutX X u X)ᵀ * (cutX X u X * w) = Xᵀ * (cutX X u X * w) := by
    generalize cutX X u X * w = τ at ho
    rw [cutX, Matrix.transpose_sub, Matrix.sub_mul, Matrix.transpose_mul, Matrix.mul_assoc, gram_dt, ho, zero_smul,
      Matrix.mul_zero, sub_zero]
  rw [loading_self, hF, cut_sq h, cut_mul, Matrix.mul_sub, Matrix.mul_smul, Matrix.sub_apply, Matrix.smul_apply,
    smul_eq_mul, dt_comm (X * u)]
  field_simp

end cut

section pls
variable {X : Matrix (Fin n) (Fin p) ℝ} {y : Matrix (Fin n) (Fin 1) ℝ}

theorem second_loading (h0 : sq1 (plsT (pls1W y) X 0) ≠ 0) (h : TwoDirs X y (pls1W y X) (plsW (pls1W y) X 1)) (j : Fin p) :
    plsP (pls1W y) X 1 j 0 =
    (sq1 (X * pls1W y X) * (Xᵀ * (X * plsW (pls1W y) X 1)) j 0 -
        dt (X * pls1W y X) (X * plsW (pls1W y) X 1) * (Xᵀ * (X * pls1W y X)) j 0) /
      (sq1 (X * pls1W y X) * sq1 (X * plsW (pls1W y) X 1) -
        dt (X * pls1W y X) (X * plsW (pls1W y) X 1) * dt (X * pls1W y X) (X * plsW (pls1W y) X 1)) := by
  have ha := h.ha
  have hD := h.hD
  have hT := plsX_T (wf := pls1W y) (X := X) (k := 1) fun j hj => by
    obtain rfl : j = 0 := by omega
    exact h0
  have hs : sq1 (plsT (pls1W y) X 1) = (sq1 (X * pls1W y X) * sq1 (X * plsW (pls1W y) X 1) -
      dt (X * pls1W y X) (X * plsW (pls1W y) X 1) * dt (X * pls1W y X) (X * plsW (pls1W y) X 1)) / sq1 (X * pls1W y X) := by
    rw [second_T, sq1_sub_smul]
    field_simp
    ring
  rw [plsP, loading_self, hT, hs, second_T, Matrix.mul_sub, Matrix.mul_smul, Matrix.sub_apply,
    Matrix.smul_apply, smul_eq_mul]
  field_simp

/-- After one component on the cut data and two on the original data the same is left of any data. -/
theorem cut_Z {r : Nat} (Z : Matrix (Fin r) (Fin p) ℝ) (h0 : sq1 (plsT (pls1W y) X 0) ≠ 0)
    (h1 : sq1 (plsT (pls1W y) X 1) ≠ 0) :
    plsZ (pls1W y) (cutX X (plsW (pls1W y) X 1) X) (cutX X (plsW (pls1W y) X 1) Z) 1 = plsZ (pls1W y) X Z 2 := by
  have h := twoDirs h0 h1
  have ha := h.ha
  have hd := h.hd
  have hD := h.hD
  have hp1 := second_loading h0 h
  have hw : plsW (pls1W y) (cutX X (plsW (pls1W y) X 1) X) 0 = pls1W y X := cut_weights h.hy
  have hpF := cut_loading h
  have e1 : plsZ (pls1W y) X Z 1 = Z - Z * pls1W y X * (loading X (X * pls1W y X))ᵀ := rfl
  have e2 := cut_apply (X := X) (pls1W y X) Z (plsW (pls1W y) X 1) (X * pls1W y X) (loading_eq _ _)
  rw [← e1] at e2
  ext i j
  have l : plsZ (pls1W y) (cutX X (plsW (pls1W y) X 1) X) (cutX X (plsW (pls1W y) X 1) Z) 1 =
      cutX X (plsW (pls1W y) X 1) Z - cutX X (plsW (pls1W y) X 1) Z * pls1W y X *
        (loading (cutX X (plsW (pls1W y) X 1) X) (cutX X (plsW (pls1W y) X 1) X * pls1W y X))ᵀ := by
    rw [← hw]
    rfl
  have rr : plsZ (pls1W y) X Z 2 = plsZ (pls1W y) X Z 1 - plsZ (pls1W y) X Z 1 * plsW (pls1W y) X 1 *
      (plsP (pls1W y) X 1)ᵀ := rfl
  have e3 : ∀ (A : Matrix (Fin r) (Fin p) ℝ) (v : Matrix (Fin r) (Fin 1) ℝ) (q : Matrix (Fin p) (Fin 1) ℝ),
      (A - v * qᵀ) i j = A i j - v i 0 * q j 0 := fun A v q => by rw [Matrix.sub_apply, outer_apply]
  rw [l, rr, e3, e3, hpF, hp1, e2, cut_mul, e1, cutX, e3, e3, loading_self, loading_self, Matrix.sub_apply,
    Matrix.sub_apply, Matrix.smul_apply, Matrix.smul_apply, smul_eq_mul, smul_eq_mul,
    dt_comm (X * plsW (pls1W y) X 1) (X * pls1W y X)]
  exact alg_rest _ _ _ _ _ ha hd hD rfl

/-- The first prediction on the cut data is the sum of the first two on the original data. -/
theorem cut_first {r : Nat} (Z : Matrix (Fin r) (Fin p) ℝ) (h0 : sq1 (plsT (pls1W y) X 0) ≠ 0)
    (h1 : sq1 (plsT (pls1W y) X 1) ≠ 0) :
    plsB (pls1W y) (cutX X (plsW (pls1W y) X 1) X) y 0 •
      plsS (pls1W y) (cutX X (plsW (pls1W y) X 1) X) (cutX X (plsW (pls1W y) X 1) Z) 0 =
    plsB (pls1W y) X y 0 • plsS (pls1W y) X Z 0 + plsB (pls1W y) X y 1 • plsS (pls1W y) X Z 1 := by
  have h := twoDirs h0 h1
  have ha := h.ha
  have hd := h.hd
  have hD := h.hD
  have hw : plsW (pls1W y) (cutX X (plsW (pls1W y) X 1) X) 0 = pls1W y X := cut_weights h.hy
  have e2 := cut_apply (X := X) (pls1W y X) Z (plsW (pls1W y) X 1) (X * pls1W y X) (loading_eq _ _)
  have hs : sq1 (plsT (pls1W y) X 1) = (sq1 (X * pls1W y X) * sq1 (X * plsW (pls1W y) X 1) -
      dt (X * pls1W y X) (X * plsW (pls1W y) X 1) * dt (X * pls1W y X) (X * plsW (pls1W y) X 1)) / sq1 (X * pls1W y X) := by
    rw [second_T, sq1_sub_smul]
    field_simp
    ring
  have b0 : plsB (pls1W y) X y 0 = dt (X * pls1W y X) y / sq1 (X * pls1W y X) := rfl
  have b1 : plsB (pls1W y) X y 1 = dt (plsT (pls1W y) X 1) y / sq1 (plsT (pls1W y) X 1) := rfl
  have bF : plsB (pls1W y) (cutX X (plsW (pls1W y) X 1) X) y 0 =
      dt (cutX X (plsW (pls1W y) X 1) X * pls1W y X) y / sq1 (cutX X (plsW (pls1W y) X 1) X * pls1W y X) := by
    rw [← hw]
    rfl
  have s0 : plsS (pls1W y) X Z 0 = Z * pls1W y X := rfl
  have s1 : plsS (pls1W y) X Z 1 = (Z - Z * pls1W y X * (loading X (X * pls1W y X))ᵀ) * plsW (pls1W y) X 1 := rfl
  have sF : plsS (pls1W y) (cutX X (plsW (pls1W y) X 1) X) (cutX X (plsW (pls1W y) X 1) Z) 0 =
      cutX X (plsW (pls1W y) X 1) Z * pls1W y X := by
    rw [← hw]
    rfl
  rw [bF, cut_sq h, cut_mul, dt_sub_smul, h.hy, b0, b1, hs, second_T, dt_sub_smul, h.hy, s0, s1, sF, e2, cut_mul,
    dt_comm (X * plsW (pls1W y) X 1) (X * pls1W y X)]
  ext i j
  simp only [Matrix.add_apply, Matrix.smul_apply, Matrix.sub_apply, smul_eq_mul]
  exact alg_first _ _ _ ha hd hD rfl

theorem cut_rest (h0 : sq1 (plsT (pls1W y) X 0) ≠ 0) (h1 : sq1 (plsT (pls1W y) X 1) ≠ 0) (k : Nat) :
    plsX (pls1W y) (cutX X (plsW (pls1W y) X 1) X) (k + 1) = plsX (pls1W y) X (k + 2) := by
  induction k with
  | zero =>
    have := cut_Z X h0 h1
    rwa [plsZ_train, plsZ_train] at this
  | succ k ih => rw [plsX, ih, plsX.eq_2 _ _ (k + 2)]

theorem cut_W (h0 : sq1 (plsT (pls1W y) X 0) ≠ 0) (h1 : sq1 (plsT (pls1W y) X 1) ≠ 0) (k : Nat) :
    plsW (pls1W y) (cutX X (plsW (pls1W y) X 1) X) (k + 1) = plsW (pls1W y) X (k + 2) :=
  congrArg (pls1W y) (cut_rest h0 h1 k)

theorem cut_T (h0 : sq1 (plsT (pls1W y) X 0) ≠ 0) (h1 : sq1 (plsT (pls1W y) X 1) ≠ 0) (k : Nat) :
    plsT (pls1W y) (cutX X (plsW (pls1W y) X 1) X) (k + 1) = plsT (pls1W y) X (k + 2) :=
  congrArg (fun M => M * pls1W y M) (cut_rest h0 h1 k)

theorem cut_P (h0 : sq1 (plsT (pls1W y) X 0) ≠ 0) (h1 : sq1 (plsT (pls1W y) X 1) ≠ 0) (k : Nat) :
    plsP (pls1W y) (cutX X (plsW (pls1W y) X 1) X) (k + 1) = plsP (pls1W y) X (k + 2) :=
  congrArg (fun M => loading M (M * pls1W y M)) (cut_rest h0 h1 k)

theorem cut_rest_Z {r : Nat} (Z : Matrix (Fin r) (Fin p) ℝ) (h0 : sq1 (plsT (pls1W y) X 0) ≠ 0)
    (h1 : sq1 (plsT (pls1W y) X 1) ≠ 0) (k : Nat) :
    plsZ (pls1W y) (cutX X (plsW (pls1W y) X 1) X) (cutX X (plsW (pls1W y) X 1) Z) (k + 1) =
      plsZ (pls1W y) X Z (k + 2) := by
  induction k with
  | zero => exact cut_Z Z h0 h1
  | succ k ih =>
    rw [plsZ, ih, cut_P h0 h1, cut_W h0 h1]
    rfl

theorem sum_scores (wf : Matrix (Fin n) (Fin p) ℝ → Matrix (Fin p) (Fin 1) ℝ) {r : Nat} (Z : Matrix (Fin r) (Fin p) ℝ)
    (K : Nat) : plsSM wf K X Z * plsBM wf K X y = ∑ j ∈ Finset.range K, plsB wf X y j • plsS wf X Z j := by
  ext i j
  rw [Subsingleton.elim j 0, Matrix.mul_apply, Matrix.sum_apply, Finset.sum_range]
  refine Finset.sum_congr rfl fun k _ => ?_
  rw [Matrix.smul_apply, smul_eq_mul, mul_comm]
  rfl

theorem cut_predict {r : Nat} (Z : Matrix (Fin r) (Fin p) ℝ) (h0 : sq1 (plsT (pls1W y) X 0) ≠ 0)
    (h1 : sq1 (plsT (pls1W y) X 1) ≠ 0) (K : Nat) :
    plsSM (pls1W y) (K + 1) (cutX X (plsW (pls1W y) X 1) X) (cutX X (plsW (pls1W y) X 1) Z) *
        plsBM (pls1W y) (K + 1) (cutX X (plsW (pls1W y) X 1) X) y =
      plsSM (pls1W y) (K + 2) X Z * plsBM (pls1W y) (K + 2) X y := by
  rw [sum_scores, sum_scores, Finset.sum_range_succ', Finset.sum_range_succ', Finset.sum_range_succ', cut_first Z h0 h1,
    add_assoc, add_comm (plsB (pls1W y) X y 0 • _)]
  congr 1
  refine Finset.sum_congr rfl fun k _ => ?_
  rw [plsB, plsS, cut_T h0 h1, cut_W h0 h1, cut_rest_Z Z h0 h1]
  rfl

end pls

/-! ## OPLS -/

section opls
variable {X : Matrix (Fin n) (Fin p) ℝ} {y : Matrix (Fin n) (Fin 1) ℝ}

/-- The orthogonal weights are the second weights of PLS1 with the opposite sign. -/
theorem oW_second (h0 : sq1 (plsT (pls1W y) X 0) ≠ 0) : oW (opW X y) X = -plsW (pls1W y) X 1 := by
  obtain ⟨ha, hc⟩ := cov_weights (M := X) (y := y) h0
  have hXy : Xᵀ * y ≠ 0 := by
    intro e
    rw [e, (sq1_eq_zero _).2 rfl, Real.sqrt_zero] at ha
    exact lt_irrefl _ ha
  obtain ⟨e, hw, -, -⟩ := opW_eq X y hXy
  rw [e] at hw ⊢
  have hS : oS (pls1W y X) X = X * pls1W y X := by rw [oS, hw, div_one, one_smul]
  have hL : oL (pls1W y X) X = loading X (X * pls1W y X) := by rw [oL, hS, loading_eq, one_div]
  have hL1 : (pls1W y X)ᵀ * loading X (X * pls1W y X) = 1 := by
    rw [loading_eq, Matrix.mul_smul, gram_dt, dt_comm, dt_mul, dt_self, smul_smul]
    refine (congrArg (· • _) (inv_mul_cancel₀ h0)).trans (one_smul _ _)
  have hV : oV (pls1W y X) X = loading X (X * pls1W y X) - pls1W y X := by
    rw [oV, hL, hw, div_one, one_smul, hL1, Matrix.one_apply_eq, one_smul]
  have hX : (plsX (pls1W y) X 1)ᵀ * y = Real.sqrt (sq1 (Xᵀ * y)) • -(oV (pls1W y X) X) := by
    have hty : (X * pls1W y X)ᵀ * y = Real.sqrt (sq1 (Xᵀ * y)) • (1 : Matrix (Fin 1) (Fin 1) ℝ) := by
      rw [Matrix.transpose_mul, Matrix.mul_assoc]
      conv_lhs => rw [hc]
      rw [Matrix.mul_smul, col_gram, hw, one_smul]
    rw [plsX, plsX, deflate, Matrix.transpose_sub, Matrix.sub_mul, Matrix.transpose_mul, Matrix.transpose_transpose,
      Matrix.mul_assoc, hty, Matrix.mul_smul, Matrix.mul_one, hV, neg_sub, smul_sub, ← hc]
  have hn : ∀ v : Matrix (Fin p) (Fin 1) ℝ, nrm (-v) = -nrm v := by
    intro v
    have : sq1 (-v) = sq1 v := by simp [sq1]
    rw [nrm, this, smul_neg, nrm]
  rw [plsW, pls1W_eq _ (plsX (pls1W y) X 1), ← nrm, hX, nrm_smul ha, hn, neg_neg, oW]

/-- With one component the filter removes the score of the second weights. -/
theorem filter_cut (h0 : sq1 (plsT (pls1W y) X 0) ≠ 0) (h1 : sq1 (plsW (pls1W y) X 1) = 1) {r : Nat}
    (Z : Matrix (Fin r) (Fin p) ℝ) :
    Z - Z * oWM (opW X y) X 1 * (oPM (opW X y) X 1)ᵀ = cutX X (plsW (pls1W y) X 1) Z := by
  have hW : oWM (opW X y) X 1 = -plsW (pls1W y) X 1 := by
    rw [← oW_second h0]
    ext i j
    rw [Subsingleton.elim j 0]
    rfl
  have hs : sq1 (-plsW (pls1W y) X 1) = 1 := by rw [← h1]; simp [sq1]
  have hT : oT (opW X y) X = -(X * plsW (pls1W y) X 1) := by
    rw [oT, oW_second h0, hs, div_one, one_smul, Matrix.mul_neg]
  have hq : sq1 (-(X * plsW (pls1W y) X 1)) = sq1 (X * plsW (pls1W y) X 1) := by simp [sq1]
  have hP : oPM (opW X y) X 1 = -loading X (X * plsW (pls1W y) X 1) := by
    have : oPM (opW X y) X 1 = oP (opW X y) X := by
      ext i j
      rw [Subsingleton.elim j 0]
      rfl
    rw [this, oP, hT, hq, loading_eq, one_div, Matrix.mul_neg, smul_neg]
  rw [hW, hP, cutX, Matrix.mul_neg, Matrix.transpose_neg, Matrix.neg_mul, Matrix.mul_neg, neg_neg]

/-- **C102.** OPLS that removes one orthogonal component, with PLS1 with `K` components as base, predicts for all data
exactly what PLS1 with `K + 1` components predicts.  Missing for C102: more orthogonal components, where it is false
(`C102_two_orthogonal_violation`). -/
theorem C102_one_orthogonal_partial (hn : 0 < n) (hp : 0 < p) (hK : 0 < K) (h : Regular (pls1W y) (K + 1) X) :
    ∃ (m : OplsModel ℝ (Except PyErr (Pls1Model ℝ))) (q : Pls1Model ℝ) (T : Mat ℝ) (R : Matrix (Fin p) (Fin 1) ℝ),
      oplsTrain (pls1AsBase K) 1 (of X) (of y) = .ok (m, none) ∧
      pls1Train pls1Weights ((K + 1 : Nat) : Int) (of X) (of y) = .ok (q, T) ∧
      ∀ {r : Nat}, 0 < r → ∀ Z : Matrix (Fin r) (Fin p) ℝ,
        oplsPredict (pls1AsBase K) m (of Z) = .ok (of (Z * R)) ∧
        pls1Predict ((K + 1 : Nat) : Int) q (of Z) = .ok (of (Z * R)) := by
  obtain ⟨K, rfl⟩ : ∃ K', K = K' + 1 := ⟨K - 1, by omega⟩
  have hs := h.sq1_ne
  have h0 := hs 0 (by omega)
  have h1 := hs 1 (by omega)
  have hu : sq1 (plsW (pls1W y) X 1) = 1 := by
    rw [plsW, pls1W_eq, ← nrm]
    refine sq1_nrm _ fun e => h1 ?_
    rw [plsT, plsW, pls1W_eq, e, smul_zero, Matrix.mul_zero]
    exact (sq1_eq_zero _).2 rfl
  have hF : ∀ k < K + 1, sq1 (plsT (pls1W y) (cutX X (plsW (pls1W y) X 1) X) k) ≠ 0 := by
    intro k hk
    have ht := twoDirs h0 h1
    cases k with
    | zero =>
      have : plsT (pls1W y) (cutX X (plsW (pls1W y) X 1) X) 0 = cutX X (plsW (pls1W y) X 1) X * pls1W y X := by
        rw [← cut_weights ht.hy]
        rfl
      rw [this, cut_sq ht]
      exact div_ne_zero ht.hD ht.hd
    | succ k =>
      rw [cut_T h0 h1]
      exact hs (k + 2) (by omega)
  obtain ⟨rh, hb⟩ : ∃ rh, pls1Base ((K + 1 : Nat) : Int) (of (X - X * oWM (opW X y) X 1 * (oPM (opW X y) X 1)ᵀ)) (of y) =
      .ok ⟨rh, of (plsPM (pls1W y) (K + 1) (cutX X (plsW (pls1W y) X 1) X)),
        of (plsWM (pls1W y) (K + 1) (cutX X (plsW (pls1W y) X 1) X)),
        of (plsBM (pls1W y) (K + 1) (cutX X (plsW (pls1W y) X 1) X) y)⟩ := by
    rw [filter_cut h0 hu, pls1Base, pls1Train_eq (pls1W y) pls1Weights (K + 1) hn hp (by omega) _ y
      (fun k _ => pls1Weights_eq y _) hF, except_bind_ok]
    exact ⟨_, rfl⟩
  refine ⟨⟨of (oWM (opW X y) X 1), of (oPM (opW X y) X 1), of (oTM (opW X y) X 1), of (oX (opW X y) X 1),
      .ok ⟨rh, of (plsPM (pls1W y) (K + 1) (cutX X (plsW (pls1W y) X 1) X)),
        of (plsWM (pls1W y) (K + 1) (cutX X (plsW (pls1W y) X 1) X)),
        of (plsBM (pls1W y) (K + 1) (cutX X (plsW (pls1W y) X 1) X) y)⟩⟩, _, _,
    plsWM (pls1W y) (K + 2) X * ((plsPM (pls1W y) (K + 2) X)ᵀ * plsWM (pls1W y) (K + 2) X)⁻¹ *
    plsBM (pls1W y) (K + 2) X y, (oplsTrain_eq X y (pls1AsBase ((K + 1 : Nat) : Int)) 1 hn hp).trans ?_,
    pls1Train_eq (pls1W y) pls1Weights (K + 2) hn hp (by omega) X y (fun k _ => pls1Weights_eq y _) hs, fun hr Z => ?_⟩
  · rw [pls1AsBase]
    simp only [hb]
    rfl
  · have hR : Z * (plsWM (pls1W y) (K + 2) X * ((plsPM (pls1W y) (K + 2) X)ᵀ * plsWM (pls1W y) (K + 2) X)⁻¹ *
        plsBM (pls1W y) (K + 2) X y) = plsSM (pls1W y) (K + 2) X Z * plsBM (pls1W y) (K + 2) X y := by
      rw [plsSM_eq (pls1W y) (K + 2) X Z hs]
      simp only [Matrix.mul_assoc]
    rw [hR]
    refine ⟨?_, pls1Predict_eq (pls1W y) hr _ _ _ _ _⟩
    unfold oplsPredict oplsTransform
    rw [oplsFilter_eq, except_bind_ok, filter_cut h0 hu]
    refine (pls1Predict_eq (pls1W y) hr (K + 1) _ _ _ _).trans ?_
    rw [cut_predict Z h0 h1]

/-- The data of `C101`'s example meet the hypotheses with two components. -/
example : Regular (pls1W dxY) (1 + 1) dxA := kl_regular

end opls

/-! ### Two orthogonal components -/

/-- What the base algorithm of the example is trained on. -/
noncomputable def orF : Matrix (Fin 3) (Fin 3) ℝ := !![1 / 2, 0, -(1 / 2); -(1 / 6), 0, -(1 / 2); 1 / 3, 0, 0]

theorem or_W : oWM (opW osX osY) osX 2 = !![0, 0; 1, 0; 0, -1] := by
  obtain ⟨-, b1, -, -, e1⟩ := os_first
  obtain ⟨-, b2, -, -, -⟩ := os_second
  ext i j
  fin_cases j
  · show oW (opW osX osY) osX i 0 = _
    rw [osW, b1]
    fin_cases i <;> rfl
  · show oW (opW osX osY) (oX (opW osX osY) osX 1) i 0 = _
    rw [osW, e1, b2]
    fin_cases i <;> rfl

theorem or_P : oPM (opW osX osY) osX 2 = !![1 / 2, 1 / 3; 1, 0; 1 / 2, -1] := by
  obtain ⟨-, -, -, d1, e1⟩ := os_first
  obtain ⟨-, -, -, d2, -⟩ := os_second
  ext i j
  fin_cases j
  · show oP (opW osX osY) osX i 0 = _
    rw [osW, d1]
    fin_cases i <;> rfl
  · show oP (opW osX osY) (oX (opW osX osY) osX 1) i 0 = _
    rw [osW, e1, d2]
    fin_cases i <;> rfl

theorem or_filter : osX - osX * oWM (opW osX osY) osX 2 * (oPM (opW osX osY) osX 2)ᵀ = orF := by
  rw [or_W, or_P]
  ext i j
  simp only [Matrix.sub_apply, Matrix.mul_apply, Matrix.transpose_apply, Fin.sum_univ_three, Fin.sum_univ_two]
  fin_cases i <;> fin_cases j <;> (simp [osX, orF]; try norm_num)

theorem or_weights {A : Matrix (Fin 3) (Fin 3) ℝ} {v : Matrix (Fin 3) (Fin 1) ℝ} (h : Aᵀ * osY = v) (hv : sq1 v = 1) :
    pls1W osY A = v := by
  rw [pls1W_eq, h]
  exact nrm_unit v hv

theorem or_w : pls1W osY orF = !![1; 0; 0] := by
  refine or_weights ?_ (by simp [sq1, Fin.sum_univ_three])
  ext i j
  fin_cases i <;> fin_cases j <;> (simp [osY, orF, Matrix.mul_apply, Fin.sum_univ_three]; try norm_num)

theorem or_t : plsT (pls1W osY) orF 0 = !![1 / 2; -(1 / 6); 1 / 3] := by
  show orF * pls1W osY orF = _
  rw [or_w]
  ext i j
  fin_cases i <;> fin_cases j <;> simp [orF, Matrix.mul_apply, Fin.sum_univ_three]

theorem or_sq : sq1 (plsT (pls1W osY) orF 0) = 7 / 18 := by
  rw [or_t]
  simp [sq1, Fin.sum_univ_three]
  norm_num

theorem or_b : plsB (pls1W osY) orF osY 0 = 18 / 7 := by
  rw [plsB, or_sq, or_t]
  simp [osY, Fin.sum_univ_three]
  norm_num

def orX1 : Matrix (Fin 3) (Fin 3) ℝ := !![0, 0, 0; 0, 1, 1; 0, 0, 1]
def orX2 : Matrix (Fin 3) (Fin 3) ℝ := !![0, 0, 0; 0, 0, 0; 0, 0, 1]

/-- One component of PLS1 when weights and scores have length one. -/
theorem or_step {A A' : Matrix (Fin 3) (Fin 3) ℝ} {k : Nat} {w t : Matrix (Fin 3) (Fin 1) ℝ}
    (hA : plsX (pls1W osY) osX k = A) (hw : Aᵀ * osY = w) (h1 : sq1 w = 1) (ht : A * w = t) (h2 : sq1 t = 1)
    (hX : A - t * (Aᵀ * t)ᵀ = A') : plsX (pls1W osY) osX (k + 1) = A' ∧ plsT (pls1W osY) osX k = t := by
  have e : pls1W osY A = w := or_weights hw h1
  refine ⟨?_, ?_⟩
  · rw [plsX, hA, e, ht, deflate, loading_eq, h2, inv_one, one_smul, hX]
  · rw [plsT, plsW, hA, e, ht]

theorem or_pls : plsT (pls1W osY) osX 0 = !![1; 0; 0] ∧ plsT (pls1W osY) osX 1 = !![0; -1; 0] ∧
    plsT (pls1W osY) osX 2 = !![0; 0; 1] := by
  obtain ⟨x1, t0⟩ := or_step (k := 0) (A := osX) (A' := orX1) (w := !![1; 0; 0]) (t := !![1; 0; 0]) rfl osXy
    (by simp [sq1, Fin.sum_univ_three])
    (by ext i j; fin_cases i <;> fin_cases j <;> simp [osX, Matrix.mul_apply, Fin.sum_univ_three])
    (by simp [sq1, Fin.sum_univ_three])
    (by
      ext i j
      simp only [Matrix.sub_apply, Matrix.mul_apply, Matrix.transpose_apply, Fin.sum_univ_three, Fin.sum_univ_one]
      fin_cases i <;> fin_cases j <;> simp [osX, orX1])
  obtain ⟨x2, t1⟩ := or_step (k := 1) (A' := orX2) (w := !![0; -1; 0]) (t := !![0; -1; 0]) x1
    (by ext i j; fin_cases i <;> fin_cases j <;> simp [orX1, osY, Matrix.mul_apply, Fin.sum_univ_three])
    (by simp [sq1, Fin.sum_univ_three])
    (by ext i j; fin_cases i <;> fin_cases j <;> simp [orX1, Matrix.mul_apply, Fin.sum_univ_three])
    (by simp [sq1, Fin.sum_univ_three])
    (by
      ext i j
      simp only [Matrix.sub_apply, Matrix.mul_apply, Matrix.transpose_apply, Fin.sum_univ_three, Fin.sum_univ_one]
      fin_cases i <;> fin_cases j <;> simp [orX1, orX2])
  obtain ⟨-, t2⟩ := or_step (k := 2) (A' := 0) (w := !![0; 0; 1]) (t := !![0; 0; 1]) x2
    (by ext i j; fin_cases i <;> fin_cases j <;> simp [orX2, osY, Matrix.mul_apply, Fin.sum_univ_three])
    (by simp [sq1, Fin.sum_univ_three])
    (by
      ext i j
      simp only [Matrix.mul_apply, Fin.sum_univ_three]
      fin_cases i <;> fin_cases j <;> simp [orX2])
    (by simp [sq1, Fin.sum_univ_three])
    (by
      ext i j
      simp only [Matrix.sub_apply, Matrix.mul_apply, Matrix.transpose_apply, Fin.sum_univ_three, Fin.sum_univ_one]
      fin_cases i <;> fin_cases j <;> simp [orX2])
  exact ⟨t0, t1, t2⟩

/-- **C102, violated.** With two orthogonal components and one predictive component OPLS does not predict what PLS1 with
three components predicts.  On the example PLS1 reproduces the response `1, -1, 1`; OPLS predicts `9/7, -3/7, 6/7`. -/
theorem C102_two_orthogonal_violation :
    ∃ (m : OplsModel ℝ (Except PyErr (Pls1Model ℝ))) (q : Pls1Model ℝ) (T : Mat ℝ),
      oplsTrain (pls1AsBase 1) 2 (of osX) (of osY) = .ok (m, none) ∧
      pls1Train pls1Weights 3 (of osX) (of osY) = .ok (q, T) ∧
      pls1Predict 3 q (of osX) = .ok (of osY) ∧
      oplsPredict (pls1AsBase 1) m (of osX) =
        .ok (of (!![9 / 7; -(3 / 7); 6 / 7] : Matrix (Fin 3) (Fin 1) ℝ)) := by
  obtain ⟨t0, t1, t2⟩ := or_pls
  have hs : ∀ k < 3, sq1 (plsT (pls1W osY) osX k) = 1 := by
    intro k hk
    interval_cases k
    · rw [t0]; simp [sq1, Fin.sum_univ_three]
    · rw [t1]; simp [sq1, Fin.sum_univ_three]
    · rw [t2]; simp [sq1, Fin.sum_univ_three]
  have hF : ∀ k < 1, sq1 (plsT (pls1W osY) orF k) ≠ 0 := by
    intro k hk
    obtain rfl : k = 0 := by omega
    rw [or_sq]
    norm_num
  obtain ⟨rh, hb⟩ : ∃ rh, pls1Base 1 (of (osX - osX * oWM (opW osX osY) osX 2 * (oPM (opW osX osY) osX 2)ᵀ)) (of osY) =
      .ok ⟨rh, of (plsPM (pls1W osY) 1 orF), of (plsWM (pls1W osY) 1 orF), of (plsBM (pls1W osY) 1 orF osY)⟩ := by
    have ht := pls1Train_eq (pls1W osY) pls1Weights 1 (by decide) (by decide) (by decide) orF osY
      (fun k _ => pls1Weights_eq osY _) hF
    rw [or_filter, pls1Base]
    refine ⟨_, (congrArg (fun r => r >>= fun r => Except.ok r.1) ht).trans rfl⟩
  refine ⟨⟨of (oWM (opW osX osY) osX 2), of (oPM (opW osX osY) osX 2), of (oTM (opW osX osY) osX 2),
      of (oX (opW osX osY) osX 2), .ok ⟨rh, of (plsPM (pls1W osY) 1 orF), of (plsWM (pls1W osY) 1 orF),
        of (plsBM (pls1W osY) 1 orF osY)⟩⟩, _, _,
    (oplsTrain_eq osX osY (pls1AsBase 1) 2 (by decide) (by decide)).trans ?_,
    pls1Train_eq (pls1W osY) pls1Weights 3 (by decide) (by decide) (by decide) osX osY
      (fun k _ => pls1Weights_eq osY _) (fun k hk => by rw [hs k hk]; exact one_ne_zero),
    (pls1Predict_eq (pls1W osY) (by decide) 3 _ _ _ _).trans ?_, ?_⟩
  · rw [pls1AsBase]
    simp only [hb]
    rfl
  · congr 2
    rw [sum_scores, Finset.sum_range_succ, Finset.sum_range_succ, Finset.sum_range_one]
    have hS : ∀ k, plsS (pls1W osY) osX osX k = plsT (pls1W osY) osX k := fun k => by rw [plsS, plsZ_train]; rfl
    have hB : ∀ k < 3, plsB (pls1W osY) osX osY k = ∑ l, plsT (pls1W osY) osX k l 0 * osY l 0 := fun k hk => by
      rw [plsB, hs k hk, div_one]
    rw [hS, hS, hS, hB 0 (by decide), hB 1 (by decide), hB 2 (by decide), t0, t1, t2]
    ext i j
    fin_cases i <;> fin_cases j <;> simp [osY, Fin.sum_univ_three]
  · unfold oplsPredict oplsTransform
    rw [oplsFilter_eq, except_bind_ok, or_filter]
    refine (pls1AsBase_predict 1 _ _).trans ?_
    have hP := pls1Predict_eq (pls1W osY) (by decide : 0 < 3) 1 orF rh (plsBM (pls1W osY) 1 orF osY) orF
    rw [Nat.cast_one] at hP
    rw [hP, sum_scores, Finset.sum_range_one, or_b, plsS, plsZ_train]
    rw [show plsX (pls1W osY) orF 0 * plsW (pls1W osY) orF 0 = plsT (pls1W osY) orF 0 from rfl, or_t]
    congr 2
    ext i j
    fin_cases i <;> fin_cases j <;> (simp; try norm_num)

end Verif.Props
