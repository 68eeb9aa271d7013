import Verif.Props.PrmSymmetry

/-!
# C81: what PRM computes for wide predictors

With more columns than rows PRM replaces the predictors by a square matrix obtained from an SVD (`_PRM.py` 216-226, 266-269).  The
replacement would make no difference if it were `V·S`; it is `Vh·S`, and the effect is exactly that of mixing the samples with `Vh²`
while the responses stay where they are.
-/

namespace Verif.Props
open Verif Verif.Mat
open scoped Matrix

/-- PRM without the replacement: `_PRM.py` 228-264 on the predictors as given. -/
noncomputable def prmDirect (cfg : PrmCfg ℝ) (X y : Mat ℝ) : Except PyErr (PrmModel ℝ) := do
  let Wr ← residualWeights cfg X.rows y none
  let Wx ← leverageWeights cfg X
  let s ← prmLoop cfg X y Wr Wx
  let B ← prmCoefs none s.1.base
  .ok ⟨s.1, s.2, B⟩

section direct
variable {n p q K : Nat} {eig : Mat ℝ → Mat ℝ × Mat ℝ} {count : Int} {cfg : PrmCfg ℝ}

/-- Two runs with the same passes and weights. -/
structure SameRun (n : Nat) (m m' : PrmModel ℝ) : Prop where
  iterations : m'.iterations = m.iterations
  weights : ∃ wr wx : Matrix (Fin n) (Fin 1) ℝ, m.state.Wr = of wr ∧ m.state.Wx = of wx ∧ m'.state.Wr = of wr ∧ m'.state.Wx = of wx

/-- The predictors in other coordinates, possibly in a space of higher dimension. -/
theorem loop_embed (he : EigOne eig) (hp : 0 < p) (heps : 0 < cfg.eps) (hn : 2 ≤ n) (hK0 : 0 < K) (hK : cfg.K = (K : Int))
    (hcount : count ≤ 0) (hbase : cfg.base = simplsBase eig (K : Int) count) {V : Matrix (Fin p) (Fin q) ℝ} (hV : V * Vᵀ = 1)
    (X : Matrix (Fin n) (Fin p) ℝ) (y : Matrix (Fin n) (Fin 1) ℝ) :
    ∃ (wr wx : Matrix (Fin n) (Fin 1) ℝ) (s t : PrmState ℝ) (it : Int) (vr vx : Matrix (Fin n) (Fin 1) ℝ) (B : Matrix (Fin p) (Fin 1) ℝ),
      residualWeights cfg n (of y) none = .ok (of wr) ∧ leverageWeights cfg (of X) = .ok (of wx) ∧
      leverageWeights cfg (of (X * V)) = .ok (of wx) ∧ prmLoop cfg (of X) (of y) (of wr) (of wx) = .ok (s, it) ∧
      prmLoop cfg (of (X * V)) (of y) (of wr) (of wx) = .ok (t, it) ∧ s.Wr = of vr ∧ s.Wx = of vx ∧ t.Wr = of vr ∧ t.Wx = of vx ∧
      prmCoefs none s.base = .ok (of B) ∧ prmCoefs none t.base = .ok (of (Vᵀ * B)) ∧
      ∀ {k : Nat} (U : Matrix (Fin k) (Fin p) ℝ), prmCoefs (some (of U)) s.base = .ok (of (U * B)) := by
  obtain ⟨wr, wx, a1, -, a3, a4⟩ := prmStart (c := 1) (cfg := cfg) heps hn hV one_ne_zero (Or.inl rfl) X y
  have hz : Factory.zeros (α := ℝ) (K : Int) 1 = .ok (of (0 : Matrix (Fin K) (Fin 1) ℝ)) := Factory.zeros_nat hK0 1
  obtain ⟨s, t, p1, p2, p3⟩ := prmPass_sym (K := K) he hp heps hn hcount hbase hV one_ne_zero (Or.inl rfl) X y wr wx
    none none (of (0 : Matrix (Fin K) (Fin 1) ℝ)) (of (0 : Matrix (Fin K) (Fin 1) ℝ)) none none
  obtain ⟨s', t', it, q1, q2, q3⟩ := prmMore_rot he hp heps hn hcount hbase hV X y _ 1 rfl 0 s t p3
  have hl : prmLoop cfg (of X) (of y) (of wr) (of wx) = .ok (s', it) := by
    unfold prmLoop
    rw [hK, hz, except_bind_ok, p1, except_bind_ok, q1]
  have hl' : prmLoop cfg (of (X * V)) (of ((1 : ℝ) • y)) (of wr) (of wx) = .ok (t', it) := by
    unfold prmLoop
    rw [hK, hz, except_bind_ok, p2, except_bind_ok, q2]
  rw [one_smul] at hl'
  obtain ⟨vr, vx, W, g, D, T, Q, T', Q', S, S', -, hD, rfl, rfl⟩ := q3
  refine ⟨wr, wx, _, _, it, vr, vx, W * g, a1, a3, a4, hl, hl', rfl, rfl, rfl, rfl, rfl, ?_, fun U => mul_of _ _⟩
  show Except.ok (of ((1 : ℝ) • (Vᵀ * (W * g)))) = _
  rw [one_smul]

/-- Without the replacement, coordinates do not matter: on `X·V` the run is the same and the coefficients are `Vᵀ·B`. -/
theorem direct_embed (he : EigOne eig) (hp : 0 < p) (heps : 0 < cfg.eps) (hn : 2 ≤ n) (hK0 : 0 < K) (hK : cfg.K = (K : Int))
    (hcount : count ≤ 0) (hbase : cfg.base = simplsBase eig (K : Int) count) {V : Matrix (Fin p) (Fin q) ℝ} (hV : V * Vᵀ = 1)
    (X : Matrix (Fin n) (Fin p) ℝ) (y : Matrix (Fin n) (Fin 1) ℝ) :
    ∃ (m m' : PrmModel ℝ) (B : Matrix (Fin p) (Fin 1) ℝ), prmDirect cfg (of X) (of y) = .ok m ∧
      prmDirect cfg (of (X * V)) (of y) = .ok m' ∧ SameRun n m m' ∧ m.B = of B ∧ m'.B = of (Vᵀ * B) := by
  obtain ⟨wr, wx, s, t, it, vr, vx, B, h1, h2, h3, h4, h5, e1, e2, e3, e4, b1, b2, -⟩ :=
    loop_embed he hp heps hn hK0 hK hcount hbase hV X y
  refine ⟨⟨s, it, of B⟩, ⟨t, it, of (Vᵀ * B)⟩, B, ?_, ?_, ⟨rfl, vr, vx, e1, e2, e3, e4⟩, rfl, rfl⟩
  · show (residualWeights cfg n (of y) none >>= _) = _
    rw [h1, except_bind_ok, h2, except_bind_ok, h4, except_bind_ok]
    dsimp only
    rw [b1, except_bind_ok]
  · show (residualWeights cfg n (of y) none >>= _) = _
    rw [h1, except_bind_ok, h3, except_bind_ok, h5, except_bind_ok]
    dsimp only
    rw [b2, except_bind_ok]

/-- With at least as many samples as predictors nothing is replaced. -/
theorem C81_low (hpn : p ≤ n) (X : Matrix (Fin n) (Fin p) ℝ) (y : Mat ℝ) : prmTrain cfg (of X) y = prmDirect cfg (of X) y := by
  unfold prmTrain prmReplace
  rw [if_neg (show ¬ n < p by omega), except_bind_ok]
  rfl

/-- **C81 (partial: the samples are mixed).**  For wide predictors, whatever valid SVD is returned, PRM computes exactly what it would compute
without the replacement on `Vh·Vh·X`: the same passes, weights and coefficients (no slimming).  That is the model of `X` if `Vh·Vh = 1`. -/
theorem C81_mixed_partial (he : EigOne eig) (heps : 0 < cfg.eps) (hn : 2 ≤ n) (hnp : n < p) (hK0 : 0 < K) (hK : cfg.K = (K : Int))
    (hcount : count ≤ 0) (hbase : cfg.base = simplsBase eig (K : Int) count) (X : Matrix (Fin n) (Fin p) ℝ) (y : Matrix (Fin n) (Fin 1) ℝ)
    (u : Matrix (Fin p) (Fin n) ℝ) (s : Fin n → ℝ) (vh : Matrix (Fin n) (Fin n) ℝ) (h : IsTallSVD Xᵀ u s vh)
    (hs : cfg.svd (of Xᵀ) = .ok (of u, ofFn (fun (_ : Fin 1) j => s j), of vh)) :
    ∃ (m m' : PrmModel ℝ) (B : Matrix (Fin p) (Fin 1) ℝ), prmTrain cfg (of X) (of y) = .ok m ∧
      prmDirect cfg (of (vh * vh * X)) (of y) = .ok m' ∧ SameRun n m m' ∧ m.B = of B ∧ m'.B = of B := by
  have hX : X = vhᵀ * Matrix.diagonal s * uᵀ := by
    have := congrArg Matrix.transpose h.eq
    rw [Matrix.transpose_transpose, Matrix.transpose_mul, Matrix.transpose_mul, Matrix.diagonal_transpose] at this
    rw [this, Matrix.mul_assoc]
  have hV : (-u)ᵀ * (-u)ᵀᵀ = 1 := by
    rw [Matrix.transpose_transpose, Matrix.transpose_neg, Matrix.neg_mul, Matrix.mul_neg, neg_neg, h.left]
  have hZ : -(vh * Matrix.diagonal s) * (-u)ᵀ = vh * vh * X := by
    rw [Matrix.transpose_neg, Matrix.neg_mul, Matrix.mul_neg, neg_neg]
    conv_rhs => rw [hX]
    calc vh * Matrix.diagonal s * uᵀ = vh * (vh * vhᵀ) * Matrix.diagonal s * uᵀ := by rw [h.right, Matrix.mul_one]
      _ = _ := by simp only [Matrix.mul_assoc]
  obtain ⟨wr, wx, st, t, it, vr, vx, B, h1, h2, h3, h4, h5, e1, e2, e3, e4, b1, b2, b3⟩ :=
    loop_embed he (by omega) heps hn hK0 hK hcount hbase hV (-(vh * Matrix.diagonal s)) y
  rw [hZ] at h3 h5
  refine ⟨⟨st, it, of (-u * B)⟩, ⟨t, it, of ((-u)ᵀᵀ * B)⟩, -u * B, ?_, ?_, ⟨rfl, vr, vx, e1, e2, e3, e4⟩, rfl, ?_⟩
  · unfold prmTrain
    rw [replace_of cfg (by omega) hnp X u s vh hs, except_bind_ok]
    show (residualWeights cfg n (of y) none >>= _) = _
    rw [h1, except_bind_ok]
    dsimp only
    rw [h2, except_bind_ok, h4, except_bind_ok]
    dsimp only
    rw [b3, except_bind_ok]
  · show (residualWeights cfg n (of y) none >>= _) = _
    rw [h1, except_bind_ok, h3, except_bind_ok, h5, except_bind_ok]
    dsimp only
    rw [b2, except_bind_ok]
  · rw [Matrix.transpose_transpose]

/-- In particular the result for `X` is right when `Vh·Vh = 1`. -/
theorem C81_symmetric_partial (he : EigOne eig) (heps : 0 < cfg.eps) (hn : 2 ≤ n) (hnp : n < p) (hK0 : 0 < K) (hK : cfg.K = (K : Int))
    (hcount : count ≤ 0) (hbase : cfg.base = simplsBase eig (K : Int) count) (X : Matrix (Fin n) (Fin p) ℝ) (y : Matrix (Fin n) (Fin 1) ℝ)
    (u : Matrix (Fin p) (Fin n) ℝ) (s : Fin n → ℝ) (vh : Matrix (Fin n) (Fin n) ℝ) (h : IsTallSVD Xᵀ u s vh)
    (hs : cfg.svd (of Xᵀ) = .ok (of u, ofFn (fun (_ : Fin 1) j => s j), of vh)) (hv : vh * vh = 1) :
    ∃ (m m' : PrmModel ℝ) (B : Matrix (Fin p) (Fin 1) ℝ), prmTrain cfg (of X) (of y) = .ok m ∧ prmDirect cfg (of X) (of y) = .ok m' ∧
      SameRun n m m' ∧ m.B = of B ∧ m'.B = of B := by
  have := C81_mixed_partial he heps hn hnp hK0 hK hcount hbase X y u s vh h hs
  rwa [hv, Matrix.one_mul] at this

/-- SIMPLS with one component has coefficients along `Xᵀ·y`. -/
theorem base_along (he : EigOne eig) (hcount : count ≤ 0) (hp : 0 < p) (X : Matrix (Fin n) (Fin p) ℝ) (y : Matrix (Fin n) (Fin 1) ℝ)
    (hA : Xᵀ * y ≠ 0) (hM : 0 < ((Xᵀ * y)ᵀ * (Xᵀ * X) * (Xᵀ * y)) 0 0) :
    ∃ (W : Matrix (Fin p) (Fin 1) ℝ) (Q : Matrix (Fin 1) (Fin 1) ℝ),
      simplsBase eig ((1 : Nat) : Int) count (of X) (of y) = .ok ⟨of (X * W), of Q, of (W * Qᵀ), of W⟩ ∧
      ∃ c : ℝ, c ≠ 0 ∧ W * Qᵀ = c • (Xᵀ * y) := by
  obtain ⟨qf, hqf, hq⟩ := domOf_one he
  have hq0 := hq ((sim qf X y 0).Aᵀ * (sim qf X y 0).A)
  have hu : (sim qf X y 0).u qf = qf ((sim qf X y 0).Aᵀ * (sim qf X y 0).A) 0 0 • (Xᵀ * y) := by
    unfold Sim.u
    rw [mul_one_one]
    rfl
  generalize qf ((sim qf X y 0).Aᵀ * (sim qf X y 0).A) 0 0 = c at hu hq0
  have hn : (((sim qf X y 0).u qf)ᵀ * (sim qf X y 0).M * (sim qf X y 0).u qf) 0 0 =
      c ^ 2 * ((Xᵀ * y)ᵀ * (Xᵀ * X) * (Xᵀ * y)) 0 0 := by
    rw [hu, show (sim qf X y 0).M = Xᵀ * X from rfl, Matrix.transpose_smul, Matrix.smul_mul, Matrix.smul_mul, Matrix.mul_smul, smul_smul,
      Matrix.smul_apply, smul_eq_mul, pow_two]
  obtain ⟨k, hk, hw⟩ : ∃ k : ℝ, k ≠ 0 ∧ simW qf X y 0 = k • (Xᵀ * y) := by
    refine ⟨1 / Real.sqrt (c ^ 2 * ((Xᵀ * y)ᵀ * (Xᵀ * X) * (Xᵀ * y)) 0 0) * c, ?_, ?_⟩
    · exact mul_ne_zero (one_div_ne_zero (Real.sqrt_pos.2 (by positivity)).ne') hq0
    · show (1 / Real.sqrt _) • (sim qf X y 0).u qf = _
      rw [hn, hu, smul_smul]
  refine ⟨simWM qf X y 1, simQM qf X y 1, ?_, ?_⟩
  · unfold simplsBase simplsTransform
    rw [simplsTrain_eq qf X y (domOf eig) 1 hp count hqf, if_neg (by omega), except_bind_ok, mul_of, except_bind_ok]
  · have hW : simWM qf X y 1 = k • (Xᵀ * y) := by
      ext i j
      rw [Subsingleton.elim j 0]
      exact congrFun (congrFun hw i) 0
    have hQ : simQM qf X y 1 = k • ((Xᵀ * y)ᵀ * (Xᵀ * y)) := by
      ext i j
      rw [Subsingleton.elim i 0, Subsingleton.elim j 0]
      show ((Xᵀ * y)ᵀ * simW qf X y 0) 0 0 = _
      rw [hw, Matrix.mul_smul]
    obtain ⟨i, hi⟩ : ∃ i, (Xᵀ * y) i 0 ≠ 0 := by
      by_contra hc
      push Not at hc
      refine hA ?_
      ext i j
      rw [Subsingleton.elim j 0]
      exact hc i
    have hpos : 0 < ((Xᵀ * y)ᵀ * (Xᵀ * y)) 0 0 := by
      rw [Matrix.mul_apply]
      refine Finset.sum_pos' (fun j _ => ?_) ⟨i, Finset.mem_univ _, ?_⟩
      · rw [Matrix.transpose_apply]
        exact mul_self_nonneg _
      · rw [Matrix.transpose_apply]
        exact mul_self_pos.2 hi
    refine ⟨k * (k * ((Xᵀ * y)ᵀ * (Xᵀ * y)) 0 0), mul_ne_zero hk (mul_ne_zero hk hpos.ne'), ?_⟩
    ext a b
    rw [Subsingleton.elim b 0, hW, hQ, Matrix.mul_apply, Fin.sum_univ_one, Matrix.transpose_apply, Matrix.smul_apply, Matrix.smul_apply,
      Matrix.smul_apply, smul_eq_mul, smul_eq_mul, smul_eq_mul]
    ring

end direct

/-! ## An example: the order of the columns turns the predictions round -/

section violation
variable {eig : Mat ℝ → Mat ℝ × Mat ℝ} {count : Int} {cfg : PrmCfg ℝ}

/-- Two samples of three predictors. -/
def wideX : Matrix (Fin 2) (Fin 3) ℝ := !![1, 0, 0; 0, 1, 0]
/-- The last two columns exchanged. -/
def wideQ : Matrix (Fin 3) (Fin 3) ℝ := !![1, 0, 0; 0, 0, 1; 0, 1, 0]
def wideY : Matrix (Fin 2) (Fin 1) ℝ := !![0; 1]
def wideU : Matrix (Fin 3) (Fin 2) ℝ := !![1, 0; 0, 1; 0, 0]
def wideU' : Matrix (Fin 3) (Fin 2) ℝ := !![0, -1; 0, 0; 1, 0]
/-- A quarter turn. -/
def wideR : Matrix (Fin 2) (Fin 2) ℝ := !![0, 1; -1, 0]

theorem wide_svd : IsTallSVD wideXᵀ wideU (fun _ => 1) 1 := by
  refine ⟨?_, ?_, ?_, fun _ => zero_le_one, fun _ _ _ => le_rfl⟩
  · ext i j
    fin_cases i <;> fin_cases j <;> simp [wideX, wideU]
  · ext i j
    fin_cases i <;> fin_cases j <;> simp [wideU, Matrix.mul_apply, Fin.sum_univ_three]
  · simp

theorem wide_svd' : IsTallSVD (wideX * wideQ)ᵀ wideU' (fun _ => 1) wideR := by
  refine ⟨?_, ?_, ?_, fun _ => zero_le_one, fun _ _ _ => le_rfl⟩
  · ext i j
    fin_cases i <;> fin_cases j <;> simp [wideX, wideU', wideQ, wideR, Matrix.mul_apply, Fin.sum_univ_two]
  · ext i j
    fin_cases i <;> fin_cases j <;> simp [wideU', Matrix.mul_apply, Fin.sum_univ_three]
  · ext i j
    fin_cases i <;> fin_cases j <;> simp [wideR, Matrix.mul_apply, Fin.sum_univ_two]

theorem wide_turn : wideR * wideR * (wideX * wideQ) = wideX * -wideQ := by
  have h : wideR * wideR = -1 := by
    ext i j
    fin_cases i <;> fin_cases j <;> simp [wideR, Matrix.mul_apply, Fin.sum_univ_two]
  rw [h, Matrix.neg_mul, Matrix.one_mul, Matrix.mul_neg]

theorem wide_perm : -wideQ * (-wideQ)ᵀ = 1 := by
  ext i j
  fin_cases i <;> fin_cases j <;> simp [wideQ, Matrix.mul_apply, Fin.sum_univ_three]

theorem fair_pos (z c : ℝ) : 0 < fair z c := by
  have ha : ∀ x : ℝ, 0 ≤ pyAbs x := fun x => by
    unfold pyAbs
    split
    · linarith
    · linarith
  unfold fair
  have := ha (z / c)
  positivity

/-- The coefficients after one pass on the example. -/
theorem wide_fit (he : EigOne eig) (hcount : count ≤ 0) (heps : 0 < cfg.eps) (hmax : cfg.maxIter ≤ 1) (hK : cfg.K = 1)
    (hbase : cfg.base = simplsBase eig 1 count) {m : PrmModel ℝ} {B : Matrix (Fin 3) (Fin 1) ℝ}
    (h : prmDirect cfg (of wideX) (of wideY) = .ok m) (hB : m.B = of B) : (wideX * B) 1 0 ≠ 0 := by
  have hwr := residualWeights_of (n := 2) cfg two_pos (of wideY) none _ (residuals_first cfg two_pos wideY)
  obtain ⟨c, -, -, hwx⟩ := leverage_ok cfg heps (le_refl 2) wideX
  obtain ⟨wr, hr0, hwr⟩ : ∃ wr : Matrix (Fin 2) (Fin 1) ℝ, (∀ i, 0 < wr i 0) ∧ residualWeights cfg 2 (of wideY) none = .ok (of wr) :=
    ⟨_, fun i => fair_pos _ _, hwr⟩
  obtain ⟨wx, hx0, hwx⟩ : ∃ wx : Matrix (Fin 2) (Fin 1) ℝ, (∀ i, 0 < wx i 0) ∧ leverageWeights cfg (of wideX) = .ok (of wx) :=
    ⟨_, fun i => fair_pos _ _, hwx⟩
  have hw : 0 < wr 1 0 * wx 1 0 := mul_pos (hr0 1) (hx0 1)
  have hs := Real.mul_self_sqrt hw.le
  have hs0 := Real.sqrt_pos.2 hw
  have hA : (weightRows wr wx wideX)ᵀ * weightRows wr wx wideY = !![0; wr 1 0 * wx 1 0; 0] := by
    ext i j
    fin_cases i <;> fin_cases j <;> simp [weightRows, wideX, wideY, Matrix.mul_apply, Fin.sum_univ_two, hs]
  have hXA : weightRows wr wx wideX * ((weightRows wr wx wideX)ᵀ * weightRows wr wx wideY) =
      !![0; Real.sqrt (wr 1 0 * wx 1 0) * (wr 1 0 * wx 1 0)] := by
    rw [hA]
    ext i j
    fin_cases i <;> fin_cases j <;> simp [weightRows, wideX, Matrix.mul_apply, Fin.sum_univ_three]
  have hM : 0 < (((weightRows wr wx wideX)ᵀ * weightRows wr wx wideY)ᵀ * ((weightRows wr wx wideX)ᵀ * weightRows wr wx wideX) *
      ((weightRows wr wx wideX)ᵀ * weightRows wr wx wideY)) 0 0 := by
    have e : ((weightRows wr wx wideX)ᵀ * weightRows wr wx wideY)ᵀ * ((weightRows wr wx wideX)ᵀ * weightRows wr wx wideX) *
        ((weightRows wr wx wideX)ᵀ * weightRows wr wx wideY) =
        (weightRows wr wx wideX * ((weightRows wr wx wideX)ᵀ * weightRows wr wx wideY))ᵀ *
          (weightRows wr wx wideX * ((weightRows wr wx wideX)ᵀ * weightRows wr wx wideY)) := by
      rw [Matrix.transpose_mul (weightRows wr wx wideX)]
      simp only [Matrix.mul_assoc]
    rw [e, hXA, Matrix.mul_apply, Fin.sum_univ_two]
    show 0 < 0 * 0 + Real.sqrt (wr 1 0 * wx 1 0) * (wr 1 0 * wx 1 0) * (Real.sqrt (wr 1 0 * wx 1 0) * (wr 1 0 * wx 1 0))
    positivity
  have hA0 : (weightRows wr wx wideX)ᵀ * weightRows wr wx wideY ≠ 0 := fun h0 => by
    rw [h0, Matrix.mul_zero] at hM
    exact lt_irrefl _ hM
  obtain ⟨W, Q, hb, k, hk, hWQ⟩ := base_along he hcount (by decide) _ _ hA0 hM
  rw [show simplsBase eig ((1 : Nat) : Int) count = cfg.base from hbase.symm] at hb
  have hz : Factory.zeros (α := ℝ) 1 1 = .ok (of (0 : Matrix (Fin 1) (Fin 1) ℝ)) := Factory.zeros_nat one_pos 1
  obtain ⟨c', -, -, hp⟩ := prmPass_ok cfg heps (le_refl 2) wideX wideY wr wx none (of (0 : Matrix (Fin 1) (Fin 1) ℝ)) none _ _ _ _ hb
  have h' : (residualWeights cfg 2 (of wideY) none >>= _) = _ := h
  rw [hwr, except_bind_ok, hwx, except_bind_ok] at h'
  unfold prmLoop at h'
  rw [hK, hz, except_bind_ok, hp, except_bind_ok, prmMore, sub_of, except_bind_ok, dif_neg (by omega), except_bind_ok] at h'
  have h2 : (.ok ⟨_, _, of (W * Qᵀ)⟩ : Except PyErr (PrmModel ℝ)) = .ok m := h'
  injection h2 with h2
  rw [← h2] at hB
  have hB : of (W * Qᵀ) = of B := hB
  rw [of_inj] at hB
  rw [← hB, hWQ, hA, Matrix.mul_smul, Matrix.smul_apply, smul_eq_mul]
  refine mul_ne_zero hk ?_
  have e : (wideX * (!![0; wr 1 0 * wx 1 0; 0] : Matrix (Fin 3) (Fin 1) ℝ)) 1 0 = wr 1 0 * wx 1 0 := by
    simp [wideX, Matrix.mul_apply, Fin.sum_univ_three]
  rw [e]
  exact hw.ne'

/-- C81 is violated in the predictions: with valid decompositions on both sides, exchanging two columns in the training data and in the new data
turns the predictions of PRM round. -/
theorem C81_order_violation (he : EigOne eig) (hcount : count ≤ 0) (heps : 0 < cfg.eps) (hmax : cfg.maxIter ≤ 1) (hK : cfg.K = 1)
    (hbase : cfg.base = simplsBase eig 1 count)
    (hs : cfg.svd (of wideXᵀ) = .ok (of wideU, ofFn (fun (_ : Fin 1) (_ : Fin 2) => 1), of (1 : Matrix (Fin 2) (Fin 2) ℝ)))
    (hs' : cfg.svd (of (wideX * wideQ)ᵀ) = .ok (of wideU', ofFn (fun (_ : Fin 1) (_ : Fin 2) => 1), of wideR)) :
    IsTallSVD wideXᵀ wideU (fun _ => 1) 1 ∧ IsTallSVD (wideX * wideQ)ᵀ wideU' (fun _ => 1) wideR ∧
    ∃ (m m' : PrmModel ℝ) (F : Matrix (Fin 2) (Fin 1) ℝ), prmTrain cfg (of wideX) (of wideY) = .ok m ∧
      prmTrain cfg (of (wideX * wideQ)) (of wideY) = .ok m' ∧ prmPredict m (of wideX) = .ok (of F) ∧
      prmPredict m' (of (wideX * wideQ)) = .ok (of (-F)) ∧ F ≠ 0 := by
  refine ⟨wide_svd, wide_svd', ?_⟩
  obtain ⟨m, d, B, h1, h2, -, hB, hB'⟩ := C81_mixed_partial (K := 1) he heps (le_refl 2) (by decide) one_pos hK hcount hbase wideX wideY _ _ _ wide_svd hs
  obtain ⟨m', d', B', h1', h2', -, hC, hC'⟩ := C81_mixed_partial (K := 1) he heps (le_refl 2) (by decide) one_pos hK hcount hbase (wideX * wideQ) wideY
    _ _ _ wide_svd' hs'
  obtain ⟨a, a', A, g1, g2, -, gA, gA'⟩ := direct_embed (K := 1) he (by decide) heps (le_refl 2) one_pos hK hcount hbase wide_perm wideX wideY
  rw [Matrix.one_mul, Matrix.one_mul, g1, ok_inj] at h2
  rw [wide_turn, g2, ok_inj] at h2'
  subst h2 h2'
  rw [gA, of_inj] at hB'
  rw [gA', of_inj] at hC'
  subst hB' hC'
  refine ⟨m, m', wideX * A, h1, h1', ?_, ?_, fun h => wide_fit he hcount heps hmax hK hbase g1 gA (by rw [h]; rfl)⟩
  · unfold prmPredict
    rw [hB, mul_of]
  · unfold prmPredict
    rw [hC, mul_of]
    congr 2
    have e := wide_perm
    rw [Matrix.neg_mul, Matrix.transpose_neg, Matrix.mul_neg, neg_neg] at e
    rw [Matrix.transpose_neg, Matrix.neg_mul, Matrix.mul_neg, ← Matrix.mul_assoc, Matrix.mul_assoc wideX, e, Matrix.mul_one]

end violation

/-- A configuration meeting the hypotheses of the violation and, for `wideX`, of `C81_mixed_partial`. -/
example : ∃ cfg : PrmCfg ℝ, 0 < cfg.eps ∧ cfg.maxIter ≤ 1 ∧ cfg.K = 1 ∧ cfg.base = simplsBase eigOne 1 0 ∧
    cfg.svd (of wideXᵀ) = .ok (of wideU, ofFn (fun (_ : Fin 1) (_ : Fin 2) => 1), of (1 : Matrix (Fin 2) (Fin 2) ℝ)) ∧
    cfg.svd (of (wideX * wideQ)ᵀ) = .ok (of wideU', ofFn (fun (_ : Fin 1) (_ : Fin 2) => 1), of wideR) := by
  classical
  refine ⟨{ medCfg with
    maxIter := 1, K := 1, base := simplsBase eigOne 1 0,
    svd := fun A => if A = of wideXᵀ then .ok (of wideU, ofFn (fun (_ : Fin 1) (_ : Fin 2) => 1), of (1 : Matrix (Fin 2) (Fin 2) ℝ))
      else .ok (of wideU', ofFn (fun (_ : Fin 1) (_ : Fin 2) => 1), of wideR) }, by norm_num [medCfg, prmDemo], le_rfl, rfl, rfl, if_pos rfl, if_neg ?_⟩
  rw [of_inj]
  intro h
  have h1 := congrFun (congrFun h 1) 1
  simp [wideX, wideQ] at h1

end Verif.Props
