import Verif.Props.PlsPrepProps
import Verif.Props.SimplsProps
import Verif.Props.KernelPlsProps
import Verif.Props.KernelLinear

/-!
# C131: rotating the predictor space

`PLS1`, `SIMPLS` and `KernelPLS` (with each of the three kernels) do not depend on the coordinates in which samples are
written down: if training and new samples are rotated or mirrored, scores and predictions stay the same.  For `PLS1`
and `SIMPLS` the rotation may lead into a larger space, so columns of zeros may be added.  `KernelPLS`
centres the data, so samples may be moved as well.
-/

namespace Verif.Props

open Verif Mat Factory Transf
open scoped Matrix

variable {n p p' : Nat}

/-! ## PLS1 -/

section
variable {Q : Matrix (Fin p) (Fin p') ℝ} (hQ : Q * Qᵀ = 1) (y : Matrix (Fin n) (Fin 1) ℝ)
include hQ

theorem sq1_rot (v : Matrix (Fin p) (Fin 1) ℝ) : sq1 (Qᵀ * v) = sq1 v := by
  rw [← sq1_eq, ← sq1_eq, Matrix.transpose_mul, Matrix.transpose_transpose, Matrix.mul_assoc, ← Matrix.mul_assoc Q,
    hQ, Matrix.one_mul]

theorem pls1W_rot (A : Matrix (Fin n) (Fin p) ℝ) : pls1W y (A * Q) = Qᵀ * pls1W y A := by
  have h : (A * Q)ᵀ * y = Qᵀ * (Aᵀ * y) := by rw [Matrix.transpose_mul, Matrix.mul_assoc]
  ext i j
  have hw : pls1W y A = (Real.sqrt (sq1 (Aᵀ * y)))⁻¹ • (Aᵀ * y) := by
    ext i j
    simp only [pls1W, Matrix.of_apply, Matrix.smul_apply, smul_eq_mul]
    rw [div_eq_inv_mul]
  rw [hw, Matrix.mul_smul, Matrix.smul_apply, smul_eq_mul]
  simp only [pls1W, Matrix.of_apply]
  rw [h, sq1_rot hQ, div_eq_inv_mul]

omit hQ in
theorem loading_rot (A : Matrix (Fin n) (Fin p) ℝ) (t : Matrix (Fin n) (Fin 1) ℝ) :
    loading (A * Q) t = Qᵀ * loading A t := by
  rw [loading_eq, loading_eq, Matrix.transpose_mul, Matrix.mul_assoc, Matrix.mul_smul]

omit hQ in
theorem deflate_rot (A : Matrix (Fin n) (Fin p) ℝ) (t : Matrix (Fin n) (Fin 1) ℝ) :
    deflate (A * Q) t = deflate A t * Q := by
  rw [deflate, deflate, loading_rot, Matrix.transpose_mul, Matrix.transpose_transpose, Matrix.sub_mul, Matrix.mul_assoc]

theorem plsX_rot (X : Matrix (Fin n) (Fin p) ℝ) (k : Nat) :
    plsX (pls1W y) (X * Q) k = plsX (pls1W y) X k * Q := by
  induction k with
  | zero => rfl
  | succ k ih =>
    show deflate _ (_ * pls1W y _) = deflate _ (_ * pls1W y _) * Q
    rw [ih, pls1W_rot hQ, ← deflate_rot, Matrix.mul_assoc, ← Matrix.mul_assoc Q, hQ, Matrix.one_mul]

theorem plsW_rot (X : Matrix (Fin n) (Fin p) ℝ) (k : Nat) : plsW (pls1W y) (X * Q) k = Qᵀ * plsW (pls1W y) X k := by
  rw [plsW, plsX_rot hQ, pls1W_rot hQ]
  rfl

theorem plsT_rot (X : Matrix (Fin n) (Fin p) ℝ) (k : Nat) : plsT (pls1W y) (X * Q) k = plsT (pls1W y) X k := by
  rw [plsT, plsX_rot hQ, plsW_rot hQ, Matrix.mul_assoc, ← Matrix.mul_assoc Q, hQ, Matrix.one_mul]
  rfl

theorem plsP_rot (X : Matrix (Fin n) (Fin p) ℝ) (k : Nat) : plsP (pls1W y) (X * Q) k = Qᵀ * plsP (pls1W y) X k := by
  rw [plsP, plsX_rot hQ, plsT_rot hQ, loading_rot]
  rfl

theorem plsZ_rot {r : Nat} (X : Matrix (Fin n) (Fin p) ℝ) (Z : Matrix (Fin r) (Fin p) ℝ) (k : Nat) :
    plsZ (pls1W y) (X * Q) (Z * Q) k = plsZ (pls1W y) X Z k * Q := by
  induction k with
  | zero => rfl
  | succ k ih =>
    rw [plsZ, ih, plsW_rot hQ, plsP_rot hQ, plsZ, Matrix.mul_assoc (plsZ (pls1W y) X Z k), ← Matrix.mul_assoc Q, hQ,
      Matrix.one_mul, Matrix.transpose_mul, Matrix.transpose_transpose, Matrix.sub_mul]
    simp only [Matrix.mul_assoc]

theorem plsSM_rot {r : Nat} (K : Nat) (X : Matrix (Fin n) (Fin p) ℝ) (Z : Matrix (Fin r) (Fin p) ℝ) :
    plsSM (pls1W y) K (X * Q) (Z * Q) = plsSM (pls1W y) K X Z := by
  ext i j
  simp only [plsSM, plsS, Matrix.of_apply]
  rw [plsZ_rot hQ, plsW_rot hQ, Matrix.mul_assoc, ← Matrix.mul_assoc Q, hQ, Matrix.one_mul]

theorem Regular.rot {K : Nat} {X : Matrix (Fin n) (Fin p) ℝ} (h : Regular (pls1W y) K X) :
    Regular (pls1W y) K (X * Q) :=
  Regular.of_sq1 fun k hk => by
    rw [plsT_rot hQ]
    exact h.sq1_ne k hk

end

/-- **C131.** `PLS1` trained on rotated predictors gives rotated samples the scores and predictions it gave the original
samples before. -/
theorem C131_pls1 (hn : 0 < n) (hp : 0 < p) (hp' : 0 < p') {K : Nat} (hK : 0 < K) (Q : Matrix (Fin p) (Fin p') ℝ)
    (hQ : Q * Qᵀ = 1) (X : Matrix (Fin n) (Fin p) ℝ) (y : Matrix (Fin n) (Fin 1) ℝ) (h : Regular (pls1W y) K X) :
    ∃ (m m' : Pls1Model ℝ) (T : Mat ℝ), pls1Train pls1Weights K (of X) (of y) = .ok (m, T) ∧
      pls1Train pls1Weights K (of (X * Q)) (of y) = .ok (m', T) ∧
      ∀ {r : Nat}, 0 < r → ∀ Z : Matrix (Fin r) (Fin p) ℝ, ∃ (S : Matrix (Fin r) (Fin K) ℝ) (F : Matrix (Fin r) (Fin 1) ℝ),
        pls1Transform K m (of Z) = .ok (of S) ∧ pls1Transform K m' (of (Z * Q)) = .ok (of S) ∧
        pls1Predict K m (of Z) = .ok (of F) ∧ pls1Predict K m' (of (Z * Q)) = .ok (of F) := by
  have hT : plsTM (pls1W y) K (X * Q) = plsTM (pls1W y) K X := by
    ext i j
    simp only [plsTM, Matrix.of_apply, plsT_rot hQ]
  have hB : plsBM (pls1W y) K (X * Q) y = plsBM (pls1W y) K X y := by
    ext i j
    simp only [plsBM, Matrix.of_apply, plsB, plsT_rot hQ]
  have e := pls1Train_eq (pls1W y) pls1Weights K hn hp' hK (X * Q) y (fun k _ => pls1Weights_eq y _) (h.rot hQ).sq1_ne
  rw [hT] at e
  refine ⟨_, _, _, pls1Train_eq (pls1W y) pls1Weights K hn hp hK X y (fun k _ => pls1Weights_eq y _) h.sq1_ne, e,
    fun {r} hr Z => ⟨_, _, pls1Transform_eq (pls1W y) hr K X _ _ Z, ?_, pls1Predict_eq (pls1W y) hr K X _ _ Z, ?_⟩⟩
  · rw [pls1Transform_eq (pls1W y) hr, plsSM_rot hQ]
  · rw [pls1Predict_eq (pls1W y) hr, plsSM_rot hQ, hB]

/-- **C131.** The same for `SIMPLS` without slimming. -/
theorem C131_simpls {eig : Mat ℝ → Mat ℝ × Mat ℝ} (he : EigOne eig) (hn : 0 < n) (hp : 0 < p) (hp' : 0 < p') {K : Nat}
    (hK : 0 < K) {count : Int} (hcount : count ≤ 0) (Q : Matrix (Fin p) (Fin p') ℝ) (hQ : Q * Qᵀ = 1)
    (X : Matrix (Fin n) (Fin p) ℝ) (y : Matrix (Fin n) (Fin 1) ℝ) (h : Regular (pls1W y) K X) :
    ∃ m m' : SimplsModel ℝ, simplsTrain (domOf eig) K count (of X) (of y) = .ok m ∧
      simplsTrain (domOf eig) K count (of (X * Q)) (of y) = .ok m' ∧
      ∀ (r : Nat), 0 < r → ∀ Z : Matrix (Fin r) (Fin p) ℝ, ∃ F : Matrix (Fin r) (Fin 1) ℝ,
        simplsPredict m (of Z) = .ok (of F) ∧ simplsPredict m' (of (Z * Q)) = .ok (of F) := by
  obtain ⟨m, b, T, h1, h2, h3⟩ := C73_same_predictions he hn hp hK hcount X y h
  obtain ⟨m', b', T', h1', h2', h3'⟩ := C73_same_predictions he hn hp' hK hcount (X * Q) y (h.rot hQ y)
  obtain ⟨b0, b0', T0, e, e', e''⟩ := C131_pls1 hn hp hp' hK Q hQ X y h
  refine ⟨m, m', h1, h1', fun r hr Z => ?_⟩
  obtain ⟨F, f1, f2⟩ := h3 r hr Z
  obtain ⟨F', f1', f2'⟩ := h3' r hr (Z * Q)
  obtain ⟨S, G, -, -, g1, g2⟩ := e'' hr Z
  have hb : b = b0 := by
    rw [h2] at e
    injection e with e
    exact congrArg Prod.fst e
  have hb' : b' = b0' := by
    rw [h2'] at e'
    injection e' with e'
    exact congrArg Prod.fst e'
  subst hb hb'
  rw [f2] at g1
  rw [f2'] at g2
  exact ⟨F, f1, f1'.trans (g2.trans g1.symm)⟩

/-! ## KernelPLS -/

section
variable {σ : Type} {q r : Nat}

/-- Samples after a rotation and a shift by `b`. -/
def moved (Q : Matrix (Fin p) (Fin p') ℝ) (b : Fin p' → ℝ) (A : Matrix (Fin r) (Fin p) ℝ) : Matrix (Fin r) (Fin p') ℝ :=
  Matrix.of fun i j => (A * Q) i j + b j

theorem cen_moved (hn : 0 < n) (Q : Matrix (Fin p) (Fin p') ℝ) (b : Fin p' → ℝ) (X : Matrix (Fin n) (Fin p) ℝ)
    (Z : Matrix (Fin r) (Fin p) ℝ) : cen (moved Q b X) (moved Q b Z) = cen X Z * Q := by
  have hn' : (n : ℝ) ≠ 0 := by exact_mod_cast hn.ne'
  ext i j
  have hmu : (mu fun k => moved Q b X k j) = ∑ l, (mu fun k => X k l) * Q l j + b j := by
    simp only [mu, moved, Matrix.of_apply, Matrix.mul_apply]
    rw [Finset.sum_add_distrib, Finset.sum_const, Finset.card_univ, Fintype.card_fin, nsmul_eq_mul, Finset.sum_comm, add_div,
      mul_div_cancel_left₀ _ hn', Finset.sum_div]
    congr 1
    refine Finset.sum_congr rfl fun l _ => ?_
    rw [← Finset.sum_mul]
    ring
  show moved Q b Z i j - (mu fun k => moved Q b X k j) = _
  rw [hmu, Matrix.mul_apply]
  simp only [moved, cen, Matrix.of_apply, Matrix.mul_apply, sub_mul, Finset.sum_sub_distrib]
  ring

/-- **C131.** `PLS1` with centring: the training samples may be moved as well as rotated.  New samples are rotated only,
since prediction does not centre them (C51). -/
theorem C131_pls1_center (hn : 0 < n) (hp : 0 < p) (hp' : 0 < p') {K : Nat} (hK : 0 < K) (Q : Matrix (Fin p) (Fin p') ℝ)
    (hQ : Q * Qᵀ = 1) (b : Fin p' → ℝ) (X : Matrix (Fin n) (Fin p) ℝ) (y : Matrix (Fin n) (Fin 1) ℝ)
    (h : Regular (pls1W (cen y y)) K (cen X X)) (isZero : ℝ → Bool) :
    ∃ s s', singleTrain isZero (pls1Base K) .center (of X) (of y) = .ok s ∧
      singleTrain isZero (pls1Base K) .center (of (moved Q b X)) (of y) = .ok s' ∧
      ∀ {r : Nat}, 0 < r → ∀ Z : Matrix (Fin r) (Fin p) ℝ, ∃ F : Matrix (Fin r) (Fin 1) ℝ,
        singlePredict (pls1Predict K) s (of Z) = .ok (of F) ∧
        singlePredict (pls1Predict K) s' (of (Z * Q)) = .ok (of F) := by
  obtain ⟨m, m', T, e, e', e''⟩ := C131_pls1 hn hp hp' hK Q hQ (cen X X) (cen y y) h
  refine ⟨⟨mu fun i => y i 0, 1, true, m⟩, ⟨mu fun i => y i 0, 1, true, m'⟩, ?_, ?_, fun {r} hr Z => ?_⟩
  · simp only [singleTrain, classStats_center, prepApply_center, except_bind_ok, pls1Base, e]
    rfl
  · simp only [singleTrain, classStats_center, prepApply_center, except_bind_ok, pls1Base, cen_moved hn, e']
    rfl
  · obtain ⟨S, F, -, -, g, g'⟩ := e'' hr Z
    have hd := denorm_loop F (mu fun i => y i 0) 1
    exact ⟨_, by simp only [singlePredict, g, except_bind_ok]; exact hd,
      by simp only [singlePredict, g', except_bind_ok]; exact hd⟩

/-- **C131.** `KernelPLS` with a kernel that does not see a rotation gives the moved and rotated samples what it gave the
original ones, success or failure. -/
theorem C131_kernel {c : KplsCfg ℝ σ} (hn : 0 < n) (Q : Matrix (Fin p) (Fin p) ℝ)
    (h1 : ∀ (s : σ) (A : Matrix (Fin n) (Fin p) ℝ), c.kern1 s (of (A * Q)) = c.kern1 s (of A))
    (h2 : ∀ (s : σ) (r : Nat) (_ : 0 < r) (A : Matrix (Fin r) (Fin p) ℝ) (B : Matrix (Fin n) (Fin p) ℝ),
      (c.kern2 s (of (A * Q)) (of (B * Q))).2 = (c.kern2 s (of A) (of B)).2)
    (b : Fin p → ℝ) (kern : σ) (X : Matrix (Fin n) (Fin p) ℝ) (Y : Matrix (Fin n) (Fin q) ℝ) (hr : 0 < r)
    (Z : Matrix (Fin r) (Fin p) ℝ) :
    (kplsTrain c kern (of (moved Q b X)) (of Y) >>= fun m => kplsTransform c m (of (moved Q b Z))) =
        (kplsTrain c kern (of X) (of Y) >>= fun m => kplsTransform c m (of Z)) ∧
      (kplsTrain c kern (of (moved Q b X)) (of Y) >>= fun m => kplsPredict c m (of (moved Q b Z))) =
        (kplsTrain c kern (of X) (of Y) >>= fun m => kplsPredict c m (of Z)) := by
  have key : ∀ (k : σ) (cy : CenterState ℝ) (Ko : Mat ℝ) (v : KplsVars ℝ) (B : Mat ℝ),
      kplsTransform c ⟨k, cenState (moved Q b X), cy, of (cen X X * Q), Ko, v, B⟩ (of (moved Q b Z)) =
        kplsTransform c ⟨k, cenState X, cy, of (cen X X), Ko, v, B⟩ (of Z) := by
    intro k cy Ko v B
    unfold kplsTransform
    simp only []
    rw [cen_do, cen_do, cen_moved hn]
    simp only [except_bind_ok]
    rw [h2 k r hr]
  have hbind : ∀ {β : Type} (f g : KplsModel ℝ σ → Except PyErr β),
      (∀ (k : σ) (cy : CenterState ℝ) (Ko : Mat ℝ) (v : KplsVars ℝ) (B : Mat ℝ),
        f ⟨k, cenState (moved Q b X), cy, of (cen X X * Q), Ko, v, B⟩ = g ⟨k, cenState X, cy, of (cen X X), Ko, v, B⟩) →
      (kplsTrain c kern (of (moved Q b X)) (of Y) >>= f) = (kplsTrain c kern (of X) (of Y) >>= g) := by
    intro β f g hfg
    unfold kplsTrain
    rw [cen_fit, cen_fit, cen_fit, cen_moved hn]
    simp only [except_bind_ok, bind_assoc]
    rw [h1]
    refine bind_congr fun K => bind_congr fun K' => bind_congr fun s => bind_congr fun s' => bind_congr fun B => ?_
    exact hfg _ _ _ _ _
  refine ⟨hbind _ _ key, hbind _ _ fun k cy Ko v B => ?_⟩
  unfold kplsPredict
  rw [key]

theorem dot_rot {p p' : Nat} {Q : Matrix (Fin p) (Fin p') ℝ} (hQ : Q * Qᵀ = 1) {r s : Nat} (A : Matrix (Fin r) (Fin p) ℝ)
    (B : Matrix (Fin s) (Fin p) ℝ) : A * Q * (B * Q)ᵀ = A * Bᵀ := by
  rw [Matrix.transpose_mul, Matrix.mul_assoc, ← Matrix.mul_assoc Q, hQ, Matrix.one_mul]

/-- **C131.** `KernelPLS` with the linear kernel. -/
theorem C131_kernel_linear {c : KplsCfg ℝ Unit} (hn : 0 < n) (h1 : c.kern1 = fun s A => (s, linearMatrix A none))
    (h2 : c.kern2 = fun s A B => (s, linearMatrix A (some B))) (Q : Matrix (Fin p) (Fin p) ℝ) (hQ : Q * Qᵀ = 1)
    (b : Fin p → ℝ) (X : Matrix (Fin n) (Fin p) ℝ) (Y : Matrix (Fin n) (Fin q) ℝ) (hr : 0 < r)
    (Z : Matrix (Fin r) (Fin p) ℝ) :
    (kplsTrain c () (of (moved Q b X)) (of Y) >>= fun m => kplsPredict c m (of (moved Q b Z))) =
      (kplsTrain c () (of X) (of Y) >>= fun m => kplsPredict c m (of Z)) := by
  refine (C131_kernel hn Q (fun s A => ?_) (fun s r _ A B => ?_) b () X Y hr Z).2
  · rw [h1]
    simp only [linearMatrix, Option.getD_none]
    rw [transpose_of, transpose_of, mul_of, mul_of, dot_rot hQ]
  · rw [h2]
    simp only [linearMatrix, Option.getD_some]
    rw [transpose_of, transpose_of, mul_of, mul_of, dot_rot hQ]

/-- **C131.** `KernelPLS` with the polynomial kernel, whatever its degree, `coef0` and `gamma`. -/
theorem C131_kernel_poly {c : KplsCfg ℝ (PolyState ℝ)} (hn : 0 < n) (h1 : c.kern1 = fun s A => polyMatrix s A none)
    (h2 : c.kern2 = fun s A B => polyMatrix s A (some B)) (Q : Matrix (Fin p) (Fin p) ℝ) (hQ : Q * Qᵀ = 1)
    (b : Fin p → ℝ) (kern : PolyState ℝ) (X : Matrix (Fin n) (Fin p) ℝ) (Y : Matrix (Fin n) (Fin q) ℝ) (hr : 0 < r)
    (Z : Matrix (Fin r) (Fin p) ℝ) :
    (kplsTrain c kern (of (moved Q b X)) (of Y) >>= fun m => kplsPredict c m (of (moved Q b Z))) =
      (kplsTrain c kern (of X) (of Y) >>= fun m => kplsPredict c m (of Z)) := by
  refine (C131_kernel hn Q (fun s A => ?_) (fun s r _ A B => ?_) b kern X Y hr Z).2
  · rw [h1]
    simp only [polyMatrix, Option.getD_none]
    rw [transpose_of, transpose_of, mul_of, mul_of, dot_rot hQ]
    rfl
  · rw [h2]
    simp only [polyMatrix, Option.getD_some]
    rw [transpose_of, transpose_of, mul_of, mul_of, dot_rot hQ]
    rfl

theorem rbf_rot {Q : Matrix (Fin p) (Fin p) ℝ} (hQ : Q * Qᵀ = 1) {r s : Nat} (g : ℝ) (A : Matrix (Fin r) (Fin p) ℝ)
    (B : Matrix (Fin s) (Fin p) ℝ) (i : Fin r) (j : Fin s) : rbf g ((A * Q) i) ((B * Q) j) = rbf g (A i) (B j) := by
  have h : ∀ {r s : Nat} (A : Matrix (Fin r) (Fin p) ℝ) (B : Matrix (Fin s) (Fin p) ℝ) (i : Fin r) (j : Fin s),
      ∑ l, (A * Q) i l * (B * Q) j l = ∑ l, A i l * B j l := fun A B i j => by
    have := congrFun (congrFun (dot_rot hQ A B) i) j
    rwa [Matrix.mul_apply, Matrix.mul_apply] at this
  have e : ∀ {r s : Nat} (A : Matrix (Fin r) (Fin p) ℝ) (B : Matrix (Fin s) (Fin p) ℝ) (i : Fin r) (j : Fin s),
      ∑ l, (A i l - B j l) * (A i l - B j l) = ∑ l, A i l * A i l - 2 * ∑ l, A i l * B j l + ∑ l, B j l * B j l := by
    intro r s A B i j
    rw [Finset.mul_sum, ← Finset.sum_sub_distrib, ← Finset.sum_add_distrib]
    exact Finset.sum_congr rfl fun l _ => by ring
  have d : ∑ l, ((A * Q) i l - (B * Q) j l) * ((A * Q) i l - (B * Q) j l) = ∑ l, (A i l - B j l) * (A i l - B j l) := by
    rw [e, e, h, h, h]
  show Real.exp (-g * Real.sqrt _) = Real.exp (-g * Real.sqrt _)
  rw [d]

/-- **C131.** `KernelPLS` with the RBF kernel, for a given `gamma` as well as for the default. -/
theorem C131_kernel_rbf {c : KplsCfg ℝ (Option ℝ)} (hn : 0 < n) (h1 : c.kern1 = applyMatrix1 rbfVector)
    (h2 : c.kern2 = applyMatrix2 rbfVector) (Q : Matrix (Fin p) (Fin p) ℝ) (hQ : Q * Qᵀ = 1)
    (b : Fin p → ℝ) (kern : Option ℝ) (X : Matrix (Fin n) (Fin p) ℝ) (Y : Matrix (Fin n) (Fin q) ℝ) (hr : 0 < r)
    (Z : Matrix (Fin r) (Fin p) ℝ) :
    (kplsTrain c kern (of (moved Q b X)) (of Y) >>= fun m => kplsPredict c m (of (moved Q b Z))) =
      (kplsTrain c kern (of X) (of Y) >>= fun m => kplsPredict c m (of Z)) := by
  refine (C131_kernel hn Q (fun s A => ?_) (fun s r hr A B => ?_) b kern X Y hr Z).2
  · rw [h1, (C39_rbf hn s (A * Q) (A * Q)).2.1, (C39_rbf hn s A A).2.1]
    simp only [rbf_rot hQ]
  · rw [h2, (C39_rbf hr s (A * Q) (B * Q)).1, (C39_rbf hr s A B).1]
    simp only [rbf_rot hQ]

end

/-- A quarter turn of the plane, on training data that meet the hypotheses. -/
example : ∃ (m m' : Pls1Model ℝ) (T : Mat ℝ), pls1Train pls1Weights 2 (of exX) (of exY) = .ok (m, T) ∧
    pls1Train pls1Weights 2 (of (!![0, 1; -2, 0] : Matrix (Fin 2) (Fin 2) ℝ)) (of exY) = .ok (m', T) := by
  have hQ : (!![0, 1; -1, 0] : Matrix (Fin 2) (Fin 2) ℝ) * (!![0, 1; -1, 0] : Matrix (Fin 2) (Fin 2) ℝ)ᵀ = 1 := by
    ext i j
    fin_cases i <;> fin_cases j <;> simp [Matrix.mul_apply, Fin.sum_univ_two]
  obtain ⟨m, m', T, h, h', -⟩ := C131_pls1 (by norm_num) (by norm_num) (by norm_num) (K := 2) (by norm_num) _ hQ exX exY
    ex_regular
  have e : exX * (!![0, 1; -1, 0] : Matrix (Fin 2) (Fin 2) ℝ) = !![0, 1; -2, 0] := by
    ext i j
    fin_cases i <;> fin_cases j <;> simp [exX, Matrix.mul_apply, Fin.sum_univ_two]
  rw [e] at h'
  exact ⟨m, m', T, h, h'⟩

end Verif.Props
