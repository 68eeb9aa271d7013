import Verif.Props.ResponseOrder
import Verif.Props.PlsRotation
import Verif.Props.OplsProps

/-!
# C160: units and zero points in KernelPLS

KernelPLS centres predictors, responses and kernel itself.  A common unit of the responses and the zero point of each response
only change the unit and the zero point of the predictions; a positive factor of the kernel and a constant added to it change no
prediction.  So the common unit of the predictors does not matter to the linear kernel, nor to the polynomial kernel with
`coef0 = 0`, and it does not matter to the RBF kernel if `gamma` is given in the inverse of that unit.
-/

namespace Verif.Props
open Verif Mat Factory Transf
open scoped Matrix

variable {S S' : Type} {n p p' q r K : Nat}

/-! ## Responses -/

theorem kU_scaled (O : Matrix (Fin q) (Fin q) ℝ) {a : ℝ} (ha : 0 < a) (hO : O * Oᵀ = a • (1 : Matrix (Fin q) (Fin q) ℝ))
    (Y : Matrix (Fin n) (Fin q) ℝ) (t : Matrix (Fin n) (Fin 1) ℝ) : kU (Y * O) t = kU Y t := by
  unfold kU
  rw [Matrix.transpose_mul, Matrix.mul_assoc Y O, Matrix.mul_assoc Oᵀ, ← Matrix.mul_assoc O, hO, Matrix.smul_mul, Matrix.one_mul,
    Matrix.mul_smul, nrm_smul ha]

theorem kLast_scaled (O : Matrix (Fin q) (Fin q) ℝ) {a : ℝ} (ha : 0 < a) (hO : O * Oᵀ = a • (1 : Matrix (Fin q) (Fin q) ℝ)) (tol : ℝ)
    (Kd : Matrix (Fin n) (Fin n) ℝ) (Y : Matrix (Fin n) (Fin q) ℝ) (f : Nat) (u : Matrix (Fin n) (Fin 1) ℝ) :
    kLast tol Kd (Y * O) f u = kLast tol Kd Y f u := by
  induction f generalizing u with
  | zero => rfl
  | succ f ih =>
    rw [kLast, kLast, kU_scaled O ha hO]
    split
    · exact ih _
    · rfl

theorem kS_scaled (O : Matrix (Fin q) (Fin q) ℝ) {a : ℝ} (ha : 0 < a) (hO : O * Oᵀ = a • (1 : Matrix (Fin q) (Fin q) ℝ)) (tol : ℝ)
    (f : Nat) (v : Nat → Matrix (Fin n) (Fin 1) ℝ) (K0 : Matrix (Fin n) (Fin n) ℝ) (Y0 : Matrix (Fin n) (Fin q) ℝ) (k : Nat) :
    kS tol f v K0 (Y0 * O) k = ((kS tol f v K0 Y0 k).1, (kS tol f v K0 Y0 k).2 * O) := by
  induction k with
  | zero => rfl
  | succ k ih =>
    have hT : kT tol f v K0 (Y0 * O) k = kT tol f v K0 Y0 k := by
      unfold kT kT1
      rw [ih, kLast_scaled O ha hO]
    rw [kS_succ, kS_succ, hT, ih]
    dsimp only
    unfold kQ
    rw [hT, ih]
    dsimp only
    refine Prod.ext rfl ?_
    dsimp only
    rw [Matrix.sub_mul, Matrix.transpose_mul (_ * O)ᵀ, Matrix.transpose_transpose, Matrix.transpose_mul (kS tol f v K0 Y0 k).2ᵀ,
      Matrix.transpose_transpose, Matrix.mul_assoc, Matrix.mul_assoc]

theorem uncen_moved (hn : 0 < n) (O : Matrix (Fin q) (Fin q) ℝ) (b : Fin q → ℝ) (Y : Matrix (Fin n) (Fin q) ℝ)
    (B : Matrix (Fin r) (Fin q) ℝ) : uncen (moved O b Y) (B * O) = moved O b (uncen Y B) := by
  have hn' : (n : ℝ) ≠ 0 := by exact_mod_cast hn.ne'
  have h := uncen_mix O Y B
  ext i j
  have hij := congrFun (congrFun h i) j
  simp only [uncen, moved, Matrix.of_apply] at hij ⊢
  rw [← hij, add_assoc]
  congr 1
  simp only [mu]
  rw [Finset.sum_add_distrib, Finset.sum_const, Finset.card_univ, Fintype.card_fin, nsmul_eq_mul, add_div, mul_div_cancel_left₀ _ hn']

/-- **C160** Responses in other units and from other zero points, whatever the kernel: if the responses are mixed by a matrix that is
orthogonal up to a factor (in particular, multiplied by `c ≠ 0`) and moved by `b`, the predictions are mixed and moved likewise and the
scores of new data do not change. -/
theorem C160_responses {c : KplsCfg ℝ S} {v : Nat → Matrix (Fin n) (Fin 1) ℝ} (hc : KplsReal c n v)
    (htol : 0 < c.tol) (hmax : 1 ≤ c.maxIter) (hK : c.K = K) (hn : 0 < n) (hq : 0 < q) (kern : S)
    (A : Matrix (Fin n) (Fin p) ℝ) (Y : Matrix (Fin n) (Fin q) ℝ)
    (G : Matrix (Fin n) (Fin n) ℝ) (hG : (c.kern1 kern (of (cen A A))).2 = .ok (of G))
    (O : Matrix (Fin q) (Fin q) ℝ) {a : ℝ} (ha : 0 < a) (hO : O * Oᵀ = a • (1 : Matrix (Fin q) (Fin q) ℝ)) (b : Fin q → ℝ)
    (Z : Mat ℝ) (R : Mat ℝ) (h : (kplsTrain c kern (of A) (of Y) >>= fun m => kplsPredict c m Z) = .ok R) :
    (∃ (r : Nat) (F : Matrix (Fin r) (Fin q) ℝ), R = of F ∧
      (kplsTrain c kern (of A) (of (moved O b Y)) >>= fun m => kplsPredict c m Z) = .ok (of (moved O b F))) ∧
    (kplsTrain c kern (of A) (of (moved O b Y)) >>= fun m => kplsTransform c m Z) =
      (kplsTrain c kern (of A) (of Y) >>= fun m => kplsTransform c m Z) := by
  obtain ⟨f, hf⟩ : ∃ f : Nat, c.maxIter = f + 1 := ⟨(c.maxIter - 1).toNat, by omega⟩
  have eT : ∀ k, kT c.tol f v (cenK G) (cen Y Y * O) k = kT c.tol f v (cenK G) (cen Y Y) k := fun k => by
    unfold kT kT1
    rw [kS_scaled O ha hO, kLast_scaled O ha hO]
  have eU : ∀ k, kUs c.tol f v (cenK G) (cen Y Y * O) k = kUs c.tol f v (cenK G) (cen Y Y) k := fun k => by
    unfold kUs
    rw [kS_scaled O ha hO, eT, kU_scaled O ha hO]
  have eQ : (colsM (K := K) (kQ c.tol f v (cenK G) (cen Y Y * O)))ᵀ = (colsM (K := K) (kQ c.tol f v (cenK G) (cen Y Y)))ᵀ * O := by
    ext j l
    rw [Matrix.transpose_apply, Matrix.mul_apply]
    simp only [Matrix.transpose_apply]
    show kQ c.tol f v (cenK G) (cen Y Y * O) j l 0 = ∑ x, kQ c.tol f v (cenK G) (cen Y Y) j x 0 * O x l
    unfold kQ
    rw [kS_scaled O ha hO, eT]
    dsimp only
    rw [Matrix.transpose_mul, Matrix.mul_assoc, Matrix.mul_apply]
    exact Finset.sum_congr rfl fun x _ => by rw [Matrix.transpose_apply, mul_comm]
  have htr := kplsTrain_eq hc htol hf hK hn hq kern A Y G hG
  have htr' := kplsTrain_eq hc htol hf hK hn hq kern A (moved O b Y) G hG
  rw [cen_moved hn, funext eT, funext eU, eQ] at htr'
  rw [htr, Utils.bind_ok_iff] at h
  obtain ⟨m, hm, hp⟩ := h
  rw [hm] at htr
  rw [Utils.bind_ok_iff] at hm
  obtain ⟨i, hi, hm⟩ := hm
  rw [Utils.bind_ok_iff] at hm
  obtain ⟨B, hB, hm⟩ := hm
  obtain ⟨b', B, rfl, hB'⟩ := mul_mix O hB
  rw [ok_inj] at hm
  subst hm
  rw [hi, except_bind_ok, hB', except_bind_ok] at htr'
  rw [htr', htr, except_bind_ok, except_bind_ok, except_bind_ok]
  unfold kplsPredict at hp ⊢
  rw [Utils.bind_ok_iff] at hp
  obtain ⟨W, hW, hp⟩ := hp
  rw [Utils.bind_ok_iff] at hp
  obtain ⟨V, hV, hp⟩ := hp
  obtain ⟨r, V, rfl, hV'⟩ := mul_mix O hV
  rw [cen_undo, ok_inj] at hp
  have hW' : ∀ B', kplsTransform c ⟨(c.kern1 kern (of (cen A A))).1, cenState A, cenState (moved O b Y), of (cen A A), of (cenK G),
      kVars c.tol f v (cenK G) (cen Y Y * O) K K, B'⟩ Z = .ok W := by
    intro B'
    rw [← hW]
    unfold kplsTransform
    rw [kVars_U, kVars_U, funext eU]
  refine ⟨⟨r, uncen Y V, hp.symm, ?_⟩, ?_⟩
  · rw [hW', except_bind_ok, hV', except_bind_ok, cen_undo, uncen_moved hn]
  · rw [hW', hW]

/-- **C160** All responses in another unit, each with another zero point. -/
theorem C160_unit {c : KplsCfg ℝ S} {v : Nat → Matrix (Fin n) (Fin 1) ℝ} (hc : KplsReal c n v)
    (htol : 0 < c.tol) (hmax : 1 ≤ c.maxIter) (hK : c.K = K) (hn : 0 < n) (hq : 0 < q) (kern : S)
    (A : Matrix (Fin n) (Fin p) ℝ) (Y : Matrix (Fin n) (Fin q) ℝ)
    (G : Matrix (Fin n) (Fin n) ℝ) (hG : (c.kern1 kern (of (cen A A))).2 = .ok (of G))
    {d : ℝ} (hd : d ≠ 0) (b : Fin q → ℝ) (Z : Mat ℝ) (R : Mat ℝ)
    (h : (kplsTrain c kern (of A) (of Y) >>= fun m => kplsPredict c m Z) = .ok R) :
    ∃ (r : Nat) (F : Matrix (Fin r) (Fin q) ℝ), R = of F ∧
      (kplsTrain c kern (of A) (of (Matrix.of fun i j => d * Y i j + b j)) >>= fun m => kplsPredict c m Z) =
        .ok (of (Matrix.of fun i j => d * F i j + b j)) := by
  have hO : (d • (1 : Matrix (Fin q) (Fin q) ℝ)) * (d • (1 : Matrix (Fin q) (Fin q) ℝ))ᵀ =
      (d * d) • (1 : Matrix (Fin q) (Fin q) ℝ) := by
    rw [Matrix.transpose_smul, Matrix.transpose_one, Matrix.smul_mul, Matrix.mul_smul, Matrix.one_mul, smul_smul]
  have e : ∀ {r : Nat} (M : Matrix (Fin r) (Fin q) ℝ), moved (d • (1 : Matrix (Fin q) (Fin q) ℝ)) b M =
      Matrix.of fun i j => d * M i j + b j := by
    intro r M
    ext i j
    simp only [moved, Matrix.of_apply, Matrix.mul_smul, Matrix.mul_one, Matrix.smul_apply, smul_eq_mul]
  obtain ⟨⟨r, F, rfl, h'⟩, -⟩ := C160_responses hc htol hmax hK hn hq kern A Y G hG _ (mul_self_pos.2 hd) hO b Z R h
  rw [e, e] at h'
  exact ⟨r, F, rfl, h'⟩

/-! ## Kernel -/

theorem kLast_kern {a : ℝ} (ha : 0 < a) (tol : ℝ) (Kd : Matrix (Fin n) (Fin n) ℝ) (Y : Matrix (Fin n) (Fin q) ℝ) (f : Nat)
    (u : Matrix (Fin n) (Fin 1) ℝ) : kLast tol (a • Kd) Y f u = kLast tol Kd Y f u := by
  induction f generalizing u with
  | zero => rfl
  | succ f ih =>
    rw [kLast, kLast, Matrix.smul_mul, nrm_smul ha]
    split
    · exact ih _
    · rfl

theorem kS_kern {a : ℝ} (ha : 0 < a) (tol : ℝ) (f : Nat) (v : Nat → Matrix (Fin n) (Fin 1) ℝ) (K0 : Matrix (Fin n) (Fin n) ℝ)
    (Y0 : Matrix (Fin n) (Fin q) ℝ) (k : Nat) :
    kS tol f v (a • K0) Y0 k = (a • (kS tol f v K0 Y0 k).1, (kS tol f v K0 Y0 k).2) := by
  induction k with
  | zero => rfl
  | succ k ih =>
    have hT : kT tol f v (a • K0) Y0 k = kT tol f v K0 Y0 k := by
      unfold kT kT1
      rw [ih]
      dsimp only
      rw [kLast_kern ha, Matrix.smul_mul, nrm_smul ha]
    rw [kS_succ, kS_succ, hT, ih]
    dsimp only
    unfold kQ
    rw [hT, ih, Matrix.mul_smul, Matrix.smul_mul]

theorem kT_kern {a : ℝ} (ha : 0 < a) (tol : ℝ) (f : Nat) (v : Nat → Matrix (Fin n) (Fin 1) ℝ) (K0 : Matrix (Fin n) (Fin n) ℝ)
    (Y0 : Matrix (Fin n) (Fin q) ℝ) : kT tol f v (a • K0) Y0 = kT tol f v K0 Y0 := by
  funext k
  unfold kT kT1
  rw [kS_kern ha]
  dsimp only
  rw [kLast_kern ha, Matrix.smul_mul, nrm_smul ha]

theorem kQ_kern {a : ℝ} (ha : 0 < a) (tol : ℝ) (f : Nat) (v : Nat → Matrix (Fin n) (Fin 1) ℝ) (K0 : Matrix (Fin n) (Fin n) ℝ)
    (Y0 : Matrix (Fin n) (Fin q) ℝ) : kQ tol f v (a • K0) Y0 = kQ tol f v K0 Y0 := by
  funext k
  unfold kQ
  rw [kS_kern ha, kT_kern ha]

theorem kUs_kern {a : ℝ} (ha : 0 < a) (tol : ℝ) (f : Nat) (v : Nat → Matrix (Fin n) (Fin 1) ℝ) (K0 : Matrix (Fin n) (Fin n) ℝ)
    (Y0 : Matrix (Fin n) (Fin q) ℝ) : kUs tol f v (a • K0) Y0 = kUs tol f v K0 Y0 := by
  funext k
  unfold kUs
  rw [kS_kern ha, kT_kern ha]

theorem const_centred (hn : 0 < n) (d : ℝ) : (Matrix.of fun _ _ => d : Matrix (Fin r) (Fin n) ℝ) * (1 - avg n n) = 0 := by
  have hn' : (n : ℝ) ≠ 0 := by exact_mod_cast hn.ne'
  have : (Matrix.of fun _ _ => d : Matrix (Fin r) (Fin n) ℝ) = (d * n) • avg r n := by
    ext i j
    simp only [avg, Matrix.of_apply, Matrix.smul_apply, smul_eq_mul]
    field_simp
  rw [this, Matrix.smul_mul, avg_centred hn, smul_zero]

theorem cenK_kern (hn : 0 < n) (a d : ℝ) (G : Matrix (Fin n) (Fin n) ℝ) :
    cenK (a • G + Matrix.of fun _ _ => d) = a • cenK G := by
  unfold cenK
  rw [Matrix.mul_assoc, Matrix.add_mul, const_centred hn, add_zero, Matrix.smul_mul, Matrix.mul_smul, Matrix.mul_assoc]

/-- The inverse of a multiple, success or failure. -/
theorem inverse_multiple (lstsq : Mat ℝ → Except PyErr (Mat ℝ)) {a : ℝ} (ha : a ≠ 0) (M : Matrix (Fin K) (Fin K) ℝ) :
    (inverse lstsq (of M) = .error .linAlgError ∧ inverse lstsq (of (a • M)) = .error .linAlgError) ∨
      inverse lstsq (of M) = .ok (of M⁻¹) ∧ inverse lstsq (of (a • M)) = .ok (of (a⁻¹ • M⁻¹)) := by
  have hdet : (a • M).det = a ^ K * M.det := by rw [Matrix.det_smul, Fintype.card_fin]
  by_cases h : M.det = 0
  · exact .inl ⟨inverse_singular lstsq M h, inverse_singular lstsq _ (by rw [hdet, h, mul_zero])⟩
  · refine .inr ⟨inverse_of lstsq M h, ?_⟩
    rw [inverse_of lstsq _ (by rw [hdet]; exact mul_ne_zero (pow_ne_zero _ ha) h)]
    have hu : IsUnit M.det := isUnit_iff_ne_zero.2 h
    refine congrArg (fun M => Except.ok (of M)) (Matrix.inv_eq_left_inv ?_)
    rw [Matrix.smul_mul, Matrix.mul_smul, smul_smul, inv_mul_cancel₀ ha, one_smul, Matrix.nonsing_inv_mul _ hu]

/-- **C160** Two kernels that differ by a positive factor and a constant, on training and on new data: the predictions are the same, or
both trainings fail; the scores of new data are multiplied by the factor.  The two kernels may belong to different predictors. -/
theorem C160_kernel {c : KplsCfg ℝ S} {c' : KplsCfg ℝ S'} {v : Nat → Matrix (Fin n) (Fin 1) ℝ} (hc : KplsReal c n v)
    (hc' : KplsReal c' n v) (htol : 0 < c.tol) (hmax : 1 ≤ c.maxIter) (hK : c.K = K) (htol' : c'.tol = c.tol)
    (hmax' : c'.maxIter = c.maxIter) (hK' : c'.K = K) (lstsq : Mat ℝ → Except PyErr (Mat ℝ)) (hi : c.inv = inverse lstsq)
    (hi' : c'.inv = inverse lstsq) (hn : 0 < n) (hq : 0 < q) (kern : S) (kern' : S')
    (A : Matrix (Fin n) (Fin p) ℝ) (A' : Matrix (Fin n) (Fin p') ℝ) (Y : Matrix (Fin n) (Fin q) ℝ)
    (Z : Matrix (Fin r) (Fin p) ℝ) (Z' : Matrix (Fin r) (Fin p') ℝ) {a : ℝ} (ha : 0 < a) (d : ℝ)
    (G : Matrix (Fin n) (Fin n) ℝ) (H : Matrix (Fin r) (Fin n) ℝ)
    (hG : (c.kern1 kern (of (cen A A))).2 = .ok (of G))
    (hG' : (c'.kern1 kern' (of (cen A' A'))).2 = .ok (of (a • G + Matrix.of fun _ _ => d)))
    (hH : (c.kern2 (c.kern1 kern (of (cen A A))).1 (of (cen A Z)) (of (cen A A))).2 = .ok (of H))
    (hH' : (c'.kern2 (c'.kern1 kern' (of (cen A' A'))).1 (of (cen A' Z')) (of (cen A' A'))).2 =
      .ok (of (a • H + Matrix.of fun _ _ => d))) :
    (kplsTrain c' kern' (of A') (of Y) >>= fun m => kplsPredict c' m (of Z')) =
        (kplsTrain c kern (of A) (of Y) >>= fun m => kplsPredict c m (of Z)) ∧
      ((∃ W : Matrix (Fin r) (Fin K) ℝ, (kplsTrain c kern (of A) (of Y) >>= fun m => kplsTransform c m (of Z)) = .ok (of W) ∧
          (kplsTrain c' kern' (of A') (of Y) >>= fun m => kplsTransform c' m (of Z')) = .ok (of (a • W))) ∨
        ∃ e, kplsTrain c kern (of A) (of Y) = .error e ∧ kplsTrain c' kern' (of A') (of Y) = .error e) := by
  obtain ⟨f, hf⟩ : ∃ f : Nat, c.maxIter = f + 1 := ⟨(c.maxIter - 1).toNat, by omega⟩
  have htr := kplsTrain_eq hc htol hf hK hn hq kern A Y G hG
  have htr' := kplsTrain_eq hc' (htol' ▸ htol) (hmax'.trans hf) hK' hn hq kern' A' Y _ hG'
  rw [cenK_kern hn, htol', kT_kern ha, kUs_kern ha, kQ_kern ha, hi', Matrix.mul_smul, Matrix.smul_mul] at htr'
  rw [hi] at htr
  set U := colsM (K := K) (kUs c.tol f v (cenK G) (cen Y Y)) with hU
  set N := (colsM (K := K) (kT c.tol f v (cenK G) (cen Y Y)))ᵀ * cenK G * U with hN
  have hW : ∀ B, kplsTransform c ⟨(c.kern1 kern (of (cen A A))).1, cenState A, cenState Y, of (cen A A), of (cenK G),
      kVars c.tol f v (cenK G) (cen Y Y) K K, B⟩ (of Z) = .ok (of (H * (1 - avg n n) * U)) := by
    intro B
    unfold kplsTransform
    dsimp only
    rw [cen_do, except_bind_ok, hH, except_bind_ok]
    show (kplsCentreTest n _ _ >>= _) = _
    rw [kplsCentreTest_eq, except_bind_ok, kVars_U, mul_of]
    refine congrArg (fun M => Except.ok (of (M * U))) ?_
    rw [Matrix.sub_mul, cenK, Matrix.mul_assoc (1 - avg n n), ← Matrix.mul_assoc (avg r n), avg_centred hn, Matrix.zero_mul,
      Matrix.zero_mul, sub_zero]
  have hW' : ∀ B, kplsTransform c' ⟨(c'.kern1 kern' (of (cen A' A'))).1, cenState A', cenState Y, of (cen A' A'), of (a • cenK G),
      kVars c.tol f v (a • cenK G) (cen Y Y) K K, B⟩ (of Z') = .ok (of (a • (H * (1 - avg n n) * U))) := by
    intro B
    unfold kplsTransform
    dsimp only
    rw [cen_do, except_bind_ok, hH', except_bind_ok]
    show (kplsCentreTest n _ _ >>= _) = _
    rw [kplsCentreTest_eq, except_bind_ok, kVars_U, mul_of, kUs_kern ha, ← hU]
    refine congrArg (fun M => Except.ok (of M)) ?_
    rw [Matrix.sub_mul, Matrix.add_mul, const_centred hn, add_zero, cenK, Matrix.mul_assoc (1 - avg n n), Matrix.mul_smul,
      ← Matrix.mul_assoc (avg r n), avg_centred hn, Matrix.zero_mul, smul_zero, Matrix.zero_mul, sub_zero, Matrix.smul_mul,
      Matrix.smul_mul]
  rcases inverse_multiple lstsq ha.ne' N with ⟨h1, h2⟩ | ⟨h1, h2⟩
  · rw [h1] at htr
    rw [h2] at htr'
    exact ⟨by rw [htr, htr']; rfl, .inr ⟨_, htr, htr'⟩⟩
  · rw [h1, except_bind_ok, mul_of, except_bind_ok] at htr
    rw [h2, except_bind_ok, mul_of, except_bind_ok] at htr'
    rw [htr, htr', except_bind_ok, except_bind_ok, except_bind_ok, except_bind_ok]
    refine ⟨?_, .inl ⟨_, hW _, hW' _⟩⟩
    unfold kplsPredict
    rw [hW, hW', except_bind_ok, except_bind_ok, mul_of, mul_of, Matrix.smul_mul, Matrix.smul_mul, Matrix.mul_smul, smul_smul,
      mul_inv_cancel₀ ha.ne', one_smul]

/-! ## Predictors -/

theorem cen_unit (hn : 0 < n) (κ : ℝ) (b : Fin p → ℝ) (A : Matrix (Fin n) (Fin p) ℝ) (Z : Matrix (Fin r) (Fin p) ℝ) :
    cen (Matrix.of fun i j => κ * A i j + b j) (Matrix.of fun i j => κ * Z i j + b j) = κ • cen A Z := by
  have e : ∀ {r : Nat} (M : Matrix (Fin r) (Fin p) ℝ), moved (κ • (1 : Matrix (Fin p) (Fin p) ℝ)) b M =
      Matrix.of fun i j => κ * M i j + b j := by
    intro r M
    ext i j
    simp only [moved, Matrix.of_apply, Matrix.mul_smul, Matrix.mul_one, Matrix.smul_apply, smul_eq_mul]
  rw [← e, ← e, cen_moved hn, Matrix.mul_smul, Matrix.mul_one]

/-- The setting of a KernelPLS object with an exact routine for the inverse of the square matrix. -/
structure KplsExact (c : KplsCfg ℝ S) (n K : Nat) (v : Nat → Matrix (Fin n) (Fin 1) ℝ) (lstsq : Mat ℝ → Except PyErr (Mat ℝ)) : Prop where
  real : KplsReal c n v
  tol : 0 < c.tol
  maxIter : 1 ≤ c.maxIter
  K : c.K = K
  inv : c.inv = inverse lstsq

/-- **C160** Linear kernel: all predictors in another common unit, each with another zero point. -/
theorem C160_linear {c : KplsCfg ℝ Unit} {v : Nat → Matrix (Fin n) (Fin 1) ℝ} {lstsq : Mat ℝ → Except PyErr (Mat ℝ)}
    (hc : KplsExact c n K v lstsq) (hn : 0 < n) (hq : 0 < q) (h1 : c.kern1 = fun s A => (s, linearMatrix A none))
    (h2 : c.kern2 = fun s A B => (s, linearMatrix A (some B))) {κ : ℝ} (hκ : κ ≠ 0) (b : Fin p → ℝ)
    (A : Matrix (Fin n) (Fin p) ℝ) (Y : Matrix (Fin n) (Fin q) ℝ) (Z : Matrix (Fin r) (Fin p) ℝ) :
    (kplsTrain c () (of (Matrix.of fun i j => κ * A i j + b j)) (of Y) >>= fun m =>
        kplsPredict c m (of (Matrix.of fun i j => κ * Z i j + b j))) =
      (kplsTrain c () (of A) (of Y) >>= fun m => kplsPredict c m (of Z)) := by
  have e : ∀ {r s : Nat} (M : Matrix (Fin r) (Fin p) ℝ) (N : Matrix (Fin s) (Fin p) ℝ),
      (κ • M) * (κ • N)ᵀ = (κ * κ) • (M * Nᵀ) + Matrix.of fun _ _ => (0 : ℝ) := by
    intro r s M N
    rw [Matrix.transpose_smul, Matrix.smul_mul, Matrix.mul_smul, smul_smul]
    ext i j
    simp
  refine (C160_kernel hc.real hc.real hc.tol hc.maxIter hc.K rfl rfl hc.K lstsq hc.inv hc.inv hn hq () () A _ Y Z _
    (mul_self_pos.2 hκ) 0 (cen A A * (cen A A)ᵀ) (cen A Z * (cen A A)ᵀ) ?_ ?_ ?_ ?_).1
  · rw [h1]
    simp only [linearMatrix, Option.getD_none, transpose_of, mul_of]
  · rw [h1, cen_unit hn, ← e]
    simp only [linearMatrix, Option.getD_none, transpose_of, mul_of]
  · rw [h2]
    simp only [linearMatrix, Option.getD_some, transpose_of, mul_of]
  · rw [h2, cen_unit hn, cen_unit hn, ← e]
    simp only [linearMatrix, Option.getD_some, transpose_of, mul_of]

/-- The values of the polynomial kernel. -/
theorem poly_value (s : PolyState ℝ) (M : Matrix (Fin r) (Fin p) ℝ) (N : Matrix (Fin n) (Fin p) ℝ) :
    (polyMatrix s (of M) (some (of N))).2 =
      .ok (of (Matrix.of fun i j => (s.gamma.getD (1 / (p : ℝ)) * (M * Nᵀ) i j + s.coef0) ^ s.degree)) := by
  rw [polyMatrix_value, Option.getD_some, transpose_of, mul_of]
  rfl

/-- The one-argument form, with the state it leaves. -/
theorem poly_value1 (s : PolyState ℝ) (M : Matrix (Fin n) (Fin p) ℝ) :
    (polyMatrix s (of M) none).2 =
        .ok (of (Matrix.of fun i j => (s.gamma.getD (1 / (p : ℝ)) * (M * Mᵀ) i j + s.coef0) ^ s.degree)) ∧
      (polyMatrix s (of M) none).1 = ⟨s.degree, s.coef0, some (s.gamma.getD (1 / (p : ℝ)))⟩ := by
  constructor
  · rw [polyMatrix_value, Option.getD_none, transpose_of, mul_of]
    rfl
  · unfold polyMatrix
    rfl

/-- **C160** Polynomial kernel of any degree with `coef0 = 0`: all predictors in another common unit, each with another zero point. -/
theorem C160_poly {c : KplsCfg ℝ (PolyState ℝ)} {v : Nat → Matrix (Fin n) (Fin 1) ℝ} {lstsq : Mat ℝ → Except PyErr (Mat ℝ)}
    (hc : KplsExact c n K v lstsq) (hn : 0 < n) (hq : 0 < q) (h1 : c.kern1 = fun s A => polyMatrix s A none)
    (h2 : c.kern2 = fun s A B => polyMatrix s A (some B)) {κ : ℝ} (hκ : κ ≠ 0) (b : Fin p → ℝ) (s : PolyState ℝ) (hs : s.coef0 = 0)
    (A : Matrix (Fin n) (Fin p) ℝ) (Y : Matrix (Fin n) (Fin q) ℝ) (Z : Matrix (Fin r) (Fin p) ℝ) :
    (kplsTrain c s (of (Matrix.of fun i j => κ * A i j + b j)) (of Y) >>= fun m =>
        kplsPredict c m (of (Matrix.of fun i j => κ * Z i j + b j))) =
      (kplsTrain c s (of A) (of Y) >>= fun m => kplsPredict c m (of Z)) := by
  have e : ∀ {r t : Nat} (M : Matrix (Fin r) (Fin p) ℝ) (N : Matrix (Fin t) (Fin p) ℝ) (g : ℝ),
      (Matrix.of fun i j => (g * ((κ • M) * (κ • N)ᵀ) i j + 0) ^ s.degree : Matrix (Fin r) (Fin t) ℝ) =
        ((κ * κ) ^ s.degree) • (Matrix.of fun i j => (g * (M * Nᵀ) i j + 0) ^ s.degree) + Matrix.of fun _ _ => (0 : ℝ) := by
    intro r t M N g
    rw [Matrix.transpose_smul, Matrix.smul_mul, Matrix.mul_smul, smul_smul]
    ext i j
    simp only [Matrix.of_apply, Matrix.smul_apply, Matrix.add_apply, smul_eq_mul, add_zero]
    rw [← mul_pow]
    congr 1
    ring
  refine (C160_kernel hc.real hc.real hc.tol hc.maxIter hc.K rfl rfl hc.K lstsq hc.inv hc.inv hn hq s s A _ Y Z _
    (pow_pos (mul_self_pos.2 hκ) s.degree) 0 (Matrix.of fun i j => (s.gamma.getD (1 / (p : ℝ)) * (cen A A * (cen A A)ᵀ) i j + 0) ^ s.degree)
    (Matrix.of fun i j => (s.gamma.getD (1 / (p : ℝ)) * (cen A Z * (cen A A)ᵀ) i j + 0) ^ s.degree) ?_ ?_ ?_ ?_).1
  · rw [h1]
    simp only [(poly_value1 s _).1, hs]
  · rw [h1, cen_unit hn, ← e]
    simp only [(poly_value1 s _).1, hs]
  · rw [h1, h2]
    simp only [(poly_value1 s _).2, poly_value, hs, Option.getD_some]
  · rw [h1, h2, cen_unit hn, cen_unit hn, ← e]
    simp only [(poly_value1 s _).2, poly_value, hs, Option.getD_some]

/-- **C160** The polynomial kernel of degree one makes the predictions of the linear kernel, whatever `coef0` and positive `gamma`. -/
theorem C160_degree_one {c : KplsCfg ℝ Unit} {c' : KplsCfg ℝ (PolyState ℝ)} {v : Nat → Matrix (Fin n) (Fin 1) ℝ}
    {lstsq : Mat ℝ → Except PyErr (Mat ℝ)} (hc : KplsExact c n K v lstsq) (hc' : KplsExact c' n K v lstsq) (htol : c'.tol = c.tol)
    (hmax : c'.maxIter = c.maxIter) (hn : 0 < n) (hq : 0 < q)
    (h1 : c.kern1 = fun s A => (s, linearMatrix A none)) (h2 : c.kern2 = fun s A B => (s, linearMatrix A (some B)))
    (h1' : c'.kern1 = fun s A => polyMatrix s A none) (h2' : c'.kern2 = fun s A B => polyMatrix s A (some B))
    (s : PolyState ℝ) (hs : s.degree = 1) (hg : 0 < s.gamma.getD (1 / (p : ℝ)))
    (A : Matrix (Fin n) (Fin p) ℝ) (Y : Matrix (Fin n) (Fin q) ℝ) (Z : Matrix (Fin r) (Fin p) ℝ) :
    (kplsTrain c' s (of A) (of Y) >>= fun m => kplsPredict c' m (of Z)) =
      (kplsTrain c () (of A) (of Y) >>= fun m => kplsPredict c m (of Z)) := by
  have e : ∀ {r t : Nat} (M : Matrix (Fin r) (Fin t) ℝ) (g d : ℝ),
      (Matrix.of fun i j => (g * M i j + d) ^ 1 : Matrix (Fin r) (Fin t) ℝ) = g • M + Matrix.of fun _ _ => d := by
    intro r t M g d
    ext i j
    simp
  refine (C160_kernel hc.real hc'.real hc.tol hc.maxIter hc.K htol hmax hc'.K lstsq hc.inv hc'.inv hn hq () s A A Y Z Z
    hg s.coef0 (cen A A * (cen A A)ᵀ) (cen A Z * (cen A A)ᵀ) ?_ ?_ ?_ ?_).1
  · rw [h1]
    simp only [linearMatrix, Option.getD_none, transpose_of, mul_of]
  · rw [h1', ← e]
    simp only [(poly_value1 s _).1, hs]
  · rw [h2]
    simp only [linearMatrix, Option.getD_some, transpose_of, mul_of]
  · rw [h1', h2', ← e]
    simp only [(poly_value1 s _).2, poly_value, hs, Option.getD_some]

theorem rbf_unit {κ : ℝ} (hκ : κ ≠ 0) (g : ℝ) (x y : Fin p → ℝ) : rbf (g / |κ|) (κ • x) (κ • y) = rbf g x y := by
  have hd : dist2 (κ • x) (κ • y) = |κ| * dist2 x y := by
    unfold dist2
    rw [← Real.sqrt_mul_self_eq_abs, ← Real.sqrt_mul (mul_self_nonneg κ), Finset.mul_sum]
    congr 1
    refine Finset.sum_congr rfl fun l _ => ?_
    simp only [Pi.smul_apply, smul_eq_mul]
    ring
  unfold rbf
  rw [hd]
  congr 1
  have : |κ| ≠ 0 := abs_ne_zero.2 hκ
  field_simp

/-- **C160** RBF kernel: all predictors in another common unit, each with another zero point, and `gamma` in the inverse of that unit
(the kernel has the distance in its exponent, not its square).  No condition on the inverse: the kernel matrices are the same. -/
theorem C160_rbf {c : KplsCfg ℝ (Option ℝ)} {v : Nat → Matrix (Fin n) (Fin 1) ℝ} {lstsq : Mat ℝ → Except PyErr (Mat ℝ)}
    (hc : KplsExact c n K v lstsq) (hn : 0 < n) (hq : 0 < q) (hr : 0 < r) (h1 : c.kern1 = applyMatrix1 rbfVector)
    (h2 : c.kern2 = applyMatrix2 rbfVector) {κ : ℝ} (hκ : κ ≠ 0) (b : Fin p → ℝ) (g : ℝ)
    (A : Matrix (Fin n) (Fin p) ℝ) (Y : Matrix (Fin n) (Fin q) ℝ) (Z : Matrix (Fin r) (Fin p) ℝ) :
    (kplsTrain c (some (g / |κ|)) (of (Matrix.of fun i j => κ * A i j + b j)) (of Y) >>= fun m =>
        kplsPredict c m (of (Matrix.of fun i j => κ * Z i j + b j))) =
      (kplsTrain c (some g) (of A) (of Y) >>= fun m => kplsPredict c m (of Z)) := by
  have e : ∀ {r t : Nat} (M : Matrix (Fin r) (Fin p) ℝ) (N : Matrix (Fin t) (Fin p) ℝ),
      (Matrix.of fun i j => rbf (g / |κ|) ((κ • M) i) ((κ • N) j) : Matrix (Fin r) (Fin t) ℝ) =
        (1 : ℝ) • (Matrix.of fun i j => rbf g (M i) (N j)) + Matrix.of fun _ _ => (0 : ℝ) := by
    intro r t M N
    ext i j
    simp only [Matrix.of_apply, Matrix.smul_apply, Matrix.add_apply, smul_eq_mul, add_zero, one_mul]
    exact rbf_unit hκ g (M i) (N j)
  refine (C160_kernel hc.real hc.real hc.tol hc.maxIter hc.K rfl rfl hc.K lstsq hc.inv hc.inv hn hq (some g) (some (g / |κ|)) A _ Y Z _
    one_pos 0 (Matrix.of fun i j => rbf g (cen A A i) (cen A A j)) (Matrix.of fun i j => rbf g (cen A Z i) (cen A A j)) ?_ ?_ ?_ ?_).1
  · rw [h1, (C39_rbf hn _ (cen A A) (cen A A)).2.1]
    rfl
  · rw [h1, cen_unit hn, ← e, (C39_rbf hn _ (κ • cen A A) (κ • cen A A)).2.1]
    rfl
  · rw [h1, h2, (C39_rbf hn _ (cen A A) (cen A A)).2.1, (C39_rbf hr _ (cen A Z) (cen A A)).1]
    rfl
  · rw [h1, h2, cen_unit hn, cen_unit hn, ← e, (C39_rbf hn _ (κ • cen A A) (κ • cen A A)).2.1,
      (C39_rbf hr _ (κ • cen A Z) (κ • cen A A)).1]
    rfl

/-! ## Concrete cases -/

theorem pk_exact (tol : ℝ) (htol : 0 < tol) (maxIter : Int) (hmax : 1 ≤ maxIter) (v : Nat → Matrix (Fin 3) (Fin 1) ℝ)
    (lstsq : Mat ℝ → Except PyErr (Mat ℝ)) : KplsExact (pkCfg tol maxIter v lstsq) 3 1 v lstsq :=
  ⟨pk_real tol maxIter v lstsq, htol, hmax, rfl, rfl⟩

/-- Two responses in units of minus a third and from the zero points `1` and `2`, and predictors in units of a fifth. -/
example (v : Nat → Matrix (Fin 3) (Fin 1) ℝ) (hv : v 0 0 0 - 2 * v 0 1 0 + v 0 2 0 ≠ 0) (lstsq : Mat ℝ → Except PyErr (Mat ℝ)) :
    ∃ F : Matrix (Fin 3) (Fin 2) ℝ,
      (kplsTrain (pkCfg 1 5 v lstsq) ⟨2, 0, none⟩ (of pkX) (of pkY2) >>= fun m =>
        kplsPredict (pkCfg 1 5 v lstsq) m (of pkX)) = .ok (of F) ∧
      (kplsTrain (pkCfg 1 5 v lstsq) ⟨2, 0, none⟩ (of pkX) (of (Matrix.of fun i j => -3 * pkY2 i j + (![1, 2] : Fin 2 → ℝ) j)) >>= fun m =>
        kplsPredict (pkCfg 1 5 v lstsq) m (of pkX)) = .ok (of (Matrix.of fun i j => -3 * F i j + (![1, 2] : Fin 2 → ℝ) j)) ∧
      (kplsTrain (pkCfg 1 5 v lstsq) ⟨2, 0, none⟩ (of (Matrix.of fun i j => 5 * pkX i j + (7 : ℝ))) (of pkY2) >>= fun m =>
        kplsPredict (pkCfg 1 5 v lstsq) m (of (Matrix.of fun i j => 5 * pkX i j + (7 : ℝ)))) = .ok (of F) := by
  obtain ⟨m, hm, F, hF⟩ := pk2_trained 1 one_pos 5 (by decide) v hv lstsq
  have h : (kplsTrain (pkCfg 1 5 v lstsq) ⟨2, 0, none⟩ (of pkX) (of pkY2) >>= fun m =>
      kplsPredict (pkCfg 1 5 v lstsq) m (of pkX)) = .ok (of F) := by rw [hm, except_bind_ok, hF]
  have hc := pk_exact 1 one_pos 5 (by decide) v lstsq
  refine ⟨F, h, ?_, ?_⟩
  · obtain ⟨r, F', e, h'⟩ := C160_unit hc.real hc.tol hc.maxIter hc.K (by decide) (by decide : 0 < 2) ⟨2, 0, none⟩ pkX pkY2 pkG
      (by rw [pk_cenX]; exact pk_kernel none rfl none rfl) (d := -3) (by norm_num) ![1, 2] (of pkX) _ h
    obtain rfl : 3 = r := congrArg Mat.rows e
    rw [of_inj] at e
    subst e
    exact h'
  · rw [← h]
    exact C160_poly hc (by decide) (by decide) rfl rfl (by norm_num) (fun _ => 7) ⟨2, 0, none⟩ rfl pkX pkY2 pkX

end Verif.Props
