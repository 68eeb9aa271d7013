import Verif.Alg.DiplsFit
import Verif.Props.OplsProps

/-!
# C59, C78, C79: DIPLS; C48 for DIPLS

`DReg` are the guards of one component (`Verif/Alg/DIPLS.lean`): nothing is divided by zero and no singular matrix
is inverted.  `dSt … S k` is the state after `k` components of the textbook recursion started in `S`.
-/

set_option linter.unusedSimpArgs false

namespace Verif.Props

open Verif Mat Transf
open scoped Matrix

variable {s t u p : Nat}

/-- **C59 (messages).** A message is returned exactly for zero or one source or target samples, and it is the message
of that case; this does not depend on the data. -/
theorem C59_messages (cfg : DiplsCfg ℝ) (o : DiplsObj ℝ) (X y : Mat ℝ) (msg : String) :
    diplsPerform cfg o X y = .ok (.message msg) ↔
      ((o.ns = 0 ∨ o.nt = 0) ∧ msg = msgNoInit) ∨
      (o.ns ≠ 0 ∧ o.nt ≠ 0 ∧ (o.ns = 1 ∨ o.nt = 1) ∧ msg = msgFew) := by
  unfold diplsPerform
  rw [Factory.eye_nat, except_bind_ok]
  by_cases h0 : o.ns = 0 ∨ o.nt = 0
  · rw [if_pos h0]
    constructor
    · intro h
      injection h with h
      injection h with h
      exact .inl ⟨h0, h.symm⟩
    · rintro (⟨_, rfl⟩ | ⟨h1, h2, _⟩)
      · rfl
      · rcases h0 with h | h
        · exact absurd h h1
        · exact absurd h h2
  · rw [if_neg h0]
    by_cases h1 : o.ns = 1 ∨ o.nt = 1
    · rw [if_pos h1]
      constructor
      · intro h
        injection h with h
        injection h with h
        exact .inr ⟨fun e => h0 (.inl e), fun e => h0 (.inr e), h1, h.symm⟩
      · rintro (⟨h, _⟩ | ⟨_, _, _, rfl⟩)
        · exact absurd h h0
        · rfl
    · rw [if_neg h1]
      constructor
      · intro h
        exfalso
        cases hs : diplsSelect o X with
        | error e => rw [hs] at h; cases h
        | ok v =>
          rw [hs, except_bind_ok] at h
          cases hf : diplsFit cfg o (of (1 : Matrix (Fin X.cols) (Fin X.cols) ℝ)) v.1 v.2.1 v.2.2 y with
          | error e => rw [hf] at h; cases h
          | ok m => rw [hf, except_bind_ok] at h; injection h with h; cases h
      · rintro (⟨h, _⟩ | ⟨_, _, h, _⟩)
        · exact absurd h h0
        · exact absurd h h1

/-- An object that has only been constructed and initialised without data reports the missing counts. -/
example (cfg : DiplsCfg ℝ) (X y : Mat ℝ) : diplsPerform cfg diplsFresh X y = .ok (.message msgNoInit) :=
  (C59_messages cfg diplsFresh X y _).2 (.inl ⟨.inl rfl, rfl⟩)

/-- **C59 (rows).** The source rows are the first `ns` rows.  With `ns + nt` rows the target rows are the other
`nt`; the unsupervised strategy trains on the source rows and the supervised one on all rows. -/
theorem C59_rows (A : Matrix (Fin s) (Fin p) ℝ) (B : Matrix (Fin t) (Fin p) ℝ) (o : DiplsObj ℝ) :
    diplsSelect { o with ns := s, nt := t, strategy := some .unsupervised } (of (stack A B)) =
      .ok (of A, of B, of A) ∧
    diplsSelect { o with ns := s, nt := t, strategy := some .supervised } (of (stack A B)) =
      .ok (of A, of B, of (stack A B)) := by
  constructor
  · unfold diplsSelect
    simp only []
    rw [rows_top, rows_bot]
    rfl
  · unfold diplsSelect
    simp only []
    rw [rows_top, rows_bot]
    rfl

/-- The result of training from the three blocks. -/
theorem perform_of (cfg : DiplsCfg ℝ) (o : DiplsObj ℝ) (hs : 2 ≤ o.ns) (ht : 2 ≤ o.nt) (X y Xs Xt X' : Mat ℝ)
    (h : diplsSelect o X = .ok (Xs, Xt, X')) :
    diplsPerform cfg o X y = (do
      let m ← diplsFit cfg o (of (1 : Matrix (Fin X.cols) (Fin X.cols) ℝ)) Xs Xt X' y
      .ok (.trained m)) := by
  unfold diplsPerform
  rw [Factory.eye_nat, except_bind_ok, if_neg (by omega), if_neg (by omega), h, except_bind_ok]

/-- The start of the recursion in the unsupervised strategy. -/
noncomputable def unsupState (Xs : Matrix (Fin s) (Fin p) ℝ) (Xt : Matrix (Fin t) (Fin p) ℝ)
    (ys : Matrix (Fin s) (Fin 1) ℝ) : DState s s t p := ⟨cen Xs Xs, cen Xs Xs, cen Xt Xt, cen ys ys⟩

/-- The start of the recursion in the supervised strategy. -/
noncomputable def supState (Xs : Matrix (Fin s) (Fin p) ℝ) (Xt : Matrix (Fin t) (Fin p) ℝ)
    (ys : Matrix (Fin s) (Fin 1) ℝ) (yt : Matrix (Fin t) (Fin 1) ℝ) : DState (s + t) s t p :=
  ⟨cen (stack Xs Xt) (stack Xs Xt), cen Xs Xs, cen Xt Xt, cen (stack ys yt) (stack ys yt)⟩

/-- The trained model. -/
noncomputable def trainedOf {n s' t' : Nat} (cfg : DiplsCfg ℝ) (st : Strategy) (ns nt : Nat) (cx cs ct : CenterState ℝ)
    (b0 : ℝ) (K : Nat) (S : DState n s' t' p) : DiplsModel ℝ :=
  ⟨⟨some st, ns, nt, some cx, some cs, some ct⟩, b0, dVars cfg.lambda ns nt S K, of (dB cfg.lambda ns nt K S)⟩

/-- An initialised object: the three `Center` objects exist and are not fitted. -/
def Initialised (o : DiplsObj ℝ) : Prop :=
  o.xc = some center.init ∧ o.xsc = some center.init ∧ o.xtc = some center.init

/-- **C59 (unsupervised).** For every source and target of at least two rows, unsupervised initialisation trains on
the given source and target samples: it never returns a message, and under the guards it succeeds. -/
theorem C59_unsupervised {cfg : DiplsCfg ℝ} (hinv : IsInv cfg.inv) (o : DiplsObj ℝ) (ho : Initialised o)
    (hs : 2 ≤ s) (ht : 2 ≤ t) (K : Nat) (hK : 0 < K) (hcfg : cfg.K = K)
    (Xs : Matrix (Fin s) (Fin p) ℝ) (Xt : Matrix (Fin t) (Fin p) ℝ) (ys : Matrix (Fin s) (Fin 1) ℝ)
    (h : ∀ k < K, DReg cfg.lambda s t (dSt cfg.lambda s t (unsupState Xs Xt ys) k)) :
    diplsUnsupervised cfg o (of Xs) (of Xt) (of ys) = .ok (.trained
      (trainedOf cfg .unsupervised s t (cenState Xs) (cenState Xs) (cenState Xt) (mu fun i => ys i 0) K
        (unsupState Xs Xt ys))) := by
  obtain ⟨h1, h2, h3⟩ := ho
  unfold diplsUnsupervised
  rw [concatRows_stack, except_bind_ok,
    perform_of cfg { o with ns := s, nt := t, strategy := some .unsupervised } hs ht _ _ _ _ _ (C59_rows Xs Xt o).1]
  rw [diplsFit_eq hinv _ K hK hcfg Xs (cen Xs Xs) Xs (cen Xs Xs) Xt (cen Xt Xt) ys (cenState Xs) (cenState Xs)
    (cenState Xt) (by rw [h1]; exact optCentre_fresh Xs) (by rw [h2]; exact optCentre_fresh Xs)
    (by rw [h3]; exact optCentre_fresh Xt) h]
  rfl

/-- **C59 (supervised).** The same for the supervised strategy, which trains on all rows. -/
theorem C59_supervised {cfg : DiplsCfg ℝ} (hinv : IsInv cfg.inv) (o : DiplsObj ℝ) (ho : Initialised o)
    (hs : 2 ≤ s) (ht : 2 ≤ t) (K : Nat) (hK : 0 < K) (hcfg : cfg.K = K)
    (Xs : Matrix (Fin s) (Fin p) ℝ) (Xt : Matrix (Fin t) (Fin p) ℝ) (ys : Matrix (Fin s) (Fin 1) ℝ)
    (yt : Matrix (Fin t) (Fin 1) ℝ)
    (h : ∀ k < K, DReg cfg.lambda s t (dSt cfg.lambda s t (supState Xs Xt ys yt) k)) :
    diplsSupervised cfg o (of Xs) (of Xt) (of ys) (of yt) = .ok (.trained
      (trainedOf cfg .supervised s t (cenState (stack Xs Xt)) (cenState Xs) (cenState Xt)
        (mu fun i => stack ys yt i 0) K (supState Xs Xt ys yt))) := by
  obtain ⟨h1, h2, h3⟩ := ho
  unfold diplsSupervised
  rw [concatRows_stack, except_bind_ok, concatRows_stack, except_bind_ok,
    perform_of cfg { o with ns := s, nt := t, strategy := some .supervised } hs ht _ _ _ _ _ (C59_rows Xs Xt o).2]
  rw [diplsFit_eq hinv _ K hK hcfg (stack Xs Xt) (cen (stack Xs Xt) (stack Xs Xt)) Xs (cen Xs Xs) Xt (cen Xt Xt)
    (stack ys yt) (cenState (stack Xs Xt)) (cenState Xs)
    (cenState Xt) (by rw [h1]; exact optCentre_fresh _) (by rw [h2]; exact optCentre_fresh Xs)
    (by rw [h3]; exact optCentre_fresh Xt) h]
  rfl

/-- Rows selected by the semi-supervised strategy with `ns` and `nt` labelled and `u` unlabelled target rows. -/
theorem semi_select (A : Matrix (Fin s) (Fin p) ℝ) (B : Matrix (Fin t) (Fin p) ℝ) (C : Matrix (Fin u) (Fin p) ℝ)
    (o : DiplsObj ℝ) :
    diplsSelect { o with ns := s, nt := t, strategy := some .semisupervised } (of (stack (stack A B) C)) = (do
      let X ← (of (stack (stack A B) C)).getRows (.tuple 0 (2 * (s : Int)))
      .ok (of A, of (stack B C), X)) := by
  have e1 : (of (stack (stack A B) C)).getRows (.tuple 0 (s : Int)) = .ok (of A) := by
    have h := getSubMatrix_rows (stack (stack A B) C) 0 s (by omega) (by omega)
    rw [Int.natCast_zero] at h
    rw [h, ok_inj]
    refine mk_eq (by omega) rfl fun i j => ?_
    have hi := i.2
    have e : (⟨0 + i.1, by omega⟩ : Fin (s + t + u)) = Fin.castAdd u (Fin.castAdd t ⟨i.1, by omega⟩) :=
      Fin.ext (Nat.zero_add _)
    simp only [Matrix.of_apply, stack]
    rw [e, Fin.addCases_left, Fin.addCases_left]
    rfl
  have e2 : (of (stack (stack A B) C)).getRows (.tuple (s : Int) ((of (stack (stack A B) C)).rows : Int)) =
      .ok (of (stack B C)) := by
    have h := getSubMatrix_rows (stack (stack A B) C) s (s + t + u) (by omega) (by omega)
    show (of (stack (stack A B) C)).getRows (.tuple (s : Int) ((s + t + u : Nat) : Int)) = _
    rw [h, ok_inj]
    refine mk_eq (by omega) rfl fun i j => ?_
    have hi := i.2
    simp only [Matrix.of_apply]
    rcases lt_or_ge i.1 t with hit | hit
    · have e : (⟨s + i.1, by omega⟩ : Fin (s + t + u)) = Fin.castAdd u (Fin.natAdd s ⟨i.1, hit⟩) := rfl
      have e' : (Fin.cast (by omega) i : Fin (t + u)) = Fin.castAdd u ⟨i.1, hit⟩ := rfl
      simp only [stack, Matrix.of_apply]
      rw [e, Fin.addCases_left, Fin.addCases_right, e', Fin.addCases_left]
      rfl
    · have e : (⟨s + i.1, by omega⟩ : Fin (s + t + u)) = Fin.natAdd (s + t) ⟨i.1 - t, by omega⟩ :=
        Fin.ext (by simp only [Fin.natAdd_mk]; omega)
      have e' : (Fin.cast (by omega) i : Fin (t + u)) = Fin.natAdd t ⟨i.1 - t, by omega⟩ :=
        Fin.ext (by simp only [Fin.natAdd_mk, Fin.val_cast]; omega)
      simp only [stack, Matrix.of_apply]
      rw [e, Fin.addCases_right, e', Fin.addCases_right]
      rfl
  unfold diplsSelect
  simp only []
  rw [e1, except_bind_ok, e2, except_bind_ok]

/-- **C59 is violated in the semi-supervised strategy.** The code takes `2 ns` training rows instead of `ns + nt`.
With different numbers of labelled source and target samples (each at least two) training raises an exception for
all data: `ValueError`, or `IndexError` if there are not even `2 ns` rows. -/
theorem C59_semisupervised_violation (cfg : DiplsCfg ℝ) (o : DiplsObj ℝ) (ho : Initialised o)
    (hs : 2 ≤ s) (ht : 2 ≤ t) (hst : s ≠ t) (K : Nat) (hK : 0 < K) (hcfg : cfg.K = K)
    (Xs : Matrix (Fin s) (Fin p) ℝ) (Xt : Matrix (Fin t) (Fin p) ℝ) (Xu : Matrix (Fin u) (Fin p) ℝ)
    (ys : Matrix (Fin s) (Fin 1) ℝ) (yt : Matrix (Fin t) (Fin 1) ℝ) :
    diplsSemisupervised cfg o (of Xs) (of Xt) (of Xu) (of ys) (of yt) =
      .error (if 2 * s ≤ s + t + u then .valueError else .indexError) := by
  obtain ⟨h1, h2, h3⟩ := ho
  unfold diplsSemisupervised
  rw [concatRows_stack, except_bind_ok, concatRows_stack, except_bind_ok, concatRows_stack, except_bind_ok]
  have hsel := semi_select Xs Xt Xu o
  by_cases h : 2 * s ≤ s + t + u
  · rw [if_pos h]
    obtain ⟨B, hB, _⟩ := rows_typed (stack (stack Xs Xt) Xu) (2 * s) h
    rw [show ((2 * s : Nat) : Int) = 2 * (s : Int) by push_cast; rfl] at hB
    rw [hB, except_bind_ok] at hsel
    rw [perform_of cfg { o with ns := s, nt := t, strategy := some .semisupervised } hs ht _ _ _ _ _ hsel]
    rw [diplsFit_rows _ K hK hcfg B (cen B B) Xs (cen Xs Xs) (stack Xt Xu) (cen (stack Xt Xu) (stack Xt Xu))
      (stack ys yt) (cenState B) (cenState Xs)
      (cenState (stack Xt Xu)) (by rw [h1]; exact optCentre_fresh _) (by rw [h2]; exact optCentre_fresh Xs)
      (by rw [h3]; exact optCentre_fresh _) (by omega)]
    rfl
  · rw [if_neg h]
    have hb := rows_beyond (of (stack (stack Xs Xt) Xu)) (2 * s) (show s + t + u < 2 * s by omega)
    rw [show ((2 * s : Nat) : Int) = 2 * (s : Int) by push_cast; rfl] at hb
    rw [hb] at hsel
    unfold diplsPerform
    rw [Factory.eye_nat, except_bind_ok]
    simp only []
    rw [if_neg (by show ¬(s = 0 ∨ t = 0); omega), if_neg (by show ¬(s = 1 ∨ t = 1); omega), hsel]
    rfl

/-- The start of the recursion in the semi-supervised strategy for equally many labelled source and target rows. -/
noncomputable def semiState (Xs Xt : Matrix (Fin s) (Fin p) ℝ) (Xu : Matrix (Fin u) (Fin p) ℝ)
    (ys yt : Matrix (Fin s) (Fin 1) ℝ) : DState (s + s) s (s + u) p :=
  ⟨cen (stack Xs Xt) (stack Xs Xt), cen Xs Xs, cen (stack Xt Xu) (stack Xt Xu), cen (stack ys yt) (stack ys yt)⟩

/-- **C59, the part of the semi-supervised strategy that holds.** With equally many labelled source and target rows
training uses the labelled rows for the fit, and all target rows (labelled and unlabelled) for the target
covariance, which it divides by `nt - 1`. -/
theorem C59_semisupervised_partial {cfg : DiplsCfg ℝ} (hinv : IsInv cfg.inv) (o : DiplsObj ℝ) (ho : Initialised o)
    (hs : 2 ≤ s) (K : Nat) (hK : 0 < K) (hcfg : cfg.K = K)
    (Xs Xt : Matrix (Fin s) (Fin p) ℝ) (Xu : Matrix (Fin u) (Fin p) ℝ) (ys yt : Matrix (Fin s) (Fin 1) ℝ)
    (h : ∀ k < K, DReg cfg.lambda s s (dSt cfg.lambda s s (semiState Xs Xt Xu ys yt) k)) :
    diplsSemisupervised cfg o (of Xs) (of Xt) (of Xu) (of ys) (of yt) = .ok (.trained
      (trainedOf cfg .semisupervised s s (cenState (stack Xs Xt)) (cenState Xs) (cenState (stack Xt Xu))
        (mu fun i => stack ys yt i 0) K (semiState Xs Xt Xu ys yt))) := by
  obtain ⟨h1, h2, h3⟩ := ho
  unfold diplsSemisupervised
  rw [concatRows_stack, except_bind_ok, concatRows_stack, except_bind_ok, concatRows_stack, except_bind_ok]
  have hsel := semi_select Xs Xt Xu o
  have hB := rows_top (stack Xs Xt) Xu
  rw [show ((s + s : Nat) : Int) = 2 * (s : Int) by push_cast; ring] at hB
  rw [hB, except_bind_ok] at hsel
  rw [perform_of cfg { o with ns := s, nt := s, strategy := some .semisupervised } hs hs _ _ _ _ _ hsel]
  rw [diplsFit_eq hinv _ K hK hcfg (stack Xs Xt) (cen (stack Xs Xt) (stack Xs Xt)) Xs (cen Xs Xs) (stack Xt Xu)
    (cen (stack Xt Xu) (stack Xt Xu)) (stack ys yt) (cenState (stack Xs Xt)) (cenState Xs)
    (cenState (stack Xt Xu)) (by rw [h1]; exact optCentre_fresh _) (by rw [h2]; exact optCentre_fresh Xs)
    (by rw [h3]; exact optCentre_fresh _) h]
  rfl

/-! ## C78: the regression -/

section regression
variable {n s' t' : Nat} {cfg : DiplsCfg ℝ} {ns nt K : Nat} {S : DState n s' t' p}

/-- **C78 (weights).** Every weight vector has unit length, and before normalisation it solves
`(I + lambda / (2 |y|^2) (cov_s - cov_t)) w = X^T y / |y|^2`: the trade-off between covariance with the response and
difference of the domain covariances. -/
theorem C78_weights (lam : ℝ) (h : DReg lam ns nt S) :
    sq1 (dW lam ns nt S) = 1 ∧
    (1 + (lam / (2 * sq1 S.y)) • ((1 / ((ns : ℝ) - 1)) • (S.Xsᵀ * S.Xs) - (1 / ((nt : ℝ) - 1)) • (S.Xtᵀ * S.Xt))) *
      dRaw lam ns nt S = (sq1 S.y)⁻¹ • (S.Xᵀ * S.y) := by
  constructor
  · refine sq1_nrm _ fun h0 => h.t ?_
    rw [dW, h0, nrm, smul_zero, Matrix.mul_zero]
    simp [sq1]
  · show dM lam ns nt S * dRaw lam ns nt S = _
    have hsym : (dM lam ns nt S)ᵀ = dM lam ns nt S := by
      rw [dM, Matrix.transpose_add, Matrix.transpose_one, Matrix.transpose_smul, Matrix.transpose_sub,
        Matrix.transpose_smul, Matrix.transpose_smul, Matrix.transpose_mul, Matrix.transpose_transpose,
        Matrix.transpose_mul, Matrix.transpose_transpose]
    rw [dRaw, Matrix.transpose_mul, Matrix.transpose_nonsing_inv, hsym, ← Matrix.mul_assoc,
      Matrix.mul_nonsing_inv _ (isUnit_iff_ne_zero.2 h.det), Matrix.one_mul, Matrix.transpose_smul,
      Matrix.transpose_mul, Matrix.transpose_transpose]

/-- **C78 (scores).** The scores `T` are mutually orthogonal and none is zero, and they are the centred training rows
times `W (P^T W)^-1`. -/
theorem C78_scores (h : ∀ k < K, DReg cfg.lambda ns nt (dSt cfg.lambda ns nt S k)) :
    (∃ d : Fin K → ℝ, (∀ k, d k ≠ 0) ∧
      (dTM cfg.lambda ns nt K S)ᵀ * dTM cfg.lambda ns nt K S = Matrix.diagonal d) ∧
    dTM cfg.lambda ns nt K S = S.X * (dWM cfg.lambda ns nt K S *
      ((dPM cfg.lambda ns nt K S)ᵀ * dWM cfg.lambda ns nt K S)⁻¹) := by
  obtain ⟨wf, hn, h1, h2, h3, h4⟩ := d_pls cfg.lambda ns nt K S h
  rw [h1, h2, h3]
  exact ⟨⟨_, fun k => hn k.1 k.2, plsTM_gram wf K S.X hn⟩, by rw [← plsSM_eq wf K S.X S.X hn, plsSM_train]⟩

/-- **C78 (fit).** The regression coefficients reproduce the least-squares fit of the centred response on the scores:
on the centred training rows `X b = T c`, the residual is orthogonal to the scores, and no other combination of the
scores fits better. -/
theorem C78_fit (h : ∀ k < K, DReg cfg.lambda ns nt (dSt cfg.lambda ns nt S k)) :
    S.X * dB cfg.lambda ns nt K S = dTM cfg.lambda ns nt K S * dCM cfg.lambda ns nt K S ∧
    (dTM cfg.lambda ns nt K S)ᵀ * (S.y - S.X * dB cfg.lambda ns nt K S) = 0 ∧
    ∀ c : Matrix (Fin K) (Fin 1) ℝ,
      sq1 (S.y - S.X * dB cfg.lambda ns nt K S) ≤ sq1 (S.y - dTM cfg.lambda ns nt K S * c) := by
  have hfit : S.X * dB cfg.lambda ns nt K S = dTM cfg.lambda ns nt K S * dCM cfg.lambda ns nt K S := by
    rw [(C78_scores h).2, dB, ← Matrix.mul_assoc]
  obtain ⟨wf, hn, h1, h2, h3, h4⟩ := d_pls cfg.lambda ns nt K S h
  have hr : (dTM cfg.lambda ns nt K S)ᵀ * (S.y - dTM cfg.lambda ns nt K S * dCM cfg.lambda ns nt K S) = 0 := by
    rw [h2, h4]
    exact pls_resid wf K S.X S.y hn
  refine ⟨hfit, by rw [hfit]; exact hr, fun c => ?_⟩
  rw [hfit]
  exact lsq_of_orth _ _ _ _ hr

/-- **C78 (prediction).** Predictions are `(Z - m) b + mean(y)`, where `m` are the means of the target rows in the
unsupervised strategy and the means of the training rows otherwise. -/
theorem C78_predict {n' r : Nat} (st : Strategy) (A : Matrix (Fin n') (Fin p) ℝ) (As : Matrix (Fin s') (Fin p) ℝ)
    (At : Matrix (Fin t') (Fin p) ℝ) (b0 : ℝ) (Z : Matrix (Fin r) (Fin p) ℝ) :
    diplsPredict (trainedOf cfg st ns nt (cenState A) (cenState As) (cenState At) b0 K S) (of Z) =
      .ok (of (Matrix.of fun i j =>
        ((if st = .unsupervised then cen At Z else cen A Z) * dB cfg.lambda ns nt K S) i j + b0)) := by
  unfold diplsPredict
  cases st
  all_goals
    simp only [trainedOf, optCentre_stale, except_bind_ok, mul_of, addScalar, map_of, if_true]
    try rfl

end regression

/-- **C78 (training data).** Supervised: the predictions of the training rows differ from the responses by the residual
of the fit, so they are `mean(y) + T c`. -/
theorem C78_predict_training {cfg : DiplsCfg ℝ} {K : Nat} (Xs : Matrix (Fin s) (Fin p) ℝ) (Xt : Matrix (Fin t) (Fin p) ℝ)
    (ys : Matrix (Fin s) (Fin 1) ℝ) (yt : Matrix (Fin t) (Fin 1) ℝ)
    (h : ∀ k < K, DReg cfg.lambda s t (dSt cfg.lambda s t (supState Xs Xt ys yt) k)) :
    diplsPredict (trainedOf cfg .supervised s t (cenState (stack Xs Xt)) (cenState Xs) (cenState Xt)
        (mu fun i => stack ys yt i 0) K (supState Xs Xt ys yt)) (of (stack Xs Xt)) =
      .ok (of (Matrix.of fun i j => (dTM cfg.lambda s t K (supState Xs Xt ys yt) *
        dCM cfg.lambda s t K (supState Xs Xt ys yt)) i j + mu fun i => stack ys yt i 0)) := by
  rw [C78_predict, ← (C78_fit h).1]
  rfl

/-! ## C79: transform of the training data -/

/-- `transform` is the centred data times `W`. -/
theorem transform_eq {n s' t' r K : Nat} (hK : 0 < K) {cfg : DiplsCfg ℝ} (st : Strategy) (ns nt : Nat)
    (A : Matrix (Fin n) (Fin p) ℝ) (cs ct : CenterState ℝ) (b0 : ℝ) (S : DState n s' t' p) (Z : Matrix (Fin r) (Fin p) ℝ) :
    diplsTransform (trainedOf cfg st ns nt (cenState A) cs ct b0 K S) (of Z) =
      .ok (of (cen A Z * dWM cfg.lambda ns nt K S)) := by
  obtain ⟨k, rfl⟩ : ∃ k, K = k + 1 := ⟨K - 1, by omega⟩
  unfold diplsTransform
  have hw : unNone (trainedOf cfg st ns nt (cenState A) cs ct b0 (k + 1) S).vars.W =
      .ok (of (dWM cfg.lambda ns nt (k + 1) S)) := rfl
  rw [hw]
  simp only [trainedOf, optCentre_stale, except_bind_ok, mul_of]

/-- **C79, the part that holds.** Transforming the training rows gives `T (P^T W)`: a matrix from which the scores can
be recovered, whose first column is the first score. -/
theorem C79_partial {K : Nat} (hK : 0 < K) {cfg : DiplsCfg ℝ} (Xs : Matrix (Fin s) (Fin p) ℝ)
    (Xt : Matrix (Fin t) (Fin p) ℝ) (ys : Matrix (Fin s) (Fin 1) ℝ) (yt : Matrix (Fin t) (Fin 1) ℝ)
    (h : ∀ k < K, DReg cfg.lambda s t (dSt cfg.lambda s t (supState Xs Xt ys yt) k)) :
    ∃ R : Matrix (Fin (s + t)) (Fin K) ℝ,
      diplsTransform (trainedOf cfg .supervised s t (cenState (stack Xs Xt)) (cenState Xs) (cenState Xt)
        (mu fun i => stack ys yt i 0) K (supState Xs Xt ys yt)) (of (stack Xs Xt)) = .ok (of R) ∧
      R = dTM cfg.lambda s t K (supState Xs Xt ys yt) *
        ((dPM cfg.lambda s t K (supState Xs Xt ys yt))ᵀ * dWM cfg.lambda s t K (supState Xs Xt ys yt)) ∧
      ∀ i, R i ⟨0, hK⟩ = dTM cfg.lambda s t K (supState Xs Xt ys yt) i ⟨0, hK⟩ := by
  refine ⟨cen (stack Xs Xt) (stack Xs Xt) * dWM cfg.lambda s t K (supState Xs Xt ys yt),
    transform_eq hK .supervised s t (stack Xs Xt) (cenState Xs) (cenState Xt) _ (supState Xs Xt ys yt) (stack Xs Xt),
    ?_, fun i => ?_⟩
  · have h1 := (C78_scores h).2
    rw [h1, Matrix.mul_assoc, Matrix.mul_assoc, Matrix.nonsing_inv_mul, Matrix.mul_one]
    · rfl
    · rw [d_det cfg.lambda s t K _ h]
      exact isUnit_one
  · simp only [Matrix.mul_apply, dWM, dTM, Matrix.of_apply]
    rfl

/-! ### Data with two components -/

/-- Source and target predictors. -/
def dxA : Matrix (Fin 3) (Fin 2) ℝ := !![1, 1; -1, -2; 0, 1]
/-- Source and target response. -/
def dxY : Matrix (Fin 3) (Fin 1) ℝ := !![1; 0; -1]
/-- The predictors after one component. -/
noncomputable def dxA1 : Matrix (Fin 3) (Fin 2) ℝ := !![0, -1/2; 0, -1/2; 0, 1]
/-- The response after one component. -/
noncomputable def dxY1 : Matrix (Fin 3) (Fin 1) ℝ := !![1/2; 1/2; -1]

theorem cen_of_zero {n p : Nat} (A : Matrix (Fin n) (Fin p) ℝ) (h : ∀ j, ∑ i, A i j = 0) : cen A A = A := by
  ext i j
  simp [cen, mu, h j]

theorem stack_top {s t p : Nat} (A : Matrix (Fin s) (Fin p) ℝ) (B : Matrix (Fin t) (Fin p) ℝ) (i : Fin s) (j : Fin p) :
    stack A B (Fin.castAdd t i) j = A i j := by
  rw [stack, Matrix.of_apply, Fin.addCases_left]

theorem stack_bot {s t p : Nat} (A : Matrix (Fin s) (Fin p) ℝ) (B : Matrix (Fin t) (Fin p) ℝ) (i : Fin t) (j : Fin p) :
    stack A B (Fin.natAdd s i) j = B i j := by
  rw [stack, Matrix.of_apply, Fin.addCases_right]

theorem stack_sum {s t p : Nat} (A : Matrix (Fin s) (Fin p) ℝ) (B : Matrix (Fin t) (Fin p) ℝ) (j : Fin p) :
    ∑ i, stack A B i j = ∑ i, A i j + ∑ i, B i j := by
  rw [Fin.sum_univ_add]
  simp [stack]

theorem stack_mul {s t p q : Nat} (A : Matrix (Fin s) (Fin p) ℝ) (B : Matrix (Fin t) (Fin p) ℝ)
    (w : Matrix (Fin p) (Fin q) ℝ) : stack A B * w = stack (A * w) (B * w) := by
  ext i j
  refine Fin.addCases (fun b => ?_) (fun b => ?_) i
  · simp [stack, Matrix.mul_apply]
  · simp [stack, Matrix.mul_apply]

theorem stack_gram {s t p q : Nat} (A : Matrix (Fin s) (Fin p) ℝ) (B : Matrix (Fin t) (Fin p) ℝ)
    (C : Matrix (Fin s) (Fin q) ℝ) (D : Matrix (Fin t) (Fin q) ℝ) :
    (stack A B)ᵀ * stack C D = Aᵀ * C + Bᵀ * D := by
  ext i j
  simp only [Matrix.mul_apply, Matrix.transpose_apply, Matrix.add_apply]
  rw [Fin.sum_univ_add]
  simp [stack]

theorem sq1_stack {s t : Nat} (v : Matrix (Fin s) (Fin 1) ℝ) (w : Matrix (Fin t) (Fin 1) ℝ) :
    sq1 (stack v w) = sq1 v + sq1 w := by
  rw [← sq1_eq, stack_gram, Matrix.add_apply, sq1_eq, sq1_eq]

theorem deflate_stack {s p : Nat} (A : Matrix (Fin s) (Fin p) ℝ) (v : Matrix (Fin s) (Fin 1) ℝ) :
    deflate (stack A A) (stack v v) = stack (deflate A v) (deflate A v) := by
  rw [deflate_eq, deflate_eq, stack_gram, sq1_stack]
  have : (sq1 v + sq1 v)⁻¹ • (stack v v * (vᵀ * A + vᵀ * A)) =
      stack ((sq1 v)⁻¹ • (v * (vᵀ * A))) ((sq1 v)⁻¹ • (v * (vᵀ * A))) := by
    rw [stack_mul, ← two_smul ℝ (vᵀ * A), Matrix.mul_smul]
    have hc : (sq1 v + sq1 v)⁻¹ * 2 = (sq1 v)⁻¹ := by
      by_cases h : sq1 v = 0
      · rw [h]; simp
      · field_simp; ring
    ext i j
    refine Fin.addCases (fun b => ?_) (fun b => ?_) i
    · simp only [Matrix.smul_apply, stack_top, smul_eq_mul, ← mul_assoc, hc]
    · simp only [Matrix.smul_apply, stack_bot, smul_eq_mul, ← mul_assoc, hc]
  rw [this]
  ext i j
  refine Fin.addCases (fun b => ?_) (fun b => ?_) i
  · simp only [Matrix.sub_apply, Matrix.smul_apply, stack_top]
  · simp only [Matrix.sub_apply, Matrix.smul_apply, stack_bot]

/-- Source and target agree: the weights are those of PLS1. -/
theorem dW_twin {s p : Nat} (lam : ℝ) (A : Matrix (Fin s) (Fin p) ℝ) (y : Matrix (Fin s) (Fin 1) ℝ)
    (hy : sq1 y ≠ 0) : dM lam s s (⟨stack A A, A, A, stack y y⟩ : DState (s + s) s s p) = 1 ∧
    dW lam s s (⟨stack A A, A, A, stack y y⟩ : DState (s + s) s s p) = nrm (Aᵀ * y) := by
  have h1 : dM lam s s (⟨stack A A, A, A, stack y y⟩ : DState (s + s) s s p) = 1 := by
    simp [dM]
  refine ⟨h1, ?_⟩
  have hp : 0 < (sq1 (stack y y))⁻¹ * 2 := by
    rw [sq1_stack]
    have : 0 < sq1 y := lt_of_le_of_ne (sq1_nonneg y) (Ne.symm hy)
    positivity
  rw [dW, dRaw, h1, inv_one, Matrix.mul_one, Matrix.transpose_smul, Matrix.transpose_mul,
    Matrix.transpose_transpose, stack_gram, ← two_smul ℝ (Aᵀ * y), smul_smul, nrm_smul hp]

/-- The next state for agreeing domains. -/
theorem dNext_twin {s p : Nat} (lam : ℝ) (A : Matrix (Fin s) (Fin p) ℝ) (y : Matrix (Fin s) (Fin 1) ℝ)
    (hy : sq1 y ≠ 0) : dNext lam s s (⟨stack A A, A, A, stack y y⟩ : DState (s + s) s s p) =
    ⟨stack (deflate A (A * nrm (Aᵀ * y))) (deflate A (A * nrm (Aᵀ * y))), deflate A (A * nrm (Aᵀ * y)),
      deflate A (A * nrm (Aᵀ * y)),
      stack (y - ((∑ l, (A * nrm (Aᵀ * y)) l 0 * y l 0) / sq1 (A * nrm (Aᵀ * y))) • (A * nrm (Aᵀ * y)))
        (y - ((∑ l, (A * nrm (Aᵀ * y)) l 0 * y l 0) / sq1 (A * nrm (Aᵀ * y))) • (A * nrm (Aᵀ * y)))⟩ := by
  rw [dNext]
  simp only [(dW_twin lam A y hy).2]
  rw [stack_mul, deflate_stack]
  congr 1
  rw [dC, sq1_stack]
  have hs : ∑ l, stack (A * nrm (Aᵀ * y)) (A * nrm (Aᵀ * y)) l 0 * stack y y l 0 =
      2 * ∑ l, (A * nrm (Aᵀ * y)) l 0 * y l 0 := by
    rw [Fin.sum_univ_add]
    simp only [stack_top, stack_bot, two_mul]
  simp only []
  rw [hs]
  have hc : ∀ a b : ℝ, 2 * a / (b + b) = a / b := by
    intro a b
    by_cases hb : b = 0
    · rw [hb]; simp
    · field_simp; ring
  rw [hc]
  ext i j
  refine Fin.addCases (fun b => ?_) (fun b => ?_) i
  · simp only [Matrix.sub_apply, Matrix.smul_apply, stack_top]
  · simp only [Matrix.sub_apply, Matrix.smul_apply, stack_bot]

theorem dxW : nrm (dxAᵀ * dxY) = !![1; 0] := by
  have : dxAᵀ * dxY = !![1; 0] := by
    ext i j
    simp only [Matrix.mul_apply, Matrix.transpose_apply, Fin.sum_univ_three]
    fin_cases i <;> fin_cases j <;> (simp [dxA, dxY]; try norm_num)
  rw [this]
  exact nrm_unit _ (by simp [sq1])

theorem dxT : dxA * (!![1; 0] : Matrix (Fin 2) (Fin 1) ℝ) = (!![1; -1; 0] : Matrix (Fin 3) (Fin 1) ℝ) := by
  ext i j
  simp only [Matrix.mul_apply, Fin.sum_univ_two]
  fin_cases i <;> fin_cases j <;> simp [dxA]

theorem dxA1_eq : deflate dxA (!![1; -1; 0] : Matrix (Fin 3) (Fin 1) ℝ) = dxA1 := by
  ext i j
  simp only [deflate, loading, Matrix.sub_apply, Matrix.mul_apply, Matrix.transpose_apply, Matrix.of_apply, sq1,
    Fin.sum_univ_three, Fin.sum_univ_one]
  fin_cases i <;> fin_cases j <;> (simp [dxA, dxA1]; try norm_num)

theorem dxY1_eq : dxY - ((∑ l, (!![1; -1; 0] : Matrix (Fin 3) (Fin 1) ℝ) l 0 * dxY l 0) /
    sq1 (!![1; -1; 0] : Matrix (Fin 3) (Fin 1) ℝ)) • (!![1; -1; 0] : Matrix (Fin 3) (Fin 1) ℝ) = dxY1 := by
  ext i j
  simp only [sq1, Fin.sum_univ_three, Matrix.sub_apply, Matrix.smul_apply]
  fin_cases i <;> fin_cases j <;> (simp [dxY, dxY1]; try norm_num)

theorem dxW1 : nrm (dxA1ᵀ * dxY1) = !![0; -1] := by
  have : dxA1ᵀ * dxY1 = (3 / 2 : ℝ) • !![0; -1] := by
    ext i j
    simp only [Matrix.mul_apply, Matrix.transpose_apply, Fin.sum_univ_three, Matrix.smul_apply]
    fin_cases i <;> fin_cases j <;> (simp [dxA1, dxY1]; try norm_num)
  rw [this, nrm_smul (by norm_num)]
  exact nrm_unit _ (by simp [sq1])

theorem dxT1 : dxA1 * (!![0; -1] : Matrix (Fin 2) (Fin 1) ℝ) = (!![1/2; 1/2; -1] : Matrix (Fin 3) (Fin 1) ℝ) := by
  ext i j
  simp only [Matrix.mul_apply, Fin.sum_univ_two]
  fin_cases i <;> fin_cases j <;> (simp [dxA1]; try norm_num)

theorem dxY_ne : sq1 dxY ≠ 0 := by
  simp [sq1, dxY, Fin.sum_univ_three]

theorem dxY1_ne : sq1 dxY1 ≠ 0 := by
  simp [sq1, dxY1, Fin.sum_univ_three]
  norm_num

/-- The state before the first component. -/
theorem dx_sup : supState dxA dxA dxY dxY = ⟨stack dxA dxA, dxA, dxA, stack dxY dxY⟩ := by
  have hA : ∀ j, ∑ i, dxA i j = 0 := by
    intro j
    rw [Fin.sum_univ_three]
    fin_cases j <;> (simp [dxA]; try norm_num)
  have hY : ∀ j, ∑ i, dxY i j = 0 := by
    intro j
    rw [Fin.sum_univ_three]
    fin_cases j
    simp [dxY]
  rw [supState, cen_of_zero dxA hA, cen_of_zero (stack dxA dxA) fun j => by rw [stack_sum, hA]; simp,
    cen_of_zero (stack dxY dxY) fun j => by rw [stack_sum, hY]; simp]

theorem dx_st1 (lam : ℝ) : dSt lam 3 3 (supState dxA dxA dxY dxY) 1 = ⟨stack dxA1 dxA1, dxA1, dxA1, stack dxY1 dxY1⟩ := by
  show dNext lam 3 3 (supState dxA dxA dxY dxY) = _
  rw [dx_sup, dNext_twin lam dxA dxY dxY_ne, dxW, dxT, dxA1_eq, dxY1_eq]

/-- Two components satisfy the guards. -/
theorem dx_reg (lam : ℝ) : ∀ k < 2, DReg lam 3 3 (dSt lam 3 3 (supState dxA dxA dxY dxY) k) := by
  intro k hk
  rcases (by omega : k = 0 ∨ k = 1) with rfl | rfl
  · show DReg lam 3 3 (supState dxA dxA dxY dxY)
    rw [dx_sup]
    have hw := dW_twin lam dxA dxY dxY_ne
    have ht : sq1 (!![1; -1; 0] : Matrix (Fin 3) (Fin 1) ℝ) = 2 := by
      simp only [sq1, Fin.sum_univ_three]; simp; norm_num
    refine ⟨?_, ?_, ?_, ?_, ?_⟩
    · rw [sq1_stack]
      have := dxY_ne
      intro h0
      exact this (by linarith)
    · rw [hw.1]; simp
    · rw [hw.2, stack_mul, sq1_stack, dxW, dxT, ht]; norm_num
    · rw [hw.2, dxW, dxT, ht]; norm_num
    · rw [hw.2, dxW, dxT, ht]; norm_num
  · rw [dx_st1]
    have hw := dW_twin lam dxA1 dxY1 dxY1_ne
    have ht : sq1 (!![1/2; 1/2; -1] : Matrix (Fin 3) (Fin 1) ℝ) = 3 / 2 := by
      simp only [sq1, Fin.sum_univ_three]; simp; norm_num
    refine ⟨?_, ?_, ?_, ?_, ?_⟩
    · rw [sq1_stack]
      have := dxY1_ne
      intro h0
      exact this (by linarith)
    · rw [hw.1]; simp
    · rw [hw.2, stack_mul, sq1_stack, dxW1, dxT1, ht]; norm_num
    · rw [hw.2, dxW1, dxT1, ht]; norm_num
    · rw [hw.2, dxW1, dxT1, ht]; norm_num

/-- The exact inverse of the library. -/
noncomputable def exactCfg (K : Nat) (lam : ℝ) : DiplsCfg ℝ :=
  ⟨K, lam, inverse fun _ => .error .linAlgError⟩

theorem exactCfg_inv (K : Nat) (lam : ℝ) : IsInv (exactCfg K lam).inv := by
  intro m A h
  show inverse (fun _ => .error .linAlgError) (of A) = _
  exact inverse_of _ A h

/-- The hypotheses of the theorems are met: supervised training with two components succeeds. -/
example : ∃ m, diplsSupervised (exactCfg 2 1) diplsFresh (of dxA) (of dxA) (of dxY) (of dxY) = .ok (.trained m) :=
  ⟨_, C59_supervised (exactCfg_inv 2 1) diplsFresh ⟨rfl, rfl, rfl⟩ (by decide) (by decide) 2 (by decide) rfl _ _ _ _
    (dx_reg 1)⟩

/-- **C79 is violated.** There are data for which transforming the training rows does not give the scores `T` of the
trained model: the second columns differ (first entries `-1` and `1/2`). -/
theorem C79_violation (lam : ℝ) : ∃ m R T,
    diplsSupervised (exactCfg 2 lam) diplsFresh (of dxA) (of dxA) (of dxY) (of dxY) = .ok (.trained m) ∧
    diplsTransform m (of (stack dxA dxA)) = .ok R ∧ m.vars.T = some T ∧
    R.get 0 1 = .ok (-1) ∧ T.get 0 1 = .ok (1 / 2) := by
  refine ⟨_, of (cen (stack dxA dxA) (stack dxA dxA) * dWM lam 3 3 2 (supState dxA dxA dxY dxY)),
    of (dTM lam 3 3 2 (supState dxA dxA dxY dxY)),
    C59_supervised (exactCfg_inv 2 lam) diplsFresh ⟨rfl, rfl, rfl⟩ (by decide) (by decide) 2 (by decide) rfl _ _ _ _
    (dx_reg lam), transform_eq (by decide) _ _ _ _ _ _ _ _ _, rfl, ?_, ?_⟩
  · have hX : cen (stack dxA dxA) (stack dxA dxA) = stack dxA dxA := congrArg DState.X dx_sup
    have hw : dW lam 3 3 (dSt lam 3 3 (supState dxA dxA dxY dxY) 1) = !![0; -1] := by
      rw [dx_st1, (dW_twin lam dxA1 dxY1 dxY1_ne).2, dxW1]
    have hg := get_of (cen (stack dxA dxA) (stack dxA dxA) * dWM lam 3 3 2 (supState dxA dxA dxY dxY)) 0 1
    refine hg.trans (congrArg Except.ok ?_)
    rw [hX, Matrix.mul_apply, Fin.sum_univ_two]
    show stack dxA dxA 0 0 * dW lam 3 3 (dSt lam 3 3 (supState dxA dxA dxY dxY) 1) 0 0 +
      stack dxA dxA 0 1 * dW lam 3 3 (dSt lam 3 3 (supState dxA dxA dxY dxY) 1) 1 0 = -1
    rw [hw]
    have e1 : stack dxA dxA 0 1 = 1 := rfl
    rw [e1]
    simp
  · have hg := get_of (dTM lam 3 3 2 (supState dxA dxA dxY dxY)) 0 1
    refine hg.trans (congrArg Except.ok ?_)
    show ((dSt lam 3 3 (supState dxA dxA dxY dxY) 1).X * dW lam 3 3 (dSt lam 3 3 (supState dxA dxA dxY dxY) 1)) 0 0 =
      1 / 2
    rw [dx_st1, (dW_twin lam dxA1 dxY1 dxY1_ne).2, dxW1, stack_mul, dxT1]
    have e1 : stack (!![1/2; 1/2; -1] : Matrix (Fin 3) (Fin 1) ℝ) (!![1/2; 1/2; -1] : Matrix (Fin 3) (Fin 1) ℝ) 0 0 =
      1 / 2 := rfl
    exact e1

/-! ## C48: retraining -/

/-- **C48 is violated by DIPLS (stale means).** Training does not renew the `Center` objects: a trained object that is
trained again centres the new data with the means of the first training data. -/
theorem C48_dipls_stale {s1 t1 : Nat} {cfg : DiplsCfg ℝ} (hinv : IsInv cfg.inv)
    (A1 : Matrix (Fin s1) (Fin p) ℝ) (B1 : Matrix (Fin t1) (Fin p) ℝ) (m : DiplsModel ℝ)
    (hm : m.obj.xc = some (cenState A1) ∧ m.obj.xsc = some (cenState A1) ∧ m.obj.xtc = some (cenState B1))
    (hs : 2 ≤ s) (ht : 2 ≤ t) (K : Nat) (hK : 0 < K) (hcfg : cfg.K = K)
    (Xs : Matrix (Fin s) (Fin p) ℝ) (Xt : Matrix (Fin t) (Fin p) ℝ) (ys : Matrix (Fin s) (Fin 1) ℝ)
    (h : ∀ k < K, DReg cfg.lambda s t (dSt cfg.lambda s t
      (⟨cen A1 Xs, cen A1 Xs, cen B1 Xt, cen ys ys⟩ : DState s s t p) k)) :
    diplsUnsupervised cfg m.obj (of Xs) (of Xt) (of ys) = .ok (.trained
      (trainedOf cfg .unsupervised s t (cenState A1) (cenState A1) (cenState B1) (mu fun i => ys i 0) K
        (⟨cen A1 Xs, cen A1 Xs, cen B1 Xt, cen ys ys⟩ : DState s s t p))) := by
  obtain ⟨h1, h2, h3⟩ := hm
  unfold diplsUnsupervised
  rw [concatRows_stack, except_bind_ok,
    perform_of cfg { m.obj with ns := s, nt := t, strategy := some .unsupervised } hs ht _ _ _ _ _
      (C59_rows Xs Xt m.obj).1]
  rw [diplsFit_eq hinv _ K hK hcfg Xs (cen A1 Xs) Xs (cen A1 Xs) Xt (cen B1 Xt) ys (cenState A1) (cenState A1)
    (cenState B1) (by rw [h1]; exact optCentre_stale A1 Xs) (by rw [h2]; exact optCentre_stale A1 Xs)
    (by rw [h3]; exact optCentre_stale B1 Xt) h]
  rfl

/-- **C48 is violated by DIPLS (exception).** An object trained on `p` columns raises `ValueError` for every later
training on another number of columns, on which a fresh object may train (see the example above). -/
theorem C48_dipls_violation {q n' : Nat} {cfg : DiplsCfg ℝ} (A1 : Matrix (Fin n') (Fin q) ℝ) (m : DiplsModel ℝ)
    (hm : m.obj.xc = some (cenState A1)) (hq : p ≠ q) (hs : 2 ≤ s) (ht : 2 ≤ t)
    (Xs : Matrix (Fin s) (Fin p) ℝ) (Xt : Matrix (Fin t) (Fin p) ℝ) (ys : Matrix (Fin s) (Fin 1) ℝ)
    (yt : Matrix (Fin t) (Fin 1) ℝ) :
    diplsUnsupervised cfg m.obj (of Xs) (of Xt) (of ys) = .error .valueError ∧
    diplsSupervised cfg m.obj (of Xs) (of Xt) (of ys) (of yt) = .error .valueError := by
  constructor
  · unfold diplsUnsupervised
    rw [concatRows_stack, except_bind_ok,
      perform_of cfg { m.obj with ns := s, nt := t, strategy := some .unsupervised } hs ht _ _ _ _ _
        (C59_rows Xs Xt m.obj).1]
    unfold diplsFit
    simp only []
    rw [hm, optCentre_bad A1 Xs hq]
    rfl
  · unfold diplsSupervised
    rw [concatRows_stack, except_bind_ok, concatRows_stack, except_bind_ok,
      perform_of cfg { m.obj with ns := s, nt := t, strategy := some .supervised } hs ht _ _ _ _ _
        (C59_rows Xs Xt m.obj).2]
    unfold diplsFit
    simp only []
    rw [hm, optCentre_bad A1 (stack Xs Xt) hq]
    rfl

end Verif.Props
