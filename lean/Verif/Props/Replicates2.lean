import Verif.Props.Replicates
import Verif.Props.ResponseUnits
import Verif.Props.DiplsLambda

/-!
# C162 — repeated samples in OPLS and DIPLS
-/

namespace Verif.Props
open Verif Verif.Mat Verif.Transf
open scoped Matrix

variable {n n' p m : Nat} {f : Fin n' → Fin n}

theorem sq1_repeat (hf : ∀ i, (Finset.univ.filter fun j => f j = i).card = m) (t : Matrix (Fin n) (Fin 1) ℝ) :
    sq1 (t.submatrix f id) = m * sq1 t := sum_repeat hf fun i => t i 0 * t i 0

/-- A loading is a quotient of sums over the samples. -/
theorem load_repeat (hm : 0 < m) (hf : ∀ i, (Finset.univ.filter fun j => f j = i).card = m) (A : Matrix (Fin n) (Fin p) ℝ)
    (t : Matrix (Fin n) (Fin 1) ℝ) :
    (1 / sq1 (t.submatrix f id)) • ((A.submatrix f id)ᵀ * t.submatrix f id) = (1 / sq1 t) • (Aᵀ * t) := by
  have h : (m : ℝ) ≠ 0 := Nat.cast_ne_zero.2 hm.ne'
  rw [sq1_repeat hf, mul_repeat hf, smul_smul, one_div_mul_eq_div, div_mul_cancel_left₀ h, one_div]

theorem score_repeat (A : Matrix (Fin n) (Fin p) ℝ) (w : Matrix (Fin p) (Fin 1) ℝ) (c : ℝ) :
    c • (A.submatrix f id * w) = (c • (A * w)).submatrix f id := by
  ext i j
  simp [Matrix.mul_apply]

theorem opW_repeat (hm : 0 < m) (hf : ∀ i, (Finset.univ.filter fun j => f j = i).card = m) (A : Matrix (Fin n) (Fin p) ℝ)
    (y : Matrix (Fin n) (Fin 1) ℝ) : opW (A.submatrix f id) (y.submatrix f id) = opW A y := by
  unfold opW
  rw [load_repeat hm hf]

theorem oW_repeat (hm : 0 < m) (hf : ∀ i, (Finset.univ.filter fun j => f j = i).card = m) (w : Matrix (Fin p) (Fin 1) ℝ)
    (A : Matrix (Fin n) (Fin p) ℝ) : oW w (A.submatrix f id) = oW w A ∧ oT w (A.submatrix f id) = (oT w A).submatrix f id ∧
      oP w (A.submatrix f id) = oP w A := by
  have h1 : oL w (A.submatrix f id) = oL w A := by
    unfold oL
    rw [show oS w (A.submatrix f id) = (oS w A).submatrix f id from score_repeat A w _, load_repeat hm hf]
  have h2 : oW w (A.submatrix f id) = oW w A := by
    unfold oW oV
    rw [h1]
  have h3 : oT w (A.submatrix f id) = (oT w A).submatrix f id := by
    unfold oT
    rw [h2, score_repeat]
  refine ⟨h2, h3, ?_⟩
  unfold oP
  rw [h3, load_repeat hm hf]

theorem oX_repeat (hm : 0 < m) (hf : ∀ i, (Finset.univ.filter fun j => f j = i).card = m) (w : Matrix (Fin p) (Fin 1) ℝ)
    (A : Matrix (Fin n) (Fin p) ℝ) (k : Nat) : oX w (A.submatrix f id) k = (oX w A k).submatrix f id := by
  induction k with
  | zero => rfl
  | succ k ih =>
    obtain ⟨-, h3, h4⟩ := oW_repeat hm hf w (oX w A k)
    rw [oX_next, oX_next, ih, h3, h4]
    ext i j
    simp [Matrix.mul_apply]

theorem opls_repeat (hm : 0 < m) (hf : ∀ i, (Finset.univ.filter fun j => f j = i).card = m) (A : Matrix (Fin n) (Fin p) ℝ)
    (y : Matrix (Fin n) (Fin 1) ℝ) (K : Nat) :
    oWM (opW (A.submatrix f id) (y.submatrix f id)) (A.submatrix f id) K = oWM (opW A y) A K ∧
      oPM (opW (A.submatrix f id) (y.submatrix f id)) (A.submatrix f id) K = oPM (opW A y) A K := by
  rw [opW_repeat hm hf]
  constructor
  · ext i j
    simp only [oWM, Matrix.of_apply, oX_repeat hm hf, (oW_repeat hm hf _ _).1]
  · ext i j
    simp only [oPM, Matrix.of_apply, oX_repeat hm hf, (oW_repeat hm hf _ _).2.2]

/-- **C162 (OPLS).** The filter is the same, and so are the predictions if the base method does not see the repetitions. -/
theorem C162_opls {M : Type} (base : BasePls ℝ M) (hm : 0 < m) (hn : 0 < n) (hp : 0 < p) (K : Nat)
    (hf : ∀ i, (Finset.univ.filter fun j => f j = i).card = m) (X : Matrix (Fin n) (Fin p) ℝ) (y : Matrix (Fin n) (Fin 1) ℝ)
    (F : Matrix (Fin n) (Fin p) ℝ) (hF : F = X - X * oWM (opW X y) X K * (oPM (opW X y) X K)ᵀ) {s s' : Option String} {b b' : M}
    (h1 : base.init (of F) (of y) = (b, .ok s)) (h2 : base.init (of (F.submatrix f id)) (of (y.submatrix f id)) = (b', .ok s'))
    (hb : ∀ Z, base.predict b' Z = base.predict b Z) :
    ∃ a a' : OplsModel ℝ M, oplsTrain base K (of X) (of y) = .ok (a, none) ∧
      oplsTrain base K (of (X.submatrix f id)) (of (y.submatrix f id)) = .ok (a', none) ∧ a'.W = a.W ∧ a'.P = a.P ∧
      (∃ S : Matrix (Fin n) (Fin p) ℝ, a.Xosc = of S ∧ a'.Xosc = of (S.submatrix f id)) ∧
      ∀ Z, oplsTransform a' Z = oplsTransform a Z ∧ oplsPredict base a' Z = oplsPredict base a Z := by
  obtain ⟨e1, e2⟩ := opls_repeat hm hf X y K
  have hn' : 0 < n' := by
    have hc : n' = m * n := by exact_mod_cast card_repeat hf
    rw [hc]
    exact Nat.mul_pos hm hn
  have t1 := oplsTrain_eq X y base K hn hp
  have t2 := oplsTrain_eq (X.submatrix f id) (y.submatrix f id) base K hn' hp
  have hF' : X.submatrix f id - X.submatrix f id * oWM (opW X y) X K * (oPM (opW X y) X K)ᵀ = F.submatrix f id := by
    rw [hF]
    ext i j
    simp [Matrix.mul_apply]
  rw [← hF, h1] at t1
  rw [e1, e2, hF', h2, opW_repeat hm hf, oX_repeat hm hf] at t2
  refine ⟨_, _, t1, t2, rfl, rfl, ⟨_, rfl, rfl⟩, fun Z => ⟨rfl, ?_⟩⟩
  unfold oplsPredict oplsTransform
  simp only [hb]

/-- **C162 (OPLS over PLS1).** -/
theorem C162_opls_pls1 (hm : 0 < m) (hn : 0 < n) (hp : 0 < p) (K : Nat) {L : Nat} (hL : 0 < L)
    (hf : ∀ i, (Finset.univ.filter fun j => f j = i).card = m) (X : Matrix (Fin n) (Fin p) ℝ) (y : Matrix (Fin n) (Fin 1) ℝ)
    (h : Regular (pls1W y) L (X - X * oWM (opW X y) X K * (oPM (opW X y) X K)ᵀ)) :
    ∃ a a', oplsTrain (pls1AsBase L) K (of X) (of y) = .ok (a, none) ∧
      oplsTrain (pls1AsBase L) K (of (X.submatrix f id)) (of (y.submatrix f id)) = .ok (a', none) ∧
      ∀ Z, oplsTransform a' Z = oplsTransform a Z ∧ oplsPredict (pls1AsBase L) a' Z = oplsPredict (pls1AsBase L) a Z := by
  have hn' : 0 < n' := by
    have hc : n' = m * n := by exact_mod_cast card_repeat hf
    rw [hc]
    exact Nat.mul_pos hm hn
  obtain ⟨q, T, T', g1, g2⟩ := C128_pls1 hn hn' hp hL (Nat.cast_pos.2 hm) _ y _ _
    (mul_repeat hf (X - X * oWM (opW X y) X K * (oPM (opW X y) X K)ᵀ) _) (mul_repeat hf _ y) h
  obtain ⟨a, a', t1, t2, -, -, -, t3⟩ := C162_opls (pls1AsBase L) hm hn hp K hf X y _ rfl (s := none) (s' := none) (b := .ok q)
    (b' := .ok q) (by
      show (pls1Base L _ _, (pls1Base L _ _).map fun _ => none) = _
      simp only [pls1Base, g1, except_bind_ok]
      rfl) (by
      show (pls1Base L _ _, (pls1Base L _ _).map fun _ => none) = _
      simp only [pls1Base, g2, except_bind_ok]
      rfl) fun _ => rfl
  exact ⟨a, a', t1, t2, t3⟩

/-- Three samples, each entered twice; two orthogonal components. -/
example := C162_opls_pls1 (m := 2) (f := (![0, 0, 1, 1, 2, 2] : Fin 6 → Fin 3)) (by norm_num) (by norm_num) (by norm_num) 2 (L := 1)
  (by norm_num) (by decide) osX osY (by
    rw [or_filter]
    refine ⟨fun h => ?_, trivial⟩
    have h1 := congrFun (congrFun h 0) 0
    have h2 : ((orF * pls1W osY orF)ᵀ * (orF * pls1W osY orF)) 0 0 = 7 / 18 := by
      rw [Matrix.mul_apply, ← or_sq]
      rfl
    rw [h2] at h1
    norm_num at h1)

/-! ## DIPLS -/

section dipls
variable {s s' : Nat} {g h : Fin s' → Fin s}

/-- A state in which every sample is repeated. -/
def dRep (f : Fin n' → Fin n) (g h : Fin s' → Fin s) (S : DState n s s p) : DState n' s' s' p :=
  ⟨S.X.submatrix f id, S.Xs.submatrix g id, S.Xt.submatrix h id, S.y.submatrix f id⟩

theorem loading_repeat (hm : 0 < m) (hf : ∀ i, (Finset.univ.filter fun j => f j = i).card = m) (A : Matrix (Fin n) (Fin p) ℝ)
    (t : Matrix (Fin n) (Fin 1) ℝ) : loading (A.submatrix f id) (t.submatrix f id) = loading A t := by
  rw [loading_eq, loading_eq, ← one_div, ← one_div, load_repeat hm hf]

theorem mul_submatrix (A : Matrix (Fin n) (Fin p) ℝ) (w : Matrix (Fin p) (Fin 1) ℝ) : A.submatrix f id * w = (A * w).submatrix f id := rfl

theorem deflate_repeat (hm : 0 < m) (hf : ∀ i, (Finset.univ.filter fun j => f j = i).card = m) (A : Matrix (Fin n) (Fin p) ℝ)
    (t : Matrix (Fin n) (Fin 1) ℝ) : Verif.deflate (A.submatrix f id) (t.submatrix f id) = (Verif.deflate A t).submatrix f id := by
  unfold Verif.deflate
  rw [loading_repeat hm hf]
  rfl

/-- The factor of `lambda_`. -/
noncomputable def repLambda (m s : Nat) : ℝ := (m * s - 1) / (s - 1)

theorem dC_repeat (hm : 0 < m) (hf : ∀ i, (Finset.univ.filter fun j => f j = i).card = m) (S : DState n s s p)
    (t : Matrix (Fin n) (Fin 1) ℝ) : dC (dRep f g h S) (t.submatrix f id) = dC S t := by
  unfold dC dRep
  dsimp only
  have e : ∑ l, (t.submatrix f id) l 0 * (S.y.submatrix f id) l 0 = m * ∑ i, t i 0 * S.y i 0 := sum_repeat hf fun i => t i 0 * S.y i 0
  rw [e, sq1_repeat hf, mul_div_mul_left _ _ (Nat.cast_ne_zero.2 hm.ne')]

theorem dW_repeat (hm : 0 < m) (hs : 2 ≤ s) (hf : ∀ i, (Finset.univ.filter fun j => f j = i).card = m)
    (hg : ∀ i, (Finset.univ.filter fun j => g j = i).card = m) (hh : ∀ i, (Finset.univ.filter fun j => h j = i).card = m) (lam : ℝ)
    (S : DState n s s p) :
    dM (repLambda m s * lam) s' s' (dRep f g h S) = dM lam s s S ∧ dW (repLambda m s * lam) s' s' (dRep f g h S) = dW lam s s S := by
  have hc : (s' : ℝ) = m * s := card_repeat hg
  have h0 : (m : ℝ) ≠ 0 := Nat.cast_ne_zero.2 hm.ne'
  have h1 : (1 : ℝ) ≤ m := by exact_mod_cast hm
  have h2 : (2 : ℝ) ≤ s := by exact_mod_cast hs
  have h3 : (s : ℝ) - 1 ≠ 0 := by linarith
  have h4 : (m : ℝ) * s - 1 ≠ 0 := by nlinarith
  have e1 : dM (repLambda m s * lam) s' s' (dRep f g h S) = dM lam s s S := by
    unfold dM dRep
    dsimp only
    rw [mul_repeat hg, mul_repeat hh, sq1_repeat hf, hc, smul_comm _ (m : ℝ), smul_comm _ (m : ℝ), ← smul_sub, ← smul_sub, ← smul_sub,
      smul_smul, smul_smul, smul_smul]
    congr 2
    unfold repLambda
    by_cases hy : sq1 S.y = 0
    · simp [hy]
    · field_simp
  refine ⟨e1, ?_⟩
  unfold dW dRaw
  rw [e1]
  unfold dRep
  dsimp only
  rw [mul_repeat hf, sq1_repeat hf, smul_smul, mul_inv, mul_comm (m : ℝ)⁻¹, mul_assoc, inv_mul_cancel₀ h0, mul_one]

theorem dSt_repeat (hm : 0 < m) (hs : 2 ≤ s) (hf : ∀ i, (Finset.univ.filter fun j => f j = i).card = m)
    (hg : ∀ i, (Finset.univ.filter fun j => g j = i).card = m) (hh : ∀ i, (Finset.univ.filter fun j => h j = i).card = m) (lam : ℝ)
    (S : DState n s s p) (k : Nat) :
    dSt (repLambda m s * lam) s' s' (dRep f g h S) k = dRep f g h (dSt lam s s S k) := by
  induction k with
  | zero => rfl
  | succ k ih =>
    show dNext _ _ _ (dSt _ _ _ _ k) = dRep f g h (dNext lam s s (dSt lam s s S k))
    rw [ih]
    generalize dSt lam s s S k = T
    unfold dNext
    rw [(dW_repeat hm hs hf hg hh lam T).2]
    set w := dW lam s s T
    have e1 : dC (dRep f g h T) ((dRep f g h T).X * w) = dC T (T.X * w) := dC_repeat hm hf T (T.X * w)
    dsimp only
    rw [e1]
    unfold dRep
    dsimp only
    rw [mul_submatrix, mul_submatrix, mul_submatrix, deflate_repeat hm hf, deflate_repeat hm hg, deflate_repeat hm hh]
    rfl

theorem dB_repeat (hm : 0 < m) (hs : 2 ≤ s) (hf : ∀ i, (Finset.univ.filter fun j => f j = i).card = m)
    (hg : ∀ i, (Finset.univ.filter fun j => g j = i).card = m) (hh : ∀ i, (Finset.univ.filter fun j => h j = i).card = m) (lam : ℝ)
    (S : DState n s s p) (K : Nat) :
    dWM (repLambda m s * lam) s' s' K (dRep f g h S) = dWM lam s s K S ∧ dB (repLambda m s * lam) s' s' K (dRep f g h S) = dB lam s s K S := by
  have h1 : dWM (repLambda m s * lam) s' s' K (dRep f g h S) = dWM lam s s K S := by
    ext i j
    simp only [dWM, Matrix.of_apply, dSt_repeat hm hs hf hg hh, (dW_repeat hm hs hf hg hh lam _).2]
  have h2 : dPM (repLambda m s * lam) s' s' K (dRep f g h S) = dPM lam s s K S := by
    ext i j
    simp only [dPM, Matrix.of_apply, dSt_repeat hm hs hf hg hh, (dW_repeat hm hs hf hg hh lam _).2]
    exact congrFun (congrFun (loading_repeat hm hf (dSt lam s s S j.1).X ((dSt lam s s S j.1).X * dW lam s s (dSt lam s s S j.1))) i) 0
  have h3 : dCM (repLambda m s * lam) s' s' K (dRep f g h S) = dCM lam s s K S := by
    ext i j
    simp only [dCM, Matrix.of_apply, dSt_repeat hm hs hf hg hh, (dW_repeat hm hs hf hg hh lam _).2]
    exact dC_repeat hm hf (dSt lam s s S i.1) ((dSt lam s s S i.1).X * dW lam s s (dSt lam s s S i.1))
  refine ⟨h1, ?_⟩
  unfold dB
  rw [h1, h2, h3]

theorem dReg_repeat (hm : 0 < m) (hs : 2 ≤ s) (hf : ∀ i, (Finset.univ.filter fun j => f j = i).card = m)
    (hg : ∀ i, (Finset.univ.filter fun j => g j = i).card = m) (hh : ∀ i, (Finset.univ.filter fun j => h j = i).card = m) (lam : ℝ)
    (S : DState n s s p) (H : DReg lam s s S) : DReg (repLambda m s * lam) s' s' (dRep f g h S) := by
  have h0 : (m : ℝ) ≠ 0 := Nat.cast_ne_zero.2 hm.ne'
  obtain ⟨e1, e2⟩ := dW_repeat hm hs hf hg hh lam S
  refine ⟨?_, by rw [e1]; exact H.det, ?_, ?_, ?_⟩
  · show sq1 (S.y.submatrix f id) ≠ 0
    rw [sq1_repeat hf]
    exact mul_ne_zero h0 H.y
  all_goals rw [e2]
  · show sq1 ((S.X * _).submatrix f id) ≠ 0
    rw [sq1_repeat hf]
    exact mul_ne_zero h0 H.t
  · show sq1 ((S.Xs * _).submatrix g id) ≠ 0
    rw [sq1_repeat hg]
    exact mul_ne_zero h0 H.ts
  · show sq1 ((S.Xt * _).submatrix h id) ≠ 0
    rw [sq1_repeat hh]
    exact mul_ne_zero h0 H.tt

theorem cen_repeated (hm : 0 < m) (hf : ∀ i, (Finset.univ.filter fun j => f j = i).card = m) (A : Matrix (Fin n) (Fin p) ℝ) {r : Nat}
    (Z : Matrix (Fin r) (Fin p) ℝ) : cen (A.submatrix f id) Z = cen A Z := by
  ext i j
  simp only [cen, Matrix.of_apply]
  congr 1
  exact mu_repeat hm hf fun k => A k j

/-- **C162 (DIPLS, unsupervised).** With as many source as target samples, every one of them repeated `m` times and `lambda_` multiplied by
`(m s - 1) / (s - 1)`, the scores and predictions are the same. -/
theorem C162_dipls {cfg : DiplsCfg ℝ} (hinv : IsInv cfg.inv) (o : DiplsObj ℝ) (ho : Initialised o) (hm : 0 < m) (hs : 2 ≤ s)
    (hg : ∀ i, (Finset.univ.filter fun j => g j = i).card = m) (hh : ∀ i, (Finset.univ.filter fun j => h j = i).card = m)
    (K : Nat) (hK : 0 < K) (hcfg : cfg.K = K) (Xs Xt : Matrix (Fin s) (Fin p) ℝ) (ys : Matrix (Fin s) (Fin 1) ℝ)
    (H : ∀ k < K, DReg cfg.lambda s s (dSt cfg.lambda s s (unsupState Xs Xt ys) k)) :
    ∃ b b', diplsUnsupervised cfg o (of Xs) (of Xt) (of ys) = .ok (.trained b) ∧
      diplsUnsupervised { cfg with lambda := (m * s - 1) / (s - 1) * cfg.lambda } o (of (Xs.submatrix g id)) (of (Xt.submatrix h id))
        (of (ys.submatrix g id)) = .ok (.trained b') ∧
      ∀ {r : Nat} (Z : Matrix (Fin r) (Fin p) ℝ), ∃ F : Matrix (Fin r) (Fin 1) ℝ,
        diplsPredict b (of Z) = .ok (of F) ∧ diplsPredict b' (of Z) = .ok (of F) ∧ diplsTransform b' (of Z) = diplsTransform b (of Z) := by
  have hs' : 2 ≤ s' := by
    have hc : s' = m * s := by exact_mod_cast card_repeat hg
    rw [hc]
    nlinarith
  have hst : unsupState (Xs.submatrix g id) (Xt.submatrix h id) (ys.submatrix g id) = dRep g g h (unsupState Xs Xt ys) := by
    unfold unsupState dRep
    rw [cen_repeated hm hg, cen_repeated hm hh, cen_repeated hm hg]
    rfl
  have e1 := C59_unsupervised hinv o ho hs hs K hK hcfg Xs Xt ys H
  have e2 := C59_unsupervised (cfg := { cfg with lambda := (m * s - 1) / (s - 1) * cfg.lambda }) hinv o ho hs' hs' K hK hcfg
    (Xs.submatrix g id) (Xt.submatrix h id) (ys.submatrix g id) (fun k hk => by
      rw [hst]
      show DReg _ _ _ (dSt (repLambda m s * cfg.lambda) _ _ _ _)
      rw [dSt_repeat hm hs hg hg hh]
      exact dReg_repeat hm hs hg hg hh _ _ (H k hk))
  obtain ⟨w1, w2⟩ := dB_repeat hm hs hg hg hh cfg.lambda (unsupState Xs Xt ys) K
  refine ⟨_, _, e1, e2, fun {r} Z => ⟨_, C78_predict .unsupervised Xs Xs Xt _ Z, ?_, ?_⟩⟩
  · rw [C78_predict, ok_inj, hst]
    refine mk_congr fun i j => ?_
    show ((if Strategy.unsupervised = Strategy.unsupervised then cen (Xt.submatrix h id) Z else cen (Xs.submatrix g id) Z) *
      dB (repLambda m s * cfg.lambda) s' s' K (dRep g g h (unsupState Xs Xt ys))) i j + _ = _
    rw [w2, if_pos rfl, if_pos rfl, cen_repeated hm hh]
    congr 1
    exact mu_repeat hm hg fun i => ys i 0
  · rw [transform_eq hK, transform_eq hK, hst, cen_repeated hm hg]
    show Except.ok (of (_ * dWM (repLambda m s * cfg.lambda) _ _ _ _)) = _
    rw [w1]

/-- Four samples of each domain, each entered twice. -/
example := C162_dipls (m := 2) (g := (![0, 0, 1, 1, 2, 2, 3, 3] : Fin 8 → Fin 4)) (h := (![0, 1, 2, 3, 0, 1, 2, 3] : Fin 8 → Fin 4))
  (exactCfg_inv 1 1) diplsFresh ⟨rfl, rfl, rfl⟩ (by norm_num) (by norm_num) (by decide) (by decide) 1 one_pos rfl lamXs lamXt lamY
  (fun k hk => by
    obtain rfl : k = 0 := by omega
    exact lam_reg (by norm_num [exactCfg]))

/-- **C162 (limit).** With `lambda_` left as it is the predictions of DIPLS change when every sample is entered twice. -/
theorem C162_dipls_limits :
    ∃ b b', diplsUnsupervised (exactCfg 1 1) diplsFresh (of lamXs) (of lamXt) (of lamY) = .ok (.trained b) ∧
      diplsUnsupervised (exactCfg 1 1) diplsFresh (of (lamXs.submatrix (![0, 0, 1, 1, 2, 2, 3, 3] : Fin 8 → Fin 4) id))
        (of (lamXt.submatrix (![0, 0, 1, 1, 2, 2, 3, 3] : Fin 8 → Fin 4) id))
        (of (lamY.submatrix (![0, 0, 1, 1, 2, 2, 3, 3] : Fin 8 → Fin 4) id)) = .ok (.trained b') ∧
      ∃ F F' : Matrix (Fin 1) (Fin 1) ℝ,
        diplsPredict b (of (!![1, 0] : Matrix (Fin 1) (Fin 2) ℝ)) = .ok (of F) ∧
        diplsPredict b' (of (!![1, 0] : Matrix (Fin 1) (Fin 2) ℝ)) = .ok (of F') ∧ F' ≠ F := by
  have hi : Initialised diplsFresh := ⟨rfl, rfl, rfl⟩
  have r : ∀ {l : ℝ}, l < 4 → ∀ k < 1, DReg l 4 4 (dSt l 4 4 (unsupState lamXs lamXt lamY) k) := by
    intro l hl k hk
    obtain rfl : k = 0 := by omega
    exact lam_reg hl
  have e1 := C59_unsupervised (exactCfg_inv 1 1) diplsFresh hi (by omega) (by omega) 1 one_pos rfl lamXs lamXt lamY
    (r (l := 1) (by norm_num))
  obtain ⟨b, b', a1, a2, a3⟩ := C162_dipls (m := 2) (g := (![0, 0, 1, 1, 2, 2, 3, 3] : Fin 8 → Fin 4))
    (h := (![0, 0, 1, 1, 2, 2, 3, 3] : Fin 8 → Fin 4)) (exactCfg_inv 1 (3 / 7)) diplsFresh hi (by norm_num) (by norm_num) (by decide)
    (by decide) 1 one_pos rfl lamXs lamXt lamY (r (l := 3 / 7) (by norm_num))
  have hc : ({ exactCfg 1 (3 / 7) with lambda := (((2 : Nat) : ℝ) * ((4 : Nat) : ℝ) - 1) / (((4 : Nat) : ℝ) - 1) *
      (exactCfg 1 (3 / 7)).lambda } : DiplsCfg ℝ) = exactCfg 1 1 := by
    unfold exactCfg
    norm_num
  rw [hc] at a2
  have e2 := C59_unsupervised (exactCfg_inv 1 (3 / 7)) diplsFresh hi (by omega) (by omega) 1 one_pos rfl lamXs lamXt lamY
    (r (l := 3 / 7) (by norm_num))
  rw [e2] at a1
  obtain ⟨F, f1, f2, -⟩ := a3 (!![1, 0] : Matrix (Fin 1) (Fin 2) ℝ)
  refine ⟨_, b', e1, a2, _, _, C78_predict .unsupervised lamXs lamXs lamXt _ _, f2, fun h => ?_⟩
  have a1 := Except.ok.inj a1
  injection a1 with a1
  rw [← a1, C78_predict] at f1
  have f1 := of_inj.1 (Except.ok.inj f1)
  rw [← f1] at h
  have h := congrFun (congrFun h 0) 0
  have hcen : cen lamXt (!![1, 0] : Matrix (Fin 1) (Fin 2) ℝ) = !![1, 0] := by
    ext i j
    fin_cases i
    fin_cases j <;> simp [cen, mu, lamXt, Fin.sum_univ_four]
  simp only [Matrix.of_apply, if_true, hcen, lam_state, exactCfg, Matrix.mul_apply, Fin.sum_univ_two] at h
  rw [lam_coef (lam := 1) (by norm_num), lam_coef (lam := 3 / 7) (by norm_num)] at h
  simp [mu, lamY, Fin.sum_univ_four] at h
  norm_num at h

end dipls

end Verif.Props
