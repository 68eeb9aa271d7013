import Verif.Props.FeatureOrder2
import Verif.Props.PlsPrepProps
import Verif.Props.KernelPlsProps
import Verif.Core.UtilsLemmas

/-!
# C152: the order of the responses does not matter
-/

namespace Verif.Props
open Verif Mat Factory Transf
open scoped Matrix

variable {α M S : Type} {n : Nat} {σ : Equiv.Perm (Fin n)} {A A' B B' Z Z' : Mat α}

/-- Training on the responses in another order gives the predictions in that order, or the same exception. -/
def ResponseFree (train : Mat α → Mat α → Except PyErr M) (predict : M → Mat α → Except PyErr (Mat α)) : Prop :=
  ∀ (n q : Nat), q ≠ 0 → ∀ (σ : Equiv.Perm (Fin q)) (X Z : Mat α) (Y : Matrix (Fin n) (Fin q) α),
    (∃ e, (train X (of Y) >>= fun m => predict m Z) = .error e ∧
      (train X (of (colSel σ Y)) >>= fun m => predict m Z) = .error e) ∨
    ∃ (r : Nat) (F : Matrix (Fin r) (Fin q) α), (train X (of Y) >>= fun m => predict m Z) = .ok (of F) ∧
      (train X (of (colSel σ Y)) >>= fun m => predict m Z) = .ok (of (colSel σ F))

theorem ResponseFree.of_shuf {train : Mat α → Mat α → Except PyErr M} {predict : M → Mat α → Except PyErr (Mat α)}
    (h : ∀ {q : Nat} (_ : q ≠ 0) (σ : Equiv.Perm (Fin q)) (X Y Y' Z : Mat α), ShufC σ Y Y' →
      ERel (ShufC σ) (train X Y >>= fun m => predict m Z) (train X Y' >>= fun m => predict m Z)) :
    ResponseFree train predict := by
  intro n q hq σ X Z Y
  have h' := h hq σ X (of Y) (of (colSel σ Y)) Z ⟨_, Y, rfl, rfl⟩
  cases e : (train X (of Y) >>= fun m => predict m Z) <;> cases e' : (train X (of (colSel σ Y)) >>= fun m => predict m Z) <;>
    rw [e, e'] at h'
  · exact .inl ⟨_, rfl, congrArg _ (Eq.symm h')⟩
  · exact h'.elim
  · exact h'.elim
  · obtain ⟨r, F, rfl, rfl⟩ := h'
    exact .inr ⟨r, F, rfl, rfl⟩

/-! ## KernelPLS -/

section kernel
variable [Field α] [HasSqrt α]

/-- Variables of the inner loop for reordered responses. -/
def InnerQ (σ : Equiv.Perm (Fin n)) (s s' : KplsInner α) : Prop := s'.t = s.t ∧ Shuf σ s.q s'.q ∧ s'.u = s.u

/-- Variables of the training loop for reordered responses. -/
structure VarsQ (σ : Equiv.Perm (Fin n)) (s s' : KplsVars α) : Prop where
  Kd : s'.Kd = s.Kd
  Y : ShufC σ s.Y s'.Y
  T : s'.T = s.T
  U : s'.U = s.U
  P : s'.P = s.P
  Q : Shuf σ s.Q s'.Q
  t : s'.t = s.t
  q : Shuf σ s.q s'.q

theorem kplsPass_shufQ (Kd u : Mat α) (h : ShufC σ A A') : ERel (InnerQ σ) (kplsPass Kd A u) (kplsPass Kd A' u) := by
  unfold kplsPass
  refine ERel.bindEq rfl fun t => ?_
  refine ERel.bindEq rfl fun t => ?_
  refine ERel.bind (h.transpose.mul t) fun q q' hq => ?_
  refine ERel.bindEq (h.mul hq).symm fun u => ?_
  refine ERel.bindEq rfl fun u => ?_
  exact ⟨rfl, hq, rfl⟩

theorem kplsInner_shufQ (c : KplsCfg α S) (Kd : Mat α) (h : ShufC σ A A') (f : Nat) :
    ∀ (iter : Int) (change : α) (s s' : KplsInner α), (c.maxIter - iter).toNat = f → InnerQ σ s s' →
      ERel (InnerQ σ) (kplsInner c Kd A iter change s) (kplsInner c Kd A' iter change s') := by
  induction f using Nat.strong_induction_on with
  | _ f ih =>
    intro iter change s s' hf hs
    rw [kplsInner, kplsInner]
    split
    · rename_i hlt
      rw [hs.2.2]
      refine ERel.bind (kplsPass_shufQ Kd s.u h) fun r r' hr => ?_
      rw [hr.2.2]
      refine ERel.bindEq rfl fun d => ?_
      exact ih _ (by omega) (iter + 1) _ r r' rfl hr
    · exact hs

theorem kplsStep_shufQ (c : KplsCfg α S) (k : Int) (s s' : KplsVars α) (h : VarsQ σ s s') :
    ERel (VarsQ σ) (kplsStep c k s) (kplsStep c k s') := by
  unfold kplsStep
  rw [h.T, h.Kd, h.t, h.U, h.P]
  refine ERel.bindEq rfl fun u => ?_
  refine ERel.bind (kplsInner_shufQ c s.Kd h.Y _ 0 _ ⟨s.t, s.q, u⟩ ⟨s.t, s'.q, u⟩ rfl ⟨rfl, h.q, rfl⟩) fun r r' hr => ?_
  rw [hr.1, hr.2.2]
  refine ERel.bindEq rfl fun Kd => ?_
  refine ERel.bind (hr.2.1.transpose.lmul r.t) fun d d' hd => ?_
  refine ERel.bind (h.Y.sub hd) fun Y Y' hY => ?_
  refine ERel.bindEq rfl fun p => ?_
  refine ERel.bindEq rfl fun T => ?_
  refine ERel.bindEq rfl fun U => ?_
  refine ERel.bind (h.Q.setColumn k hr.2.1) fun Q Q' hQ => ?_
  refine ERel.bindEq rfl fun P => ?_
  exact ⟨rfl, hY, rfl, rfl, rfl, hQ, rfl, hr.2.1⟩

/-- What training leaves for reordered responses. -/
theorem kplsTrain_shufQ (hn : n ≠ 0) (c : KplsCfg α S) (k : S) (A : Mat α) (h : ShufC σ B B') :
    ERel (fun a b => b.kern = a.kern ∧ b.centerX = a.centerX ∧ CenC σ a.centerY b.centerY ∧ b.X = a.X ∧ b.Korig = a.Korig ∧
      VarsQ σ a.vars b.vars ∧ ShufC σ a.B b.B) (kplsTrain c k A B) (kplsTrain c k A B') := by
  unfold kplsTrain
  obtain ⟨h1, h2⟩ := shufC_center h
  refine ERel.bindEq rfl fun X => ?_
  refine ERel.bind h2 fun Y Y' hY => ?_
  refine ERel.bindEq rfl fun K => ?_
  refine ERel.bindEq rfl fun K => ?_
  refine ERel.bind (R := VarsQ σ) ?_ fun s s' hs => ?_
  · unfold kplsInit
    refine ERel.bind (hY.zeros hn 1) fun q q' hq => ?_
    refine ERel.bindEq rfl fun t => ?_
    refine ERel.bindEq rfl fun T => ?_
    refine ERel.bindEq rfl fun U => ?_
    refine ERel.bindEq rfl fun P => ?_
    refine ERel.bind (hY.zeros hn c.K) fun Q Q' hQ => ?_
    exact ⟨rfl, hY, rfl, rfl, rfl, hQ, rfl, hq⟩
  refine ERel.bind (ERel.loopM (fun k s t hst => kplsStep_shufQ c k s t hst) _ s s' hs) fun s s' hs => ?_
  refine ERel.bind (R := ShufC σ) ?_ fun B B' hB => ?_
  · unfold kplsRhs
    rw [hs.T, hs.U]
    refine ERel.bindEq rfl fun a => ?_
    refine ERel.bindEq rfl fun a => ?_
    refine ERel.bindEq rfl fun i => ?_
    exact hs.Q.transpose.lmul i
  exact ⟨rfl, rfl, h1, rfl, rfl, hs, hB⟩

omit [HasSqrt α] in
theorem CenC.undo {s t : CenterState α} (hs : CenC σ s t) (h : ShufC σ Z Z') :
    ERel (ShufC σ) (inverseTransform center Z s).2 (inverseTransform center Z' t).2 := by
  obtain ⟨c, m⟩ := s
  obtain ⟨c', m'⟩ := t
  obtain ⟨h1, h2, v, v', h3, h4, h5, h6⟩ := hs
  dsimp only at h1 h2 h3 h4
  subst h1 h2 h3 h4
  exact ShufC.vectorOp _ h5 h.copy h6

/-- **C152** KernelPLS, for every kernel, every configuration and all data: the predictions come out in the order of the
responses. -/
theorem C152_kernelPls (c : KplsCfg α S) (k : S) : ResponseFree (kplsTrain c k) (kplsPredict c) := by
  refine ResponseFree.of_shuf fun hq σ X Y Y' Z hY => ?_
  refine ERel.bind (kplsTrain_shufQ hq c k X hY) fun a b h => ?_
  obtain ⟨h1, h2, h3, h4, h5, h6, h7⟩ := h
  unfold kplsPredict
  refine ERel.bindEq (by unfold kplsTransform; rw [h1, h2, h4, h5, h6.U]) fun K => ?_
  exact ERel.bind (h7.lmul K) fun R R' hR => h3.undo hR

/-- **C152** The scores of KernelPLS do not depend on the order of the responses at all. -/
theorem C152_kernelPls_scores (c : KplsCfg α S) (k : S) {m q : Nat} (hq : q ≠ 0) (σ : Equiv.Perm (Fin q)) (A Z : Mat α)
    (Y : Matrix (Fin m) (Fin q) α) :
    (kplsTrain c k A (of (colSel σ Y)) >>= fun m => kplsTransform c m Z) =
      (kplsTrain c k A (of Y) >>= fun m => kplsTransform c m Z) := by
  refine (ERel.eq (ERel.bind (kplsTrain_shufQ (σ := σ) hq c k A ⟨_, Y, rfl, rfl⟩) fun a b h => ?_)).symm
  obtain ⟨h1, h2, h3, h4, h5, h6, h7⟩ := h
  refine ERel.of_eq (fun _ => rfl) ?_
  unfold kplsTransform
  rw [h1, h2, h4, h5, h6.U]

end kernel

/-! ## The preprocessing options -/

section prep
variable (train : Mat ℝ → Mat ℝ → Except PyErr M) (predict : M → Mat ℝ → Except PyErr (Mat ℝ)) (isZero : ℝ → Bool)

theorem multi_none (A B Z : Mat ℝ) : (multiTrain isZero train .none A B >>= fun s => multiPredict predict s Z) =
    (train A B >>= fun m => predict m Z) := by
  cases e : train A B with
  | ok m =>
    obtain ⟨s, h1, h2⟩ := C52_none train predict isZero A B m e
    rw [h1, except_bind_ok, except_bind_ok, h2]
  | error x =>
    have : multiTrain isZero train .none A B = .error x := by
      unfold multiTrain
      rw [multiStats_eq .none B (0, 1) rfl]
      show (do let m ← train A B; Except.ok _) = _
      rw [e]
      rfl
    rw [this]
    rfl

/-- **C152** The option NONE keeps the property. -/
theorem C152_none (h : ResponseFree train predict) :
    ResponseFree (multiTrain isZero train .none) (multiPredict predict) := by
  intro n q hq σ A Z Y
  simp only [multi_none]
  exact h n q hq σ A Z Y

variable {train predict}

theorem cen_colSel {p q : Nat} (σ : Equiv.Perm (Fin q)) (Y : Matrix (Fin p) (Fin q) ℝ) :
    cen (colSel σ Y) (colSel σ Y) = colSel σ (cen Y Y) := rfl

/-- With CENTER, whatever the algorithm, as long as it handles the responses alike: after reordering the responses every
prediction moves by the difference of the means of the two responses that come first. -/
theorem center_shift {p q r : Nat} (h : ResponseFree train predict) (σ : Equiv.Perm (Fin (q + 1)))
    (A : Matrix (Fin n) (Fin p) ℝ) (Y : Matrix (Fin n) (Fin (q + 1)) ℝ) (Z : Matrix (Fin r) (Fin p) ℝ)
    (m : M) (hm : train (of (cen A A)) (of (cen Y Y)) = .ok m) (F₀ : Matrix (Fin r) (Fin (q + 1)) ℝ) (hF₀ : predict m (of Z) = .ok (of F₀)) :
    ∃ F : Matrix (Fin r) (Fin (q + 1)) ℝ,
      (multiTrain isZero train .center (of A) (of Y) >>= fun s => multiPredict predict s (of Z)) = .ok (of F) ∧
      (multiTrain isZero train .center (of A) (of (colSel σ Y)) >>= fun s => multiPredict predict s (of Z)) =
        .ok (of (Matrix.of fun i j => F i (σ j) + ((mu fun k => Y k (σ 0)) - mu fun k => Y k 0))) := by
  obtain ⟨s, h1, h2⟩ := C52_center_value train predict isZero A Y m hm
  refine ⟨_, by rw [h1, except_bind_ok, h2 Z F₀ hF₀], ?_⟩
  have h3 := h n (q + 1) (by omega) σ (of (cen A A)) (of Z) (cen Y Y)
  rw [hm, except_bind_ok, hF₀] at h3
  rcases h3 with ⟨e, h3, -⟩ | ⟨r', F', h3, h4⟩
  · cases h3
  · rw [ok_inj] at h3
    obtain rfl : r = r' := congrArg Mat.rows h3
    rw [of_inj] at h3
    subst h3
    cases e : train (of (cen A A)) (of (colSel σ (cen Y Y))) with
    | error => rw [e] at h4; cases h4
    | ok m' =>
      rw [e, except_bind_ok] at h4
      obtain ⟨s', g1, g2⟩ := C52_center_value train predict isZero A (colSel σ Y) m' (by rw [cen_colSel]; exact e)
      rw [g1, except_bind_ok, g2 Z _ h4, ok_inj]
      refine mk_congr fun i j => ?_
      simp only [Matrix.of_apply, colSel]
      ring

/-- **C152 (what remains true with CENTER)** For data with at least one sample to predict, the predictions come out in the
order of the responses iff the two responses that come first have the same mean. -/
theorem C152_center_partial {p q r : Nat} (h : ResponseFree train predict) (hr : 0 < r) (σ : Equiv.Perm (Fin (q + 1)))
    (A : Matrix (Fin n) (Fin p) ℝ) (Y : Matrix (Fin n) (Fin (q + 1)) ℝ) (Z : Matrix (Fin r) (Fin p) ℝ)
    (m : M) (hm : train (of (cen A A)) (of (cen Y Y)) = .ok m) (F₀ : Matrix (Fin r) (Fin (q + 1)) ℝ) (hF₀ : predict m (of Z) = .ok (of F₀)) :
    ∃ F F' : Matrix (Fin r) (Fin (q + 1)) ℝ,
      (multiTrain isZero train .center (of A) (of Y) >>= fun s => multiPredict predict s (of Z)) = .ok (of F) ∧
      (multiTrain isZero train .center (of A) (of (colSel σ Y)) >>= fun s => multiPredict predict s (of Z)) = .ok (of F') ∧
      (F' = colSel σ F ↔ (mu fun k => Y k (σ 0)) = mu fun k => Y k 0) := by
  obtain ⟨F, h1, h2⟩ := center_shift isZero h σ A Y Z m hm F₀ hF₀
  refine ⟨F, _, h1, h2, fun e => ?_, fun e => ?_⟩
  · have := congrFun (congrFun e ⟨0, hr⟩) 0
    simp only [Matrix.of_apply, colSel] at this
    linarith
  · ext i j
    simp only [Matrix.of_apply, colSel]
    rw [e]
    ring

end prep

/-! ## Mixing the responses -/

section mixing
variable {p q r K : Nat}

theorem kU_mix (O : Matrix (Fin q) (Fin q) ℝ) (hO : O * Oᵀ = 1) (Y : Matrix (Fin n) (Fin q) ℝ) (t : Matrix (Fin n) (Fin 1) ℝ) :
    kU (Y * O) t = kU Y t := by
  unfold kU
  rw [Matrix.transpose_mul, Matrix.mul_assoc Y O, Matrix.mul_assoc Oᵀ, ← Matrix.mul_assoc O, hO, Matrix.one_mul]

theorem kLast_mix (O : Matrix (Fin q) (Fin q) ℝ) (hO : O * Oᵀ = 1) (tol : ℝ) (Kd : Matrix (Fin n) (Fin n) ℝ) (Y : Matrix (Fin n) (Fin q) ℝ)
    (f : Nat) (u : Matrix (Fin n) (Fin 1) ℝ) : kLast tol Kd (Y * O) f u = kLast tol Kd Y f u := by
  induction f generalizing u with
  | zero => rfl
  | succ f ih =>
    rw [kLast, kLast, kU_mix O hO]
    split
    · exact ih _
    · rfl

theorem kS_mix (O : Matrix (Fin q) (Fin q) ℝ) (hO : O * Oᵀ = 1) (tol : ℝ) (f : Nat) (v : Nat → Matrix (Fin n) (Fin 1) ℝ)
    (K0 : Matrix (Fin n) (Fin n) ℝ) (Y0 : Matrix (Fin n) (Fin q) ℝ) (k : Nat) :
    kS tol f v K0 (Y0 * O) k = ((kS tol f v K0 Y0 k).1, (kS tol f v K0 Y0 k).2 * O) := by
  induction k with
  | zero => rfl
  | succ k ih =>
    have hT : kT tol f v K0 (Y0 * O) k = kT tol f v K0 Y0 k := by
      unfold kT kT1
      rw [ih, kLast_mix O hO]
    rw [kS_succ, kS_succ, hT, ih]
    dsimp only
    unfold kQ
    rw [hT, ih]
    dsimp only
    refine Prod.ext rfl ?_
    dsimp only
    rw [Matrix.sub_mul, Matrix.transpose_mul (_ * O)ᵀ, Matrix.transpose_transpose, Matrix.transpose_mul (kS tol f v K0 Y0 k).2ᵀ,
      Matrix.transpose_transpose, Matrix.mul_assoc, Matrix.mul_assoc]

theorem mul_mix (O : Matrix (Fin q) (Fin q) ℝ) {A R : Mat ℝ} {N : Matrix (Fin K) (Fin q) ℝ} (h : A.mul (of N) = .ok R) :
    ∃ (r : Nat) (B : Matrix (Fin r) (Fin q) ℝ), R = of B ∧ A.mul (of (N * O)) = .ok (of (B * O)) := by
  obtain ⟨r, c, D⟩ := A
  by_cases hc : c = K
  · subst hc
    have h' : (of D).mul (of N) = .ok R := h
    rw [mul_of, ok_inj] at h'
    refine ⟨r, D * N, h'.symm, ?_⟩
    show (of D).mul (of (N * O)) = _
    rw [mul_of, Matrix.mul_assoc]
  · unfold Mat.mul at h
    rw [dif_neg hc] at h
    cases h

theorem cen_mix (O : Matrix (Fin q) (Fin q) ℝ) (Y : Matrix (Fin n) (Fin q) ℝ) : cen (Y * O) (Y * O) = cen Y Y * O := by
  ext i j
  simp only [cen, Matrix.of_apply, Matrix.mul_apply, mu, sub_mul, Finset.sum_sub_distrib]
  congr 1
  rw [Finset.sum_comm, Finset.sum_div]
  refine Finset.sum_congr rfl fun l _ => ?_
  rw [← Finset.sum_mul]
  ring

theorem uncen_mix (O : Matrix (Fin q) (Fin q) ℝ) (Y : Matrix (Fin n) (Fin q) ℝ) (B : Matrix (Fin r) (Fin q) ℝ) :
    uncen (Y * O) (B * O) = uncen Y B * O := by
  ext i j
  simp only [uncen, Matrix.of_apply, Matrix.mul_apply, mu, add_mul, Finset.sum_add_distrib]
  congr 1
  rw [Finset.sum_comm, Finset.sum_div]
  refine Finset.sum_congr rfl fun l _ => ?_
  rw [← Finset.sum_mul]
  ring

/-- **C152** KernelPLS does not depend on the coordinates of the responses either: mixing the responses by an orthogonal matrix
(a rotation, a reflection, a reordering, changes of sign) mixes the predictions by the same matrix. -/
theorem C152_kernelPls_mixing {c : KplsCfg ℝ S} {v : Nat → Matrix (Fin n) (Fin 1) ℝ} (hc : KplsReal c n v)
    (htol : 0 < c.tol) (hmax : 1 ≤ c.maxIter) (hK : c.K = K) (hn : 0 < n) (hq : 0 < q) (kern : S)
    (A : Matrix (Fin n) (Fin p) ℝ) (Y : Matrix (Fin n) (Fin q) ℝ)
    (G : Matrix (Fin n) (Fin n) ℝ) (hG : (c.kern1 kern (of (cen A A))).2 = .ok (of G))
    (O : Matrix (Fin q) (Fin q) ℝ) (hO : O * Oᵀ = 1) (Z : Mat ℝ) (R : Mat ℝ)
    (h : (kplsTrain c kern (of A) (of Y) >>= fun m => kplsPredict c m Z) = .ok R) :
    ∃ (r : Nat) (F : Matrix (Fin r) (Fin q) ℝ), R = of F ∧
      (kplsTrain c kern (of A) (of (Y * O)) >>= fun m => kplsPredict c m Z) = .ok (of (F * O)) := by
  obtain ⟨f, hf⟩ : ∃ f : Nat, c.maxIter = f + 1 := ⟨(c.maxIter - 1).toNat, by omega⟩
  have eT : ∀ k, kT c.tol f v (cenK G) (cen Y Y * O) k = kT c.tol f v (cenK G) (cen Y Y) k := fun k => by
    unfold kT kT1
    rw [kS_mix O hO, kLast_mix O hO]
  have eU : ∀ k, kUs c.tol f v (cenK G) (cen Y Y * O) k = kUs c.tol f v (cenK G) (cen Y Y) k := fun k => by
    unfold kUs
    rw [kS_mix O hO, eT, kU_mix O hO]
  have eQ : (colsM (K := K) (kQ c.tol f v (cenK G) (cen Y Y * O)))ᵀ = (colsM (K := K) (kQ c.tol f v (cenK G) (cen Y Y)))ᵀ * O := by
    ext j l
    rw [Matrix.transpose_apply, Matrix.mul_apply]
    simp only [Matrix.transpose_apply]
    show kQ c.tol f v (cenK G) (cen Y Y * O) j l 0 = ∑ x, kQ c.tol f v (cenK G) (cen Y Y) j x 0 * O x l
    unfold kQ
    rw [kS_mix O hO, eT]
    dsimp only
    rw [Matrix.transpose_mul, Matrix.mul_assoc, Matrix.mul_apply]
    exact Finset.sum_congr rfl fun x _ => by rw [Matrix.transpose_apply, mul_comm]
  have htr := kplsTrain_eq hc htol hf hK hn hq kern A Y G hG
  have htr' := kplsTrain_eq hc htol hf hK hn hq kern A (Y * O) G hG
  rw [cen_mix, funext eT, funext eU, eQ] at htr'
  rw [htr, Utils.bind_ok_iff] at h
  obtain ⟨m, hm, hp⟩ := h
  rw [Utils.bind_ok_iff] at hm
  obtain ⟨i, hi, hm⟩ := hm
  rw [Utils.bind_ok_iff] at hm
  obtain ⟨B, hB, hm⟩ := hm
  obtain ⟨b, B, rfl, hB'⟩ := mul_mix O hB
  rw [ok_inj] at hm
  subst hm
  rw [htr', hi, except_bind_ok, hB', except_bind_ok, except_bind_ok]
  unfold kplsPredict at hp ⊢
  rw [Utils.bind_ok_iff] at hp
  obtain ⟨W, hW, hp⟩ := hp
  rw [Utils.bind_ok_iff] at hp
  obtain ⟨V, hV, hp⟩ := hp
  obtain ⟨r, V, rfl, hV'⟩ := mul_mix O hV
  rw [cen_undo, ok_inj] at hp
  refine ⟨r, uncen Y V, hp.symm, ?_⟩
  have hW' : ∀ B', kplsTransform c ⟨(c.kern1 kern (of (cen A A))).1, cenState A, cenState (Y * O), of (cen A A), of (cenK G),
      kVars c.tol f v (cenK G) (cen Y Y * O) K K, B'⟩ Z = .ok W := by
    intro B'
    rw [← hW]
    unfold kplsTransform
    rw [kVars_U, kVars_U, funext eU]
  rw [hW', except_bind_ok, hV', except_bind_ok, cen_undo, uncen_mix]

end mixing

/-! ## Concrete cases -/

/-- Two responses, `1, -2, 1` and twice that. -/
def pkY2 : Matrix (Fin 3) (Fin 2) ℝ := !![1, 2; -2, -4; 1, 2]

theorem pkY2_gram : pkY2 * pkY2ᵀ = (5 : ℝ) • (pkY * pkYᵀ) := by
  ext i j
  rw [Matrix.mul_apply, Fin.sum_univ_two, Matrix.smul_apply, Matrix.mul_apply, Fin.sum_univ_one]
  simp only [Matrix.transpose_apply]
  fin_cases i <;> fin_cases j <;> (simp [pkY2, pkY]; try norm_num)

theorem pkY2_cen (a b : ℝ) : cen (!![1 + a, 2 + b; -2 + a, -4 + b; 1 + a, 2 + b] : Matrix (Fin 3) (Fin 2) ℝ)
    (!![1 + a, 2 + b; -2 + a, -4 + b; 1 + a, 2 + b] : Matrix (Fin 3) (Fin 2) ℝ) = pkY2 := by
  ext i j
  fin_cases i <;> fin_cases j <;> (simp [cen, mu, Fin.sum_univ_three, pkY2]; ring)

theorem kU_pkY2 (t : Matrix (Fin 3) (Fin 1) ℝ) : kU pkY2 t = kU pkY t := by
  unfold kU
  rw [← Matrix.mul_assoc, pkY2_gram, Matrix.smul_mul, Matrix.mul_assoc, nrm, nrm, sq1_smul, Real.sqrt_mul (by norm_num),
    Real.sqrt_mul_self (by norm_num), smul_smul]
  congr 1
  rw [mul_inv, mul_right_comm, inv_mul_cancel₀ (by norm_num), one_mul]

theorem kLast_pkY2 (tol : ℝ) (f : Nat) (u : Matrix (Fin 3) (Fin 1) ℝ) :
    kLast tol (cenK pkG) pkY2 f u = kLast tol (cenK pkG) pkY f u := by
  induction f generalizing u with
  | zero => rfl
  | succ f ih =>
    rw [kLast, kLast, kU_pkY2]
    split
    · exact ih _
    · rfl

/-- KernelPLS with one component and a polynomial kernel of degree two can be trained on the predictors `-1, 0, 1` and the two
responses, and predicts. -/
theorem pk2_trained (tol : ℝ) (htol : 0 < tol) (maxIter : Int) (hmax : 1 ≤ maxIter)
    (v : Nat → Matrix (Fin 3) (Fin 1) ℝ) (hv : v 0 0 0 - 2 * v 0 1 0 + v 0 2 0 ≠ 0) (lstsq : Mat ℝ → Except PyErr (Mat ℝ)) :
    ∃ m, kplsTrain (pkCfg tol maxIter v lstsq) ⟨2, 0, none⟩ (of pkX) (of pkY2) = .ok m ∧
      ∃ F : Matrix (Fin 3) (Fin 2) ℝ, kplsPredict (pkCfg tol maxIter v lstsq) m (of pkX) = .ok (of F) := by
  obtain ⟨f, hf⟩ : ∃ f : Nat, maxIter = f + 1 := ⟨(maxIter - 1).toNat, by omega⟩
  have hv' : (pkYᵀ * v 0) 0 0 ≠ 0 := by
    rw [Matrix.mul_apply, Fin.sum_univ_three]
    simpa [pkY, sub_eq_add_neg] using hv
  obtain ⟨s, hs, eT, eQ, s', rfl, eU⟩ := pk_score tol f v hv'
  have eT2 : kT tol f v (cenK pkG) pkY2 0 = kT tol f v (cenK pkG) pkY 0 := by
    show nrm (cenK pkG * kLast tol (cenK pkG) pkY2 f (v 0)) = _
    rw [kLast_pkY2]
    rfl
  have eU2 : kUs tol f v (cenK pkG) pkY2 0 = kUs tol f v (cenK pkG) pkY 0 := by
    show kU pkY2 (kT tol f v (cenK pkG) pkY2 0) = _
    rw [eT2, kU_pkY2]
    rfl
  have h6 : Real.sqrt 6 ≠ 0 := (Real.sqrt_pos.2 (by norm_num)).ne'
  have hG : ((pkCfg tol maxIter v lstsq).kern1 ⟨2, 0, none⟩ (of (cen pkX pkX))).2 = .ok (of pkG) := by
    rw [pk_cenX]
    exact pk_kernel none rfl none rfl
  have hcY : cen pkY2 pkY2 = pkY2 := by
    have := pkY2_cen 0 0
    simp only [add_zero] at this
    exact this
  have hcol : ∀ {r : Nat} (g : Nat → Matrix (Fin r) (Fin 1) ℝ), colsM (K := 1) g = g 0 := by
    intro r g
    ext i j
    rw [Subsingleton.elim j 0]
    rfl
  have hA : (kT tol f v (cenK pkG) pkY2 0)ᵀ * cenK pkG * kUs tol f v (cenK pkG) pkY2 0 =
      (2 / 3 : ℝ) • (1 : Matrix (Fin 1) (Fin 1) ℝ) := by
    rw [eT2, eU2, Matrix.mul_assoc, pk_mul, eU, pk_dot, eT, Matrix.transpose_smul, Matrix.smul_mul, Matrix.mul_smul, col_gram,
      pkY_sq, smul_smul, smul_smul]
    congr 1
    field_simp
    linear_combination 18 * hs
  have hdet : ((2 / 3 : ℝ) • (1 : Matrix (Fin 1) (Fin 1) ℝ)).det ≠ 0 := by
    simp
  have htrain := kplsTrain_eq (K := 1) (pk_real tol maxIter v lstsq) htol hf rfl (by decide) (by decide : 0 < 2) ⟨2, 0, none⟩
    pkX pkY2 pkG hG
  rw [hcY, hcol, hcol, hcol, show (pkCfg tol maxIter v lstsq).tol = tol from rfl, hA,
    show (pkCfg tol maxIter v lstsq).inv = inverse lstsq from rfl, inverse_of lstsq _ hdet, except_bind_ok,
    mul_of, except_bind_ok] at htrain
  refine ⟨_, htrain, ?_⟩
  obtain ⟨U, hU, ht⟩ := C75_transform (K := 1) (pk_real tol maxIter v lstsq) htol hmax rfl (by decide) (by decide : 0 < 2) _ pkX
    pkY2 pkG hG _ htrain pkX pkG (by
      rw [pk_cenX]
      exact pk_kernel (some (1 / ((1 : Nat) : ℝ))) (by simp) (some (of pkX)) rfl)
  unfold kplsPredict
  rw [ht, except_bind_ok, mul_of, except_bind_ok, cen_undo]
  exact ⟨_, rfl⟩

/-- **C152 (violated with CENTER)** KernelPLS with the option CENTER, trained on the predictors `-1, 0, 1` and two responses with
the means `a` and `b`: exchanging the two responses moves both columns of the predictions by `b - a`. -/
theorem C152_center_violation (tol : ℝ) (htol : 0 < tol) (maxIter : Int) (hmax : 1 ≤ maxIter)
    (v : Nat → Matrix (Fin 3) (Fin 1) ℝ) (hv : v 0 0 0 - 2 * v 0 1 0 + v 0 2 0 ≠ 0) (lstsq : Mat ℝ → Except PyErr (Mat ℝ))
    (isZero : ℝ → Bool) (a b : ℝ) :
    ∃ F : Matrix (Fin 3) (Fin 2) ℝ,
      (multiTrain isZero (kplsTrain (pkCfg tol maxIter v lstsq) ⟨2, 0, none⟩) .center (of pkX)
          (of (!![1 + a, 2 + b; -2 + a, -4 + b; 1 + a, 2 + b] : Matrix (Fin 3) (Fin 2) ℝ)) >>= fun s =>
        multiPredict (kplsPredict (pkCfg tol maxIter v lstsq)) s (of pkX)) = .ok (of F) ∧
      (multiTrain isZero (kplsTrain (pkCfg tol maxIter v lstsq) ⟨2, 0, none⟩) .center (of pkX)
          (of (!![2 + b, 1 + a; -4 + b, -2 + a; 2 + b, 1 + a] : Matrix (Fin 3) (Fin 2) ℝ)) >>= fun s =>
        multiPredict (kplsPredict (pkCfg tol maxIter v lstsq)) s (of pkX)) =
          .ok (of (Matrix.of fun i j => F i (Equiv.swap 0 1 j) + (b - a))) := by
  obtain ⟨m, hm, F₀, hF₀⟩ := pk2_trained tol htol maxIter hmax v hv lstsq
  obtain ⟨F, h1, h2⟩ := center_shift isZero (C152_kernelPls (pkCfg tol maxIter v lstsq) ⟨2, 0, none⟩) (Equiv.swap 0 1) pkX
    !![1 + a, 2 + b; -2 + a, -4 + b; 1 + a, 2 + b] pkX m (by rw [pk_cenX, pkY2_cen]; exact hm) F₀ hF₀
  refine ⟨F, h1, ?_⟩
  have e : colSel (Equiv.swap 0 1) (!![1 + a, 2 + b; -2 + a, -4 + b; 1 + a, 2 + b] : Matrix (Fin 3) (Fin 2) ℝ) =
      !![2 + b, 1 + a; -4 + b, -2 + a; 2 + b, 1 + a] := by
    ext i j
    fin_cases i <;> fin_cases j <;> rfl
  rw [e] at h2
  rw [h2]
  refine congrArg (fun x => Except.ok (of x)) ?_
  ext i j
  simp only [Matrix.of_apply, Equiv.swap_apply_left]
  congr 1
  simp [mu, Fin.sum_univ_three]
  ring

/-- Both orders of the two responses, without preprocessing. -/
example (v : Nat → Matrix (Fin 3) (Fin 1) ℝ) (hv : v 0 0 0 - 2 * v 0 1 0 + v 0 2 0 ≠ 0) (lstsq : Mat ℝ → Except PyErr (Mat ℝ)) :
    ∃ F : Matrix (Fin 3) (Fin 2) ℝ,
      (kplsTrain (pkCfg 1 5 v lstsq) ⟨2, 0, none⟩ (of pkX) (of pkY2) >>= fun m =>
        kplsPredict (pkCfg 1 5 v lstsq) m (of pkX)) = .ok (of F) ∧
      (kplsTrain (pkCfg 1 5 v lstsq) ⟨2, 0, none⟩ (of pkX) (of (!![2, 1; -4, -2; 2, 1] : Matrix (Fin 3) (Fin 2) ℝ)) >>= fun m =>
        kplsPredict (pkCfg 1 5 v lstsq) m (of pkX)) = .ok (of (colSel (Equiv.swap 0 1) F)) := by
  obtain ⟨m, hm, F, hF⟩ := pk2_trained 1 one_pos 5 (by decide) v hv lstsq
  have h := C152_kernelPls (pkCfg 1 5 v lstsq) ⟨2, 0, none⟩ 3 2 (by decide) (Equiv.swap 0 1) (of pkX) (of pkX) pkY2
  have e : colSel (Equiv.swap 0 1) pkY2 = !![2, 1; -4, -2; 2, 1] := by
    ext i j
    fin_cases i <;> fin_cases j <;> rfl
  rw [e, hm, except_bind_ok, hF] at h
  rcases h with ⟨e, h, -⟩ | ⟨r', F', h3, h4⟩
  · cases h
  · rw [ok_inj] at h3
    obtain rfl : 3 = r' := congrArg Mat.rows h3
    rw [of_inj] at h3
    subst h3
    exact ⟨F, by rw [hm, except_bind_ok, hF], h4⟩

end Verif.Props
