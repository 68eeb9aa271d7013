import Verif.Props.SparseNipals
import Verif.Props.ScatterInvariance

/-!
# C112 — NIPALS, CCARegression and SparsePLS do not depend on the units of the data

These methods standardise their data.  Changing the unit and the zero point of every predictor and of the response gives
the same scores and the predictions in the new unit, for every configuration of the method.
-/

namespace Verif.Props
open Verif Verif.Mat Transf
open scoped Matrix

variable {n p r : Nat}

/-- Other units: column `j` is measured in a unit that is `1 / a j` of the old one, from another zero point. -/
def units (a b : Fin p → ℝ) (X : Matrix (Fin n) (Fin p) ℝ) : Matrix (Fin n) (Fin p) ℝ :=
  Matrix.of fun i j => a j * X i j + b j

theorem divisor_units (hn : n ≠ 0) (a b : Fin p → ℝ) (ha : ∀ j, 0 < a j) (X : Matrix (Fin n) (Fin p) ℝ)
    (hX : ∀ j, sd (fun i => X i j) ≠ 0) (j : Fin p) : divisor (units a b X) j = a j * divisor X j := by
  have h1 : sd (fun i => units a b X i j) = a j * sd fun i => X i j := by
    show sd (fun i => a j * X i j + b j) = _
    rw [sd_affine hn, abs_of_pos (ha j)]
  have h2 : divisor X j = sd fun i => X i j := if_neg fun h => hX j h.2
  unfold divisor
  rw [h1, if_neg fun h => mul_ne_zero (ha j).ne' (hX j) h.2]
  show _ = a j * divisor X j
  rw [h2]

theorem std_units (hn : n ≠ 0) (a b : Fin p → ℝ) (ha : ∀ j, 0 < a j) (X : Matrix (Fin n) (Fin p) ℝ)
    (hX : ∀ j, sd (fun i => X i j) ≠ 0) (Z : Matrix (Fin r) (Fin p) ℝ) :
    std (units a b X) (units a b Z) = std X Z := by
  ext i j
  show (a j * Z i j + b j - mu fun k => a j * X k j + b j) / divisor (units a b X) j =
    (Z i j - mu fun k => X k j) / divisor X j
  rw [divisor_units hn a b ha X hX, mu_affine hn]
  have h2 : divisor X j = sd fun i => X i j := if_neg fun h => hX j h.2
  have h3 : divisor X j ≠ 0 := by rw [h2]; exact hX j
  have h4 := (ha j).ne'
  field_simp
  ring

/-- Scaling with the divisor of the response, for whatever matrix the training loop has left. -/
theorem scale_one_any (b : Mat ℝ) (d : ℝ) :
    (b.scaleByRowVector (of (Matrix.of fun (_ : Fin 1) (_ : Fin 1) => d)) = .error .invalidShape ∧ b.cols ≠ 1) ∨
    ∃ (m : Nat) (B : Matrix (Fin m) (Fin 1) ℝ), b = of B ∧
      b.scaleByRowVector (of (Matrix.of fun (_ : Fin 1) (_ : Fin 1) => d)) = .ok (of (d • B)) := by
  obtain ⟨m, k, B⟩ := b
  by_cases h : k = 1
  · subst h
    right
    exact ⟨m, B, rfl, scale_row_one B _⟩
  · left
    refine ⟨?_, h⟩
    unfold scaleByRowVector mustBeColumnVector
    rw [isColumnVector_eq]
    simp only [except_bind_ok, decide_true, if_true]
    exact if_neg h

/-- Training of NIPALS up to the coefficients: a function of the standardised data. -/
noncomputable def nipCore (c : NipalsCfg ℝ) (X Y : Mat ℝ) : Except PyErr (NipalsVars ℝ × Mat ℝ × Mat ℝ × Mat ℝ) :=
  nipalsInit c X Y >>= fun s => loopM (nipalsStep c) (pyRange 0 c.K) s >>= fun s =>
    nipalsRot c s.W s.P >>= fun xRot => nipalsYRot c s >>= fun yRot => xRot.mul s.Q.transpose >>= fun b => .ok (s, xRot, yRot, b)

theorem nipalsTrain_core (c : NipalsCfg ℝ) (hz : ∀ x, c.isZero x = true ↔ x = 0) (X : Matrix (Fin n) (Fin (p + 1)) ℝ)
    (y : Matrix (Fin n) (Fin 1) ℝ) :
    nipalsTrain c (of X) (of y) = nipCore c (of (std X X)) (of (std y y)) >>= fun v =>
      v.2.2.2.scaleByRowVector (of (Matrix.of fun (_ : Fin 1) (_ : Fin 1) => divisor y 0)) >>= fun coef =>
        .ok ⟨stdState X, stdState y, v.1, v.2.1, v.2.2.1, coef⟩ := by
  unfold nipalsTrain nipCore
  rw [std_fit c.isZero hz X, std_fit (p := 0) c.isZero hz y]
  simp only [except_bind_ok]
  cases nipalsInit c (of (std X X)) (of (std y y)) with
  | error e => rfl
  | ok s =>
    simp only [except_bind_ok]
    cases loopM (nipalsStep c) (pyRange 0 c.K) s with
    | error e => rfl
    | ok s =>
      simp only [except_bind_ok]
      cases nipalsRot c s.W s.P with
      | error e => rfl
      | ok xr =>
        simp only [except_bind_ok]
        cases nipalsYRot c s with
        | error e => rfl
        | ok yr =>
          simp only [except_bind_ok]
          cases xr.mul s.Q.transpose with
          | error e => rfl
          | ok b =>
            simp only [except_bind_ok, stdState]
            have : (Matrix.of fun (_ : Fin 1) (j : Fin 1) => divisor y j) = Matrix.of fun (_ : Fin 1) (_ : Fin 1) => divisor y 0 := by
              ext i j
              rw [Matrix.of_apply, Subsingleton.elim j 0]
              rfl
            rw [show (Matrix.of fun (_ : Fin 1) (j : Fin (0 + 1)) => divisor y j) = _ from this]

/-- C112 (NIPALS and CCARegression).  With new units for all predictors and for the response, training succeeds exactly when it did
before (with the same error otherwise), finds the same weights, loadings and scores, gives the same scores to every new
sample, and predicts the old predictions in the new unit of the response. -/
theorem C112_nipals (c : NipalsCfg ℝ) (hz : ∀ x, c.isZero x = true ↔ x = 0) (hn : n ≠ 0)
    (X : Matrix (Fin n) (Fin (p + 1)) ℝ) (y : Matrix (Fin n) (Fin 1) ℝ) (hX : ∀ j, sd (fun i => X i j) ≠ 0)
    (hy : ∀ j, sd (fun i => y i j) ≠ 0) (a b : Fin (p + 1) → ℝ) (ha : ∀ j, 0 < a j) (s t : Fin 1 → ℝ) (hs : ∀ j, 0 < s j) :
    (∀ e, nipalsTrain c (of X) (of y) = .error e ↔ nipalsTrain c (of (units a b X)) (of (units s t y)) = .error e) ∧
    ∀ m, nipalsTrain c (of X) (of y) = .ok m → ∃ m', nipalsTrain c (of (units a b X)) (of (units s t y)) = .ok m' ∧
      m'.vars = m.vars ∧ m'.xRot = m.xRot ∧ ∀ {r : Nat} (Z : Matrix (Fin r) (Fin (p + 1)) ℝ),
        nipalsTransform c m' (of (units a b Z)) = nipalsTransform c m (of Z) ∧
        ∀ P : Matrix (Fin r) (Fin 1) ℝ, nipalsPredict c m (of Z) = .ok (of P) →
          nipalsPredict c m' (of (units a b Z)) = .ok (of (units s t P)) := by
  rw [nipalsTrain_core c hz X y, nipalsTrain_core c hz (units a b X) (units s t y), std_units hn a b ha X hX,
    std_units hn s t hs y hy, divisor_units hn s t hs y hy]
  cases nipCore c (of (std X X)) (of (std y y)) with
  | error e => exact ⟨fun e' => Iff.rfl, fun m h => by cases h⟩
  | ok v =>
    simp only [except_bind_ok]
    rcases scale_one_any v.2.2.2 (divisor y 0) with ⟨h, hne⟩ | ⟨q, B, hB, h⟩
    · have h' : v.2.2.2.scaleByRowVector (of (Matrix.of fun (_ : Fin 1) (_ : Fin 1) => s 0 * divisor y 0)) = .error .invalidShape := by
        rcases scale_one_any v.2.2.2 (s 0 * divisor y 0) with ⟨h, _⟩ | ⟨q, B, hB, h⟩
        · exact h
        · rw [hB] at hne
          exact absurd rfl hne
      rw [h, h']
      exact ⟨fun e' => Iff.rfl, fun m h => by cases h⟩
    · have h' : v.2.2.2.scaleByRowVector (of (Matrix.of fun (_ : Fin 1) (_ : Fin 1) => s 0 * divisor y 0)) =
          .ok (of ((s 0 * divisor y 0) • B)) := by
        rw [hB]
        exact scale_row_one B _
      rw [h, h']
      simp only [except_bind_ok]
      refine ⟨fun e => ⟨fun h => (by cases h), fun h => (by cases h)⟩, ?_⟩
      intro m hm
      rw [ok_inj] at hm
      subst hm
      refine ⟨_, rfl, rfl, rfl, fun {r} Z => ⟨?_, fun P hP => ?_⟩⟩
      · unfold nipalsTransform
        simp only []
        rw [std_do, std_do, std_units hn a b ha X hX]
      · unfold nipalsPredict at hP ⊢
        simp only [] at hP ⊢
        rw [std_do, except_bind_ok] at hP
        rw [std_do, except_bind_ok, std_units hn a b ha X hX]
        simp only [stdState] at hP ⊢
        by_cases hq : q = p + 1
        · subst hq
          rw [mul_of, except_bind_ok] at hP ⊢
          unfold addByVector at hP ⊢
          rw [vectorOp_row, ok_inj, of_inj] at hP
          rw [vectorOp_row, ok_inj]
          refine mk_congr fun i j => ?_
          rw [Subsingleton.elim j 0]
          have hPi : (std X Z * (divisor y 0 • B)) i 0 + (mu fun k => y k 0) = P i 0 := by
            rw [← hP]
            rfl
          show (std X Z * ((s 0 * divisor y 0) • B)) i 0 + (mu fun k => s 0 * y k 0 + t 0) = s 0 * P i 0 + t 0
          rw [mu_affine hn, ← hPi, Matrix.mul_smul, Matrix.mul_smul, Matrix.smul_apply, Matrix.smul_apply, smul_eq_mul, smul_eq_mul]
          ring
        · rw [mul_error (by exact fun h => hq h.symm)] at hP
          cases hP

/-- C112 (SparsePLS).  The same for SparsePLS: the selected variables are the same as well. -/
theorem C112_sparse (cfg : SpCfg ℝ) (hz : ∀ x, cfg.isZero x = true ↔ x = 0) (hn : 0 < n) (hK : 1 ≤ cfg.K)
    (X : Matrix (Fin n) (Fin (p + 1)) ℝ) (y : Matrix (Fin n) (Fin 1) ℝ) (hX : ∀ j, sd (fun i => X i j) ≠ 0)
    (hy : ∀ j, sd (fun i => y i j) ≠ 0) (a b : Fin (p + 1) → ℝ) (ha : ∀ j, 0 < a j) (s t : Fin 1 → ℝ) (hs : ∀ j, 0 < s j) :
    (∀ e, spTrain cfg (of X) (of y) = .error e ↔ spTrain cfg (of (units a b X)) (of (units s t y)) = .error e) ∧
    ∀ m, spTrain cfg (of X) (of y) = .ok m → ∃ m', spTrain cfg (of (units a b X)) (of (units s t y)) = .ok m' ∧
      m'.vars = m.vars ∧ ∀ {r : Nat} (_ : 0 < r) (Z : Matrix (Fin r) (Fin (p + 1)) ℝ), m.vars.A ≠ [] →
        ∃ P : Matrix (Fin r) (Fin 1) ℝ, spPredict cfg m (of Z) = .ok (of P) ∧
          spPredict cfg m' (of (units a b Z)) = .ok (of (units s t P)) := by
  have hn0 : n ≠ 0 := hn.ne'
  have key : ∀ (X : Matrix (Fin n) (Fin (p + 1)) ℝ) (y : Matrix (Fin n) (Fin 1) ℝ), spTrain cfg (of X) (of y) =
      (spInit cfg (of (std X X)) (of (std y y)) >>= fun s => loopM (spStep cfg (of (std X X)) (of (std y y))) (pyRange 0 cfg.K) s) >>=
        fun s => .ok ⟨stdState X, stdState y, s⟩ := by
    intro X y
    unfold spTrain
    rw [std_fit cfg.isZero hz X, std_fit (p := 0) cfg.isZero hz y]
    simp only [except_bind_ok]
    cases spInit cfg (of (std X X)) (of (std y y)) with
    | error e => rfl
    | ok s => rfl
  have e1 := std_units hn0 a b ha X hX X
  have e2 := std_units hn0 s t hs y hy y
  have k1 := key X y
  have k2 := key (units a b X) (units s t y)
  rw [e1, e2] at k2
  generalize hv : (spInit cfg (of (std X X)) (of (std y y)) >>= fun s =>
    loopM (spStep cfg (of (std X X)) (of (std y y))) (pyRange 0 cfg.K) s) = v at k1 k2
  cases v with
  | error e =>
    rw [k1, k2]
    exact ⟨fun e' => Iff.rfl, fun m h => by cases h⟩
  | ok v =>
    rw [except_bind_ok] at k1 k2
    rw [k1, k2]
    refine ⟨fun e => ⟨fun h => (by cases h), fun h => (by cases h)⟩, ?_⟩
    intro m hm
    rw [ok_inj] at hm
    subst hm
    refine ⟨_, rfl, rfl, fun {r} hr Z hA => ?_⟩
    obtain ⟨B, hB, hp⟩ := C61_predict cfg hz hn hK X y _ k1 hA hr Z
    obtain ⟨B', hB', hp'⟩ := C61_predict cfg hz hn hK (units a b X) (units s t y) _ k2 hA hr (units a b Z)
    have hBB : B' = B := by
      have h1 : v.B = of B := hB
      have h2 : v.B = of B' := hB'
      rw [h1, of_inj] at h2
      exact h2.symm
    subst hBB
    refine ⟨_, hp, ?_⟩
    rw [hp', ok_inj]
    refine mk_congr fun i j => ?_
    rw [Subsingleton.elim j 0]
    show (std (units a b X) (units a b Z) * B') i 0 * divisor (units s t y) 0 + (mu fun k => s 0 * y k 0 + t 0) =
      s 0 * ((std X Z * B') i 0 * divisor y 0 + mu fun k => y k 0) + t 0
    rw [std_units hn0 a b ha X hX, divisor_units hn0 s t hs y hy, mu_affine hn0]
    ring

/-- Concrete case: temperatures in degrees Fahrenheit instead of Celsius for a NIPALS model. -/
example : ∃ m m', nipalsTrain exCfg (of ramp) (of ramp) = .ok m ∧
    nipalsTrain exCfg (of (units (fun _ => 9 / 5) (fun _ => 32) ramp)) (of (units (fun _ => 2) (fun _ => 1) ramp)) = .ok m' ∧
    m'.vars = m.vars := by
  have hI := nipalsTrain_eq (c := exCfg) (K := 1) exCfg_real rfl rfl exCfg_pinv rfl (by norm_num : 0 < 3) ramp ramp
    (nip_proceeds spn_regular.passOk) (by rw [(nip_det spn_regular.passOk).1]; exact one_ne_zero)
  obtain ⟨m', h1, h2, -⟩ := (C112_nipals exCfg exCfg_real.zero (by norm_num) ramp ramp spn_ramp_sd spn_ramp_sd
    (fun _ => 9 / 5) (fun _ => 32) (fun _ => by norm_num) (fun _ => 2) (fun _ => 1) (fun _ => by norm_num)).2 _ hI
  exact ⟨_, m', hI, h1, h2⟩

end Verif.Props
