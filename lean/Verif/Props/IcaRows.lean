import Verif.Props.IcaProps
import Verif.Props.RowWise

/-!
# C103 for FastICA: `transform` trains on the data it is given
-/

namespace Verif.Props
open Verif Mat Factory Transf
open scoped Matrix

variable {n p : Nat}

/-- Without whitening, a single sample of two or more features is refused, however the object was trained. -/
theorem ica_one_row (cfg : IcaCfg ℝ) (hw : cfg.whiten = false) (ha : cfg.alg = .deflation) (hm : 0 < cfg.maxIter)
    (R : Matrix (Fin 1) (Fin 1) ℝ) (hR : cfg.winit 1 = of R) (o : IcaObj ℝ) (hp : 2 ≤ p) (Z : Matrix (Fin 1) (Fin p) ℝ) :
    icaTransform cfg o (of Z) = .error .valueError := by
  have hs : ∀ W w : Mat ℝ, w.rows = 1 → icaStep cfg (of Zᵀ) W 0 w = .error .valueError := by
    intro W w h1
    unfold icaStep
    rw [mul_error (by show w.rows ≠ p; omega)]
    rfl
  have hd : deflation cfg 1 (of Zᵀ) (of R) = .error .valueError := by
    unfold deflation
    have hz : Factory.zeros (α := ℝ) ((1 : Nat) : Int) ((1 : Nat) : Int) = .ok (of (0 : Matrix (Fin 1) (Fin 1) ℝ)) :=
      Factory.zeros_nat (m := 1) (by decide) 1
    have hg : (of R).getRow 0 = .ok (of (Matrix.of fun (_ : Fin 1) b => R 0 b)) := getRow_of R 0
    obtain ⟨k, hk⟩ : ∃ k, cfg.maxIter = k + 1 := ⟨cfg.maxIter - 1, by omega⟩
    have hr : pyRange 0 (cfg.maxIter : Int) = (0 : Int) :: (List.range k).map fun i => ((i + 1 : Nat) : Int) := by
      rw [pyRange_zero, hk, List.range_succ_eq_map]
      simp [Function.comp_def]
    have hr1 : pyRange 0 ((1 : Nat) : Int) = [0] := by decide
    rw [hz, except_bind_ok, hr1, loopM, hg, except_bind_ok, hr, breakLoop]
    rw [hs _ _ (by show (of (Matrix.of fun (_ : Fin 1) b => R 0 b)).transpose.rows = 1; rfl)]
    rfl
  unfold icaTransform icaConfigure unmix
  simp only [hw, ha, Bool.false_eq_true, if_false]
  have hk : min (of Z).cols (of Z).rows = 1 := by
    show min p 1 = 1
    omega
  rw [hk, hR, transpose_of, hd]
  rfl

/-- **C103 (violation).** `FastICA.transform` trains on the data it is given: for every object, whenever it transforms a
data set of at least as many samples as features (two or more), it refuses each of the samples on its own. -/
theorem C103_fast_ica_violation (cfg : IcaCfg ℝ) (hw : cfg.whiten = false) (ha : cfg.alg = .deflation) (hm : 0 < cfg.maxIter)
    (R : Matrix (Fin 1) (Fin 1) ℝ) (hR : cfg.winit 1 = of R) (o : IcaObj ℝ) (hp : 2 ≤ p)
    (X : Matrix (Fin (n + 1)) (Fin p) ℝ) (o' : IcaObj ℝ) (S : Mat ℝ) (h : icaTransform cfg o (of X) = .ok (o', S)) :
    (∀ i, icaTransform cfg o (of (rowSel (fun _ : Fin 1 => i) X)) = .error .valueError) ∧
      ¬ RowWise fun Z => icaTransform cfg o Z >>= fun r => .ok r.2 := by
  refine ⟨fun i => ica_one_row cfg hw ha hm R hR o hp _, fun hr => ?_⟩
  obtain ⟨c', C, -, e⟩ := C103_selection (r' := 0) (hr p) X (fun _ => 0) S (by rw [h]; rfl)
  have h1 := ica_one_row cfg hw ha hm R hR o hp (rowSel (fun _ : Fin 1 => 0) X)
  have e' : (icaTransform cfg o (of (rowSel (fun _ : Fin 1 => 0) X)) >>= fun r => Except.ok r.2) = .ok (of (rowSel (fun _ => 0) C)) := e
  rw [h1] at e'
  cases e'

/-- The configuration of `icaExCfg` without whitening, starting from an identity matrix of any size. -/
noncomputable def icaRowCfg : IcaCfg ℝ :=
  { icaExCfg with whiten := false, winit := fun k => of (1 : Matrix (Fin k) (Fin k) ℝ) }

theorem icaRow_regular (R : Matrix (Fin 2) (Fin 2) ℝ) (B : Matrix (Fin 2) (Fin n) ℝ)
    (h : IcaRegular icaExCfg cubeG cubeD B R) : IcaRegular icaRowCfg cubeG cubeD B R := by
  have e : ∀ j, defState icaRowCfg cubeG cubeD B R j = defState icaExCfg cubeG cubeD B R j := by
    intro j
    induction j with
    | zero => rfl
    | succ j ih =>
      ext i c
      rw [defState, defState, Matrix.of_apply, Matrix.of_apply, ih]
      rfl
  intro j hj
  obtain ⟨h1, h2⟩ := h j hj
  refine ⟨h1, fun i hi => ?_⟩
  rw [e] at hi ⊢
  exact h2 i hi

/-- Four samples of two features are transformed, one is not. -/
example : ∃ o' S, icaTransform icaRowCfg icaFresh (of icaExᵀ) = .ok (o', S) := by
  obtain ⟨W, h1, h2⟩ := C88_deflation_partial icaRowCfg Nat.one_pos cubeG cubeD cube_col (by decide) _ _
    (icaRow_regular _ _ (icaEx_regular 1 (by norm_num)))
  have hdet : W.det ≠ 0 := fun h0 => by
    have := congrArg Matrix.det h2
    rw [Matrix.det_mul, h0, zero_mul, Matrix.det_one] at this
    exact zero_ne_one this
  obtain ⟨o', S, e, -⟩ := C66_plain_partial icaRowCfg rfl icaFresh rfl (by decide) icaExᵀ W hdet (by
    rw [one_smul] at h1
    exact h1)
  exact ⟨o', _, e⟩

end Verif.Props
