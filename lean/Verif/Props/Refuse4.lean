import Verif.Props.Refuse3
import Verif.Props.RowWiseAlg
import Verif.Props.PrmScores
import Verif.Props.GlswInvariance
import Verif.Props.NipalsProps

/-!
# C147: trained models to which the theorems apply
-/

namespace Verif.Props
open Verif Mat Factory Transf
open scoped Matrix

/-- SIMPLS, the inner model of PRM, has the shapes `C147_prm_columns` asks for. -/
theorem simplsBase_shape (eig : Mat ℝ → Mat ℝ × Mat ℝ) {K : Int} (hK : 1 ≤ K) (count : Int) : BaseShape (simplsBase eig K count) := by
  intro X y b hX h
  unfold simplsBase at h
  obtain ⟨m, h1, h⟩ := bindOk h
  obtain ⟨T, -, h⟩ := bindOk h
  cases h
  have := simplsTrain_dims hK hX h1
  exact ⟨this.2, this.1⟩

theorem fresh_means : MeansRow (some (center (α := ℝ)).init) := by
  intro c h m hm
  cases h
  cases hm

/-- PLS1 trained on two samples of two columns. -/
example : ∃ m, singleTrain (fun x : ℝ => decide (x = 0)) (fun X y => (pls1Train pls1Weights 2 X y).map Prod.fst) .none (of exX) (of exY) = .ok m ∧
    Refuses (singlePredict (pls1Predict 2) m) 2 := by
  obtain ⟨b, T, P, h, -⟩ := C49_pls1 (by decide) (by decide) (K := 2) (by decide) exX exY ex_regular
  have h' : singleTrain (fun x : ℝ => decide (x = 0)) (fun X y => (pls1Train pls1Weights 2 X y).map Prod.fst) .none (of exX) (of exY) =
      .ok ⟨0, 1, false, b⟩ := by
    unfold singleTrain
    simp only [classStats, prepApply, except_bind_ok]
    have h2 : pls1Train pls1Weights 2 (of exX) (of exY) = .ok (b, of T) := h
    rw [h2]
    rfl
  exact ⟨_, h', (C147_pls1_columns _ _ (by decide) _ _ _ (by decide) _ h').1⟩

/-- PLS1 is given three samples and two responses. -/
example (y : Matrix (Fin 2) (Fin 1) ℝ) (X : Matrix (Fin 3) (Fin 2) ℝ) :
    Fails (singleTrain (fun x : ℝ => decide (x = 0)) (fun X y => (pls1Train pls1Weights 2 X y).map Prod.fst) .center (of X) (of y)) :=
  C147_pls1_rows _ _ (fun _ _ h => pls1Weights_refuses _ _ h) (by decide) _ _ _ (show (3 : Nat) ≠ 2 by decide)

/-- SparsePLS trained on `x = y = 1, 2, 3`. -/
example (med amax : Mat ℝ → ℝ) (hmed : ∀ p (f : Fin p → ℝ) (a : ℝ), 0 < p → (∀ i, f i = a) →
    med (of (Matrix.of fun i (_ : Fin 1) => f i)) = a) (hmax : IsAmax amax) :
    ∃ m, spTrain (spRamp med amax) (of ramp) (of ramp) = .ok m ∧ Refuses (spPredict (spRamp med amax) m) 1 := by
  obtain ⟨m, h, -⟩ := sp_example med amax hmed hmax
  exact ⟨m, h, (C147_sparse_columns _ (show (1 : Int) ≤ (spRamp med amax).K from le_refl _) _ _ (by decide) m h).1⟩

/-- KernelPLS with a polynomial kernel. -/
example : ∃ (v : Nat → Matrix (Fin 3) (Fin 1) ℝ) (m : KplsModel ℝ (PolyState ℝ)),
    kplsTrain (pkCfg 1 5 v (fun A => .ok A)) ⟨2, 0, none⟩ (of pkX) (of pkY) = .ok m ∧
      Refuses (kplsPredict (pkCfg 1 5 v (fun A => .ok A)) m) (of pkX).cols := by
  obtain ⟨m, _, _, _, h, -⟩ := C75_violation 1 one_pos 5 (by decide) (fun _ => !![1; 0; 0]) (by simp) (fun A => .ok A)
  exact ⟨_, m, h, (C147_kernel_columns _ _ _ _ m h).1⟩

/-- DIPLS. -/
example : ∃ m, diplsSupervised (exactCfg 2 1) diplsFresh (of dxA) (of dxA) (of dxY) (of dxY) = .ok (.trained m) ∧
    Refuses (diplsPredict m) (of dxA).cols := by
  have h := C59_supervised (exactCfg_inv 2 1) diplsFresh ⟨rfl, rfl, rfl⟩ (by decide) (by decide) 2 (by decide) rfl _ _ _ _
    (dx_reg 1)
  exact ⟨_, h, (C147_dipls_columns _ diplsFresh fresh_means fresh_means _ _ (of dxA) _ _ _ (.inr (.inl h))).1⟩

/-- CCAFilter. -/
example : ∃ o, ccaInit ccaExCca ccaFresh (of ccaExX) (of ccaExY) = .ok (o, none) ∧ Refuses (ccaTransform o) (of ccaExX).cols := by
  obtain ⟨o, _, _, h, -⟩ := C87_cross_violation
  exact ⟨o, h, (C147_cca_columns _ ccaFresh o fresh_means fresh_means _ _ h).1⟩

/-- PRM with three samples of two predictors; `svd` is not called. -/
example : ∃ m, prmTrain { prmScoresCfg with svd := fun _ => .error .linAlgError } (of (!![1, 2; 3, 5; 8, 13] : Matrix (Fin 3) (Fin 2) ℝ))
    (of (!![1; 4; 9] : Matrix (Fin 3) (Fin 1) ℝ)) = .ok m ∧ Refuses (prmPredict m) 2 ∧ Refuses (prmTransform m) 2 := by
  obtain ⟨m, W, g, h1, -, h2⟩ := C104_partial (K := 1) (count := -1) { prmScoresCfg with svd := fun _ => .error .linAlgError } eigOne_ok (by decide)
    (by norm_num [prmScoresCfg]) (by decide) (by decide) rfl (by decide) rfl
    (!![1, 2; 3, 5; 8, 13] : Matrix (Fin 3) (Fin 2) ℝ) (!![1; 4; 9] : Matrix (Fin 3) (Fin 1) ℝ)
  have h := C147_prm_columns { prmScoresCfg with svd := fun _ => .error .linAlgError } (fun _ _ h => nomatch h)
    (simplsBase_shape _ (by decide) _) _ _ (by decide) m h1
  exact ⟨m, h1, h.1, h.2 (by decide)⟩

/-- External parameter orthogonalisation with clutter in the first column. -/
example : ∃ (cfg : GlswCfg ℝ) (G : Mat ℝ), epoFit cfg (of (0 : Matrix (Fin 4) (Fin 2) ℝ)) (of exB) = .ok (.ready G) ∧
    Refuses (glswTransform (some G)) 2 := by
  obtain ⟨G, h, -⟩ := C127_epo (⟨1, 1, fun C => .ok (of (Matrix.of fun i (_ : Fin 1) => (![2, 8] : Fin 2 → ℝ) i),
    of (1 : Matrix (Fin C.rows) (Fin C.rows) ℝ)),
    fun _ => .error .linAlgError, fun a b => decide (a ≤ b), fun _ => .error .linAlgError, fun x => x⟩ : GlswCfg ℝ) (by decide) 1 rfl (by decide)
    (0 : Matrix (Fin 4) (Fin 2) ℝ) exB ![2, 8] 1 ⟨rfl, exB_ortho, rfl⟩
  exact ⟨_, _, h, C147_glsw_columns _ (fun C r h => by cases h; rfl) _ _ _ (.inr h)⟩

/-- NIPALS: the constant response of the witness, five responses for two samples. -/
example : ∃ c : NipalsCfg ℝ, ∃ M, nipalsTrain c (of (!![1; 2] : Matrix (Fin 2) (Fin 1) ℝ)) (of (Matrix.of fun (_ : Fin 5) (_ : Fin 1) => (7 : ℝ))) = .ok M :=
  ⟨{ exCfg with pinv := fun A => .ok A }, C147_nipals_violation (K := 0) _ ⟨fun _ _ => rfl, fun _ => decide_eq_true_iff⟩ rfl rfl (by decide) (by decide) _ 7⟩

end Verif.Props
