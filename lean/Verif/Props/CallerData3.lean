import Verif.Alg.PrmHeap
import Verif.Alg.DiplsHeap
import Verif.Props.CallerData2
import Verif.Props.PrmScores
import Verif.Props.DiplsProps

/-!
# C113 for PRM and DIPLS

The programs of `PrmHeap.lean` and `DiplsHeap.lean`.  DIPLS is trained with three, four or five matrices.
-/

namespace Verif.Props
open Verif Mat Heap

variable {α M A : Type}

/-! ## PRM -/

section prm
variable [Field α] [LinearOrder α] [HasSqrt α]

/-- PRM with its inner SIMPLS objects and any preprocessing: `initialize`, `predict`. -/
theorem C113_prm (isZero isZero' : α → Bool) (ops : Ops α) (K count : Int) (cfg : PrmCfg α) (hb : cfg.base = prmBaseOf isZero' ops K count)
    (prep : Prep) :
    CallerSafe (hSingleTrain isZero (hPrmTrain cfg (hPrmBase isZero' ops K count)) prep) (hSinglePredict hPrmPredict)
      (singleTrain isZero (prmTrain cfg) prep) (singlePredict prmPredict) :=
  callerSafe_of (ρ := singleRepr prmRepr)
    (fun _ _ _ _ _ hX hY => hSingleTrain_sim (fun _ _ _ _ _ hX hY => hPrmTrain_sim cfg (hPrmBase_ok cfg isZero' ops K count hb) hX hY) hX hY
      isZero prep)
    fun _ _ _ _ _ hm hZ => hSinglePredict_sim (ρ := prmRepr) (fun _ _ _ _ _ hm hZ => hPrmPredict_sim hm hZ) hm hZ

/-- PRM: `initialize`, `transform`. -/
theorem C113_prm_transform (isZero isZero' : α → Bool) (ops : Ops α) (K count : Int) (cfg : PrmCfg α)
    (hb : cfg.base = prmBaseOf isZero' ops K count) (prep : Prep) :
    CallerSafe (hSingleTrain isZero (hPrmTrain cfg (hPrmBase isZero' ops K count)) prep) (fun a Z => hPrmTransform a.base Z)
      (singleTrain isZero (prmTrain cfg) prep) (fun m Z => prmTransform m.base Z) :=
  callerSafe_of (ρ := singleRepr prmRepr)
    (fun _ _ _ _ _ hX hY => hSingleTrain_sim (fun _ _ _ _ _ hX hY => hPrmTrain_sim cfg (hPrmBase_ok cfg isZero' ops K count hb) hX hY) hX hY
      isZero prep)
    fun _ _ _ _ _ hm hZ => hPrmTransform_sim hm.2.2.2 hZ

end prm

/-! ## DIPLS -/

/-- `CallerSafe` for training with any number of matrices: none of the caller's objects is changed, the outcome is that of the functions on
values, the trained model does not depend on what happens to other objects later, and its results are new objects. -/
structure CallerSafeN {n : Nat} (train : (Fin n → Nat) → H α A) (use : A → Nat → H α Nat) (trainF : (Fin n → Mat α) → Except PyErr M)
    (useF : M → Mat α → Except PyErr (Mat α)) : Prop where
  keeps : ∀ h X, WF h → (∀ i, X i < h.nobj) →
    WF (train X h).2 ∧ h.nobj ≤ (train X h).2.nobj ∧ ∀ q < h.nobj, (train X h).2.contents q = h.contents q
  raises : ∀ h X e, WF h → (∀ i, X i < h.nobj) → (train X h).1 = .error e → trainF (fun i => h.contents (X i)) = .error e
  later : ∀ h X a, WF h → (∀ i, X i < h.nobj) → (train X h).1 = .ok a →
    ∃ m, trainF (fun i => h.contents (X i)) = .ok m ∧
    ∀ h', WF h' → (train X h).2.nobj ≤ h'.nobj →
      (∀ q, h.nobj ≤ q → q < (train X h).2.nobj → h'.contents q = (train X h).2.contents q) →
      ∀ Z < h'.nobj,
        (WF (use a Z h').2 ∧ ∀ q < h'.nobj, (use a Z h').2.contents q = h'.contents q) ∧
        (∀ e, (use a Z h').1 = .error e → useF m (h'.contents Z) = .error e) ∧
        ∀ b, (use a Z h').1 = .ok b → h'.nobj ≤ b ∧ useF m (h'.contents Z) = .ok ((use a Z h').2.contents b)

theorem callerSafeN_of {n : Nat} {ρ : Repr α M A} {train : (Fin n → Nat) → H α A} {use : A → Nat → H α Nat}
    {trainF : (Fin n → Mat α) → Except PyErr M} {useF : M → Mat α → Except PyErr (Mat α)}
    (ht : ∀ h X C, (∀ i, Has h (X i) (C i)) → Heap.Sim [] h (train X) (trainF C) (ρ.Fresh h))
    (hu : ∀ h a m Z C, ρ.On m h a → Has h Z C → Heap.Sim [] h (use a Z) (useF m C) (New h)) :
    CallerSafeN train use trainF useF where
  keeps h X hw hX := by
    obtain ⟨f, -⟩ := ht h X _ (fun i => ⟨hX i, rfl⟩) hw
    exact ⟨f.wf, f.le, fun q hq => f.same q hq List.not_mem_nil⟩
  raises h X e hw hX he := by
    obtain ⟨-, a⟩ := ht h X _ (fun i => ⟨hX i, rfl⟩) hw
    rw [he] at a
    generalize trainF (fun i => h.contents (X i)) = z at a
    cases a
    rfl
  later h X a hw hX ha := by
    obtain ⟨f, ag⟩ := ht h X _ (fun i => ⟨hX i, rfl⟩) hw
    rw [ha] at ag
    generalize trainF (fun i => h.contents (X i)) = z at ag
    cases ag with
    | @ok _ m hr =>
      refine ⟨m, rfl, fun h' hw' hle hsame Z hZ => ?_⟩
      have hon : ρ.On m h' a := by
        let L := List.range h.nobj
        refine ρ.mono (L := L) ⟨hw', hle, fun r hr1 hr2 => hsame r ?_ hr1⟩ ?_ hr.1
        · have : ¬ r < h.nobj := fun hlt => hr2 (List.mem_range.mpr hlt)
          omega
        · intro r hr' hm
          have := hr.2 r hr'
          have := List.mem_range.mp hm
          omega
      obtain ⟨f', ag'⟩ := hu h' a m Z _ hon ⟨hZ, rfl⟩ hw'
      refine ⟨⟨f'.wf, fun q hq => f'.same q hq List.not_mem_nil⟩, fun e he => ?_, fun b hb => ?_⟩
      · rw [he] at ag'
        generalize useF m (h'.contents Z) = z at ag'
        cases ag'
        rfl
      · rw [hb] at ag'
        generalize useF m (h'.contents Z) = z at ag'
        cases ag' with
        | ok hn => exact ⟨hn.1, by rw [hn.2.2]⟩

section dipls
variable [Field α] [HasSqrt α]

/-- DIPLS, `initialize_unsupervised` of a new object (source predictors, target predictors, source response), then `predict` or
`transform`. -/
theorem C113_dipls_unsupervised (cfg : DiplsCfg α) :
    CallerSafeN (n := 3) (fun X => hDiplsUnsupervised cfg (X 0) (X 1) (X 2)) (hDiplsUse hDiplsPredictT)
      (fun C => diplsUnsupervised cfg diplsFresh (C 0) (C 1) (C 2)) (diplsUse diplsPredict) ∧
    CallerSafeN (n := 3) (fun X => hDiplsUnsupervised cfg (X 0) (X 1) (X 2)) (hDiplsUse hDiplsTransformT)
      (fun C => diplsUnsupervised cfg diplsFresh (C 0) (C 1) (C 2)) (diplsUse diplsTransform) :=
  ⟨callerSafeN_of (ρ := diplsResRepr) (fun _ _ _ hX => hDiplsUnsupervised_sim cfg (hX 0) (hX 1) (hX 2))
    fun _ _ _ _ _ hm hZ => hDiplsUse_sim (fun _ _ _ _ _ hm hZ => hDiplsPredictT_sim hm hZ) hm hZ,
  callerSafeN_of (ρ := diplsResRepr) (fun _ _ _ hX => hDiplsUnsupervised_sim cfg (hX 0) (hX 1) (hX 2))
    fun _ _ _ _ _ hm hZ => hDiplsUse_sim (fun _ _ _ _ _ hm hZ => hDiplsTransformT_sim hm hZ) hm hZ⟩

/-- DIPLS, `initialize_supervised` of a new object (predictors of both domains, responses of both domains). -/
theorem C113_dipls_supervised (cfg : DiplsCfg α) :
    CallerSafeN (n := 4) (fun X => hDiplsSupervised cfg (X 0) (X 1) (X 2) (X 3)) (hDiplsUse hDiplsPredictT)
      (fun C => diplsSupervised cfg diplsFresh (C 0) (C 1) (C 2) (C 3)) (diplsUse diplsPredict) ∧
    CallerSafeN (n := 4) (fun X => hDiplsSupervised cfg (X 0) (X 1) (X 2) (X 3)) (hDiplsUse hDiplsTransformT)
      (fun C => diplsSupervised cfg diplsFresh (C 0) (C 1) (C 2) (C 3)) (diplsUse diplsTransform) :=
  ⟨callerSafeN_of (ρ := diplsResRepr) (fun _ _ _ hX => hDiplsSupervised_sim cfg (hX 0) (hX 1) (hX 2) (hX 3))
    fun _ _ _ _ _ hm hZ => hDiplsUse_sim (fun _ _ _ _ _ hm hZ => hDiplsPredictT_sim hm hZ) hm hZ,
  callerSafeN_of (ρ := diplsResRepr) (fun _ _ _ hX => hDiplsSupervised_sim cfg (hX 0) (hX 1) (hX 2) (hX 3))
    fun _ _ _ _ _ hm hZ => hDiplsUse_sim (fun _ _ _ _ _ hm hZ => hDiplsTransformT_sim hm hZ) hm hZ⟩

/-- DIPLS, `initialize_semisupervised` of a new object (source, target and unlabelled predictors, responses of both domains). -/
theorem C113_dipls_semisupervised (cfg : DiplsCfg α) :
    CallerSafeN (n := 5) (fun X => hDiplsSemisupervised cfg (X 0) (X 1) (X 2) (X 3) (X 4)) (hDiplsUse hDiplsPredictT)
      (fun C => diplsSemisupervised cfg diplsFresh (C 0) (C 1) (C 2) (C 3) (C 4)) (diplsUse diplsPredict) ∧
    CallerSafeN (n := 5) (fun X => hDiplsSemisupervised cfg (X 0) (X 1) (X 2) (X 3) (X 4)) (hDiplsUse hDiplsTransformT)
      (fun C => diplsSemisupervised cfg diplsFresh (C 0) (C 1) (C 2) (C 3) (C 4)) (diplsUse diplsTransform) :=
  ⟨callerSafeN_of (ρ := diplsResRepr) (fun _ _ _ hX => hDiplsSemisupervised_sim cfg (hX 0) (hX 1) (hX 2) (hX 3) (hX 4))
    fun _ _ _ _ _ hm hZ => hDiplsUse_sim (fun _ _ _ _ _ hm hZ => hDiplsPredictT_sim hm hZ) hm hZ,
  callerSafeN_of (ρ := diplsResRepr) (fun _ _ _ hX => hDiplsSemisupervised_sim cfg (hX 0) (hX 1) (hX 2) (hX 3) (hX 4))
    fun _ _ _ _ _ hm hZ => hDiplsUse_sim (fun _ _ _ _ _ hm hZ => hDiplsTransformT_sim hm hZ) hm hZ⟩

end dipls

/-! ## Concrete cases -/

/-- The eigensolver `eig` as a NumPy routine. -/
noncomputable def opsOf (eig : Mat ℝ → Mat ℝ × Mat ℝ) : Ops ℝ :=
  ⟨fun M => .ok ((eig M).1.transpose, (eig M).2), fun _ => .error .linAlgError, fun a b => decide (a ≤ b)⟩

/-- The inner model on objects is the inner model of C104. -/
theorem prmBaseOf_eq (isZero : ℝ → Bool) (eig : Mat ℝ → Mat ℝ × Mat ℝ) (K count : Int) :
    prmBaseOf isZero (opsOf eig) K count = simplsBase eig K count := by
  funext X y
  have e : dominant (opsOf eig) = domOf eig := by
    funext M
    rfl
  unfold prmBaseOf simplsBase singleTrain
  rw [e]
  simp only [classStats, prepApply, except_bind_ok, bind_assoc]

/-- PRM on three samples of two predictors: the programs return. -/
example (isZero : ℝ → Bool) : ∃ a b,
    (hPrmTrain prmScoresCfg (hPrmBase isZero (opsOf eigOne) 1 (-1)) 0 1 (cdHeap2 (of (!![1, 2; 3, 5; 8, 13] : Matrix (Fin 3) (Fin 2) ℝ))
      (of (!![1; 4; 9] : Matrix (Fin 3) (Fin 1) ℝ)))).1 = .ok a ∧
    (hPrmTransform a 0 (hPrmTrain prmScoresCfg (hPrmBase isZero (opsOf eigOne) 1 (-1)) 0 1
      (cdHeap2 (of (!![1, 2; 3, 5; 8, 13] : Matrix (Fin 3) (Fin 2) ℝ)) (of (!![1; 4; 9] : Matrix (Fin 3) (Fin 1) ℝ)))).2).1 = .ok b := by
  obtain ⟨m, W, g, h1, -, h2⟩ := C104_partial (K := 1) (count := -1) prmScoresCfg eigOne_ok (by decide)
    (by norm_num [prmScoresCfg]) (by decide) (by decide) rfl (by decide) rfl
    (!![1, 2; 3, 5; 8, 13] : Matrix (Fin 3) (Fin 2) ℝ) (!![1; 4; 9] : Matrix (Fin 3) (Fin 1) ℝ)
  have hb : prmScoresCfg.base = prmBaseOf isZero (opsOf eigOne) 1 (-1) := (prmBaseOf_eq isZero eigOne 1 (-1)).symm
  obtain ⟨a, ha, f, hm, -⟩ := sim_returns (hPrmTrain_sim prmScoresCfg (hPrmBase_ok _ isZero (opsOf eigOne) 1 (-1) hb) (cdHeap2_X _ _)
    (cdHeap2_Y _ _)) (cdHeap2_wf _ _) h1
  obtain ⟨b, hb, -⟩ := sim_returns (hPrmTransform_sim hm ((cdHeap2_X _ _).mono f List.not_mem_nil)) f.wf (h2 3 _).1
  exact ⟨a, b, ha, hb⟩

/-- DIPLS, two components, supervised, the data of C79: training returns a trained object. -/
example : ∃ a, (hDiplsSupervised (exactCfg 2 1) 0 0 1 1 (cdHeap2 (of dxA) (of dxY))).1 = .ok (.trained a) := by
  have h1 := C59_supervised (exactCfg_inv 2 1) diplsFresh ⟨rfl, rfl, rfl⟩ (by decide) (by decide) 2 (by decide) rfl _ _ _ _ (dx_reg 1)
  obtain ⟨a, ha, f, hm, -⟩ := sim_returns (hDiplsSupervised_sim (exactCfg 2 1) (cdHeap2_X _ _) (cdHeap2_X _ _) (cdHeap2_Y _ _)
    (cdHeap2_Y _ _)) (cdHeap2_wf (of dxA) (of dxY)) h1
  cases a with
  | message s => exact hm.elim
  | trained a => exact ⟨a, ha⟩

end Verif.Props
