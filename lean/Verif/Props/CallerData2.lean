import Verif.Alg.KernelHeap
import Verif.Props.CallerData
import Verif.Props.KernelLinear
import Verif.Props.CcaRegression

/-!
# C113 for NIPALS, CCARegression, SparsePLS and KernelPLS

The programs of `NipalsHeap.lean`, `SparseHeap.lean` and `KernelHeap.lean`.
-/

namespace Verif.Props
open Verif Mat Heap

variable {α σ : Type}

section nipals
variable [Field α] [HasSqrt α]

/-- NIPALS with any options and any preprocessing, and CCARegression (`cca` set, canonical deflation): `initialize`, `predict`. -/
theorem C113_nipals (isZero : α → Bool) (c : NipalsCfg α) (prep : Prep) :
    CallerSafe (hMultiTrain isZero (hNipalsTrain c) prep) (hMultiPredict hNipalsPredict) (multiTrain isZero (nipalsTrain c) prep)
      (multiPredict (nipalsPredict c)) :=
  callerSafe_of (ρ := multiRepr nipalsRepr)
    (fun _ _ _ _ _ hX hY => hMultiTrain_sim (fun _ _ _ _ _ hX hY => hNipalsTrain_sim c hX hY) hX hY isZero prep)
    fun _ _ _ _ _ hm hZ => hMultiPredict_sim (ρ := nipalsRepr) (fun _ _ _ _ _ hm hZ => hNipalsPredict_sim c hm hZ) hm hZ

/-- NIPALS and CCARegression: `initialize`, `transform`. -/
theorem C113_nipals_transform (isZero : α → Bool) (c : NipalsCfg α) (prep : Prep) :
    CallerSafe (hMultiTrain isZero (hNipalsTrain c) prep) (fun a Z => hNipalsTransform a.base Z) (multiTrain isZero (nipalsTrain c) prep)
      (fun m Z => nipalsTransform c m.base Z) :=
  callerSafe_of (ρ := multiRepr nipalsRepr)
    (fun _ _ _ _ _ hX hY => hMultiTrain_sim (fun _ _ _ _ _ hX hY => hNipalsTrain_sim c hX hY) hX hY isZero prep)
    fun _ _ _ _ _ hm hZ => hNipalsTransform_sim c hm.2.2.2 hZ

/-- NIPALS and CCARegression: `initialize`, `transform_response`. -/
theorem C113_nipals_transform_response (isZero : α → Bool) (c : NipalsCfg α) (prep : Prep) :
    CallerSafe (hMultiTrain isZero (hNipalsTrain c) prep) (fun a Z => hNipalsTransformResponse a.base Z)
      (multiTrain isZero (nipalsTrain c) prep) (fun m Z => nipalsTransformResponse c m.base Z) :=
  callerSafe_of (ρ := multiRepr nipalsRepr)
    (fun _ _ _ _ _ hX hY => hMultiTrain_sim (fun _ _ _ _ _ hX hY => hNipalsTrain_sim c hX hY) hX hY isZero prep)
    fun _ _ _ _ _ hm hZ => hNipalsTransformResponse_sim c hm.2.2.2 hZ

end nipals

section sparse
variable [Field α] [LinearOrder α] [HasSqrt α]

/-- SparsePLS with its inner NIPALS objects: `initialize`, `predict`. -/
theorem C113_sparse (isZero isZero' : α → Bool) (c : Int → NipalsCfg α) (cfg : SpCfg α) (hnip : cfg.nip = spNip isZero' c) (prep : Prep) :
    CallerSafe (hSingleTrain isZero (hSpTrain cfg (hSpNip isZero' c)) prep) (hSinglePredict hSpPredict)
      (singleTrain isZero (spTrain cfg) prep) (singlePredict (spPredict cfg)) :=
  callerSafe_of (ρ := singleRepr spRepr)
    (fun _ _ _ _ _ hX hY => hSingleTrain_sim (fun _ _ _ _ _ hX hY => hSpTrain_sim cfg (by unfold NipOk; rw [hnip]; exact hSpNip_sim isZero' c)
      hX hY) hX hY isZero prep)
    fun _ _ _ _ _ hm hZ => hSinglePredict_sim (ρ := spRepr) (fun _ _ _ _ _ hm hZ => hSpPredict_sim cfg hm hZ) hm hZ

/-- SparsePLS: `initialize`, `transform`. -/
theorem C113_sparse_transform (isZero isZero' : α → Bool) (c : Int → NipalsCfg α) (cfg : SpCfg α) (hnip : cfg.nip = spNip isZero' c)
    (prep : Prep) :
    CallerSafe (hSingleTrain isZero (hSpTrain cfg (hSpNip isZero' c)) prep) (fun a Z => hSpTransform cfg a.base Z)
      (singleTrain isZero (spTrain cfg) prep) (fun m Z => spTransform cfg m.base Z) :=
  callerSafe_of (ρ := singleRepr spRepr)
    (fun _ _ _ _ _ hX hY => hSingleTrain_sim (fun _ _ _ _ _ hX hY => hSpTrain_sim cfg (by unfold NipOk; rw [hnip]; exact hSpNip_sim isZero' c)
      hX hY) hX hY isZero prep)
    fun _ _ _ _ _ hm hZ => hSpTransform_sim cfg hm.2.2.2 hZ

end sparse

section kernel
variable [Field α] [HasSqrt α]

/-- KernelPLS over any kernel whose matrix is computed in a new object: `initialize`, `predict`. -/
theorem C113_kernel_base (isZero : α → Bool) (c : KplsCfg α σ) {k1 : σ → Nat → H α (σ × Nat)} {k2 : σ → Nat → Nat → H α (σ × Nat)}
    (hk1 : Kern1Ok c.kern1 k1) (hk2 : Kern2Ok c.kern2 k2) (kern : σ) (prep : Prep) :
    CallerSafe (hMultiTrain isZero (hKplsTrain c k1 kern) prep) (hMultiPredict (hKplsPredict k2)) (multiTrain isZero (kplsTrain c kern) prep)
      (multiPredict (kplsPredict c)) :=
  callerSafe_of (ρ := multiRepr kplsRepr)
    (fun _ _ _ _ _ hX hY => hMultiTrain_sim (fun _ _ _ _ _ hX hY => hKplsTrain_sim c hk1 kern hX hY) hX hY isZero prep)
    fun _ _ _ _ _ hm hZ => hMultiPredict_sim (ρ := kplsRepr) (fun _ _ _ _ _ hm hZ => hKplsPredict_sim c hk2 hm hZ) hm hZ

/-- The same for `transform`. -/
theorem C113_kernel_base_transform (isZero : α → Bool) (c : KplsCfg α σ) {k1 : σ → Nat → H α (σ × Nat)}
    {k2 : σ → Nat → Nat → H α (σ × Nat)} (hk1 : Kern1Ok c.kern1 k1) (hk2 : Kern2Ok c.kern2 k2) (kern : σ) (prep : Prep) :
    CallerSafe (hMultiTrain isZero (hKplsTrain c k1 kern) prep) (fun a Z => hKplsTransform k2 a.base Z)
      (multiTrain isZero (kplsTrain c kern) prep) (fun m Z => kplsTransform c m.base Z) :=
  callerSafe_of (ρ := multiRepr kplsRepr)
    (fun _ _ _ _ _ hX hY => hMultiTrain_sim (fun _ _ _ _ _ hX hY => hKplsTrain_sim c hk1 kern hX hY) hX hY isZero prep)
    fun _ _ _ _ _ hm hZ => hKplsTransform_sim c hk2 hm.2.2.2 hZ

/-- KernelPLS over the linear kernel. -/
theorem C113_kernel_linear (isZero : α → Bool) (c : KplsCfg α Unit) (h1 : c.kern1 = fun s X => (s, linearMatrix X none))
    (h2 : c.kern2 = fun s X Y => (s, linearMatrix X (some Y))) (prep : Prep) :
    CallerSafe (hMultiTrain isZero (hKplsTrain c hLinear1 ()) prep) (hMultiPredict (hKplsPredict hLinear2))
      (multiTrain isZero (kplsTrain c ()) prep) (multiPredict (kplsPredict c)) ∧
    CallerSafe (hMultiTrain isZero (hKplsTrain c hLinear1 ()) prep) (fun a Z => hKplsTransform hLinear2 a.base Z)
      (multiTrain isZero (kplsTrain c ()) prep) (fun m Z => kplsTransform c m.base Z) :=
  ⟨C113_kernel_base isZero c (by rw [h1]; exact linear1_ok) (by rw [h2]; exact linear2_ok) () prep,
    C113_kernel_base_transform isZero c (by rw [h1]; exact linear1_ok) (by rw [h2]; exact linear2_ok) () prep⟩

/-- KernelPLS over a polynomial kernel. -/
theorem C113_kernel_poly (isZero : α → Bool) (c : KplsCfg α (PolyState α)) (h1 : c.kern1 = fun s X => polyMatrix s X none)
    (h2 : c.kern2 = fun s X Y => polyMatrix s X (some Y)) (kern : PolyState α) (prep : Prep) :
    CallerSafe (hMultiTrain isZero (hKplsTrain c (fun s X => hPolyMatrix s X none) kern) prep)
      (hMultiPredict (hKplsPredict fun s X Y => hPolyMatrix s X (some Y))) (multiTrain isZero (kplsTrain c kern) prep)
      (multiPredict (kplsPredict c)) ∧
    CallerSafe (hMultiTrain isZero (hKplsTrain c (fun s X => hPolyMatrix s X none) kern) prep)
      (fun a Z => hKplsTransform (fun s X Y => hPolyMatrix s X (some Y)) a.base Z) (multiTrain isZero (kplsTrain c kern) prep)
      (fun m Z => kplsTransform c m.base Z) :=
  ⟨C113_kernel_base isZero c (by rw [h1]; exact poly1_ok) (by rw [h2]; exact poly2_ok) kern prep,
    C113_kernel_base_transform isZero c (by rw [h1]; exact poly1_ok) (by rw [h2]; exact poly2_ok) kern prep⟩

/-- KernelPLS over the RBF kernel. -/
theorem C113_kernel_rbf [HasExp α] (isZero : α → Bool) (c : KplsCfg α (Option α)) (h1 : c.kern1 = applyMatrix1 rbfVector)
    (h2 : c.kern2 = applyMatrix2 rbfVector) (kern : Option α) (prep : Prep) :
    CallerSafe (hMultiTrain isZero (hKplsTrain c (hApplyMatrix1 rbfVector) kern) prep)
      (hMultiPredict (hKplsPredict (hApplyMatrix2 rbfVector))) (multiTrain isZero (kplsTrain c kern) prep) (multiPredict (kplsPredict c)) ∧
    CallerSafe (hMultiTrain isZero (hKplsTrain c (hApplyMatrix1 rbfVector) kern) prep)
      (fun a Z => hKplsTransform (hApplyMatrix2 rbfVector) a.base Z) (multiTrain isZero (kplsTrain c kern) prep)
      (fun m Z => kplsTransform c m.base Z) :=
  ⟨C113_kernel_base isZero c (by rw [h1]; exact applyMatrix1_ok _) (by rw [h2]; exact applyMatrix2_ok _) kern prep,
    C113_kernel_base_transform isZero c (by rw [h1]; exact applyMatrix1_ok _) (by rw [h2]; exact applyMatrix2_ok _) kern prep⟩

end kernel

/-! ## Concrete cases

Two objects with data on which the algorithm trains and predicts: the programs return. -/

/-- Two matrices. -/
noncomputable def cdHeap2 (X Y : Mat ℝ) : Heap ℝ := allocH (allocH cdEmpty X) Y

theorem cdHeap2_wf (X Y : Mat ℝ) : WF (cdHeap2 X Y) := allocH_wf _ _ (allocH_wf _ _ cdEmpty_wf)

theorem cdHeap2_X (X Y : Mat ℝ) : Has (cdHeap2 X Y) 0 X :=
  ⟨show 0 < 2 by decide, (allocH_contents_old _ _ (allocH_wf _ _ cdEmpty_wf) (show 0 < 1 by decide)).trans (allocH_contents_new cdEmpty _)⟩

theorem cdHeap2_Y (X Y : Mat ℝ) : Has (cdHeap2 X Y) 1 Y := ⟨show 1 < 2 by decide, allocH_contents_new (allocH cdEmpty _) _⟩

/-- Linear kernel, two components, the data of `KernelLinear.lean`. -/
example (lstsq : Mat ℝ → Except PyErr (Mat ℝ)) : ∃ a b, (hKplsTrain (klCfg 10 lstsq) hLinear1 () 0 1 (cdHeap2 (of dxA) (of dxY))).1 = .ok a ∧
    (hKplsPredict hLinear2 a 0 (hKplsTrain (klCfg 10 lstsq) hLinear1 () 0 1 (cdHeap2 (of dxA) (of dxY))).2).1 = .ok b := by
  obtain ⟨m, m', T, h1, h2, h3⟩ := C101_linear_kernel (c := klCfg 10 lstsq) (v := klV) ⟨fun _ _ => rfl, fun _ => rfl⟩ (fun _ => rfl)
    (fun _ _ => rfl) (by norm_num [klCfg]) (by norm_num [klCfg]) (K := 2) rfl (by decide) (by decide) (by decide) dxA dxY lstsq rfl
    (by rw [kl_cenX, kl_cenY]; exact kl_regular) (by rw [kl_cenX, kl_cenY]; exact kl_start)
  obtain ⟨F, h4, h5⟩ := h3 (by decide) dxA
  obtain ⟨a, ha, f, hm, -⟩ := sim_returns (hKplsTrain_sim (klCfg 10 lstsq) linear1_ok () (cdHeap2_X (of dxA) (of dxY)) (cdHeap2_Y _ _))
    (cdHeap2_wf _ _) h1
  obtain ⟨b, hb, -⟩ := sim_returns (hKplsPredict_sim (klCfg 10 lstsq) linear2_ok hm ((cdHeap2_X _ _).mono f List.not_mem_nil)) f.wf h5
  exact ⟨a, b, ha, hb⟩

/-- CCARegression with two components, three samples of two equal features. -/
example : ∃ a b, (hNipalsTrain ccaCfg 0 1 (cdHeap2 (of (!![-1, -1; 0, 0; 1, 1] : Matrix (Fin 3) (Fin 2) ℝ))
      (of (!![-1; 0; 1] : Matrix (Fin 3) (Fin 1) ℝ)))).1 = .ok a ∧
    (hNipalsPredict a 0 (hNipalsTrain ccaCfg 0 1 (cdHeap2 (of (!![-1, -1; 0, 0; 1, 1] : Matrix (Fin 3) (Fin 2) ℝ))
      (of (!![-1; 0; 1] : Matrix (Fin 3) (Fin 1) ℝ)))).2).1 = .ok b := by
  obtain ⟨m, P, h1, h2, -⟩ := (C124_violation (k := 1) ccaCfg_real rfl rfl rfl pinvOf_routine pinvOf_routine rfl rfl).2
  obtain ⟨a, ha, f, hm, -⟩ := sim_returns (hNipalsTrain_sim ccaCfg (cdHeap2_X _ _) (cdHeap2_Y _ _)) (cdHeap2_wf _ _) h1
  obtain ⟨b, hb, -⟩ := sim_returns (hNipalsPredict_sim ccaCfg hm ((cdHeap2_X _ _).mono f List.not_mem_nil)) f.wf h2
  exact ⟨a, b, ha, hb⟩

end Verif.Props
