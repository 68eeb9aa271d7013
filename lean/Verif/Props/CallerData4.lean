import Verif.Transf.TransfHeap
import Verif.Alg.FilterHeap
import Verif.Props.CallerData3
import Verif.Props.GlswProps

/-!
# C140: transformations and filters leave the caller's matrices alone

The programs of `TransfHeap.lean`: configuring a transformation and applying it, in either direction, changes no object of the caller and returns
a new object — except `PassThrough` and an empty `MultiFilter`, which return their argument.
-/

namespace Verif.Props
open Verif Mat Heap Transf

variable {α M A : Type}

/-- The transformation object configured with a matrix and then used (`use`): none of the caller's objects is changed, the outcome is that of
the functions on values, the configuration does not depend on what happens to other objects later, the results are new objects. -/
abbrev TransSafe (conf : Nat → H α A) (use : A → Nat → H α Nat) (confV : Mat α → Except PyErr M) (useV : M → Mat α → Except PyErr (Mat α)) :
    Prop :=
  CallerSafeN (n := 1) (fun X => conf (X 0)) use (fun C => confV (C 0)) useV

theorem transSafe_of {ρ : Repr α M A} {conf : Nat → H α A} {use : A → Nat → H α Nat} {confV : Mat α → Except PyErr M}
    {useV : M → Mat α → Except PyErr (Mat α)} (hc : ∀ h X C, Has h X C → Heap.Sim [] h (conf X) (confV C) (ρ.Fresh h))
    (hu : ∀ h a m Z C, ρ.On m h a → Has h Z C → Heap.Sim [] h (use a Z) (useV m C) (New h)) : TransSafe conf use confV useV :=
  callerSafeN_of (ρ := ρ) (fun h X C hX => hc h (X 0) (C 0) (hX 0)) hu

/-! ## Learning transformations -/

/-- `Center`: `transform` and `inverse_transform`. -/
theorem C140_center [Add α] [Sub α] [Zero α] [Div α] [NatCast α] :
    TransSafe (α := α) hCenterConfigure hCenterTransform (confF center) center.doTransform ∧
    TransSafe (α := α) hCenterConfigure hCenterInverse (confF center) center.doInverse :=
  ⟨transSafe_of (ρ := centerRepr) (fun _ _ _ hX => hCenterConfigure_sim hX) fun _ _ _ _ _ hm hZ => hCenterTransform_sim hm hZ,
    transSafe_of (ρ := centerRepr) (fun _ _ _ hX => hCenterConfigure_sim hX) fun _ _ _ _ _ hm hZ => hCenterInverse_sim hm hZ⟩

/-- `Standardize`: `transform` and `inverse_transform`. -/
theorem C140_standardize [Field α] [HasSqrt α] (isZero : α → Bool) :
    TransSafe (hStdConfigure isZero) hStdTransform (confF (standardize isZero)) (standardize isZero).doTransform ∧
    TransSafe (hStdConfigure isZero) hStdInverse (confF (standardize isZero)) (standardize isZero).doInverse :=
  ⟨transSafe_of (ρ := stdRepr) (fun _ _ _ hX => hStdConfigure_sim hX isZero) fun _ _ _ _ _ hm hZ => hStdTransform_sim isZero hm hZ,
    transSafe_of (ρ := stdRepr) (fun _ _ _ hX => hStdConfigure_sim hX isZero) fun _ _ _ _ _ hm hZ => hStdInverse_sim isZero hm hZ⟩

/-- `RowNorm`: `transform` and `inverse_transform`, although they work on the arrays directly. -/
theorem C140_row_norm [Field α] [HasSqrt α] (isZero : α → Bool) :
    TransSafe (hRowConfigure isZero) hRowTransform (confF (rowNorm isZero)) (rowNorm isZero).doTransform ∧
    TransSafe (hRowConfigure isZero) hRowInverse (confF (rowNorm isZero)) (rowNorm isZero).doInverse :=
  ⟨transSafe_of (ρ := rowRepr) (fun _ _ _ hX => hRowConfigure_sim hX isZero) fun _ _ _ _ _ hm hZ => hRowTransform_sim isZero hm hZ,
    transSafe_of (ρ := rowRepr) (fun _ _ _ hX => hRowConfigure_sim hX isZero) fun _ _ _ _ _ hm hZ => hRowInverse_sim isZero hm hZ⟩

/-- `SavitzkyGolay` and `SavitzkyGolay2` with any parameters: `transform`. -/
theorem C140_savitzky_golay [Field α] [DecidableEq α] (s : SGState α) (hs : s.coef = none) :
    TransSafe (hSgConfigure s) hSgTransform (sgConfF s) savGol.doTransform :=
  transSafe_of (ρ := sgRepr) (fun _ _ _ _ => hSgConfigure_sim s hs) fun h a m Z C hm hZ => by
    obtain ⟨c, hc, ha⟩ := hm
    have e : savGol.doTransform m C = sgApply c C := by
      unfold savGol
      dsimp only
      rw [hc]
    rw [e]
    exact hSgTransform_value ha hZ

/-- Scatter correction with a prefilter that changes nothing and returns a new object or its argument. -/
theorem C140_scatter_correction [Add α] [Sub α] [Mul α] [Div α] [Zero α] [NatCast α] (le : α → α → Bool) {pre : Nat → H α Nat}
    {f : Mat α → Except PyErr (Mat α)} (hp : PreOk pre f) (ranges : List (α × α)) :
    TransSafe hMscConfigure (hMscTransform le pre ranges) (confF (msc le (some f) ranges)) (msc le (some f) ranges).doTransform :=
  transSafe_of (ρ := mscRepr) (fun _ _ _ hX => hMscConfigure_sim le (some f) ranges hX) fun _ _ _ _ _ hm hZ => hMscTransform_sim le hp ranges hm hZ

/-- Scatter correction without prefilter. -/
theorem C140_scatter_correction_plain [Add α] [Sub α] [Mul α] [Div α] [Zero α] [NatCast α] (le : α → α → Bool) (ranges : List (α × α)) :
    TransSafe hMscConfigure (hMscTransform le pure ranges) (confF (msc le none ranges)) (msc le none ranges).doTransform :=
  transSafe_of (ρ := mscRepr) (fun _ _ _ hX => hMscConfigure_sim le none ranges hX) fun _ _ _ _ _ hm hZ =>
    hMscTransform_sim le (f := .ok) (fun _ _ _ hZ => Heap.Sim.ret ⟨hZ, .inl rfl⟩) ranges hm hZ

/-! ## Filters without matrices of their own -/

/-- A filter that changes no object of the caller and returns a new object with the contents given by `F`. -/
structure FilterSafe (f : Nat → H α Nat) (F : Mat α → Except PyErr (Mat α)) : Prop where
  keeps : ∀ h Z, WF h → Z < h.nobj → WF (f Z h).2 ∧ h.nobj ≤ (f Z h).2.nobj ∧ ∀ q < h.nobj, (f Z h).2.contents q = h.contents q
  raises : ∀ h Z e, WF h → Z < h.nobj → (f Z h).1 = .error e → F (h.contents Z) = .error e
  returns : ∀ h Z b, WF h → Z < h.nobj → (f Z h).1 = .ok b → h.nobj ≤ b ∧ b < (f Z h).2.nobj ∧ F (h.contents Z) = .ok ((f Z h).2.contents b)

theorem filterSafe_iff {f : Nat → H α Nat} {F : Mat α → Except PyErr (Mat α)} :
    FilterSafe f F ↔ ∀ h Z C, Has h Z C → Heap.Sim [] h (f Z) (F C) (New h) := by
  constructor
  · intro hf h Z C hZ hw
    obtain ⟨k1, k2, k3⟩ := hf.keeps h Z hw hZ.1
    refine ⟨⟨k1, k2, fun q hq _ => k3 q hq⟩, ?_⟩
    cases hr : (f Z h).1 with
    | error e =>
      rw [← hZ.2, hf.raises h Z e hw hZ.1 hr]
      exact .error e
    | ok b =>
      obtain ⟨r1, r2, r3⟩ := hf.returns h Z b hw hZ.1 hr
      rw [← hZ.2, r3]
      exact .ok ⟨r1, r2, rfl⟩
  · intro hs
    refine ⟨fun h Z hw hZ => ?_, fun h Z e hw hZ he => ?_, fun h Z b hw hZ hb => ?_⟩
    · obtain ⟨fr, -⟩ := hs h Z _ ⟨hZ, rfl⟩ hw
      exact ⟨fr.wf, fr.le, fun q hq => fr.same q hq List.not_mem_nil⟩
    · obtain ⟨-, ag⟩ := hs h Z _ ⟨hZ, rfl⟩ hw
      rw [he] at ag
      generalize F (h.contents Z) = z at ag
      cases ag
      rfl
    · obtain ⟨-, ag⟩ := hs h Z _ ⟨hZ, rfl⟩ hw
      rw [hb] at ag
      generalize F (h.contents Z) = z at ag
      cases ag with
      | ok hn => exact ⟨hn.1, hn.2.1, by rw [hn.2.2]⟩

/-- `Log`, `_Log.py` 50-75: works on a copy of the array. -/
def hLogTransform [Zero α] [One α] [Add α] [Sub α] [Mul α] [Div α] [HasLog α] [HasExp α] (e : α) (eq le : α → α → Bool) (s : LogState α)
    (Z : Nat) : H α Nat := mPure1 ((log e eq le).doTransform s) Z

/-- `Log`, the inverse, `_Log.py` 64-75. -/
def hLogInverse [Zero α] [One α] [Add α] [Sub α] [Mul α] [Div α] [HasLog α] [HasExp α] (e : α) (eq le : α → α → Bool) (s : LogState α)
    (Z : Nat) : H α Nat := mPure1 ((log e eq le).doInverse s) Z

/-- `Log`, the Y-gradient filter, `Downsample` and `Equidistance`. -/
theorem C140_filters [Field α] [HasLog α] [HasExp α] (e : α) (eq le : α → α → Bool) (s : LogState α) (coef : List α) (start step k : Int) :
    FilterSafe (hLogTransform e eq le s) ((log e eq le).doTransform s) ∧ FilterSafe (hLogInverse e eq le s) ((log e eq le).doInverse s) ∧
    FilterSafe (hYgradTransform coef) (ygradApply coef) ∧ FilterSafe (α := α) (hDownsample start step) (downsample start step) ∧
    FilterSafe (α := α) (hEquidistance k) (equidistance k) :=
  ⟨filterSafe_iff.2 fun _ _ _ hZ => sim_pure1 hZ, filterSafe_iff.2 fun _ _ _ hZ => sim_pure1 hZ,
    filterSafe_iff.2 fun _ _ _ hZ => hYgradTransform_sim coef hZ, filterSafe_iff.2 fun _ _ _ hZ => hDownsample_sim start step hZ,
    filterSafe_iff.2 fun _ _ _ hZ => hEquidistance_sim k hZ⟩

/-! ## MultiFilter and PassThrough -/

/-- `MultiFilter.transform` on objects, `_MultiFilter.py` 31-39. -/
def hMultiFilter : List (Nat → H α Nat) → Nat → H α Nat
  | [], Z => pure Z
  | f :: fs, Z => do
    let b ← f Z
    hMultiFilter fs b

/-- `PassThrough`, `_PassThrough.py` 20-28. -/
def hPassThrough (Z : Nat) : H α Nat := pure Z

/-- A filter that changes nothing and returns a new object or its argument. -/
abbrev FilterWeak (f : Nat → H α Nat) (F : Mat α → Except PyErr (Mat α)) : Prop := PreOk f F

theorem FilterSafe.weak {f : Nat → H α Nat} {F : Mat α → Except PyErr (Mat α)} (hf : FilterSafe f F) : FilterWeak f F := fun h Z C hZ =>
  (filterSafe_iff.1 hf h Z C hZ).post fun _ _ _ _ hn => ⟨hn.2, .inr hn.1⟩

/-- `PassThrough` changes nothing. -/
theorem C140_pass_through_weak : FilterWeak (α := α) hPassThrough (passThrough.doTransform true) := fun _ _ _ hZ =>
  Heap.Sim.ret ⟨hZ, .inl rfl⟩

/-- Filters in a row that each change nothing change nothing together, and compute the composition. -/
theorem C140_multi_filter_weak : ∀ {fs : List (Nat → H α Nat)} {Fs : List (Mat α → Except PyErr (Mat α))}, List.Forall₂ FilterWeak fs Fs →
    FilterWeak (hMultiFilter fs) (multiFilter Fs)
  | _, _, .nil => fun _ _ _ hZ => Heap.Sim.ret ⟨hZ, .inl rfl⟩
  | _, _, .cons h1 h2 => fun h Z C hZ => by
    unfold hMultiFilter multiFilter
    refine Heap.Sim.bind (h1 h Z C hZ) (by simp) ?_
    rintro h' b c f1 ⟨a1, e1⟩
    refine (C140_multi_filter_weak h2 h' b c a1).post ?_
    rintro h'' b' c' f2 ⟨a2, e2⟩
    refine ⟨a2, ?_⟩
    have := f1.le
    rcases e2 with rfl | e2
    · exact e1
    · exact .inr (by omega)

/-- A `MultiFilter` with at least one filter that returns new objects returns new objects, whatever passes its argument on before or after. -/
theorem C140_multi_filter {fs gs : List (Nat → H α Nat)} {f : Nat → H α Nat} {Fs Gs : List (Mat α → Except PyErr (Mat α))}
    {F : Mat α → Except PyErr (Mat α)} (h1 : List.Forall₂ FilterWeak fs Fs) (hf : FilterSafe f F) (h2 : List.Forall₂ FilterWeak gs Gs) :
    FilterSafe (hMultiFilter (fs ++ f :: gs)) (multiFilter (Fs ++ F :: Gs)) := by
  rw [filterSafe_iff]
  induction h1 with
  | nil =>
    intro h Z C hZ
    rw [List.nil_append, List.nil_append]
    unfold hMultiFilter multiFilter
    refine Heap.Sim.new (filterSafe_iff.1 hf h Z C hZ) fun h' b c f1 l1 g1 u1 a1 => ?_
    refine (C140_multi_filter_weak h2 h' b c a1).post ?_
    rintro h'' b' c' f2 ⟨a2, e2⟩
    refine ⟨?_, a2⟩
    rcases e2 with rfl | e2 <;> omega
  | cons h0 _ ih =>
    intro h Z C hZ
    rw [List.cons_append, List.cons_append]
    unfold hMultiFilter multiFilter
    refine Heap.Sim.bind (h0 h Z C hZ) (by simp) ?_
    rintro h' b c f1 ⟨a1, -⟩
    exact (ih h' b c a1).post fun h'' b' c' _ hn => ⟨by have := hn.1; have := f1.le; omega, hn.2⟩

/-- `PassThrough` and a `MultiFilter` without filters return the caller's own object: an entry set in the result is set in the data. -/
theorem C140_pass_through_violation (f : Nat → H α Nat) (hf : f = hPassThrough ∨ f = hMultiFilter []) {h : Heap α} (hw : WF h) {Z : Nat}
    (hZ : Z < h.nobj) (i j : Int) (v : α) {R : Mat α} (hs : (h.contents Z).set i j v = .ok R) :
    ((f Z >>= fun b => mSet b i j v) h).1 = .ok () ∧ ((f Z >>= fun b => mSet b i j v) h).2.contents Z = R := by
  have e : (f Z >>= fun b => mSet b i j v) h = mSet Z i j v h := by rcases hf with rfl | rfl <;> rfl
  rw [e]
  obtain ⟨-, ag⟩ := sim_set (M := h.contents Z) ⟨hZ, rfl⟩ i j v hw
  rw [hs] at ag
  generalize hr : (mSet Z i j v h).1 = z at ag
  cases ag with
  | ok hn => exact ⟨rfl, hn.2⟩

/-- In particular neither is a filter that returns new objects. -/
theorem C140_pass_through_not_safe_violation : ¬ FilterSafe (α := ℝ) hPassThrough (passThrough.doTransform true) ∧
    ¬ FilterSafe (α := ℝ) (hMultiFilter []) (multiFilter []) := by
  constructor
  · intro hf
    have := (hf.returns cdHeap 0 0 cdHeap_wf (by decide +revert) rfl).1
    exact absurd this (show ¬ (2 ≤ 0) by decide)
  · intro hf
    have := (hf.returns cdHeap 0 0 cdHeap_wf (by decide +revert) rfl).1
    exact absurd this (show ¬ (2 ≤ 0) by decide)

/-! ## The getters hand out the transformation's own matrices -/

/-- `get_means`, `_Standardize.py` 57-58, `_RowNorm.py` 56-57. -/
def hGetMeans (a : StdAttrs) : H α Nat := pure a.means

/-- Setting an entry of what `get_means` returns replaces the means the transformation works with. -/
theorem C140_getter_limits [Field α] [HasSqrt α] (isZero : α → Bool) {h : Heap α} (hw : WF h) {a : StdAttrs} {m d : Mat α} (hm : Has h a.means m)
    (hd : Has h a.stds d) (hne : a.stds ≠ a.means) {Z : Nat} {C : Mat α} (hZ : Has h Z C) (hZm : Z ≠ a.means) (i j : Int) (v : α) {m' : Mat α}
    (hs : m.set i j v = .ok m') :
    ∃ h1, (hGetMeans a >>= fun b => mSet b i j v) h = (.ok (), h1) ∧
      Heap.Sim [] h1 (hStdTransform a Z) ((standardize isZero).doTransform ⟨true, some m', some d⟩ C) (New h1) := by
  have e : (hGetMeans a >>= fun b => mSet b i j v) h = mSet a.means i j v h := rfl
  obtain ⟨fr, ag⟩ := sim_set hm i j v hw
  rw [hs] at ag
  refine ⟨(mSet a.means i j v h).2, ?_, ?_⟩
  · rw [e]
    generalize hr : mSet a.means i j v h = z at ag
    obtain ⟨z1, z2⟩ := z
    dsimp only at ag
    cases ag with
    | ok _ => rfl
  · generalize hr : (mSet a.means i j v h).1 = z at ag
    cases ag with
    | ok hn =>
      exact hStdTransform_sim isZero ⟨_, _, rfl, hn, hd.mono fr (by simpa using hne)⟩ (hZ.mono fr (by simpa using hZm))

/-! ## GLSW, EPO, CCAFilter and PCA -/

section algorithms
variable [Field α] [DecidableEq α] [HasSqrt α]

/-- GLSW and EPO, `initialize` with two data sets and `transform`. -/
theorem C140_glsw (cfg : GlswCfg α) :
    CallerSafeN (n := 2) (fun X => hGlswInit cfg glswCheck hGlswCov (glswVecs cfg) (glswWeights cfg) (X 0) (X 1)) hGlswUse
      (fun C => glswFit cfg (C 0) (C 1)) glswUse ∧
    CallerSafeN (n := 2) (fun X => hGlswInit cfg glswCheck hGlswCov (epoVecs cfg) (epoWeights cfg) (X 0) (X 1)) hGlswUse
      (fun C => epoFit cfg (C 0) (C 1)) glswUse :=
  ⟨callerSafeN_of (ρ := glswRepr) (fun _ _ _ hX => hGlswInit_sim cfg _ (fun _ _ _ _ _ hA hB => hGlswCov_sim hA hB) _ _ (hX 0) (hX 1))
      fun _ _ _ _ _ hm hZ => hGlswUse_sim hm hZ,
    callerSafeN_of (ρ := glswRepr) (fun _ _ _ hX => hGlswInit_sim cfg _ (fun _ _ _ _ _ hA hB => hGlswCov_sim hA hB) _ _ (hX 0) (hX 1))
      fun _ _ _ _ _ hm hZ => hGlswUse_sim hm hZ⟩

/-- YGradientGLSW and YGradientEPO, `initialize` with predictors and response and `transform`. -/
theorem C140_ygradient_glsw (cfg : GlswCfg α) :
    CallerSafeN (n := 2) (fun X => hGlswInit cfg yGradCheck (hYgCov cfg.le cfg.pow2) (glswVecs cfg) (glswWeights cfg) (X 0) (X 1)) hGlswUse
      (fun C => glswInit cfg yGradCheck (yGradCov cfg.le cfg.pow2) (glswVecs cfg) (glswWeights cfg) (C 0) (C 1)) glswUse ∧
    CallerSafeN (n := 2) (fun X => hGlswInit cfg yGradCheck (hYgCov cfg.le cfg.pow2) (epoVecs cfg) (epoWeights cfg) (X 0) (X 1)) hGlswUse
      (fun C => glswInit cfg yGradCheck (yGradCov cfg.le cfg.pow2) (epoVecs cfg) (epoWeights cfg) (C 0) (C 1)) glswUse :=
  ⟨callerSafeN_of (ρ := glswRepr) (fun _ _ _ hX => hGlswInit_sim cfg _ (hYgCov_sim _ _) _ _ (hX 0) (hX 1))
      fun _ _ _ _ _ hm hZ => hGlswUse_sim hm hZ,
    callerSafeN_of (ρ := glswRepr) (fun _ _ _ hX => hGlswInit_sim cfg _ (hYgCov_sim _ _) _ _ (hX 0) (hX 1))
      fun _ _ _ _ _ hm hZ => hGlswUse_sim hm hZ⟩

/-- CCAFilter, `initialize` of a new object with predictors and response, then `transform` or `transform_response`. -/
theorem C140_cca (cfg : CcaCfg α) :
    CallerSafeN (n := 2) (fun X => hCcaInit cfg (X 0) (X 1)) hCcaTransform (fun C => ccaInit cfg ccaFresh (C 0) (C 1))
      (fun m => ccaTransform m.1) ∧
    CallerSafeN (n := 2) (fun X => hCcaInit cfg (X 0) (X 1)) hCcaTransformResponse (fun C => ccaInit cfg ccaFresh (C 0) (C 1))
      (fun m => ccaTransformResponse m.1) :=
  ⟨callerSafeN_of (ρ := ccaRepr) (fun _ _ _ hX => hCcaInit_sim cfg (hX 0) (hX 1)) fun _ _ _ _ _ hm hZ => (hCcaTransform_sim hm hZ).1,
    callerSafeN_of (ρ := ccaRepr) (fun _ _ _ hX => hCcaInit_sim cfg (hX 0) (hX 1)) fun _ _ _ _ _ hm hZ => (hCcaTransform_sim hm hZ).2⟩

end algorithms

section pca
variable [Field α] [HasSqrt α] [LT α] [DecidableLT α]

/-- PCA, `configure` and `do_transform`. -/
theorem C140_pca_configure (cfg : PcaCfg α) : TransSafe (hPcaConfigure cfg) (hPcaScores cfg) (pcaConfigure cfg) (pcaScores cfg) :=
  transSafe_of (ρ := pcaRepr) (fun _ _ _ hX => hPcaConfigure_sim cfg hX) fun _ _ _ _ _ hm hZ => hPcaScores_sim cfg hm hZ

/-- PCA, `transform`: no object of the caller is changed, whether it returns or raises; the scores and the loadings are two new objects with the
contents given by the function on values, and none of the matrices the object keeps is one of the caller's. -/
theorem C140_pca_transform (cfg : PcaCfg α) {h : Heap α} (hw : WF h) {X : Nat} (hX : X < h.nobj) :
    (WF (hPcaTransform cfg X h).2 ∧ ∀ q < h.nobj, (hPcaTransform cfg X h).2.contents q = h.contents q) ∧
    (∀ e, (hPcaTransform cfg X h).1 = .error e → pcaTransform cfg (h.contents X) = .error e) ∧
    ∀ a S L, (hPcaTransform cfg X h).1 = .ok (a, S, L) → h.nobj ≤ S ∧ h.nobj ≤ L ∧ S ≠ L ∧ (∀ r ∈ pcaRepr.refs a, h.nobj ≤ r) ∧
      ∃ st, pcaTransform cfg (h.contents X) = .ok (st, (hPcaTransform cfg X h).2.contents S, (hPcaTransform cfg X h).2.contents L) := by
  obtain ⟨f, ag⟩ := hPcaTransform_sim cfg (M := h.contents X) ⟨hX, rfl⟩ hw
  refine ⟨⟨f.wf, fun q hq => f.same q hq List.not_mem_nil⟩, fun e he => ?_, fun a S L hr => ?_⟩
  · rw [he] at ag
    generalize pcaTransform cfg (h.contents X) = z at ag
    cases ag
    rfl
  · rw [hr] at ag
    generalize pcaTransform cfg (h.contents X) = z at ag
    cases ag with
    | @ok _ c hn =>
      obtain ⟨n1, n2, n3, n4⟩ := hn
      obtain ⟨st, Sv, Lv⟩ := c
      exact ⟨n2.1, n3.1, n4, n1.2, st, by rw [n2.2.2, n3.2.2]⟩

end pca

/-! ## Concrete cases -/


/-- Configuring `Center` with a concrete matrix and transforming that matrix returns. -/
example : ∃ a b, (hCenterConfigure 0 cdHeap).1 = .ok a ∧ (hCenterTransform a 0 (hCenterConfigure 0 cdHeap).2).1 = .ok b := by
  obtain ⟨a, ha, f, hm, -⟩ := sim_returns (hCenterConfigure_sim cdHeap_X) cdHeap_wf rfl
  obtain ⟨R, hR⟩ : ∃ R, center.doTransform (⟨true, some (of exX).columnMeans⟩ : CenterState ℝ) (of exX) = .ok R := ⟨_, rfl⟩
  obtain ⟨b, hb, -⟩ := sim_returns (hCenterTransform_sim hm (cdHeap_X.mono f List.not_mem_nil)) f.wf hR
  exact ⟨a, b, ha, hb⟩

/-- The hypotheses of `C140_getter_limits`: means `[2]`, deviations `[1]`, and the value `5`; the mean is set to `0`. -/
example (isZero : ℝ → Bool) : ∃ h1, (hGetMeans ⟨0, 1⟩ >>= fun b => mSet b 0 0 0) (allocH (cdHeap2 (of (!![2] : Matrix (Fin 1) (Fin 1) ℝ))
      (of (!![1] : Matrix (Fin 1) (Fin 1) ℝ))) (of (!![5] : Matrix (Fin 1) (Fin 1) ℝ))) = (.ok (), h1) ∧
    Heap.Sim [] h1 (hStdTransform ⟨0, 1⟩ 2) ((standardize isZero).doTransform ⟨true, some (of (!![0] : Matrix (Fin 1) (Fin 1) ℝ)),
      some (of (!![1] : Matrix (Fin 1) (Fin 1) ℝ))⟩ (of (!![5] : Matrix (Fin 1) (Fin 1) ℝ))) (New h1) := by
  have w := cdHeap2_wf (of (!![2] : Matrix (Fin 1) (Fin 1) ℝ)) (of (!![1] : Matrix (Fin 1) (Fin 1) ℝ))
  refine C140_getter_limits isZero (allocH_wf _ _ w) ((cdHeap2_X _ _).mono (Frame.alloc w _) List.not_mem_nil)
    ((cdHeap2_Y _ _).mono (Frame.alloc w _) List.not_mem_nil) (by decide) ⟨show 2 < 3 by decide, allocH_contents_new _ _⟩ (by decide) 0 0 0 ?_
  have e := set_of (!![2] : Matrix (Fin 1) (Fin 1) ℝ) 0 0 0
  refine e.trans (congrArg _ (congrArg of ?_))
  ext i j
  fin_cases i
  fin_cases j
  simp

/-- A `MultiFilter` of `PassThrough`, `Downsample` and `PassThrough`. -/
example : FilterSafe (α := ℝ) (hMultiFilter ([hPassThrough] ++ hDownsample 0 2 :: [hPassThrough]))
    (multiFilter ([passThrough.doTransform true] ++ downsample 0 2 :: [passThrough.doTransform true])) :=
  C140_multi_filter (.cons C140_pass_through_weak .nil) (filterSafe_iff.2 fun _ _ _ hZ => hDownsample_sim 0 2 hZ)
    (.cons C140_pass_through_weak .nil)

/-- GLSW trains on two concrete objects and transforms one of them. -/
example (cfg : GlswCfg ℝ) (ha : 0 < cfg.alpha) (hs : Solved cfg (clutterCov (0 : Matrix (Fin 4) (Fin 2) ℝ) exB) ![2, 8] 1 ![8, 2]) :
    ∃ a b, (hGlswInit cfg glswCheck hGlswCov (glswVecs cfg) (glswWeights cfg) 0 1 (cdHeap2 (of (0 : Matrix (Fin 4) (Fin 2) ℝ)) (of exB))).1 =
      .ok a ∧ (hGlswUse a 1 (hGlswInit cfg glswCheck hGlswCov (glswVecs cfg) (glswWeights cfg) 0 1
        (cdHeap2 (of (0 : Matrix (Fin 4) (Fin 2) ℝ)) (of exB))).2).1 = .ok b := by
  have hf := glswFit_of cfg ha (by decide) 0 exB hs
  obtain ⟨a, h1, f, hm, -⟩ := sim_returns (hGlswInit_sim cfg glswCheck (fun _ _ _ _ _ hA hB => hGlswCov_sim hA hB) (glswVecs cfg)
    (glswWeights cfg) (cdHeap2_X _ _) (cdHeap2_Y _ _)) (cdHeap2_wf (of (0 : Matrix (Fin 4) (Fin 2) ℝ)) (of exB)) hf
  obtain ⟨b, h2, -⟩ := sim_returns (hGlswUse_sim hm ((cdHeap2_Y _ _).mono f List.not_mem_nil)) f.wf (mul_of exB _)
  exact ⟨a, b, h1, h2⟩

end Verif.Props
