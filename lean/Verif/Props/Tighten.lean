import Verif.Props.MatrixSelect
import Verif.Props.MatrixPred
import Verif.Props.WrapperProps
import Verif.Props.ScatterProps
import Verif.Props.LifecycleProps
import Verif.Props.ObjectProps
import Verif.Transf.ScatterPre
import Verif.Props.SerialProps
import Verif.Props.YGradProps

/-!
# Theorems added after mutation testing

Behaviour an edit of the model could change without any other theorem noticing.
-/

namespace Verif.Props
open Verif Mat Transf Life

section concat
variable {α : Type}

/-- **C06.** `multi_concat` is `concat` repeated from left to right; any axis other than `-2, -1, 0, 1` is rejected, also for a single
matrix, and so is the empty list. -/
theorem C06_multiConcat_axis (axis : Int) :
    (axis < -2 ∨ 1 < axis → ∀ Ms : List (Mat α), multiConcat axis Ms = .error .valueError) ∧
    multiConcat (α := α) axis [] = .error .valueError ∧
    (-2 ≤ axis → axis ≤ 1 → (∀ M : Mat α, multiConcat axis [M] = .ok M) ∧
      ∀ (M N : Mat α) (Ms : List (Mat α)), multiConcat axis (M :: N :: Ms) = M.concat N axis >>= fun C => multiConcat axis (C :: Ms)) := by
  refine ⟨fun h Ms => ?_, rfl, fun h1 h2 => ?_⟩
  · cases Ms with
    | nil => rfl
    | cons M Ms => exact if_neg (by omega)
  · have hp : axis = 0 ∨ axis = -2 ∨ axis = 1 ∨ axis = -1 := by omega
    refine ⟨fun M => (if_pos hp).trans rfl, fun M N Ms => ?_⟩
    show (if _ then _ else _) = _
    rw [if_pos hp, List.foldlM_cons]
    congr 1
    funext C
    exact (if_pos hp).symm

end concat

/-- **C38.** What each assignment does: only the parameters with a validator reset the transformation (second component), every accepted
value is stored, and the other parameters keep theirs. -/
theorem C38_assignments :
    (∀ (q : PowerParams) v q' r, powerAssign q (.method v) = .ok (q', r) ↔
      (v = "yeo-johnson" ∨ v = "box-cox") ∧ q' = ⟨v, q.standardise⟩ ∧ r = true) ∧
    (∀ (q : PowerParams) v, powerAssign q (.standardise v) = .ok (⟨q.method, v⟩, false)) ∧
    (∀ (q : QuantileParams) v, quantileAssign q (.nQuantiles v) =
      .ok (⟨v, q.outputDistribution, q.ignoreImplicitZeroes, q.subsample, q.randomState⟩, false)) ∧
    (∀ (q : QuantileParams) v q' r, quantileAssign q (.outputDistribution v) = .ok (q', r) ↔ (v = "uniform" ∨ v = "normal") ∧
      q' = ⟨q.nQuantiles, v, q.ignoreImplicitZeroes, q.subsample, q.randomState⟩ ∧ r = true) ∧
    (∀ (q : QuantileParams) v, quantileAssign q (.ignoreImplicitZeroes v) =
      .ok (⟨q.nQuantiles, q.outputDistribution, v, q.subsample, q.randomState⟩, false)) ∧
    (∀ (q : QuantileParams) v, quantileAssign q (.subsample v) =
      .ok (⟨q.nQuantiles, q.outputDistribution, q.ignoreImplicitZeroes, v, q.randomState⟩, false)) ∧
    (∀ (q : QuantileParams) v, quantileAssign q (.randomState v) =
      .ok (⟨q.nQuantiles, q.outputDistribution, q.ignoreImplicitZeroes, q.subsample, v⟩, false)) ∧
    (∀ (q : RobustParams) v, robustAssign q (.withCentering v) = .ok (⟨v, q.withScaling, q.quantileRange⟩, false)) ∧
    (∀ (q : RobustParams) v, robustAssign q (.withScaling v) = .ok (⟨q.withCentering, v, q.quantileRange⟩, false)) ∧
    (∀ (q : RobustParams) v q' r, robustAssign q (.quantileRange v) = .ok (q', r) ↔
      (0 < v.1 ∧ v.1 < v.2 ∧ v.2 < 100) ∧ q' = ⟨q.withCentering, q.withScaling, v⟩ ∧ r = true) := by
  refine ⟨fun q v q' r => ?_, fun _ _ => rfl, fun _ _ => rfl, fun q v q' r => ?_, fun _ _ => rfl, fun _ _ => rfl, fun _ _ => rfl,
    fun _ _ => rfl, fun _ _ => rfl, fun q v q' r => ?_⟩
  · show (if _ then _ else _) = _ ↔ _
    split <;> simp_all [eq_comm]
  · show (if _ then _ else _) = _ ↔ _
    split <;> simp_all [eq_comm]
  · show (if _ then _ else _) = _ ↔ _
    split <;> simp_all [eq_comm]

/-- **C38.** The documented defaults of the three classes. -/
theorem C38_defaults : ({} : PowerParams) = ⟨"yeo-johnson", true⟩ ∧ ({} : QuantileParams) = ⟨1000, "uniform", false, 100000, none⟩ ∧
    ({} : RobustParams) = ⟨true, true, (25, 75)⟩ := ⟨rfl, rfl, rfl⟩

/-- **C34.** `inverse_transform` of an unconfigured object raises, but has configured the object: later spectra are corrected against the
matrix given to it. -/
theorem C34_inverse_configures {α : Type} [Add α] [Sub α] [Mul α] [Div α] [Zero α] [NatCast α] (le : α → α → Bool)
    (pre : Option (Mat α → Except PyErr (Mat α))) (ranges : List (α × α)) (d Z avg : Mat α) (h : mscAverage d = .ok avg)
    (s : MSCState α) (hs : s.configured = false) :
    inverseTransform (msc le pre ranges) d s = (⟨true, some avg⟩, .error .notImplemented) ∧
    transform (msc le pre ranges) Z (inverseTransform (msc le pre ranges) d s).1 =
      (⟨true, some avg⟩, mscApply le pre ranges avg Z) := by
  have h1 : inverseTransform (msc le pre ranges) d s = (⟨true, some avg⟩, .error .notImplemented) := by
    unfold inverseTransform
    simp only [msc, hs, h]
    rfl
  refine ⟨h1, ?_⟩
  rw [h1]
  rfl

section life
variable {β α R : Type} {c : Cls β}

/-- **C46.** A successful `transform` of FastICA leaves the object initialised. -/
theorem C46_fastica (b : Behaviour α R (fastIca : Cls β)) {s : Obj β} (hs : Reachable b s) (Z : Mat α) {r : R}
    (h : (step b s (.use Z)).2 = .out r) : (step b s (.use Z)).1.trained = true := by
  have hc : (fastIca : Cls β) ∈ allClasses := by simp [allClasses]
  rw [step_status hc b (reachable_good hc hs) _ (fun v h => by cases h), h]
  rfl

/-- **C46.** PCA is never left initialised by `transform`, whether it succeeds or fails. -/
theorem C46_pca (b : Behaviour α R (pca : Cls β)) {s : Obj β} (hs : Reachable b s) (Z : Mat α) :
    (step b s (.use Z)).1.trained = false := by
  have hc : (pca : Cls β) ∈ allClasses := by simp [allClasses]
  rw [step_status hc b (reachable_good hc hs) _ (fun v h => by cases h)]
  cases (step b s (.use Z)).2 <;> rfl

theorem setattrs_untrained (ws : List (String × PyVal β)) (s : Obj β) (hs : s.trained = false) (hc : s.complete = false)
    (h : ∀ w ∈ ws, w.1 = "initialised" → w.2 = .bool false) : (setattrs c s ws).1.trained = false := by
  induction ws generalizing s with
  | nil => exact hs
  | cons w ws ih =>
    have hput : (s.put w.1 w.2).trained = false := by
      unfold Obj.trained Obj.put
      by_cases hw : "initialised" = w.1
      · simp only [hw, if_true, h w List.mem_cons_self hw.symm]
      · simp only [hw, if_false]
        exact hs
    have key : (setattr c s w.1 w.2).1.trained = false ∧ (setattr c s w.1 w.2).1.complete = false := by
      unfold setattr
      split
      · exact ⟨hs, hc⟩
      · split
        · exact ⟨hput, hc⟩
        · split
          · exact ⟨hs, hc⟩
          · exact ⟨hs, hc⟩
          · rw [if_neg (by rw [hc]; decide)]
            exact ⟨hput, hc⟩
    rw [setattrs]
    split
    · rename_i heq
      rw [heq] at key
      exact key.1
    · rename_i heq
      rw [heq] at key
      exact ih _ key.1 key.2 fun w hw => h w (List.mem_cons_of_mem _ hw)

/-- **C46.** Between `__init__` and the first `initialize()` no object is marked as initialised. -/
theorem C46_constructor (hc : c ∈ allClasses) : (setattrs c blank c.ctor).1.trained = false := by
  refine setattrs_untrained _ _ rfl rfl ?_
  simp only [allClasses, plsClasses, List.mem_append, List.mem_cons, List.not_mem_nil, or_false] at hc
  rcases hc with (h | h | h | h | h | h | h | h | h | h) | h | h | h | h | h | h | h <;> subst h <;>
    simp [pls1, vcpls, simpls, nipals, ccaRegression, kernelPls, dipls, opls, prm, sparsePls, ccaFilter, glsw, yGradientGlsw, epo,
      yGradientEpo, pca, fastIca, plsCtor, algCtor, singleVars, multiVars, nones, diplsNones]

theorem reset_other {j : String} (h : ∀ w ∈ c.resets, w.1 ≠ j) (s : Obj β) : (reset c s).attrs j = s.attrs j := puts_other _ s h

theorem setattr_other {j : String} (h : ∀ w ∈ c.resets, w.1 ≠ j) (s : Obj β) {k : String} (v : PyVal β) (hk : k ≠ j) :
    (setattr c s k v).1.attrs j = s.attrs j := by
  unfold setattr
  split
  · rfl
  · split
    · exact put_other _ _ hk.symm
    · split
      · rfl
      · rfl
      · show (Obj.put _ k v).attrs j = _
        rw [put_other _ _ hk.symm]
        split
        · exact reset_other h s
        · rfl

theorem setattrs_other {j : String} (h : ∀ w ∈ c.resets, w.1 ≠ j) (ws : List (String × PyVal β)) (s : Obj β) (hw : ∀ w ∈ ws, w.1 ≠ j) :
    (setattrs c s ws).1.attrs j = s.attrs j := by
  induction ws generalizing s with
  | nil => rfl
  | cons w ws ih =>
    have key := setattr_other h s w.2 (hw w List.mem_cons_self)
    rw [setattrs]
    split
    · rename_i heq
      rw [heq] at key
      exact key
    · rename_i heq
      rw [heq] at key
      exact (ih _ fun w h => hw w (List.mem_cons_of_mem _ h)).trans key

theorem execWrites_other {j : String} (h : ∀ w ∈ c.resets, w.1 ≠ j) (ws : List (Write β)) (s : Obj β) (hw : ∀ w ∈ ws, w.key ≠ j) :
    (execWrites c s ws).1.attrs j = s.attrs j := by
  induction ws generalizing s with
  | nil => rfl
  | cons w ws ih =>
    have hws := fun w' hw' => hw w' (List.mem_cons_of_mem _ hw')
    cases w with
    | mutate k v => exact (ih _ hws).trans (put_other _ _ (Ne.symm (hw _ List.mem_cons_self)))
    | assign k v =>
      have key : (setattr c s k v).1.attrs j = s.attrs j := setattr_other h s v (hw (.assign k v) List.mem_cons_self)
      rw [execWrites]
      split
      · rename_i heq
        rw [heq] at key
        exact key
      · rename_i heq
        rw [heq] at key
        exact (ih _ hws).trans key

/-- An attribute that no method of the class writes. -/
structure Untouched (c : Cls β) (j : String) : Prop where
  resets : ∀ w ∈ c.resets, w.1 ≠ j
  defaults : ∀ w ∈ c.defaults, w.1 ≠ j
  train : j ∉ c.trainWrites
  use : j ∉ c.useWrites
  flag : j ≠ "initialised"

theorem initDefaults_other {j : String} (h : Untouched c j) (s : Obj β) : (initDefaults c s).1.attrs j = s.attrs j := by
  have key := setattrs_other h.resets c.defaults s h.defaults
  unfold initDefaults
  split
  · rename_i heq
    rw [heq] at key
    exact key
  · rename_i heq
    rw [heq] at key
    exact key

theorem initPair_other {j : String} (h : Untouched c j) (b : Behaviour α R c) (s : Obj β) (X Y : Mat α) :
    (initPair b s X Y).1.attrs j = s.attrs j := by
  have hr := reset_other h.resets s
  unfold initPair
  dsimp only
  split
  · exact hr
  · have key := (execWrites_other h.resets (b.train (reset c s).attrs X Y).1 (reset c s) fun w hw e =>
      h.train (e ▸ (b.train_writes _ X Y w hw).1)).trans hr
    split
    · rename_i heq
      rw [heq] at key
      exact key
    · rename_i heq
      rw [heq] at key
      split
      · exact key
      · exact (put_other _ _ h.flag).trans key

theorem use_other {j : String} (h : Untouched c j) (b : Behaviour α R c) (s : Obj β) (Z : Mat α) :
    (Life.use b s Z).1.attrs j = s.attrs j := by
  have hr := reset_other h.resets s
  have kw : ∀ t : Obj β, (execWrites c t (b.use t.attrs Z).1).1.attrs j = t.attrs j := fun t =>
    execWrites_other h.resets _ t fun w hw e => h.use (e ▸ (b.use_writes _ Z w hw).1)
  unfold Life.use
  split
  · have key := (kw (reset c s)).trans hr
    dsimp only
    split
    · rename_i heq
      rw [heq] at key
      exact key
    · rename_i heq
      rw [heq] at key
      split
      · exact key
      · dsimp only
        split
        · exact (put_other _ _ h.flag).trans key
        · exact key
  · split
    · have key := kw s
      dsimp only
      split
      · rename_i heq
        rw [heq] at key
        exact key
      · rename_i heq
        rw [heq] at key
        exact key
    · rfl

theorem step_other {j : String} (h : Untouched c j) (b : Behaviour α R c) (s : Obj β) (op : Op α β) (ho : ∀ v, op ≠ .set j v) :
    (step b s op).1.attrs j = s.attrs j := by
  cases op with
  | set k v => exact setattr_other h.resets s v fun e => ho v (e ▸ rfl)
  | use Z => exact use_other h b s Z
  | reset => exact reset_other h.resets s
  | init X Y =>
    show (initCall b s X Y).1.attrs j = _
    have hm : (initMissing c s).1.attrs j = s.attrs j := by
      unfold initMissing
      split
      · rfl
      · exact initDefaults_other h s
      · rfl
    cases X <;> cases Y
    · exact initDefaults_other h s
    · exact hm
    · exact hm
    · unfold initCall
      dsimp only
      split
      · rfl
      · exact initPair_other h b s _ _

theorem debug_untouched (hc : c ∈ allClasses) : Untouched c "debug" := by
  simp only [allClasses, plsClasses, List.mem_append, List.mem_cons, List.not_mem_nil, or_false] at hc
  rcases hc with (h | h | h | h | h | h | h | h | h | h) | h | h | h | h | h | h | h <;> subst h <;>
    constructor <;>
    simp [pls1, vcpls, simpls, nipals, ccaRegression, kernelPls, dipls, opls, prm, sparsePls, ccaFilter, glsw, yGradientGlsw, epo,
      yGradientEpo, pca, fastIca, plsDefaults, algResets, singleVars, multiVars, nones, diplsNones, prepKeys, nipalsNones]

theorem debug_plain (hc : c ∈ allClasses) : "debug" ∉ c.frozen ∧ c.validators.lookup "debug" = none ∧ "logger" ∉ c.frozen ∧
    c.validators.lookup "logger" = none ∧ ∃ ws, c.ctor = ("logger", .new "Logger") :: ("debug", .bool false) :: ws ∧ ∀ w ∈ ws, w.1 ≠ "debug" := by
  simp only [allClasses, plsClasses, List.mem_append, List.mem_cons, List.not_mem_nil, or_false] at hc
  rcases hc with (h | h | h | h | h | h | h | h | h | h) | h | h | h | h | h | h | h <;> subst h <;>
    (refine ⟨by simp [pls1, vcpls, simpls, nipals, ccaRegression, kernelPls, dipls, opls, prm, sparsePls, ccaFilter, glsw, yGradientGlsw,
      epo, yGradientEpo, pca, fastIca], rfl, by simp [pls1, vcpls, simpls, nipals, ccaRegression, kernelPls, dipls, opls, prm, sparsePls,
      ccaFilter, glsw, yGradientGlsw, epo, yGradientEpo, pca, fastIca], rfl, _, rfl, ?_⟩
     simp [singleVars, multiVars, nones, diplsNones])

/-- **C46.** Debug output is off in a new object and stays off, whatever is called, until the user assigns `debug`. -/
theorem C46_debug (hc : c ∈ allClasses) (b : Behaviour α R c) (s₀ : Obj β) (h0 : construct c = .ok s₀) (ops : List (Op α β))
    (ho : ∀ op ∈ ops, ∀ v, op ≠ .set "debug" v) : (run b s₀ ops).1.attrs "debug" = some (.bool false) := by
  have hu := debug_untouched hc
  obtain ⟨f1, f2, f3, f4, ws, f5, f6⟩ := debug_plain hc
  have h1 : (setattrs c blank c.ctor).1.attrs "debug" = some (.bool false) := by
    rw [f5, setattrs, setattr_plain _ _ f3 f4]
    dsimp only
    rw [setattrs, setattr_plain _ _ f1 f2]
    dsimp only
    rw [setattrs_other hu.resets ws _ f6]
    exact put_self _ _ _
  have h2 : s₀.attrs "debug" = some (.bool false) := by
    unfold construct at h0
    split at h0
    · cases h0
    · rename_i heq
      rw [heq] at h1
      have key := (setattrs_other hu.resets c.defaults { (_ : Obj β) with complete := true } hu.defaults).trans h1
      split at h0
      · cases h0
      · rename_i heq'
        rw [heq'] at key
        injection h0 with h0
        rw [← h0, reset_other hu.resets]
        exact key
  clear h0
  induction ops generalizing s₀ with
  | nil => exact h2
  | cons op ops ih =>
    exact ih _ (fun o h => ho o (List.mem_cons_of_mem _ h))
      ((step_other hu b s₀ op (ho op List.mem_cons_self)).trans h2)

end life

section options
variable {α β : Type}

/-- **C46.** After `reset` the statistics of the response are NaN for the single-response methods and `None` for the others, and the
preprocessing objects are gone, whatever the object was before. -/
theorem C46_statistics (s : Obj β) :
    (∀ c ∈ [pls1, vcpls, simpls, dipls, opls, prm, sparsePls], (reset c s).attrs "class_mean" = some (.real .nan) ∧
      (reset c s).attrs "class_std_dev" = some (.real .nan) ∧ (reset c s).attrs "trans_predictors" = some .none ∧
      (reset c s).attrs "trans_response" = some .none) ∧
    ∀ c ∈ [nipals, ccaRegression, kernelPls], (reset c s).attrs "class_mean" = some .none ∧
      (reset c s).attrs "class_std_dev" = some .none ∧ (reset c s).attrs "trans_predictors" = some .none ∧
      (reset c s).attrs "trans_response" = some .none := by
  constructor
  · intro c hc
    simp only [List.mem_cons, List.not_mem_nil, or_false] at hc
    rcases hc with rfl | rfl | rfl | rfl | rfl | rfl | rfl <;> exact ⟨rfl, rfl, rfl, rfl⟩
  · intro c hc
    simp only [List.mem_cons, List.not_mem_nil, or_false] at hc
    rcases hc with rfl | rfl | rfl <;> exact ⟨rfl, rfl, rfl, rfl⟩

/-- The members of `PreprocessingType`. -/
def prepMembers : List (String × Prep) := [("NONE", .none), ("CENTER", .center), ("STANDARDIZE", .standardize)]

/-- The members of `DeflationMode`. -/
def deflMembers : List (String × Defl) := [("REGRESSION", .regression), ("CANONICAL", .canonical)]

variable [Field α] [HasSqrt α]

/-- **C134 (options).** A NIPALS object whose options are set to members of the two enumerations trains with the preprocessing and the deflation of
that name. -/
theorem C134_nipals_options (ext : NipalsCfg α) (tr : Bool) (s : Obj (OV α)) {K maxIter : Int} {tol : α}
    (hK : countOf (s.attrs "num_components") = .ok K) (ht : asReal (s.attrs "tol") = .ok tol)
    (hi : countOf (s.attrs "max_iter") = .ok maxIter) (X Y : Mat α) (hY : 1 ≤ Y.cols) (Zs : List (Mat α))
    (pe : String × Prep) (hpe : pe ∈ prepMembers) (de : String × Defl) (hde : de ∈ deflMembers)
    (hp : s.attrs "preprocessing_type" = some (.enum pe.1)) (hd : s.attrs "deflation_mode" = some (.enum de.1)) :
    (run (nipalsCode ext tr).object s (.init (some X) (some Y) :: Zs.map .use)).2.map Prod.snd =
      let cfg : NipalsCfg α := ⟨K, tol, maxIter, asBool (s.attrs "norm_Y_weights"), false, de.2, ext.lt, ext.isZero, ext.inv, ext.pinv⟩
      afterTraining (fun m Z => if tr then nipalsTransform cfg m.base Z else multiPredict (nipalsPredict cfg) m Z) Zs
        (multiTrain ext.isZero (nipalsTrain cfg) pe.2 X Y) := by
  have h1 : prepOf (s.attrs "preprocessing_type") = pe.2 := by
    rw [hp]
    simp only [prepMembers, List.mem_cons, List.not_mem_nil, or_false] at hpe
    rcases hpe with rfl | rfl | rfl <;> rfl
  have h2 : deflOf (s.attrs "deflation_mode") = de.2 := by
    rw [hd]
    simp only [deflMembers, List.mem_cons, List.not_mem_nil, or_false] at hde
    rcases hde with rfl | rfl <;> rfl
  rw [C134_nipals ext tr s hK ht hi X Y hY Zs, h1, h2]
  rfl

/-- **C134 (options).** The same for CCARegression, whose deflation is always the canonical one. -/
theorem C134_cca_options (ext : NipalsCfg α) (tr : Bool) (s : Obj (OV α)) {K maxIter : Int} {tol : α}
    (hK : countOf (s.attrs "num_components") = .ok K) (ht : asReal (s.attrs "tol") = .ok tol)
    (hi : countOf (s.attrs "max_iter") = .ok maxIter) (X Y : Mat α) (hY : 1 ≤ Y.cols) (Zs : List (Mat α))
    (pe : String × Prep) (hpe : pe ∈ prepMembers) (hp : s.attrs "preprocessing_type" = some (.enum pe.1)) :
    (run (ccaCode ext tr).object s (.init (some X) (some Y) :: Zs.map .use)).2.map Prod.snd =
      let cfg : NipalsCfg α := ⟨K, tol, maxIter, asBool (s.attrs "norm_Y_weights"), true, .canonical, ext.lt, ext.isZero, ext.inv, ext.pinv⟩
      afterTraining (fun m Z => if tr then nipalsTransform cfg m.base Z else multiPredict (nipalsPredict cfg) m Z) Zs
        (multiTrain ext.isZero (nipalsTrain cfg) pe.2 X Y) := by
  have h1 : prepOf (s.attrs "preprocessing_type") = pe.2 := by
    rw [hp]
    simp only [prepMembers, List.mem_cons, List.not_mem_nil, or_false] at hpe
    rcases hpe with rfl | rfl | rfl <;> rfl
  rw [C134_cca ext tr s hK ht hi X Y hY Zs, h1]
  rfl

end options

section scatter
variable {α τ P : Type} [Add α] [Sub α] [Mul α] [Div α] [Zero α] [NatCast α]

/-- **C34.** Without a reference `correct` raises an `AttributeError` as soon as there is a range, and returns the data if there is none; an error
of the prefilter comes first. -/
theorem C34_no_reference (le : α → α → Bool) (T : Trans α τ P) (ranges : List (α × α)) (data : Mat α) (s : MSCPState α τ)
    (h : s.average = none) :
    (∀ e, (transform T data s.pre).2 = .error e → (mscCorrectP le T ranges data s).2 = .error e) ∧
    ∀ F, (transform T data s.pre).2 = .ok F →
      (ranges ≠ [] → (mscCorrectP le T ranges data s).2 = .error .attributeError) ∧
      (ranges = [] → (mscCorrectP le T ranges data s).2 = .ok data) := by
  unfold mscCorrectP
  rcases hT : transform T data s.pre with ⟨t, e | F⟩
  · exact ⟨fun e' he => he, fun F hF => by cases hF⟩
  · refine ⟨fun e he => by (cases he), fun F' _ => ⟨fun hr => ?_, fun hr => ?_⟩⟩
    · show mscRanges le ranges s.average F data.copy = _
      rw [h]
      cases ranges with
      | nil => exact absurd rfl hr
      | cons a l => rfl
    · show mscRanges le ranges s.average F data.copy = _
      rw [h, hr]
      rfl

end scatter

section files
open Serial

theorem makeDirs_blocked (cs : List Name) (fs : FS) (p : Path) (k : Nat) (hk : 0 < k) (hk' : k ≤ cs.length)
    (h : (fs.file (p ++ cs.take k)).isSome = true) : (makeDirs fs p cs).2 = some .osError ∧ (makeDirs fs p cs).1.file = fs.file := by
  induction cs generalizing fs p k with
  | nil => simp at hk'; omega
  | cons c cs ih =>
    unfold makeDirs
    by_cases h1 : (fs.file (p ++ [c])).isSome = true
    · rw [if_pos h1]
      exact ⟨rfl, rfl⟩
    · rw [if_neg h1]
      obtain ⟨k, rfl⟩ : ∃ j, k = j + 1 := ⟨k - 1, by omega⟩
      have hk0 : k ≠ 0 := by
        rintro rfl
        exact h1 (by simpa using h)
      exact ih _ (p ++ [c]) k (by omega) (by simp at hk'; omega) (by simpa using h)

/-- **C21.** If the directory of the file does not exist and cannot be created because a file is in the way, `save_state` raises an `OSError` and
the contents of all files stay as they were. -/
theorem C21_file_in_the_way (fs : FS) (d base : List Char) (hb' : '/' ∉ base) (w : Written)
    (hno : pathExists fs (dirname (d ++ '/' :: base)) = false) (k : Nat) (hk : 0 < k) (hk' : k ≤ (comps d).length)
    (h : (fs.file (anchor fs (d ++ '/' :: base) ++ (comps d).take k)).isSome = true) :
    (saveState fs (d ++ '/' :: base) w).2 = some .osError ∧ (saveState fs (d ++ '/' :: base) w).1.file = fs.file := by
  obtain ⟨h1, h2, h3⟩ := dirname_spec fs d base hb'
  obtain ⟨g1, g2⟩ := makeDirs_blocked (comps d) fs (anchor fs (d ++ '/' :: base)) k hk hk' h
  unfold saveState makedirs
  simp only [hno, Bool.false_eq_true, if_false, if_neg h1, h2, h3]
  rcases hm : makeDirs fs (anchor fs (d ++ '/' :: base)) (comps d) with ⟨fs', e⟩
  rw [hm] at g1 g2
  simp only at g1 g2
  subst g1
  exact ⟨rfl, g2⟩

/-- The file `/a` is in the way of `/a/b/c`. -/
example : (saveState ⟨fun q => q == [], fun q => if q = ["a".toList] then some [] else none, []⟩ "/a/b/c".toList ⟨[1], none⟩).2 = some .osError :=
  (C21_file_in_the_way _ "/a/b".toList "c".toList (by decide) _ (by decide) 1 (by decide) (by decide) (by decide)).1

end files

section ygrad
open scoped Matrix
variable {n p : Nat}

/-- **C86.** The filter of YGradientEPO projects on the `N` leading eigenvectors of the Y-gradient covariance, like that of EPO on those of the
clutter. -/
theorem C86_epo_filter (cfg : GlswCfg ℝ) (hle : cfg.le = leY) (hpow : cfg.pow2 = pow2R) (hn : n ≠ 0) (hp : p ≠ 0) (N : Nat) (hN : cfg.N = N)
    (hNp : N ≤ p) (X : Matrix (Fin n) (Fin p) ℝ) (y : Fin n → ℝ) :
    ∃ C : Matrix (Fin p) (Fin p) ℝ, yGradCov leY pow2R (of X) (of (Matrix.of fun i (_ : Fin 1) => y i)) = .ok (of C) ∧
      ∀ (ev : Fin p → ℝ) (V : Matrix (Fin p) (Fin p) ℝ), EpoSolved cfg C ev V →
      ∃ (d : Fin p → ℝ) (W G : Matrix (Fin p) (Fin p) ℝ), OrthoEig C d W ∧ Antitone d ∧
        yEpoFit cfg (of X) (of (Matrix.of fun i (_ : Fin 1) => y i)) = .ok (.ready (of G)) ∧
        ∀ j, G *ᵥ W.col j = if j.1 < N then W.col j else 0 := by
  obtain ⟨σ, w, -, -, -, hc, -, -⟩ := C86_covariance_partial hn X y
  refine ⟨_, hc, fun ev V h => ?_⟩
  obtain ⟨τ, hτ, h1, h2, h3, h4⟩ := sorted_ortho hp h.ortho false
  have hd := epoDo_of cfg N hN (yGradCov cfg.le cfg.pow2) (of X) (of (Matrix.of fun i (_ : Fin 1) => y i)) _ (V.submatrix id τ) _ _
    (by rw [hle, hpow]; exact hc) h.eig (by rw [h.le]; exact h1) hNp
  refine ⟨_, V.submatrix id τ, ((V.submatrix id τ).submatrix id (Fin.castLE hNp)) * ((V.submatrix id τ).submatrix id (Fin.castLE hNp))ᵀ, h4, h3, ?_,
    fun j => ?_⟩
  · unfold yEpoFit glswInit
    rw [show yGradCheck (of X) (of (Matrix.of fun i (_ : Fin 1) => y i)) = none from if_neg (by simp)]
    simp only []
    rw [hd]
    rfl
  · have ho := h4.ortho
    set W := V.submatrix id τ
    have e : ∀ l : Fin N, ((W.submatrix id (Fin.castLE hNp))ᵀ *ᵥ W.col j) l = if Fin.castLE hNp l = j then 1 else 0 := by
      intro l
      have := congrFun (congrFun ho (Fin.castLE hNp l)) j
      rw [Matrix.mul_apply, Matrix.one_apply] at this
      exact this
    ext i
    rw [← Matrix.mulVec_mulVec]
    simp only [Matrix.mulVec, dotProduct] at e ⊢
    simp only [e]
    by_cases hj : j.1 < N
    · rw [if_pos hj, Finset.sum_eq_single (⟨j.1, hj⟩ : Fin N)]
      · simp
      · intro l _ hl
        rw [if_neg (fun h => hl (Fin.ext (by simpa using congrArg Fin.val h))), mul_zero]
      · intro h
        exact absurd (Finset.mem_univ _) h
    · rw [if_neg hj]
      refine Finset.sum_eq_zero fun l _ => ?_
      rw [if_neg (fun h => hj (by rw [← h]; exact l.2)), mul_zero]

end ygrad

/-! ## C12: tolerance comparison of infinite entries -/

/-- **C12 (`helper.equal`, all floats).** Two matrices count as equal exactly when their shapes agree and at every position one of the entries
is NaN, or both are the same infinity, or both are finite and differ by at most the tolerance: an infinite entry never equals a finite one nor
the opposite infinity, whatever the (finite) tolerance. -/
theorem C12_helperEqual_ext {K : Type} [Field K] [LinearOrder K] [IsStrictOrderedRing K] {m n : Nat}
    (M N : Matrix (Fin m) (Fin n) (X K)) (e : K) :
    (Mat.of M).helperEqual X.absX (fun a b => X.ltb b a) (Mat.of N) (.fin e) = true ↔
      ∀ i j, M i j = .nan ∨ N i j = .nan ∨ (M i j = .pinf ∧ N i j = .pinf) ∨ (M i j = .ninf ∧ N i j = .ninf) ∨
        ∃ a b, M i j = .fin a ∧ N i j = .fin b ∧ |a - b| ≤ e := by
  unfold Mat.helperEqual
  rw [dif_pos ⟨rfl, rfl⟩, Bool.not_eq_true', ← Bool.not_eq_true, List.any_eq_true]
  have key : ∀ x y : X K, X.ltb (.fin e) (X.absX (x - y)) = true ↔
      ¬ (x = .nan ∨ y = .nan ∨ (x = .pinf ∧ y = .pinf) ∨ (x = .ninf ∧ y = .ninf) ∨
        ∃ a b, x = .fin a ∧ y = .fin b ∧ |a - b| ≤ e) := fun x y => by
    rcases x with a | _ | _ | _ <;> rcases y with b | _ | _ | _
    · change decide (e < |a + -b|) = true ↔ _
      rw [← sub_eq_add_neg]
      simp
    all_goals first
      | (change true = true ↔ _; simp)
      | (change false = true ↔ _; simp)
  constructor
  · intro h i j
    by_contra hc
    exact h ⟨(i, j), mem_coords _ _, (key _ _).2 hc⟩
  · rintro h ⟨c, -, hc⟩
    exact (key _ _).1 hc (h c.1 c.2)

/-- Minus infinity against a finite entry. -/
example : (Mat.of (!![X.ninf, .fin 1] : Matrix (Fin 1) (Fin 2) (X ℚ))).helperEqual X.absX (fun a b => X.ltb b a)
    (Mat.of (!![X.fin 0, .fin 1] : Matrix (Fin 1) (Fin 2) (X ℚ))) (.fin 100) ≠ true := fun h => by
  have := (C12_helperEqual_ext _ _ _).1 h 0 0
  simp at this

end Verif.Props
