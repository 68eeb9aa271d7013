import Verif.Alg.PlsHeap
import Verif.Props.PlsPrepProps

/-!
# C113: training and prediction leave the caller's matrices alone, and the model does not share objects with them

The programs of `WrapHeap.lean`, `Pls1Heap.lean` and `PlsHeap.lean` work on matrix objects, some of which they change in place.
-/

namespace Verif.Props
open Verif Mat Heap

variable {α M A : Type}

/-- Training with `train` and using the model with `use` (predicting, transforming) is safe for the owner of the matrices:

* no matrix object that existed before is changed, whether the call succeeds or raises;
* the outcome is the one of the functions on values, `trainF` and `useF`;
* whatever happens to the rest of the heap between training and use — the caller overwrites the training data in place, trains further
  models — the model trained is the model used;
* the result of `use` is a new object. -/
structure CallerSafe (train : Nat → Nat → H α A) (use : A → Nat → H α Nat) (trainF : Mat α → Mat α → Except PyErr M)
    (useF : M → Mat α → Except PyErr (Mat α)) : Prop where
  keeps : ∀ h X y, WF h → X < h.nobj → y < h.nobj →
    WF (train X y h).2 ∧ h.nobj ≤ (train X y h).2.nobj ∧ ∀ q < h.nobj, (train X y h).2.contents q = h.contents q
  raises : ∀ h X y e, WF h → X < h.nobj → y < h.nobj → (train X y h).1 = .error e →
    trainF (h.contents X) (h.contents y) = .error e
  later : ∀ h X y a, WF h → X < h.nobj → y < h.nobj → (train X y h).1 = .ok a →
    ∃ m, trainF (h.contents X) (h.contents y) = .ok m ∧
    ∀ h', WF h' → (train X y h).2.nobj ≤ h'.nobj →
      (∀ q, h.nobj ≤ q → q < (train X y h).2.nobj → h'.contents q = (train X y h).2.contents q) →
      ∀ Z < h'.nobj,
        (WF (use a Z h').2 ∧ ∀ q < h'.nobj, (use a Z h').2.contents q = h'.contents q) ∧
        (∀ e, (use a Z h').1 = .error e → useF m (h'.contents Z) = .error e) ∧
        ∀ b, (use a Z h').1 = .ok b → h'.nobj ≤ b ∧ useF m (h'.contents Z) = .ok ((use a Z h').2.contents b)

theorem callerSafe_of {ρ : Repr α M A} {train : Nat → Nat → H α A} {use : A → Nat → H α Nat} {trainF : Mat α → Mat α → Except PyErr M}
    {useF : M → Mat α → Except PyErr (Mat α)}
    (ht : ∀ h X Y C D, Has h X C → Has h Y D → Heap.Sim [] h (train X Y) (trainF C D) (ρ.Fresh h))
    (hu : ∀ h a m Z C, ρ.On m h a → Has h Z C → Heap.Sim [] h (use a Z) (useF m C) (New h)) :
    CallerSafe train use trainF useF where
  keeps h X y hw hX hy := by
    obtain ⟨f, -⟩ := ht h X y _ _ ⟨hX, rfl⟩ ⟨hy, rfl⟩ hw
    exact ⟨f.wf, f.le, fun q hq => f.same q hq List.not_mem_nil⟩
  raises h X y e hw hX hy he := by
    obtain ⟨-, a⟩ := ht h X y _ _ ⟨hX, rfl⟩ ⟨hy, rfl⟩ hw
    rw [he] at a
    generalize trainF (h.contents X) (h.contents y) = z at a
    cases a
    rfl
  later h X y a hw hX hy ha := by
    obtain ⟨f, ag⟩ := ht h X y _ _ ⟨hX, rfl⟩ ⟨hy, rfl⟩ hw
    rw [ha] at ag
    generalize trainF (h.contents X) (h.contents y) = z at ag
    cases ag with
    | @ok _ m hr =>
      refine ⟨m, rfl, fun h' hw' hle hsame Z hZ => ?_⟩
      have hon : ρ.On m h' a := by
        let L := List.range h.nobj
        refine ρ.mono (L := L) ⟨hw', hle, fun r hr1 hr2 => hsame r ?_ hr1⟩ ?_ hr.1
        · have : ¬ r < h.nobj := fun hlt => hr2 (List.mem_range.mpr hlt)
          omega
        · intro r hr' hm
          have := hr.2 r hr'
          have := List.mem_range.mp hm
          omega
      obtain ⟨f', ag'⟩ := hu h' a m Z _ hon ⟨hZ, rfl⟩ hw'
      refine ⟨⟨f'.wf, fun q hq => f'.same q hq List.not_mem_nil⟩, fun e he => ?_, fun b hb => ?_⟩
      · rw [he] at ag'
        generalize useF m (h'.contents Z) = z at ag'
        cases ag'
        rfl
      · rw [hb] at ag'
        generalize useF m (h'.contents Z) = z at ag'
        cases ag' with
        | ok hn => exact ⟨hn.1, by rw [hn.2.2]⟩

/-! ## Consequences -/

/-- The caller overwrites an entry of the training data: the model still predicts the same. -/
theorem C113_overwritten {train : Nat → Nat → H α A} {use : A → Nat → H α Nat} {trainF : Mat α → Mat α → Except PyErr M}
    {useF : M → Mat α → Except PyErr (Mat α)} (hs : CallerSafe train use trainF useF) {h : Heap α} (hw : WF h) {X y Z : Nat}
    (hX : X < h.nobj) (hy : y < h.nobj) (hZ : Z < h.nobj) {a : A} (ha : (train X y h).1 = .ok a) {t : Nat} (ht : t < h.nobj) (htZ : t ≠ Z)
    (i j : Int) (v : α) {b b' : Nat} (hb : (use a Z (train X y h).2).1 = .ok b)
    (hb' : (use a Z (mSet t i j v (train X y h).2).2).1 = .ok b') :
    (use a Z (mSet t i j v (train X y h).2).2).2.contents b' = (use a Z (train X y h).2).2.contents b := by
  obtain ⟨w1, l1, k1⟩ := hs.keeps h X y hw hX hy
  obtain ⟨m, -, hm⟩ := hs.later h X y a hw hX hy ha
  have hf : Frame [t] (train X y h).2 (mSet t i j v (train X y h).2).2 := (sim_set ⟨by omega, rfl⟩ i j v w1).1
  have e1 := ((hm _ w1 le_rfl (fun _ _ _ => rfl) Z (by omega)).2.2 b hb).2
  have e2 := ((hm _ hf.wf hf.le (fun q hq1 hq2 => hf.same q hq2 (by simp; omega)) Z (by have := hf.le; omega)).2.2 b' hb').2
  rw [hf.same Z (by omega) (by simpa using htZ.symm), e1] at e2
  exact (Except.ok.inj e2).symm

/-- A second model is trained: the first still predicts the same. -/
theorem C113_two_models {M' A' : Type} {train : Nat → Nat → H α A} {use : A → Nat → H α Nat} {trainF : Mat α → Mat α → Except PyErr M}
    {useF : M → Mat α → Except PyErr (Mat α)} (hs : CallerSafe train use trainF useF) {train' : Nat → Nat → H α A'}
    {use' : A' → Nat → H α Nat} {trainF' : Mat α → Mat α → Except PyErr M'} {useF' : M' → Mat α → Except PyErr (Mat α)}
    (hs' : CallerSafe train' use' trainF' useF') {h : Heap α} (hw : WF h) {X y X' y' Z : Nat} (hX : X < h.nobj) (hy : y < h.nobj)
    (hX' : X' < h.nobj) (hy' : y' < h.nobj) (hZ : Z < h.nobj) {a : A} (ha : (train X y h).1 = .ok a) {b b' : Nat}
    (hb : (use a Z (train X y h).2).1 = .ok b) (hb' : (use a Z (train' X' y' (train X y h).2).2).1 = .ok b') :
    (use a Z (train' X' y' (train X y h).2).2).2.contents b' = (use a Z (train X y h).2).2.contents b := by
  obtain ⟨w1, l1, k1⟩ := hs.keeps h X y hw hX hy
  obtain ⟨w2, l2, k2⟩ := hs'.keeps (train X y h).2 X' y' w1 (by omega) (by omega)
  obtain ⟨m, -, hm⟩ := hs.later h X y a hw hX hy ha
  have e1 := ((hm _ w1 le_rfl (fun _ _ _ => rfl) Z (by omega)).2.2 b hb).2
  have e2 := ((hm _ w2 l2 (fun q hq1 hq2 => k2 q hq2) Z (by omega)).2.2 b' hb').2
  rw [k2 Z (by omega), e1] at e2
  exact (Except.ok.inj e2).symm

/-! ## The algorithms -/

section algorithms
variable [Field α] [LinearOrder α] [HasSqrt α]

/-- `do_perform_initialization` of PLS1 and VCPLS: the attributes. -/
def hPls1Fit (weights : Nat → Nat → H α Nat) (K : Int) (X y : Nat) : H α Pls1Attrs := do
  let r ← hPls1Train weights K X y
  pure r.1

/-- The model. -/
def pls1Fit (weights : Mat α → Mat α → Except PyErr (Mat α)) (K : Int) (X y : Mat α) : Except PyErr (Pls1Model α) := do
  let r ← pls1Train weights K X y
  .ok r.1

omit [HasSqrt α] in
theorem hPls1Fit_order {wh : Nat → Nat → H α Nat} {wf : Mat α → Mat α → Except PyErr (Mat α)} (hwf : Verif.Computes wh wf) (K : Int)
    (h : Heap α) (X y : Nat) (C D : Mat α) (hX : Has h X C) (hy : Has h y D) :
    Heap.Sim [] h (hPls1Fit wh K X y) (pls1Fit wf K C D) fun h' a m => m.On h' a ∧ h.nobj ≤ a.W ∧ a.W < a.P ∧ a.P < a.bHat ∧ a.bHat < a.rHat := by
  refine Heap.Sim.bind (hPls1Train_sim hwf hX hy K) (fun _ h => h) ?_
  rintro h' a v f ⟨hm, -, l1, l2, l3, l4, l5⟩
  exact Heap.Sim.ret ⟨hm, l1, l2, by omega, l5⟩

omit [HasSqrt α] in
theorem hPls1Fit_sim {wh : Nat → Nat → H α Nat} {wf : Mat α → Mat α → Except PyErr (Mat α)} (hwf : Verif.Computes wh wf) (K : Int)
    (h : Heap α) (X y : Nat) (C D : Mat α) (hX : Has h X C) (hy : Has h y D) :
    Heap.Sim [] h (hPls1Fit wh K X y) (pls1Fit wf K C D) (pls1Repr.Fresh h) := by
  refine (hPls1Fit_order hwf K h X y C D hX hy).post ?_
  rintro h' a m f ⟨hm, l1, l2, l3, l4⟩
  refine ⟨hm, ?_⟩
  show ∀ r ∈ [a.rHat, a.P, a.W, a.bHat], h.nobj ≤ r
  simp only [List.mem_cons, List.not_mem_nil, or_false, forall_eq_or_imp, forall_eq]
  omega

/-- PLS1 with any preprocessing: `initialize`, `predict`. -/
theorem C113_pls1 (isZero : α → Bool) (K : Int) (prep : Prep) :
    CallerSafe (hSingleTrain isZero (hPls1Fit hPls1Weights K) prep) (hSinglePredict (hPls1Predict K))
      (singleTrain isZero (pls1Fit pls1Weights K) prep) (singlePredict (pls1Predict K)) :=
  callerSafe_of (ρ := singleRepr pls1Repr)
    (fun _ _ _ _ _ hX hY => hSingleTrain_sim (hPls1Fit_sim hPls1Weights_computes K) hX hY isZero prep)
    fun _ _ _ _ _ hm hZ => hSinglePredict_sim (ρ := pls1Repr) (fun _ _ _ _ _ hm hZ => hPls1Predict_sim hm hZ K) hm hZ

/-- PLS1: `initialize`, `transform`. -/
theorem C113_pls1_transform (isZero : α → Bool) (K : Int) (prep : Prep) :
    CallerSafe (hSingleTrain isZero (hPls1Fit hPls1Weights K) prep) (fun a Z => hPls1Transform K a.base Z)
      (singleTrain isZero (pls1Fit pls1Weights K) prep) (fun m Z => pls1Transform K m.base Z) :=
  callerSafe_of (ρ := singleRepr pls1Repr)
    (fun _ _ _ _ _ hX hY => hSingleTrain_sim (hPls1Fit_sim hPls1Weights_computes K) hX hY isZero prep)
    fun _ _ _ _ _ hm hZ => hPls1Transform_sim hm.2.2.2 hZ K

/-- VCPLS: `initialize`, `predict`. -/
theorem C113_vcpls (isZero : α → Bool) (ops : Ops α) (lstsq : Mat α → Except PyErr (Mat α)) (lam nu : α) (K : Int) (prep : Prep) :
    CallerSafe (hSingleTrain isZero (hPls1Fit (hVcplsWeights ops lstsq lam nu) K) prep) (hSinglePredict (hPls1Predict K))
      (singleTrain isZero (pls1Fit (vcplsWeights (vcplsOf ops lstsq lam nu)) K) prep) (singlePredict (pls1Predict K)) :=
  callerSafe_of (ρ := singleRepr pls1Repr)
    (fun _ _ _ _ _ hX hY => hSingleTrain_sim (hPls1Fit_sim (hVcplsWeights_computes ops lstsq lam nu) K) hX hY isZero prep)
    fun _ _ _ _ _ hm hZ => hSinglePredict_sim (ρ := pls1Repr) (fun _ _ _ _ _ hm hZ => hPls1Predict_sim hm hZ K) hm hZ

/-- SIMPLS: `initialize`, `predict`. -/
theorem C113_simpls (isZero : α → Bool) (ops : Ops α) (K count : Int) (prep : Prep) :
    CallerSafe (hSingleTrain isZero (hSimplsTrain ops K count) prep) (hSinglePredict hSimplsPredict)
      (singleTrain isZero (simplsTrain (dominant ops) K count) prep) (singlePredict simplsPredict) :=
  callerSafe_of (ρ := singleRepr simplsRepr)
    (fun _ _ _ _ _ hX hY => hSingleTrain_sim (fun _ _ _ _ _ hX hY => hSimplsTrain_sim ops hX hY K count) hX hY isZero prep)
    fun _ _ _ _ _ hm hZ => hSinglePredict_sim (ρ := simplsRepr) (ph := hSimplsPredict) (pf := simplsPredict) (fun _ _ _ _ _ hm hZ => sim_pure2 hZ hm.2.1) hm hZ

/-- SIMPLS: `initialize`, `transform`. -/
theorem C113_simpls_transform (isZero : α → Bool) (ops : Ops α) (K count : Int) (prep : Prep) :
    CallerSafe (hSingleTrain isZero (hSimplsTrain ops K count) prep) (fun a Z => hSimplsTransform a.base Z)
      (singleTrain isZero (simplsTrain (dominant ops) K count) prep) (fun m Z => simplsTransform m.base Z) :=
  callerSafe_of (ρ := singleRepr simplsRepr)
    (fun _ _ _ _ _ hX hY => hSingleTrain_sim (fun _ _ _ _ _ hX hY => hSimplsTrain_sim ops hX hY K count) hX hY isZero prep)
    fun _ _ _ _ _ hm hZ => sim_pure2 hZ hm.2.2.2.1

/-- A single-response algorithm as base algorithm of OPLS. -/
def singleAsBase (train : Mat α → Mat α → Except PyErr M) (predict : M → Mat α → Except PyErr (Mat α)) : BasePls α (Except PyErr M) where
  init X y := (train X y, (train X y).map fun _ => none)
  predict m Z := do
    let m ← m
    predict m Z

/-- A model that exists. -/
def okRepr (ρ : Repr α M A) : Repr α (Except PyErr M) A where
  refs := ρ.refs
  On m h a := ∃ m', m = .ok m' ∧ ρ.On m' h a
  mono hf hr hm := hm.imp fun _ h => ⟨h.1, ρ.mono hf hr h.2⟩

omit [LinearOrder α] in
/-- OPLS over any base algorithm `(th, ph)` that is itself safe, in particular over PLS1 with its own preprocessing: `initialize`, `predict`. -/
theorem C113_opls_base {ρ : Repr α M A} {th : Nat → Nat → H α A} {ph : A → Nat → H α Nat} {tf : Mat α → Mat α → Except PyErr M}
    {pf : M → Mat α → Except PyErr (Mat α)}
    (ht : ∀ h X Y C D, Has h X C → Has h Y D → Heap.Sim [] h (th X Y) (tf C D) (ρ.Fresh h))
    (hp : ∀ h a m Z C, ρ.On m h a → Has h Z C → Heap.Sim [] h (ph a Z) (pf m C) (New h)) (isZero : α → Bool) (K : Int) (prep : Prep) :
    CallerSafe (hSingleTrain isZero (hOplsTrain th K) prep) (hSinglePredict (hOplsPredict ph))
      (singleTrain isZero (fun X y => do let r ← oplsTrain (singleAsBase tf pf) K X y; .ok r.1) prep)
      (singlePredict (oplsPredict (singleAsBase tf pf))) := by
  refine callerSafe_of (ρ := singleRepr (oplsRepr (okRepr ρ))) (fun h X Y C D hX hY => ?_) fun h a m Z C hm hZ => ?_
  · refine hSingleTrain_sim (fun h X Y C D hX hY => hOplsTrain_sim (ρ := okRepr ρ) (fun h X Y C D hX hY => ?_) hX hY K) hX hY isZero prep
    have := ht h X Y C D hX hY
    intro hw
    obtain ⟨f, ag⟩ := this hw
    refine ⟨f, ?_⟩
    show Agree _ _ (do let _ ← (tf C D).map fun _ => none; .ok (tf C D))
    generalize (th X Y h).1 = y at ag
    generalize tf C D = z at ag
    cases ag with
    | ok hr => exact .ok ⟨⟨_, rfl, hr.1⟩, hr.2⟩
    | error e => exact .error e
  · refine hSinglePredict_sim (ρ := oplsRepr (okRepr ρ)) (fun h a m Z C hm hZ => hOplsPredict_sim (ρ := okRepr ρ) (fun h a m Z C hm hZ => ?_) hm hZ) hm hZ
    obtain ⟨m', rfl, hm⟩ := hm
    exact hp h a m' Z C hm hZ

/-- OPLS over PLS1, the default. -/
theorem C113_opls (isZero : α → Bool) (K K' : Int) (prep prep' : Prep) :
    CallerSafe (hSingleTrain isZero (hOplsTrain (hSingleTrain isZero (hPls1Fit hPls1Weights K') prep') K) prep)
      (hSinglePredict (hOplsPredict (hSinglePredict (hPls1Predict K'))))
      (singleTrain isZero (fun X y => do
        let r ← oplsTrain (singleAsBase (singleTrain isZero (pls1Fit pls1Weights K') prep') (singlePredict (pls1Predict K'))) K X y
        .ok r.1) prep)
      (singlePredict (oplsPredict (singleAsBase (singleTrain isZero (pls1Fit pls1Weights K') prep') (singlePredict (pls1Predict K'))))) :=
  C113_opls_base (ρ := singleRepr pls1Repr)
    (fun _ _ _ _ _ hX hY => hSingleTrain_sim (hPls1Fit_sim hPls1Weights_computes K') hX hY isZero prep')
    (fun _ _ _ _ _ hm hZ => hSinglePredict_sim (ρ := pls1Repr) (fun _ _ _ _ _ hm hZ => hPls1Predict_sim hm hZ K') hm hZ) isZero K prep

end algorithms

/-! ## What the caller can break -/

/-- A program that refines a function which returns a value returns. -/
theorem sim_returns {β γ : Type} {L : List Nat} {h : Heap α} {x : H α β} {m : Except PyErr γ} {R : Heap α → β → γ → Prop}
    (hs : Heap.Sim L h x m R) (hw : WF h) {v : γ} (hv : m = .ok v) : ∃ a, (x h).1 = .ok a ∧ Frame L h (x h).2 ∧ R (x h).2 a v := by
  obtain ⟨f, ag⟩ := hs hw
  rw [hv] at ag
  generalize (x h).1 = z at ag
  cases ag with
  | ok hr => exact ⟨_, rfl, f, hr⟩

section limits
variable {n p : Nat}

/-- **Limit of C113.** `get_matrix('b_hat')` hands out the model's own matrix.  For all training data with nonzero scores, changing any entry of
it changes the predictions for the training data. -/
theorem C113_get_matrix_limits (hn : 0 < n) (hp : 0 < p) {K : Nat} (hK : 0 < K) (X : Matrix (Fin n) (Fin p) ℝ) (y : Matrix (Fin n) (Fin 1) ℝ)
    (hreg : Regular (pls1W y) K X) {h : Heap ℝ} (hw : WF h) {x r : Nat} (hx : Has h x (of X)) (hr : Has h r (of y)) :
    ∃ a, (hPls1Fit hPls1Weights K x r h).1 = .ok a ∧ ∃ (B : Matrix (Fin K) (Fin 1) ℝ) (b : Nat) (F : Matrix (Fin n) (Fin 1) ℝ),
      (hPls1Fit hPls1Weights K x r h).2.contents a.bHat = of B ∧
      (hPls1Predict K a x (hPls1Fit hPls1Weights K x r h).2).1 = .ok b ∧
      (hPls1Predict K a x (hPls1Fit hPls1Weights K x r h).2).2.contents b = of F ∧
      ∀ (k : Fin K) (v : ℝ), v ≠ B k 0 → ∃ (b' : Nat) (F' : Matrix (Fin n) (Fin 1) ℝ),
        (hPls1Predict K a x (mSet a.bHat k 0 v (hPls1Fit hPls1Weights K x r h).2).2).1 = .ok b' ∧
        (hPls1Predict K a x (mSet a.bHat k 0 v (hPls1Fit hPls1Weights K x r h).2).2).2.contents b' = of F' ∧ F' ≠ F := by
  have hs := hreg.sq1_ne
  have hf := congrArg (fun z => z >>= fun r => Except.ok r.1) (pls1Train_eq (pls1W y) pls1Weights K hn hp hK X y (fun k _ => pls1_computes y _) hs)
  obtain ⟨a, ha, f, hm, l1, l2, l3, l4⟩ := sim_returns (hPls1Fit_order hPls1Weights_computes K h x r _ _ hx hr) hw hf
  have hx1 : Has (hPls1Fit hPls1Weights K x r h).2 x (of X) := hx.mono f List.not_mem_nil
  have lx := hx.1
  have w1 := f.wf
  generalize (hPls1Fit hPls1Weights K x r h).2 = h1 at *
  obtain ⟨b, hb, f2, hb2⟩ := sim_returns (hPls1Predict_sim hm hx1 K) w1 (pls1Predict_eq (pls1W y) hn K X _ _ X)
  refine ⟨a, ha, plsBM (pls1W y) K X y, b, _, hm.bHat.2, hb, hb2.2.2, fun k v hv => ?_⟩
  have hset := set_of (plsBM (pls1W y) K X y) k (0 : Fin 1) v
  obtain ⟨u, -, f3, h3⟩ := sim_returns (sim_set hm.bHat k ((0 : Fin 1) : Nat) v) w1 hset
  have hm' : Pls1Model.On ⟨_, of (plsPM (pls1W y) K X), of (plsWM (pls1W y) K X),
      of (Matrix.of fun a b => if a = k ∧ b = 0 then v else plsBM (pls1W y) K X y a b)⟩ (mSet a.bHat k 0 v h1).2 a :=
    ⟨hm.rHat.mono f3 (by simp; omega), hm.P.mono f3 (by simp; omega), hm.W.mono f3 (by simp; omega), h3⟩
  obtain ⟨b', hb', f4, hb4⟩ := sim_returns (hPls1Predict_sim hm' (hx1.mono f3 (by simp; omega)) K) f3.wf (pls1Predict_eq (pls1W y) hn K X _ _ X)
  refine ⟨b', _, hb', hb4.2.2, fun he => ?_⟩
  rw [plsSM_train, ← sub_eq_zero, ← Matrix.mul_sub] at he
  have hg := congrArg (fun Z => (plsTM (pls1W y) K X).transpose * Z) he
  simp only [← Matrix.mul_assoc, plsTM_gram (pls1W y) K X hs, Matrix.mul_zero] at hg
  have := congrFun (congrFun hg k) 0
  rw [Matrix.diagonal_mul] at this
  rcases mul_eq_zero.mp this with h0 | h0
  · exact hs k k.2 h0
  · rw [Matrix.sub_apply, Matrix.of_apply, if_pos ⟨rfl, rfl⟩, sub_eq_zero] at h0
    exact hv h0

/-! A concrete case: the training data of `PLS1Props.lean` as two objects; two components; the first regression coefficient is set to any other
value. -/

/-- No objects. -/
def cdEmpty : Heap ℝ := ⟨fun _ _ => 0, 0, fun _ => ⟨⟨0, 0, 0, fun i _ => i⟩, none, none⟩, 0⟩

/-- The two matrices. -/
noncomputable def cdHeap : Heap ℝ := allocH (allocH cdEmpty (of exX)) (of exY)

theorem cdEmpty_wf : WF cdEmpty :=
  ⟨fun _ h => absurd h (Nat.not_lt_zero _), fun _ h => absurd h (Nat.not_lt_zero _), fun _ h => absurd h (Nat.not_lt_zero _),
    fun _ h => absurd h (Nat.not_lt_zero _)⟩

theorem cdHeap_wf : WF cdHeap := allocH_wf _ _ (allocH_wf _ _ cdEmpty_wf)

theorem cdHeap_X : Has cdHeap 0 (of exX) :=
  ⟨show 0 < 2 by decide, (allocH_contents_old _ _ (allocH_wf _ _ cdEmpty_wf) (show 0 < 1 by decide)).trans (allocH_contents_new cdEmpty _)⟩

theorem cdHeap_y : Has cdHeap 1 (of exY) := ⟨show 1 < 2 by decide, allocH_contents_new (allocH cdEmpty _) _⟩

example := C113_get_matrix_limits (by decide) (by decide) (K := 2) (by decide) exX exY ex_regular cdHeap_wf cdHeap_X cdHeap_y

/-- PLS1 without preprocessing trains on these objects, and a prediction for the training data succeeds: the hypotheses of `C113_overwritten`. -/
theorem cd_trains (isZero : ℝ → Bool) : ∃ a b, (hSingleTrain isZero (hPls1Fit hPls1Weights 2) .none 0 1 cdHeap).1 = .ok a ∧
    (hSinglePredict (hPls1Predict 2) a 0 (hSingleTrain isZero (hPls1Fit hPls1Weights 2) .none 0 1 cdHeap).2).1 = .ok b := by
  have hf := congrArg (fun z => z >>= fun r => Except.ok r.1)
    (pls1Train_eq (pls1W exY) pls1Weights 2 (by decide) (by decide) (by decide) exX exY (fun k _ => pls1_computes exY _) ex_regular.sq1_ne)
  obtain ⟨s, hs, hp⟩ := C51_none (pls1Fit pls1Weights 2) (pls1Predict 2) isZero (of exX) (of exY) _ hf
  obtain ⟨a, ha, f, hm, -⟩ := sim_returns (hSingleTrain_sim (hPls1Fit_sim hPls1Weights_computes 2) cdHeap_X cdHeap_y isZero .none) cdHeap_wf hs
  obtain ⟨b, hb, -⟩ := sim_returns (hSinglePredict_sim (ρ := pls1Repr) (fun _ _ _ _ _ hm hZ => hPls1Predict_sim hm hZ 2) hm
    (cdHeap_X.mono f List.not_mem_nil)) f.wf ((hp _).trans (pls1Predict_eq (pls1W exY) (by decide) 2 exX _ _ exX))
  exact ⟨a, b, ha, hb⟩

end limits

end Verif.Props
