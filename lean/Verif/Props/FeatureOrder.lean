import Verif.Core.ShuffleC
import Verif.Props.SampleOrder2
import Verif.Props.SimplsProps
import Verif.Alg.KernelPLS
import Verif.Transf.Kernel
import Verif.Transf.StatLemmas

/-!
# C143: the order of the predictors is irrelevant
-/

namespace Verif.Props
open Verif Mat Transf

variable {α M S : Type} {n : Nat}

/-- The columns of `Z` in the order `τ 0, τ 1, …`. -/
def colSel {r c c' : Nat} (τ : Fin c' → Fin c) (Z : Matrix (Fin r) (Fin c) α) : Matrix (Fin r) (Fin c') α :=
  Matrix.of fun i j => Z i (τ j)

/-- Training on predictors in another order, and then using the model on data in that order, gives what training and
using give in the original order: the same matrix, or the same exception.  `P` restricts the training data. -/
def FeatureFree (P : Mat α → Prop) (train : Mat α → Mat α → Except PyErr M) (use : M → Mat α → Except PyErr S) : Prop :=
  ∀ (n p r : Nat), p ≠ 0 → ∀ (σ : Equiv.Perm (Fin p)) (X : Matrix (Fin n) (Fin p) α) (Y : Mat α)
    (Z : Matrix (Fin r) (Fin p) α), P (of X) →
    (train (of (colSel σ X)) Y >>= fun m => use m (of (colSel σ Z))) = (train (of X) Y >>= fun m => use m (of Z))

theorem FeatureFree.of_shuf {P : Mat α → Prop} {train : Mat α → Mat α → Except PyErr M} {use : M → Mat α → Except PyErr S}
    (h : ∀ {p : Nat} (_ : p ≠ 0) (σ : Equiv.Perm (Fin p)) (A A' B Z Z' : Mat α), P A → ShufC σ A A' → ShufC σ Z Z' →
      ERel (fun m m' => use m' Z' = use m Z) (train A B) (train A' B)) : FeatureFree P train use :=
  fun _ _ _ hp σ X Y Z hP =>
    (ERel.eq (ERel.bind (h hp σ (of X) (of (colSel σ X)) Y (of Z) (of (colSel σ Z)) hP ⟨_, X, rfl, rfl⟩ ⟨_, Z, rfl, rfl⟩)
      fun _ _ hab => ERel.of_eq (fun _ => rfl) hab.symm)).symm

theorem FeatureFree.shuf {P : Mat α → Prop} {train : Mat α → Mat α → Except PyErr M} {use : M → Mat α → Except PyErr S}
    (h : FeatureFree P train use) {p : Nat} (hp : p ≠ 0) {σ : Equiv.Perm (Fin p)} {A A' Z Z' : Mat α} (B : Mat α) (hP : P A)
    (hA : ShufC σ A A') (hZ : ShufC σ Z Z') : (train A' B >>= fun m => use m Z') = (train A B >>= fun m => use m Z) := by
  obtain ⟨n, X, rfl, rfl⟩ := hA
  obtain ⟨r, Z, rfl, rfl⟩ := hZ
  exact h _ _ _ hp σ X B Z hP

section
variable {σ : Equiv.Perm (Fin n)} {A A' B Z Z' : Mat α}

section field
variable [Field α]

/-! ## Preprocessing -/

/-- Two centring objects fitted to data with reordered columns. -/
def CenC (σ : Equiv.Perm (Fin n)) (s t : CenterState α) : Prop :=
  s.configured = true ∧ t.configured = true ∧ ∃ m m', s.means = some m ∧ t.means = some m' ∧ m.rows = 1 ∧ ShufC σ m m'

theorem shufC_center (h : ShufC σ A A') :
    CenC σ (transform center A center.init).1 (transform center A' center.init).1 ∧
      ERel (ShufC σ) (transform center A center.init).2 (transform center A' center.init).2 := by
  have e : ∀ A : Mat α, transform center A center.init =
      (⟨true, some A.columnMeans⟩, A.copy.subByVector A.columnMeans) := fun _ => rfl
  rw [e, e]
  exact ⟨⟨rfl, rfl, _, _, rfl, rfl, rfl, h.columnMeans⟩, ShufC.vectorOp _ rfl h.copy h.columnMeans⟩

theorem CenC.apply {s t : CenterState α} (hs : CenC σ s t) (h : ShufC σ Z Z') :
    ERel (ShufC σ) (transform center Z s).2 (transform center Z' t).2 := by
  obtain ⟨c, m⟩ := s
  obtain ⟨c', m'⟩ := t
  obtain ⟨h1, h2, v, v', h3, h4, h5, h6⟩ := hs
  dsimp only at h1 h2 h3 h4
  subst h1 h2 h3 h4
  exact ShufC.vectorOp _ h5 h.copy h6

variable [HasSqrt α]

/-- No column of `A` is constant, as far as `isZero` can tell. -/
def Steady (isZero : α → Bool) (A : Mat α) : Prop := ∀ i j, isZero (A.columnStdevs.data i j) = false

/-- Two standardisers fitted to data with reordered columns. -/
def StdC (σ : Equiv.Perm (Fin n)) (s t : StatState α) : Prop :=
  s.configured = true ∧ t.configured = true ∧ ∃ m m' d d', s.means = some m ∧ t.means = some m' ∧ s.stds = some d ∧
    t.stds = some d' ∧ m.rows = 1 ∧ d.rows = 1 ∧ ShufC σ m m' ∧ ShufC σ d d'

omit [HasSqrt α] in
/-- The guard against division by zero changes nothing if there is nothing to guard against. -/
theorem guardStds_steady (isZero : α → Bool) {p : Nat} (hp : p ≠ 0) (v : Matrix (Fin 1) (Fin p) α)
    (h : ∀ j, isZero (v 0 j) = false) : guardStds isZero (of v) = .ok (of v) := by
  obtain ⟨q, rfl⟩ := Nat.exists_eq_succ_of_ne_zero hp
  rw [guardStds_row, ok_inj]
  refine mk_congr fun i j => ?_
  simp only [Matrix.of_apply]
  rw [if_neg fun hh => by rw [h 0] at hh; exact absurd hh.2 (by simp)]

theorem shufC_standardize (isZero : α → Bool) (hn : n ≠ 0) (h : ShufC σ A A') (hz : Steady isZero A) :
    StdC σ (transform (standardize isZero) A (standardize isZero).init).1
        (transform (standardize isZero) A' (standardize isZero).init).1 ∧
      ERel (ShufC σ) (transform (standardize isZero) A (standardize isZero).init).2
        (transform (standardize isZero) A' (standardize isZero).init).2 := by
  have hd := h.columnStdevs
  have e1 : ∀ B : Mat α, guardStds isZero B.columnStdevs = .ok B.columnStdevs →
      transform (standardize isZero) B (standardize isZero).init = (⟨true, some B.columnMeans, some B.columnStdevs⟩,
        (do let r ← B.copy.subByVector B.columnMeans; r.divByVector B.columnStdevs)) := fun B hB => by
    simp only [transform, standardize, hB]
    rfl
  have hg : guardStds isZero A.columnStdevs = .ok A.columnStdevs ∧ guardStds isZero A'.columnStdevs = .ok A'.columnStdevs := by
    obtain ⟨c, X, rfl, rfl⟩ := h
    exact ⟨guardStds_steady isZero hn _ (hz ⟨0, Nat.one_pos⟩), guardStds_steady isZero hn _ fun j => hz ⟨0, Nat.one_pos⟩ (σ j)⟩
  rw [e1 A hg.1, e1 A' hg.2]
  refine ⟨⟨rfl, rfl, _, _, _, _, rfl, rfl, rfl, rfl, rfl, rfl, h.columnMeans, hd⟩, ?_⟩
  exact ERel.bind (ShufC.vectorOp _ rfl h.copy h.columnMeans) fun a b hab => ShufC.vectorOp _ rfl hab hd

omit [HasSqrt α] in
theorem StdC.apply [HasSqrt α] (isZero : α → Bool) {s t : StatState α} (hs : StdC σ s t) (h : ShufC σ Z Z') :
    ERel (ShufC σ) (transform (standardize isZero) Z s).2 (transform (standardize isZero) Z' t).2 := by
  obtain ⟨c, m, d⟩ := s
  obtain ⟨c', m', d'⟩ := t
  obtain ⟨h1, h2, v, v', w, w', h3, h4, h5, h6, h7, h8, h9, h10⟩ := hs
  dsimp only at h1 h2 h3 h4 h5 h6
  subst h1 h2 h3 h4 h5 h6
  exact ERel.bind (ShufC.vectorOp _ h7 h.copy h9) fun a b hab => ShufC.vectorOp _ h8 hab h10

theorem shufC_prep (isZero : α → Bool) (prep : Prep) (hn : n ≠ 0) (hz : prep = .standardize → Steady isZero A)
    (h : ShufC σ A A') : ERel (ShufC σ) (prepApply isZero prep A) (prepApply isZero prep A') := by
  cases prep with
  | none => exact h
  | center => exact (shufC_center h).2
  | standardize =>
    show ERel _ (fitTransform _ _) (fitTransform _ _)
    rw [fitTransform_standardize_eq, fitTransform_standardize_eq]
    exact (shufC_standardize isZero hn h (hz rfl)).2
  | unknown => rfl

/-- The restriction on the training data when the base class preprocesses it. -/
def PrepSteady (isZero : α → Bool) (prep : Prep) (P : Mat α → Prop) (A : Mat α) : Prop :=
  (prep = .standardize → Steady isZero A) ∧ ∀ B, prepApply isZero prep A = .ok B → P B

/-- **C143** The preprocessing of the base class keeps independence of the order of the predictors: predictions and
scores, one response. -/
theorem C143_single (isZero : α → Bool) (train : Mat α → Mat α → Except PyErr M) (use : M → Mat α → Except PyErr (Mat α))
    (prep : Prep) {P : Mat α → Prop} (h : FeatureFree P train use) :
    FeatureFree (PrepSteady isZero prep P) (singleTrain isZero train prep) (singlePredict use) ∧
    FeatureFree (PrepSteady isZero prep P) (singleTrain isZero train prep) (fun m => use m.base) := by
  have key : ∀ {S : Type} (g : α → α → Bool → Mat α → Except PyErr S) {p : Nat} (_ : p ≠ 0) (σ : Equiv.Perm (Fin p))
      (A A' B Z Z' : Mat α), PrepSteady isZero prep P A → ShufC σ A A' → ShufC σ Z Z' →
      (singleTrain isZero train prep A' B >>= fun m => use m.base Z' >>= g m.mean m.sd m.hasTrans) =
      (singleTrain isZero train prep A B >>= fun m => use m.base Z >>= g m.mean m.sd m.hasTrans) := by
    intro S g p hp σ A A' B Z Z' hP hA hZ
    unfold singleTrain
    simp only [bind_assoc]
    refine (ERel.eq (ERel.bindEq rfl fun st => ?_)).symm
    cases e : prepApply isZero prep A with
    | error e' =>
      have := shufC_prep isZero prep hp hP.1 hA
      rw [e] at this
      cases e2 : prepApply isZero prep A' with
      | error => rw [e2] at this; exact this
      | ok => rw [e2] at this; exact this.elim
    | ok X =>
      have := shufC_prep isZero prep hp hP.1 hA
      rw [e] at this
      cases e2 : prepApply isZero prep A' with
      | error => rw [e2] at this; exact this.elim
      | ok X' =>
        rw [e2] at this
        rw [except_bind_ok, except_bind_ok]
        refine ERel.bindEq rfl fun Y => ?_
        have hh := h.shuf hp Y (hP.2 X e) this hZ
        simp only [except_bind_ok]
        have hh2 : ((train X' Y >>= fun m => use m Z') >>= g st.1 st.2 prep.hasTrans) =
          ((train X Y >>= fun m => use m Z) >>= g st.1 st.2 prep.hasTrans) := by rw [hh]
        rw [bind_assoc, bind_assoc] at hh2
        exact ERel.of_eq (fun _ => rfl) hh2.symm
  constructor
  · intro n p r hp σ X Y Z hP
    exact key (fun mean sd tr R => if tr then loopM (denormStep mean sd) (pyRange 0 R.rows) R else .ok R) hp σ _ _ _ _ _ hP
      ⟨_, X, rfl, rfl⟩ ⟨_, Z, rfl, rfl⟩
  · intro n p r hp σ X Y Z hP
    have := key (fun _ _ _ R => .ok R) hp σ _ _ Y _ _ hP ⟨_, X, rfl, rfl⟩ ⟨_, Z, rfl, rfl⟩
    have e : ∀ m : Except PyErr (Mat α), (m >>= fun R => .ok R) = m := fun m => by cases m <;> rfl
    simp only [e] at this
    exact this

/-- **C143** … several responses. -/
theorem C143_multi (isZero : α → Bool) (train : Mat α → Mat α → Except PyErr M) (use : M → Mat α → Except PyErr (Mat α))
    (prep : Prep) {P : Mat α → Prop} (h : FeatureFree P train use) :
    FeatureFree (PrepSteady isZero prep P) (multiTrain isZero train prep) (multiPredict use) ∧
    FeatureFree (PrepSteady isZero prep P) (multiTrain isZero train prep) (fun m => use m.base) := by
  have key : ∀ {S : Type} (g : List α → List α → Bool → Mat α → Except PyErr S) {p : Nat} (_ : p ≠ 0) (σ : Equiv.Perm (Fin p))
      (A A' B Z Z' : Mat α), PrepSteady isZero prep P A → ShufC σ A A' → ShufC σ Z Z' →
      (multiTrain isZero train prep A' B >>= fun m => use m.base Z' >>= g m.means m.sds m.hasTrans) =
      (multiTrain isZero train prep A B >>= fun m => use m.base Z >>= g m.means m.sds m.hasTrans) := by
    intro S g p hp σ A A' B Z Z' hP hA hZ
    unfold multiTrain
    simp only [bind_assoc]
    refine (ERel.eq (ERel.bindEq rfl fun st => ?_)).symm
    cases e : prepApply isZero prep A with
    | error e' =>
      have := shufC_prep isZero prep hp hP.1 hA
      rw [e] at this
      cases e2 : prepApply isZero prep A' with
      | error => rw [e2] at this; exact this
      | ok => rw [e2] at this; exact this.elim
    | ok X =>
      have := shufC_prep isZero prep hp hP.1 hA
      rw [e] at this
      cases e2 : prepApply isZero prep A' with
      | error => rw [e2] at this; exact this.elim
      | ok X' =>
        rw [e2] at this
        rw [except_bind_ok, except_bind_ok]
        refine ERel.bindEq rfl fun Y => ?_
        have hh := h.shuf hp Y (hP.2 X e) this hZ
        simp only [except_bind_ok]
        have hh2 : ((train X' Y >>= fun m => use m Z') >>= g (st.map Prod.fst) (st.map Prod.snd) prep.hasTrans) =
          ((train X Y >>= fun m => use m Z) >>= g (st.map Prod.fst) (st.map Prod.snd) prep.hasTrans) := by rw [hh]
        rw [bind_assoc, bind_assoc] at hh2
        exact ERel.of_eq (fun _ => rfl) hh2.symm
  constructor
  · intro n p r hp σ X Y Z hP
    exact key (fun means sds tr R => if tr then
      loopM (fun i R => loopM (fun j R => multiDenormCell means sds i j R) (pyRange 0 R.cols) R) (pyRange 0 R.rows) R
      else .ok R) hp σ _ _ _ _ _ hP ⟨_, X, rfl, rfl⟩ ⟨_, Z, rfl, rfl⟩
  · intro n p r hp σ X Y Z hP
    have := key (fun _ _ _ R => .ok R) hp σ _ _ Y _ _ hP ⟨_, X, rfl, rfl⟩ ⟨_, Z, rfl, rfl⟩
    have e : ∀ m : Except PyErr (Mat α), (m >>= fun R => .ok R) = m := fun m => by cases m <;> rfl
    simp only [e] at this
    exact this

/-! ## PLS1 and VCPLS -/

/-- Loop variables of PLS1 for reordered predictors. -/
structure Pls1C (σ : Equiv.Perm (Fin n)) (s t : Pls1Vars α) : Prop where
  X : ShufC σ s.X t.X
  T : t.T = s.T
  W : Shuf σ s.W t.W
  P : Shuf σ s.P t.P
  b : t.b = s.b

/-- Weights that follow a reordering of the predictors. -/
def WeightsC (weights : Mat α → Mat α → Except PyErr (Mat α)) : Prop :=
  ∀ {p : Nat} (_ : p ≠ 0) (σ : Equiv.Perm (Fin p)) (A A' B : Mat α), ShufC σ A A' → ERel (Shuf σ) (weights A B) (weights A' B)

omit [HasSqrt α] in
theorem pls1Step_shufC (weights : Mat α → Mat α → Except PyErr (Mat α)) (hw : WeightsC weights) (hn : n ≠ 0)
    (y : Mat α) (k : Int) (s t : Pls1Vars α) (h : Pls1C σ s t) :
    ERel (Pls1C σ) (pls1Step weights y k s) (pls1Step weights y k t) := by
  unfold pls1Step
  rw [h.T, h.b]
  refine ERel.bind (hw hn σ _ _ y h.X) fun w w' hw => ?_
  refine ERel.bind (h.W.setColumn k hw) fun W W' hW => ?_
  refine ERel.bindEq (h.X.mul hw).symm fun t => ?_
  refine ERel.bindEq rfl fun T => ?_
  refine ERel.bindEq rfl fun tt => ?_
  refine ERel.bindEq rfl fun ty => ?_
  refine ERel.bindEq rfl fun b => ?_
  refine ERel.bind (h.X.transpose.mul t) fun xt xt' hxt => ?_
  have hp : Shuf σ (xt.div tt) (xt'.div tt) := hxt.map _
  refine ERel.bind (h.P.setColumn k hp) fun P P' hP => ?_
  refine ERel.bind (hp.transpose.lmul t) fun d d' hd => ?_
  refine ERel.bind (h.X.sub hd) fun X X' hX => ?_
  exact ⟨hX, rfl, hW, hP, rfl⟩

/-- Trained PLS1 models for reordered predictors. -/
structure Pls1MC (σ : Equiv.Perm (Fin n)) (s t : Pls1Model α) : Prop where
  r : Shuf σ s.rHat t.rHat
  P : Shuf σ s.P t.P
  W : Shuf σ s.W t.W
  b : t.bHat = s.bHat

omit [HasSqrt α] in
theorem pls1Train_shufC [DecidableEq α] (weights : Mat α → Mat α → Except PyErr (Mat α)) (hw : WeightsC weights) (K : Int)
    (hn : n ≠ 0) (hA : ShufC σ A A') (y : Mat α) :
    ERel (fun a b => Pls1MC σ a.1 b.1 ∧ b.2 = a.2) (pls1Train weights K A y) (pls1Train weights K A' y) := by
  unfold pls1Train
  refine ERel.bind (R := Pls1C σ) ?_ fun s t hst => ?_
  · unfold pls1Init
    rw [hA.rows_eq]
    refine ERel.bind (hA.zeros hn K) fun W W' hW => ?_
    refine ERel.bind (hA.zeros hn K) fun P P' hP => ?_
    refine ERel.bindEq rfl fun T => ?_
    refine ERel.bindEq rfl fun b => ?_
    exact ⟨hA, rfl, hW, hP, rfl⟩
  · refine ERel.bind (ERel.loopM (fun k s t h => pls1Step_shufC weights hw hn y k s t h) _ s t hst) fun s t hst => ?_
    unfold pls1Finish
    rw [hst.b, hst.P.gram hst.W]
    simp only [bind_assoc]
    refine ERel.bindEq rfl fun ptw => ?_
    refine ERel.bindEq rfl fun i => ?_
    refine ERel.bind (hst.W.mul i) fun a a' ha => ?_
    refine ERel.bind (ha.mul _) fun r r' hr => ?_
    exact ⟨⟨hr, hst.P, hst.W, rfl⟩, hst.T⟩

omit [HasSqrt α] in
theorem pls1Row_shufC (K : Int) {W W' P P' x x' : Mat α} (hW : Shuf σ W W') (hP : Shuf σ P P') (hx : ShufC σ x x') :
    pls1Row K W' P' x' = pls1Row K W P x := by
  unfold pls1Row
  refine (ERel.eq (ERel.bindEq rfl fun T => ?_)).symm
  refine ERel.bind (ERel.loopM (R := fun a b : Mat α × Mat α => ShufC σ a.1 b.1 ∧ b.2 = a.2) (fun j s t h => ?_) _ _ _
    ⟨hx, rfl⟩) fun s t h => h.2.symm
  unfold pls1RowStep
  rw [h.2]
  refine ERel.bind (hW.getColumn j) fun w w' hw => ?_
  refine ERel.bindEq (h.1.mul hw).symm fun t => ?_
  refine ERel.bindEq rfl fun T => ?_
  refine ERel.bind (hP.getColumn j) fun p p' hp => ?_
  refine ERel.bindEq rfl fun tr => ?_
  refine ERel.bind (h.1.sub (hp.transpose.map _)) fun y y' hy => ?_
  exact ⟨hy, rfl⟩

omit [HasSqrt α] in
theorem pls1Predict_shufC (K : Int) {m m' : Pls1Model α} (hm : Pls1MC σ m m') (hZ : ShufC σ Z Z') :
    pls1Predict K m' Z' = pls1Predict K m Z := by
  unfold pls1Predict
  rw [hZ.rows_eq]
  refine (ERel.eq (ERel.bindEq rfl fun R => ?_)).symm
  refine ERel.loopM (R := (· = ·)) (fun i s t h => ?_) _ _ _ rfl
  subst h
  unfold pls1PredictRow
  refine ERel.bind (hZ.getRow i) fun x x' hx => ?_
  refine ERel.bindEq (pls1Row_shufC K hm.W hm.P hx).symm fun T => ?_
  rw [hm.b]
  exact ERel.of_eq (fun _ => rfl) rfl

omit [HasSqrt α] in
theorem pls1Transform_shufC (K : Int) {m m' : Pls1Model α} (hm : Pls1MC σ m m') (hZ : ShufC σ Z Z') :
    pls1Transform K m' Z' = pls1Transform K m Z := by
  unfold pls1Transform
  rw [hZ.rows_eq]
  refine (ERel.eq (ERel.bindEq rfl fun R => ?_)).symm
  refine ERel.loopM (R := (· = ·)) (fun i s t h => ?_) _ _ _ rfl
  subst h
  unfold pls1TransformRow
  refine ERel.bind (hZ.getRow i) fun x x' hx => ?_
  refine ERel.bindEq (pls1Row_shufC K hm.W hm.P hx).symm fun T => ?_
  exact ERel.of_eq (fun _ => rfl) rfl

omit [HasSqrt α] in
/-- **C143** PLS1, and any subclass whose weights follow a reordering of the predictors: predictions and scores. -/
theorem C143_pls [DecidableEq α] (weights : Mat α → Mat α → Except PyErr (Mat α)) (hw : WeightsC weights) (K : Int) :
    FeatureFree (fun _ => True) (pls1Train weights K) (fun m => pls1Predict K m.1) ∧
    FeatureFree (fun _ => True) (pls1Train weights K) (fun m => pls1Transform K m.1) :=
  ⟨FeatureFree.of_shuf fun hp _ _ _ y _ _ _ hA hZ =>
      (pls1Train_shufC weights hw K hp hA y).mono fun _ _ h => pls1Predict_shufC K h.1 hZ,
    FeatureFree.of_shuf fun hp _ _ _ y _ _ _ hA hZ =>
      (pls1Train_shufC weights hw K hp hA y).mono fun _ _ h => pls1Transform_shufC K h.1 hZ⟩

theorem weightsC_pls1 : WeightsC (pls1Weights : Mat α → Mat α → Except PyErr (Mat α)) := fun _ _ _ _ B hA =>
  ERel.bind (hA.transpose.mul B) fun _ _ h => h.normalized

/-- **C143** PLS1. -/
theorem C143_pls1 [DecidableEq α] (K : Int) :
    FeatureFree (α := α) (fun _ => True) (pls1Train pls1Weights K) (fun m => pls1Predict K m.1) ∧
    FeatureFree (α := α) (fun _ => True) (pls1Train pls1Weights K) (fun m => pls1Transform K m.1) :=
  C143_pls _ weightsC_pls1 K

/-! ### VCPLS -/

/-- `np.linalg.eig` of a matrix with rows and columns reordered alike: the same eigenvalues, in the same order, and the
eigenvectors reordered. -/
def EigC (eig : Mat α → Except PyErr (Mat α × Mat α)) : Prop :=
  ∀ {p : Nat} (σ : Equiv.Perm (Fin p)) (A A' : Mat α), Shuf2 σ A A' →
    ERel (fun a b => b.1 = a.1 ∧ Shuf σ a.2 b.2) (eig A) (eig A')

omit [Field α] [HasSqrt α] in
theorem eigenpairs_shuf {vals V V' : Mat α} (h : Shuf σ V V') (is : List Int) :
    ERel (fun l l' => ∃ z : List (α × Mat α × Mat α), (∀ x ∈ z, Shuf σ x.2.1 x.2.2) ∧
        l = z.map (fun x => (x.1, x.2.1)) ∧ l' = z.map fun x => (x.1, x.2.2))
      (is.mapM fun i => (do let v ← vals.getFromVector i; let c ← V.getColumn i; pure (v, c) : Except PyErr (α × Mat α)))
      (is.mapM fun i => (do let v ← vals.getFromVector i; let c ← V'.getColumn i; pure (v, c) : Except PyErr (α × Mat α))) := by
  induction is with
  | nil => exact ⟨[], by simp, rfl, rfl⟩
  | cons i is ih =>
    rw [List.mapM_cons, List.mapM_cons]
    simp only [bind_assoc, pure_bind]
    refine ERel.bindEq rfl fun v => ?_
    refine ERel.bind (h.getColumn i) fun c c' hc => ?_
    refine ERel.bind ih fun l l' hl => ?_
    obtain ⟨z, hz, rfl, rfl⟩ := hl
    refine ⟨(v, c, c') :: z, ?_, rfl, rfl⟩
    intro x hx
    rcases List.mem_cons.1 hx with rfl | hx
    · exact hc
    · exact hz x hx

omit [Field α] [HasSqrt α] in
theorem dominant_shuf (le : α → α → Bool) (k : Nat) {vals V V' : Mat α} (h : Shuf σ V V') :
    ERel (Shuf σ) (dominantEigenvector le k vals V) (dominantEigenvector le k vals V') := by
  unfold dominantEigenvector
  refine ERel.bind (R := Shuf σ) ?_ fun a b hab => hab.getColumn 0
  unfold eigenvectorsSorted eigenpairs
  refine ERel.bind (eigenpairs_shuf h _) fun l l' hl => ?_
  obtain ⟨z, hz, rfl, rfl⟩ := hl
  have es : ∀ f : α × Mat α × Mat α → Mat α, sortPairs le false (z.map fun x => (x.1, f x)) =
      (z.mergeSort fun a b => le b.1 a.1).map fun x => (x.1, f x) := fun f => by
    unfold sortPairs
    rw [List.map_mergeSort]
    intro a _ b _
    rfl
  rw [es fun x => x.2.1, es fun x => x.2.2]
  have hz' : ∀ x ∈ z.mergeSort fun a b => le b.1 a.1, Shuf σ x.2.1 x.2.2 := fun x hx => hz x (List.mem_mergeSort.1 hx)
  generalize (z.mergeSort fun a b => le b.1 a.1) = w at hz'
  cases w with
  | nil => exact rfl
  | cons x w =>
    simp only [List.map_cons]
    have hx := hz' x (by simp)
    have hw : ∀ x ∈ w, Shuf σ x.2.1 x.2.2 := fun y hy => hz' y (by simp [hy])
    clear hz'
    generalize x.2.1 = a at hx
    generalize x.2.2 = a' at hx
    induction w generalizing a a' with
    | nil => exact hx
    | cons y w ih =>
      simp only [List.map_cons, List.foldlM_cons]
      refine ERel.bind (Shuf.concatAlongColumns hx (hw y (by simp))) fun b b' hb => ?_
      exact ih (fun u hu => hw u (by simp [hu])) b b' hb

omit [HasSqrt α] in
/-- **C143** VCPLS, for every `lambda_` and every eigenvalue routine that follows a reordering. -/
theorem C143_vcpls [DecidableEq α] (cfg : VcplsCfg α) (he : EigC cfg.eig) (K : Int) :
    FeatureFree (fun _ => True) (pls1Train (vcplsWeights cfg) K) (fun m => pls1Predict K m.1) ∧
    FeatureFree (fun _ => True) (pls1Train (vcplsWeights cfg) K) (fun m => pls1Transform K m.1) :=
  C143_pls _ (fun {p} hp σ A A' B hA => by
    have ht : ERel (Shuf2 σ) (vcplsTerm cfg A B) (vcplsTerm cfg A' B) := by
      unfold vcplsTerm
      refine ERel.bind (Shuf2.eye hA _ (Or.inl rfl)) fun I I' hI => ?_
      refine ERel.bind (hA.transpose.mul B) fun a a' ha => ?_
      refine ERel.bind (ha.mul _) fun b b' hb => ?_
      refine ERel.bind (hb.outer hA) fun c c' hc => ?_
      refine ERel.bind (hc.sub (hI.map _)) fun g g' hg => ?_
      refine ERel.bind (hA.transpose.outer hA) fun g2 g2' hg2 => ?_
      refine ERel.bind (hg2.add (hI.map _)) fun s s' hs => ?_
      refine ERel.bind (hs.inverse _) fun i i' hi => ?_
      exact hi.mul2 hg
    unfold vcplsWeights
    refine ERel.bind ht fun t t' htt => ?_
    have hr : t'.rows = t.rows := by
      obtain ⟨_, rfl, rfl⟩ := htt
      rfl
    rw [hr]
    refine ERel.bind (he σ t t' htt) fun r r' hrr => ?_
    rw [hrr.1]
    exact dominant_shuf _ _ hrr.2) K

/-! ## SIMPLS -/

/-- Loop variables of SIMPLS for reordered predictors. -/
structure SimC (σ : Equiv.Perm (Fin n)) (s t : SimplsVars α) : Prop where
  A : Shuf σ s.A t.A
  M : Shuf2 σ s.M t.M
  C : Shuf2 σ s.C t.C
  W : Shuf σ s.W t.W
  P : Shuf σ s.P t.P
  Q : t.Q = s.Q

theorem simplsStep_shufC (dom : Mat α → Except PyErr (Mat α)) (k : Int) (s t : SimplsVars α) (h : SimC σ s t) :
    ERel (SimC σ) (simplsStep dom k s) (simplsStep dom k t) := by
  unfold simplsStep
  rw [h.A.gram h.A, h.Q]
  refine ERel.bindEq rfl fun ata => ?_
  refine ERel.bindEq rfl fun q => ?_
  refine ERel.bind (h.A.mul q) fun w w' hw => ?_
  refine ERel.bind (hw.transpose.mul2 h.M) fun wm wm' hwm => ?_
  refine ERel.bindEq (hwm.mul hw).symm fun c => ?_
  refine ERel.bindEq rfl fun cr => ?_
  have hw1 : Shuf σ (w.smul (1 / HasSqrt.sqrt cr)) (w'.smul (1 / HasSqrt.sqrt cr)) := hw.map _
  refine ERel.bind (h.W.setColumn k hw1) fun W W' hW => ?_
  refine ERel.bind (h.M.mul hw1) fun p p' hp => ?_
  refine ERel.bind (h.P.setColumn k hp) fun P P' hP => ?_
  refine ERel.bindEq (h.A.gram hw1).symm fun q => ?_
  refine ERel.bindEq rfl fun Q => ?_
  refine ERel.bind (h.C.mul hp) fun v v' hv => ?_
  refine ERel.bind hv.normalized fun v v' hv => ?_
  refine ERel.bind (hv.outer hv.transpose) fun vv vv' hvv => ?_
  refine ERel.bind (h.C.sub hvv) fun C C' hC => ?_
  refine ERel.bind (hp.outer hp.transpose) fun pp pp' hpp => ?_
  refine ERel.bind (h.M.sub hpp) fun M M' hM => ?_
  refine ERel.bind (hC.mul h.A) fun A A' hA => ?_
  exact ⟨hA, hM, hC, hW, hP, rfl⟩

/-- The training loop of SIMPLS. -/
theorem simplsLoop_shufC (dom : Mat α → Except PyErr (Mat α)) (K : Int) (hn : n ≠ 0) (hA : ShufC σ A A') (y : Mat α) :
    ERel (SimC σ) (simplsInit K A y >>= loopM (simplsStep dom) (pyRange 0 K))
      (simplsInit K A' y >>= loopM (simplsStep dom) (pyRange 0 K)) := by
  refine ERel.bind (R := SimC σ) ?_ fun s t hst => ERel.loopM (fun k s t h => simplsStep_shufC dom k s t h) _ s t hst
  unfold simplsInit
  refine ERel.bind (hA.transpose.mul y) fun a a' ha => ?_
  refine ERel.bind (hA.transpose.outer hA) fun m m' hm => ?_
  rw [hA.cols_eq]
  have hI := Shuf2.eye (α := α) hA _ (Or.inr rfl)
  rw [hA.cols_eq] at hI
  refine ERel.bind hI fun I I' hI => ?_
  have hz := hA.zeros hn K
  rw [hA.cols_eq] at hz
  refine ERel.bind hz fun W W' hW => ?_
  refine ERel.bind hz fun P P' hP => ?_
  refine ERel.bindEq rfl fun Q => ?_
  exact ⟨ha, hm, hI, hW, hP, rfl⟩

end field

/-- Slimming follows a reordering of the rows. -/
theorem slim_shuf {A A' : Mat ℝ} (hn : n ≠ 0) (count : Int) (hc : 0 < count) (h : Shuf σ A A') :
    ERel (Shuf σ) (slim count A) (slim count A') := by
  obtain ⟨c, W, rfl, rfl⟩ := h
  obtain ⟨k, rfl⟩ := Int.eq_ofNat_of_zero_le hc.le
  rw [C56_slim (Nat.pos_of_ne_zero hn), C56_slim (Nat.pos_of_ne_zero hn)]
  refine ⟨c, _, rfl, mk_congr fun i j => ?_⟩
  simp only [Matrix.of_apply]
  have e : (Finset.univ.filter fun i' => |W (σ i) j| < |W (σ i') j|).card =
      (Finset.univ.filter fun i' => |W (σ i) j| < |W i' j|).card := by
    refine Finset.card_bij (fun a _ => σ a) (fun a ha => ?_) (fun a _ b _ hab => σ.injective hab) fun b hb => ?_
    · simpa using ha
    · exact ⟨σ.symm b, by simpa using hb, by simp⟩
  exact congrArg (fun m => if m ≤ k then W (σ i) j else 0) e

/-- The trained SIMPLS model follows a reordering of the predictors. -/
theorem simplsTrain_shufC (dom : Mat ℝ → Except PyErr (Mat ℝ)) (K count : Int) {p : Nat} (hp : p ≠ 0) (σ : Equiv.Perm (Fin p))
    (A A' y : Mat ℝ) (hA : ShufC σ A A') :
    ERel (fun m m' => Shuf σ m.W m'.W ∧ Shuf σ m.B m'.B ∧ m'.Q = m.Q) (simplsTrain dom K count A y)
      (simplsTrain dom K count A' y) := by
  have e : ∀ A, simplsTrain dom K count A y = ((simplsInit K A y >>= loopM (simplsStep dom) (pyRange 0 K)) >>= fun s =>
      (if count > 0 then slim count s.W else .ok s.W) >>= fun W => W.mul s.Q.transpose >>= fun B =>
        .ok (SimplsModel.mk W B s.Q)) := fun A => by
    rw [bind_assoc]
    unfold simplsTrain
    congr 1
    funext s
    congr 1
    funext s
    by_cases hc : count > 0
    · rw [if_pos hc, if_pos hc]
    · rw [if_neg hc, if_neg hc]
  rw [e, e]
  refine ERel.bind (simplsLoop_shufC dom K hp hA y) fun s t hst => ?_
  refine ERel.bind (R := Shuf σ) ?_ fun W W' hW => ?_
  · by_cases hc : count > 0
    · rw [if_pos hc, if_pos hc]
      exact slim_shuf hp count hc hst.W
    · rw [if_neg hc, if_neg hc]
      exact hst.W
  · rw [hst.Q]
    refine ERel.bind (hW.mul _) fun B B' hB => ?_
    exact ⟨hW, hB, rfl⟩

/-- **C143** SIMPLS, with and without slimming, for every eigenvector routine. -/
theorem C143_simpls (dom : Mat ℝ → Except PyErr (Mat ℝ)) (K count : Int) :
    FeatureFree (fun _ => True) (simplsTrain dom K count) simplsPredict ∧
    FeatureFree (fun _ => True) (simplsTrain dom K count) simplsTransform :=
  ⟨FeatureFree.of_shuf fun hp σ _ _ y _ _ _ hA hZ =>
      (simplsTrain_shufC dom K count hp σ _ _ y hA).mono fun _ _ h => hZ.mul h.2.1,
    FeatureFree.of_shuf fun hp σ _ _ y _ _ _ hA hZ =>
      (simplsTrain_shufC dom K count hp σ _ _ y hA).mono fun _ _ h => hZ.mul h.1⟩

section field
variable [Field α] [HasSqrt α]

/-! ## NIPALS and CCARegression -/

/-- Loop variables of NIPALS for reordered predictors. -/
structure NipC (σ : Equiv.Perm (Fin n)) (s t : NipalsVars α) : Prop where
  X : ShufC σ s.X t.X
  Y : t.Y = s.Y
  T : t.T = s.T
  U : t.U = s.U
  W : Shuf σ s.W t.W
  C : t.C = s.C
  P : Shuf σ s.P t.P
  Q : t.Q = s.Q
  yk : t.yk = s.yk
  stop : t.stop = s.stop

/-- What is needed of the (pseudo-)inverse used by `CCARegression`: reordering the columns of a matrix reorders the rows
of its pseudo-inverse. -/
def InvShufC (inv : Mat α → Except PyErr (Mat α)) : Prop :=
  ∀ {n : Nat} (σ : Equiv.Perm (Fin n)) (A A' : Mat α), ShufC σ A A' → ERel (Shuf σ) (inv A) (inv A')

omit [Field α] [HasSqrt α] in
theorem shuf_ite {b : Bool} {x x' y y' : Mat α} (h : Shuf σ x x') (h' : Shuf σ y y') :
    Shuf σ (if b then x else y) (if b then x' else y') := by
  cases b
  · exact h'
  · exact h

theorem nipalsPass_shufC (c : NipalsCfg α) (hc : c.cca = true → InvShufC c.inv) (Y u : Mat α) (hA : ShufC σ A A') :
    ERel (fun a b => Shuf σ a.1 b.1 ∧ b.2 = a.2) (nipalsPass c A Y u) (nipalsPass c A' Y u) := by
  unfold nipalsPass
  refine ERel.bind (R := Shuf σ) ?_ fun w w' hw => ?_
  · unfold nipalsXWeight
    cases hcc : c.cca with
    | true =>
      exact ERel.bind (hc hcc σ A A' hA) fun i i' hi => hi.mul u
    | false =>
      simp only [Bool.false_eq_true, if_false]
      exact ERel.bind (hA.transpose.mul u) fun w w' hw => hw.map _
  · rw [hw.norm2Squared]
    dsimp only
    have h1 : Shuf σ (if c.lt w.norm2Squared e16 = true then w.addScalar e16 else w)
        (if c.lt w.norm2Squared e16 = true then w'.addScalar e16 else w') := shuf_ite (hw.map _) hw
    generalize (if c.lt w.norm2Squared e16 = true then w.addScalar e16 else w) = v at h1
    generalize (if c.lt w.norm2Squared e16 = true then w'.addScalar e16 else w') = v' at h1
    rw [h1.norm2]
    have h2 : Shuf σ (v.div (v.norm2 + e16)) (v'.div (v.norm2 + e16)) := h1.map _
    refine ERel.bindEq (hA.mul h2).symm fun t => ?_
    refine ERel.bindEq rfl fun x => ?_
    refine ERel.bindEq rfl fun _ => ?_
    exact ⟨h2, rfl⟩

theorem nipalsIter_shufC (c : NipalsCfg α) (hc : c.cca = true → InvShufC c.inv) (Y u : Mat α) (hA : ShufC σ A A')
    (m : Nat) (iter : Int) (hm : (c.maxIter - iter).toNat = m) {w w' : Mat α} (hw : Shuf σ w w') :
    ERel (fun a b => Shuf σ a.1 b.1 ∧ b.2 = a.2) (nipalsIter c A Y u iter w) (nipalsIter c A' Y u iter w') := by
  induction m using Nat.strong_induction_on generalizing iter w w' with
  | _ m ih =>
    rw [nipalsIter, nipalsIter]
    refine ERel.bind (nipalsPass_shufC c hc Y u hA) fun r r' hr => ?_
    refine ERel.bind (hr.1.sub hw) fun d d' hd => ?_
    rw [hd.norm2Squared]
    by_cases h1 : (c.lt d.norm2Squared c.tol || Y.cols == 1) = true
    · rw [if_pos h1, if_pos h1]
      exact ⟨hr.1, by rw [hr.2]⟩
    · rw [if_neg h1, if_neg h1]
      by_cases h2 : iter ≥ c.maxIter
      · rw [dif_pos h2, dif_pos h2]
        exact ⟨hr.1, by rw [hr.2]⟩
      · rw [dif_neg h2, dif_neg h2]
        exact ih _ (by omega) (iter + 1) rfl hr.1

theorem nipalsLoop_shufC (c : NipalsCfg α) (hc : c.cca = true → InvShufC c.inv) (hn : n ≠ 0) (Y : Mat α) (hA : ShufC σ A A') :
    ERel (fun a b => Shuf σ a.1 b.1 ∧ b.2 = a.2) (nipalsLoop c A Y) (nipalsLoop c A' Y) := by
  unfold nipalsLoop
  refine ERel.bindEq rfl fun u => ?_
  refine ERel.bind (hA.zeros hn 1) fun w w' hw => ?_
  exact nipalsIter_shufC c hc Y u hA _ 0 rfl hw

theorem nipalsStep_shufC (c : NipalsCfg α) (hc : c.cca = true → InvShufC c.inv) (hn : n ≠ 0) (k : Int) (s t : NipalsVars α)
    (h : NipC σ s t) : ERel (NipC σ) (nipalsStep c k s) (nipalsStep c k t) := by
  obtain ⟨X, Y, T, U, W, C, P, Q, yk, stop⟩ := s
  obtain ⟨X', Y', T', U', W', C', P', Q', yk', stop'⟩ := t
  obtain ⟨hX, h1, h2, h3, hW, h4, hP, h5, h6, h7⟩ := h
  dsimp only at hX h1 h2 h3 hW h4 hP h5 h6 h7
  subst h1 h2 h3 h4 h5 h6 h7
  unfold nipalsStep
  dsimp only
  cases stop' with
  | true => exact ⟨hX, rfl, rfl, rfl, hW, rfl, hP, rfl, rfl, rfl⟩
  | false =>
    simp only [Bool.false_eq_true, if_false]
    refine ERel.bindEq rfl fun yty => ?_
    by_cases h1 : (yty.all fun e => c.lt e e10) = true
    · rw [if_pos h1, if_pos h1]
      exact ⟨hX, rfl, rfl, rfl, hW, rfl, hP, rfl, rfl, rfl⟩
    · rw [if_neg h1, if_neg h1]
      refine ERel.bind (nipalsLoop_shufC c hc hn _ hX) fun r r' hr => ?_
      obtain ⟨r1, r2⟩ := r
      obtain ⟨r1', r2'⟩ := r'
      obtain ⟨hr, e⟩ := hr
      dsimp only at hr e ⊢
      subst e
      refine ERel.bindEq (hX.mul hr).symm fun t => ?_
      refine ERel.bindEq rfl fun u => ?_
      by_cases h2 : c.lt t.norm2Squared e10 = true
      · rw [if_pos h2, if_pos h2]
        exact ⟨hX, rfl, rfl, rfl, hW, rfl, hP, rfl, rfl, rfl⟩
      · rw [if_neg h2, if_neg h2]
        refine ERel.bind (hX.transpose.mul t) fun p p' hp => ?_
        have hp : Shuf σ (p.div t.norm2Squared) (p'.div t.norm2Squared) := hp.map _
        refine ERel.bind (hp.transpose.lmul t) fun tp tp' htp => ?_
        refine ERel.bind (hX.sub htp) fun X X' hX => ?_
        refine ERel.bindEq rfl fun d => ?_
        refine ERel.bindEq rfl fun T => ?_
        refine ERel.bindEq rfl fun U => ?_
        refine ERel.bind (hW.setColumn k hr) fun W W' hW => ?_
        refine ERel.bindEq rfl fun C => ?_
        refine ERel.bind (hP.setColumn k hp) fun P P' hP => ?_
        refine ERel.bindEq rfl fun Q => ?_
        exact ⟨hX, rfl, rfl, rfl, hW, rfl, hP, rfl, rfl, rfl⟩

/-- Trained NIPALS models for reordered predictors. -/
structure NipMC (σ : Equiv.Perm (Fin n)) (a b : NipalsModel α) : Prop where
  stdX : StdC σ a.stdX b.stdX
  stdY : b.stdY = a.stdY
  W : Shuf σ a.vars.W b.vars.W
  P : Shuf σ a.vars.P b.vars.P
  T : b.vars.T = a.vars.T
  xRot : Shuf σ a.xRot b.xRot
  yRot : b.yRot = a.yRot
  coef : Shuf σ a.coef b.coef

theorem nipalsTrain_shufC (c : NipalsCfg α) (hc : c.cca = true → InvShufC c.inv) (hn : n ≠ 0) (hz : Steady c.isZero A)
    (hA : ShufC σ A A') (B : Mat α) : ERel (NipMC σ) (nipalsTrain c A B) (nipalsTrain c A' B) := by
  unfold nipalsTrain
  dsimp only
  obtain ⟨hs, hX⟩ := shufC_standardize c.isZero hn hA hz
  refine ERel.bind hX fun X X' hX => ?_
  refine ERel.bindEq rfl fun Y => ?_
  refine ERel.bind (R := NipC σ) ?_ fun s t hst => ?_
  · unfold nipalsInit
    rw [hX.rows_eq]
    refine ERel.bindEq rfl fun T => ?_
    refine ERel.bindEq rfl fun U => ?_
    refine ERel.bind (hX.zeros hn _) fun W W' hW => ?_
    refine ERel.bindEq rfl fun C => ?_
    refine ERel.bind (hX.zeros hn _) fun P P' hP => ?_
    refine ERel.bindEq rfl fun Q => ?_
    refine ERel.bindEq rfl fun yk => ?_
    exact ⟨hX, rfl, rfl, rfl, hW, rfl, hP, rfl, rfl, rfl⟩
  · refine ERel.bind (ERel.loopM (fun k s t h => nipalsStep_shufC c hc hn k s t h) _ s t hst) fun s t hst => ?_
    have e : nipalsYRot c t = nipalsYRot c s := by
      unfold nipalsYRot
      rw [hst.C, hst.Q, hst.Y]
    rw [e, hst.Q]
    refine ERel.bind (R := Shuf σ) ?_ fun xr xr' hxr => ?_
    · unfold nipalsRot
      rw [hst.P.gram hst.W]
      refine ERel.bindEq rfl fun pw => ?_
      refine ERel.bindEq rfl fun g => ?_
      exact hst.W.mul g
    · refine ERel.bindEq rfl fun yr => ?_
      refine ERel.bind (hxr.mul _) fun b b' hb => ?_
      cases (transform (standardize c.isZero) B (standardize c.isZero).init).1.stds with
      | none => rfl
      | some d =>
        refine ERel.bind (R := Shuf σ) ?_ fun coef coef' hcoef => ?_
        · unfold Mat.scaleByRowVector
          rw [hb.cols_eq]
          cases hd : d.mustBeColumnVector with
          | error e => exact rfl
          | ok u =>
            rw [except_bind_ok, except_bind_ok]
            by_cases hcd : b.cols = d.rows
            · rw [if_pos hcd, if_pos hcd]
              have hd1 : d.cols = 1 := by
                by_contra hne
                have : d.mustBeColumnVector = .error .valueError := by
                  simp [Mat.mustBeColumnVector, Mat.isColumnVector, hne]
                rw [this] at hd
                cases hd
              exact hb.vectorOp _ _ hd1
            · rw [if_neg hcd, if_neg hcd]
              exact rfl
        · exact ⟨hs, rfl, hst.W, hst.P, hst.T, hxr, rfl, hcoef⟩

/-- **C143** NIPALS (any number of responses, either deflation mode), and `CCARegression` for a pseudo-inverse that
follows a reordering: predictions and both transformations, as long as no predictor is constant. -/
theorem C143_nipals_partial (c : NipalsCfg α) (hc : c.cca = true → InvShufC c.inv) :
    FeatureFree (Steady c.isZero) (nipalsTrain c) (nipalsPredict c) ∧
    FeatureFree (Steady c.isZero) (nipalsTrain c) (nipalsTransform c) ∧
    FeatureFree (Steady c.isZero) (nipalsTrain c) (fun m _ => .ok m.vars.T) ∧
    ∀ V, FeatureFree (Steady c.isZero) (nipalsTrain c) (fun m _ => nipalsTransformResponse c m V) := by
  refine ⟨FeatureFree.of_shuf fun hp _ _ _ y Z Z' hP hA hZ => (nipalsTrain_shufC c hc hp hP hA y).mono fun a b h => ?_,
    FeatureFree.of_shuf fun hp _ _ _ y Z Z' hP hA hZ => (nipalsTrain_shufC c hc hp hP hA y).mono fun a b h => ?_,
    FeatureFree.of_shuf fun hp _ _ _ y Z Z' hP hA hZ => (nipalsTrain_shufC c hc hp hP hA y).mono fun a b h => ?_,
    fun V => FeatureFree.of_shuf fun hp _ _ _ y Z Z' hP hA hZ => (nipalsTrain_shufC c hc hp hP hA y).mono fun a b h => ?_⟩
  · unfold nipalsPredict
    rw [h.stdY]
    refine (ERel.eq (ERel.bind (h.stdX.apply c.isZero hZ) fun z z' hz => ?_)).symm
    cases a.stdY.means with
    | none => exact rfl
    | some mean =>
      refine ERel.bindEq (hz.mul h.coef).symm fun r => ?_
      exact ERel.of_eq (fun _ => rfl) rfl
  · unfold nipalsTransform
    refine (ERel.eq (ERel.bind (h.stdX.apply c.isZero hZ) fun z z' hz => ?_)).symm
    exact ERel.of_eq (fun _ => rfl) (hz.mul h.xRot).symm
  · rw [h.T]
  · unfold nipalsTransformResponse
    rw [h.stdY, h.yRot]

end field
end

end Verif.Props
