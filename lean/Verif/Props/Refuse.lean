import Verif.Core.HeapSim
import Verif.Alg.VCPLS
import Verif.Alg.SIMPLS
import Verif.Alg.SparsePLS
import Verif.Alg.OPLS
import Verif.Alg.KernelPLS
import Verif.Alg.CCA
import Verif.Alg.YGrad
import Verif.Alg.PCA

/-!
# C147: data that does not fit is refused

Numpy stretches arrays whose shapes do not fit; the library's own checks and matrix products must prevent that.  Two questions: does
training refuse predictors and responses with different numbers of rows, and does a trained model refuse data with another number of
columns than the training data?
-/

namespace Verif.Props
open Verif Mat Factory Transf

variable {α M : Type}

/-! ## Failing programs -/

/-- The program raises. -/
def Fails {β : Type} (x : Except PyErr β) : Prop := ∃ e, x = .error e

/-- A function of one matrix raises for data of every width but `p`. -/
def Refuses (f : Mat α → Except PyErr (Mat α)) (p : Nat) : Prop := ∀ Z : Mat α, 0 < Z.rows → Z.cols ≠ p → Fails (f Z)

theorem Fails.error {β : Type} (e : PyErr) : Fails (.error e : Except PyErr β) := ⟨e, rfl⟩

theorem Fails.left {β γ : Type} {x : Except PyErr β} (h : Fails x) (f : β → Except PyErr γ) : Fails (x >>= f) := by
  obtain ⟨e, rfl⟩ := h
  exact ⟨e, rfl⟩

theorem Fails.bind {β γ : Type} {x : Except PyErr β} {f : β → Except PyErr γ} (h : ∀ a, x = .ok a → Fails (f a)) : Fails (x >>= f) := by
  cases x with
  | error e => exact ⟨e, rfl⟩
  | ok a => exact h a rfl

theorem Fails.not_ok {β : Type} {x : Except PyErr β} (h : Fails x) (b : β) : x ≠ .ok b := by
  obtain ⟨e, rfl⟩ := h
  exact fun h => nomatch h

theorem bindOk {β γ : Type} {x : Except PyErr β} {f : β → Except PyErr γ} {c : γ} (h : (x >>= f) = .ok c) : ∃ b, x = .ok b ∧ f b = .ok c :=
  Utils.bind_ok_iff.1 h

/-- A loop whose first pass raises. -/
theorem Fails.loop {σ : Type} {f : Int → σ → Except PyErr σ} {n : Int} (hn : 1 ≤ n) {s : σ} (h : Fails (f 0 s)) :
    Fails (loopM f (pyRange 0 n) s) := by
  obtain ⟨k, rfl⟩ : ∃ k : Nat, n = ((k + 1 : Nat) : Int) := ⟨(n - 1).toNat, by omega⟩
  rw [pyRange_zero, List.range_succ_eq_map, List.map_cons, loopM]
  exact h.left _

section shapes

theorem mul_fails [Add α] [Mul α] [Zero α] {A B : Mat α} (h : A.cols ≠ B.rows) : Fails (A.mul B) := ⟨_, mul_error h⟩

theorem mul_dims [Add α] [Mul α] [Zero α] {A B C : Mat α} (h : A.mul B = .ok C) : C.rows = A.rows ∧ C.cols = B.cols := by
  unfold Mat.mul at h
  split at h
  · cases h; exact ⟨rfl, rfl⟩
  · cases h

theorem getRow_dims {A B : Mat α} {i : Int} (h : A.getRow i = .ok B) : B.rows = 1 ∧ B.cols = A.cols := by
  obtain ⟨r, -, h⟩ := bindOk h
  cases h
  exact ⟨rfl, rfl⟩

theorem getColumn_dims {A B : Mat α} {i : Int} (h : A.getColumn i = .ok B) : B.rows = A.rows ∧ B.cols = 1 := by
  obtain ⟨r, -, h⟩ := bindOk h
  cases h
  exact ⟨rfl, rfl⟩

theorem zeros_dims [Zero α] {r : Nat} (hr : 0 < r) {K : Int} (hK : 0 ≤ K) {A : Mat α} (h : Factory.zeros (r : Int) K = .ok A) :
    A.rows = r ∧ A.cols = K.toNat := by
  obtain ⟨k, rfl⟩ : ∃ k : Nat, K = (k : Int) := ⟨K.toNat, by omega⟩
  rw [zeros_nat hr] at h
  cases h
  exact ⟨rfl, rfl⟩

theorem sub_fails [Sub α] {A B : Mat α} (h : A.rows ≠ B.rows) : Fails (A.sub B) :=
  ⟨_, dif_neg fun hh => h hh.1⟩

theorem normalized_dims [Add α] [Mul α] [Zero α] [Div α] [HasSqrt α] {A B : Mat α} (h : A.normalized = .ok B) :
    B.rows = A.rows ∧ B.cols = A.cols := by
  cases h
  exact ⟨rfl, rfl⟩

end shapes

/-! ## The transformations in front of the algorithms -/

section prep
variable [Field α] [HasSqrt α]

omit [HasSqrt α] in
theorem center_fails {s : CenterState α} {m : Mat α} (hc : s.configured = true) (hm : s.means = some m) (h1 : m.rows = 1) {Z : Mat α}
    (hZ : Z.cols ≠ m.cols) : Fails (transform center Z s).2 := by
  unfold transform
  rw [if_pos (show center.configured s = true from hc)]
  show Fails (center.doTransform s Z)
  simp only [center, hm]
  exact ⟨_, vectorOp_row_bad _ Z m h1 hZ⟩

omit [HasSqrt α] in
/-- After a `Center` that keeps its means in a row has transformed `X`, it refuses other widths. -/
theorem center_refuses {s : CenterState α} (hs : ∀ m, s.means = some m → m.rows = 1) {X R : Mat α}
    (h : (transform center X s).2 = .ok R) : (∀ m, (transform center X s).1.means = some m → m.rows = 1) ∧
      ∀ Z : Mat α, Z.cols ≠ X.cols → Fails (transform center Z (transform center X s).1).2 := by
  by_cases hc : s.configured = true
  · have e : transform center X s = (s, center.doTransform s X) := by
      unfold transform
      rw [if_pos (show center.configured s = true from hc)]
    rw [e] at h ⊢
    refine ⟨hs, fun Z hZ => ?_⟩
    cases hm : s.means with
    | none =>
      simp only [center, hm] at h
      cases h
    | some m =>
      have h1 := hs m hm
      have hX : X.cols = m.cols := by
        by_contra hne
        have h' : (center.doTransform s X) = .ok R := h
        simp only [center, hm] at h'
        exact Fails.not_ok ⟨_, vectorOp_row_bad _ X m h1 hne⟩ R h'
      exact center_fails hc hm h1 (by rw [← hX]; exact hZ)
  · have e : (transform center X s).1 = ⟨true, some X.columnMeans⟩ := by
      unfold transform
      rw [if_neg (show ¬ center.configured s = true from hc)]
      rfl
    rw [e]
    refine ⟨fun m hm => ?_, fun Z hZ => center_fails (m := X.columnMeans) rfl rfl rfl hZ⟩
    cases hm
    rfl

/-- The state of a new `Standardize` after transforming `X`. -/
theorem std_state (isZero : α → Bool) {X R : Mat α} (h : (transform (standardize isZero) X (standardize isZero).init).2 = .ok R) :
    (transform (standardize isZero) X (standardize isZero).init).1.configured = true ∧
    (transform (standardize isZero) X (standardize isZero).init).1.means = some X.columnMeans := by
  unfold transform at h ⊢
  rw [if_neg (show ¬ (standardize isZero).configured (standardize isZero).init = true by exact Bool.false_ne_true)] at h ⊢
  have e : (standardize isZero).configure X (standardize isZero).init = match guardStds isZero X.columnStdevs with
    | .error e => (⟨false, some X.columnMeans, some X.columnStdevs⟩, .error e)
    | .ok d => (⟨true, some X.columnMeans, some d⟩, .ok ()) := rfl
  rw [e] at h ⊢
  cases hg : guardStds isZero X.columnStdevs with
  | error e => rw [hg] at h; cases h
  | ok d => exact ⟨rfl, rfl⟩

theorem std_dims (isZero : α → Bool) {X R : Mat α} (h : (transform (standardize isZero) X (standardize isZero).init).2 = .ok R) :
    R.rows = X.rows ∧ R.cols = X.cols := by
  unfold transform at h
  rw [if_neg (show ¬ (standardize isZero).configured (standardize isZero).init = true by exact Bool.false_ne_true)] at h
  have e : (standardize isZero).configure X (standardize isZero).init = match guardStds isZero X.columnStdevs with
    | .error e => (⟨false, some X.columnMeans, some X.columnStdevs⟩, .error e)
    | .ok d => (⟨true, some X.columnMeans, some d⟩, .ok ()) := rfl
  rw [e] at h
  cases hg : guardStds isZero X.columnStdevs with
  | error e => rw [hg] at h; cases h
  | ok d =>
    rw [hg] at h
    obtain ⟨r, h1, h2⟩ := bindOk h
    have a := Heap.vectorOp_shape (M := X) h1
    have b := Heap.vectorOp_shape (M := r) h2
    exact ⟨b.1.trans a.1, b.2.trans a.2⟩

theorem std_fails (isZero : α → Bool) {s : StatState α} {m : Mat α} (hc : s.configured = true) (hm : s.means = some m) (h1 : m.rows = 1)
    {Z : Mat α} (hZ : Z.cols ≠ m.cols) : Fails (transform (standardize isZero) Z s).2 := by
  unfold transform
  rw [if_pos (show (standardize isZero).configured s = true from hc)]
  show Fails ((standardize isZero).doTransform s Z)
  simp only [standardize, hm]
  cases s.stds with
  | none => exact ⟨_, rfl⟩
  | some d => exact Fails.left ⟨_, vectorOp_row_bad _ Z m h1 hZ⟩ _

/-- After a new `Standardize` has transformed `X`, it refuses other widths. -/
theorem std_refuses (isZero : α → Bool) {X R : Mat α} (h : (transform (standardize isZero) X (standardize isZero).init).2 = .ok R)
    (Z : Mat α) (hZ : Z.cols ≠ X.cols) :
    Fails (transform (standardize isZero) Z (transform (standardize isZero) X (standardize isZero).init).1).2 :=
  std_fails isZero (std_state isZero h).1 (std_state isZero h).2 rfl hZ

omit [HasSqrt α] in
theorem center_dims {s : CenterState α} {X R : Mat α} (h : (transform center X s).2 = .ok R) : R.rows = X.rows ∧ R.cols = X.cols := by
  have key : ∀ s : CenterState α, center.doTransform s X = .ok R → R.rows = X.rows ∧ R.cols = X.cols := by
    intro s h
    simp only [center] at h
    cases hm : s.means with
    | none => rw [hm] at h; cases h
    | some m => rw [hm] at h; exact Heap.vectorOp_shape (M := X) h
  unfold transform at h
  split at h
  · exact key _ h
  · exact key ⟨true, some X.columnMeans⟩ h

theorem prepApply_dims (isZero : α → Bool) {prep : Prep} {A R : Mat α} (h : prepApply isZero prep A = .ok R) :
    R.rows = A.rows ∧ R.cols = A.cols := by
  cases prep with
  | none => cases h; exact ⟨rfl, rfl⟩
  | unknown => cases h
  | center => exact Heap.vectorOp_shape (M := A) h
  | standardize =>
    simp only [prepApply, fitTransform] at h
    have e : (standardize isZero).configure A (standardize isZero).init = match guardStds isZero A.columnStdevs with
      | .error e => (⟨false, some A.columnMeans, some A.columnStdevs⟩, .error e)
      | .ok d => (⟨true, some A.columnMeans, some d⟩, .ok ()) := rfl
    rw [e] at h
    cases hg : guardStds isZero A.columnStdevs with
    | error e => rw [hg] at h; cases h
    | ok d =>
      rw [hg] at h
      obtain ⟨r, h1, h2⟩ := bindOk (x := A.copy.subByVector A.columnMeans) (f := fun r => r.divByVector d) h
      have a := Heap.vectorOp_shape (M := A) h1
      have b := Heap.vectorOp_shape (M := r) h2
      exact ⟨b.1.trans a.1, b.2.trans a.2⟩

/-- Training with preprocessing refuses what training without it refuses. -/
theorem singleTrain_refuses (isZero : α → Bool) {train : Mat α → Mat α → Except PyErr M}
    (h : ∀ X Y : Mat α, X.rows ≠ Y.rows → Fails (train X Y)) (prep : Prep) (X Y : Mat α) (hXY : X.rows ≠ Y.rows) :
    Fails (singleTrain isZero train prep X Y) := by
  unfold singleTrain
  refine Fails.bind fun st _ => Fails.bind fun X' hX => Fails.bind fun Y' hY => Fails.left (h X' Y' ?_) _
  rw [(prepApply_dims isZero hX).1, (prepApply_dims isZero hY).1]
  exact hXY

theorem multiTrain_refuses (isZero : α → Bool) {train : Mat α → Mat α → Except PyErr M}
    (h : ∀ X Y : Mat α, X.rows ≠ Y.rows → Fails (train X Y)) (prep : Prep) (X Y : Mat α) (hXY : X.rows ≠ Y.rows) :
    Fails (multiTrain isZero train prep X Y) := by
  unfold multiTrain
  refine Fails.bind fun st _ => Fails.bind fun X' hX => Fails.bind fun Y' hY => Fails.left (h X' Y' ?_) _
  rw [(prepApply_dims isZero hX).1, (prepApply_dims isZero hY).1]
  exact hXY

/-- A model trained with preprocessing refuses what the model inside refuses. -/
theorem singlePredict_refuses (isZero : α → Bool) {train : Mat α → Mat α → Except PyErr M} {predict : M → Mat α → Except PyErr (Mat α)}
    (h : ∀ X Y m, 0 < X.cols → train X Y = .ok m → Refuses (predict m) X.cols) {prep : Prep} {X Y : Mat α} {m : SingleModel α M}
    (hX : 0 < X.cols) (hm : singleTrain isZero train prep X Y = .ok m) : Refuses (singlePredict predict m) X.cols := by
  intro Z hr hZ
  unfold singleTrain at hm
  obtain ⟨st, -, hm⟩ := bindOk hm
  obtain ⟨X', h1, hm⟩ := bindOk hm
  obtain ⟨Y', -, hm⟩ := bindOk hm
  obtain ⟨b, h2, hm⟩ := bindOk hm
  cases hm
  have e := (prepApply_dims isZero h1).2
  exact Fails.left (h X' Y' b (by rw [e]; exact hX) h2 Z hr (by rw [e]; exact hZ)) _

theorem multiPredict_refuses (isZero : α → Bool) {train : Mat α → Mat α → Except PyErr M} {predict : M → Mat α → Except PyErr (Mat α)}
    (h : ∀ X Y m, 0 < X.cols → train X Y = .ok m → Refuses (predict m) X.cols) {prep : Prep} {X Y : Mat α} {m : MultiModel α M}
    (hX : 0 < X.cols) (hm : multiTrain isZero train prep X Y = .ok m) : Refuses (multiPredict predict m) X.cols := by
  intro Z hr hZ
  unfold multiTrain at hm
  obtain ⟨st, -, hm⟩ := bindOk hm
  obtain ⟨X', h1, hm⟩ := bindOk hm
  obtain ⟨Y', -, hm⟩ := bindOk hm
  obtain ⟨b, h2, hm⟩ := bindOk hm
  cases hm
  have e := (prepApply_dims isZero h1).2
  exact Fails.left (h X' Y' b (by rw [e]; exact hX) h2 Z hr (by rw [e]; exact hZ)) _

end prep

/-! ## PLS1 and VCPLS -/

section pls1
variable [Field α] [DecidableEq α]

theorem pls1Train_dims {weights : Mat α → Mat α → Except PyErr (Mat α)} {K : Int} (hK : 1 ≤ K) {X y : Mat α} (hX : 0 < X.cols)
    {m : Pls1Model α × Mat α} (h : pls1Train weights K X y = .ok m) : m.1.W.rows = X.cols ∧ m.1.W.cols = K.toNat := by
  unfold pls1Train at h
  obtain ⟨s, h1, h⟩ := bindOk h
  obtain ⟨s', h2, h⟩ := bindOk h
  obtain ⟨b, h3, h⟩ := bindOk h
  cases h
  have hs : s.W.rows = X.cols ∧ s.W.cols = K.toNat := by
    unfold pls1Init at h1
    obtain ⟨W, hW, h1⟩ := bindOk h1
    obtain ⟨P, -, h1⟩ := bindOk h1
    obtain ⟨T, -, h1⟩ := bindOk h1
    obtain ⟨b, -, h1⟩ := bindOk h1
    cases h1
    exact zeros_dims hX (by omega) hW
  have hs' := loopM_inv (pls1Step weights y) (fun s => s.W.rows = X.cols ∧ s.W.cols = K.toNat) (fun k s s' hs e => by
    unfold pls1Step at e
    obtain ⟨w, -, e⟩ := bindOk e
    obtain ⟨W, hW, e⟩ := bindOk e
    obtain ⟨t, -, e⟩ := bindOk e
    obtain ⟨T, -, e⟩ := bindOk e
    obtain ⟨tt, -, e⟩ := bindOk e
    obtain ⟨ty, -, e⟩ := bindOk e
    obtain ⟨b, -, e⟩ := bindOk e
    obtain ⟨xt, -, e⟩ := bindOk e
    obtain ⟨P, -, e⟩ := bindOk e
    obtain ⟨tp, -, e⟩ := bindOk e
    obtain ⟨X', -, e⟩ := bindOk e
    cases e
    have := Heap.setColumn_shape hW
    exact ⟨this.1.trans hs.1, this.2.trans hs.2⟩) _ s s' hs h2
  unfold pls1Finish at h3
  obtain ⟨a1, -, h3⟩ := bindOk h3
  obtain ⟨a2, -, h3⟩ := bindOk h3
  obtain ⟨a3, -, h3⟩ := bindOk h3
  obtain ⟨a4, -, h3⟩ := bindOk h3
  cases h3
  exact hs'

omit [DecidableEq α] in
theorem pls1Row_fails {K : Int} (hK : 1 ≤ K) {W P x : Mat α} (h : x.cols ≠ W.rows) : Fails (pls1Row K W P x) := by
  unfold pls1Row
  refine Fails.bind fun T _ => Fails.left (Fails.loop hK ?_) _
  unfold pls1RowStep
  refine Fails.bind fun w hw => Fails.left (mul_fails ?_) _
  rw [(getColumn_dims hw).1]
  exact h

omit [DecidableEq α] in
theorem pls1_refuses {K : Int} (hK : 1 ≤ K) (m : Pls1Model α) : Refuses (pls1Predict K m) m.W.rows ∧ Refuses (pls1Transform K m) m.W.rows := by
  constructor
  · intro Z hr hZ
    unfold pls1Predict
    refine Fails.bind fun R _ => Fails.loop (by omega) ?_
    unfold pls1PredictRow
    refine Fails.bind fun x hx => Fails.left (pls1Row_fails hK ?_) _
    rw [(getRow_dims hx).2]
    exact hZ
  · intro Z hr hZ
    unfold pls1Transform
    refine Fails.bind fun R _ => Fails.loop (by omega) ?_
    unfold pls1TransformRow
    refine Fails.bind fun x hx => Fails.left (pls1Row_fails hK ?_) _
    rw [(getRow_dims hx).2]
    exact hZ

/-- **C147 (PLS1, VCPLS: columns).** -/
theorem C147_pls1_columns [HasSqrt α] (isZero : α → Bool) (weights : Mat α → Mat α → Except PyErr (Mat α)) {K : Int} (hK : 1 ≤ K) (prep : Prep)
    (X Y : Mat α) (hX : 0 < X.cols) (m : SingleModel α (Pls1Model α))
    (hm : singleTrain isZero (fun X y => (pls1Train weights K X y).map Prod.fst) prep X Y = .ok m) :
    Refuses (singlePredict (pls1Predict K) m) X.cols ∧ Refuses (pls1Transform K m.base) X.cols := by
  have key : ∀ (X y : Mat α) m, 0 < X.cols → (pls1Train weights K X y).map Prod.fst = .ok m → m.W.rows = X.cols := by
    intro X y m hX h
    cases ht : pls1Train weights K X y with
    | error e => rw [ht] at h; cases h
    | ok r =>
      rw [ht] at h
      cases h
      exact (pls1Train_dims hK hX ht).1
  refine ⟨singlePredict_refuses isZero (fun X Y m hX h => ?_) hX hm, ?_⟩
  · rw [← key X Y m hX h]
    exact (pls1_refuses hK m).1
  · unfold singleTrain at hm
    obtain ⟨st, -, hm⟩ := bindOk hm
    obtain ⟨X', h1, hm⟩ := bindOk hm
    obtain ⟨Y', -, hm⟩ := bindOk hm
    obtain ⟨b, h2, hm⟩ := bindOk hm
    cases hm
    have e := (prepApply_dims isZero h1).2
    rw [← e, ← key X' Y' b (by rw [e]; exact hX) h2]
    exact (pls1_refuses hK b).2

omit [DecidableEq α] in
theorem pls1Weights_refuses [HasSqrt α] (X y : Mat α) (h : X.rows ≠ y.rows) : Fails (pls1Weights X y) := Fails.left (mul_fails h) _

theorem vcplsWeights_refuses (cfg : VcplsCfg α) (X y : Mat α) (h : X.rows ≠ y.rows) : Fails (vcplsWeights cfg X y) := by
  unfold vcplsWeights vcplsTerm
  exact Fails.left (Fails.bind fun I _ => Fails.left (mul_fails h) _) _

/-- **C147 (PLS1, VCPLS: rows).** -/
theorem C147_pls1_rows [HasSqrt α] (isZero : α → Bool) (weights : Mat α → Mat α → Except PyErr (Mat α))
    (hw : ∀ X y : Mat α, X.rows ≠ y.rows → Fails (weights X y)) {K : Int} (hK : 1 ≤ K) (prep : Prep) (X Y : Mat α) (hXY : X.rows ≠ Y.rows) :
    Fails (singleTrain isZero (fun X y => (pls1Train weights K X y).map Prod.fst) prep X Y) := by
  refine singleTrain_refuses isZero (fun X Y hXY => ?_) prep X Y hXY
  have h : Fails (pls1Train weights K X Y) := by
    unfold pls1Train
    refine Fails.bind fun s hs => Fails.left (Fails.loop hK ?_) _
    have e : s.X = X := by
      unfold pls1Init at hs
      obtain ⟨W, hW, hs⟩ := bindOk hs
      obtain ⟨P, -, hs⟩ := bindOk hs
      obtain ⟨T, -, hs⟩ := bindOk hs
      obtain ⟨b, -, hs⟩ := bindOk hs
      cases hs
      rfl
    unfold pls1Step
    exact Fails.left (by rw [e]; exact hw X Y hXY) _
  obtain ⟨e, he⟩ := h
  exact ⟨e, by rw [he]; rfl⟩

end pls1

end Verif.Props
