import Verif.Alg.LifeLemmas
import Verif.Alg.Preproc

/-!
# The PLS1 object

The attribute life cycle of `Lifecycle.lean` filled with the arithmetic of `PLS1.lean` and `Preproc.lean`.
-/

namespace Verif.Life

/-- Values PLS1 keeps in attributes besides parameters. -/
inductive PV (α : Type) where
  | mat (A : Mat α)
  | num (x : α)

/-- The preprocessing an attribute value stands for; anything but a member of the enumeration is unhandled
(`_AbstractSingleResponsePLS.py` 61-77). -/
def prepOf {β : Type} : Option (PyVal β) → Prep
  | some (.enum e) => if e = "NONE" then .none else if e = "CENTER" then .center
    else if e = "STANDARDIZE" then .standardize else .unknown
  | some .none => .unknown
  | some (.bool _) => .unknown
  | some (.int _) => .unknown
  | some (.real _) => .unknown
  | some (.new _) => .unknown
  | some (.other _) => .unknown
  | Option.none => .unknown

/-- The value as an argument of `range` and `numpy.zeros`. -/
def countOf {β : Type} : Option (PyVal β) → Except PyErr Int
  | some (.int K) => .ok K
  | some (.bool true) => .ok 1
  | some (.bool false) => .ok 0
  | some .none => .error .typeError
  | some (.enum _) => .error .typeError
  | some (.real _) => .error .typeError
  | some (.new _) => .error .typeError
  | some (.other _) => .error .typeError
  | Option.none => .error .attributeError

variable {α : Type}

def PV.mat? : Option (PyVal (PV α)) → Except PyErr (Mat α)
  | some (.other (.mat A)) => .ok A
  | some (.other (.num _)) => .error .attributeError
  | some (.enum _) => .error .attributeError
  | some (.int _) => .error .attributeError
  | some (.bool _) => .error .attributeError
  | some .none => .error .attributeError
  | some (.real _) => .error .attributeError
  | some (.new _) => .error .attributeError
  | Option.none => .error .attributeError

def PV.num? : Option (PyVal (PV α)) → Except PyErr α
  | some (.other (.num x)) => .ok x
  | some (.other (.mat _)) => .error .typeError
  | some (.enum _) => .error .typeError
  | some (.int _) => .error .typeError
  | some (.bool _) => .error .typeError
  | some .none => .error .typeError
  | some (.real _) => .error .typeError
  | some (.new _) => .error .typeError
  | Option.none => .error .attributeError

/-- `self.trans_response is not None`. -/
def isSet {β : Type} : Option (PyVal β) → Bool
  | some .none => false
  | some (.other _) => true
  | some (.enum _) => true
  | some (.int _) => true
  | some (.bool _) => true
  | some (.real _) => true
  | some (.new _) => true
  | Option.none => false

variable [Field α] [DecidableEq α] [HasSqrt α]

/-- What training computes from the attributes, `_AbstractSingleResponsePLS.py` 60-88 and `_PLS1.py` 87-136. -/
def pls1Fit (isZero : α → Bool) (a : Attrs (PV α)) (X Y : Mat α) : Except PyErr (SingleModel α (Pls1Model α)) :=
  singleTrain isZero (fun X y => do
    let K ← countOf (a "num_components")
    let m ← pls1Train pls1Weights K X y
    .ok m.1) (prepOf (a "preprocessing_type")) X Y

/-- The assignments training makes.  (Training that fails half-way has made some of them; the model makes none,
the object is untrained either way and `reset` clears them before the next training.) -/
def pls1Writes (m : SingleModel α (Pls1Model α)) : List (Write (PV α)) :=
  [.assign "class_mean" (.other (.num m.mean)), .assign "class_std_dev" (.other (.num m.sd)),
   .assign "trans_predictors" (if m.hasTrans then .new "Trans" else .none),
   .assign "trans_response" (if m.hasTrans then .new "Trans" else .none),
   .assign "r_hat" (.other (.mat m.base.rHat)), .assign "P" (.other (.mat m.base.P)),
   .assign "W" (.other (.mat m.base.W)), .assign "b_hat" (.other (.mat m.base.bHat))]

/-- What prediction reads back. -/
def pls1Load (a : Attrs (PV α)) : Except PyErr (SingleModel α (Pls1Model α) × Int) := do
  let K ← countOf (a "num_components")
  let P ← PV.mat? (a "P")
  let W ← PV.mat? (a "W")
  let b ← PV.mat? (a "b_hat")
  let r ← PV.mat? (a "r_hat")
  let mean ← PV.num? (a "class_mean")
  let sd ← PV.num? (a "class_std_dev")
  .ok (⟨mean, sd, isSet (a "trans_response"), ⟨r, P, W, b⟩⟩, K)

/-- `predict`, `_AbstractSingleResponsePLS.py` 90-102. -/
def pls1Use (a : Attrs (PV α)) (Z : Mat α) : Except PyErr (Mat α) := do
  let m ← pls1Load a
  singlePredict (fun b Z => pls1Predict m.2 b Z) m.1 Z

/-- The PLS1 object with `predict` as its use. -/
def pls1Object (isZero : α → Bool) : Behaviour α (Mat α) (pls1 : Cls (PV α)) where
  check := fun _ Y => if Y.cols ≠ 1 then
    some ("Algorithm requires exactly one response variable, found: " ++ toString Y.cols) else none
  train := fun a X Y => match pls1Fit isZero a X Y with
    | .error e => ([], .error e)
    | .ok m => (pls1Writes m, .ok none)
  use := fun a Z => ([], pls1Use a Z)
  train_reads := fun a b X Y h => by
    have h1 := h "num_components" (by simp [pls1, plsReads])
    have h2 := h "preprocessing_type" (by simp [pls1, plsReads])
    simp only [pls1Fit, h1, h2]
  train_writes := fun a X Y w hw => by
    revert hw
    cases pls1Fit isZero a X Y with
    | error e => intro hw; exact absurd hw (by simp)
    | ok m =>
      intro hw
      simp only [pls1Writes, List.mem_cons, List.not_mem_nil, or_false] at hw
      rcases hw with rfl | rfl | rfl | rfl | rfl | rfl | rfl | rfl <;>
        exact ⟨by simp [Write.key, pls1, prepKeys], trivial⟩
  use_reads := fun a b Z h => by
    have h1 := h "num_components" (by simp [pls1, plsReads])
    have h2 := h "P" (by simp [pls1])
    have h3 := h "W" (by simp [pls1])
    have h4 := h "b_hat" (by simp [pls1])
    have h5 := h "r_hat" (by simp [pls1])
    have h6 := h "class_mean" (by simp [pls1, prepKeys])
    have h7 := h "class_std_dev" (by simp [pls1, prepKeys])
    have h8 := h "trans_response" (by simp [pls1, prepKeys])
    simp only [pls1Use, pls1Load, h1, h2, h3, h4, h5, h6, h7, h8]
  use_writes := fun _ _ w hw => absurd hw (by simp)

/-- Attributes after training: what training wrote, else what `reset` left. -/
theorem pls1_trained_attrs (isZero : α → Bool) (s : Obj (PV α)) (X Y : Mat α) (hY : Y.cols = 1)
    (m : SingleModel α (Pls1Model α)) (h : pls1Fit isZero (reset pls1 s).attrs X Y = .ok m) :
    initPair (pls1Object isZero) s X Y =
      ((((reset pls1 s).puts [("class_mean", .other (.num m.mean)), ("class_std_dev", .other (.num m.sd)),
        ("trans_predictors", if m.hasTrans then .new "Trans" else .none),
        ("trans_response", if m.hasTrans then .new "Trans" else .none),
        ("r_hat", .other (.mat m.base.rHat)), ("P", .other (.mat m.base.P)),
        ("W", .other (.mat m.base.W)), ("b_hat", .other (.mat m.base.bHat))]).put "initialised" (.bool true)),
        .ok none) := by
  have ht : (pls1Object isZero).train (reset pls1 s).attrs X Y = (pls1Writes m, .ok none) := by
    have : (pls1Object isZero).train (reset pls1 s).attrs X Y =
        match pls1Fit isZero (reset pls1 s).attrs X Y with
        | .error e => ([], Except.error e)
        | .ok m => (pls1Writes m, Except.ok none) := rfl
    rw [this, h]
  have hch : (pls1Object isZero).check X Y = none := if_neg (not_not.mpr hY)
  unfold initPair
  rw [hch]
  simp only [ht]
  rfl

end Verif.Life
