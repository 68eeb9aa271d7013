import Verif.Core.Mat
import Verif.Core.Ext
import Mathlib.Data.Rat.Defs
import Mathlib.Algebra.Order.Ring.Rat
import Mathlib.Algebra.Field.Rat

/-!
# The life cycle of algorithm objects

An algorithm object is an attribute store.  `LoggingObject.__setattr__` validates and resets,
`initialize` trains, `predict` / `transform` use the trained state.  A class is described by the tables of
`Cls`, one entry per attribute assignment of the class (`Verif/Alg/Classes.lean`); what training and
prediction compute is left open (`Behaviour`), except for which attributes they read and write.

Sources: `core/_LoggingObject.py` 20-62, `meta/_JavaObject.py` 19-28, `meta/_JavaObjectMeta.py` 19-32,
`algorithm/_AbstractAlgorithm.py` 21-42, `algorithm/pls/_AbstractPLS.py` 25-59 and 150-182,
`algorithm/_CCAFilter.py` 56-76 and 168-178, `algorithm/glsw/_GLSW.py` 38-55 and 106-110,
`algorithm/_PCA.py` 257-270, `algorithm/ica/_FastICA.py` 246-251.

Simplifications.  Attribute values are held by value: an object stored in an attribute (a transformation,
a kernel, a base model) is not shared with other objects, and an in-place change of it is a `mutate`
write.  Only attributes are modelled, not class-level state; logging and `debug` output are left out.
-/

namespace Verif.Life

/-- Attribute values.  `new c` is a freshly constructed object of class `c`, `enum s` an enumeration
member, `other b` anything else (matrices, configured transformations, user objects).  Comparing a
`none`, `enum`, `new` or `other` value with a number raises `TypeError`. -/
inductive PyVal (β : Type) where
  | none
  | bool (b : Bool)
  | int (i : Int)
  | real (x : X ℚ)
  | enum (s : String)
  | new (c : String)
  | other (b : β)

variable {β α R : Type}

/-- The numeric value Python's comparisons and `abs` see. -/
def PyVal.num? : PyVal β → Option (X ℚ)
  | .bool b => some (.fin (if b then 1 else 0))
  | .int i => some (.fin i)
  | .real x => some x
  | _ => Option.none

/-! ## Validators -/

/-- The shapes of the `validate_…` methods in the code base. -/
inductive Validator where
  | always
  | ge (c : ℚ)
  | gt (c : ℚ)
  | absGe (c : ℚ)
  | between (a b : ℚ)
  | eqOrGt (e c : ℚ)
  deriving DecidableEq

/-- `a >= b` on floats: false when a NaN is involved. -/
def xge (a b : X ℚ) : Bool := X.ltb b a || X.eqb a b

/-- Running a validator: `return True`, `value >= c`, `value > c`, `abs(value) >= c`, `a < value < b`,
`value == e or value > c`. -/
def Validator.run : Validator → PyVal β → Except PyErr Bool
  | .always, _ => .ok true
  | .ge c, v => match v.num? with
    | some x => .ok (xge x (.fin c))
    | Option.none => .error .typeError
  | .gt c, v => match v.num? with
    | some x => .ok (X.ltb (.fin c) x)
    | Option.none => .error .typeError
  | .absGe c, v => match v.num? with
    | some x => .ok (xge (X.absX x) (.fin c))
    | Option.none => .error .typeError
  | .between a b, v => match v.num? with
    | some x => .ok (X.ltb (.fin a) x && X.ltb x (.fin b))
    | Option.none => .error .typeError
  | .eqOrGt e c, v => match v.num? with
    | some x => .ok (X.eqb x (.fin e) || X.ltb (.fin c) x)
    | Option.none => .error .typeError

/-! ## Classes -/

/-- What happens when `initialize` gets data.
`pair`: `initialize(x, y)`; both missing means "set the defaults", one missing makes `.copy()` fail
(`_AbstractPLS.py` 32-59, `_GLSW.py` 39-55).
`lenient`: either missing means "set the defaults" (`_CCAFilter.py` 57-76).
`refit trained`: there is no training method, `transform` resets and fits every time, and sets
`initialised` to `trained` (`_PCA.py` 257-270, `_FastICA.py` 77-129 and 246-251). -/
inductive Mode where
  | pair
  | lenient
  | refit (trained : Bool)
  deriving DecidableEq

/-- How `get_matrix` answers a name: an attribute, or the element-wise product of two attributes
(`_PRM.py` 103-104). -/
inductive MatSrc where
  | attr (k : String)
  | product (k l : String)
  deriving DecidableEq

/-- Tables describing a class. -/
structure Cls (β : Type) where
  name : String
  mode : Mode
  /-- `validate_<key>` methods, inherited ones included. -/
  validators : List (String × Validator)
  /-- keys whose assignment is swallowed by an overridden `__setattr__` (`_CCARegression.py` 29-34). -/
  frozen : List String
  /-- assignments of `__init__`, base class first. -/
  ctor : List (String × PyVal β)
  /-- assignments of `initialize()`, base class first. -/
  defaults : List (String × PyVal β)
  /-- assignments of `reset`, base class first. -/
  resets : List (String × PyVal β)
  /-- settable parameters without validator. -/
  plain : List String
  /-- attributes training reads before writing them. -/
  trainReads : List String
  /-- attributes training assigns or changes in place. -/
  trainWrites : List String
  /-- attributes prediction and transformation read. -/
  useReads : List String
  /-- attributes prediction and transformation may change in place. -/
  useWrites : List String
  /-- `get_matrix_names`. -/
  matrixNames : List String
  /-- the branches of `get_matrix`. -/
  matrices : List (String × MatSrc)

/-- Attribute stores. -/
abbrev Attrs (β : Type) := String → Option (PyVal β)

/-- An object: its attributes and the flag `__init_complete`. -/
structure Obj (β : Type) where
  complete : Bool
  attrs : Attrs β

/-- Plain `object.__setattr__`. -/
def Obj.put (s : Obj β) (k : String) (v : PyVal β) : Obj β :=
  { s with attrs := fun j => if j = k then some v else s.attrs j }

/-- Several plain assignments. -/
def Obj.puts (s : Obj β) (ws : List (String × PyVal β)) : Obj β :=
  ws.foldl (fun s w => s.put w.1 w.2) s

/-- `reset`.  Its assignments go through `__setattr__`, but none of them is to a validated or frozen key
(`Cls.WellFormed`, checked for every class), so they are plain. -/
def reset (c : Cls β) (s : Obj β) : Obj β := s.puts c.resets

/-- `LoggingObject.__setattr__`, `_LoggingObject.py` 34-46 (and `_CCARegression.py` 29-34). -/
def setattr (c : Cls β) (s : Obj β) (k : String) (v : PyVal β) : Obj β × Except PyErr Unit :=
  if k ∈ c.frozen then (s, .ok ())
  else match c.validators.lookup k with
    | Option.none => (s.put k v, .ok ())
    | some val => match val.run v with
      | .error e => (s, .error e)
      | .ok false => (s, .error .valueError)
      | .ok true => ((if s.complete then reset c s else s).put k v, .ok ())

/-- A sequence of assignments; the first failing one ends it. -/
def setattrs (c : Cls β) : Obj β → List (String × PyVal β) → Obj β × Except PyErr Unit
  | s, [] => (s, .ok ())
  | s, w :: ws => match setattr c s w.1 w.2 with
    | (s', .error e) => (s', .error e)
    | (s', .ok _) => setattrs c s' ws

/-- The object before `__init__`, `_JavaObject.py` 20-22. -/
def blank : Obj β := ⟨false, fun _ => Option.none⟩

/-- Creating an object: `__init__`, then `__construct__` (`_JavaObjectMeta.py` 23-32): mark complete,
`initialize()`, `reset()` (`_LoggingObject.py` 29-32). -/
def construct (c : Cls β) : Except PyErr (Obj β) :=
  match setattrs c blank c.ctor with
  | (_, .error e) => .error e
  | (s, .ok _) => match setattrs c { s with complete := true } c.defaults with
    | (_, .error e) => .error e
    | (s, .ok _) => .ok (reset c s)

/-- A write performed by training or prediction: an assignment (through `__setattr__`) or an in-place change
of the object an attribute holds. -/
inductive Write (β : Type) where
  | assign (k : String) (v : PyVal β)
  | mutate (k : String) (v : PyVal β)

def Write.key : Write β → String
  | .assign k _ => k
  | .mutate k _ => k

/-- In-place changes are only made to objects in attributes without a restrictive validator. -/
def Write.Fits (c : Cls β) : Write β → Prop
  | .assign _ _ => True
  | .mutate k _ => c.validators.lookup k = Option.none ∨ c.validators.lookup k = some .always

/-- Executing writes; a failing assignment ends the sequence. -/
def execWrites (c : Cls β) : Obj β → List (Write β) → Obj β × Except PyErr Unit
  | s, [] => (s, .ok ())
  | s, .mutate k v :: ws => execWrites c (s.put k v) ws
  | s, .assign k v :: ws => match setattr c s k v with
    | (s', .error e) => (s', .error e)
    | (s', .ok _) => execWrites c s' ws

/-- What the methods of a class compute, consistent with its tables.
`check` is the hook of that name, `train` is `do_initialize` (for `refit` classes unused), `use` is
`do_predict` / `do_transform` (for `refit` classes: fitting and transforming). -/
structure Behaviour (α R : Type) (c : Cls β) where
  check : Mat α → Mat α → Option String
  train : Attrs β → Mat α → Mat α → List (Write β) × Except PyErr (Option String)
  use : Attrs β → Mat α → List (Write β) × Except PyErr R
  train_reads : ∀ a b X Y, (∀ k ∈ c.trainReads, a k = b k) → train a X Y = train b X Y
  train_writes : ∀ a X Y, ∀ w ∈ (train a X Y).1, w.key ∈ c.trainWrites ∧ w.Fits c
  use_reads : ∀ a b Z, (∀ k ∈ c.useReads, a k = b k) → use a Z = use b Z
  use_writes : ∀ a Z, ∀ w ∈ (use a Z).1, w.key ∈ c.useWrites ∧ w.Fits c

/-- `is_initialised()`, `_AbstractAlgorithm.py` 29-35. -/
def Obj.trained (s : Obj β) : Bool :=
  match s.attrs "initialised" with
  | some (.bool true) => true
  | _ => false

variable {c : Cls β}

/-- `initialize(X, Y)` with both arguments given: reset, check, train, set the flag
(`_AbstractPLS.py` 47-59, `_CCAFilter.py` 65-76, `_GLSW.py` 43-55). -/
def initPair (b : Behaviour α R c) (s : Obj β) (X Y : Mat α) : Obj β × Except PyErr (Option String) :=
  let s₁ := reset c s
  match b.check X Y with
  | some msg => (s₁, .ok (some msg))
  | Option.none =>
    let r := b.train s₁.attrs X Y
    match execWrites c s₁ r.1 with
    | (s₂, .error e) => (s₂, .error e)
    | (s₂, .ok _) => match r.2 with
      | .error e => (s₂, .error e)
      | .ok msg => (s₂.put "initialised" (.bool msg.isNone), .ok msg)

/-- `initialize()`: assign the defaults; returns `None`. -/
def initDefaults (c : Cls β) (s : Obj β) : Obj β × Except PyErr (Option String) :=
  match setattrs c s c.defaults with
  | (s', .error e) => (s', .error e)
  | (s', .ok _) => (s', .ok Option.none)

/-- `initialize` with exactly one argument given. -/
def initMissing (c : Cls β) (s : Obj β) : Obj β × Except PyErr (Option String) :=
  match c.mode with
  | .pair => (s, .error .attributeError)
  | .lenient => initDefaults c s
  | .refit _ => (s, .error .typeError)

/-- `initialize(x, y)` with optional arguments. -/
def initCall (b : Behaviour α R c) (s : Obj β) : Option (Mat α) → Option (Mat α) →
    Obj β × Except PyErr (Option String)
  | some X, some Y => match c.mode with
    | .refit _ => (s, .error .typeError)
    | _ => initPair b s X Y
  | Option.none, Option.none => initDefaults c s
  | some _, Option.none => initMissing c s
  | Option.none, some _ => initMissing c s

/-- `predict` / `transform`, `_AbstractPLS.py` 150-182, `_CCAFilter.py` 168-178, `_GLSW.py` 106-110;
for `refit` classes `_PCA.py` 264-270 and `_FastICA.py` 246-251. -/
def use (b : Behaviour α R c) (s : Obj β) (Z : Mat α) : Obj β × Except PyErr R :=
  match c.mode with
  | .refit t =>
    let s₁ := reset c s
    let r := b.use s₁.attrs Z
    match execWrites c s₁ r.1 with
    | (s₂, .error e) => (s₂, .error e)
    | (s₂, .ok _) => match r.2 with
      | .error e => (s₂, .error e)
      | .ok out => (if t then s₂.put "initialised" (.bool true) else s₂, .ok out)
  | _ =>
    if s.trained then
      let r := b.use s.attrs Z
      match execWrites c s r.1 with
      | (s₂, .error e) => (s₂, .error e)
      | (s₂, .ok _) => (s₂, r.2)
    else (s, .error .runtimeError)

/-- `get_matrix(name)`: the attribute, `None` for an unknown name; the product of two attributes fails on
`None`.  The product itself is a parameter. -/
def getMatrix (prod : PyVal β → PyVal β → Except PyErr (PyVal β)) (c : Cls β) (s : Obj β) (name : String) :
    Except PyErr (PyVal β) :=
  match c.matrices.lookup name with
  | Option.none => .ok .none
  | some (.attr k) => match s.attrs k with
    | some v => .ok v
    | Option.none => .error .attributeError
  | some (.product k l) => match s.attrs k, s.attrs l with
    | some .none, _ => .error .attributeError
    | some v, some w => prod v w
    | _, _ => .error .attributeError

/-! ## Histories -/

/-- Calls a user can make on an object. -/
inductive Op (α β : Type) where
  | set (k : String) (v : PyVal β)
  | init (X Y : Option (Mat α))
  | use (Z : Mat α)
  | reset

/-- The answer of a call. -/
inductive Ans (R : Type) where
  | unit
  | msg (m : Option String)
  | out (r : R)
  | err (e : PyErr)

def Ans.ofUnit : Except PyErr Unit → Ans R
  | .ok _ => .unit
  | .error e => .err e
def Ans.ofMsg : Except PyErr (Option String) → Ans R
  | .ok m => .msg m
  | .error e => .err e
def Ans.ofOut : Except PyErr R → Ans R
  | .ok r => .out r
  | .error e => .err e

/-- One call. -/
def step (b : Behaviour α R c) (s : Obj β) : Op α β → Obj β × Ans R
  | .set k v => ((setattr c s k v).1, .ofUnit (setattr c s k v).2)
  | .init X Y => ((initCall b s X Y).1, .ofMsg (initCall b s X Y).2)
  | .use Z => ((use b s Z).1, .ofOut (use b s Z).2)
  | .reset => (Life.reset c s, .unit)

/-- A history of calls; exceptions are caught by the caller and the object is used on.
The answers are collected in order. -/
def run (b : Behaviour α R c) : Obj β → List (Op α β) → Obj β × List (Op α β × Ans R)
  | s, [] => (s, [])
  | s, op :: ops =>
    ((run b (step b s op).1 ops).1, (op, (step b s op).2) :: (run b (step b s op).1 ops).2)

end Verif.Life
