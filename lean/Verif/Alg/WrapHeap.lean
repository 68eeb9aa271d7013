import Verif.Core.HeapSim
import Verif.Alg.Preproc

/-!
# The preprocessing wrappers on matrix objects

`src/wai/ma/transformation/_Center.py`, `_Standardize.py`, `algorithm/pls/_AbstractPLS.py`, `_AbstractSingleResponsePLS.py` and
`_AbstractMultiResponsePLS.py`, statement by statement on objects.  The concrete algorithm is a parameter; each program refines the function of
`Preproc.lean` whenever the algorithm refines its function.
-/

namespace Verif
open Mat Heap Transf

variable {α : Type}

section guard
variable [One α]

/-- One pass of the guard, `_Standardize.py` 40-42. -/
def guardStep (isZero : α → Bool) (i : Int) (m : Mat α) : Except PyErr (Mat α) := do
  let x ← m.get i 0
  if isZero x then m.set i 0 1 else .ok m

theorem guardLoop_eq (isZero : α → Bool) (is : List Int) (m : Mat α) : guardLoop isZero is m = loopM (guardStep isZero) is m := by
  induction is generalizing m with
  | nil => rfl
  | cons i is ih =>
    unfold guardLoop loopM guardStep
    cases m.get i 0 with
    | error e => rfl
    | ok x =>
      simp only [except_bind_ok]
      cases isZero x with
      | false => simp only [Bool.false_eq_true, if_false, except_bind_ok]; exact ih m
      | true =>
        simp only [if_true]
        cases m.set i 0 1 with
        | error e => rfl
        | ok m' => exact ih m'

/-- The guard in place, `_Standardize.py` 40-42. -/
def hGuard (isZero : α → Bool) (d : Nat) : H α Unit := do
  let M ← getContents d
  mLoop (fun i (_ : Unit) => do
    let x ← mScalar1 (fun M => M.get i 0) d
    if isZero x then mSet d i 0 1 else pure ()) (pyRange 0 M.rows) ()

theorem hGuard_sim {h : Heap α} {d : Nat} {M : Mat α} (hd : Has h d M) (isZero : α → Bool) :
    Sim [d] h (hGuard isZero d) (guardStds isZero M) fun h' _ M' => Has h' d M' := by
  unfold hGuard guardStds
  rw [guardLoop_eq]
  refine Sim.look hd ?_
  intro hw
  refine Sim.loop (h0 := h) (fun h' (_ : Unit) v => Has h' d v) _ ?_ h () M (.refl _ hw) hd hw
  intro i _ h1 _ v f1 hv
  unfold guardStep
  refine Sim.num1 (f := fun M => M.get i 0) hv fun x => ?_
  cases isZero x with
  | true => exact sim_set hv i 0 1
  | false => exact Sim.ret hv

end guard

section trans
variable [Field α] [HasSqrt α]

/-- `configure`, `_Center.py` 33-35, then `transform`, 37-40, on a new `Center`; the references of `means` and of the result. -/
def hCenterFit (A : Nat) : H α (Nat × Nat) := do
  let m ← mPure1 (fun M => .ok M.columnMeans) A
  let r ← mCopy A
  mVectorOpModify (· - ·) r m
  pure (m, r)

omit [HasSqrt α] in
theorem hCenterFit_sim {h : Heap α} {A : Nat} {M : Mat α} (hA : Has h A M) :
    Sim [] h (hCenterFit A) (fitTransform center M) fun h' b c => New h h' b.2 c ∧ New h h' b.1 M.columnMeans := by
  have e : fitTransform center M = (do let r ← M.vectorOp (· - ·) M.columnMeans; .ok r) := by
    rw [show (do let r ← M.vectorOp (· - ·) M.columnMeans; .ok r : Except PyErr (Mat α)) = M.vectorOp (· - ·) M.columnMeans by
      cases M.vectorOp (· - ·) M.columnMeans <;> rfl]
    rfl
  rw [e]
  unfold hCenterFit
  have lA := hA.1
  refine Sim.tmp (sim_pure1 (f := fun M => .ok M.columnMeans) hA) fun h1 m f1 l1 g1 u1 a1 => ?_
  refine Sim.ownTmp (sim_copy (M := M) (by has)) fun h2 r f2 l2 g2 u2 a2 => ?_
  refine Sim.upd (sim_vectorOpModify a2 (V := M.columnMeans) (by has)) (by simp) fun h3 R f3 l3 a3 => ?_
  exact Sim.ret ⟨⟨by show h.nobj ≤ r; omega, a3⟩, g1, by has⟩

/-- `configure`, `_Standardize.py` 36-43, then `transform`, 45-49, on a new `Standardize`; the references of `means`, `std_devs` and of
the result. -/
def hStandardizeFit (isZero : α → Bool) (A : Nat) : H α (Nat × Nat × Nat) := do
  let m ← mPure1 (fun M => .ok M.columnMeans) A
  let d ← mPure1 (fun M => .ok M.columnStdevs) A
  hGuard isZero d
  let r ← mCopy A
  mVectorOpModify (· - ·) r m
  mVectorOpModify (· / ·) r d
  pure (m, d, r)

theorem hStandardizeFit_sim {h : Heap α} {A : Nat} {M : Mat α} (hA : Has h A M) (isZero : α → Bool) :
    Sim [] h (hStandardizeFit isZero A) (fitTransform (standardize isZero) M) fun h' b c => New h h' b.2.2 c ∧
      New h h' b.1 M.columnMeans ∧ ∃ d, New h h' b.2.1 d := by
  have e : fitTransform (standardize isZero) M = (do
      let d ← guardStds isZero M.columnStdevs
      let r ← M.vectorOp (· - ·) M.columnMeans
      let r ← r.vectorOp (· / ·) d
      .ok r) := by
    unfold fitTransform
    rw [show (standardize isZero).configure M (standardize isZero).init = (match guardStds isZero M.columnStdevs with
      | .error e => (⟨false, some M.columnMeans, some M.columnStdevs⟩, .error e)
      | .ok d => (⟨true, some M.columnMeans, some d⟩, .ok ())) from rfl]
    cases guardStds isZero M.columnStdevs with
    | error e => rfl
    | ok d =>
      simp only [except_bind_ok]
      show (do let r ← M.vectorOp (· - ·) M.columnMeans; r.vectorOp (· / ·) d : Except PyErr (Mat α)) = _
      cases M.vectorOp (· - ·) M.columnMeans with
      | error e => rfl
      | ok r =>
        simp only [except_bind_ok]
        cases r.vectorOp (· / ·) d <;> rfl
  rw [e]
  unfold hStandardizeFit
  have lA := hA.1
  refine Sim.tmp (sim_pure1 (f := fun M => .ok M.columnMeans) hA) fun h1 m f1 l1 g1 u1 a1 => ?_
  refine Sim.ownTmp (sim_pure1 (f := fun M => .ok M.columnStdevs) (M := M) (by has)) fun h2 d f2 l2 g2 u2 a2 => ?_
  refine Sim.upd (hGuard_sim a2 isZero) (by simp) fun h3 D f3 l3 a3 => ?_
  refine Sim.ownTmp (sim_copy (M := M) (by has)) fun h4 r f4 l4 g4 u4 a4 => ?_
  refine Sim.upd (sim_vectorOpModify a4 (V := M.columnMeans) (by has)) (by simp) fun h5 R f5 l5 a5 => ?_
  refine Sim.upd (sim_vectorOpModify a5 (V := D) (by has)) (by simp) fun h6 R' f6 l6 a6 => ?_
  exact Sim.ret ⟨⟨by show h.nobj ≤ r; omega, a6⟩, ⟨g1, by has⟩, D, by show h.nobj ≤ d; omega, by has⟩

/-- The matrix the algorithm is trained on, `_AbstractSingleResponsePLS.py` 61-84: without preprocessing the given object itself. -/
def hPrepApply (isZero : α → Bool) : Prep → Nat → H α Nat
  | .none, A => pure A
  | .center, A => do let r ← hCenterFit A; pure r.2
  | .standardize, A => do let r ← hStandardizeFit isZero A; pure r.2.2
  | .unknown, _ => H.lift (.error .runtimeError)

theorem hPrepApply_sim {h : Heap α} {A : Nat} {M : Mat α} (hA : Has h A M) (isZero : α → Bool) (prep : Prep) :
    Sim [] h (hPrepApply isZero prep A) (prepApply isZero prep M) fun h' b c => Has h' b c := by
  cases prep with
  | none => exact Sim.ret hA
  | center =>
    show Sim [] h (hCenterFit A >>= fun r => pure r.2) (fitTransform center M) _
    rw [← bind_ok_right (fitTransform center M)]
    exact Sim.bind (hCenterFit_sim hA) (fun _ h => h) fun h' b c _ hn => Sim.ret hn.1.2
  | standardize =>
    show Sim [] h (hStandardizeFit isZero A >>= fun r => pure r.2.2) (fitTransform (standardize isZero) M) _
    rw [← bind_ok_right (fitTransform (standardize isZero) M)]
    exact Sim.bind (hStandardizeFit_sim hA isZero) (fun _ h => h) fun h' b c _ hn => Sim.ret hn.1.2
  | unknown => exact fun hw => ⟨.refl [] hw, .error _⟩

/-- `helper.mean(response, 0)`, `helper.py` 43-47. -/
def hMean0 (Y : Nat) : H α α := do
  let m ← mPure1 (fun M => .ok M.columnMeans) Y
  mScalar1 (fun M => M.get 0 0) m

/-- `helper.stdev(response, 0)`, `helper.py` 50-54. -/
def hStdev0 (Y : Nat) : H α α := do
  let m ← mPure1 (fun M => .ok M.columnStdevs) Y
  mScalar1 (fun M => M.get 0 0) m

omit [HasSqrt α] in
theorem hMean0_sim {h : Heap α} {Y : Nat} {B : Mat α} (hY : Has h Y B) : Sim [] h (hMean0 Y) (mean0 B) fun _ b c => b = c :=
  Sim.tmp (sim_pure1 (f := fun M => .ok M.columnMeans) hY) fun _ _ _ _ _ _ a1 => sim_scalar1 a1

theorem hStdev0_sim {h : Heap α} {Y : Nat} {B : Mat α} (hY : Has h Y B) : Sim [] h (hStdev0 Y) (stdev0 B) fun _ b c => b = c :=
  Sim.tmp (sim_pure1 (f := fun M => .ok M.columnStdevs) hY) fun _ _ _ _ _ _ a1 => sim_scalar1 a1

/-- `class_mean` and `class_std_dev`, `_AbstractSingleResponsePLS.py` 61-77. -/
def hClassStats : Prep → Nat → H α (α × α)
  | .none, _ => pure (0, 1)
  | .center, Y => do let m ← hMean0 Y; pure (m, 1)
  | .standardize, Y => do let m ← hMean0 Y; let s ← hStdev0 Y; pure (m, s)
  | .unknown, _ => H.lift (.error .runtimeError)

theorem hClassStats_sim {h : Heap α} {Y : Nat} {B : Mat α} (hY : Has h Y B) (prep : Prep) :
    Sim [] h (hClassStats prep Y) (classStats prep B) fun _ b c => b = c := by
  cases prep with
  | none => exact Sim.ret rfl
  | center =>
    refine Sim.bind (hMean0_sim hY) (fun _ h => h) ?_
    rintro h1 m _ f1 rfl
    exact Sim.ret rfl
  | standardize =>
    refine Sim.bind (hMean0_sim hY) (fun _ h => h) ?_
    rintro h1 m _ f1 rfl
    refine Sim.bind (hStdev0_sim (hY.mono f1 (by sep))) (fun _ h => h) ?_
    rintro h2 s _ f2 rfl
    exact Sim.ret rfl
  | unknown => exact fun hw => ⟨.refl [] hw, .error _⟩

/-- `initialize`, `_AbstractPLS.py` 40-59, with `do_initialize`, `_AbstractSingleResponsePLS.py` 60-88: "always work on copies". -/
def hSingleTrain {A : Type} (isZero : α → Bool) (train : Nat → Nat → H α A) (prep : Prep) (X Y : Nat) : H α (SingleModel α A) := do
  let X ← mCopy X
  let Y ← mCopy Y
  let st ← hClassStats prep Y
  let X ← hPrepApply isZero prep X
  let Y ← hPrepApply isZero prep Y
  let m ← train X Y
  pure ⟨st.1, st.2, prep.hasTrans, m⟩

/-- The numbers of the wrapper are those of the function model and the attributes hold its matrices. -/
def singleRepr {A M : Type} (ρ : Repr α M A) : Repr α (SingleModel α M) (SingleModel α A) where
  refs a := ρ.refs a.base
  On m h a := a.mean = m.mean ∧ a.sd = m.sd ∧ a.hasTrans = m.hasTrans ∧ ρ.On m.base h a.base
  mono hf hr hm := ⟨hm.1, hm.2.1, hm.2.2.1, ρ.mono hf hr hm.2.2.2⟩

theorem hSingleTrain_sim {A M : Type} {ρ : Repr α M A} {th : Nat → Nat → H α A} {tf : Mat α → Mat α → Except PyErr M}
    (ht : ∀ h X Y C D, Has h X C → Has h Y D → Sim [] h (th X Y) (tf C D) (ρ.Fresh h)) {h : Heap α} {X Y : Nat} {C D : Mat α}
    (hX : Has h X C) (hY : Has h Y D) (isZero : α → Bool) (prep : Prep) :
    Sim [] h (hSingleTrain isZero th prep X Y) (singleTrain isZero tf prep C D) ((singleRepr ρ).Fresh h) := by
  unfold hSingleTrain singleTrain
  have lX := hX.1
  have lY := hY.1
  refine Sim.tmp (sim_copy hX) fun h1 X1 f1 l1 g1 u1 a1 => ?_
  refine Sim.tmp (sim_copy (M := D) (by has)) fun h2 Y1 f2 l2 g2 u2 a2 => ?_
  refine Sim.bind (hClassStats_sim a2 prep) (fun _ h => h) ?_
  rintro h3 st _ f3 rfl
  refine Sim.bind (hPrepApply_sim (M := C) (by has) isZero prep) (fun _ h => h) fun h4 X2 C2 f4 a4 => ?_
  refine Sim.bind (hPrepApply_sim (M := D) (by has) isZero prep) (fun _ h => h) fun h5 Y2 D2 f5 a5 => ?_
  refine Sim.bind (ht h5 X2 Y2 C2 D2 (by has) a5) (fun _ h => h) fun h6 a v f6 a6 => ?_
  have l3 := f3.le
  have l4 := f4.le
  have l5 := f5.le
  exact Sim.ret ⟨⟨rfl, rfl, rfl, a6.1⟩, fun r hr => by have := a6.2 r hr; omega⟩

/-- `do_predict`, `_AbstractSingleResponsePLS.py` 90-102: the matrix returned by the algorithm is changed in place. -/
def hSinglePredict {A : Type} (predict : A → Nat → H α Nat) (m : SingleModel α A) (Z : Nat) : H α Nat := do
  let R ← predict m.base Z
  if m.hasTrans then do
    let M ← getContents R
    let _ ← mLoop (fun i (_ : Unit) => do
      let v ← mScalar1 (fun M => M.get i 0) R
      mSet R i 0 (v * m.sd + m.mean)) (pyRange 0 M.rows) ()
    pure R
  else pure R

omit [HasSqrt α] in
theorem hSinglePredict_sim {A M : Type} {ρ : Repr α M A} {ph : A → Nat → H α Nat} {pf : M → Mat α → Except PyErr (Mat α)}
    (hp : ∀ h a m Z C, ρ.On m h a → Has h Z C → Sim [] h (ph a Z) (pf m C) (New h)) {h : Heap α} {a : SingleModel α A} {m : SingleModel α M}
    (hm : (singleRepr ρ).On m h a) {Z : Nat} {C : Mat α} (hZ : Has h Z C) : Sim [] h (hSinglePredict ph a Z) (singlePredict pf m C) (New h) := by
  unfold hSinglePredict singlePredict
  have lZ := hZ.1
  obtain ⟨h1, h2, h3, hm⟩ := hm
  rw [h1, h2, h3]
  refine Sim.own (hp h a.base m.base Z C hm hZ) fun h1 R Rv f1 l1 g1 u1 a1 => ?_
  cases m.hasTrans with
  | false => exact Sim.ret ⟨g1, a1⟩
  | true =>
    show Sim [R] h1 (getContents R >>= _) (loopM _ _ _) _
    refine Sim.look a1 ?_
    rw [← bind_ok_right (loopM _ _ _)]
    refine Sim.bind (Sim.loop (h0 := h1) (fun h' (_ : Unit) v => Has h' R v) _ ?_ h1 () Rv (.refl _ f1.wf) a1) (fun _ h => h) ?_
    · intro i hi h2 _ v f2 hv
      unfold denormStep
      refine Sim.num1 (f := fun M => M.get i 0) hv fun x => ?_
      exact sim_set hv i 0 _
    · intro h2 _ v f2 hv
      exact Sim.ret ⟨g1, hv⟩

/-! ## Several responses -/

/-- The lists `class_mean` and `class_std_dev`, `_AbstractMultiResponsePLS.py` 97-116. -/
def hMultiStats (prep : Prep) (Y : Nat) : List Int → H α (List (α × α))
  | [] => pure []
  | _ :: is => do
    let a ← hClassStats prep Y
    let l ← hMultiStats prep Y is
    pure (a :: l)

theorem hMultiStats_sim (prep : Prep) {Y : Nat} {B : Mat α} (is : List Int) : ∀ {h : Heap α}, Has h Y B →
    Sim [] h (hMultiStats prep Y is) (multiStats prep B is) fun _ b c => b = c := by
  induction is with
  | nil => exact fun _ => Sim.ret rfl
  | cons i is ih =>
    intro h hY
    unfold hMultiStats multiStats
    refine Sim.bind (hClassStats_sim hY prep) (fun _ h => h) ?_
    rintro h1 a _ f1 rfl
    refine Sim.bind (ih (hY.mono f1 (by sep))) (fun _ h => h) ?_
    rintro h2 l _ f2 rfl
    exact Sim.ret rfl

/-- `initialize`, `_AbstractPLS.py` 40-59, with `do_initialize`, `_AbstractMultiResponsePLS.py` 89-127. -/
def hMultiTrain {A : Type} (isZero : α → Bool) (train : Nat → Nat → H α A) (prep : Prep) (X Y : Nat) : H α (MultiModel α A) := do
  let X ← mCopy X
  let Y ← mCopy Y
  let D ← getContents Y
  let st ← hMultiStats prep Y (pyRange 0 D.cols)
  let X ← hPrepApply isZero prep X
  let Y ← hPrepApply isZero prep Y
  let m ← train X Y
  pure ⟨st.map Prod.fst, st.map Prod.snd, prep.hasTrans, m⟩

/-- As `singleRepr`. -/
def multiRepr {A M : Type} (ρ : Repr α M A) : Repr α (MultiModel α M) (MultiModel α A) where
  refs a := ρ.refs a.base
  On m h a := a.means = m.means ∧ a.sds = m.sds ∧ a.hasTrans = m.hasTrans ∧ ρ.On m.base h a.base
  mono hf hr hm := ⟨hm.1, hm.2.1, hm.2.2.1, ρ.mono hf hr hm.2.2.2⟩

theorem hMultiTrain_sim {A M : Type} {ρ : Repr α M A} {th : Nat → Nat → H α A} {tf : Mat α → Mat α → Except PyErr M}
    (ht : ∀ h X Y C D, Has h X C → Has h Y D → Sim [] h (th X Y) (tf C D) (ρ.Fresh h)) {h : Heap α} {X Y : Nat} {C D : Mat α}
    (hX : Has h X C) (hY : Has h Y D) (isZero : α → Bool) (prep : Prep) :
    Sim [] h (hMultiTrain isZero th prep X Y) (multiTrain isZero tf prep C D) ((multiRepr ρ).Fresh h) := by
  unfold hMultiTrain multiTrain
  have lX := hX.1
  have lY := hY.1
  refine Sim.tmp (sim_copy hX) fun h1 X1 f1 l1 g1 u1 a1 => ?_
  refine Sim.tmp (sim_copy (M := D) (by has)) fun h2 Y1 f2 l2 g2 u2 a2 => ?_
  refine Sim.look a2 ?_
  refine Sim.bind (hMultiStats_sim prep _ a2) (fun _ h => h) ?_
  rintro h3 st _ f3 rfl
  refine Sim.bind (hPrepApply_sim (M := C) (by has) isZero prep) (fun _ h => h) fun h4 X2 C2 f4 a4 => ?_
  refine Sim.bind (hPrepApply_sim (M := D) (by has) isZero prep) (fun _ h => h) fun h5 Y2 D2 f5 a5 => ?_
  refine Sim.bind (ht h5 X2 Y2 C2 D2 (by has) a5) (fun _ h => h) fun h6 a v f6 a6 => ?_
  have l3 := f3.le
  have l4 := f4.le
  have l5 := f5.le
  exact Sim.ret ⟨⟨rfl, rfl, rfl, a6.1⟩, fun r hr => by have := a6.2 r hr; omega⟩

/-- `do_predict`, `_AbstractMultiResponsePLS.py` 129-142: the matrix returned by the algorithm is changed in place. -/
def hMultiPredict {A : Type} (predict : A → Nat → H α Nat) (m : MultiModel α A) (Z : Nat) : H α Nat := do
  let R ← predict m.base Z
  if m.hasTrans then do
    let M ← getContents R
    let _ ← mLoop (fun i (_ : Unit) => do
      let N ← getContents R
      mLoop (fun j (_ : Unit) => do
        let v ← mScalar1 (fun M => M.get i j) R
        let s ← H.lift (Utils.item m.sds j)
        let c ← H.lift (Utils.item m.means j)
        mSet R i j (v * s + c)) (pyRange 0 N.cols) ()) (pyRange 0 M.rows) ()
    pure R
  else pure R

omit [HasSqrt α] in
theorem hMultiPredict_sim {A M : Type} {ρ : Repr α M A} {ph : A → Nat → H α Nat} {pf : M → Mat α → Except PyErr (Mat α)}
    (hp : ∀ h a m Z C, ρ.On m h a → Has h Z C → Sim [] h (ph a Z) (pf m C) (New h)) {h : Heap α} {a : MultiModel α A} {m : MultiModel α M}
    (hm : (multiRepr ρ).On m h a) {Z : Nat} {C : Mat α} (hZ : Has h Z C) : Sim [] h (hMultiPredict ph a Z) (multiPredict pf m C) (New h) := by
  unfold hMultiPredict multiPredict
  have lZ := hZ.1
  obtain ⟨h1, h2, h3, hm⟩ := hm
  rw [h1, h2, h3]
  refine Sim.own (hp h a.base m.base Z C hm hZ) fun h1 R Rv f1 l1 g1 u1 a1 => ?_
  cases m.hasTrans with
  | false => exact Sim.ret ⟨g1, a1⟩
  | true =>
    show Sim [R] h1 (getContents R >>= _) (loopM _ _ _) _
    refine Sim.look a1 ?_
    rw [← bind_ok_right (loopM _ _ _)]
    refine Sim.bind (Sim.loop (h0 := h1) (fun h' (_ : Unit) v => Has h' R v) _ ?_ h1 () Rv (.refl _ f1.wf) a1) (fun _ h => h) ?_
    · intro i hi h2 _ v f2 hv
      refine Sim.look hv ?_
      refine Sim.loop (h0 := h2) (fun h' (_ : Unit) v => Has h' R v) _ ?_ h2 () v (.refl _ f2.wf) hv
      intro j hj h3 _ w f3 hw
      unfold multiDenormCell
      refine Sim.num1 (f := fun M => M.get i j) hw fun x => ?_
      refine Sim.val fun s => ?_
      refine Sim.val fun c => ?_
      exact sim_set hw i j _
    · intro h2 _ v f2 hv
      exact Sim.ret ⟨g1, hv⟩

end trans

end Verif
