import Verif.Alg.SparseHeap
import Verif.Alg.KernelPLS

/-!
# Kernels and KernelPLS on matrix objects

`src/wai/ma/transformation/kernel` and `src/wai/ma/algorithm/pls/_KernelPLS.py`, statement by statement on objects.
-/

namespace Verif
open Mat Heap Transf

variable {α σ : Type}

/-! ## Kernels -/

/-- What a program on objects must do to stand for `kernel.apply_matrix(X)`: compute the function model's matrix and state, in a new object,
and change no other object. -/
def Kern1Ok (f : σ → Mat α → σ × Except PyErr (Mat α)) (k : σ → Nat → H α (σ × Nat)) : Prop :=
  ∀ (s : σ) (h : Heap α) (X : Nat) (C : Mat α), Has h X C →
    Heap.Sim [] h (k s X) (do let r ← (f s C).2; .ok ((f s C).1, r)) fun h' b v => b.1 = v.1 ∧ New h h' b.2 v.2

/-- The same for `kernel.apply_matrix(X, Y)`. -/
def Kern2Ok (f : σ → Mat α → Mat α → σ × Except PyErr (Mat α)) (k : σ → Nat → Nat → H α (σ × Nat)) : Prop :=
  ∀ (s : σ) (h : Heap α) (X Y : Nat) (C D : Mat α), Has h X C → Has h Y D →
    Heap.Sim [] h (k s X Y) (do let r ← (f s C D).2; .ok ((f s C D).1, r)) fun h' b v => b.1 = v.1 ∧ New h h' b.2 v.2

/-- Outcome of `apply_vector` and the state it leaves. -/
def kernelVal (k : KernelFn α σ) (s : σ) (x y : Mat α) : Except PyErr (σ × α) := do
  let v ← (k s x y).2
  .ok ((k s x y).1, v)

/-- The loops of `_AbstractKernel.py` 53-58 and 70-76.  Matrices that `apply_vector` makes and drops are not allocated. -/
def hKernelLoop (k : KernelFn α σ) (X Y R : Nat) (both : Bool) : List (Int × Int) → σ → H α σ
  | [], s => pure s
  | (i, j) :: r, s => do
    let x ← mPure1 (fun M => M.getRow i) X
    let y ← mPure1 (fun M => M.getRow j) Y
    let v ← mScalar2 (kernelVal k s) x y
    mSet R i j v.2
    if both then do
      mSet R j i v.2
      hKernelLoop k X Y R both r v.1
    else hKernelLoop k X Y R both r v.1

/-- Matrix and state. -/
def kernelLoopVal (k : KernelFn α σ) (X Y : Mat α) (both : Bool) (r : List (Int × Int)) (s : σ) (M : Mat α) : Except PyErr (σ × Mat α) := do
  let Z ← (kernelLoop k X Y both r s M).2
  .ok ((kernelLoop k X Y both r s M).1, Z)

theorem kernelLoopVal_cons (k : KernelFn α σ) (X Y : Mat α) (both : Bool) (i j : Int) (r : List (Int × Int)) (s : σ) (M : Mat α) :
    kernelLoopVal k X Y both ((i, j) :: r) s M = (do
      let x ← X.getRow i
      let y ← Y.getRow j
      let v ← kernelVal k s x y
      let M ← M.set i j v.2
      if both then do
        let M ← M.set j i v.2
        kernelLoopVal k X Y both r v.1 M
      else kernelLoopVal k X Y both r v.1 M) := by
  unfold kernelLoopVal
  rw [kernelLoop]
  unfold kernelStep kernelVal
  cases hx : X.getRow i with
  | error e => rfl
  | ok x =>
    cases hy : Y.getRow j with
    | error e => rfl
    | ok y =>
      dsimp only
      rcases hk : k s x y with ⟨s', (e | v)⟩
      · simp only [except_bind_ok, hk]; rfl
      · simp only [except_bind_ok, hk]
        cases hM : M.set i j v with
        | error e => rfl
        | ok M1 =>
          simp only [except_bind_ok]
          cases both with
          | false => rfl
          | true =>
            simp only [if_true]
            cases M1.set j i v <;> rfl

theorem hKernelLoop_sim (k : KernelFn α σ) {X Y R : Nat} {C D : Mat α} (h1 : X ≠ R) (h2 : Y ≠ R) (both : Bool) (r : List (Int × Int)) :
    ∀ {h : Heap α} {s : σ} {M : Mat α}, Has h X C → Has h Y D → Has h R M →
      Heap.Sim [R] h (hKernelLoop k X Y R both r s) (kernelLoopVal k C D both r s M) fun h' b v => b = v.1 ∧ Has h' R v.2 := by
  induction r with
  | nil => exact fun _ _ hR => Sim.ret ⟨rfl, hR⟩
  | cons p r ih =>
    obtain ⟨i, j⟩ := p
    intro h s M hX hY hR
    rw [kernelLoopVal_cons]
    unfold hKernelLoop
    have lX := hX.1
    have lY := hY.1
    have lR := hR.1
    refine Sim.new (sim_pure1 (f := fun M => M.getRow i) hX) fun h3 x xv f3 l3 g3 u3 a3 => ?_
    refine Sim.new (sim_pure1 (f := fun M => M.getRow j) (M := D) (by has)) fun h4 y yv f4 l4 g4 u4 a4 => ?_
    refine Sim.num2 (f := kernelVal k s) (M := xv) (N := yv) (by has) a4 fun v => ?_
    refine Sim.upd (sim_set (M := M) (by has) i j v.2) (by simp) fun h5 M5 f5 l5 a5 => ?_
    cases both with
    | false => exact ih (by has) (by has) a5
    | true =>
      simp only [if_true]
      refine Sim.upd (sim_set a5 j i v.2) (by simp) fun h6 M6 f6 l6 a6 => ?_
      exact ih (by has) (by has) a6

/-- `AbstractKernel.apply_matrix(X, Y)`, `_AbstractKernel.py` 51-59. -/
def hApplyMatrix2 [Zero α] (k : KernelFn α σ) (s : σ) (X Y : Nat) : H α (σ × Nat) := do
  let C ← getContents X
  let D ← getContents Y
  let R ← mCreate (Factory.zeros (C.rows : Int) (D.rows : Int))
  let s ← hKernelLoop k X Y R false (pairs (pyRange 0 C.rows) (pyRange 0 D.rows)) s
  pure (s, R)

/-- `AbstractKernel.apply_matrix(X)`, `_AbstractKernel.py` 61-77. -/
def hApplyMatrix1 [Zero α] (k : KernelFn α σ) (s : σ) (X : Nat) : H α (σ × Nat) := do
  let C ← getContents X
  let R ← mCreate (Factory.zeros (C.rows : Int) (C.rows : Int))
  let s ← hKernelLoop k X X R true ((pyRange 0 C.rows).flatMap fun i => (pyRange i C.rows).map fun j => (i, j)) s
  pure (s, R)

theorem applyMatrix2_ok [Zero α] (k : KernelFn α σ) : Kern2Ok (applyMatrix2 k) (hApplyMatrix2 k) := by
  intro s h X Y C D hX hY
  have e : (do let r ← (applyMatrix2 k s C D).2; .ok ((applyMatrix2 k s C D).1, r) : Except PyErr (σ × Mat α)) = (do
      let Z ← Factory.zeros (C.rows : Int) (D.rows : Int)
      let v ← kernelLoopVal k C D false (pairs (pyRange 0 C.rows) (pyRange 0 D.rows)) s Z
      .ok v) := by
    unfold applyMatrix2 kernelLoopVal
    cases Factory.zeros (α := α) (C.rows : Int) (D.rows : Int) with
    | error e => rfl
    | ok Z => simp only [except_bind_ok, bind_assoc]
  rw [e]
  unfold hApplyMatrix2
  have lX := hX.1
  have lY := hY.1
  refine Sim.look hX (Sim.look hY ?_)
  refine Sim.own (sim_create _) fun h1 R Z f1 l1 g1 u1 a1 => ?_
  refine Sim.bind (hKernelLoop_sim k (C := C) (D := D) (by omega) (by omega) false _ (by has) (by has) a1) (fun _ h => h) ?_
  rintro h2 b v f2 ⟨rfl, hR⟩
  exact Sim.ret ⟨rfl, g1, hR⟩

theorem applyMatrix1_ok [Zero α] (k : KernelFn α σ) : Kern1Ok (applyMatrix1 k) (hApplyMatrix1 k) := by
  intro s h X C hX
  have e : (do let r ← (applyMatrix1 k s C).2; .ok ((applyMatrix1 k s C).1, r) : Except PyErr (σ × Mat α)) = (do
      let Z ← Factory.zeros (C.rows : Int) (C.rows : Int)
      let v ← kernelLoopVal k C C true ((pyRange 0 C.rows).flatMap fun i => (pyRange i C.rows).map fun j => (i, j)) s Z
      .ok v) := by
    unfold applyMatrix1 kernelLoopVal
    cases Factory.zeros (α := α) (C.rows : Int) (C.rows : Int) with
    | error e => rfl
    | ok Z => simp only [except_bind_ok, bind_assoc]
  rw [e]
  unfold hApplyMatrix1
  have lX := hX.1
  refine Sim.look hX ?_
  refine Sim.own (sim_create _) fun h1 R Z f1 l1 g1 u1 a1 => ?_
  refine Sim.bind (hKernelLoop_sim k (C := C) (D := C) (by omega) (by omega) true _ (by has) (by has) a1) (fun _ h => h) ?_
  rintro h2 b v f2 ⟨rfl, hR⟩
  exact Sim.ret ⟨rfl, g1, hR⟩

section ring
variable [Ring α] [Div α]

/-- `LinearKernel.apply_matrix`, `_LinearKernel.py` 34-37: `Y` is the object `X` when it is not given. -/
def hLinearMatrix (X : Nat) (Y : Option Nat) : H α Nat := do
  let t ← mTranspose (Y.getD X)
  mPure2 Mat.mul X t

omit [Div α] in
theorem hLinearMatrix_sim {h : Heap α} {X : Nat} {C : Mat α} (hX : Has h X C) {Y : Option Nat} {D : Option (Mat α)}
    (hY : Has h (Y.getD X) (D.getD C)) : Heap.Sim [] h (hLinearMatrix X Y) (linearMatrix C D) (New h) := by
  unfold hLinearMatrix linearMatrix
  have lX := hX.1
  refine Sim.tmp (sim_transpose hY) fun h1 t f1 l1 g1 u1 a1 => ?_
  exact (sim_pure2 (f := Mat.mul) (M := C) (by has) a1).post fun h2 b _ _ hn => ⟨by have := hn.1; omega, hn.2⟩

/-- With the state of the kernel object, which is empty. -/
def hLinear1 (s : Unit) (X : Nat) : H α (Unit × Nat) := do
  let r ← hLinearMatrix X none
  pure (s, r)

/-- With the state of the kernel object, which is empty. -/
def hLinear2 (s : Unit) (X Y : Nat) : H α (Unit × Nat) := do
  let r ← hLinearMatrix X (some Y)
  pure (s, r)

omit [Div α] in
theorem linear1_ok : Kern1Ok (fun (s : Unit) (X : Mat α) => (s, linearMatrix X none)) hLinear1 := by
  intro s h X C hX
  exact Sim.bind (hLinearMatrix_sim hX (Y := none) (D := none) hX) (fun _ h => h) fun h1 b v f1 hn => Sim.ret ⟨rfl, hn⟩

omit [Div α] in
theorem linear2_ok : Kern2Ok (fun (s : Unit) (X Y : Mat α) => (s, linearMatrix X (some Y))) hLinear2 := by
  intro s h X Y C D hX hY
  exact Sim.bind (hLinearMatrix_sim hX (Y := some Y) (D := some D) hY) (fun _ h => h) fun h1 b v f1 hn => Sim.ret ⟨rfl, hn⟩

/-- `PolyKernel.apply_matrix`, `_PolyKernel.py` 40-49. -/
def hPolyMatrix (s : PolyState α) (X : Nat) (Y : Option Nat) : H α (PolyState α × Nat) := do
  let C ← getContents X
  let t ← mTranspose (Y.getD X)
  let r ← mPure2 Mat.mul X t
  let r ← mPure1 (fun M => .ok (M.smul (resolveGamma s.gamma C))) r
  let r ← mPure1 (fun M => .ok (M.addScalar s.coef0)) r
  let r ← mPure1 (fun M => .ok (M.powElementwise s.degree)) r
  pure ({ s with gamma := some (resolveGamma s.gamma C) }, r)

theorem hPolyMatrix_sim (s : PolyState α) {h : Heap α} {X : Nat} {C : Mat α} (hX : Has h X C) {Y : Option Nat} {D : Option (Mat α)}
    (hY : Has h (Y.getD X) (D.getD C)) :
    Heap.Sim [] h (hPolyMatrix s X Y) (do let r ← (polyMatrix s C D).2; .ok ((polyMatrix s C D).1, r)) fun h' b v =>
      b.1 = v.1 ∧ New h h' b.2 v.2 := by
  unfold hPolyMatrix polyMatrix
  simp only [bind_assoc, except_bind_ok]
  have lX := hX.1
  refine Sim.look hX ?_
  refine Sim.tmp (sim_transpose hY) fun h1 t f1 l1 g1 u1 a1 => ?_
  refine Sim.new (sim_pure2 (f := Mat.mul) (M := C) (by has) a1) fun h2 r P f2 l2 g2 u2 a2 => ?_
  refine Sim.tmp (sim_pure1 (f := fun M => .ok (M.smul (resolveGamma s.gamma C))) a2) fun h3 r3 f3 l3 g3 u3 a3 => ?_
  refine Sim.tmp (sim_pure1 (f := fun M => .ok (M.addScalar s.coef0)) a3) fun h4 r4 f4 l4 g4 u4 a4 => ?_
  refine Sim.tmp (sim_pure1 (f := fun M => .ok (M.powElementwise s.degree)) a4) fun h5 r5 f5 l5 g5 u5 a5 => ?_
  exact Sim.ret ⟨rfl, by show h.nobj ≤ r5; omega, a5⟩

theorem poly1_ok : Kern1Ok (fun (s : PolyState α) (X : Mat α) => polyMatrix s X none) fun s X => hPolyMatrix s X none :=
  fun s _ _ _ hX => hPolyMatrix_sim s hX (Y := none) (D := none) hX

theorem poly2_ok : Kern2Ok (fun (s : PolyState α) (X Y : Mat α) => polyMatrix s X (some Y)) fun s X Y => hPolyMatrix s X (some Y) :=
  fun s _ _ Y _ D hX hY => hPolyMatrix_sim s hX (Y := some Y) (D := some D) hY

end ring

/-! ## KernelPLS -/

section kpls
variable [Field α] [HasSqrt α]

/-- Attributes of a configured `Center`: its means. -/
def cenRepr : Repr α (CenterState α) Nat where
  refs a := [a]
  On s h a := ∃ m, s = ⟨true, some m⟩ ∧ Has h a m
  mono hf hr hm := by
    obtain ⟨m, e, h1⟩ := hm
    exact ⟨m, e, h1.mono hf (hr _ (by simp))⟩

/-- State and result of `transform` of a new `Center`. -/
def cenFit (M : Mat α) : Except PyErr (CenterState α × Mat α) := do
  let r ← (transform center M center.init).2
  .ok ((transform center M center.init).1, r)

omit [HasSqrt α] in
theorem hCenterFit_sim' {h : Heap α} {A : Nat} {M : Mat α} (hA : Has h A M) :
    Heap.Sim [] h (hCenterFit A) (cenFit M) fun h' b c => New h h' b.2 c.2 ∧ cenRepr.On c.1 h' b.1 ∧ h.nobj ≤ b.1 := by
  have e : cenFit M = (do let r ← M.vectorOp (· - ·) M.columnMeans; .ok (⟨true, some M.columnMeans⟩, r)) := rfl
  rw [e]
  unfold hCenterFit
  have lA := hA.1
  refine Sim.tmp (sim_pure1 (f := fun M => .ok M.columnMeans) hA) fun h1 m f1 l1 g1 u1 a1 => ?_
  refine Sim.ownTmp (sim_copy (M := M) (by has)) fun h2 r f2 l2 g2 u2 a2 => ?_
  refine Sim.upd (sim_vectorOpModify a2 (V := M.columnMeans) (by has)) (by simp) fun h3 R f3 l3 a3 => ?_
  exact Sim.ret ⟨⟨by show h.nobj ≤ r; omega, a3⟩, ⟨_, rfl, by has⟩, g1⟩

/-- `transform` and `inverse_transform` of a configured `Center`, `_Center.py` 37-45. -/
def hCenterApply (f : α → α → α) (m Z : Nat) : H α Nat := do
  let r ← mCopy Z
  mVectorOpModify f r m
  pure r

omit [HasSqrt α] in
theorem hCenterApply_sim {h : Heap α} {a : Nat} {s : CenterState α} (hs : cenRepr.On s h a) {Z : Nat} {M : Mat α} (hZ : Has h Z M) :
    Heap.Sim [] h (hCenterApply (· - ·) a Z) (transform center M s).2 (New h) ∧
    Heap.Sim [] h (hCenterApply (· + ·) a Z) (inverseTransform center M s).2 (New h) := by
  obtain ⟨m, rfl, hm⟩ := hs
  have e1 : (transform center M ⟨true, some m⟩).2 = (do let r ← M.vectorOp (· - ·) m; .ok r) :=
    (bind_ok_right (M.vectorOp (· - ·) m)).symm
  have e2 : (inverseTransform center M ⟨true, some m⟩).2 = (do let r ← M.vectorOp (· + ·) m; .ok r) :=
    (bind_ok_right (M.vectorOp (· + ·) m)).symm
  rw [e1, e2]
  have lZ := hZ.1
  have lm := hm.1
  have key : ∀ f : α → α → α, Heap.Sim [] h (hCenterApply f a Z) (do let r ← M.vectorOp f m; .ok r) (New h) := by
    intro f
    unfold hCenterApply
    refine Sim.ownTmp (sim_copy hZ) fun h1 r f1 l1 g1 u1 a1 => ?_
    refine Sim.upd (sim_vectorOpModify a1 (V := m) (by has)) (by simp) fun h2 R f2 l2 a2 => ?_
    exact Sim.ret ⟨g1, a2⟩
  exact ⟨key _, key _⟩

/-- Variables of the inner loop. -/
structure KplsIn where
  t : Nat
  w : Nat
  q : Nat
  u : Nat

/-- The variables hold the values of the function model; each is an old one or a new object. -/
def KplsIn.Holds (h0 : Heap α) (s0 : KplsIn) (h : Heap α) (s : KplsIn) (v : KplsInner α) : Prop :=
  (Has h s.t v.t ∧ Has h s.w v.t ∧ Has h s.q v.q ∧ Has h s.u v.u) ∧ (s.t = s0.t ∨ h0.nobj ≤ s.t) ∧ (s.w = s0.w ∨ h0.nobj ≤ s.w) ∧
    (s.q = s0.q ∨ h0.nobj ≤ s.q) ∧ (s.u = s0.u ∨ h0.nobj ≤ s.u)

/-- One pass of the inner loop, `_KernelPLS.py` 117-126. -/
def hKplsPass (Kd Y u : Nat) : H α KplsIn := do
  let t ← mPure2 Mat.mul Kd u
  let t ← mPure1 (fun M => M.normalized) t
  let w ← mCopy t
  let yt ← mTranspose Y
  let q ← mPure2 Mat.mul yt t
  let u ← mPure2 Mat.mul Y q
  let u ← mPure1 (fun M => M.normalized) u
  pure ⟨t, w, q, u⟩

omit [Field α] [HasSqrt α] in
/-- Objects that are all new. -/
def KplsIn.New (h h' : Heap α) (s : KplsIn) (v : KplsInner α) : Prop :=
  Heap.New h h' s.t v.t ∧ Heap.New h h' s.w v.t ∧ Heap.New h h' s.q v.q ∧ Heap.New h h' s.u v.u

theorem hKplsPass_sim {h : Heap α} {Kd Y u : Nat} {Kv Yv Uv : Mat α} (hK : Has h Kd Kv) (hY : Has h Y Yv) (hu : Has h u Uv) :
    Heap.Sim [] h (hKplsPass Kd Y u) (kplsPass Kv Yv Uv) (KplsIn.New h) := by
  unfold hKplsPass kplsPass
  have lY := hY.1
  refine Sim.new (sim_pure2 (f := Mat.mul) hK hu) fun h1 t tv f1 l1 g1 u1 a1 => ?_
  refine Sim.new (sim_pure1 (f := fun M => M.normalized) a1) fun h2 t' tv' f2 l2 g2 u2 a2 => ?_
  refine Sim.tmp (sim_copy a2) fun h3 w f3 l3 g3 u3 a3 => ?_
  refine Sim.tmp (sim_transpose (M := Yv) (by has)) fun h4 yt f4 l4 g4 u4 a4 => ?_
  refine Sim.new (sim_pure2 (f := Mat.mul) (N := tv') a4 (by has)) fun h5 q qv f5 l5 g5 u5 a5 => ?_
  refine Sim.new (sim_pure2 (f := Mat.mul) (M := Yv) (by has) a5) fun h6 u uv f6 l6 g6 u6 a6 => ?_
  refine Sim.new (sim_pure1 (f := fun M => M.normalized) a6) fun h7 u' uv' f7 l7 g7 u7 a7 => ?_
  exact Sim.ret ⟨⟨by show h.nobj ≤ t'; omega, by has⟩, ⟨by show h.nobj ≤ w; omega, by has⟩, ⟨by show h.nobj ≤ q; omega, by has⟩,
    ⟨by show h.nobj ≤ u'; omega, a7⟩⟩

/-- The inner loop, `_KernelPLS.py` 115-130. -/
def hKplsInner (c : KplsCfg α σ) (Kd Y : Nat) (iter : Int) (change : α) (s : KplsIn) : H α KplsIn :=
  if h : c.lt c.tol change = true ∧ iter < c.maxIter then do
    let r ← hKplsPass Kd Y s.u
    let d ← mPure2 Mat.sub r.u s.u
    let n ← mScalar1 (fun M => .ok M.norm2) d
    hKplsInner c Kd Y (iter + 1) n r
  else pure s
termination_by (c.maxIter - iter).toNat

theorem hKplsInner_sim (c : KplsCfg α σ) {Kd Y : Nat} {Kv Yv : Mat α} (N : Nat) : ∀ {h : Heap α} {iter : Int} {change : α} {s : KplsIn}
    {v : KplsInner α}, (c.maxIter - iter).toNat = N → Has h Kd Kv → Has h Y Yv → Has h s.t v.t → Has h s.w v.t → Has h s.q v.q → Has h s.u v.u →
    Heap.Sim [] h (hKplsInner c Kd Y iter change s) (kplsInner c Kv Yv iter change v) (KplsIn.Holds h s) := by
  induction N using Nat.strong_induction_on with
  | _ N ih =>
    intro h iter change s v hN hK hY ht hw hq hu
    rw [hKplsInner, kplsInner]
    by_cases e : c.lt c.tol change = true ∧ iter < c.maxIter
    · rw [dif_pos e, dif_pos e]
      refine Sim.bind (hKplsPass_sim hK hY hu) (fun _ h => h) fun h1 r rv f1 hr => ?_
      obtain ⟨⟨g1, a1⟩, ⟨g2, a2⟩, ⟨g3, a3⟩, ⟨g4, a4⟩⟩ := hr
      have l1 := f1.le
      have lu := hu.1
      refine Sim.new (sim_pure2 (f := Mat.sub) (N := v.u) a4 (by has)) fun h2 d dv f2 l2 g5 u5 a5 => ?_
      refine Sim.numT (f := fun M => M.norm2) a5 ?_
      refine (ih (c.maxIter - (iter + 1)).toNat (by omega) (h := h2) rfl (by has) (by has) (by has) (by has) (by has) (by has)).post
        fun h3 b w f3 hb => ⟨hb.1, ?_, ?_, ?_, ?_⟩
      · have := hb.2.1; omega
      · have := hb.2.2.1; omega
      · have := hb.2.2.2.1; omega
      · have := hb.2.2.2.2; omega
    · rw [dif_neg e, dif_neg e]
      exact Sim.ret ⟨⟨ht, hw, hq, hu⟩, .inl rfl, .inl rfl, .inl rfl, .inl rfl⟩

/-- Deflation of the kernel, `_KernelPLS.py` 133-136 (the identity matrix is made once, 96, and only read). -/
def hKplsDeflate (Kd t : Nat) : H α Nat := do
  let D ← getContents t
  let I ← mCreate (Factory.eye (α := α) (D.rows : Int) (D.rows : Int))
  let tt ← mTranspose t
  let tt ← mPure2 Mat.mul t tt
  let part ← mPure2 Mat.sub I tt
  let a ← mPure2 Mat.mul part Kd
  mPure2 Mat.mul a part

omit [HasSqrt α] in
theorem hKplsDeflate_sim {h : Heap α} {Kd t : Nat} {Kv Tv : Mat α} (hK : Has h Kd Kv) (ht : Has h t Tv) :
    Heap.Sim [] h (hKplsDeflate Kd t) (kplsDeflate Kv Tv) (New h) := by
  unfold hKplsDeflate kplsDeflate
  have lK := hK.1
  have lt := ht.1
  refine Sim.look ht ?_
  refine Sim.new (sim_create _) fun h1 I Iv f1 l1 g1 u1 a1 => ?_
  refine Sim.tmp (sim_transpose (M := Tv) (by has)) fun h2 tt f2 l2 g2 u2 a2 => ?_
  refine Sim.new (sim_pure2 (f := Mat.mul) (M := Tv) (by has) a2) fun h3 tt' tv f3 l3 g3 u3 a3 => ?_
  refine Sim.new (sim_pure2 (f := Mat.sub) (M := Iv) (by has) a3) fun h4 p pv f4 l4 g4 u4 a4 => ?_
  refine Sim.new (sim_pure2 (f := Mat.mul) (N := Kv) a4 (by has)) fun h5 a av f5 l5 g5 u5 a5 => ?_
  exact (sim_pure2 (f := Mat.mul) (N := pv) a5 (by has)).post fun h6 b _ _ hn => ⟨by have := hn.1; omega, hn.2⟩

/-- Loadings, `_KernelPLS.py` 138. -/
def hKplsLoad (Kd w : Nat) : H α Nat := do
  let kt ← mTranspose Kd
  let a ← mPure2 Mat.mul kt w
  let wt ← mTranspose w
  let b ← mPure2 Mat.mul wt w
  let b ← mScalar1 (fun M => M.asReal) b
  mPure1 (fun M => .ok (M.div b)) a

omit [HasSqrt α] in
theorem hKplsLoad_sim {h : Heap α} {Kd t : Nat} {Kv Tv : Mat α} (hK : Has h Kd Kv) (ht : Has h t Tv) :
    Heap.Sim [] h (hKplsLoad Kd t) (kplsLoad Kv Tv) (New h) := by
  unfold hKplsLoad kplsLoad
  have lt := ht.1
  refine Sim.tmp (sim_transpose hK) fun h1 kt f1 l1 g1 u1 a1 => ?_
  refine Sim.new (sim_pure2 (f := Mat.mul) (N := Tv) a1 (by has)) fun h2 a av f2 l2 g2 u2 a2 => ?_
  refine Sim.tmp (sim_transpose (M := Tv) (by has)) fun h3 wt f3 l3 g3 u3 a3 => ?_
  refine Sim.new (sim_pure2 (f := Mat.mul) (N := Tv) a3 (by has)) fun h4 b bv f4 l4 g4 u4 a4 => ?_
  refine Sim.num1 (f := fun M => M.asReal) a4 fun x => ?_
  exact (sim_pure1 (f := fun M => .ok (M.div x)) (M := av) (by has)).post fun h5 b _ _ hn => ⟨by have := hn.1; omega, hn.2⟩

/-- Variables of the training loop. -/
structure KplsRefs where
  Kd : Nat
  Y : Nat
  T : Nat
  U : Nat
  P : Nat
  Q : Nat
  t : Nat
  w : Nat
  q : Nat

/-- One component, `_KernelPLS.py` 107-144. -/
def hKplsStep (c : KplsCfg α σ) (k : Int) (s : KplsRefs) : H α KplsRefs := do
  let D ← getContents s.T
  let u ← mCreate (c.start (D.rows : Int) k)
  let r ← hKplsInner c s.Kd s.Y 0 (c.tol * ((10 : Nat) : α)) ⟨s.t, s.w, s.q, u⟩
  let Kd ← hKplsDeflate s.Kd r.t
  let qt ← mTranspose r.q
  let d ← mPure2 Mat.mul r.t qt
  let Y ← mPure2 Mat.sub s.Y d
  let p ← hKplsLoad Kd r.w
  mSetColumn s.T k r.t
  mSetColumn s.U k r.u
  mSetColumn s.Q k r.q
  mSetColumn s.P k p
  pure ⟨Kd, Y, s.T, s.U, s.P, s.Q, r.t, r.w, r.q⟩

/-- The variables hold the values of the function model; the matrices changed in place are distinct objects. -/
structure KplsHolds (n T U P Q : Nat) (h : Heap α) (s : KplsRefs) (v : KplsVars α) : Prop where
  eT : s.T = T
  eU : s.U = U
  eP : s.P = P
  eQ : s.Q = Q
  hK : Has h s.Kd v.Kd
  hY : Has h s.Y v.Y
  ht : Has h s.t v.t
  hw : Has h s.w v.t
  hq : Has h s.q v.q
  hT : Has h T v.T
  hU : Has h U v.U
  hP : Has h P v.P
  hQ : Has h Q v.Q
  bK : n ≤ s.Kd
  nK : s.Kd < T ∨ Q < s.Kd
  nY : s.Y < T ∨ Q < s.Y
  nt : s.t < T ∨ Q < s.t
  nw : s.w < T ∨ Q < s.w
  nq : s.q < T ∨ Q < s.q

theorem hKplsStep_sim (c : KplsCfg α σ) {h : Heap α} {n T U P Q : Nat} (hn : n ≤ T) (h1 : T < U) (h2 : U < P) (h3 : P < Q) (k : Int)
    (s : KplsRefs) (v : KplsVars α) (hi : KplsHolds n T U P Q h s v) :
    Heap.Sim [Q, P, U, T] h (hKplsStep c k s) (kplsStep c k v) (KplsHolds n T U P Q) := by
  obtain ⟨Kd, Y, T', U', P', Q', t, w, q⟩ := s
  obtain ⟨rfl, rfl, rfl, rfl, hK, hY, ht, hw, hq, hT, hU, hP, hQ, bK, nK, nY, nt, nw, nq⟩ := hi
  dsimp only at *
  unfold hKplsStep kplsStep
  dsimp only
  have lQ := hQ.1
  have lK := hK.1
  have lY := hY.1
  have lt := ht.1
  have lw := hw.1
  have lq := hq.1
  refine Sim.look hT ?_
  refine Sim.new (sim_create _) fun h4 u uv f4 l4 g4 u4 a4 => ?_
  refine Sim.bind (hKplsInner_sim c (Kv := v.Kd) (Yv := v.Y) _ (v := ⟨v.t, v.q, uv⟩) rfl (by has) (by has) (by has) (by has) (by has) a4)
    (by simp) ?_
  rintro h5 ⟨t', w', q', u'⟩ ⟨tv, qv, uv'⟩ f5 ⟨⟨a1, a2, a3, a5⟩, o1, o2, o3, o4⟩
  dsimp only at *
  have l5 := f5.le
  have i1 := a1.1
  have i2 := a2.1
  have i3 := a3.1
  have i5 := a5.1
  have n1 : t' < T' ∨ Q' < t' := by omega
  have n2 : w' < T' ∨ Q' < w' := by omega
  have n3 : q' < T' ∨ Q' < q' := by omega
  have n4 : u' < T' ∨ Q' < u' := by omega
  refine Sim.new (hKplsDeflate_sim (Kv := v.Kd) (Tv := tv) (by has) a1) fun h6 K6 Kv6 f6 l6 g6 u6 a6 => ?_
  refine Sim.tmp (sim_transpose (M := qv) (by has)) fun h7 qt f7 l7 g7 u7 a7 => ?_
  refine Sim.new (sim_pure2 (f := Mat.mul) (M := tv) (by has) a7) fun h8 d dv f8 l8 g8 u8 a8 => ?_
  refine Sim.new (sim_pure2 (f := Mat.sub) (M := v.Y) (by has) a8) fun h9 Y9 Yv9 f9 l9 g9 u9 a9 => ?_
  refine Sim.new (hKplsLoad_sim (Kv := Kv6) (Tv := tv) (by has) (by has)) fun h10 p pv f10 l10 g10 u10 a10 => ?_
  refine Sim.upd (sim_setColumn (M := v.T) (V := tv) (by has) (by has) k) (by simp) fun h11 T11 f11 l11 a11 => ?_
  refine Sim.upd (sim_setColumn (M := v.U) (V := uv') (by has) (by has) k) (by simp) fun h12 U12 f12 l12 a12 => ?_
  refine Sim.upd (sim_setColumn (M := v.Q) (V := qv) (by has) (by has) k) (by simp) fun h13 Q13 f13 l13 a13 => ?_
  refine Sim.upd (sim_setColumn (M := v.P) (V := pv) (by has) (by has) k) (by simp) fun h14 P14 f14 l14 a14 => ?_
  exact Sim.ret ⟨rfl, rfl, rfl, rfl, by has, by has, by has, by has, by has, by has, by has, by has, by has, by show n ≤ K6; omega,
    by right; show Q' < K6; omega, by right; show Q' < Y9; omega, n1, n2, n3⟩

/-- `centralize_train_in_kernel_space`, `_KernelPLS.py` 152-166. -/
def hKplsCentreTrain (n : Nat) (K : Nat) : H α Nat := do
  let I ← mCreate (Factory.eye (α := α) (n : Int) (n : Int))
  let one ← mCreate (Factory.filled (n : Int) 1 (1 : α))
  let ot ← mTranspose one
  let o ← mPure2 Mat.mul one ot
  let o ← mPure1 (fun M => .ok (M.div (n : α))) o
  let part ← mPure2 Mat.sub I o
  let a ← mPure2 Mat.mul part K
  mPure2 Mat.mul a part

omit [HasSqrt α] in
theorem hKplsCentreTrain_sim (n : Nat) {h : Heap α} {K : Nat} {Kv : Mat α} (hK : Has h K Kv) :
    Heap.Sim [] h (hKplsCentreTrain n K) (kplsCentreTrain n Kv) (New h) := by
  unfold hKplsCentreTrain kplsCentreTrain kplsCentring
  simp only [bind_assoc]
  have lK := hK.1
  refine Sim.new (sim_create _) fun h1 I Iv f1 l1 g1 u1 a1 => ?_
  refine Sim.new (sim_create _) fun h2 o ov f2 l2 g2 u2 a2 => ?_
  refine Sim.tmp (sim_transpose a2) fun h3 ot f3 l3 g3 u3 a3 => ?_
  refine Sim.new (sim_pure2 (f := Mat.mul) (M := ov) (by has) a3) fun h4 oo oov f4 l4 g4 u4 a4 => ?_
  refine Sim.tmp (sim_pure1 (f := fun M => .ok (M.div (n : α))) a4) fun h5 od f5 l5 g5 u5 a5 => ?_
  refine Sim.new (sim_pure2 (f := Mat.sub) (M := Iv) (by has) a5) fun h6 p pv f6 l6 g6 u6 a6 => ?_
  refine Sim.new (sim_pure2 (f := Mat.mul) (N := Kv) a6 (by has)) fun h7 a av f7 l7 g7 u7 a7 => ?_
  exact (sim_pure2 (f := Mat.mul) (N := pv) a7 (by has)).post fun h8 b _ _ hn => ⟨by have := hn.1; omega, hn.2⟩

/-- `centralize_test_in_kernel_space`, `_KernelPLS.py` 168-179. -/
def hKplsCentreTest (n : Nat) (Korig K : Nat) : H α Nat := do
  let D ← getContents K
  let I ← mCreate (Factory.eye (α := α) (n : Int) (n : Int))
  let a ← mCreate (Factory.filled (D.rows : Int) (n : Int) (1 / (n : α)))
  let b ← mCreate (Factory.filled (n : Int) (n : Int) (1 / (n : α)))
  let a ← mPure2 Mat.mul a Korig
  let d ← mPure2 Mat.sub K a
  let e ← mPure2 Mat.sub I b
  mPure2 Mat.mul d e

omit [HasSqrt α] in
theorem hKplsCentreTest_sim (n : Nat) {h : Heap α} {Ko K : Nat} {Kov Kv : Mat α} (hO : Has h Ko Kov) (hK : Has h K Kv) :
    Heap.Sim [] h (hKplsCentreTest n Ko K) (kplsCentreTest n Kov Kv) (New h) := by
  unfold hKplsCentreTest kplsCentreTest
  have lK := hK.1
  have lO := hO.1
  refine Sim.look hK ?_
  refine Sim.new (sim_create _) fun h1 I Iv f1 l1 g1 u1 a1 => ?_
  refine Sim.new (sim_create _) fun h2 a av f2 l2 g2 u2 a2 => ?_
  refine Sim.new (sim_create _) fun h3 b bv f3 l3 g3 u3 a3 => ?_
  refine Sim.new (sim_pure2 (f := Mat.mul) (M := av) (N := Kov) (by has) (by has)) fun h4 c cv f4 l4 g4 u4 a4 => ?_
  refine Sim.new (sim_pure2 (f := Mat.sub) (M := Kv) (by has) a4) fun h5 d dv f5 l5 g5 u5 a5 => ?_
  refine Sim.new (sim_pure2 (f := Mat.sub) (M := Iv) (N := bv) (by has) (by has)) fun h6 e ev f6 l6 g6 u6 a6 => ?_
  exact (sim_pure2 (f := Mat.mul) (M := dv) (by has) a6).post fun h7 b _ _ hn => ⟨by have := hn.1; omega, hn.2⟩

/-- `B_RHS`, `_KernelPLS.py` 147-149. -/
def hKplsRhs (c : KplsCfg α σ) (T Korig U Q : Nat) : H α Nat := do
  let tt ← mTranspose T
  let a ← mPure2 Mat.mul tt Korig
  let a ← mPure2 Mat.mul a U
  let i ← mPure1 c.inv a
  let qt ← mTranspose Q
  mPure2 Mat.mul i qt

omit [HasSqrt α] in
theorem hKplsRhs_sim (c : KplsCfg α σ) {h : Heap α} {T Ko U Q : Nat} {Tv Kov Uv Qv : Mat α} (hT : Has h T Tv) (hO : Has h Ko Kov)
    (hU : Has h U Uv) (hQ : Has h Q Qv) : Heap.Sim [] h (hKplsRhs c T Ko U Q) (kplsRhs c Tv Kov Uv Qv) (New h) := by
  unfold hKplsRhs kplsRhs
  have lU := hU.1
  have lO := hO.1
  have lQ := hQ.1
  refine Sim.tmp (sim_transpose hT) fun h1 tt f1 l1 g1 u1 a1 => ?_
  refine Sim.new (sim_pure2 (f := Mat.mul) (N := Kov) a1 (by has)) fun h2 a av f2 l2 g2 u2 a2 => ?_
  refine Sim.new (sim_pure2 (f := Mat.mul) (N := Uv) a2 (by has)) fun h3 b bv f3 l3 g3 u3 a3 => ?_
  refine Sim.new (sim_pure1 (f := c.inv) a3) fun h4 i iv f4 l4 g4 u4 a4 => ?_
  refine Sim.tmp (sim_transpose (M := Qv) (by has)) fun h5 qt f5 l5 g5 u5 a5 => ?_
  exact (sim_pure2 (f := Mat.mul) (M := iv) (by has) a5).post fun h6 b _ _ hn => ⟨by have := hn.1; omega, hn.2⟩

/-- Attributes set by training. -/
structure KplsAttrs (σ : Type) where
  kern : σ
  centerX : Nat
  centerY : Nat
  X : Nat
  Korig : Nat
  Kd : Nat
  T : Nat
  U : Nat
  P : Nat
  Q : Nat
  B : Nat

/-- `do_perform_initialization`, `_KernelPLS.py` 82-150; `k1` is `kernel.apply_matrix`.  The code makes the zero matrices before the kernel
matrix. -/
def hKplsTrain (c : KplsCfg α σ) (k1 : σ → Nat → H α (σ × Nat)) (kern : σ) (X Y : Nat) : H α (KplsAttrs σ) := do
  let cx ← hCenterFit X
  let cy ← hCenterFit Y
  let K ← k1 kern cx.2
  let D ← getContents cx.2
  let Ko ← hKplsCentreTrain D.rows K.2
  let Kd ← mCopy Ko
  let E ← getContents cy.2
  let q ← mCreate (Factory.zeros (E.cols : Int) 1)
  let t ← mCreate (Factory.zeros (D.rows : Int) 1)
  let w ← mCreate (Factory.zeros (D.rows : Int) 1)
  let T ← mCreate (Factory.zeros (D.rows : Int) c.K)
  let U ← mCreate (Factory.zeros (D.rows : Int) c.K)
  let P ← mCreate (Factory.zeros (D.rows : Int) c.K)
  let Q ← mCreate (Factory.zeros (E.cols : Int) c.K)
  let s ← mLoop (hKplsStep c) (pyRange 0 c.K) ⟨Kd, cy.2, T, U, P, Q, t, w, q⟩
  let B ← hKplsRhs c s.T Ko s.U s.Q
  pure ⟨K.1, cx.1, cy.1, cx.2, Ko, s.Kd, s.T, s.U, s.P, s.Q, B⟩

/-- The matrices of a trained object. -/
def kplsRepr : Repr α (KplsModel α σ) (KplsAttrs σ) where
  refs a := [a.centerX, a.centerY, a.X, a.Korig, a.Kd, a.T, a.U, a.P, a.Q, a.B]
  On m h a := a.kern = m.kern ∧ cenRepr.On m.centerX h a.centerX ∧ cenRepr.On m.centerY h a.centerY ∧ Has h a.X m.X ∧ Has h a.Korig m.Korig ∧
    Has h a.Kd m.vars.Kd ∧ Has h a.T m.vars.T ∧ Has h a.U m.vars.U ∧ Has h a.P m.vars.P ∧ Has h a.Q m.vars.Q ∧ Has h a.B m.B
  mono hf hr hm := by
    simp only [List.mem_cons, List.not_mem_nil, or_false, forall_eq_or_imp, forall_eq] at hr
    obtain ⟨r1, r2, r3, r4, r5, r6, r7, r8, r9, r10⟩ := hr
    obtain ⟨m0, m1, m2, m3, m4, m5, m6, m7, m8, m9, m10⟩ := hm
    exact ⟨m0, cenRepr.mono hf (fun r hr => by rw [List.mem_singleton.mp hr]; exact r1) m1,
      cenRepr.mono hf (fun r hr => by rw [List.mem_singleton.mp hr]; exact r2) m2, m3.mono hf r3, m4.mono hf r4, m5.mono hf r5, m6.mono hf r6,
      m7.mono hf r7, m8.mono hf r8, m9.mono hf r9, m10.mono hf r10⟩

theorem kplsTrain_steps (c : KplsCfg α σ) (kern : σ) (X Y : Mat α) : kplsTrain c kern X Y = (do
    let cx ← cenFit X
    let cy ← cenFit Y
    let K ← (do let r ← (c.kern1 kern cx.2).2; .ok ((c.kern1 kern cx.2).1, r) : Except PyErr (σ × Mat α))
    let Ko ← kplsCentreTrain cx.2.rows K.2
    let s ← kplsInit c Ko cy.2 cx.2.rows
    let s ← loopM (kplsStep c) (pyRange 0 c.K) s
    let B ← kplsRhs c s.T Ko s.U s.Q
    .ok ⟨K.1, cx.1, cy.1, cx.2, Ko, s, B⟩) := by
  unfold kplsTrain cenFit
  simp only [bind_assoc, except_bind_ok]

/-- Training refines the function model. -/
theorem hKplsTrain_sim (c : KplsCfg α σ) {k1 : σ → Nat → H α (σ × Nat)} (hk : Kern1Ok c.kern1 k1) (kern : σ) {h : Heap α} {X Y : Nat}
    {A B : Mat α} (hX : Has h X A) (hY : Has h Y B) :
    Heap.Sim [] h (hKplsTrain c k1 kern X Y) (kplsTrain c kern A B) (kplsRepr.Fresh h) := by
  rw [kplsTrain_steps]
  unfold hKplsTrain
  have lX := hX.1
  have lY := hY.1
  refine Sim.bind (hCenterFit_sim' hX) (fun _ h => h) ?_
  rintro h1 ⟨mx, x⟩ ⟨SX, XV⟩ f1 ⟨n1, n2, n3⟩
  dsimp only at n1 n2 n3 ⊢
  have l1 := f1.le
  refine Sim.bind (hCenterFit_sim' (M := B) (by has)) (fun _ h => h) ?_
  rintro h2 ⟨my, y⟩ ⟨SY, YV⟩ f2 ⟨n4, n5, n6⟩
  dsimp only at n4 n5 n6 ⊢
  have l2 := f2.le
  obtain ⟨mxv, rfl, hmx⟩ := cenRepr.mono f2 (fun _ _ => List.not_mem_nil) n2
  obtain ⟨myv, rfl, hmy⟩ := n5
  have ax : Has h2 x XV := n1.2.mono f2 List.not_mem_nil
  have ay : Has h2 y YV := n4.2
  have gx := n1.1
  have gy := n4.1
  have ux := ax.1
  have uy := ay.1
  have u1 := hmx.1
  have u2 := hmy.1
  refine Sim.bind (hk kern h2 x XV ax) (fun _ h => h) ?_
  rintro h3 ⟨s3, K⟩ ⟨S3, KV⟩ f3 ⟨es, n7⟩
  dsimp only at es n7 ⊢
  subst es
  have l3 := f3.le
  have aK := n7.2
  have gK := n7.1
  have uK := aK.1
  refine Sim.look (M := XV) (by has) ?_
  refine Sim.new (hKplsCentreTrain_sim XV.rows aK) fun h4 Ko Kov f4 l4 g4 u4 a4 => ?_
  refine Sim.tmp (sim_copy a4) fun h5 Kd f5 l5 g5 u5 a5 => ?_
  refine Sim.look (M := YV) (by has) ?_
  unfold kplsInit
  simp only [bind_assoc, except_bind_ok]
  refine Sim.new (sim_create _) fun h6 q qv f6 l6 g6 u6 a6 => ?_
  refine Sim.new' (sim_create _) fun h7 t tv f7 l7 g7 u7 a7 e7 => ?_
  refine Sim.left (c := tv) (R := New h7) (L1 := []) (by rw [e7]; exact sim_create _) (by simp) fun h8 w f8 n8 => ?_
  have l8 := f8.le
  have g8 := n8.1
  have a8 := n8.2
  have u8 := a8.1
  refine Sim.own (sim_create _) fun h9 T Tv f9 l9 g9 u9 a9 => ?_
  refine Sim.own (sim_create _) fun h10 U Uv f10 l10 g10 u10 a10 => ?_
  refine Sim.own (sim_create _) fun h11 P Pv f11 l11 g11 u11 a11 => ?_
  refine Sim.own (sim_create _) fun h12 Q Qv f12 l12 g12 u12 a12 => ?_
  refine Sim.bind (Sim.loop (h0 := h12) (KplsHolds h.nobj T U P Q) _ (fun k _ _ s v _ hi =>
      hKplsStep_sim c (by omega) (by omega) (by omega) (by omega) k s v hi) h12 ⟨Kd, y, T, U, P, Q, t, w, q⟩
      ⟨Kov, YV, Tv, Uv, Pv, Qv, tv, qv⟩ (.refl _ f12.wf) ⟨rfl, rfl, rfl, rfl, by has, by has, by has, by has, by has, by has, by has, by has,
        by has, by show h.nobj ≤ Kd; omega, by left; show Kd < T; omega, by left; show y < T; omega, by left; show t < T; omega,
        by left; show w < T; omega, by left; show q < T; omega⟩) (fun _ h => h) ?_
  rintro h13 ⟨Kd', Y', T', U', P', Q', t', w', q'⟩ v f13 ⟨rfl, rfl, rfl, rfl, hK, -, -, -, -, hT, hU, hP, hQ, bK, nK, -, -, -, -⟩
  dsimp only at *
  have l13 := f13.le
  have lK := hK.1
  refine Sim.new (hKplsRhs_sim c (Tv := v.T) (Kov := Kov) (Uv := v.U) (Qv := v.Q) (by has) (by has) (by has) (by has))
    fun h14 b bv f14 l14 g14 u14 a14 => ?_
  refine Sim.ret ⟨⟨rfl, ⟨mxv, rfl, by has⟩, ⟨myv, rfl, by has⟩, by has, by has, by has, by has, by has, by has, by has, a14⟩, ?_⟩
  show ∀ r ∈ [mx, my, x, Ko, Kd', T', U', P', Q', b], h.nobj ≤ r
  simp only [List.mem_cons, List.not_mem_nil, or_false, forall_eq_or_imp, forall_eq]
  omega

/-- `do_transform`, `_KernelPLS.py` 187-192. -/
def hKplsTransform (k2 : σ → Nat → Nat → H α (σ × Nat)) (a : KplsAttrs σ) (Z : Nat) : H α Nat := do
  let Z ← hCenterApply (· - ·) a.centerX Z
  let K ← k2 a.kern Z a.X
  let D ← getContents a.X
  let K ← hKplsCentreTest D.rows a.Korig K.2
  mPure2 Mat.mul K a.U

/-- `do_perform_predictions`, `_KernelPLS.py` 181-185. -/
def hKplsPredict (k2 : σ → Nat → Nat → H α (σ × Nat)) (a : KplsAttrs σ) (Z : Nat) : H α Nat := do
  let K ← hKplsTransform k2 a Z
  let Y ← mPure2 Mat.mul K a.B
  hCenterApply (· + ·) a.centerY Y

omit [HasSqrt α] in
theorem kplsTransform_steps (c : KplsCfg α σ) (m : KplsModel α σ) (Z : Mat α) : kplsTransform c m Z = (do
    let Z ← (transform center Z m.centerX).2
    let K ← (do let r ← (c.kern2 m.kern Z m.X).2; .ok ((c.kern2 m.kern Z m.X).1, r) : Except PyErr (σ × Mat α))
    let K ← kplsCentreTest m.X.rows m.Korig K.2
    K.mul m.vars.U) := by
  unfold kplsTransform
  simp only [bind_assoc, except_bind_ok]

omit [HasSqrt α] in
theorem hKplsTransform_sim (c : KplsCfg α σ) {k2 : σ → Nat → Nat → H α (σ × Nat)} (hk : Kern2Ok c.kern2 k2) {h : Heap α} {a : KplsAttrs σ}
    {m : KplsModel α σ} (hm : kplsRepr.On m h a) {Z : Nat} {M : Mat α} (hZ : Has h Z M) :
    Heap.Sim [] h (hKplsTransform k2 a Z) (kplsTransform c m M) (New h) := by
  obtain ⟨ek, hcx, hcy, hX, hO, -, -, hU, -, -, -⟩ := hm
  rw [kplsTransform_steps]
  unfold hKplsTransform
  rw [ek]
  have lX := hX.1
  have lO := hO.1
  have lU := hU.1
  refine Sim.new (hCenterApply_sim hcx hZ).1 fun h1 z Zv f1 l1 g1 u1 a1 => ?_
  refine Sim.bind (hk m.kern h1 z a.X Zv m.X a1 (by has)) (fun _ h => h) ?_
  rintro h2 ⟨s2, K⟩ ⟨S2, KV⟩ f2 ⟨-, g2, a2⟩
  dsimp only at g2 a2 ⊢
  have l2 := f2.le
  refine Sim.look (M := m.X) (by has) ?_
  refine Sim.new (hKplsCentreTest_sim m.X.rows (Kov := m.Korig) (by has) a2) fun h3 K3 Kv3 f3 l3 g3 u3 a3 => ?_
  exact (sim_pure2 (f := Mat.mul) (N := m.vars.U) a3 (by has)).post fun h6 b _ _ hn => ⟨by have := hn.1; omega, hn.2⟩

omit [HasSqrt α] in
theorem hKplsPredict_sim (c : KplsCfg α σ) {k2 : σ → Nat → Nat → H α (σ × Nat)} (hk : Kern2Ok c.kern2 k2) {h : Heap α} {a : KplsAttrs σ}
    {m : KplsModel α σ} (hm : kplsRepr.On m h a) {Z : Nat} {M : Mat α} (hZ : Has h Z M) :
    Heap.Sim [] h (hKplsPredict k2 a Z) (kplsPredict c m M) (New h) := by
  unfold hKplsPredict kplsPredict
  have hcy := hm.2.2.1
  have hB := hm.2.2.2.2.2.2.2.2.2.2
  have lB := hB.1
  refine Sim.new (hKplsTransform_sim c hk hm hZ) fun h1 K Kv f1 l1 g1 u1 a1 => ?_
  refine Sim.new (sim_pure2 (f := Mat.mul) (N := m.B) a1 (by has)) fun h2 Y Yv f2 l2 g2 u2 a2 => ?_
  have hcy' := cenRepr.mono f2 (fun _ _ => List.not_mem_nil) (cenRepr.mono f1 (fun _ _ => List.not_mem_nil) hcy)
  exact (hCenterApply_sim hcy' a2).2.post fun h6 b _ _ hn => ⟨by have := hn.1; omega, hn.2⟩

end kpls

end Verif
