import Verif.Transf.TransfHeap
import Verif.Alg.DiplsHeap
import Verif.Alg.CCA
import Verif.Alg.YGrad
import Verif.Alg.PCA

/-!
# GLSW, EPO, the Y-gradient filters, CCAFilter and PCA on matrix objects

`src/wai/ma/algorithm/glsw`, `_CCAFilter.py` and `_PCA.py` once more, on objects.  Decompositions (`eig`, `svd`) are cached in the matrix they
belong to, which is always a local matrix of the training; they are allocated here.
-/

namespace Verif
open Mat Heap Transf

variable {α : Type}

/-! ## GLSW and EPO -/

section glsw
variable [Field α] [DecidableEq α] [HasSqrt α]

/-- `get_covariance_matrix`, `_GLSW.py` 90-101. -/
def hGlswCov (x1 x2 : Nat) : H α Nat := do
  let c1 ← hCenterFit x1
  let c2 ← hCenterFit x2
  let d ← mPure2 Mat.sub c2.2 c1.2
  let t ← mTranspose d
  mPure2 Mat.mul t d

omit [DecidableEq α] [HasSqrt α] in
theorem hGlswCov_sim {h : Heap α} {x1 x2 : Nat} {A B : Mat α} (hA : Has h x1 A) (hB : Has h x2 B) :
    Heap.Sim [] h (hGlswCov x1 x2) (glswCov A B) (New h) := by
  unfold hGlswCov glswCov
  have lA := hA.1
  have lB := hB.1
  refine Sim.bind (hCenterFit_sim hA) (fun _ h => h) ?_
  rintro h1 ⟨m1, c1⟩ C1 f1 ⟨a1, -⟩
  refine Sim.bind (hCenterFit_sim (M := B) (by has)) (fun _ h => h) ?_
  rintro h2 ⟨m2, c2⟩ C2 f2 ⟨a2, -⟩
  dsimp only at a1 a2 ⊢
  have l1 := f1.le
  have l2 := f2.le
  have b1 := a1.2
  have b2 := a2.2
  have k1 := a1.1
  have k2 := a2.1
  refine Sim.new (sim_pure2 (f := Mat.sub) (M := C2) (N := C1) (by has) (by has)) fun h3 d D f3 l3 g3 u3 a3 => ?_
  refine Sim.tmp (sim_transpose a3) fun h4 t f4 l4 g4 u4 a4 => ?_
  exact (sim_pure2 (f := Mat.mul) (M := D.transpose) (N := D) (by has) (by has)).post fun h6 b _ _ hn => ⟨by have := hn.1; omega, hn.2⟩

/-- A program computing a new matrix from two matrices. -/
def Makes2 (f : Nat → Nat → H α Nat) (F : Mat α → Mat α → Except PyErr (Mat α)) : Prop :=
  ∀ h x y X Y, Has h x X → Has h y Y → Heap.Sim [] h (f x y) (F X Y) (New h)

/-- `do_initialize`, `_GLSW.py` 63-75; the eigenvectors and the weights are new matrices. -/
def hGlswDo (cfg : GlswCfg α) (cov : Nat → Nat → H α Nat) (vecs weights : Mat α → Except PyErr (Mat α)) (x1 x2 : Nat) : H α Nat := do
  let C ← cov x1 x2
  let V ← mPure1 vecs C
  let D ← mPure1 weights C
  let Di ← mPure1 (fun M => M.inverse cfg.lstsq) D
  let VD ← mPure2 Mat.mul V Di
  let t ← mTranspose V
  mPure2 Mat.mul VD t

omit [HasSqrt α] in
theorem hGlswDo_sim (cfg : GlswCfg α) {cov : Nat → Nat → H α Nat} {covF : Mat α → Mat α → Except PyErr (Mat α)} (hc : Makes2 cov covF)
    (vecs weights : Mat α → Except PyErr (Mat α)) {h : Heap α} {x1 x2 : Nat} {A B : Mat α} (hA : Has h x1 A) (hB : Has h x2 B) :
    Heap.Sim [] h (hGlswDo cfg cov vecs weights x1 x2) (glswDo cfg covF vecs weights A B) (New h) := by
  unfold hGlswDo glswDo
  refine Sim.new (hc _ _ _ _ _ hA hB) fun h1 c C f1 l1 g1 u1 a1 => ?_
  refine Sim.new (sim_pure1 (f := vecs) a1) fun h2 v V f2 l2 g2 u2 a2 => ?_
  refine Sim.new (sim_pure1 (f := weights) (M := C) (by has)) fun h3 d D f3 l3 g3 u3 a3 => ?_
  refine Sim.new (sim_pure1 (f := fun M => M.inverse cfg.lstsq) (M := D) (by has)) fun h4 di Di f4 l4 g4 u4 a4 => ?_
  refine Sim.new (sim_pure2 (f := Mat.mul) (M := V) (N := Di) (by has) (by has)) fun h5 vd VD f5 l5 g5 u5 a5 => ?_
  refine Sim.tmp (sim_transpose (M := V) (by has)) fun h6 t f6 l6 g6 u6 a6 => ?_
  exact (sim_pure2 (f := Mat.mul) (M := VD) (by has) a6).post fun h6 b _ _ hn => ⟨by have := hn.1; omega, hn.2⟩

/-- The outcome of `initialize`: a message, or the object `G`. -/
inductive GlswAttrs where
  | message (s : String)
  | ready (G : Nat)

/-- The matrix of an initialised filter. -/
def glswRepr : Repr α (GlswResult α) GlswAttrs where
  refs a := match a with
    | .message _ => []
    | .ready g => [g]
  On m h a := match m, a with
    | .message s, .message s' => s = s'
    | .ready G, .ready g => Has h g G
    | _, _ => False
  mono {L h h' m a} hf hr hm := by
    cases m <;> cases a
    · exact hm
    · exact hm
    · exact hm
    · exact Has.mono hf hm (hr _ (by simp))

/-- `initialize` with data, `_GLSW.py` 42-55: works on copies. -/
def hGlswInit (cfg : GlswCfg α) (check : Mat α → Mat α → Option String) (cov : Nat → Nat → H α Nat)
    (vecs weights : Mat α → Except PyErr (Mat α)) (x1 x2 : Nat) : H α GlswAttrs := do
  let x1 ← mCopy x1
  let x2 ← mCopy x2
  let A ← getContents x1
  let B ← getContents x2
  match check A B with
  | some s => pure (.message s)
  | none => do
    let g ← hGlswDo cfg cov vecs weights x1 x2
    pure (.ready g)

omit [HasSqrt α] in
theorem hGlswInit_sim (cfg : GlswCfg α) (check : Mat α → Mat α → Option String) {cov : Nat → Nat → H α Nat}
    {covF : Mat α → Mat α → Except PyErr (Mat α)} (hc : Makes2 cov covF) (vecs weights : Mat α → Except PyErr (Mat α)) {h : Heap α}
    {x1 x2 : Nat} {A B : Mat α} (hA : Has h x1 A) (hB : Has h x2 B) :
    Heap.Sim [] h (hGlswInit cfg check cov vecs weights x1 x2) (glswInit cfg check covF vecs weights A B) (glswRepr.Fresh h) := by
  unfold hGlswInit glswInit
  have lA := hA.1
  have lB := hB.1
  refine Sim.tmp (sim_copy hA) fun h1 a f1 l1 g1 u1 a1 => ?_
  refine Sim.tmp (sim_copy (M := B) (by has)) fun h2 b f2 l2 g2 u2 a2 => ?_
  refine Sim.look (M := A) (by has) (Sim.look (M := B) (by has) ?_)
  cases check A B with
  | some s => exact Sim.ret ⟨rfl, fun r hr => absurd hr List.not_mem_nil⟩
  | none =>
    have e : (glswDo cfg covF vecs weights A B).map GlswResult.ready = (glswDo cfg covF vecs weights A B >>= fun G => .ok (.ready G)) := by
      cases glswDo cfg covF vecs weights A B <;> rfl
    dsimp only
    rw [e]
    refine Sim.new (hGlswDo_sim cfg hc vecs weights (A := A) (B := B) (by has) (by has)) fun h3 g G f3 l3 g3 u3 a3 => ?_
    refine Sim.ret ⟨a3, fun r hr => ?_⟩
    have : r = g := List.mem_singleton.mp hr
    omega

/-- `transform`, `_GLSW.py` 103-110. -/
def hGlswUse (a : GlswAttrs) (Z : Nat) : H α Nat :=
  match a with
  | .message _ => H.lift (.error .runtimeError)
  | .ready g => mPure2 Mat.mul Z g

/-- Its value. -/
def glswUse (m : GlswResult α) (Z : Mat α) : Except PyErr (Mat α) :=
  match m with
  | .message _ => glswTransform none Z
  | .ready G => glswTransform (some G) Z

omit [DecidableEq α] [HasSqrt α] in
theorem hGlswUse_sim {h : Heap α} {a : GlswAttrs} {m : GlswResult α} (hm : glswRepr.On m h a) {Z : Nat} {C : Mat α} (hZ : Has h Z C) :
    Heap.Sim [] h (hGlswUse a Z) (glswUse m C) (New h) := by
  cases m <;> cases a
  · exact fun hw => ⟨.refl _ hw, .error _⟩
  · exact absurd hm (fun h => h)
  · exact absurd hm (fun h => h)
  · exact sim_pure2 (f := Mat.mul) hZ hm

end glsw

/-! ## The Y-gradient filters -/

section ygrad
variable [Field α] [HasSqrt α]

/-- One pass of `smooth_row`, `_YGradientGLSW.py` 137-142. -/
def hYgPass (i : Int) (M : Nat) (m : Int) (res : Nat) : H α Nat := do
  let c ← H.lift (pyIndex 5 (4 - m))
  let row ← mPure1 (fun M => M.getRow (i - (m - 2))) M
  let sc ← mPure1 (fun M => .ok (M.smul (ygCoef c))) row
  mPure2 Mat.add res sc

/-- `smooth_row`, `_YGradientGLSW.py` 125-144. -/
def hYgSmoothRow (i : Int) (M : Nat) : H α Nat := do
  let E ← getContents M
  let res ← mCreate (Factory.zeros 1 (E.cols : Int))
  mLoop (hYgPass i M) (pyRange 0 (5 : Nat)) res

omit [HasSqrt α] in
theorem hYgSmoothRow_sim (i : Int) {h : Heap α} {M : Nat} {E : Mat α} (hM : Has h M E) :
    Heap.Sim [] h (hYgSmoothRow i M) (ygSmoothRow i E) fun h' b c => Has h' b c := by
  unfold hYgSmoothRow ygSmoothRow
  have lM := hM.1
  refine Sim.look hM ?_
  refine Sim.new (sim_create _) fun h1 r R f1 l1 g1 u1 a1 => ?_
  have hM1 : Has h1 M E := by has
  refine Sim.loop (h0 := h1) (fun h' b c => Has h' b c) _ (fun m _ h2 s v f2 hi => ?_) h1 r R (.refl _ f1.wf) a1
  have hM2 : Has h2 M E := hM1.mono f2 List.not_mem_nil
  have l2 := hM2.1
  have l3 := hi.1
  unfold hYgPass ygPass
  refine Sim.val fun c => ?_
  clear f2
  refine Sim.new (sim_pure1 (f := fun M => M.getRow (i - (m - 2))) hM2) fun h3 x X f3 l3 g3 u3 a3 => ?_
  refine Sim.tmp (sim_pure1 (f := fun M => .ok (M.smul (ygCoef c))) a3) fun h4 y f4 l4 g4 u4 a4 => ?_
  exact (sim_pure2 (f := Mat.add) (M := v) (by has) a4).post fun _ _ _ _ hn => hn.2

/-- One pass of the row loop. -/
def hYgRow (ext res : Nat) (i : Int) (_ : Unit) : H α Unit := do
  let row ← hYgSmoothRow i ext
  mSetRow res i row

/-- `do_transform`, `_YGradientGLSW.py` 83-104. -/
def hYgFilter (Z : Nat) : H α Nat := do
  let ext ← hExtend Z
  let E ← getContents ext
  let res ← mCreate (Factory.zerosLike E)
  mLoop (hYgRow ext res) (pyRange 2 ((E.rows : Int) - 2)) ()
  let R ← getContents res
  mPure1 (fun M => M.getSubMatrix (.tuple 2 ((R.rows : Int) - 2)) (.tuple 0 (R.cols : Int))) res

omit [HasSqrt α] in
theorem hYgFilter_sim {h : Heap α} {Z : Nat} {D : Mat α} (hZ : Has h Z D) : Heap.Sim [] h (hYgFilter Z) (ygFilter D) (New h) := by
  unfold hYgFilter ygFilter
  have lZ := hZ.1
  refine Sim.new (show Heap.Sim [] h (hExtend Z) (ygExtend D) (New h) from hExtend_sim hZ) fun h1 ext E f1 l1 g1 u1 a1 => ?_
  refine Sim.look a1 ?_
  refine Sim.own (sim_create _) fun h2 res R f2 l2 g2 u2 a2 => ?_
  have a1' : Has h2 ext E := by has
  refine Sim.bind (L1 := [res]) (Sim.loop (h0 := h2) (fun h' _ c => Has h' res c) _ (fun i _ h3 s v f3 hi => ?_) h2 () R (.refl _ f2.wf) a2)
    (by simp) fun h3 _ R' f3 a3 => ?_
  · have a1'' : Has h3 ext E := a1'.mono f3 (by simp; omega)
    unfold hYgRow
    refine Sim.bind (hYgSmoothRow_sim i a1'') (by simp) fun h4 r V f4 a4 => ?_
    exact sim_setRow (hi.mono f4 List.not_mem_nil) a4 i
  · have l3 := f3.le
    refine Sim.look a3 ?_
    exact weakSim ((sim_pure1 (f := fun M => M.getSubMatrix (.tuple 2 ((R'.rows : Int) - 2)) (.tuple 0 (R'.cols : Int))) a3).post
      fun h4 b c _ hn => ⟨by have := hn.1; omega, hn.2⟩)

/-- One weight, `_YGradientGLSW.py` 48-50. -/
def hYgWeight (pow2 : α → α) (spread : α) (ym W : Nat) (i : Int) (_ : Unit) : H α Unit := do
  let yd ← mScalar1 (fun M => M.get i 0) ym
  mSet W i i (pow2 (-1 * yd / spread))

/-- `get_covariance_matrix`, `_YGradientGLSW.py` 27-53. -/
def hYgCov (le : α → α → Bool) (pow2 : α → α) (X y : Nat) : H α Nat := do
  let A ← getContents X
  let b ← getContents y
  let Xs ← mPure1 (fun M => M.getSubMatrix (.list (ygOrder le b.toRawCopy1D)) (.list (pyRange 0 (A.cols : Int)))) X
  let ys ← mPure1 (fun M => M.getSubMatrix (.list (ygOrder le b.toRawCopy1D)) (.list [0])) y
  let Xm ← hYgFilter Xs
  let ym ← hYgFilter ys
  let spread ← mScalar1 (fun M => .ok (ygSpread M)) ym
  let W ← mCreate (Factory.zeros (b.rows : Int) (b.rows : Int))
  let ymv ← getContents ym
  mLoop (hYgWeight pow2 spread ym W) (pyRange 0 (ymv.rows : Int)) ()
  let WW ← mPure2 Mat.mul W W
  let t ← mTranspose Xm
  let B ← mPure2 Mat.mul t WW
  mPure2 Mat.mul B Xm

theorem hYgCov_sim (le : α → α → Bool) (pow2 : α → α) : Makes2 (hYgCov le pow2) (yGradCov le pow2) := by
  intro h x y A B hA hB
  have e : yGradCov le pow2 A B = (do
      let Xs ← A.getSubMatrix (.list (ygOrder le B.toRawCopy1D)) (.list (pyRange 0 (A.cols : Int)))
      let ys ← B.getSubMatrix (.list (ygOrder le B.toRawCopy1D)) (.list [0])
      let Xm ← ygFilter Xs
      let ym ← ygFilter ys
      let W ← Factory.zeros (B.rows : Int) (B.rows : Int)
      let W ← loopM (fun i (W : Mat α) => do
        let yd ← ym.get i 0
        W.set i i (pow2 (-1 * yd / ygSpread ym))) (pyRange 0 (ym.rows : Int)) W
      let WW ← W.mul W
      let A ← Xm.transpose.mul WW
      A.mul Xm) := rfl
  rw [e]
  unfold hYgCov
  have lA := hA.1
  have lB := hB.1
  refine Sim.look hA (Sim.look hB ?_)
  refine Sim.new (sim_pure1 (f := fun M => M.getSubMatrix (.list (ygOrder le B.toRawCopy1D)) (.list (pyRange 0 (A.cols : Int)))) hA)
    fun h1 x1 X1 f1 l1 g1 u1 a1 => ?_
  refine Sim.new (sim_pure1 (f := fun M => M.getSubMatrix (.list (ygOrder le B.toRawCopy1D)) (.list [0])) (M := B) (by has))
    fun h2 x2 X2 f2 l2 g2 u2 a2 => ?_
  refine Sim.new (hYgFilter_sim (D := X1) (by has)) fun h3 x3 X3 f3 l3 g3 u3 a3 => ?_
  refine Sim.new (hYgFilter_sim (D := X2) (by has)) fun h4 x4 X4 f4 l4 g4 u4 a4 => ?_
  refine Sim.numT (f := fun M => ygSpread M) a4 ?_
  refine Sim.own (sim_create _) fun h5 w W f5 l5 g5 u5 a5 => ?_
  have a3' : Has h5 x3 X3 := by has
  have a4' : Has h5 x4 X4 := by has
  refine Sim.look a4' ?_
  refine Sim.bind (L1 := [w]) (Sim.loop (h0 := h5) (fun h' _ c => Has h' w c) _ (fun i _ h6 s v f6 hi => ?_) h5 () W (.refl _ f5.wf) a5)
    (by simp) fun h6 _ W' f6 a6 => ?_
  · have a4'' : Has h6 x4 X4 := a4'.mono f6 (by simp; omega)
    unfold hYgWeight
    refine Sim.num1 a4'' fun yd => ?_
    exact sim_set hi i i _
  · have l6 := f6.le
    have b3 : Has h6 x3 X3 := a3'.mono f6 (by simp; omega)
    refine weakSim ?_
    clear f6 f5 f4 f3 f2 f1
    have k3 := b3.1
    refine Sim.new (sim_pure2 (f := Mat.mul) (M := W') (N := W') a6 a6) fun h7 x7 X7 f7 l7 g7 u7 a7 => ?_
    refine Sim.tmp (sim_transpose (M := X3) (by has)) fun h8 x8 f8 l8 g8 u8 a8 => ?_
    refine Sim.new (sim_pure2 (f := Mat.mul) (M := X3.transpose) (N := X7) (by has) (by has)) fun h9 x9 X9 f9 l9 g9 u9 a9 => ?_
    exact (sim_pure2 (f := Mat.mul) (M := X9) (N := X3) (by has) (by has)).post fun _ b _ _ hn => ⟨by have := hn.1; omega, hn.2⟩

end ygrad

/-! ## CCAFilter -/

section cca
variable [Field α] [DecidableEq α] [HasSqrt α]

/-- The matrices of a trained filter. -/
structure CcaAttrs where
  mX : Nat
  mY : Nat
  pX : Nat
  pY : Nat

/-- The outcome of `initialize`. -/
inductive CcaRes where
  | message (s : String)
  | ready (a : CcaAttrs)

/-- The objects of a filter after `initialize` of a new object. -/
def ccaRepr : Repr α (CcaObj α × Option String) CcaRes where
  refs r := match r with
    | .message _ => []
    | .ready a => [a.mX, a.mY, a.pX, a.pY]
  On m h r := match r with
    | .message s => m.2 = some s ∧ m.1.initialised = false
    | .ready a => m.2 = none ∧ m.1.initialised = true ∧ (∃ s, m.1.cX = some s ∧ cenRepr.On s h a.mX) ∧
        (∃ s, m.1.cY = some s ∧ cenRepr.On s h a.mY) ∧ (∃ P, m.1.projX = some P ∧ Has h a.pX P) ∧ ∃ P, m.1.projY = some P ∧ Has h a.pY P
  mono {L h h' m a} hf hr hm := by
    cases a with
    | message s => exact hm
    | ready a =>
      obtain ⟨m1, m2, ⟨s3, e3, m3⟩, ⟨s4, e4, m4⟩, ⟨P5, e5, m5⟩, P6, e6, m6⟩ := hm
      have k : ∀ r ∈ [a.mX, a.mY, a.pX, a.pY], r ∉ L := hr
      refine ⟨m1, m2, ⟨s3, e3, cenRepr.mono hf (fun r h => ?_) m3⟩, ⟨s4, e4, cenRepr.mono hf (fun r h => ?_) m4⟩,
        ⟨P5, e5, m5.mono hf (k _ (by simp))⟩, P6, e6, m6.mono hf (k _ (by simp))⟩
      all_goals
        rw [List.mem_singleton.mp h]
        exact k _ (by simp)

/-- `do_initialize` after centring, `_CCAFilter.py` 93-119. -/
def hCcaProj (cfg : CcaCfg α) (X Y : Nat) : H α (Nat × Nat) := do
  let A ← getContents X
  let B ← getContents Y
  let IX ← mCreate (Factory.eye (A.cols : Int))
  let IY ← mCreate (Factory.eye (B.cols : Int))
  let tX ← mTranspose X
  let XX ← mPure2 Mat.mul tX X
  let lX ← mPure1 (fun M => .ok (M.smul cfg.lamX)) IX
  let Cxx ← mPure2 Mat.add XX lX
  let tY ← mTranspose Y
  let YY ← mPure2 Mat.mul tY Y
  let lY ← mPure1 (fun M => .ok (M.smul cfg.lamY)) IY
  let Cyy ← mPure2 Mat.add YY lY
  let Cxy ← mPure2 Mat.mul tX Y
  let P ← mPure1 (powMinusHalf cfg) Cxx
  let Q ← mPure1 (powMinusHalf cfg) Cyy
  let t ← mPure2 Mat.mul P Cxy
  let omega ← mPure2 Mat.mul t Q
  let U ← mPure1 (fun M => do let d ← cfg.svd M; (svdU d.1).normalized 0) omega
  let V ← mPure1 (fun M => do let d ← cfg.svd M; (svdV d.2.2).normalized 0) omega
  let C ← mPure1 (fun M => M.getSubMatrix (.tuple 0 M.rows) (.tuple 0 cfg.kcca)) U
  let D ← mPure1 (fun M => M.getSubMatrix (.tuple 0 M.rows) (.tuple 0 cfg.kcca)) V
  let pX ← mPure2 Mat.mul P C
  let pY ← mPure2 Mat.mul Q D
  pure (pX, pY)

theorem hCcaProj_sim (cfg : CcaCfg α) {h : Heap α} {X Y : Nat} {A B : Mat α} (hA : Has h X A) (hB : Has h Y B) :
    Heap.Sim [] h (hCcaProj cfg X Y) (ccaProj cfg A B) fun h' b c => New h h' b.1 c.1 ∧ New h h' b.2 c.2 := by
  have key : ∀ (om : Mat α) (k : Mat α → Mat α → Except PyErr (Mat α × Mat α)),
      (cfg.svd om >>= fun d => (svdU d.1).normalized 0 >>= fun U => (svdV d.2.2).normalized 0 >>= fun V => k U V) =
      ((cfg.svd om >>= fun d => (svdU d.1).normalized 0) >>= fun U => (cfg.svd om >>= fun d => (svdV d.2.2).normalized 0) >>= fun V => k U V) := by
    intro om k
    cases cfg.svd om <;> rfl
  unfold hCcaProj ccaProj
  simp only [key]
  have lA := hA.1
  have lB := hB.1
  refine Sim.look hA (Sim.look hB ?_)
  refine Sim.new (sim_create _) fun h1 x1 X1 f1 l1 g1 u1 a1 => ?_
  refine Sim.new (sim_create _) fun h2 x2 X2 f2 l2 g2 u2 a2 => ?_
  refine Sim.tmp (sim_transpose (M := A) (by has)) fun h3 x3 f3 l3 g3 u3 a3 => ?_
  refine Sim.new (sim_pure2 (f := Mat.mul) (M := A.transpose) (N := A) (by has) (by has)) fun h4 x4 X4 f4 l4 g4 u4 a4 => ?_
  refine Sim.tmp (sim_pure1 (f := fun M => .ok (M.smul cfg.lamX)) (M := X1) (by has)) fun h5 x5 f5 l5 g5 u5 a5 => ?_
  refine Sim.new (sim_pure2 (f := Mat.add) (M := X4) (by has) a5) fun h6 x6 X6 f6 l6 g6 u6 a6 => ?_
  refine Sim.tmp (sim_transpose (M := B) (by has)) fun h7 x7 f7 l7 g7 u7 a7 => ?_
  refine Sim.new (sim_pure2 (f := Mat.mul) (M := B.transpose) (N := B) (by has) (by has)) fun h8 x8 X8 f8 l8 g8 u8 a8 => ?_
  refine Sim.tmp (sim_pure1 (f := fun M => .ok (M.smul cfg.lamY)) (M := X2) (by has)) fun h9 x9 f9 l9 g9 u9 a9 => ?_
  refine Sim.new (sim_pure2 (f := Mat.add) (M := X8) (by has) a9) fun h10 x10 X10 f10 l10 g10 u10 a10 => ?_
  refine Sim.new (sim_pure2 (f := Mat.mul) (M := A.transpose) (N := B) (by has) (by has)) fun h11 x11 X11 f11 l11 g11 u11 a11 => ?_
  refine Sim.new (sim_pure1 (f := powMinusHalf cfg) (M := X6) (by has)) fun h12 x12 X12 f12 l12 g12 u12 a12 => ?_
  refine Sim.new (sim_pure1 (f := powMinusHalf cfg) (M := X10) (by has)) fun h13 x13 X13 f13 l13 g13 u13 a13 => ?_
  refine Sim.new (sim_pure2 (f := Mat.mul) (M := X12) (N := X11) (by has) (by has)) fun h14 x14 X14 f14 l14 g14 u14 a14 => ?_
  refine Sim.new (sim_pure2 (f := Mat.mul) (M := X14) (N := X13) (by has) (by has)) fun h15 x15 X15 f15 l15 g15 u15 a15 => ?_
  refine Sim.new (sim_pure1 (f := fun M => do let d ← cfg.svd M; (svdU d.1).normalized 0) (M := X15) (by has))
    fun h16 x16 X16 f16 l16 g16 u16 a16 => ?_
  refine Sim.new (sim_pure1 (f := fun M => do let d ← cfg.svd M; (svdV d.2.2).normalized 0) (M := X15) (by has))
    fun h17 x17 X17 f17 l17 g17 u17 a17 => ?_
  refine Sim.new (sim_pure1 (f := fun M => M.getSubMatrix (.tuple 0 M.rows) (.tuple 0 cfg.kcca)) (M := X16) (by has))
    fun h18 x18 X18 f18 l18 g18 u18 a18 => ?_
  refine Sim.new (sim_pure1 (f := fun M => M.getSubMatrix (.tuple 0 M.rows) (.tuple 0 cfg.kcca)) (M := X17) (by has))
    fun h19 x19 X19 f19 l19 g19 u19 a19 => ?_
  refine Sim.new (sim_pure2 (f := Mat.mul) (M := X12) (N := X18) (by has) (by has)) fun h20 x20 X20 f20 l20 g20 u20 a20 => ?_
  refine Sim.new (sim_pure2 (f := Mat.mul) (M := X13) (N := X19) (by has) (by has)) fun h21 x21 X21 f21 l21 g21 u21 a21 => ?_
  exact Sim.ret ⟨⟨by show h.nobj ≤ x20; omega, by has⟩, ⟨by show h.nobj ≤ x21; omega, a21⟩⟩

/-- `initialize` of a new object with data, `_CCAFilter.py` 66-121: works on copies. -/
def hCcaInit (cfg : CcaCfg α) (X Y : Nat) : H α CcaRes := do
  let X ← mCopy X
  let Y ← mCopy Y
  let A ← getContents X
  let B ← getContents Y
  if cfg.kcca > min (A.cols : Int) (B.cols : Int) then
    pure (.message "Projection dimension must be <= min(X.num_columns(), Y.num_columns()).")
  else do
    let x ← hCenterFit X
    let y ← hCenterFit Y
    let P ← hCcaProj cfg x.2 y.2
    pure (.ready ⟨x.1, y.1, P.1, P.2⟩)

theorem hCcaInit_sim (cfg : CcaCfg α) {h : Heap α} {X Y : Nat} {A B : Mat α} (hA : Has h X A) (hB : Has h Y B) :
    Heap.Sim [] h (hCcaInit cfg X Y) (ccaInit cfg ccaFresh A B) (ccaRepr.Fresh h) := by
  unfold hCcaInit ccaInit
  have lA := hA.1
  have lB := hB.1
  refine Sim.tmp (sim_copy hA) fun h1 x f1 l1 g1 u1 a1 => ?_
  refine Sim.tmp (sim_copy (M := B) (by has)) fun h2 y f2 l2 g2 u2 a2 => ?_
  refine Sim.look (M := A) (by has) (Sim.look (M := B) (by has) ?_)
  by_cases hk : cfg.kcca > min (A.cols : Int) (B.cols : Int)
  · rw [if_pos hk, if_pos hk]
    exact Sim.ret ⟨⟨rfl, rfl⟩, fun r hr => absurd hr List.not_mem_nil⟩
  · rw [if_neg hk, if_neg hk]
    have e : ∀ M : Mat α, optCentre (some center.init) M = cenFit M := fun _ => rfl
    show Heap.Sim [] h2 _ (do
      let x ← cenFit A
      let y ← cenFit B
      let P ← ccaProj cfg x.2 y.2
      .ok (CcaObj.mk (some x.1) (some y.1) (some P.1) (some P.2) true, (none : Option String))) _
    refine Sim.bind (hCenterFit_sim' (M := A) (by has)) (fun _ h => h) ?_
    rintro h4 ⟨mx, cx⟩ ⟨sx, xv⟩ f4 ⟨b1, b2, b3⟩
    dsimp only at b1 b2 b3 ⊢
    have l4 := f4.le
    refine Sim.bind (hCenterFit_sim' (M := B) (by has)) (fun _ h => h) ?_
    rintro h5 ⟨my, cy⟩ ⟨sy, yv⟩ f5 ⟨c1, c2, c3⟩
    dsimp only at c1 c2 c3 ⊢
    have l5 := f5.le
    have d1 := b1.2
    have d2 := c1.2
    refine Sim.bind (hCcaProj_sim cfg (A := xv) (B := yv) (by has) (by has)) (fun _ h => h) ?_
    rintro h6 ⟨px, py⟩ ⟨Px, Py⟩ f6 ⟨e1, e2⟩
    dsimp only at e1 e2 ⊢
    have F : Frame [] h4 h6 := nil_trans f5 f6
    refine Sim.ret ⟨⟨rfl, rfl, ⟨_, rfl, cenRepr.mono F (fun _ _ => List.not_mem_nil) b2⟩,
      ⟨_, rfl, cenRepr.mono f6 (fun _ _ => List.not_mem_nil) c2⟩, ⟨_, rfl, e1.2⟩, _, rfl, e2.2⟩, fun r hr => ?_⟩
    have hr' : r ∈ [mx, my, px, py] := hr
    have := e1.1
    have := e2.1
    simp only [List.mem_cons, List.not_mem_nil, or_false] at hr'
    omega

/-- `transform`, `_CCAFilter.py` 152-161 and 168-172. -/
def hCcaTransform (r : CcaRes) (Z : Nat) : H α Nat :=
  match r with
  | .message _ => H.lift (.error .runtimeError)
  | .ready a => do
    let z ← hCenterApply (· - ·) a.mX Z
    mPure2 Mat.mul z a.pX

/-- `transform_response`, `_CCAFilter.py` 163-166 and 174-178. -/
def hCcaTransformResponse (r : CcaRes) (Z : Nat) : H α Nat :=
  match r with
  | .message _ => H.lift (.error .runtimeError)
  | .ready a => do
    let z ← hCenterApply (· - ·) a.mY Z
    mPure2 Mat.mul z a.pY

omit [DecidableEq α] [HasSqrt α] in
theorem hCcaTransform_sim {h : Heap α} {r : CcaRes} {m : CcaObj α × Option String} (hm : ccaRepr.On m h r) {Z : Nat} {C : Mat α}
    (hZ : Has h Z C) : Heap.Sim [] h (hCcaTransform r Z) (ccaTransform m.1 C) (New h) ∧
      Heap.Sim [] h (hCcaTransformResponse r Z) (ccaTransformResponse m.1 C) (New h) := by
  cases r with
  | message s =>
    obtain ⟨-, hi⟩ := hm
    unfold ccaTransform ccaTransformResponse
    rw [hi]
    exact ⟨fun hw => ⟨.refl _ hw, .error _⟩, fun hw => ⟨.refl _ hw, .error _⟩⟩
  | ready a =>
    obtain ⟨-, hi, ⟨s1, e1, c1⟩, ⟨s2, e2, c2⟩, ⟨P1, p1, q1⟩, P2, p2, q2⟩ := hm
    unfold ccaTransform ccaTransformResponse hCcaTransform hCcaTransformResponse
    rw [hi, e1, e2, p1, p2, optCentre_configured c1, optCentre_configured c2, if_pos rfl, if_pos rfl, bind_assoc, bind_assoc]
    constructor
    · refine Sim.new (hCenterApply_sim c1 hZ).1 fun h1 z zv f1 l1 g1 u1 a1 => ?_
      exact (sim_pure2 (f := Mat.mul) a1 (q1.mono f1 List.not_mem_nil)).post fun _ b _ _ hn => ⟨by have := hn.1; omega, hn.2⟩
    · refine Sim.new (hCenterApply_sim c2 hZ).1 fun h1 z zv f1 l1 g1 u1 a1 => ?_
      exact (sim_pure2 (f := Mat.mul) a1 (q2.mono f1 List.not_mem_nil)).post fun _ b _ _ hn => ⟨by have := hn.1; omega, hn.2⟩

end cca

/-! ## PCA -/

section pca
variable [Field α] [HasSqrt α] [LT α] [DecidableLT α]

/-- The objects of the fitted transformation. -/
inductive PcaTrAttrs where
  | center (m : Nat)
  | standardize (a : StdAttrs)

/-- The transformation of a fitted PCA. -/
def pcaTrRepr : Repr α (PcaTr α) PcaTrAttrs where
  refs a := match a with
    | .center m => cenRepr.refs (α := α) m
    | .standardize a => stdRepr.refs (α := α) a
  On m h a := match m, a with
    | .center s, .center r => cenRepr.On s h r
    | .standardize s, .standardize r => stdRepr.On s h r
    | _, _ => False
  mono {L h h' m a} hf hr hm := by
    cases m <;> cases a
    · exact cenRepr.mono hf hr hm
    · exact hm
    · exact hm
    · exact stdRepr.mono hf hr hm

/-- Attributes after `configure`; `train` is `None` again. -/
structure PcaAttrs (α : Type) where
  keep : List Nat
  tr : PcaTrAttrs
  numCols : Nat
  corr : Nat
  vecs : Nat
  vals : Nat
  sorted : List Nat
  total : α

/-- The objects of a fitted PCA. -/
def pcaRepr : Repr α (PcaState α) (PcaAttrs α) where
  refs a := [a.corr, a.vecs, a.vals] ++ (pcaTrRepr (α := α)).refs a.tr
  On m h a := a.keep = m.keep ∧ pcaTrRepr.On m.tr h a.tr ∧ a.numCols = m.numCols ∧ Has h a.corr m.corr ∧ Has h a.vecs m.vecs ∧
    Has h a.vals m.vals ∧ a.sorted = m.sorted ∧ a.total = m.total
  mono {L h h' m a} hf hr hm := by
    obtain ⟨m1, m2, m3, m4, m5, m6, m7, m8⟩ := hm
    exact ⟨m1, pcaTrRepr.mono hf (fun r h => hr r (List.mem_append_right _ h)) m2, m3, m4.mono hf (hr _ (by simp)),
      m5.mono hf (hr _ (by simp)), m6.mono hf (hr _ (by simp)), m7, m8⟩

/-- `remove_columns`, `_PCA.py` 91-104: returns its argument if all columns are kept. -/
def hRemoveColumns (keep : List Nat) (X : Nat) : H α Nat := do
  let M ← getContents X
  if keep.length ≠ M.cols then
    mPure1 (fun M => M.getSubMatrix (.list (pyRange 0 M.rows)) (.list (keep.map fun k : Nat => (k : Int)))) X
  else pure X

omit [Field α] [HasSqrt α] [LT α] [DecidableLT α] in
theorem hRemoveColumns_sim (keep : List Nat) {h : Heap α} {X : Nat} {M : Mat α} (hX : Has h X M) :
    Heap.Sim [] h (hRemoveColumns keep X) (removeColumns keep M) fun h' b c => Has h' b c := by
  unfold hRemoveColumns removeColumns
  refine Sim.look hX ?_
  by_cases hk : keep.length ≠ M.cols
  · rw [if_pos hk, if_pos hk]
    exact (sim_pure1 (f := fun M => M.getSubMatrix (.list (pyRange 0 M.rows)) (.list (keep.map fun k : Nat => (k : Int)))) hX).post
      fun _ _ _ _ hn => hn.2
  · rw [if_neg hk, if_neg hk]
    exact Sim.ret hX

/-- Creating and fitting the transformation, `_PCA.py` 128-132. -/
def hPcaPrep (cfg : PcaCfg α) (X : Nat) : H α (PcaTrAttrs × Nat) :=
  if cfg.centered then do
    let r ← hCenterFit X
    pure (.center r.1, r.2)
  else do
    let r ← hStdFit cfg.isZero X
    pure (.standardize r.1, r.2)

omit [LT α] [DecidableLT α] in
theorem hPcaPrep_sim (cfg : PcaCfg α) {h : Heap α} {X : Nat} {M : Mat α} (hX : Has h X M) :
    Heap.Sim [] h (hPcaPrep cfg X) (pcaPrep cfg M) fun h' b c => New h h' b.2 c.2 ∧ pcaTrRepr.Fresh h h' b.1 c.1 := by
  unfold hPcaPrep pcaPrep
  cases hc : cfg.centered with
  | true =>
    simp only [if_true]
    have e : (transform center M center.init).2.map (fun T => (PcaTr.center (transform center M center.init).1, T)) =
        (cenFit M >>= fun z => .ok (.center z.1, z.2)) := by
      unfold cenFit
      rw [bind_assoc]
      cases (transform center M center.init).2 <;> rfl
    rw [e]
    refine Sim.bind (hCenterFit_sim' hX) (fun _ h => h) ?_
    rintro h1 ⟨m, r⟩ ⟨s, R⟩ f1 ⟨a1, a2, a3⟩
    refine Sim.ret ⟨a1, a2, fun q hq => ?_⟩
    have : q = m := List.mem_singleton.mp hq
    exact this ▸ a3
  | false =>
    simp only [Bool.false_eq_true, if_false]
    have e : (transform (standardize cfg.isZero) M (standardize cfg.isZero).init).2.map (fun T =>
        (PcaTr.standardize (transform (standardize cfg.isZero) M (standardize cfg.isZero).init).1, T)) =
        (stdFit cfg.isZero M >>= fun z => .ok (.standardize z.1, z.2)) := by
      unfold stdFit
      rw [bind_assoc]
      cases (transform (standardize cfg.isZero) M (standardize cfg.isZero).init).2 <;> rfl
    rw [e]
    refine Sim.bind (hStdFit_sim hX cfg.isZero) (fun _ h => h) ?_
    rintro h1 ⟨m, r⟩ ⟨s, R⟩ f1 ⟨a1, a2⟩
    exact Sim.ret ⟨a1, a2.1, a2.2⟩

/-- `self.transformation.transform(data)`, `_PCA.py` 168. -/
def hPcaApply (tr : PcaTrAttrs) (X : Nat) : H α Nat :=
  match tr with
  | .center m => hCenterApply (· - ·) m X
  | .standardize a => hStdApply a X

omit [LT α] [DecidableLT α] in
theorem hPcaApply_sim (cfg : PcaCfg α) {h : Heap α} {tr : PcaTrAttrs} {m : PcaTr α} (ht : pcaTrRepr.On m h tr) {X : Nat} {M : Mat α}
    (hX : Has h X M) : Heap.Sim [] h (hPcaApply tr X) (pcaApply cfg m M) (New h) := by
  cases m <;> cases tr
  · exact (hCenterApply_sim ht hX).1
  · exact absurd ht (fun h => h)
  · exact absurd ht (fun h => h)
  · exact hStdApply_sim ht hX cfg.isZero

/-- One entry, `_PCA.py` 82-88: two entries of `correlation` are set in place. -/
def hCorrCell (T C : Nat) (i j : Int) (_ : Unit) : H α Unit := do
  let M ← getContents T
  let s ← mScalar1 (fun M => corrSum M i j (pyRange 0 M.rows) 0) T
  mSet C i j (s / ((M.rows - 1 : Nat) : α))
  mSet C j i (s / ((M.rows - 1 : Nat) : α))

/-- The inner loop. -/
def hCorrRow (T C : Nat) (i : Int) (_ : Unit) : H α Unit := do
  let M ← getContents T
  mLoop (hCorrCell T C i) (pyRange i M.cols) ()

/-- `fill_correlation`, `_PCA.py` 74-89. -/
def hFillCorr (T : Nat) : H α Nat := do
  let M ← getContents T
  let C ← mCreate (Factory.zeros (M.cols : Int) (M.cols : Int))
  mLoop (hCorrRow T C) (pyRange 0 M.cols) ()
  pure C

omit [LT α] [DecidableLT α] [HasSqrt α] in
theorem hCorrCell_sim {h : Heap α} {T C : Nat} {M V : Mat α} (hT : Has h T M) (hC : Has h C V) (i j : Int) :
    Heap.Sim [C] h (hCorrCell T C i j ()) (corrCell M i j V) fun h' _ c => Has h' C c := by
  unfold hCorrCell corrCell
  refine Sim.look hT ?_
  refine Sim.num1 hT fun s => ?_
  exact Sim.upd (sim_set hC i j _) (by simp) fun h1 V1 f1 l1 a1 => sim_set a1 j i _

omit [LT α] [DecidableLT α] [HasSqrt α] in
theorem hFillCorr_sim {h : Heap α} {T : Nat} {M : Mat α} (hT : Has h T M) : Heap.Sim [] h (hFillCorr T) (fillCorr M) (New h) := by
  unfold hFillCorr fillCorr
  have lT := hT.1
  refine Sim.look hT ?_
  refine Sim.own (sim_create _) fun h1 C V f1 l1 g1 u1 a1 => ?_
  have hT1 : Has h1 T M := by has
  rw [← bind_ok_right (loopM _ _ _)]
  refine Sim.bind (L1 := [C]) (Sim.loop (h0 := h1) (fun h' _ c => Has h' C c) _ (fun i _ h2 _ v f2 hi => ?_) h1 () V (.refl _ f1.wf) a1)
    (by simp) fun h2 _ V' f2 a2 => Sim.ret ⟨g1, a2⟩
  have hT2 : Has h2 T M := hT1.mono f2 (by simp; omega)
  unfold hCorrRow
  refine Sim.look hT2 ?_
  intro hw2
  refine Sim.loop (h0 := h2) (fun h' _ c => Has h' C c) _ (fun j _ h3 _ w f3 hj => ?_) h2 () v (.refl _ hw2) hi hw2
  exact hCorrCell_sim (hT2.mono f3 (by simp; omega)) hj i j

/-- `configure`, `_PCA.py` 106-150. -/
def hPcaConfigure (cfg : PcaCfg α) (X : Nat) : H α (PcaAttrs α) := do
  let t ← mCopy X
  let keep ← mScalar1 (fun M => .ok (pcaKeep cfg.eq M)) t
  let t ← hRemoveColumns keep t
  let p ← hPcaPrep cfg t
  let T ← getContents p.2
  let C ← hFillCorr p.2
  let c ← mCopy C
  let V ← mPure1 (fun M => do let r ← cfg.eig M; .ok r.2) c
  let V ← mCopy V
  let L ← mPure1 (fun M => do let r ← cfg.eig M; .ok r.1) c
  let L ← mCopy L
  let L ← mPure1 (fun M => .ok (M.map clampNeg)) L
  let raw ← mScalar1 (fun M => .ok M.toRawCopy1D) L
  pure ⟨keep, p.1, T.cols, C, V, L, cfg.argsort raw, raw.foldl (· + ·) 0⟩

theorem hPcaConfigure_sim (cfg : PcaCfg α) {h : Heap α} {X : Nat} {M : Mat α} (hX : Has h X M) :
    Heap.Sim [] h (hPcaConfigure cfg X) (pcaConfigure cfg M) (pcaRepr.Fresh h) := by
  have key : ∀ (C : Mat α) (k : Mat α → Mat α → Except PyErr (PcaState α)),
      (cfg.eig C >>= fun r => k r.1 r.2) =
      ((cfg.eig C >>= fun r => .ok r.2) >>= fun V => (cfg.eig C >>= fun r => .ok r.1) >>= fun L => k L V) := by
    intro C k
    cases cfg.eig C <;> rfl
  have e : pcaConfigure cfg M = (do
      let T ← removeColumns (pcaKeep cfg.eq M) M
      let p ← pcaPrep cfg T
      let C ← fillCorr p.2
      let V ← (cfg.eig C >>= fun r => .ok r.2)
      let L ← (cfg.eig C >>= fun r => .ok r.1)
      .ok (PcaState.mk (pcaKeep cfg.eq M) p.1 p.2.cols C V (L.map clampNeg) (cfg.argsort (L.map clampNeg).toRawCopy1D)
        ((L.map clampNeg).toRawCopy1D.foldl (· + ·) 0))) := by
    unfold pcaConfigure
    simp only [← key]
  rw [e]
  unfold hPcaConfigure
  have lX := hX.1
  refine Sim.tmp (sim_copy hX) fun h1 t f1 l1 g1 u1 a1 => ?_
  refine Sim.numT (f := fun M => pcaKeep cfg.eq M) a1 ?_
  refine Sim.bind (hRemoveColumns_sim _ a1) (fun _ h => h) fun h2 t2 T2 f2 a2 => ?_
  refine Sim.bind (hPcaPrep_sim cfg a2) (fun _ h => h) ?_
  rintro h3 ⟨tr, t3⟩ ⟨trv, T3⟩ f3 ⟨b3, c3, d3⟩
  dsimp only at b3 c3 d3 ⊢
  have l2 := f2.le
  have l3 := f3.le
  have a3 := b3.2
  refine Sim.look a3 ?_
  clear f1 f2 f3
  refine Sim.new (hFillCorr_sim a3) fun h4 c4 C4 f4 l4 g4 u4 a4 => ?_
  refine Sim.tmp (sim_copy a4) fun h5 c5 f5 l5 g5 u5 a5 => ?_
  refine Sim.new (sim_pure1 (f := fun M => do let r ← cfg.eig M; .ok r.2) (M := C4) a5) fun h6 v6 V6 f6 l6 g6 u6 a6 => ?_
  refine Sim.tmp (sim_copy a6) fun h7 v7 f7 l7 g7 u7 a7 => ?_
  refine Sim.new (sim_pure1 (f := fun M => do let r ← cfg.eig M; .ok r.1) (M := C4) (by has)) fun h8 v8 V8 f8 l8 g8 u8 a8 => ?_
  refine Sim.tmp (sim_copy a8) fun h9 v9 f9 l9 g9 u9 a9 => ?_
  refine Sim.tmp (sim_pure1 (f := fun M => .ok (M.map clampNeg)) a9) fun h10 v10 f10 l10 g10 u10 a10 => ?_
  refine Sim.numT (f := fun M => M.toRawCopy1D) a10 ?_
  have F : Frame [] h3 h10 := nil_trans (nil_trans (nil_trans (nil_trans (nil_trans (nil_trans f4 f5) f6) f7) f8) f9) f10
  have r4 : Has h10 c4 C4 := a4.mono (nil_trans (nil_trans (nil_trans (nil_trans (nil_trans f5 f6) f7) f8) f9) f10) List.not_mem_nil
  have r7 : Has h10 v7 V6 := a7.mono (nil_trans (nil_trans f8 f9) f10) List.not_mem_nil
  refine Sim.ret ⟨⟨rfl, pcaTrRepr.mono F (fun _ _ => List.not_mem_nil) c3, rfl, r4, r7, a10, rfl, rfl⟩, fun r hr => ?_⟩
  have hr' : r ∈ [c4, v7, v10] ++ (pcaTrRepr (α := α)).refs tr := hr
  rcases List.mem_append.mp hr' with hr' | hr'
  · simp only [List.mem_cons, List.not_mem_nil, or_false] at hr'
    omega
  · have := d3 r hr'
    omega

/-- `for …: result.set(n, i, …)`: in place. -/
def hFillLoop (f : Int → Int → Except PyErr α) (R : Nat) : List (Int × Int) → H α Unit
  | [] => pure ()
  | (i, j) :: r => do
    let v ← H.lift (f i j)
    mSet R i j v
    hFillLoop f R r

omit [Field α] [HasSqrt α] [LT α] [DecidableLT α] in
theorem hFillLoop_sim (f : Int → Int → Except PyErr α) {R : Nat} (ps : List (Int × Int)) : ∀ {h : Heap α} {V : Mat α}, Has h R V →
    Heap.Sim [R] h (hFillLoop f R ps) (fillLoop f ps V) fun h' _ c => Has h' R c := by
  induction ps with
  | nil => intro h V hV; exact Sim.ret hV
  | cons p ps ih =>
    intro h V hV
    obtain ⟨i, j⟩ := p
    unfold hFillLoop fillLoop
    refine Sim.val fun v => ?_
    exact Sim.upd (sim_set hV i j v) (by simp) fun h1 V1 f1 l1 a1 => ih a1

/-- The attributes that the loops read, as values; they do not read the transformation and the correlation matrix. -/
def pcaLook (a : PcaAttrs α) (V L : Mat α) : PcaState α := ⟨a.keep, .center ⟨false, none⟩, a.numCols, V, V, L, a.sorted, a.total⟩

/-- `do_transform`, `_PCA.py` 152-199.  The loops over rows and components read the data, the eigenvectors and the eigenvalues; they are taken
as values. -/
def hPcaScores (cfg : PcaCfg α) (a : PcaAttrs α) (Z : Nat) : H α Nat := do
  let d ← hRemoveColumns a.keep Z
  let d ← hPcaApply a.tr d
  let data ← getContents d
  let V ← getContents a.vecs
  let L ← getContents a.vals
  let rows ← H.lift ((pyRange 0 data.rows).mapM (pcaRow cfg (pcaLook a V L) data))
  let R ← mCreate (Factory.zeros (data.rows : Int) ((rows.foldl (fun (a : Nat) r => max a r.2) 0 : Nat) : Int))
  hFillLoop (fun n i => do let r ← Utils.item rows n; Utils.item r.1 i) R
    ((pyRange 0 rows.length).flatMap fun n =>
      (pyRange 0 (min ((rows.getD n.toNat ([], 0)).1.length : Int) (rows.foldl (fun (a : Nat) r => max a r.2) 0 : Nat))).map fun i => (n, i))
  pure R

/-- `extract_loadings`, `_PCA.py` 201-256. -/
def hPcaLoadings (cfg : PcaCfg α) (a : PcaAttrs α) : H α Nat := do
  let V ← getContents a.vecs
  let L ← getContents a.vals
  let coeff ← H.lift (pcaCoeffs cfg (pcaLook a V L))
  let R ← mCreate (Factory.zeros (a.numCols : Int) ((coeff.length + 1 : Nat) : Int))
  let M ← getContents R
  hFillLoop (fun n _ => .ok ((n.toNat + 1 : Nat) : α)) R ((pyRange 0 a.numCols).map fun n => (n, (M.cols : Int) - 1))
  hFillLoop (fun n i => loadCell (pcaLook a V L) coeff n i) R
    ((pyRange 0 coeff.length).flatMap fun i => (pyRange 0 a.numCols).map fun n => (n, i))
  pure R

omit [HasSqrt α] [LT α] [DecidableLT α] in
theorem scoreSum_congr {s t : PcaState α} (h : s.vecs = t.vecs) (idx : Nat) (data : Mat α) (n : Int) (js : List Int) (c : α) :
    scoreSum s idx data n js c = scoreSum t idx data n js c := by
  induction js generalizing c with
  | nil => rfl
  | cons j js ih =>
    unfold scoreSum
    rw [h]
    simp only [ih]

omit [HasSqrt α] [LT α] [DecidableLT α] in
theorem pcaRow_look (cfg : PcaCfg α) {h : Heap α} {a : PcaAttrs α} {m : PcaState α} (hm : pcaRepr.On m h a) (data : Mat α) :
    pcaRow cfg (pcaLook a m.vecs m.vals) data = pcaRow cfg m data := by
  obtain ⟨m1, m2, m3, m4, m5, m6, m7, m8⟩ := hm
  have e1 : rowStep cfg (pcaLook a m.vecs m.vals) data = rowStep cfg m data := by
    funext n i s
    unfold rowStep
    simp only [scoreSum_congr (s := pcaLook a m.vecs m.vals) (t := m) rfl]
    simp only [pcaLook, m3, m7, m8]
  funext n
  unfold pcaRow
  rw [e1]
  have e2 : pcaOrder cfg (pcaLook a m.vecs m.vals) = pcaOrder cfg m := by
    unfold pcaOrder pcaLower
    simp only [pcaLook, m3]
  rw [e2]
  simp only [pcaLook, m3]

omit [HasSqrt α] [LT α] [DecidableLT α] in
theorem pcaCoeffs_look (cfg : PcaCfg α) {h : Heap α} {a : PcaAttrs α} {m : PcaState α} (hm : pcaRepr.On m h a) :
    pcaCoeffs cfg (pcaLook a m.vecs m.vals) = pcaCoeffs cfg m ∧
      ∀ coeff n i, loadCell (pcaLook a m.vecs m.vals) coeff n i = loadCell m coeff n i := by
  obtain ⟨m1, m2, m3, m4, m5, m6, m7, m8⟩ := hm
  constructor
  · unfold pcaCoeffs
    have e1 : coeffStep cfg (pcaLook a m.vecs m.vals) = coeffStep cfg m := by
      funext i s
      unfold coeffStep coeffList
      simp only [pcaLook, m3, m7, m8]
    have e2 : pcaOrder cfg (pcaLook a m.vecs m.vals) = pcaOrder cfg m := by
      unfold pcaOrder pcaLower
      simp only [pcaLook, m3]
    rw [e1, e2]
  · intro coeff n i
    unfold loadCell
    simp only [pcaLook, m1]

omit [LT α] [DecidableLT α] in
theorem hPcaScores_sim (cfg : PcaCfg α) {h : Heap α} {a : PcaAttrs α} {m : PcaState α} (hm : pcaRepr.On m h a) {Z : Nat} {C : Mat α}
    (hZ : Has h Z C) : Heap.Sim [] h (hPcaScores cfg a Z) (pcaScores cfg m C) (New h) := by
  unfold hPcaScores pcaScores
  have hm0 := hm
  obtain ⟨m1, m2, m3, m4, m5, m6, m7, m8⟩ := hm
  have lv := m5.1
  have ll := m6.1
  rw [m1]
  refine Sim.bind (hRemoveColumns_sim m.keep hZ) (fun _ h => h) fun h1 d D f1 a1 => ?_
  refine Sim.new (hPcaApply_sim cfg (pcaTrRepr.mono f1 (fun _ _ => List.not_mem_nil) m2) a1) fun h2 e E f2 l2 g2 u2 a2 => ?_
  have l1 := f1.le
  refine Sim.look a2 (Sim.look (M := m.vecs) (by has) (Sim.look (M := m.vals) (by has) ?_))
  rw [pcaRow_look cfg hm0]
  refine Sim.val fun rows => ?_
  refine Sim.own (sim_create _) fun h3 r R f3 l3 g3 u3 a3 => ?_
  rw [← bind_ok_right (fillLoop _ _ _)]
  exact Sim.upd (hFillLoop_sim _ _ a3) (by simp) fun h4 V f4 l4 a4 => Sim.ret ⟨by omega, a4⟩

omit [HasSqrt α] [LT α] [DecidableLT α] in
theorem hPcaLoadings_sim (cfg : PcaCfg α) {h : Heap α} {a : PcaAttrs α} {m : PcaState α} (hm : pcaRepr.On m h a) :
    Heap.Sim [] h (hPcaLoadings cfg a) (pcaLoadings cfg m) (New h) := by
  unfold hPcaLoadings pcaLoadings
  have hm0 := hm
  obtain ⟨m1, m2, m3, m4, m5, m6, m7, m8⟩ := hm
  refine Sim.look m5 (Sim.look m6 ?_)
  rw [(pcaCoeffs_look cfg hm0).1]
  simp only [(pcaCoeffs_look cfg hm0).2, m3]
  refine Sim.val fun coeff => ?_
  refine Sim.own (sim_create _) fun h1 r R f1 l1 g1 u1 a1 => ?_
  refine Sim.look a1 ?_
  refine Sim.upd (hFillLoop_sim _ _ a1) (by simp) fun h2 V f2 l2 a2 => ?_
  rw [← bind_ok_right (fillLoop _ _ _)]
  exact Sim.upd (hFillLoop_sim _ _ a2) (by simp) fun h3 W f3 l3 a3 => Sim.ret ⟨by omega, a3⟩

/-- `transform`, `_PCA.py` 258-271: the attributes, the scores and the loadings. -/
def hPcaTransform (cfg : PcaCfg α) (X : Nat) : H α (PcaAttrs α × Nat × Nat) := do
  let a ← hPcaConfigure cfg X
  let S ← hPcaScores cfg a X
  let L ← hPcaLoadings cfg a
  pure (a, S, L)

theorem hPcaTransform_sim (cfg : PcaCfg α) {h : Heap α} {X : Nat} {M : Mat α} (hX : Has h X M) :
    Heap.Sim [] h (hPcaTransform cfg X) (pcaTransform cfg M) fun h' b c => pcaRepr.Fresh h h' b.1 c.1 ∧ New h h' b.2.1 c.2.1 ∧
      New h h' b.2.2 c.2.2 ∧ b.2.1 ≠ b.2.2 := by
  unfold hPcaTransform pcaTransform
  refine Sim.bind (hPcaConfigure_sim cfg hX) (fun _ h => h) fun h1 a m f1 hm => ?_
  have l1 := f1.le
  refine Sim.new (hPcaScores_sim cfg hm.1 (hX.mono f1 List.not_mem_nil)) fun h2 S Sv f2 l2 g2 u2 a2 => ?_
  refine Sim.new (hPcaLoadings_sim cfg (pcaRepr.mono f2 (fun _ _ => List.not_mem_nil) hm.1)) fun h3 L Lv f3 l3 g3 u3 a3 => ?_
  refine Sim.ret ⟨⟨pcaRepr.mono (nil_trans f2 f3) (fun _ _ => List.not_mem_nil) hm.1, hm.2⟩, ⟨by show h.nobj ≤ S; omega, by has⟩,
    ⟨by show h.nobj ≤ L; omega, a3⟩, show S ≠ L by omega⟩

end pca

end Verif
