import Verif.Alg.FilterHeap
import Verif.Alg.FastICA
import Verif.Alg.PrmHeap

/-!
# FastICA on matrix objects

`src/wai/ma/algorithm/ica` once more, on objects.  Decompositions (`svd`, `eig`) are cached in the matrix they belong to, which is always a local
matrix of the training; they are allocated here.  The state left behind when training raises is not modelled.
-/

namespace Verif
open Mat Heap Transf

variable {α σ τ : Type}

/-! ## Loops that are left early -/

/-- `for i in is: body; if cond: break`. -/
def mBreak (f : Int → σ → H α (σ × Bool)) : List Int → σ → H α σ
  | [], s => pure s
  | i :: is, s => do
    let r ← f i s
    if r.2 then pure r.1 else mBreak f is r.1

theorem mBreak_sim {h0 : Heap α} {f : Int → σ → H α (σ × Bool)} {g : Int → τ → Except PyErr (τ × Bool)} (Inv : Heap α → σ → τ → Prop)
    (hstep : ∀ k h s v, Frame [] h0 h → Inv h s v → Heap.Sim [] h (f k s) (g k v) fun h' b c => Inv h' b.1 c.1 ∧ b.2 = c.2) (ks : List Int) :
    ∀ h s v, Frame [] h0 h → Inv h s v → Heap.Sim [] h (mBreak f ks s) (breakLoop g ks v) Inv := by
  induction ks with
  | nil => exact fun h s v _ hi => Sim.ret hi
  | cons k ks ih =>
    intro h s v h0h hi
    unfold mBreak breakLoop
    refine Sim.bind (hstep k h s v h0h hi) (fun _ h => h) ?_
    rintro h' ⟨s', b⟩ ⟨v', _⟩ hf ⟨hi', rfl⟩
    dsimp only at hi' ⊢
    split
    · exact Sim.ret hi'
    · exact ih h' s' v' (nil_trans h0h hf) hi'

/-! ## The functions approximating negentropy -/

/-- `fun.apply` on objects: changes nothing and returns two new objects with the contents given by `g`. -/
def GOk (gh : Nat → H α (Nat × Nat)) (g : Mat α → Except PyErr (Mat α × Mat α)) : Prop :=
  ∀ h r M, Has h r M → Heap.Sim [] h (gh r) (g M) fun h' b c => New h h' b.1 c.1 ∧ New h h' b.2 c.2

section fns
variable [Field α] [LinearOrder α] [HasSqrt α]

/-- `Cube.apply`, `approxfun/_Cube.py` 28-31. -/
def hCubeApply (x : Nat) : H α (Nat × Nat) := do
  let gx ← mPure1 (fun M => .ok (M.powElementwise 3)) x
  let p ← mPure1 (fun M => .ok (M.powElementwise 2)) x
  let s ← mPure1 (fun M => .ok (M.smul 3)) p
  let m ← mPure1 (fun M => .ok M.rowMeans) s
  pure (gx, m)

omit [LinearOrder α] [HasSqrt α] in
theorem hCubeApply_ok : GOk (α := α) hCubeApply cubeApply := by
  intro h x M hx
  unfold hCubeApply cubeApply
  have lx := hx.1
  refine Sim.tmp (sim_pure1 (f := fun M => .ok (M.powElementwise 3)) hx) fun h1 gx f1 l1 g1 u1 a1 => ?_
  refine Sim.tmp (sim_pure1 (f := fun M => .ok (M.powElementwise 2)) (M := M) (by has)) fun h2 p f2 l2 g2 u2 a2 => ?_
  refine Sim.tmp (sim_pure1 (f := fun M => .ok (M.smul 3)) a2) fun h3 s f3 l3 g3 u3 a3 => ?_
  refine Sim.tmp (sim_pure1 (f := fun M => .ok M.rowMeans) a3) fun h4 m f4 l4 g4 u4 a4 => ?_
  exact Sim.ret ⟨⟨g1, by has⟩, ⟨by show h.nobj ≤ m; omega, a4⟩⟩

/-- `Exponential.apply`, `approxfun/_Exponential.py` 29-38. -/
def hExponentialApply [HasExp α] (x : Nat) : H α (Nat × Nat) := do
  let x2 ← mPure1 (fun M => .ok (M.powElementwise 2)) x
  let d ← mPure1 (fun M => .ok (M.div 2)) x2
  let n ← mPure1 (fun M => .ok (M.smul (-1))) d
  let e ← mPure1 (fun M => .ok M.exp) n
  let gx ← mPure2 Mat.mulElementwise x e
  let ones ← mPure1 (fun M => Factory.filledLike M 1) gx
  let t ← mPure2 Mat.sub ones x2
  let t ← mPure2 Mat.mulElementwise t e
  let m ← mPure1 (fun M => .ok M.rowMeans) t
  pure (gx, m)

omit [LinearOrder α] [HasSqrt α] in
theorem hExponentialApply_ok [HasExp α] : GOk (α := α) hExponentialApply exponentialApply := by
  intro h x M hx
  unfold hExponentialApply exponentialApply
  have lx := hx.1
  refine Sim.tmp (sim_pure1 (f := fun M => .ok (M.powElementwise 2)) hx) fun h1 x2 f1 l1 g1 u1 a1 => ?_
  refine Sim.tmp (sim_pure1 (f := fun M => .ok (M.div 2)) a1) fun h2 d f2 l2 g2 u2 a2 => ?_
  refine Sim.tmp (sim_pure1 (f := fun M => .ok (M.smul (-1))) a2) fun h3 n f3 l3 g3 u3 a3 => ?_
  refine Sim.tmp (sim_pure1 (f := fun M => .ok M.exp) a3) fun h4 e f4 l4 g4 u4 a4 => ?_
  refine Sim.new (sim_pure2 (f := Mat.mulElementwise) (M := M) (by has) a4) fun h5 gx GX f5 l5 g5 u5 a5 => ?_
  refine Sim.new (sim_pure1 (f := fun M => Factory.filledLike M 1) a5) fun h6 o O f6 l6 g6 u6 a6 => ?_
  refine Sim.new (sim_pure2 (f := Mat.sub) (N := M.powElementwise 2) a6 (by has)) fun h7 t T f7 l7 g7 u7 a7 => ?_
  refine Sim.new (sim_pure2 (f := Mat.mulElementwise) (N := ((((M.powElementwise 2).div 2).smul (-1)).exp)) a7 (by has))
    fun h8 t' T' f8 l8 g8 u8 a8 => ?_
  refine Sim.tmp (sim_pure1 (f := fun M => .ok M.rowMeans) a8) fun h9 m f9 l9 g9 u9 a9 => ?_
  exact Sim.ret ⟨⟨by show h.nobj ≤ gx; omega, by has⟩, ⟨by show h.nobj ≤ m; omega, a9⟩⟩

/-- One entry of the second result, `approxfun/_LogCosH.py` 39-41. -/
def hLogCosHAt (a : α) (gx ones g : Nat) (i : Int) (_ : Unit) : H α Unit := do
  let gxi ← mPure1 (fun M => M.getRow i) gx
  let p ← mPure1 (fun M => .ok (M.powElementwise 2)) gxi
  let t ← mPure2 Mat.sub ones p
  let s ← mPure1 (fun M => .ok (M.smul a)) t
  let k ← mScalar1 (fun M => .ok M.meanAll) s
  mSet g i 0 k

/-- `LogCosH.apply`, `approxfun/_LogCosH.py` 34-43. -/
def hLogCosHApply [HasTanh α] (a : α) (x : Nat) : H α (Nat × Nat) := do
  let x ← mPure1 (fun M => .ok (M.smul a)) x
  let gx ← mPure1 (fun M => .ok M.tanh) x
  let GX ← getContents gx
  let g ← mCreate (Factory.zeros (GX.rows : Int) 1)
  let ones ← mCreate (Factory.filled 1 (GX.cols : Int) (1 : α))
  mLoop (hLogCosHAt a gx ones g) (pyRange 0 (GX.rows : Int)) ()
  pure (gx, g)

omit [LinearOrder α] [HasSqrt α] in
theorem hLogCosHApply_ok [HasTanh α] (a : α) : GOk (α := α) (hLogCosHApply a) (logCosHApply a) := by
  intro h x M hx
  unfold hLogCosHApply logCosHApply
  have lx := hx.1
  refine Sim.tmp (sim_pure1 (f := fun M => .ok (M.smul a)) hx) fun h1 y f1 l1 g1 u1 a1 => ?_
  refine Sim.tmp (sim_pure1 (f := fun M => .ok M.tanh) a1) fun h2 gx f2 l2 g2 u2 a2 => ?_
  refine Sim.look a2 ?_
  refine Sim.own (sim_create _) fun h3 g G f3 l3 g3 u3 a3 => ?_
  refine Sim.new (sim_create _) fun h4 o O f4 l4 g4 u4 a4 => ?_
  have agx : Has h4 gx (M.smul a).tanh := by has
  refine Sim.bind (L1 := [g]) (Sim.loop (h0 := h4) (fun h' _ c => Has h' g c) _ (fun i _ h5 s v f5 hi => ?_) h4 () G (.refl _ f4.wf) (by has))
    (by simp) fun h5 _ G' f5 a5 => ?_
  · have l5 := f5.le
    have b1 : Has h5 gx (M.smul a).tanh := agx.mono f5 (by simp; omega)
    have b2 : Has h5 o O := a4.mono f5 (by simp; omega)
    have ug := hi.1
    unfold hLogCosHAt
    refine Sim.new (sim_pure1 (f := fun M => M.getRow i) b1) fun h6 gi GI f6 l6 g6 u6 a6 => ?_
    refine Sim.tmp (sim_pure1 (f := fun M => .ok (M.powElementwise 2)) a6) fun h7 p f7 l7 g7 u7 a7 => ?_
    refine Sim.new (sim_pure2 (f := Mat.sub) (M := O) (b2.mono (nil_trans f6 f7) List.not_mem_nil) a7) fun h8 t T f8 l8 g8 u8 a8 => ?_
    refine Sim.tmp (sim_pure1 (f := fun M => .ok (M.smul a)) a8) fun h9 s f9 l9 g9 u9 a9 => ?_
    refine Sim.numT (f := fun M => M.meanAll) a9 ?_
    exact sim_set (hi.mono (nil_trans (nil_trans f6 f7) (nil_trans f8 f9)) List.not_mem_nil) i 0 _
  · have l5 := f5.le
    exact Sim.ret ⟨⟨by show h.nobj ≤ gx; omega, agx.mono f5 (by simp; omega)⟩, ⟨by show h.nobj ≤ g; omega, a5⟩⟩

/-! ## Deflation -/

/-- `decorrelate`, `_FastICA.py` 189-207: for the first component the vector itself. -/
def hDecorrelate (w W : Nat) (j : Int) : H α Nat :=
  if j = 0 then pure w
  else do
    let Wp ← mPure1 (fun M => M.getRows (.tuple 0 j)) W
    let wt ← mTranspose w
    let Wt ← mTranspose Wp
    let a ← mPure2 Mat.mul wt Wt
    let b ← mPure2 Mat.mul a Wp
    let bt ← mTranspose b
    mPure2 Mat.sub w bt

omit [LinearOrder α] [HasSqrt α] in
theorem hDecorrelate_sim {h : Heap α} {w W : Nat} {A B : Mat α} (hw : Has h w A) (hW : Has h W B) (j : Int) :
    Heap.Sim [] h (hDecorrelate w W j) (decorrelate A B j) fun h' b c => Has h' b c := by
  unfold hDecorrelate decorrelate
  have lw := hw.1
  have lW := hW.1
  split
  · exact Sim.ret hw
  · refine Sim.new (sim_pure1 (f := fun M => M.getRows (.tuple 0 j)) hW) fun h1 Wp P f1 l1 g1 u1 a1 => ?_
    refine Sim.tmp (sim_transpose (M := A) (by has)) fun h2 wt f2 l2 g2 u2 a2 => ?_
    refine Sim.tmp (sim_transpose (M := P) (by has)) fun h3 Wt f3 l3 g3 u3 a3 => ?_
    refine Sim.new (sim_pure2 (f := Mat.mul) (M := A.transpose) (by has) a3) fun h4 a AV f4 l4 g4 u4 a4 => ?_
    refine Sim.new (sim_pure2 (f := Mat.mul) (N := P) a4 (by has)) fun h5 b BV f5 l5 g5 u5 a5 => ?_
    refine Sim.tmp (sim_transpose a5) fun h6 bt f6 l6 g6 u6 a6 => ?_
    exact (sim_pure2 (f := Mat.sub) (M := A) (by has) a6).post fun _ _ _ _ hn => hn.2

/-- The steps of the inner loop of `deflation` before decorrelating, `_FastICA.py` 144-149. -/
def hIcaNewton (gh : Nat → H α (Nat × Nat)) (X w : Nat) : H α Nat := do
  let wt ← mTranspose w
  let P ← mPure2 Mat.mul wt X
  let Pt ← mTranspose P
  let r ← gh Pt
  let sc ← mPure2 Mat.scaleByRowVector X r.1
  let m ← mPure1 (fun M => .ok M.rowMeans) sc
  let k ← mScalar1 (fun M => .ok M.meanAll) r.2
  let u ← mPure1 (fun M => .ok (M.smul k)) w
  mPure2 Mat.sub m u

/-- What `hIcaNewton` computes. -/
def icaNewton (cfg : IcaCfg α) (X w : Mat α) : Except PyErr (Mat α) := do
  let P ← w.transpose.mul X
  let r ← cfg.g P.transpose
  let sc ← X.scaleByRowVector r.1
  sc.rowMeans.sub (w.smul r.2.meanAll)

omit [LinearOrder α] [HasSqrt α] in
theorem hIcaNewton_sim (cfg : IcaCfg α) {gh : Nat → H α (Nat × Nat)} (hg : GOk gh cfg.g) {h : Heap α} {X w : Nat} {D V : Mat α}
    (hX : Has h X D) (hw : Has h w V) : Heap.Sim [] h (hIcaNewton gh X w) (icaNewton cfg D V) (New h) := by
  unfold hIcaNewton icaNewton
  have lX := hX.1
  have lw := hw.1
  refine Sim.tmp (sim_transpose hw) fun h1 wt f1 l1 g1 u1 a1 => ?_
  refine Sim.new (sim_pure2 (f := Mat.mul) (N := D) a1 (by has)) fun h2 P PV f2 l2 g2 u2 a2 => ?_
  refine Sim.tmp (sim_transpose a2) fun h3 Pt f3 l3 g3 u3 a3 => ?_
  refine Sim.bind (hg h3 Pt _ a3) (fun _ h => h) ?_
  rintro h4 ⟨r1, r2⟩ ⟨R1, R2⟩ f4 ⟨n1, n2⟩
  dsimp only at n1 n2 ⊢
  have l4 := f4.le
  have v1 := n1.2
  have v2 := n2.2
  have p1 := n1.1
  have p2 := n2.1
  have q1 := v1.1
  have q2 := v2.1
  clear n1 n2
  refine Sim.new (sim_pure2 (f := Mat.scaleByRowVector) (M := D) (by has) v1) fun h5 sc S f5 l5 g5 u5 a5 => ?_
  refine Sim.tmp (sim_pure1 (f := fun M => .ok M.rowMeans) a5) fun h6 m f6 l6 g6 u6 a6 => ?_
  refine Sim.numT (f := fun M => M.meanAll) (M := R2) (by has) ?_
  refine Sim.tmp (sim_pure1 (f := fun M => .ok (M.smul R2.meanAll)) (M := V) (by has)) fun h7 u f7 l7 g7 u7 a7 => ?_
  exact (sim_pure2 (f := Mat.sub) (M := S.rowMeans) (by has) a7).post fun _ b _ _ hn => ⟨by have := hn.1; omega, hn.2⟩

/-- One pass of the inner loop of `deflation`, `_FastICA.py` 144-157. -/
def hIcaStep (cfg : IcaCfg α) (gh : Nat → H α (Nat × Nat)) (X W : Nat) (j : Int) (w : Nat) : H α (Nat × Bool) := do
  let w1 ← hIcaNewton gh X w
  let w1 ← hDecorrelate w1 W j
  let w1 ← mPure1 (fun M => .ok (unitVec M)) w1
  let e ← mScalar2 Mat.mulElementwise w1 w
  pure (w1, decide (|(|e.total| - 1)| < cfg.tol))

omit [LinearOrder α] in
theorem hIcaStep_eq [LinearOrder α] (cfg : IcaCfg α) (X W : Mat α) (j : Int) (w : Mat α) : icaStep cfg X W j w = (do
    let w1 ← icaNewton cfg X w
    let w1 ← decorrelate w1 W j
    let e ← (unitVec w1).mulElementwise w
    .ok (unitVec w1, decide (|(|e.total| - 1)| < cfg.tol))) := by
  unfold icaStep icaNewton
  simp only [bind_assoc]

theorem hIcaStep_sim (cfg : IcaCfg α) {gh : Nat → H α (Nat × Nat)} (hg : GOk gh cfg.g) {h : Heap α} {X W w : Nat} {D E V : Mat α}
    (hX : Has h X D) (hW : Has h W E) (hw : Has h w V) (j : Int) :
    Heap.Sim [] h (hIcaStep cfg gh X W j w) (icaStep cfg D E j V) fun h' b c => Has h' b.1 c.1 ∧ b.2 = c.2 := by
  rw [hIcaStep_eq]
  unfold hIcaStep
  have lW := hW.1
  have lw := hw.1
  refine Sim.new (hIcaNewton_sim cfg hg hX hw) fun h1 w1 V1 f1 l1 g1 u1 a1 => ?_
  refine Sim.bind (hDecorrelate_sim a1 (B := E) (by has) j) (fun _ h => h) fun h2 w2 V2 f2 a2 => ?_
  have l2 := f2.le
  refine Sim.tmp (sim_pure1 (f := fun M => .ok (unitVec M)) a2) fun h3 w3 f3 l3 g3 u3 a3 => ?_
  refine Sim.num2 (f := Mat.mulElementwise) (N := V) a3 (by has) fun e => ?_
  exact Sim.ret ⟨a3, rfl⟩

/-- One component of `deflation`, `_FastICA.py` 141-159. -/
def hDeflRow (cfg : IcaCfg α) (gh : Nat → H α (Nat × Nat)) (X Winit W : Nat) (j : Int) (_ : Unit) : H α Unit := do
  let row ← mPure1 (fun M => M.getRow j) Winit
  let rt ← mTranspose row
  let c ← mCopy rt
  let w ← mPure1 (fun M => .ok (unitVec M)) c
  let w ← mBreak (fun _ w => hIcaStep cfg gh X W j w) (pyRange 0 (cfg.maxIter : Int)) w
  mSetRow W j w

/-- `deflation`, `_FastICA.py` 131-161. -/
def hDeflation (cfg : IcaCfg α) (gh : Nat → H α (Nat × Nat)) (nc : Nat) (X Winit : Nat) : H α Nat := do
  let W ← mCreate (Factory.zeros (nc : Int) (nc : Int))
  mLoop (hDeflRow cfg gh X Winit W) (pyRange 0 (nc : Int)) ()
  pure W

theorem hDeflation_sim (cfg : IcaCfg α) {gh : Nat → H α (Nat × Nat)} (hg : GOk gh cfg.g) (nc : Nat) {h : Heap α} {X Wi : Nat} {D I : Mat α}
    (hX : Has h X D) (hI : Has h Wi I) : Heap.Sim [] h (hDeflation cfg gh nc X Wi) (deflation cfg nc D I) (New h) := by
  unfold hDeflation deflation
  have lX := hX.1
  have lI := hI.1
  refine Sim.own (sim_create _) fun h1 W W0 f1 l1 g1 u1 a1 => ?_
  rw [← bind_ok_right (loopM _ _ W0)]
  refine Sim.bind (L1 := [W]) (Sim.loop (h0 := h1) (fun h' _ c => Has h' W c) _ (fun j _ h2 s v f2 hi => ?_) h1 () W0 (.refl _ f1.wf) a1)
    (by simp) fun h2 _ W' f2 a2 => Sim.ret ⟨g1, a2⟩
  have l2 := f2.le
  have b1 : Has h2 X D := (hX.mono f1 List.not_mem_nil).mono f2 (by simp; omega)
  have b2 : Has h2 Wi I := (hI.mono f1 List.not_mem_nil).mono f2 (by simp; omega)
  clear f2
  unfold hDeflRow
  refine Sim.new (sim_pure1 (f := fun M => M.getRow j) b2) fun h3 r R f3 l3 g3 u3 a3 => ?_
  refine Sim.tmp (sim_transpose a3) fun h4 rt f4 l4 g4 u4 a4 => ?_
  refine Sim.tmp (sim_copy a4) fun h5 c f5 l5 g5 u5 a5 => ?_
  refine Sim.tmp (sim_pure1 (f := fun M => .ok (unitVec M)) a5) fun h6 w f6 l6 g6 u6 a6 => ?_
  have c1 : Has h6 X D := by has
  have c2 : Has h6 W v := by has
  refine Sim.bind (L1 := []) (mBreak_sim (h0 := h6) (fun h' b c => Has h' b c) (fun k h7 b c f7 hb => ?_) _ h6 w _ (.refl _ f6.wf) a6)
    (by simp) fun h7 w' V f7 a7 => ?_
  · exact hIcaStep_sim cfg hg (c1.mono f7 List.not_mem_nil) (c2.mono f7 List.not_mem_nil) hb j
  · exact sim_setRow (c2.mono f7 List.not_mem_nil) a7 j

/-! ## The parallel algorithm -/

/-- `symmetric_decorrelation`, `_FastICA.py` 209-226. -/
def hSymDecorrelation (cfg : IcaCfg α) (W : Nat) : H α Nat := do
  let wt ← mTranspose W
  let wwt ← mPure2 Mat.mul W wt
  let A ← getContents wwt
  let r ← mScalar1 cfg.eig wwt
  let s ← mCreate (.ok (eigenvaluesSorted cfg.le r.1 true))
  let u ← mCreate (eigenvectorsSorted cfg.le A.rows r.1 r.2 true)
  let q ← mPure1 (fun M => .ok M.sqrt) s
  let si ← mPure1 (fun M => .ok (M.applyElementwise fun x => 1 / x)) q
  let us ← mPure2 Mat.scaleByRowVector u si
  let ut ← mTranspose u
  let a ← mPure2 Mat.mul us ut
  mPure2 Mat.mul a W

omit [LinearOrder α] in
theorem hSymDecorrelation_sim (cfg : IcaCfg α) {h : Heap α} {W : Nat} {V : Mat α} (hW : Has h W V) :
    Heap.Sim [] h (hSymDecorrelation cfg W) (symDecorrelation cfg V) (New h) := by
  unfold hSymDecorrelation symDecorrelation
  have lW := hW.1
  refine Sim.tmp (sim_transpose hW) fun h1 wt f1 l1 g1 u1 a1 => ?_
  refine Sim.new (sim_pure2 (f := Mat.mul) (M := V) (by has) a1) fun h2 wwt A f2 l2 g2 u2 a2 => ?_
  refine Sim.look a2 ?_
  refine Sim.num1 a2 fun r => ?_
  refine Sim.tmp (sim_create (.ok (eigenvaluesSorted cfg.le r.1 true))) fun h3 s f3 l3 g3 u3 a3 => ?_
  refine Sim.new (sim_create (eigenvectorsSorted cfg.le A.rows r.1 r.2 true)) fun h4 u U f4 l4 g4 u4 a4 => ?_
  refine Sim.tmp (sim_pure1 (f := fun M => .ok M.sqrt) (M := eigenvaluesSorted cfg.le r.1 true) (by has)) fun h5 q f5 l5 g5 u5 a5 => ?_
  refine Sim.tmp (sim_pure1 (f := fun M => .ok (M.applyElementwise fun x => 1 / x)) a5) fun h6 si f6 l6 g6 u6 a6 => ?_
  refine Sim.new (sim_pure2 (f := Mat.scaleByRowVector) (M := U) (by has) a6) fun h7 us US f7 l7 g7 u7 a7 => ?_
  refine Sim.tmp (sim_transpose (M := U) (by has)) fun h8 ut f8 l8 g8 u8 a8 => ?_
  refine Sim.new (sim_pure2 (f := Mat.mul) (M := US) (by has) a8) fun h9 a B f9 l9 g9 u9 a9 => ?_
  exact (sim_pure2 (f := Mat.mul) (N := V) a9 (by has)).post fun _ b _ _ hn => ⟨by have := hn.1; omega, hn.2⟩

/-- The matrix that is decorrelated in one pass of `parallel`, `_FastICA.py` 176-180. -/
def hParallelArg (gh : Nat → H α (Nat × Nat)) (X W : Nat) : H α Nat := do
  let D ← getContents X
  let wt ← mTranspose W
  let P ← mPure2 Mat.mul wt X
  let r ← gh P
  let Xt ← mTranspose X
  let a ← mPure2 Mat.mul r.1 Xt
  let sc ← mPure2 Mat.scaleByColumnVector W r.2
  let d ← mPure1 (fun M => .ok (M.div (D.cols : α))) a
  mPure2 Mat.sub d sc

omit [LinearOrder α] [HasSqrt α] in
theorem hParallelArg_sim (cfg : IcaCfg α) {gh : Nat → H α (Nat × Nat)} (hg : GOk gh cfg.g) {h : Heap α} {X W : Nat} {D V : Mat α}
    (hX : Has h X D) (hW : Has h W V) : Heap.Sim [] h (hParallelArg gh X W) (parallelArg cfg D V) (New h) := by
  unfold hParallelArg parallelArg
  have lX := hX.1
  have lW := hW.1
  refine Sim.look hX ?_
  refine Sim.tmp (sim_transpose hW) fun h1 wt f1 l1 g1 u1 a1 => ?_
  refine Sim.new (sim_pure2 (f := Mat.mul) (N := D) a1 (by has)) fun h2 P PV f2 l2 g2 u2 a2 => ?_
  refine Sim.bind (hg h2 P _ a2) (fun _ h => h) ?_
  rintro h4 ⟨r1, r2⟩ ⟨R1, R2⟩ f4 ⟨n1, n2⟩
  dsimp only at n1 n2 ⊢
  have l4 := f4.le
  have v1 := n1.2
  have v2 := n2.2
  have p1 := n1.1
  have p2 := n2.1
  have q1 := v1.1
  have q2 := v2.1
  clear n1 n2
  refine Sim.tmp (sim_transpose (M := D) (by has)) fun h5 xt f5 l5 g5 u5 a5 => ?_
  refine Sim.new (sim_pure2 (f := Mat.mul) (M := R1) (by has) a5) fun h6 a A f6 l6 g6 u6 a6 => ?_
  refine Sim.new (sim_pure2 (f := Mat.scaleByColumnVector) (M := V) (N := R2) (by has) (by has)) fun h7 sc S f7 l7 g7 u7 a7 => ?_
  refine Sim.tmp (sim_pure1 (f := fun M => .ok (M.div (D.cols : α))) (M := A) (by has)) fun h8 d f8 l8 g8 u8 a8 => ?_
  exact (sim_pure2 (f := Mat.sub) (N := S) a8 (by has)).post fun _ b _ _ hn => ⟨by have := hn.1; omega, hn.2⟩

/-- One pass of `parallel`, `_FastICA.py` 175-185. -/
def hParallelStep (cfg : IcaCfg α) (gh : Nat → H α (Nat × Nat)) (X W : Nat) : H α (Nat × Bool) := do
  let arg ← hParallelArg gh X W
  let W1 ← hSymDecorrelation cfg arg
  let wt ← mTranspose W
  let M ← mScalar2 Mat.mul W1 wt
  pure (W1, decide (cfg.amax ((M.diag.abs).subScalar 1).abs < cfg.tol))

theorem hParallelStep_sim (cfg : IcaCfg α) {gh : Nat → H α (Nat × Nat)} (hg : GOk gh cfg.g) {h : Heap α} {X W : Nat} {D V : Mat α}
    (hX : Has h X D) (hW : Has h W V) :
    Heap.Sim [] h (hParallelStep cfg gh X W) (parallelStep cfg D V) fun h' b c => (h.nobj ≤ b.1 ∧ Has h' b.1 c.1) ∧ b.2 = c.2 := by
  unfold hParallelStep parallelStep
  have lW := hW.1
  refine Sim.new (hParallelArg_sim cfg hg hX hW) fun h1 a A f1 l1 g1 u1 a1 => ?_
  refine Sim.new (hSymDecorrelation_sim cfg a1) fun h2 w B f2 l2 g2 u2 a2 => ?_
  refine Sim.tmp (sim_transpose (M := V) (by has)) fun h3 wt f3 l3 g3 u3 a3 => ?_
  refine Sim.num2 (f := Mat.mul) (M := B) (by has) a3 fun e => ?_
  exact Sim.ret ⟨⟨by show h.nobj ≤ w; omega, by has⟩, rfl⟩

/-- `parallel`, `_FastICA.py` 163-187. -/
def hParallel (cfg : IcaCfg α) (gh : Nat → H α (Nat × Nat)) (X Winit : Nat) : H α Nat := do
  let W ← hSymDecorrelation cfg Winit
  mBreak (fun _ W => hParallelStep cfg gh X W) (pyRange 0 (cfg.maxIter : Int)) W

theorem hParallel_sim (cfg : IcaCfg α) {gh : Nat → H α (Nat × Nat)} (hg : GOk gh cfg.g) {h : Heap α} {X Wi : Nat} {D I : Mat α}
    (hX : Has h X D) (hI : Has h Wi I) : Heap.Sim [] h (hParallel cfg gh X Wi) (parallel cfg D I) (New h) := by
  unfold hParallel parallel
  refine Sim.new (hSymDecorrelation_sim cfg hI) fun h1 W V f1 l1 g1 u1 a1 => ?_
  refine mBreak_sim (h0 := h1) (fun h' b c => New h h' b c) (fun k h2 b c f2 hb => ?_) _ h1 W V (.refl _ f1.wf) ⟨g1, a1⟩
  exact (hParallelStep_sim cfg hg (hX.mono (nil_trans f1 f2) List.not_mem_nil) hb.2).post fun h3 b c _ hn =>
    ⟨⟨by have := hn.1.1; have := f2.le; omega, hn.1.2⟩, hn.2⟩

/-- The unmixing matrix, `_FastICA.py` 108-118. -/
def hUnmix (cfg : IcaCfg α) (gh : Nat → H α (Nat × Nat)) (nc : Nat) (X1 : Nat) : H α Nat := do
  let Wi ← mCreate (.ok (cfg.winit nc))
  match cfg.alg with
  | .deflation => hDeflation cfg gh nc X1 Wi
  | .parallel => hParallel cfg gh X1 Wi

theorem hUnmix_sim (cfg : IcaCfg α) {gh : Nat → H α (Nat × Nat)} (hg : GOk gh cfg.g) (nc : Nat) {h : Heap α} {X : Nat} {D : Mat α}
    (hX : Has h X D) : Heap.Sim [] h (hUnmix cfg gh nc X) (unmix cfg nc D) (New h) := by
  unfold hUnmix unmix
  refine Sim.tmp (sim_create (.ok (cfg.winit nc))) fun h1 w f1 l1 g1 u1 a1 => ?_
  have b1 := hX.mono f1 List.not_mem_nil
  cases cfg.alg with
  | deflation => exact (hDeflation_sim cfg hg nc b1 a1).post fun _ b _ _ hn => ⟨by have := hn.1; omega, hn.2⟩
  | parallel => exact (hParallel_sim cfg hg b1 a1).post fun _ b _ _ hn => ⟨by have := hn.1; omega, hn.2⟩

/-! ## Training -/

/-- The whitening matrix, `_FastICA.py` 96-105. -/
def hIcaWhitening (cfg : IcaCfg α) (nc : Nat) (X : Nat) : H α Nat := do
  let D ← getContents X
  let d ← mScalar1 cfg.svd X
  let U ← mCreate (.ok (svdU d.1))
  let s ← mCreate (.ok d.2.1.transpose)
  let s ← mPure1 (fun M => M.getRows (.tuple 0 (min D.rows D.cols : Nat))) s
  let si ← mPure1 (fun M => .ok (M.applyElementwise fun a => 1 / a)) s
  let t ← mPure2 Mat.scaleByRowVector U si
  let tt ← mTranspose t
  let TT ← getContents tt
  mPure1 (fun M => M.getRows (.tuple 0 (min TT.rows nc : Nat))) tt

omit [LinearOrder α] [HasSqrt α] in
theorem hIcaWhitening_sim (cfg : IcaCfg α) (nc : Nat) {h : Heap α} {X : Nat} {D : Mat α} (hX : Has h X D) :
    Heap.Sim [] h (hIcaWhitening cfg nc X) (icaWhitening cfg nc D) (New h) := by
  unfold hIcaWhitening icaWhitening
  refine Sim.look hX ?_
  refine Sim.num1 hX fun d => ?_
  refine Sim.tmp (sim_create (.ok (svdU d.1))) fun h1 U f1 l1 g1 u1 a1 => ?_
  refine Sim.tmp (sim_create (.ok d.2.1.transpose)) fun h2 s0 f2 l2 g2 u2 a2 => ?_
  refine Sim.new (sim_pure1 (f := fun M => M.getRows (.tuple 0 (min D.rows D.cols : Nat))) a2) fun h3 s S f3 l3 g3 u3 a3 => ?_
  refine Sim.tmp (sim_pure1 (f := fun M => .ok (M.applyElementwise fun a => 1 / a)) a3) fun h4 si f4 l4 g4 u4 a4 => ?_
  refine Sim.new (sim_pure2 (f := Mat.scaleByRowVector) (M := svdU d.1) (by has) a4) fun h5 t T f5 l5 g5 u5 a5 => ?_
  refine Sim.tmp (sim_transpose a5) fun h6 tt f6 l6 g6 u6 a6 => ?_
  refine Sim.look a6 ?_
  exact (sim_pure1 (f := fun M => M.getRows (.tuple 0 (min T.transpose.rows nc : Nat))) a6).post fun _ b _ _ hn =>
    ⟨by have := hn.1; omega, hn.2⟩

/-- Attributes of a FastICA object: `center` is `none` when there is no `Center`, `some none` when it is not configured. -/
structure IcaAttrs where
  numComponents : Nat
  center : Option (Option Nat)
  components : Option Nat
  sources : Option Nat
  mixing : Option Nat
  whitening : Option Nat
  initialised : Bool

/-- A reference that may be `None`. -/
def OptHas (h : Heap α) : Option Nat → Option (Mat α) → Prop
  | none, none => True
  | some r, some M => Has h r M
  | _, _ => False

/-- The `Center` attribute. -/
def OptCen (h : Heap α) : Option (Option Nat) → Option (CenterState α) → Prop
  | none, none => True
  | some none, some s => s = center.init
  | some (some m), some s => cenRepr.On s h m
  | _, _ => False

omit [Field α] [LinearOrder α] [HasSqrt α] in
theorem OptHas.mono {L : List Nat} {h h' : Heap α} {a : Option Nat} {o : Option (Mat α)} (hf : Frame L h h') (hr : ∀ r ∈ a.toList, r ∉ L)
    (ho : OptHas h a o) : OptHas h' a o := by
  match a, o, ho with
  | none, none, _ => trivial
  | some r, some M, ho => exact Has.mono hf ho (hr r (by simp))

omit [LinearOrder α] [HasSqrt α] in
theorem OptCen.mono {L : List Nat} {h h' : Heap α} {a : Option (Option Nat)} {o : Option (CenterState α)} (hf : Frame L h h')
    (hr : ∀ r ∈ a.join.toList, r ∉ L) (ho : OptCen h a o) : OptCen h' a o := by
  match a, o, ho with
  | none, none, _ => trivial
  | some none, some s, ho => exact ho
  | some (some m), some s, ho => exact cenRepr.mono hf (fun r h => hr r (by simpa [cenRepr] using h)) ho

/-- The attributes refer to matrices with the contents of the model's fields. -/
def icaRepr : Repr α (IcaObj α) IcaAttrs where
  refs a := a.center.join.toList ++ (a.components.toList ++ (a.sources.toList ++ (a.mixing.toList ++ a.whitening.toList)))
  On o h a := a.numComponents = o.numComponents ∧ a.initialised = o.initialised ∧ OptCen h a.center o.center ∧ OptHas h a.components o.components ∧
    OptHas h a.sources o.sources ∧ OptHas h a.mixing o.mixing ∧ OptHas h a.whitening o.whitening
  mono hf hr hm := by
    simp only [List.mem_append] at hr
    obtain ⟨m1, m2, m3, m4, m5, m6, m7⟩ := hm
    exact ⟨m1, m2, m3.mono hf fun r h => hr r (.inl h), m4.mono hf fun r h => hr r (.inr (.inl h)),
      m5.mono hf fun r h => hr r (.inr (.inr (.inl h))), m6.mono hf fun r h => hr r (.inr (.inr (.inr (.inl h)))),
      m7.mono hf fun r h => hr r (.inr (.inr (.inr (.inr h))))⟩

/-- `self.center.transform(A)`: the state of the `Center` and the result. -/
def hOptCentre (a : Option (Option Nat)) (A : Nat) : H α (Nat × Nat) :=
  match a with
  | none => H.lift (.error .attributeError)
  | some none => hCenterFit A
  | some (some m) => do
    let r ← hCenterApply (· - ·) m A
    pure (m, r)

omit [LinearOrder α] [HasSqrt α] in
theorem hOptCentre_sim {h : Heap α} {a : Option (Option Nat)} {s : Option (CenterState α)} (hs : OptCen h a s) {A : Nat} {M : Mat α}
    (hA : Has h A M) : Heap.Sim [] h (hOptCentre a A) (optCentre s M) fun h' b c =>
      New h h' b.2 c.2 ∧ cenRepr.On c.1 h' b.1 ∧ (h.nobj ≤ b.1 ∨ a = some (some b.1)) := by
  match a, s, hs with
  | none, none, _ => exact fun hw => ⟨.refl _ hw, .error _⟩
  | some none, some s, hs =>
    have hs : s = center.init := hs
    subst hs
    exact (hCenterFit_sim' hA).post fun _ _ _ _ hn => ⟨hn.1, hn.2.1, .inl hn.2.2⟩
  | some (some m), some s, hs =>
    have hs : cenRepr.On s h m := hs
    refine Sim.new (hCenterApply_sim hs hA).1 fun h1 r R f1 l1 g1 u1 a1 => ?_
    refine Sim.ret ⟨⟨g1, a1⟩, ?_, .inr rfl⟩
    have e : (transform center M s).1 = s := by
      obtain ⟨v, rfl, -⟩ := hs
      rfl
    dsimp only
    rw [e]
    exact cenRepr.mono f1 (fun _ _ => List.not_mem_nil) hs

/-- `configure` with whitening, `_FastICA.py` 77-129. -/
def hIcaWhitened (cfg : IcaCfg α) (gh : Nat → H α (Nat × Nat)) (a : IcaAttrs) (nc : Nat) (data : Nat) : H α IcaAttrs := do
  let D ← getContents data
  let x ← mTranspose data
  let xt ← mTranspose x
  let c ← hOptCentre a.center xt
  let X ← mTranspose c.2
  let wh ← hIcaWhitening cfg nc X
  let X1 ← mPure2 Mat.mul wh X
  let X2 ← mPure1 (fun M => .ok (M.smul (HasSqrt.sqrt (D.rows : α)))) X1
  let W ← hUnmix cfg gh nc X2
  let c1 ← mPure2 Mat.mul W wh
  let s ← mPure2 Mat.mul c1 X
  let st ← mTranspose s
  let comp ← mPure2 Mat.mul W wh
  let mix ← mPure1 (Mat.inverse cfg.lstsq) comp
  pure ⟨nc, some (some c.1), some comp, some st, some mix, some wh, true⟩

/-- `configure` without whitening, `_FastICA.py` 77-129: the components are the unmixing matrix itself. -/
def hIcaPlain (cfg : IcaCfg α) (gh : Nat → H α (Nat × Nat)) (a : IcaAttrs) (nc : Nat) (data : Nat) : H α IcaAttrs := do
  let X ← mTranspose data
  let W ← hUnmix cfg gh nc X
  let s ← mPure2 Mat.mul W X
  let st ← mTranspose s
  let mix ← mPure1 (Mat.inverse cfg.lstsq) W
  pure { a with numComponents := nc, components := some W, sources := some st, mixing := some mix, initialised := true }

/-- `configure`, `_FastICA.py` 77-129. -/
def hIcaConfigure (cfg : IcaCfg α) (gh : Nat → H α (Nat × Nat)) (a : IcaAttrs) (data : Nat) : H α IcaAttrs := do
  let D ← getContents data
  if cfg.whiten then hIcaWhitened cfg gh a (min a.numComponents (min D.cols D.rows)) data
  else hIcaPlain cfg gh a (min D.cols D.rows) data

/-- What holds of the attributes after `configure`: they represent the model; the matrices are new except possibly the mean of the `Center` and,
without whitening, the whitening matrix. -/
def IcaFresh (a : IcaAttrs) (h h' : Heap α) (b : IcaAttrs) (o : IcaObj α) : Prop :=
  icaRepr.On o h' b ∧ (∀ r ∈ icaRepr.refs (α := α) b, h.nobj ≤ r ∨ r ∈ icaRepr.refs (α := α) a) ∧
    ∃ s, b.sources = some s ∧ h.nobj ≤ s ∧ s ∉ icaRepr.refs (α := α) { b with sources := none }

theorem hIcaWhitened_sim (cfg : IcaCfg α) {gh : Nat → H α (Nat × Nat)} (hg : GOk gh cfg.g) {h : Heap α} {a : IcaAttrs} {o : IcaObj α}
    (ha : icaRepr.On o h a) (nc : Nat) {data : Nat} {D : Mat α} (hd : Has h data D) :
    Heap.Sim [] h (hIcaWhitened cfg gh a nc data) (do
      let c ← optCentre o.center D
      let X := c.2.transpose
      let wh ← icaWhitening cfg nc X
      let X1 ← wh.mul X
      let W ← unmix cfg nc (X1.smul (HasSqrt.sqrt (D.rows : α)))
      let comp ← W.mul wh
      let s ← comp.mul X
      let mix ← comp.inverse cfg.lstsq
      .ok (IcaObj.mk nc (some c.1) (some comp) (some s.transpose) (some mix) (some wh) true)) (IcaFresh a h) := by
  unfold hIcaWhitened
  have ld := hd.1
  refine Sim.look hd ?_
  refine Sim.tmp (sim_transpose hd) fun h1 x f1 l1 g1 u1 a1 => ?_
  refine Sim.tmp (sim_transpose a1) fun h2 xt f2 l2 g2 u2 a2 => ?_
  have a2' : Has h2 xt D := a2
  have hc := (icaRepr.mono f2 (fun _ _ => List.not_mem_nil) (icaRepr.mono f1 (fun _ _ => List.not_mem_nil) ha)).2.2.1
  refine Sim.bind (hOptCentre_sim hc a2') (fun _ h => h) ?_
  rintro h3 ⟨m, y⟩ ⟨S, Y⟩ f3 ⟨n1, n2, n3⟩
  dsimp only at n1 n2 n3 ⊢
  have l3 := f3.le
  have v1 := n1.2
  have p1 := n1.1
  have q1 := v1.1
  clear n1
  obtain ⟨mv, rfl, v2⟩ := n2
  have q2 := v2.1
  refine Sim.tmp (sim_transpose v1) fun h4 X f4 l4 g4 u4 a4 => ?_
  refine Sim.new (hIcaWhitening_sim cfg nc a4) fun h5 wh WH f5 l5 g5 u5 a5 => ?_
  refine Sim.new (sim_pure2 (f := Mat.mul) (N := Y.transpose) a5 (by has)) fun h6 X1 XV f6 l6 g6 u6 a6 => ?_
  refine Sim.tmp (sim_pure1 (f := fun M => .ok (M.smul (HasSqrt.sqrt (D.rows : α)))) a6) fun h7 X2 f7 l7 g7 u7 a7 => ?_
  refine Sim.new (hUnmix_sim cfg hg nc a7) fun h8 W WV f8 l8 g8 u8 a8 => ?_
  refine Sim.new' (sim_pure2 (f := Mat.mul) (N := WH) a8 (by has)) fun h9 c1 C f9 l9 g9 u9 a9 e9 => ?_
  refine Sim.new (sim_pure2 (f := Mat.mul) (N := Y.transpose) a9 (by has)) fun h10 s SV f10 l10 g10 u10 a10 => ?_
  refine Sim.tmp (sim_transpose a10) fun h11 st f11 l11 g11 u11 a11 => ?_
  have k : Heap.Sim [] h11 (mPure2 Mat.mul W wh) (.ok C) (New h11) := by
    rw [← e9]
    exact sim_pure2 (f := Mat.mul) (M := WV) (N := WH) (by has) (by has)
  refine Sim.tmp k fun h12 comp f12 l12 g12 u12 a12 => ?_
  refine Sim.new (sim_pure1 (f := Mat.inverse cfg.lstsq) a12) fun h13 mix MX f13 l13 g13 u13 a13 => ?_
  have w1 : Has h13 m mv := by has
  have w2 : Has h13 st SV.transpose := by has
  have w3 : Has h13 wh WH := by has
  have w4 : Has h13 comp C := by has
  refine Sim.ret ⟨⟨rfl, rfl, ⟨mv, rfl, w1⟩, w4, w2, a13, w3⟩, ?_, st, rfl, by omega, ?_⟩
  · intro r hr
    have hr' : r = m ∨ r = comp ∨ r = st ∨ r = mix ∨ r = wh := by simpa [icaRepr] using hr
    rcases hr' with rfl | rfl | rfl | rfl | rfl
    · rcases n3 with n3 | n3
      · exact .inl (by omega)
      · refine .inr ?_
        simp [icaRepr, n3]
    all_goals exact .inl (by omega)
  · intro hr
    have hr' : st = m ∨ st = comp ∨ st = mix ∨ st = wh := by simpa [icaRepr] using hr
    omega

theorem hIcaPlain_sim (cfg : IcaCfg α) {gh : Nat → H α (Nat × Nat)} (hg : GOk gh cfg.g) {h : Heap α} {a : IcaAttrs} {o : IcaObj α}
    (ha : icaRepr.On o h a) (hb : ∀ r ∈ icaRepr.refs (α := α) a, r < h.nobj) (nc : Nat) {data : Nat} {D : Mat α} (hd : Has h data D) :
    Heap.Sim [] h (hIcaPlain cfg gh a nc data) (do
      let X := D.transpose
      let W ← unmix cfg nc X
      let s ← W.mul X
      let mix ← W.inverse cfg.lstsq
      .ok { o with numComponents := nc, components := some W, sources := some s.transpose, mixing := some mix, initialised := true })
      (IcaFresh a h) := by
  unfold hIcaPlain
  have ld := hd.1
  refine Sim.tmp (sim_transpose hd) fun h1 X f1 l1 g1 u1 a1 => ?_
  refine Sim.new (hUnmix_sim cfg hg nc a1) fun h2 W WV f2 l2 g2 u2 a2 => ?_
  refine Sim.new (sim_pure2 (f := Mat.mul) (N := D.transpose) a2 (by has)) fun h3 s SV f3 l3 g3 u3 a3 => ?_
  refine Sim.tmp (sim_transpose a3) fun h4 st f4 l4 g4 u4 a4 => ?_
  refine Sim.new (sim_pure1 (f := Mat.inverse cfg.lstsq) (M := WV) (by has)) fun h5 mix MX f5 l5 g5 u5 a5 => ?_
  have w1 : Has h5 W WV := by has
  have w2 : Has h5 st SV.transpose := by has
  have fr := nil_trans (nil_trans (nil_trans f1 f2) (nil_trans f3 f4)) f5
  obtain ⟨m1, m2, m3, m4, m5, m6, m7⟩ := icaRepr.mono fr (fun _ _ => List.not_mem_nil) ha
  refine Sim.ret ⟨⟨rfl, rfl, m3, w1, w2, a5, m7⟩, ?_, st, rfl, by omega, ?_⟩
  · intro r hr
    have hr' : r ∈ a.center.join.toList ∨ r = W ∨ r = st ∨ r = mix ∨ r ∈ a.whitening.toList := by simpa [icaRepr] using hr
    rcases hr' with h | rfl | rfl | rfl | h
    · exact .inr (by simp only [icaRepr, List.mem_append]; exact .inl h)
    · exact .inl (by omega)
    · exact .inl (by omega)
    · exact .inl (by omega)
    · exact .inr (by simp only [icaRepr, List.mem_append]; exact .inr (.inr (.inr (.inr h))))
  · intro hr
    have hr' : st ∈ a.center.join.toList ∨ st = W ∨ st = mix ∨ st ∈ a.whitening.toList := by simpa [icaRepr] using hr
    rcases hr' with h | h | h | h
    · have := hb st (by simp only [icaRepr, List.mem_append]; exact .inl h); omega
    · omega
    · omega
    · have := hb st (by simp only [icaRepr, List.mem_append]; exact .inr (.inr (.inr (.inr h)))); omega

theorem hIcaConfigure_sim (cfg : IcaCfg α) {gh : Nat → H α (Nat × Nat)} (hg : GOk gh cfg.g) {h : Heap α} {a : IcaAttrs} {o : IcaObj α}
    (ha : icaRepr.On o h a) (hb : ∀ r ∈ icaRepr.refs (α := α) a, r < h.nobj) {data : Nat} {D : Mat α} (hd : Has h data D) :
    Heap.Sim [] h (hIcaConfigure cfg gh a data) (icaConfigure cfg o D) (IcaFresh a h) := by
  unfold hIcaConfigure icaConfigure
  refine Sim.look hd ?_
  dsimp only
  cases hw : cfg.whiten with
  | true =>
    rw [if_pos rfl, if_pos rfl, if_pos rfl, ← ha.1]
    exact hIcaWhitened_sim cfg hg ha _ hd
  | false =>
    rw [if_neg (by decide), if_neg (by decide), if_neg (by decide)]
    exact hIcaPlain_sim cfg hg ha hb _ hd

/-- `transform`, `_FastICA.py` 237-251: resets, trains and returns the attribute `sources` itself. -/
def hIcaTransform (cfg : IcaCfg α) (gh : Nat → H α (Nat × Nat)) (a : IcaAttrs) (data : Nat) : H α (IcaAttrs × Nat) := do
  let b ← hIcaConfigure cfg gh { a with components := none, mixing := none, whitening := none, initialised := false } data
  match b.sources with
  | none => H.lift (.error .typeError)
  | some s => pure (b, s)

theorem hIcaTransform_sim (cfg : IcaCfg α) {gh : Nat → H α (Nat × Nat)} (hg : GOk gh cfg.g) {h : Heap α} {a : IcaAttrs} {o : IcaObj α}
    (ha : icaRepr.On o h a) (hb : ∀ r ∈ icaRepr.refs (α := α) a, r < h.nobj) {data : Nat} {D : Mat α} (hd : Has h data D) :
    Heap.Sim [] h (hIcaTransform cfg gh a data) (icaTransform cfg o D) fun h' b c =>
      IcaFresh a h h' b.1 c.1 ∧ b.1.sources = some b.2 ∧ New h h' b.2 c.2 := by
  unfold hIcaTransform icaTransform
  have hr : ∀ r ∈ icaRepr.refs (α := α) { a with components := none, mixing := none, whitening := none, initialised := false },
      r ∈ icaRepr.refs (α := α) a := by
    intro r h
    simp only [icaRepr, List.mem_append, Option.toList_none, List.not_mem_nil, or_false, false_or] at h ⊢
    rcases h with h | h
    · exact .inl h
    · exact .inr (.inr (.inl h))
  obtain ⟨m1, m2, m3, m4, m5, m6, m7⟩ := ha
  refine Sim.bind (hIcaConfigure_sim cfg hg (o := icaReset o)
    (a := { a with components := none, mixing := none, whitening := none, initialised := false }) ⟨m1, rfl, m3, trivial, m5, trivial, trivial⟩ (fun r h => hb r (hr r h)) hd)
    (fun _ h => h) ?_
  rintro h1 b c f1 ⟨n1, n2, s, n3, n4, n5⟩
  have ns : OptHas h1 b.sources c.sources := n1.2.2.2.2.1
  rw [n3] at ns ⊢
  dsimp only
  cases hc : c.sources with
  | none => rw [hc] at ns; exact absurd ns id
  | some v =>
    rw [hc] at ns
    exact Sim.ret ⟨⟨n1, fun r h => (n2 r h).imp id (hr r), s, n3, n4, n5⟩, n3, n4, ns⟩

/-- `self.center.inverse_transform(A)`, `_AbstractTransformation.py` 38-51 and `_Center.py` 42-45: a `Center` that is not configured configures
itself with the argument. -/
def hCenterBack (a : Option Nat) (A : Nat) : H α (Nat × Nat) :=
  match a with
  | none => do
    let m ← mPure1 (fun M => .ok M.columnMeans) A
    let r ← hCenterApply (· + ·) m A
    pure (m, r)
  | some m => do
    let r ← hCenterApply (· + ·) m A
    pure (m, r)

omit [LinearOrder α] [HasSqrt α] in
theorem hCenterBack_sim {h : Heap α} {a : Option Nat} {s : CenterState α} (hs : OptCen h (some a) (some s)) {A : Nat} {M : Mat α}
    (hA : Has h A M) : Heap.Sim [] h (hCenterBack a A) (do
      let b ← (inverseTransform center M s).2
      .ok ((inverseTransform center M s).1, b)) fun h' b c => New h h' b.2 c.2 ∧ cenRepr.On c.1 h' b.1 ∧ (h.nobj ≤ b.1 ∨ a = some b.1) := by
  match a, hs with
  | none, hs =>
    have hs : s = center.init := hs
    subst hs
    unfold hCenterBack
    refine Sim.tmp (sim_pure1 (f := fun M => .ok M.columnMeans) hA) fun h1 m f1 l1 g1 u1 a1 => ?_
    have on : cenRepr.On (⟨true, some M.columnMeans⟩ : CenterState α) h1 m := ⟨_, rfl, a1⟩
    refine Sim.new (hCenterApply_sim on (hA.mono f1 List.not_mem_nil)).2 fun h2 r R f2 l2 g2 u2 a2 => ?_
    exact Sim.ret ⟨⟨by show h.nobj ≤ r; omega, a2⟩, cenRepr.mono f2 (fun _ _ => List.not_mem_nil) on, .inl g1⟩
  | some m, hs =>
    have hs : cenRepr.On s h m := hs
    unfold hCenterBack
    refine Sim.new (hCenterApply_sim hs hA).2 fun h1 r R f1 l1 g1 u1 a1 => ?_
    refine Sim.ret ⟨⟨g1, a1⟩, ?_, .inr rfl⟩
    have e : (inverseTransform center M s).1 = s := by
      obtain ⟨v, rfl, -⟩ := hs
      rfl
    dsimp only
    rw [e]
    exact cenRepr.mono f1 (fun _ _ => List.not_mem_nil) hs

/-- `reconstruct`, `_FastICA.py` 253-257. -/
def hIcaReconstruct (a : IcaAttrs) : H α (IcaAttrs × Nat) :=
  if a.initialised then
    match a.sources, a.mixing, a.center with
    | some s, some m, some c => do
      let mt ← mTranspose m
      let r ← mPure2 Mat.mul s mt
      let rt ← mTranspose r
      let b ← hCenterBack c rt
      let bt ← mTranspose b.2
      pure ({ a with center := some (some b.1) }, bt)
    | _, _, _ => H.lift (.error .attributeError)
  else H.lift (.error .matrixAlgorithms)

omit [LinearOrder α] [HasSqrt α] in
theorem icaReconstruct_eq {o : IcaObj α} {s m : Mat α} {c : CenterState α} (hi : o.initialised = true) (hs : o.sources = some s)
    (hm : o.mixing = some m) (hc : o.center = some c) : icaReconstruct o = (do
      let r ← s.mul m.transpose
      let b ← (do
        let b ← (inverseTransform center r.transpose c).2
        .ok ((inverseTransform center r.transpose c).1, b) : Except PyErr (CenterState α × Mat α))
      .ok ({ o with center := some b.1 }, b.2.transpose)) := by
  unfold icaReconstruct
  rw [if_pos hi, hs, hm, hc]
  simp only [bind_assoc, except_bind_ok]

omit [LinearOrder α] [HasSqrt α] in
theorem hIcaReconstruct_sim {h : Heap α} {a : IcaAttrs} {o : IcaObj α} (ha : icaRepr.On o h a) :
    Heap.Sim [] h (hIcaReconstruct a) (icaReconstruct o) fun h' b c => icaRepr.On c.1 h' b.1 ∧ New h h' b.2 c.2 ∧
      ∀ r ∈ icaRepr.refs (α := α) b.1, h.nobj ≤ r ∨ r ∈ icaRepr.refs (α := α) a := by
  have ha' := ha
  obtain ⟨m1, m2, m3, m4, m5, m6, m7⟩ := ha
  unfold hIcaReconstruct
  have er : ∀ (e : PyErr) (R : Heap α → IcaAttrs × Nat → IcaObj α × Mat α → Prop), Heap.Sim [] h (H.lift (.error e)) (.error e) R :=
    fun e _ hw => ⟨.refl _ hw, .error _⟩
  cases hi : o.initialised with
  | false =>
    rw [m2, hi, if_neg (by decide)]
    have : icaReconstruct o = .error .matrixAlgorithms := by
      unfold icaReconstruct
      rw [hi, if_neg (by decide)]
    rw [this]
    exact er _ _
  | true =>
    rw [m2, hi, if_pos rfl]
    rcases a with ⟨an, ac, acomp, as, am, aw, ai⟩
    rcases o with ⟨on, oc, ocomp, os, om, ow, oi⟩
    dsimp only at *
    subst hi
    have bad : (os = none ∨ om = none ∨ oc = none) →
        icaReconstruct (⟨on, oc, ocomp, os, om, ow, true⟩ : IcaObj α) = .error .attributeError := by
      intro hn
      unfold icaReconstruct
      rw [if_pos rfl]
      dsimp only
      rcases hn with rfl | rfl | rfl
      · rfl
      · cases os <;> rfl
      · cases os <;> cases om <;> rfl
    match as, os, m5 with
    | none, none, _ => rw [bad (.inl rfl)]; exact er _ _
    | some s, some S, m5 =>
      match am, om, m6 with
      | none, none, _ => rw [bad (.inr (.inl rfl))]; exact er _ _
      | some m, some MX, m6 =>
        match ac, oc, m3 with
        | none, none, _ => rw [bad (.inr (.inr rfl))]; exact er _ _
        | some none, none, m3 => exact absurd m3 id
        | some (some _), none, m3 => exact absurd m3 id
        | some c, some C, m3 =>
          have hs : Has h s S := m5
          have hm : Has h m MX := m6
          have ls := hs.1
          rw [icaReconstruct_eq rfl rfl rfl rfl]
          dsimp only
          refine Sim.tmp (sim_transpose hm) fun h1 mt f1 l1 g1 u1 a1 => ?_
          refine Sim.new (sim_pure2 (f := Mat.mul) (M := S) (by has) a1) fun h2 r R f2 l2 g2 u2 a2 => ?_
          refine Sim.tmp (sim_transpose a2) fun h3 rt f3 l3 g3 u3 a3 => ?_
          have fr := nil_trans (nil_trans f1 f2) f3
          have hc : OptCen h3 (some c) (some C) := OptCen.mono fr (fun _ _ => List.not_mem_nil) m3
          refine Sim.bind (hCenterBack_sim hc a3) (fun _ h => h) ?_
          rintro h4 ⟨b1, b2⟩ ⟨c1, c2⟩ f4 ⟨n1, n2, n3⟩
          dsimp only at n1 n2 n3 ⊢
          refine Sim.tmp (sim_transpose n1.2) fun h5 bt f5 l5 g5 u5 a5 => ?_
          have l4 := f4.le
          obtain ⟨k1, k2, k3, k4, k5, k6, k7⟩ := icaRepr.mono (nil_trans (nil_trans fr f4) f5) (fun _ _ => List.not_mem_nil) ha'
          refine Sim.ret ⟨⟨k1, rfl, cenRepr.mono f5 (fun _ _ => List.not_mem_nil) n2, k4, k5, k6, k7⟩, ⟨by show h.nobj ≤ bt; omega, a5⟩, ?_⟩
          intro q hq
          simp only [icaRepr, Option.join_some, List.mem_append] at hq ⊢
          rcases hq with hq | hq
          · have hq : q = b1 := by simpa using hq
            subst hq
            rcases n3 with n3 | n3
            · exact .inl (by omega)
            · refine .inr (.inl ?_)
              rw [n3]
              simp
          · exact .inr (.inr hq)

end fns

end Verif
