import Verif.Alg.Pls1Heap
import Verif.Alg.WrapHeap
import Verif.Alg.VCPLS
import Verif.Alg.SIMPLS
import Verif.Alg.OPLS

/-!
# VCPLS, SIMPLS and OPLS on matrix objects

`src/wai/ma/algorithm/pls/_VCPLS.py`, `_SIMPLS.py` and `_OPLS.py`, statement by statement on objects.
-/

namespace Verif
open Mat Heap

variable {α : Type}

/-! ## VCPLS -/

section vcpls
variable [Field α] [DecidableEq α]

/-- `calculate_weights`, `_VCPLS.py` 51-62. -/
def hVcplsWeights (ops : Ops α) (lstsq : Mat α → Except PyErr (Mat α)) (lam nu : α) (X y : Nat) : H α Nat := do
  let E ← getContents X
  let I ← mCreate (Factory.eye (E.cols : Int))
  let xt ← mTranspose X
  let a ← mPure2 Mat.mul xt y
  let yt ← mTranspose y
  let b ← mPure2 Mat.mul a yt
  let c ← mPure2 Mat.mul b X
  let li ← mPure1 (fun M => .ok (M.smul lam)) I
  let g1 ← mPure2 Mat.sub c li
  let xt ← mTranspose X
  let g2 ← mPure2 Mat.mul xt X
  let ni ← mPure1 (fun M => .ok (M.smul nu)) I
  let s ← mPure2 Mat.add g2 ni
  let i ← mPure1 (fun M => M.inverse lstsq) s
  mPure2 Mat.mul i g1 >>= mDominant ops

/-- The configuration of the function model. -/
def vcplsOf (ops : Ops α) (lstsq : Mat α → Except PyErr (Mat α)) (lam nu : α) : VcplsCfg α where
  lam := lam
  nu := nu
  eig M := do let r ← ops.eig M; .ok (r.1.transpose, r.2)
  le := ops.le
  lstsq := lstsq

theorem hVcplsWeights_computes (ops : Ops α) (lstsq : Mat α → Except PyErr (Mat α)) (lam nu : α) :
    Computes (hVcplsWeights ops lstsq lam nu) (vcplsWeights (vcplsOf ops lstsq lam nu)) := by
  intro h X y A B hX hy
  unfold hVcplsWeights vcplsWeights vcplsTerm vcplsOf
  have lX := hX.1
  have ly := hy.1
  have e : ∀ T : Mat α, (do
      let r ← (do let r ← ops.eig T; .ok (r.1.transpose, r.2) : Except PyErr (Mat α × Mat α))
      dominantEigenvector ops.le T.rows r.1 r.2) = dominant ops T := by
    intro T
    unfold dominant
    cases ops.eig T <;> rfl
  simp only [bind_assoc, e]
  refine Sim.look hX ?_
  refine Sim.new (sim_create _) fun h1 I IV f1 l1 g1 u1 a1 => ?_
  refine Sim.tmp (sim_transpose (M := A) (by has)) fun h2 xt f2 l2 g2 u2 a2 => ?_
  refine Sim.new (sim_pure2 (f := Mat.mul) (N := B) a2 (by has)) fun h3 a AV f3 l3 g3 u3 a3 => ?_
  refine Sim.tmp (sim_transpose (M := B) (by has)) fun h4 yt f4 l4 g4 u4 a4 => ?_
  refine Sim.new (sim_pure2 (f := Mat.mul) (M := AV) (by has) a4) fun h5 b BV f5 l5 g5 u5 a5 => ?_
  refine Sim.new (sim_pure2 (f := Mat.mul) (N := A) a5 (by has)) fun h6 c CV f6 l6 g6 u6 a6 => ?_
  refine Sim.tmp (sim_pure1 (f := fun M => .ok (M.smul lam)) (M := IV) (by has)) fun h7 li f7 l7 g7 u7 a7 => ?_
  refine Sim.new (sim_pure2 (f := Mat.sub) (M := CV) (by has) a7) fun h8 g1' GV f8 l8 g8 u8 a8 => ?_
  refine Sim.tmp (sim_transpose (M := A) (by has)) fun h9 xt' f9 l9 g9 u9 a9 => ?_
  refine Sim.new (sim_pure2 (f := Mat.mul) (N := A) a9 (by has)) fun h10 g2' G2 f10 l10 g10 u10 a10 => ?_
  refine Sim.tmp (sim_pure1 (f := fun M => .ok (M.smul nu)) (M := IV) (by has)) fun h11 ni f11 l11 g11 u11 a11 => ?_
  refine Sim.new (sim_pure2 (f := Mat.add) (M := G2) (by has) a11) fun h12 s SV f12 l12 g12 u12 a12 => ?_
  refine Sim.new (sim_pure1 (f := fun M => M.inverse lstsq) a12) fun h13 i IN f13 l13 g13 u13 a13 => ?_
  exact (sim_pure2_dominant ops (f := Mat.mul) (N := GV) a13 (by has)).post fun h14 b c _ hn => ⟨by have := hn.1; omega, hn.2⟩

end vcpls

/-! ## SIMPLS -/

section simpls
variable [Field α] [LinearOrder α] [HasSqrt α]

/-- Local variables of the training loop. -/
structure SimplsRefs where
  A : Nat
  M : Nat
  C : Nat
  W : Nat
  P : Nat
  Q : Nat

/-- Attributes set by training, `_SIMPLS.py` 168-170. -/
structure SimplsAttrs where
  W : Nat
  B : Nat
  Q : Nat

/-- One pass of the training loop, `_SIMPLS.py` 132-162. -/
def hSimplsStep (ops : Ops α) (h : Int) (s : SimplsRefs) : H α SimplsRefs := do
  let at' ← mTranspose s.A
  let q ← mPure2 Mat.mul at' s.A >>= mDominant ops
  let w ← mPure2 Mat.mul s.A q
  let wt ← mTranspose w
  let wm ← mPure2 Mat.mul wt s.M
  let c ← mPure2 Mat.mul wm w
  let cr ← mScalar1 Mat.asReal c
  let w ← mPure1 (fun M => .ok (M.smul (1 / HasSqrt.sqrt cr))) w
  mSetColumn s.W h w
  let p ← mPure2 Mat.mul s.M w
  let pt ← mTranspose p
  mSetColumn s.P h p
  let q ← mPure2 Mat.mul at' w
  mSetColumn s.Q h q
  let v ← mPure2 Mat.mul s.C p
  let v ← mPure1 Mat.normalized v
  let vt ← mTranspose v
  let vv ← mPure2 Mat.mul v vt
  let C ← mPure2 Mat.sub s.C vv
  let pp ← mPure2 Mat.mul p pt
  let M ← mPure2 Mat.sub s.M pp
  let A ← mPure2 Mat.mul C s.A
  pure ⟨A, M, C, s.W, s.P, s.Q⟩

/-- `slim`, `_SIMPLS.py` 94-113, in place; `B` is the copy made on line 101. -/
def hSlim (count : Int) (W : Nat) : H α Unit := do
  let B ← getContents W
  mLoop (fun i (_ : Unit) => do
    let l ← mPure1 (fun M => M.getColumn i) W
    let L ← getContents l
    let val ← H.lift (do
      let ld := L.toRawCopy1D.map fun x => |x|
      let srt ← Utils.sort realCmp true (ld.length + 1) ld
      let index ← Utils.item srt (max ((srt.length : Int) - 1 - count) 0)
      Utils.item ld (index : Int))
    let M ← getContents W
    mLoop (fun c (_ : Unit) => do
      let b ← H.lift (B.get c i)
      if |b| < val then mSet W c i 0 else pure ()) (pyRange 0 M.rows) ()) (pyRange 0 B.cols) ()

/-- `do_perform_initialization`, `_SIMPLS.py` 115-172. -/
def hSimplsTrain (ops : Ops α) (K count : Int) (X y : Nat) : H α SimplsAttrs := do
  let D ← getContents X
  let xt ← mTranspose X
  let A ← mPure2 Mat.mul xt y
  let M ← mPure2 Mat.mul xt X
  let C ← mCreate (Factory.eye (D.cols : Int) (D.cols : Int))
  let W ← mCreate (Factory.zeros (D.cols : Int) K)
  let P ← mCreate (Factory.zeros (D.cols : Int) K)
  let Q ← mCreate (Factory.zeros 1 K)
  let s ← mLoop (hSimplsStep ops) (pyRange 0 K) ⟨A, M, C, W, P, Q⟩
  let _ ← if count > 0 then hSlim count s.W else pure ()
  let qt ← mTranspose s.Q
  let B ← mPure2 Mat.mul s.W qt
  pure ⟨s.W, B, s.Q⟩

/-- The matrices of a trained object. -/
def simplsRepr : Repr α (SimplsModel α) SimplsAttrs where
  refs a := [a.W, a.B, a.Q]
  On m h a := Has h a.W m.W ∧ Has h a.B m.B ∧ Has h a.Q m.Q
  mono hf hr hm := by
    simp only [List.mem_cons, List.not_mem_nil, or_false, forall_eq_or_imp, forall_eq] at hr
    exact ⟨hm.1.mono hf hr.1, hm.2.1.mono hf hr.2.1, hm.2.2.mono hf hr.2.2⟩

/-- The local variables hold the values of the function model; the matrices changed in place are distinct objects. -/
structure SimplsHolds (W P Q : Nat) (h : Heap α) (s : SimplsRefs) (v : SimplsVars α) : Prop where
  eW : s.W = W
  eP : s.P = P
  eQ : s.Q = Q
  hA : Has h s.A v.A
  hM : Has h s.M v.M
  hC : Has h s.C v.C
  nA : s.A < W ∨ Q < s.A
  nM : s.M < W ∨ Q < s.M
  nC : s.C < W ∨ Q < s.C
  hW : Has h W v.W
  hP : Has h P v.P
  hQ : Has h Q v.Q

omit [LinearOrder α] in
theorem hSimplsStep_sim (ops : Ops α) {h0 h : Heap α} {W P Q : Nat} (h1 : W < P) (h2 : P < Q) (k : Int) (s : SimplsRefs)
    (v : SimplsVars α) (h0h : Frame [Q, P, W] h0 h) (hi : SimplsHolds W P Q h s v) :
    Heap.Sim [Q, P, W] h (hSimplsStep ops k s) (simplsStep (dominant ops) k v) (SimplsHolds W P Q) := by
  obtain ⟨A, M, C, W', P', Q'⟩ := s
  obtain ⟨rfl, rfl, rfl, hA, hM, hC, nA, nM, nC, hW, hP, hQ⟩ := hi
  dsimp only at *
  unfold hSimplsStep simplsStep
  have lA := hA.1
  have lM := hM.1
  have lC := hC.1
  have lQ := hQ.1
  refine Sim.tmp (sim_transpose hA) fun h4 at' f4 l4 g4 u4 a4 => ?_
  rw [← bind_assoc (v.A.transpose.mul v.A)]
  refine Sim.new (sim_pure2_dominant ops (f := Mat.mul) (N := v.A) a4 (by has)) fun h5 q Qv f5 l5 g5 u5 a5 => ?_
  refine Sim.new (sim_pure2 (f := Mat.mul) (M := v.A) (by has) a5) fun h6 w Wv f6 l6 g6 u6 a6 => ?_
  refine Sim.tmp (sim_transpose a6) fun h7 wt f7 l7 g7 u7 a7 => ?_
  refine Sim.new (sim_pure2 (f := Mat.mul) (N := v.M) a7 (by has)) fun h8 wm WM f8 l8 g8 u8 a8 => ?_
  refine Sim.new (sim_pure2 (f := Mat.mul) (N := Wv) a8 (by has)) fun h9 c Cv f9 l9 g9 u9 a9 => ?_
  refine Sim.num1 a9 fun cr => ?_
  refine Sim.tmp (sim_pure1 (f := fun M => .ok (M.smul (1 / HasSqrt.sqrt cr))) (M := Wv) (by has)) fun h10 w' f10 l10 g10 u10 a10 => ?_
  refine Sim.upd (sim_setColumn (M := v.W) (by has) a10 k) (by simp) fun h11 W2 f11 l11 a11 => ?_
  refine Sim.new (sim_pure2 (f := Mat.mul) (M := v.M) (N := Wv.smul (1 / HasSqrt.sqrt cr)) (by has) (by has))
    fun h12 p Pv f12 l12 g12 u12 a12 => ?_
  refine Sim.tmp (sim_transpose a12) fun h13 pt f13 l13 g13 u13 a13 => ?_
  refine Sim.upd (sim_setColumn (M := v.P) (V := Pv) (by has) (by has) k) (by simp) fun h14 P2 f14 l14 a14 => ?_
  refine Sim.new (sim_pure2 (f := Mat.mul) (M := v.A.transpose) (N := Wv.smul (1 / HasSqrt.sqrt cr)) (by has) (by has))
    fun h15 q' Q1 f15 l15 g15 u15 a15 => ?_
  refine Sim.upd (sim_setColumn (M := v.Q) (by has) a15 k) (by simp) fun h16 Q2 f16 l16 a16 => ?_
  refine Sim.new (sim_pure2 (f := Mat.mul) (M := v.C) (N := Pv) (by has) (by has)) fun h17 v1 V1 f17 l17 g17 u17 a17 => ?_
  refine Sim.new (sim_pure1 (f := Mat.normalized) a17) fun h18 v2 V2 f18 l18 g18 u18 a18 => ?_
  refine Sim.tmp (sim_transpose a18) fun h19 vt f19 l19 g19 u19 a19 => ?_
  refine Sim.new (sim_pure2 (f := Mat.mul) (M := V2) (by has) a19) fun h20 vv VV f20 l20 g20 u20 a20 => ?_
  refine Sim.new (sim_pure2 (f := Mat.sub) (M := v.C) (by has) a20) fun h21 C' CC f21 l21 g21 u21 a21 => ?_
  refine Sim.new (sim_pure2 (f := Mat.mul) (M := Pv) (N := Pv.transpose) (by has) (by has)) fun h22 pp PP f22 l22 g22 u22 a22 => ?_
  refine Sim.new (sim_pure2 (f := Mat.sub) (M := v.M) (by has) a22) fun h23 M' MM f23 l23 g23 u23 a23 => ?_
  refine Sim.new (sim_pure2 (f := Mat.mul) (M := CC) (N := v.A) (by has) (by has)) fun h24 A' AA f24 l24 g24 u24 a24 => ?_
  exact Sim.ret ⟨rfl, rfl, rfl, by has, by has, by has, by right; show Q' < A'; omega, by right; show Q' < M'; omega,
    by right; show Q' < C'; omega, by has, by has, by has⟩

omit [HasSqrt α] in
theorem hSlim_sim {h : Heap α} {W : Nat} {B : Mat α} (hW : Has h W B) (count : Int) :
    Heap.Sim [W] h (hSlim count W) (slim count B) fun h' _ M' => Has h' W M' := by
  unfold hSlim slim
  have lW := hW.1
  refine Sim.look hW ?_
  intro hw
  refine Sim.loop (h0 := h) (fun h' (_ : Unit) v => Has h' W v) _ ?_ h () B (.refl _ hw) hW hw
  intro i _ h1 _ R f1 hR
  unfold slimColumn
  have l1 := f1.le
  refine Sim.new (sim_pure1 (f := fun M => M.getColumn i) hR) fun h2 l L f2 l2 g2 u2 a2 => ?_
  refine Sim.look a2 ?_
  rw [← bind_assoc, ← bind_assoc]
  simp only [bind_assoc]
  have e : ∀ (g : α → Except PyErr (Mat α)), (do
      let srt ← Utils.sort realCmp true ((L.toRawCopy1D.map fun x => |x|).length + 1) (L.toRawCopy1D.map fun x => |x|)
      let index ← Utils.item srt (max ((srt.length : Int) - 1 - count) 0)
      let val ← Utils.item (L.toRawCopy1D.map fun x => |x|) (index : Int)
      g val) = ((do
      let srt ← Utils.sort realCmp true ((L.toRawCopy1D.map fun x => |x|).length + 1) (L.toRawCopy1D.map fun x => |x|)
      let index ← Utils.item srt (max ((srt.length : Int) - 1 - count) 0)
      Utils.item (L.toRawCopy1D.map fun x => |x|) (index : Int) : Except PyErr α) >>= g) := by
    intro g
    simp only [bind_assoc]
  rw [e]
  refine Sim.val fun val => ?_
  refine Sim.look (M := R) (by has) ?_
  intro hw2
  refine Sim.loop (h0 := h2) (fun h' (_ : Unit) v => Has h' W v) _ ?_ h2 () R (.refl _ hw2) (by has) hw2
  intro c _ h3 _ R' f3 hR'
  unfold slimCell
  refine Sim.val fun b => ?_
  split
  · exact sim_set hR' c i 0
  · exact Sim.ret hR'

/-- Training refines the function model: it changes no object that existed before, and the matrices of the model are new objects. -/
theorem hSimplsTrain_sim (ops : Ops α) {h : Heap α} {X y : Nat} {C D : Mat α} (hX : Has h X C) (hy : Has h y D) (K count : Int) :
    Heap.Sim [] h (hSimplsTrain ops K count X y) (simplsTrain (dominant ops) K count C D) (simplsRepr.Fresh h) := by
  unfold hSimplsTrain simplsTrain simplsInit
  have lX := hX.1
  have ly := hy.1
  simp only [bind_assoc, except_bind_ok]
  refine Sim.look hX ?_
  refine Sim.tmp (sim_transpose hX) fun h1 xt f1 l1 g1 u1 a1 => ?_
  refine Sim.new (sim_pure2 (f := Mat.mul) (N := D) a1 (by has)) fun h2 A Av f2 l2 g2 u2 a2 => ?_
  refine Sim.new (sim_pure2 (f := Mat.mul) (M := C.transpose) (N := C) (by has) (by has)) fun h3 M Mv f3 l3 g3 u3 a3 => ?_
  refine Sim.new (sim_create _) fun h4 C0 Cv f4 l4 g4 u4 a4 => ?_
  refine Sim.own (sim_create _) fun h5 W Wv f5 l5 g5 u5 a5 => ?_
  refine Sim.own (sim_create _) fun h6 P Pv f6 l6 g6 u6 a6 => ?_
  refine Sim.own (sim_create _) fun h7 Q Qv f7 l7 g7 u7 a7 => ?_
  refine Sim.bind (Sim.loop (h0 := h7) (SimplsHolds W P Q) _ (fun k _ h' s v h0h hi =>
      hSimplsStep_sim ops (by omega) (by omega) k s v h0h hi) h7 ⟨A, M, C0, W, P, Q⟩ ⟨Av, Mv, Cv, Wv, Pv, Qv⟩
      (.refl _ f7.wf) ⟨rfl, rfl, rfl, by has, by has, by has, by left; show A < W; omega, by left; show M < W; omega,
        by left; show C0 < W; omega, by has, by has, by has⟩) (fun _ h => h) ?_
  rintro h8 ⟨A', M', C', W', P', Q'⟩ v f8 ⟨rfl, rfl, rfl, -, -, -, -, -, -, hW, hP, hQ⟩
  dsimp only at *
  have l8 := f8.le
  have tail : ∀ h9 W2, Frame [W'] h8 h9 → Has h9 W' W2 → Heap.Sim [Q', P', W'] h9 (do
      let qt ← mTranspose Q'
      let B ← mPure2 Mat.mul W' qt
      pure ⟨W', B, Q'⟩) (W2.mul v.Q.transpose >>= fun B => .ok ⟨W2, B, v.Q⟩) (simplsRepr.Fresh h) := by
    intro h9 W2 f9 a9
    have l9 := f9.le
    refine Sim.tmp (sim_transpose (M := v.Q) (by has)) fun h10 qt f10 l10 g10 u10 a10 => ?_
    refine Sim.new (sim_pure2 (f := Mat.mul) (M := W2) (by has) a10) fun h11 B Bv f11 l11 g11 u11 a11 => ?_
    refine Sim.ret ⟨⟨by has, a11, by has⟩, ?_⟩
    show ∀ r ∈ [W', B, Q'], h.nobj ≤ r
    simp only [List.mem_cons, List.not_mem_nil, or_false, forall_eq_or_imp, forall_eq]
    omega
  split
  · exact Sim.upd (hSlim_sim hW count) (by simp) fun h9 W2 f9 _ a9 => tail h9 W2 f9 a9
  · exact tail h8 v.W (.refl _ f8.wf) hW

/-- `do_transform`, `_SIMPLS.py` 174-181. -/
def hSimplsTransform (a : SimplsAttrs) (X : Nat) : H α Nat := mPure2 Mat.mul X a.W

/-- `do_perform_predictions`, `_SIMPLS.py` 191-198. -/
def hSimplsPredict (a : SimplsAttrs) (X : Nat) : H α Nat := mPure2 Mat.mul X a.B

end simpls

/-! ## OPLS -/

section opls
variable [Field α] [HasSqrt α]

/-- Local variables and attributes in the training loop. -/
structure OplsRefs where
  X : Nat
  Xt : Nat
  W : Nat
  P : Nat
  T : Nat

/-- Attributes set by training. -/
structure OplsAttrs (A : Type) where
  W : Nat
  P : Nat
  T : Nat
  Xosc : Nat
  base : A

/-- `A.mul(v).mul(self.inv_L2_squared(v))`, `_OPLS.py` 129, 132, 137, 138. -/
def hOplsProj (A v : Nat) : H α Nat := do
  let r ← mPure2 Mat.mul A v
  let c ← mScalar1 (fun M => .ok (invL2 M)) v
  mPure1 (fun M => .ok (M.smul c)) r

/-- One component, `_OPLS.py` 127-146. -/
def hOplsStep (w : Nat) (k : Int) (s : OplsRefs) : H α OplsRefs := do
  let t ← hOplsProj s.X w
  let p ← hOplsProj s.Xt t
  let wt ← mTranspose w
  let c ← mPure2 Mat.mul wt p
  let n ← mScalar1 (fun M => .ok (invL2 M)) w
  let c ← mPure1 (fun M => .ok (M.smul n)) c
  let c ← mScalar1 Mat.asReal c
  let wc ← mPure1 (fun M => .ok (M.smul c)) w
  let v ← mPure2 Mat.sub p wc
  let wo ← mPure1 Mat.normalized v
  let tO ← hOplsProj s.X wo
  let po ← hOplsProj s.Xt tO
  let pot ← mTranspose po
  let d ← mPure2 Mat.mul tO pot
  let X ← mPure2 Mat.sub s.X d
  let Xt ← mTranspose X
  mSetColumn s.W k wo
  mSetColumn s.T k tO
  mSetColumn s.P k po
  pure ⟨X, Xt, s.W, s.P, s.T⟩

/-- `do_transform`, `_OPLS.py` 161-172. -/
def hOplsFilter (W P Z : Nat) : H α Nat := do
  let T ← mPure2 Mat.mul Z W
  let pt ← mTranspose P
  let o ← mPure2 Mat.mul T pt
  mPure2 Mat.sub Z o

/-- `do_perform_initialization`, `_OPLS.py` 103-149; `base` is `self.base_PLS.initialize`. -/
def hOplsTrain {A : Type} (base : Nat → Nat → H α A) (K : Int) (X0 y : Nat) : H α (OplsAttrs A) := do
  let D ← getContents X0
  let X ← mCopy X0
  let Xt ← mTranspose X
  let W ← mCreate (Factory.zeros (D.cols : Int) K)
  let P ← mCreate (Factory.zeros (D.cols : Int) K)
  let T ← mCreate (Factory.zeros (D.rows : Int) K)
  let a ← mPure2 Mat.mul Xt y
  let n ← mScalar1 (fun M => .ok (invL2 M)) y
  let a ← mPure1 (fun M => .ok (M.smul n)) a
  let w ← mPure1 Mat.normalized a
  let s ← mLoop (hOplsStep w) (pyRange 0 K) ⟨X, Xt, W, P, T⟩
  let xo ← mCopy s.X
  let F ← hOplsFilter s.W s.P X0
  let b ← base F y
  pure ⟨s.W, s.P, s.T, xo, b⟩

/-- `do_perform_predictions`, `_OPLS.py` 182-190. -/
def hOplsPredict {A : Type} (predict : A → Nat → H α Nat) (a : OplsAttrs A) (Z : Nat) : H α Nat := do
  let F ← hOplsFilter a.W a.P Z
  predict a.base F

theorem hOplsProj_sim {h : Heap α} {A v : Nat} {Av Vv : Mat α} (hA : Has h A Av) (hv : Has h v Vv) :
    Heap.Sim [] h (hOplsProj A v) (oplsProj Av Vv) (New h) := by
  unfold hOplsProj oplsProj
  have lA := hA.1
  have lv := hv.1
  refine Sim.new (sim_pure2 (f := Mat.mul) hA hv) fun h1 r R f1 l1 g1 u1 a1 => ?_
  refine Sim.numT (f := invL2) (M := Vv) (by has) ?_
  exact (sim_pure1 (f := fun M => .ok (M.smul (invL2 Vv))) a1).post fun h2 b _ _ hn => ⟨by have := hn.1; omega, hn.2⟩

omit [HasSqrt α] in
theorem hOplsFilter_sim {h : Heap α} {W P Z : Nat} {Wv Pv Zv : Mat α} (hW : Has h W Wv) (hP : Has h P Pv) (hZ : Has h Z Zv) :
    Heap.Sim [] h (hOplsFilter W P Z) (oplsFilter Wv Pv Zv) (New h) := by
  unfold hOplsFilter oplsFilter
  have lZ := hZ.1
  have lP := hP.1
  refine Sim.new (sim_pure2 (f := Mat.mul) hZ hW) fun h1 T Tv f1 l1 g1 u1 a1 => ?_
  refine Sim.tmp (sim_transpose (M := Pv) (by has)) fun h2 pt f2 l2 g2 u2 a2 => ?_
  refine Sim.new (sim_pure2 (f := Mat.mul) (M := Tv) (by has) a2) fun h3 o Ov f3 l3 g3 u3 a3 => ?_
  exact (sim_pure2 (f := Mat.sub) (M := Zv) (by has) a3).post fun h4 b c _ hn => ⟨by have := hn.1; omega, hn.2⟩

/-- The local variables hold the values of the function model; the matrices changed in place are distinct objects. -/
structure OplsHolds (W P T : Nat) (h : Heap α) (s : OplsRefs) (v : OplsVars α) : Prop where
  eW : s.W = W
  eP : s.P = P
  eT : s.T = T
  hX : Has h s.X v.X
  hXt : Has h s.Xt v.X.transpose
  nX : s.X < W ∨ T < s.X
  nXt : s.Xt < W ∨ T < s.Xt
  hW : Has h W v.W
  hP : Has h P v.P
  hT : Has h T v.T

theorem hOplsStep_sim {h0 h : Heap α} {W P T w : Nat} {wv : Mat α} (h1 : W < P) (h2 : P < T) (hw : Has h0 w wv) (hwT : T < w) (k : Int)
    (s : OplsRefs) (v : OplsVars α) (h0h : Frame [T, P, W] h0 h) (hi : OplsHolds W P T h s v) :
    Heap.Sim [T, P, W] h (hOplsStep w k s) (oplsStep wv k v) (OplsHolds W P T) := by
  obtain ⟨X, Xt, W', P', T'⟩ := s
  obtain ⟨rfl, rfl, rfl, hX, hXt, nX, nXt, hW, hP, hT⟩ := hi
  dsimp only at *
  unfold hOplsStep oplsStep oplsDir
  simp only [bind_assoc]
  have lX := hX.1
  have lXt := hXt.1
  have lT := hT.1
  have l0 := h0h.le
  have lw := hw.1
  have hw : Has h w wv := by has
  refine Sim.new (hOplsProj_sim hX hw) fun h4 t Tv f4 l4 g4 u4 a4 => ?_
  refine Sim.new (hOplsProj_sim (Av := v.X.transpose) (by has) a4) fun h5 p Pv f5 l5 g5 u5 a5 => ?_
  refine Sim.tmp (sim_transpose (M := wv) (by has)) fun h6 wt f6 l6 g6 u6 a6 => ?_
  refine Sim.new (sim_pure2 (f := Mat.mul) (N := Pv) a6 (by has)) fun h7 c Cv f7 l7 g7 u7 a7 => ?_
  refine Sim.numT (f := invL2) (M := wv) (by has) ?_
  refine Sim.tmp (sim_pure1 (f := fun M => .ok (M.smul (invL2 wv))) (M := Cv) (by has)) fun h9 c' f9 l9 g9 u9 a9 => ?_
  refine Sim.num1 a9 fun cr => ?_
  refine Sim.tmp (sim_pure1 (f := fun M => .ok (M.smul cr)) (M := wv) (by has)) fun h10 wc f10 l10 g10 u10 a10 => ?_
  refine Sim.new (sim_pure2 (f := Mat.sub) (M := Pv) (by has) a10) fun h11 d Dv f11 l11 g11 u11 a11 => ?_
  refine Sim.new (sim_pure1 (f := Mat.normalized) a11) fun h12 wo WO f12 l12 g12 u12 a12 => ?_
  refine Sim.new (hOplsProj_sim (Av := v.X) (by has) a12) fun h13 tO TO f13 l13 g13 u13 a13 => ?_
  refine Sim.new (hOplsProj_sim (Av := v.X.transpose) (by has) a13) fun h14 po PO f14 l14 g14 u14 a14 => ?_
  refine Sim.tmp (sim_transpose a14) fun h15 pot f15 l15 g15 u15 a15 => ?_
  refine Sim.new (sim_pure2 (f := Mat.mul) (M := TO) (by has) a15) fun h16 dd DD f16 l16 g16 u16 a16 => ?_
  refine Sim.new (sim_pure2 (f := Mat.sub) (M := v.X) (by has) a16) fun h17 X' Xv f17 l17 g17 u17 a17 => ?_
  refine Sim.tmp (sim_transpose a17) fun h18 Xt' f18 l18 g18 u18 a18 => ?_
  refine Sim.upd (sim_setColumn (M := v.W) (V := WO) (by has) (by has) k) (by simp) fun h19 W2 f19 l19 a19 => ?_
  refine Sim.upd (sim_setColumn (M := v.T) (V := TO) (by has) (by has) k) (by simp) fun h20 T2 f20 l20 a20 => ?_
  refine Sim.upd (sim_setColumn (M := v.P) (V := PO) (by has) (by has) k) (by simp) fun h21 P2 f21 l21 a21 => ?_
  exact Sim.ret ⟨rfl, rfl, rfl, by has, by has, by right; show T' < X'; omega, by right; show T' < Xt'; omega, by has, by has, by has⟩

/-- The matrices of a trained object. -/
def oplsRepr {A M : Type} (ρ : Repr α M A) : Repr α (OplsModel α M) (OplsAttrs A) where
  refs a := a.W :: a.P :: a.T :: a.Xosc :: ρ.refs a.base
  On m h a := Has h a.W m.W ∧ Has h a.P m.P ∧ Has h a.T m.T ∧ Has h a.Xosc m.Xosc ∧ ρ.On m.base h a.base
  mono hf hr hm := by
    simp only [List.mem_cons, forall_eq_or_imp] at hr
    exact ⟨hm.1.mono hf hr.1, hm.2.1.mono hf hr.2.1, hm.2.2.1.mono hf hr.2.2.1, hm.2.2.2.1.mono hf hr.2.2.2.1,
      ρ.mono hf hr.2.2.2.2 hm.2.2.2.2⟩

/-- Training refines the function model, for a base algorithm that does and raises nothing but exceptions. -/
theorem hOplsTrain_sim {A M : Type} {ρ : Repr α M A} {bh : Nat → Nat → H α A} {base : BasePls α M}
    (hb : ∀ h X Y C D, Has h X C → Has h Y D → Heap.Sim [] h (bh X Y) (do let _ ← (base.init C D).2; .ok (base.init C D).1) (ρ.Fresh h))
    {h : Heap α} {X y : Nat} {C D : Mat α} (hX : Has h X C) (hy : Has h y D) (K : Int) :
    Heap.Sim [] h (hOplsTrain bh K X y) (do let r ← oplsTrain base K C D; .ok r.1) ((oplsRepr ρ).Fresh h) := by
  unfold hOplsTrain oplsTrain oplsWeight
  have lX := hX.1
  have ly := hy.1
  simp only [bind_assoc, except_bind_ok]
  refine Sim.look hX ?_
  refine Sim.tmp (sim_copy hX) fun h1 X1 f1 l1 g1 u1 a1 => ?_
  refine Sim.tmp (sim_transpose a1) fun h2 Xt f2 l2 g2 u2 a2 => ?_
  refine Sim.own (sim_create _) fun h3 W Wv f3 l3 g3 u3 a3 => ?_
  refine Sim.own (sim_create _) fun h4 P Pv f4 l4 g4 u4 a4 => ?_
  refine Sim.own (sim_create _) fun h5 T Tv f5 l5 g5 u5 a5 => ?_
  refine Sim.new (sim_pure2 (f := Mat.mul) (M := C.transpose) (N := D) (by has) (by has)) fun h6 a Av f6 l6 g6 u6 a6 => ?_
  refine Sim.numT (f := invL2) (M := D) (by has) ?_
  refine Sim.tmp (sim_pure1 (f := fun M => .ok (M.smul (invL2 D))) a6) fun h7 a' f7 l7 g7 u7 a7 => ?_
  refine Sim.new (sim_pure1 (f := Mat.normalized) a7) fun h8 w wv f8 l8 g8 u8 a8 => ?_
  refine Sim.bind (Sim.loop (h0 := h8) (OplsHolds W P T) _ (fun k _ h' s v h0h hi =>
      hOplsStep_sim (by omega) (by omega) a8 (by omega) k s v h0h hi) h8 ⟨X1, Xt, W, P, T⟩ ⟨C, Wv, Pv, Tv⟩
      (.refl _ f8.wf) ⟨rfl, rfl, rfl, by has, by has, by left; show X1 < W; omega, by left; show Xt < W; omega,
        by has, by has, by has⟩) (fun _ h => h) ?_
  rintro h9 ⟨X', Xt', W', P', T'⟩ v f9 ⟨rfl, rfl, rfl, hX', -, nX, -, hW, hP, hT⟩
  dsimp only at *
  have l9 := f9.le
  refine Sim.tmp (sim_copy hX') fun h10 xo f10 l10 g10 u10 a10 => ?_
  refine Sim.new (hOplsFilter_sim (Wv := v.W) (Pv := v.P) (Zv := C) (by has) (by has) (by has)) fun h11 F Fv f11 l11 g11 u11 a11 => ?_
  have e : (do
      let _ ← (base.init Fv D).2
      .ok (⟨v.W, v.P, v.T, v.X, (base.init Fv D).1⟩ : OplsModel α M)) = ((do
      let _ ← (base.init Fv D).2
      .ok (base.init Fv D).1 : Except PyErr M) >>= fun b => .ok ⟨v.W, v.P, v.T, v.X, b⟩) := by
    simp only [bind_assoc, except_bind_ok]
  rw [e]
  refine Sim.bind (hb h11 F y Fv D a11 (by has)) (by simp) fun h12 b B f12 hB => ?_
  refine Sim.ret ⟨⟨by has, by has, by has, by has, hB.1⟩, ?_⟩
  show ∀ r ∈ W' :: P' :: T' :: xo :: ρ.refs b, h.nobj ≤ r
  simp only [List.mem_cons, forall_eq_or_imp]
  exact ⟨by omega, by omega, by omega, by omega, fun r hr => by have := hB.2 r hr; omega⟩

omit [HasSqrt α] in
theorem hOplsPredict_sim {A M : Type} {ρ : Repr α M A} {ph : A → Nat → H α Nat} {base : BasePls α M}
    (hp : ∀ h a m Z C, ρ.On m h a → Has h Z C → Heap.Sim [] h (ph a Z) (base.predict m C) (New h)) {h : Heap α} {a : OplsAttrs A}
    {m : OplsModel α M} (hm : (oplsRepr ρ).On m h a) {Z : Nat} {C : Mat α} (hZ : Has h Z C) :
    Heap.Sim [] h (hOplsPredict ph a Z) (oplsPredict base m C) (New h) := by
  unfold hOplsPredict oplsPredict oplsTransform
  obtain ⟨hW, hP, -, -, hb⟩ := hm
  refine Sim.new (hOplsFilter_sim hW hP hZ) fun h1 F Fv f1 l1 g1 u1 a1 => ?_
  exact (hp h1 a.base m.base F Fv (ρ.mono f1 (fun _ _ => List.not_mem_nil) hb) a1).post fun h2 b c _ hn => ⟨by have := hn.1; omega, hn.2⟩

end opls

end Verif
