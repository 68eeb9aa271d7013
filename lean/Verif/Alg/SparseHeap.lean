import Verif.Alg.NipalsHeap
import Verif.Alg.SparsePLS

/-!
# SparsePLS on matrix objects

`src/wai/ma/algorithm/pls/_SparsePLS.py`, statement by statement on objects.  The inner NIPALS object is a program on objects that refines the
parameter `nip` of the function model; `hSpNip` is that program.
-/

namespace Verif
open Mat Heap Transf

variable {α : Type} [Field α] [LinearOrder α] [HasSqrt α]

omit [Field α] [LinearOrder α] [HasSqrt α] in
/-- Allowing more objects to be changed. -/
theorem Heap.Sim.wide {β γ : Type} {L L1 : List Nat} {h : Heap α} {x : H α β} {m : Except PyErr γ} {R : Heap α → β → γ → Prop}
    (hx : Heap.Sim L1 h x m R) (hL : ∀ r ∈ L1, r ∈ L) : Heap.Sim L h x m R := fun hw => by
  obtain ⟨f, a⟩ := hx hw
  exact ⟨f.trans (.refl [] f.wf) (fun r hr => .inl (hL r hr)) (by simp), a⟩

/-! ## Direction vector -/

/-- `for idx in idxs: c.set(idx, 0, pre_mul.get(idx, 0))`, `_SparsePLS.py` 264-266. -/
def hCopyAt (pre c : Nat) : List Nat → H α Unit
  | [] => pure ()
  | i :: is => do
    let v ← mScalar1 (fun M => M.get (i : Int) 0) pre
    mSet c (i : Int) 0 v
    hCopyAt pre c is

omit [Field α] [LinearOrder α] [HasSqrt α] in
theorem hCopyAt_sim {pre c : Nat} (hne : pre ≠ c) {P : Mat α} (is : List Nat) : ∀ {h : Heap α} {C : Mat α}, Has h pre P → Has h c C →
    Heap.Sim [c] h (hCopyAt pre c is) (copyAt P is C) fun h' _ v => Has h' c v := by
  induction is with
  | nil => exact fun _ hc => Sim.ret hc
  | cons i is ih =>
    intro h C hp hc
    unfold hCopyAt copyAt
    refine Sim.num1 (f := fun M => M.get (i : Int) 0) hp fun x => ?_
    refine Sim.upd (sim_set hc i 0 x) (by simp) fun h1 C1 f1 l1 a1 => ?_
    exact ih (hp.mono f1 (by simpa using hne)) a1

/-- `get_direction_vector`, `_SparsePLS.py` 245-268. -/
def hSpDirection (cfg : SpCfg α) (X y : Nat) : H α Nat := do
  let xt ← mTranspose X
  let z ← mPure2 Mat.mul xt y
  let za ← mPure1 (fun M => .ok M.abs) z
  let n ← mScalar1 (fun M => .ok (cfg.med M)) za
  let z ← mPure1 (fun M => .ok (M.div n)) z
  let sg ← mPure1 (fun M => .ok M.sign) z
  let za ← mPure1 (fun M => .ok M.abs) z
  let zb ← mPure1 (fun M => .ok M.abs) z
  let mx ← mScalar1 (fun M => .ok (cfg.amax M)) zb
  let val ← mPure1 (fun M => .ok (M.subScalar (cfg.lam * mx))) za
  let idxs ← mScalar1 (fun M => M.whereVector (geZero cfg.isZero)) val
  let pre ← mPure2 Mat.mulElementwise val sg
  let D ← getContents z
  let c ← mCreate (Factory.zeros (D.rows : Int) 1)
  hCopyAt pre c idxs
  let n ← mScalar1 (fun M => .ok M.norm2Squared) c
  mPure1 (fun M => .ok (M.div n)) c

theorem hSpDirection_sim (cfg : SpCfg α) {h : Heap α} {X y : Nat} {A B : Mat α} (hX : Has h X A) (hy : Has h y B) :
    Heap.Sim [] h (hSpDirection cfg X y) (spDirection cfg A B) (New h) := by
  unfold hSpDirection spDirection spShrink
  have ly := hy.1
  refine Sim.tmp (sim_transpose hX) fun h1 xt f1 l1 g1 u1 a1 => ?_
  refine Sim.new (sim_pure2 (f := Mat.mul) (N := B) a1 (by has)) fun h2 z Z f2 l2 g2 u2 a2 => ?_
  refine Sim.tmp (sim_pure1 (f := fun M => .ok M.abs) a2) fun h3 za f3 l3 g3 u3 a3 => ?_
  refine Sim.numT (f := fun M => cfg.med M) a3 ?_
  refine Sim.tmp (sim_pure1 (f := fun M => .ok (M.div (cfg.med Z.abs))) (M := Z) (by has)) fun h4 z' f4 l4 g4 u4 a4 => ?_
  refine Sim.tmp (sim_pure1 (f := fun M => .ok M.sign) a4) fun h5 sg f5 l5 g5 u5 a5 => ?_
  refine Sim.tmp (sim_pure1 (f := fun M => .ok M.abs) (M := Z.div (cfg.med Z.abs)) (by has)) fun h6 za' f6 l6 g6 u6 a6 => ?_
  refine Sim.tmp (sim_pure1 (f := fun M => .ok M.abs) (M := Z.div (cfg.med Z.abs)) (by has)) fun h7 zb f7 l7 g7 u7 a7 => ?_
  refine Sim.numT (f := fun M => cfg.amax M) a7 ?_
  refine Sim.tmp (sim_pure1 (f := fun M => .ok (M.subScalar (cfg.lam * cfg.amax (Z.div (cfg.med Z.abs)).abs)))
    (M := (Z.div (cfg.med Z.abs)).abs) (by has)) fun h8 val f8 l8 g8 u8 a8 => ?_
  refine Sim.num1 (f := fun M => M.whereVector (geZero cfg.isZero)) a8 fun idxs => ?_
  refine Sim.new (sim_pure2 (f := Mat.mulElementwise) (N := (Z.div (cfg.med Z.abs)).sign) a8 (by has)) fun h9 pre PRE f9 l9 g9 u9 a9 => ?_
  refine Sim.look (M := Z.div (cfg.med Z.abs)) (by has) ?_
  refine Sim.own (sim_create _) fun h10 c C f10 l10 g10 u10 a10 => ?_
  refine Sim.upd (hCopyAt_sim (by omega) idxs (by has) a10) (by simp) fun h11 C' f11 l11 a11 => ?_
  refine Sim.numT (f := fun M => M.norm2Squared) a11 ?_
  exact ((sim_pure1 (f := fun M => .ok (M.div C'.norm2Squared)) a11).wide (by simp)).post fun h12 b _ _ hn => ⟨by have := hn.1; omega, hn.2⟩

/-! ## Columns and rows of the selected variables -/

/-- `collect_indices`, `_SparsePLS.py` 225-233. -/
def hSpCollect (cfg : SpCfg α) (w B : Nat) : H α (List Nat) := do
  let a ← mScalar1 (fun M => M.whereVector (above cfg)) w
  let b ← mScalar1 (fun M => M.whereVector (above cfg)) B
  let D ← getContents w
  let E ← getContents B
  pure ((List.range (max D.numElements E.numElements)).filter fun i => decide (i ∈ a) || decide (i ∈ b))

omit [HasSqrt α] in
theorem hSpCollect_sim (cfg : SpCfg α) {h : Heap α} {w B : Nat} {W V : Mat α} (hw : Has h w W) (hB : Has h B V) :
    Heap.Sim [] h (hSpCollect cfg w B) (spCollect cfg W V) fun _ b c => b = c := by
  unfold hSpCollect spCollect
  refine Sim.num1 (f := fun M => M.whereVector (above cfg)) hw fun a => ?_
  refine Sim.num1 (f := fun M => M.whereVector (above cfg)) hB fun b => ?_
  exact Sim.look hw (Sim.look hB (Sim.ret rfl))

/-- The loop of `get_column_submatrix_of`, `_SparsePLS.py` 203-207. -/
def hColsLoop (X M : Nat) : List Nat → Nat → H α Unit
  | [], _ => pure ()
  | i :: is, k => do
    let c ← mPure1 (fun A => A.getColumn (i : Int)) X
    mSetColumn M (k : Int) c
    hColsLoop X M is (k + 1)

/-- `get_column_submatrix_of`, `_SparsePLS.py` 195-208. -/
def hSpCols (X : Nat) (A : List Nat) : H α Nat := do
  let D ← getContents X
  let M ← mCreate (Factory.zeros (D.rows : Int) (A.length : Int))
  hColsLoop X M A 0
  pure M

/-- The loop of `get_row_submatrix_of`, `_SparsePLS.py` 218-222. -/
def hRowsLoop (X M : Nat) : List Nat → Nat → H α Unit
  | [], _ => pure ()
  | i :: is, k => do
    let c ← mPure1 (fun A => A.getRow (i : Int)) X
    mSetRow M (k : Int) c
    hRowsLoop X M is (k + 1)

/-- `get_row_submatrix_of`, `_SparsePLS.py` 210-223. -/
def hSpRows (X : Nat) (A : List Nat) : H α Nat := do
  let D ← getContents X
  let M ← mCreate (Factory.zeros (A.length : Int) (D.cols : Int))
  hRowsLoop X M A 0
  pure M

/-- Distributing the coefficients, `_SparsePLS.py` 162-165. -/
def hScatter (coef M : Nat) : List Nat → Nat → H α Unit
  | [], _ => pure ()
  | i :: is, k => do
    let r ← mPure1 (fun A => A.getRow (k : Int)) coef
    mSetRow M (i : Int) r
    hScatter coef M is (k + 1)

omit [Field α] [LinearOrder α] [HasSqrt α] in
theorem hColsLoop_sim {X M : Nat} (hne : X ≠ M) {C : Mat α} (is : List Nat) : ∀ {h : Heap α} {k : Nat} {D : Mat α}, Has h X C → Has h M D →
    Heap.Sim [M] h (hColsLoop X M is k) (colsLoop C is k D) fun h' _ v => Has h' M v := by
  induction is with
  | nil => exact fun _ hc => Sim.ret hc
  | cons i is ih =>
    intro h k D hX hM
    unfold hColsLoop colsLoop
    have lM := hM.1
    have lX := hX.1
    refine Sim.new (sim_pure1 (f := fun A => A.getColumn (i : Int)) hX) fun h1 c V f1 l1 g1 u1 a1 => ?_
    refine Sim.upd (sim_setColumn (M := D) (by has) a1 k) (by simp) fun h2 D2 f2 l2 a2 => ?_
    exact ih (by has) a2

omit [Field α] [LinearOrder α] [HasSqrt α] in
theorem hRowsLoop_sim {X M : Nat} (hne : X ≠ M) {C : Mat α} (is : List Nat) : ∀ {h : Heap α} {k : Nat} {D : Mat α}, Has h X C → Has h M D →
    Heap.Sim [M] h (hRowsLoop X M is k) (rowsLoop C is k D) fun h' _ v => Has h' M v := by
  induction is with
  | nil => exact fun _ hc => Sim.ret hc
  | cons i is ih =>
    intro h k D hX hM
    unfold hRowsLoop rowsLoop
    have lM := hM.1
    have lX := hX.1
    refine Sim.new (sim_pure1 (f := fun A => A.getRow (i : Int)) hX) fun h1 c V f1 l1 g1 u1 a1 => ?_
    refine Sim.upd (sim_setRow (M := D) (by has) a1 k) (by simp) fun h2 D2 f2 l2 a2 => ?_
    exact ih (by has) a2

omit [Field α] [LinearOrder α] [HasSqrt α] in
theorem hScatter_sim {X M : Nat} (hne : X ≠ M) {C : Mat α} (is : List Nat) : ∀ {h : Heap α} {k : Nat} {D : Mat α}, Has h X C → Has h M D →
    Heap.Sim [M] h (hScatter X M is k) (scatter C is k D) fun h' _ v => Has h' M v := by
  induction is with
  | nil => exact fun _ hc => Sim.ret hc
  | cons i is ih =>
    intro h k D hX hM
    unfold hScatter scatter
    have lM := hM.1
    have lX := hX.1
    refine Sim.new (sim_pure1 (f := fun A => A.getRow (k : Int)) hX) fun h1 c V f1 l1 g1 u1 a1 => ?_
    refine Sim.upd (sim_setRow (M := D) (by has) a1 i) (by simp) fun h2 D2 f2 l2 a2 => ?_
    exact ih (by has) a2

omit [LinearOrder α] [HasSqrt α] in
theorem hSpCols_sim {h : Heap α} {X : Nat} {C : Mat α} (hX : Has h X C) (A : List Nat) : Heap.Sim [] h (hSpCols X A) (spCols C A) (New h) := by
  unfold hSpCols spCols
  have lX := hX.1
  rw [← bind_ok_right (Factory.zeros _ _ >>= _), bind_assoc]
  refine Sim.look hX ?_
  refine Sim.own (sim_create _) fun h1 M D f1 l1 g1 u1 a1 => ?_
  refine Sim.upd (hColsLoop_sim (by omega) A (by has) a1) (by simp) fun h2 D2 f2 l2 a2 => ?_
  exact Sim.ret ⟨g1, a2⟩

omit [LinearOrder α] [HasSqrt α] in
theorem hSpRows_sim {h : Heap α} {X : Nat} {C : Mat α} (hX : Has h X C) (A : List Nat) : Heap.Sim [] h (hSpRows X A) (spRows C A) (New h) := by
  unfold hSpRows spRows
  have lX := hX.1
  rw [← bind_ok_right (Factory.zeros _ _ >>= _), bind_assoc]
  refine Sim.look hX ?_
  refine Sim.own (sim_create _) fun h1 M D f1 l1 g1 u1 a1 => ?_
  refine Sim.upd (hRowsLoop_sim (by omega) A (by has) a1) (by simp) fun h2 D2 f2 l2 a2 => ?_
  exact Sim.ret ⟨g1, a2⟩

/-! ## Training -/

/-- Local variable `y_j` and the attributes `A`, `B_pls` and `W`. -/
structure SpRefs where
  yj : Nat
  A : List Nat
  B : Nat
  W : Nat

/-- One pass of the training loop, `_SparsePLS.py` 147-168; `nip` is `get_regression_coefficient`. -/
def hSpStep (cfg : SpCfg α) (nip : Int → Nat → Nat → H α Nat) (X y Xj : Nat) (k : Int) (s : SpRefs) : H α SpRefs := do
  let w ← hSpDirection cfg Xj s.yj
  mSetColumn s.W k w
  let A ← hSpCollect cfg w s.B
  let XA ← hSpCols X A
  let D ← getContents X
  let E ← getContents y
  let B ← mCreate (Factory.zeros (D.cols : Int) (E.cols : Int))
  let F ← getContents XA
  let coef ← nip (min (F.cols : Int) (k + 1)) XA y
  hScatter coef B A 0
  let f ← mPure2 Mat.mul X B
  let yj ← mPure2 Mat.sub y f
  pure ⟨yj, A, B, s.W⟩

/-- The attributes hold the values of the function model. -/
structure SpHolds (n W : Nat) (h : Heap α) (s : SpRefs) (v : SpVars α) : Prop where
  eW : s.W = W
  eA : s.A = v.A
  hy : Has h s.yj v.yj
  hB : Has h s.B v.B
  hW : Has h W v.W
  bB : n ≤ s.B
  ny : s.yj ≠ W
  nB : s.B ≠ W

/-- The program `nip` refines the parameter of the function model. -/
def NipOk (cfg : SpCfg α) (nip : Int → Nat → Nat → H α Nat) : Prop :=
  ∀ (k : Int) (h : Heap α) (X y : Nat) (C D : Mat α), Has h X C → Has h y D → Heap.Sim [] h (nip k X y) (cfg.nip k C D) (New h)

theorem hSpStep_sim (cfg : SpCfg α) {nip : Int → Nat → Nat → H α Nat} (hnip : NipOk cfg nip) {h0 h : Heap α} {n W X y Xj : Nat}
    {C D : Mat α} (hn : n ≤ W) (hX : Has h0 X C) (hy : Has h0 y D) (hXj : Has h0 Xj C) (h1 : X ≠ W) (h2 : y ≠ W) (h3 : Xj ≠ W) (k : Int)
    (s : SpRefs) (v : SpVars α) (hf0 : Frame [W] h0 h) (hi : SpHolds n W h s v) :
    Heap.Sim [W] h (hSpStep cfg nip X y Xj k s) (spStep cfg C D k v) (SpHolds n W) := by
  obtain ⟨yj, A, B, W'⟩ := s
  obtain ⟨rfl, rfl, hyj, hB, hW, bB, ny, nB⟩ := hi
  dsimp only at *
  unfold hSpStep spStep spCoef
  have kX : Has h X C := by has
  have ky : Has h y D := by has
  have kXj : Has h Xj C := by has
  clear hf0
  have lW := hW.1
  have lB := hB.1
  have lX := kX.1
  have ly := ky.1
  refine Sim.new (hSpDirection_sim cfg kXj hyj) fun h4 w wv f4 l4 g4 u4 a4 => ?_
  refine Sim.upd (sim_setColumn (M := v.W) (by has) a4 k) (by simp) fun h5 W2 f5 l5 a5 => ?_
  refine Sim.bind (hSpCollect_sim cfg (W := wv) (V := v.B) (by has) (by has)) (by simp) ?_
  rintro h6 A _ f6 rfl
  have l6 := f6.le
  refine Sim.new (hSpCols_sim (C := C) (by has) A) fun h7 XA XAv f7 l7 g7 u7 a7 => ?_
  refine Sim.look (M := C) (by has) ?_
  refine Sim.look (M := D) (by has) ?_
  refine Sim.own (sim_create _) fun h8 B' Bv f8 l8 g8 u8 a8 => ?_
  refine Sim.look (M := XAv) (by has) ?_
  refine Sim.new (hnip _ h8 XA y XAv D (by has) (by has)) fun h9 cf cv f9 l9 g9 u9 a9 => ?_
  refine Sim.upd (hScatter_sim (D := Bv) (by omega) A a9 (by has)) (by simp) fun h10 B2 f10 l10 a10 => ?_
  refine Sim.new (sim_pure2 (f := Mat.mul) (M := C) (by has) a10) fun h11 f fv f11 l11 g11 u11 a11 => ?_
  refine Sim.new (sim_pure2 (f := Mat.sub) (M := D) (by has) a11) fun h12 yj' yv f12 l12 g12 u12 a12 => ?_
  exact Sim.ret ⟨rfl, rfl, a12, by has, by has, by show n ≤ B'; omega, by show yj' ≠ W'; omega, by show B' ≠ W'; omega⟩

/-- Attributes after training. -/
structure SpAttrs where
  stdX : StdAttrs
  stdY : StdAttrs
  A : List Nat
  B : Nat
  W : Nat

/-- `do_perform_initialization`, `_SparsePLS.py` 131-176. -/
def hSpTrain (cfg : SpCfg α) (nip : Int → Nat → Nat → H α Nat) (X y : Nat) : H α SpAttrs := do
  let sx ← hStdFit cfg.isZero X
  let sy ← hStdFit cfg.isZero y
  let Xj ← mCopy sx.2
  let yj ← mCopy sy.2
  let D ← getContents sx.2
  let E ← getContents sy.2
  let B ← mCreate (Factory.zeros (D.cols : Int) (E.cols : Int))
  let W ← mCreate (Factory.zeros (D.cols : Int) cfg.K)
  let s ← mLoop (hSpStep cfg nip sx.2 sy.2 Xj) (pyRange 0 cfg.K) ⟨yj, [], B, W⟩
  pure ⟨sx.1, sy.1, s.A, s.B, s.W⟩

/-- The matrices of a trained object (the local variable `y_j` is gone). -/
def spRepr : Repr α (SpModel α) SpAttrs where
  refs a := stdRepr.refs (α := α) a.stdX ++ stdRepr.refs (α := α) a.stdY ++ [a.B, a.W]
  On m h a := stdRepr.On m.stdX h a.stdX ∧ stdRepr.On m.stdY h a.stdY ∧ a.A = m.vars.A ∧ Has h a.B m.vars.B ∧ Has h a.W m.vars.W
  mono hf hr hm := by
    have hrx := fun r h => hr r (List.mem_append_left _ (List.mem_append_left _ h))
    have hry := fun r h => hr r (List.mem_append_left _ (List.mem_append_right _ h))
    have hrr := fun r h => hr r (List.mem_append_right _ h)
    simp only [List.mem_cons, List.not_mem_nil, or_false, forall_eq_or_imp, forall_eq] at hrr
    exact ⟨stdRepr.mono hf hrx hm.1, stdRepr.mono hf hry hm.2.1, hm.2.2.1, hm.2.2.2.1.mono hf hrr.1, hm.2.2.2.2.mono hf hrr.2⟩

theorem spTrain_steps (cfg : SpCfg α) (X y : Mat α) : spTrain cfg X y = (do
    let sx ← stdFit cfg.isZero X
    let sy ← stdFit cfg.isZero y
    let s ← spInit cfg sx.2 sy.2
    let s ← loopM (spStep cfg sx.2 sy.2) (pyRange 0 cfg.K) s
    .ok ⟨sx.1, sy.1, s⟩) := by
  unfold spTrain stdFit
  simp only [bind_assoc, except_bind_ok]

/-- Training refines the function model. -/
theorem hSpTrain_sim (cfg : SpCfg α) {nip : Int → Nat → Nat → H α Nat} (hnip : NipOk cfg nip) {h : Heap α} {X y : Nat} {C D : Mat α}
    (hX : Has h X C) (hy : Has h y D) : Heap.Sim [] h (hSpTrain cfg nip X y) (spTrain cfg C D) (spRepr.Fresh h) := by
  rw [spTrain_steps]
  unfold hSpTrain
  have lX := hX.1
  have ly := hy.1
  refine Sim.bind (hStdFit_sim hX cfg.isZero) (fun _ h => h) ?_
  rintro h1 ⟨sx, x⟩ ⟨SX, XV⟩ f1 ⟨n1, n2⟩
  dsimp only at n1 n2 ⊢
  have l1 := f1.le
  refine Sim.bind (hStdFit_sim (M := D) (by has) cfg.isZero) (fun _ h => h) ?_
  rintro h2 ⟨sy, z⟩ ⟨SY, YV⟩ f2 ⟨n3, n4⟩
  dsimp only at n3 n4 ⊢
  have l2 := f2.le
  have rx := n2.2
  have ry := n4.2
  obtain ⟨smx, sdx⟩ := sx
  obtain ⟨smy, sdy⟩ := sy
  obtain ⟨mx, dx, rfl, hmx, hdx⟩ := stdRepr.mono f2 (fun _ _ => List.not_mem_nil) n2.1
  obtain ⟨my, dy, rfl, hmy, hdy⟩ := n4.1
  have ax : Has h2 x XV := n1.2.mono f2 List.not_mem_nil
  have ay : Has h2 z YV := n3.2
  have ux := ax.1
  have uy := ay.1
  have rx' : ∀ r ∈ [smx, sdx], h.nobj ≤ r := rx
  have ry' : ∀ r ∈ [smy, sdy], h1.nobj ≤ r := ry
  simp only [List.mem_cons, List.not_mem_nil, or_false, forall_eq_or_imp, forall_eq] at rx' ry'
  dsimp only at hmx hdx hmy hdy ⊢
  have u1 := hmx.1
  have u2 := hdx.1
  have u3 := hmy.1
  have u4 := hdy.1
  refine Sim.tmp (sim_copy ax) fun h3 Xj f3 l3 g3 u3 a3 => ?_
  refine Sim.tmp (sim_copy (M := YV) (by has)) fun h4 yj f4 l4 g4 u4 a4 => ?_
  refine Sim.look (M := XV) (by has) ?_
  refine Sim.look (M := YV) (by has) ?_
  unfold spInit
  simp only [bind_assoc, except_bind_ok]
  refine Sim.new (sim_create _) fun h5 B Bv f5 l5 g5 u5 a5 => ?_
  refine Sim.own (sim_create _) fun h6 W Wv f6 l6 g6 u6 a6 => ?_
  refine Sim.bind (Sim.loop (h0 := h6) (SpHolds h.nobj W) _ (fun k _ _ s v hf hi =>
      hSpStep_sim cfg hnip (X := x) (y := z) (Xj := Xj) (C := XV) (D := YV) (by omega) (by has) (by has) (by has) (by omega) (by omega)
        (by omega) k s v hf hi) h6 ⟨yj, [], B, W⟩ ⟨YV, [], Bv, Wv⟩ (.refl _ f6.wf) ⟨rfl, rfl, by has, by has, by has,
      by show h.nobj ≤ B; omega, by show yj ≠ W; omega, by show B ≠ W; omega⟩) (fun _ h => h) ?_
  rintro h7 ⟨yj', A', B', W'⟩ v f7 ⟨rfl, rfl, -, hB, hW, bB, -, nB⟩
  dsimp only at *
  refine Sim.ret ⟨⟨⟨mx, dx, rfl, by has, by has⟩, ⟨my, dy, rfl, by has, by has⟩, rfl, hB, hW⟩, ?_⟩
  show ∀ r ∈ [smx, sdx, smy, sdy, B', W'], h.nobj ≤ r
  simp only [List.mem_cons, List.not_mem_nil, or_false, forall_eq_or_imp, forall_eq]
  omega

/-! ## Use -/

/-- `do_perform_predictions`, `_SparsePLS.py` 298-314. -/
def hSpPredict (a : SpAttrs) (Z : Nat) : H α Nat := do
  let Z ← hStdApply a.stdX Z
  let ZA ← hSpCols Z a.A
  let BA ← hSpRows a.B a.A
  let r ← mPure2 Mat.mul ZA BA
  let r ← mPure2 Mat.scaleByRowVector r a.stdY.stds
  mPure2 Mat.addByVector r a.stdY.means

omit [LinearOrder α] in
theorem hSpPredict_sim (cfg : SpCfg α) {h : Heap α} {a : SpAttrs} {m : SpModel α} (hm : spRepr.On m h a) {Z : Nat} {M : Mat α}
    (hZ : Has h Z M) : Heap.Sim [] h (hSpPredict a Z) (spPredict cfg m M) (New h) := by
  obtain ⟨hx, ⟨my, dy, ey, hmy, hdy⟩, eA, hB, hW⟩ := hm
  unfold hSpPredict spPredict
  have l1 := hmy.1
  have l2 := hdy.1
  have l3 := hB.1
  rw [ey, eA]
  dsimp only
  refine Sim.new (hStdApply_sim hx hZ cfg.isZero) fun h1 z Zv f1 l1 g1 u1 a1 => ?_
  refine Sim.new (hSpCols_sim a1 _) fun h2 za ZA f2 l2 g2 u2 a2 => ?_
  refine Sim.new (hSpRows_sim (C := m.vars.B) (by has) _) fun h3 ba BA f3 l3 g3 u3 a3 => ?_
  refine Sim.new (sim_pure2 (f := Mat.mul) (M := ZA) (by has) a3) fun h4 r R f4 l4 g4 u4 a4 => ?_
  refine Sim.new (sim_pure2 (f := Mat.scaleByRowVector) (N := dy) a4 (by has)) fun h5 r' R' f5 l5 g5 u5 a5 => ?_
  exact (sim_pure2 (f := Mat.addByVector) (N := my) a5 (by has)).post fun h6 b _ _ hn => ⟨by have := hn.1; omega, hn.2⟩

/-- One pass of `do_transform`, `_SparsePLS.py` 280-286. -/
def hSpTransformStep (W T : Nat) (k : Int) (X : Nat) : H α Nat := do
  let w ← mPure1 (fun M => M.getColumn k) W
  let t ← mPure2 Mat.mul X w
  mSetColumn T k t
  let xt ← mTranspose X
  let p ← mPure2 Mat.mul xt t
  let n ← mScalar1 (fun M => .ok M.norm2Squared) t
  let p ← mPure1 (fun M => .ok (M.div n)) p
  let pt ← mTranspose p
  let d ← mPure2 Mat.mul t pt
  mPure2 Mat.sub X d

/-- `do_transform`, `_SparsePLS.py` 270-288. -/
def hSpTransform (cfg : SpCfg α) (a : SpAttrs) (Z : Nat) : H α Nat := do
  let D ← getContents Z
  let T ← mCreate (Factory.zeros (D.rows : Int) cfg.K)
  let X ← mCopy Z
  let _ ← mLoop (hSpTransformStep a.W T) (pyRange 0 cfg.K) X
  pure T

omit [LinearOrder α] in
theorem hSpTransform_sim (cfg : SpCfg α) {h : Heap α} {a : SpAttrs} {m : SpModel α} (hm : spRepr.On m h a) {Z : Nat} {M : Mat α}
    (hZ : Has h Z M) : Heap.Sim [] h (hSpTransform cfg a Z) (spTransform cfg m M) (New h) := by
  obtain ⟨-, -, -, -, hW⟩ := hm
  unfold hSpTransform spTransform
  have lW := hW.1
  have lZ := hZ.1
  refine Sim.look hZ ?_
  refine Sim.own (sim_create _) fun h1 T Tv f1 l1 g1 u1 a1 => ?_
  refine Sim.tmp (sim_copy (M := M) (by has)) fun h2 X f2 l2 g2 u2 a2 => ?_
  have kW : Has h2 a.W m.vars.W := by has
  refine Sim.bind (Sim.loop (h0 := h2) (fun h' s v => Has h' s v.1 ∧ Has h' T v.2 ∧ s ≠ T) _ ?_ h2 X (M, Tv) (.refl _ f2.wf)
    ⟨a2, by has, by omega⟩) (fun _ h => h) ?_
  · rintro k - h3 X3 ⟨Xv, T3⟩ f3 ⟨hX3, hT3, hne⟩
    dsimp only at hX3 hT3
    unfold hSpTransformStep spTransformStep
    dsimp only
    have lX3 := hX3.1
    have lT3 := hT3.1
    have kW3 : Has h3 a.W m.vars.W := by has
    clear f3
    refine Sim.new (sim_pure1 (f := fun M => M.getColumn k) kW3) fun h4 w wv f4 l4 g4 u4 a4 => ?_
    refine Sim.new (sim_pure2 (f := Mat.mul) (M := Xv) (by has) a4) fun h5 t tv f5 l5 g5 u5 a5 => ?_
    refine Sim.upd (sim_setColumn (M := T3) (by has) a5 k) (by simp) fun h6 T6 f6 l6 a6 => ?_
    refine Sim.tmp (sim_transpose (M := Xv) (by has)) fun h7 xt f7 l7 g7 u7 a7 => ?_
    refine Sim.new (sim_pure2 (f := Mat.mul) (N := tv) a7 (by has)) fun h8 p pv f8 l8 g8 u8 a8 => ?_
    refine Sim.numT (f := fun M => M.norm2Squared) (M := tv) (by has) ?_
    refine Sim.tmp (sim_pure1 (f := fun M => .ok (M.div tv.norm2Squared)) a8) fun h9 p' f9 l9 g9 u9 a9 => ?_
    refine Sim.tmp (sim_transpose a9) fun h10 pt f10 l10 g10 u10 a10 => ?_
    refine Sim.new (sim_pure2 (f := Mat.mul) (M := tv) (by has) a10) fun h11 d dv f11 l11 g11 u11 a11 => ?_
    refine Sim.out (sim_pure2 (f := Mat.sub) (M := Xv) (by has) a11) fun h12 X12 v12 f12 l12 g12 u12 a12 _ => ⟨_, rfl, a12, by has, by omega⟩
  · rintro h3 X3 ⟨Xv, T3⟩ f3 ⟨hX3, hT3, hne⟩
    exact Sim.ret ⟨g1, hT3⟩

/-! ## The inner NIPALS object -/

/-- `get_regression_coefficient`, `_SparsePLS.py` 188-193: a new NIPALS object without preprocessing; `cfg k` are its options. -/
def hSpNip (isZero : α → Bool) (c : Int → NipalsCfg α) (k : Int) (X y : Nat) : H α Nat := do
  let m ← hMultiTrain isZero (hNipalsTrain (c k)) .none X y
  pure m.base.coef

/-- Its value. -/
def spNip (isZero : α → Bool) (c : Int → NipalsCfg α) (k : Int) (X y : Mat α) : Except PyErr (Mat α) := do
  let m ← multiTrain isZero (nipalsTrain (c k)) .none X y
  .ok m.base.coef

omit [LinearOrder α] in
theorem hSpNip_sim (isZero : α → Bool) (c : Int → NipalsCfg α) (k : Int) (h : Heap α) (X y : Nat) (C D : Mat α) (hX : Has h X C)
    (hy : Has h y D) : Heap.Sim [] h (hSpNip isZero c k X y) (spNip isZero c k C D) (New h) := by
  unfold hSpNip spNip
  refine Sim.bind (hMultiTrain_sim (ρ := nipalsRepr) (fun _ _ _ _ _ hX hY => hNipalsTrain_sim (c k) hX hY) hX hy isZero .none) (fun _ h => h)
    fun h1 a v f1 hr => ?_
  refine Sim.ret ⟨hr.2 _ ?_, hr.1.2.2.2.2.2.2.2.2.2.2.2.2.2.2⟩
  show a.base.coef ∈ _ ++ _
  refine List.mem_append_right _ ?_
  simp

end Verif
