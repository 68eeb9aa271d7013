import Verif.Core.HeapSim
import Verif.Core.ListLemmas
import Verif.Alg.PLS1

/-!
# PLS1 on matrix objects

`src/wai/ma/algorithm/pls/_PLS1.py` once more, statement by statement on objects: which objects are allocated and which are changed in
place.  Each program is shown to refine the function on values of `PLS1.lean`.
-/

namespace Verif
open Mat Heap

variable {α : Type} [Field α] [DecidableEq α] [HasSqrt α]

/-- Local variables of the training loop. -/
structure Pls1Refs where
  X : Nat
  W : Nat
  P : Nat
  T : Nat
  b : Nat

/-- Attributes set by training, `_PLS1.py` 129-134. -/
structure Pls1Attrs where
  rHat : Nat
  P : Nat
  W : Nat
  bHat : Nat

/-- `calculate_weights`, `_PLS1.py` 138-146. -/
def hPls1Weights (X y : Nat) : H α Nat := do
  let xt ← mTranspose X
  let w ← mPure2 Mat.mul xt y
  mPure1 Mat.normalized w

/-- One pass of the training loop, `_PLS1.py` 105-123. -/
def hPls1Step (weights : Nat → Nat → H α Nat) (y : Nat) (k : Int) (s : Pls1Refs) : H α Pls1Refs := do
  let w ← weights s.X y
  mSetColumn s.W k w
  let t ← mPure2 Mat.mul s.X w
  mSetColumn s.T k t
  let tt ← mScalar2 Mat.vectorDot t t
  let ty ← mScalar2 Mat.vectorDot t y
  mSet s.b k 0 (ty / tt)
  let xt ← mTranspose s.X
  let q ← mPure2 Mat.mul xt t
  let p ← mPure1 (fun M => .ok (M.div tt)) q
  mSetColumn s.P k p
  let pt ← mTranspose p
  let tp ← mPure2 Mat.mul t pt
  let X ← mPure2 Mat.sub s.X tp
  pure ⟨X, s.W, s.P, s.T, s.b⟩

/-- `do_perform_initialization`, `_PLS1.py` 87-136. -/
def hPls1Train (weights : Nat → Nat → H α Nat) (K : Int) (X y : Nat) : H α (Pls1Attrs × Nat) := do
  let D ← getContents X
  let W ← mCreate (Factory.zeros (D.cols : Int) K)
  let P ← mCreate (Factory.zeros (D.cols : Int) K)
  let T ← mCreate (Factory.zeros (D.rows : Int) K)
  let b ← mCreate (Factory.zeros K 1)
  let s ← mLoop (hPls1Step weights y) (pyRange 0 K) ⟨X, W, P, T, b⟩
  let pt ← mTranspose s.P
  let ptw ← mPure2 Mat.mul pt s.W
  let inv ← mPure1 (fun M => M.inverse fun _ => .error .linAlgError) ptw
  let tmp ← mPure2 Mat.mul s.W inv
  let r ← mPure2 Mat.mul tmp s.b
  pure (⟨r, s.P, s.W, s.b⟩, s.T)

/-- A method that computes a new matrix from two others and changes nothing. -/
def Computes (x : Nat → Nat → H α Nat) (f : Mat α → Mat α → Except PyErr (Mat α)) : Prop :=
  ∀ h X y A B, Has h X A → Has h y B → Sim [] h (x X y) (f A B) (New h)

omit [DecidableEq α] in
theorem hPls1Weights_computes : Computes (α := α) hPls1Weights pls1Weights := by
  intro h X y A B hX hy
  unfold hPls1Weights pls1Weights
  refine Sim.tmp (sim_transpose hX) fun h1 xt f1 l1 g1 u1 a1 => ?_
  refine Sim.new (sim_pure2 a1 (by has)) fun h2 w W f2 l2 g2 u2 a2 => ?_
  exact (sim_pure1 a2).post fun h3 b c _ hn => ⟨by have := hn.1; omega, hn.2⟩

/-- The local variables hold the values of the function model; the matrices changed in place are distinct objects. -/
structure Pls1Holds (W P T b : Nat) (h : Heap α) (s : Pls1Refs) (v : Pls1Vars α) : Prop where
  eW : s.W = W
  eP : s.P = P
  eT : s.T = T
  eb : s.b = b
  hX : Has h s.X v.X
  nX : s.X < W ∨ b < s.X
  hW : Has h W v.W
  hP : Has h P v.P
  hT : Has h T v.T
  hb : Has h b v.b
  lt : b < h.nobj

omit [DecidableEq α] [HasSqrt α] in
theorem hPls1Step_sim {wh : Nat → Nat → H α Nat} {wf : Mat α → Mat α → Except PyErr (Mat α)} (hwf : Computes wh wf)
    {h0 : Heap α} {W P T b y : Nat} {Y : Mat α} (h1 : W < P) (h2 : P < T) (h3 : T < b) (hy : Has h0 y Y) (hyW : y < W) (k : Int)
    (h : Heap α) (s : Pls1Refs) (v : Pls1Vars α) (h0h : Frame [b, T, P, W] h0 h) (hi : Pls1Holds W P T b h s v) :
    Sim [b, T, P, W] h (hPls1Step wh y k s) (pls1Step wf Y k v) (Pls1Holds W P T b) := by
  obtain ⟨X, W', P', T', b'⟩ := s
  obtain ⟨rfl, rfl, rfl, rfl, hX, nX, hW, hP, hT, hb, hlt⟩ := hi
  simp only [] at *
  unfold hPls1Step pls1Step
  have hXl := hX.1
  refine Sim.new (hwf h _ _ _ _ hX (by has)) fun h4 w Wv f4 l4 g4 u4 a4 => ?_
  refine Sim.upd (sim_setColumn (by has) a4 k) (by simp) fun h5 Wv' f5 l5 a5 => ?_
  refine Sim.new (sim_pure2 (f := Mat.mul) (by has) (by has)) fun h6 t Tv f6 l6 g6 u6 a6 => ?_
  refine Sim.upd (sim_setColumn (by has) a6 k) (by simp) fun h7 Tv' f7 l7 a7 => ?_
  refine Sim.num2 (M := Tv) (N := Tv) (by has) (by has) fun tt => ?_
  refine Sim.num2 (M := Tv) (N := Y) (by has) (by has) fun ty => ?_
  refine Sim.upd (sim_set (by has) k 0 _) (by simp) fun h8 bv f8 l8 a8 => ?_
  refine Sim.tmp (sim_transpose (by has)) fun h9 xt f9 l9 g9 u9 a9 => ?_
  refine Sim.new (sim_pure2 (f := Mat.mul) a9 (by has)) fun h10 q Q f10 l10 g10 u10 a10 => ?_
  refine Sim.tmp (sim_pure1 (f := fun M => .ok (M.div tt)) a10) fun h11 p f11 l11 g11 u11 a11 => ?_
  refine Sim.upd (sim_setColumn (by has) a11 k) (by simp) fun h12 Pv f12 l12 a12 => ?_
  refine Sim.tmp (sim_transpose (M := Q.div tt) (by has)) fun h13 pt f13 l13 g13 u13 a13 => ?_
  refine Sim.new (sim_pure2 (f := Mat.mul) (M := Tv) (by has) a13) fun h14 tp TP f14 l14 g14 u14 a14 => ?_
  refine Sim.new (sim_pure2 (f := Mat.sub) (by has) a14) fun h15 X' Xv f15 l15 g15 u15 a15 => ?_
  exact Sim.ret ⟨rfl, rfl, rfl, rfl, a15, by right; show _ < X'; omega, by has, by has, by has, by has, by omega⟩

/-- The attributes of a trained object hold the model. -/
structure Pls1Model.On (m : Pls1Model α) (h : Heap α) (a : Pls1Attrs) : Prop where
  rHat : Has h a.rHat m.rHat
  P : Has h a.P m.P
  W : Has h a.W m.W
  bHat : Has h a.bHat m.bHat

/-- The matrices of a trained object. -/
def pls1Repr : Repr α (Pls1Model α) Pls1Attrs where
  refs a := [a.rHat, a.P, a.W, a.bHat]
  On := Pls1Model.On
  mono hf hr hm := by
    simp only [List.mem_cons, List.not_mem_nil, or_false, forall_eq_or_imp, forall_eq] at hr
    exact ⟨hm.rHat.mono hf hr.1, hm.P.mono hf hr.2.1, hm.W.mono hf hr.2.2.1, hm.bHat.mono hf hr.2.2.2⟩

omit [HasSqrt α] in
/-- Training refines the function model: it changes no object that existed before, and the matrices of the model are new objects. -/
theorem hPls1Train_sim {wh : Nat → Nat → H α Nat} {wf : Mat α → Mat α → Except PyErr (Mat α)} (hwf : Computes wh wf)
    {h : Heap α} {X y : Nat} {A B : Mat α} (hX : Has h X A) (hy : Has h y B) (K : Int) :
    Sim [] h (hPls1Train wh K X y) (pls1Train wf K A B) fun h' a v => v.1.On h' a.1 ∧ Has h' a.2 v.2 ∧
      h.nobj ≤ a.1.W ∧ a.1.W < a.1.P ∧ a.1.P < a.2 ∧ a.2 < a.1.bHat ∧ a.1.bHat < a.1.rHat := by
  unfold hPls1Train pls1Train pls1Init
  have hXl := hX.1
  have hyl := hy.1
  refine Sim.look hX ?_
  simp only [bind_assoc, except_bind_ok]
  refine Sim.own (sim_create _) fun h1 W Wv f1 l1 g1 u1 a1 => ?_
  refine Sim.own (sim_create _) fun h2 P Pv f2 l2 g2 u2 a2 => ?_
  refine Sim.own (sim_create _) fun h3 T Tv f3 l3 g3 u3 a3 => ?_
  refine Sim.own (sim_create _) fun h4 b bv f4 l4 g4 u4 a4 => ?_
  have hy4 : Has h4 y B := by has
  refine Sim.bind (Sim.loop (h0 := h4) (Pls1Holds W P T b) _ (fun k _ h' s v h0h hi =>
      hPls1Step_sim hwf (by omega) (by omega) (by omega) hy4 (by omega) k h' s v h0h hi) h4 ⟨X, W, P, T, b⟩ ⟨A, Wv, Pv, Tv, bv⟩
      (.refl _ f4.wf) ⟨rfl, rfl, rfl, rfl, by has, by left; show X < W; omega, by has, by has, by has, by has, u4⟩) (fun _ h => h) ?_
  rintro h5 ⟨X', W', P', T', b'⟩ v f5 ⟨rfl, rfl, rfl, rfl, hX', nX, hW, hP, hT, hb, hlt⟩
  dsimp only at *
  have l5 := f5.le
  unfold pls1Finish
  simp only [bind_assoc, except_bind_ok]
  refine Sim.tmp (sim_transpose hP) fun h6 pt f6 l6 g6 u6 a6 => ?_
  refine Sim.new (sim_pure2 a6 (by has)) fun h7 ptw PTW f7 l7 g7 u7 a7 => ?_
  refine Sim.new (sim_pure1 a7) fun h8 inv INV f8 l8 g8 u8 a8 => ?_
  refine Sim.new (sim_pure2 (by has) a8) fun h9 tmp TMP f9 l9 g9 u9 a9 => ?_
  refine Sim.new (sim_pure2 a9 (by has)) fun h10 r R f10 l10 g10 u10 a10 => ?_
  exact Sim.ret ⟨⟨a10, by has, by has, by has⟩, by has, by omega, (by omega : W' < P'), (by omega : P' < T'), (by omega : T' < b'),
    (by omega : b' < r)⟩

/-- One pass of the inner loop of `do_transform` and `do_perform_predictions`, `_PLS1.py` 163-169 and 197-203. -/
def hPls1RowStep (W P X T : Nat) (j : Int) (x : Nat) : H α Nat := do
  mSetColumn X j x
  let wj ← mPure1 (fun M => M.getColumn j) W
  let t ← mPure2 Mat.mul x wj
  mSetColumn T j t
  let pj ← mPure1 (fun M => M.getColumn j) P
  let pt ← mTranspose pj
  let tr ← mScalar1 Mat.asReal t
  let q ← mPure1 (fun M => .ok (M.smul tr)) pt
  mPure2 Mat.sub x q

/-- The scores of one row, `_PLS1.py` 159-169 and 193-203. -/
def hPls1Row (K : Int) (W P x : Nat) : H α Nat := do
  let X ← mCreate (Factory.zeros 1 K)
  let T ← mCreate (Factory.zeros 1 K)
  let _ ← mLoop (hPls1RowStep W P X T) (pyRange 0 K) x
  pure T

/-- `do_transform`, `_PLS1.py` 148-173. -/
def hPls1Transform (K : Int) (a : Pls1Attrs) (D : Nat) : H α Nat := do
  let M ← getContents D
  let R ← mCreate (Factory.zeros (M.rows : Int) K)
  let _ ← mLoop (fun i (_ : Unit) => do
    let x ← mPure1 (fun M => M.getRow i) D
    let T ← hPls1Row K a.W a.P x
    mSetRow R i T) (pyRange 0 M.rows) ()
  pure R

/-- `do_perform_predictions`, `_PLS1.py` 183-207. -/
def hPls1Predict (K : Int) (a : Pls1Attrs) (D : Nat) : H α Nat := do
  let M ← getContents D
  let R ← mCreate (Factory.zeros (M.rows : Int) 1)
  let _ ← mLoop (fun i (_ : Unit) => do
    let x ← mPure1 (fun M => M.getRow i) D
    let T ← hPls1Row K a.W a.P x
    let tb ← mPure2 Mat.mul T a.bHat
    let v ← mScalar1 Mat.asReal tb
    mSet R i 0 v) (pyRange 0 M.rows) ()
  pure R

omit [DecidableEq α] [HasSqrt α] in
/-- The scratch matrix `X` of `_PLS1.py` 160 and 194 takes every row vector in every column the loop visits. -/
theorem zeros_one (K : Int) : ∃ Z : Mat α, Factory.zeros 1 K = .ok Z ∧ ∀ j ∈ pyRange 0 K, ∃ c, pyIndex Z.cols j = .ok c := by
  rcases lt_or_ge K 1 with hK | hK
  · rw [pyRange_nonpos K (by omega)]
    have : ∃ Z : Mat α, Factory.zeros 1 K = .ok Z := by
      show ∃ Z, Factory.create [_] = .ok Z
      unfold Factory.create
      dsimp only
      rw [dif_pos (fun x hx => by rw [List.mem_singleton.mp hx])]
      exact ⟨_, rfl⟩
    exact this.imp fun Z hZ => ⟨hZ, fun _ h => absurd h List.not_mem_nil⟩
  · obtain ⟨k, rfl⟩ := Int.eq_ofNat_of_zero_le (show 0 ≤ K by omega)
    refine ⟨_, Factory.zeros_nat (m := 1) (by decide) k, fun j hj => ?_⟩
    rw [pyRange_zero] at hj
    obtain ⟨i, hi, rfl⟩ := List.mem_map.mp hj
    exact ⟨_, pyIndex_natCast i (List.mem_range.mp hi)⟩

omit [Field α] [DecidableEq α] [HasSqrt α] in
theorem setColumn_row {M V : Mat α} {j : Int} (hV : V.rows = 1) (hj : ∃ c, pyIndex M.cols j = .ok c) :
    ∃ M', M.setColumn j V = .ok M' := by
  obtain ⟨c, hc⟩ := hj
  unfold Mat.setColumn mustBeVector isVector
  rw [hV, hc]
  exact ⟨_, rfl⟩

omit [DecidableEq α] [HasSqrt α] in
theorem hPls1Row_sim {h : Heap α} {W P x : Nat} {Wv Pv xv : Mat α} (hW : Has h W Wv) (hP : Has h P Pv) (hx : Has h x xv)
    (hrow : xv.rows = 1) (K : Int) : Sim [] h (hPls1Row K W P x) (pls1Row K Wv Pv xv) (New h) := by
  unfold hPls1Row pls1Row
  obtain ⟨Z, hZ, hZ2⟩ := zeros_one (α := α) K
  have lx := hx.1
  have lW := hW.1
  have lP := hP.1
  refine Sim.ownTmp (c := Z) (by rw [hZ]; exact sim_create (.ok Z)) fun h1 X f1 l1 g1 u1 a1 => ?_
  refine Sim.own (sim_create (Factory.zeros 1 K)) fun h2 T Tv f2 l2 g2 u2 a2 => ?_
  have hW2 : Has h2 W Wv := by has
  have hP2 : Has h2 P Pv := by has
  refine Sim.bind (Sim.loop (h0 := h2) (fun h' x v => Has h' x v.1 ∧ Has h' T v.2 ∧ v.1.rows = 1 ∧ (x < X ∨ T < x) ∧
      ∃ Z', Has h' X Z' ∧ Z'.cols = Z.cols) _ ?_ h2 x (xv, Tv) (.refl _ f2.wf)
      ⟨by has, a2, hrow, by left; omega, Z, by has, rfl⟩) (fun _ h => h) ?_
  · rintro j hj h3 x ⟨v, Tv⟩ f3 ⟨hx, hT, hr, nx, Z', hX, hc⟩
    simp only [] at hx hT hr
    unfold hPls1RowStep pls1RowStep
    dsimp only
    have l3 := f3.le
    have lx := hx.1
    obtain ⟨Z'', hZ''⟩ := setColumn_row (M := Z') (V := v) (j := j) hr (by rw [hc]; exact hZ2 j hj)
    refine Sim.updTmp (hZ'' ▸ sim_setColumn hX hx j) (by simp) fun h4 f4 l4 a4 => ?_
    refine Sim.new (sim_pure1 (f := fun M => M.getColumn j) (M := Wv) (by has)) fun h5 wj WJ f5 l5 g5 u5 a5 => ?_
    refine Sim.new (sim_pure2 (f := Mat.mul) (M := v) (by has) a5) fun h6 t TT f6 l6 g6 u6 a6 => ?_
    refine Sim.upd (sim_setColumn (M := Tv) (by has) a6 j) (by simp) fun h7 Tv' f7 l7 a7 => ?_
    refine Sim.new (sim_pure1 (f := fun M => M.getColumn j) (M := Pv) (by has)) fun h8 pj PJ f8 l8 g8 u8 a8 => ?_
    refine Sim.tmp (sim_transpose a8) fun h9 pt f9 l9 g9 u9 a9 => ?_
    refine Sim.num1 (M := TT) (by has) fun tr => ?_
    refine Sim.tmp (sim_pure1 (f := fun M => .ok (M.smul tr)) a9) fun h10 q f10 l10 g10 u10 a10 => ?_
    refine Sim.out (sim_pure2 (f := Mat.sub) (M := v) (by has) a10) fun h11 x' v' f11 l11 g11 u11 a11 e11 => ⟨_, rfl, ?_⟩
    exact ⟨a11, by has, (sub_shape e11).1.trans hr, by right; show T < x'; omega, Z'', by has, (setColumn_shape hZ'').2.trans hc⟩
  · rintro h3 x' ⟨v, Tv'⟩ f3 ⟨-, hT, -⟩
    exact Sim.ret ⟨by omega, hT⟩

omit [DecidableEq α] [HasSqrt α] in
theorem hPls1Transform_sim {h : Heap α} {m : Pls1Model α} {a : Pls1Attrs} (hm : m.On h a) {D : Nat} {X : Mat α} (hD : Has h D X) (K : Int) :
    Sim [] h (hPls1Transform K a D) (pls1Transform K m X) (New h) := by
  unfold hPls1Transform pls1Transform
  have lD := hD.1
  have lW := hm.W.1
  have lP := hm.P.1
  refine Sim.look hD ?_
  refine Sim.own (sim_create _) fun h1 R Rv f1 l1 g1 u1 a1 => ?_
  have hD1 : Has h1 D X := by has
  have hW1 : Has h1 a.W m.W := Has.mono f1 hm.W (by sep)
  have hP1 : Has h1 a.P m.P := Has.mono f1 hm.P (by sep)
  rw [← bind_ok_right (loopM _ _ _)]
  refine Sim.bind (Sim.loop (h0 := h1) (fun h' (_ : Unit) v => Has h' R v) _ ?_ h1 () Rv (.refl _ f1.wf) a1) (fun _ h => h) ?_
  · intro i hi h2 _ Rv f2 hR
    unfold pls1TransformRow
    have l2 := f2.le
    refine Sim.new' (sim_pure1 (f := fun M => M.getRow i) (M := X) (by has)) fun h3 x xv f3 l3 g3 u3 a3 e3 => ?_
    have hr : xv.rows = 1 := by
      unfold Mat.getRow at e3
      cases hi : pyIndex X.rows i with
      | error e => rw [hi] at e3; cases e3
      | ok r => rw [hi] at e3; cases e3; rfl
    refine Sim.new (hPls1Row_sim (h := h3) (Wv := m.W) (Pv := m.P) (by has) (by has) a3 hr K) fun h4 T Tv f4 l4 g4 u4 a4 => ?_
    exact sim_setRow (by has) a4 i
  · intro h2 _ v _ hv
    exact Sim.ret ⟨by omega, hv⟩

omit [DecidableEq α] [HasSqrt α] in
theorem hPls1Predict_sim {h : Heap α} {m : Pls1Model α} {a : Pls1Attrs} (hm : m.On h a) {D : Nat} {X : Mat α} (hD : Has h D X) (K : Int) :
    Sim [] h (hPls1Predict K a D) (pls1Predict K m X) (New h) := by
  unfold hPls1Predict pls1Predict
  have lD := hD.1
  have lW := hm.W.1
  have lP := hm.P.1
  have lb := hm.bHat.1
  refine Sim.look hD ?_
  refine Sim.own (sim_create _) fun h1 R Rv f1 l1 g1 u1 a1 => ?_
  have hD1 : Has h1 D X := by has
  have hW1 : Has h1 a.W m.W := Has.mono f1 hm.W (by sep)
  have hP1 : Has h1 a.P m.P := Has.mono f1 hm.P (by sep)
  have hb1 : Has h1 a.bHat m.bHat := Has.mono f1 hm.bHat (by sep)
  rw [← bind_ok_right (loopM _ _ _)]
  refine Sim.bind (Sim.loop (h0 := h1) (fun h' (_ : Unit) v => Has h' R v) _ ?_ h1 () Rv (.refl _ f1.wf) a1) (fun _ h => h) ?_
  · intro i hi h2 _ Rv f2 hR
    unfold pls1PredictRow
    have l2 := f2.le
    refine Sim.new' (sim_pure1 (f := fun M => M.getRow i) (M := X) (by has)) fun h3 x xv f3 l3 g3 u3 a3 e3 => ?_
    have hr : xv.rows = 1 := by
      unfold Mat.getRow at e3
      cases hi : pyIndex X.rows i with
      | error e => rw [hi] at e3; cases e3
      | ok r => rw [hi] at e3; cases e3; rfl
    refine Sim.new (hPls1Row_sim (h := h3) (Wv := m.W) (Pv := m.P) (by has) (by has) a3 hr K) fun h4 T Tv f4 l4 g4 u4 a4 => ?_
    refine Sim.new (sim_pure2 (f := Mat.mul) (N := m.bHat) a4 (by has)) fun h5 tb TB f5 l5 g5 u5 a5 => ?_
    refine Sim.num1 a5 fun v => ?_
    exact sim_set (by has) i 0 v
  · intro h2 _ v _ hv
    exact Sim.ret ⟨by omega, hv⟩

end Verif
