import Verif.Props.SampleOrder
import Verif.Props.PrmScores
import Verif.Alg.PCA
import Verif.Alg.DiplsFit
import Mathlib.Data.Multiset.Sort

/-!
# C108 continued: SparsePLS, DIPLS, PCA and PRM
-/

namespace Verif.Props
open Verif Mat Transf

variable {α : Type} {n : Nat}

/-! ## SparsePLS -/

section sparse
variable [Field α] [HasSqrt α] [LT α] [DecidableLT α] {σ : Equiv.Perm (Fin n)} {A A' B B' : Mat α}

omit [Field α] [HasSqrt α] [LT α] [DecidableLT α] in
theorem shuf_colsLoop (h : Shuf σ A A') (is : List Nat) :
    ∀ (k : Nat) (M M' : Mat α), Shuf σ M M' → ERel (Shuf σ) (colsLoop A is k M) (colsLoop A' is k M') := by
  induction is with
  | nil => exact fun k M M' hM => hM
  | cons i is ih =>
    intro k M M' hM
    refine ERel.bind (h.getColumn _) fun c c' hc => ?_
    exact ERel.bind (hM.setColumn _ hc) fun N N' hN => ih (k + 1) N N' hN

omit [HasSqrt α] [LT α] [DecidableLT α] in
theorem shuf_spCols (hn : n ≠ 0) (h : Shuf σ A A') (is : List Nat) : ERel (Shuf σ) (spCols A is) (spCols A' is) :=
  ERel.bind (h.zeros hn _) fun M M' hM => shuf_colsLoop h is 0 M M' hM

/-- States of the training loop for two orders of the samples. -/
structure SpRel (σ : Equiv.Perm (Fin n)) (s t : SpVars α) : Prop where
  yj : Shuf σ s.yj t.yj
  A : t.A = s.A
  B : t.B = s.B
  W : t.W = s.W

theorem shuf_spStep (cfg : SpCfg α) (hnip : ∀ k, OrderFree (cfg.nip k)) (hn : n ≠ 0) (hA : Shuf σ A A') (hB : Shuf σ B B') (k : Int)
    (s t : SpVars α) (h : SpRel σ s t) : ERel (SpRel σ) (spStep cfg A B k s) (spStep cfg A' B' k t) := by
  obtain ⟨yj, a, b, w⟩ := s
  obtain ⟨yj', a', b', w'⟩ := t
  obtain ⟨h1, h2, h3, h4⟩ := h
  dsimp only at h1 h2 h3 h4
  subst h2 h3 h4
  unfold spStep spDirection
  dsimp only
  rw [hA.gram h1, hA.cols_eq, hB.cols_eq]
  refine ERel.bindEq rfl fun d => ?_
  refine ERel.bindEq rfl fun W => ?_
  refine ERel.bindEq rfl fun L => ?_
  refine ERel.bind (shuf_spCols hn hA L) fun XA XA' hXA => ?_
  refine ERel.bindEq rfl fun Z => ?_
  have e : spCoef cfg XA' B' k = spCoef cfg XA B k := by
    unfold spCoef
    rw [hXA.cols_eq, (hnip _).shuf hn hXA hB]
  refine ERel.bindEq e.symm fun coef => ?_
  refine ERel.bindEq rfl fun C => ?_
  refine ERel.bind (hA.mul C) fun f f' hf => ?_
  refine ERel.bind (hB.sub hf) fun y y' hy => ?_
  exact ⟨hy, rfl, rfl, rfl⟩

theorem shuf_spTrain (cfg : SpCfg α) (hnip : ∀ k, OrderFree (cfg.nip k)) (hn : n ≠ 0) (hA : Shuf σ A A') (hB : Shuf σ B B') :
    ERel (fun a b => b.stdX = a.stdX ∧ b.stdY = a.stdY ∧ SpRel σ a.vars b.vars) (spTrain cfg A B) (spTrain cfg A' B') := by
  unfold spTrain
  dsimp only
  obtain ⟨a1, a2⟩ := shuf_standardize cfg.isZero hA
  obtain ⟨b1, b2⟩ := shuf_standardize cfg.isZero hB
  refine ERel.bind a2 fun X X' hX => ?_
  refine ERel.bind b2 fun Y Y' hY => ?_
  refine ERel.bind (R := SpRel σ) ?_ fun s t hst => ?_
  · unfold spInit
    rw [hX.cols_eq, hY.cols_eq]
    refine ERel.bindEq rfl fun b => ?_
    refine ERel.bindEq rfl fun w => ?_
    exact ⟨hY, rfl, rfl, rfl⟩
  · refine ERel.bind (ERel.loopM (fun k s t h => shuf_spStep cfg hnip hn hX hY k s t h) _ s t hst) fun s t hst => ?_
    exact ⟨a1, b1, hst⟩

/-- **C108** SparsePLS: predictions, scores and the set of selected predictors, when the inner NIPALS model does not depend
on the order (`C108_nipals`, last part). -/
theorem C108_sparse (cfg : SpCfg α) (hnip : ∀ k, OrderFree (cfg.nip k)) (Z : Mat α) :
    OrderFree (fun X y => spTrain cfg X y >>= fun m => spPredict cfg m Z) ∧
    OrderFree (fun X y => spTrain cfg X y >>= fun m => spTransform cfg m Z) ∧
    OrderFree (fun X y => (spTrain cfg X y).map fun m => m.vars.A) := by
  refine ⟨OrderFree.of_shuf fun hn σ A A' B B' hA hB => ?_, OrderFree.of_shuf fun hn σ A A' B B' hA hB => ?_,
    OrderFree.of_shuf fun hn σ A A' B B' hA hB => ?_⟩
  · refine (ERel.eq (ERel.bind (shuf_spTrain cfg hnip hn hA hB) fun a b hab => ERel.of_eq (fun _ => rfl) ?_)).symm
    obtain ⟨ax, ay, av⟩ := a
    obtain ⟨bx, by', bv⟩ := b
    obtain ⟨h1, h2, h3⟩ := hab
    dsimp only at h1 h2
    subst h1 h2
    unfold spPredict
    dsimp only at h3 ⊢
    rw [h3.A, h3.B]
  · refine (ERel.eq (ERel.bind (shuf_spTrain cfg hnip hn hA hB) fun a b hab => ERel.of_eq (fun _ => rfl) ?_)).symm
    unfold spTransform
    rw [hab.2.2.W]
  · exact (ERel.eq (ERel.map (shuf_spTrain cfg hnip hn hA hB) fun a b hab => hab.2.2.A.symm)).symm

/-- **C108** SparsePLS with the NIPALS of the code as inner model. -/
theorem C108_sparse_nipals (cfg : SpCfg α) (c : Int → NipalsCfg α) (hc : ∀ k, (c k).cca = false)
    (hnip : ∀ k X y, cfg.nip k X y = (nipalsTrain (c k) X y).map NipalsModel.coef) (Z : Mat α) :
    OrderFree (fun X y => spTrain cfg X y >>= fun m => spPredict cfg m Z) ∧
    OrderFree (fun X y => spTrain cfg X y >>= fun m => spTransform cfg m Z) ∧
    OrderFree (fun X y => (spTrain cfg X y).map fun m => m.vars.A) := by
  refine C108_sparse cfg (fun k n p q hn σ X Y => ?_) Z
  rw [hnip, hnip]
  exact (C108_nipals (c k) (fun h => absurd h (by simp [hc k])) Z).2.2.2 n p q hn σ X Y

end sparse

/-! ## DIPLS -/

section dipls
variable [Field α] [HasSqrt α] {n' : Nat} {σ : Equiv.Perm (Fin n)} {σs : Equiv.Perm (Fin n')} {A A' B B' : Mat α}

omit [Field α] [HasSqrt α] in
theorem Shuf.concatAlongColumns (h : Shuf σ A A') (h' : Shuf σ B B') :
    ERel (Shuf σ) (A.concatAlongColumns B) (A'.concatAlongColumns B') := by
  obtain ⟨c, M, rfl, rfl⟩ := h
  obtain ⟨d, N, rfl, rfl⟩ := h'
  rw [concatAlongColumns_of, concatAlongColumns_of]
  exact ⟨c + d, Matrix.of fun i j => Fin.addCases (fun b => M i b) (fun b => N i b) j, rfl, rfl⟩

/-- Both missing, or reordered. -/
def OptShuf (σ : Equiv.Perm (Fin n)) : Option (Mat α) → Option (Mat α) → Prop
  | none, none => True
  | some A, some B => Shuf σ A B
  | _, _ => False

omit [Field α] [HasSqrt α] in
theorem OptShuf.concat {T T' : Option (Mat α)} (h : OptShuf σ T T') (hA : Shuf σ A A') :
    ERel (OptShuf σ) (diplsConcat T A) (diplsConcat T' A') := by
  cases T <;> cases T' <;> first | exact h.elim | skip
  · exact hA
  · exact ERel.bind (Shuf.concatAlongColumns h hA) fun B B' hB => hB

omit [HasSqrt α] in
theorem shuf_total (h : Shuf σ A A') : A'.total = A.total := by
  obtain ⟨c, M, rfl, rfl⟩ := h
  unfold Mat.total
  congr 1
  funext j
  exact sumFin_perm σ fun i => M i j

omit [HasSqrt α] in
theorem shuf_meanAll (h : Shuf σ A A') : A'.meanAll = A.meanAll := by
  unfold Mat.meanAll
  rw [shuf_total h, h.rows_eq, h.cols_eq]

omit [HasSqrt α] in
theorem shuf_diplsLoad (cfg : DiplsCfg α) (hA : Shuf σ A A') (hB : Shuf σ B B') :
    diplsLoad cfg A' B' = diplsLoad cfg A B := by
  unfold diplsLoad
  rw [hA.gram hA]
  refine (ERel.eq (ERel.bindEq rfl fun g => ?_)).symm
  refine ERel.bindEq rfl fun g => ?_
  refine ERel.bind (hA.transpose.lmul g) fun a a' ha => ?_
  exact ERel.of_eq (fun _ => rfl) (ha.mul hB).symm

omit [HasSqrt α] in
theorem shuf_diplsCoef (cfg : DiplsCfg α) (hA : Shuf σ A A') (hB : Shuf σ B B') :
    diplsCoef cfg A' B' = diplsCoef cfg A B := by
  unfold diplsCoef
  rw [hA.gram hA]
  refine (ERel.eq (ERel.bindEq rfl fun g => ?_)).symm
  refine ERel.bindEq rfl fun g => ?_
  refine ERel.bind (hB.transpose.lmul g) fun a a' ha => ?_
  exact ERel.of_eq (fun _ => rfl) (ha.mul hA).symm

omit [HasSqrt α] in
theorem shuf_diplsBlock (cfg : DiplsCfg α) (w : Mat α) (hA : Shuf σ A A') {T T' P : Option (Mat α)} (hT : OptShuf σ T T') :
    ERel (fun a b => Shuf σ a.1 b.1 ∧ OptShuf σ a.2.1 b.2.1 ∧ b.2.2.1 = a.2.2.1 ∧ Shuf σ a.2.2.2 b.2.2.2)
      (diplsBlock cfg w A T P) (diplsBlock cfg w A' T' P) := by
  unfold diplsBlock
  refine ERel.bind (hA.mul w) fun t t' ht => ?_
  refine ERel.bindEq (shuf_diplsLoad cfg ht hA).symm fun p => ?_
  refine ERel.bind (R := Shuf σ) ?_ fun Z Z' hZ => ?_
  · unfold diplsDefl
    exact ERel.bind (ht.mul p) fun a a' ha => hA.sub ha
  refine ERel.bind (hT.concat ht) fun T T' hT => ?_
  refine ERel.bindEq rfl fun P => ?_
  exact ⟨hZ, hT, rfl, ht⟩

/-- The variables of the loop for two orders of the samples of the three blocks. -/
structure DipRel {n s t : Nat} (σ : Equiv.Perm (Fin n)) (σs : Equiv.Perm (Fin s)) (σt : Equiv.Perm (Fin t)) (a b : DiplsVars α) :
    Prop where
  X : Shuf σ a.X b.X
  Xs : Shuf σs a.Xs b.Xs
  Xt : Shuf σt a.Xt b.Xt
  y : Shuf σ a.y b.y
  T : OptShuf σ a.T b.T
  Ts : OptShuf σs a.Ts b.Ts
  Tt : OptShuf σt a.Tt b.Tt
  c : b.c = a.c
  P : b.P = a.P
  Ps : b.Ps = a.Ps
  Pt : b.Pt = a.Pt
  W : b.W = a.W

variable {s t : Nat} {τ : Equiv.Perm (Fin s)} {υ : Equiv.Perm (Fin t)}

theorem shuf_diplsStep (cfg : DiplsCfg α) (o : DiplsObj α) (I : Mat α) (k : Int) (a b : DiplsVars α) (h : DipRel σ τ υ a b) :
    ERel (DipRel σ τ υ) (diplsStep cfg o I k a) (diplsStep cfg o I k b) := by
  unfold diplsStep
  have ew : diplsWeights cfg o I b = diplsWeights cfg o I a := by
    unfold diplsWeights diplsDiff diplsCov
    rw [h.y.gram h.X, h.Xs.gram h.Xs, h.Xt.gram h.Xt, h.y.norm2Squared]
  refine ERel.bindEq ew.symm fun w => ?_
  rw [h.P, h.Ps, h.Pt, h.c, h.W]
  refine ERel.bind (shuf_diplsBlock cfg w h.X h.T) fun x x' hx => ?_
  refine ERel.bind (shuf_diplsBlock cfg w h.Xs h.Ts) fun xs xs' hxs => ?_
  refine ERel.bind (shuf_diplsBlock cfg w h.Xt h.Tt) fun xt xt' hxt => ?_
  refine ERel.bindEq (shuf_diplsCoef cfg hx.2.2.2 h.y).symm fun ca => ?_
  refine ERel.bind (R := Shuf σ) ?_ fun y y' hy => ?_
  · unfold diplsDefl
    exact ERel.bind (hx.2.2.2.mul ca) fun e e' he => h.y.sub he
  refine ERel.bindEq rfl fun c => ?_
  refine ERel.bindEq rfl fun W => ?_
  exact ⟨hx.1, hxs.1, hxt.1, hy, hx.2.1, hxs.2.1, hxt.2.1, rfl, hx.2.2.1, hxs.2.2.1, hxt.2.2.1, rfl⟩

/-- The means kept in a `Center` object are a row. -/
def RowMeans (s : Option (CenterState α)) : Prop := ∀ c m, s = some c → c.means = some m → m.rows = 1

omit [HasSqrt α] in
theorem shuf_optCentre (c : Option (CenterState α)) (hc : RowMeans c) (h : Shuf σ A A') :
    ERel (fun a b => b.1 = a.1 ∧ Shuf σ a.2 b.2) (optCentre c A) (optCentre c A') := by
  cases c with
  | none => rfl
  | some c =>
    obtain ⟨h1, h2⟩ := shuf_centre_state c h (fun m hm => hc c m rfl hm)
    refine ERel.bind h2 fun a b hab => ?_
    exact ⟨h1, hab⟩

/-- What predictions and scores read. -/
def DipModelRel (a b : DiplsModel α) : Prop := b.obj = a.obj ∧ b.b0 = a.b0 ∧ b.vars.W = a.vars.W ∧ b.b = a.b

theorem shuf_diplsFit (cfg : DiplsCfg α) (o : DiplsObj α) (hx : RowMeans o.xc) (hs : RowMeans o.xsc) (ht : RowMeans o.xtc) (I : Mat α)
    {Xs Xs' Xt Xt' X X' y y' : Mat α} (h1 : Shuf τ Xs Xs') (h2 : Shuf υ Xt Xt') (h3 : Shuf σ X X') (h4 : Shuf σ y y') :
    ERel DipModelRel (diplsFit cfg o I Xs Xt X y) (diplsFit cfg o I Xs' Xt' X' y') := by
  unfold diplsFit
  refine ERel.bind (shuf_optCentre _ hx h3) fun x x' hx => ?_
  refine ERel.bind (shuf_optCentre _ hs h1) fun xs xs' hxs => ?_
  refine ERel.bind (shuf_optCentre _ ht h2) fun xt xt' hxt => ?_
  rw [shuf_meanAll h4]
  refine ERel.bind (ERel.loopM (R := DipRel σ τ υ) (fun k s t h => shuf_diplsStep cfg o I k s t h) _ _ _
    ⟨hx.2, hxs.2, hxt.2, h4.map (fun x => x - y.meanAll), trivial, trivial, trivial, rfl, rfl, rfl, rfl, rfl⟩) fun v v' hv => ?_
  have e : diplsCoefs cfg v' = diplsCoefs cfg v := by
    unfold diplsCoefs
    rw [hv.W, hv.P, hv.c]
  refine ERel.bindEq e.symm fun b => ?_
  refine ⟨?_, rfl, hv.W, rfl⟩
  rw [hx.1, hxs.1, hxt.1]

/-- The same message, or models with the same predictions and scores. -/
def DipResRel : DiplsResult α → DiplsResult α → Prop
  | .message s, .message s' => s = s'
  | .trained a, .trained b => DipModelRel a b
  | _, _ => False

/-- The permutation of a block above another. -/
def blockPerm (τ : Equiv.Perm (Fin s)) (υ : Equiv.Perm (Fin t)) : Equiv.Perm (Fin (s + t)) :=
  (finSumFinEquiv.symm.trans (Equiv.sumCongr τ υ)).trans finSumFinEquiv

/-- What `g` answers for a trained model, or the message of training. -/
def dipAnswer {R : Type} (g : DiplsModel α → Except PyErr R) : DiplsResult α → Except PyErr (String ⊕ R)
  | .message s => .ok (.inl s)
  | .trained m => (g m).map .inr

omit [Field α] [HasSqrt α] in
theorem dipAnswer_eq {R : Type} {g : DiplsModel α → Except PyErr R} (hg : ∀ a b, DipModelRel a b → g b = g a)
    {x y : Except PyErr (DiplsResult α)} (h : ERel DipResRel x y) : y >>= dipAnswer g = x >>= dipAnswer g := by
  refine (ERel.eq (ERel.bind h fun a b hab => ERel.of_eq (fun _ => rfl) ?_)).symm
  cases a <;> cases b <;> first | exact hab.elim | skip
  · exact congrArg (fun s => (.ok (.inl s) : Except PyErr (String ⊕ R))) hab
  · exact congrArg (fun r => Except.map Sum.inr r) (hg _ _ hab).symm

omit [HasSqrt α] in
theorem dipPredict_rel (Z : Mat α) (a b : DiplsModel α) (h : DipModelRel a b) : diplsPredict b Z = diplsPredict a Z := by
  unfold diplsPredict
  rw [h.1, h.2.1, h.2.2.2]

omit [HasSqrt α] in
theorem dipTransform_rel (Z : Mat α) (a b : DiplsModel α) (h : DipModelRel a b) : diplsTransform b Z = diplsTransform a Z := by
  unfold diplsTransform
  rw [h.1, h.2.2.1]

theorem shuf_diplsPerform (cfg : DiplsCfg α) (o : DiplsObj α) (hx : RowMeans o.xc) (hs : RowMeans o.xsc) (ht : RowMeans o.xtc)
    {X X' y y' Xs Xs' Xt Xt' Xr Xr' : Mat α} (hc : X'.cols = X.cols) (e : diplsSelect o X = .ok (Xs, Xt, Xr))
    (e' : diplsSelect o X' = .ok (Xs', Xt', Xr')) (h1 : Shuf τ Xs Xs') (h2 : Shuf υ Xt Xt') (h3 : Shuf σ Xr Xr')
    (h4 : Shuf σ y y') : ERel DipResRel (diplsPerform cfg o X y) (diplsPerform cfg o X' y') := by
  unfold diplsPerform
  rw [hc]
  refine ERel.bindEq rfl fun I => ?_
  by_cases c1 : o.ns = 0 ∨ o.nt = 0
  · rw [if_pos c1, if_pos c1]
    exact rfl
  rw [if_neg c1, if_neg c1]
  by_cases c2 : o.ns = 1 ∨ o.nt = 1
  · rw [if_pos c2, if_pos c2]
    exact rfl
  rw [if_neg c2, if_neg c2, e, e', except_bind_ok, except_bind_ok]
  exact ERel.bind (shuf_diplsFit cfg o hx hs ht I h1 h2 h3 h4) fun a b hab => hab

end dipls

section diplsReal
variable {s t u p q : Nat} (τ : Equiv.Perm (Fin s)) (υ : Equiv.Perm (Fin t))

theorem shuf_stack (A : Matrix (Fin s) (Fin p) ℝ) (B : Matrix (Fin t) (Fin p) ℝ) :
    Shuf (blockPerm τ υ) (of (stack A B)) (of (stack (rowSel τ A) (rowSel υ B))) := by
  refine ⟨p, stack A B, rfl, mk_congr fun i j => ?_⟩
  show stack (rowSel τ A) (rowSel υ B) i j = stack A B (blockPerm τ υ i) j
  refine Fin.addCases (fun a => ?_) (fun b => ?_) i
  · have e : blockPerm τ υ (Fin.castAdd t a) = Fin.castAdd t (τ a) := by simp [blockPerm]
    rw [e]
    simp only [stack, Matrix.of_apply, Fin.addCases_left]
    rfl
  · have e : blockPerm τ υ (Fin.natAdd s b) = Fin.natAdd s (υ b) := by simp [blockPerm]
    rw [e]
    simp only [stack, Matrix.of_apply, Fin.addCases_right]
    rfl

theorem stack_assoc (A : Matrix (Fin s) (Fin p) ℝ) (B : Matrix (Fin t) (Fin p) ℝ) (C : Matrix (Fin u) (Fin p) ℝ) :
    of (stack (stack A B) C) = of (stack A (stack B C)) := by
  refine mk_eq (Nat.add_assoc s t u) rfl fun i j => ?_
  induction i using Fin.addCases with
  | left a =>
    induction a using Fin.addCases with
    | left b =>
      show stack (stack A B) C _ j = stack A (stack B C) (Fin.castAdd (t + u) b) j
      simp only [stack, Matrix.of_apply, Fin.addCases_left]
    | right b =>
      show stack (stack A B) C _ j = stack A (stack B C) (Fin.natAdd s (Fin.castAdd u b)) j
      simp only [stack, Matrix.of_apply, Fin.addCases_left, Fin.addCases_right]
  | right c =>
    have e : Fin.cast (Nat.add_assoc s t u) (Fin.natAdd (s + t) c) = Fin.natAdd s (Fin.natAdd t c) :=
      Fin.ext (Nat.add_assoc s t c)
    show stack (stack A B) C _ j = stack A (stack B C) (Fin.cast (Nat.add_assoc s t u) (Fin.natAdd (s + t) c)) j
    rw [e]
    simp only [stack, Matrix.of_apply, Fin.addCases_right]

/-- The three `Center` objects of the model hold rows of means, if any (a new object, or one that was trained before). -/
def DipCentres (o : DiplsObj ℝ) : Prop := RowMeans o.xc ∧ RowMeans o.xsc ∧ RowMeans o.xtc

theorem dip_unsup (cfg : DiplsCfg ℝ) (o : DiplsObj ℝ) (ho : DipCentres o) (Xs : Matrix (Fin s) (Fin p) ℝ) (Xt : Matrix (Fin t) (Fin p) ℝ)
    (ys : Matrix (Fin s) (Fin q) ℝ) :
    ERel DipResRel (diplsUnsupervised cfg o (of Xs) (of Xt) (of ys))
      (diplsUnsupervised cfg o (of (rowSel τ Xs)) (of (rowSel υ Xt)) (of (rowSel τ ys))) := by
  unfold diplsUnsupervised
  rw [concatRows_stack, concatRows_stack, except_bind_ok, except_bind_ok]
  have e : ∀ (A : Matrix (Fin s) (Fin p) ℝ) (B : Matrix (Fin t) (Fin p) ℝ),
      diplsSelect { o with ns := s, nt := t, strategy := some .unsupervised } (of (stack A B)) = .ok (of A, of B, of A) := by
    intro A B
    unfold diplsSelect
    simp only []
    rw [rows_top, except_bind_ok]
    show ((of (stack A B)).getRows (.tuple (s : Int) ((s + t : Nat) : Int)) >>= _) = _
    rw [rows_bot, except_bind_ok]
  exact shuf_diplsPerform cfg { o with ns := s, nt := t, strategy := some .unsupervised } ho.1 ho.2.1 ho.2.2 rfl (e Xs Xt) (e _ _) (σ := τ) (τ := τ) (υ := υ) ⟨p, Xs, rfl, rfl⟩ ⟨p, Xt, rfl, rfl⟩
    ⟨p, Xs, rfl, rfl⟩ ⟨q, ys, rfl, rfl⟩

theorem dip_sup (cfg : DiplsCfg ℝ) (o : DiplsObj ℝ) (ho : DipCentres o) (Xs : Matrix (Fin s) (Fin p) ℝ) (Xt : Matrix (Fin t) (Fin p) ℝ)
    (ys : Matrix (Fin s) (Fin q) ℝ) (yt : Matrix (Fin t) (Fin q) ℝ) :
    ERel DipResRel (diplsSupervised cfg o (of Xs) (of Xt) (of ys) (of yt))
      (diplsSupervised cfg o (of (rowSel τ Xs)) (of (rowSel υ Xt)) (of (rowSel τ ys)) (of (rowSel υ yt))) := by
  unfold diplsSupervised
  simp only [concatRows_stack, except_bind_ok]
  have e : ∀ (A : Matrix (Fin s) (Fin p) ℝ) (B : Matrix (Fin t) (Fin p) ℝ),
      diplsSelect { o with ns := s, nt := t, strategy := some .supervised } (of (stack A B)) =
        .ok (of A, of B, of (stack A B)) := by
    intro A B
    unfold diplsSelect
    simp only []
    rw [rows_top, except_bind_ok]
    show ((of (stack A B)).getRows (.tuple (s : Int) ((s + t : Nat) : Int)) >>= _) = _
    rw [rows_bot, except_bind_ok]
  exact shuf_diplsPerform cfg { o with ns := s, nt := t, strategy := some .supervised } ho.1 ho.2.1 ho.2.2 rfl (e Xs Xt) (e _ _) (σ := blockPerm τ υ) (τ := τ) (υ := υ) ⟨p, Xs, rfl, rfl⟩
    ⟨p, Xt, rfl, rfl⟩ (shuf_stack τ υ Xs Xt) (shuf_stack τ υ ys yt)

theorem dip_semi (cfg : DiplsCfg ℝ) (o : DiplsObj ℝ) (ho : DipCentres o) (τ' : Equiv.Perm (Fin s)) (ω : Equiv.Perm (Fin u))
    (Xs Xt : Matrix (Fin s) (Fin p) ℝ) (Xu : Matrix (Fin u) (Fin p) ℝ) (ys yt : Matrix (Fin s) (Fin q) ℝ) :
    ERel DipResRel (diplsSemisupervised cfg o (of Xs) (of Xt) (of Xu) (of ys) (of yt))
      (diplsSemisupervised cfg o (of (rowSel τ Xs)) (of (rowSel τ' Xt)) (of (rowSel ω Xu)) (of (rowSel τ ys)) (of (rowSel τ' yt))) := by
  unfold diplsSemisupervised
  simp only [concatRows_stack, except_bind_ok]
  have e : ∀ (A B : Matrix (Fin s) (Fin p) ℝ) (C : Matrix (Fin u) (Fin p) ℝ),
      diplsSelect { o with ns := s, nt := s, strategy := some .semisupervised } (of (stack (stack A B) C)) =
        .ok (of A, of (stack B C), of (stack A B)) := by
    intro A B C
    have e3 := rows_top (stack A B) C
    have e1 := rows_top A (stack B C)
    have e2 := rows_bot A (stack B C)
    rw [← stack_assoc] at e1 e2
    rw [show ((s + (s + u) : Nat) : Int) = ((s + s + u : Nat) : Int) by push_cast; ring] at e2
    unfold diplsSelect
    simp only []
    rw [e1, except_bind_ok]
    show ((of (stack (stack A B) C)).getRows (.tuple (s : Int) ((s + s + u : Nat) : Int)) >>= _) = _
    rw [e2, except_bind_ok]
    rw [show (2 * (s : Int)) = ((s + s : Nat) : Int) by push_cast; ring, e3, except_bind_ok]
  exact shuf_diplsPerform cfg { o with ns := s, nt := s, strategy := some .semisupervised } ho.1 ho.2.1 ho.2.2 rfl (e Xs Xt Xu) (e _ _ _) (σ := blockPerm τ τ') (τ := τ) (υ := blockPerm τ' ω)
    ⟨p, Xs, rfl, rfl⟩ (shuf_stack τ' ω Xt Xu) (shuf_stack τ τ' Xs Xt) (shuf_stack τ τ' ys yt)

/-- **C108** DIPLS: source samples and target samples may be reordered independently; messages, predictions and scores stay the
same for all three strategies (semi-supervised: as many labelled target samples as source samples, as the code requires). -/
theorem C108_dipls (cfg : DiplsCfg ℝ) (o : DiplsObj ℝ) (ho : DipCentres o) (Z : Mat ℝ) (g : DiplsModel ℝ → Except PyErr (Mat ℝ))
    (hg : g = (diplsPredict · Z) ∨ g = (diplsTransform · Z)) :
    (∀ (Xs : Matrix (Fin s) (Fin p) ℝ) (Xt : Matrix (Fin t) (Fin p) ℝ) (ys : Matrix (Fin s) (Fin q) ℝ),
      diplsUnsupervised cfg o (of (rowSel τ Xs)) (of (rowSel υ Xt)) (of (rowSel τ ys)) >>= dipAnswer g =
        diplsUnsupervised cfg o (of Xs) (of Xt) (of ys) >>= dipAnswer g) ∧
    (∀ (Xs : Matrix (Fin s) (Fin p) ℝ) (Xt : Matrix (Fin t) (Fin p) ℝ) (ys : Matrix (Fin s) (Fin q) ℝ) (yt : Matrix (Fin t) (Fin q) ℝ),
      diplsSupervised cfg o (of (rowSel τ Xs)) (of (rowSel υ Xt)) (of (rowSel τ ys)) (of (rowSel υ yt)) >>= dipAnswer g =
        diplsSupervised cfg o (of Xs) (of Xt) (of ys) (of yt) >>= dipAnswer g) ∧
    (∀ (τ' : Equiv.Perm (Fin s)) (Xs Xt : Matrix (Fin s) (Fin p) ℝ) (Xu : Matrix (Fin t) (Fin p) ℝ) (ys yt : Matrix (Fin s) (Fin q) ℝ),
      diplsSemisupervised cfg o (of (rowSel τ Xs)) (of (rowSel τ' Xt)) (of (rowSel υ Xu)) (of (rowSel τ ys)) (of (rowSel τ' yt)) >>=
          dipAnswer g =
        diplsSemisupervised cfg o (of Xs) (of Xt) (of Xu) (of ys) (of yt) >>= dipAnswer g) := by
  have hg' : ∀ a b, DipModelRel a b → g b = g a := by
    rcases hg with rfl | rfl
    · exact dipPredict_rel Z
    · exact dipTransform_rel Z
  exact ⟨fun Xs Xt ys => dipAnswer_eq hg' (dip_unsup τ υ cfg o ho Xs Xt ys),
    fun Xs Xt ys yt => dipAnswer_eq hg' (dip_sup τ υ cfg o ho Xs Xt ys yt),
    fun τ' Xs Xt Xu ys yt => dipAnswer_eq hg' (dip_semi τ cfg o ho τ' υ Xs Xt Xu ys yt)⟩

end diplsReal

/-! ## PCA -/

section pca
variable {q : Nat} (σ : Equiv.Perm (Fin n))

theorem shuf_pcaKeep {eq : ℝ → ℝ → Bool} (heq : ∀ a b, eq a b = true ↔ a = b) (X : Matrix (Fin n) (Fin q) ℝ) :
    pcaKeep eq (of (rowSel σ X)) = pcaKeep eq (of X) := by
  unfold pcaKeep
  have e : ∀ j : Fin q, hasTwo eq (List.ofFn fun i : Fin n => rowSel σ X i j) = hasTwo eq (List.ofFn fun i : Fin n => X i j) := by
    intro j
    rw [Bool.eq_iff_iff, hasTwo_iff heq, hasTwo_iff heq]
    constructor
    · rintro ⟨i, i', h⟩
      exact ⟨σ i, σ i', h⟩
    · rintro ⟨i, i', h⟩
      refine ⟨σ.symm i, σ.symm i', ?_⟩
      show X (σ (σ.symm i)) j ≠ X (σ (σ.symm i')) j
      rwa [σ.apply_symm_apply, σ.apply_symm_apply]
  show (List.map _ (List.filter (fun j : Fin q => hasTwo eq (List.ofFn fun i : Fin n => rowSel σ X i j)) (List.finRange q))) =
    List.map _ (List.filter (fun j : Fin q => hasTwo eq (List.ofFn fun i : Fin n => X i j)) (List.finRange q))
  simp only [e]

variable {σ} {A A' : Mat ℝ}

theorem shuf_removeColumns (keep : List Nat) (h : Shuf σ A A') : ERel (Shuf σ) (removeColumns keep A) (removeColumns keep A') := by
  unfold removeColumns
  rw [h.cols_eq]
  split
  · obtain ⟨c, M, rfl, rfl⟩ := h
    have hr : resolve n (pyRange 0 (n : Int)) = .ok (List.finRange n) := by
      rw [pyRange_finRange, resolve_cast]
    unfold getSubMatrix Sel.positions
    show ERel _ (resolve n (pyRange 0 (n : Int)) >>= _) (resolve n (pyRange 0 (n : Int)) >>= _)
    rw [hr, except_bind_ok, except_bind_ok]
    refine ERel.bindEq rfl fun ks => ?_
    refine ⟨ks.length, Matrix.of fun i j => M i (ks.get j), ?_, ?_⟩ <;>
    · refine mk_eq List.length_finRange rfl fun i j => ?_
      simp only [Matrix.of_apply, List.get_eq_getElem, List.getElem_finRange]
      rfl
  · exact h

theorem shuf_fillCorr (h : Shuf σ A A') : fillCorr A' = fillCorr A := by
  obtain ⟨p, M, rfl, rfl⟩ := h
  rcases Nat.eq_zero_or_pos p with rfl | hp
  · unfold fillCorr
    refine ERel.eq (ERel.bindEq rfl fun C => ?_)
    exact rfl
  · rw [fillCorr_of hp, fillCorr_of hp]
    congr 2
    ext i j
    simp only [covM, Matrix.of_apply]
    congr 1
    exact Equiv.sum_comp σ fun k => M k i * M k j

theorem shuf_pcaPrep (cfg : PcaCfg ℝ) (h : Shuf σ A A') :
    ERel (fun a b => b.1 = a.1 ∧ Shuf σ a.2 b.2) (pcaPrep cfg A) (pcaPrep cfg A') := by
  unfold pcaPrep
  split
  · obtain ⟨h1, h2⟩ := shuf_center h
    exact ERel.map h2 fun a b hab => ⟨by rw [h1], hab⟩
  · obtain ⟨h1, h2⟩ := shuf_standardize cfg.isZero h
    exact ERel.map h2 fun a b hab => ⟨by rw [h1], hab⟩

/-- **C108** PCA: everything `configure` computes — kept columns, centre, covariance matrix, eigenvalues and -vectors, order of
the components — is the same for every order of the samples; so are the loadings and the scores of any further data. -/
theorem C108_pca (cfg : PcaCfg ℝ) (heq : ∀ a b, cfg.eq a b = true ↔ a = b) (σ : Equiv.Perm (Fin n)) (X : Matrix (Fin n) (Fin q) ℝ) :
    pcaConfigure cfg (of (rowSel σ X)) = pcaConfigure cfg (of X) ∧
    (∀ Z, (pcaConfigure cfg (of (rowSel σ X)) >>= fun st => pcaScores cfg st Z) =
      (pcaConfigure cfg (of X) >>= fun st => pcaScores cfg st Z)) ∧
    (pcaConfigure cfg (of (rowSel σ X)) >>= pcaLoadings cfg) = (pcaConfigure cfg (of X) >>= pcaLoadings cfg) := by
  have key : pcaConfigure cfg (of (rowSel σ X)) = pcaConfigure cfg (of X) := by
    unfold pcaConfigure
    rw [shuf_pcaKeep σ heq X]
    refine (ERel.eq (ERel.bind (shuf_removeColumns _ ⟨q, X, rfl, rfl⟩) fun T T' hT => ?_)).symm
    refine ERel.bind (shuf_pcaPrep cfg hT) fun a b hab => ?_
    obtain ⟨tr, T⟩ := a
    obtain ⟨tr', T'⟩ := b
    obtain ⟨h1, h2⟩ := hab
    dsimp only at h1 h2
    subst h1
    dsimp only
    rw [shuf_fillCorr h2, h2.cols_eq]
    exact ERel.of_eq (fun _ => rfl) rfl
  refine ⟨key, fun Z => ?_, ?_⟩ <;> rw [key]

end pca

/-! ## PRM -/

section prm
variable {p K : Nat} {σ : Equiv.Perm (Fin n)} (cfg : PrmCfg ℝ)

theorem rowSel_apply' (X : Matrix (Fin n) (Fin p) ℝ) (i : Fin n) (j : Fin p) : rowSel σ X i j = X (σ i) j := rfl

theorem weis_perm (eps : ℝ) (X : Matrix (Fin n) (Fin p) ℝ) (v : Matrix (Fin 1) (Fin p) ℝ) :
    weis eps (rowSel σ X) v = weis eps X v := by
  ext i j
  simp only [weis, Matrix.of_apply]
  congr 1
  · exact Equiv.sum_comp σ fun i => X i j * weisW eps X v i
  · exact Equiv.sum_comp σ fun i => weisW eps X v i

theorem geoLoop_perm (hn : 2 ≤ n) (X : Matrix (Fin n) (Fin p) ℝ) :
    ∀ (k : Nat) (iter : Int), (cfg.maxIter - iter).toNat = k → ∀ v : Matrix (Fin 1) (Fin p) ℝ,
      geoLoop cfg (of (rowSel σ X)) iter (of v) = geoLoop cfg (of X) iter (of v) := by
  intro k
  induction k with
  | zero =>
    intro iter hk v
    rw [geoLoop, geoLoop, dif_neg (by omega), dif_neg (by omega)]
  | succ k ih =>
    intro iter hk v
    rw [geoLoop, geoLoop, dif_pos (by omega), dif_pos (by omega), geoStep_of cfg hn, geoStep_of cfg hn, weis_perm, except_bind_ok,
      except_bind_ok, sub_of, except_bind_ok, except_bind_ok, ih (iter + 1) (by omega)]

theorem geoMedian_perm (hn : 2 ≤ n) (X : Matrix (Fin n) (Fin p) ℝ) :
    geoMedian cfg (of (rowSel σ X)) = geoMedian cfg (of X) := by
  unfold geoMedian
  have e : (of (rowSel σ X)).columnMeans = (of X).columnMeans := Shuf.columnMeans (σ := σ) ⟨p, X, rfl, rfl⟩
  rw [e, columnMeans_of]
  exact geoLoop_perm cfg hn X _ 0 rfl _

/-- The median does not depend on the order of the numbers of a column. -/
def MedShuf (med : Mat ℝ → ℝ) : Prop :=
  ∀ (n : Nat) (σ : Equiv.Perm (Fin n)) (v : Matrix (Fin n) (Fin 1) ℝ), med (of (rowSel σ v)) = med (of v)

variable {cfg}

theorem mad_perm (hm : MedShuf cfg.med) (v : Matrix (Fin n) (Fin 1) ℝ) : prmMad cfg (of (rowSel σ v)) = prmMad cfg (of v) := by
  unfold prmMad
  rw [hm]
  exact hm n σ ((of v).subScalar (cfg.med (of v))).abs.data

theorem leverage_perm (hm : MedShuf cfg.med) (he : 0 < cfg.eps) (hn : 2 ≤ n) (T : Matrix (Fin n) (Fin p) ℝ) :
    ∃ w : Matrix (Fin n) (Fin 1) ℝ, leverageWeights cfg (of T) = .ok (of w) ∧
      leverageWeights cfg (of (rowSel σ T)) = .ok (of (rowSel σ w)) := by
  obtain ⟨m, h1, -, h3⟩ := leverage_ok cfg he hn T
  refine ⟨_, h3, ?_⟩
  have h4 := geoMedian_perm (σ := σ) cfg hn T
  rw [h1] at h4
  rw [leverageWeights_of (n := n) cfg (by omega) (of (rowSel σ T)) (of m) rfl _ h4 (cDist_of (by omega) _ m), ok_inj]
  have e : distM (rowSel σ T) m = rowSel σ (distM T m) := rfl
  rw [e, hm]
  rfl

/-- States of the training loop for two orders of the samples. -/
structure PrmRel (σ : Equiv.Perm (Fin n)) (s t : PrmState ℝ) : Prop where
  wr : ∃ w : Matrix (Fin n) (Fin 1) ℝ, s.Wr = of w ∧ t.Wr = of (rowSel σ w)
  wx : ∃ w : Matrix (Fin n) (Fin 1) ℝ, s.Wx = of w ∧ t.Wx = of (rowSel σ w)
  gamma : t.gamma = s.gamma
  base : t.base.map (fun b => (b.B, b.W)) = s.base.map (fun b => (b.B, b.W))

variable {eig : Mat ℝ → Mat ℝ × Mat ℝ} {count : Int}

theorem simplsBase_perm (he : EigOne eig) (hp : 0 < p) (hn : n ≠ 0) (K : Nat) (count : Int)
    (X : Matrix (Fin n) (Fin p) ℝ) (y : Matrix (Fin n) (Fin 1) ℝ) :
    ∃ (W : Matrix (Fin p) (Fin K) ℝ) (Q : Matrix (Fin 1) (Fin K) ℝ) (B : Mat ℝ),
      simplsBase eig (K : Int) count (of X) (of y) = .ok ⟨of (X * W), of Q, B, of W⟩ ∧
      simplsBase eig (K : Int) count (of (rowSel σ X)) (of (rowSel σ y)) = .ok ⟨of (rowSel σ (X * W)), of Q, B, of W⟩ := by
  obtain ⟨W, Q, h⟩ := simplsBase_ok he hp K count X y
  refine ⟨W, Q, _, h, ?_⟩
  unfold simplsBase at h ⊢
  rw [C108_simpls (domOf eig) (K : Int) count n p 1 hn σ X y]
  cases hm : simplsTrain (domOf eig) (K : Int) count (of X) (of y) with
  | error e => rw [hm] at h; cases h
  | ok m =>
    rw [hm, except_bind_ok] at h
    rw [except_bind_ok]
    unfold simplsTransform at h ⊢
    cases ht : (of X).mul m.W with
    | error e => rw [ht] at h; cases h
    | ok T =>
      rw [ht, except_bind_ok, ok_inj] at h
      injection h with h1 h2 h3 h4
      rw [h4, mul_of, except_bind_ok, h2, h3]
      rfl

theorem prmPass_perm (he : EigOne eig) (hp : 0 < p) (heps : 0 < cfg.eps) (hm : MedShuf cfg.med) (hn : 2 ≤ n)
    (hbase : cfg.base = simplsBase eig (K : Int) count) (X : Matrix (Fin n) (Fin p) ℝ) (y : Matrix (Fin n) (Fin 1) ℝ)
    (s t : PrmState ℝ) (h : PrmRel σ s t) :
    ERel (PrmRel σ) (prmPass cfg (of X) (of y) s) (prmPass cfg (of (rowSel σ X)) (of (rowSel σ y)) t) := by
  obtain ⟨Wr, Wx, T0, g0, b0⟩ := s
  obtain ⟨Wr', Wx', T0', g0', b0'⟩ := t
  obtain ⟨⟨wr, h1, h1'⟩, ⟨wx, h2, h2'⟩, h3, h4⟩ := h
  dsimp only at h1 h1' h2 h2' h3 h4
  subst h1 h1' h2 h2'
  obtain ⟨W, Q, B, hb, hb'⟩ := simplsBase_perm (σ := σ) he hp (by omega) K count (weightRows wr wx X) (weightRows wr wx y)
  rw [← hbase] at hb hb'
  obtain ⟨m, hg, -, hp1⟩ := prmPass_ok cfg heps hn X y wr wx T0 g0 b0 _ _ _ _ hb
  obtain ⟨m', hg', -, hp2⟩ := prmPass_ok cfg heps hn (rowSel σ X) (rowSel σ y) (rowSel σ wr) (rowSel σ wx) T0' g0' b0' _ _ _ _ hb'
  have eu : unweight (rowSel σ wr) (rowSel σ wx) (rowSel σ (weightRows wr wx X * W)) =
      rowSel σ (unweight wr wx (weightRows wr wx X * W)) := rfl
  rw [eu, geoMedian_perm cfg hn, hg, ok_inj] at hg'
  have em : m' = m := (of_injective hg').symm
  subst em
  have er : passResid (rowSel σ y) (rowSel σ wr) (rowSel σ wx) (rowSel σ (weightRows wr wx X * W)) Q =
      rowSel σ (passResid y wr wx (weightRows wr wx X * W) Q) := rfl
  rw [eu, er, mad_perm hm] at hp2
  have ed : ∀ T : Matrix (Fin n) (Fin K) ℝ, distM (rowSel σ T) m' = rowSel σ (distM T m') := fun _ => rfl
  rw [ed, hm] at hp2
  rw [hp1, hp2]
  exact ⟨⟨_, rfl, rfl⟩, ⟨_, rfl, rfl⟩, rfl, rfl⟩

theorem prmMore_perm (he : EigOne eig) (hp : 0 < p) (heps : 0 < cfg.eps) (hm : MedShuf cfg.med) (hn : 2 ≤ n)
    (hbase : cfg.base = simplsBase eig (K : Int) count) (X : Matrix (Fin n) (Fin p) ℝ) (y : Matrix (Fin n) (Fin 1) ℝ) :
    ∀ (k : Nat) (iter : Int), (cfg.maxIter - iter).toNat = k → ∀ (old : Mat ℝ) (s t : PrmState ℝ), PrmRel σ s t →
      ERel (fun a b => PrmRel σ a.1 b.1 ∧ b.2 = a.2) (prmMore cfg (of X) (of y) iter old s)
        (prmMore cfg (of (rowSel σ X)) (of (rowSel σ y)) iter old t) := by
  intro k
  induction k with
  | zero =>
    intro iter hk old s t h
    rw [prmMore, prmMore, h.gamma]
    refine ERel.bindEq rfl fun d => ?_
    rw [dif_neg (by omega), dif_neg (by omega)]
    exact ⟨h, rfl⟩
  | succ k ih =>
    intro iter hk old s t h
    rw [prmMore, prmMore, h.gamma]
    refine ERel.bindEq rfl fun d => ?_
    by_cases hc : d.norm2Squared < cfg.tol ∧ iter < cfg.maxIter
    · rw [dif_pos hc, dif_pos hc]
      exact ERel.bind (prmPass_perm he hp heps hm hn hbase X y s t h) fun a b hab => ih (iter + 1) (by omega) _ a b hab
    · rw [dif_neg hc, dif_neg hc]
      exact ⟨h, rfl⟩

/-- **C108** PRM with at least as many samples as predictors: predictions, scores, the number of iterations are the same for every
order of the samples, and the case weights are reordered with the samples. -/
theorem C108_prm (he : EigOne eig) (hp : 0 < p) (heps : 0 < cfg.eps) (hm : MedShuf cfg.med) (hn : 2 ≤ n) (hpn : p ≤ n)
    (hbase : cfg.base = simplsBase eig (K : Int) count) (σ : Equiv.Perm (Fin n)) (X : Matrix (Fin n) (Fin p) ℝ)
    (y : Matrix (Fin n) (Fin 1) ℝ) :
    ERel (fun a b => (∀ Z, prmPredict b Z = prmPredict a Z) ∧ (∀ Z, prmTransform b Z = prmTransform a Z) ∧
        b.iterations = a.iterations ∧ ERel (Shuf σ) (prmW a) (prmW b))
      (prmTrain cfg (of X) (of y)) (prmTrain cfg (of (rowSel σ X)) (of (rowSel σ y))) := by
  unfold prmTrain prmReplace
  rw [if_neg (show ¬ n < p by omega), if_neg (show ¬ n < p by omega), except_bind_ok, except_bind_ok]
  have hwr := residualWeights_of (n := n) cfg (by omega) (of y) none _ (residuals_first cfg (by omega) y)
  have hwr' := residualWeights_of (n := n) cfg (by omega) (of (rowSel σ y)) none _ (residuals_first cfg (by omega) (rowSel σ y))
  obtain ⟨w, hwx, hwx'⟩ := leverage_perm (σ := σ) hm heps hn X
  show ERel _ (residualWeights cfg n (of y) none >>= _) (residualWeights cfg n (of (rowSel σ y)) none >>= _)
  rw [hwr, hwr', except_bind_ok, except_bind_ok]
  show ERel _ (leverageWeights cfg (of X) >>= _) (leverageWeights cfg (of (rowSel σ X)) >>= _)
  rw [hwx, hwx', except_bind_ok, except_bind_ok]
  refine ERel.bind (R := fun a b => PrmRel σ a.1 b.1 ∧ b.2 = a.2) ?_ fun a b hab => ?_
  · unfold prmLoop
    refine ERel.bindEq rfl fun g => ?_
    refine ERel.bind (prmPass_perm he hp heps hm hn hbase X y _ _ ⟨⟨_, rfl, ?_⟩, ⟨_, rfl, rfl⟩, rfl, rfl⟩) fun s t hst => ?_
    · have e : (Matrix.of fun i (_ : Fin 1) => rowSel σ y i 0 - cfg.med (of (rowSel σ y))) =
          rowSel σ (Matrix.of fun i (_ : Fin 1) => y i 0 - cfg.med (of y)) := by
        rw [hm]
        rfl
      rw [e, mad_perm hm]
      rfl
    · exact prmMore_perm he hp heps hm hn hbase X y _ 1 rfl g s t hst
  · obtain ⟨⟨⟨wr, a1, b1⟩, ⟨wx, a2, b2⟩, hg, hb⟩, hi⟩ := hab
    obtain ⟨⟨ar, ax, aT, ag, ab⟩, ai⟩ := a
    obtain ⟨⟨br, bx, bT, bg, bb⟩, bi⟩ := b
    dsimp only at a1 a2 b1 b2 hg hb hi
    subst a1 a2 b1 b2 hg hi
    cases ab with
    | none =>
      cases bb with
      | none => exact rfl
      | some bb => cases hb
    | some ab =>
      cases bb with
      | none => cases hb
      | some bb =>
        obtain ⟨aT, aQ, aB, aW⟩ := ab
        obtain ⟨bT, bQ, bB, bW⟩ := bb
        simp only [Option.map_some, Option.some.injEq, Prod.mk.injEq] at hb
        obtain ⟨rfl, rfl⟩ := hb
        refine ⟨fun Z => rfl, fun Z => rfl, rfl, ?_⟩
        exact Shuf.zipWith _ _ ⟨1, wr, rfl, rfl⟩ ⟨1, wx, rfl, rfl⟩

end prm

/-! ## Concrete cases -/

/-- The median of all entries: the middle one of the sorted entries, or the mean of the middle two. -/
noncomputable def orderMedian (M : Mat ℝ) : ℝ :=
  let l := ((Finset.univ : Finset (Fin M.rows × Fin M.cols)).val.map fun c => M.data c.1 c.2).sort (· ≤ ·)
  (l.getD ((l.length - 1) / 2) 0 + l.getD (l.length / 2) 0) / 2

theorem orderMedian_shuf : MedShuf orderMedian := by
  intro n σ v
  have e : ((Finset.univ : Finset (Fin n × Fin 1)).val.map fun c => rowSel σ v c.1 c.2) =
      (Finset.univ : Finset (Fin n × Fin 1)).val.map fun c => v c.1 c.2 := by
    have h := congrArg Finset.val (Finset.map_univ_equiv (Equiv.prodCongr σ (Equiv.refl (Fin 1))))
    rw [Finset.map_val] at h
    conv_rhs => rw [← h, Multiset.map_map]
    rfl
  exact congrArg (fun m : Multiset ℝ =>
    ((m.sort (· ≤ ·)).getD (((m.sort (· ≤ ·)).length - 1) / 2) 0 + (m.sort (· ≤ ·)).getD ((m.sort (· ≤ ·)).length / 2) 0) / 2) e

/-- PRM with a real median and SIMPLS. -/
noncomputable def orderPrmCfg : PrmCfg ℝ := { prmScoresCfg with med := orderMedian }

/-- The three samples `(1,2) ↦ 1`, `(3,5) ↦ 4`, `(8,13) ↦ 9`, and the same in reverse order. -/
example (Z : Mat ℝ) :
    ((prmTrain orderPrmCfg (of (!![8, 13; 3, 5; 1, 2] : Matrix (Fin 3) (Fin 2) ℝ)) (of (!![9; 4; 1] : Matrix (Fin 3) (Fin 1) ℝ))) >>=
        (prmPredict · Z)) =
      (prmTrain orderPrmCfg (of (!![1, 2; 3, 5; 8, 13] : Matrix (Fin 3) (Fin 2) ℝ)) (of (!![1; 4; 9] : Matrix (Fin 3) (Fin 1) ℝ))) >>=
        (prmPredict · Z) := by
  have h := C108_prm (K := 1) (count := -1) (cfg := orderPrmCfg) eigOne_ok (by decide)
    (by norm_num [orderPrmCfg, prmScoresCfg]) orderMedian_shuf (by decide) (by decide) rfl Fin.revPerm
    (!![1, 2; 3, 5; 8, 13] : Matrix (Fin 3) (Fin 2) ℝ) (!![1; 4; 9] : Matrix (Fin 3) (Fin 1) ℝ)
  have e1 : rowSel Fin.revPerm (!![1, 2; 3, 5; 8, 13] : Matrix (Fin 3) (Fin 2) ℝ) = !![8, 13; 3, 5; 1, 2] := by
    ext i j
    fin_cases i <;> fin_cases j <;> rfl
  have e2 : rowSel Fin.revPerm (!![1; 4; 9] : Matrix (Fin 3) (Fin 1) ℝ) = !![9; 4; 1] := by
    ext i j
    fin_cases i <;> fin_cases j <;> rfl
  rw [e1, e2] at h
  exact (ERel.eq (ERel.bind h fun a b hab => ERel.of_eq (fun _ => rfl) (hab.1 Z).symm)).symm

/-- PLS1 on the same samples: the trained model itself is the same. -/
example (K : Int) : (pls1Train pls1Weights K (of (!![8, 13; 3, 5; 1, 2] : Matrix (Fin 3) (Fin 2) ℝ))
      (of (!![9; 4; 1] : Matrix (Fin 3) (Fin 1) ℝ))).map Prod.fst =
    (pls1Train pls1Weights K (of (!![1, 2; 3, 5; 8, 13] : Matrix (Fin 3) (Fin 2) ℝ))
      (of (!![1; 4; 9] : Matrix (Fin 3) (Fin 1) ℝ))).map Prod.fst := by
  classical
  have h := C108_pls1 (α := ℝ) K 3 2 1 (by decide) Fin.revPerm (!![1, 2; 3, 5; 8, 13] : Matrix (Fin 3) (Fin 2) ℝ)
    (!![1; 4; 9] : Matrix (Fin 3) (Fin 1) ℝ)
  have e1 : rowSel Fin.revPerm (!![1, 2; 3, 5; 8, 13] : Matrix (Fin 3) (Fin 2) ℝ) = !![8, 13; 3, 5; 1, 2] := by
    ext i j
    fin_cases i <;> fin_cases j <;> rfl
  have e2 : rowSel Fin.revPerm (!![1; 4; 9] : Matrix (Fin 3) (Fin 1) ℝ) = !![9; 4; 1] := by
    ext i j
    fin_cases i <;> fin_cases j <;> rfl
  rw [e1, e2] at h
  convert h

/-- The left inverse `(AᵀA)⁻¹Aᵀ`, which is the pseudo-inverse of a matrix of full column rank, meets the hypothesis of
`C108_nipals`, for any inversion of square matrices. -/
example [Field α] (inv : Mat α → Except PyErr (Mat α)) :
    InvShuf (fun A => A.transpose.mul A >>= fun g => inv g >>= fun h => h.mul A.transpose) := by
  intro n σ A A' h
  dsimp only
  rw [h.gram h]
  refine ERel.bindEq rfl fun g => ?_
  refine ERel.bindEq rfl fun k => ?_
  exact h.transpose.lmul k

/-- A new DIPLS object meets the hypothesis of `C108_dipls`. -/
example : DipCentres diplsFresh := by
  refine ⟨?_, ?_, ?_⟩ <;>
  · intro c m h hm
    cases h
    cases hm

end Verif.Props
