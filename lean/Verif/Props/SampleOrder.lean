import Verif.Core.Shuffle
import Verif.Alg.VCPLS
import Verif.Alg.SparsePLS
import Verif.Alg.OPLS
import Verif.Alg.GLSW
import Verif.Alg.CCA
import Verif.Props.RowWise

/-!
# C108: the order of the training samples is irrelevant
-/

namespace Verif.Props
open Verif Mat Transf

variable {α M R : Type} {n : Nat}

/-- The result of `f` does not change when the samples (rows) of both arguments are reordered together. -/
def OrderFree (f : Mat α → Mat α → Except PyErr R) : Prop :=
  ∀ (n p q : Nat), n ≠ 0 → ∀ (σ : Equiv.Perm (Fin n)) (X : Matrix (Fin n) (Fin p) α) (Y : Matrix (Fin n) (Fin q) α),
    f (of (rowSel σ X)) (of (rowSel σ Y)) = f (of X) (of Y)

theorem OrderFree.of_shuf {f : Mat α → Mat α → Except PyErr R}
    (h : ∀ {n : Nat} (_ : n ≠ 0) (σ : Equiv.Perm (Fin n)) (A A' B B' : Mat α), Shuf σ A A' → Shuf σ B B' → f A' B' = f A B) :
    OrderFree f := fun _ _ _ hn σ X Y => h hn σ _ _ _ _ ⟨_, X, rfl, rfl⟩ ⟨_, Y, rfl, rfl⟩

theorem OrderFree.shuf {f : Mat α → Mat α → Except PyErr R} (h : OrderFree f) (hn : n ≠ 0) {σ : Equiv.Perm (Fin n)}
    {A A' B B' : Mat α} (hA : Shuf σ A A') (hB : Shuf σ B B') : f A' B' = f A B := by
  obtain ⟨p, X, rfl, rfl⟩ := hA
  obtain ⟨q, Y, rfl, rfl⟩ := hB
  exact h _ _ _ hn σ X Y

theorem OrderFree.bind {S : Type} {f : Mat α → Mat α → Except PyErr R} (h : OrderFree f) (g : R → Except PyErr S) :
    OrderFree fun X Y => f X Y >>= g := fun n p q hn σ X Y => by
  dsimp only
  rw [h n p q hn σ X Y]

section
variable {σ : Equiv.Perm (Fin n)} {A A' B B' : Mat α}

/-! ## Preprocessing -/

theorem Shuf.copy (h : Shuf σ A A') : Shuf σ A.copy A'.copy := by
  obtain ⟨c, M, rfl, rfl⟩ := h
  exact ⟨c, M, rfl, rfl⟩

section field
variable [Field α]

theorem shuf_center (h : Shuf σ A A') :
    (transform center A' center.init).1 = (transform center A center.init).1 ∧
      ERel (Shuf σ) (transform center A center.init).2 (transform center A' center.init).2 := by
  have e : ∀ A : Mat α, transform center A center.init =
      (⟨true, some A.columnMeans⟩, A.copy.subByVector A.columnMeans) := fun _ => rfl
  rw [e, e, h.columnMeans]
  exact ⟨rfl, Shuf.vectorOp _ _ rfl (Shuf.copy h)⟩

theorem shuf_centre_state (s : CenterState α) (h : Shuf σ A A') (hs : ∀ m, s.means = some m → m.rows = 1) :
    (transform center A' s).1 = (transform center A s).1 ∧
      ERel (Shuf σ) (transform center A s).2 (transform center A' s).2 := by
  obtain ⟨c, m⟩ := s
  cases c with
  | false =>
    have e : ∀ A : Mat α, transform center A ⟨false, m⟩ =
      (⟨true, some A.columnMeans⟩, A.copy.subByVector A.columnMeans) := fun _ => rfl
    rw [e, e, h.columnMeans]
    exact ⟨rfl, Shuf.vectorOp _ _ rfl (Shuf.copy h)⟩
  | true =>
    refine ⟨rfl, ?_⟩
    cases m with
    | none => exact rfl
    | some m => exact Shuf.vectorOp _ _ (hs m rfl) (Shuf.copy h)

variable [HasSqrt α]

theorem shuf_standardize (isZero : α → Bool) (h : Shuf σ A A') :
    (transform (standardize isZero) A' (standardize isZero).init).1 =
        (transform (standardize isZero) A (standardize isZero).init).1 ∧
      ERel (Shuf σ) (transform (standardize isZero) A (standardize isZero).init).2
        (transform (standardize isZero) A' (standardize isZero).init).2 := by
  cases hg : guardStds isZero A.columnStdevs with
  | error e =>
    have e1 : ∀ B : Mat α, guardStds isZero B.columnStdevs = .error e →
        transform (standardize isZero) B (standardize isZero).init =
          (⟨false, some B.columnMeans, some B.columnStdevs⟩, .error e) := fun B hB => by
      simp only [transform, standardize, hB]
      rfl
    rw [e1 A hg, e1 A' (by rw [h.columnStdevs, hg]), h.columnMeans, h.columnStdevs]
    exact ⟨rfl, rfl⟩
  | ok d =>
    have e1 : ∀ B : Mat α, guardStds isZero B.columnStdevs = .ok d →
        transform (standardize isZero) B (standardize isZero).init =
          (⟨true, some B.columnMeans, some d⟩, (do let r ← B.copy.subByVector B.columnMeans; r.divByVector d)) := fun B hB => by
      simp only [transform, standardize, hB]
      rfl
    have hd : d.rows = 1 := guardLoop_rows isZero _ hg
    rw [e1 A hg, e1 A' (by rw [h.columnStdevs, hg]), h.columnMeans]
    exact ⟨rfl, ERel.bind (Shuf.vectorOp _ _ rfl (Shuf.copy h)) fun a b hab => hab.vectorOp _ _ hd⟩

omit [HasSqrt α] in
theorem fitTransform_center_eq (A : Mat α) : fitTransform center A = (transform center A center.init).2 := rfl

theorem fitTransform_standardize_eq (isZero : α → Bool) (A : Mat α) :
    fitTransform (standardize isZero) A = (transform (standardize isZero) A (standardize isZero).init).2 := by
  unfold fitTransform
  cases hg : guardStds isZero A.columnStdevs with
  | error e =>
    simp only [transform, standardize, hg]
    rfl
  | ok d =>
    simp only [transform, standardize, hg]
    rfl

theorem shuf_prep (isZero : α → Bool) (prep : Prep) (h : Shuf σ A A') :
    ERel (Shuf σ) (prepApply isZero prep A) (prepApply isZero prep A') := by
  cases prep with
  | none => exact h
  | center => exact (shuf_center h).2
  | standardize =>
    show ERel _ (fitTransform _ _) (fitTransform _ _)
    rw [fitTransform_standardize_eq, fitTransform_standardize_eq]
    exact (shuf_standardize isZero h).2
  | unknown => rfl

theorem shuf_stats (prep : Prep) (h : Shuf σ A A') : classStats prep A' = classStats prep A := by
  cases prep with
  | none => rfl
  | center => simp only [classStats, mean0, h.columnMeans]
  | standardize => simp only [classStats, mean0, stdev0, h.columnMeans, h.columnStdevs]
  | unknown => rfl

/-- **C108** The preprocessing of the base class keeps order independence: all three preprocessing types, one
response. -/
theorem C108_single (isZero : α → Bool) (train : Mat α → Mat α → Except PyErr M) (prep : Prep) (h : OrderFree train) :
    OrderFree (singleTrain isZero train prep) :=
  OrderFree.of_shuf fun hn σ A A' B B' hA hB => by
    unfold singleTrain
    rw [shuf_stats prep hB]
    refine (ERel.eq (ERel.bindEq rfl fun st => ?_)).symm
    refine ERel.bind (shuf_prep isZero prep hA) fun X X' hX => ?_
    refine ERel.bind (shuf_prep isZero prep hB) fun Y Y' hY => ?_
    rw [h.shuf hn hX hY]
    exact ERel.of_eq (fun _ => rfl) rfl

theorem shuf_multiStats (prep : Prep) (h : Shuf σ A A') (is : List Int) : multiStats prep A' is = multiStats prep A is := by
  induction is with
  | nil => rfl
  | cons i is ih => rw [multiStats, multiStats, ih, shuf_stats prep h]

/-- **C108** … several responses. -/
theorem C108_multi (isZero : α → Bool) (train : Mat α → Mat α → Except PyErr M) (prep : Prep) (h : OrderFree train) :
    OrderFree (multiTrain isZero train prep) :=
  OrderFree.of_shuf fun hn σ A A' B B' hA hB => by
    unfold multiTrain
    rw [hB.cols_eq, shuf_multiStats prep hB]
    refine (ERel.eq (ERel.bindEq rfl fun st => ?_)).symm
    refine ERel.bind (shuf_prep isZero prep hA) fun X X' hX => ?_
    refine ERel.bind (shuf_prep isZero prep hB) fun Y Y' hY => ?_
    rw [h.shuf hn hX hY]
    exact ERel.of_eq (fun _ => rfl) rfl

/-! ## PLS1 and VCPLS -/

/-- Loop variables of PLS1 for reordered samples. -/
structure Pls1Rel (σ : Equiv.Perm (Fin n)) (s t : Pls1Vars α) : Prop where
  X : Shuf σ s.X t.X
  T : Shuf σ s.T t.T
  W : t.W = s.W
  P : t.P = s.P
  b : t.b = s.b

omit [HasSqrt α] in
theorem pls1Step_shuf (weights : Mat α → Mat α → Except PyErr (Mat α)) (hw : OrderFree weights) (hn : n ≠ 0)
    {y y' : Mat α} (hy : Shuf σ y y') (k : Int) (s t : Pls1Vars α) (h : Pls1Rel σ s t) :
    ERel (Pls1Rel σ) (pls1Step weights y k s) (pls1Step weights y' k t) := by
  unfold pls1Step
  rw [h.W, h.b, h.P]
  refine ERel.bindEq (hw.shuf hn h.X hy).symm fun w => ?_
  refine ERel.bindEq rfl fun W => ?_
  refine ERel.bind (h.X.mul w) fun c c' hc => ?_
  refine ERel.bind (h.T.setColumn k hc) fun T T' hT => ?_
  refine ERel.bindEq (hc.vectorDot hc).symm fun tt => ?_
  refine ERel.bindEq (hc.vectorDot hy).symm fun ty => ?_
  refine ERel.bindEq rfl fun b => ?_
  refine ERel.bindEq (h.X.gram hc).symm fun xt => ?_
  refine ERel.bindEq rfl fun P => ?_
  refine ERel.bind (hc.mul _) fun d d' hd => ?_
  refine ERel.bind (h.X.sub hd) fun X X' hX => ?_
  exact ⟨hX, hT, rfl, rfl, rfl⟩

omit [HasSqrt α] in
/-- **C108** Training PLS1, and any subclass whose weights do not depend on the order of the samples, gives the same
model for every order of the samples. -/
theorem C108_pls [DecidableEq α] (weights : Mat α → Mat α → Except PyErr (Mat α)) (hw : OrderFree weights) (K : Int) :
    OrderFree fun X y => (pls1Train weights K X y).map Prod.fst :=
  OrderFree.of_shuf fun {n} hn σ A A' B B' hA hB => by
    refine (ERel.eq (ERel.map (R := fun a b : Pls1Model α × Mat α => a.1 = b.1) (S := (· = ·)) ?_ fun a b h => h)).symm
    unfold pls1Train
    refine ERel.bind (R := Pls1Rel σ) ?_ fun s t hst => ?_
    · unfold pls1Init
      rw [hA.cols_eq]
      refine ERel.bindEq rfl fun W => ?_
      refine ERel.bindEq rfl fun P => ?_
      refine ERel.bind (hA.zeros hn K) fun T T' hT => ?_
      refine ERel.bindEq rfl fun b => ?_
      exact ⟨hA, hT, rfl, rfl, rfl⟩
    · refine ERel.bind (ERel.loopM (fun k s t h => pls1Step_shuf weights hw hn hB k s t h) _ s t hst) fun s t hst => ?_
      have e : pls1Finish t = pls1Finish s := by
        unfold pls1Finish
        rw [hst.P, hst.W, hst.b]
      rw [e]
      refine ERel.bindEq rfl fun m => ?_
      exact rfl

theorem orderFree_pls1Weights : OrderFree (pls1Weights : Mat α → Mat α → Except PyErr (Mat α)) :=
  OrderFree.of_shuf fun hn σ A A' B B' hA hB => by
    unfold pls1Weights
    rw [hA.gram hB]

/-- **C108** PLS1. -/
theorem C108_pls1 [DecidableEq α] (K : Int) : OrderFree fun X y : Mat α => (pls1Train pls1Weights K X y).map Prod.fst :=
  C108_pls _ orderFree_pls1Weights K

omit [HasSqrt α] in
/-- **C108** VCPLS, for every `lambda_` and every eigenvalue routine. -/
theorem C108_vcpls [DecidableEq α] (cfg : VcplsCfg α) (K : Int) :
    OrderFree fun X y => (pls1Train (vcplsWeights cfg) K X y).map Prod.fst :=
  C108_pls _ (OrderFree.of_shuf fun {n} hn σ A A' B B' hA hB => by
    have e : vcplsTerm cfg A' B' = vcplsTerm cfg A B := by
      unfold vcplsTerm
      rw [hA.cols_eq]
      refine (ERel.eq (ERel.bindEq rfl fun I => ?_)).symm
      refine ERel.bindEq (hA.gram hB).symm fun a => ?_
      refine ERel.bind (hB.transpose.lmul a) fun b b' hb => ?_
      refine ERel.bindEq (hb.mul hA).symm fun c => ?_
      refine ERel.bindEq rfl fun g1 => ?_
      refine ERel.bindEq (hA.gram hA).symm fun g2 => ?_
      exact ERel.of_eq (fun _ => rfl) rfl
    unfold vcplsWeights
    rw [e]) K

/-! ## SIMPLS -/

/-- **C108** SIMPLS, with and without slimming. -/
theorem C108_simpls [LinearOrder α] (dom : Mat α → Except PyErr (Mat α)) (K count : Int) :
    OrderFree (simplsTrain dom K count) :=
  OrderFree.of_shuf fun hn σ A A' B B' hA hB => by
    have e : simplsInit K A' B' = simplsInit K A B := by
      unfold simplsInit
      rw [hA.gram hB, hA.gram hA, hA.cols_eq]
    unfold simplsTrain
    rw [e]

/-! ## NIPALS and CCARegression -/

/-- Loop variables of NIPALS for reordered samples. -/
structure NipRel (σ : Equiv.Perm (Fin n)) (s t : NipalsVars α) : Prop where
  X : Shuf σ s.X t.X
  Y : Shuf σ s.Y t.Y
  T : Shuf σ s.T t.T
  U : Shuf σ s.U t.U
  W : t.W = s.W
  C : t.C = s.C
  P : t.P = s.P
  Q : t.Q = s.Q
  yk : t.yk = s.yk
  stop : t.stop = s.stop

/-- What is needed of the (pseudo-)inverse used by `CCARegression`: reordering the rows of a matrix reorders the columns
of its pseudo-inverse. -/
def InvShuf (inv : Mat α → Except PyErr (Mat α)) : Prop :=
  ∀ {n : Nat} (σ : Equiv.Perm (Fin n)) (A A' : Mat α), Shuf σ A A' → ERel (ShufC σ) (inv A) (inv A')

theorem nipalsXWeight_shuf (c : NipalsCfg α) (hc : c.cca = true → InvShuf c.inv) (hA : Shuf σ A A') (hB : Shuf σ B B') :
    nipalsXWeight c A' B' = nipalsXWeight c A B := by
  unfold nipalsXWeight
  cases hcc : c.cca with
  | true =>
    refine (ERel.eq (ERel.bind (hc hcc σ A A' hA) fun i i' hi => ?_)).symm
    exact ERel.of_eq (fun _ => rfl) (hi.mul hB).symm
  | false =>
    simp only [Bool.false_eq_true, if_false]
    rw [hA.gram hB, hB.norm2Squared]

theorem nipalsYWeight_shuf (c : NipalsCfg α) (hc : c.cca = true → InvShuf c.inv) (hA : Shuf σ A A') (hB : Shuf σ B B') :
    nipalsYWeight c A' B' = nipalsYWeight c A B := by
  unfold nipalsYWeight
  cases hcc : c.cca with
  | true =>
    refine (ERel.eq (ERel.bind (hc hcc σ A A' hA) fun i i' hi => ?_)).symm
    exact ERel.of_eq (fun _ => rfl) (hi.mul hB).symm
  | false =>
    simp only [Bool.false_eq_true, if_false]
    rw [hA.gram hB, hB.norm2Squared]

theorem nipalsPass_shuf (c : NipalsCfg α) (hc : c.cca = true → InvShuf c.inv) {u u' : Mat α} (hA : Shuf σ A A')
    (hB : Shuf σ B B') (hu : Shuf σ u u') : nipalsPass c A' B' u' = nipalsPass c A B u := by
  refine (ERel.eq ?_).symm
  unfold nipalsPass
  refine ERel.bindEq (nipalsXWeight_shuf c hc hA hu).symm fun w => ?_
  refine ERel.bind (hA.mul _) fun t t' ht => ?_
  refine ERel.bindEq (nipalsYWeight_shuf c hc hB ht).symm fun v => ?_
  refine ERel.bind (hB.mul _) fun d d' hd => ?_
  exact rfl

theorem nipalsIter_shuf (c : NipalsCfg α) (hc : c.cca = true → InvShuf c.inv) {u u' : Mat α} (hA : Shuf σ A A')
    (hB : Shuf σ B B') (hu : Shuf σ u u') (m : Nat) (iter : Int) (hm : (c.maxIter - iter).toNat = m) (w : Mat α) :
    nipalsIter c A' B' u' iter w = nipalsIter c A B u iter w := by
  induction m using Nat.strong_induction_on generalizing iter w with
  | _ m ih =>
    rw [nipalsIter, nipalsIter, nipalsPass_shuf c hc hA hB hu, hB.cols_eq]
    refine (ERel.eq (ERel.bindEq rfl fun r => ?_)).symm
    refine ERel.bindEq rfl fun d => ?_
    by_cases h1 : (c.lt d.norm2Squared c.tol || B.cols == 1) = true
    · rw [if_pos h1, if_pos h1]
      exact rfl
    · rw [if_neg h1, if_neg h1]
      by_cases h2 : iter ≥ c.maxIter
      · rw [dif_pos h2, dif_pos h2]
        exact rfl
      · rw [dif_neg h2, dif_neg h2]
        exact ERel.of_eq (fun _ => rfl) (ih _ (by omega) (iter + 1) rfl _).symm

theorem nipalsLoop_shuf (c : NipalsCfg α) (hc : c.cca = true → InvShuf c.inv) (hA : Shuf σ A A') (hB : Shuf σ B B') :
    nipalsLoop c A' B' = nipalsLoop c A B := by
  refine (ERel.eq ?_).symm
  unfold nipalsLoop
  refine ERel.bind (hB.getColumn 0) fun u u' hu => ?_
  rw [hA.cols_eq]
  refine ERel.bindEq rfl fun w => ?_
  exact ERel.of_eq (fun _ => rfl) (nipalsIter_shuf c hc hA hB hu _ 0 rfl w).symm

theorem deflateY_shuf (c : NipalsCfg α) {t t' u u' yk yk' : Mat α} (hB : Shuf σ B B') (ht : Shuf σ t t') (hu : Shuf σ u u')
    (hyk : yk' = yk) :
    ERel (fun a b => Shuf σ a.1 b.1 ∧ b.2 = a.2) (deflateY c B t u yk) (deflateY c B' t' u' yk') := by
  unfold deflateY
  cases c.defl with
  | canonical =>
    refine ERel.bindEq (hB.gram hu).symm fun l => ?_
    rw [hu.norm2Squared]
    refine ERel.bind (hu.mul _) fun d d' hd => ?_
    refine ERel.bind (hB.sub hd) fun Y Y' hY => ?_
    exact ⟨hY, rfl⟩
  | regression =>
    refine ERel.bindEq (hB.gram ht).symm fun l => ?_
    rw [ht.norm2Squared]
    refine ERel.bind (ht.mul _) fun d d' hd => ?_
    refine ERel.bind (hB.sub hd) fun Y Y' hY => ?_
    exact ⟨hY, rfl⟩
  | other => exact ⟨hB, hyk⟩

theorem nipalsStep_shuf (c : NipalsCfg α) (hc : c.cca = true → InvShuf c.inv) (k : Int) (s t : NipalsVars α)
    (h : NipRel σ s t) : ERel (NipRel σ) (nipalsStep c k s) (nipalsStep c k t) := by
  unfold nipalsStep
  rw [h.stop]
  cases hs : s.stop with
  | true => exact h
  | false =>
    simp only [Bool.false_eq_true, if_false]
    refine ERel.bindEq (h.Y.gram h.Y).symm fun yty => ?_
    by_cases h1 : (yty.all fun e => c.lt e e10) = true
    · rw [if_pos h1, if_pos h1]
      exact ⟨h.X, h.Y, h.T, h.U, h.W, h.C, h.P, h.Q, h.yk, rfl⟩
    · rw [if_neg h1, if_neg h1]
      refine ERel.bindEq (nipalsLoop_shuf c hc h.X h.Y).symm fun r => ?_
      refine ERel.bind (h.X.mul _) fun x x' hx => ?_
      refine ERel.bind (h.Y.mul _) fun u u' hu => ?_
      have hu' : Shuf σ (u.div r.2.1.norm2Squared) (u'.div r.2.1.norm2Squared) := hu.map _
      rw [hx.norm2Squared]
      by_cases h2 : c.lt x.norm2Squared e10 = true
      · rw [if_pos h2, if_pos h2]
        exact ⟨h.X, h.Y, h.T, h.U, h.W, h.C, h.P, h.Q, h.yk, rfl⟩
      · rw [if_neg h2, if_neg h2]
        refine ERel.bindEq (h.X.gram hx).symm fun p => ?_
        refine ERel.bind (hx.mul _) fun tp tp' htp => ?_
        refine ERel.bind (h.X.sub htp) fun X X' hX => ?_
        refine ERel.bind (deflateY_shuf c h.Y hx hu' h.yk) fun d d' hd => ?_
        refine ERel.bind (h.T.setColumn k hx) fun T T' hT => ?_
        refine ERel.bind (h.U.setColumn k hu') fun U U' hU => ?_
        rw [h.W, h.C, h.P, h.Q, hd.2]
        refine ERel.bindEq rfl fun W => ?_
        refine ERel.bindEq rfl fun C => ?_
        refine ERel.bindEq rfl fun P => ?_
        refine ERel.bindEq rfl fun Q => ?_
        exact ⟨hX, hd.1, hT, hU, rfl, rfl, rfl, rfl, rfl, rfl⟩

/-- Two NIPALS models that differ only in the order of the training samples in the local matrices. -/
structure NipModelRel (a b : NipalsModel α) : Prop where
  stdX : b.stdX = a.stdX
  stdY : b.stdY = a.stdY
  W : b.vars.W = a.vars.W
  C : b.vars.C = a.vars.C
  P : b.vars.P = a.vars.P
  Q : b.vars.Q = a.vars.Q
  xRot : b.xRot = a.xRot
  yRot : b.yRot = a.yRot
  coef : b.coef = a.coef

theorem nipalsTrain_shuf (c : NipalsCfg α) (hc : c.cca = true → InvShuf c.inv) (hn : n ≠ 0) (hA : Shuf σ A A')
    (hB : Shuf σ B B') : ERel NipModelRel (nipalsTrain c A B) (nipalsTrain c A' B') := by
  unfold nipalsTrain
  dsimp only
  obtain ⟨hs, hX⟩ := shuf_standardize c.isZero hA
  obtain ⟨hs', hY⟩ := shuf_standardize c.isZero hB
  rw [hs, hs']
  refine ERel.bind hX fun X X' hX => ?_
  refine ERel.bind hY fun Y Y' hY => ?_
  refine ERel.bind (R := NipRel σ) ?_ fun s t hst => ?_
  · unfold nipalsInit
    rw [hX.cols_eq, hY.cols_eq]
    refine ERel.bind (hX.zeros hn _) fun T T' hT => ?_
    refine ERel.bind (hX.zeros hn _) fun U U' hU => ?_
    refine ERel.bindEq rfl fun W => ?_
    refine ERel.bindEq rfl fun C => ?_
    refine ERel.bindEq rfl fun P => ?_
    refine ERel.bindEq rfl fun Q => ?_
    refine ERel.bindEq rfl fun yk => ?_
    exact ⟨hX, hY, hT, hU, rfl, rfl, rfl, rfl, rfl, rfl⟩
  · refine ERel.bind (ERel.loopM (fun k s t h => nipalsStep_shuf c hc k s t h) _ s t hst) fun s t hst => ?_
    have e : nipalsYRot c t = nipalsYRot c s := by
      unfold nipalsYRot
      rw [hst.C, hst.Q, hst.Y.cols_eq]
    rw [e, hst.W, hst.P, hst.Q]
    refine ERel.bindEq rfl fun xr => ?_
    refine ERel.bindEq rfl fun yr => ?_
    refine ERel.bindEq rfl fun b => ?_
    cases (transform (standardize c.isZero) B (standardize c.isZero).init).1.stds with
    | none => rfl
    | some d =>
      refine ERel.bindEq rfl fun coef => ?_
      exact ⟨rfl, rfl, hst.W, hst.C, hst.P, hst.Q, rfl, rfl, rfl⟩

/-- **C108** NIPALS (any number of responses, either deflation mode), and `CCARegression` for a pseudo-inverse that
follows a reordering: predictions and both transformations are the same for every order of the training samples. -/
theorem C108_nipals (c : NipalsCfg α) (hc : c.cca = true → InvShuf c.inv) (Z : Mat α) :
    OrderFree (fun X Y => nipalsTrain c X Y >>= fun m => nipalsPredict c m Z) ∧
    OrderFree (fun X Y => nipalsTrain c X Y >>= fun m => nipalsTransform c m Z) ∧
    OrderFree (fun X Y => nipalsTrain c X Y >>= fun m => nipalsTransformResponse c m Z) ∧
    OrderFree (fun X Y => (nipalsTrain c X Y).map NipalsModel.coef) := by
  have key : ∀ {S : Type} (g : NipalsModel α → Except PyErr S), (∀ a b, NipModelRel a b → g b = g a) →
      OrderFree fun X Y => nipalsTrain c X Y >>= g := fun g hg =>
    OrderFree.of_shuf fun hn σ A A' B B' hA hB =>
      (ERel.eq (ERel.bind (nipalsTrain_shuf c hc hn hA hB) fun a b hab =>
        ERel.of_eq (fun _ => rfl) (hg a b hab).symm)).symm
  refine ⟨key _ fun a b h => ?_, key _ fun a b h => ?_, key _ fun a b h => ?_, ?_⟩
  · unfold nipalsPredict
    rw [h.stdX, h.stdY, h.coef]
  · unfold nipalsTransform
    rw [h.stdX, h.xRot]
  · unfold nipalsTransformResponse
    rw [h.stdY, h.yRot]
  · exact OrderFree.of_shuf fun hn σ A A' B B' hA hB =>
      (ERel.eq (ERel.map (nipalsTrain_shuf c hc hn hA hB) fun a b hab => hab.coef.symm)).symm

/-! ## OPLS -/

/-- Loop variables of OPLS for reordered samples. -/
structure OplsRel (σ : Equiv.Perm (Fin n)) (s t : OplsVars α) : Prop where
  X : Shuf σ s.X t.X
  T : Shuf σ s.T t.T
  W : t.W = s.W
  P : t.P = s.P

theorem oplsStep_shuf (w : Mat α) (k : Int) (s t : OplsVars α) (h : OplsRel σ s t) :
    ERel (OplsRel σ) (oplsStep w k s) (oplsStep w k t) := by
  have p1 : ∀ v : Mat α, ERel (Shuf σ) (oplsProj s.X v) (oplsProj t.X v) := fun v =>
    ERel.bind (h.X.mul v) fun a b hab => hab.map _
  have p2 : ∀ v v' : Mat α, Shuf σ v v' → oplsProj s.X.transpose v = oplsProj t.X.transpose v' := fun v v' hv => by
    unfold oplsProj invL2
    rw [h.X.gram hv, hv.norm2Squared]
  unfold oplsStep
  rw [h.W, h.P]
  refine ERel.bind (p1 w) fun a a' ha => ?_
  refine ERel.bindEq (p2 _ _ ha) fun p => ?_
  refine ERel.bindEq rfl fun v => ?_
  refine ERel.bindEq rfl fun wo => ?_
  refine ERel.bind (p1 wo) fun b b' hb => ?_
  refine ERel.bindEq (p2 _ _ hb) fun po => ?_
  refine ERel.bind (hb.mul _) fun d d' hd => ?_
  refine ERel.bind (h.X.sub hd) fun X X' hX => ?_
  refine ERel.bindEq rfl fun W => ?_
  refine ERel.bind (h.T.setColumn k hb) fun T T' hT => ?_
  refine ERel.bindEq rfl fun P => ?_
  exact ⟨hX, hT, rfl, rfl⟩

/-- **C108** OPLS over a base algorithm that does not depend on the order of the samples: the filter and the
predictions are the same for every order. -/
theorem C108_opls (base : BasePls α M) (hb : OrderFree fun X y => .ok (base.init X y)) (K : Int) (Z : Mat α) :
    OrderFree (fun X y => oplsTrain base K X y >>= fun m => oplsPredict base m.1 Z) ∧
    OrderFree (fun X y => oplsTrain base K X y >>= fun m => oplsTransform m.1 Z) := by
  have key : ∀ {n : Nat} (_ : n ≠ 0) (σ : Equiv.Perm (Fin n)) (A A' B B' : Mat α), Shuf σ A A' → Shuf σ B B' →
      ERel (fun a b => b.1.W = a.1.W ∧ b.1.P = a.1.P ∧ b.1.base = a.1.base) (oplsTrain base K A B) (oplsTrain base K A' B') := by
    intro n hn σ A A' B B' hA hB
    unfold oplsTrain
    rw [hA.cols_eq]
    refine ERel.bindEq rfl fun W => ?_
    refine ERel.bindEq rfl fun P => ?_
    refine ERel.bind (hA.zeros hn K) fun T T' hT => ?_
    have ew : oplsWeight A B = oplsWeight A' B' := by
      unfold oplsWeight invL2
      rw [hA.gram hB, hB.norm2Squared]
    refine ERel.bindEq ew fun w => ?_
    refine ERel.bind (ERel.loopM (fun k s t h => oplsStep_shuf w k s t h) _ _ _
      (⟨hA, hT, rfl, rfl⟩ : OplsRel σ ⟨A, W, P, T⟩ ⟨A', W, P, T'⟩)) fun s t hst => ?_
    rw [hst.W, hst.P]
    refine ERel.bind (R := Shuf σ) ?_ fun F F' hF => ?_
    · unfold oplsFilter
      refine ERel.bind (hA.mul _) fun T T' hT => ?_
      refine ERel.bind (hT.mul _) fun o o' ho => ?_
      exact hA.sub ho
    · have e : base.init F' B' = base.init F B := by
        have := hb.shuf hn hF hB
        exact (ok_inj).1 this
      rw [e]
      refine ERel.bindEq rfl fun _ => ?_
      exact ⟨rfl, rfl, rfl⟩
  constructor
  · refine OrderFree.of_shuf fun hn σ A A' B B' hA hB => ?_
    refine (ERel.eq (ERel.bind (key hn σ A A' B B' hA hB) fun a b hab => ?_)).symm
    unfold oplsPredict oplsTransform
    rw [hab.1, hab.2.1, hab.2.2]
    exact ERel.of_eq (fun _ => rfl) rfl
  · refine OrderFree.of_shuf fun hn σ A A' B B' hA hB => ?_
    refine (ERel.eq (ERel.bind (key hn σ A A' B B' hA hB) fun a b hab => ?_)).symm
    unfold oplsTransform
    rw [hab.1, hab.2.1]
    exact ERel.of_eq (fun _ => rfl) rfl

/-! ## GLSW, EPO, CCAFilter -/

omit [HasSqrt α] in
theorem glswCov_shuf (hA : Shuf σ A A') (hB : Shuf σ B B') : glswCov A' B' = glswCov A B := by
  refine (ERel.eq ?_).symm
  unfold glswCov
  refine ERel.bind (shuf_center hA).2 fun a a' ha => ?_
  refine ERel.bind (shuf_center hB).2 fun b b' hb => ?_
  refine ERel.bind (hb.sub ha) fun d d' hd => ?_
  exact ERel.of_eq (fun _ => rfl) (hd.gram hd).symm

/-- **C108** GLSW and EPO: the fitted matrix is the same however the pairs of samples are ordered. -/
theorem C108_glsw [DecidableEq α] (cfg : GlswCfg α) : OrderFree (glswFit cfg) ∧ OrderFree (epoFit cfg) := by
  constructor <;> refine OrderFree.of_shuf fun hn σ A A' B B' hA hB => ?_
  · unfold glswFit glswInit glswCheck sameShapeAs glswDo
    rw [hA.rows_eq, hA.cols_eq, hB.rows_eq, hB.cols_eq, glswCov_shuf hA hB]
  · unfold epoFit glswInit glswCheck sameShapeAs glswDo
    rw [hA.rows_eq, hA.cols_eq, hB.rows_eq, hB.cols_eq, glswCov_shuf hA hB]

/-- **C108** CCAFilter: the object after `initialize` is the same for every order of the samples. -/
theorem C108_cca [DecidableEq α] (cfg : CcaCfg α) : OrderFree (ccaInit cfg ccaFresh) :=
  OrderFree.of_shuf fun {n} hn σ A A' B B' hA hB => by
    unfold ccaInit
    rw [hA.cols_eq, hB.cols_eq]
    by_cases hk : cfg.kcca > min (A.cols : Int) (B.cols : Int)
    · rw [if_pos hk, if_pos hk]
    · rw [if_neg hk, if_neg hk]
      have oc : ∀ {A A' : Mat α}, Shuf σ A A' → ERel (fun a b => b.1 = a.1 ∧ Shuf σ a.2 b.2)
          (optCentre (some ⟨false, none⟩) A) (optCentre (some ⟨false, none⟩) A') := fun {A A'} h => by
        obtain ⟨h1, h2⟩ := shuf_center h
        refine ERel.bind h2 fun a b hab => ?_
        exact ⟨h1, hab⟩
      refine (ERel.eq (ERel.bind (oc hA) fun x x' hx => ?_)).symm
      refine ERel.bind (oc hB) fun y y' hy => ?_
      have e : ccaProj cfg x'.2 y'.2 = ccaProj cfg x.2 y.2 := by
        unfold ccaProj
        rw [hx.2.cols_eq, hy.2.cols_eq, hx.2.gram hx.2, hy.2.gram hy.2, hx.2.gram hy.2]
      rw [e, hx.1, hy.1]
      exact ERel.of_eq (fun _ => rfl) rfl

end field
end

end Verif.Props
