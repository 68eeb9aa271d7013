import Verif.Props.FeatureOrder
import Verif.Props.TransfProps
import Verif.Alg.OPLS

/-!
# C143 continued: OPLS, PRM, DIPLS and KernelPLS; the violation by `Standardize`
-/

namespace Verif.Props
open Verif Mat Transf

variable {α M S : Type} {n : Nat} {σ : Equiv.Perm (Fin n)} {A A' B B' Z Z' : Mat α}

/-! ## OPLS -/

section opls
variable [Field α] [HasSqrt α]

/-- A base algorithm that does not depend on the order of the predictors: the same exception or message from training, the
same predictions. -/
def BaseC (base : BasePls α M) : Prop :=
  ∀ {p : Nat} (_ : p ≠ 0) (σ : Equiv.Perm (Fin p)) (A A' y : Mat α), ShufC σ A A' →
    (base.init A' y).2 = (base.init A y).2 ∧
    ∀ Z Z', ShufC σ Z Z' → base.predict (base.init A' y).1 Z' = base.predict (base.init A y).1 Z

/-- Loop variables of OPLS for reordered predictors. -/
structure OplsC (σ : Equiv.Perm (Fin n)) (s t : OplsVars α) : Prop where
  X : ShufC σ s.X t.X
  W : Shuf σ s.W t.W
  P : Shuf σ s.P t.P
  T : t.T = s.T

theorem oplsProj_l (hA : ShufC σ A A') {v v' : Mat α} (hv : Shuf σ v v') : oplsProj A' v' = oplsProj A v := by
  unfold oplsProj invL2
  rw [hA.mul hv, hv.norm2Squared]

theorem oplsProj_r (hA : ShufC σ A A') (v : Mat α) : ERel (Shuf σ) (oplsProj A.transpose v) (oplsProj A'.transpose v) := by
  unfold oplsProj
  exact ERel.bind (hA.transpose.mul v) fun r r' hr => hr.map _

theorem oplsStep_shufC {w w' : Mat α} (hw : Shuf σ w w') (k : Int) (s t : OplsVars α) (h : OplsC σ s t) :
    ERel (OplsC σ) (oplsStep w k s) (oplsStep w' k t) := by
  unfold oplsStep
  rw [h.T]
  refine ERel.bindEq (oplsProj_l h.X hw).symm fun t => ?_
  refine ERel.bind (oplsProj_r h.X t) fun p p' hp => ?_
  refine ERel.bind (R := Shuf σ) ?_ fun v v' hv => ?_
  · unfold oplsDir invL2
    rw [hw.gram hp, hw.norm2Squared]
    refine ERel.bindEq rfl fun c => ?_
    refine ERel.bindEq rfl fun c => ?_
    exact hp.sub (hw.map _)
  refine ERel.bind hv.normalized fun wo wo' hwo => ?_
  refine ERel.bindEq (oplsProj_l h.X hwo).symm fun tO => ?_
  refine ERel.bind (oplsProj_r h.X tO) fun po po' hpo => ?_
  refine ERel.bind (hpo.transpose.lmul tO) fun d d' hd => ?_
  refine ERel.bind (h.X.sub hd) fun X X' hX => ?_
  refine ERel.bind (h.W.setColumn k hwo) fun W W' hW => ?_
  refine ERel.bindEq rfl fun T => ?_
  refine ERel.bind (h.P.setColumn k hpo) fun P P' hP => ?_
  exact ⟨hX, hW, hP, rfl⟩

omit [HasSqrt α] in
theorem oplsFilter_shufC {W W' P P' : Mat α} (hW : Shuf σ W W') (hP : Shuf σ P P') (hZ : ShufC σ Z Z') :
    ERel (ShufC σ) (oplsFilter W P Z) (oplsFilter W' P' Z') := by
  unfold oplsFilter
  refine ERel.bindEq (hZ.mul hW).symm fun T => ?_
  exact ERel.bind (hP.transpose.lmul T) fun o o' ho => hZ.sub ho

/-- The trained OPLS model for reordered predictors. -/
structure OplsMC (base : BasePls α M) (σ : Equiv.Perm (Fin n)) (a b : OplsModel α M) : Prop where
  W : Shuf σ a.W b.W
  P : Shuf σ a.P b.P
  base : ∀ Z Z', ShufC σ Z Z' → base.predict b.base Z' = base.predict a.base Z

theorem oplsTrain_shufC (base : BasePls α M) (hb : BaseC base) (K : Int) (hn : n ≠ 0) (hA : ShufC σ A A') (y : Mat α) :
    ERel (fun a b => OplsMC base σ a.1 b.1 ∧ b.2 = a.2) (oplsTrain base K A y) (oplsTrain base K A' y) := by
  unfold oplsTrain
  refine ERel.bind (hA.zeros hn K) fun W W' hW => ?_
  refine ERel.bind (hA.zeros hn K) fun P P' hP => ?_
  rw [hA.rows_eq]
  refine ERel.bindEq rfl fun T => ?_
  refine ERel.bind (R := Shuf σ) ?_ fun w w' hw => ?_
  · unfold oplsWeight
    exact ERel.bind (hA.transpose.mul y) fun a a' ha => Shuf.normalized (ha.map _)
  refine ERel.bind (ERel.loopM (R := OplsC σ) (fun k s t h => oplsStep_shufC hw k s t h) _ _ _ ⟨hA, hW, hP, rfl⟩) fun s t hst => ?_
  refine ERel.bind (oplsFilter_shufC hst.W hst.P hA) fun F F' hF => ?_
  obtain ⟨h1, h2⟩ := hb hn σ F F' y hF
  refine ERel.bindEq h1.symm fun _ => ?_
  exact ⟨⟨hst.W, hst.P, h2⟩, rfl⟩

/-- **C143** OPLS over any base algorithm that does not depend on the order: predictions are the same. -/
theorem C143_opls (base : BasePls α M) (hb : BaseC base) (K : Int) :
    FeatureFree (fun _ => True) (oplsTrain base K) (fun m => oplsPredict base m.1) :=
  FeatureFree.of_shuf fun hp σ _ _ y _ _ _ hA hZ =>
    (oplsTrain_shufC base hb K hp hA y).mono fun _ _ h => by
      unfold oplsPredict oplsTransform
      exact (ERel.eq (ERel.bind (oplsFilter_shufC h.1.W h.1.P hZ) fun F F' hF =>
        ERel.of_eq (fun _ => rfl) (h.1.base F F' hF).symm)).symm

/-- **C143** OPLS: the filtered predictors are those of the original order, reordered. -/
theorem C143_opls_transform (base : BasePls α M) (hb : BaseC base) (K : Int) {n p r : Nat} (hp : p ≠ 0) (σ : Equiv.Perm (Fin p))
    (X : Matrix (Fin n) (Fin p) α) (Y : Mat α) (Z : Matrix (Fin r) (Fin p) α) :
    ERel (ShufC σ) (oplsTrain base K (of X) Y >>= fun m => oplsTransform m.1 (of Z))
      (oplsTrain base K (of (colSel σ X)) Y >>= fun m => oplsTransform m.1 (of (colSel σ Z))) :=
  ERel.bind (oplsTrain_shufC base hb K hp ⟨_, X, rfl, rfl⟩ Y) fun _ _ h => oplsFilter_shufC h.1.W h.1.P ⟨_, Z, rfl, rfl⟩

/-- PLS1 as base algorithm. -/
def pls1BaseOf [DecidableEq α] (K : Int) : BasePls α (Option (Pls1Model α)) where
  init X y := match pls1Train pls1Weights K X y with
    | .error e => (none, .error e)
    | .ok m => (some m.1, .ok none)
  predict m Z := match m with
    | none => .error .attributeError
    | some m => pls1Predict K m Z

/-- PLS1 meets the hypothesis of `C143_opls`. -/
theorem baseC_pls1 [DecidableEq α] (K : Int) : BaseC (pls1BaseOf (α := α) K) := by
  intro p hp σ A A' y hA
  have h := pls1Train_shufC pls1Weights weightsC_pls1 K hp hA y
  unfold pls1BaseOf
  dsimp only
  cases e : pls1Train pls1Weights K A y with
  | error x =>
    cases e' : pls1Train pls1Weights K A' y with
    | error x' =>
      rw [e, e'] at h
      have h : x = x' := h
      subst h
      exact ⟨rfl, fun _ _ _ => rfl⟩
    | ok m' => rw [e, e'] at h; exact h.elim
  | ok m =>
    cases e' : pls1Train pls1Weights K A' y with
    | error x' => rw [e, e'] at h; exact h.elim
    | ok m' =>
      rw [e, e'] at h
      exact ⟨rfl, fun Z Z' hZ => pls1Predict_shufC K h.1 hZ⟩

end opls

/-! ## PRM -/

section prm
variable [Field α] [HasSqrt α] [LT α] [DecidableLT α]

/-- What is needed of the inner model: reordered predictors give the same scores and `Q`, and reordered `B` and `W`. -/
def PrmBaseC (base : Mat α → Mat α → Except PyErr (PrmBase α)) : Prop :=
  ∀ {p : Nat} (_ : p ≠ 0) (σ : Equiv.Perm (Fin p)) (A A' y : Mat α), ShufC σ A A' →
    ERel (fun a b => b.T = a.T ∧ b.Q = a.Q ∧ Shuf σ a.B b.B ∧ Shuf σ a.W b.W) (base A y) (base A' y)

omit [LT α] [DecidableLT α] in
theorem cDist_shufC (hA : ShufC σ A A') {v v' : Mat α} (hv : ShufC σ v v') : cDist A' v' = cDist A v := by
  unfold cDist
  rw [hA.rows_eq]
  have e : (fun i : Int => (A'.getRow i >>= fun r => r.sub v' >>= fun d => .ok d.norm2 : Except PyErr α)) =
      fun i => (A.getRow i >>= fun r => r.sub v >>= fun d => .ok d.norm2) := by
    funext i
    refine (ERel.eq (ERel.bind (hA.getRow i) fun r r' hr => ?_)).symm
    refine ERel.bind (hr.sub hv) fun d d' hd => ?_
    exact hd.norm2.symm
  exact congrArg (fun f => Factory.zeros (A.rows : Int) 1 >>= fillCol A.rows f) e

theorem geoLoop_shufC (cfg : PrmCfg α) (hA : ShufC σ A A') (m : Nat) (iter : Int) (hm : (cfg.maxIter - iter).toNat = m)
    {g g' : Mat α} (hg : ShufC σ g g') : ERel (ShufC σ) (geoLoop cfg A iter g) (geoLoop cfg A' iter g') := by
  induction m using Nat.strong_induction_on generalizing iter g g' with
  | _ m ih =>
    rw [geoLoop, geoLoop]
    by_cases h1 : iter < cfg.maxIter
    · rw [dif_pos h1, dif_pos h1]
      refine ERel.bind (R := ShufC σ) ?_ fun a b hab => ?_
      · unfold geoStep
        refine ERel.bindEq (cDist_shufC hA hg).symm fun d => ?_
        refine ERel.bind (hA.scaleByColumnVector _) fun a a' ha => ?_
        refine ERel.bindEq rfl fun s => ?_
        exact ha.colSums.map _
      · refine ERel.bind (hab.sub hg) fun d d' hd => ?_
        rw [hd.norm2Squared]
        by_cases h2 : d.norm2Squared < cfg.tol
        · rw [if_pos h2, if_pos h2]
          exact hab
        · rw [if_neg h2, if_neg h2]
          exact ih _ (by omega) (iter + 1) rfl hab
    · rw [dif_neg h1, dif_neg h1]
      exact hg

theorem leverageWeights_shufC (cfg : PrmCfg α) (hA : ShufC σ A A') : leverageWeights cfg A' = leverageWeights cfg A := by
  unfold leverageWeights
  rw [hA.rows_eq]
  refine (ERel.eq (ERel.bindEq rfl fun W => ?_)).symm
  refine ERel.bind (geoLoop_shufC cfg hA _ 0 rfl hA.columnMeans) fun m m' hm => ?_
  refine ERel.bindEq (cDist_shufC hA hm).symm fun D => ?_
  exact ERel.of_eq (fun _ => rfl) rfl

/-- Attributes of PRM for reordered predictors. -/
structure PrmC (σ : Equiv.Perm (Fin n)) (s t : PrmState α) : Prop where
  wr : t.Wr = s.Wr
  wx : t.Wx = s.Wx
  T : t.T = s.T
  gamma : t.gamma = s.gamma
  base : match s.base, t.base with
    | none, none => True
    | some a, some b => Shuf σ a.B b.B ∧ Shuf σ a.W b.W
    | _, _ => False

theorem prmPass_shufC (cfg : PrmCfg α) (hb : PrmBaseC cfg.base) (hn : n ≠ 0) (hA : ShufC σ A A') (y : Mat α) (s t : PrmState α)
    (h : PrmC σ s t) : ERel (PrmC σ) (prmPass cfg A y s) (prmPass cfg A' y t) := by
  unfold prmPass
  rw [h.wr, h.wx]
  refine ERel.bind (R := ShufC σ) ?_ fun X X' hX => ?_
  · unfold reweight
    exact ERel.bindEq rfl fun w => hA.scaleByColumnVector _
  refine ERel.bindEq rfl fun yp => ?_
  refine ERel.bind (hb hn σ X X' yp hX) fun b b' hbb => ?_
  rw [hbb.1, hbb.2.1, hX.rows_eq]
  refine ERel.bindEq rfl fun T => ?_
  refine ERel.bindEq rfl fun Wr => ?_
  refine ERel.bindEq rfl fun Wx => ?_
  exact ⟨rfl, rfl, rfl, rfl, hbb.2.2⟩

theorem prmMore_shufC (cfg : PrmCfg α) (hb : PrmBaseC cfg.base) (hn : n ≠ 0) (hA : ShufC σ A A') (y : Mat α) (m : Nat)
    (iter : Int) (hm : (cfg.maxIter - iter).toNat = m) (old : Mat α) (s t : PrmState α) (h : PrmC σ s t) :
    ERel (fun a b => PrmC σ a.1 b.1 ∧ b.2 = a.2) (prmMore cfg A y iter old s) (prmMore cfg A' y iter old t) := by
  induction m using Nat.strong_induction_on generalizing iter old s t with
  | _ m ih =>
    rw [prmMore, prmMore, h.gamma]
    refine ERel.bindEq rfl fun d => ?_
    by_cases hc : d.norm2Squared < cfg.tol ∧ iter < cfg.maxIter
    · rw [dif_pos hc, dif_pos hc]
      exact ERel.bind (prmPass_shufC cfg hb hn hA y s t h) fun a b hab => ih _ (by omega) (iter + 1) rfl _ a b hab
    · rw [dif_neg hc, dif_neg hc]
      exact ⟨h, rfl⟩

/-- **C143** PRM with at least as many samples as predictors: predictions, scores, the number of iterations and the case
weights are the same for every order of the predictors. -/
theorem C143_prm (cfg : PrmCfg α) (hb : PrmBaseC cfg.base) :
    FeatureFree (fun A => A.cols ≤ A.rows) (prmTrain cfg) prmPredict ∧
    FeatureFree (fun A => A.cols ≤ A.rows) (prmTrain cfg) prmTransform ∧
    FeatureFree (fun A => A.cols ≤ A.rows) (prmTrain cfg) (fun m _ => .ok m.iterations) ∧
    FeatureFree (fun A => A.cols ≤ A.rows) (prmTrain cfg) (fun m _ => prmW m) := by
  have key : ∀ {p : Nat} (_ : p ≠ 0) (σ : Equiv.Perm (Fin p)) (A A' y : Mat α), A.cols ≤ A.rows → ShufC σ A A' →
      ERel (fun a b => PrmC σ a.state b.state ∧ b.iterations = a.iterations ∧ Shuf σ a.B b.B)
        (prmTrain cfg A y) (prmTrain cfg A' y) := by
    intro p hp σ A A' y hle hA
    unfold prmTrain prmReplace
    rw [hA.rows_eq, hA.cols_eq, if_neg (by omega), if_neg (by omega), except_bind_ok, except_bind_ok]
    dsimp only
    rw [hA.rows_eq, leverageWeights_shufC cfg hA]
    refine ERel.bindEq rfl fun Wr => ?_
    refine ERel.bindEq rfl fun Wx => ?_
    refine ERel.bind (R := fun a b => PrmC σ a.1 b.1 ∧ b.2 = a.2) ?_ fun a b hab => ?_
    · unfold prmLoop
      refine ERel.bindEq rfl fun g => ?_
      refine ERel.bind (prmPass_shufC cfg hb hp hA y _ _ ⟨rfl, rfl, rfl, rfl, trivial⟩) fun s t hst => ?_
      exact prmMore_shufC cfg hb hp hA y _ 1 rfl g s t hst
    · have hbase := hab.1.base
      cases ea : a.1.base with
      | none =>
        cases eb : b.1.base with
        | none => exact rfl
        | some y => rw [ea, eb] at hbase; exact hbase.elim
      | some x =>
        cases eb : b.1.base with
        | none => rw [ea, eb] at hbase; exact hbase.elim
        | some y =>
          rw [ea, eb] at hbase
          exact ⟨hab.1, hab.2, hbase.1⟩
  refine ⟨FeatureFree.of_shuf fun hp σ A A' y Z Z' hP hA hZ => (key hp σ A A' y hP hA).mono fun a b h => hZ.mul h.2.2,
    FeatureFree.of_shuf fun hp σ A A' y Z Z' hP hA hZ => (key hp σ A A' y hP hA).mono fun a b h => ?_,
    FeatureFree.of_shuf fun hp σ A A' y Z Z' hP hA hZ => (key hp σ A A' y hP hA).mono fun a b h => by rw [h.2.1],
    FeatureFree.of_shuf fun hp σ A A' y Z Z' hP hA hZ => (key hp σ A A' y hP hA).mono fun a b h => ?_⟩
  · have hbase := h.1.base
    unfold prmTransform
    cases ea : a.state.base <;> cases eb : b.state.base <;> rw [ea, eb] at hbase
    · exact hbase.elim
    · exact hbase.elim
    · exact hZ.mul hbase.2
  · unfold prmW
    rw [h.1.wr, h.1.wx]

end prm

/-- SIMPLS, the inner model of the code, meets the hypothesis of `C143_prm`. -/
theorem prmBaseC_simpls (eig : Mat ℝ → Mat ℝ × Mat ℝ) (K count : Int) : PrmBaseC (simplsBase eig K count) := by
  intro p hp σ A A' y hA
  unfold simplsBase
  refine ERel.bind (simplsTrain_shufC (domOf eig) K count hp σ A A' y hA) fun m m' hm => ?_
  refine ERel.bindEq (hA.mul hm.1).symm fun T => ?_
  exact ⟨rfl, hm.2.2, hm.2.1, hm.1⟩

/-! ## DIPLS -/

section dipls

theorem ShufC.concatAlongRows (h : ShufC σ A A') (h' : ShufC σ B B') :
    ERel (ShufC σ) (A.concatAlongRows B) (A'.concatAlongRows B') := by
  obtain ⟨c, M, rfl, rfl⟩ := h
  obtain ⟨d, N, rfl, rfl⟩ := h'
  rw [concatAlongRows_of, concatAlongRows_of]
  refine ⟨c + d, Matrix.of fun i j => Fin.addCases (fun b => M b j) (fun b => N b j) i, rfl, mk_congr fun i j => ?_⟩
  rfl

variable [Field α] [HasSqrt α]

/-- What is needed of the inverse: reordering rows and columns alike reorders the inverse in the same way. -/
def Inv2 (inv : Mat α → Except PyErr (Mat α)) : Prop :=
  ∀ {p : Nat} (σ : Equiv.Perm (Fin p)) (A A' : Mat α), Shuf2 σ A A' → ERel (Shuf2 σ) (inv A) (inv A')

omit [HasSqrt α] in
/-- The inverse of the code meets `Inv2`, whatever its fallback for non-square matrices. -/
theorem inv2_inverse [DecidableEq α] (l : Mat α → Except PyErr (Mat α)) : Inv2 fun A => A.inverse l :=
  fun _ _ _ h => h.inverse l

/-- Loop variables of DIPLS for reordered predictors. -/
structure DipC (σ : Equiv.Perm (Fin n)) (s t : DiplsVars α) : Prop where
  X : ShufC σ s.X t.X
  Xs : ShufC σ s.Xs t.Xs
  Xt : ShufC σ s.Xt t.Xt
  y : t.y = s.y
  c : t.c = s.c
  T : t.T = s.T
  Ts : t.Ts = s.Ts
  Tt : t.Tt = s.Tt
  P : OptShuf σ s.P t.P
  Ps : OptShuf σ s.Ps t.Ps
  Pt : OptShuf σ s.Pt t.Pt
  W : OptShuf σ s.W t.W

omit [HasSqrt α] in
theorem diplsCov_shufC (m : Nat) (h : ShufC σ Z Z') : ERel (Shuf2 σ) (diplsCov m Z) (diplsCov m Z') := by
  unfold diplsCov
  exact ERel.bind (h.transpose.outer h) fun a a' ha => ha.map _

theorem diplsWeights_shufC (cfg : DiplsCfg α) (hi : Inv2 cfg.inv) (o : DiplsObj α) {I I' : Mat α} (hI : Shuf2 σ I I')
    (s t : DiplsVars α) (h : DipC σ s t) : ERel (Shuf σ) (diplsWeights cfg o I s) (diplsWeights cfg o I' t) := by
  unfold diplsWeights
  rw [h.y]
  refine ERel.bind (h.X.lmul _) fun l l' hl => ?_
  refine ERel.bind (R := Shuf2 σ) ?_ fun D D' hD => ?_
  · unfold diplsDiff
    refine ERel.bind (diplsCov_shufC _ h.Xs) fun a a' ha => ?_
    exact ERel.bind (diplsCov_shufC _ h.Xt) fun b b' hb => ha.sub hb
  refine ERel.bind (hI.add (hD.map _)) fun M M' hM => ?_
  refine ERel.bind (hi σ M M' hM) fun R R' hR => ?_
  refine ERel.bind ((hl.map _).mul2 hR) fun w w' hw => ?_
  exact hw.transpose.normalized

omit [HasSqrt α] in
theorem diplsBlock_shufC (cfg : DiplsCfg α) {w w' : Mat α} (hw : Shuf σ w w') (hZ : ShufC σ Z Z') (T : Option (Mat α))
    {P P' : Option (Mat α)} (hP : OptShuf σ P P') :
    ERel (fun a b => ShufC σ a.1 b.1 ∧ b.2.1 = a.2.1 ∧ OptShuf σ a.2.2.1 b.2.2.1 ∧ b.2.2.2 = a.2.2.2)
      (diplsBlock cfg w Z T P) (diplsBlock cfg w' Z' T P') := by
  unfold diplsBlock
  refine ERel.bindEq (hZ.mul hw).symm fun t => ?_
  refine ERel.bind (R := ShufC σ) ?_ fun p p' hp => ?_
  · unfold diplsLoad
    refine ERel.bindEq rfl fun g => ?_
    refine ERel.bindEq rfl fun g => ?_
    exact ERel.bindEq rfl fun a => hZ.lmul a
  refine ERel.bind (R := ShufC σ) ?_ fun Y Y' hY => ?_
  · unfold diplsDefl
    exact ERel.bind (hp.lmul t) fun a a' ha => hZ.sub ha
  refine ERel.bindEq rfl fun T => ?_
  refine ERel.bind (hP.concat hp.transpose) fun P P' hP => ?_
  exact ⟨hY, rfl, hP, rfl⟩

theorem diplsStep_shufC (cfg : DiplsCfg α) (hi : Inv2 cfg.inv) (o : DiplsObj α) {I I' : Mat α} (hI : Shuf2 σ I I') (k : Int)
    (s t : DiplsVars α) (h : DipC σ s t) : ERel (DipC σ) (diplsStep cfg o I k s) (diplsStep cfg o I' k t) := by
  unfold diplsStep
  refine ERel.bind (diplsWeights_shufC cfg hi o hI s t h) fun w w' hw => ?_
  rw [h.T, h.Ts, h.Tt, h.y, h.c]
  refine ERel.bind (diplsBlock_shufC cfg hw h.X _ h.P) fun x x' hx => ?_
  refine ERel.bind (diplsBlock_shufC cfg hw h.Xs _ h.Ps) fun xs xs' hxs => ?_
  refine ERel.bind (diplsBlock_shufC cfg hw h.Xt _ h.Pt) fun xt xt' hxt => ?_
  rw [hx.2.2.2]
  refine ERel.bindEq rfl fun ca => ?_
  refine ERel.bindEq rfl fun y => ?_
  refine ERel.bindEq rfl fun c => ?_
  refine ERel.bind (h.W.concat hw) fun W W' hW => ?_
  exact ⟨hx.1, hxs.1, hxt.1, rfl, rfl, hx.2.1, hxs.2.1, hxt.2.1, hx.2.2.1, hxs.2.2.1, hxt.2.2.1, hW⟩

omit [Field α] [HasSqrt α] in
theorem unNone_shuf {W W' : Option (Mat α)} (h : OptShuf σ W W') : ERel (Shuf σ) (unNone W) (unNone W') := by
  cases W <;> cases W' <;> first | exact h.elim | skip
  · exact rfl
  · exact h

/-- Trained DIPLS models for reordered predictors. -/
structure DipMC (σ : Equiv.Perm (Fin n)) (a b : DiplsModel α) : Prop where
  strategy : b.obj.strategy = a.obj.strategy
  xc : ∃ s t, a.obj.xc = some s ∧ b.obj.xc = some t ∧ CenC σ s t
  xtc : ∃ s t, a.obj.xtc = some s ∧ b.obj.xtc = some t ∧ CenC σ s t
  b0 : b.b0 = a.b0
  W : OptShuf σ a.vars.W b.vars.W
  b : Shuf σ a.b b.b

/-- A `Center` object that has not been used. -/
def Unused (o : DiplsObj α) : Prop := o.xc = some center.init ∧ o.xsc = some center.init ∧ o.xtc = some center.init

omit [HasSqrt α] in
theorem optCentre_shufC (h : ShufC σ A A') : ERel (fun a b => CenC σ a.1 b.1 ∧ ShufC σ a.2 b.2)
    (optCentre (some center.init) A) (optCentre (some center.init) A') := by
  obtain ⟨h1, h2⟩ := shufC_center h
  exact ERel.bind h2 fun a b hab => ⟨h1, hab⟩

theorem diplsFit_shufC (cfg : DiplsCfg α) (hi : Inv2 cfg.inv) (o : DiplsObj α) (ho : Unused o) {I I' : Mat α} (hI : Shuf2 σ I I')
    {Xs Xs' Xt Xt' X X' : Mat α} (h1 : ShufC σ Xs Xs') (h2 : ShufC σ Xt Xt') (h3 : ShufC σ X X') (y : Mat α) :
    ERel (DipMC σ) (diplsFit cfg o I Xs Xt X y) (diplsFit cfg o I' Xs' Xt' X' y) := by
  unfold diplsFit
  rw [ho.1, ho.2.1, ho.2.2]
  refine ERel.bind (optCentre_shufC h3) fun x x' hx => ?_
  refine ERel.bind (optCentre_shufC h1) fun xs xs' hxs => ?_
  refine ERel.bind (optCentre_shufC h2) fun xt xt' hxt => ?_
  refine ERel.bind (ERel.loopM (R := DipC σ) (fun k s t h => diplsStep_shufC cfg hi o hI k s t h) _ _ _
    ⟨hx.2, hxs.2, hxt.2, rfl, rfl, rfl, rfl, rfl, trivial, trivial, trivial, trivial⟩) fun v v' hv => ?_
  refine ERel.bind (R := Shuf σ) ?_ fun b b' hb => ?_
  · unfold diplsCoefs
    rw [hv.c]
    refine ERel.bind (unNone_shuf hv.W) fun W W' hW => ?_
    refine ERel.bind (unNone_shuf hv.P) fun P P' hP => ?_
    refine ERel.bindEq rfl fun c => ?_
    rw [hP.gram hW]
    refine ERel.bindEq rfl fun g => ?_
    refine ERel.bindEq rfl fun g => ?_
    exact ERel.bind (hW.mul g) fun a a' ha => ha.mul _
  exact ⟨rfl, ⟨_, _, rfl, rfl, hx.1⟩, ⟨_, _, rfl, rfl, hxt.1⟩, rfl, hv.W, hb⟩

/-- The same message, or models of reordered predictors. -/
def DipResC (σ : Equiv.Perm (Fin n)) : DiplsResult α → DiplsResult α → Prop
  | .message s, .message s' => s = s'
  | .trained a, .trained b => DipMC σ a b
  | _, _ => False

theorem diplsPerform_shufC (cfg : DiplsCfg α) (hi : Inv2 cfg.inv) (o : DiplsObj α) (ho : Unused o) {X X' : Mat α}
    (h : ShufC σ X X') (y : Mat α) : ERel (DipResC σ) (diplsPerform cfg o X y) (diplsPerform cfg o X' y) := by
  unfold diplsPerform
  have hI := Shuf2.eye (α := α) h _ (Or.inr rfl)
  rw [h.cols_eq] at hI ⊢
  refine ERel.bind hI fun I I' hI => ?_
  by_cases c1 : o.ns = 0 ∨ o.nt = 0
  · rw [if_pos c1, if_pos c1]
    exact rfl
  rw [if_neg c1, if_neg c1]
  by_cases c2 : o.ns = 1 ∨ o.nt = 1
  · rw [if_pos c2, if_pos c2]
    exact rfl
  rw [if_neg c2, if_neg c2]
  refine ERel.bind (R := fun a b => ShufC σ a.1 b.1 ∧ ShufC σ a.2.1 b.2.1 ∧ ShufC σ a.2.2 b.2.2) ?_ fun s t hst => ?_
  · unfold diplsSelect
    cases o.strategy with
    | none => exact rfl
    | some st =>
      dsimp only
      rw [h.rows_eq]
      refine ERel.bind (h.getRows _) fun Xs Xs' h1 => ?_
      refine ERel.bind (h.getRows _) fun Xt Xt' h2 => ?_
      cases st with
      | unsupervised => exact ⟨h1, h2, h1⟩
      | supervised => exact ⟨h1, h2, h⟩
      | semisupervised => exact ERel.bind (h.getRows _) fun Y Y' h3 => ⟨h1, h2, h3⟩
  · exact ERel.bind (diplsFit_shufC cfg hi o ho hI hst.1 hst.2.1 hst.2.2 y) fun a b hab => hab

omit [HasSqrt α] in
theorem diplsPredict_shufC {a b : DiplsModel α} (h : DipMC σ a b) (hZ : ShufC σ Z Z') : diplsPredict b Z' = diplsPredict a Z := by
  have key : ∀ s t : CenterState α, CenC σ s t → (optCentre (some t) Z' >>= fun z => z.2.mul b.b >>= fun r => .ok (r.addScalar b.b0)) =
      (optCentre (some s) Z >>= fun z => z.2.mul a.b >>= fun r => .ok (r.addScalar a.b0)) := by
    intro s t hst
    refine (ERel.eq (ERel.bind (R := fun x y => ShufC σ x.2 y.2) ?_ fun x y hxy => ?_)).symm
    · exact ERel.bind (hst.apply hZ) fun u v huv => huv
    · rw [hxy.mul h.b, h.b0]
      exact ERel.of_eq (fun _ => rfl) rfl
  obtain ⟨s, t, e1, e2, hst⟩ := h.xc
  obtain ⟨s', t', e3, e4, hst'⟩ := h.xtc
  unfold diplsPredict
  rw [h.strategy]
  cases a.obj.strategy with
  | none => rfl
  | some x =>
    cases x with
    | unsupervised => rw [e3, e4]; exact key _ _ hst'
    | supervised => rw [e1, e2]; exact key _ _ hst
    | semisupervised => rw [e1, e2]; exact key _ _ hst

omit [HasSqrt α] in
theorem diplsTransform_shufC {a b : DiplsModel α} (h : DipMC σ a b) (hZ : ShufC σ Z Z') :
    diplsTransform b Z' = diplsTransform a Z := by
  obtain ⟨s, t, e1, e2, hst⟩ := h.xc
  unfold diplsTransform
  rw [e1, e2]
  refine (ERel.eq (ERel.bind (R := fun x y => ShufC σ x.2 y.2) ?_ fun x y hxy => ?_)).symm
  · exact ERel.bind (hst.apply hZ) fun u v huv => huv
  · refine ERel.bind (unNone_shuf h.W) fun W W' hW => ?_
    exact ERel.of_eq (fun _ => rfl) (hxy.mul hW).symm

omit [Field α] [HasSqrt α] in
theorem dipAnswer_shufC {R : Type} {g g' : DiplsModel α → Except PyErr R} (hg : ∀ a b, DipMC σ a b → g' b = g a)
    {x y : Except PyErr (DiplsResult α)} (h : ERel (DipResC σ) x y) : y >>= dipAnswer g' = x >>= dipAnswer g := by
  refine (ERel.eq (ERel.bind h fun a b hab => ERel.of_eq (fun _ => rfl) ?_)).symm
  cases a <;> cases b <;> first | exact hab.elim | skip
  · exact congrArg (fun s => (.ok (.inl s) : Except PyErr (String ⊕ R))) hab
  · exact congrArg (fun r => Except.map Sum.inr r) (hg _ _ hab).symm

/-- **C143** DIPLS, all three strategies: messages, predictions and scores are the same for every order of the predictors, as
long as source samples, target samples and new samples use the same order. -/
theorem C143_dipls (cfg : DiplsCfg α) (hi : Inv2 cfg.inv) {p s t u r : Nat} (σ : Equiv.Perm (Fin p)) (Xs : Matrix (Fin s) (Fin p) α)
    (Xt : Matrix (Fin t) (Fin p) α) (Xu : Matrix (Fin u) (Fin p) α) (ys yt : Mat α) (Z : Matrix (Fin r) (Fin p) α)
    (use : DiplsModel α → Mat α → Except PyErr (Mat α)) (hu : use = diplsPredict ∨ use = diplsTransform) :
    (diplsUnsupervised cfg diplsFresh (of (colSel σ Xs)) (of (colSel σ Xt)) ys >>= dipAnswer (use · (of (colSel σ Z))) =
      diplsUnsupervised cfg diplsFresh (of Xs) (of Xt) ys >>= dipAnswer (use · (of Z))) ∧
    (diplsSupervised cfg diplsFresh (of (colSel σ Xs)) (of (colSel σ Xt)) ys yt >>= dipAnswer (use · (of (colSel σ Z))) =
      diplsSupervised cfg diplsFresh (of Xs) (of Xt) ys yt >>= dipAnswer (use · (of Z))) ∧
    (diplsSemisupervised cfg diplsFresh (of (colSel σ Xs)) (of (colSel σ Xt)) (of (colSel σ Xu)) ys yt >>=
        dipAnswer (use · (of (colSel σ Z))) =
      diplsSemisupervised cfg diplsFresh (of Xs) (of Xt) (of Xu) ys yt >>= dipAnswer (use · (of Z))) := by
  have hg : ∀ a b, DipMC σ a b → use b (of (colSel σ Z)) = use a (of Z) := by
    rcases hu with rfl | rfl
    · exact fun a b h => diplsPredict_shufC h ⟨_, Z, rfl, rfl⟩
    · exact fun a b h => diplsTransform_shufC h ⟨_, Z, rfl, rfl⟩
  have h1 : ShufC σ (of Xs) (of (colSel σ Xs)) := ⟨_, Xs, rfl, rfl⟩
  have h2 : ShufC σ (of Xt) (of (colSel σ Xt)) := ⟨_, Xt, rfl, rfl⟩
  have h3 : ShufC σ (of Xu) (of (colSel σ Xu)) := ⟨_, Xu, rfl, rfl⟩
  refine ⟨dipAnswer_shufC hg ?_, dipAnswer_shufC hg ?_, dipAnswer_shufC hg ?_⟩
  · unfold diplsUnsupervised
    refine ERel.bind (ShufC.concatAlongRows h1 h2) fun X X' hX => ?_
    exact diplsPerform_shufC cfg hi _ ⟨rfl, rfl, rfl⟩ hX ys
  · unfold diplsSupervised
    refine ERel.bind (ShufC.concatAlongRows h1 h2) fun X X' hX => ?_
    refine ERel.bindEq rfl fun y => ?_
    exact diplsPerform_shufC cfg hi _ ⟨rfl, rfl, rfl⟩ hX y
  · unfold diplsSemisupervised
    refine ERel.bind (ShufC.concatAlongRows h1 h2) fun X X' hX => ?_
    refine ERel.bind (ShufC.concatAlongRows hX h3) fun X X' hX => ?_
    refine ERel.bindEq rfl fun y => ?_
    exact diplsPerform_shufC cfg hi _ ⟨rfl, rfl, rfl⟩ hX y

end dipls

/-! ## KernelPLS -/

section kernel
variable [Field α] [HasSqrt α]

/-- A kernel whose matrices do not depend on the order of the predictors. -/
def KernC {S : Type} (c : KplsCfg α S) : Prop :=
  ∀ {p : Nat} (σ : Equiv.Perm (Fin p)) (k : S) (A A' : Mat α), ShufC σ A A' →
    c.kern1 k A' = c.kern1 k A ∧ ∀ Z Z', ShufC σ Z Z' → c.kern2 k Z' A' = c.kern2 k Z A

/-- **C143** KernelPLS, for every kernel that does not depend on the order: predictions and scores. -/
theorem C143_kernelPls {S : Type} (c : KplsCfg α S) (hk : KernC c) (k : S) :
    FeatureFree (fun _ => True) (kplsTrain c k) (kplsPredict c) ∧
    FeatureFree (fun _ => True) (kplsTrain c k) (kplsTransform c) := by
  have key : ∀ {p : Nat} (σ : Equiv.Perm (Fin p)) (A A' Y : Mat α), ShufC σ A A' →
      ERel (fun a b => b.kern = a.kern ∧ CenC σ a.centerX b.centerX ∧ b.centerY = a.centerY ∧ ShufC σ a.X b.X ∧
          b.Korig = a.Korig ∧ b.vars = a.vars ∧ b.B = a.B) (kplsTrain c k A Y) (kplsTrain c k A' Y) := by
    intro p σ A A' Y hA
    unfold kplsTrain
    obtain ⟨h1, h2⟩ := shufC_center hA
    refine ERel.bind h2 fun X X' hX => ?_
    refine ERel.bindEq rfl fun Y => ?_
    rw [(hk σ k X X' hX).1, hX.rows_eq]
    refine ERel.bindEq rfl fun K => ?_
    refine ERel.bindEq rfl fun K => ?_
    refine ERel.bindEq rfl fun s => ?_
    refine ERel.bindEq rfl fun s => ?_
    refine ERel.bindEq rfl fun B => ?_
    exact ⟨rfl, h1, rfl, hX, rfl, rfl, rfl⟩
  have ht : ∀ {p : Nat} (σ : Equiv.Perm (Fin p)) (a b : KplsModel α S) (Z Z' : Mat α), (b.kern = a.kern ∧ CenC σ a.centerX b.centerX ∧
      b.centerY = a.centerY ∧ ShufC σ a.X b.X ∧ b.Korig = a.Korig ∧ b.vars = a.vars ∧ b.B = a.B) → ShufC σ Z Z' →
      kplsTransform c b Z' = kplsTransform c a Z := by
    intro p σ a b Z Z' h hZ
    unfold kplsTransform
    refine (ERel.eq (ERel.bind (h.2.1.apply hZ) fun W W' hW => ?_)).symm
    rw [h.1, (hk σ a.kern a.X b.X h.2.2.2.1).2 W W' hW, h.2.2.2.1.rows_eq, h.2.2.2.2.1, h.2.2.2.2.2.1]
    exact ERel.of_eq (fun _ => rfl) rfl
  refine ⟨FeatureFree.of_shuf fun hp σ A A' y Z Z' _ hA hZ => (key σ A A' y hA).mono fun a b h => ?_,
    FeatureFree.of_shuf fun hp σ A A' y Z Z' _ hA hZ => (key σ A A' y hA).mono fun a b h => ht σ a b Z Z' h hZ⟩
  unfold kplsPredict
  rw [ht σ a b Z Z' h hZ, h.2.2.1, h.2.2.2.2.2.2]

omit [HasSqrt α] in
/-- The linear kernel. -/
theorem linear_shufC (hA : ShufC σ A A') (hZ : ShufC σ Z Z') :
    linearMatrix A' none = linearMatrix A none ∧ linearMatrix Z' (some A') = linearMatrix Z (some A) :=
  ⟨hA.mul hA.transpose, hZ.mul hA.transpose⟩

omit [HasSqrt α] in
/-- The polynomial kernel. -/
theorem poly_shufC (s : PolyState α) (hA : ShufC σ A A') (hZ : ShufC σ Z Z') :
    polyMatrix s A' none = polyMatrix s A none ∧ polyMatrix s Z' (some A') = polyMatrix s Z (some A) := by
  have h1 : A'.mul A'.transpose = A.mul A.transpose := hA.mul hA.transpose
  have h2 : Z'.mul A'.transpose = Z.mul A.transpose := hZ.mul hA.transpose
  constructor <;>
  · unfold polyMatrix resolveGamma
    simp only [Option.getD_none, Option.getD_some, h1, h2, hA.cols_eq, hZ.cols_eq]

omit [Field α] [HasSqrt α] in
/-- The loops of the base class over a kernel function that does not depend on the order. -/
theorem kernelLoop_shufC {S : Type} (k : KernelFn α S)
    (hk : ∀ s x x' y y', ShufC σ x x' → ShufC σ y y' → k s x' y' = k s x y) (hA : ShufC σ A A') (hB : ShufC σ B B') (both : Bool)
    (l : List (Int × Int)) (s : S) (Z : Mat α) : kernelLoop k A' B' both l s Z = kernelLoop k A B both l s Z := by
  induction l generalizing s Z with
  | nil => rfl
  | cons ij l ih =>
    obtain ⟨i, j⟩ := ij
    have e : kernelStep k A' B' both i j s Z = kernelStep k A B both i j s Z := by
      unfold kernelStep
      have h1 := hA.getRow i
      have h2 := hB.getRow j
      cases e1 : A.getRow i <;> cases e2 : A'.getRow i <;> rw [e1, e2] at h1 <;> first | exact h1.elim | skip
      · have h1 : _ = _ := h1
        rw [h1]
      · cases e3 : B.getRow j <;> cases e4 : B'.getRow j <;> rw [e3, e4] at h2 <;> first | exact h2.elim | skip
        · have h2 : _ = _ := h2
          simp only [h2]
        · simp only [hk s _ _ _ _ h1 h2]
    rw [kernelLoop, kernelLoop, e]
    split
    · rfl
    · exact ih _ _

/-- The RBF kernel. -/
theorem rbf_shufC [HasExp α] (g : Option α) (hA : ShufC σ A A') (hZ : ShufC σ Z Z') :
    applyMatrix1 rbfVector g A' = applyMatrix1 rbfVector g A ∧
    applyMatrix2 rbfVector g Z' A' = applyMatrix2 rbfVector g Z A := by
  have hk : ∀ (s : Option α) (x x' y y' : Mat α), ShufC σ x x' → ShufC σ y y' → rbfVector s x' y' = rbfVector s x y := by
    intro s x x' y y' hx hy
    unfold rbfVector resolveGamma
    have h := hx.sub hy
    cases e1 : x.sub y <;> cases e2 : x'.sub y' <;> rw [e1, e2] at h <;> first | exact h.elim | skip
    · have h : _ = _ := h
      simp only [h]
    · have h : ShufC σ _ _ := h
      simp only [h.norm2, hx.cols_eq]
  constructor
  · unfold applyMatrix1
    rw [hA.rows_eq]
    split
    · rfl
    · exact kernelLoop_shufC _ hk hA hA _ _ _ _
  · unfold applyMatrix2
    rw [hA.rows_eq, hZ.rows_eq]
    split
    · rfl
    · exact kernelLoop_shufC _ hk hZ hA _ _ _ _

/-- **C143** KernelPLS with the three kernels of the library. -/
theorem C143_kernels [HasExp α] :
    (∀ c : KplsCfg α Unit, (∀ s A, c.kern1 s A = (s, linearMatrix A none)) → (∀ s Z A, c.kern2 s Z A = (s, linearMatrix Z (some A))) →
      ∀ k, FeatureFree (fun _ => True) (kplsTrain c k) (kplsPredict c) ∧ FeatureFree (fun _ => True) (kplsTrain c k) (kplsTransform c)) ∧
    (∀ c : KplsCfg α (PolyState α), (∀ s A, c.kern1 s A = polyMatrix s A none) → (∀ s Z A, c.kern2 s Z A = polyMatrix s Z (some A)) →
      ∀ k, FeatureFree (fun _ => True) (kplsTrain c k) (kplsPredict c) ∧ FeatureFree (fun _ => True) (kplsTrain c k) (kplsTransform c)) ∧
    (∀ c : KplsCfg α (Option α), c.kern1 = applyMatrix1 rbfVector → c.kern2 = applyMatrix2 rbfVector →
      ∀ k, FeatureFree (fun _ => True) (kplsTrain c k) (kplsPredict c) ∧ FeatureFree (fun _ => True) (kplsTrain c k) (kplsTransform c)) := by
  refine ⟨fun c h1 h2 k => C143_kernelPls c (fun σ s A A' hA => ?_) k, fun c h1 h2 k => C143_kernelPls c (fun σ s A A' hA => ?_) k,
    fun c h1 h2 k => C143_kernelPls c (fun σ s A A' hA => ?_) k⟩
  · exact ⟨by rw [h1, h1, (linear_shufC hA hA).1], fun Z Z' hZ => by rw [h2, h2, (linear_shufC hA hZ).2]⟩
  · exact ⟨by rw [h1, h1, (poly_shufC s hA hA).1], fun Z Z' hZ => by rw [h2, h2, (poly_shufC s hA hZ).2]⟩
  · rw [h1, h2]
    exact ⟨(rbf_shufC s hA hA).1, fun Z Z' hZ => (rbf_shufC s hA hZ).2⟩

end kernel

/-! ## The violation -/

/-- What `Standardize` makes of finite data, in extended arithmetic. -/
theorem standardize_fin {m n : Nat} (A : Matrix (Fin m) (Fin (n + 1)) ℝ) (hm : 2 ≤ m) :
    quickApply (standardize isZeroX) (of (X.finMat A)) = .ok (of (Matrix.of fun i j =>
      X.fin (A i j - mu fun r => A r j) / if j = 0 ∧ isZeroX (X.fin (sd fun r => A r 0)) = true then 1 else
        (X.fin (sd fun r => A r j) : X ℝ))) := by
  have hm0 : m ≠ 0 := by omega
  have hg := guardStds_row isZeroX (Matrix.of fun (_ : Fin 1) j => (X.fin (sd fun i => A i j) : X ℝ))
  have hq : quickApply (standardize isZeroX) (of (X.finMat A)) =
      (subByVector (of (X.finMat A)) (of (Matrix.of fun (_ : Fin 1) j => (X.fin (mu fun i => A i j) : X ℝ)))
        >>= fun r => r.divByVector (of (Matrix.of fun (_ : Fin 1) j' => if j' = 0 ∧
          isZeroX (X.fin (sd fun i => A i 0)) = true then 1 else (X.fin (sd fun i => A i j') : X ℝ)))) := by
    unfold quickApply transform
    simp only [standardize, X.columnStdevs_fin A hm, X.columnMeans_fin A hm0, hg, Bool.false_eq_true, if_false]
    rfl
  have h1 : subByVector (of (X.finMat A)) (of (Matrix.of fun (_ : Fin 1) j =>
      (X.fin (mu fun i => A i j) : X ℝ))) = .ok (of _) := vectorOp_row _ _ _
  refine hq.trans ((congrArg (· >>= _) h1).trans ((vectorOp_row _ _ _).trans ?_))
  rw [ok_inj]
  refine mk_congr fun i j => ?_
  simp only [Matrix.of_apply, X.finMat, X.fin_sub]

/-- **C143 (violation)** `Standardize`, which `NIPALS`, `CCARegression`, `SparsePLS` and the preprocessing option `STANDARDIZE` use,
depends on the order of the predictors if one of them is constant: in any place but the first its column becomes NaN, but if
it is moved to the first place its column becomes zero. -/
theorem C143_constant_violation {m n : Nat} (A : Matrix (Fin m) (Fin (n + 1)) ℝ) (hm : 2 ≤ m) (j : Fin (n + 1)) (hj : j ≠ 0)
    (hc : ∀ i k, A i j = A k j) :
    ∃ C D : Matrix (Fin m) (Fin (n + 1)) (X ℝ),
      quickApply (standardize isZeroX) (of (X.finMat A)) = .ok (of C) ∧ (∀ i, C i j = .nan) ∧
      quickApply (standardize isZeroX) (of (X.finMat (colSel (Equiv.swap 0 j) A))) = .ok (of D) ∧ ∀ i, D i 0 = .fin 0 := by
  have hsd : sd (fun r => A r j) = 0 := (sd_eq_zero_iff hm _).2 fun i k => hc i k
  have hmu : ∀ i, A i j - mu (fun r => A r j) = 0 := by
    intro i
    have hm0 : m ≠ 0 := by omega
    have := sum_sub_mu hm0 fun r => A r j
    rw [Finset.sum_congr rfl fun r _ => by rw [hc r i]] at this
    rw [Finset.sum_const, Finset.card_univ, Fintype.card_fin, nsmul_eq_mul] at this
    have hm' : (m : ℝ) ≠ 0 := by exact_mod_cast hm0
    exact (mul_eq_zero.1 this).resolve_left hm'
  refine ⟨_, _, standardize_fin A hm, fun i => ?_, standardize_fin _ hm, fun i => ?_⟩
  · simp only [Matrix.of_apply]
    rw [if_neg (fun h => hj h.1), hsd, hmu, X.fin_div_zero, X.signedInf_zero]
  · simp only [Matrix.of_apply, colSel, Equiv.swap_apply_left]
    rw [hsd, hmu, if_pos]
    · show X.fin (0 : ℝ) / X.fin 1 = _
      rw [X.fin_div 0 one_ne_zero]
      simp
    · simp [isZeroX, X.eqb]

/-! ## Concrete cases -/

theorem colSel_swap : colSel (Equiv.swap 0 1) (!![1, 2; 3, 5; 8, 13] : Matrix (Fin 3) (Fin 2) ℝ) = !![2, 1; 5, 3; 13, 8] := by
  ext i j
  fin_cases i <;> fin_cases j <;> rfl

/-- PLS1 on the samples `(1,2) ↦ 1`, `(3,5) ↦ 4`, `(8,13) ↦ 9`, and with the two predictors exchanged. -/
example (K : Int) (a b : ℝ) :
    (pls1Train pls1Weights K (of (!![2, 1; 5, 3; 13, 8] : Matrix (Fin 3) (Fin 2) ℝ)) (of (!![1; 4; 9] : Matrix (Fin 3) (Fin 1) ℝ)) >>=
        fun m => pls1Predict K m.1 (of (!![b, a] : Matrix (Fin 1) (Fin 2) ℝ))) =
      (pls1Train pls1Weights K (of (!![1, 2; 3, 5; 8, 13] : Matrix (Fin 3) (Fin 2) ℝ)) (of (!![1; 4; 9] : Matrix (Fin 3) (Fin 1) ℝ)) >>=
        fun m => pls1Predict K m.1 (of (!![a, b] : Matrix (Fin 1) (Fin 2) ℝ))) := by
  have h := (C143_pls1 (α := ℝ) K).1 3 2 1 (by decide) (Equiv.swap 0 1) !![1, 2; 3, 5; 8, 13]
    (of (!![1; 4; 9] : Matrix (Fin 3) (Fin 1) ℝ)) (!![a, b] : Matrix (Fin 1) (Fin 2) ℝ) trivial
  have e : colSel (Equiv.swap 0 1) (!![a, b] : Matrix (Fin 1) (Fin 2) ℝ) = !![b, a] := by
    ext i j
    fin_cases i
    fin_cases j <;> rfl
  rw [colSel_swap, e] at h
  exact h

/-- OPLS over PLS1. -/
example (K J : Int) : FeatureFree (α := ℝ) (fun _ => True) (oplsTrain (pls1BaseOf J) K) (fun m => oplsPredict (pls1BaseOf J) m.1) :=
  C143_opls _ (baseC_pls1 J) K

/-- PRM over SIMPLS, as in the code; three samples of two predictors meet its restriction. -/
example (K : Int) : FeatureFree (fun A => A.cols ≤ A.rows) (prmTrain { orderPrmCfg with base := simplsBase eigOne K (-1) }) prmPredict ∧
    (of (!![1, 2; 3, 5; 8, 13] : Matrix (Fin 3) (Fin 2) ℝ)).cols ≤ (of (!![1, 2; 3, 5; 8, 13] : Matrix (Fin 3) (Fin 2) ℝ)).rows :=
  ⟨(C143_prm _ (prmBaseC_simpls _ _ _)).1, by decide⟩

/-- DIPLS with the inverse of the code. -/
example (K : Int) (l : ℝ) (pinv : Mat ℝ → Except PyErr (Mat ℝ)) : Inv2 (DiplsCfg.mk K l fun A => A.inverse pinv).inv := inv2_inverse pinv

/-- No predictor of the three samples is constant. -/
example : Steady (fun x : ℝ => decide (x = 0)) (of (!![1, 2; 3, 5; 8, 13] : Matrix (Fin 3) (Fin 2) ℝ)) := by
  unfold Steady
  rw [columnStdevs_of]
  intro i j
  rw [decide_eq_false_iff_not]
  show ¬ sd (fun r => (!![1, 2; 3, 5; 8, 13] : Matrix (Fin 3) (Fin 2) ℝ) r j) = 0
  rw [sd_eq_zero_iff (by decide)]
  intro h
  have h1 := h 0 1
  revert h1
  fin_cases j <;> norm_num [Matrix.of_apply]

/-- A routine that meets `EigC`: one step of the power method from the vector of ones. -/
example [Field α] : EigC fun A : Mat α => A.mul (of (Matrix.of fun (_ : Fin A.rows) (_ : Fin 1) => (1 : α))) >>= fun v =>
    .ok (of (0 : Matrix (Fin 1) (Fin 1) α), v) := by
  intro p σ A A' h
  have h1 : Shuf σ (of (Matrix.of fun (_ : Fin A.rows) (_ : Fin 1) => (1 : α)))
      (of (Matrix.of fun (_ : Fin A'.rows) (_ : Fin 1) => (1 : α))) := by
    obtain ⟨M, rfl, rfl⟩ := h
    exact ⟨1, Matrix.of fun _ _ => 1, rfl, rfl⟩
  exact ERel.bind (h.mul h1) fun v v' hv => ⟨rfl, hv⟩

/-- The right inverse `Aᵀ(AAᵀ)⁻¹`, the pseudo-inverse of a matrix of full row rank, meets `InvShufC`. -/
example [Field α] (inv : Mat α → Except PyErr (Mat α)) :
    InvShufC (fun A => A.mul A.transpose >>= fun g => inv g >>= fun h => A.transpose.mul h) := by
  intro n σ A A' h
  dsimp only
  rw [h.mul h.transpose]
  refine ERel.bindEq rfl fun g => ?_
  refine ERel.bindEq rfl fun k => ?_
  exact h.transpose.mul k

/-- A constant second predictor. -/
example : ∃ C D : Matrix (Fin 2) (Fin 2) (X ℝ),
    quickApply (standardize isZeroX) (of (X.finMat (!![1, 5; 2, 5] : Matrix (Fin 2) (Fin 2) ℝ))) = .ok (of C) ∧ (∀ i, C i 1 = .nan) ∧
    quickApply (standardize isZeroX) (of (X.finMat (!![5, 1; 5, 2] : Matrix (Fin 2) (Fin 2) ℝ))) = .ok (of D) ∧ ∀ i, D i 0 = .fin 0 := by
  have h := C143_constant_violation (n := 1) (!![1, 5; 2, 5] : Matrix (Fin 2) (Fin 2) ℝ) le_rfl 1 (by decide)
    (by intro i k; fin_cases i <;> fin_cases k <;> rfl)
  have e : colSel (Equiv.swap 0 1) (!![1, 5; 2, 5] : Matrix (Fin 2) (Fin 2) ℝ) = !![5, 1; 5, 2] := by
    ext i j
    fin_cases i <;> fin_cases j <;> rfl
  rw [e] at h
  exact h

end Verif.Props
