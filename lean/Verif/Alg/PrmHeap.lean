import Verif.Alg.SparseHeap
import Verif.Alg.PlsHeap
import Verif.Alg.PRM

/-!
# PRM on matrix objects

`src/wai/ma/algorithm/pls/_PRM.py`, statement by statement on objects.
-/

namespace Verif
open Mat Heap Transf

variable {α : Type}

/-! ## Filling a column -/

/-- `for i in range(n): R.set(i, 0, …)`. -/
def hFillCol (R : Nat) (n : Nat) (g : Int → H α α) : H α Unit :=
  mLoop (fun i (_ : Unit) => do
    let v ← g i
    mSet R i 0 v) (pyRange 0 (n : Int)) ()

theorem fillCol_loop (n : Nat) (f : Int → Except PyErr α) (M : Mat α) : fillCol n f M = loopM (fun i M => do
    let v ← f i
    M.set i 0 v) (pyRange 0 (n : Int)) M := by
  have key : ∀ (is : List Int) (M : Mat α), fillLoop (fun i _ => f i) (is.flatMap fun i => [(i, (0 : Int))]) M = loopM (fun i M => do
      let v ← f i
      M.set i 0 v) is M := by
    intro is
    induction is with
    | nil => exact fun _ => rfl
    | cons i is ih =>
      intro M
      rw [loopM, List.flatMap_cons]
      show (do let v ← f i; let M' ← M.set i 0 v; fillLoop _ _ M') = _
      simp only [bind_assoc]
      exact congrArg _ (funext fun v => congrArg _ (funext fun M' => ih M'))
  exact key _ M

theorem hFillCol_sim {R n : Nat} {g : Int → H α α} {f : Int → Except PyErr α} {h : Heap α} {M : Mat α} (hR : Has h R M)
    (hg : ∀ i h', Frame [R] h h' → Heap.Sim [] h' (g i) (f i) fun _ b c => b = c) :
    Heap.Sim [R] h (hFillCol R n g) (fillCol n f M) fun h' _ M' => Has h' R M' := by
  intro hw
  revert hw
  rw [fillCol_loop]
  refine fun hw => Sim.loop (h0 := h) (fun h' (_ : Unit) v => Has h' R v) _ ?_ h () M (.refl _ hw) hR hw
  intro i hi h2 _ v f2 hv
  refine Sim.bind (hg i h2 f2) (by simp) ?_
  rintro h3 b _ f3 rfl
  exact sim_set (hv.mono f3 List.not_mem_nil) i 0 _

section prm
variable [Field α] [LinearOrder α] [HasSqrt α]

/-! ## Weights -/

/-- One entry of `c_dist`, `_PRM.py` 339-341. -/
def hCDistAt (X v : Nat) (i : Int) : H α α := do
  let r ← mPure1 (fun M => M.getRow i) X
  let d ← mPure2 Mat.sub r v
  mScalar1 (fun M => .ok M.norm2) d

/-- `c_dist`, `_PRM.py` 329-342. -/
def hCDist (X v : Nat) : H α Nat := do
  let D ← getContents X
  let R ← mCreate (Factory.zeros (D.rows : Int) 1)
  hFillCol R D.rows (hCDistAt X v)
  pure R

omit [LinearOrder α] in
theorem hCDist_sim {h : Heap α} {X v : Nat} {A V : Mat α} (hX : Has h X A) (hv : Has h v V) :
    Heap.Sim [] h (hCDist X v) (cDist A V) (New h) := by
  unfold hCDist cDist
  have lX := hX.1
  have lv := hv.1
  refine Sim.look hX ?_
  refine Sim.own (sim_create _) fun h1 R Rv f1 l1 g1 u1 a1 => ?_
  rw [← bind_ok_right (fillCol _ _ _)]
  refine Sim.upd (hFillCol_sim a1 fun i h2 f2 => ?_) (by simp) fun h3 R3 f3 l3 a3 => Sim.ret ⟨g1, a3⟩
  unfold hCDistAt
  refine Sim.new (sim_pure1 (f := fun M => M.getRow i) (M := A) (by has)) fun h3 r rv f3 l3 g3 u3 a3 => ?_
  refine Sim.new (sim_pure2 (f := Mat.sub) (N := V) a3 (by has)) fun h4 d dv f4 l4 g4 u4 a4 => ?_
  exact sim_scalar1 (f := fun M => .ok M.norm2) a4

/-- One Weiszfeld step, `_PRM.py` 307-318. -/
def hGeoStep (cfg : PrmCfg α) (X guess : Nat) : H α Nat := do
  let d ← hCDist X guess
  let d ← mPure1 (fun M => .ok (M.map (invDist cfg.eps))) d
  let a ← mPure2 Mat.scaleByColumnVector X d
  let a ← mPure1 (fun M => .ok M.colSums) a
  let s ← mPure1 (fun M => .ok M.colSums) d
  let s ← mScalar1 (fun M => M.asReal) s
  mPure1 (fun M => .ok (M.div s)) a

theorem hGeoStep_sim (cfg : PrmCfg α) {h : Heap α} {X v : Nat} {A V : Mat α} (hX : Has h X A) (hv : Has h v V) :
    Heap.Sim [] h (hGeoStep cfg X v) (geoStep cfg A V) (New h) := by
  unfold hGeoStep geoStep
  have lX := hX.1
  refine Sim.new (hCDist_sim hX hv) fun h1 d dv f1 l1 g1 u1 a1 => ?_
  refine Sim.tmp (sim_pure1 (f := fun M => .ok (M.map (invDist cfg.eps))) a1) fun h2 d2 f2 l2 g2 u2 a2 => ?_
  refine Sim.new (sim_pure2 (f := Mat.scaleByColumnVector) (M := A) (by has) a2) fun h3 a av f3 l3 g3 u3 a3 => ?_
  refine Sim.tmp (sim_pure1 (f := fun M => .ok M.colSums) a3) fun h4 a4 f4 l4 g4 u4 b4 => ?_
  refine Sim.tmp (sim_pure1 (f := fun M => .ok M.colSums) (M := dv.map (invDist cfg.eps)) (by has)) fun h5 s f5 l5 g5 u5 a5 => ?_
  refine Sim.num1 (f := fun M => M.asReal) a5 fun x => ?_
  exact (sim_pure1 (f := fun M => .ok (M.div x)) (M := av.colSums) (by has)).post fun h6 b _ _ hn => ⟨by have := hn.1; omega, hn.2⟩

/-- The loop of `geometric_median`, `_PRM.py` 305-327. -/
def hGeoLoop (cfg : PrmCfg α) (X : Nat) (iter : Int) (guess : Nat) : H α Nat :=
  if h : iter < cfg.maxIter then do
    let next ← hGeoStep cfg X guess
    let d ← mPure2 Mat.sub next guess
    let c ← mScalar1 (fun M => .ok M.norm2Squared) d
    if c < cfg.tol then pure next else hGeoLoop cfg X (iter + 1) next
  else pure guess
termination_by (cfg.maxIter - iter).toNat

theorem hGeoLoop_sim (cfg : PrmCfg α) {X : Nat} {A : Mat α} (N : Nat) : ∀ {h : Heap α} {iter : Int} {g : Nat} {G : Mat α},
    (cfg.maxIter - iter).toNat = N → Has h X A → Has h g G →
    Heap.Sim [] h (hGeoLoop cfg X iter g) (geoLoop cfg A iter G) fun h' b c => Has h' b c ∧ (b = g ∨ h.nobj ≤ b) := by
  induction N using Nat.strong_induction_on with
  | _ N ih =>
    intro h iter g G hN hX hg
    rw [hGeoLoop, geoLoop]
    by_cases e : iter < cfg.maxIter
    · rw [dif_pos e, dif_pos e]
      have lX := hX.1
      have lg := hg.1
      refine Sim.new (hGeoStep_sim cfg hX hg) fun h1 n nv f1 l1 g1 u1 a1 => ?_
      refine Sim.new (sim_pure2 (f := Mat.sub) (N := G) a1 (by has)) fun h2 d dv f2 l2 g2 u2 a2 => ?_
      refine Sim.numT (f := fun M => M.norm2Squared) a2 ?_
      by_cases e2 : dv.norm2Squared < cfg.tol
      · rw [if_pos e2, if_pos e2]
        exact Sim.ret ⟨by has, .inr g1⟩
      · rw [if_neg e2, if_neg e2]
        refine (ih (cfg.maxIter - (iter + 1)).toNat (by omega) (h := h2) rfl (by has) (by has)).post fun h3 b c f3 hb => ⟨hb.1, ?_⟩
        have := hb.2
        omega
    · rw [dif_neg e, dif_neg e]
      exact Sim.ret ⟨hg, .inl rfl⟩

/-- `geometric_median`, `_PRM.py` 290-327. -/
def hGeoMedian (cfg : PrmCfg α) (X : Nat) : H α Nat := do
  let g ← mPure1 (fun M => .ok M.columnMeans) X
  hGeoLoop cfg X 0 g

theorem hGeoMedian_sim (cfg : PrmCfg α) {h : Heap α} {X : Nat} {A : Mat α} (hX : Has h X A) :
    Heap.Sim [] h (hGeoMedian cfg X) (geoMedian cfg A) (New h) := by
  unfold hGeoMedian geoMedian
  have lX := hX.1
  refine Sim.tmp (sim_pure1 (f := fun M => .ok M.columnMeans) hX) fun h1 g f1 l1 g1 u1 a1 => ?_
  refine (hGeoLoop_sim cfg _ rfl (A := A) (by has) a1).post fun h2 b c f2 hb => ⟨?_, hb.1⟩
  have := hb.2
  omega

/-- `update_leverage_weights`, `_PRM.py` 138-156: the new `self.W_x`. -/
def hLeverageWeights (cfg : PrmCfg α) (T : Nat) : H α Nat := do
  let A ← getContents T
  let W ← mCreate (Factory.zeros (A.rows : Int) 1)
  let m ← hGeoMedian cfg T
  let D ← hCDist T m
  let md ← mScalar1 (fun M => .ok (cfg.med M)) D
  hFillCol W A.rows fun i => do
    let d ← mScalar1 (fun M => M.get i 0) D
    pure (fair (d / md) cfg.C)
  pure W

theorem hLeverageWeights_sim (cfg : PrmCfg α) {h : Heap α} {X : Nat} {A : Mat α} (hX : Has h X A) :
    Heap.Sim [] h (hLeverageWeights cfg X) (leverageWeights cfg A) (New h) := by
  unfold hLeverageWeights leverageWeights
  have lX := hX.1
  refine Sim.look hX ?_
  refine Sim.own (sim_create _) fun h1 W Wv f1 l1 g1 u1 a1 => ?_
  refine Sim.new (hGeoMedian_sim cfg (A := A) (by has)) fun h2 m mv f2 l2 g2 u2 a2 => ?_
  refine Sim.new (hCDist_sim (A := A) (by has) a2) fun h3 D Dv f3 l3 g3 u3 a3 => ?_
  refine Sim.numT (f := fun M => cfg.med M) a3 ?_
  rw [← bind_ok_right (fillCol _ _ _)]
  refine Sim.upd (hFillCol_sim (M := Wv) (by has) fun i h4 f4 => ?_) (by simp) fun h5 R5 f5 l5 a5 => Sim.ret ⟨g1, a5⟩
  exact Sim.num1 (f := fun M => M.get i 0) (M := Dv) (by has) fun x => Sim.ret rfl

/-- The estimate of response `i`, `_PRM.py` 171-177. -/
def hPrmEstimate (cfg : PrmCfg α) (y : Nat) (tg : Option (Nat × Nat)) (i : Int) : H α α :=
  match tg with
  | none => mScalar1 (fun M => .ok (cfg.med M)) y
  | some (T, g) => do
    let r ← mPure1 (fun M => M.getRow i) T
    let e ← mPure2 Mat.mul r g
    mScalar1 (fun M => M.asReal) e

/-- One residual. -/
def hPrmResidualAt (cfg : PrmCfg α) (y : Nat) (tg : Option (Nat × Nat)) (i : Int) : H α α := do
  let e ← hPrmEstimate cfg y tg i
  let v ← mScalar1 (fun M => M.get i 0) y
  pure (v - e)

/-- Scores and coefficients, if there are any. -/
def HasPair (h : Heap α) (o : Option (Nat × Nat)) (v : Option (Mat α × Mat α)) : Prop :=
  (o = none ∧ v = none) ∨ ∃ T g Tv gv, o = some (T, g) ∧ v = some (Tv, gv) ∧ Has h T Tv ∧ Has h g gv

omit [Field α] [LinearOrder α] [HasSqrt α] in
theorem HasPair.mono {h h' : Heap α} {L : List Nat} {o : Option (Nat × Nat)} {v : Option (Mat α × Mat α)} (hp : HasPair h o v)
    (hf : Frame L h h') (hL : ∀ r ∈ L, h.nobj ≤ r) : HasPair h' o v := by
  rcases hp with hp | ⟨T, g, Tv, gv, e1, e2, h1, h2⟩
  · exact .inl hp
  · have := h1.1
    have := h2.1
    exact .inr ⟨T, g, Tv, gv, e1, e2, h1.mono hf fun hm => by have := hL _ hm; omega, h2.mono hf fun hm => by have := hL _ hm; omega⟩

omit [HasSqrt α] [LinearOrder α] in
theorem hPrmResidualAt_sim (cfg : PrmCfg α) {h : Heap α} {y : Nat} {V : Mat α} {o : Option (Nat × Nat)} {v : Option (Mat α × Mat α)}
    (hy : Has h y V) (hp : HasPair h o v) (i : Int) :
    Heap.Sim [] h (hPrmResidualAt cfg y o i) (do let e ← prmEstimate cfg V v i; let x ← V.get i 0; .ok (x - e)) fun _ b c => b = c := by
  unfold hPrmResidualAt
  have ly := hy.1
  have key : Heap.Sim [] h (hPrmEstimate cfg y o i) (prmEstimate cfg V v i) fun _ b c => b = c := by
    rcases hp with ⟨rfl, rfl⟩ | ⟨T, g, Tv, gv, rfl, rfl, hT, hg⟩
    · exact sim_scalar1 (f := fun M => .ok (cfg.med M)) hy
    · unfold hPrmEstimate prmEstimate
      have lg := hg.1
      refine Sim.new (sim_pure1 (f := fun M => M.getRow i) hT) fun h1 r rv f1 l1 g1 u1 a1 => ?_
      refine Sim.new (sim_pure2 (f := Mat.mul) (N := gv) a1 (by has)) fun h2 e ev f2 l2 g2 u2 a2 => ?_
      exact sim_scalar1 (f := fun M => M.asReal) a2
  refine Sim.bind key (fun _ h => h) ?_
  rintro h1 e _ f1 rfl
  exact Sim.num1 (f := fun M => M.get i 0) (M := V) (by has) fun x => Sim.ret rfl

/-- `update_residual_weights`, `_PRM.py` 158-202: the new `self.W_r`. -/
def hResidualWeights (cfg : PrmCfg α) (n y : Nat) (tg : Option (Nat × Nat)) : H α Nat := do
  let W ← mCreate (Factory.zeros (n : Int) 1)
  let R ← mCreate (Factory.zeros (n : Int) 1)
  hFillCol R n (hPrmResidualAt cfg y tg)
  let s ← mScalar1 (fun M => .ok (prmMad cfg M)) R
  let R ← mPure1 (fun M => .ok (M.div s)) R
  hFillCol W n fun i => do
    let r ← mScalar1 (fun M => M.get i 0) R
    pure (fair r cfg.C)
  pure W

omit [HasSqrt α] in
theorem hResidualWeights_sim (cfg : PrmCfg α) (n : Nat) {h : Heap α} {y : Nat} {V : Mat α} {o : Option (Nat × Nat)}
    {v : Option (Mat α × Mat α)} (hy : Has h y V) (hp : HasPair h o v) :
    Heap.Sim [] h (hResidualWeights cfg n y o) (residualWeights cfg n V v) (New h) := by
  unfold hResidualWeights residualWeights prmResiduals
  simp only [bind_assoc]
  have ly := hy.1
  refine Sim.own (sim_create _) fun h1 W Wv f1 l1 g1 u1 a1 => ?_
  have hp1 := hp.mono f1 (by simp)
  refine Sim.own (sim_create _) fun h2 R Rv f2 l2 g2 u2 a2 => ?_
  have hp2 : ∀ h3, Frame [R] h2 h3 → HasPair h3 o v := by
    intro h3 f3
    rcases hp1 with hp | ⟨T, g, Tv, gv, e1, e2, k1, k2⟩
    · exact .inl hp
    · have := k1.1
      have := k2.1
      exact .inr ⟨T, g, Tv, gv, e1, e2, (k1.mono f2 List.not_mem_nil).mono f3 (by simp; omega),
        (k2.mono f2 List.not_mem_nil).mono f3 (by simp; omega)⟩
  refine Sim.upd (hFillCol_sim a2 fun i h3 f3 => hPrmResidualAt_sim cfg (V := V) (by has) (hp2 h3 f3) i) (by simp) fun h3 R3 f3 l3 a3 => ?_
  refine Sim.numT (f := fun M => prmMad cfg M) a3 ?_
  refine Sim.tmp (sim_pure1 (f := fun M => .ok (M.div (prmMad cfg R3))) a3) fun h4 R4 f4 l4 g4 u4 a4 => ?_
  rw [← bind_ok_right (fillCol _ _ _)]
  refine Sim.upd (hFillCol_sim (M := Wv) (by has) fun i h5 f5 => ?_) (by simp) fun h5 R5 f5 l5 a5 => Sim.ret ⟨g1, a5⟩
  exact Sim.num1 (f := fun M => M.get i 0) (M := R3.div (prmMad cfg R3)) (by has) fun x => Sim.ret rfl

/-- `get_reweighted_matrix`, `_PRM.py` 282-283. -/
def hReweight (Wr Wx A : Nat) : H α Nat := do
  let A ← mCopy A
  let w ← mPure2 Mat.mulElementwise Wr Wx
  let w ← mPure1 (fun M => .ok M.sqrt) w
  mPure2 Mat.scaleByColumnVector A w

omit [LinearOrder α] in
theorem hReweight_sim {h : Heap α} {Wr Wx A : Nat} {Rv Lv Av : Mat α} (h1 : Has h Wr Rv) (h2 : Has h Wx Lv) (h3 : Has h A Av) :
    Heap.Sim [] h (hReweight Wr Wx A) (reweight Rv Lv Av) (New h) := by
  unfold hReweight reweight
  have l1 := h1.1
  have l2 := h2.1
  refine Sim.tmp (sim_copy h3) fun h4 a f4 l4 g4 u4 a4 => ?_
  refine Sim.new (sim_pure2 (f := Mat.mulElementwise) (M := Rv) (N := Lv) (by has) (by has)) fun h5 w wv f5 l5 g5 u5 a5 => ?_
  refine Sim.tmp (sim_pure1 (f := fun M => .ok M.sqrt) a5) fun h6 w6 f6 l6 g6 u6 a6 => ?_
  exact (sim_pure2 (f := Mat.scaleByColumnVector) (M := Av) (by has) a6).post fun h7 b _ _ hn => ⟨by have := hn.1; omega, hn.2⟩

/-! ## Training -/

/-- `get_combined_weight`, `_PRM.py` 285-288. -/
def hCombinedWeight (Wr Wx : Nat) (i : Int) : H α α := do
  let a ← mPure1 (fun M => M.getRow i) Wx
  let a ← mScalar1 (fun M => M.asReal) a
  let b ← mPure1 (fun M => M.getRow i) Wr
  let b ← mScalar1 (fun M => M.asReal) b
  pure (a * b)

omit [LinearOrder α] [HasSqrt α] in
theorem hCombinedWeight_sim {h : Heap α} {Wr Wx : Nat} {Rv Lv : Mat α} (h1 : Has h Wr Rv) (h2 : Has h Wx Lv) (i : Int) :
    Heap.Sim [] h (hCombinedWeight Wr Wx i) (combinedWeight Rv Lv i) fun _ b c => b = c := by
  unfold hCombinedWeight combinedWeight
  have l1 := h1.1
  refine Sim.new (sim_pure1 (f := fun M => M.getRow i) h2) fun h3 a av f3 l3 g3 u3 a3 => ?_
  refine Sim.num1 (f := fun M => M.asReal) a3 fun x => ?_
  refine Sim.new (sim_pure1 (f := fun M => M.getRow i) (M := Rv) (by has)) fun h4 b bv f4 l4 g4 u4 a4 => ?_
  exact Sim.num1 (f := fun M => M.asReal) a4 fun y => Sim.ret rfl

/-- Rescaling a score in place, `_PRM.py` 253-256. -/
def hRescaleRow (Wr Wx T : Nat) (i : Int) (_ : Unit) : H α Unit := do
  let w ← hCombinedWeight Wr Wx i
  let r ← mPure1 (fun M => M.getRow i) T
  let r ← mPure1 (fun M => .ok (M.div (HasSqrt.sqrt w))) r
  mSetRow T i r

omit [LinearOrder α] in
theorem hRescaleRow_sim {h : Heap α} {Wr Wx T : Nat} {Rv Lv Tv : Mat α} (h1 : Has h Wr Rv) (h2 : Has h Wx Lv) (hT : Has h T Tv) (i : Int) :
    Heap.Sim [T] h (hRescaleRow Wr Wx T i ()) (rescaleRow Rv Lv i Tv) fun h' _ M => Has h' T M := by
  unfold hRescaleRow rescaleRow
  have lT := hT.1
  refine Sim.bind (hCombinedWeight_sim h1 h2 i) (by simp) ?_
  rintro h3 w _ f3 rfl
  refine Sim.new (sim_pure1 (f := fun M => M.getRow i) (M := Tv) (by has)) fun h4 r rv f4 l4 g4 u4 a4 => ?_
  refine Sim.tmp (sim_pure1 (f := fun M => .ok (M.div (HasSqrt.sqrt w))) a4) fun h5 r5 f5 l5 g5 u5 a5 => ?_
  exact sim_setRow (by has) a5 i

/-- What training reads from the inner SIMPLS object: the scores of the training data and three of its attributes. -/
structure PrmBaseRefs where
  T : Nat
  Q : Nat
  B : Nat
  W : Nat

/-- Objects. -/
def prmBaseRepr : Repr α (PrmBase α) PrmBaseRefs where
  refs a := [a.T, a.Q, a.B, a.W]
  On m h a := Has h a.T m.T ∧ Has h a.Q m.Q ∧ Has h a.B m.B ∧ Has h a.W m.W
  mono hf hr hm := by
    simp only [List.mem_cons, List.not_mem_nil, or_false, forall_eq_or_imp, forall_eq] at hr
    exact ⟨hm.1.mono hf hr.1, hm.2.1.mono hf hr.2.1, hm.2.2.1.mono hf hr.2.2.1, hm.2.2.2.mono hf hr.2.2.2⟩

/-- Attributes of a PRM object during training.  The scores of the inner model are rescaled in place: they are `self.T`. -/
structure PrmRefs where
  Wr : Nat
  Wx : Nat
  T : Nat
  gamma : Nat
  Q : Nat
  B : Nat
  W : Nat

/-- The attributes hold the values of the function model after a pass (`PrmBase.T` are the scores before rescaling, which are not kept). -/
def prmStateRepr : Repr α (PrmState α) PrmRefs where
  refs a := [a.Wr, a.Wx, a.T, a.gamma, a.Q, a.B, a.W]
  On s h a := ∃ T b, s.T = some T ∧ s.base = some b ∧ Has h a.Wr s.Wr ∧ Has h a.Wx s.Wx ∧ Has h a.T T ∧ Has h a.gamma s.gamma ∧
    Has h a.Q b.Q ∧ Has h a.B b.B ∧ Has h a.W b.W
  mono hf hr hm := by
    simp only [List.mem_cons, List.not_mem_nil, or_false, forall_eq_or_imp, forall_eq] at hr
    obtain ⟨r1, r2, r3, r4, r5, r6, r7⟩ := hr
    obtain ⟨T, b, e1, e2, m1, m2, m3, m4, m5, m6, m7⟩ := hm
    exact ⟨T, b, e1, e2, m1.mono hf r1, m2.mono hf r2, m3.mono hf r3, m4.mono hf r4, m5.mono hf r5, m6.mono hf r6, m7.mono hf r7⟩

/-- What a program on objects must do to stand for the inner SIMPLS object. -/
def BaseOk (cfg : PrmCfg α) (base : Nat → Nat → H α PrmBaseRefs) : Prop :=
  ∀ (h : Heap α) (X y : Nat) (C D : Mat α), Has h X C → Has h y D → Heap.Sim [] h (base X y) (cfg.base C D) fun h' a m =>
    prmBaseRepr.Fresh h h' a m ∧ a.T ≠ a.Q ∧ a.T ≠ a.B ∧ a.T ≠ a.W

/-- One pass of the training loop, `_PRM.py` 238-261. -/
def hPrmPass (cfg : PrmCfg α) (base : Nat → Nat → H α PrmBaseRefs) (X y Wr Wx : Nat) : H α PrmRefs := do
  let Xp ← hReweight Wr Wx X
  let yp ← hReweight Wr Wx y
  let b ← base Xp yp
  let g ← mTranspose b.Q
  let D ← getContents b.T
  mLoop (hRescaleRow Wr Wx b.T) (pyRange 0 (D.rows : Int)) ()
  let E ← getContents Xp
  let Wr ← hResidualWeights cfg E.rows yp (some (b.T, g))
  let Wx ← hLeverageWeights cfg b.T
  pure ⟨Wr, Wx, b.T, g, b.Q, b.B, b.W⟩

theorem hPrmPass_sim (cfg : PrmCfg α) {base : Nat → Nat → H α PrmBaseRefs} (hb : BaseOk cfg base) {h : Heap α} {X y Wr Wx : Nat}
    {A V : Mat α} {s : PrmState α} (hX : Has h X A) (hy : Has h y V) (h1 : Has h Wr s.Wr) (h2 : Has h Wx s.Wx) :
    Heap.Sim [] h (hPrmPass cfg base X y Wr Wx) (prmPass cfg A V s) (prmStateRepr.Fresh h) := by
  unfold hPrmPass prmPass
  have ly := hy.1
  have l1 := h1.1
  have l2 := h2.1
  refine Sim.new (hReweight_sim h1 h2 hX) fun h3 Xp Av f3 l3 g3 u3 a3 => ?_
  refine Sim.new (hReweight_sim (Rv := s.Wr) (Lv := s.Wx) (Av := V) (by has) (by has) (by has)) fun h4 yp Vv f4 l4 g4 u4 a4 => ?_
  refine Sim.bind2 (hb h4 Xp yp Av Vv (by has) a4) (by simp) ?_
  rintro h5 ⟨T, Q, B, W⟩ ⟨Tv, Qv, Bv, Wv⟩ f5 ⟨⟨⟨aT, aQ, aB, aW⟩, hr⟩, n1, n2, n3⟩
  dsimp only at aT aQ aB aW n1 n2 n3
  have hr' : ∀ r ∈ [T, Q, B, W], h4.nobj ≤ r := hr
  simp only [List.mem_cons, List.not_mem_nil, or_false, forall_eq_or_imp, forall_eq] at hr'
  obtain ⟨r1, r2, r3, r4⟩ := hr'
  have l5 := f5.le
  have i1 := aT.1
  have i2 := aQ.1
  have i3 := aB.1
  have i4 := aW.1
  refine ⟨[T], fun r hm => .inr (by rw [List.mem_singleton.mp hm]; omega), ?_⟩
  dsimp only
  refine Sim.tmp (sim_transpose aQ) fun h6 g f6 l6 g6 u6 a6 => ?_
  refine Sim.look (M := Tv) (by has) ?_
  refine Sim.bind (Sim.loop (h0 := h6) (fun h' (_ : Unit) v => Has h' T v) _ (fun i _ h7 _ v f7 hv =>
    hRescaleRow_sim (Rv := s.Wr) (Lv := s.Wx) (by has) (by has) hv i) h6 () Tv (.refl _ f6.wf) (by has)) (fun _ h => h) ?_
  intro h7 _ T7 f7 a7
  have l7 := f7.le
  refine Sim.look (M := Av) (by has) ?_
  refine Sim.new (hResidualWeights_sim cfg Av.rows (V := Vv) (by has) (.inr ⟨T, g, T7, Qv.transpose, rfl, rfl, a7, by has⟩))
    fun h8 Wr8 Rv f8 l8 g8 u8 a8 => ?_
  refine Sim.new (hLeverageWeights_sim cfg (A := T7) (by has)) fun h9 Wx9 Lv f9 l9 g9 u9 a9 => ?_
  refine Sim.ret ⟨⟨T7, _, rfl, rfl, by has, a9, by has, by has, by has, by has, by has⟩, ?_⟩
  show ∀ r ∈ [Wr8, Wx9, T, g, Q, B, W], h.nobj ≤ r
  simp only [List.mem_cons, List.not_mem_nil, or_false, forall_eq_or_imp, forall_eq]
  omega

/-- The loop after the first pass, `_PRM.py` 237; `old` is `gamma_old`, a copy. -/
def hPrmMore (cfg : PrmCfg α) (base : Nat → Nat → H α PrmBaseRefs) (X y : Nat) (iter : Int) (old : Nat) (s : PrmRefs) : H α (PrmRefs × Int) := do
  let d ← mPure2 Mat.sub s.gamma old
  let n ← mScalar1 (fun M => .ok M.norm2Squared) d
  if h : n < cfg.tol ∧ iter < cfg.maxIter then do
    let c ← mCopy s.gamma
    let s' ← hPrmPass cfg base X y s.Wr s.Wx
    hPrmMore cfg base X y (iter + 1) c s'
  else pure (s, iter)
termination_by (cfg.maxIter - iter).toNat

theorem hPrmMore_sim (cfg : PrmCfg α) {base : Nat → Nat → H α PrmBaseRefs} (hb : BaseOk cfg base) {X y : Nat} {A V : Mat α} (n : Nat)
    (N : Nat) : ∀ {h : Heap α} {iter : Int} {old : Nat} {O : Mat α} {s : PrmRefs} {v : PrmState α}, (cfg.maxIter - iter).toNat = N →
    n ≤ h.nobj → Has h X A → Has h y V → Has h old O → prmStateRepr.On v h s → (∀ r ∈ prmStateRepr (α := α) |>.refs s, n ≤ r) →
    Heap.Sim [] h (hPrmMore cfg base X y iter old s) (prmMore cfg A V iter O v) fun h' b c =>
      (prmStateRepr.On c.1 h' b.1 ∧ ∀ r ∈ (prmStateRepr (α := α)).refs b.1, n ≤ r) ∧ b.2 = c.2 := by
  induction N using Nat.strong_induction_on with
  | _ N ih =>
    intro h iter old O s v hN hn hX hy ho hs hr
    rw [hPrmMore, prmMore]
    obtain ⟨T, b, e1, e2, m1, m2, m3, m4, m5, m6, m7⟩ := id hs
    have lX := hX.1
    have ly := hy.1
    have k1 := m1.1
    have k2 := m2.1
    have k4 := m4.1
    refine Sim.new (sim_pure2 (f := Mat.sub) m4 ho) fun h1 d dv f1 l1 g1 u1 a1 => ?_
    refine Sim.numT (f := fun M => M.norm2Squared) a1 ?_
    by_cases e : dv.norm2Squared < cfg.tol ∧ iter < cfg.maxIter
    · rw [dif_pos e, dif_pos e]
      refine Sim.tmp (sim_copy (M := v.gamma) (by has)) fun h2 c f2 l2 g2 u2 a2 => ?_
      refine Sim.bind (hPrmPass_sim cfg hb (A := A) (V := V) (s := v) (by has) (by has) (by has) (by has)) (fun _ h => h)
        fun h3 s3 v3 f3 hs3 => ?_
      have l3 := f3.le
      exact ih (cfg.maxIter - (iter + 1)).toNat (by omega) rfl (by omega) (by has) (by has) (by has) hs3.1
        fun r hr => by have := hs3.2 r hr; omega
    · rw [dif_neg e, dif_neg e]
      exact Sim.ret ⟨⟨prmStateRepr.mono f1 (fun _ _ => List.not_mem_nil) hs, hr⟩, rfl⟩

/-- The loop, `_PRM.py` 231-261. -/
def hPrmLoop (cfg : PrmCfg α) (base : Nat → Nat → H α PrmBaseRefs) (X y Wr Wx : Nat) : H α (PrmRefs × Int) := do
  let g ← mCreate (Factory.zeros cfg.K 1)
  let c ← mCopy g
  let s ← hPrmPass cfg base X y Wr Wx
  hPrmMore cfg base X y 1 c s

theorem hPrmLoop_sim (cfg : PrmCfg α) {base : Nat → Nat → H α PrmBaseRefs} (hb : BaseOk cfg base) {h : Heap α} {X y Wr Wx : Nat}
    {A V R L : Mat α} (hX : Has h X A) (hy : Has h y V) (h1 : Has h Wr R) (h2 : Has h Wx L) :
    Heap.Sim [] h (hPrmLoop cfg base X y Wr Wx) (prmLoop cfg A V R L) fun h' b c => prmStateRepr.Fresh h h' b.1 c.1 ∧ b.2 = c.2 := by
  unfold hPrmLoop prmLoop
  have lX := hX.1
  have ly := hy.1
  have l1 := h1.1
  have l2 := h2.1
  refine Sim.new (sim_create _) fun h3 g gv f3 l3 g3 u3 a3 => ?_
  refine Sim.tmp (sim_copy a3) fun h4 c f4 l4 g4 u4 a4 => ?_
  refine Sim.bind (hPrmPass_sim cfg hb (A := A) (V := V) (s := ⟨R, L, none, gv, none⟩) (by has) (by has) (by has) (by has)) (fun _ h => h)
    fun h5 s v f5 hs => ?_
  have l5 := f5.le
  exact hPrmMore_sim cfg hb h.nobj _ rfl (by omega) (by has) (by has) (by has) hs.1 fun r hr => by have := hs.2 r hr; omega

/-- Replacing wide predictors, `_PRM.py` 216-226.  The decomposition is computed once; the code computes it three times. -/
def hPrmReplace (cfg : PrmCfg α) (X : Nat) : H α (Option Nat × Nat) := do
  let D ← getContents X
  if D.rows < D.cols then do
    let t ← mTranspose X
    let d ← mScalar1 cfg.svd t
    let U ← mCreate (.ok (svdU d.1))
    let V ← mCreate (.ok (svdV d.2.2))
    let S ← mCreate (svdS d.2.1)
    let X ← mPure2 Mat.mul V S
    pure (some U, X)
  else pure (none, X)

/-- `U` and the predictors used. -/
def PrmRepl (h0 h : Heap α) (b : Option Nat × Nat) (v : Option (Mat α) × Mat α) : Prop :=
  Has h b.2 v.2 ∧ ((b.1 = none ∧ v.1 = none) ∨ ∃ U Uv, b.1 = some U ∧ v.1 = some Uv ∧ New h0 h U Uv)

omit [LinearOrder α] [HasSqrt α] in
theorem hPrmReplace_sim (cfg : PrmCfg α) {h : Heap α} {X : Nat} {A : Mat α} (hX : Has h X A) :
    Heap.Sim [] h (hPrmReplace cfg X) (prmReplace cfg A) (PrmRepl h) := by
  unfold hPrmReplace prmReplace
  refine Sim.look hX ?_
  by_cases e : A.rows < A.cols
  · rw [if_pos e, if_pos e]
    refine Sim.tmp (sim_transpose hX) fun h1 t f1 l1 g1 u1 a1 => ?_
    refine Sim.num1 (f := cfg.svd) a1 fun d => ?_
    refine Sim.tmp (sim_create _) fun h2 U f2 l2 g2 u2 a2 => ?_
    refine Sim.tmp (sim_create _) fun h3 V f3 l3 g3 u3 a3 => ?_
    refine Sim.new (sim_create _) fun h4 S Sv f4 l4 g4 u4 a4 => ?_
    refine Sim.new (sim_pure2 (f := Mat.mul) (M := svdV d.2.2) (by has) a4) fun h5 X5 Xv f5 l5 g5 u5 a5 => ?_
    exact Sim.ret ⟨a5, .inr ⟨U, _, rfl, rfl, by omega, by has⟩⟩
  · rw [if_neg e, if_neg e]
    exact Sim.ret ⟨hX, .inl ⟨rfl, rfl⟩⟩

/-- The coefficients, `_PRM.py` 263-269. -/
def hPrmCoefs (U : Option Nat) (B : Nat) : H α Nat :=
  match U with
  | none => pure B
  | some U => mPure2 Mat.mul U B

/-- Attributes after training. -/
structure PrmAttrs where
  state : PrmRefs
  iterations : Int
  B : Nat

/-- `do_perform_initialization`, `_PRM.py` 204-271. -/
def hPrmTrain (cfg : PrmCfg α) (base : Nat → Nat → H α PrmBaseRefs) (X y : Nat) : H α PrmAttrs := do
  let r ← hPrmReplace cfg X
  let D ← getContents r.2
  let Wr ← hResidualWeights cfg D.rows y none
  let Wx ← hLeverageWeights cfg r.2
  let s ← hPrmLoop cfg base r.2 y Wr Wx
  let B ← hPrmCoefs r.1 s.1.B
  pure ⟨s.1, s.2, B⟩

/-- The matrices of a trained object. -/
def prmRepr : Repr α (PrmModel α) PrmAttrs where
  refs a := a.B :: (prmStateRepr (α := α)).refs a.state
  On m h a := Has h a.B m.B ∧ prmStateRepr.On m.state h a.state ∧ a.iterations = m.iterations
  mono hf hr hm := ⟨hm.1.mono hf (hr _ (by simp)), prmStateRepr.mono hf (fun r h => hr r (List.mem_cons_of_mem _ h)) hm.2.1, hm.2.2⟩

/-- Training refines the function model. -/
theorem hPrmTrain_sim (cfg : PrmCfg α) {base : Nat → Nat → H α PrmBaseRefs} (hb : BaseOk cfg base) {h : Heap α} {X y : Nat} {A V : Mat α}
    (hX : Has h X A) (hy : Has h y V) : Heap.Sim [] h (hPrmTrain cfg base X y) (prmTrain cfg A V) (prmRepr.Fresh h) := by
  unfold hPrmTrain prmTrain
  have ly := hy.1
  refine Sim.bind (hPrmReplace_sim cfg hX) (fun _ h => h) ?_
  rintro h1 ⟨U, X1⟩ ⟨Uv, A1⟩ f1 ⟨aX, hU⟩
  dsimp only at aX hU ⊢
  have l1 := f1.le
  have lX := aX.1
  refine Sim.look aX ?_
  refine Sim.new (hResidualWeights_sim cfg A1.rows (V := V) (by has) (.inl ⟨rfl, rfl⟩)) fun h2 Wr Rv f2 l2 g2 u2 a2 => ?_
  refine Sim.new (hLeverageWeights_sim cfg (A := A1) (by has)) fun h3 Wx Lv f3 l3 g3 u3 a3 => ?_
  refine Sim.bind (hPrmLoop_sim cfg hb (A := A1) (V := V) (R := Rv) (L := Lv) (by has) (by has) (by has) a3) (fun _ h => h) ?_
  rintro h4 ⟨s, it⟩ ⟨v, itv⟩ f4 ⟨⟨hs, hr⟩, e⟩
  dsimp only at hs hr e ⊢
  subst e
  have l4 := f4.le
  obtain ⟨T, b, e1, e2, m1, m2, m3, m4, m5, m6, m7⟩ := id hs
  have i6 := m6.1
  have rB : h3.nobj ≤ s.B := hr _ (by show s.B ∈ [s.Wr, s.Wx, s.T, s.gamma, s.Q, s.B, s.W]; simp)
  rw [e2]
  unfold hPrmCoefs prmCoefs
  rcases hU with ⟨rfl, rfl⟩ | ⟨U, Uv, rfl, rfl, gU, aU⟩
  · dsimp only
    refine Sim.ret ⟨⟨m6, hs, rfl⟩, fun r hm => ?_⟩
    rcases List.mem_cons.mp hm with rfl | hm
    · show h.nobj ≤ s.B
      omega
    · have := hr r hm
      omega
  · dsimp only
    have lU := aU.1
    refine Sim.new (sim_pure2 (f := Mat.mul) (M := Uv) (N := b.B) (by has) m6) fun h5 B Bv f5 l5 g5 u5 a5 => ?_
    refine Sim.ret ⟨⟨a5, prmStateRepr.mono f5 (fun _ _ => List.not_mem_nil) hs, rfl⟩, fun r hm => ?_⟩
    rcases List.mem_cons.mp hm with rfl | hm
    · show h.nobj ≤ _
      exact le_trans (by omega) g5
    · have := hr r hm
      omega

/-- `do_perform_predictions`, `_PRM.py` 279-280. -/
def hPrmPredict (a : PrmAttrs) (Z : Nat) : H α Nat := mPure2 Mat.mul Z a.B

/-- `do_transform`, `_PRM.py` 276-277. -/
def hPrmTransform (a : PrmAttrs) (Z : Nat) : H α Nat := mPure2 Mat.mul Z a.state.W

omit [LinearOrder α] [HasSqrt α] in
theorem hPrmPredict_sim {h : Heap α} {a : PrmAttrs} {m : PrmModel α} (hm : prmRepr.On m h a) {Z : Nat} {M : Mat α} (hZ : Has h Z M) :
    Heap.Sim [] h (hPrmPredict a Z) (prmPredict m M) (New h) := sim_pure2 (f := Mat.mul) hZ hm.1

omit [LinearOrder α] [HasSqrt α] in
theorem hPrmTransform_sim {h : Heap α} {a : PrmAttrs} {m : PrmModel α} (hm : prmRepr.On m h a) {Z : Nat} {M : Mat α} (hZ : Has h Z M) :
    Heap.Sim [] h (hPrmTransform a Z) (prmTransform m M) (New h) := by
  obtain ⟨T, b, e1, e2, m1, m2, m3, m4, m5, m6, m7⟩ := hm.2.1
  unfold prmTransform
  rw [e2]
  exact sim_pure2 (f := Mat.mul) hZ m7

/-! ## The inner SIMPLS object -/

/-- A new SIMPLS object without preprocessing, `_PRM.py` 242-250. -/
def hPrmBase (isZero : α → Bool) (ops : Ops α) (K count : Int) (X y : Nat) : H α PrmBaseRefs := do
  let m ← hSingleTrain isZero (hSimplsTrain ops K count) .none X y
  let T ← hSimplsTransform m.base X
  pure ⟨T, m.base.Q, m.base.B, m.base.W⟩

/-- Its value. -/
def prmBaseOf (isZero : α → Bool) (ops : Ops α) (K count : Int) (X y : Mat α) : Except PyErr (PrmBase α) := do
  let m ← singleTrain isZero (simplsTrain (dominant ops) K count) .none X y
  let T ← simplsTransform m.base X
  .ok ⟨T, m.base.Q, m.base.B, m.base.W⟩

theorem hPrmBase_ok (cfg : PrmCfg α) (isZero : α → Bool) (ops : Ops α) (K count : Int) (hb : cfg.base = prmBaseOf isZero ops K count) :
    BaseOk cfg (hPrmBase isZero ops K count) := by
  intro h X y C D hX hy
  rw [hb]
  unfold hPrmBase prmBaseOf
  have lX := hX.1
  refine Sim.bind (hSingleTrain_sim (ρ := simplsRepr) (fun _ _ _ _ _ hX hY => hSimplsTrain_sim ops hX hY K count) hX hy isZero .none)
    (fun _ h => h) fun h1 a v f1 hr => ?_
  obtain ⟨⟨-, -, -, mW, mB, mQ⟩, hr⟩ := hr
  have hr' : ∀ r ∈ [a.base.W, a.base.B, a.base.Q], h.nobj ≤ r := hr
  simp only [List.mem_cons, List.not_mem_nil, or_false, forall_eq_or_imp, forall_eq] at hr'
  obtain ⟨r1, r2, r3⟩ := hr'
  have l1 := f1.le
  have i1 := mW.1
  have i2 := mB.1
  have i3 := mQ.1
  unfold hSimplsTransform simplsTransform
  refine Sim.new (sim_pure2 (f := Mat.mul) (M := C) (N := v.base.W) (by has) mW) fun h2 T Tv f2 l2 g2 u2 a2 => ?_
  refine Sim.ret ⟨⟨⟨a2, by has, by has, by has⟩, ?_⟩, ?_, ?_, ?_⟩
  · show ∀ r ∈ [T, a.base.Q, a.base.B, a.base.W], h.nobj ≤ r
    simp only [List.mem_cons, List.not_mem_nil, or_false, forall_eq_or_imp, forall_eq]
    omega
  · show T ≠ a.base.Q
    omega
  · show T ≠ a.base.B
    omega
  · show T ≠ a.base.W
    omega

end prm

end Verif
