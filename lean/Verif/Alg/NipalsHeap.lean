import Verif.Alg.WrapHeap
import Verif.Alg.NIPALS

/-!
# NIPALS and CCARegression on matrix objects

`src/wai/ma/algorithm/pls/_NIPALS.py`, statement by statement on objects: which objects are allocated, which are changed in place, and which
are kept in attributes.  Each program is shown to refine the function on values of `NIPALS.lean`.
-/

namespace Verif
open Mat Heap Transf

variable {α : Type} [Field α] [HasSqrt α]

/-! ## The standardisers -/

/-- Attributes of a configured `Standardize`. -/
structure StdAttrs where
  means : Nat
  stds : Nat

/-- The matrices of a configured `Standardize`. -/
def stdRepr : Repr α (StatState α) StdAttrs where
  refs a := [a.means, a.stds]
  On s h a := ∃ m d, s = ⟨true, some m, some d⟩ ∧ Has h a.means m ∧ Has h a.stds d
  mono hf hr hm := by
    simp only [List.mem_cons, List.not_mem_nil, or_false, forall_eq_or_imp, forall_eq] at hr
    obtain ⟨m, d, e, h1, h2⟩ := hm
    exact ⟨m, d, e, h1.mono hf hr.1, h2.mono hf hr.2⟩

/-- `transform` of a new `Standardize`, `_Standardize.py` 36-49: its attributes and the result. -/
def hStdFit (isZero : α → Bool) (A : Nat) : H α (StdAttrs × Nat) := do
  let m ← mPure1 (fun M => .ok M.columnMeans) A
  let d ← mPure1 (fun M => .ok M.columnStdevs) A
  hGuard isZero d
  let r ← mCopy A
  mVectorOpModify (· - ·) r m
  mVectorOpModify (· / ·) r d
  pure (⟨m, d⟩, r)

/-- Its value. -/
def stdFit (isZero : α → Bool) (M : Mat α) : Except PyErr (StatState α × Mat α) := do
  let r ← (transform (standardize isZero) M (standardize isZero).init).2
  .ok ((transform (standardize isZero) M (standardize isZero).init).1, r)

theorem hStdFit_sim {h : Heap α} {A : Nat} {M : Mat α} (hA : Has h A M) (isZero : α → Bool) :
    Heap.Sim [] h (hStdFit isZero A) (stdFit isZero M) fun h' b c => New h h' b.2 c.2 ∧ stdRepr.Fresh h h' b.1 c.1 := by
  have e : stdFit isZero M = (do
      let d ← guardStds isZero M.columnStdevs
      let r ← M.vectorOp (· - ·) M.columnMeans
      let r ← r.vectorOp (· / ·) d
      .ok (⟨true, some M.columnMeans, some d⟩, r)) := by
    unfold stdFit transform
    rw [show (standardize isZero).configured (standardize isZero).init = false from rfl]
    rw [show (standardize isZero).configure M (standardize isZero).init = (match guardStds isZero M.columnStdevs with
      | .error e => (⟨false, some M.columnMeans, some M.columnStdevs⟩, .error e)
      | .ok d => (⟨true, some M.columnMeans, some d⟩, .ok ())) from rfl]
    cases guardStds isZero M.columnStdevs with
    | error e => rfl
    | ok d =>
      simp only [except_bind_ok]
      show ((do let r ← M.vectorOp (· - ·) M.columnMeans; r.vectorOp (· / ·) d : Except PyErr (Mat α)) >>= fun r => Except.ok (_, r)) = _
      simp only [bind_assoc]
      rfl
  rw [e]
  unfold hStdFit
  have lA := hA.1
  refine Sim.tmp (sim_pure1 (f := fun M => .ok M.columnMeans) hA) fun h1 m f1 l1 g1 u1 a1 => ?_
  refine Sim.ownTmp (sim_pure1 (f := fun M => .ok M.columnStdevs) (M := M) (by has)) fun h2 d f2 l2 g2 u2 a2 => ?_
  refine Sim.upd (hGuard_sim a2 isZero) (by simp) fun h3 D f3 l3 a3 => ?_
  refine Sim.ownTmp (sim_copy (M := M) (by has)) fun h4 r f4 l4 g4 u4 a4 => ?_
  refine Sim.upd (sim_vectorOpModify a4 (V := M.columnMeans) (by has)) (by simp) fun h5 R f5 l5 a5 => ?_
  refine Sim.upd (sim_vectorOpModify a5 (V := D) (by has)) (by simp) fun h6 R' f6 l6 a6 => ?_
  refine Sim.ret ⟨⟨by show h.nobj ≤ r; omega, a6⟩, ⟨_, D, rfl, by has, by has⟩, ?_⟩
  show ∀ x ∈ [m, d], h.nobj ≤ x
  simp only [List.mem_cons, List.not_mem_nil, or_false, forall_eq_or_imp, forall_eq]
  omega

/-- `transform` of a configured `Standardize`, `_Standardize.py` 45-49. -/
def hStdApply (a : StdAttrs) (Z : Nat) : H α Nat := do
  let r ← mCopy Z
  mVectorOpModify (· - ·) r a.means
  mVectorOpModify (· / ·) r a.stds
  pure r

theorem hStdApply_sim {h : Heap α} {a : StdAttrs} {s : StatState α} (hs : stdRepr.On s h a) {Z : Nat} {M : Mat α} (hZ : Has h Z M)
    (isZero : α → Bool) : Heap.Sim [] h (hStdApply a Z) (transform (standardize isZero) M s).2 (New h) := by
  obtain ⟨m, d, rfl, hm, hd⟩ := hs
  have e : (transform (standardize isZero) M ⟨true, some m, some d⟩).2 = (do
      let r ← M.vectorOp (· - ·) m
      let r ← r.vectorOp (· / ·) d
      .ok r) := by
    show (do let r ← M.vectorOp (· - ·) m; r.vectorOp (· / ·) d : Except PyErr (Mat α)) = _
    cases M.vectorOp (· - ·) m with
    | error e => rfl
    | ok r =>
      simp only [except_bind_ok]
      cases r.vectorOp (· / ·) d <;> rfl
  rw [e]
  unfold hStdApply
  have lZ := hZ.1
  have lm := hm.1
  have ld := hd.1
  refine Sim.ownTmp (sim_copy hZ) fun h1 r f1 l1 g1 u1 a1 => ?_
  refine Sim.upd (sim_vectorOpModify a1 (V := m) (by has)) (by simp) fun h2 R f2 l2 a2 => ?_
  refine Sim.upd (sim_vectorOpModify a2 (V := d) (by has)) (by simp) fun h3 R' f3 l3 a3 => ?_
  exact Sim.ret ⟨g1, a3⟩

/-! ## The inner loop -/

/-- `if X_p_inv is None: X_p_inv = X.inverse()`, `_NIPALS.py` 182-184 and 200-202. -/
def hInvCached (inv : Mat α → Except PyErr (Mat α)) (o : Option Nat) (X : Nat) : H α Nat :=
  match o with
  | none => mPure1 inv X
  | some i => pure i

/-- The cached inverse is the inverse. -/
def Cached (inv : Mat α → Except PyErr (Mat α)) (M : Mat α) (h : Heap α) (o : Option Nat) : Prop :=
  ∀ i, o = some i → ∃ I, inv M = .ok I ∧ Has h i I

omit [Field α] [HasSqrt α] in
theorem Cached.mono {inv : Mat α → Except PyErr (Mat α)} {M : Mat α} {h h' : Heap α} {o : Option Nat} (hf : Frame [] h h')
    (hc : Cached inv M h o) : Cached inv M h' o := fun i hi => by
  obtain ⟨I, e, hI⟩ := hc i hi
  exact ⟨I, e, hI.mono hf List.not_mem_nil⟩

omit [Field α] [HasSqrt α] in
theorem hInvCached_sim {inv : Mat α → Except PyErr (Mat α)} {h : Heap α} {o : Option Nat} {X : Nat} {M : Mat α} (hX : Has h X M)
    (ho : Cached inv M h o) : Heap.Sim [] h (hInvCached inv o X) (inv M) fun h' b c => Has h' b c ∧ inv M = .ok c := by
  cases o with
  | none => exact ((sim_pure1 (f := inv) hX).post fun h' b c _ hn => hn.2).know
  | some i =>
    obtain ⟨I, e, hI⟩ := ho i rfl
    rw [e]
    exact Sim.ret ⟨hI, rfl⟩

/-- X or Y weights, `_NIPALS.py` 181-187 and 199-207, and the cached inverse. -/
def hNipalsWeight (c : NipalsCfg α) (o : Option Nat) (X u : Nat) : H α (Nat × Option Nat) :=
  if c.cca then do
    let i ← hInvCached c.inv o X
    let w ← mPure2 Mat.mul i u
    pure (w, some i)
  else do
    let xt ← mTranspose X
    let w ← mPure2 Mat.mul xt u
    let n ← mScalar1 (fun M => .ok M.norm2Squared) u
    let w ← mPure1 (fun M => .ok (M.div n)) w
    pure (w, o)

theorem nipalsWeight_same (c : NipalsCfg α) (X u : Mat α) : nipalsYWeight c X u = nipalsXWeight c X u := rfl

theorem hNipalsWeight_sim (c : NipalsCfg α) {h : Heap α} {o : Option Nat} {X u : Nat} {A U : Mat α} (hX : Has h X A) (hu : Has h u U)
    (ho : Cached c.inv A h o) : Heap.Sim [] h (hNipalsWeight c o X u) (nipalsXWeight c A U)
      fun h' b w => New h h' b.1 w ∧ Cached c.inv A h' b.2 := by
  unfold hNipalsWeight nipalsXWeight
  have lX := hX.1
  have lu := hu.1
  cases c.cca with
  | true =>
    simp only [if_true]
    rw [show (do let i ← c.inv A; i.mul U : Except PyErr (Mat α)) = (do let i ← c.inv A; let w ← i.mul U; .ok w) by
      simp only [bind_ok_right]]
    refine Sim.bind (hInvCached_sim hX ho) (fun _ h => h) fun h1 i I f1 hi => ?_
    have l1 := f1.le
    refine Sim.new (sim_pure2 (f := Mat.mul) (M := I) (N := U) hi.1 (by has)) fun h2 w W f2 l2 g2 u2 a2 => ?_
    refine Sim.ret ⟨⟨by show h.nobj ≤ w; omega, a2⟩, fun j hj => ?_⟩
    cases hj
    exact ⟨I, hi.2, hi.1.mono f2 List.not_mem_nil⟩
  | false =>
    simp only [Bool.false_eq_true, if_false]
    refine Sim.tmp (sim_transpose hX) fun h1 xt f1 l1 g1 u1 a1 => ?_
    refine Sim.new (sim_pure2 (f := Mat.mul) (N := U) a1 (by has)) fun h2 w W f2 l2 g2 u2 a2 => ?_
    refine Sim.numT (f := fun M => M.norm2Squared) (M := U) (by has) ?_
    refine Sim.tmp (sim_pure1 (f := fun M => .ok (M.div U.norm2Squared)) a2) fun h3 w' f3 l3 g3 u3 a3 => ?_
    exact Sim.ret ⟨⟨by show h.nobj ≤ w'; omega, a3⟩, ((ho.mono f1).mono f2).mono f3⟩

/-- `if X_weights.norm2_squared() < EPS: X_weights = X_weights.add(EPS)`, `_NIPALS.py` 189-191. -/
def hNipalsBump (c : NipalsCfg α) (w : Nat) : H α Nat := do
  let n ← mScalar1 (fun M => .ok M.norm2Squared) w
  if c.lt n e16 then mPure1 (fun M => .ok (M.addScalar e16)) w else pure w

/-- The guard and the normalisation of the X weights, `_NIPALS.py` 189-194. -/
def hNipalsNormX (c : NipalsCfg α) (w : Nat) : H α Nat := do
  let w ← hNipalsBump c w
  let n ← mScalar1 (fun M => .ok M.norm2) w
  mPure1 (fun M => .ok (M.div (n + e16))) w

theorem hNipalsNormX_sim (c : NipalsCfg α) {h : Heap α} {w : Nat} {W : Mat α} (hw : Has h w W) :
    Heap.Sim [] h (hNipalsNormX c w) (.ok ((if c.lt W.norm2Squared e16 then W.addScalar e16 else W).div
      ((if c.lt W.norm2Squared e16 then W.addScalar e16 else W).norm2 + e16))) (New h) := by
  unfold hNipalsNormX
  have hb : Heap.Sim [] h (hNipalsBump c w) (.ok (if c.lt W.norm2Squared e16 then W.addScalar e16 else W)) fun h' b v => Has h' b v := by
    unfold hNipalsBump
    refine Sim.numT (f := fun M => M.norm2Squared) hw ?_
    cases c.lt W.norm2Squared e16 with
    | true => exact (sim_pure1 (f := fun M => .ok (M.addScalar e16)) hw).post fun _ _ _ _ hn => hn.2
    | false => exact Sim.ret hw
  refine Sim.left hb (by simp) fun h1 w1 f1 a1 => ?_
  have l1 := f1.le
  refine Sim.numT (f := fun M => M.norm2) a1 ?_
  exact (sim_pure1 (f := fun M => .ok (M.div _)) a1).post fun h2 b _ _ hn => ⟨by have := hn.1; omega, hn.2⟩

/-- The normalisation of the Y weights, `_NIPALS.py` 209-211. -/
def hNipalsNormY (c : NipalsCfg α) (v : Nat) : H α Nat :=
  if c.normY then do
    let n ← mScalar1 (fun M => .ok M.norm2) v
    mPure1 (fun M => .ok (M.div (n + e16))) v
  else pure v

/-- One pass of the inner loop, `_NIPALS.py` 180-214: weights and cached inverses. -/
def hNipalsPass (c : NipalsCfg α) (X Y u : Nat) (s : Option Nat × Option Nat) : H α ((Nat × Nat) × Option Nat × Option Nat) := do
  let r ← hNipalsWeight c s.1 X u
  let w ← hNipalsNormX c r.1
  let t ← mPure2 Mat.mul X w
  let q ← hNipalsWeight c s.2 Y t
  let v ← hNipalsNormY c q.1
  let ys ← mPure2 Mat.mul Y v
  let n ← mScalar1 (fun M => .ok M.norm2Squared) v
  let _ ← mPure1 (fun M => .ok (M.div (n + e16))) ys
  pure ((w, v), r.2, q.2)

theorem hNipalsPass_sim (c : NipalsCfg α) {h : Heap α} {s : Option Nat × Option Nat} {X Y u : Nat} {A B U : Mat α} (hX : Has h X A)
    (hY : Has h Y B) (hu : Has h u U) (h1 : Cached c.inv A h s.1) (h2 : Cached c.inv B h s.2) :
    Heap.Sim [] h (hNipalsPass c X Y u s) (nipalsPass c A B U) fun h' b w =>
      New h h' b.1.1 w.1 ∧ New h h' b.1.2 w.2 ∧ Cached c.inv A h' b.2.1 ∧ Cached c.inv B h' b.2.2 := by
  unfold hNipalsPass nipalsPass
  have lX := hX.1
  have lY := hY.1
  simp only [nipalsWeight_same]
  refine Sim.bind (hNipalsWeight_sim c hX hu h1) (fun _ h => h) fun h3 r W f3 hr => ?_
  have l3 := f3.le
  refine Sim.tmp (hNipalsNormX_sim c hr.1.2) fun h4 w f4 l4 g4 u4 a4 => ?_
  refine Sim.new (sim_pure2 (f := Mat.mul) (M := A) (by has) a4) fun h5 t T f5 l5 g5 u5 a5 => ?_
  refine Sim.bind (hNipalsWeight_sim c (A := B) (by has) a5 (((h2.mono f3).mono f4).mono f5)) (fun _ h => h) fun h6 q V f6 hq => ?_
  have l6 := f6.le
  have hv : Heap.Sim [] h6 (hNipalsNormY c q.1) (.ok (if c.normY then V.div (V.norm2 + e16) else V)) fun h' b v => Has h' b v ∧ h5.nobj ≤ b := by
    unfold hNipalsNormY
    cases c.normY with
    | true =>
      simp only [if_true]
      refine Sim.numT (f := fun M => M.norm2) hq.1.2 ?_
      exact (sim_pure1 (f := fun M => .ok (M.div (V.norm2 + e16))) hq.1.2).post fun h' b _ _ hn => ⟨hn.2, by have := hn.1; omega⟩
    | false => exact Sim.ret ⟨hq.1.2, hq.1.1⟩
  refine Sim.left hv (by simp) fun h7 v f7 hv7 => ?_
  have l7 := f7.le
  refine Sim.new (sim_pure2 (f := Mat.mul) (M := B) (by has) hv7.1) fun h8 ys YS f8 l8 g8 u8 a8 => ?_
  have a8v := hv7.1.mono f8 List.not_mem_nil
  refine Sim.numT (f := fun M => M.norm2Squared) a8v ?_
  refine Sim.tmp (sim_pure1 (f := fun M => .ok (M.div _)) a8) fun h9 _ f9 l9 g9 u9 a9 => ?_
  refine Sim.ret ⟨⟨by show h.nobj ≤ w; omega, by has⟩, ⟨by have := hv7.2; show h.nobj ≤ v; omega, by has⟩, ?_, ?_⟩
  · exact (((((hr.2.mono f4).mono f5).mono f6).mono f7).mono f8).mono f9
  · exact ((hq.2.mono f7).mono f8).mono f9

/-- The `while True` loop, `_NIPALS.py` 179-226. -/
def hNipalsIter (c : NipalsCfg α) (X Y u : Nat) (iter : Int) (s : Option Nat × Option Nat) (wOld : Nat) : H α (Nat × Nat × Int) := do
  let r ← hNipalsPass c X Y u s
  let d ← mPure2 Mat.sub r.1.1 wOld
  let n ← mScalar1 (fun M => .ok M.norm2Squared) d
  let D ← getContents Y
  if c.lt n c.tol || D.cols == 1 then pure (r.1.1, r.1.2, iter)
  else if h : iter ≥ c.maxIter then pure (r.1.1, r.1.2, iter)
  else hNipalsIter c X Y u (iter + 1) r.2 r.1.1
termination_by (c.maxIter - iter).toNat

theorem hNipalsIter_sim (c : NipalsCfg α) {X Y u : Nat} {A B U : Mat α} (N : Nat) : ∀ {h : Heap α} {iter : Int} {s : Option Nat × Option Nat}
    {w : Nat} {W : Mat α}, (c.maxIter - iter).toNat = N → Has h X A → Has h Y B → Has h u U → Has h w W → Cached c.inv A h s.1 →
    Cached c.inv B h s.2 → Heap.Sim [] h (hNipalsIter c X Y u iter s w) (nipalsIter c A B U iter W) fun h' b v =>
      New h h' b.1 v.1 ∧ New h h' b.2.1 v.2.1 ∧ b.2.2 = v.2.2 := by
  induction N using Nat.strong_induction_on with
  | _ N ih =>
    intro h iter s w W hN hX hY hu hw h1 h2
    rw [hNipalsIter, nipalsIter]
    have lX := hX.1
    have lY := hY.1
    have lu := hu.1
    have lw := hw.1
    refine Sim.bind (hNipalsPass_sim c hX hY hu h1 h2) (fun _ h => h) ?_
    rintro h3 ⟨⟨w', v'⟩, s'⟩ ⟨W', V'⟩ f3 ⟨n1, n2, c1, c2⟩
    dsimp only at n1 n2 c1 c2 ⊢
    have l3 := f3.le
    have lw' := n1.2.1
    have lv' := n2.2.1
    have aw := n1.2
    have av := n2.2
    refine Sim.new (sim_pure2 (f := Mat.sub) (N := W) aw (by has)) fun h4 d D f4 l4 g4 u4 a4 => ?_
    refine Sim.numT (f := fun M => M.norm2Squared) a4 ?_
    refine Sim.look (M := B) (by has) ?_
    have hret : Heap.Sim [] h4 (pure (w', v', iter)) (.ok (W', V', iter)) fun h' (b : Nat × Nat × Int) (v : Mat α × Mat α × Int) =>
        New h h' b.1 v.1 ∧ New h h' b.2.1 v.2.1 ∧ b.2.2 = v.2.2 :=
      Sim.ret ⟨⟨n1.1, by has⟩, ⟨n2.1, by has⟩, rfl⟩
    by_cases e : (c.lt D.norm2Squared c.tol || B.cols == 1) = true
    · rw [if_pos e, if_pos e]
      exact hret
    · rw [if_neg e, if_neg e]
      by_cases e2 : iter ≥ c.maxIter
      · rw [dif_pos e2, dif_pos e2]
        exact hret
      · rw [dif_neg e2, dif_neg e2]
        refine (ih (c.maxIter - (iter + 1)).toNat (by omega) (h := h4) rfl (by has) (by has) (by has) (by has) (c1.mono f4) (c2.mono f4)).post
          fun h5 b v f5 hb => ⟨⟨?_, hb.1.2⟩, ⟨?_, hb.2.1.2⟩, hb.2.2⟩
        · have := hb.1.1; omega
        · have := hb.2.1.1; omega

/-- `nipals_loop`, `_NIPALS.py` 160-228. -/
def hNipalsLoop (c : NipalsCfg α) (X Y : Nat) : H α (Nat × Nat × Int) := do
  let u ← mPure1 (fun M => M.getColumn 0) Y
  let D ← getContents X
  let w0 ← mCreate (Factory.zeros (D.cols : Int) 1)
  hNipalsIter c X Y u 0 (none, none) w0

theorem hNipalsLoop_sim (c : NipalsCfg α) {h : Heap α} {X Y : Nat} {A B : Mat α} (hX : Has h X A) (hY : Has h Y B) :
    Heap.Sim [] h (hNipalsLoop c X Y) (nipalsLoop c A B) fun h' b v => New h h' b.1 v.1 ∧ New h h' b.2.1 v.2.1 := by
  unfold hNipalsLoop nipalsLoop
  have lX := hX.1
  have lY := hY.1
  refine Sim.new (sim_pure1 (f := fun M => M.getColumn 0) hY) fun h1 u U f1 l1 g1 u1 a1 => ?_
  refine Sim.look (M := A) (by has) ?_
  refine Sim.new (sim_create _) fun h2 w W f2 l2 g2 u2 a2 => ?_
  refine (hNipalsIter_sim c _ (h := h2) rfl (A := A) (B := B) (U := U) (by has) (by has) (by has) a2 (fun i hi => by cases hi)
    (fun i hi => by cases hi)).post fun h3 b v f3 hb => ⟨⟨?_, hb.1.2⟩, ⟨?_, hb.2.1.2⟩⟩
  · have := hb.1.1; omega
  · have := hb.2.1.1; omega

/-! ## Training -/

/-- Local variables and attributes in the training loop. -/
structure NipalsRefs where
  X : Nat
  Y : Nat
  T : Nat
  U : Nat
  W : Nat
  C : Nat
  P : Nat
  Q : Nat
  yk : Nat
  stop : Bool

/-- A loading and the deflated matrix, `_NIPALS.py` 130-131, 135-136 and 138-139: `A.transpose().mul(t).div(t.norm2_squared())` and
`A.sub(t.mul(loading.transpose()))`. -/
def hDeflate (A t : Nat) : H α (Nat × Nat) := do
  let at' ← mTranspose A
  let l ← mPure2 Mat.mul at' t
  let n ← mScalar1 (fun M => .ok M.norm2Squared) t
  let l ← mPure1 (fun M => .ok (M.div n)) l
  let lt ← mTranspose l
  let d ← mPure2 Mat.mul t lt
  let A ← mPure2 Mat.sub A d
  pure (A, l)

/-- Its value. -/
def deflateBy (A t : Mat α) : Except PyErr (Mat α × Mat α) := do
  let l ← A.transpose.mul t
  let l := l.div t.norm2Squared
  let d ← t.mul l.transpose
  let A ← A.sub d
  .ok (A, l)

theorem hDeflate_sim {h : Heap α} {A t : Nat} {Av Tv : Mat α} (hA : Has h A Av) (ht : Has h t Tv) :
    Heap.Sim [] h (hDeflate A t) (deflateBy Av Tv) fun h' b v => New h h' b.1 v.1 ∧ New h h' b.2 v.2 := by
  unfold hDeflate deflateBy
  have lA := hA.1
  have lt := ht.1
  refine Sim.tmp (sim_transpose hA) fun h1 xt f1 l1 g1 u1 a1 => ?_
  refine Sim.new (sim_pure2 (f := Mat.mul) (N := Tv) a1 (by has)) fun h2 l L f2 l2 g2 u2 a2 => ?_
  refine Sim.numT (f := fun M => M.norm2Squared) (M := Tv) (by has) ?_
  refine Sim.tmp (sim_pure1 (f := fun M => .ok (M.div Tv.norm2Squared)) a2) fun h3 l' f3 l3 g3 u3 a3 => ?_
  refine Sim.tmp (sim_transpose a3) fun h4 lt' f4 l4 g4 u4 a4 => ?_
  refine Sim.new (sim_pure2 (f := Mat.mul) (M := Tv) (by has) a4) fun h5 d D f5 l5 g5 u5 a5 => ?_
  refine Sim.new (sim_pure2 (f := Mat.sub) (M := Av) (by has) a5) fun h6 A' AV f6 l6 g6 u6 a6 => ?_
  exact Sim.ret ⟨⟨by show h.nobj ≤ A'; omega, a6⟩, ⟨by show h.nobj ≤ l'; omega, by has⟩⟩

/-- Deflation of `Y`, `_NIPALS.py` 133-140: new `Y` and `yk_loading`. -/
def hDeflateY (c : NipalsCfg α) (Y t u yk : Nat) : H α (Nat × Nat) :=
  match c.defl with
  | .canonical => hDeflate Y u
  | .regression => hDeflate Y t
  | .other => pure (Y, yk)

theorem hDeflateY_sim (c : NipalsCfg α) {h : Heap α} {Y t u yk : Nat} {Yv Tv Uv Kv : Mat α} (hY : Has h Y Yv) (ht : Has h t Tv)
    (hu : Has h u Uv) (hk : Has h yk Kv) : Heap.Sim [] h (hDeflateY c Y t u yk) (deflateY c Yv Tv Uv Kv) fun h' b v =>
      Has h' b.1 v.1 ∧ Has h' b.2 v.2 ∧ (b.1 = Y ∨ h.nobj ≤ b.1) ∧ (b.2 = yk ∨ h.nobj ≤ b.2) := by
  unfold hDeflateY deflateY
  cases c.defl with
  | canonical => exact (hDeflate_sim hY hu).post fun h' b v _ hb => ⟨hb.1.2, hb.2.2, .inr hb.1.1, .inr hb.2.1⟩
  | regression => exact (hDeflate_sim hY ht).post fun h' b v _ hb => ⟨hb.1.2, hb.2.2, .inr hb.1.1, .inr hb.2.1⟩
  | other => exact Sim.ret ⟨hY, hk, .inl rfl, .inl rfl⟩

/-- One component, `_NIPALS.py` 112-148. -/
def hNipalsStep (c : NipalsCfg α) (k : Int) (s : NipalsRefs) : H α NipalsRefs :=
  if s.stop then pure s else do
    let yt ← mTranspose s.Y
    let yty ← mPure2 Mat.mul yt s.Y
    let b ← mScalar1 (fun M => .ok (M.all fun e => c.lt e e10)) yty
    if b then pure { s with stop := true } else do
      let r ← hNipalsLoop c s.X s.Y
      let t ← mPure2 Mat.mul s.X r.1
      let u ← mPure2 Mat.mul s.Y r.2.1
      let n ← mScalar1 (fun M => .ok M.norm2Squared) r.2.1
      let u ← mPure1 (fun M => .ok (M.div n)) u
      let n ← mScalar1 (fun M => .ok M.norm2Squared) t
      if c.lt n e10 then pure { s with stop := true } else do
        let x ← hDeflate s.X t
        let y ← hDeflateY c s.Y t u s.yk
        mSetColumn s.T k t
        mSetColumn s.U k u
        mSetColumn s.W k r.1
        mSetColumn s.C k r.2.1
        mSetColumn s.P k x.2
        mSetColumn s.Q k y.2
        pure ⟨x.1, y.1, s.T, s.U, s.W, s.C, s.P, s.Q, y.2, false⟩

/-- The local variables hold the values of the function model; the matrices changed in place are distinct objects. -/
structure NipalsHolds (n T U W C P Q : Nat) (h : Heap α) (s : NipalsRefs) (v : NipalsVars α) : Prop where
  eT : s.T = T
  eU : s.U = U
  eW : s.W = W
  eC : s.C = C
  eP : s.P = P
  eQ : s.Q = Q
  es : s.stop = v.stop
  hX : Has h s.X v.X
  hY : Has h s.Y v.Y
  hk : Has h s.yk v.yk
  bX : n ≤ s.X
  nX : s.X < T ∨ Q < s.X
  nY : s.Y < T ∨ Q < s.Y
  nk : s.yk < T ∨ Q < s.yk
  hT : Has h T v.T
  hU : Has h U v.U
  hW : Has h W v.W
  hC : Has h C v.C
  hP : Has h P v.P
  hQ : Has h Q v.Q

theorem nipalsStep_parts (c : NipalsCfg α) (k : Int) (s : NipalsVars α) : nipalsStep c k s =
    (if s.stop then .ok s else do
      let yty ← s.Y.transpose.mul s.Y
      if yty.all (fun e => c.lt e e10) then .ok { s with stop := true } else do
        let r ← nipalsLoop c s.X s.Y
        let t ← s.X.mul r.1
        let u ← s.Y.mul r.2.1
        let u := u.div r.2.1.norm2Squared
        if c.lt t.norm2Squared e10 then .ok { s with stop := true } else do
          let x ← deflateBy s.X t
          let d ← deflateY c s.Y t u s.yk
          let T ← s.T.setColumn k t
          let U ← s.U.setColumn k u
          let W ← s.W.setColumn k r.1
          let C ← s.C.setColumn k r.2.1
          let P ← s.P.setColumn k x.2
          let Q ← s.Q.setColumn k d.2
          .ok ⟨x.1, d.1, T, U, W, C, P, Q, d.2, false⟩) := by
  unfold nipalsStep deflateBy
  simp only [bind_assoc, except_bind_ok]

theorem hNipalsStep_sim (c : NipalsCfg α) {h : Heap α} {n T U W C P Q : Nat} (hn : n ≤ T) (h1 : T < U) (h2 : U < W) (h3 : W < C) (h4 : C < P)
    (h5 : P < Q) (k : Int) (s : NipalsRefs) (v : NipalsVars α) (hi : NipalsHolds n T U W C P Q h s v) :
    Heap.Sim [Q, P, C, W, U, T] h (hNipalsStep c k s) (nipalsStep c k v) (NipalsHolds n T U W C P Q) := by
  obtain ⟨X, Y, T', U', W', C', P', Q', yk, st⟩ := s
  have hall := hi
  obtain ⟨rfl, rfl, rfl, rfl, rfl, rfl, es, hX, hY, hk, bX, nX, nY, nk, hT, hU, hW, hC, hP, hQ⟩ := hi
  dsimp only at *
  rw [nipalsStep_parts]
  unfold hNipalsStep
  dsimp only
  rw [← es]
  cases st with
  | true => exact Sim.ret hall
  | false =>
    simp only [Bool.false_eq_true, if_false]
    have lX := hX.1
    have lY := hY.1
    have lk := hk.1
    have lQ := hQ.1
    refine Sim.tmp (sim_transpose hY) fun h6 yt f6 l6 g6 u6 a6 => ?_
    refine Sim.new (sim_pure2 (f := Mat.mul) (N := v.Y) a6 (by has)) fun h7 yty YTY f7 l7 g7 u7 a7 => ?_
    refine Sim.numT (f := fun M => M.all fun e => c.lt e e10) a7 ?_
    have hstop : ∀ h', Frame [] h h' → Heap.Sim [Q', P', C', W', U', T'] h' (pure ⟨X, Y, T', U', W', C', P', Q', yk, true⟩)
        (.ok { v with stop := true }) (NipalsHolds n T' U' W' C' P' Q') := fun h' hf =>
      Sim.ret ⟨rfl, rfl, rfl, rfl, rfl, rfl, rfl, by has, by has, by has, bX, nX, nY, nk, by has, by has, by has, by has, by has, by has⟩
    by_cases eb : (YTY.all fun e => c.lt e e10) = true
    · rw [if_pos eb, if_pos eb]
      exact hstop h7 (f6.trans f7 (by simp) (by simp))
    · rw [if_neg eb, if_neg eb]
      refine Sim.bind (hNipalsLoop_sim c (A := v.X) (B := v.Y) (by has) (by has)) (by simp) ?_
      rintro h8 ⟨w, z, i⟩ ⟨Wv, Zv, iv⟩ f8 ⟨n1, n2⟩
      dsimp only at n1 n2 ⊢
      have l8 := f8.le
      have aw := n1.2
      have az := n2.2
      have gw := n1.1
      have gz := n2.1
      have uw := aw.1
      have uz := az.1
      refine Sim.new (sim_pure2 (f := Mat.mul) (M := v.X) (N := Wv) (by has) (by has)) fun h9 t Tv f9 l9 g9 u9 a9 => ?_
      refine Sim.new (sim_pure2 (f := Mat.mul) (M := v.Y) (N := Zv) (by has) (by has)) fun h10 u Uv f10 l10 g10 u10 a10 => ?_
      refine Sim.numT (f := fun M => M.norm2Squared) (M := Zv) (by has) ?_
      refine Sim.tmp (sim_pure1 (f := fun M => .ok (M.div Zv.norm2Squared)) a10) fun h11 u' f11 l11 g11 u11 a11 => ?_
      refine Sim.numT (f := fun M => M.norm2Squared) (M := Tv) (by has) ?_
      by_cases ec : c.lt Tv.norm2Squared e10 = true
      · rw [if_pos ec, if_pos ec]
        have e7 : Frame [] h h7 := f6.trans f7 (by simp) (by simp)
        have e8 : Frame [] h h8 := e7.trans f8 (by simp) (by simp)
        have e9 : Frame [] h h9 := e8.trans f9 (by simp) (by simp)
        have e10 : Frame [] h h10 := e9.trans f10 (by simp) (by simp)
        exact hstop h11 (e10.trans f11 (by simp) (by simp))
      · rw [if_neg ec, if_neg ec]
        refine Sim.bind (hDeflate_sim (Av := v.X) (Tv := Tv) (by has) (by has)) (by simp) ?_
        rintro h12 ⟨X2, p⟩ ⟨XV, PV⟩ f12 ⟨m1, m2⟩
        dsimp only at m1 m2 ⊢
        have l12 := f12.le
        have aX := m1.2
        have ap := m2.2
        have gX := m1.1
        have gp := m2.1
        have uX := aX.1
        have up := ap.1
        refine Sim.bind (hDeflateY_sim c (Yv := v.Y) (Tv := Tv) (Uv := Uv.div Zv.norm2Squared) (Kv := v.yk) (by has) (by has) (by has) (by has))
          (by simp) ?_
        rintro h13 ⟨Y2, q⟩ ⟨YV, QV⟩ f13 ⟨aY, aq, oY, oq⟩
        dsimp only at aY aq oY oq ⊢
        have l13 := f13.le
        have nY2 : Y2 < T' ∨ Q' < Y2 := by omega
        have nq : q < T' ∨ Q' < q := by omega
        refine Sim.upd (sim_setColumn (M := v.T) (V := Tv) (by has) (by has) k) (by simp) fun h14 T2 f14 l14 a14 => ?_
        refine Sim.upd (sim_setColumn (M := v.U) (V := Uv.div Zv.norm2Squared) (by has) (by has) k) (by simp) fun h15 U2 f15 l15 a15 => ?_
        refine Sim.upd (sim_setColumn (M := v.W) (V := Wv) (by has) (by has) k) (by simp) fun h16 W2 f16 l16 a16 => ?_
        refine Sim.upd (sim_setColumn (M := v.C) (V := Zv) (by has) (by has) k) (by simp) fun h17 C2 f17 l17 a17 => ?_
        refine Sim.upd (sim_setColumn (M := v.P) (V := PV) (by has) (by has) k) (by simp) fun h18 P2 f18 l18 a18 => ?_
        refine Sim.upd (sim_setColumn (M := v.Q) (V := QV) (by has) (by has) k) (by simp) fun h19 Q2 f19 l19 a19 => ?_
        exact Sim.ret ⟨rfl, rfl, rfl, rfl, rfl, rfl, rfl, by has, by has, by has, by show n ≤ X2; omega, by right; show Q' < X2; omega, nY2, nq, by has, by has,
          by has, by has, by has, by has⟩

/-- Attributes set by training. -/
structure NipalsAttrs where
  stdX : StdAttrs
  stdY : StdAttrs
  X : Nat
  T : Nat
  U : Nat
  W : Nat
  C : Nat
  P : Nat
  Q : Nat
  xRot : Nat
  yRot : Nat
  coef : Nat

/-- `W * pinv(P^T W)`, `_NIPALS.py` 151 and 153. -/
def hNipalsRot (c : NipalsCfg α) (W P : Nat) : H α Nat := do
  let pt ← mTranspose P
  let pw ← mPure2 Mat.mul pt W
  let g ← mPure1 c.pinv pw
  mPure2 Mat.mul W g

omit [HasSqrt α] in
theorem hNipalsRot_sim (c : NipalsCfg α) {h : Heap α} {W P : Nat} {Wv Pv : Mat α} (hW : Has h W Wv) (hP : Has h P Pv) :
    Heap.Sim [] h (hNipalsRot c W P) (nipalsRot c Wv Pv) (New h) := by
  unfold hNipalsRot nipalsRot
  have lW := hW.1
  refine Sim.tmp (sim_transpose hP) fun h1 pt f1 l1 g1 u1 a1 => ?_
  refine Sim.new (sim_pure2 (f := Mat.mul) (N := Wv) a1 (by has)) fun h2 pw PW f2 l2 g2 u2 a2 => ?_
  refine Sim.new (sim_pure1 (f := c.pinv) a2) fun h3 g G f3 l3 g3 u3 a3 => ?_
  exact (sim_pure2 (f := Mat.mul) (M := Wv) (by has) a3).post fun h4 b _ _ hn => ⟨by have := hn.1; omega, hn.2⟩

/-- `Y_rotations`, `_NIPALS.py` 152-155. -/
def hNipalsYRot (c : NipalsCfg α) (s : NipalsRefs) : H α Nat := do
  let D ← getContents s.Y
  if D.cols > 1 then hNipalsRot c s.C s.Q else mCreate (.ok ⟨1, 1, Matrix.of fun _ _ => 1⟩)

/-- `do_perform_initialization`, `_NIPALS.py` 85-158. -/
def hNipalsTrain (c : NipalsCfg α) (X Y : Nat) : H α NipalsAttrs := do
  let sx ← hStdFit c.isZero X
  let sy ← hStdFit c.isZero Y
  let D ← getContents sx.2
  let E ← getContents sy.2
  let T ← mCreate (Factory.zeros (D.rows : Int) c.K)
  let U ← mCreate (Factory.zeros (D.rows : Int) c.K)
  let W ← mCreate (Factory.zeros (D.cols : Int) c.K)
  let C ← mCreate (Factory.zeros (E.cols : Int) c.K)
  let P ← mCreate (Factory.zeros (D.cols : Int) c.K)
  let Q ← mCreate (Factory.zeros (E.cols : Int) c.K)
  let yk ← mCreate (Factory.zeros (E.cols : Int) 1)
  let s ← mLoop (hNipalsStep c) (pyRange 0 c.K) ⟨sx.2, sy.2, T, U, W, C, P, Q, yk, false⟩
  let xRot ← hNipalsRot c s.W s.P
  let yRot ← hNipalsYRot c s
  let qt ← mTranspose s.Q
  let b ← mPure2 Mat.mul xRot qt
  let coef ← mPure2 Mat.scaleByRowVector b sy.1.stds
  pure ⟨sx.1, sy.1, s.X, s.T, s.U, s.W, s.C, s.P, s.Q, xRot, yRot, coef⟩

/-- The matrices of a trained object. -/
def nipalsRepr : Repr α (NipalsModel α) NipalsAttrs where
  refs a := stdRepr.refs (α := α) a.stdX ++ stdRepr.refs (α := α) a.stdY ++ [a.X, a.T, a.U, a.W, a.C, a.P, a.Q, a.xRot, a.yRot, a.coef]
  On m h a := stdRepr.On m.stdX h a.stdX ∧ stdRepr.On m.stdY h a.stdY ∧ Has h a.X m.vars.X ∧ Has h a.T m.vars.T ∧ Has h a.U m.vars.U ∧
    Has h a.W m.vars.W ∧ Has h a.C m.vars.C ∧ Has h a.P m.vars.P ∧ Has h a.Q m.vars.Q ∧ Has h a.xRot m.xRot ∧ Has h a.yRot m.yRot ∧
    Has h a.coef m.coef
  mono hf hr hm := by
    have hrx := fun r h => hr r (List.mem_append_left _ (List.mem_append_left _ h))
    have hry := fun r h => hr r (List.mem_append_left _ (List.mem_append_right _ h))
    have hrr := fun r h => hr r (List.mem_append_right _ h)
    simp only [List.mem_cons, List.not_mem_nil, or_false, forall_eq_or_imp, forall_eq] at hrr
    obtain ⟨r1, r2, r3, r4, r5, r6, r7, r8, r9, r10⟩ := hrr
    obtain ⟨mx, my, m1, m2, m3, m4, m5, m6, m7, m8, m9, m10⟩ := hm
    exact ⟨stdRepr.mono hf hrx mx, stdRepr.mono hf hry my, m1.mono hf r1, m2.mono hf r2, m3.mono hf r3, m4.mono hf r4, m5.mono hf r5,
      m6.mono hf r6, m7.mono hf r7, m8.mono hf r8, m9.mono hf r9, m10.mono hf r10⟩

theorem nipalsTrain_steps (c : NipalsCfg α) (X Y : Mat α) : nipalsTrain c X Y = (do
    let sx ← stdFit c.isZero X
    let sy ← stdFit c.isZero Y
    let s ← nipalsInit c sx.2 sy.2
    let s ← loopM (nipalsStep c) (pyRange 0 c.K) s
    let xRot ← nipalsRot c s.W s.P
    let yRot ← nipalsYRot c s
    let b ← xRot.mul s.Q.transpose
    match sy.1.stds with
    | none => .error .attributeError
    | some d => do
      let coef ← b.scaleByRowVector d
      .ok ⟨sx.1, sy.1, s, xRot, yRot, coef⟩) := by
  unfold nipalsTrain stdFit
  simp only [bind_assoc, except_bind_ok]
  rfl

/-- Training refines the function model: it changes no object that existed before, and the matrices of the model are new objects. -/
theorem hNipalsTrain_sim (c : NipalsCfg α) {h : Heap α} {X Y : Nat} {A B : Mat α} (hX : Has h X A) (hY : Has h Y B) :
    Heap.Sim [] h (hNipalsTrain c X Y) (nipalsTrain c A B) (nipalsRepr.Fresh h) := by
  rw [nipalsTrain_steps]
  unfold hNipalsTrain
  have lX := hX.1
  have lY := hY.1
  refine Sim.bind (hStdFit_sim hX c.isZero) (fun _ h => h) ?_
  rintro h1 ⟨sx, x⟩ ⟨SX, XV⟩ f1 ⟨n1, n2⟩
  dsimp only at n1 n2 ⊢
  have l1 := f1.le
  refine Sim.bind (hStdFit_sim (M := B) (by has) c.isZero) (fun _ h => h) ?_
  rintro h2 ⟨sy, y⟩ ⟨SY, YV⟩ f2 ⟨n3, n4⟩
  dsimp only at n3 n4 ⊢
  have l2 := f2.le
  have ox := stdRepr.mono f2 (fun _ _ => List.not_mem_nil) n2.1
  have oy := n4.1
  have rx := n2.2
  have ry := n4.2
  obtain ⟨mx, dx, rfl, hmx, hdx⟩ := ox
  obtain ⟨my, dy, rfl, hmy, hdy⟩ := oy
  have gx := n1.1
  have gy := n3.1
  have ax : Has h2 x XV := n1.2.mono f2 List.not_mem_nil
  have ay : Has h2 y YV := n3.2
  have ux := ax.1
  have uy := ay.1
  obtain ⟨smx, sdx⟩ := sx
  obtain ⟨smy, sdy⟩ := sy
  have rx' : ∀ r ∈ [smx, sdx], h.nobj ≤ r := rx
  have ry' : ∀ r ∈ [smy, sdy], h1.nobj ≤ r := ry
  simp only [List.mem_cons, List.not_mem_nil, or_false, forall_eq_or_imp, forall_eq] at rx' ry'
  dsimp only at hmx hdx hmy hdy ⊢
  have u1 := hmx.1
  have u2 := hdx.1
  have u3 := hmy.1
  have u4 := hdy.1
  refine Sim.look ax ?_
  refine Sim.look ay ?_
  unfold nipalsInit
  simp only [bind_assoc, except_bind_ok]
  refine Sim.own (sim_create _) fun h3 T Tv f3 l3 g3 u3 a3 => ?_
  refine Sim.own (sim_create _) fun h4 U Uv f4 l4 g4 u4 a4 => ?_
  refine Sim.own (sim_create _) fun h5 W Wv f5 l5 g5 u5 a5 => ?_
  refine Sim.own (sim_create _) fun h6 C Cv f6 l6 g6 u6 a6 => ?_
  refine Sim.own (sim_create _) fun h7 P Pv f7 l7 g7 u7 a7 => ?_
  refine Sim.own (sim_create _) fun h8 Q Qv f8 l8 g8 u8 a8 => ?_
  refine Sim.new (sim_create _) fun h9 yk Kv f9 l9 g9 u9 a9 => ?_
  refine Sim.bind (Sim.loop (h0 := h9) (NipalsHolds h.nobj T U W C P Q) _ (fun k _ _ s v _ hi =>
      hNipalsStep_sim c (by omega) (by omega) (by omega) (by omega) (by omega) (by omega) k s v hi) h9 ⟨x, y, T, U, W, C, P, Q, yk, false⟩
      ⟨XV, YV, Tv, Uv, Wv, Cv, Pv, Qv, Kv, false⟩ (.refl _ f9.wf) ⟨rfl, rfl, rfl, rfl, rfl, rfl, rfl, by has, by has, by has,
        gx, by left; show x < T; omega, by left; show y < T; omega, by right; show Q < yk; omega, by has, by has, by has, by has, by has,
        by has⟩) (fun _ h => h) ?_
  rintro h10 ⟨X', Y', T', U', W', C', P', Q', yk', st⟩ v f10 ⟨rfl, rfl, rfl, rfl, rfl, rfl, -, hX', hY', -, bX, nX, nY, -, hT, hU, hW, hC, hP, hQ⟩
  dsimp only at *
  have l10 := f10.le
  have lX' := hX'.1
  have lY' := hY'.1
  have kmx : Has h10 smx mx := by has
  have kdx : Has h10 sdx dx := by has
  have kmy : Has h10 smy my := by has
  have kdy : Has h10 sdy dy := by has
  refine Sim.new (hNipalsRot_sim c hW hP) fun h11 xRot XR f11 l11 g11 u11 a11 => ?_
  have hyr : Heap.Sim [] h11 (hNipalsYRot c ⟨X', Y', T', U', W', C', P', Q', yk', st⟩) (nipalsYRot c v) (New h11) := by
    unfold hNipalsYRot nipalsYRot
    refine Sim.look (M := v.Y) (by has) ?_
    by_cases e : v.Y.cols > 1
    · rw [if_pos e, if_pos e]
      exact hNipalsRot_sim c (Wv := v.C) (Pv := v.Q) (by has) (by has)
    · rw [if_neg e, if_neg e]
      exact sim_create _
  refine Sim.new hyr fun h12 yRot YR f12 l12 g12 u12 a12 => ?_
  refine Sim.tmp (sim_transpose (M := v.Q) (by has)) fun h13 qt f13 l13 g13 u13 a13 => ?_
  refine Sim.new (sim_pure2 (f := Mat.mul) (M := XR) (by has) a13) fun h14 b BV f14 l14 g14 u14 a14 => ?_
  refine Sim.new (sim_pure2 (f := Mat.scaleByRowVector) (N := dy) a14 (by has)) fun h15 coef CV f15 l15 g15 u15 a15 => ?_
  refine Sim.ret ⟨⟨⟨mx, dx, rfl, by has, by has⟩, ⟨my, dy, rfl, by has, by has⟩, by has, by has, by has, by has, by has, by has, by has, by has,
    by has, a15⟩, ?_⟩
  show ∀ r ∈ [smx, sdx, smy, sdy, X', T', U', W', C', P', Q', xRot, yRot, coef], h.nobj ≤ r
  simp only [List.mem_cons, List.not_mem_nil, or_false, forall_eq_or_imp, forall_eq]
  omega

/-! ## Use -/

/-- `do_perform_predictions`, `_NIPALS.py` 230-235. -/
def hNipalsPredict (a : NipalsAttrs) (Z : Nat) : H α Nat := do
  let Z ← hStdApply a.stdX Z
  let r ← mPure2 Mat.mul Z a.coef
  mPure2 Mat.addByVector r a.stdY.means

/-- `do_transform`, `_NIPALS.py` 237-242. -/
def hNipalsTransform (a : NipalsAttrs) (Z : Nat) : H α Nat := do
  let Z ← hStdApply a.stdX Z
  mPure2 Mat.mul Z a.xRot

/-- `do_transform_response`, `_NIPALS.py` 244-249. -/
def hNipalsTransformResponse (a : NipalsAttrs) (Y : Nat) : H α Nat := do
  let Y ← hStdApply a.stdY Y
  mPure2 Mat.mul Y a.yRot

theorem hNipalsPredict_sim (c : NipalsCfg α) {h : Heap α} {a : NipalsAttrs} {m : NipalsModel α} (hm : nipalsRepr.On m h a) {Z : Nat}
    {M : Mat α} (hZ : Has h Z M) : Heap.Sim [] h (hNipalsPredict a Z) (nipalsPredict c m M) (New h) := by
  obtain ⟨hx, ⟨my, dy, ey, hmy, hdy⟩, -, -, -, -, -, -, -, -, -, hc⟩ := hm
  unfold hNipalsPredict nipalsPredict
  have l1 := hmy.1
  have l2 := hc.1
  rw [ey]
  dsimp only
  refine Sim.new (hStdApply_sim hx hZ c.isZero) fun h1 z Zv f1 l1 g1 u1 a1 => ?_
  refine Sim.new (sim_pure2 (f := Mat.mul) (N := m.coef) a1 (by has)) fun h2 r R f2 l2 g2 u2 a2 => ?_
  exact (sim_pure2 (f := Mat.addByVector) (N := my) a2 (by has)).post fun h3 b _ _ hn => ⟨by have := hn.1; omega, hn.2⟩

theorem hNipalsTransform_sim (c : NipalsCfg α) {h : Heap α} {a : NipalsAttrs} {m : NipalsModel α} (hm : nipalsRepr.On m h a) {Z : Nat}
    {M : Mat α} (hZ : Has h Z M) : Heap.Sim [] h (hNipalsTransform a Z) (nipalsTransform c m M) (New h) := by
  obtain ⟨hx, -, -, -, -, -, -, -, -, hr, -, -⟩ := hm
  unfold hNipalsTransform nipalsTransform
  have l1 := hr.1
  refine Sim.new (hStdApply_sim hx hZ c.isZero) fun h1 z Zv f1 l1 g1 u1 a1 => ?_
  exact (sim_pure2 (f := Mat.mul) (N := m.xRot) a1 (by has)).post fun h2 b _ _ hn => ⟨by have := hn.1; omega, hn.2⟩

theorem hNipalsTransformResponse_sim (c : NipalsCfg α) {h : Heap α} {a : NipalsAttrs} {m : NipalsModel α} (hm : nipalsRepr.On m h a)
    {Z : Nat} {M : Mat α} (hZ : Has h Z M) :
    Heap.Sim [] h (hNipalsTransformResponse a Z) (nipalsTransformResponse c m M) (New h) := by
  obtain ⟨-, hy, -, -, -, -, -, -, -, -, hr, -⟩ := hm
  unfold hNipalsTransformResponse nipalsTransformResponse
  have l1 := hr.1
  refine Sim.new (hStdApply_sim hy hZ c.isZero) fun h1 z Zv f1 l1 g1 u1 a1 => ?_
  exact (sim_pure2 (f := Mat.mul) (N := m.yRot) a1 (by has)).post fun h2 b _ _ hn => ⟨by have := hn.1; omega, hn.2⟩

end Verif
