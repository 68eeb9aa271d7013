import Verif.Alg.NipalsHeap
import Verif.Transf.ScatterPre
import Verif.Transf.SavGol
import Verif.Transf.Filter

/-!
# Transformations and filters on matrix objects

`src/wai/ma/transformation` and `src/wai/ma/filter` once more, statement by statement on objects: which objects are allocated and which are
changed in place.  Each program is shown to refine the function on values.
-/

namespace Verif
open Mat Heap Transf

variable {α : Type}

/-! ## Two more operations on objects -/

section ops

/-- A program that changes nothing may be used where changes are allowed. -/
theorem weakSim {β γ : Type} {L : List Nat} {h : Heap α} {x : H α β} {m : Except PyErr γ} {R : Heap α → β → γ → Prop}
    (hx : Heap.Sim [] h x m R) : Heap.Sim L h x m R := fun hw =>
  ⟨(hx hw).1.trans (.refl [] (hx hw).1.wf) (by simp) (by simp), (hx hw).2⟩

/-- A new matrix computed from several others: `helper.multi_concat`, `helper.py` 235-236. -/
def mPureN (f : List (Mat α) → Except PyErr (Mat α)) (rs : List Nat) : H α Nat := fun h => mCreate (f (rs.map h.contents)) h

theorem sim_pureN {h : Heap α} {f : List (Mat α) → Except PyErr (Mat α)} {rs : List Nat} {Ms : List (Mat α)}
    (hr : List.Forall₂ (Has h) rs Ms) : Heap.Sim [] h (mPureN f rs) (f Ms) (New h) := by
  have e : rs.map h.contents = Ms := by
    induction hr with
    | nil => rfl
    | cons h1 _ ih => rw [List.map_cons, h1.2, ih]
  intro hw
  show Frame [] h (mCreate (f (rs.map h.contents)) h).2 ∧ _
  unfold mPureN
  rw [e]
  exact sim_create (f Ms) hw

/-- `result.data -= v.data` and the like, `_RowNorm.py` 46-47, 52-53: in place, *no* cache reset. -/
def mInPlaceCol (f : α → α → α) (r v : Nat) : H α Unit := do
  let M ← getContents r
  let V ← getContents v
  let M' ← H.lift (inPlaceCol f M V)
  npWrite (← getArr r) M'

theorem mInPlaceCol_run (f : α → α → α) (r v : Nat) (h : Heap α) :
    mInPlaceCol f r v h = match inPlaceCol f (h.contents r) (h.contents v) with
      | .ok M => (.ok (), writeH h r M)
      | .error e => (.error e, h) := by
  show H.bind _ _ h = _
  simp only [H.bind, H.lift, bind]
  cases hv : inPlaceCol f (h.contents r) (h.contents v) <;> rfl

theorem inPlaceCol_shape {f : α → α → α} {M M' V : Mat α} (hM : inPlaceCol f M V = .ok M') : M'.rows = M.rows ∧ M'.cols = M.cols := by
  unfold inPlaceCol at hM
  split at hM
  · split at hM
    · cases hM; exact ⟨rfl, rfl⟩
    · split at hM
      · cases hM; exact ⟨rfl, rfl⟩
      · cases hM
  · cases hM

theorem sim_inPlaceCol {h : Heap α} {f : α → α → α} {t v : Nat} {M V : Mat α} (ht : Has h t M) (hv : Has h v V) :
    Heap.Sim [t] h (mInPlaceCol f t v) (inPlaceCol f M V) fun h' _ M' => Has h' t M' := by
  intro hw
  rw [mInPlaceCol_run, ht.2, hv.2]
  cases hM : inPlaceCol f M V with
  | error e => exact ⟨.refl _ hw, .error e⟩
  | ok M' =>
    refine ⟨Frame.inpl (writeH_inpl hw ht.1 M'), .ok ⟨ht.1, writeH_contents_self hw ht.1 M' ?_ ?_⟩⟩
    · rw [ht.2]; exact (inPlaceCol_shape hM).1
    · rw [ht.2]; exact (inPlaceCol_shape hM).2

end ops

/-- `configure` of a new transformation object as a function: the state or the exception. -/
def confF {σ P : Type} (T : Trans α σ P) (M : Mat α) : Except PyErr σ :=
  match T.configure M T.init with
  | (_, .error e) => .error e
  | (s, .ok _) => .ok s

/-! ## Center -/

section center
variable [Add α] [Sub α] [Zero α] [Div α] [NatCast α]

/-- The matrix of a configured `Center`. -/
def centerRepr : Repr α (CenterState α) Nat where
  refs a := [a]
  On s h a := ∃ m, s = ⟨true, some m⟩ ∧ Has h a m
  mono hf hr hm := by
    obtain ⟨m, e, h1⟩ := hm
    exact ⟨m, e, h1.mono hf (hr _ (by simp))⟩

/-- `configure`, `_Center.py` 33-35. -/
def hCenterConfigure (A : Nat) : H α Nat := mPure1 (fun M => .ok M.columnMeans) A

theorem hCenterConfigure_sim {h : Heap α} {A : Nat} {M : Mat α} (hA : Has h A M) :
    Heap.Sim [] h (hCenterConfigure A) (confF center M) (centerRepr.Fresh h) := by
  have e : confF center M = (Except.ok M.columnMeans >>= fun m => .ok ⟨true, some m⟩ : Except PyErr (CenterState α)) := rfl
  rw [e]
  refine Heap.Sim.out (sim_pure1 (f := fun M => .ok M.columnMeans) hA) fun h1 m c f1 l1 g1 u1 a1 _ => ?_
  refine ⟨_, rfl, ⟨c, rfl, a1⟩, ?_⟩
  simp only [centerRepr, List.mem_singleton, forall_eq]
  exact g1

/-- `do_transform` and `do_inverse_transform`, `_Center.py` 37-45: copy, then change the copy in place. -/
def hCenterApply1 (f : α → α → α) (m Z : Nat) : H α Nat := do
  let r ← mCopy Z
  mVectorOpModify f r m
  pure r

omit [Add α] [Sub α] [Zero α] [Div α] [NatCast α] in
theorem hCenterApply1_sim {h : Heap α} (f : α → α → α) {m Z : Nat} {V C : Mat α} (hm : Has h m V) (hZ : Has h Z C) :
    Heap.Sim [] h (hCenterApply1 f m Z) (C.vectorOp f V) (New h) := by
  unfold hCenterApply1
  have lZ := hZ.1
  have lm := hm.1
  rw [← bind_ok_right (C.vectorOp f V)]
  refine Heap.Sim.ownTmp (sim_copy hZ) fun h1 r f1 l1 g1 u1 a1 => ?_
  refine Heap.Sim.upd (sim_vectorOpModify a1 (V := V) (by has)) (by simp) fun h2 R f2 l2 a2 => ?_
  exact Heap.Sim.ret ⟨by omega, a2⟩

/-- `do_transform`, `_Center.py` 37-40. -/
def hCenterTransform (m Z : Nat) : H α Nat := hCenterApply1 (· - ·) m Z

/-- `do_inverse_transform`, `_Center.py` 42-45. -/
def hCenterInverse (m Z : Nat) : H α Nat := hCenterApply1 (· + ·) m Z

theorem hCenterTransform_sim {h : Heap α} {m Z : Nat} {s : CenterState α} {C : Mat α} (hm : centerRepr.On s h m) (hZ : Has h Z C) :
    Heap.Sim [] h (hCenterTransform m Z) (center.doTransform s C) (New h) := by
  obtain ⟨V, rfl, hV⟩ := hm
  exact hCenterApply1_sim _ hV hZ

theorem hCenterInverse_sim {h : Heap α} {m Z : Nat} {s : CenterState α} {C : Mat α} (hm : centerRepr.On s h m) (hZ : Has h Z C) :
    Heap.Sim [] h (hCenterInverse m Z) (center.doInverse s C) (New h) := by
  obtain ⟨V, rfl, hV⟩ := hm
  exact hCenterApply1_sim _ hV hZ

end center

/-! ## Standardize -/

section standardize
variable [Field α] [HasSqrt α]

/-- `configure`, `_Standardize.py` 36-43. -/
def hStdConfigure (isZero : α → Bool) (A : Nat) : H α StdAttrs := do
  let m ← mPure1 (fun M => .ok M.columnMeans) A
  let d ← mPure1 (fun M => .ok M.columnStdevs) A
  hGuard isZero d
  pure ⟨m, d⟩

theorem hStdConfigure_sim {h : Heap α} {A : Nat} {M : Mat α} (hA : Has h A M) (isZero : α → Bool) :
    Heap.Sim [] h (hStdConfigure isZero A) (confF (standardize isZero) M) (stdRepr.Fresh h) := by
  have e : confF (standardize isZero) M = (do
      let d ← guardStds isZero M.columnStdevs
      .ok ⟨true, some M.columnMeans, some d⟩) := by
    unfold confF
    rw [show (standardize isZero).configure M (standardize isZero).init = (match guardStds isZero M.columnStdevs with
      | .error e => (⟨false, some M.columnMeans, some M.columnStdevs⟩, .error e)
      | .ok d => (⟨true, some M.columnMeans, some d⟩, .ok ())) from rfl]
    cases guardStds isZero M.columnStdevs <;> rfl
  rw [e]
  unfold hStdConfigure
  have lA := hA.1
  refine Heap.Sim.tmp (sim_pure1 (f := fun M => .ok M.columnMeans) hA) fun h1 m f1 l1 g1 u1 a1 => ?_
  refine Heap.Sim.ownTmp (sim_pure1 (f := fun M => .ok M.columnStdevs) (M := M) (by has)) fun h2 d f2 l2 g2 u2 a2 => ?_
  refine Heap.Sim.upd (hGuard_sim a2 isZero) (by simp) fun h3 D f3 l3 a3 => ?_
  refine Heap.Sim.ret ⟨⟨_, _, rfl, by has, by has⟩, ?_⟩
  simp only [stdRepr, List.mem_cons, List.not_mem_nil, or_false, forall_eq_or_imp, forall_eq]
  omega

/-- Copy, then change the copy in place with two vectors: `do_transform` and `do_inverse_transform`, `_Standardize.py` 45-55. -/
def hStdApply2 (f g : α → α → α) (a b Z : Nat) : H α Nat := do
  let r ← mCopy Z
  mVectorOpModify f r a
  mVectorOpModify g r b
  pure r

omit [Field α] [HasSqrt α] in
theorem hStdApply2_sim {h : Heap α} (f g : α → α → α) {a b Z : Nat} {V W C : Mat α} (ha : Has h a V) (hb : Has h b W) (hZ : Has h Z C) :
    Heap.Sim [] h (hStdApply2 f g a b Z) (do let r ← C.vectorOp f V; r.vectorOp g W) (New h) := by
  unfold hStdApply2
  have lZ := hZ.1
  have la := ha.1
  have lb := hb.1
  rw [← bind_ok_right (do let r ← C.vectorOp f V; r.vectorOp g W), bind_assoc]
  refine Heap.Sim.ownTmp (sim_copy hZ) fun h1 r f1 l1 g1 u1 a1 => ?_
  refine Heap.Sim.upd (sim_vectorOpModify a1 (V := V) (by has)) (by simp) fun h2 R f2 l2 a2 => ?_
  refine Heap.Sim.upd (sim_vectorOpModify a2 (V := W) (by has)) (by simp) fun h3 R f3 l3 a3 => ?_
  exact Heap.Sim.ret ⟨by omega, a3⟩

/-- `do_transform`, `_Standardize.py` 45-49. -/
def hStdTransform (a : StdAttrs) (Z : Nat) : H α Nat := hStdApply2 (· - ·) (· / ·) a.means a.stds Z

/-- `do_inverse_transform`, `_Standardize.py` 51-55. -/
def hStdInverse (a : StdAttrs) (Z : Nat) : H α Nat := hStdApply2 (· * ·) (· + ·) a.stds a.means Z

theorem hStdTransform_sim {h : Heap α} {a : StdAttrs} {Z : Nat} {s : StatState α} {C : Mat α} (isZero : α → Bool) (hm : stdRepr.On s h a)
    (hZ : Has h Z C) : Heap.Sim [] h (hStdTransform a Z) ((standardize isZero).doTransform s C) (New h) := by
  obtain ⟨m, d, rfl, h1, h2⟩ := hm
  exact hStdApply2_sim _ _ h1 h2 hZ

theorem hStdInverse_sim {h : Heap α} {a : StdAttrs} {Z : Nat} {s : StatState α} {C : Mat α} (isZero : α → Bool) (hm : stdRepr.On s h a)
    (hZ : Has h Z C) : Heap.Sim [] h (hStdInverse a Z) ((standardize isZero).doInverse s C) (New h) := by
  obtain ⟨m, d, rfl, h1, h2⟩ := hm
  exact hStdApply2_sim _ _ h2 h1 hZ

/-! ## RowNorm -/

/-- The matrices of a `RowNorm` that has seen data (`configured` is not set by `configure`). -/
def rowRepr : Repr α (StatState α) StdAttrs where
  refs a := [a.means, a.stds]
  On s h a := ∃ m d, s = ⟨false, some m, some d⟩ ∧ Has h a.means m ∧ Has h a.stds d
  mono hf hr hm := by
    simp only [List.mem_cons, List.not_mem_nil, or_false, forall_eq_or_imp, forall_eq] at hr
    obtain ⟨m, d, e, h1, h2⟩ := hm
    exact ⟨m, d, e, h1.mono hf hr.1, h2.mono hf hr.2⟩

/-- `configure`, `_RowNorm.py` 36-42. -/
def hRowConfigure (isZero : α → Bool) (A : Nat) : H α StdAttrs := do
  let m ← mPure1 (fun M => .ok M.rowMeans) A
  let d ← mPure1 (fun M => .ok M.rowStdevs) A
  hGuard isZero d
  pure ⟨m, d⟩

theorem hRowConfigure_sim {h : Heap α} {A : Nat} {M : Mat α} (hA : Has h A M) (isZero : α → Bool) :
    Heap.Sim [] h (hRowConfigure isZero A) (confF (rowNorm isZero) M) (rowRepr.Fresh h) := by
  have e : confF (rowNorm isZero) M = (do
      let d ← guardStds isZero M.rowStdevs
      .ok ⟨false, some M.rowMeans, some d⟩) := by
    unfold confF
    rw [show (rowNorm isZero).configure M (rowNorm isZero).init = (match guardStds isZero M.rowStdevs with
      | .error e => (⟨false, some M.rowMeans, some M.rowStdevs⟩, .error e)
      | .ok d => (⟨false, some M.rowMeans, some d⟩, .ok ())) from rfl]
    cases guardStds isZero M.rowStdevs <;> rfl
  rw [e]
  unfold hRowConfigure
  have lA := hA.1
  refine Heap.Sim.tmp (sim_pure1 (f := fun M => .ok M.rowMeans) hA) fun h1 m f1 l1 g1 u1 a1 => ?_
  refine Heap.Sim.ownTmp (sim_pure1 (f := fun M => .ok M.rowStdevs) (M := M) (by has)) fun h2 d f2 l2 g2 u2 a2 => ?_
  refine Heap.Sim.upd (hGuard_sim a2 isZero) (by simp) fun h3 D f3 l3 a3 => ?_
  refine Heap.Sim.ret ⟨⟨_, _, rfl, by has, by has⟩, ?_⟩
  simp only [rowRepr, List.mem_cons, List.not_mem_nil, or_false, forall_eq_or_imp, forall_eq]
  omega

/-- Copy, then `data -= …` and the like on the copy. -/
def hRowApply2 (f g : α → α → α) (a b Z : Nat) : H α Nat := do
  let r ← mCopy Z
  mInPlaceCol f r a
  mInPlaceCol g r b
  pure r

omit [Field α] [HasSqrt α] in
theorem hRowApply2_sim {h : Heap α} (f g : α → α → α) {a b Z : Nat} {V W C : Mat α} (ha : Has h a V) (hb : Has h b W) (hZ : Has h Z C) :
    Heap.Sim [] h (hRowApply2 f g a b Z) (do let r ← inPlaceCol f C V; inPlaceCol g r W) (New h) := by
  unfold hRowApply2
  have lZ := hZ.1
  have la := ha.1
  have lb := hb.1
  rw [← bind_ok_right (do let r ← inPlaceCol f C V; inPlaceCol g r W), bind_assoc]
  refine Heap.Sim.ownTmp (sim_copy hZ) fun h1 r f1 l1 g1 u1 a1 => ?_
  refine Heap.Sim.upd (sim_inPlaceCol a1 (V := V) (by has)) (by simp) fun h2 R f2 l2 a2 => ?_
  refine Heap.Sim.upd (sim_inPlaceCol a2 (V := W) (by has)) (by simp) fun h3 R f3 l3 a3 => ?_
  exact Heap.Sim.ret ⟨by omega, a3⟩

/-- `do_transform`, `_RowNorm.py` 44-48. -/
def hRowTransform (a : StdAttrs) (Z : Nat) : H α Nat := hRowApply2 (· - ·) (· / ·) a.means a.stds Z

/-- `do_inverse_transform`, `_RowNorm.py` 50-54. -/
def hRowInverse (a : StdAttrs) (Z : Nat) : H α Nat := hRowApply2 (· * ·) (· + ·) a.stds a.means Z

theorem hRowTransform_sim {h : Heap α} {a : StdAttrs} {Z : Nat} {s : StatState α} {C : Mat α} (isZero : α → Bool) (hm : rowRepr.On s h a)
    (hZ : Has h Z C) : Heap.Sim [] h (hRowTransform a Z) ((rowNorm isZero).doTransform s C) (New h) := by
  obtain ⟨m, d, rfl, h1, h2⟩ := hm
  exact hRowApply2_sim _ _ h1 h2 hZ

theorem hRowInverse_sim {h : Heap α} {a : StdAttrs} {Z : Nat} {s : StatState α} {C : Mat α} (isZero : α → Bool) (hm : rowRepr.On s h a)
    (hZ : Has h Z C) : Heap.Sim [] h (hRowInverse a Z) ((rowNorm isZero).doInverse s C) (New h) := by
  obtain ⟨m, d, rfl, h1, h2⟩ := hm
  exact hRowApply2_sim _ _ h2 h1 hZ

end standardize

/-! ## Savitzky-Golay -/

section savgol

/-- The matrix of a configured `SavitzkyGolay`. -/
def sgRepr : Repr α (SGState α) Nat where
  refs a := [a]
  On s h a := ∃ c, s.coef = some c ∧ Has h a c
  mono hf hr hm := by
    obtain ⟨m, e, h1⟩ := hm
    exact ⟨m, e, h1.mono hf (hr _ (by simp))⟩

/-- `configure` of an object with the given parameters and no coefficients, `_SavitzkyGolay.py` 71-78.  The matrices used inside
`determine_coefficients` are local to it, they are kept as values here. -/
def hSgConfigure [Field α] [DecidableEq α] (s : SGState α) (_A : Nat) : H α Nat :=
  mCreate (sgCoefficients s.left s.right s.poly s.der)

/-- `configure` of an object in state `s`, as a function. -/
def sgConfF [Field α] [DecidableEq α] (s : SGState α) (M : Mat α) : Except PyErr (SGState α) :=
  match savGol.configure M s with
  | (_, .error e) => .error e
  | (s, .ok _) => .ok s

theorem hSgConfigure_sim [Field α] [DecidableEq α] {h : Heap α} {A : Nat} {M : Mat α} (s : SGState α) (hs : s.coef = none) :
    Heap.Sim [] h (hSgConfigure s A) (sgConfF s M) (sgRepr.Fresh h) := by
  have e : sgConfF s M = (do
      let c ← sgCoefficients s.left s.right s.poly s.der
      .ok { s with configured := true, coef := some c }) := by
    unfold sgConfF savGol
    dsimp only
    rw [hs]
    dsimp only
    cases (sgCoefficients s.left s.right s.poly s.der : Except PyErr (Mat α)) <;> rfl
  rw [e]
  refine Heap.Sim.out (sim_create _) fun h1 m c f1 l1 g1 u1 a1 _ => ⟨_, rfl, ⟨c, rfl, a1⟩, ?_⟩
  simp only [sgRepr, List.mem_singleton, forall_eq]
  exact g1

variable [Add α] [Mul α] [Zero α]

/-- One smoothed column, `_SavitzkyGolay.py` 86-88: the window is taken as a new matrix, which is then changed in place. -/
def hSgColumn (a Z : Nat) (width i : Int) : H α Nat := do
  let D ← getContents Z
  let c ← mPure1 (fun M => M.getSubMatrix (.tuple 0 D.rows) (.tuple i (i + width))) Z
  mVectorOpModify (· * ·) c a
  mPure1 (fun M => .ok M.rowSums) c

/-- Its value. -/
def sgColumn (c D : Mat α) (width i : Int) : Except PyErr (Mat α) := do
  let column ← D.getSubMatrix (.tuple 0 D.rows) (.tuple i (i + width))
  let column ← column.mulByVector c
  pure column.rowSums

theorem hSgColumn_sim {h : Heap α} {a Z : Nat} {c D : Mat α} (ha : Has h a c) (hZ : Has h Z D) (width i : Int) :
    Heap.Sim [] h (hSgColumn a Z width i) (sgColumn c D width i) (New h) := by
  unfold hSgColumn sgColumn
  have la := ha.1
  have lZ := hZ.1
  refine Heap.Sim.look hZ ?_
  refine Heap.Sim.own (sim_pure1 (f := fun M => M.getSubMatrix (.tuple 0 D.rows) (.tuple i (i + width))) hZ) fun h1 r R f1 l1 g1 u1 a1 => ?_
  refine Heap.Sim.upd (sim_vectorOpModify a1 (V := c) (by has)) (by simp) fun h2 S f2 l2 a2 => ?_
  exact weakSim ((sim_pure1 (f := fun M => .ok M.rowSums) a2).post fun h3 b c _ hn => ⟨by have := hn.1; omega, hn.2⟩)

/-- The smoothed columns, `_SavitzkyGolay.py` 85-89. -/
def hSgColumns (a Z : Nat) (width : Int) : List Int → H α (List Nat)
  | [] => pure []
  | i :: is => do
    let c ← hSgColumn a Z width i
    let cs ← hSgColumns a Z width is
    pure (c :: cs)

theorem hSgColumns_sim {a Z : Nat} {c D : Mat α} (width : Int) (is : List Int) : ∀ {h : Heap α}, Has h a c → Has h Z D →
    Heap.Sim [] h (hSgColumns a Z width is) (is.mapM (sgColumn c D width)) fun h' b v => List.Forall₂ (Has h') b v := by
  induction is with
  | nil => intro h _ _; exact Heap.Sim.ret .nil
  | cons i is ih =>
    intro h ha hZ
    rw [List.mapM_cons]
    unfold hSgColumns
    refine Heap.Sim.new (hSgColumn_sim ha hZ width i) fun h1 r R f1 l1 g1 u1 a1 => ?_
    refine Heap.Sim.bind (ih (ha.mono f1 List.not_mem_nil) (hZ.mono f1 List.not_mem_nil)) (fun _ h => h) fun h2 cs vs f2 hcs => ?_
    exact Heap.Sim.ret (.cons (a1.mono f2 List.not_mem_nil) hcs)

/-- `do_transform`, `_SavitzkyGolay.py` 80-91. -/
def hSgTransform (a Z : Nat) : H α Nat := do
  let c ← getContents a
  let D ← getContents Z
  let cs ← hSgColumns a Z c.cols (pyRange 0 ((D.cols : Int) - c.cols + 1))
  mPureN (multiConcat 1) cs

theorem hSgTransform_value {h : Heap α} {a Z : Nat} {c D : Mat α} (ha : Has h a c) (hZ : Has h Z D) :
    Heap.Sim [] h (hSgTransform a Z) (sgApply c D) (New h) := by
  unfold hSgTransform sgApply
  refine Heap.Sim.look ha (Heap.Sim.look hZ ?_)
  refine Heap.Sim.bind (hSgColumns_sim c.cols _ ha hZ) (fun _ h => h) fun h1 cs vs f1 hcs => ?_
  exact (sim_pureN hcs).post fun h2 b v _ hn => ⟨by have := hn.1; have := f1.le; omega, hn.2⟩

end savgol

/-! ## The Y-gradient filter -/

section ygrad
variable [Add α] [Mul α] [Zero α]

/-- `extend_matrix`, `_YGradientGLSWSavitzkyGolayFilter.py` 51-58. -/
def hExtend (Z : Nat) : H α Nat := do
  let D ← getContents Z
  let first ← mPure1 (fun M => M.getRow 0) Z
  let last ← mPure1 (fun M => M.getRow ((D.rows : Int) - 1)) Z
  let a ← mPure2 Mat.concatAlongRows first first
  let b ← mPure2 Mat.concatAlongRows a Z
  let c ← mPure2 Mat.concatAlongRows b last
  mPure2 Mat.concatAlongRows c last

omit [Add α] [Mul α] [Zero α] in
theorem hExtend_sim {h : Heap α} {Z : Nat} {D : Mat α} (hZ : Has h Z D) : Heap.Sim [] h (hExtend Z) (extendMatrix D) (New h) := by
  unfold hExtend extendMatrix
  have lZ := hZ.1
  refine Heap.Sim.look hZ ?_
  refine Heap.Sim.new (sim_pure1 (f := fun M => M.getRow 0) hZ) fun h1 x1 X1 f1 l1 g1 u1 a1 => ?_
  refine Heap.Sim.new (sim_pure1 (f := fun M => M.getRow ((D.rows : Int) - 1)) (M := D) (by has)) fun h2 x2 X2 f2 l2 g2 u2 a2 => ?_
  refine Heap.Sim.new (sim_pure2 (f := Mat.concatAlongRows) (M := X1) (N := X1) (by has) (by has)) fun h3 x3 X3 f3 l3 g3 u3 a3 => ?_
  refine Heap.Sim.new (sim_pure2 (f := Mat.concatAlongRows) (M := X3) (N := D) (by has) (by has)) fun h4 x4 X4 f4 l4 g4 u4 a4 => ?_
  refine Heap.Sim.new (sim_pure2 (f := Mat.concatAlongRows) (M := X4) (N := X2) (by has) (by has)) fun h5 x5 X5 f5 l5 g5 u5 a5 => ?_
  exact (sim_pure2 (f := Mat.concatAlongRows) (M := X5) (N := X2) (by has) (by has)).post fun h6 b c _ hn =>
    ⟨by have := hn.1; omega, hn.2⟩

/-- `smooth_row`, loop part, `_YGradientGLSWSavitzkyGolayFilter.py` 66-72. -/
def hSmoothLoop (coef : List α) (i : Int) (M : Nat) : List Int → Nat → H α Nat
  | [], res => pure res
  | m :: ms, res => do
    let row ← mPure1 (fun M => M.getRow (i - (m - 2))) M
    let c ← H.lift (Utils.item coef ((coef.length : Int) - 1 - m))
    let sc ← mPure1 (fun M => .ok (M.smul c)) row
    let res ← mPure2 Mat.add res sc
    hSmoothLoop coef i M ms res

omit [Zero α] in
theorem hSmoothLoop_sim (coef : List α) (i : Int) {M : Nat} {E : Mat α} (ms : List Int) : ∀ {h : Heap α} {res : Nat} {R : Mat α}, Has h M E →
    Has h res R → Heap.Sim [] h (hSmoothLoop coef i M ms res) (smoothLoop coef i E ms R) fun h' b c => Has h' b c := by
  induction ms with
  | nil => intro h res R _ hR; exact Heap.Sim.ret hR
  | cons m ms ih =>
    intro h res R hM hR
    unfold hSmoothLoop smoothLoop
    have lM := hM.1
    have lR := hR.1
    refine Heap.Sim.new (sim_pure1 (f := fun M => M.getRow (i - (m - 2))) hM) fun h1 x1 X1 f1 l1 g1 u1 a1 => ?_
    refine Heap.Sim.val fun c => ?_
    refine Heap.Sim.tmp (sim_pure1 (f := fun M => .ok (M.smul c)) a1) fun h2 x2 f2 l2 g2 u2 a2 => ?_
    refine Heap.Sim.new (sim_pure2 (f := Mat.add) (M := R) (N := X1.smul c) (by has) (by has)) fun h3 x3 X3 f3 l3 g3 u3 a3 => ?_
    exact ih (by has) a3

/-- `smooth_row`, `_YGradientGLSWSavitzkyGolayFilter.py` 63-74. -/
def hSmoothRow (coef : List α) (i : Int) (M : Nat) : H α Nat := do
  let E ← getContents M
  let res ← mCreate (Factory.zeros 1 E.cols)
  hSmoothLoop coef i M (pyRange 0 coef.length) res

theorem hSmoothRow_sim (coef : List α) (i : Int) {h : Heap α} {M : Nat} {E : Mat α} (hM : Has h M E) :
    Heap.Sim [] h (hSmoothRow coef i M) (smoothRow coef i E) fun h' b c => Has h' b c := by
  unfold hSmoothRow smoothRow
  have lM := hM.1
  refine Heap.Sim.look hM ?_
  refine Heap.Sim.new (sim_create _) fun h1 x1 X1 f1 l1 g1 u1 a1 => ?_
  exact hSmoothLoop_sim coef i _ (by has) a1

/-- The row loop, `_YGradientGLSWSavitzkyGolayFilter.py` 41-43: `result` is changed in place. -/
def hRowLoop (coef : List α) (ext res : Nat) : List Int → H α Unit
  | [] => pure ()
  | i :: is => do
    let r ← hSmoothRow coef i ext
    mSetRow res i r
    hRowLoop coef ext res is

theorem hRowLoop_sim (coef : List α) {ext res : Nat} {E : Mat α} (hne : ext ≠ res) (is : List Int) : ∀ {h : Heap α} {R : Mat α}, Has h ext E →
    Has h res R → Heap.Sim [res] h (hRowLoop coef ext res is) (rowLoop coef E is R) fun h' _ c => Has h' res c := by
  induction is with
  | nil => intro h R _ hR; exact Heap.Sim.ret hR
  | cons i is ih =>
    intro h R hE hR
    unfold hRowLoop rowLoop
    have lE := hE.1
    have lR := hR.1
    refine Heap.Sim.bind (hSmoothRow_sim coef i hE) (by simp) fun h1 r V f1 a1 => ?_
    refine Heap.Sim.upd (sim_setRow (V := V) (M := R) (by has) a1 i) (by simp) fun h2 R' f2 l2 a2 => ?_
    exact ih (by has) a2

/-- `do_transform`, `_YGradientGLSWSavitzkyGolayFilter.py` 37-49. -/
def hYgradTransform (coef : List α) (Z : Nat) : H α Nat := do
  let ext ← hExtend Z
  let E ← getContents ext
  let res ← mCreate (Factory.zerosLike E)
  hRowLoop coef ext res (pyRange 2 ((E.rows : Int) - 2))
  let R ← getContents res
  mPure1 (fun M => M.getSubMatrix (.tuple 2 ((R.rows : Int) - 2)) (.tuple 0 R.cols)) res

theorem hYgradTransform_sim (coef : List α) {h : Heap α} {Z : Nat} {D : Mat α} (hZ : Has h Z D) :
    Heap.Sim [] h (hYgradTransform coef Z) (ygradApply coef D) (New h) := by
  unfold hYgradTransform ygradApply
  have lZ := hZ.1
  refine Heap.Sim.new (hExtend_sim hZ) fun h1 ext E f1 l1 g1 u1 a1 => ?_
  refine Heap.Sim.look a1 ?_
  refine Heap.Sim.own (sim_create _) fun h2 res R f2 l2 g2 u2 a2 => ?_
  refine Heap.Sim.upd (hRowLoop_sim coef (E := E) (by omega) _ (by has) a2) (by simp) fun h3 R' f3 l3 a3 => ?_
  refine Heap.Sim.look a3 ?_
  exact weakSim ((sim_pure1 (f := fun M => M.getSubMatrix (.tuple 2 ((R'.rows : Int) - 2)) (.tuple 0 R'.cols)) a3).post
    fun h4 b c _ hn => ⟨by have := hn.1; omega, hn.2⟩)

end ygrad

/-! ## Multiplicative scatter correction -/

section msc
variable [Add α] [Sub α] [Mul α] [Div α] [Zero α] [NatCast α]

/-- The matrix of a configured scatter correction. -/
def mscRepr : Repr α (MSCState α) Nat where
  refs a := [a]
  On s h a := ∃ m, s = ⟨true, some m⟩ ∧ Has h a m
  mono hf hr hm := by
    obtain ⟨m, e, h1⟩ := hm
    exact ⟨m, e, h1.mono hf (hr _ (by simp))⟩

/-- `configure`, `_MultiplicativeScatterCorrection.py` 43-48. -/
def hMscConfigure (A : Nat) : H α Nat := do
  let D ← getContents A
  let wave ← mPure1 (fun M => M.getColumn 0) A
  let amps ← mPure1 (fun M => M.getSubMatrix (.tuple 0 D.rows) (.tuple 1 D.cols)) A
  let mean ← mPure1 (fun M => .ok M.rowMeans) amps
  mPure2 Mat.concatAlongColumns wave mean

theorem hMscConfigure_sim (le : α → α → Bool) (pre : Option (Mat α → Except PyErr (Mat α))) (ranges : List (α × α)) {h : Heap α} {A : Nat}
    {M : Mat α} (hA : Has h A M) : Heap.Sim [] h (hMscConfigure A) (confF (msc le pre ranges) M) (mscRepr.Fresh h) := by
  have e : confF (msc le pre ranges) M = (do
      let wave ← M.getColumn 0
      let amps ← M.getSubMatrix (.tuple 0 M.rows) (.tuple 1 M.cols)
      let a ← wave.concatAlongColumns amps.rowMeans
      .ok ⟨true, some a⟩) := by
    have e1 : confF (msc le pre ranges) M = (mscAverage M >>= fun a => .ok ⟨true, some a⟩) := by
      unfold confF
      rw [show (msc le pre ranges).configure M (msc le pre ranges).init = (match mscAverage M with
        | .error e => (⟨false, none⟩, .error e)
        | .ok a => (⟨true, some a⟩, .ok ())) from rfl]
      cases mscAverage M <;> rfl
    rw [e1]
    unfold mscAverage
    simp only [bind_assoc]
  rw [e]
  unfold hMscConfigure
  have lA := hA.1
  refine Heap.Sim.look hA ?_
  refine Heap.Sim.new (sim_pure1 (f := fun M => M.getColumn 0) hA) fun h1 x1 X1 f1 l1 g1 u1 a1 => ?_
  refine Heap.Sim.new (sim_pure1 (f := fun D => D.getSubMatrix (.tuple 0 M.rows) (.tuple 1 M.cols)) (M := M) (by has))
    fun h2 x2 X2 f2 l2 g2 u2 a2 => ?_
  refine Heap.Sim.tmp (sim_pure1 (f := fun M => .ok M.rowMeans) a2) fun h3 x3 f3 l3 g3 u3 a3 => ?_
  refine Heap.Sim.out (sim_pure2 (f := Mat.concatAlongColumns) (M := X1) (by has) a3) fun h4 m c f4 l4 g4 u4 a4 _ => ⟨_, rfl, ⟨c, rfl, a4⟩, ?_⟩
  simp only [mscRepr, List.mem_singleton, forall_eq]
  omega

/-- The samples of a range, `_MultiplicativeScatterCorrection.py` 81-88. -/
def hMscGather (le : α → α → Bool) (r : α × α) (avg fil : Nat) : List Int → H α (List α × List α)
  | [] => pure ([], [])
  | i :: is => do
    let w ← mScalar1 (fun M => M.get i 0) fil
    if inRange le r w then do
      let y ← mScalar1 (fun M => M.get i 1) fil
      let x ← mScalar1 (fun M => M.get i 1) avg
      let p ← hMscGather le r avg fil is
      pure (x :: p.1, y :: p.2)
    else hMscGather le r avg fil is

omit [Add α] [Sub α] [Mul α] [Div α] [Zero α] [NatCast α] in
theorem hMscGather_sim (le : α → α → Bool) (r : α × α) {h : Heap α} {avg fil : Nat} {R F : Mat α} (ha : Has h avg R) (hf : Has h fil F)
    (is : List Int) : Heap.Sim [] h (hMscGather le r avg fil is) (mscGather le r R F is) fun _ b c => b = c := by
  induction is with
  | nil => exact Heap.Sim.ret rfl
  | cons i is ih =>
    unfold hMscGather mscGather
    refine Heap.Sim.num1 hf fun w => ?_
    cases hi : inRange le r w with
    | true =>
      simp only [if_true]
      refine Heap.Sim.num1 hf fun y => Heap.Sim.num1 ha fun x => ?_
      refine Heap.Sim.bind ih (fun _ h => h) fun h1 b c f1 e => ?_
      subst e
      exact Heap.Sim.ret rfl
    | false =>
      simp only [Bool.false_eq_true, if_false]
      exact ih

/-- The correction of a range, `_MultiplicativeScatterCorrection.py` 92-94: in place. -/
def hMscCorrect (le : α → α → Bool) (r : α × α) (inter slope : α) (res : Nat) : List Int → H α Unit
  | [] => pure ()
  | i :: is => do
    let w ← mScalar1 (fun M => M.get i 0) res
    if inRange le r w then do
      let v ← mScalar1 (fun M => M.get i 1) res
      mSet res i 1 ((v - inter) / slope)
      hMscCorrect le r inter slope res is
    else hMscCorrect le r inter slope res is

omit [Add α] [Mul α] [Zero α] [NatCast α] in
theorem hMscCorrect_sim (le : α → α → Bool) (r : α × α) (inter slope : α) {res : Nat} (is : List Int) : ∀ {h : Heap α} {R : Mat α},
    Has h res R → Heap.Sim [res] h (hMscCorrect le r inter slope res is) (mscCorrect le r inter slope is R) fun h' _ c => Has h' res c := by
  induction is with
  | nil => intro h R hR; exact Heap.Sim.ret hR
  | cons i is ih =>
    intro h R hR
    unfold hMscCorrect mscCorrect
    refine Heap.Sim.num1 hR fun w => ?_
    cases hi : inRange le r w with
    | true =>
      simp only [if_true]
      refine Heap.Sim.num1 hR fun v => ?_
      exact Heap.Sim.upd (sim_set hR i 1 _) (by simp) fun h1 R' f1 l1 a1 => ih a1
    | false =>
      simp only [Bool.false_eq_true, if_false]
      exact ih hR

/-- One range, `_MultiplicativeScatterCorrection.py` 80-94. -/
def hMscRange (le : α → α → Bool) (avg fil res : Nat) (r : α × α) : H α Unit := do
  let A ← getContents avg
  let p ← hMscGather le r avg fil (pyRange 0 A.rows)
  let R ← getContents res
  hMscCorrect le r (Utils.linearRegression p.1 p.2).1 (Utils.linearRegression p.1 p.2).2 res (pyRange 0 R.rows)

theorem hMscRange_sim (le : α → α → Bool) (r : α × α) {h : Heap α} {avg fil res : Nat} {A F R : Mat α} (ha : Has h avg A) (hf : Has h fil F)
    (hr : Has h res R) : Heap.Sim [res] h (hMscRange le avg fil res r) (mscRange le A F R r) fun h' _ c => Has h' res c := by
  unfold hMscRange mscRange
  have la := ha.1
  have lr := hr.1
  refine Heap.Sim.look ha ?_
  refine Heap.Sim.bind (hMscGather_sim le r ha hf _) (by simp) fun h1 b c f1 e => ?_
  subst e
  refine Heap.Sim.look (M := R) (by has) ?_
  exact hMscCorrect_sim le r _ _ _ (by has)

/-- The loop over the ranges. -/
def hMscRanges (le : α → α → Bool) (avg fil res : Nat) : List (α × α) → H α Unit
  | [] => pure ()
  | r :: rs => do
    hMscRange le avg fil res r
    hMscRanges le avg fil res rs

theorem hMscRanges_sim (le : α → α → Bool) {avg fil res : Nat} {A F : Mat α} (h1 : avg ≠ res) (h2 : fil ≠ res) (rs : List (α × α)) :
    ∀ {h : Heap α} {R : Mat α}, Has h avg A → Has h fil F → Has h res R →
      Heap.Sim [res] h (hMscRanges le avg fil res rs) (rs.foldlM (mscRange le A F) R) fun h' _ c => Has h' res c := by
  induction rs with
  | nil => intro h R _ _ hR; exact Heap.Sim.ret hR
  | cons r rs ih =>
    intro h R ha hf hR
    rw [List.foldlM_cons]
    unfold hMscRanges
    exact Heap.Sim.upd (hMscRange_sim le r ha hf hR) (by simp) fun h3 R' f3 l3 a3 => ih (ha.mono f3 (by simpa using h1))
      (hf.mono f3 (by simpa using h2)) a3

/-- A prefilter on objects that computes `f`; it may return its argument. -/
def PreOk (pre : Nat → H α Nat) (f : Mat α → Except PyErr (Mat α)) : Prop :=
  ∀ h Z C, Has h Z C → Heap.Sim [] h (pre Z) (f C) fun h' b c => Has h' b c ∧ (b = Z ∨ h.nobj ≤ b)

/-- `RangeBased.correct`, `_MultiplicativeScatterCorrection.py` 72-96: the copy is made before the prefilter is called. -/
def hMscTransform (le : α → α → Bool) (pre : Nat → H α Nat) (ranges : List (α × α)) (avg Z : Nat) : H α Nat := do
  let res ← mCopy Z
  let fil ← pre Z
  hMscRanges le avg fil res ranges
  pure res

theorem hMscTransform_sim (le : α → α → Bool) {pre : Nat → H α Nat} {f : Mat α → Except PyErr (Mat α)} (hp : PreOk pre f)
    (ranges : List (α × α)) {h : Heap α} {avg Z : Nat} {s : MSCState α} {C : Mat α} (hm : mscRepr.On s h avg) (hZ : Has h Z C) :
    Heap.Sim [] h (hMscTransform le pre ranges avg Z) ((msc le (some f) ranges).doTransform s C) (New h) := by
  obtain ⟨A, rfl, hA⟩ := hm
  show Heap.Sim [] h _ (mscApply le (some f) ranges A C) _
  unfold hMscTransform mscApply
  have lA := hA.1
  have lZ := hZ.1
  refine Heap.Sim.ownTmp (sim_copy hZ) fun h1 res f1 l1 g1 u1 a1 => ?_
  refine Heap.Sim.bind (hp h1 Z C (by has)) (by simp) ?_
  rintro h2 fil F f2 ⟨a2, e2⟩
  have l2 := f2.le
  have hne : fil ≠ res := by
    rcases e2 with rfl | e2 <;> omega
  dsimp only
  rw [← bind_ok_right (ranges.foldlM (mscRange le A F) C.copy)]
  refine Heap.Sim.upd (hMscRanges_sim le (A := A) (by omega) hne ranges (by has) a2 (R := C.copy) (by has)) (by simp) fun h3 R f3 l3 a3 => ?_
  exact Heap.Sim.ret ⟨by omega, a3⟩

end msc

/-! ## Filters -/

section filter

/-- `Downsample.transform`, `_Downsample.py` 13-16. -/
def hDownsample (start step : Int) (Z : Nat) : H α Nat := do
  let D ← getContents Z
  let cols ← H.lift (pyRangeStep start D.cols step)
  mPure1 (fun M => M.getColumns (.list cols)) Z

theorem hDownsample_sim (start step : Int) {h : Heap α} {Z : Nat} {C : Mat α} (hZ : Has h Z C) :
    Heap.Sim [] h (hDownsample start step Z) (downsample start step C) (New h) := by
  unfold hDownsample downsample
  refine Heap.Sim.look hZ (Heap.Sim.val fun cols => ?_)
  exact sim_pure1 (f := fun M => M.getColumns (.list cols)) hZ

variable [Field α]

/-- One resampled column, `_Equidistance.py` 47-67. -/
def hEquiColumn (k : Int) (Z : Nat) (cols idx : Int) : H α Nat :=
  let x := (cols - 1) * idx
  let old := x / (k - 1)
  if x % (k - 1) = 0 then mPure1 (fun M => M.getColumn old) Z
  else do
    let left ← mPure1 (fun M => M.getColumn old) Z
    let right ← mPure1 (fun M => M.getColumn (old + 1)) Z
    let t : α := ((x % (k - 1) : Int) : α) / ((k - 1 : Int) : α)
    let a ← mPure1 (fun M => .ok (M.smul (1 - t))) left
    let b ← mPure1 (fun M => .ok (M.smul t)) right
    mPure2 Mat.add a b

theorem hEquiColumn_sim (k : Int) {h : Heap α} {Z : Nat} {C : Mat α} (hZ : Has h Z C) (idx : Int) :
    Heap.Sim [] h (hEquiColumn k Z C.cols idx) (equiColumn k C idx) (New h) := by
  unfold hEquiColumn equiColumn
  have lZ := hZ.1
  dsimp only
  by_cases hx : ((C.cols : Int) - 1) * idx % (k - 1) = 0
  · rw [if_pos hx, if_pos hx]
    exact sim_pure1 (f := fun M => M.getColumn _) hZ
  · rw [if_neg hx, if_neg hx]
    refine Heap.Sim.new (sim_pure1 (f := fun M => M.getColumn _) hZ) fun h1 x1 X1 f1 l1 g1 u1 a1 => ?_
    refine Heap.Sim.new (sim_pure1 (f := fun M => M.getColumn _) (M := C) (by has)) fun h2 x2 X2 f2 l2 g2 u2 a2 => ?_
    refine Heap.Sim.tmp (sim_pure1 (f := fun M => .ok (M.smul _)) (M := X1) (by has)) fun h3 x3 f3 l3 g3 u3 a3 => ?_
    refine Heap.Sim.tmp (sim_pure1 (f := fun M => .ok (M.smul _)) (M := X2) (by has)) fun h4 x4 f4 l4 g4 u4 a4 => ?_
    exact (sim_pure2 (f := Mat.add) (by has) a4).post fun h5 b c _ hn => ⟨by have := hn.1; omega, hn.2⟩

/-- The loop over the samples, `_Equidistance.py` 45-67: `resampled` is changed in place. -/
def hEquiLoop (k : Int) (Z : Nat) (cols : Int) (R : Nat) : List Int → H α Unit
  | [] => pure ()
  | idx :: r => do
    let c ← hEquiColumn k Z cols idx
    mSetColumn R idx c
    hEquiLoop k Z cols R r

theorem hEquiLoop_sim (k : Int) {Z R : Nat} {C : Mat α} (hne : Z ≠ R) (is : List Int) : ∀ {h : Heap α} {V : Mat α}, Has h Z C → Has h R V →
    Heap.Sim [R] h (hEquiLoop k Z C.cols R is) (equiLoop k C is V) fun h' _ c => Has h' R c := by
  induction is with
  | nil => intro h V _ hV; exact Heap.Sim.ret hV
  | cons i is ih =>
    intro h V hZ hV
    unfold hEquiLoop equiLoop
    have lZ := hZ.1
    have lV := hV.1
    refine Heap.Sim.new (hEquiColumn_sim k hZ i) fun h1 c W f1 l1 g1 u1 a1 => ?_
    refine Heap.Sim.upd (sim_setColumn (V := W) (M := V) (by has) a1 i) (by simp) fun h2 V' f2 l2 a2 => ?_
    exact ih (by has) a2

/-- `Equidistance.transform`, `_Equidistance.py` 35-69. -/
def hEquidistance (k : Int) (Z : Nat) : H α Nat := do
  let D ← getContents Z
  let R ← mCreate (Factory.zeros (D.rows : Int) k)
  hEquiLoop k Z D.cols R (pyRange 0 k)
  pure R

theorem hEquidistance_sim (k : Int) {h : Heap α} {Z : Nat} {C : Mat α} (hZ : Has h Z C) :
    Heap.Sim [] h (hEquidistance k Z) (equidistance k C) (New h) := by
  unfold hEquidistance equidistance
  have lZ := hZ.1
  refine Heap.Sim.look hZ ?_
  refine Heap.Sim.own (sim_create _) fun h1 R V f1 l1 g1 u1 a1 => ?_
  rw [← bind_ok_right (equiLoop k C (pyRange 0 k) V)]
  refine Heap.Sim.upd (hEquiLoop_sim k (C := C) (by omega) _ (by has) a1) (by simp) fun h2 V' f2 l2 a2 => ?_
  exact Heap.Sim.ret ⟨by omega, a2⟩

end filter

end Verif
