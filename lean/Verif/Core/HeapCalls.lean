import Verif.Core.HeapLemmas

/-! # Helper lemmas about the matrix calls of the heap model -/

namespace Verif
namespace Heap
variable {α : Type} [Mul α] [Neg α] [One α] [Zero α]

omit [Mul α] [Neg α] [One α] [Zero α] in
theorem bind_run {β γ : Type} (x : H α β) (k : β → H α γ) (h : Heap α) :
    (x >>= k) h = match (x h).1 with
      | .ok b => k b (x h).2
      | .error e => (.error e, (x h).2) := by
  show H.bind x k h = _
  unfold H.bind
  rcases x h with ⟨r, h'⟩
  cases r <;> rfl

omit [Mul α] [Neg α] [One α] [Zero α] in
theorem getContents_run (r : Nat) (h : Heap α) : getContents r h = (.ok (h.contents r), h) := rfl

/-- A non-mutating call that, when it returns, returns an object nobody else knows. -/
def Good (ops : Ops α) (h : Heap α) (res : Except PyErr Nat × Heap α) : Prop :=
  NMut ops h res.2 ∧ ∀ r, res.1 = .ok r →
    r < res.2.nobj ∧ h.nobj ≤ r ∧ ∀ s < res.2.nobj, r ∉ cacheRefs res.2 s

omit [Zero α] in
theorem Good.trans {ops : Ops α} {h h' : Heap α} {res} (a : NMut ops h h') (b : Good ops h' res) :
    Good ops h res :=
  ⟨a.trans b.1, fun r hr => ⟨(b.2 r hr).1, a.le.trans (b.2 r hr).2.1, (b.2 r hr).2.2⟩⟩

omit [Zero α] in
theorem Good.error {ops : Ops α} {h h' : Heap α} (a : NMut ops h h') (e : PyErr) :
    Good ops h (.error e, h') := ⟨a, fun r hr => by cases hr⟩

omit [Zero α] in
theorem Good.alloc (ops : Ops α) {h : Heap α} (hw : WF h) (M : Mat α) :
    Good ops h (.ok h.nobj, allocH h M) := by
  refine ⟨NMut.alloc hw M, ?_⟩
  intro r hr
  cases hr
  refine ⟨Nat.lt_succ_self _, le_rfl, ?_⟩
  intro s hs hmem
  rcases Nat.lt_succ_iff_lt_or_eq.1 hs with hs | rfl
  · rw [allocH_cacheRefs_old h M hs] at hmem
    exact absurd (hw.refs s hs _ hmem) (lt_irrefl _)
  · rw [allocH_cacheRefs_new] at hmem; cases hmem

omit [Zero α] in
theorem Good.copy (ops : Ops α) {h : Heap α} (hw : WF h) (r : Nat) : Good ops h (mCopy r h) := by
  rw [mCopy_run]; exact Good.alloc ops hw _

omit [Zero α] in
theorem Good.transpose (ops : Ops α) {h : Heap α} (hw : WF h) (r : Nat) :
    Good ops h (mTranspose r h) := by
  rw [mTranspose_run]; exact Good.alloc ops hw _

omit [Zero α] in
theorem Good.pure1 (ops : Ops α) {h : Heap α} (hw : WF h) (f) (r : Nat) :
    Good ops h (mPure1 f r h) := by
  rw [mPure1_run]
  split
  · exact Good.alloc ops hw _
  · exact Good.error (NMut.refl hw) _

omit [Zero α] in
theorem Good.pure2 (ops : Ops α) {h : Heap α} (hw : WF h) (f) (r s : Nat) :
    Good ops h (mPure2 f r s h) := by
  rw [mPure2_run]
  split
  · exact Good.alloc ops hw _
  · exact Good.error (NMut.refl hw) _

omit [Zero α] in
theorem Good.writeFresh (ops : Ops α) {h : Heap α} (hw : WF h) (M N : Mat α) :
    Good ops h (.ok h.nobj, writeH (allocH h M) h.nobj N) :=
  ⟨NMut.writeFresh hw M N, (Good.alloc ops hw M).2⟩

omit [Mul α] [Neg α] [One α] [Zero α] in
theorem mVectorOpModify_run (f : α → α → α) (r v : Nat) (h : Heap α) :
    mVectorOpModify f r v h = match (h.contents r).vectorOp f (h.contents v) with
      | .ok M => (.ok (), writeH h r M)
      | .error e => (.error e, h) := by
  show H.bind _ _ h = _
  simp only [H.bind, H.lift, bind]
  cases hv : (h.contents r).vectorOp f (h.contents v) <;> rfl

omit [Mul α] [Neg α] [One α] [Zero α] in
theorem mVectorOp_run (f : α → α → α) (r v : Nat) (h : Heap α) :
    mVectorOp f r v h = match ((allocH h (h.contents r)).contents h.nobj).vectorOp f
        ((allocH h (h.contents r)).contents v) with
      | .ok M => (.ok h.nobj, writeH (allocH h (h.contents r)) h.nobj M)
      | .error e => (.error e, allocH h (h.contents r)) := by
  unfold mVectorOp
  rw [bind_run, mCopy_run]
  simp only []
  rw [bind_run, mVectorOpModify_run]
  cases ((allocH h (h.contents r)).contents h.nobj).vectorOp f
    ((allocH h (h.contents r)).contents v) <;> rfl

omit [Zero α] in
theorem Good.vectorOp (ops : Ops α) {h : Heap α} (hw : WF h) (f) (r v : Nat) :
    Good ops h (mVectorOp f r v h) := by
  rw [mVectorOp_run]
  split
  · exact Good.writeFresh ops hw _ _
  · exact Good.error (NMut.alloc hw _) _

omit [Mul α] [Neg α] [One α] [Zero α] in
theorem mApply_run (f : α → α) (r : Nat) (h : Heap α) :
    mApply f r h = (.ok h.nobj, writeH (allocH h (h.contents r)) h.nobj
      (((allocH h (h.contents r)).contents h.nobj).map f)) := rfl

omit [Zero α] in
theorem Good.apply (ops : Ops α) {h : Heap α} (hw : WF h) (f : α → α) (r : Nat) :
    Good ops h (mApply f r h) := by
  rw [mApply_run]; exact Good.writeFresh ops hw _ _

/-! ### flipping a fresh object -/

/-- Replace the array of an object by its flipped view. -/
def flipH (h : Heap α) (e : Nat) : Heap α := (setArr e (npFlipView (h.objs e).arr) h).2

omit [Mul α] [Neg α] [One α] [Zero α] in
theorem flipH_objs (h : Heap α) (e s : Nat) : (flipH h e).objs s =
    if s = e then { h.objs e with arr := npFlipView (h.objs e).arr } else h.objs s := by
  simp only [flipH, setArr, Function.update_apply]

omit [Mul α] [Neg α] [One α] [Zero α] in
theorem flipH_contents_other (h : Heap α) {e s : Nat} (hs : s ≠ e) :
    (flipH h e).contents s = h.contents s := by
  unfold contents; rw [flipH_objs, if_neg hs]; rfl

omit [Mul α] [Neg α] [One α] [Zero α] in
theorem flipH_contents_self (h : Heap α) (e : Nat) :
    (flipH h e).contents e = (h.contents e).flip := by
  unfold contents; rw [flipH_objs, if_pos rfl]; rfl

omit [Mul α] [Neg α] [One α] [Zero α] in
theorem flipH_cacheRefs (h : Heap α) (e s : Nat) : cacheRefs (flipH h e) s = cacheRefs h s := by
  unfold cacheRefs
  by_cases hs : s = e
  · rw [flipH_objs, if_pos hs]; subst hs; rfl
  · rw [flipH_objs, if_neg hs]

omit [Mul α] [Neg α] [One α] [Zero α] in
theorem flipH_wf {h : Heap α} (hw : WF h) (e : Nat) : WF (flipH h e) := by
  have hb : ∀ s, ((flipH h e).objs s).arr.buf = (h.objs s).arr.buf := by
    intro s; rw [flipH_objs]; split
    · subst s; rfl
    · rfl
  refine ⟨?_, ?_, ?_, ?_⟩
  · intro r hr; rw [hb]; exact hw.buf_lt r hr
  · intro r hr
    by_cases hre : r = e
    · subst hre
      rw [flipH_objs, if_pos rfl]
      intro i j i' j' he
      obtain ⟨e1, e2⟩ := hw.inj r hr _ _ _ _ he
      exact ⟨Fin.rev_injective e1, Fin.rev_injective e2⟩
    · rw [flipH_objs, if_neg hre]; exact hw.inj r hr
  · intro r hr s hs; rw [hb, hb]; exact hw.sep r hr s hs
  · intro r hr c hc; rw [flipH_cacheRefs] at hc; exact hw.refs r hr c hc

omit [Zero α] in
theorem Good.flip {ops : Ops α} {h h' : Heap α} {e : Nat} (g : Good ops h (.ok e, h'))
    (hno : cacheRefs h' e = []) : Good ops h (.ok e, flipH h' e) := by
  obtain ⟨g1, g2⟩ := g
  obtain ⟨p1, p2, p3⟩ := g2 e rfl
  have old : ∀ s < h.nobj, s ≠ e := fun s hs => by omega
  refine ⟨⟨flipH_wf g1.wf e, g1.le, ?_, ?_, ?_⟩, ?_⟩
  · intro r hr; rw [flipH_contents_other _ (old r hr), g1.same r hr]
  · intro hc r hr
    have hcr := g1.coh hc r hr
    by_cases hre : r = e
    · subst hre
      constructor
      · intro l v hlv
        have : l ∈ cacheRefs (flipH h' r) r := (cacheRefs_eig hlv).1
        rw [flipH_cacheRefs, hno] at this; cases this
      · intro l s v hlv
        have : l ∈ cacheRefs (flipH h' r) r := (cacheRefs_svd hlv).1
        rw [flipH_cacheRefs, hno] at this; cases this
    · refine hcr.congr ?_ ?_ (flipH_contents_other _ hre) fun c hcc => flipH_contents_other _ ?_
      · rw [flipH_objs, if_neg hre]
      · rw [flipH_objs, if_neg hre]
      · rintro rfl; exact p3 r hr hcc
  · intro r hr c hc
    rw [flipH_cacheRefs] at hc
    exact g1.refs r hr c hc
  · intro r hr
    cases hr
    exact ⟨p1, p2, fun s hs => by rw [flipH_cacheRefs]; exact p3 s hs⟩

/-! ### decomposition accessors -/

omit [Zero α] in
theorem Good.bind_makeEig (ops : Ops α) {h : Heap α} (hw : WF h) {r : Nat} (hr : r < h.nobj)
    (k : Nat × Nat → H α Nat)
    (hk : ∀ c h', NMut ops h h' → (h'.objs r).eig = some c → Good ops h' (k c h')) :
    Good ops h ((makeEig ops r >>= k) h) := by
  obtain ⟨h1, h2, _⟩ := makeEig_run ops r h hw hr
  rw [bind_run]
  cases hc : (makeEig ops r h).1 with
  | ok c => exact Good.trans h1 (hk c _ h1 (h2 c hc))
  | error e => exact Good.error h1 e

omit [Zero α] in
theorem Good.bind_makeSvd (ops : Ops α) {h : Heap α} (hw : WF h) {r : Nat} (hr : r < h.nobj)
    (k : Nat × Nat × Nat → H α Nat)
    (hk : ∀ c h', NMut ops h h' → Good ops h' (k c h')) :
    Good ops h ((makeSvd ops r >>= k) h) := by
  obtain ⟨h1, _, _⟩ := makeSvd_run ops r h hw hr
  rw [bind_run]
  cases hc : (makeSvd ops r h).1 with
  | ok c => exact Good.trans h1 (hk c _ h1)
  | error e => exact Good.error h1 e

omit [Zero α] in
theorem Good.eigenvectors (ops : Ops α) {h : Heap α} (hw : WF h) {r : Nat} (hr : r < h.nobj) :
    Good ops h (mEigenvectors ops r h) :=
  Good.bind_makeEig ops hw hr _ fun c _ n _ => Good.copy ops n.wf c.2

omit [Zero α] in
theorem Good.eigenvalues (ops : Ops α) {h : Heap α} (hw : WF h) {r : Nat} (hr : r < h.nobj) :
    Good ops h (mEigenvalues ops r h) :=
  Good.bind_makeEig ops hw hr _ fun c _ n _ => Good.copy ops n.wf c.1

theorem Good.eigD (ops : Ops α) {h : Heap α} (hw : WF h) {r : Nat} (hr : r < h.nobj) :
    Good ops h (mEigD ops r h) :=
  Good.bind_makeEig ops hw hr _ fun c _ n _ => Good.pure1 ops n.wf _ c.1

omit [Zero α] in
theorem Good.eigenvectorsSorted (ops : Ops α) {h : Heap α} (hw : WF h) {r : Nat} (hr : r < h.nobj)
    (asc : Bool) : Good ops h (mEigenvectorsSorted ops r asc h) :=
  Good.bind_makeEig ops hw hr _ fun c h' n _ =>
    Good.pure2 ops n.wf (fun vals vecs => Mat.eigenvectorsSorted ops.le (h'.contents r).rows vals vecs asc)
      c.1 c.2

/-- The heap after `get_eigenvalues_sorted` when the cache holds `l`. -/
def eigvalsSortedH (ops : Ops α) (h : Heap α) (l : Nat) (asc : Bool) : Heap α :=
  let h2 := allocH h (h.contents l)
  let h3 := writeH h2 h.nobj ((h2.contents h.nobj).sortColumns ops.le)
  if asc then h3 else flipH h3 h.nobj

omit [Mul α] [Neg α] [One α] [Zero α] in
theorem mEigenvaluesSorted_run (ops : Ops α) (r : Nat) (asc : Bool) (h : Heap α) :
    mEigenvaluesSorted ops r asc h = match (makeEig ops r h).1 with
      | .ok c => (.ok (makeEig ops r h).2.nobj, eigvalsSortedH ops (makeEig ops r h).2 c.1 asc)
      | .error e => (.error e, (makeEig ops r h).2) := by
  unfold mEigenvaluesSorted mEigenvalues
  rw [bind_run, bind_run]
  cases hc : (makeEig ops r h).1 with
  | error e => rfl
  | ok c => cases asc <;> rfl

omit [Zero α] in
theorem Good.eigenvaluesSorted (ops : Ops α) {h : Heap α} (hw : WF h) {r : Nat} (hr : r < h.nobj)
    (asc : Bool) : Good ops h (mEigenvaluesSorted ops r asc h) := by
  rw [mEigenvaluesSorted_run]
  obtain ⟨h1, h2, _⟩ := makeEig_run ops r h hw hr
  cases hc : (makeEig ops r h).1 with
  | error e => exact Good.error h1 e
  | ok c =>
    refine Good.trans h1 ?_
    unfold eigvalsSortedH
    have g := Good.writeFresh ops h1.wf ((makeEig ops r h).2.contents c.1)
      (((allocH (makeEig ops r h).2 ((makeEig ops r h).2.contents c.1)).contents
        (makeEig ops r h).2.nobj).sortColumns ops.le)
    cases asc
    · exact g.flip (allocH_cacheRefs_new _ _)
    · exact g

omit [Zero α] in
theorem Good.svdU (ops : Ops α) {h : Heap α} (hw : WF h) {r : Nat} (hr : r < h.nobj) :
    Good ops h (mSvdU ops r h) :=
  Good.bind_makeSvd ops hw hr _ fun c _ n => Good.copy ops n.wf c.1

omit [Zero α] in
theorem Good.svdV (ops : Ops α) {h : Heap α} (hw : WF h) {r : Nat} (hr : r < h.nobj) :
    Good ops h (mSvdV ops r h) :=
  Good.bind_makeSvd ops hw hr _ fun c _ n => Good.copy ops n.wf c.2.2

theorem Good.svdS (ops : Ops α) {h : Heap α} (hw : WF h) {r : Nat} (hr : r < h.nobj) :
    Good ops h (mSvdS ops r h) :=
  Good.bind_makeSvd ops hw hr _ fun c _ n => Good.pure1 ops n.wf _ c.2.1

omit [Zero α] in
theorem Good.singularValues (ops : Ops α) {h : Heap α} (hw : WF h) (r : Nat) :
    Good ops h (mSingularValues r h) := by
  unfold mSingularValues
  split
  · exact Good.error (NMut.refl hw) _
  · exact Good.transpose ops hw _

/-! ### in-place methods -/

/-- `h'` results from `h` by an in-place method on object `t`. -/
structure Inpl (h h' : Heap α) (t : Nat) : Prop where
  wf : WF h'
  nobj : h'.nobj = h.nobj
  same : ∀ r < h.nobj, r ≠ t → h'.contents r = h.contents r
  eig : ∀ r, r ≠ t → (h'.objs r).eig = (h.objs r).eig
  svd : ∀ r, r ≠ t → (h'.objs r).svd = (h.objs r).svd
  refs : ∀ r, ∀ c ∈ cacheRefs h' r, c ∈ cacheRefs h r

/-- The heap after `reset_cache`. -/
def resetH (h : Heap α) (r : Nat) : Heap α := setSvdH (setEigH h r none) r none

omit [Mul α] [Neg α] [One α] [Zero α] in
theorem resetCache_run (r : Nat) (h : Heap α) : resetCache r h = (.ok (), resetH h r) := rfl

omit [Mul α] [Neg α] [One α] [Zero α] in
theorem resetH_refs {h : Heap α} {t r c : Nat} (hc : c ∈ cacheRefs (resetH h t) r) :
    c ∈ cacheRefs h r := by
  rcases setSvdH_refs hc with hc | ⟨_, _, hp, _⟩
  · rcases setEigH_refs hc with hc | ⟨_, _, hp, _⟩
    · exact hc
    · cases hp
  · cases hp

omit [Mul α] [Neg α] [One α] [Zero α] in
theorem resetH_contents (h : Heap α) (t r : Nat) : (resetH h t).contents r = h.contents r := by
  unfold resetH; rw [setSvdH_contents, setEigH_contents]

omit [Mul α] [Neg α] [One α] [Zero α] in
theorem resetH_inpl {h : Heap α} (hw : WF h) (t : Nat) : Inpl h (resetH h t) t := by
  refine ⟨?_, rfl, fun r _ _ => resetH_contents h t r, ?_, ?_, fun r c hc => resetH_refs hc⟩
  · refine wf_of_arr hw rfl rfl ?_ fun s hs c hc => hw.refs s hs c (resetH_refs hc)
    intro s; unfold resetH; rw [setSvdH_arr, setEigH_arr]
  · intro r hr; unfold resetH; rw [setSvdH_objs, if_neg hr, setEigH_objs, if_neg hr]
  · intro r hr; unfold resetH; rw [setSvdH_objs, if_neg hr, setEigH_objs, if_neg hr]

omit [Mul α] [Neg α] [One α] [Zero α] in
theorem resetH_none (h : Heap α) (t : Nat) :
    ((resetH h t).objs t).eig = none ∧ ((resetH h t).objs t).svd = none := by
  unfold resetH
  rw [setSvdH_objs, if_pos rfl, setEigH_objs, if_pos rfl]
  exact ⟨rfl, rfl⟩

omit [Mul α] [Neg α] [One α] [Zero α] in
theorem writeH_inpl {h : Heap α} (hw : WF h) {t : Nat} (ht : t < h.nobj) (M : Mat α) :
    Inpl h (writeH h t M) t :=
  ⟨writeH_wf hw t M, rfl, fun _ hr hrt => writeH_contents_other hw ht hr hrt M,
    fun _ _ => rfl, fun _ _ => rfl, fun _ _ hc => hc⟩

omit [Mul α] [Neg α] [One α] [Zero α] in
theorem Inpl.trans {h h' h'' : Heap α} {t : Nat} (a : Inpl h h' t) (b : Inpl h' h'' t) :
    Inpl h h'' t :=
  ⟨b.wf, b.nobj.trans a.nobj,
    fun r hr hrt => (b.same r (a.nobj ▸ hr) hrt).trans (a.same r hr hrt),
    fun r hrt => (b.eig r hrt).trans (a.eig r hrt), fun r hrt => (b.svd r hrt).trans (a.svd r hrt),
    fun r c hc => a.refs r c (b.refs r c hc)⟩

omit [Mul α] [Neg α] [One α] [Zero α] in
theorem Inpl.refl {h : Heap α} (hw : WF h) (t : Nat) : Inpl h h t :=
  ⟨hw, rfl, fun _ _ _ => rfl, fun _ _ => rfl, fun _ _ => rfl, fun _ _ hc => hc⟩

omit [Mul α] [Neg α] [One α] [Zero α] in
theorem mSet_run (r : Nat) (i j : Int) (v : α) (h : Heap α) :
    mSet r i j v h = match (h.contents r).set i j v with
      | .ok M => (.ok (), writeH (resetH h r) r M)
      | .error e => (.error e, resetH h r) := by
  unfold mSet
  rw [bind_run, resetCache_run]
  simp only []
  rw [bind_run, getContents_run]
  simp only [resetH_contents]
  rw [bind_run]
  simp only [H.lift]
  cases (h.contents r).set i j v <;> rfl

omit [Mul α] [Neg α] [One α] [Zero α] in
theorem mSetRow_run (r : Nat) (i : Int) (v : Nat) (h : Heap α) :
    mSetRow r i v h = match (h.contents v).mustBeVector with
      | .error e => (.error e, h)
      | .ok _ => match (h.contents r).setRow i (h.contents v) with
        | .ok M => (.ok (), writeH (resetH h r) r M)
        | .error e => (.error e, resetH h r) := by
  unfold mSetRow
  rw [bind_run, getContents_run]
  simp only []
  rw [bind_run]
  simp only [H.lift]
  cases (h.contents v).mustBeVector with
  | error e => rfl
  | ok u =>
    simp only []
    rw [bind_run, resetCache_run]
    simp only []
    rw [bind_run, getContents_run]
    simp only [resetH_contents]
    rw [bind_run]
    cases (h.contents r).setRow i (h.contents v) <;> rfl

omit [Mul α] [Neg α] [One α] [Zero α] in
theorem mSetColumn_run (r : Nat) (j : Int) (v : Nat) (h : Heap α) :
    mSetColumn r j v h = match (h.contents v).mustBeVector with
      | .error e => (.error e, h)
      | .ok _ => match (h.contents r).setColumn j (h.contents v) with
        | .ok M => (.ok (), writeH (resetH h r) r M)
        | .error e => (.error e, resetH h r) := by
  unfold mSetColumn
  rw [bind_run, getContents_run]
  simp only []
  rw [bind_run]
  simp only [H.lift]
  cases (h.contents v).mustBeVector with
  | error e => rfl
  | ok u =>
    simp only []
    rw [bind_run, resetCache_run]
    simp only []
    rw [bind_run, getContents_run]
    simp only [resetH_contents]
    rw [bind_run]
    cases (h.contents r).setColumn j (h.contents v) <;> rfl

omit [Mul α] [Neg α] [One α] [Zero α] in
theorem mFillDiagonal_run (r : Nat) (v : α) (h : Heap α) :
    mFillDiagonal r v h = (.ok (), writeH h r ((h.contents r).fillDiagonal v)) := rfl

omit [Mul α] [Neg α] [One α] [Zero α] in
theorem arg_bind {β : Type} (env : List Nat) (x : Nat) (k : Nat → H α β) (h : Heap α) :
    (arg env x >>= k) h = match env[x]? with
      | some r => k r h
      | none => (.error .nameError, h) := by
  rw [bind_run]
  unfold arg
  cases env[x]? <;> rfl

omit [Mul α] [Neg α] [One α] [Zero α] in
theorem map_run (x : H α Nat) (h : Heap α) :
    (some <$> x) h = match (x h).1 with
      | .ok b => (.ok (some b), (x h).2)
      | .error e => (.error e, (x h).2) := by
  show (x >>= fun a => pure (some a)) h = _
  rw [bind_run]
  cases (x h).1 <;> rfl

omit [Zero α] in
theorem Inpl.coh {ops : Ops α} {h h' : Heap α} {t : Nat} (a : Inpl h h' t) (hw : WF h)
    (hc : Coh ops h) (he : (h'.objs t).eig = none) (hs : (h'.objs t).svd = none)
    (hpriv : ∀ r < h.nobj, t ∉ cacheRefs h r) : Coh ops h' := by
  intro r hr
  rw [a.nobj] at hr
  by_cases hrt : r = t
  · subst hrt
    constructor
    · intro l v hlv; rw [he] at hlv; cases hlv
    · intro l s v hlv; rw [hs] at hlv; cases hlv
  · refine (hc r hr).congr (a.eig r hrt) (a.svd r hrt) (a.same r hr hrt) fun c hcc => ?_
    refine a.same c (hw.refs r hr c hcc) ?_
    rintro rfl; exact hpriv r hr hcc

end Heap
end Verif
