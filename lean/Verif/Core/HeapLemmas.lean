import Verif.Core.Heap
import Verif.Core.MatLemmas

/-! # Helper lemmas about the object heap -/

namespace Verif
namespace Heap
variable {α : Type}

/-- The references stored in the caches of an object. -/
def cacheRefs (h : Heap α) (r : Nat) : List Nat :=
  (match (h.objs r).eig with | some (a, b) => [a, b] | none => []) ++
  (match (h.objs r).svd with | some (a, b, c) => [a, b, c] | none => [])

/-- Well-formed heaps: allocated buffers, injective layouts, one object per buffer, live caches. -/
structure WF (h : Heap α) : Prop where
  buf_lt : ∀ r < h.nobj, (h.objs r).arr.buf < h.nbuf
  inj : ∀ r < h.nobj, ∀ i j i' j', (h.objs r).arr.off i j = (h.objs r).arr.off i' j' → i = i' ∧ j = j'
  sep : ∀ r < h.nobj, ∀ s < h.nobj, (h.objs r).arr.buf = (h.objs s).arr.buf → r = s
  refs : ∀ r < h.nobj, ∀ c ∈ cacheRefs h r, c < h.nobj

/-- The heap after allocating a new matrix object with the given contents. -/
def allocH (h : Heap α) (M : Mat α) : Heap α :=
  { bufs := Function.update h.bufs h.nbuf fun o =>
      (M.entry? (o / M.cols) (o % M.cols)).getD (h.bufs h.nbuf o)
    nbuf := h.nbuf + 1
    objs := Function.update h.objs h.nobj
      ⟨⟨h.nbuf, M.rows, M.cols, fun i j => i * M.cols + j⟩, none, none⟩
    nobj := h.nobj + 1 }

theorem alloc_run (M : Mat α) (h : Heap α) :
    (do let a ← npAlloc M; newObj a : H α Nat) h = (.ok h.nobj, allocH h M) := rfl

theorem mCopy_run (r : Nat) (h : Heap α) : mCopy r h = (.ok h.nobj, allocH h (h.contents r)) := rfl

theorem mTranspose_run (r : Nat) (h : Heap α) :
    mTranspose r h = (.ok h.nobj, allocH h (h.contents r).transpose) := rfl

theorem mPure1_run (f : Mat α → Except PyErr (Mat α)) (r : Nat) (h : Heap α) :
    mPure1 f r h = match f (h.contents r) with
      | .ok M => (.ok h.nobj, allocH h M)
      | .error e => (.error e, h) := by
  show H.bind _ _ h = _
  simp only [H.bind, H.lift, bind]
  cases f (h.contents r) <;> rfl

theorem mPure2_run (f : Mat α → Mat α → Except PyErr (Mat α)) (r s : Nat) (h : Heap α) :
    mPure2 f r s h = match f (h.contents r) (h.contents s) with
      | .ok M => (.ok h.nobj, allocH h M)
      | .error e => (.error e, h) := by
  show H.bind _ _ h = _
  simp only [H.bind, H.lift, bind]
  cases f (h.contents r) (h.contents s) <;> rfl

section alloc
variable (h : Heap α) (M : Mat α)

@[simp] theorem allocH_nobj : (allocH h M).nobj = h.nobj + 1 := rfl
@[simp] theorem allocH_nbuf : (allocH h M).nbuf = h.nbuf + 1 := rfl

theorem allocH_objs_old {r : Nat} (hr : r < h.nobj) : (allocH h M).objs r = h.objs r := by
  simp only [allocH]
  exact Function.update_of_ne (by omega) _ _

theorem allocH_objs_new : (allocH h M).objs h.nobj =
    ⟨⟨h.nbuf, M.rows, M.cols, fun i j => i * M.cols + j⟩, none, none⟩ := by
  simp [allocH]

theorem allocH_contents_old (hw : WF h) {r : Nat} (hr : r < h.nobj) :
    (allocH h M).contents r = h.contents r := by
  unfold contents
  rw [allocH_objs_old h M hr]
  unfold read
  refine Mat.mk_congr fun i j => ?_
  simp only [Matrix.of_apply, allocH]
  rw [Function.update_of_ne]
  exact Nat.ne_of_lt (hw.buf_lt r hr)

theorem div_mod_aux {c i j : Nat} (hj : j < c) : (i * c + j) / c = i ∧ (i * c + j) % c = j := by
  constructor
  · rw [Nat.add_comm, Nat.add_mul_div_right _ _ (by omega), Nat.div_eq_of_lt hj, Nat.zero_add]
  · rw [Nat.add_comm, Nat.add_mul_mod_self_right, Nat.mod_eq_of_lt hj]

theorem allocH_contents_new : (allocH h M).contents h.nobj = M := by
  unfold contents
  rw [allocH_objs_new]
  unfold read
  refine Mat.mk_congr fun i j => ?_
  simp only [Matrix.of_apply, allocH]
  rw [Function.update_self, (div_mod_aux j.2).1, (div_mod_aux j.2).2, Mat.entry?_mk]
  rfl

theorem allocH_cacheRefs_old {r : Nat} (hr : r < h.nobj) :
    cacheRefs (allocH h M) r = cacheRefs h r := by
  unfold cacheRefs; rw [allocH_objs_old h M hr]

theorem allocH_cacheRefs_new : cacheRefs (allocH h M) h.nobj = [] := by
  unfold cacheRefs; rw [allocH_objs_new]; rfl

theorem allocH_wf (hw : WF h) : WF (allocH h M) := by
  have hlt : ∀ r, r < h.nobj + 1 → r < h.nobj ∨ r = h.nobj := by intros; omega
  refine ⟨?_, ?_, ?_, ?_⟩
  · intro r hr
    rcases hlt r hr with hr | rfl
    · rw [allocH_objs_old h M hr]
      exact Nat.lt_succ_of_lt (hw.buf_lt r hr)
    · rw [allocH_objs_new]; exact Nat.lt_succ_self _
  · intro r hr
    rcases hlt r hr with hr | rfl
    · rw [allocH_objs_old h M hr]; exact hw.inj r hr
    · rw [allocH_objs_new]
      intro i j i' j' he
      have h1 := (div_mod_aux (i := i.val) j.2)
      have h2 := (div_mod_aux (i := i'.val) j'.2)
      dsimp only at he
      rw [he] at h1
      exact ⟨Fin.ext (h1.1.symm.trans h2.1), Fin.ext (h1.2.symm.trans h2.2)⟩
  · intro r hr s hs he
    rcases hlt r hr with hr | rfl <;> rcases hlt s hs with hs | rfl
    · rw [allocH_objs_old h M hr, allocH_objs_old h M hs] at he
      exact hw.sep r hr s hs he
    · rw [allocH_objs_old h M hr, allocH_objs_new] at he
      exact absurd he (Nat.ne_of_lt (hw.buf_lt r hr))
    · rw [allocH_objs_old h M hs, allocH_objs_new] at he
      exact absurd he.symm (Nat.ne_of_lt (hw.buf_lt s hs))
    · rfl
  · intro r hr c hc
    rcases hlt r hr with hr | rfl
    · rw [allocH_cacheRefs_old h M hr] at hc
      exact Nat.lt_succ_of_lt (hw.refs r hr c hc)
    · rw [allocH_cacheRefs_new] at hc; cases hc

end alloc

/-! ### writing in place -/

/-- The heap after overwriting the contents of an object. -/
def writeH (h : Heap α) (r : Nat) (M : Mat α) : Heap α := (npWrite (h.objs r).arr M h).2

@[simp] theorem writeH_objs (h : Heap α) (r : Nat) (M : Mat α) : (writeH h r M).objs = h.objs := rfl
@[simp] theorem writeH_nobj (h : Heap α) (r : Nat) (M : Mat α) : (writeH h r M).nobj = h.nobj := rfl
@[simp] theorem writeH_nbuf (h : Heap α) (r : Nat) (M : Mat α) : (writeH h r M).nbuf = h.nbuf := rfl

theorem writeH_wf {h : Heap α} (hw : WF h) (r : Nat) (M : Mat α) : WF (writeH h r M) :=
  ⟨hw.buf_lt, hw.inj, hw.sep, hw.refs⟩

theorem writeH_contents_other {h : Heap α} (hw : WF h) {r s : Nat} (hr : r < h.nobj)
    (hs : s < h.nobj) (hrs : s ≠ r) (M : Mat α) : (writeH h r M).contents s = h.contents s := by
  unfold contents
  rw [writeH_objs]
  unfold read
  refine Mat.mk_congr fun i j => ?_
  simp only [Matrix.of_apply, writeH, npWrite]
  rw [Function.update_of_ne]
  intro he
  exact hrs (hw.sep s hs r hr he)

theorem writeH_contents_self {h : Heap α} (hw : WF h) {r : Nat} (hr : r < h.nobj) (M : Mat α)
    (h1 : M.rows = (h.contents r).rows) (h2 : M.cols = (h.contents r).cols) :
    (writeH h r M).contents r = M := by
  have key : ∀ (i : Fin (h.objs r).arr.rows) (j : Fin (h.objs r).arr.cols),
      some ((writeH h r M).bufs (h.objs r).arr.buf ((h.objs r).arr.off i j)) = M.entry? i j := by
    intro i j
    have hfind : ((List.finRange (h.objs r).arr.rows).flatMap fun i =>
          (List.finRange (h.objs r).arr.cols).map fun j => (i, j)).find?
          (fun c => (h.objs r).arr.off c.1 c.2 == (h.objs r).arr.off i j) = some (i, j) := by
      cases hf : ((List.finRange (h.objs r).arr.rows).flatMap fun i =>
          (List.finRange (h.objs r).arr.cols).map fun j => (i, j)).find?
          (fun c => (h.objs r).arr.off c.1 c.2 == (h.objs r).arr.off i j) with
      | none =>
        rw [List.find?_eq_none] at hf
        exact absurd (beq_self_eq_true _) (hf (i, j) (List.mem_flatMap.2 ⟨i, List.mem_finRange _,
          List.mem_map.2 ⟨j, List.mem_finRange _, rfl⟩⟩))
      | some c =>
        have := List.find?_some hf
        obtain ⟨e1, e2⟩ := hw.inj r hr _ _ _ _ (beq_iff_eq.1 this)
        rw [Option.some_inj]
        exact Prod.ext e1 e2
    simp only [writeH, npWrite]
    rw [Function.update_self, hfind]
    have h1' : i.val < M.rows := by rw [h1]; exact i.2
    have h2' : j.val < M.cols := by rw [h2]; exact j.2
    have := Mat.entry?_mk M ⟨i, h1'⟩ ⟨j, h2'⟩
    simp only [] at this
    simp only []
    rw [this]; rfl
  refine Mat.ext' h1.symm h2.symm fun i j => ?_
  have hk := key i j
  have := Mat.entry?_mk M (i.cast h1.symm) (j.cast h2.symm)
  exact Option.some.inj (hk.trans this)

theorem writeH_cacheRefs (h : Heap α) (r : Nat) (M : Mat α) (s : Nat) :
    cacheRefs (writeH h r M) s = cacheRefs h s := rfl

/-! ### cache coherence -/

variable [Mul α] [Neg α] [One α]

/-- The caches of object `r` describe its current contents. -/
def CohAt (ops : Ops α) (h : Heap α) (r : Nat) : Prop :=
  (∀ l v, (h.objs r).eig = some (l, v) → ∃ vals vecs, ops.eig (h.contents r) = .ok (vals, vecs) ∧
    h.contents l = vals.transpose ∧ h.contents v = vecs) ∧
  (∀ u s v, (h.objs r).svd = some (u, s, v) → ∃ u₀ s₀ v₀, ops.svd (h.contents r) = .ok (u₀, s₀, v₀) ∧
    h.contents u = Mat.svdU u₀ ∧ h.contents s = s₀ ∧ h.contents v = Mat.svdV v₀)

/-- All caches describe the current contents. -/
def Coh (ops : Ops α) (h : Heap α) : Prop := ∀ r < h.nobj, CohAt ops h r

/-- `h'` results from `h` by a non-mutating call. -/
structure NMut (ops : Ops α) (h h' : Heap α) : Prop where
  wf : WF h'
  le : h.nobj ≤ h'.nobj
  same : ∀ r < h.nobj, h'.contents r = h.contents r
  coh : Coh ops h → Coh ops h'
  refs : ∀ r < h'.nobj, ∀ c ∈ cacheRefs h' r, (r < h.nobj ∧ c ∈ cacheRefs h r) ∨ h.nobj ≤ c

theorem NMut.refl {ops : Ops α} {h : Heap α} (hw : WF h) : NMut ops h h :=
  ⟨hw, le_rfl, fun _ _ => rfl, id, fun _ hr _ hc => .inl ⟨hr, hc⟩⟩

theorem NMut.trans {ops : Ops α} {h h' h'' : Heap α} (a : NMut ops h h') (b : NMut ops h' h'') :
    NMut ops h h'' := by
  refine ⟨b.wf, a.le.trans b.le, fun r hr => ?_, fun hc => b.coh (a.coh hc), fun r hr c hc => ?_⟩
  · rw [b.same r (lt_of_lt_of_le hr a.le), a.same r hr]
  · rcases b.refs r hr c hc with ⟨h1, h2⟩ | h1
    · exact a.refs r h1 c h2
    · exact .inr (a.le.trans h1)

omit [Mul α] [Neg α] [One α] in
theorem cacheRefs_eig {h : Heap α} {r l v : Nat} (he : (h.objs r).eig = some (l, v)) :
    l ∈ cacheRefs h r ∧ v ∈ cacheRefs h r := by
  unfold cacheRefs; rw [he]; simp

omit [Mul α] [Neg α] [One α] in
theorem cacheRefs_svd {h : Heap α} {r u s v : Nat} (he : (h.objs r).svd = some (u, s, v)) :
    u ∈ cacheRefs h r ∧ s ∈ cacheRefs h r ∧ v ∈ cacheRefs h r := by
  unfold cacheRefs; rw [he]; simp

/-- Coherence of one object only depends on its caches and the contents involved. -/
theorem CohAt.congr {ops : Ops α} {h h' : Heap α} {r : Nat} (hc : CohAt ops h r)
    (he : (h'.objs r).eig = (h.objs r).eig) (hs : (h'.objs r).svd = (h.objs r).svd)
    (hr : h'.contents r = h.contents r) (hx : ∀ c ∈ cacheRefs h r, h'.contents c = h.contents c) :
    CohAt ops h' r := by
  constructor
  · intro l v hlv
    rw [he] at hlv
    obtain ⟨vals, vecs, h1, h2, h3⟩ := hc.1 l v hlv
    have := cacheRefs_eig hlv
    exact ⟨vals, vecs, by rw [hr, h1], by rw [hx l this.1, h2], by rw [hx v this.2, h3]⟩
  · intro u s v husv
    rw [hs] at husv
    obtain ⟨u₀, s₀, v₀, h1, h2, h3, h4⟩ := hc.2 u s v husv
    have := cacheRefs_svd husv
    exact ⟨u₀, s₀, v₀, by rw [hr, h1], by rw [hx u this.1, h2], by rw [hx s this.2.1, h3],
      by rw [hx v this.2.2, h4]⟩

theorem NMut.alloc {ops : Ops α} {h : Heap α} (hw : WF h) (M : Mat α) :
    NMut ops h (allocH h M) := by
  refine ⟨allocH_wf h M hw, Nat.le_succ _, fun r hr => allocH_contents_old h M hw hr, ?_, ?_⟩
  · intro hc r hr
    by_cases hlt : r < h.nobj
    · refine (hc r hlt).congr ?_ ?_ (allocH_contents_old h M hw hlt) fun c hcr =>
        allocH_contents_old h M hw (hw.refs r hlt c hcr)
      · rw [allocH_objs_old h M hlt]
      · rw [allocH_objs_old h M hlt]
    · have : r = h.nobj := by have : r < h.nobj + 1 := hr; omega
      subst this
      constructor
      · intro l v hlv; rw [allocH_objs_new] at hlv; cases hlv
      · intro u s v hlv; rw [allocH_objs_new] at hlv; cases hlv
  · intro r hr c hc
    by_cases hlt : r < h.nobj
    · rw [allocH_cacheRefs_old h M hlt] at hc; exact .inl ⟨hlt, hc⟩
    · have : r = h.nobj := by have : r < h.nobj + 1 := hr; omega
      subst this
      rw [allocH_cacheRefs_new] at hc; cases hc

/-- Writing to an object that no old reference can reach. -/
theorem NMut.writeFresh {ops : Ops α} {h : Heap α} (hw : WF h) (M N : Mat α) :
    NMut ops h (writeH (allocH h M) h.nobj N) := by
  have a := NMut.alloc (ops := ops) hw M
  have hn : h.nobj < (allocH h M).nobj := Nat.lt_succ_self _
  have other : ∀ r < h.nobj, (writeH (allocH h M) h.nobj N).contents r = h.contents r := by
    intro r hr
    rw [writeH_contents_other a.wf hn (Nat.lt_succ_of_lt hr) (Nat.ne_of_lt hr), a.same r hr]
  refine ⟨writeH_wf a.wf _ _, a.le, other, ?_, a.refs⟩
  intro hc r hr
  by_cases hlt : r < h.nobj
  · refine (hc r hlt).congr ?_ ?_ (other r hlt) fun c hcr => other c (hw.refs r hlt c hcr)
    · rw [writeH_objs, allocH_objs_old h M hlt]
    · rw [writeH_objs, allocH_objs_old h M hlt]
  · have : r = h.nobj := by have : r < h.nobj + 1 := hr; omega
    subst this
    constructor
    · intro l v hlv; rw [writeH_objs, allocH_objs_new] at hlv; cases hlv
    · intro u s v hlv; rw [writeH_objs, allocH_objs_new] at hlv; cases hlv

/-- Set the eigen cache of an object. -/
def setEigH (h : Heap α) (r : Nat) (c : Option (Nat × Nat)) : Heap α := (setEig r c h).2
/-- Set the SVD cache of an object. -/
def setSvdH (h : Heap α) (r : Nat) (c : Option (Nat × Nat × Nat)) : Heap α := (setSvd r c h).2

omit [Mul α] [Neg α] [One α] in
theorem setEigH_objs (h : Heap α) (r : Nat) (c) (s : Nat) : (setEigH h r c).objs s =
    if s = r then { h.objs r with eig := c } else h.objs s := by
  simp only [setEigH, setEig, Function.update_apply]
omit [Mul α] [Neg α] [One α] in
theorem setSvdH_objs (h : Heap α) (r : Nat) (c) (s : Nat) : (setSvdH h r c).objs s =
    if s = r then { h.objs r with svd := c } else h.objs s := by
  simp only [setSvdH, setSvd, Function.update_apply]

omit [Mul α] [Neg α] [One α] in
theorem setEigH_contents (h : Heap α) (r : Nat) (c) (s : Nat) :
    (setEigH h r c).contents s = h.contents s := by
  have : ((setEigH h r c).objs s).arr = (h.objs s).arr := by
    rw [setEigH_objs]; split
    · subst s; rfl
    · rfl
  unfold contents; rw [this]; rfl
omit [Mul α] [Neg α] [One α] in
theorem setSvdH_contents (h : Heap α) (r : Nat) (c) (s : Nat) :
    (setSvdH h r c).contents s = h.contents s := by
  have : ((setSvdH h r c).objs s).arr = (h.objs s).arr := by
    rw [setSvdH_objs]; split
    · subst s; rfl
    · rfl
  unfold contents; rw [this]; rfl

omit [Mul α] [Neg α] [One α] in
/-- Changing only caches keeps the buffer structure. -/
theorem wf_of_arr {h h' : Heap α} (hw : WF h) (hn : h'.nobj = h.nobj) (hb : h'.nbuf = h.nbuf)
    (ha : ∀ r, (h'.objs r).arr = (h.objs r).arr)
    (hrefs : ∀ r < h.nobj, ∀ c ∈ cacheRefs h' r, c < h.nobj) : WF h' := by
  refine ⟨?_, ?_, ?_, ?_⟩
  · intro r hr; rw [ha, hb]; exact hw.buf_lt r (hn ▸ hr)
  · intro r hr; rw [ha]; exact hw.inj r (hn ▸ hr)
  · intro r hr s hs; rw [ha, ha]; exact hw.sep r (hn ▸ hr) s (hn ▸ hs)
  · intro r hr c hc; rw [hn]; exact hrefs r (hn ▸ hr) c hc

omit [Mul α] [Neg α] [One α] in
theorem setEigH_arr (h : Heap α) (r : Nat) (c) (s : Nat) :
    ((setEigH h r c).objs s).arr = (h.objs s).arr := by
  rw [setEigH_objs]; split
  · subst s; rfl
  · rfl
omit [Mul α] [Neg α] [One α] in
theorem setSvdH_arr (h : Heap α) (r : Nat) (c) (s : Nat) :
    ((setSvdH h r c).objs s).arr = (h.objs s).arr := by
  rw [setSvdH_objs]; split
  · subst s; rfl
  · rfl

omit [Mul α] [Neg α] [One α] in
theorem setEigH_refs {h : Heap α} {r s x : Nat} {c : Option (Nat × Nat)}
    (hx : x ∈ cacheRefs (setEigH h r c) s) :
    x ∈ cacheRefs h s ∨ (s = r ∧ ∃ p, c = some p ∧ (x = p.1 ∨ x = p.2)) := by
  unfold cacheRefs at hx
  rw [setEigH_objs] at hx
  by_cases hs : s = r
  · rw [if_pos hs] at hx
    simp only [List.mem_append] at hx
    rcases hx with hx | hx
    · cases c with
      | none => cases hx
      | some p => exact .inr ⟨hs, p, rfl, by simpa using hx⟩
    · left; unfold cacheRefs; rw [List.mem_append]; right; subst hs; exact hx
  · rw [if_neg hs] at hx; exact .inl hx
omit [Mul α] [Neg α] [One α] in
theorem setSvdH_refs {h : Heap α} {r s x : Nat} {c : Option (Nat × Nat × Nat)}
    (hx : x ∈ cacheRefs (setSvdH h r c) s) :
    x ∈ cacheRefs h s ∨ (s = r ∧ ∃ p, c = some p ∧ (x = p.1 ∨ x = p.2.1 ∨ x = p.2.2)) := by
  unfold cacheRefs at hx
  rw [setSvdH_objs] at hx
  by_cases hs : s = r
  · rw [if_pos hs] at hx
    simp only [List.mem_append] at hx
    rcases hx with hx | hx
    · left; unfold cacheRefs; rw [List.mem_append]; left; subst hs; exact hx
    · cases c with
      | none => cases hx
      | some p => exact .inr ⟨hs, p, rfl, by simpa using hx⟩
  · rw [if_neg hs] at hx; exact .inl hx

/-- Filling the eigen cache with references to new objects holding the right values. -/
theorem NMut.setEig {ops : Ops α} {h₀ h : Heap α} (a : NMut ops h₀ h) {r l v : Nat}
    (hl : l < h.nobj) (hv : v < h.nobj) (hl₀ : h₀.nobj ≤ l) (hv₀ : h₀.nobj ≤ v) {vals vecs : Mat α}
    (he : ops.eig (h.contents r) = .ok (vals, vecs)) (h1 : h.contents l = vals.transpose)
    (h2 : h.contents v = vecs) : NMut ops h₀ (setEigH h r (some (l, v))) := by
  refine ⟨?_, a.le, ?_, ?_, ?_⟩
  · refine wf_of_arr a.wf rfl rfl (setEigH_arr h r _) fun s hs c hc => ?_
    rcases setEigH_refs hc with hc | ⟨_, p, hp, hx⟩
    · exact a.wf.refs s hs c hc
    · cases hp; rcases hx with rfl | rfl <;> assumption
  · intro s hs; rw [setEigH_contents, a.same s hs]
  · intro hc s hs
    have ho := a.coh hc s hs
    refine ⟨?_, ?_⟩
    · intro l' v' hlv
      rw [setEigH_objs] at hlv
      by_cases hsr : s = r
      · rw [if_pos hsr] at hlv
        cases hlv
        subst hsr
        exact ⟨vals, vecs, by rw [setEigH_contents]; exact he, by rw [setEigH_contents]; exact h1,
          by rw [setEigH_contents]; exact h2⟩
      · rw [if_neg hsr] at hlv
        obtain ⟨a1, a2, a3, a4, a5⟩ := ho.1 l' v' hlv
        exact ⟨a1, a2, by rw [setEigH_contents]; exact a3, by rw [setEigH_contents]; exact a4,
          by rw [setEigH_contents]; exact a5⟩
    · intro u s' v' hlv
      have : ((setEigH h r (some (l, v))).objs s).svd = (h.objs s).svd := by
        rw [setEigH_objs]; split
        · subst s; rfl
        · rfl
      rw [this] at hlv
      obtain ⟨a1, a2, a3, a4, a5, a6, a7⟩ := ho.2 u s' v' hlv
      exact ⟨a1, a2, a3, by rw [setEigH_contents]; exact a4, by rw [setEigH_contents]; exact a5,
          by rw [setEigH_contents]; exact a6, by rw [setEigH_contents]; exact a7⟩
  · intro s hs c hc
    rcases setEigH_refs hc with hc | ⟨_, p, hp, hx⟩
    · exact a.refs s hs c hc
    · cases hp; rcases hx with rfl | rfl <;> right <;> assumption

/-- Filling the SVD cache. -/
theorem NMut.setSvd {ops : Ops α} {h₀ h : Heap α} (a : NMut ops h₀ h) {r u t v : Nat}
    (hu : u < h.nobj) (ht : t < h.nobj) (hv : v < h.nobj) (hu₀ : h₀.nobj ≤ u) (ht₀ : h₀.nobj ≤ t)
    (hv₀ : h₀.nobj ≤ v) {mu mt mv : Mat α}
    (he : ops.svd (h.contents r) = .ok (mu, mt, mv)) (h1 : h.contents u = Mat.svdU mu)
    (h2 : h.contents t = mt) (h3 : h.contents v = Mat.svdV mv) :
    NMut ops h₀ (setSvdH h r (some (u, t, v))) := by
  refine ⟨?_, a.le, ?_, ?_, ?_⟩
  · refine wf_of_arr a.wf rfl rfl (setSvdH_arr h r _) fun s hs c hc => ?_
    rcases setSvdH_refs hc with hc | ⟨_, p, hp, hx⟩
    · exact a.wf.refs s hs c hc
    · cases hp; rcases hx with rfl | rfl | rfl <;> assumption
  · intro s hs; rw [setSvdH_contents, a.same s hs]
  · intro hc s hs
    have ho := a.coh hc s hs
    refine ⟨?_, ?_⟩
    · intro l' v' hlv
      have : ((setSvdH h r (some (u, t, v))).objs s).eig = (h.objs s).eig := by
        rw [setSvdH_objs]; split
        · subst s; rfl
        · rfl
      rw [this] at hlv
      obtain ⟨a1, a2, a3, a4, a5⟩ := ho.1 l' v' hlv
      exact ⟨a1, a2, by rw [setSvdH_contents]; exact a3, by rw [setSvdH_contents]; exact a4,
          by rw [setSvdH_contents]; exact a5⟩
    · intro u' s' v' hlv
      rw [setSvdH_objs] at hlv
      by_cases hsr : s = r
      · rw [if_pos hsr] at hlv
        cases hlv
        subst hsr
        exact ⟨mu, mt, mv, by rw [setSvdH_contents]; exact he, by rw [setSvdH_contents]; exact h1,
          by rw [setSvdH_contents]; exact h2, by rw [setSvdH_contents]; exact h3⟩
      · rw [if_neg hsr] at hlv
        obtain ⟨a1, a2, a3, a4, a5, a6, a7⟩ := ho.2 u' s' v' hlv
        exact ⟨a1, a2, a3, by rw [setSvdH_contents]; exact a4, by rw [setSvdH_contents]; exact a5,
          by rw [setSvdH_contents]; exact a6, by rw [setSvdH_contents]; exact a7⟩
  · intro s hs c hc
    rcases setSvdH_refs hc with hc | ⟨_, p, hp, hx⟩
    · exact a.refs s hs c hc
    · cases hp; rcases hx with rfl | rfl | rfl <;> right <;> assumption

/-! ### the decompositions -/

/-- What `make_eigenvalue_decomposition` does: without a cache it evaluates the solver on the
current contents. -/
theorem makeEig_run (ops : Ops α) (r : Nat) (h : Heap α) (hw : WF h) (hr : r < h.nobj)  :
    NMut ops h (makeEig ops r h).2 ∧
    (∀ c, (makeEig ops r h).1 = .ok c → ((makeEig ops r h).2.objs r).eig = some c) ∧
    (∀ e, (makeEig ops r h).1 = .error e → ops.eig (h.contents r) = .error e ∧
      (h.objs r).eig = none) := by
  unfold makeEig
  cases hc : (h.objs r).eig with
  | some c =>
    refine ⟨NMut.refl hw, ?_, ?_⟩
    · intro c' h'; simp only [] at h' ⊢; cases h'; exact hc
    · intro e h'; simp only [] at h'; cases h'
  | none =>
    simp only []
    cases he : ops.eig (h.contents r) with
    | error e =>
      have hrun : (do
        let M ← getContents r
        let (vals, vecs) ← H.lift (ops.eig M)
        let a ← newObj (← npAlloc vals)
        let l ← mTranspose a
        let v ← newObj (← npAlloc vecs)
        setEig r (some (l, v))
        pure (l, v) : H α (Nat × Nat)) h = (.error e, h) := by
        simp only [bind, H.bind, getContents, H.lift, he]
      rw [hrun]
      refine ⟨NMut.refl hw, ?_, ?_⟩
      · intro c h'; cases h'
      · intro e' h'; cases h'; exact ⟨rfl, trivial⟩
    | ok p =>
      obtain ⟨vals, vecs⟩ := p
      let h1 := allocH h vals
      let h2 := allocH h1 (h1.contents h.nobj).transpose
      let h3 := allocH h2 vecs
      have hrun : (do
        let M ← getContents r
        let (vals, vecs) ← H.lift (ops.eig M)
        let a ← newObj (← npAlloc vals)
        let l ← mTranspose a
        let v ← newObj (← npAlloc vecs)
        setEig r (some (l, v))
        pure (l, v) : H α (Nat × Nat)) h =
          (.ok (h1.nobj, h2.nobj), setEigH h3 r (some (h1.nobj, h2.nobj))) := by
        simp only [bind, H.bind, getContents, H.lift, he]
        rfl
      rw [hrun]
      have n1 : NMut ops h h1 := NMut.alloc hw vals
      have n2 : NMut ops h1 h2 := NMut.alloc n1.wf _
      have n3 : NMut ops h2 h3 := NMut.alloc n2.wf _
      have n13 := (n1.trans n2).trans n3
      refine ⟨n13.setEig (vals := vals) (vecs := vecs) ?_ ?_ ?_ ?_ ?_ ?_ ?_, ?_, ?_⟩
      · show h.nobj + 1 < h.nobj + 1 + 1 + 1; omega
      · show h.nobj + 1 + 1 < h.nobj + 1 + 1 + 1; omega
      · show h.nobj ≤ h.nobj + 1; omega
      · show h.nobj ≤ h.nobj + 1 + 1; omega
      · rw [n13.same r hr, he]
      · rw [n3.same h1.nobj (Nat.lt_succ_self _), allocH_contents_new, allocH_contents_new]
      · exact allocH_contents_new h2 vecs
      · intro c h'; cases h'; rw [setEigH_objs, if_pos rfl]
      · intro e h'; cases h'

theorem makeSvd_run (ops : Ops α) (r : Nat) (h : Heap α) (hw : WF h) (hr : r < h.nobj) :
    NMut ops h (makeSvd ops r h).2 ∧
    (∀ e, (makeSvd ops r h).1 = .error e ↔ ops.svd (h.contents r) = .error e) ∧
    (∀ c, (makeSvd ops r h).1 = .ok c → ((makeSvd ops r h).2.objs r).svd = some c ∧
      c.1 < (makeSvd ops r h).2.nobj ∧ c.2.1 < (makeSvd ops r h).2.nobj ∧
      c.2.2 < (makeSvd ops r h).2.nobj ∧
      ∃ u s v, ops.svd (h.contents r) = .ok (u, s, v) ∧
        (makeSvd ops r h).2.contents c.1 = Mat.svdU u ∧ (makeSvd ops r h).2.contents c.2.1 = s ∧
        (makeSvd ops r h).2.contents c.2.2 = Mat.svdV v) := by
  cases he : ops.svd (h.contents r) with
  | error e =>
    have hrun : makeSvd ops r h = (.error e, h) := by
      simp only [makeSvd, bind, H.bind, getContents, H.lift, he]
    rw [hrun]
    refine ⟨NMut.refl hw, fun e' => ?_, ?_⟩
    · simp
    · intro c h'; cases h'
  | ok p =>
    obtain ⟨u, s, v⟩ := p
    let h1 := allocH h (Mat.svdU u)
    let h2 := allocH h1 s
    let h3 := allocH h2 (Mat.svdV v)
    have hrun : makeSvd ops r h = (.ok (h.nobj, h1.nobj, h2.nobj),
        setSvdH h3 r (some (h.nobj, h1.nobj, h2.nobj))) := by
      simp only [makeSvd, bind, H.bind, getContents, H.lift, he]
      rfl
    rw [hrun]
    have n1 : NMut ops h h1 := NMut.alloc hw _
    have n2 : NMut ops h1 h2 := NMut.alloc n1.wf _
    have n3 : NMut ops h2 h3 := NMut.alloc n2.wf _
    have n13 := (n1.trans n2).trans n3
    have l0 : h.nobj < h3.nobj := by show h.nobj < h.nobj + 1 + 1 + 1; omega
    have l1 : h1.nobj < h3.nobj := by show h.nobj + 1 < h.nobj + 1 + 1 + 1; omega
    have l2 : h2.nobj < h3.nobj := by show h.nobj + 1 + 1 < h.nobj + 1 + 1 + 1; omega
    have c0 : h3.contents h.nobj = Mat.svdU u := by
      rw [(n2.trans n3).same h.nobj (Nat.lt_succ_self _)]
      exact allocH_contents_new h _
    have c1 : h3.contents h1.nobj = s := by
      rw [n3.same h1.nobj (Nat.lt_succ_self _)]
      exact allocH_contents_new h1 _
    have c2 : h3.contents h2.nobj = Mat.svdV v := allocH_contents_new h2 _
    refine ⟨n13.setSvd (mu := u) (mt := s) (mv := v) l0 l1 l2 le_rfl n1.le (n1.trans n2).le
      (by rw [n13.same r hr, he]) c0 c1 c2, fun e' => ?_, ?_⟩
    · simp
    · intro c h'
      cases h'
      refine ⟨by rw [setSvdH_objs, if_pos rfl], l0, l1, l2, u, s, v, rfl, ?_, ?_, ?_⟩
      · rw [setSvdH_contents]; exact c0
      · rw [setSvdH_contents]; exact c1
      · rw [setSvdH_contents]; exact c2

end Heap
end Verif
