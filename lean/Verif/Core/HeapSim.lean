import Verif.Core.HeapCalls
import Verif.Core.Loop

/-!
# Programs over matrix objects refine functions over matrix values

The algorithms are modelled in `Verif/Alg` as functions on matrix *values*.  The Python code works on matrix *objects*,
some of which it changes in place.  `Sim` relates a program on objects to a function on values: same result or same exception,
and no object that existed before is changed, except those listed.
-/

namespace Verif
theorem bind_ok_right {β : Type} (x : Except PyErr β) : (x >>= Except.ok) = x := by cases x <;> rfl

namespace Heap

variable {α β γ δ ε σ τ : Type}

/-- `h'` is reached from `h` without changing any object of `h` outside of `L`. -/
structure Frame (L : List Nat) (h h' : Heap α) : Prop where
  wf : WF h'
  le : h.nobj ≤ h'.nobj
  same : ∀ r < h.nobj, r ∉ L → h'.contents r = h.contents r

theorem Frame.refl (L : List Nat) {h : Heap α} (hw : WF h) : Frame L h h := ⟨hw, le_rfl, fun _ _ _ => rfl⟩

/-- Composition; objects allocated on the way may be changed freely. -/
theorem Frame.trans {L L1 L2 : List Nat} {h h' h'' : Heap α} (a : Frame L1 h h') (b : Frame L2 h' h'')
    (h1 : ∀ r ∈ L1, r ∈ L ∨ h.nobj ≤ r) (h2 : ∀ r ∈ L2, r ∈ L ∨ h.nobj ≤ r) : Frame L h h'' := by
  refine ⟨b.wf, a.le.trans b.le, fun r hr hL => ?_⟩
  have e1 : r ∉ L1 := fun hm => (h1 r hm).elim hL fun hle => by omega
  have e2 : r ∉ L2 := fun hm => (h2 r hm).elim hL fun hle => by omega
  rw [b.same r (lt_of_lt_of_le hr a.le) e2, a.same r hr e1]

/-- Object `r` exists and holds the matrix `M`. -/
def Has (h : Heap α) (r : Nat) (M : Mat α) : Prop := r < h.nobj ∧ h.contents r = M

theorem Has.mono {L : List Nat} {h h' : Heap α} {r : Nat} {M : Mat α} (f : Frame L h h') (hr : Has h r M) (hL : r ∉ L) : Has h' r M :=
  ⟨lt_of_lt_of_le hr.1 f.le, (f.same r hr.1 hL).trans hr.2⟩

/-- Same outcome up to a relation of the results. -/
inductive Agree (R : β → γ → Prop) : Except PyErr β → Except PyErr γ → Prop
  | ok {b c} (h : R b c) : Agree R (.ok b) (.ok c)
  | error (e) : Agree R (.error e) (.error e)

/-- The program `x` started on `h` does what the function value `m` says, changing only objects of `L`. -/
def Sim (L : List Nat) (h : Heap α) (x : H α β) (m : Except PyErr γ) (R : Heap α → β → γ → Prop) : Prop :=
  WF h → Frame L h (x h).2 ∧ Agree (R (x h).2) (x h).1 m

theorem Sim.post {L : List Nat} {h : Heap α} {x : H α β} {m : Except PyErr γ} {R S : Heap α → β → γ → Prop}
    (hx : Sim L h x m R) (hS : ∀ h' b c, Frame L h h' → R h' b c → S h' b c) : Sim L h x m S := by
  intro hw
  obtain ⟨f, a⟩ := hx hw
  refine ⟨f, ?_⟩
  generalize (x h).1 = y at a
  cases a with
  | ok hr => exact .ok (hS _ _ _ f hr)
  | error e => exact .error e

theorem Sim.ret {L : List Nat} {h : Heap α} {b : β} {c : γ} {R : Heap α → β → γ → Prop} (hR : R h b c) :
    Sim L h (pure b) (.ok c) R := fun hw => ⟨.refl L hw, .ok hR⟩

/-- Sequencing.  `L2` may contain objects allocated by the first part. -/
theorem Sim.bind2 {L L1 : List Nat} {h : Heap α} {x : H α β} {m : Except PyErr γ} {R : Heap α → β → γ → Prop}
    {f : β → H α δ} {g : γ → Except PyErr ε} {S : Heap α → δ → ε → Prop} (hx : Sim L1 h x m R)
    (hL : ∀ r ∈ L1, r ∈ L ∨ h.nobj ≤ r)
    (k : ∀ h' b c, Frame L1 h h' → R h' b c → ∃ L2, (∀ r ∈ L2, r ∈ L ∨ h.nobj ≤ r) ∧ Sim L2 h' (f b) (g c) S) :
    Sim L h (x >>= f) (m >>= g) S := by
  intro hw
  obtain ⟨fr, a⟩ := hx hw
  rw [bind_run]
  rcases hxh : x h with ⟨y, h1⟩
  rw [hxh] at fr a
  simp only [] at fr a ⊢
  cases a with
  | ok hr =>
    obtain ⟨L2, hL2, hs⟩ := k h1 _ _ fr hr
    obtain ⟨f2, a2⟩ := hs fr.wf
    exact ⟨fr.trans f2 hL hL2, a2⟩
  | error e => exact ⟨fr.trans (.refl [] fr.wf) hL (by simp), .error e⟩

theorem Sim.bind {L L1 : List Nat} {h : Heap α} {x : H α β} {m : Except PyErr γ} {R : Heap α → β → γ → Prop}
    {f : β → H α δ} {g : γ → Except PyErr ε} {S : Heap α → δ → ε → Prop} (hx : Sim L1 h x m R)
    (hL : ∀ r ∈ L1, r ∈ L) (k : ∀ h' b c, Frame L1 h h' → R h' b c → Sim L h' (f b) (g c) S) :
    Sim L h (x >>= f) (m >>= g) S :=
  hx.bind2 (fun r hr => .inl (hL r hr)) fun h' b c hf hr => ⟨L, fun _ hr => .inl hr, k h' b c hf hr⟩

/-- A step of the program that the function does not spell out. -/
theorem Sim.left {L L1 : List Nat} {h : Heap α} {x : H α β} {c : γ} {m : Except PyErr ε} {R : Heap α → β → γ → Prop}
    {f : β → H α δ} {S : Heap α → δ → ε → Prop} (hx : Sim L1 h x (.ok c) R) (hL : ∀ r ∈ L1, r ∈ L)
    (k : ∀ h' b, Frame L1 h h' → R h' b c → Sim L h' (f b) m S) : Sim L h (x >>= f) m S := by
  have hx' : Sim L1 h x (.ok c) fun h' b c' => R h' b c := by
    intro hw
    obtain ⟨fr, a⟩ := hx hw
    refine ⟨fr, ?_⟩
    generalize (x h).1 = y at a
    cases a with
    | ok hr => exact .ok hr
  exact Sim.bind (g := fun _ => m) hx' hL fun h' b _ hf hr => k h' b hf hr

/-- A newly allocated object. -/
def New (h h' : Heap α) (r : Nat) (M : Mat α) : Prop := h.nobj ≤ r ∧ Has h' r M

/-- A new object made from a value or an exception: the factory functions. -/
def mCreate (x : Except PyErr (Mat α)) : H α Nat := do
  let M ← H.lift x
  let a ← npAlloc M
  newObj a

/-- A number read off a matrix (`as_real`, `mean(-1)`, `num_rows`, …). -/
def mScalar1 (f : Mat α → Except PyErr β) (r : Nat) : H α β := do
  let M ← getContents r
  H.lift (f M)

/-- A number read off two matrices (`vector_dot`). -/
def mScalar2 (f : Mat α → Mat α → Except PyErr β) (r s : Nat) : H α β := do
  let M ← getContents r
  let N ← getContents s
  H.lift (f M N)

section ops
variable {h : Heap α}

theorem Frame.alloc (hw : WF h) (M : Mat α) : Frame [] h (allocH h M) :=
  ⟨allocH_wf h M hw, Nat.le_succ _, fun _ hr _ => allocH_contents_old h M hw hr⟩

theorem New.alloc (M : Mat α) : New h (allocH h M) h.nobj M :=
  ⟨le_rfl, Nat.lt_succ_self _, allocH_contents_new h M⟩

theorem sim_create (x : Except PyErr (Mat α)) : Sim [] h (mCreate x) x (New h) := by
  intro hw
  cases x with
  | ok M => exact ⟨Frame.alloc hw M, .ok (New.alloc M)⟩
  | error e => exact ⟨.refl [] hw, .error e⟩

theorem sim_pure1 {f : Mat α → Except PyErr (Mat α)} {r : Nat} {M : Mat α} (hr : Has h r M) :
    Sim [] h (mPure1 f r) (f M) (New h) := by
  intro hw
  rw [mPure1_run, hr.2]
  cases f M with
  | ok M => exact ⟨Frame.alloc hw M, .ok (New.alloc M)⟩
  | error e => exact ⟨.refl [] hw, .error e⟩

theorem sim_pure2 {f : Mat α → Mat α → Except PyErr (Mat α)} {r s : Nat} {M N : Mat α} (hr : Has h r M) (hs : Has h s N) :
    Sim [] h (mPure2 f r s) (f M N) (New h) := by
  intro hw
  rw [mPure2_run, hr.2, hs.2]
  cases f M N with
  | ok M => exact ⟨Frame.alloc hw M, .ok (New.alloc M)⟩
  | error e => exact ⟨.refl [] hw, .error e⟩

theorem sim_copy {r : Nat} {M : Mat α} (hr : Has h r M) : Sim [] h (mCopy r) (.ok M) (New h) := by
  intro hw
  rw [mCopy_run, hr.2]
  exact ⟨Frame.alloc hw M, .ok (New.alloc M)⟩

theorem sim_transpose {r : Nat} {M : Mat α} (hr : Has h r M) : Sim [] h (mTranspose r) (.ok M.transpose) (New h) := by
  intro hw
  rw [mTranspose_run, hr.2]
  exact ⟨Frame.alloc hw _, .ok (New.alloc _)⟩

theorem sim_scalar1 {f : Mat α → Except PyErr β} {r : Nat} {M : Mat α} (hr : Has h r M) :
    Sim [] h (mScalar1 f r) (f M) fun _ b c => b = c := by
  intro hw
  have : mScalar1 f r h = (f M, h) := by rw [← hr.2]; rfl
  rw [this]
  refine ⟨.refl [] hw, ?_⟩
  cases f M with
  | ok b => exact .ok rfl
  | error e => exact .error e

theorem sim_scalar2 {f : Mat α → Mat α → Except PyErr β} {r s : Nat} {M N : Mat α} (hr : Has h r M) (hs : Has h s N) :
    Sim [] h (mScalar2 f r s) (f M N) fun _ b c => b = c := by
  intro hw
  have : mScalar2 f r s h = (f M N, h) := by rw [← hr.2, ← hs.2]; rfl
  rw [this]
  refine ⟨.refl [] hw, ?_⟩
  cases f M N with
  | ok b => exact .ok rfl
  | error e => exact .error e

theorem Frame.inpl {h' : Heap α} {t : Nat} (a : Inpl h h' t) : Frame [t] h h' :=
  ⟨a.wf, a.nobj.ge, fun r hr hL => a.same r hr (by simpa using hL)⟩

theorem set_shape {M M' : Mat α} {i j : Int} {v : α} (hM : M.set i j v = .ok M') : M'.rows = M.rows ∧ M'.cols = M.cols := by
  unfold Mat.set at hM
  cases hr : pyIndex M.rows i with
  | error e => rw [hr] at hM; cases hM
  | ok r =>
    cases hc : pyIndex M.cols j with
    | error e => rw [hr, hc] at hM; cases hM
    | ok c => rw [hr, hc] at hM; cases hM; exact ⟨rfl, rfl⟩

theorem setColumn_shape {M M' V : Mat α} {j : Int} (hM : M.setColumn j V = .ok M') : M'.rows = M.rows ∧ M'.cols = M.cols := by
  unfold Mat.setColumn at hM
  cases hv : V.mustBeVector with
  | error e => rw [hv] at hM; cases hM
  | ok u =>
    cases hc : pyIndex M.cols j with
    | error e => rw [hv, hc] at hM; cases hM
    | ok c => rw [hv, hc] at hM; cases hM; exact ⟨rfl, rfl⟩

theorem setRow_shape {M M' V : Mat α} {j : Int} (hM : M.setRow j V = .ok M') : M'.rows = M.rows ∧ M'.cols = M.cols := by
  unfold Mat.setRow at hM
  cases hv : V.mustBeVector with
  | error e => rw [hv] at hM; cases hM
  | ok u =>
    cases hc : pyIndex M.rows j with
    | error e => rw [hv, hc] at hM; cases hM
    | ok c => rw [hv, hc] at hM; cases hM; exact ⟨rfl, rfl⟩

/-- Overwriting after `reset_cache`. -/
theorem reset_write (hw : WF h) {t : Nat} {M M' : Mat α} (ht : Has h t M) (h1 : M'.rows = M.rows ∧ M'.cols = M.cols) :
    Frame [t] h (writeH (resetH h t) t M') ∧ Has (writeH (resetH h t) t M') t M' := by
  have hi := resetH_inpl hw t
  have htn : t < (resetH h t).nobj := ht.1
  refine ⟨Frame.inpl (hi.trans (writeH_inpl hi.wf htn M')), ht.1, ?_⟩
  refine writeH_contents_self hi.wf htn M' ?_ ?_
  · rw [resetH_contents, ht.2]; exact h1.1
  · rw [resetH_contents, ht.2]; exact h1.2

theorem sim_set {t : Nat} {M : Mat α} (ht : Has h t M) (i j : Int) (v : α) :
    Sim [t] h (mSet t i j v) (M.set i j v) fun h' _ M' => Has h' t M' := by
  intro hw
  rw [mSet_run, ht.2]
  cases hM : M.set i j v with
  | error e => exact ⟨Frame.inpl (resetH_inpl hw t), .error e⟩
  | ok M' =>
    have := reset_write hw ht (set_shape hM)
    exact ⟨this.1, .ok this.2⟩

theorem sim_setColumn {t v : Nat} {M V : Mat α} (ht : Has h t M) (hv : Has h v V) (j : Int) :
    Sim [t] h (mSetColumn t j v) (M.setColumn j V) fun h' _ M' => Has h' t M' := by
  intro hw
  rw [mSetColumn_run, ht.2, hv.2]
  cases hV : V.mustBeVector with
  | error e =>
    have : M.setColumn j V = .error e := by unfold Mat.setColumn; rw [hV]; rfl
    rw [this]
    exact ⟨.refl _ hw, .error e⟩
  | ok u =>
    cases hM : M.setColumn j V with
    | error e => exact ⟨Frame.inpl (resetH_inpl hw t), .error e⟩
    | ok M' =>
      have := reset_write hw ht (setColumn_shape hM)
      exact ⟨this.1, .ok this.2⟩

theorem sim_setRow {t v : Nat} {M V : Mat α} (ht : Has h t M) (hv : Has h v V) (j : Int) :
    Sim [t] h (mSetRow t j v) (M.setRow j V) fun h' _ M' => Has h' t M' := by
  intro hw
  rw [mSetRow_run, ht.2, hv.2]
  cases hV : V.mustBeVector with
  | error e =>
    have : M.setRow j V = .error e := by unfold Mat.setRow; rw [hV]; rfl
    rw [this]
    exact ⟨.refl _ hw, .error e⟩
  | ok u =>
    cases hM : M.setRow j V with
    | error e => exact ⟨Frame.inpl (resetH_inpl hw t), .error e⟩
    | ok M' =>
      have := reset_write hw ht (setRow_shape hM)
      exact ⟨this.1, .ok this.2⟩

theorem vectorOp_shape {f : α → α → α} {M M' V : Mat α} (hM : M.vectorOp f V = .ok M') : M'.rows = M.rows ∧ M'.cols = M.cols := by
  unfold Mat.vectorOp at hM
  cases hv : V.mustBeVector with
  | error e => rw [hv] at hM; cases hM
  | ok u =>
    rw [hv] at hM
    by_cases hs : M.vectorSizeMatches V
    · have hM : (if M.vectorSizeMatches V then Except.ok (Mat.broadcastVec f M V) else .error PyErr.valueError) = .ok M' := hM
      rw [if_pos hs] at hM; cases hM; exact ⟨rfl, rfl⟩
    · have hM : (if M.vectorSizeMatches V then Except.ok (Mat.broadcastVec f M V) else .error PyErr.valueError) = .ok M' := hM
      rw [if_neg hs] at hM; cases hM

theorem sub_shape [Sub α] {M N R : Mat α} (hM : M.sub N = .ok R) : R.rows = M.rows ∧ R.cols = M.cols := by
  unfold Mat.sub Mat.zipWith at hM
  split at hM
  · cases hM; exact ⟨rfl, rfl⟩
  · cases hM

theorem sim_vectorOpModify {f : α → α → α} {t v : Nat} {M V : Mat α} (ht : Has h t M) (hv : Has h v V) :
    Sim [t] h (mVectorOpModify f t v) (M.vectorOp f V) fun h' _ M' => Has h' t M' := by
  intro hw
  rw [mVectorOpModify_run, ht.2, hv.2]
  cases hM : M.vectorOp f V with
  | error e => exact ⟨.refl _ hw, .error e⟩
  | ok M' =>
    refine ⟨Frame.inpl (writeH_inpl hw ht.1 M'), .ok ⟨ht.1, writeH_contents_self hw ht.1 M' ?_ ?_⟩⟩
    · rw [ht.2]; exact (vectorOp_shape hM).1
    · rw [ht.2]; exact (vectorOp_shape hM).2

end ops

section rules
variable {L : List Nat} {h : Heap α} {S : Heap α → δ → ε → Prop}

/-- The program allocates, the function computes the value. -/
theorem Sim.new {x : H α Nat} {m : Except PyErr (Mat α)} {f : Nat → H α δ} {g : Mat α → Except PyErr ε} (hx : Sim [] h x m (New h))
    (k : ∀ h' b c, Frame [] h h' → h.nobj ≤ h'.nobj → h.nobj ≤ b → b < h'.nobj → Has h' b c → Sim L h' (f b) (g c) S) :
    Sim L h (x >>= f) (m >>= g) S :=
  hx.bind (by simp) fun h' b c hf hr => k h' b c hf hf.le hr.1 hr.2.1 hr.2

/-- The value the function computes is known. -/
theorem Sim.know {x : H α β} {m : Except PyErr γ} {R : Heap α → β → γ → Prop} (hx : Sim L h x m R) :
    Sim L h x m fun h' b c => R h' b c ∧ m = .ok c := by
  intro hw
  obtain ⟨fr, a⟩ := hx hw
  refine ⟨fr, ?_⟩
  generalize (x h).1 = y at a
  cases a with
  | ok hr => exact .ok ⟨hr, rfl⟩
  | error e => exact .error e

/-- As `Sim.new`, with the value. -/
theorem Sim.new' {x : H α Nat} {m : Except PyErr (Mat α)} {f : Nat → H α δ} {g : Mat α → Except PyErr ε} (hx : Sim [] h x m (New h))
    (k : ∀ h' b c, Frame [] h h' → h.nobj ≤ h'.nobj → h.nobj ≤ b → b < h'.nobj → Has h' b c → m = .ok c → Sim L h' (f b) (g c) S) :
    Sim L h (x >>= f) (m >>= g) S :=
  hx.know.bind (by simp) fun h' b c hf hr => k h' b c hf hf.le hr.1.1 hr.1.2.1 hr.1.2 hr.2

/-- The last statement of a program. -/
theorem Sim.out {x : H α Nat} {m : Except PyErr (Mat α)} {g : Mat α → Except PyErr ε} {S : Heap α → Nat → ε → Prop}
    (hx : Sim [] h x m (New h))
    (k : ∀ h' b c, Frame [] h h' → h.nobj ≤ h'.nobj → h.nobj ≤ b → b < h'.nobj → Has h' b c → m = .ok c → ∃ v, g c = .ok v ∧ S h' b v) :
    Sim L h x (m >>= g) S := by
  have e : x = x >>= pure := by
    funext h
    rw [bind_run]
    cases hx : x h with
    | mk a b => cases a <;> rfl
  rw [e]
  refine hx.new' fun h' b c f l g u a e => ?_
  obtain ⟨v, hv, hs⟩ := k h' b c f l g u a e
  rw [hv]
  exact Sim.ret hs

/-- As `Sim.new`, the program going on to change the new object in place. -/
theorem Sim.own {x : H α Nat} {m : Except PyErr (Mat α)} {f : Nat → H α δ} {g : Mat α → Except PyErr ε} (hx : Sim [] h x m (New h))
    (k : ∀ h' b c, Frame [] h h' → h.nobj ≤ h'.nobj → h.nobj ≤ b → b < h'.nobj → Has h' b c → Sim (b :: L) h' (f b) (g c) S) :
    Sim L h (x >>= f) (m >>= g) S :=
  hx.bind2 (by simp) fun h' b c hf hr => ⟨b :: L, fun r hm => by
    rcases List.mem_cons.mp hm with rfl | hm
    · exact .inr hr.1
    · exact .inl hm, k h' b c hf hf.le hr.1 hr.2.1 hr.2⟩

/-- An intermediate object that the function does not name. -/
theorem Sim.tmp {x : H α Nat} {c : Mat α} {m : Except PyErr ε} {f : Nat → H α δ} (hx : Sim [] h x (.ok c) (New h))
    (k : ∀ h' b, Frame [] h h' → h.nobj ≤ h'.nobj → h.nobj ≤ b → b < h'.nobj → Has h' b c → Sim L h' (f b) m S) :
    Sim L h (x >>= f) m S :=
  hx.left (by simp) fun h' b hf hr => k h' b hf hf.le hr.1 hr.2.1 hr.2

/-- As `Sim.tmp`, the program going on to change the new object in place. -/
theorem Sim.ownTmp {x : H α Nat} {c : Mat α} {m : Except PyErr ε} {f : Nat → H α δ} (hx : Sim [] h x (.ok c) (New h))
    (k : ∀ h' b, Frame [] h h' → h.nobj ≤ h'.nobj → h.nobj ≤ b → b < h'.nobj → Has h' b c → Sim (b :: L) h' (f b) m S) :
    Sim L h (x >>= f) m S := by
  have hx' : Sim [] h x (.ok c) fun h' b _ => New h h' b c := by
    intro hw
    obtain ⟨fr, a⟩ := hx hw
    refine ⟨fr, ?_⟩
    generalize (x h).1 = y at a
    cases a with
    | ok hr => exact .ok hr
  exact Sim.bind2 (g := fun _ => m) hx' (by simp) fun h' b _ hf hr => ⟨b :: L, fun r hm => by
    rcases List.mem_cons.mp hm with rfl | hm
    · exact .inr hr.1
    · exact .inl hm, k h' b hf hf.le hr.1 hr.2.1 hr.2⟩

/-- An in-place method. -/
theorem Sim.upd {t : Nat} {x : H α Unit} {m : Except PyErr (Mat α)} {f : Unit → H α δ} {g : Mat α → Except PyErr ε}
    (hx : Sim [t] h x m fun h' _ M' => Has h' t M') (ht : t ∈ L)
    (k : ∀ h' c, Frame [t] h h' → h.nobj ≤ h'.nobj → Has h' t c → Sim L h' (f ()) (g c) S) : Sim L h (x >>= f) (m >>= g) S :=
  hx.bind (by simpa using ht) fun h' _ c hf hr => k h' c hf hf.le hr

/-- An in-place method that the function does not mirror, because it cannot fail and the object is not read any more. -/
theorem Sim.updTmp {t : Nat} {x : H α Unit} {c : Mat α} {m : Except PyErr ε} {f : Unit → H α δ}
    (hx : Sim [t] h x (.ok c) fun h' _ M' => Has h' t M') (ht : t ∈ L)
    (k : ∀ h', Frame [t] h h' → h.nobj ≤ h'.nobj → Has h' t c → Sim L h' (f ()) m S) : Sim L h (x >>= f) m S :=
  hx.left (by simpa using ht) fun h' _ hf hr => k h' hf hf.le hr

/-- A number. -/
theorem Sim.num1 {f : Mat α → Except PyErr β} {r : Nat} {M : Mat α} {k : β → H α δ} {g : β → Except PyErr ε} (hr : Has h r M)
    (hk : ∀ b, Sim L h (k b) (g b) S) : Sim L h (mScalar1 f r >>= k) (f M >>= g) S := by
  intro hw
  have : (mScalar1 f r >>= k) h = match f M with | .ok b => k b h | .error e => (.error e, h) := by
    have e : mScalar1 f r h = (f M, h) := by rw [← hr.2]; rfl
    rw [bind_run, e]
    cases f M <;> rfl
  rw [this]
  cases f M with
  | ok b => exact hk b hw
  | error e => exact ⟨.refl L hw, .error e⟩

/-- A number that is always defined and that the function model does not name. -/
theorem Sim.numT {f : Mat α → β} {r : Nat} {M : Mat α} {k : β → H α δ} {m : Except PyErr ε} (hr : Has h r M)
    (hk : Sim L h (k (f M)) m S) : Sim L h (mScalar1 (fun M => .ok (f M)) r >>= k) m S := by
  intro hw
  have : (mScalar1 (fun M => .ok (f M)) r >>= k) h = k (f M) h := by rw [← hr.2]; rfl
  rw [this]
  exact hk hw

theorem Sim.num2 {f : Mat α → Mat α → Except PyErr β} {r s : Nat} {M N : Mat α} {k : β → H α δ} {g : β → Except PyErr ε}
    (hr : Has h r M) (hs : Has h s N) (hk : ∀ b, Sim L h (k b) (g b) S) : Sim L h (mScalar2 f r s >>= k) (f M N >>= g) S := by
  intro hw
  have : (mScalar2 f r s >>= k) h = match f M N with | .ok b => k b h | .error e => (.error e, h) := by
    have e : mScalar2 f r s h = (f M N, h) := by rw [← hr.2, ← hs.2]; rfl
    rw [bind_run, e]
    cases f M N <;> rfl
  rw [this]
  cases f M N with
  | ok b => exact hk b hw
  | error e => exact ⟨.refl L hw, .error e⟩

/-- A computation that touches no matrix object. -/
theorem Sim.val {x : Except PyErr β} {k : β → H α δ} {g : β → Except PyErr ε} (hk : ∀ b, Sim L h (k b) (g b) S) :
    Sim L h (H.lift x >>= k) (x >>= g) S := by
  intro hw
  cases x with
  | ok b => exact hk b hw
  | error e => exact ⟨.refl L hw, .error e⟩

/-- The program looks at a matrix (`num_rows`, `num_columns`). -/
theorem Sim.look {r : Nat} {M : Mat α} {k : Mat α → H α δ} {m : Except PyErr ε} (hr : Has h r M)
    (hk : Sim L h (k M) m S) : Sim L h (getContents r >>= k) m S := by
  intro hw
  have : (getContents r >>= k) h = k M h := by rw [bind_run, getContents_run, hr.2]
  rw [this]
  exact hk hw

end rules

/-- `r` is none of the objects changed. -/
macro "sep" : tactic => `(tactic| first
  | exact List.not_mem_nil
  | (simp only [List.mem_cons, List.not_mem_nil, or_false, not_or]; omega))

syntax "has" : tactic
/-- An object still holds what it held before the objects were changed that have been changed since. -/
macro_rules
  | `(tactic| has) => `(tactic| first | assumption | exact Has.mono (by assumption) (by has) (by sep))

/-- `for k in ks: …` on objects. -/
def mLoop (f : Int → σ → H α σ) : List Int → σ → H α σ
  | [], s => pure s
  | k :: ks, s => do
    let s ← f k s
    mLoop f ks s

theorem Sim.loop {L : List Nat} {h0 : Heap α} {f : Int → σ → H α σ} {g : Int → τ → Except PyErr τ} (Inv : Heap α → σ → τ → Prop)
    (ks : List Int) (hstep : ∀ k ∈ ks, ∀ h s v, Frame L h0 h → Inv h s v → Sim L h (f k s) (g k v) Inv) :
    ∀ h s v, Frame L h0 h → Inv h s v → Sim L h (mLoop f ks s) (loopM g ks v) Inv := by
  induction ks with
  | nil => intro h s v _ hi; exact Sim.ret hi
  | cons k ks ih =>
    intro h s v h0h hi
    refine Sim.bind (hstep k List.mem_cons_self h s v h0h hi) (fun _ h => h) fun h' s' v' hf hi' => ?_
    exact ih (fun k hk => hstep k (List.mem_cons_of_mem _ hk)) h' s' v' (h0h.trans hf (fun _ h => .inl h) fun _ h => .inl h) hi'

/-! ## Eigenvectors -/

/-- `get_dominant_eigenvector`, `_Matrix.py` 83-84. -/
def mDominant (ops : Ops α) (r : Nat) : H α Nat := do
  let v ← mEigenvectorsSorted ops r false
  mPure1 (fun M => M.getColumn 0) v

/-- Its value. -/
def dominant (ops : Ops α) (M : Mat α) : Except PyErr (Mat α) := do
  let r ← ops.eig M
  Mat.dominantEigenvector ops.le M.rows r.1.transpose r.2

theorem sim_pure2_clean {h : Heap α} {f : Mat α → Mat α → Except PyErr (Mat α)} {r s : Nat} {M N : Mat α} (hr : Has h r M)
    (hs : Has h s N) : Sim [] h (mPure2 f r s) (f M N) fun h' b c => New h h' b c ∧ (h'.objs b).eig = none := by
  intro hw
  rw [mPure2_run, hr.2, hs.2]
  cases f M N with
  | ok M => exact ⟨Frame.alloc hw M, .ok ⟨New.alloc M, by rw [allocH_objs_new]⟩⟩
  | error e => exact ⟨.refl [] hw, .error e⟩

theorem frame_setEig {h : Heap α} (hw : WF h) (r : Nat) {l v : Nat} (hl : l < h.nobj) (hv : v < h.nobj) :
    Frame [] h (setEigH h r (some (l, v))) := by
  refine ⟨wf_of_arr hw rfl rfl (setEigH_arr h r _) fun s hs c hc => ?_, le_rfl, fun s _ _ => setEigH_contents h r _ s⟩
  rcases setEigH_refs hc with hc | ⟨_, p, hp, hx⟩
  · exact hw.refs s hs c hc
  · cases hp; rcases hx with rfl | rfl <;> assumption

theorem sim_makeEig {h : Heap α} (ops : Ops α) {r : Nat} {M : Mat α} (hr : Has h r M) (hc : (h.objs r).eig = none) :
    Sim [] h (makeEig ops r) (ops.eig M) fun h' b c => New h h' b.1 c.1.transpose ∧ New h h' b.2 c.2 := by
  have e : makeEig ops r h = (getContents r >>= fun M => mScalar1 ops.eig r >>= fun p => mCreate (.ok p.1) >>= fun a =>
      mTranspose a >>= fun l => mCreate (.ok p.2) >>= fun v => setEig r (some (l, v)) >>= fun _ => pure (l, v)) h := by
    unfold makeEig
    rw [hc]
    rfl
  have lr := hr.1
  suffices hs : Sim [] h (getContents r >>= fun M => mScalar1 ops.eig r >>= fun p => mCreate (.ok p.1) >>= fun a =>
      mTranspose a >>= fun l => mCreate (.ok p.2) >>= fun v => setEig r (some (l, v)) >>= fun _ => pure (l, v)) (ops.eig M)
      fun h' b c => New h h' b.1 c.1.transpose ∧ New h h' b.2 c.2 by
    intro hw
    rw [e]
    exact hs hw
  refine Sim.look hr ?_
  rw [← bind_ok_right (ops.eig M)]
  refine Sim.num1 hr fun p => ?_
  refine Sim.tmp (sim_create (.ok p.1)) fun h1 a f1 l1 g1 u1 a1 => ?_
  refine Sim.tmp (sim_transpose a1) fun h2 l f2 l2 g2 u2 a2 => ?_
  refine Sim.tmp (sim_create (.ok p.2)) fun h3 v f3 l3 g3 u3 a3 => ?_
  intro hw
  have hf := frame_setEig hw r (l := l) (v := v) (by omega) u3
  refine ⟨hf, .ok ⟨⟨by show h.nobj ≤ l; omega, ?_⟩, ⟨by show h.nobj ≤ v; omega, ?_⟩⟩⟩
  · exact Has.mono hf (by has) (by sep)
  · exact Has.mono hf a3 (by sep)

theorem sim_dominant {h : Heap α} (ops : Ops α) {r : Nat} {M : Mat α} (hr : Has h r M) (hc : (h.objs r).eig = none) :
    Sim [] h (mDominant ops r) (dominant ops M) (New h) := by
  have lr := hr.1
  unfold mDominant mEigenvectorsSorted dominant Mat.dominantEigenvector
  have e : (do
      let c ← makeEig ops r
      let M ← getContents r
      let v ← mPure2 (fun vals vecs => Mat.eigenvectorsSorted ops.le M.rows vals vecs false) c.1 c.2
      mPure1 (fun M => M.getColumn 0) v : H α Nat) = (do
      let v ← (do
        let c ← makeEig ops r
        let M ← getContents r
        mPure2 (fun vals vecs => Mat.eigenvectorsSorted ops.le M.rows vals vecs false) c.1 c.2)
      mPure1 (fun M => M.getColumn 0) v) := by
    funext h
    simp only [bind_run]
    generalize makeEig ops r h = x
    obtain ⟨a, b⟩ := x
    cases a <;> rfl
  rw [← e]
  refine Sim.bind (sim_makeEig ops hr hc) (fun _ h => h) ?_
  rintro h1 c p f1 ⟨n1, n2⟩
  refine Sim.look (M := M) (by has) ?_
  have l1 := f1.le
  refine Sim.new (sim_pure2 (f := fun vals vecs => Mat.eigenvectorsSorted ops.le M.rows vals vecs false) n1.2 n2.2)
    fun h2 v V f2 l2 g2 u2 a2 => ?_
  exact (sim_pure1 (f := fun M => M.getColumn 0) a2).post fun h3 b c _ hn => ⟨by have := hn.1; omega, hn.2⟩

/-- The dominant eigenvector of a matrix that has just been computed (so that nothing is cached). -/
theorem sim_pure2_dominant {h : Heap α} (ops : Ops α) {f : Mat α → Mat α → Except PyErr (Mat α)} {r s : Nat} {M N : Mat α} (hr : Has h r M)
    (hs : Has h s N) : Sim [] h (mPure2 f r s >>= mDominant ops) (f M N >>= dominant ops) (New h) :=
  (sim_pure2_clean hr hs).bind (fun _ h => h) fun h1 b c f1 hn => (sim_dominant ops hn.1.2 hn.2).post fun h2 b' c' _ hn' =>
    ⟨by have := hn'.1; have := f1.le; omega, hn'.2⟩

/-- How the attributes `A` of a trained object represent a model `M` of the function model: the matrix objects they refer to, and what these
hold. -/
structure Repr (α M A : Type) where
  refs : A → List Nat
  On : M → Heap α → A → Prop
  mono : ∀ {L h h' m a}, Frame L h h' → (∀ r ∈ refs a, r ∉ L) → On m h a → On m h' a

/-- The attributes represent the model and refer to new objects only. -/
def Repr.Fresh {M A : Type} (ρ : Repr α M A) (h h' : Heap α) (a : A) (m : M) : Prop := ρ.On m h' a ∧ ∀ r ∈ ρ.refs a, h.nobj ≤ r

end Heap

end Verif
