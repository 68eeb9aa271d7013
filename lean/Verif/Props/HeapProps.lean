import Verif.Core.HeapCalls

/-!
# C13 Decomposition accessors describe the current contents; C14 results do not alias

Programs are arbitrary finite sequences of public calls on the matrices obtained so far, started
with nothing allocated; calls that raise are caught and the program goes on.  The observations are
the contents of the matrices a program holds (`held`) and the outcome of a further call
(`outcome`).  `np.linalg.eig` and `np.linalg.svd` are arbitrary (`ops`).
-/

namespace Verif.Props
open Verif Heap

variable {α : Type} [Mul α] [Neg α] [One α] [Zero α]

/-! ## Specification vocabulary -/

/-- The position of the matrix an in-place call is invoked on; `none` for the other calls. -/
def target : Call α → Option Nat
  | .set x _ _ _ | .setRow x _ _ | .setColumn x _ _ | .vectorOpModify _ x _ | .fillDiagonal x _ =>
    some x
  | _ => none

/-- The accessor that hands out the cached eigenvector matrix itself. -/
def handsOutCache : Call α → Bool
  | .eigV _ => true
  | _ => false

/-- The in-place calls that do not invalidate the caches. -/
def forgetsReset : Call α → Bool
  | .vectorOpModify _ _ _ | .fillDiagonal _ _ => true
  | _ => false

/-- The contents of the matrix held at position `y`. -/
def held (s : St α) (y : Nat) : Option (Mat α) := s.env[y]?.map s.heap.contents

/-- What a further call shows: the contents of its result, or the exception. -/
def outcome (ops : Ops α) (s : St α) (c : Call α) : Except PyErr (Option (Mat α)) :=
  (exec ops s.env c s.heap).1.map fun r => r.map (exec ops s.env c s.heap).2.contents

/-! ## Invariants -/

/-- The heap is well formed and everything held is allocated. -/
structure Live (s : St α) : Prop where
  wf : WF s.heap
  env : ∀ r ∈ s.env, r < s.heap.nobj

/-- Caches are coherent and private. -/
structure Clean (ops : Ops α) (s : St α) : Prop where
  coh : Coh ops s.heap
  priv : ∀ r ∈ s.env, ∀ t < s.heap.nobj, r ∉ cacheRefs s.heap t

omit [Mul α] [Neg α] [One α] [Zero α] in
theorem live_init (junk : α) : Live (St.init junk) := by
  refine ⟨⟨?_, ?_, ?_, ?_⟩, ?_⟩
  · intro r hr; exact absurd hr (Nat.not_lt_zero r)
  · intro r hr; exact absurd hr (Nat.not_lt_zero r)
  · intro r hr; exact absurd hr (Nat.not_lt_zero r)
  · intro r hr; exact absurd hr (Nat.not_lt_zero r)
  · intro r hr; cases hr

omit [Zero α] in
theorem clean_init (ops : Ops α) (junk : α) : Clean ops (St.init junk) :=
  ⟨fun r hr => absurd hr (Nat.not_lt_zero r), fun r hr => by cases hr⟩

/-- What a non-mutating call other than the leaking accessor does. -/
theorem exec_pure (ops : Ops α) {s : St α} (hl : Live s) (c : Call α) (ht : target c = none)
    (hv : handsOutCache c = false) :
    ∃ res : Except PyErr Nat × Heap α, Good ops s.heap res ∧
      exec ops s.env c s.heap = (res.1.map some, res.2) := by
  have hw := hl.wf
  have one : ∀ (x : Nat) (k : Nat → H α Nat), (∀ r < s.heap.nobj, Good ops s.heap (k r s.heap)) →
      ∃ res : Except PyErr Nat × Heap α, Good ops s.heap res ∧
        (do some <$> k (← arg s.env x) : H α (Option Nat)) s.heap = (res.1.map some, res.2) := by
    intro x k hk
    rw [arg_bind]
    cases hx : s.env[x]? with
    | none => exact ⟨(.error .nameError, s.heap), Good.error (NMut.refl hw) _, rfl⟩
    | some r =>
      refine ⟨k r s.heap, hk r (hl.env r (List.mem_of_getElem? hx)), ?_⟩
      simp only [map_run]
      cases (k r s.heap).1 <;> rfl
  have two : ∀ (x y : Nat) (k : Nat → Nat → H α Nat),
      (∀ r < s.heap.nobj, ∀ t < s.heap.nobj, Good ops s.heap (k r t s.heap)) →
      ∃ res : Except PyErr Nat × Heap α, Good ops s.heap res ∧
        (do some <$> k (← arg s.env x) (← arg s.env y) : H α (Option Nat)) s.heap =
          (res.1.map some, res.2) := by
    intro x y k hk
    rw [arg_bind]
    cases hx : s.env[x]? with
    | none => exact ⟨(.error .nameError, s.heap), Good.error (NMut.refl hw) _, rfl⟩
    | some r =>
      simp only []
      exact one y (k r) (fun t ht => hk r (hl.env r (List.mem_of_getElem? hx)) t ht)
  cases c with
  | create M => exact ⟨_, Good.alloc ops hw M, rfl⟩
  | copy x => exact one x _ fun r _ => Good.copy ops hw r
  | transpose x => exact one x _ fun r _ => Good.transpose ops hw r
  | pure1 f x => exact one x _ fun r _ => Good.pure1 ops hw f r
  | pure2 f x y => exact two x y _ fun r _ t _ => Good.pure2 ops hw f r t
  | vectorOp f x v => exact two x v _ fun r _ t _ => Good.vectorOp ops hw f r t
  | apply f x => exact one x _ fun r _ => Good.apply ops hw f r
  | eigenvectors x => exact one x _ fun r hr => Good.eigenvectors ops hw hr
  | eigenvalues x => exact one x _ fun r hr => Good.eigenvalues ops hw hr
  | eigD x => exact one x _ fun r hr => Good.eigD ops hw hr
  | eigenvaluesSorted x asc =>
    exact one x (fun r => mEigenvaluesSorted ops r asc) fun r hr => Good.eigenvaluesSorted ops hw hr asc
  | eigenvectorsSorted x asc =>
    exact one x (fun r => mEigenvectorsSorted ops r asc) fun r hr => Good.eigenvectorsSorted ops hw hr asc
  | eigV x => cases hv
  | svdU x => exact one x _ fun r hr => Good.svdU ops hw hr
  | svdV x => exact one x _ fun r hr => Good.svdV ops hw hr
  | svdS x => exact one x _ fun r hr => Good.svdS ops hw hr
  | singularValues x => exact one x _ fun r _ => Good.singularValues ops hw r
  | set => cases ht
  | setRow => cases ht
  | setColumn => cases ht
  | vectorOpModify => cases ht
  | fillDiagonal => cases ht

theorem exec_eigV (ops : Ops α) {s : St α} (hl : Live s) (x : Nat) :
    NMut ops s.heap (exec ops s.env (.eigV x) s.heap).2 ∧
    (∀ o, (exec ops s.env (.eigV x) s.heap).1 = .ok o →
      ∃ r, o = some r ∧ r < (exec ops s.env (.eigV x) s.heap).2.nobj) := by
  show NMut ops s.heap ((do some <$> mEigV ops (← arg s.env x) : H α (Option Nat)) s.heap).2 ∧
    (∀ o, ((do some <$> mEigV ops (← arg s.env x) : H α (Option Nat)) s.heap).1 = .ok o →
      ∃ r, o = some r ∧ r < ((do some <$> mEigV ops (← arg s.env x) : H α (Option Nat)) s.heap).2.nobj)
  rw [arg_bind]
  cases hx : s.env[x]? with
  | none => exact ⟨NMut.refl hl.wf, fun o ho => by cases ho⟩
  | some r =>
    have hr := hl.env r (List.mem_of_getElem? hx)
    obtain ⟨h1, h2, _⟩ := makeEig_run ops r s.heap hl.wf hr
    simp only []
    rw [map_run]
    unfold mEigV
    rw [bind_run]
    cases hc : (makeEig ops r s.heap).1 with
    | error e => exact ⟨h1, fun o ho => by cases ho⟩
    | ok c =>
      refine ⟨h1, fun o ho => ?_⟩
      cases ho
      refine ⟨c.2, rfl, ?_⟩
      exact h1.wf.refs r (lt_of_lt_of_le hr h1.le) c.2 (cacheRefs_eig (h2 c hc)).2

/-- What an in-place call does. -/
theorem exec_inplace (ops : Ops α) {s : St α} (hl : Live s) (c : Call α) {x : Nat}
    (ht : target c = some x) :
    (∀ o, (exec ops s.env c s.heap).1 = .ok o → o = none) ∧
    ((exec ops s.env c s.heap).2 = s.heap ∨ ∃ t, s.env[x]? = some t ∧
      Inpl s.heap (exec ops s.env c s.heap).2 t ∧
      (forgetsReset c = false → ((exec ops s.env c s.heap).2.objs t).eig = none ∧
        ((exec ops s.env c s.heap).2.objs t).svd = none)) := by
  have hw := hl.wf
  -- one call `k` returning nothing
  have core : ∀ (x' : Nat) (k : Nat → H α Unit) (fr : Bool),
      (∀ t < s.heap.nobj, (k t s.heap).2 = s.heap ∨ (Inpl s.heap (k t s.heap).2 t ∧
        (fr = false → ((k t s.heap).2.objs t).eig = none ∧ ((k t s.heap).2.objs t).svd = none))) →
      (∀ o, ((do k (← arg s.env x'); pure none : H α (Option Nat)) s.heap).1 = .ok o → o = none) ∧
      (((do k (← arg s.env x'); pure none : H α (Option Nat)) s.heap).2 = s.heap ∨
        ∃ t, s.env[x']? = some t ∧
          Inpl s.heap ((do k (← arg s.env x'); pure none : H α (Option Nat)) s.heap).2 t ∧
          (fr = false →
            (((do k (← arg s.env x'); pure none : H α (Option Nat)) s.heap).2.objs t).eig = none ∧
            (((do k (← arg s.env x'); pure none : H α (Option Nat)) s.heap).2.objs t).svd = none)) := by
    intro x' k fr hk
    rw [arg_bind]
    cases hx : s.env[x']? with
    | none => exact ⟨fun o ho => by (cases ho), .inl rfl⟩
    | some t =>
      simp only []
      have e2 : ((do k t; pure none : H α (Option Nat)) s.heap).2 = (k t s.heap).2 := by
        rw [bind_run]; cases (k t s.heap).1 <;> rfl
      have e1 : ∀ o, ((do k t; pure none : H α (Option Nat)) s.heap).1 = .ok o → o = none := by
        intro o; rw [bind_run]
        cases (k t s.heap).1 with
        | ok _ => intro h; cases h; rfl
        | error e => intro h; cases h
      rw [e2]
      refine ⟨e1, ?_⟩
      rcases hk t (hl.env t (List.mem_of_getElem? hx)) with h | ⟨h1, h2⟩
      · exact .inl h
      · exact .inr ⟨t, rfl, h1, h2⟩
  have resetOr : ∀ (t : Nat), t < s.heap.nobj → ∀ (r : Except PyErr (Mat α)),
      Inpl s.heap (match r with
        | .ok M => ((.ok (), writeH (resetH s.heap t) t M) : Except PyErr Unit × Heap α)
        | .error e => (.error e, resetH s.heap t)).2 t ∧
      (((match r with
        | .ok M => ((.ok (), writeH (resetH s.heap t) t M) : Except PyErr Unit × Heap α)
        | .error e => (.error e, resetH s.heap t)).2.objs t).eig = none ∧
       ((match r with
        | .ok M => ((.ok (), writeH (resetH s.heap t) t M) : Except PyErr Unit × Heap α)
        | .error e => (.error e, resetH s.heap t)).2.objs t).svd = none) := by
    intro t htn r
    have a := resetH_inpl hw t
    cases r with
    | ok M => exact ⟨a.trans (writeH_inpl a.wf htn M), resetH_none s.heap t⟩
    | error e => exact ⟨a, resetH_none s.heap t⟩
  cases c with
  | set x' i j v =>
    cases ht
    refine core x (fun t => mSet t i j v) false fun t htn => .inr ?_
    simp only [mSet_run]
    exact ⟨(resetOr t htn _).1, fun _ => (resetOr t htn _).2⟩
  | setRow x' i v =>
    cases ht
    cases hv : s.env[v]? with
    | none =>
      have : exec ops s.env (.setRow x i v) s.heap = (.error .nameError, s.heap) := by
        show (do mSetRow (← arg s.env x) i (← arg s.env v); pure none : H α (Option Nat)) s.heap = _
        rw [arg_bind]
        cases s.env[x]? with
        | none => rfl
        | some t => simp only []; rw [arg_bind, hv]
      rw [this]
      exact ⟨fun o ho => by (cases ho), .inl rfl⟩
    | some w =>
      have e : exec ops s.env (.setRow x i v) s.heap =
          (do mSetRow (← arg s.env x) i w; pure none : H α (Option Nat)) s.heap := by
        show (do mSetRow (← arg s.env x) i (← arg s.env v); pure none : H α (Option Nat)) s.heap = _
        rw [arg_bind, arg_bind]
        cases s.env[x]? with
        | none => rfl
        | some t => simp only []; rw [arg_bind, hv]
      rw [e]
      refine core x (fun t => mSetRow t i w) false fun t htn => ?_
      simp only [mSetRow_run]
      cases (s.heap.contents w).mustBeVector with
      | error e => exact .inl rfl
      | ok _ => exact .inr ⟨(resetOr t htn _).1, fun _ => (resetOr t htn _).2⟩
  | setColumn x' i v =>
    cases ht
    cases hv : s.env[v]? with
    | none =>
      have : exec ops s.env (.setColumn x i v) s.heap = (.error .nameError, s.heap) := by
        show (do mSetColumn (← arg s.env x) i (← arg s.env v); pure none : H α (Option Nat)) s.heap = _
        rw [arg_bind]
        cases s.env[x]? with
        | none => rfl
        | some t => simp only []; rw [arg_bind, hv]
      rw [this]
      exact ⟨fun o ho => by (cases ho), .inl rfl⟩
    | some w =>
      have e : exec ops s.env (.setColumn x i v) s.heap =
          (do mSetColumn (← arg s.env x) i w; pure none : H α (Option Nat)) s.heap := by
        show (do mSetColumn (← arg s.env x) i (← arg s.env v); pure none : H α (Option Nat)) s.heap = _
        rw [arg_bind, arg_bind]
        cases s.env[x]? with
        | none => rfl
        | some t => simp only []; rw [arg_bind, hv]
      rw [e]
      refine core x (fun t => mSetColumn t i w) false fun t htn => ?_
      simp only [mSetColumn_run]
      cases (s.heap.contents w).mustBeVector with
      | error e => exact .inl rfl
      | ok _ => exact .inr ⟨(resetOr t htn _).1, fun _ => (resetOr t htn _).2⟩
  | vectorOpModify f x' v =>
    cases ht
    cases hv : s.env[v]? with
    | none =>
      have : exec ops s.env (.vectorOpModify f x v) s.heap = (.error .nameError, s.heap) := by
        show (do mVectorOpModify f (← arg s.env x) (← arg s.env v); pure none : H α (Option Nat)) s.heap = _
        rw [arg_bind]
        cases s.env[x]? with
        | none => rfl
        | some t => simp only []; rw [arg_bind, hv]
      rw [this]
      exact ⟨fun o ho => by (cases ho), .inl rfl⟩
    | some w =>
      have e : exec ops s.env (.vectorOpModify f x v) s.heap =
          (do mVectorOpModify f (← arg s.env x) w; pure none : H α (Option Nat)) s.heap := by
        show (do mVectorOpModify f (← arg s.env x) (← arg s.env v); pure none : H α (Option Nat)) s.heap = _
        rw [arg_bind, arg_bind]
        cases s.env[x]? with
        | none => rfl
        | some t => simp only []; rw [arg_bind, hv]
      rw [e]
      refine core x (fun t => mVectorOpModify f t w) true fun t htn => ?_
      simp only [mVectorOpModify_run]
      cases (s.heap.contents t).vectorOp f (s.heap.contents w) with
      | error e => exact .inl rfl
      | ok M => exact .inr ⟨writeH_inpl hw htn M, fun h => by cases h⟩
  | fillDiagonal x' v =>
    cases ht
    refine core x (fun t => mFillDiagonal t v) true fun t htn => .inr ?_
    simp only [mFillDiagonal_run]
    exact ⟨writeH_inpl hw htn _, fun h => by cases h⟩
  | _ => cases ht

theorem step_pure (ops : Ops α) {s : St α} (c : Call α) {res : Except PyErr Nat × Heap α}
    (he : exec ops s.env c s.heap = (res.1.map some, res.2)) :
    step ops s c = ⟨res.2, match res.1 with | .ok r => s.env ++ [r] | .error _ => s.env⟩ := by
  unfold step
  rw [he]
  cases res.1 <;> rfl

theorem live_step (ops : Ops α) {s : St α} (hl : Live s) (c : Call α) : Live (step ops s c) := by
  cases ht : target c with
  | some x =>
    obtain ⟨h1, h2⟩ := exec_inplace ops hl c ht
    have hs : step ops s c = ⟨(exec ops s.env c s.heap).2, s.env⟩ := by
      unfold step
      rcases he : exec ops s.env c s.heap with ⟨r, h'⟩
      rw [he] at h1
      cases r with
      | error e => rfl
      | ok o => rw [h1 o rfl]
    rw [hs]
    rcases h2 with h2 | ⟨t, _, h3, _⟩
    · rw [h2]; exact ⟨hl.wf, hl.env⟩
    · exact ⟨h3.wf, fun r hr => by rw [h3.nobj]; exact hl.env r hr⟩
  | none =>
    cases hv : handsOutCache c with
    | false =>
      obtain ⟨res, hg, he⟩ := exec_pure ops hl c ht hv
      rw [step_pure ops c he]
      refine ⟨hg.1.wf, ?_⟩
      intro r hr
      cases hres : res.1 with
      | error e => simp only [hres] at hr; exact lt_of_lt_of_le (hl.env r hr) hg.1.le
      | ok q =>
        simp only [hres, List.mem_append, List.mem_singleton] at hr
        rcases hr with hr | rfl
        · exact lt_of_lt_of_le (hl.env r hr) hg.1.le
        · exact (hg.2 r hres).1
    | true =>
      cases c with
      | eigV x =>
        obtain ⟨h1, h2⟩ := exec_eigV ops hl x
        unfold step
        rcases he : exec ops s.env (.eigV x) s.heap with ⟨r, h'⟩
        rw [he] at h1 h2
        cases r with
        | error e => exact ⟨h1.wf, fun r hr => lt_of_lt_of_le (hl.env r hr) h1.le⟩
        | ok o =>
          obtain ⟨q, rfl, hq⟩ := h2 o rfl
          refine ⟨h1.wf, fun r hr => ?_⟩
          simp only [List.mem_append, List.mem_singleton] at hr
          rcases hr with hr | rfl
          · exact lt_of_lt_of_le (hl.env r hr) h1.le
          · exact hq
      | _ => cases hv

theorem live_run (ops : Ops α) {s : St α} (hl : Live s) (p : List (Call α)) : Live (run ops s p) := by
  induction p generalizing s with
  | nil => exact hl
  | cons c p ih => exact ih (live_step ops hl c)

theorem clean_step (ops : Ops α) {s : St α} (hl : Live s) (hc : Clean ops s) (c : Call α)
    (hv : handsOutCache c = false) (hf : forgetsReset c = false) : Clean ops (step ops s c) := by
  cases ht : target c with
  | some x =>
    obtain ⟨h1, h2⟩ := exec_inplace ops hl c ht
    have hs : step ops s c = ⟨(exec ops s.env c s.heap).2, s.env⟩ := by
      unfold step
      rcases he : exec ops s.env c s.heap with ⟨r, h'⟩
      rw [he] at h1
      cases r with
      | error e => rfl
      | ok o => rw [h1 o rfl]
    rw [hs]
    rcases h2 with h2 | ⟨t, htx, h3, h4⟩
    · rw [h2]; exact ⟨hc.coh, hc.priv⟩
    · obtain ⟨h5, h6⟩ := h4 hf
      refine ⟨h3.coh hl.wf hc.coh h5 h6 (hc.priv t (List.mem_of_getElem? htx)), ?_⟩
      intro r hr u hu hmem
      exact hc.priv r hr u (h3.nobj ▸ hu) (h3.refs u r hmem)
  | none =>
    obtain ⟨res, hg, he⟩ := exec_pure ops hl c ht hv
    rw [step_pure ops c he]
    refine ⟨hg.1.coh hc.coh, ?_⟩
    have old : ∀ r ∈ s.env, ∀ u < res.2.nobj, r ∉ cacheRefs res.2 u := by
      intro r hr u hu hmem
      rcases hg.1.refs u hu r hmem with ⟨a1, a2⟩ | a1
      · exact hc.priv r hr u a1 a2
      · exact absurd (hl.env r hr) (by omega)
    intro r hr
    cases hres : res.1 with
    | error e => simp only [hres] at hr; exact old r hr
    | ok q =>
      simp only [hres, List.mem_append, List.mem_singleton] at hr
      rcases hr with hr | rfl
      · exact old r hr
      · exact (hg.2 r hres).2.2

theorem clean_run (ops : Ops α) {s : St α} (hl : Live s) (hc : Clean ops s) (p : List (Call α))
    (hp : ∀ c ∈ p, handsOutCache c = false ∧ forgetsReset c = false) : Clean ops (run ops s p) := by
  induction p generalizing s with
  | nil => exact hc
  | cons c p ih =>
    have h1 := hp c List.mem_cons_self
    exact ih (live_step ops hl c) (clean_step ops hl hc c h1.1 h1.2)
      fun c' hc' => hp c' (List.mem_cons_of_mem _ hc')

/-! ## C14 -/

/-- **C14** In every reachable state, a call that is not one of the in-place methods leaves the
contents of every matrix the program holds unchanged, whether it returns or raises. -/
theorem C14_no_side_effects (ops : Ops α) (junk : α) (p : List (Call α)) (c : Call α)
    (hc : target c = none) (y : Nat) (A : Mat α)
    (hy : held (run ops (St.init junk) p) y = some A) :
    held (step ops (run ops (St.init junk) p) c) y = some A := by
  have hl := live_run ops (live_init junk) p
  generalize run ops (St.init junk) p = s at hl hy
  have fin : ∀ (h' : Heap α) (env' : List Nat), NMut ops s.heap h' → (∃ l, env' = s.env ++ l) →
      held ⟨h', env'⟩ y = some A := by
    rintro h' env' hn ⟨l, rfl⟩
    unfold held at hy ⊢
    obtain ⟨r, h1, h2⟩ := Option.map_eq_some_iff.1 hy
    have hlt : y < s.env.length := (List.getElem?_eq_some_iff.1 h1).1
    simp only []
    rw [List.getElem?_append_left hlt, h1]
    show some (h'.contents r) = _
    rw [hn.same r (hl.env r (List.mem_of_getElem? h1)), h2]
  cases hv : handsOutCache c with
  | false =>
    obtain ⟨res, hg, he⟩ := exec_pure ops hl c hc hv
    rw [step_pure ops c he]
    refine fin _ _ hg.1 ?_
    cases res.1 with
    | error e => exact ⟨[], by simp⟩
    | ok q => exact ⟨[q], rfl⟩
  | true =>
    cases c with
    | eigV x =>
      obtain ⟨h1, h2⟩ := exec_eigV ops hl x
      unfold step
      rcases he : exec ops s.env (.eigV x) s.heap with ⟨r, h'⟩
      rw [he] at h1 h2
      cases r with
      | error e => exact fin _ _ h1 ⟨[], by simp⟩
      | ok o =>
        obtain ⟨q, rfl, hq⟩ := h2 o rfl
        exact fin _ _ h1 ⟨[q], rfl⟩
    | _ => cases hv

/-- **C14** An in-place call changes no other matrix: everything held that is a different object
keeps its contents. -/
theorem C14_inplace_local (ops : Ops α) (junk : α) (p : List (Call α)) (c : Call α) (x : Nat)
    (hc : target c = some x) (y : Nat)
    (hxy : (run ops (St.init junk) p).env[y]? ≠ (run ops (St.init junk) p).env[x]?) :
    held (step ops (run ops (St.init junk) p) c) y = held (run ops (St.init junk) p) y ∧
    (step ops (run ops (St.init junk) p) c).env = (run ops (St.init junk) p).env := by
  have hl := live_run ops (live_init junk) p
  generalize run ops (St.init junk) p = s at hl hxy
  obtain ⟨h1, h2⟩ := exec_inplace ops hl c hc
  have hs : step ops s c = ⟨(exec ops s.env c s.heap).2, s.env⟩ := by
    unfold step
    rcases he : exec ops s.env c s.heap with ⟨r, h'⟩
    rw [he] at h1
    cases r with
    | error e => rfl
    | ok o => rw [h1 o rfl]
  rw [hs]
  refine ⟨?_, rfl⟩
  unfold held
  simp only []
  rcases h2 with h2 | ⟨t, ht, h3, _⟩
  · rw [h2]
  · cases hy : s.env[y]? with
    | none => rfl
    | some r =>
      show some _ = some _
      rw [h3.same r (hl.env r (List.mem_of_getElem? hy))]
      rintro rfl
      exact hxy (by rw [hy, ht])

/-- **C14 (partial)** Without `get_eigenvalue_decomposition_V`, all matrices a program ever obtains
are distinct objects.  Missing: that accessor, see `C14_shared_violation`. -/
theorem C14_distinct_partial (ops : Ops α) (junk : α) (p : List (Call α))
    (hp : ∀ c ∈ p, handsOutCache c = false) : (run ops (St.init junk) p).env.Nodup := by
  suffices h : ∀ s : St α, Live s → s.env.Nodup → (run ops s p).env.Nodup from
    h _ (live_init junk) (by simp [St.init])
  induction p with
  | nil => intro s _ hn; exact hn
  | cons c p ih =>
    intro s hl hn
    refine ih (fun c' hc' => hp c' (List.mem_cons_of_mem _ hc')) _ (live_step ops hl c) ?_
    cases ht : target c with
    | some x =>
      obtain ⟨h1, _⟩ := exec_inplace ops hl c ht
      unfold step
      rcases he : exec ops s.env c s.heap with ⟨r, h'⟩
      rw [he] at h1
      cases r with
      | error e => exact hn
      | ok o => rw [h1 o rfl]; exact hn
    | none =>
      obtain ⟨res, hg, he⟩ := exec_pure ops hl c ht (hp c List.mem_cons_self)
      rw [step_pure ops c he]
      cases hres : res.1 with
      | error e => exact hn
      | ok q =>
        simp only []
        rw [List.nodup_append]
        refine ⟨hn, List.nodup_singleton q, ?_⟩
        intro a ha b hb hab
        rw [List.mem_singleton] at hb
        have := hl.env a ha
        have := (hg.2 q hres).2.1
        omega

/-- **C14 (partial)** So without that accessor an in-place call on one held matrix never changes
what another held matrix contains. -/
theorem C14_independent_partial (ops : Ops α) (junk : α) (p : List (Call α))
    (hp : ∀ c ∈ p, handsOutCache c = false) (c : Call α) (x y : Nat) (hc : target c = some x)
    (hxy : y ≠ x) (hy : y < (run ops (St.init junk) p).env.length) :
    held (step ops (run ops (St.init junk) p) c) y = held (run ops (St.init junk) p) y := by
  refine (C14_inplace_local ops junk p c x hc y ?_).1
  intro he
  have hn := C14_distinct_partial ops junk p hp
  exact hxy ((List.getElem?_inj hy hn).1 he)

/-- **C14** `set` on a held matrix is the value-level update: on success the target holds the
updated matrix, on failure it is unchanged. -/
theorem C14_set_effect (ops : Ops α) (junk : α) (p : List (Call α)) (x : Nat) (i j : Int) (v : α)
    (A : Mat α) (hx : held (run ops (St.init junk) p) x = some A) :
    held (step ops (run ops (St.init junk) p) (.set x i j v)) x =
      some (match A.set i j v with | .ok B => B | .error _ => A) ∧
    outcome ops (run ops (St.init junk) p) (.set x i j v) = (A.set i j v).map fun _ => none := by
  have hl := live_run ops (live_init junk) p
  generalize run ops (St.init junk) p = s at hl hx
  obtain ⟨t, h1, h2⟩ := Option.map_eq_some_iff.1 hx
  have htn := hl.env t (List.mem_of_getElem? h1)
  have he : exec ops s.env (.set x i j v) s.heap = match A.set i j v with
      | .ok M => (.ok none, writeH (resetH s.heap t) t M)
      | .error e => (.error e, resetH s.heap t) := by
    show (do mSet (← arg s.env x) i j v; pure none : H α (Option Nat)) s.heap = _
    rw [arg_bind, h1]
    simp only []
    rw [bind_run, mSet_run, h2]
    cases A.set i j v <;> rfl
  have hw' := (resetH_inpl hl.wf t).wf
  unfold step outcome held
  rw [he]
  cases hA : A.set i j v with
  | error e =>
    simp only []
    rw [h1]
    exact ⟨by show some _ = some _; rw [resetH_contents, h2], rfl⟩
  | ok B =>
    simp only []
    rw [h1]
    refine ⟨?_, rfl⟩
    show some _ = some _
    have hsh : B.rows = A.rows ∧ B.cols = A.cols := by
      unfold Mat.set at hA
      cases hr : pyIndex A.rows i with
      | error e => rw [hr] at hA; cases hA
      | ok r =>
        cases hcc : pyIndex A.cols j with
        | error e => rw [hr] at hA; simp only [bind, Except.bind, hcc] at hA; cases hA
        | ok q =>
          rw [hr] at hA
          simp only [bind, Except.bind, hcc, pure, Except.pure] at hA
          cases hA; exact ⟨rfl, rfl⟩
    rw [writeH_contents_self hw' htn]
    · rw [resetH_contents, h2]; exact hsh.1
    · rw [resetH_contents, h2]; exact hsh.2

/-! ## C13 -/

section coherence
variable (ops : Ops α) (junk : α)

theorem outcome_one {s : St α} {x t : Nat} (hx : s.env[x]? = some t) (c : Call α) (k : Nat → H α Nat)
    (hc : exec ops s.env c = (do some <$> k (← arg s.env x) : H α (Option Nat))) :
    outcome ops s c = (k t s.heap).1.map fun r => some ((k t s.heap).2.contents r) := by
  unfold outcome
  have : exec ops s.env c s.heap = ((k t s.heap).1.map some, (k t s.heap).2) := by
    rw [hc, arg_bind, hx]
    simp only [map_run]
    cases (k t s.heap).1 <;> rfl
  rw [this]
  cases (k t s.heap).1 <;> rfl

/-- What an accessor built on the eigen cache returns, in a clean state. -/
theorem eig_outcome {s : St α} (hl : Live s) (hc : Clean ops s) {x t : Nat}
    (hx : s.env[x]? = some t) (c : Call α) (k : Nat → Nat × Nat → H α Nat)
    (hk : exec ops s.env c =
      (do some <$> (fun r => makeEig ops r >>= k r) (← arg s.env x) : H α (Option Nat)))
    (g : Mat α → Mat α → Except PyErr (Mat α))
    (hg : ∀ h' q, WF h' → q.1 < h'.nobj → q.2 < h'.nobj → h'.contents t = s.heap.contents t →
      (k t q h').1.map (fun r => some ((k t q h').2.contents r)) =
        (g (h'.contents q.1) (h'.contents q.2)).map some) :
    outcome ops s c = (ops.eig (s.heap.contents t)).bind fun e => (g e.1.transpose e.2).map some := by
  have htn := hl.env t (List.mem_of_getElem? hx)
  obtain ⟨h1, h2, h3⟩ := makeEig_run ops t s.heap hl.wf htn
  rw [outcome_one ops hx c _ hk, bind_run]
  cases he : (makeEig ops t s.heap).1 with
  | error e => rw [(h3 e he).1]; rfl
  | ok q =>
    have hco := h1.coh hc.coh t (lt_of_lt_of_le htn h1.le)
    obtain ⟨vals, vecs, e1, e2, e3⟩ := hco.1 q.1 q.2 (h2 q he)
    rw [h1.same t htn] at e1
    have href := cacheRefs_eig (h2 q he)
    have hlt := lt_of_lt_of_le htn h1.le
    simp only []
    rw [hg _ q h1.wf (h1.wf.refs t hlt _ href.1) (h1.wf.refs t hlt _ href.2) (h1.same t htn), e2, e3, e1]
    rfl

variable (p : List (Call α)) (hp : ∀ c ∈ p, handsOutCache c = false ∧ forgetsReset c = false)
  (x : Nat) (A : Mat α) (hx : held (run ops (St.init junk) p) x = some A)
include hp hx

/-- **C13 (partial)** After every history in which the cached eigenvector object was not handed out
and no in-place vector operation / `fill_diagonal` was used, `get_eigenvalues` and
`get_eigenvectors` return the result of the solver on the matrix's *current* contents (or its
exception).  Missing: the excluded calls, see the violations below. -/
theorem C13_eigenpairs_partial :
    outcome ops (run ops (St.init junk) p) (.eigenvalues x) =
      (ops.eig A).map (fun e => some e.1.transpose) ∧
    outcome ops (run ops (St.init junk) p) (.eigenvectors x) = (ops.eig A).map (fun e => some e.2) ∧
    outcome ops (run ops (St.init junk) p) (.eigV x) = (ops.eig A).map (fun e => some e.2) := by
  have hl := live_run ops (live_init junk) p
  have hc := clean_run ops (live_init junk) (clean_init ops junk) p hp
  generalize run ops (St.init junk) p = s at hl hc hx
  obtain ⟨t, h1, rfl⟩ := Option.map_eq_some_iff.1 hx
  refine ⟨?_, ?_, ?_⟩
  · rw [eig_outcome ops hl hc h1 (.eigenvalues x) (fun _ q => mCopy q.1) rfl (fun a _ => .ok a)]
    · cases ops.eig (s.heap.contents t) <;> rfl
    · intro h' q hw _ _ _
      rw [mCopy_run]
      show Except.ok (some ((allocH h' _).contents _)) = _
      rw [allocH_contents_new]; rfl
  · rw [eig_outcome ops hl hc h1 (.eigenvectors x) (fun _ q => mCopy q.2) rfl (fun _ b => .ok b)]
    · cases ops.eig (s.heap.contents t) <;> rfl
    · intro h' q hw _ _ _
      rw [mCopy_run]
      show Except.ok (some ((allocH h' _).contents _)) = _
      rw [allocH_contents_new]; rfl
  · rw [eig_outcome ops hl hc h1 (.eigV x) (fun _ q => pure q.2) rfl (fun _ b => .ok b)]
    · cases ops.eig (s.heap.contents t) <;> rfl
    · intro h' q hw _ _ _; rfl

/-- **C13 (partial)** The same for the diagonal matrix of eigenvalues and the sorted variants. -/
theorem C13_sorted_partial (asc : Bool) :
    outcome ops (run ops (St.init junk) p) (.eigD x) =
      (ops.eig A).bind (fun e => e.1.transpose.vectorToDiagonal.map some) ∧
    outcome ops (run ops (St.init junk) p) (.eigenvaluesSorted x asc) =
      (ops.eig A).map (fun e => some (e.1.transpose.eigenvaluesSorted ops.le asc)) ∧
    outcome ops (run ops (St.init junk) p) (.eigenvectorsSorted x asc) =
      (ops.eig A).bind
        (fun e => (Mat.eigenvectorsSorted ops.le A.rows e.1.transpose e.2 asc).map some) := by
  have hl := live_run ops (live_init junk) p
  have hc := clean_run ops (live_init junk) (clean_init ops junk) p hp
  generalize run ops (St.init junk) p = s at hl hc hx
  obtain ⟨t, h1, rfl⟩ := Option.map_eq_some_iff.1 hx
  refine ⟨?_, ?_, ?_⟩
  · rw [eig_outcome ops hl hc h1 (.eigD x) (fun _ q => mPure1 (fun M => M.vectorToDiagonal) q.1) rfl
      (fun a _ => a.vectorToDiagonal)]
    intro h' q hw _ _ _
    rw [mPure1_run]
    cases (h'.contents q.1).vectorToDiagonal with
    | error e => rfl
    | ok M =>
      show Except.ok (some ((allocH h' _).contents _)) = _
      rw [allocH_contents_new]; rfl
  · have htn := hl.env t (List.mem_of_getElem? h1)
    obtain ⟨h1', h2', h3'⟩ := makeEig_run ops t s.heap hl.wf htn
    rw [outcome_one ops h1 (.eigenvaluesSorted x asc) (fun r => mEigenvaluesSorted ops r asc) rfl,
      mEigenvaluesSorted_run]
    cases he : (makeEig ops t s.heap).1 with
    | error e => rw [(h3' e he).1]; rfl
    | ok q =>
      have hco := h1'.coh hc.coh t (lt_of_lt_of_le htn h1'.le)
      obtain ⟨vals, vecs, e1, e2, e3⟩ := hco.1 q.1 q.2 (h2' q he)
      rw [h1'.same t htn] at e1
      rw [e1]
      show Except.ok (some ((eigvalsSortedH ops _ q.1 asc).contents _)) = Except.ok (some _)
      congr 2
      unfold eigvalsSortedH Mat.eigenvaluesSorted
      have hn : (makeEig ops t s.heap).2.nobj <
          (allocH (makeEig ops t s.heap).2 ((makeEig ops t s.heap).2.contents q.1)).nobj :=
        Nat.lt_succ_self _
      have hwr : (writeH (allocH (makeEig ops t s.heap).2 ((makeEig ops t s.heap).2.contents q.1))
          (makeEig ops t s.heap).2.nobj
          (((allocH (makeEig ops t s.heap).2 ((makeEig ops t s.heap).2.contents q.1)).contents
            (makeEig ops t s.heap).2.nobj).sortColumns ops.le)).contents
          (makeEig ops t s.heap).2.nobj = vals.transpose.sortColumns ops.le := by
        refine (writeH_contents_self (allocH_wf _ _ h1'.wf) hn _ ?_ ?_).trans ?_
        · rfl
        · rfl
        · rw [allocH_contents_new, e2]
      cases asc
      · simp only [Bool.false_eq_true, if_false]
        rw [flipH_contents_self, hwr]
      · simp only [if_true]
        exact hwr
  · have htn := hl.env t (List.mem_of_getElem? h1)
    rw [eig_outcome ops hl hc h1 (.eigenvectorsSorted x asc)
      (fun r q => do
        let M ← getContents r
        mPure2 (fun vals vecs => Mat.eigenvectorsSorted ops.le M.rows vals vecs asc) q.1 q.2) rfl
      (fun a b => Mat.eigenvectorsSorted ops.le (s.heap.contents t).rows a b asc)]
    intro h' q hw _ _ hsame
    rw [bind_run, getContents_run]
    simp only []
    rw [mPure2_run, hsame]
    cases Mat.eigenvectorsSorted ops.le (s.heap.contents t).rows (h'.contents q.1) (h'.contents q.2) asc with
    | error e => rfl
    | ok M =>
      show Except.ok (some ((allocH h' _).contents _)) = _
      rw [allocH_contents_new]; rfl

omit hp in
/-- **C13** The SVD accessors recompute, so after *every* history they describe the current
contents. -/
theorem C13_svd :
    outcome ops (run ops (St.init junk) p) (.svdU x) =
      (ops.svd A).map (fun e => some (Mat.svdU e.1)) ∧
    outcome ops (run ops (St.init junk) p) (.svdV x) =
      (ops.svd A).map (fun e => some (Mat.svdV e.2.2)) ∧
    outcome ops (run ops (St.init junk) p) (.svdS x) =
      (ops.svd A).bind (fun e => (Mat.svdS e.2.1).map some) := by
  have hl := live_run ops (live_init junk) p
  generalize run ops (St.init junk) p = s at hl hx
  obtain ⟨t, h1, rfl⟩ := Option.map_eq_some_iff.1 hx
  have htn := hl.env t (List.mem_of_getElem? h1)
  obtain ⟨n1, n2, n3⟩ := makeSvd_run ops t s.heap hl.wf htn
  refine ⟨?_, ?_, ?_⟩
  · rw [outcome_one ops h1 (.svdU x) (fun r => mSvdU ops r) rfl]
    unfold mSvdU
    rw [bind_run]
    cases he : (makeSvd ops t s.heap).1 with
    | error e => rw [(n2 e).1 he]; rfl
    | ok q =>
      obtain ⟨_, _, _, _, u, s', v, e1, e2, e3, e4⟩ := n3 q he
      rw [e1]
      simp only [mCopy_run]
      show Except.ok (some ((allocH _ _).contents _)) = _
      rw [allocH_contents_new, e2]; rfl
  · rw [outcome_one ops h1 (.svdV x) (fun r => mSvdV ops r) rfl]
    unfold mSvdV
    rw [bind_run]
    cases he : (makeSvd ops t s.heap).1 with
    | error e => rw [(n2 e).1 he]; rfl
    | ok q =>
      obtain ⟨_, _, _, _, u, s', v, e1, e2, e3, e4⟩ := n3 q he
      rw [e1]
      simp only [mCopy_run]
      show Except.ok (some ((allocH _ _).contents _)) = _
      rw [allocH_contents_new, e4]; rfl
  · rw [outcome_one ops h1 (.svdS x) (fun r => mSvdS ops r) rfl]
    unfold mSvdS
    rw [bind_run]
    cases he : (makeSvd ops t s.heap).1 with
    | error e => rw [(n2 e).1 he]; rfl
    | ok q =>
      obtain ⟨_, _, _, _, u, s', v, e1, e2, e3, e4⟩ := n3 q he
      rw [e1]
      simp only [mPure1_run]
      rw [e3]
      cases hd : Mat.svdS s' with
      | error e => simp only [Except.bind, hd]; rfl
      | ok M =>
        simp only [Except.bind, hd]
        show Except.ok (some ((allocH _ _).contents _)) = _
        rw [allocH_contents_new]; rfl

/-- **C13 (partial)** `get_singular_values` raises `TypeError` or returns the singular values of the
current contents.  Missing: it does not compute them on first use, see
`C13_singular_values_violation`. -/
theorem C13_singular_values_partial :
    outcome ops (run ops (St.init junk) p) (.singularValues x) = .error .typeError ∨
    outcome ops (run ops (St.init junk) p) (.singularValues x) =
      (ops.svd A).map (fun e => some e.2.1.transpose) := by
  have hl := live_run ops (live_init junk) p
  have hc := clean_run ops (live_init junk) (clean_init ops junk) p hp
  generalize run ops (St.init junk) p = s at hl hc hx
  obtain ⟨t, h1, rfl⟩ := Option.map_eq_some_iff.1 hx
  have htn := hl.env t (List.mem_of_getElem? h1)
  rw [outcome_one ops h1 (.singularValues x) (fun r => mSingularValues r) rfl]
  cases hs : (s.heap.objs t).svd with
  | none =>
    have : mSingularValues t s.heap = (.error .typeError, s.heap) := by
      unfold mSingularValues; rw [hs]
    rw [this]; exact .inl rfl
  | some q =>
    have : mSingularValues t s.heap = mTranspose q.2.1 s.heap := by
      unfold mSingularValues; rw [hs]
    rw [this, mTranspose_run]
    obtain ⟨u, s', v, e1, e2, e3, e4⟩ := (hc.coh t htn).2 _ _ _ hs
    rw [e1]
    right
    show Except.ok (some ((allocH _ _).contents _)) = _
    rw [allocH_contents_new, e3]; rfl

end coherence

/-! ## Where the properties fail -/

/-- A solver for 1×1 matrices: eigenvalue = the entry, eigenvector `1`. -/
def toyOps : Ops Int where
  eig M := .ok (M, ⟨1, 1, Matrix.of fun _ _ => 1⟩)
  svd M := .ok (M, M, M)
  le a b := a ≤ b

/-- A 1×1 matrix. -/
def one1 (a : Int) : Mat Int := ⟨1, 1, Matrix.of fun _ _ => a⟩

/-- Read the only entry of an outcome. -/
def entry0 : Except PyErr (Option (Mat Int)) → Option Int
  | .ok (some M) => M.entry? 0 0
  | _ => none

/-- **C13 (violation)** After `get_eigenvalues`, `fill_diagonal` and the in-place vector operations
leave the old eigenvalues in the cache: the accessor answers for the previous contents. -/
theorem C13_stale_cache_violation :
    (let s := run toyOps (St.init 0) [.create (one1 1), .eigenvalues 0, .fillDiagonal 0 5]
     (held s 0).bind (·.entry? 0 0) = some 5 ∧ entry0 (outcome toyOps s (.eigenvalues 0)) = some 1) ∧
    (let s := run toyOps (St.init 0) [.create (one1 1), .eigenvalues 0, .vectorOpModify (· + ·) 0 0]
     (held s 0).bind (·.entry? 0 0) = some 2 ∧ entry0 (outcome toyOps s (.eigenvalues 0)) = some 1) := by
  refine ⟨⟨rfl, rfl⟩, ⟨rfl, rfl⟩⟩

/-- **C13 (violation)** `get_singular_values` before any `svd_*` call raises `TypeError`. -/
theorem C13_singular_values_violation :
    outcome toyOps (run toyOps (St.init 0) [.create (one1 3)]) (.singularValues 0) =
      .error .typeError := rfl

/-- **C14 (violation)** `get_eigenvalue_decomposition_V` returns the cached object itself: two calls
return the same object, and writing to the first result changes what the second one contains and
what later accessors return. -/
theorem C14_shared_violation :
    let s := run toyOps (St.init 0) [.create (one1 3), .eigV 0, .eigV 0, .set 1 0 0 7]
    s.env[1]? = s.env[2]? ∧ (held s 2).bind (·.entry? 0 0) = some 7 ∧
    entry0 (outcome toyOps s (.eigenvectors 0)) = some 7 := by
  refine ⟨rfl, rfl, rfl⟩

/-! ### Non-vacuity -/

/-- A program meeting the hypotheses of the partial theorems, with an in-place update between two
accessor calls: the second answer is up to date. -/
example :
    let p : List (Call Int) := [.create (one1 1), .eigenvalues 0, .set 0 0 0 4, .copy 0]
    (∀ c ∈ p, handsOutCache c = false ∧ forgetsReset c = false) ∧
    (held (run toyOps (St.init 0) p) 0).isSome ∧
    entry0 (outcome toyOps (run toyOps (St.init 0) p) (.eigenvalues 0)) = some 4 := by
  refine ⟨?_, rfl, rfl⟩
  intro c hc
  simp only [List.mem_cons, List.not_mem_nil, or_false] at hc
  rcases hc with rfl | rfl | rfl | rfl <;> exact ⟨rfl, rfl⟩

/-- Two held matrices, one updated in place. -/
example :
    let p : List (Call Int) := [.create (one1 1), .transpose 0]
    let s := run toyOps (St.init 0) p
    target (.set 0 0 0 (9 : Int) : Call Int) = some 0 ∧ 1 < s.env.length ∧
    (held (step toyOps s (.set 0 0 0 9)) 0).bind (·.entry? 0 0) = some 9 ∧
    (held (step toyOps s (.set 0 0 0 9)) 1).bind (·.entry? 0 0) = some 1 := by
  refine ⟨rfl, ?_, rfl, rfl⟩
  decide

end Verif.Props
