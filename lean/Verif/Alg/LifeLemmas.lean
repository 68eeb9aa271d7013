import Verif.Alg.Classes

/-! # Lemmas about the attribute-store machine -/

namespace Verif.Life

variable {β α R : Type}

/-- Assignments that `__setattr__` accepts. -/
def accepts (c : Cls β) (k : String) (v : PyVal β) : Prop :=
  k ∈ c.frozen ∨ c.validators.lookup k = none ∨ ∃ val, c.validators.lookup k = some val ∧ val.run v = .ok true

/-- Conditions on the tables of a class, checked for every class. -/
structure WellFormed (c : Cls β) : Prop where
  resets_plain : ∀ w ∈ c.resets, w.1 ∉ c.frozen ∧ c.validators.lookup w.1 = none
  resets_first : ∃ rest, c.resets = ("initialised", .bool false) :: rest ∧ ∀ w ∈ rest, w.1 ≠ "initialised"
  flag_free : c.validators.lookup "initialised" = none ∧ "initialised" ∉ c.trainWrites ∧
    "initialised" ∉ c.useWrites ∧ "initialised" ∉ c.plain ∧ ∀ w ∈ c.defaults, w.1 ≠ "initialised"
  ctor_ok : ∀ w ∈ c.ctor, accepts c w.1 w.2
  defaults_ok : ∀ w ∈ c.defaults, accepts c w.1 w.2
  defaults_head : ∃ w rest, c.defaults = w :: rest ∧ w.1 ∉ c.frozen ∧ (c.validators.lookup w.1).isSome
  validated : ∀ w ∈ c.validators, w.1 ∉ c.frozen ∧ w.1 ∈ c.ctor.map Prod.fst
  plain_ok : ∀ k ∈ c.plain, k ∉ c.frozen ∧ c.validators.lookup k = none ∧ k ∈ c.ctor.map Prod.fst ∧
    k ∉ c.resets.map Prod.fst
  use_unvalidated : (∃ t, c.mode = .refit t) ∨ ∀ k ∈ c.useWrites, c.validators.lookup k = none

variable {c : Cls β}

/-! ## Plain assignments -/

theorem put_self (s : Obj β) (k : String) (v : PyVal β) : (s.put k v).attrs k = some v := if_pos rfl
theorem put_other (s : Obj β) {j k : String} (v : PyVal β) (h : j ≠ k) : (s.put k v).attrs j = s.attrs j :=
  if_neg h
@[simp] theorem put_complete (s : Obj β) (k : String) (v : PyVal β) : (s.put k v).complete = s.complete := rfl

theorem puts_other (ws : List (String × PyVal β)) (s : Obj β) {j : String} (h : ∀ w ∈ ws, w.1 ≠ j) :
    (s.puts ws).attrs j = s.attrs j := by
  induction ws generalizing s with
  | nil => rfl
  | cons w ws ih =>
    show ((s.put w.1 w.2).puts ws).attrs j = _
    rw [ih _ fun w' hw' => h w' (List.mem_cons_of_mem _ hw'), put_other _ _ (h w List.mem_cons_self).symm]

@[simp] theorem puts_complete (ws : List (String × PyVal β)) (s : Obj β) : (s.puts ws).complete = s.complete := by
  induction ws generalizing s with
  | nil => rfl
  | cons w ws ih => exact ih _

theorem puts_isSome (ws : List (String × PyVal β)) (s : Obj β) {j : String} (h : (s.attrs j).isSome) :
    ((s.puts ws).attrs j).isSome := by
  induction ws generalizing s with
  | nil => exact h
  | cons w ws ih =>
    refine ih (s.put w.1 w.2) ?_
    by_cases hj : j = w.1
    · subst hj; rw [put_self]; rfl
    · rw [put_other _ _ hj]; exact h

/-- After plain assignments a key among them no longer depends on the previous state. -/
theorem puts_indep (ws : List (String × PyVal β)) (s t : Obj β) {j : String}
    (h : j ∈ ws.map Prod.fst ∨ s.attrs j = t.attrs j) : (s.puts ws).attrs j = (t.puts ws).attrs j := by
  induction ws generalizing s t with
  | nil => exact h.resolve_left (by simp)
  | cons w ws ih =>
    refine ih (s.put w.1 w.2) (t.put w.1 w.2) ?_
    by_cases hj : j = w.1
    · right; subst hj; rw [put_self, put_self]
    · rw [put_other _ _ hj, put_other _ _ hj]
      rcases h with h | h
      · left
        rcases List.mem_cons.mp h with h | h
        · exact absurd h hj
        · exact h
      · exact Or.inr h

@[simp] theorem reset_complete (s : Obj β) : (reset c s).complete = s.complete := puts_complete _ _

theorem reset_trained (wf : WellFormed c) (s : Obj β) : (reset c s).trained = false := by
  obtain ⟨rest, h, hr⟩ := wf.resets_first
  have : (reset c s).attrs "initialised" = some (.bool false) := by
    unfold reset
    rw [h]
    show ((s.put _ _).puts rest).attrs _ = _
    rw [puts_other _ _ hr, put_self]
  unfold Obj.trained
  rw [this]

/-! ## `__setattr__` -/

theorem setattr_frozen (s : Obj β) {k : String} (v : PyVal β) (h : k ∈ c.frozen) :
    setattr c s k v = (s, .ok ()) := if_pos h

theorem setattr_plain (s : Obj β) {k : String} (v : PyVal β) (h : k ∉ c.frozen) (hv : c.validators.lookup k = none) :
    setattr c s k v = (s.put k v, .ok ()) := by
  unfold setattr; rw [if_neg h, hv]

theorem setattr_valid (s : Obj β) {k : String} {v : PyVal β} {val : Validator} (h : k ∉ c.frozen)
    (hv : c.validators.lookup k = some val) (hr : val.run v = .ok true) :
    setattr c s k v = ((if s.complete then reset c s else s).put k v, .ok ()) := by
  unfold setattr; rw [if_neg h, hv]; simp only []; rw [hr]

theorem setattr_invalid (s : Obj β) {k : String} {v : PyVal β} {val : Validator} (h : k ∉ c.frozen)
    (hv : c.validators.lookup k = some val) (hr : val.run v = .ok false) :
    setattr c s k v = (s, .error .valueError) := by
  unfold setattr; rw [if_neg h, hv]; simp only []; rw [hr]

theorem setattr_raises (s : Obj β) {k : String} {v : PyVal β} {val : Validator} {e : PyErr} (h : k ∉ c.frozen)
    (hv : c.validators.lookup k = some val) (hr : val.run v = .error e) :
    setattr c s k v = (s, .error e) := by
  unfold setattr; rw [if_neg h, hv]; simp only []; rw [hr]

/-- The four ways an assignment can end. -/
theorem setattr_cases (s : Obj β) (k : String) (v : PyVal β) :
    (k ∈ c.frozen ∧ setattr c s k v = (s, .ok ())) ∨
    (k ∉ c.frozen ∧ c.validators.lookup k = none ∧ setattr c s k v = (s.put k v, .ok ())) ∨
    (∃ val, k ∉ c.frozen ∧ c.validators.lookup k = some val ∧ val.run v = .ok true ∧
      setattr c s k v = ((if s.complete then reset c s else s).put k v, .ok ())) ∨
    (∃ e, k ∉ c.frozen ∧ (c.validators.lookup k).isSome ∧ setattr c s k v = (s, .error e)) := by
  by_cases hf : k ∈ c.frozen
  · exact .inl ⟨hf, setattr_frozen s v hf⟩
  cases hv : c.validators.lookup k with
  | none => exact .inr (.inl ⟨hf, rfl, setattr_plain s v hf hv⟩)
  | some val =>
    cases hr : val.run v with
    | error e => exact .inr (.inr (.inr ⟨e, hf, rfl, setattr_raises s hf hv hr⟩))
    | ok t =>
      cases t with
      | false => exact .inr (.inr (.inr ⟨_, hf, rfl, setattr_invalid s hf hv hr⟩))
      | true => exact .inr (.inr (.inl ⟨val, hf, rfl, hr, setattr_valid s hf hv hr⟩))

theorem setattr_complete (s : Obj β) (k : String) (v : PyVal β) : (setattr c s k v).1.complete = s.complete := by
  rcases setattr_cases (c := c) s k v with ⟨_, h⟩ | ⟨_, _, h⟩ | ⟨_, _, _, _, h⟩ | ⟨_, _, _, h⟩ <;> rw [h]
  · rfl
  · show (if s.complete then reset c s else s).complete = _
    split
    · exact reset_complete s
    · rfl

theorem setattr_accepted (s : Obj β) {k : String} {v : PyVal β} (h : accepts c k v) :
    (setattr c s k v).2 = .ok () := by
  by_cases hf : k ∈ c.frozen
  · rw [setattr_frozen s v hf]
  rcases h with h | h | ⟨val, h, hr⟩
  · exact absurd h hf
  · rw [setattr_plain s v hf h]
  · rw [setattr_valid s hf h hr]

/-! ## The invariant -/

/-- Every reachable object is complete, every validated parameter holds an accepted value and every attribute
assigned by `__init__` exists. -/
structure Good (c : Cls β) (s : Obj β) : Prop where
  complete : s.complete = true
  valid : ∀ k val, c.validators.lookup k = some val → ∃ v, s.attrs k = some v ∧ val.run v = .ok true
  present : ∀ k, k ∈ c.ctor.map Prod.fst → k ∉ c.frozen → (s.attrs k).isSome

/-- The part of the invariant about one key. -/
def KeyOK (c : Cls β) (s : Obj β) (k : String) : Prop :=
  (∀ val, c.validators.lookup k = some val → ∃ v, s.attrs k = some v ∧ val.run v = .ok true) ∧
  (k ∈ c.ctor.map Prod.fst → k ∉ c.frozen → (s.attrs k).isSome)

theorem good_iff {s : Obj β} : Good c s ↔ s.complete = true ∧ ∀ k, KeyOK c s k :=
  ⟨fun h => ⟨h.complete, fun k => ⟨h.valid k, h.present k⟩⟩, fun h => ⟨h.1, fun k => (h.2 k).1, fun k => (h.2 k).2⟩⟩

theorem reset_keyOK (wf : WellFormed c) (s : Obj β) {k : String} (h : KeyOK c s k) : KeyOK c (reset c s) k := by
  refine ⟨fun val hv => ?_, fun hk hf => puts_isSome _ _ (h.2 hk hf)⟩
  obtain ⟨v, h1, h2⟩ := h.1 val hv
  refine ⟨v, ?_, h2⟩
  unfold reset
  rw [puts_other _ _ ?_]
  · exact h1
  · rintro w hw rfl
    rw [(wf.resets_plain w hw).2] at hv
    cases hv

theorem put_keyOK (s : Obj β) {j k : String} {v : PyVal β}
    (hv : c.validators.lookup k = none ∨ ∃ val, c.validators.lookup k = some val ∧ val.run v = .ok true)
    (h : j = k ∨ KeyOK c s j) : KeyOK c (s.put k v) j := by
  by_cases hj : j = k
  · subst hj
    refine ⟨fun val hval => ⟨v, put_self _ _ _, ?_⟩, fun _ _ => by rw [put_self]; rfl⟩
    rcases hv with hv | ⟨val', hv, hr⟩
    · rw [hv] at hval; cases hval
    · rw [hv] at hval; injection hval with hval; rw [← hval]; exact hr
  · unfold KeyOK
    rw [put_other _ _ hj]
    exact h.resolve_left hj

theorem setattr_keyOK (wf : WellFormed c) (s : Obj β) {j : String} (k : String) (v : PyVal β)
    (h : KeyOK c s j) : KeyOK c (setattr c s k v).1 j := by
  rcases setattr_cases (c := c) s k v with ⟨_, e⟩ | ⟨_, hn, e⟩ | ⟨val, _, hv, hr, e⟩ | ⟨_, _, _, e⟩ <;> rw [e]
  · exact h
  · exact put_keyOK s (.inl hn) (.inr h)
  · refine put_keyOK _ (.inr ⟨val, hv, hr⟩) (.inr ?_)
    split
    · exact reset_keyOK wf s h
    · exact h
  · exact h

/-- An accepted assignment makes the key fine. -/
theorem setattr_keyOK_self (s : Obj β) {k : String} {v : PyVal β} (hf : k ∉ c.frozen) (h : accepts c k v) :
    KeyOK c (setattr c s k v).1 k := by
  rcases h with h | h | ⟨val, h, hr⟩
  · exact absurd h hf
  · rw [setattr_plain s v hf h]; exact put_keyOK s (.inl h) (.inl rfl)
  · rw [setattr_valid s hf h hr]; exact put_keyOK _ (.inr ⟨val, h, hr⟩) (.inl rfl)

theorem setattrs_keyOK (wf : WellFormed c) (ws : List (String × PyVal β)) (s : Obj β) {j : String}
    (h : KeyOK c s j) : KeyOK c (setattrs c s ws).1 j := by
  induction ws generalizing s with
  | nil => exact h
  | cons w ws ih =>
    rw [setattrs]
    have := setattr_keyOK wf s w.1 w.2 h
    revert this
    rcases setattr c s w.1 w.2 with ⟨s', r⟩
    intro this
    cases r with
    | error e => exact this
    | ok _ => exact ih s' this

theorem setattrs_complete (ws : List (String × PyVal β)) (s : Obj β) :
    (setattrs c s ws).1.complete = s.complete := by
  induction ws generalizing s with
  | nil => rfl
  | cons w ws ih =>
    rw [setattrs]
    have := setattr_complete (c := c) s w.1 w.2
    revert this
    rcases setattr c s w.1 w.2 with ⟨s', r⟩
    intro this
    cases r with
    | error e => exact this
    | ok _ => exact (ih s').trans this

theorem setattrs_accepted (ws : List (String × PyVal β)) (s : Obj β) (h : ∀ w ∈ ws, accepts c w.1 w.2) :
    (setattrs c s ws).2 = .ok () := by
  induction ws generalizing s with
  | nil => rfl
  | cons w ws ih =>
    rw [setattrs]
    have := setattr_accepted (c := c) s (h w List.mem_cons_self)
    revert this
    rcases setattr c s w.1 w.2 with ⟨s', r⟩
    rintro rfl
    exact ih s' fun w' hw' => h w' (List.mem_cons_of_mem _ hw')

theorem setattrs_cons_accepted (w : String × PyVal β) (ws : List (String × PyVal β)) (s : Obj β)
    (h : accepts c w.1 w.2) : setattrs c s (w :: ws) = setattrs c (setattr c s w.1 w.2).1 ws := by
  rw [setattrs]
  have := setattr_accepted (c := c) s h
  revert this
  rcases setattr c s w.1 w.2 with ⟨s', r⟩
  rintro rfl
  rfl

theorem setattrs_keyOK_mem (wf : WellFormed c) (ws : List (String × PyVal β)) (s : Obj β) {j : String}
    (h : ∀ w ∈ ws, accepts c w.1 w.2) (hf : j ∉ c.frozen) (hj : j ∈ ws.map Prod.fst) :
    KeyOK c (setattrs c s ws).1 j := by
  induction ws generalizing s with
  | nil => simp at hj
  | cons w ws ih =>
    rw [setattrs_cons_accepted w ws s (h w List.mem_cons_self)]
    by_cases hw : j = w.1
    · subst hw
      exact setattrs_keyOK wf ws _ (setattr_keyOK_self s hf (h w List.mem_cons_self))
    · refine ih _ (fun w' hw' => h w' (List.mem_cons_of_mem _ hw')) ?_
      rcases List.mem_cons.mp hj with hj | hj
      · exact absurd hj hw
      · exact hj

theorem mem_of_lookup {V : Type} {l : List (String × V)} {k : String} {v : V} (h : l.lookup k = some v) :
    (k, v) ∈ l := by
  induction l with
  | nil => cases h
  | cons w l ih =>
    obtain ⟨k', v'⟩ := w
    rw [List.lookup_cons] at h
    by_cases hk : k = k'
    · subst hk
      simp only [BEq.rfl] at h
      injection h with h
      rw [h]
      exact List.mem_cons_self
    · simp only [beq_eq_false_iff_ne.mpr hk] at h
      exact List.mem_cons_of_mem _ (ih h)

/-- Every class of the package can be constructed, and the new object satisfies the invariant. -/
theorem construct_good (wf : WellFormed c) : ∃ s, construct c = .ok s ∧ Good c s ∧ s.trained = false := by
  have h1 := setattrs_accepted c.ctor (blank (β := β)) wf.ctor_ok
  have hc := setattrs_complete (c := c) c.ctor (blank (β := β))
  have hk : ∀ j, j ∉ c.frozen → j ∈ c.ctor.map Prod.fst → KeyOK c (setattrs c blank c.ctor).1 j :=
    fun j => setattrs_keyOK_mem wf c.ctor blank wf.ctor_ok
  unfold construct
  revert h1 hc hk
  rcases setattrs c blank c.ctor with ⟨s, r⟩
  rintro rfl _ hk
  simp only []
  have h2 := setattrs_accepted c.defaults { s with complete := true } wf.defaults_ok
  have hc' := setattrs_complete (c := c) c.defaults { s with complete := true }
  have hk' : ∀ j, j ∉ c.frozen → j ∈ c.ctor.map Prod.fst →
      KeyOK c (setattrs c { s with complete := true } c.defaults).1 j :=
    fun j hf hj => setattrs_keyOK wf c.defaults _ (hk j hf hj)
  revert h2 hc' hk'
  rcases setattrs c { s with complete := true } c.defaults with ⟨t, r⟩
  rintro rfl hc' hk'
  refine ⟨_, rfl, good_iff.mpr ⟨(reset_complete t).trans hc', fun k => reset_keyOK wf t ?_⟩, reset_trained wf t⟩
  refine ⟨fun val hv => ?_, fun hm hf => (hk' k hf hm).2 hm hf⟩
  have hm := wf.validated _ (mem_of_lookup hv)
  exact (hk' k hm.1 hm.2).1 val hv

/-! ## Writes of training and prediction -/

theorem execWrites_complete (ws : List (Write β)) (s : Obj β) : (execWrites c s ws).1.complete = s.complete := by
  induction ws generalizing s with
  | nil => rfl
  | cons w ws ih =>
    cases w with
    | mutate k v => rw [execWrites]; exact ih _
    | assign k v =>
      rw [execWrites]
      have := setattr_complete (c := c) s k v
      revert this
      rcases setattr c s k v with ⟨s', r⟩
      intro this
      cases r with
      | error e => exact this
      | ok _ => exact (ih s').trans this

theorem execWrites_keyOK (wf : WellFormed c) (ws : List (Write β)) (s : Obj β) (hw : ∀ w ∈ ws, w.Fits c)
    {j : String} (h : KeyOK c s j) : KeyOK c (execWrites c s ws).1 j := by
  induction ws generalizing s with
  | nil => exact h
  | cons w ws ih =>
    have hws := fun w' hw' => hw w' (List.mem_cons_of_mem _ hw')
    cases w with
    | mutate k v =>
      rw [execWrites]
      refine ih _ hws (put_keyOK s ?_ (.inr h))
      rcases hw (.mutate k v) List.mem_cons_self with hk | hk
      · exact .inl hk
      · exact .inr ⟨.always, hk, rfl⟩
    | assign k v =>
      rw [execWrites]
      have := setattr_keyOK wf s k v h
      revert this
      rcases setattr c s k v with ⟨s', r⟩
      intro this
      cases r with
      | error e => exact this
      | ok _ => exact ih s' hws this

theorem setattr_trained (wf : WellFormed c) (s : Obj β) {k : String} (v : PyVal β) (hk : k ≠ "initialised")
    (hs : s.trained = false) : (setattr c s k v).1.trained = false := by
  have key : ∀ t : Obj β, t.trained = false → (t.put k v).trained = false := by
    intro t ht
    unfold Obj.trained
    rw [put_other _ _ (Ne.symm hk)]
    exact ht
  rcases setattr_cases (c := c) s k v with ⟨_, e⟩ | ⟨_, _, e⟩ | ⟨_, _, _, _, e⟩ | ⟨_, _, _, e⟩ <;> rw [e]
  · exact hs
  · exact key s hs
  · refine key _ ?_
    split
    · exact reset_trained wf s
    · exact hs
  · exact hs

theorem execWrites_trained (wf : WellFormed c) (ws : List (Write β)) (s : Obj β)
    (hw : ∀ w ∈ ws, w.key ≠ "initialised") (hs : s.trained = false) : (execWrites c s ws).1.trained = false := by
  induction ws generalizing s with
  | nil => exact hs
  | cons w ws ih =>
    have hws := fun w' hw' => hw w' (List.mem_cons_of_mem _ hw')
    have h0 := hw w List.mem_cons_self
    cases w with
    | mutate k v =>
      have h0 : k ≠ "initialised" := h0
      rw [execWrites]
      refine ih _ hws ?_
      unfold Obj.trained
      rw [put_other _ _ (Ne.symm h0)]
      exact hs
    | assign k v =>
      have h0 : k ≠ "initialised" := h0
      rw [execWrites]
      have := setattr_trained wf s v h0 hs
      revert this
      rcases setattr c s k v with ⟨s', r⟩
      intro this
      cases r with
      | error e => exact this
      | ok _ => exact ih s' hws this

/-- In-place changes other than to the flag keep the training status; so do assignments to unvalidated keys. -/
theorem execWrites_keeps (ws : List (Write β)) (s : Obj β)
    (hw : ∀ w ∈ ws, w.key ≠ "initialised") (hv : ∀ w ∈ ws, c.validators.lookup w.key = none ∨
      ∃ k v, w = .mutate k v) : (execWrites c s ws).1.trained = s.trained := by
  induction ws generalizing s with
  | nil => rfl
  | cons w ws ih =>
    have hws := fun w' hw' => hw w' (List.mem_cons_of_mem _ hw')
    have hvs := fun w' hw' => hv w' (List.mem_cons_of_mem _ hw')
    have h0 := hw w List.mem_cons_self
    have key : ∀ (k : String) (v : PyVal β), k ≠ "initialised" → (s.put k v).trained = s.trained := by
      intro k v hk
      unfold Obj.trained
      rw [put_other _ _ (Ne.symm hk)]
    cases w with
    | mutate k v => rw [execWrites, ih _ hws hvs]; exact key k v h0
    | assign k v =>
      rw [execWrites]
      have hk : c.validators.lookup k = none := by
        rcases hv _ List.mem_cons_self with h | ⟨_, _, h⟩
        · exact h
        · cases h
      by_cases hf : k ∈ c.frozen
      · rw [setattr_frozen s v hf]; exact ih s hws hvs
      · rw [setattr_plain s v hf hk]
        exact (ih _ hws hvs).trans (key k v h0)

end Verif.Life

namespace Verif.Life

variable {β : Type}

/-! ## Every class is well formed -/

/-- Boolean version of `accepts`. -/
def acceptsB (c : Cls β) (k : String) (v : PyVal β) : Bool :=
  c.frozen.contains k || match c.validators.lookup k with
    | none => true
    | some val => match val.run v with
      | .ok b => b
      | .error _ => false

theorem accepts_of {c : Cls β} {k : String} {v : PyVal β} (h : acceptsB c k v = true) : accepts c k v := by
  unfold acceptsB at h
  rcases Bool.or_eq_true _ _ ▸ h with h | h
  · exact .inl (List.contains_iff_mem.mp h)
  · revert h
    cases hv : c.validators.lookup k with
    | none => intro _; exact .inr (.inl hv)
    | some val =>
      intro h
      refine .inr (.inr ⟨val, hv, ?_⟩)
      simp only [] at h
      revert h
      cases val.run v with
      | ok b => intro h; exact congrArg _ h
      | error e => intro h; cases h

/-- Boolean version of `WellFormed`. -/
def wfCheck (c : Cls β) : Bool :=
  (c.resets.all fun w => !c.frozen.contains w.1 && (c.validators.lookup w.1).isNone) &&
  (match c.resets with
    | ("initialised", .bool false) :: rest => rest.all fun w => w.1 != "initialised"
    | _ => false) &&
  ((c.validators.lookup "initialised").isNone && !c.trainWrites.contains "initialised" &&
    !c.useWrites.contains "initialised" && !c.plain.contains "initialised" &&
    c.defaults.all fun w => w.1 != "initialised") &&
  (c.ctor.all fun w => acceptsB c w.1 w.2) &&
  (c.defaults.all fun w => acceptsB c w.1 w.2) &&
  (match c.defaults with
    | w :: _ => !c.frozen.contains w.1 && (c.validators.lookup w.1).isSome
    | [] => false) &&
  (c.validators.all fun w => !c.frozen.contains w.1 && (c.ctor.map Prod.fst).contains w.1) &&
  (c.plain.all fun k => !c.frozen.contains k && (c.validators.lookup k).isNone &&
    (c.ctor.map Prod.fst).contains k && !(c.resets.map Prod.fst).contains k) &&
  ((match c.mode with
    | .refit _ => true
    | _ => false) || c.useWrites.all fun k => (c.validators.lookup k).isNone)

theorem wellFormed_of {c : Cls β} (h : wfCheck c = true) : WellFormed c := by
  unfold wfCheck at h
  simp only [Bool.and_eq_true, List.all_eq_true, Bool.not_eq_true', Option.isNone_iff_eq_none,
    bne_iff_ne] at h
  obtain ⟨⟨⟨⟨⟨⟨⟨⟨h1, h2⟩, ⟨⟨⟨h3a, h3b⟩, h3c⟩, h3d⟩, h3e⟩, h4⟩, h5⟩, h6⟩, h7⟩, h8⟩, h9⟩ := h
  have nc : ∀ {l : List String} {k : String}, l.contains k = false → k ∉ l := by
    intro l k h hk
    rw [List.contains_iff_mem.mpr hk] at h
    cases h
  refine ⟨fun w hw => ⟨nc (h1 w hw).1, (h1 w hw).2⟩, ?_, ⟨h3a, nc h3b, nc h3c, nc h3d, h3e⟩,
    fun w hw => accepts_of (h4 w hw), fun w hw => accepts_of (h5 w hw), ?_,
    fun w hw => ⟨nc (h7 w hw).1, List.contains_iff_mem.mp (h7 w hw).2⟩,
    fun k hk => ⟨nc (h8 k hk).1.1.1, (h8 k hk).1.1.2, List.contains_iff_mem.mp (h8 k hk).1.2, nc (h8 k hk).2⟩, ?_⟩
  · split at h2
    · rename_i rest heq
      refine ⟨rest, heq, ?_⟩
      simpa using h2
    · cases h2
  · split at h6
    · rename_i w rest heq
      simp only [Bool.and_eq_true, Bool.not_eq_true'] at h6
      exact ⟨w, rest, heq, nc h6.1, h6.2⟩
    · cases h6
  · rcases Bool.or_eq_true _ _ ▸ h9 with h | h
    · left
      split at h
      · exact ⟨_, by assumption⟩
      · cases h
    · right
      intro k hk
      have := List.all_eq_true.mp h k hk
      exact Option.isNone_iff_eq_none.mp this

theorem wf_all : ∀ c ∈ (allClasses : List (Cls β)), WellFormed c := by
  intro c hc
  apply wellFormed_of
  revert c
  rw [← List.all_eq_true]
  with_unfolding_all rfl

end Verif.Life

namespace Verif.Life

variable {β α R : Type} {c : Cls β}

/-! ## Preservation of the invariant -/

theorem reset_good (wf : WellFormed c) {s : Obj β} (h : Good c s) : Good c (reset c s) := by
  rw [good_iff] at h ⊢
  exact ⟨(reset_complete s).trans h.1, fun k => reset_keyOK wf s (h.2 k)⟩

theorem setattr_good (wf : WellFormed c) {s : Obj β} (k : String) (v : PyVal β) (h : Good c s) :
    Good c (setattr c s k v).1 := by
  rw [good_iff] at h ⊢
  exact ⟨(setattr_complete s k v).trans h.1, fun j => setattr_keyOK wf s k v (h.2 j)⟩

theorem setattrs_good (wf : WellFormed c) {s : Obj β} (ws : List (String × PyVal β)) (h : Good c s) :
    Good c (setattrs c s ws).1 := by
  rw [good_iff] at h ⊢
  exact ⟨(setattrs_complete ws s).trans h.1, fun j => setattrs_keyOK wf ws s (h.2 j)⟩

theorem execWrites_good (wf : WellFormed c) {s : Obj β} (ws : List (Write β)) (hw : ∀ w ∈ ws, w.Fits c)
    (h : Good c s) : Good c (execWrites c s ws).1 := by
  rw [good_iff] at h ⊢
  exact ⟨(execWrites_complete ws s).trans h.1, fun j => execWrites_keyOK wf ws s hw (h.2 j)⟩

theorem put_flag_good (wf : WellFormed c) {s : Obj β} (v : PyVal β) (h : Good c s) :
    Good c (s.put "initialised" v) := by
  rw [good_iff] at h ⊢
  exact ⟨h.1, fun j => put_keyOK s (.inl wf.flag_free.1) (.inr (h.2 j))⟩

theorem initPair_good (wf : WellFormed c) (b : Behaviour α R c) {s : Obj β} (X Y : Mat α) (h : Good c s) :
    Good c (initPair b s X Y).1 := by
  unfold initPair
  have h1 := reset_good wf h
  simp only []
  split
  · exact h1
  · have h2 := execWrites_good wf (b.train (reset c s).attrs X Y).1 (fun w hw => (b.train_writes _ X Y w hw).2) h1
    split
    · rename_i heq; rw [heq] at h2; exact h2
    · rename_i heq
      rw [heq] at h2
      split
      · exact h2
      · exact put_flag_good wf _ h2

theorem initDefaults_good (wf : WellFormed c) {s : Obj β} (h : Good c s) : Good c (initDefaults c s).1 := by
  unfold initDefaults
  have h1 := setattrs_good wf c.defaults h
  split <;> (rename_i heq; rw [heq] at h1; exact h1)

theorem initMissing_good (wf : WellFormed c) {s : Obj β} (h : Good c s) : Good c (initMissing c s).1 := by
  unfold initMissing
  split
  · exact h
  · exact initDefaults_good wf h
  · exact h

theorem initCall_good (wf : WellFormed c) (b : Behaviour α R c) {s : Obj β} (X Y : Option (Mat α)) (h : Good c s) :
    Good c (initCall b s X Y).1 := by
  cases X <;> cases Y <;> rw [initCall]
  · exact initDefaults_good wf h
  · exact initMissing_good wf h
  · exact initMissing_good wf h
  · split
    · exact h
    · exact initPair_good wf b _ _ h

theorem use_good (wf : WellFormed c) (b : Behaviour α R c) {s : Obj β} (Z : Mat α) (h : Good c s) :
    Good c (use b s Z).1 := by
  unfold use
  split
  · have h1 := execWrites_good wf (b.use (reset c s).attrs Z).1 (fun w hw => (b.use_writes _ Z w hw).2) (reset_good wf h)
    simp only []
    split
    · rename_i heq; rw [heq] at h1; exact h1
    · rename_i heq
      rw [heq] at h1
      split
      · exact h1
      · simp only []
        split
        · exact put_flag_good wf _ h1
        · exact h1
  · split
    · have h1 := execWrites_good wf (b.use s.attrs Z).1 (fun w hw => (b.use_writes _ Z w hw).2) h
      simp only []
      split <;> (rename_i heq; rw [heq] at h1; exact h1)
    · exact h

theorem step_good (wf : WellFormed c) (b : Behaviour α R c) {s : Obj β} (op : Op α β) (h : Good c s) :
    Good c (step b s op).1 := by
  cases op with
  | set k v => exact setattr_good wf k v h
  | init X Y => exact initCall_good wf b X Y h
  | use Z => exact use_good wf b Z h
  | reset => exact reset_good wf h

theorem run_good (wf : WellFormed c) (b : Behaviour α R c) (ops : List (Op α β)) {s : Obj β} (h : Good c s) :
    Good c (run b s ops).1 := by
  induction ops generalizing s with
  | nil => exact h
  | cons op ops ih => exact ih (step_good wf b op h)

/-! ## Training status after each call -/

theorem initPair_trained (wf : WellFormed c) (b : Behaviour α R c) (s : Obj β) (X Y : Mat α) :
    (initPair b s X Y).1.trained = match (initPair b s X Y).2 with
      | .ok none => true
      | _ => false := by
  unfold initPair
  have h1 := reset_trained wf s
  simp only []
  cases b.check X Y with
  | some msg => exact h1
  | none =>
    have h2 := execWrites_trained wf (b.train (reset c s).attrs X Y).1 (reset c s)
      (fun w hw e => wf.flag_free.2.1 (e ▸ (b.train_writes _ X Y w hw).1)) h1
    revert h2
    rcases execWrites c (reset c s) (b.train (reset c s).attrs X Y).1 with ⟨s₂, r⟩
    intro h2
    cases r with
    | error e => exact h2
    | ok _ =>
      simp only []
      cases (b.train (reset c s).attrs X Y).2 with
      | error e => exact h2
      | ok msg =>
        simp only []
        unfold Obj.trained
        rw [put_self]
        cases msg <;> rfl

theorem initDefaults_ok (wf : WellFormed c) (s : Obj β) :
    initDefaults c s = ((setattrs c s c.defaults).1, .ok none) := by
  unfold initDefaults
  have := setattrs_accepted c.defaults s wf.defaults_ok
  revert this
  rcases setattrs c s c.defaults with ⟨s', r⟩
  rintro rfl
  rfl

theorem setattrs_trained (wf : WellFormed c) (ws : List (String × PyVal β)) (s : Obj β)
    (hw : ∀ w ∈ ws, w.1 ≠ "initialised") (hs : s.trained = false) : (setattrs c s ws).1.trained = false := by
  induction ws generalizing s with
  | nil => exact hs
  | cons w ws ih =>
    rw [setattrs]
    have := setattr_trained wf s w.2 (hw w List.mem_cons_self) hs
    revert this
    rcases setattr c s w.1 w.2 with ⟨s', r⟩
    intro this
    cases r with
    | error e => exact this
    | ok _ => exact ih s' (fun w' hw' => hw w' (List.mem_cons_of_mem _ hw')) this

theorem trained_put_other (s : Obj β) {k : String} (v : PyVal β) (h : k ≠ "initialised") :
    (s.put k v).trained = s.trained := by
  unfold Obj.trained
  rw [put_other _ _ (Ne.symm h)]

/-- An accepted assignment to a validated parameter leaves the object untrained. -/
theorem setattr_valid_trained (wf : WellFormed c) {s : Obj β} (hs : s.complete = true) {k : String} {v : PyVal β}
    {val : Validator} (hf : k ∉ c.frozen) (hv : c.validators.lookup k = some val) (hr : val.run v = .ok true) :
    (setattr c s k v).1.trained = false := by
  rw [setattr_valid s hf hv hr, if_pos hs, trained_put_other]
  · exact reset_trained wf s
  · rintro rfl
    rw [wf.flag_free.1] at hv
    cases hv

theorem initDefaults_trained (wf : WellFormed c) {s : Obj β} (hs : s.complete = true) :
    (initDefaults c s).1.trained = false := by
  rw [initDefaults_ok wf]
  obtain ⟨w, rest, h, hf, hv⟩ := wf.defaults_head
  have hd := wf.flag_free.2.2.2.2
  have ha := wf.defaults_ok
  simp only []
  rw [h] at hd ha ⊢
  rw [setattrs_cons_accepted w rest s (ha w List.mem_cons_self)]
  refine setattrs_trained wf rest _ (fun w' hw' => hd w' (List.mem_cons_of_mem _ hw')) ?_
  obtain ⟨val, hval⟩ := Option.isSome_iff_exists.mp hv
  rcases ha w List.mem_cons_self with h' | h' | ⟨val', h', hr⟩
  · exact absurd h' hf
  · rw [h'] at hval; cases hval
  · exact setattr_valid_trained wf hs hf h' hr

/-! ## Agreement of two objects -/

/-- Two objects agree on the attributes `K`. -/
def Agree (K : List String) (s t : Obj β) : Prop := s.complete = t.complete ∧ ∀ k ∈ K, s.attrs k = t.attrs k

theorem Agree.put {K : List String} {s t : Obj β} (h : Agree K s t) (k : String) (v : PyVal β) :
    Agree K (s.put k v) (t.put k v) := by
  refine ⟨h.1, fun j hj => ?_⟩
  by_cases hk : j = k
  · subst hk; rw [put_self, put_self]
  · rw [put_other _ _ hk, put_other _ _ hk]; exact h.2 j hj

theorem Agree.reset {K : List String} {s t : Obj β} (h : s.complete = t.complete)
    (hk : ∀ k ∈ K, k ∈ c.resets.map Prod.fst ∨ s.attrs k = t.attrs k) :
    Agree K (reset c s) (reset c t) :=
  ⟨by rw [reset_complete, reset_complete, h], fun k hk' => puts_indep _ _ _ (hk k hk')⟩

theorem Agree.setattr {K : List String} {s t : Obj β} (h : Agree K s t) (k : String) (v : PyVal β) :
    Agree K (setattr c s k v).1 (setattr c t k v).1 ∧ (setattr c s k v).2 = (setattr c t k v).2 := by
  unfold Life.setattr
  by_cases hf : k ∈ c.frozen
  · rw [if_pos hf, if_pos hf]; exact ⟨h, rfl⟩
  · rw [if_neg hf, if_neg hf]
    cases c.validators.lookup k with
    | none => exact ⟨h.put k v, rfl⟩
    | some val =>
      simp only []
      cases val.run v with
      | error e => exact ⟨h, rfl⟩
      | ok r =>
        cases r with
        | false => exact ⟨h, rfl⟩
        | true =>
          refine ⟨?_, rfl⟩
          simp only []
          refine Agree.put ?_ k v
          rw [h.1]
          split
          · exact Agree.reset h.1 fun j hj => .inr (h.2 j hj)
          · exact h

theorem Agree.setattrs {K : List String} (ws : List (String × PyVal β)) {s t : Obj β} (h : Agree K s t) :
    Agree K (setattrs c s ws).1 (setattrs c t ws).1 ∧ (setattrs c s ws).2 = (setattrs c t ws).2 := by
  induction ws generalizing s t with
  | nil => exact ⟨h, rfl⟩
  | cons w ws ih =>
    rw [Life.setattrs, Life.setattrs]
    have := h.setattr (c := c) w.1 w.2
    revert this
    rcases Life.setattr c s w.1 w.2 with ⟨s', r⟩
    rcases Life.setattr c t w.1 w.2 with ⟨t', r'⟩
    rintro ⟨h1, rfl : r = r'⟩
    cases r with
    | error e => exact ⟨h1, rfl⟩
    | ok _ => exact ih h1

theorem Agree.execWrites {K : List String} (ws : List (Write β)) {s t : Obj β} (h : Agree K s t) :
    Agree K (execWrites c s ws).1 (execWrites c t ws).1 ∧ (execWrites c s ws).2 = (execWrites c t ws).2 := by
  induction ws generalizing s t with
  | nil => exact ⟨h, rfl⟩
  | cons w ws ih =>
    cases w with
    | mutate k v => rw [Life.execWrites, Life.execWrites]; exact ih (h.put k v)
    | assign k v =>
      rw [Life.execWrites, Life.execWrites]
      have := h.setattr (c := c) k v
      revert this
      rcases Life.setattr c s k v with ⟨s', r⟩
      rcases Life.setattr c t k v with ⟨t', r'⟩
      rintro ⟨h1, rfl : r = r'⟩
      cases r with
      | error e => exact ⟨h1, rfl⟩
      | ok _ => exact ih h1

/-- Training two objects that agree on the parameters and on the reset attributes. -/
theorem Agree.initPair {K : List String} (b : Behaviour α R c) {s t : Obj β} (hc : s.complete = t.complete)
    (hk : ∀ k ∈ K, k ∈ c.resets.map Prod.fst ∨ s.attrs k = t.attrs k) (hr : ∀ k ∈ c.trainReads, k ∈ K)
    (X Y : Mat α) :
    Agree K (initPair b s X Y).1 (initPair b t X Y).1 ∧ (initPair b s X Y).2 = (initPair b t X Y).2 := by
  have h1 : Agree K (Life.reset c s) (Life.reset c t) := Agree.reset hc hk
  unfold Life.initPair
  simp only []
  cases b.check X Y with
  | some msg => exact ⟨h1, rfl⟩
  | none =>
    simp only []
    rw [b.train_reads _ _ X Y fun k hk' => h1.2 k (hr k hk')]
    have h2 := h1.execWrites (c := c) (b.train (Life.reset c t).attrs X Y).1
    revert h2
    rcases Life.execWrites c (Life.reset c s) (b.train (Life.reset c t).attrs X Y).1 with ⟨s', r⟩
    rcases Life.execWrites c (Life.reset c t) (b.train (Life.reset c t).attrs X Y).1 with ⟨t', r'⟩
    rintro ⟨h2, rfl : r = r'⟩
    cases r with
    | error e => exact ⟨h2, rfl⟩
    | ok _ =>
      simp only []
      cases (b.train (Life.reset c t).attrs X Y).2 with
      | error e => exact ⟨h2, rfl⟩
      | ok msg => exact ⟨h2.put _ _, rfl⟩

theorem Agree.initDefaults {K : List String} {s t : Obj β} (h : Agree K s t) :
    Agree K (initDefaults c s).1 (initDefaults c t).1 ∧ (initDefaults c s).2 = (initDefaults c t).2 := by
  unfold Life.initDefaults
  have := h.setattrs (c := c) c.defaults
  revert this
  rcases Life.setattrs c s c.defaults with ⟨s', r⟩
  rcases Life.setattrs c t c.defaults with ⟨t', r'⟩
  rintro ⟨h1, rfl : r = r'⟩
  cases r with
  | error e => exact ⟨h1, rfl⟩
  | ok _ => exact ⟨h1, rfl⟩

theorem Agree.initMissing {K : List String} {s t : Obj β} (h : Agree K s t) :
    Agree K (initMissing c s).1 (initMissing c t).1 ∧ (initMissing c s).2 = (initMissing c t).2 := by
  unfold Life.initMissing
  split
  · exact ⟨h, rfl⟩
  · exact h.initDefaults
  · exact ⟨h, rfl⟩

theorem Agree.initCall {K : List String} (b : Behaviour α R c) {s t : Obj β} (h : Agree K s t)
    (hr : ∀ k ∈ c.trainReads, k ∈ K) (X Y : Option (Mat α)) :
    Agree K (initCall b s X Y).1 (initCall b t X Y).1 ∧ (initCall b s X Y).2 = (initCall b t X Y).2 := by
  cases X <;> cases Y <;> rw [Life.initCall, Life.initCall]
  · exact h.initDefaults
  · exact h.initMissing
  · exact h.initMissing
  · split
    · exact ⟨h, rfl⟩
    · exact Agree.initPair b h.1 (fun k hk => .inr (h.2 k hk)) hr _ _

/-- Fitting and transforming with a `refit` class. -/
theorem Agree.useRefit {K : List String} (b : Behaviour α R c) {s t : Obj β} (hc : s.complete = t.complete)
    (hk : ∀ k ∈ K, k ∈ c.resets.map Prod.fst ∨ s.attrs k = t.attrs k) (hr : ∀ k ∈ c.useReads, k ∈ K)
    {f : Bool} (hm : c.mode = .refit f) (Z : Mat α) :
    Agree K (use b s Z).1 (use b t Z).1 ∧ (use b s Z).2 = (use b t Z).2 := by
  have h1 : Agree K (Life.reset c s) (Life.reset c t) := Agree.reset hc hk
  unfold Life.use
  rw [hm]
  simp only []
  rw [b.use_reads _ _ Z fun k hk' => h1.2 k (hr k hk')]
  have h2 := h1.execWrites (c := c) (b.use (Life.reset c t).attrs Z).1
  revert h2
  rcases Life.execWrites c (Life.reset c s) (b.use (Life.reset c t).attrs Z).1 with ⟨s', r⟩
  rcases Life.execWrites c (Life.reset c t) (b.use (Life.reset c t).attrs Z).1 with ⟨t', r'⟩
  rintro ⟨h2, rfl : r = r'⟩
  cases r with
  | error e => exact ⟨h2, rfl⟩
  | ok _ =>
    simp only []
    cases (b.use (Life.reset c t).attrs Z).2 with
    | error e => exact ⟨h2, rfl⟩
    | ok msg =>
      refine ⟨?_, rfl⟩
      simp only []
      split
      · exact h2.put _ _
      · exact h2

theorem Agree.use {K : List String} (b : Behaviour α R c) {s t : Obj β} (h : Agree K s t)
    (hr : ∀ k ∈ c.useReads, k ∈ K) (hi : "initialised" ∈ K) (Z : Mat α) :
    Agree K (use b s Z).1 (use b t Z).1 ∧ (use b s Z).2 = (use b t Z).2 := by
  cases hm : c.mode with
  | refit f => exact Agree.useRefit b h.1 (fun k hk => .inr (h.2 k hk)) hr hm Z
  | _ =>
    unfold Life.use
    rw [hm]
    simp only []
    have ht : s.trained = t.trained := by unfold Obj.trained; rw [h.2 _ hi]
    rw [ht]
    split
    · rw [b.use_reads _ _ Z fun k hk' => h.2 k (hr k hk')]
      have h2 := h.execWrites (c := c) (b.use t.attrs Z).1
      revert h2
      rcases Life.execWrites c s (b.use t.attrs Z).1 with ⟨s', r⟩
      rcases Life.execWrites c t (b.use t.attrs Z).1 with ⟨t', r'⟩
      rintro ⟨h2, rfl : r = r'⟩
      cases r with
      | error e => exact ⟨h2, rfl⟩
      | ok _ => exact ⟨h2, rfl⟩
    · exact ⟨h, rfl⟩

/-- Objects that agree on everything training and use read give the same answers for ever. -/
theorem Agree.run {K : List String} (b : Behaviour α R c) (hr : ∀ k ∈ c.trainReads, k ∈ K)
    (hu : ∀ k ∈ c.useReads, k ∈ K) (hi : "initialised" ∈ K) (ops : List (Op α β)) {s t : Obj β}
    (h : Agree K s t) : (run b s ops).2 = (run b t ops).2 := by
  induction ops generalizing s t with
  | nil => rfl
  | cons op ops ih =>
    have key : Agree K (step b s op).1 (step b t op).1 ∧ (step b s op).2 = (step b t op).2 := by
      cases op with
      | set k v => exact ⟨(h.setattr k v).1, congrArg Ans.ofUnit (h.setattr k v).2⟩
      | init X Y => exact ⟨(h.initCall b hr X Y).1, congrArg Ans.ofMsg (h.initCall b hr X Y).2⟩
      | use Z => exact ⟨(h.use b hu hi Z).1, congrArg Ans.ofOut (h.use b hu hi Z).2⟩
      | reset => exact ⟨Agree.reset h.1 fun k hk => .inr (h.2 k hk), rfl⟩
    rw [Life.run, Life.run, ih key.1, key.2]

end Verif.Life
