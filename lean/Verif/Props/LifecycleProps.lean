import Verif.Alg.LifeLemmas
import Verif.Alg.Pls1Object
import Mathlib.Tactic.Linarith
import Mathlib.Tactic.NormNum

/-!
# C45-C48: the life cycle of algorithm objects

Every theorem quantifies over the classes of the package (`allClasses`), over every behaviour of training and
prediction compatible with the attributes the class reads and writes, and over every history of calls.
-/

namespace Verif.Props

open Life

variable {β α R : Type} {c : Cls β}

/-- Objects a user can hold: constructed, then taken through any sequence of calls. -/
def Reachable (b : Behaviour α R c) (s : Obj β) : Prop :=
  ∃ s₀ ops, construct c = .ok s₀ ∧ s = (run b s₀ ops).1

theorem reachable_good (hc : c ∈ allClasses) {b : Behaviour α R c} {s : Obj β} (h : Reachable b s) : Good c s := by
  obtain ⟨s₀, ops, h0, rfl⟩ := h
  obtain ⟨s₁, h1, hg, _⟩ := construct_good (wf_all c hc)
  rw [h0] at h1
  injection h1 with h1
  subst h1
  exact run_good (wf_all c hc) b ops hg

theorem not_frozen (hc : c ∈ allClasses) {k : String} {val : Validator} (hv : c.validators.lookup k = some val) :
    k ∉ c.frozen := ((wf_all c hc).validated _ (mem_of_lookup hv)).1

/-- A behaviour with which training always succeeds and does nothing, for examples. -/
def idle (c : Cls β) : Behaviour α Unit c where
  check := fun _ _ => none
  train := fun _ _ _ => ([], .ok none)
  use := fun _ _ => ([], .ok ())
  train_reads := fun _ _ _ _ _ => rfl
  train_writes := fun _ _ _ w hw => absurd hw (by simp)
  use_reads := fun _ _ _ _ => rfl
  use_writes := fun _ _ w hw => absurd hw (by simp)

/-- Every class can be instantiated. -/
theorem C45_constructible (hc : c ∈ allClasses) : ∃ s, construct c = .ok s ∧ s.trained = false := by
  obtain ⟨s, h, _, ht⟩ := construct_good (wf_all c hc)
  exact ⟨s, h, ht⟩

/-! ## C45: validation -/

/-- A rejected value raises `ValueError` and changes nothing. -/
theorem C45_invalid (hc : c ∈ allClasses) (b : Behaviour α R c) {s : Obj β} (_ : Reachable b s) {k : String}
    {val : Validator} {v : PyVal β} (hv : c.validators.lookup k = some val) (hr : val.run v = .ok false) :
    step b s (.set k v) = (s, .err .valueError) := by
  show ((setattr c s k v).1, Ans.ofUnit (setattr c s k v).2) = _
  rw [setattr_invalid s (not_frozen hc hv) hv hr]
  rfl

/-- A value the validator cannot compare raises `TypeError` and changes nothing. -/
theorem C45_raises (hc : c ∈ allClasses) (b : Behaviour α R c) {s : Obj β} (_ : Reachable b s) {k : String}
    {val : Validator} {v : PyVal β} {e : PyErr} (hv : c.validators.lookup k = some val)
    (hr : val.run v = .error e) : step b s (.set k v) = (s, .err e) ∧ e = .typeError := by
  constructor
  · show ((setattr c s k v).1, Ans.ofUnit (setattr c s k v).2) = _
    rw [setattr_raises s (not_frozen hc hv) hv hr]
    rfl
  · cases val <;> simp only [Validator.run] at hr <;> (try cases hr) <;> split at hr <;> cases hr <;> rfl

/-- An accepted value is stored, the object becomes untrained, every attribute `reset` mentions gets its reset
value, and nothing else changes. -/
theorem C45_valid (hc : c ∈ allClasses) (b : Behaviour α R c) {s : Obj β} (hs : Reachable b s) {k : String}
    {val : Validator} {v : PyVal β} (hv : c.validators.lookup k = some val) (hr : val.run v = .ok true) :
    (step b s (.set k v)).2 = .unit ∧ (step b s (.set k v)).1.attrs k = some v ∧
      (step b s (.set k v)).1.trained = false ∧
      (∀ j ∈ c.resets.map Prod.fst, ∀ t : Obj β, (step b s (.set k v)).1.attrs j = (reset c t).attrs j) ∧
      ∀ j, j ≠ k → j ∉ c.resets.map Prod.fst → (step b s (.set k v)).1.attrs j = s.attrs j := by
  have wf := wf_all c hc
  have hg := reachable_good hc hs
  have hf := not_frozen hc hv
  have hstep : step b s (.set k v) = ((reset c s).put k v, .unit) := by
    show ((setattr c s k v).1, Ans.ofUnit (setattr c s k v).2) = _
    rw [setattr_valid s hf hv hr, if_pos hg.complete]
    rfl
  have hk : k ∉ c.resets.map Prod.fst := by
    intro h
    obtain ⟨w, hw, rfl⟩ := List.mem_map.mp h
    rw [(wf.resets_plain w hw).2] at hv
    cases hv
  rw [hstep]
  refine ⟨rfl, put_self _ _ _, ?_, ?_, ?_⟩
  · rw [trained_put_other]
    · exact reset_trained wf s
    · rintro rfl
      rw [wf.flag_free.1] at hv
      cases hv
  · intro j hj t
    show ((reset c s).put k v).attrs j = _
    rw [put_other _ _ (by rintro rfl; exact hk hj)]
    exact puts_indep _ _ _ (.inl hj)
  · intro j hjk hj
    show ((reset c s).put k v).attrs j = _
    rw [put_other _ _ hjk]
    exact puts_other _ _ fun w hw e => hj (List.mem_map.mpr ⟨w, hw, e⟩)

/-- At any time every validated parameter holds a value its validator accepts. -/
theorem C45_always_legal (hc : c ∈ allClasses) (b : Behaviour α R c) {s : Obj β} (hs : Reachable b s) {k : String}
    {val : Validator} (hv : c.validators.lookup k = some val) : ∃ v, s.attrs k = some v ∧ val.run v = .ok true :=
  (reachable_good hc hs).valid k val hv

/-- What the validators accept, on numbers. -/
theorem C45_accepts (q x : ℚ) :
    ((Validator.ge q).run (β := β) (.real (.fin x)) = .ok (decide (q ≤ x))) ∧
    ((Validator.gt q).run (β := β) (.real (.fin x)) = .ok (decide (q < x))) ∧
    ((Validator.absGe q).run (β := β) (.real (.fin x)) = .ok (decide (q ≤ |x|))) ∧
    (∀ r, (Validator.between q r).run (β := β) (.real (.fin x)) = .ok (decide (q < x ∧ x < r))) ∧
    (∀ r, (Validator.eqOrGt q r).run (β := β) (.real (.fin x)) = .ok (decide (x = q ∨ r < x))) := by
  have h : ∀ a b : ℚ, xge (.fin a) (.fin b) = decide (b ≤ a) := by
    intro a b
    show (decide (b < a) || decide (a = b)) = _
    rw [← Bool.decide_or]
    congr 1
    exact propext ⟨fun h => h.elim le_of_lt fun h => h ▸ le_refl _, fun h => (lt_or_eq_of_le h).imp_right Eq.symm⟩
  refine ⟨?_, rfl, ?_, fun r => ?_, fun r => ?_⟩
  · exact congrArg Except.ok (h x q)
  · exact congrArg Except.ok (h |x| q)
  · show Except.ok (decide (q < x) && decide (x < r)) = _
    rw [Bool.decide_and]
  · show Except.ok (decide (x = q) || decide (r < x)) = _
    rw [Bool.decide_or]

/-- A NaN is rejected by every validator that compares. -/
theorem C45_nan (val : Validator) (h : val ≠ .always) : val.run (β := β) (.real .nan) = .ok false := by
  cases val <;> first | exact absurd rfl h | rfl

/-- Integers behave like the equal float, `True` like `1`. -/
theorem C45_int (val : Validator) (i : Int) :
    val.run (β := β) (.int i) = val.run (β := β) (.real (.fin i)) ∧
    val.run (β := β) (.bool true) = val.run (β := β) (.int 1) := by
  cases val <;> exact ⟨rfl, by simp [Validator.run, PyVal.num?]⟩

/-- The documented ranges are the ones enforced: examples of the tables read back in plain arithmetic. -/
theorem C45_ranges :
    (∀ i, (setattr (β := β) fastIca blank "num_components" (.int i)).2 = .ok () ↔ 1 ≤ i) ∧
    (∀ x, (setattr (β := β) pca blank "variance" (.real (.fin x))).2 = .ok () ↔ 0 < x ∧ x < 1) ∧
    (∀ i, (setattr (β := β) pca blank "max_columns" (.int i)).2 = .ok () ↔ i = -1 ∨ 0 < i) ∧
    (∀ i, (setattr (β := β) ccaFilter blank "kcca" (.int i)).2 = .ok () ↔ 0 < i) ∧
    (∀ x, (setattr (β := β) glsw blank "alpha" (.real (.fin x))).2 = .ok () ↔ 0 < x) ∧
    (∀ i, (setattr (β := β) epo blank "N" (.int i)).2 = .ok () ↔ 0 < i) ∧
    (∀ x, (setattr (β := β) nipals blank "tol" (.real (.fin x))).2 = .ok () ↔ 0 ≤ x) ∧
    (∀ x, (setattr (β := β) sparsePls blank "lambda_" (.real (.fin x))).2 = .ok () ↔ 0 ≤ x) := by
  have key : ∀ (c : Cls β) (k : String) (val : Validator) (v : PyVal β) (p : Prop) [Decidable p],
      c.frozen = [] → c.validators.lookup k = some val → val.run v = .ok (decide p) →
      ((setattr c blank k v).2 = .ok () ↔ p) := by
    intro c k val v p _ hf hv hr
    have hf' : k ∉ c.frozen := by rw [hf]; simp
    by_cases hp : p
    · rw [setattr_valid blank hf' hv (by rw [hr, decide_eq_true hp])]
      exact ⟨fun _ => hp, fun _ => rfl⟩
    · rw [setattr_invalid blank hf' hv (by rw [hr, decide_eq_false hp])]
      exact ⟨fun h => (by cases h), fun h => absurd h hp⟩
  refine ⟨fun i => ?_, fun x => ?_, fun i => ?_, fun i => ?_, fun x => ?_, fun i => ?_, fun x => ?_, fun x => ?_⟩
  · refine (key _ _ (.ge 1) _ ((1 : ℚ) ≤ i) rfl rfl ?_).trans ?_
    · rw [(C45_int _ i).1]; exact (C45_accepts 1 (i : ℚ)).1
    · exact_mod_cast Iff.rfl
  · exact key _ _ (.between 0 1) _ (0 < x ∧ x < 1) rfl rfl ((C45_accepts 0 x).2.2.2.1 1)
  · refine (key _ _ (.eqOrGt (-1) 0) _ ((i : ℚ) = -1 ∨ 0 < (i : ℚ)) rfl rfl ?_).trans ?_
    · rw [(C45_int _ i).1]; exact (C45_accepts (-1) (i : ℚ)).2.2.2.2 0
    · constructor
      · exact Or.imp (fun h => by exact_mod_cast h) (fun h => by exact_mod_cast h)
      · exact Or.imp (fun h => by exact_mod_cast h) (fun h => by exact_mod_cast h)
  · refine (key _ _ (.gt 0) _ (0 < (i : ℚ)) rfl rfl ?_).trans (by exact_mod_cast Iff.rfl)
    rw [(C45_int _ i).1]; exact (C45_accepts 0 (i : ℚ)).2.1
  · exact key _ _ (.gt 0) _ (0 < x) rfl rfl (C45_accepts 0 x).2.1
  · refine (key _ _ (.gt 0) _ (0 < (i : ℚ)) rfl rfl ?_).trans (by exact_mod_cast Iff.rfl)
    rw [(C45_int _ i).1]; exact (C45_accepts 0 (i : ℚ)).2.1
  · exact key _ _ (.ge 0) _ (0 ≤ x) rfl rfl (C45_accepts 0 x).1
  · exact key _ _ (.ge 0) _ (0 ≤ x) rfl rfl (C45_accepts 0 x).1

theorem setattr_iff {c : Cls β} {s : Obj β} {k : String} {val : Validator} {v : PyVal β} {p : Prop} [Decidable p]
    (hf : c.frozen.contains k = false) (hv : c.validators.lookup k = some val) (hr : val.run v = .ok (decide p)) :
    (setattr c s k v).2 = .ok () ↔ p := by
  have hf : k ∉ c.frozen := by simpa using hf
  by_cases hp : p
  · rw [setattr_valid s hf hv (by rw [hr, decide_eq_true hp])]
    exact ⟨fun _ => hp, fun _ => rfl⟩
  · rw [setattr_invalid s hf hv (by rw [hr, decide_eq_false hp])]
    exact ⟨fun h => (by cases h), fun h => absurd h hp⟩

/-- The ranges of the numeric parameters, in plain arithmetic, for every class that has the parameter and whatever the
state of the object. -/
theorem C45_ranges_all (s : Obj β) :
    (∀ c ∈ ([nipals, ccaRegression, kernelPls, prm, sparsePls, fastIca] : List (Cls β)),
      (∀ i, (setattr c s "max_iter" (.int i)).2 = .ok () ↔ 0 ≤ i) ∧
      (∀ x, (setattr c s "tol" (.real (.fin x))).2 = .ok () ↔ 0 ≤ x)) ∧
    (∀ c ∈ ([glsw, yGradientGlsw, epo, yGradientEpo] : List (Cls β)), ∀ x,
      (setattr c s "alpha" (.real (.fin x))).2 = .ok () ↔ 0 < x) ∧
    (∀ c ∈ ([epo, yGradientEpo] : List (Cls β)), ∀ i, (setattr c s "N" (.int i)).2 = .ok () ↔ 0 < i) ∧
    (∀ i, (setattr fastIca s "num_components" (.int i)).2 = .ok () ↔ 1 ≤ i) ∧
    (∀ x, (setattr pca s "variance" (.real (.fin x))).2 = .ok () ↔ 0 < x ∧ x < 1) ∧
    (∀ i, (setattr pca s "max_columns" (.int i)).2 = .ok () ↔ i = -1 ∨ 0 < i) ∧
    (∀ i, (setattr ccaFilter s "kcca" (.int i)).2 = .ok () ↔ 0 < i) ∧
    (∀ x, (setattr sparsePls s "lambda_" (.real (.fin x))).2 = .ok () ↔ 0 ≤ x) ∧
    (∀ x, (setattr dipls s "lambda_" (.real (.fin x))).2 = .ok () ↔ 1 / 10 ^ 8 ≤ |x|) ∧
    (∀ x, (setattr prm s "C" (.real (.fin x))).2 = .ok () ↔ 1 / 10 ^ 10 ≤ |x|) := by
  have ge0 : ∀ i : Int, (Validator.ge 0).run (β := β) (.int i) = .ok (decide (0 ≤ i)) := by
    intro i
    rw [(C45_int _ i).1, (C45_accepts 0 (i : ℚ)).1]
    congr 2
    exact propext (by exact_mod_cast Iff.rfl)
  have ge1 : ∀ i : Int, (Validator.ge 1).run (β := β) (.int i) = .ok (decide (1 ≤ i)) := by
    intro i
    rw [(C45_int _ i).1, (C45_accepts 1 (i : ℚ)).1]
    congr 2
    exact propext (by exact_mod_cast Iff.rfl)
  have gt0 : ∀ i : Int, (Validator.gt 0).run (β := β) (.int i) = .ok (decide (0 < i)) := by
    intro i
    rw [(C45_int _ i).1, (C45_accepts 0 (i : ℚ)).2.1]
    congr 2
    exact propext (by exact_mod_cast Iff.rfl)
  have eq1 : ∀ i : Int, (Validator.eqOrGt (-1) 0).run (β := β) (.int i) = .ok (decide (i = -1 ∨ 0 < i)) := by
    intro i
    rw [(C45_int _ i).1, (C45_accepts (-1) (i : ℚ)).2.2.2.2 0]
    congr 2
    exact propext ⟨Or.imp (fun h => by exact_mod_cast h) (fun h => by exact_mod_cast h),
      Or.imp (fun h => by exact_mod_cast h) (fun h => by exact_mod_cast h)⟩
  refine ⟨fun c hc => ?_, fun c hc x => ?_, fun c hc i => ?_, fun i => ?_, fun x => ?_, fun i => ?_, fun i => ?_, fun x => ?_,
    fun x => ?_, fun x => ?_⟩
  · simp only [List.mem_cons, List.not_mem_nil, or_false] at hc
    rcases hc with rfl | rfl | rfl | rfl | rfl | rfl <;>
      exact ⟨fun i => setattr_iff rfl rfl (ge0 i), fun x => setattr_iff rfl rfl (C45_accepts 0 x).1⟩
  · simp only [List.mem_cons, List.not_mem_nil, or_false] at hc
    rcases hc with rfl | rfl | rfl | rfl <;> exact setattr_iff rfl rfl (C45_accepts 0 x).2.1
  · simp only [List.mem_cons, List.not_mem_nil, or_false] at hc
    rcases hc with rfl | rfl <;> exact setattr_iff rfl rfl (gt0 i)
  · exact setattr_iff rfl rfl (ge1 i)
  · exact setattr_iff rfl rfl ((C45_accepts 0 x).2.2.2.1 1)
  · exact setattr_iff rfl rfl (eq1 i)
  · exact setattr_iff rfl rfl (gt0 i)
  · exact setattr_iff rfl rfl (C45_accepts 0 x).1
  · refine setattr_iff (val := .absGe (1 / 10 ^ 8)) rfl ?_ (C45_accepts _ x).2.2.1
    show some (Validator.absGe _) = _
    norm_num
  · refine setattr_iff (val := .absGe (1 / 10 ^ 10)) rfl ?_ (C45_accepts _ x).2.2.1
    show some (Validator.absGe _) = _
    norm_num

/-- The remaining validated parameters take any value. -/
theorem C45_any_value (s : Obj β) (v : PyVal β) :
    (∀ c ∈ (plsClasses : List (Cls β)), (setattr c s "preprocessing_type" v).2 = .ok () ∧
      (setattr c s "num_components" v).2 = .ok ()) ∧
    (setattr vcpls s "lambda_" v).2 = .ok () ∧ (setattr simpls s "num_coefficients" v).2 = .ok () ∧
    (setattr kernelPls s "kernel" v).2 = .ok () ∧ (setattr opls s "base_PLS" v).2 = .ok () ∧
    (setattr prm s "num_SIMPLS_coefficients" v).2 = .ok () ∧ (setattr ccaFilter s "lambda_X" v).2 = .ok () ∧
    (setattr ccaFilter s "lambda_Y" v).2 = .ok () ∧ (setattr pca s "center" v).2 = .ok () ∧
    (setattr fastIca s "whiten" v).2 = .ok () := by
  have key : ∀ {c : Cls β} {k : String}, c.frozen.contains k = false → c.validators.lookup k = some .always →
      (setattr c s k v).2 = .ok () := by
    intro c k hf hv
    rw [setattr_valid s (by simpa using hf) hv rfl]
  refine ⟨fun c hc => ?_, key rfl rfl, key rfl rfl, key rfl rfl, key rfl rfl,
    key rfl rfl, key rfl rfl, key rfl rfl, key rfl rfl, key rfl rfl⟩
  simp only [plsClasses, List.mem_cons, List.not_mem_nil, or_false] at hc
  rcases hc with rfl | rfl | rfl | rfl | rfl | rfl | rfl | rfl | rfl | rfl <;>
    exact ⟨key rfl rfl, key rfl rfl⟩

/-- Parameters without a `validate_…` method (for instance `norm_Y_weights` and `deflation_mode` of NIPALS,
`ns`, `nt` and `model_adaption_strategy` of DIPLS) escape the rule: changing them keeps a trained model
trained, although the stored results belong to the old value. -/
theorem C45_unvalidated_violation (hc : c ∈ allClasses) (b : Behaviour α R c) {s : Obj β} {k : String}
    (hk : k ∈ c.plain) (v : PyVal β) :
    (step b s (.set k v)).2 = .unit ∧ (step b s (.set k v)).1.attrs k = some v ∧
      (step b s (.set k v)).1.trained = s.trained := by
  have wf := wf_all c hc
  have hp := wf.plain_ok k hk
  have hstep : step b s (.set k v) = (s.put k v, .unit) := by
    show ((setattr c s k v).1, Ans.ofUnit (setattr c s k v).2) = _
    rw [setattr_plain s v hp.1 hp.2.1]
    rfl
  rw [hstep]
  refine ⟨rfl, put_self _ _ _, trained_put_other s v ?_⟩
  rintro rfl
  exact wf.flag_free.2.2.2.1 hk

example : "norm_Y_weights" ∈ (nipals : Cls β).plain ∧ "ns" ∈ (dipls : Cls β).plain ∧
    "algorithm" ∈ (fastIca : Cls β).plain := by
  refine ⟨?_, ?_, ?_⟩ <;> simp [nipals, dipls, fastIca]

/-- CCARegression silently ignores assignments to `deflation_mode`. -/
theorem C45_deflation_mode (b : Behaviour α R (ccaRegression : Cls β)) (s : Obj β) (v : PyVal β) :
    step b s (.set "deflation_mode" v) = (s, .unit) := by
  show ((setattr _ s _ v).1, Ans.ofUnit (setattr _ s _ v).2) = _
  rw [setattr_frozen s v (by simp [ccaRegression])]
  rfl

/-! ## C46: use of an untrained model -/

/-- The training status as a function of the observable history: calls and their answers. -/
def statusAfter (c : Cls β) (t : Bool) : Op α β × Ans R → Bool
  | (.set k _, .unit) => if (c.validators.lookup k).isSome then false else t
  | (.set _ _, _) => t
  | (.init (some _) (some _), .msg none) => true
  | (.init (some _) (some _), _) => match c.mode with
    | .refit _ => t
    | _ => false
  | (.init none none, _) => false
  | (.init _ _, _) => match c.mode with
    | .lenient => false
    | _ => t
  | (.use _, .out _) => match c.mode with
    | .refit f => f
    | _ => t
  | (.use _, _) => match c.mode with
    | .refit _ => false
    | _ => t
  | (.reset, _) => false

/-- No call assigns the flag itself. -/
def NoFlag (ops : List (Op α β)) : Prop := ∀ v, Op.set "initialised" v ∉ ops

theorem step_status (hc : c ∈ allClasses) (b : Behaviour α R c) {s : Obj β} (hg : Good c s) (op : Op α β)
    (ho : ∀ v, op ≠ .set "initialised" v) :
    (step b s op).1.trained = statusAfter c s.trained (op, (step b s op).2) := by
  have wf := wf_all c hc
  cases op with
  | set k v =>
    show (setattr c s k v).1.trained = statusAfter c s.trained (.set k v, Ans.ofUnit (setattr c s k v).2)
    have hk : k ≠ "initialised" := fun h => ho v (h ▸ rfl)
    rcases setattr_cases (c := c) s k v with ⟨hf, e⟩ | ⟨_, hn, e⟩ | ⟨val, hf, hv, hr, e⟩ | ⟨er, _, _, e⟩
    · rw [e]
      have hl : c.validators.lookup k = none := by
        cases h : c.validators.lookup k with
        | none => rfl
        | some val => exact absurd hf (not_frozen hc h)
      show s.trained = if (c.validators.lookup k).isSome then false else s.trained
      rw [hl]
      rfl
    · rw [e]
      show (s.put k v).trained = if (c.validators.lookup k).isSome then false else s.trained
      rw [hn]
      exact trained_put_other s v hk
    · rw [setattr_valid_trained wf hg.complete hf hv hr, e]
      show false = if (c.validators.lookup k).isSome then false else s.trained
      rw [hv]
      rfl
    · rw [e]
      rfl
  | init X Y =>
    show (initCall b s X Y).1.trained = statusAfter c s.trained (.init X Y, Ans.ofMsg (initCall b s X Y).2)
    have hmiss : (initMissing c s).1.trained = match c.mode with
        | .lenient => false
        | _ => s.trained := by
      unfold initMissing
      cases c.mode with
      | pair => rfl
      | lenient => exact initDefaults_trained wf hg.complete
      | refit f => rfl
    cases X <;> cases Y <;> rw [initCall]
    · have : ∀ a : Ans R, statusAfter (α := α) c s.trained (.init none none, a) = false := by
        intro a; cases a <;> rfl
      rw [this]
      exact initDefaults_trained wf hg.complete
    · have : ∀ (y : Mat α) (a : Ans R), statusAfter c s.trained (.init none (some y), a) = match c.mode with
          | .lenient => false
          | _ => s.trained := by intro y a; cases a <;> rfl
      rw [this]
      exact hmiss
    · have : ∀ (y : Mat α) (a : Ans R), statusAfter c s.trained (.init (some y) none, a) = match c.mode with
          | .lenient => false
          | _ => s.trained := by intro y a; cases a <;> rfl
      rw [this]
      exact hmiss
    · rename_i X Y
      have h1 := initPair_trained wf b s X Y
      cases hm : c.mode with
      | refit f =>
        show s.trained = statusAfter c s.trained (.init (some X) (some Y), Ans.err .typeError)
        show s.trained = match c.mode with
          | .refit _ => s.trained
          | _ => false
        rw [hm]
      | _ =>
        simp only []
        rw [h1]
        cases (initPair b s X Y).2 with
        | error e =>
          show false = match c.mode with
            | .refit _ => s.trained
            | _ => false
          rw [hm]
        | ok msg =>
          cases msg with
          | none => rfl
          | some m =>
            show false = match c.mode with
              | .refit _ => s.trained
              | _ => false
            rw [hm]
  | use Z =>
    show (use b s Z).1.trained = statusAfter c s.trained (.use Z, Ans.ofOut (use b s Z).2)
    cases hm : c.mode with
    | refit f =>
      unfold use
      rw [hm]
      simp only []
      have h2 := execWrites_trained wf (b.use (reset c s).attrs Z).1 (reset c s)
        (fun w hw e => wf.flag_free.2.2.1 (e ▸ (b.use_writes _ Z w hw).1)) (reset_trained wf s)
      have herr : ∀ e : PyErr, statusAfter c s.trained (.use Z, (Ans.err e : Ans R)) = false := by
        intro e
        show (match c.mode with | .refit _ => false | _ => s.trained) = false
        rw [hm]
      have hout : ∀ r : R, statusAfter c s.trained (.use Z, Ans.out r) = f := by
        intro r
        show (match c.mode with | .refit f => f | _ => s.trained) = f
        rw [hm]
      revert h2
      rcases execWrites c (reset c s) (b.use (reset c s).attrs Z).1 with ⟨s₂, r⟩
      intro h2
      cases r with
      | error e => exact h2.trans (herr e).symm
      | ok _ =>
        simp only []
        cases (b.use (reset c s).attrs Z).2 with
        | error e => exact h2.trans (herr e).symm
        | ok out =>
          simp only [Ans.ofOut]
          rw [hout]
          cases f with
          | false => exact h2
          | true =>
            show (s₂.put "initialised" (.bool true)).trained = true
            unfold Obj.trained
            rw [put_self]
    | _ =>
      have hst : ∀ a : Ans R, statusAfter c s.trained (.use Z, a) = s.trained := by
        intro a
        cases a
        case out => show (match c.mode with | .refit f => f | _ => s.trained) = s.trained; rw [hm]
        all_goals (show (match c.mode with | .refit _ => false | _ => s.trained) = s.trained; rw [hm])
      rw [hst]
      unfold use
      rw [hm]
      simp only []
      split
      · have h2 := execWrites_keeps (c := c) (b.use s.attrs Z).1 s
          (fun w hw e => wf.flag_free.2.2.1 (e ▸ (b.use_writes _ Z w hw).1))
          (fun w hw => by
            rcases wf.use_unvalidated with ⟨t, ht⟩ | hu
            · rw [hm] at ht; cases ht
            · exact .inl (hu _ (b.use_writes _ Z w hw).1))
        split <;> (rename_i heq; rw [heq] at h2; exact h2)
      · rfl
  | reset => exact reset_trained wf s

/-- The flag is exactly what the history says: trained iff a successful training was not followed by a
parameter change, a reset, a failed training or a return to the defaults. -/
theorem C46_status (hc : c ∈ allClasses) (b : Behaviour α R c) {s : Obj β} (hs : Reachable b s)
    (ops : List (Op α β)) (ho : NoFlag ops) :
    (run b s ops).1.trained = (run b s ops).2.foldl (statusAfter c) s.trained := by
  have hg := reachable_good hc hs
  clear hs
  induction ops generalizing s with
  | nil => rfl
  | cons op ops ih =>
    rw [run, List.foldl_cons, ← step_status hc b hg op fun v h => ho v (h ▸ List.mem_cons_self)]
    exact ih (fun v hv => ho v (List.mem_cons_of_mem _ hv)) (step_good (wf_all c hc) b op hg)

/-- A new object is untrained. -/
theorem C46_new (hc : c ∈ allClasses) {s : Obj β} (h : construct c = .ok s) : s.trained = false := by
  obtain ⟨t, h1, _, ht⟩ := construct_good (wf_all c hc)
  rw [h] at h1
  injection h1 with h1
  rw [h1]
  exact ht

/-- `predict` and `transform` refuse to work on an untrained model: `RuntimeError`, nothing changes. -/
theorem C46_refuses (hm : c.mode = .pair ∨ c.mode = .lenient) (b : Behaviour α R c) {s : Obj β}
    (ht : s.trained = false) (Z : Mat α) : step b s (.use Z) = (s, .err .runtimeError) := by
  have : use b s Z = (s, .error .runtimeError) := by
    unfold use
    rcases hm with hm | hm <;> rw [hm] <;> simp only [ht] <;> rfl
  show ((use b s Z).1, Ans.ofOut (use b s Z).2) = _
  rw [this]
  rfl

/-- On a trained model they give the prediction computed from the stored attributes (if writing back
internal state succeeds). -/
theorem C46_works (hm : c.mode = .pair ∨ c.mode = .lenient) (b : Behaviour α R c) {s : Obj β}
    (ht : s.trained = true) (Z : Mat α) (hw : (b.use s.attrs Z).1 = []) :
    step b s (.use Z) = (s, Ans.ofOut (b.use s.attrs Z).2) := by
  have : use b s Z = (s, (b.use s.attrs Z).2) := by
    unfold use
    rcases hm with hm | hm <;> rw [hm] <;> simp only [ht, hw, execWrites] <;> rfl
  show ((use b s Z).1, Ans.ofOut (use b s Z).2) = _
  rw [this]

/-- Two histories, one ending trained, one untrained. -/
example (Z X Y : Mat α) : ∃ s, construct (pls1 : Cls β) = .ok s ∧
    (run (idle pls1) s [.use Z, .init (some X) (some Y), .use Z]).2.map Prod.snd =
      [.err .runtimeError, .msg none, .out ()] ∧
    (run (idle pls1) s [.init (some X) (some Y), .set "num_components" (.int 3), .use Z]).2.map Prod.snd =
      [.msg none, .unit, .err .runtimeError] := by
  refine ⟨_, rfl, rfl, rfl⟩

/-! ### `get_matrix` -/

/-- `get_matrix_names` lists exactly the names `get_matrix` knows, for every PLS class. -/
theorem C46_names (hc : c ∈ plsClasses) (n : String) : n ∈ c.matrixNames ↔ (c.matrices.lookup n).isSome := by
  have hperm : ∀ c ∈ (plsClasses : List (Cls β)),
      (∀ n ∈ c.matrixNames, (c.matrices.lookup n).isSome) ∧ ∀ w ∈ c.matrices, w.1 ∈ c.matrixNames := by
    have hb : (plsClasses : List (Cls β)).all (fun c =>
        c.matrixNames.all (fun n => (c.matrices.lookup n).isSome) &&
        c.matrices.all fun w => c.matrixNames.contains w.1) = true := by with_unfolding_all rfl
    intro c hc
    have := List.all_eq_true.mp hb c hc
    simp only [Bool.and_eq_true, List.all_eq_true] at this
    exact ⟨this.1, fun w hw => List.contains_iff_mem.mp (this.2 w hw)⟩
  refine ⟨(hperm c hc).1 n, fun h => ?_⟩
  obtain ⟨v, hv⟩ := Option.isSome_iff_exists.mp h
  exact (hperm c hc).2 _ (mem_of_lookup hv)

/-- An unknown name gives `None`. -/
theorem C46_unknown_name (hc : c ∈ plsClasses) (prod : PyVal β → PyVal β → Except PyErr (PyVal β)) (s : Obj β)
    {n : String} (hn : n ∉ c.matrixNames) : getMatrix prod c s n = .ok .none := by
  have : c.matrices.lookup n = none := by
    cases h : c.matrices.lookup n with
    | none => rfl
    | some v => exact absurd ((C46_names hc n).mpr (by rw [h]; rfl)) hn
  unfold getMatrix
  rw [this]

/-- A listed name gives the attribute behind it, at any time, without error; the product `W` of PRM is the
exception. -/
theorem C46_known_name (hc : c ∈ plsClasses) (prod : PyVal β → PyVal β → Except PyErr (PyVal β))
    (b : Behaviour α R c) {s : Obj β} (hs : Reachable b s) {n k : String}
    (hn : c.matrices.lookup n = some (.attr k)) : ∃ v, s.attrs k = some v ∧ getMatrix prod c s n = .ok v := by
  have hall : c ∈ allClasses := List.mem_append_left _ hc
  have hctor : ∀ c ∈ (plsClasses : List (Cls β)), ∀ w ∈ c.matrices, ∀ k, w.2 = .attr k →
      k ∈ c.ctor.map Prod.fst ∧ k ∉ c.frozen := by
    have hb : (plsClasses : List (Cls β)).all (fun c => c.matrices.all fun w => match w.2 with
        | .attr k => (c.ctor.map Prod.fst).contains k && !c.frozen.contains k
        | .product _ _ => true) = true := by with_unfolding_all rfl
    intro c hc w hw k hk
    have := List.all_eq_true.mp (List.all_eq_true.mp hb c hc) w hw
    rw [hk] at this
    simp only [Bool.and_eq_true, Bool.not_eq_true'] at this
    refine ⟨List.contains_iff_mem.mp this.1, fun h => ?_⟩
    rw [List.contains_iff_mem.mpr h] at this
    cases this.2
  obtain ⟨h1, h2⟩ := hctor c hc _ (mem_of_lookup hn) k rfl
  obtain ⟨v, hv⟩ := Option.isSome_iff_exists.mp ((reachable_good hall hs).present k h1 h2)
  refine ⟨v, hv, ?_⟩
  unfold getMatrix
  rw [hn]
  simp only []
  rw [hv]

/-- After a parameter change every listed matrix is `None`, except for SIMPLS and PRM. -/
theorem C46_names_reset_partial (hc : c ∈ plsClasses) (hn : c.name ≠ "SIMPLS" ∧ c.name ≠ "PRM")
    (prod : PyVal β → PyVal β → Except PyErr (PyVal β)) (b : Behaviour α R c) {s : Obj β} (hs : Reachable b s)
    {k : String} {val : Validator} {v : PyVal β} (hv : c.validators.lookup k = some val) (hr : val.run v = .ok true)
    {n : String} (hm : n ∈ c.matrixNames) : getMatrix prod c (step b s (.set k v)).1 n = .ok .none := by
  have hall : c ∈ allClasses := List.mem_append_left _ hc
  obtain ⟨_, _, _, h4, _⟩ := C45_valid hall b hs hv hr
  have hreset : ∀ c ∈ (plsClasses : List (Cls β)), c.name ≠ "SIMPLS" ∧ c.name ≠ "PRM" → ∀ w ∈ c.matrices,
      ∃ j, w.2 = .attr j ∧ j ∈ c.resets.map Prod.fst ∧ (reset c blank).attrs j = some .none := by
    have hb : (plsClasses : List (Cls β)).all (fun c => c.name == "SIMPLS" || c.name == "PRM" ||
        c.matrices.all fun w => match w.2 with
        | .attr j => (c.resets.map Prod.fst).contains j && match (reset c blank).attrs j with
          | some .none => true
          | _ => false
        | .product _ _ => false) = true := by with_unfolding_all rfl
    intro c hc hn w hw
    have := List.all_eq_true.mp hb c hc
    rw [beq_eq_false_iff_ne.mpr hn.1, beq_eq_false_iff_ne.mpr hn.2, Bool.false_or, Bool.false_or] at this
    have := List.all_eq_true.mp this w hw
    cases hw2 : w.2 with
    | product _ _ => rw [hw2] at this; cases this
    | attr j =>
      rw [hw2] at this
      simp only [Bool.and_eq_true] at this
      refine ⟨j, rfl, List.contains_iff_mem.mp this.1, ?_⟩
      have h2 := this.2
      split at h2
      · assumption
      · cases h2
  obtain ⟨src, hsrc⟩ := Option.isSome_iff_exists.mp ((C46_names hc n).mp hm)
  obtain ⟨j, hj, hjr, hjn⟩ := hreset c hc hn _ (mem_of_lookup hsrc)
  simp only [] at hj
  subst hj
  unfold getMatrix
  rw [hsrc]
  simp only []
  rw [h4 j hjr blank, hjn]

/-- PRM: asking an untrained model for the listed matrix `W` raises `AttributeError` instead of answering
`None`. -/
theorem C46_prm_violation (prod : PyVal β → PyVal β → Except PyErr (PyVal β)) :
    ∃ s, construct (prm : Cls β) = .ok s ∧ "W" ∈ (prm : Cls β).matrixNames ∧
      getMatrix prod prm s "W" = .error .attributeError := by
  with_unfolding_all exact ⟨_, rfl, by simp [prm], rfl⟩

/-- Training behaviour of SIMPLS as far as `Q` is concerned. -/
def writesQ (q : β) : Behaviour α Unit (simpls : Cls β) where
  check := fun _ _ => none
  train := fun _ _ _ => ([.assign "Q" (.other q)], .ok none)
  use := fun _ _ => ([], .ok ())
  train_reads := fun _ _ _ _ _ => rfl
  train_writes := fun _ _ _ w hw => by
    rw [List.mem_singleton.mp hw]
    exact ⟨by simp [Write.key, simpls], trivial⟩
  use_reads := fun _ _ _ _ => rfl
  use_writes := fun _ _ w hw => absurd hw (by simp)

/-- SIMPLS: `reset` forgets to clear `Q`, so after training and changing a parameter the untrained model still
hands out the old `Q`. -/
theorem C46_simpls_violation (prod : PyVal β → PyVal β → Except PyErr (PyVal β)) (q : β) (X Y : Mat α) :
    ∃ s, construct (simpls : Cls β) = .ok s ∧
      let t := (run (writesQ q) s [.init (some X) (some Y), .set "num_components" (.int 2)]).1
      t.trained = false ∧ getMatrix prod simpls t "W" = .ok .none ∧
        getMatrix prod simpls t "Q" = .ok (.other q) :=
  ⟨_, rfl, rfl, rfl, rfl⟩

/-! ## C47: failed training -/

/-- After training with both arguments the model is trained exactly when `initialize` returned `None`; an error
message or an exception leaves it untrained. -/
theorem C47_flag (hc : c ∈ allClasses) (hm : c.mode = .pair ∨ c.mode = .lenient) (b : Behaviour α R c) (s : Obj β)
    (X Y : Mat α) :
    (step b s (.init (some X) (some Y))).1.trained = true ↔
      (step b s (.init (some X) (some Y))).2 = .msg none := by
  have h := initPair_trained (wf_all c hc) b s X Y
  have hi : initCall b s (some X) (some Y) = initPair b s X Y := by
    rw [initCall]
    rcases hm with hm | hm <;> rw [hm]
  show (initCall b s (some X) (some Y)).1.trained = true ↔ Ans.ofMsg (initCall b s (some X) (some Y)).2 = .msg none
  rw [hi, h]
  cases (initPair b s X Y).2 with
  | error e => exact ⟨fun h => (by cases h), fun h => (by cases h)⟩
  | ok m =>
    cases m with
    | none => exact ⟨fun _ => rfl, fun _ => rfl⟩
    | some t => exact ⟨fun h => (by cases h), fun h => (by cases h)⟩

/-- Consequently prediction after a failed training raises `RuntimeError`. -/
theorem C47_refuses (hc : c ∈ allClasses) (hm : c.mode = .pair ∨ c.mode = .lenient) (b : Behaviour α R c)
    (s : Obj β) (X Y Z : Mat α) (hf : (step b s (.init (some X) (some Y))).2 ≠ .msg none) :
    (step b (step b s (.init (some X) (some Y))).1 (.use Z)).2 = .err .runtimeError := by
  have ht : (step b s (.init (some X) (some Y))).1.trained = false := by
    cases h : (step b s (.init (some X) (some Y))).1.trained with
    | false => rfl
    | true => exact absurd ((C47_flag hc hm b s X Y).mp h) hf
  rw [C46_refuses hm b ht Z]

/-- The rejection by `check` comes back as a message. -/
theorem C47_check_message (hm : c.mode = .pair ∨ c.mode = .lenient) (b : Behaviour α R c) (s : Obj β)
    (X Y : Mat α) {m : String} (h : b.check X Y = some m) :
    (step b s (.init (some X) (some Y))).2 = .msg (some m) := by
  have hi : initCall b s (some X) (some Y) = initPair b s X Y := by
    rw [initCall]
    rcases hm with hm | hm <;> rw [hm]
  show Ans.ofMsg (initCall b s (some X) (some Y)).2 = _
  rw [hi]
  unfold initPair
  rw [h]
  rfl

/-- A failing `transform` of PCA or FastICA leaves the object uninitialised. -/
theorem C47_refit (hc : c ∈ allClasses) {f : Bool} (hm : c.mode = .refit f) (b : Behaviour α R c) {s : Obj β}
    (hs : Reachable b s) (Z : Mat α) {e : PyErr} (h : (step b s (.use Z)).2 = .err e) :
    (step b s (.use Z)).1.trained = false := by
  rw [step_status hc b (reachable_good hc hs) _ (fun v h => by cases h), h]
  show (match c.mode with | .refit _ => false | _ => s.trained) = false
  rw [hm]

/-- The missing-argument half of the claim is false.  With one argument missing the PLS and GLSW classes fail
with `AttributeError` (`None.copy()`), before the reset: no message, and a previously trained model stays
trained. -/
theorem C47_missing_violation (hm : c.mode = .pair) (b : Behaviour α R c) (s : Obj β) (X : Mat α) :
    step b s (.init (some X) none) = (s, .err .attributeError) ∧
    step b s (.init none (some X)) = (s, .err .attributeError) := by
  have h : initMissing c s = (s, .error .attributeError) := by unfold initMissing; rw [hm]
  constructor
  · show ((initMissing c s).1, Ans.ofMsg (initMissing c s).2) = _
    rw [h]; rfl
  · show ((initMissing c s).1, Ans.ofMsg (initMissing c s).2) = _
    rw [h]; rfl

/-- A concrete case: train, call `initialize(X, None)`, predict: the old model answers. -/
example (X Y Z : Mat α) : ∃ s, construct (pls1 : Cls β) = .ok s ∧
    (run (idle pls1) s [.init (some X) (some Y), .init (some X) none, .use Z]).2.map Prod.snd =
      [.msg none, .err .attributeError, .out ()] := ⟨_, rfl, rfl⟩

/-- `CCAFilter.initialize(X, None)` reports success, leaves the filter untrained and puts every parameter back
to its default. -/
theorem C47_ccafilter_violation (b : Behaviour α R (ccaFilter : Cls β)) {s : Obj β} (hs : Reachable b s)
    (X : Mat α) :
    let r := step b s (.init (some X) none)
    r.2 = .msg none ∧ r.1.trained = false ∧
      r.1.attrs "kcca" = some (.int 1) ∧ r.1.attrs "lambda_X" = some (fl (1 / 100)) := by
  have hc : (ccaFilter : Cls β) ∈ allClasses := by simp [allClasses]
  have hg := reachable_good hc hs
  have h : initMissing ccaFilter s = initDefaults ccaFilter s := rfl
  have hstep : step b s (.init (some X) none) =
      ((initDefaults ccaFilter s).1, Ans.ofMsg (initDefaults ccaFilter s).2) := by
    show ((initMissing ccaFilter s).1, Ans.ofMsg (initMissing ccaFilter s).2) = _
    rw [h]
  obtain ⟨s', hs'⟩ : ∃ s', s' = s := ⟨_, rfl⟩
  have hcomp : s = { complete := true, attrs := s.attrs } := by
    cases s; have := hg.complete; simp only [] at this; rw [this]
  rw [hstep, hcomp]
  refine ⟨rfl, ?_, rfl, rfl⟩
  rw [← hcomp]
  exact initDefaults_trained (wf_all _ hc) hg.complete

/-! ## C48: retraining -/

/-- The parameters of a class. -/
def configKeys (c : Cls β) : List String := c.validators.map Prod.fst ++ c.plain

/-- The parameter values of an object, as a list of assignments. -/
def paramsOf (c : Cls β) (s : Obj β) : List (String × PyVal β) :=
  (configKeys c).map fun k => (k, (s.attrs k).getD .none)

/-- Everything training and use read is a parameter or is cleared by `reset`. -/
def ReadsReset (c : Cls β) : Prop :=
  ∀ k, (k ∈ c.trainReads ∨ k ∈ c.useReads) → k ∈ configKeys c ∨ k ∈ c.resets.map Prod.fst

theorem readsReset (hc : c ∈ allClasses) (hn : c.name ∉ ["CCAFilter", "DIPLS", "FastICA"]) : ReadsReset c := by
  have hb : (allClasses : List (Cls β)).all (fun c => ["CCAFilter", "DIPLS", "FastICA"].contains c.name ||
      (c.trainReads ++ c.useReads).all fun k => (configKeys c).contains k || (c.resets.map Prod.fst).contains k) =
      true := by with_unfolding_all rfl
  have := List.all_eq_true.mp hb c hc
  have hn' : ["CCAFilter", "DIPLS", "FastICA"].contains c.name = false := by
    cases h : ["CCAFilter", "DIPLS", "FastICA"].contains c.name with
    | false => rfl
    | true => exact absurd (List.contains_iff_mem.mp h) hn
  rw [hn', Bool.false_or] at this
  intro k hk
  have h := List.all_eq_true.mp this k (List.mem_append.mpr hk)
  rcases Bool.or_eq_true _ _ ▸ h with h | h
  · exact .inl (List.contains_iff_mem.mp h)
  · exact .inr (List.contains_iff_mem.mp h)

theorem lookup_none_or_mem {V : Type} (l : List (String × V)) (k : String) (h : k ∈ l.map Prod.fst) :
    ∃ v, l.lookup k = some v := by
  induction l with
  | nil => simp at h
  | cons w l ih =>
    obtain ⟨k', v'⟩ := w
    rw [List.lookup_cons]
    by_cases hk : k = k'
    · subst hk
      exact ⟨v', by simp⟩
    · simp only [beq_eq_false_iff_ne.mpr hk]
      rcases List.mem_cons.mp h with h | h
      · exact absurd h hk
      · exact ih h

/-- Assigning accepted values to parameters one after the other leaves each with its value. -/
theorem setattrs_params (f : String → PyVal β) (ks : List String) (t : Obj β)
    (hk : ∀ k ∈ ks, k ∉ c.frozen ∧ k ∉ c.resets.map Prod.fst ∧ accepts c k (f k)) (j : String)
    (hj : j ∈ ks ∨ (t.attrs j = some (f j) ∧ j ∉ c.resets.map Prod.fst)) :
    (setattrs c t (ks.map fun k => (k, f k))).1.attrs j = some (f j) := by
  induction ks generalizing t with
  | nil => exact (hj.resolve_left (by simp)).1
  | cons k ks ih =>
    obtain ⟨hf, hr, ha⟩ := hk k List.mem_cons_self
    rw [List.map_cons, setattrs_cons_accepted _ _ t ha]
    refine ih _ (fun k' hk' => hk k' (List.mem_cons_of_mem _ hk')) ?_
    by_cases hjk : j ∈ ks
    · exact .inl hjk
    right
    have hset : (setattr c t k (f k)).1 = (if (c.validators.lookup k).isSome && t.complete then reset c t else t).put k (f k) := by
      rcases ha with h | h | ⟨val, h, hr'⟩
      · exact absurd h hf
      · rw [setattr_plain t _ hf h, h]; rfl
      · rw [setattr_valid t hf h hr', h]; rfl
    have hjr : j ∉ c.resets.map Prod.fst := by
      rcases hj with hj | hj
      · rcases List.mem_cons.mp hj with rfl | hj
        · exact hr
        · exact absurd hj hjk
      · exact hj.2
    refine ⟨?_, hjr⟩
    simp only []
    rw [hset]
    by_cases e : j = k
    · subst e; exact put_self _ _ _
    · rw [put_other _ _ e]
      have hj' : t.attrs j = some (f j) := by
        rcases hj with hj | hj
        · rcases List.mem_cons.mp hj with h | h
          · exact absurd h e
          · exact absurd h hjk
        · exact hj.1
      split
      · unfold reset
        rw [puts_other _ _ fun w hw h => hjr (List.mem_map.mpr ⟨w, hw, h⟩)]
        exact hj'
      · exact hj'

/-- The parameters of a reachable object are all accepted by a new object, which afterwards has the same
parameter values. -/
theorem params_accepted (hc : c ∈ allClasses) {b : Behaviour α R c} {s s₀ : Obj β} (hs : Reachable b s)
    (h0 : construct c = .ok s₀) :
    (setattrs c s₀ (paramsOf c s)).2 = .ok () ∧
      (setattrs c s₀ (paramsOf c s)).1.complete = s.complete ∧
      ∀ k ∈ configKeys c, (setattrs c s₀ (paramsOf c s)).1.attrs k = s.attrs k := by
  have wf := wf_all c hc
  have hg := reachable_good hc hs
  have hg0 : Good c s₀ := by
    obtain ⟨t, h1, h2, _⟩ := construct_good wf
    rw [h0] at h1; injection h1 with h1; rw [h1]; exact h2
  have hkey : ∀ k ∈ configKeys c, k ∉ c.frozen ∧ k ∉ c.resets.map Prod.fst ∧
      accepts c k ((s.attrs k).getD .none) ∧ (s.attrs k).isSome := by
    intro k hk
    rcases List.mem_append.mp hk with hk | hk
    · obtain ⟨val, hv⟩ := lookup_none_or_mem _ _ hk
      obtain ⟨v, h1, h2⟩ := hg.valid k val hv
      refine ⟨not_frozen hc hv, ?_, .inr (.inr ⟨val, hv, by rw [h1]; exact h2⟩), by rw [h1]; rfl⟩
      intro h
      obtain ⟨w, hw, rfl⟩ := List.mem_map.mp h
      rw [(wf.resets_plain w hw).2] at hv
      cases hv
    · obtain ⟨h1, h2, h3, h4⟩ := wf.plain_ok k hk
      exact ⟨h1, h4, .inr (.inl h2), hg.present k h3 h1⟩
  refine ⟨setattrs_accepted _ _ ?_, ?_, fun k hk => ?_⟩
  · intro w hw
    obtain ⟨k, hk, rfl⟩ := List.mem_map.mp hw
    exact (hkey k hk).2.2.1
  · rw [setattrs_complete, hg0.complete, hg.complete]
  · have := setattrs_params (fun k => (s.attrs k).getD .none) (configKeys c) s₀
      (fun k hk => ⟨(hkey k hk).1, (hkey k hk).2.1, (hkey k hk).2.2.1⟩) k (.inl hk)
    refine this.trans ?_
    obtain ⟨v, hv⟩ := Option.isSome_iff_exists.mp (hkey k hk).2.2.2
    rw [hv]
    rfl

/-- Retraining forgets the past, for every class except CCAFilter, DIPLS and FastICA: take an object through any
history, and a new object given the same parameter values.  Training both on the same data gives the same
answer, and so does everything done with them afterwards. -/
theorem C48_retrain_partial (hc : c ∈ allClasses) (hn : c.name ∉ ["CCAFilter", "DIPLS", "FastICA"])
    (hm : c.mode = .pair ∨ c.mode = .lenient) (b : Behaviour α R c) {s s₀ : Obj β} (hs : Reachable b s)
    (h0 : construct c = .ok s₀) (X Y : Mat α) (ops : List (Op α β)) :
    (setattrs c s₀ (paramsOf c s)).2 = .ok () ∧
    (run b (setattrs c s₀ (paramsOf c s)).1 (.init (some X) (some Y) :: ops)).2 =
      (run b s (.init (some X) (some Y) :: ops)).2 := by
  have wf := wf_all c hc
  obtain ⟨h1, h2, h3⟩ := params_accepted hc hs h0
  have hrr := readsReset hc hn
  have hi : "initialised" ∈ c.resets.map Prod.fst := by
    obtain ⟨rest, h, _⟩ := wf.resets_first
    rw [h]; simp
  refine ⟨h1, ?_⟩
  have hpair : ∀ t : Obj β, initCall b t (some X) (some Y) = initPair b t X Y := by
    intro t
    rw [initCall]
    rcases hm with hm | hm <;> rw [hm]
  have key := Agree.initPair (K := configKeys c ++ c.resets.map Prod.fst) b (s := (setattrs c s₀ (paramsOf c s)).1)
    (t := s) h2 (fun k hk => by
      rcases List.mem_append.mp hk with hk | hk
      · exact .inr (h3 k hk)
      · exact .inl hk)
    (fun k hk => List.mem_append.mpr (hrr k (.inl hk))) X Y
  rw [← hpair, ← hpair] at key
  have hrun := key.1.run b (fun k hk => List.mem_append.mpr (hrr k (.inl hk)))
    (fun k hk => List.mem_append.mpr (hrr k (.inr hk))) (List.mem_append_right _ hi) ops
  rw [run, run]
  refine List.cons_eq_cons.mpr ⟨?_, hrun⟩
  exact congrArg (fun x => (Op.init (some X) (some Y), Ans.ofMsg x)) key.2

/-- The same for PCA, where every `transform` refits. -/
theorem C48_pca (b : Behaviour α R (pca : Cls β)) {s s₀ : Obj β} (hs : Reachable b s)
    (h0 : construct (pca : Cls β) = .ok s₀) (Z : Mat α) (ops : List (Op α β)) :
    (setattrs pca s₀ (paramsOf pca s)).2 = .ok () ∧
    (run b (setattrs pca s₀ (paramsOf pca s)).1 (.use Z :: ops)).2 = (run b s (.use Z :: ops)).2 := by
  have hc : (pca : Cls β) ∈ allClasses := by simp [allClasses]
  have wf := wf_all _ hc
  obtain ⟨h1, h2, h3⟩ := params_accepted hc hs h0
  have hrr : ReadsReset (pca : Cls β) := readsReset hc (by simp [pca])
  have hi : "initialised" ∈ (pca : Cls β).resets.map Prod.fst := by
    obtain ⟨rest, h, _⟩ := wf.resets_first
    rw [h]; simp
  refine ⟨h1, ?_⟩
  have key := Agree.useRefit (K := configKeys pca ++ (pca : Cls β).resets.map Prod.fst) b
    (s := (setattrs pca s₀ (paramsOf pca s)).1) (t := s) (f := false) h2 (fun k hk => by
      rcases List.mem_append.mp hk with hk | hk
      · exact .inr (h3 k hk)
      · exact .inl hk)
    (fun k hk => List.mem_append.mpr (hrr k (.inr hk))) rfl Z
  have hrun := key.1.run b (fun k hk => List.mem_append.mpr (hrr k (.inl hk)))
    (fun k hk => List.mem_append.mpr (hrr k (.inr hk))) (List.mem_append_right _ hi) ops
  rw [run, run]
  refine List.cons_eq_cons.mpr ⟨?_, hrun⟩
  exact congrArg (fun x => (Op.use Z, Ans.ofOut x)) key.2

/-- A history with parameter changes and an earlier training, and the parameters it leaves. -/
example (X Y : Mat α) : ∃ s, construct (nipals : Cls β) = .ok s ∧
    ((run (idle nipals) s [.set "num_components" (.int 3), .init (some X) (some Y),
      .set "norm_Y_weights" (.bool true)]).1.attrs "num_components" = some (.int 3)) ∧
    Reachable (idle (α := α) nipals) (run (idle nipals) s [.set "num_components" (.int 3),
      .init (some X) (some Y), .set "norm_Y_weights" (.bool true)]).1 := by
  with_unfolding_all exact ⟨_, rfl, rfl, _, _, rfl, rfl⟩

/-! ### PLS1 in full -/

section pls1
variable [Field α] [DecidableEq α] [HasSqrt α]

/-- The whole of PLS1: whatever was done with the object before, training it on `X`, `y` and predicting gives
exactly what the training and prediction functions give for the current parameters, with no trace of the
past. -/
theorem C48_pls1_object (isZero : α → Bool) {s : Obj (PV α)} {K : Int}
    {prep : String} (hK : s.attrs "num_components" = some (.int K))
    (hp : s.attrs "preprocessing_type" = some (.enum prep)) (X Y Z : Mat α) (hY : Y.cols = 1)
    (m : SingleModel α (Pls1Model α))
    (hm : singleTrain isZero (fun X y => do let m ← pls1Train pls1Weights K X y; .ok m.1)
      (prepOf (β := PV α) (some (.enum prep))) X Y = .ok m) :
    (run (pls1Object isZero) s [.init (some X) (some Y), .use Z]).2.map Prod.snd =
      [.msg none, Ans.ofOut (singlePredict (fun b Z => pls1Predict K b Z) m Z)] := by
  have h1 : (reset pls1 s).attrs "num_components" = some (.int K) := hK
  have h2 : (reset pls1 s).attrs "preprocessing_type" = some (.enum prep) := hp
  have hfit : pls1Fit isZero (reset pls1 s).attrs X Y = .ok m := by
    unfold pls1Fit
    rw [h1, h2]
    exact hm
  have hi := pls1_trained_attrs isZero s X Y hY m hfit
  have hcall : initCall (pls1Object isZero) s (some X) (some Y) = initPair (pls1Object isZero) s X Y := rfl
  rw [run, run, run]
  show [Ans.ofMsg (initCall _ s (some X) (some Y)).2, (step _ (initCall _ s (some X) (some Y)).1 (.use Z)).2] = _
  rw [hcall, hi]
  refine List.cons_eq_cons.mpr ⟨rfl, List.cons_eq_cons.mpr ⟨?_, rfl⟩⟩
  rw [C46_works (.inl rfl) _ rfl Z rfl]
  show Ans.ofOut (pls1Use _ Z) = _
  congr 1
  unfold pls1Use pls1Load
  have : countOf (Obj.attrs (((reset pls1 s).puts [("class_mean", .other (.num m.mean)),
      ("class_std_dev", .other (.num m.sd)),
      ("trans_predictors", if m.hasTrans then .new "Trans" else .none),
      ("trans_response", if m.hasTrans then .new "Trans" else .none),
      ("r_hat", .other (.mat m.base.rHat)), ("P", .other (.mat m.base.P)),
      ("W", .other (.mat m.base.W)), ("b_hat", .other (.mat m.base.bHat))]).put "initialised" (.bool true))
      "num_components") = .ok K := by
    show countOf (s.attrs "num_components") = _
    rw [hK]
    rfl
  rw [this]
  show singlePredict (fun b Z => pls1Predict K b Z) ⟨m.mean, m.sd,
    isSet (some (if m.hasTrans then PyVal.new "Trans" else PyVal.none (β := PV α))), m.base⟩ Z = _
  congr 1
  cases m with
  | mk a b t base => cases t <;> rfl

/-- A response with several columns is rejected with a message, and the object refuses to predict. -/
theorem C47_pls1_response (isZero : α → Bool) (s : Obj (PV α)) (X Y Z : Mat α) (hY : Y.cols ≠ 1) :
    (run (pls1Object isZero) s [.init (some X) (some Y), .use Z]).2.map Prod.snd =
      [.msg (some ("Algorithm requires exactly one response variable, found: " ++ toString Y.cols)),
        .err .runtimeError] := by
  have hch : (pls1Object isZero).check X Y =
      some ("Algorithm requires exactly one response variable, found: " ++ toString Y.cols) := if_pos hY
  have h1 := C47_check_message (.inl rfl) (pls1Object isZero) s X Y hch
  have h2 := C47_refuses (by simp [allClasses, plsClasses]) (.inl rfl) (pls1Object isZero) s X Y Z
    (by rw [h1]; simp)
  rw [run, run, run]
  exact List.cons_eq_cons.mpr ⟨h1, List.cons_eq_cons.mpr ⟨h2, rfl⟩⟩

end pls1

end Verif.Props
