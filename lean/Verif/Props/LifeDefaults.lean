import Verif.Props.LifecycleProps

/-!
# C111 — default parameters

Constructing an object and calling `initialize()` without data both leave the object with the documented default parameters,
whatever happened to the object before.
-/

namespace Verif.Props
open Verif Life

variable {β α R : Type} {c : Cls β}

/-- Comparison of constants. -/
def sameVal : PyVal β → PyVal β → Bool
  | .none, .none => true
  | .bool a, .bool b => a == b
  | .int a, .int b => a == b
  | .enum a, .enum b => a == b
  | .new a, .new b => a == b
  | .real (.fin a), .real (.fin b) => decide (a = b)
  | .real .nan, .real .nan => true
  | _, _ => false

theorem sameVal_eq {a b : PyVal β} (h : sameVal a b = true) : a = b := by
  unfold sameVal at h
  split at h <;> simp_all

/-- Conditions on the tables: no key has two defaults, and `reset` does not undo a default. -/
def defaultsCheck (c : Cls β) : Bool :=
  decide (c.defaults.map Prod.fst).Nodup &&
    c.defaults.all fun w => c.resets.all fun r => r.1 != w.1 || sameVal r.2 w.2

theorem defaultsCheck_all : ∀ c ∈ (allClasses : List (Cls β)), defaultsCheck c = true := by
  rw [← List.all_eq_true]
  with_unfolding_all rfl

theorem puts_keeps {k : String} {v : PyVal β} (ws : List (String × PyVal β)) (h : ∀ r ∈ ws, r.1 = k → r.2 = v) (s : Obj β)
    (hs : s.attrs k = some v) : (s.puts ws).attrs k = some v := by
  induction ws generalizing s with
  | nil => exact hs
  | cons w ws ih =>
    refine ih (fun r hr => h r (List.mem_cons_of_mem _ hr)) (s.put w.1 w.2) ?_
    by_cases hk : k = w.1
    · have := h w List.mem_cons_self hk.symm
      rw [← this, hk, put_self]
    · rw [put_other _ _ hk, hs]

theorem setattr_keeps {k : String} {v : PyVal β} (h : ∀ r ∈ c.resets, r.1 = k → r.2 = v) (s : Obj β)
    (hs : s.attrs k = some v) {j : String} (hj : k ≠ j) (w : PyVal β) : (setattr c s j w).1.attrs k = some v := by
  rcases setattr_cases (c := c) s j w with ⟨_, e⟩ | ⟨_, _, e⟩ | ⟨_, _, _, _, e⟩ | ⟨_, _, _, e⟩ <;> rw [e]
  · exact hs
  · exact (put_other _ _ hj).trans hs
  · refine (put_other _ _ hj).trans ?_
    split
    · exact puts_keeps _ h s hs
    · exact hs
  · exact hs

theorem setattr_sets {k : String} {v : PyVal β} (hf : k ∉ c.frozen) (ha : accepts c k v) (s : Obj β) :
    (setattr c s k v).1.attrs k = some v := by
  rcases ha with h | h | ⟨val, h, hr⟩
  · exact absurd h hf
  · rw [setattr_plain s v hf h]; exact put_self _ _ _
  · rw [setattr_valid s hf h hr]; exact put_self _ _ _

theorem setattrs_keeps {k : String} {v : PyVal β} (h : ∀ r ∈ c.resets, r.1 = k → r.2 = v) (ws : List (String × PyVal β))
    (ha : ∀ w ∈ ws, accepts c w.1 w.2) (hk : k ∉ ws.map Prod.fst) (s : Obj β)
    (hs : s.attrs k = some v) : (setattrs c s ws).1.attrs k = some v := by
  induction ws generalizing s with
  | nil => exact hs
  | cons w ws ih =>
    rw [setattrs_cons_accepted w ws s (ha w List.mem_cons_self)]
    rw [List.map_cons, List.mem_cons, not_or] at hk
    exact ih (fun w' hw' => ha w' (List.mem_cons_of_mem _ hw')) hk.2 _ (setattr_keeps h s hs hk.1 w.2)

theorem setattrs_sets (ws : List (String × PyVal β)) (ha : ∀ w ∈ ws, accepts c w.1 w.2) (hnd : (ws.map Prod.fst).Nodup)
    {k : String} {v : PyVal β} (hf : k ∉ c.frozen) (h : ∀ r ∈ c.resets, r.1 = k → r.2 = v) (hm : (k, v) ∈ ws) (s : Obj β) :
    (setattrs c s ws).1.attrs k = some v := by
  induction ws generalizing s with
  | nil => cases hm
  | cons w ws ih =>
    rw [setattrs_cons_accepted w ws s (ha w List.mem_cons_self)]
    rw [List.map_cons, List.nodup_cons] at hnd
    rcases List.mem_cons.1 hm with rfl | hm'
    · exact setattrs_keeps h ws (fun w' hw' => ha w' (List.mem_cons_of_mem _ hw')) hnd.1 _
        (setattr_sets hf (ha _ List.mem_cons_self) s)
    · exact ih (fun w' hw' => ha w' (List.mem_cons_of_mem _ hw')) hnd.2 hm' _

theorem defaults_parts (hc : c ∈ allClasses) : (c.defaults.map Prod.fst).Nodup ∧
    ∀ w ∈ c.defaults, ∀ r ∈ c.resets, r.1 = w.1 → r.2 = w.2 := by
  have h := defaultsCheck_all c hc
  unfold defaultsCheck at h
  simp only [Bool.and_eq_true, decide_eq_true_eq, List.all_eq_true, Bool.or_eq_true, bne_iff_ne] at h
  exact ⟨h.1, fun w hw r hr e => sameVal_eq ((h.2 w hw r hr).resolve_left fun h => h e)⟩

/-- C111 (restoring).  Whatever was done with an object before, `initialize()` without data succeeds and leaves every parameter of the
class at its default; a trained model is no longer trained. -/
theorem C111_initialize (hc : c ∈ allClasses) (b : Behaviour α R c) {s : Obj β} (hs : Reachable b s) {k : String} {v : PyVal β}
    (hm : (k, v) ∈ c.defaults) (hf : k ∉ c.frozen) :
    (step b s (.init none none)).2 = .msg none ∧ (step b s (.init none none)).1.attrs k = some v ∧
      (step b s (.init none none)).1.trained = false := by
  have wf := wf_all c hc
  obtain ⟨hnd, hr⟩ := defaults_parts hc
  have hok := setattrs_accepted c.defaults s wf.defaults_ok
  have hset := setattrs_sets c.defaults wf.defaults_ok hnd hf (hr _ hm) hm s
  have htr : (setattrs c s c.defaults).1.trained = false := by
    obtain ⟨w, rest, hd, hwf, hv⟩ := wf.defaults_head
    have hacc := wf.defaults_ok
    rw [hd] at hacc ⊢
    rw [setattrs_cons_accepted w rest s (hacc w List.mem_cons_self)]
    have hflag : ∀ w' ∈ w :: rest, w'.1 ≠ "initialised" := by rw [← hd]; exact wf.flag_free.2.2.2.2
    have h0 : (setattr c s w.1 w.2).1.trained = false := by
      rcases hacc w List.mem_cons_self with h | h | ⟨val, h, hrun⟩
      · exact absurd h hwf
      · rw [h] at hv; cases hv
      · rw [setattr_valid s hwf h hrun, (reachable_good hc hs).complete]
        show ((reset c s).put w.1 w.2).trained = false
        unfold Obj.trained
        rw [put_other _ _ (Ne.symm (hflag w List.mem_cons_self))]
        exact reset_trained wf s
    have hall : ∀ (ws : List (String × PyVal β)) (t : Obj β), (∀ w ∈ ws, accepts c w.1 w.2) → (∀ w ∈ ws, w.1 ≠ "initialised") →
        t.trained = false → (setattrs c t ws).1.trained = false := by
      intro ws
      induction ws with
      | nil => intro t _ _ h; exact h
      | cons w ws ih =>
        intro t h1 h2 h3
        rw [setattrs_cons_accepted w ws t (h1 w List.mem_cons_self)]
        exact ih _ (fun w' hw' => h1 w' (List.mem_cons_of_mem _ hw')) (fun w' hw' => h2 w' (List.mem_cons_of_mem _ hw'))
          (setattr_trained wf t w.2 (h2 w List.mem_cons_self) h3)
    exact hall rest _ (fun w' hw' => hacc w' (List.mem_cons_of_mem _ hw'))
      (fun w' hw' => hflag w' (List.mem_cons_of_mem _ hw')) h0
  have hstep : step b s (.init none none) = ((setattrs c s c.defaults).1, .msg none) := by
    show ((initDefaults c s).1, Ans.ofMsg (initDefaults c s).2) = _
    unfold initDefaults
    revert hok
    rcases setattrs c s c.defaults with ⟨s', r⟩
    rintro rfl
    rfl
  rw [hstep]
  exact ⟨rfl, hset, htr⟩

/-- C111 (construction).  A new object has every parameter at its default. -/
theorem C111_construct (hc : c ∈ allClasses) {k : String} {v : PyVal β} (hm : (k, v) ∈ c.defaults) (hf : k ∉ c.frozen) :
    ∃ s, construct c = .ok s ∧ s.attrs k = some v := by
  have wf := wf_all c hc
  obtain ⟨hnd, hr⟩ := defaults_parts hc
  have h1 := setattrs_accepted c.ctor (blank (β := β)) wf.ctor_ok
  unfold construct
  revert h1
  rcases setattrs c blank c.ctor with ⟨s, r⟩
  rintro rfl
  simp only
  have hok := setattrs_accepted c.defaults { s with complete := true } wf.defaults_ok
  have hset := setattrs_sets c.defaults wf.defaults_ok hnd hf (hr _ hm) hm { s with complete := true }
  revert hok hset
  rcases setattrs c { s with complete := true } c.defaults with ⟨s', r⟩
  rintro rfl hset
  exact ⟨_, rfl, puts_keeps _ (hr _ hm) s' hset⟩

/-- The object has the given parameters. -/
def HasParams (s : Obj β) (ps : List (String × PyVal β)) : Prop := ∀ w ∈ ps, s.attrs w.1 = some w.2

/-- The parameters of each class with their documented defaults, written out. -/
def documented : List (Cls β × List (String × PyVal β)) :=
  [(pls1, [("num_components", .int 5), ("preprocessing_type", .enum "NONE")]),
   (vcpls, [("num_components", .int 5), ("preprocessing_type", .enum "NONE"), ("lambda_", .real (.fin 1))]),
   (simpls, [("num_components", .int 5), ("preprocessing_type", .enum "NONE"), ("num_coefficients", .int 0)]),
   (nipals, [("num_components", .int 5), ("preprocessing_type", .enum "NONE"), ("tol", .real (.fin (1 / 1000000))),
      ("max_iter", .int 500), ("norm_Y_weights", .bool false), ("deflation_mode", .enum "REGRESSION")]),
   (ccaRegression, [("num_components", .int 5), ("preprocessing_type", .enum "NONE"), ("tol", .real (.fin (1 / 1000000))),
      ("max_iter", .int 500), ("norm_Y_weights", .bool false)]),
   (kernelPls, [("num_components", .int 5), ("preprocessing_type", .enum "NONE"), ("kernel", .new "RBFKernel"),
      ("tol", .real (.fin (1 / 1000000))), ("max_iter", .int 500)]),
   (dipls, [("num_components", .int 5), ("preprocessing_type", .enum "NONE"), ("lambda_", .real (.fin 1)),
      ("model_adaption_strategy", .enum "UNSUPERVISED")]),
   (opls, [("num_components", .int 5), ("preprocessing_type", .enum "NONE"), ("base_PLS", .new "PLS1")]),
   (prm, [("num_components", .int 5), ("preprocessing_type", .enum "NONE"), ("C", .real (.fin 4)),
      ("tol", .real (.fin (1 / 1000000))), ("max_iter", .int 500), ("num_SIMPLS_coefficients", .int (-1))]),
   (sparsePls, [("num_components", .int 5), ("preprocessing_type", .enum "NONE"), ("lambda_", .real (.fin (1 / 2))),
      ("tol", .real (.fin (1 / 10000000))), ("max_iter", .int 500)]),
   (ccaFilter, [("kcca", .int 1), ("lambda_X", .real (.fin (1 / 100))), ("lambda_Y", .real (.fin (1 / 100)))]),
   (glsw, [("alpha", .real (.fin (1 / 1000)))]),
   (yGradientGlsw, [("alpha", .real (.fin (1 / 1000)))]),
   (epo, [("alpha", .real (.fin (1 / 1000))), ("N", .int 5)]),
   (yGradientEpo, [("alpha", .real (.fin (1 / 1000))), ("N", .int 5)]),
   (pca, [("variance", .real (.fin (95 / 100))), ("max_columns", .int (-1)), ("center", .bool false)]),
   (fastIca, [("num_components", .int 5), ("max_iter", .int 500), ("tol", .real (.fin (1 / 10000))), ("whiten", .bool true),
      ("fun", .new "LogCosH"), ("algorithm", .enum "DEFLATION")])]

theorem documented_check : ∀ e ∈ (documented : List (Cls β × List (String × PyVal β))),
    ∀ w ∈ e.2, e.1.frozen.contains w.1 = false ∧ ∃ w' ∈ e.1.defaults, w'.1 = w.1 ∧ sameVal w'.2 w.2 = true := by
  have h : (documented : List (Cls β × List (String × PyVal β))).all (fun e => e.2.all fun w =>
      !e.1.frozen.contains w.1 && e.1.defaults.any fun w' => w'.1 == w.1 && sameVal w'.2 w.2) = true := by
    with_unfolding_all rfl
  simp only [List.all_eq_true, Bool.and_eq_true, List.any_eq_true, beq_iff_eq, Bool.not_eq_true'] at h
  exact h

theorem documented_all : (documented : List (Cls β × List (String × PyVal β))).map Prod.fst = allClasses := rfl

/-- C111 (values).  For every class of the package a new object, and an object with any history on which `initialize()` is called, has
the parameters listed in `documented`. -/
theorem C111_documented (e : Cls β × List (String × PyVal β)) (he : e ∈ documented) :
    (∃ s, construct e.1 = .ok s ∧ HasParams s e.2) ∧
    ∀ (α R : Type) (b : Behaviour α R e.1) (s : Obj β), Reachable b s → HasParams (step b s (.init none none)).1 e.2 := by
  have hc : e.1 ∈ (allClasses : List (Cls β)) := by
    rw [← documented_all]
    exact List.mem_map_of_mem he
  have hd : ∀ w ∈ e.2, w.1 ∉ e.1.frozen ∧ (w.1, w.2) ∈ e.1.defaults := by
    intro w hw
    obtain ⟨h1, w', hw', h2, h3⟩ := documented_check e he w hw
    refine ⟨fun h => ?_, ?_⟩
    · rw [List.contains_iff_mem.2 h] at h1
      cases h1
    · rw [← h2, ← sameVal_eq h3]
      exact hw'
  refine ⟨?_, fun α R b s hs w hw => (C111_initialize hc b hs (hd w hw).2 (hd w hw).1).2.1⟩
  obtain ⟨s, hs, _⟩ := C45_constructible hc
  refine ⟨s, hs, fun w hw => ?_⟩
  obtain ⟨s', hs', hv⟩ := C111_construct hc (hd w hw).2 (hd w hw).1
  rw [hs] at hs'
  injection hs' with h
  rw [h, hv]

/-- Concrete case: a NIPALS object whose tolerance was changed gets its old tolerance back. -/
example : ∃ s : Obj Unit, construct nipals = .ok s ∧
    (step (idle (α := Nat) nipals) s (.set "tol" (.real (.fin 1)))).1.attrs "tol" = some (.real (.fin 1)) ∧
    (step (idle (α := Nat) nipals) (step (idle (α := Nat) nipals) s (.set "tol" (.real (.fin 1)))).1 (.init none none)).1.attrs "tol" =
      some (.real (.fin (1 / 1000000))) := by
  have hc : nipals ∈ (allClasses : List (Cls Unit)) := by simp [allClasses, plsClasses]
  obtain ⟨s, hs, _⟩ := C45_constructible hc
  refine ⟨s, hs, ?_, ?_⟩
  · show ((setattr nipals s "tol" (.real (.fin 1))).1).attrs "tol" = _
    exact setattr_sets (by simp [nipals]) (accepts_of (by with_unfolding_all rfl)) s
  · exact (C111_initialize hc (idle nipals) ⟨s, [.set "tol" (.real (.fin 1))], hs, rfl⟩ (v := .real (.fin (1 / 1000000)))
      (by simp [nipals, plsDefaults, fl]) (by simp [nipals])).2.1

/-- What `initialize()` does not restore: the numbers of source and target samples of DIPLS keep the values they were given. -/
theorem C111_limits (b : Behaviour α R (dipls : Cls β)) {s : Obj β} (_ : Reachable b s) :
    (step b s (.init none none)).1.attrs "ns" = s.attrs "ns" ∧ (step b s (.init none none)).1.attrs "nt" = s.attrs "nt" := by
  have key : ∀ (ws : List (String × PyVal β)) (s : Obj β) (k : String), (∀ w ∈ ws, accepts dipls w.1 w.2) → (∀ w ∈ ws, w.1 ≠ k) →
      (∀ r ∈ (dipls : Cls β).resets, r.1 ≠ k) → (setattrs dipls s ws).1.attrs k = s.attrs k := by
    intro ws
    induction ws with
    | nil => intro s k _ _ _; rfl
    | cons w ws ih =>
      intro s k h1 h2 h3
      rw [setattrs_cons_accepted w ws s (h1 w List.mem_cons_self),
        ih _ k (fun w' hw' => h1 w' (List.mem_cons_of_mem _ hw')) (fun w' hw' => h2 w' (List.mem_cons_of_mem _ hw')) h3]
      have hk : k ≠ w.1 := (h2 w List.mem_cons_self).symm
      rcases setattr_cases (c := dipls) s w.1 w.2 with ⟨_, e⟩ | ⟨_, _, e⟩ | ⟨_, _, _, _, e⟩ | ⟨_, _, _, e⟩ <;> rw [e]
      · exact put_other _ _ hk
      · refine (put_other _ _ hk).trans ?_
        split
        · exact puts_other _ _ h3
        · rfl
  have wf := wf_all (dipls : Cls β) (by simp [allClasses, plsClasses])
  have hok := setattrs_accepted (c := dipls) dipls.defaults s wf.defaults_ok
  have hstep : (step b s (.init none none)).1 = (setattrs dipls s dipls.defaults).1 := by
    show (initDefaults dipls s).1 = _
    unfold initDefaults
    revert hok
    rcases setattrs dipls s dipls.defaults with ⟨s', r⟩
    rintro rfl
    rfl
  rw [hstep]
  refine ⟨key _ s "ns" wf.defaults_ok ?_ ?_, key _ s "nt" wf.defaults_ok ?_ ?_⟩ <;>
    simp [dipls, plsDefaults, algResets, singleVars, nones, diplsNones]

end Verif.Props
