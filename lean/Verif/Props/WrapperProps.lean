import Verif.Transf.Wrappers
import Verif.Props.TransfProps

/-!
# C38: the scikit-learn backed transformations
-/

namespace Verif.Props
open Verif Transf

variable {α Q F P : Type}

/-- What a user expects: every transformation uses a fit made with the **current** parameters; an accepted
assignment makes the next call fit again, a rejected one changes nothing.  `new q p` tells the
parameters after the assignment, or that it is rejected. -/
def wrapSpec (K : Sklearn α Q F) (defaults : Q) (new : Q → P → Except PyErr Q) : TSpec α P Q where
  params := defaults
  check q d := (K.fit q d).map fun _ => ()
  apply q d₀ d := do
    let f ← K.fit q d₀
    K.run f d
  unapply q d₀ d := do
    let f ← K.fit q d₀
    K.unrun f d
  assign q p := (new q p).map fun q' => (q', true)

/-- Histories in which a parameter that does not trigger a refit is only assigned while nothing has been
fitted, and explicit `configure` calls succeed. -/
def Fresh (K : Sklearn α Q F) (assign : Q → P → Except PyErr (Q × Bool)) (S : TSpec α P Q) :
    List (TCall α P) → Q × Option (Mat α) → Prop
  | [], _ => True
  | c :: cs, a =>
    (match c with
      | .set p => ∀ q', assign a.1 p = .ok (q', false) → a.2 = none
      | .configure d => ∃ f, K.fit a.1 d = .ok f
      | _ => True) ∧ Fresh K assign S cs (sStep S c a).1

/-- The relation between expected and actual state. -/
structure WrapRel (K : Sklearn α Q F) (a : Q × Option (Mat α)) (s : WrapState Q F) : Prop where
  params : s.params = a.1
  configured : s.configured = a.2.isSome
  fitted : ∀ d₀, a.2 = some d₀ → ∃ f, K.fit a.1 d₀ = .ok f ∧ s.intern = some (some f)

theorem wrapper_history (K : Sklearn α Q F) (defaults : Q) (assign : Q → P → Except PyErr (Q × Bool))
    (cs : List (TCall α P)) (a : Q × Option (Mat α)) (s : WrapState Q F) (hR : WrapRel K a s)
    (hf : Fresh K assign (wrapSpec K defaults fun q p => (assign q p).map (·.1)) cs a) :
    tRun (wrapper K defaults assign) cs s =
      sRun (wrapSpec K defaults fun q p => (assign q p).map (·.1)) cs a := by
  induction cs generalizing a s with
  | nil => rfl
  | cons c cs ih =>
    obtain ⟨hc, hf⟩ := hf
    have hstep : (tStep (wrapper K defaults assign) c s).2 =
        (sStep (wrapSpec K defaults fun q p => (assign q p).map (·.1)) c a).2 ∧
        WrapRel K (sStep (wrapSpec K defaults fun q p => (assign q p).map (·.1)) c a).1
          (tStep (wrapper K defaults assign) c s).1 := by
      obtain ⟨q, seen⟩ := a
      obtain ⟨params, conf, intern⟩ := s
      obtain ⟨h1, h2, h3⟩ := hR
      simp only at h1 h2 h3 hc
      subst h1 h2
      cases c with
      | transform d =>
        cases seen with
        | none =>
          cases hfit : K.fit params d with
          | error e =>
            simp only [tStep, transform, wrapper, sStep, wrapSpec, hfit, Except.map, Option.isSome_none,
              Bool.false_eq_true, if_false]
            exact ⟨trivial, rfl, rfl, fun _ h => by cases h⟩
          | ok f =>
            simp only [tStep, transform, wrapper, sStep, wrapSpec, hfit, Except.map, Option.isSome_none,
              Bool.false_eq_true, if_false, useIntern, except_bind_ok]
            exact ⟨trivial, rfl, rfl, fun _ h => by cases h; exact ⟨f, hfit, rfl⟩⟩
        | some d₀ =>
          obtain ⟨f, e1, e2⟩ := h3 d₀ rfl
          subst e2
          simp only [tStep, transform, wrapper, sStep, wrapSpec, e1, Option.isSome_some, if_true, useIntern,
            except_bind_ok]
          exact ⟨trivial, rfl, rfl, fun _ h => by cases h; exact ⟨f, e1, rfl⟩⟩
      | inverse d =>
        cases seen with
        | none =>
          cases hfit : K.fit params d with
          | error e =>
            simp only [tStep, inverseTransform, wrapper, sStep, wrapSpec, hfit, Except.map, Option.isSome_none,
              Bool.false_eq_true, if_false]
            exact ⟨trivial, rfl, rfl, fun _ h => by cases h⟩
          | ok f =>
            simp only [tStep, inverseTransform, wrapper, sStep, wrapSpec, hfit, Except.map, Option.isSome_none,
              Bool.false_eq_true, if_false, useIntern, except_bind_ok]
            exact ⟨trivial, rfl, rfl, fun _ h => by cases h; exact ⟨f, hfit, rfl⟩⟩
        | some d₀ =>
          obtain ⟨f, e1, e2⟩ := h3 d₀ rfl
          subst e2
          simp only [tStep, inverseTransform, wrapper, sStep, wrapSpec, e1, Option.isSome_some, if_true,
            useIntern, except_bind_ok]
          exact ⟨trivial, rfl, rfl, fun _ h => by cases h; exact ⟨f, e1, rfl⟩⟩
      | configure d =>
        obtain ⟨f, hfit⟩ := hc
        simp only [tStep, wrapper, sStep, wrapSpec, hfit, Except.map]
        exact ⟨trivial, rfl, rfl, fun _ h => by cases h; exact ⟨f, hfit, rfl⟩⟩
      | reset => exact ⟨rfl, rfl, rfl, fun _ h => by cases h⟩
      | set p =>
        cases ha : assign params p with
        | error e =>
          simp only [tStep, wrapper, sStep, wrapSpec, ha, Except.map]
          exact ⟨trivial, rfl, rfl, h3⟩
        | ok r =>
          obtain ⟨q', b⟩ := r
          cases b with
          | true =>
            simp only [tStep, wrapper, sStep, wrapSpec, ha, Except.map, if_true]
            exact ⟨trivial, rfl, rfl, fun _ h => by cases h⟩
          | false =>
            have hnone := hc q' ha
            subst hnone
            simp only [tStep, wrapper, sStep, wrapSpec, ha, Except.map, if_true]
            exact ⟨trivial, rfl, rfl, fun _ h => by cases h⟩
    rw [tRun, sRun, hstep.1, ih _ _ hstep.2 hf]

/-- **C38 (partial)** For any of the wrappers, any scikit-learn, and any history in which the parameters without
a validator are assigned only while nothing is fitted: every outcome is the one obtained from a fit with
the current parameters on the first data since the last reset or accepted assignment.
Missing: assignments of those parameters after a fit, see the violations. -/
theorem C38_fresh_partial (K : Sklearn α Q F) (defaults : Q) (assign : Q → P → Except PyErr (Q × Bool))
    (cs : List (TCall α P))
    (hf : Fresh K assign (wrapSpec K defaults fun q p => (assign q p).map (·.1)) cs (defaults, none)) :
    tRun (wrapper K defaults assign) cs (wrapper K defaults assign).init =
      sRun (wrapSpec K defaults fun q p => (assign q p).map (·.1)) cs (defaults, none) :=
  wrapper_history K defaults assign cs _ _ ⟨rfl, rfl, fun _ h => by cases h⟩ hf

/-- A concrete history meeting the hypothesis: `standardise` is set, data transformed, then the method is changed
and the data transformed again. -/
example (K : Sklearn ℝ PowerParams Unit) (d : Mat ℝ) :
    Fresh K powerAssign (wrapSpec K {} fun q p => (powerAssign q p).map (·.1))
      [.set (.standardise false), .transform d, .set (.method "box-cox"), .transform d] ({}, none) := by
  refine ⟨fun _ _ => rfl, trivial, fun q' h => ?_, trivial, trivial⟩
  simp [powerAssign] at h

/-- Assigning a parameter that does not trigger a refit between two transformations: the second one is made
with the old parameters. -/
theorem stale_fit (K : Sklearn α Q F) (defaults : Q) (assign : Q → P → Except PyErr (Q × Bool))
    (d : Mat α) (p : P) (q' : Q) (f : F) (hp : assign defaults p = .ok (q', false))
    (hf : K.fit defaults d = .ok f) :
    tRun (wrapper K defaults assign) [.transform d, .set p, .transform d] (wrapper K defaults assign).init =
      [(K.run f d).map some, .ok none, (K.run f d).map some] := by
  simp only [tRun, tStep, transform, wrapper, hf, hp, useIntern, Bool.false_eq_true, if_false, if_true, Except.map]

/-- Whenever the new value matters to scikit-learn, that is not what is expected. -/
theorem stale_fit_wrong (K : Sklearn α Q F) (defaults : Q) (assign : Q → P → Except PyErr (Q × Bool))
    (d : Mat α) (p : P) (q' : Q) (f f' : F) (hp : assign defaults p = .ok (q', false))
    (hf : K.fit defaults d = .ok f) (hf' : K.fit q' d = .ok f') (r r' : Mat α)
    (hr : K.run f d = .ok r) (hr' : K.run f' d = .ok r') (hne : r ≠ r') :
    tRun (wrapper K defaults assign) [.transform d, .set p, .transform d] (wrapper K defaults assign).init ≠
      sRun (wrapSpec K defaults fun q p => (assign q p).map (·.1)) [.transform d, .set p, .transform d]
        (defaults, none) := by
  rw [stale_fit K defaults assign d p q' f hp hf]
  intro h
  simp only [sRun, sStep, wrapSpec, hf, hf', hp, Except.map, hr, hr', except_bind_ok, if_true,
    List.cons.injEq, Except.ok.injEq, Option.some.injEq, and_true, true_and] at h
  exact hne h

/-- **C38 (violation)** `PowerTransformer`: whatever scikit-learn does, if the value of `standardise` matters
for the data at hand, then changing it after a transformation is ignored by the next transformation. -/
theorem C38_power_violation (K : Sklearn α PowerParams F) (d : Mat α) (f f' : F)
    (hf : K.fit {} d = .ok f) (hf' : K.fit { standardise := false } d = .ok f') (r r' : Mat α)
    (hr : K.run f d = .ok r) (hr' : K.run f' d = .ok r') (hne : r ≠ r') :
    tRun (wrapper K {} powerAssign) [.transform d, .set (.standardise false), .transform d]
        (wrapper K {} powerAssign).init ≠
      sRun (wrapSpec K {} fun q p => (powerAssign q p).map (·.1))
        [.transform d, .set (.standardise false), .transform d] ({}, none) :=
  stale_fit_wrong K {} powerAssign d _ _ f f' rfl hf hf' r r' hr hr' hne

/-- **C38 (violation)** `QuantileTransformer`: the same for the number of quantiles. -/
theorem C38_quantile_violation (K : Sklearn α QuantileParams F) (d : Mat α) (k : Int) (f f' : F)
    (hf : K.fit {} d = .ok f) (hf' : K.fit { nQuantiles := k } d = .ok f') (r r' : Mat α)
    (hr : K.run f d = .ok r) (hr' : K.run f' d = .ok r') (hne : r ≠ r') :
    tRun (wrapper K {} quantileAssign) [.transform d, .set (.nQuantiles k), .transform d]
        (wrapper K {} quantileAssign).init ≠
      sRun (wrapSpec K {} fun q p => (quantileAssign q p).map (·.1))
        [.transform d, .set (.nQuantiles k), .transform d] ({}, none) :=
  stale_fit_wrong K {} quantileAssign d _ _ f f' rfl hf hf' r r' hr hr' hne

/-- **C38 (violation)** `RobustScaler`: the same for `with_centering`. -/
theorem C38_robust_violation (K : Sklearn α RobustParams F) (d : Mat α) (f f' : F)
    (hf : K.fit {} d = .ok f) (hf' : K.fit { withCentering := false } d = .ok f') (r r' : Mat α)
    (hr : K.run f d = .ok r) (hr' : K.run f' d = .ok r') (hne : r ≠ r') :
    tRun (wrapper K {} robustAssign) [.transform d, .set (.withCentering false), .transform d]
        (wrapper K {} robustAssign).init ≠
      sRun (wrapSpec K {} fun q p => (robustAssign q p).map (·.1))
        [.transform d, .set (.withCentering false), .transform d] ({}, none) :=
  stale_fit_wrong K {} robustAssign d _ _ f f' rfl hf hf' r r' hr hr' hne

/-- The hypotheses of the violations can be met: an estimator that subtracts something only when centring. -/
example : ∃ (K : Sklearn ℕ RobustParams Bool) (d : Mat ℕ) (f f' : Bool) (r r' : Mat ℕ),
    K.fit {} d = .ok f ∧ K.fit { withCentering := false } d = .ok f' ∧ K.run f d = .ok r ∧
      K.run f' d = .ok r' ∧ r ≠ r' :=
  ⟨⟨fun q _ => .ok q.withCentering, fun f d => if f then .ok (Mat.of (0 : Matrix (Fin 1) (Fin 1) ℕ)) else .ok d,
      fun _ d => .ok d⟩, Mat.of (1 : Matrix (Fin 1) (Fin 1) ℕ), true, false, _, _, rfl, rfl, rfl, rfl, by
    intro h
    have h1 := (Mat.ext_iff'.1 h).2.2 0 0
    simp at h1⟩

/-- **C38 (violation)** An explicit `configure` that fails on an already configured object leaves it marked as
configured but without a fit: every later transformation fails (until a reset), although the previous fit
or a new one was expected. -/
theorem C38_failed_configure_violation (K : Sklearn α Q F) (defaults : Q)
    (assign : Q → P → Except PyErr (Q × Bool)) (d bad : Mat α) (f : F) (e : PyErr)
    (hf : K.fit defaults d = .ok f) (hb : K.fit defaults bad = .error e) :
    tRun (wrapper K defaults assign) [.configure d, .configure bad, .transform d, .transform d]
        (wrapper K defaults assign).init =
      [.ok none, .error e, .error .valueError, .error .valueError] := by
  simp only [tRun, tStep, transform, wrapper, hf, hb, useIntern, if_true, Except.map]

/-- **C38** Assigning an invalid value is rejected with a `ValueError` and changes nothing; which values are
valid for the validated parameters of the three classes. -/
theorem C38_validation (K : Sklearn α Q F) (defaults : Q) (assign : Q → P → Except PyErr (Q × Bool))
    (p : P) (s : WrapState Q F) (e : PyErr) (h : assign s.params p = .error e) :
    (wrapper K defaults assign).setParam p s = (s, .error e) := by
  simp only [wrapper, h]

/-- **C38** The accepted values. -/
theorem C38_accepted :
    (∀ q v, powerAssign q (.method v) = .error .valueError ↔ v ≠ "yeo-johnson" ∧ v ≠ "box-cox") ∧
    (∀ q v, quantileAssign q (.outputDistribution v) = .error .valueError ↔ v ≠ "uniform" ∧ v ≠ "normal") ∧
    (∀ q (v : ℚ × ℚ), robustAssign q (.quantileRange v) = .error .valueError ↔
      ¬ (0 < v.1 ∧ v.1 < v.2 ∧ v.2 < 100)) := by
  refine ⟨fun q v => ?_, fun q v => ?_, fun q v => ?_⟩
  · unfold powerAssign
    split <;> simp_all
  · unfold quantileAssign
    split <;> simp_all
  · unfold robustAssign
    split <;> simp_all

end Verif.Props
