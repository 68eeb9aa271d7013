import Verif.Transf.StatLemmas
import Verif.Core.ExtLemmas
import Mathlib.Analysis.SpecialFunctions.Log.Base

/-!
# C26 life cycle, C27 Center, C28 Standardize, C29 RowNorm, C30 Log
-/

namespace Verif.Props
open Verif Mat Transf Finset

/-! ## C26: specification -/

section lifecycle
variable {α σ P Q : Type}

/-- Calls on a transformation object. -/
inductive TCall (α P : Type) where
  | transform (d : Mat α)
  | inverse (d : Mat α)
  | configure (d : Mat α)
  | reset
  | set (p : P)

/-- Executing a call on the modelled object; the outcome is the returned matrix, if any. -/
def tStep (T : Trans α σ P) : TCall α P → σ → σ × Except PyErr (Option (Mat α))
  | .transform d, s => ((transform T d s).1, (transform T d s).2.map some)
  | .inverse d, s => ((inverseTransform T d s).1, (inverseTransform T d s).2.map some)
  | .configure d, s => ((T.configure d s).1, (T.configure d s).2.map fun _ => none)
  | .reset, s => (T.reset s, .ok none)
  | .set p, s => ((T.setParam p s).1, (T.setParam p s).2.map fun _ => none)

/-- The outcomes of a sequence of calls. -/
def tRun (T : Trans α σ P) : List (TCall α P) → σ → List (Except PyErr (Option (Mat α)))
  | [], _ => []
  | c :: cs, s => (tStep T c s).2 :: tRun T cs (tStep T c s).1

/-- What a user expects of a transformation: parameters, a check of the data used for configuring,
and the two directions, given the parameters, the data it was configured on and the argument.
`assign` tells the new parameters and whether the configuration has to be redone. -/
structure TSpec (α P Q : Type) where
  params : Q
  check : Q → Mat α → Except PyErr Unit
  apply : Q → Mat α → Mat α → Except PyErr (Mat α)
  unapply : Q → Mat α → Mat α → Except PyErr (Mat α)
  assign : Q → P → Except PyErr (Q × Bool)

/-- The expected behaviour: the state is the parameters and *the first data since the last reset*
(or the data of the last explicit `configure`). -/
def sStep (S : TSpec α P Q) : TCall α P → Q × Option (Mat α) → (Q × Option (Mat α)) × Except PyErr (Option (Mat α))
  | .transform d, (q, some d₀) => ((q, some d₀), (S.apply q d₀ d).map some)
  | .transform d, (q, none) =>
    match S.check q d with
    | .error e => ((q, none), .error e)
    | .ok _ => ((q, some d), (S.apply q d d).map some)
  | .inverse d, (q, some d₀) => ((q, some d₀), (S.unapply q d₀ d).map some)
  | .inverse d, (q, none) =>
    match S.check q d with
    | .error e => ((q, none), .error e)
    | .ok _ => ((q, some d), (S.unapply q d d).map some)
  | .configure d, (q, seen) =>
    match S.check q d with
    | .error e => ((q, seen), .error e)
    | .ok _ => ((q, some d), .ok none)
  | .reset, (q, _) => ((q, none), .ok none)
  | .set p, (q, seen) =>
    match S.assign q p with
    | .error e => ((q, seen), .error e)
    | .ok (q', refit) => ((q', if refit then none else seen), .ok none)

/-- The expected outcomes. -/
def sRun (S : TSpec α P Q) : List (TCall α P) → Q × Option (Mat α) → List (Except PyErr (Option (Mat α)))
  | [], _ => []
  | c :: cs, s => (sStep S c s).2 :: sRun S cs (sStep S c s).1

/-- Simulation: if related states step to related states with equal outcomes (for the admissible
calls), then all histories have the expected outcomes. -/
theorem tRun_eq_sRun (T : Trans α σ P) (S : TSpec α P Q) (R : Q × Option (Mat α) → σ → Prop)
    (ok : TCall α P → Prop)
    (hstep : ∀ c a s, ok c → R a s → (tStep T c s).2 = (sStep S c a).2 ∧
      R (sStep S c a).1 (tStep T c s).1)
    (cs : List (TCall α P)) (hok : ∀ c ∈ cs, ok c) (a : Q × Option (Mat α)) (s : σ) (h : R a s) :
    tRun T cs s = sRun S cs a := by
  induction cs generalizing a s with
  | nil => rfl
  | cons c cs ih =>
    obtain ⟨h1, h2⟩ := hstep c a s (hok c (List.mem_cons_self ..)) h
    rw [tRun, sRun, h1, ih (fun c hc => hok c (List.mem_cons_of_mem _ hc)) _ _ h2]

/-- Expected behaviour of `Center`. -/
def centerSpec [Add α] [Sub α] [Zero α] [Div α] [NatCast α] : TSpec α Empty Unit where
  params := ()
  check _ _ := .ok ()
  apply _ d₀ d := d.subByVector d₀.columnMeans
  unapply _ d₀ d := d.addByVector d₀.columnMeans
  assign _ p := p.elim

/-- **C26** `Center`: in every history of calls, each outcome is determined by the first data since the
last reset (or the last explicit `configure`). -/
theorem C26_center [Add α] [Sub α] [Zero α] [Div α] [NatCast α] (cs : List (TCall α Empty)) :
    tRun (center : Trans α _ _) cs center.init = sRun centerSpec cs ((), none) := by
  refine tRun_eq_sRun center centerSpec (fun a s =>
    s.configured = a.2.isSome ∧ ∀ d₀, a.2 = some d₀ → s.means = some d₀.columnMeans)
    (fun _ => True) ?_ cs (fun _ _ => trivial) _ _ ⟨rfl, by simp⟩
  rintro c ⟨q, seen⟩ ⟨conf, means⟩ - ⟨h1, h2⟩
  simp only at h1 h2
  cases c with
  | transform d =>
    cases seen with
    | none => subst h1; exact ⟨rfl, rfl, fun d₀ h => by cases h; rfl⟩
    | some d₀ => subst h1; rw [h2 d₀ rfl]; exact ⟨rfl, rfl, fun _ h => by cases h; rfl⟩
  | inverse d =>
    cases seen with
    | none => subst h1; exact ⟨rfl, rfl, fun d₀ h => by cases h; rfl⟩
    | some d₀ => subst h1; rw [h2 d₀ rfl]; exact ⟨rfl, rfl, fun _ h => by cases h; rfl⟩
  | configure d => exact ⟨rfl, rfl, fun d₀ h => by cases h; rfl⟩
  | reset => exact ⟨rfl, rfl, fun d₀ h => by cases h⟩
  | set p => exact p.elim

/-- Expected behaviour of `PassThrough`. -/
def passSpec : TSpec α Empty Unit where
  params := ()
  check _ _ := .ok ()
  apply _ _ d := .ok d
  unapply _ _ d := .ok d
  assign _ p := p.elim

/-- **C26** `PassThrough` returns its argument in both directions, in every history. -/
theorem C26_passThrough (cs : List (TCall α Empty)) :
    tRun (passThrough : Trans α _ _) cs (passThrough : Trans α _ _).init = sRun passSpec cs ((), none) := by
  refine tRun_eq_sRun passThrough passSpec (fun a s => s = a.2.isSome)
    (fun _ => True) ?_ cs (fun _ _ => trivial) _ _ rfl
  rintro c ⟨q, seen⟩ s - h1
  simp only at h1
  subst h1
  cases c with
  | transform d => cases seen <;> exact ⟨rfl, rfl⟩
  | inverse d => cases seen <;> exact ⟨rfl, rfl⟩
  | configure d => exact ⟨rfl, rfl⟩
  | reset => exact ⟨rfl, rfl⟩
  | set p => exact p.elim

section stats
variable [Add α] [Sub α] [Mul α] [Zero α] [One α] [Div α] [NatCast α] [HasSqrt α]

/-- Expected behaviour of `Standardize`; `stds` are the guarded standard deviations of the
configuration data. -/
def standardizeSpec (isZero : α → Bool) : TSpec α Empty Unit where
  params := ()
  check _ d := (guardStds isZero d.columnStdevs).map fun _ => ()
  apply _ d₀ d := do
    let stds ← guardStds isZero d₀.columnStdevs
    let r ← d.subByVector d₀.columnMeans
    r.divByVector stds
  unapply _ d₀ d := do
    let stds ← guardStds isZero d₀.columnStdevs
    let r ← d.mulByVector stds
    r.addByVector d₀.columnMeans
  assign _ p := p.elim

/-- **C26** `Standardize`, for all histories in which `configure` is not called explicitly with data
without columns. -/
theorem C26_standardize (isZero : α → Bool) (cs : List (TCall α Empty))
    (hok : ∀ d, TCall.configure d ∈ cs → d.cols ≠ 0) :
    tRun (standardize isZero) cs (standardize isZero).init = sRun (standardizeSpec isZero) cs ((), none) := by
  refine tRun_eq_sRun (standardize isZero) (standardizeSpec isZero) (fun a s =>
    s.configured = a.2.isSome ∧ ∀ d₀, a.2 = some d₀ → s.means = some d₀.columnMeans ∧
      ∃ v, guardStds isZero d₀.columnStdevs = .ok v ∧ s.stds = some v)
    (fun c => ∀ d, c = .configure d → d.cols ≠ 0) ?_ cs
    (fun c hc d hd => hok d (hd ▸ hc)) _ _ ⟨rfl, by simp⟩
  rintro c ⟨q, seen⟩ ⟨conf, means, stds⟩ hc ⟨h1, h2⟩
  simp only at h1 h2
  cases c with
  | transform d =>
    cases seen with
    | none =>
      subst h1
      simp only [tStep, transform, standardize, sStep, standardizeSpec, Option.isSome_none,
        Bool.false_eq_true, if_false]
      cases hg : guardStds isZero d.columnStdevs with
      | error e => exact ⟨rfl, rfl, fun _ h => by cases h⟩
      | ok v => exact ⟨rfl, rfl, fun _ h => by cases h; exact ⟨rfl, v, hg, rfl⟩⟩
    | some d₀ =>
      subst h1
      obtain ⟨e1, v, e2, e3⟩ := h2 d₀ rfl
      subst e1; subst e3
      simp only [tStep, transform, standardize, sStep, standardizeSpec, Option.isSome_some, if_true, e2]
      exact ⟨rfl, trivial, fun _ h => by cases h; exact ⟨rfl, v, e2, rfl⟩⟩
  | inverse d =>
    cases seen with
    | none =>
      subst h1
      simp only [tStep, inverseTransform, standardize, sStep, standardizeSpec, Option.isSome_none,
        Bool.false_eq_true, if_false]
      cases hg : guardStds isZero d.columnStdevs with
      | error e => exact ⟨rfl, rfl, fun _ h => by cases h⟩
      | ok v => exact ⟨rfl, rfl, fun _ h => by cases h; exact ⟨rfl, v, hg, rfl⟩⟩
    | some d₀ =>
      subst h1
      obtain ⟨e1, v, e2, e3⟩ := h2 d₀ rfl
      subst e1; subst e3
      simp only [tStep, inverseTransform, standardize, sStep, standardizeSpec, Option.isSome_some, if_true, e2]
      exact ⟨rfl, trivial, fun _ h => by cases h; exact ⟨rfl, v, e2, rfl⟩⟩
  | configure d =>
    obtain ⟨m, n, A⟩ := d
    have hn : n ≠ 0 := hc _ rfl
    obtain ⟨n, rfl⟩ := Nat.exists_eq_succ_of_ne_zero hn
    have hg : ∃ v, guardStds isZero (columnStdevs ⟨m, n + 1, A⟩) = .ok v :=
      ⟨_, guardStds_row isZero _⟩
    obtain ⟨v, hg⟩ := hg
    simp only [tStep, standardize, sStep, standardizeSpec, hg]
    exact ⟨rfl, rfl, fun _ h => by cases h; exact ⟨rfl, v, hg, rfl⟩⟩
  | reset => exact ⟨rfl, rfl, fun d₀ h => by cases h⟩
  | set p => exact p.elim

/-- **C26 (violation)** The excluded case: calling `configure` on a matrix without columns raises
`IndexError` but leaves an already configured `Standardize` marked configured with the empty
statistics, so that the data it used to transform is now rejected. -/
theorem C26_standardize_violation (isZero : α → Bool) (d₀ e : Mat α) (h0 : d₀.cols ≠ 0)
    (he : e.cols = 0) :
    tRun (standardize isZero) [.configure d₀, .configure e, .transform d₀] (standardize isZero).init =
      [.ok none, .error .indexError, .error .valueError] := by
  obtain ⟨m, n, A⟩ := d₀
  obtain ⟨m', n', B⟩ := e
  simp only at h0 he
  subst he
  obtain ⟨n, rfl⟩ := Nat.exists_eq_succ_of_ne_zero h0
  have hg : ∃ v, guardStds isZero (columnStdevs ⟨m, n + 1, A⟩) = .ok v := ⟨_, guardStds_row isZero _⟩
  obtain ⟨v, hg⟩ := hg
  have hg' : guardStds isZero (columnStdevs ⟨m', 0, B⟩) = .error .indexError := rfl
  have hv : subByVector (⟨m, n + 1, A⟩ : Mat α) (columnMeans ⟨m', 0, B⟩) = .error .valueError := by
    exact vectorOp_row_bad _ _ _ rfl (Nat.succ_ne_zero n)
  have e1 : (standardize isZero).configure ⟨m, n + 1, A⟩ (standardize isZero).init =
      (⟨true, some (columnMeans ⟨m, n + 1, A⟩), some v⟩, .ok ()) := by
    simp only [standardize, hg]
  have e2 : ∀ x y, (standardize isZero).configure ⟨m', 0, B⟩ ⟨true, x, y⟩ =
      (⟨true, some (columnMeans ⟨m', 0, B⟩), some (columnStdevs ⟨m', 0, B⟩)⟩, .error .indexError) := by
    intro x y
    simp only [standardize, hg']
  have e3 : transform (standardize isZero) ⟨m, n + 1, A⟩
      ⟨true, some (columnMeans ⟨m', 0, B⟩), some (columnStdevs ⟨m', 0, B⟩)⟩ =
      (⟨true, some (columnMeans ⟨m', 0, B⟩), some (columnStdevs ⟨m', 0, B⟩)⟩, .error .valueError) := by
    simp only [transform, standardize, if_true, copy_eq, hv]
    rfl
  simp only [tRun, tStep, e1, e2, e3]
  rfl

end stats

section logspec
variable [Zero α] [One α] [Add α] [Sub α] [Mul α] [Div α] [HasLog α] [HasExp α]

/-- Expected behaviour of `Log`: parameters are base and offset; nothing is learnt from data. -/
def logSpec (e : α) (eq le : α → α → Bool) : TSpec α (LogParam α) (α × α) where
  params := (e, 1)
  check _ _ := .ok ()
  apply q _ d :=
    if (d.addScalar q.2).any fun x => le x 0 then .error .valueError
    else .ok (((d.addScalar q.2).map HasLog.log).smul (logFactor e eq q.1))
  unapply q _ d := .ok (((d.div (logFactor e eq q.1)).map HasExp.exp).subScalar q.2)
  assign q
    | .base v => if eq v 1 || le v 0 then .error .valueError else .ok ((v, q.2), true)
    | .offset v => .ok ((q.1, v), false)

/-- **C26** `Log`: every outcome depends only on the current parameters and the argument; invalid bases
are rejected and change nothing. -/
theorem C26_log (e : α) (eq le : α → α → Bool) (cs : List (TCall α (LogParam α))) :
    tRun (log e eq le) cs (log e eq le).init = sRun (logSpec e eq le) cs ((e, 1), none) := by
  refine tRun_eq_sRun (log e eq le) (logSpec e eq le) (fun a s =>
    s.configured = a.2.isSome ∧ s.base = a.1.1 ∧ s.offset = a.1.2)
    (fun _ => True) ?_ cs (fun _ _ => trivial) _ _ ⟨rfl, rfl, rfl⟩
  rintro c ⟨⟨b, o⟩, seen⟩ ⟨conf, b', o'⟩ - ⟨h1, h2, h3⟩
  simp only at h1 h2 h3
  subst h1 h2 h3
  cases c with
  | transform d => cases seen <;> exact ⟨rfl, rfl, rfl, rfl⟩
  | inverse d => cases seen <;> exact ⟨rfl, rfl, rfl, rfl⟩
  | configure d => exact ⟨rfl, rfl, rfl, rfl⟩
  | reset => exact ⟨rfl, rfl, rfl, rfl⟩
  | set p =>
    cases p with
    | base v =>
      simp only [tStep, log, sStep, logSpec]
      by_cases hb : (eq v 1 || le v 0) = true
      · simp only [if_pos hb]; exact ⟨rfl, by simp⟩
      · simp only [if_neg hb]; exact ⟨rfl, by simp⟩
    | offset v => exact ⟨rfl, rfl, rfl, rfl⟩

end logspec
end lifecycle

/-! ## C27 -/

section center
variable {m n k : Nat}

/-- The object after configuring on `A`. -/
noncomputable def centerOn (A : Matrix (Fin m) (Fin n) ℝ) : CenterState ℝ :=
  (transform (center : Trans ℝ _ _) (of A) center.init).1

/-- **C27** After the first `transform` (on `A`), every matrix `B` of the same width is transformed by
subtracting the column means of `A`, and `inverse_transform` takes the result back to `B`. -/
theorem C27_center (A : Matrix (Fin m) (Fin n) ℝ) (B : Matrix (Fin k) (Fin n) ℝ) :
    ∃ C : Matrix (Fin k) (Fin n) ℝ, (transform center (of B) (centerOn A)).2 = .ok (of C) ∧
      (∀ i j, C i j = B i j - (∑ r, A r j) / m) ∧
      (inverseTransform center (of C) (centerOn A)).2 = .ok (of B) := by
  have hs : centerOn A = ⟨true, some (of (Matrix.of fun (_ : Fin 1) j => mu fun i => A i j))⟩ := by
    rw [← columnMeans_of]; rfl
  refine ⟨Matrix.of fun i j => B i j - mu fun r => A r j, ?_, fun i j => rfl, ?_⟩
  · rw [hs]
    show subByVector (of B) (of _) = _
    exact vectorOp_row _ _ _
  · rw [hs]
    show addByVector (of _) (of _) = _
    refine (vectorOp_row _ _ _).trans ?_
    congr 1
    refine mk_congr fun i j => ?_
    show B i j - _ + _ = B i j
    simp

/-- **C27** The transformed configuration data has zero column means. -/
theorem C27_center_zero_means (A : Matrix (Fin m) (Fin n) ℝ) (hm : m ≠ 0) :
    ∃ C : Matrix (Fin m) (Fin n) ℝ, quickApply center (of A) = .ok (of C) ∧ ∀ j, ∑ i, C i j = 0 := by
  obtain ⟨C, h1, h2, _⟩ := C27_center A A
  refine ⟨C, ?_, fun j => ?_⟩
  · rw [← h1]; rfl
  · rw [sum_congr rfl fun i _ => h2 i j]
    exact sum_sub_mu hm fun i => A i j

/-- **C27** Data of another width is rejected with `ValueError`. -/
theorem C27_center_width (A : Matrix (Fin m) (Fin n) ℝ) (B : Mat ℝ) (h : B.cols ≠ n) :
    (transform center B (centerOn A)).2 = .error .valueError := by
  show subByVector B ((of A).columnMeans) = _
  exact vectorOp_row_bad _ _ _ rfl h

end center

/-! ## C28 -/

section standard
variable {m n k : Nat}

open Classical in
/-- `== real(0)` on exact numbers. -/
noncomputable def isZeroR (x : ℝ) : Bool := decide (x = 0)

theorem isZeroR_iff (x : ℝ) : isZeroR x = true ↔ x = 0 := by simp [isZeroR]

/-- The object after the first `transform`, on `A`. -/
noncomputable def standardizeOn (A : Matrix (Fin m) (Fin n) ℝ) : StatState ℝ :=
  (transform (standardize isZeroR) (of A) (standardize isZeroR).init).1

theorem standardizeOn_eq (A : Matrix (Fin m) (Fin (n + 1)) ℝ) :
    standardizeOn A = ⟨true, some (of (Matrix.of fun (_ : Fin 1) j => mu fun i => A i j)),
      some (of (Matrix.of fun (_ : Fin 1) j =>
        if j = 0 ∧ sd (fun i => A i 0) = 0 then 1 else sd fun i => A i j))⟩ := by
  have hg := guardStds_row isZeroR (Matrix.of fun (_ : Fin 1) j => sd fun i => A i j)
  unfold standardizeOn transform
  simp only [standardize, columnStdevs_of, columnMeans_of, hg, Bool.false_eq_true, if_false]
  congr 2
  refine mk_congr fun i j => ?_
  simp only [Matrix.of_apply, isZeroR_iff]

/-- **C28** After the first `transform` (on `A` with at least two rows), a matrix `B` of the same width
is transformed entrywise to `(B i j − mean_j) / s_j`; `s_j` is the sample standard deviation of
column `j` of `A`, replaced by 1 when `j = 0` and column 0 is constant. -/
theorem C28_standardize (A : Matrix (Fin m) (Fin (n + 1)) ℝ) (B : Matrix (Fin k) (Fin (n + 1)) ℝ) :
    ∃ C : Matrix (Fin k) (Fin (n + 1)) ℝ,
      (transform (standardize isZeroR) (of B) (standardizeOn A)).2 = .ok (of C) ∧
      ∀ i j, C i j = (B i j - mu fun r => A r j) /
        (if j = 0 ∧ sd (fun r => A r 0) = 0 then 1 else sd fun r => A r j) := by
  rw [standardizeOn_eq]
  refine ⟨Matrix.of fun i j => (B i j - mu fun r => A r j) /
    (if j = 0 ∧ sd (fun r => A r 0) = 0 then 1 else sd fun r => A r j), ?_, fun i j => rfl⟩
  show (subByVector (of B) (of _) >>= fun r => r.divByVector (of _)) = _
  have h1 : subByVector (of B) (of (Matrix.of fun (_ : Fin 1) j => mu fun i => A i j)) = .ok (of _) :=
    vectorOp_row _ _ _
  rw [h1]
  exact vectorOp_row _ _ _

/-- **C28** Every non-constant column of the transformed configuration data has mean 0 and sample
standard deviation 1; column 0, when constant, becomes zeros. -/
theorem C28_unit_variance (A : Matrix (Fin m) (Fin (n + 1)) ℝ) (hm : 2 ≤ m) :
    ∃ C : Matrix (Fin m) (Fin (n + 1)) ℝ, quickApply (standardize isZeroR) (of A) = .ok (of C) ∧
      (∀ j, (∃ i k, A i j ≠ A k j) →
        ∑ i, C i j = 0 ∧ Real.sqrt ((∑ i, (C i j) ^ 2) / (m - 1)) = 1) ∧
      ((∀ i k, A i 0 = A k 0) → ∀ i, C i 0 = 0) := by
  obtain ⟨C, h1, h2⟩ := C28_standardize A A
  have hm0 : m ≠ 0 := by omega
  refine ⟨C, ?_, ?_, ?_⟩
  · rw [← h1, standardizeOn_eq]
    have hs : (transform (standardize isZeroR) (of A) (standardize isZeroR).init).1 = _ :=
      standardizeOn_eq A
    unfold quickApply
    rw [← standardizeOn_eq]
    unfold standardizeOn transform
    have hg := guardStds_row isZeroR (Matrix.of fun (_ : Fin 1) j => sd fun i => A i j)
    simp only [standardize, columnStdevs_of, columnMeans_of, hg, Bool.false_eq_true, if_false, if_true]
  · rintro j ⟨i, k, hik⟩
    have hsd : sd (fun r => A r j) ≠ 0 := fun h => hik ((sd_eq_zero_iff hm _).1 h i k)
    have hC : ∀ i, C i j = (A i j - mu fun r => A r j) / sd fun r => A r j := by
      intro i
      rw [h2]
      by_cases hj : j = 0 ∧ sd (fun r => A r 0) = 0
      · rw [hj.1] at hsd; exact absurd hj.2 hsd
      · rw [if_neg hj]
    have hmu : mu (fun i => C i j) = 0 := by
      rw [show (fun i => C i j) = fun i => (A i j - mu fun r => A r j) / sd fun r => A r j from
        funext hC]
      exact mu_standard hm0 (fun r => A r j) _
    have hone : sd (fun i => C i j) = 1 := by
      rw [show (fun i => C i j) = fun i => (A i j - mu fun r => A r j) / sd fun r => A r j from
        funext hC]
      exact sd_standard hm (fun r => A r j) hsd
    constructor
    · have : (m : ℝ) ≠ 0 := by exact_mod_cast hm0
      unfold mu at hmu
      exact (div_eq_zero_iff.1 hmu).resolve_right this
    · unfold sd at hone
      rw [hmu] at hone
      simp only [sub_zero] at hone
      rw [Nat.cast_sub (by omega : 1 ≤ m), Nat.cast_one] at hone
      exact hone
  · intro hc i
    have hsd : sd (fun r => A r 0) = 0 := (sd_eq_zero_iff hm _).2 fun i k => hc i k
    have hmu : ∀ i, A i 0 - mu (fun r => A r 0) = 0 := by
      intro i
      have := sum_sub_mu hm0 fun r => A r 0
      rw [sum_congr rfl fun r _ => by rw [hc r i]] at this
      rw [sum_const, card_univ, Fintype.card_fin, nsmul_eq_mul] at this
      have hm' : (m : ℝ) ≠ 0 := by exact_mod_cast hm0
      exact (mul_eq_zero.1 this).resolve_left hm'
    rw [h2, hmu, zero_div]

/-- **C28 (partial)** If no column other than column 0 of the configuration data is constant,
`inverse_transform` takes every transformed matrix back.  Missing: constant columns beyond the first,
see the violation. -/
theorem C28_inverse_partial (A : Matrix (Fin m) (Fin (n + 1)) ℝ) (hm : 2 ≤ m)
    (hc : ∀ j, j ≠ 0 → ∃ i k, A i j ≠ A k j) (B : Matrix (Fin k) (Fin (n + 1)) ℝ) :
    ∃ C : Matrix (Fin k) (Fin (n + 1)) ℝ,
      (transform (standardize isZeroR) (of B) (standardizeOn A)).2 = .ok (of C) ∧
      (inverseTransform (standardize isZeroR) (of C) (standardizeOn A)).2 = .ok (of B) := by
  obtain ⟨C, h1, h2⟩ := C28_standardize A B
  refine ⟨C, h1, ?_⟩
  rw [standardizeOn_eq]
  show (mulByVector (of C) (of _) >>= fun r => r.addByVector (of _)) = _
  have h1 : mulByVector (of C) (of (Matrix.of fun (_ : Fin 1) j =>
        if j = 0 ∧ sd (fun i => A i 0) = 0 then 1 else sd fun i => A i j)) = .ok (of _) :=
    vectorOp_row _ _ _
  rw [h1]
  refine (vectorOp_row _ _ _).trans ?_
  congr 1
  refine mk_congr fun i j => ?_
  simp only [Matrix.of_apply, h2]
  have hne : (if j = 0 ∧ sd (fun r => A r 0) = 0 then 1 else sd fun r => A r j) ≠ (0 : ℝ) := by
    by_cases hj : j = 0 ∧ sd (fun r => A r 0) = 0
    · rw [if_pos hj]; exact one_ne_zero
    · rw [if_neg hj]
      intro h0
      by_cases hj0 : j = 0
      · subst hj0; exact hj ⟨rfl, h0⟩
      · obtain ⟨i, k, hik⟩ := hc j hj0
        exact hik ((sd_eq_zero_iff hm _).1 h0 i k)
  rw [div_mul_cancel₀ _ hne]
  ring

/-- Float equality with zero, on extended scalars. -/
noncomputable def isZeroX (x : X ℝ) : Bool := X.eqb x 0

/-- **C28 (violation)** If column `j ≥ 1` of the data is constant, `Standardize` divides 0 by 0 there:
the whole column of the transformed matrix is NaN.  (The guard against this only looks at column 0.) -/
theorem C28_constant_column_violation (A : Matrix (Fin m) (Fin (n + 1)) ℝ) (hm : 2 ≤ m)
    (j : Fin (n + 1)) (hj : j ≠ 0) (hc : ∀ i k, A i j = A k j) :
    ∃ C : Matrix (Fin m) (Fin (n + 1)) (X ℝ),
      quickApply (standardize isZeroX) (of (X.finMat A)) = .ok (of C) ∧ ∀ i, C i j = .nan := by
  have hm0 : m ≠ 0 := by omega
  have hg := guardStds_row isZeroX (Matrix.of fun (_ : Fin 1) j => (X.fin (sd fun i => A i j) : X ℝ))
  have hq : quickApply (standardize isZeroX) (of (X.finMat A)) =
      (subByVector (of (X.finMat A)) (of (Matrix.of fun (_ : Fin 1) j => (X.fin (mu fun i => A i j) : X ℝ)))
        >>= fun r => r.divByVector (of (Matrix.of fun (_ : Fin 1) j' => if j' = 0 ∧
          isZeroX (X.fin (sd fun i => A i 0)) = true then 1 else (X.fin (sd fun i => A i j') : X ℝ)))) := by
    unfold quickApply transform
    simp only [standardize, X.columnStdevs_fin A hm, X.columnMeans_fin A hm0, hg, Bool.false_eq_true, if_false]
    rfl
  have h1 : subByVector (of (X.finMat A)) (of (Matrix.of fun (_ : Fin 1) j =>
      (X.fin (mu fun i => A i j) : X ℝ))) = .ok (of _) := vectorOp_row _ _ _
  refine ⟨_, hq.trans ((congrArg (· >>= _) h1).trans (vectorOp_row _ _ _)), fun i => ?_⟩
  simp only [Matrix.of_apply, X.finMat]
  rw [if_neg (fun h => hj h.1)]
  have hsd : sd (fun r => A r j) = 0 := (sd_eq_zero_iff hm _).2 fun i k => hc i k
  have hmu : A i j - mu (fun r => A r j) = 0 := by
    have := sum_sub_mu hm0 fun r => A r j
    rw [sum_congr rfl fun r _ => by rw [hc r i]] at this
    rw [sum_const, card_univ, Fintype.card_fin, nsmul_eq_mul] at this
    have hm' : (m : ℝ) ≠ 0 := by exact_mod_cast hm0
    exact (mul_eq_zero.1 this).resolve_left hm'
  rw [hsd, X.fin_sub, hmu, X.fin_div_zero, X.signedInf_zero]

/-- **C28 (violation)** Configuring on a single row makes every transformed entry NaN. -/
theorem C28_single_row_violation (A : Matrix (Fin 1) (Fin (n + 1)) ℝ) :
    ∃ C : Matrix (Fin 1) (Fin (n + 1)) (X ℝ),
      quickApply (standardize isZeroX) (of (X.finMat A)) = .ok (of C) ∧ ∀ i j, C i j = .nan := by
  have hg := guardStds_row isZeroX (Matrix.of fun (_ : Fin 1) (_ : Fin (n + 1)) => (X.nan : X ℝ))
  have hq : quickApply (standardize isZeroX) (of (X.finMat A)) =
      (subByVector (of (X.finMat A)) (of (Matrix.of fun (_ : Fin 1) j => (X.fin (mu fun i => A i j) : X ℝ)))
        >>= fun r => r.divByVector (of (Matrix.of fun (_ : Fin 1) (j' : Fin (n + 1)) => if j' = 0 ∧
          isZeroX X.nan = true then 1 else (X.nan : X ℝ)))) := by
    unfold quickApply transform
    simp only [standardize, X.columnStdevs_single A, X.columnMeans_fin A one_ne_zero, hg,
      Bool.false_eq_true, if_false]
    rfl
  have h1 : subByVector (of (X.finMat A)) (of (Matrix.of fun (_ : Fin 1) j =>
      (X.fin (mu fun i => A i j) : X ℝ))) = .ok (of _) := vectorOp_row _ _ _
  refine ⟨_, hq.trans ((congrArg (· >>= _) h1).trans (vectorOp_row _ _ _)), fun i j => ?_⟩
  simp only [Matrix.of_apply]
  rw [if_neg (fun h => by cases h.2)]
  exact X.div_nan _

/-- A case meeting the hypotheses of the theorems on `Standardize`: first column varying, second not. -/
example : ∃ A : Matrix (Fin 2) (Fin 2) ℝ, (∃ i k, A i 0 ≠ A k 0) ∧ ∀ i k, A i 1 = A k 1 :=
  ⟨Matrix.of fun i j => if j = 0 then (i : ℝ) else 5, ⟨0, 1, by simp⟩, by simp⟩

end standard

/-! ## C29 -/

section rownorm
variable {m n k l : Nat}

/-- `transform` of an unconfigured `RowNorm` on exact data: every row is standardised with its own
mean and standard deviation; constant rows become zeros. -/
noncomputable def rowStd (A : Matrix (Fin m) (Fin n) ℝ) : Matrix (Fin m) (Fin n) ℝ :=
  Matrix.of fun i j => (A i j - mu (A i)) / (if sd (A i) = 0 then 1 else sd (A i))

theorem rowNorm_configure (A : Matrix (Fin m) (Fin n) ℝ) (s : StatState ℝ) :
    (rowNorm isZeroR).configure (of A) s =
      (⟨s.configured, some (of (Matrix.of fun i (_ : Fin 1) => mu (A i))),
        some (of (Matrix.of fun i (_ : Fin 1) => if sd (A i) = 0 then 1 else sd (A i)))⟩, .ok ()) := by
  have hg := guardStds_col isZeroR (Matrix.of fun i (_ : Fin 1) => sd fun j => A i j)
    (by simp [isZeroR])
  simp only [rowNorm, rowStdevs_of, rowMeans_of, hg]
  congr 3
  refine mk_congr fun i j => ?_
  simp only [Matrix.of_apply, isZeroR_iff]

theorem inPlaceCol_of (f : ℝ → ℝ → ℝ) (A : Matrix (Fin m) (Fin n) ℝ) (v : Matrix (Fin m) (Fin 1) ℝ) :
    inPlaceCol f (of A) (of v) = .ok (of (Matrix.of fun i j => f (A i j) (v i 0))) := by
  unfold inPlaceCol
  rw [dif_pos rfl]
  exact dif_pos rfl

theorem inPlaceCol_bad (f : ℝ → ℝ → ℝ) (A : Matrix (Fin m) (Fin n) ℝ) (v : Matrix (Fin k) (Fin 1) ℝ)
    (h1 : k ≠ m) (h2 : k ≠ 1) : inPlaceCol f (of A) (of v) = .error .valueError := by
  unfold inPlaceCol
  rw [dif_pos rfl]
  show (if h : k = m then _ else _) = _
  rw [dif_neg h1]
  exact dif_neg h2

theorem rowNorm_fresh (A : Matrix (Fin m) (Fin n) ℝ) (s : StatState ℝ) (hs : s.configured = false) :
    (transform (rowNorm isZeroR) (of A) s).2 = .ok (of (rowStd A)) ∧
      (transform (rowNorm isZeroR) (of A) s).1.configured = false := by
  have hc := rowNorm_configure A s
  unfold transform
  rw [show (rowNorm isZeroR).configured s = false from hs]
  simp only [Bool.false_eq_true, if_false, hc]
  refine ⟨?_, hs⟩
  show (inPlaceCol _ (of A) (of _) >>= fun r => inPlaceCol _ r (of _)) = _
  rw [inPlaceCol_of]
  exact inPlaceCol_of _ _ _

/-- Histories without `inverse_transform`. -/
def NoInverse : TCall ℝ Empty → Prop
  | .inverse _ => False
  | _ => True

/-- **C29 (partial)** In every history without `inverse_transform` calls, `transform` standardises each
row with that row's own statistics, whatever was transformed before: the result is `rowStd A`,
in which every non-constant row has mean 0 and sample standard deviation 1 and constant rows are
zero.  Missing: histories with `inverse_transform`, see the violations. -/
theorem C29_transform_partial (cs : List (TCall ℝ Empty)) (h : ∀ c ∈ cs, NoInverse c)
    (A : Matrix (Fin m) (Fin n) ℝ) :
    (tRun (rowNorm isZeroR) (cs ++ [.transform (of A)]) (rowNorm isZeroR).init).getLast? =
      some (.ok (some (of (rowStd A)))) := by
  have key : ∀ (cs : List (TCall ℝ Empty)) (s : StatState ℝ), s.configured = false →
      (∀ c ∈ cs, NoInverse c) →
      (tRun (rowNorm isZeroR) (cs ++ [.transform (of A)]) s).getLast? =
        some (.ok (some (of (rowStd A)))) := by
    intro cs
    induction cs with
    | nil =>
      intro s hs _
      simp only [List.nil_append, tRun, tStep, List.getLast?_singleton, (rowNorm_fresh A s hs).1]
      rfl
    | cons c cs ih =>
      intro s hs hcs
      rw [List.cons_append, tRun]
      have hne : tRun (rowNorm isZeroR) (cs ++ [.transform (of A)]) (tStep (rowNorm isZeroR) c s).1 ≠ [] := by
        cases cs <;> simp [tRun]
      rw [List.getLast?_cons_of_ne_nil hne]
      refine ih _ ?_ fun c hc => hcs c (List.mem_cons_of_mem _ hc)
      have hc := hcs c (List.mem_cons_self ..)
      cases c with
      | transform d => exact (rowNorm_fresh d.data s hs).2
      | inverse d => exact hc.elim
      | configure d =>
        have := rowNorm_configure d.data s
        show ((rowNorm isZeroR).configure d s).1.configured = false
        rw [show d = of d.data from rfl, this]
        exact hs
      | reset => rfl
      | set p => exact p.elim
  exact key cs _ rfl h

/-- **C29** What `rowStd` does: non-constant rows get mean 0 and standard deviation 1, constant rows
become zero. -/
theorem C29_rowStd (A : Matrix (Fin m) (Fin n) ℝ) (hn : 2 ≤ n) (i : Fin m) :
    ((∃ j k, A i j ≠ A i k) → ∑ j, rowStd A i j = 0 ∧
      Real.sqrt ((∑ j, (rowStd A i j) ^ 2) / (n - 1)) = 1) ∧
    ((∀ j k, A i j = A i k) → ∀ j, rowStd A i j = 0) := by
  have hn0 : n ≠ 0 := by omega
  have hn' : (n : ℝ) ≠ 0 := by exact_mod_cast hn0
  constructor
  · rintro ⟨j, k, hjk⟩
    have hsd : sd (A i) ≠ 0 := fun h => hjk ((sd_eq_zero_iff hn _).1 h j k)
    have hC : (fun j => rowStd A i j) = fun j => (A i j - mu (A i)) / sd (A i) := by
      funext j; simp only [rowStd, Matrix.of_apply, if_neg hsd]
    have hmu : mu (fun j => rowStd A i j) = 0 := by rw [hC]; exact mu_standard hn0 (A i) _
    have hone : sd (fun j => rowStd A i j) = 1 := by rw [hC]; exact sd_standard hn (A i) hsd
    constructor
    · unfold mu at hmu
      exact (div_eq_zero_iff.1 hmu).resolve_right hn'
    · unfold sd at hone
      rw [hmu] at hone
      simp only [sub_zero] at hone
      rw [Nat.cast_sub (by omega : 1 ≤ n), Nat.cast_one] at hone
      exact hone
  · intro hc j
    have := sum_sub_mu hn0 (A i)
    rw [sum_congr rfl fun r _ => by rw [hc r j]] at this
    rw [sum_const, card_univ, Fintype.card_fin, nsmul_eq_mul] at this
    simp only [rowStd, Matrix.of_apply, (mul_eq_zero.1 this).resolve_left hn', zero_div]

theorem rowStd_stats (A : Matrix (Fin m) (Fin n) ℝ) (hn : 2 ≤ n) (i : Fin m) :
    mu (rowStd A i) = 0 ∧ (if sd (rowStd A i) = 0 then (1 : ℝ) else sd (rowStd A i)) = 1 := by
  have hn0 : n ≠ 0 := by omega
  by_cases hsd : sd (A i) = 0
  · have hz : rowStd A i = fun _ => 0 := by
      funext j
      exact (C29_rowStd A hn i).2 (fun j k => (sd_eq_zero_iff hn _).1 hsd j k) j
    rw [hz]
    have : sd (fun _ : Fin n => (0 : ℝ)) = 0 := (sd_eq_zero_iff hn _).2 fun _ _ => rfl
    rw [if_pos this]
    exact ⟨by simp [mu], rfl⟩
  · have hC : rowStd A i = fun j => (A i j - mu (A i)) / sd (A i) := by
      funext j; simp only [rowStd, Matrix.of_apply, if_neg hsd]
    have hone : sd (rowStd A i) = 1 := by rw [hC]; exact sd_standard hn (A i) hsd
    refine ⟨by rw [hC]; exact mu_standard hn0 (A i) _, ?_⟩
    rw [hone, if_neg one_ne_zero]

/-- **C29 (violation)** `inverse_transform` after `transform` does not restore anything: the object
refits itself on its argument, and returns exactly the transformed matrix again. -/
theorem C29_inverse_violation (A : Matrix (Fin m) (Fin n) ℝ) (hn : 2 ≤ n) :
    tRun (rowNorm isZeroR) [.transform (of A), .inverse (of (rowStd A))] (rowNorm isZeroR).init =
      [.ok (some (of (rowStd A))), .ok (some (of (rowStd A)))] := by
  obtain ⟨h1, h2⟩ := rowNorm_fresh A (rowNorm isZeroR).init rfl
  simp only [tRun, tStep, h1]
  generalize (transform (rowNorm isZeroR) (of A) (rowNorm isZeroR).init).1 = s at h2
  have hc := rowNorm_configure (rowStd A) s
  have hinv : (inverseTransform (rowNorm isZeroR) (of (rowStd A)) s).2 = .ok (of (rowStd A)) := by
    unfold inverseTransform
    rw [show (rowNorm isZeroR).configured s = false from h2]
    simp only [Bool.false_eq_true, if_false, hc]
    show (inPlaceCol _ (of _) (of _) >>= fun r => inPlaceCol _ r (of _)) = _
    rw [inPlaceCol_of]
    refine (inPlaceCol_of _ _ _).trans ?_
    congr 1
    refine mk_congr fun i j => ?_
    simp only [Matrix.of_apply, (rowStd_stats A hn i).1, (rowStd_stats A hn i).2]
    ring
  rw [hinv]
  rfl

/-- **C29 (violation)** … so the round trip is wrong for concrete data, e.g. the row `(1, 3)`: its
transform is not `(1, 3)`. -/
theorem C29_roundtrip_violation :
    ∃ A : Matrix (Fin 1) (Fin 2) ℝ,
      tRun (rowNorm isZeroR) [.transform (of A), .inverse (of (rowStd A))] (rowNorm isZeroR).init ≠
        [.ok (some (of (rowStd A))), .ok (some (of A))] := by
  refine ⟨Matrix.of fun _ j => 1 + 2 * (j : ℝ), ?_⟩
  rw [C29_inverse_violation _ le_rfl]
  intro h
  simp only [List.cons.injEq, Except.ok.injEq, Option.some.injEq, and_true, true_and] at h
  have h3 : rowStd (Matrix.of fun (_ : Fin 1) (j : Fin 2) => 1 + 2 * (j : ℝ)) =
      Matrix.of fun (_ : Fin 1) (j : Fin 2) => 1 + 2 * (j : ℝ) := by
    have := h
    simp only [of, Mat.mk.injEq, heq_eq_eq, true_and] at this
    exact this
  have h4 := (rowStd_stats (Matrix.of fun (_ : Fin 1) (j : Fin 2) => 1 + 2 * (j : ℝ)) le_rfl 0).1
  rw [h3] at h4
  simp [mu, Fin.sum_univ_two] at h4
  norm_num at h4

/-- **C29 (violation)** After `inverse_transform Y`, the object stays configured on `Y`: a later
`transform Z` uses the row statistics of `Y`, and raises `ValueError` when `Z` has another number of
rows (and `Y` more than one). -/
theorem C29_stale_violation (Y : Matrix (Fin m) (Fin n) ℝ) (Z : Matrix (Fin k) (Fin l) ℝ)
    (h1 : m ≠ k) (h2 : m ≠ 1) :
    (tRun (rowNorm isZeroR) [.inverse (of Y), .transform (of Z)] (rowNorm isZeroR).init).getLast? =
      some (.error .valueError) := by
  have hc := rowNorm_configure Y (rowNorm isZeroR).init
  have hst : (inverseTransform (rowNorm isZeroR) (of Y) (rowNorm isZeroR).init).1 =
      ⟨true, some (of (Matrix.of fun i (_ : Fin 1) => mu (Y i))),
        some (of (Matrix.of fun i (_ : Fin 1) => if sd (Y i) = 0 then 1 else sd (Y i)))⟩ := by
    unfold inverseTransform
    rw [show (rowNorm isZeroR).configured (rowNorm isZeroR).init = false from rfl]
    simp only [Bool.false_eq_true, if_false, hc]
    rfl
  simp only [tRun, tStep, hst]
  show some (Except.map some (inPlaceCol _ (of Z) (of _) >>= fun r => inPlaceCol _ r (of _))) = _
  rw [inPlaceCol_bad _ _ _ h1 h2]
  rfl

/-- What the life cycle (C26) asks of `RowNorm`: the statistics of the first data are re-used. -/
noncomputable def rowNormSpec : TSpec ℝ Empty Unit where
  params := ()
  check _ _ := .ok ()
  apply _ d₀ d := do
    let stds ← guardStds isZeroR d₀.rowStdevs
    let r ← inPlaceCol (· - ·) d d₀.rowMeans
    inPlaceCol (· / ·) r stds
  unapply _ d₀ d := do
    let stds ← guardStds isZeroR d₀.rowStdevs
    let r ← inPlaceCol (· * ·) d stds
    inPlaceCol (· + ·) r d₀.rowMeans
  assign _ p := p.elim

/-- **C26 (violation)** `RowNorm` does not follow the life cycle: `transform` reconfigures every time.
Whenever the second matrix has another number of rows, re-using the configuration would raise
`ValueError`, while the object silently fits the new data. -/
theorem C26_rowNorm_violation (A : Matrix (Fin m) (Fin n) ℝ) (B : Matrix (Fin k) (Fin l) ℝ)
    (h1 : m ≠ k) (h2 : m ≠ 1) :
    tRun (rowNorm isZeroR) [.transform (of A), .transform (of B)] (rowNorm isZeroR).init =
      [.ok (some (of (rowStd A))), .ok (some (of (rowStd B)))] ∧
    (sRun rowNormSpec [.transform (of A), .transform (of B)] ((), none)).getLast? =
      some (.error .valueError) := by
  obtain ⟨a1, a2⟩ := rowNorm_fresh A (rowNorm isZeroR).init rfl
  constructor
  · simp only [tRun, tStep, a1, (rowNorm_fresh B _ a2).1]
    rfl
  · have hg := guardStds_col isZeroR (Matrix.of fun i (_ : Fin 1) => sd fun j => A i j)
      (by simp [isZeroR])
    simp only [sRun, sStep, rowNormSpec, rowStdevs_of, rowMeans_of, hg]
    show some (Except.map some (inPlaceCol _ (of B) (of _) >>= fun r => inPlaceCol _ r (of _))) = _
    rw [inPlaceCol_bad _ _ _ h1 h2]
    rfl

end rownorm

/-! ## C30 -/

section logsec
variable {m n : Nat}

/-- `Log` over the reals. -/
noncomputable def logR : Trans ℝ (LogState ℝ) (LogParam ℝ) :=
  log (Real.exp 1) (fun a b => decide (a = b)) (fun a b => decide (a ≤ b))

theorem logFactor_real (b : ℝ) : logFactor (Real.exp 1) (fun a b => decide (a = b)) b =
    1 / Real.log b := by
  unfold logFactor
  by_cases h : b = Real.exp 1
  · simp [h]
  · simp [h]

/-- **C30** `transform` raises `ValueError` exactly when some entry plus the offset is not positive,
whatever the history of the object. -/
theorem C30_domain (s : LogState ℝ) (A : Matrix (Fin m) (Fin n) ℝ) :
    (transform logR (of A) s).2 = .error .valueError ↔ ∃ i j, A i j + s.offset ≤ 0 := by
  have ht : (transform logR (of A) s).2 =
      if ((of A).addScalar s.offset).any fun x => decide (x ≤ 0) then .error .valueError
      else .ok ((((of A).addScalar s.offset).map HasLog.log).smul
        (logFactor (Real.exp 1) (fun a b => decide (a = b)) s.base)) := by
    unfold transform
    cases hs : s.configured <;> simp [logR, log, hs]
  have ha : ((of A).addScalar s.offset).any (fun x => decide (x ≤ 0)) = true ↔
      ∃ i j, A i j + s.offset ≤ 0 := by
    rw [show (of A).addScalar s.offset = of (Matrix.of fun i j => A i j + s.offset) from rfl, any_of_iff]
    exact ⟨fun ⟨i, j, h⟩ => ⟨i, j, of_decide_eq_true h⟩, fun ⟨i, j, h⟩ => ⟨i, j, decide_eq_true h⟩⟩
  rw [ht, ← ha]
  by_cases h : ((of A).addScalar s.offset).any (fun x => decide (x ≤ 0)) = true
  · simp [h]
  · simp [h]

/-- **C30** Otherwise the result is `log(x + offset) / log(base)` entrywise, and `inverse_transform`
takes it back. -/
theorem C30_values (s : LogState ℝ) (A : Matrix (Fin m) (Fin n) ℝ)
    (hb : 0 < s.base) (hb1 : s.base ≠ 1) (hA : ∀ i j, 0 < A i j + s.offset) :
    ∃ C : Matrix (Fin m) (Fin n) ℝ, (transform logR (of A) s).2 = .ok (of C) ∧
      (∀ i j, C i j = Real.logb s.base (A i j + s.offset)) ∧
      (inverseTransform logR (of C) (transform logR (of A) s).1).2 = .ok (of A) := by
  have hlog : Real.log s.base ≠ 0 := Real.log_ne_zero_of_pos_of_ne_one hb hb1
  have ha : ¬ ((of A).addScalar s.offset).any (fun x => decide (x ≤ 0)) = true := by
    rw [show (of A).addScalar s.offset = of (Matrix.of fun i j => A i j + s.offset) from rfl, any_of_iff]
    rintro ⟨i, j, h⟩
    have : A i j + s.offset ≤ 0 := of_decide_eq_true h
    exact absurd (hA i j) (not_lt.2 this)
  have hst : (transform logR (of A) s).1 = { s with configured := true } := by
    unfold transform
    cases hs : s.configured
    · simp [logR, log, hs]
    · rw [show logR.configured s = true from hs]
      obtain ⟨c, b, o⟩ := s
      simp only at hs
      subst hs
      rfl
  refine ⟨Matrix.of fun i j => Real.logb s.base (A i j + s.offset), ?_, fun _ _ => rfl, ?_⟩
  · have ht : (transform logR (of A) s).2 =
      if ((of A).addScalar s.offset).any fun x => decide (x ≤ 0) then .error .valueError
      else .ok ((((of A).addScalar s.offset).map HasLog.log).smul
        (logFactor (Real.exp 1) (fun a b => decide (a = b)) s.base)) := by
      unfold transform
      cases hs : s.configured <;> simp [logR, log, hs]
    rw [ht, if_neg ha, logFactor_real]
    congr 1
    refine mk_congr fun i j => ?_
    show Real.log (A i j + s.offset) * (1 / Real.log s.base) = Real.logb s.base (A i j + s.offset)
    rw [Real.logb]
    ring
  · rw [hst]
    show Except.ok _ = Except.ok _
    congr 1
    rw [show (({ s with configured := true } : LogState ℝ)).base = s.base from rfl, logFactor_real]
    refine mk_congr fun i j => ?_
    show Real.exp (Real.logb s.base (A i j + s.offset) / (1 / Real.log s.base)) - s.offset = A i j
    rw [Real.logb, show Real.log (A i j + s.offset) / Real.log s.base / (1 / Real.log s.base) =
      Real.log (A i j + s.offset) by field_simp, Real.exp_log (hA i j)]
    ring

/-- **C30** The other round trip: transforming an inverse-transformed matrix restores it. -/
theorem C30_inverse_first (s : LogState ℝ) (A : Matrix (Fin m) (Fin n) ℝ)
    (hb : 0 < s.base) (hb1 : s.base ≠ 1) :
    ∃ C : Matrix (Fin m) (Fin n) ℝ, (inverseTransform logR (of A) s).2 = .ok (of C) ∧
      (∀ i j, C i j = s.base ^ (A i j) - s.offset) ∧
      (transform logR (of C) (inverseTransform logR (of A) s).1).2 = .ok (of A) := by
  have hlog : Real.log s.base ≠ 0 := Real.log_ne_zero_of_pos_of_ne_one hb hb1
  have hst : (inverseTransform logR (of A) s).1 = { s with configured := true } := by
    unfold inverseTransform
    cases hs : s.configured
    · simp [logR, log, hs]
    · rw [show logR.configured s = true from hs]
      obtain ⟨c, b, o⟩ := s
      simp only at hs
      subst hs
      rfl
  refine ⟨Matrix.of fun i j => s.base ^ (A i j) - s.offset, ?_, fun _ _ => rfl, ?_⟩
  · have ht : (inverseTransform logR (of A) s).2 =
      .ok ((((of A).div (logFactor (Real.exp 1) (fun a b => decide (a = b)) s.base)).map
        HasExp.exp).subScalar s.offset) := by
      unfold inverseTransform
      cases hs : s.configured <;> simp [logR, log, hs]
    rw [ht, logFactor_real]
    congr 1
    refine mk_congr fun i j => ?_
    show Real.exp (A i j / (1 / Real.log s.base)) - s.offset = s.base ^ (A i j) - s.offset
    rw [Real.rpow_def_of_pos hb, show A i j / (1 / Real.log s.base) = Real.log s.base * A i j by
      field_simp]
  · rw [hst]
    obtain ⟨C, h1, h2, _⟩ := C30_values { s with configured := true }
      (Matrix.of fun i j => s.base ^ (A i j) - s.offset) hb hb1
      (fun i j => by simp only [Matrix.of_apply]; rw [sub_add_cancel]; exact Real.rpow_pos_of_pos hb _)
    rw [h1]
    congr 1
    refine mk_congr fun i j => ?_
    rw [h2]
    simp only [Matrix.of_apply]
    rw [sub_add_cancel, Real.logb_rpow hb hb1]

/-- **C30** Assigning a base that is 1 or not positive raises `ValueError` and changes nothing; any other
base is accepted and unconfigures the object. -/
theorem C30_base (s : LogState ℝ) (v : ℝ) :
    ((v = 1 ∨ v ≤ 0) → logR.setParam (.base v) s = (s, .error .valueError)) ∧
    (¬ (v = 1 ∨ v ≤ 0) → logR.setParam (.base v) s = (⟨false, v, s.offset⟩, .ok ())) := by
  constructor
  · intro h
    show (if (decide (v = 1) || decide (v ≤ 0)) = true then _ else _) = _
    rw [if_pos (by simpa using h)]
  · intro h
    show (if (decide (v = 1) || decide (v ≤ 0)) = true then _ else _) = _
    rw [if_neg (by simpa using h)]

/-- A state and a matrix meeting the hypotheses. -/
example : (0 : ℝ) < 10 ∧ (10 : ℝ) ≠ 1 ∧
    ∀ i j, 0 < (Matrix.of fun (_ : Fin 2) (_ : Fin 2) => (0 : ℝ)) i j + 1 := by norm_num

end logsec
end Verif.Props
