import Verif.Transf.ScatterPre
import Verif.Props.ScatterProps
import Verif.Props.SavGolProps

/-!
# C139 scatter correction with a prefilter
-/

namespace Verif.Props
open Verif Mat Transf Finset

section mscpre
variable {m k l : Nat}

section generic
variable {α : Type} [Add α] [Sub α] [Mul α] [Div α] [Zero α] [NatCast α]

/-- The corrected amplitude of a row with wave number `w` when `F` is the filtered spectrum: the lines are fitted
to `F`, the ranges are looked up with `w`. -/
def mscValueP (le : α → α → Bool) (R : Matrix (Fin m) (Fin 2) α) (F : Matrix (Fin m) (Fin (l + 2)) α) (w : α) :
    List (α × α) → α → α
  | [], v => v
  | r :: rs, v => mscValueP le R F w rs
      (if inRange le r w = true then (v - (mscLine le R F r).1) / (mscLine le R F r).2 else v)

theorem mscRangeP_of (le : α → α → Bool) (R : Matrix (Fin m) (Fin 2) α) (F : Matrix (Fin m) (Fin (l + 2)) α)
    (B : Matrix (Fin m) (Fin (k + 2)) α) (r : α × α) :
    mscRange le (of R) (of F) (of B) r = .ok (of (Matrix.of fun i j =>
      if j = 1 ∧ inRange le r (B i 0) = true then (B i 1 - (mscLine le R F r).1) / (mscLine le R F r).2
      else B i j)) := by
  unfold mscRange
  show (mscGather le r (of R) (of F) (pyRange 0 (m : Int)) >>= _) = _
  have hg : mscGather le r (of R) (of F) (pyRange 0 (m : Int)) = _ :=
    (congrArg _ (pyRange_finRange m)).trans (mscGather_of le r (List.finRange m) R F)
  rw [hg]
  show mscCorrect le r (mscLine le R F r).1 (mscLine le R F r).2 (pyRange 0 (m : Int)) (of B) = _
  rw [pyRange_finRange, mscCorrect_of _ _ _ _ _ (List.nodup_finRange m)]
  congr 1
  exact mk_congr fun i j => by simp

theorem mscRanges_of (le : α → α → Bool) (ranges : List (α × α)) (R : Matrix (Fin m) (Fin 2) α)
    (F : Matrix (Fin m) (Fin (l + 2)) α) (A : Matrix (Fin m) (Fin (k + 2)) α) :
    mscRanges le ranges (some (of R)) (of F) (of A) = .ok (of (Matrix.of fun i j =>
      if j = 1 then mscValueP le R F (A i 0) ranges (A i 1) else A i j)) := by
  have h01 : (0 : Fin (k + 2)) ≠ 1 := by simp
  show ranges.foldlM (mscRange le (of R) (of F)) (of A) = _
  induction ranges generalizing A with
  | nil =>
    show Except.ok _ = _
    congr 1
    refine mk_congr fun i j => ?_
    by_cases hj : j = 1
    · subst hj; simp [mscValueP]
    · simp [hj]
  | cons r rs ih =>
    rw [List.foldlM_cons, mscRangeP_of]
    refine (ih _).trans ?_
    congr 1
    refine mk_congr fun i j => ?_
    by_cases hj : j = 1
    · subst hj; simp [mscValueP]
    · simp [hj]

variable {τ P : Type}

/-- **C139** What a correction with a prefilter computes.  If the prefilter turns the spectrum `A` into `F`,
the wave numbers and all further columns of `A` are kept; an amplitude of `A` is corrected, range by range,
with the line fitted to the amplitudes of `F` over the reference, where the rows of the fit are chosen by the
first column of `F` and the rows to correct by the first column of `A`. -/
theorem C139_values (le : α → α → Bool) (T : Trans α τ P) (ranges : List (α × α)) (R : Matrix (Fin m) (Fin 2) α)
    (A : Matrix (Fin m) (Fin (k + 2)) α) (F : Matrix (Fin m) (Fin (l + 2)) α) (t t' : τ)
    (h : transform T (of A) t = (t', .ok (of F))) :
    mscPTransform le T ranges (of A) ⟨true, some (of R), t⟩ =
      (⟨true, some (of R), t'⟩, .ok (of (Matrix.of fun i j =>
        if j = 1 then mscValueP le R F (A i 0) ranges (A i 1) else A i j))) := by
  unfold mscPTransform mscCorrectP
  rw [if_pos rfl]
  dsimp only
  rw [h]
  exact Prod.ext rfl (mscRanges_of le ranges R F A)

/-- **C139** If the prefilter raises, the correction raises the same error and the reference is kept. -/
theorem C139_error (le : α → α → Bool) (T : Trans α τ P) (ranges : List (α × α)) (a : Option (Mat α))
    (d : Mat α) (t t' : τ) (e : PyErr) (h : transform T d t = (t', .error e)) :
    mscPTransform le T ranges d ⟨true, a, t⟩ = (⟨true, a, t'⟩, .error e) := by
  unfold mscPTransform mscCorrectP
  rw [if_pos rfl]
  dsimp only
  rw [h]

/-- Configuring the prefilter makes it configured (true of every transformation of the package except
`RowNorm`). -/
def Sticky (T : Trans α τ P) : Prop := ∀ d s s', T.configure d s = (s', .ok ()) → T.configured s' = true

omit [Add α] [Sub α] [Mul α] [Div α] [Zero α] [NatCast α] in
theorem transform_sticky {T : Trans α τ P} (hT : Sticky T) {d : Mat α} {t t' : τ} {f : Mat α}
    (h : transform T d t = (t', .ok f)) :
    T.configured t' = true ∧ T.doTransform t' d = .ok f := by
  unfold transform at h
  by_cases hc : T.configured t = true
  · rw [if_pos hc] at h
    injection h with h1 h2
    subst h1
    exact ⟨hc, h2⟩
  · rw [if_neg hc] at h
    cases hcf : T.configure d t with
    | mk s r =>
      rw [hcf] at h
      cases r with
      | error e => injection h with h1 h2; cases h2
      | ok u =>
        injection h with h1 h2
        subst h1
        exact ⟨hT d t _ hcf, h2⟩

theorem mscPTransform_configured (le : α → α → Bool) (T : Trans α τ P) (ranges : List (α × α)) (a : Mat α)
    (d : Mat α) (t : τ) (hc : T.configured t = true) :
    mscPTransform le T ranges d ⟨true, some a, t⟩ =
      (⟨true, some a, t⟩, mscApply le (some (T.doTransform t)) ranges a d) := by
  unfold mscPTransform mscCorrectP
  rw [if_pos rfl]
  dsimp only
  unfold transform
  rw [if_pos hc]
  unfold mscApply
  dsimp only
  cases T.doTransform t d <;> rfl

/-- **C139** With a prefilter that learns from data, the first spectrum fixes the prefilter: from a configured
corrector whose prefilter accepts the spectrum `d`, every result of correcting `d` and then any further
spectra is the correction with the prefilter as configured on `d`. -/
theorem C139_first_spectrum (le : α → α → Bool) (T : Trans α τ P) (hT : Sticky T) (ranges : List (α × α))
    (a : Mat α) (t t' : τ) (d f : Mat α) (h : transform T d t = (t', .ok f)) (ds : List (Mat α)) :
    mscPRun le T ranges (d :: ds) ⟨true, some a, t⟩ =
      (d :: ds).map (mscApply le (some (T.doTransform t')) ranges a) := by
  obtain ⟨hc, hd⟩ := transform_sticky hT h
  have h1 : mscPTransform le T ranges d ⟨true, some a, t⟩ =
      (⟨true, some a, t'⟩, mscApply le (some (T.doTransform t')) ranges a d) := by
    unfold mscPTransform mscCorrectP
    rw [if_pos rfl]
    dsimp only
    rw [h]
    unfold mscApply
    dsimp only
    rw [hd]
    rfl
  have h2 : ∀ ds : List (Mat α), mscPRun le T ranges ds ⟨true, some a, t'⟩ =
      ds.map (mscApply le (some (T.doTransform t')) ranges a) := by
    intro ds
    induction ds with
    | nil => rfl
    | cons e es ih =>
      rw [mscPRun, mscPTransform_configured le T ranges a e t' hc, ih]
      rfl
  rw [mscPRun, h1, h2]
  rfl

/-- A prefilter without memory: in every state it can get into by transforming, it computes the same function
`g`. -/
def Memoryless (T : Trans α τ P) (t : τ) (g : Mat α → Except PyErr (Mat α)) : Prop :=
  ∃ I : τ → Prop, I t ∧ ∀ t, I t → ∀ d, I (transform T d t).1 ∧ (transform T d t).2 = g d

/-- **C139 (partial)** With a prefilter without memory every result depends only on the spectrum, the reference,
the ranges and the prefilter's parameters, whatever was corrected before.
Missing: prefilters which learn from the first spectrum, see the violations. -/
theorem C139_history_free_partial (le : α → α → Bool) (T : Trans α τ P) (t : τ) (g : Mat α → Except PyErr (Mat α))
    (hT : Memoryless T t g) (ranges : List (α × α)) (a : Mat α) (ds : List (Mat α)) :
    mscPRun le T ranges ds ⟨true, some a, t⟩ = ds.map (mscApply le (some g) ranges a) := by
  obtain ⟨I, ht, hI⟩ := hT
  induction ds generalizing t with
  | nil => rfl
  | cons d ds ih =>
    have h1 : mscPTransform le T ranges d ⟨true, some a, t⟩ =
        (⟨true, some a, (transform T d t).1⟩, mscApply le (some g) ranges a d) := by
      have h2 := (hI t ht d).2
      unfold mscPTransform mscCorrectP mscApply
      rw [if_pos rfl]
      dsimp only
      rw [← h2]
      cases hx : transform T d t with
      | mk s r => cases r <;> rfl
    rw [mscPRun, h1]
    exact congrArg _ (ih _ (hI t ht d).1)

/-- **C139** `PassThrough`, `Log`, `YGradientGLSWSavitzkyGolayFilter` and `RowNorm` (which never becomes
configured by transforming) are prefilters without memory. -/
theorem C139_memoryless [One α] [HasSqrt α] (isZero : α → Bool) (coef : List α) :
    Memoryless (passThrough : Trans α Bool Empty) false .ok ∧
    Memoryless (ygrad coef) false (ygradApply coef) ∧
    Memoryless (rowNorm isZero : Trans α _ _) ⟨false, none, none⟩ (quickApply (rowNorm isZero)) := by
  refine ⟨⟨fun _ => True, trivial, fun t _ d => ⟨trivial, ?_⟩⟩, ⟨fun _ => True, trivial, fun t _ d => ⟨trivial, ?_⟩⟩,
    ⟨fun s => s.configured = false, rfl, fun t ht d => ?_⟩⟩
  · cases t <;> rfl
  · cases t <;> rfl
  · obtain ⟨c, m, s⟩ := t
    have hc : c = false := ht
    subst hc
    have h1 : ∀ m s, transform (rowNorm isZero) d ⟨false, m, s⟩ =
        match guardStds isZero d.rowStdevs with
        | .error e => (⟨false, some d.rowMeans, some d.rowStdevs⟩, .error e)
        | .ok x => (⟨false, some d.rowMeans, some x⟩,
            (rowNorm isZero).doTransform ⟨false, some d.rowMeans, some x⟩ d) := by
      intro m s
      unfold transform rowNorm
      dsimp only
      rw [if_neg Bool.false_ne_true]
      cases guardStds isZero d.rowStdevs <;> rfl
    show (transform (rowNorm isZero) d ⟨false, m, s⟩).1.configured = false ∧
      (transform (rowNorm isZero) d ⟨false, m, s⟩).2 = (transform (rowNorm isZero) d ⟨false, none, none⟩).2
    rw [h1, h1]
    refine ⟨?_, rfl⟩
    cases guardStds isZero d.rowStdevs <;> rfl

omit [NatCast α] in
/-- **C139** `Log` is a prefilter without memory: it computes with its base and offset. -/
theorem C139_memoryless_log [One α] [HasLog α] [HasExp α] (e : α) (eq le : α → α → Bool) (s : LogState α) :
    Memoryless (log e eq le) s ((log e eq le).doTransform s) := by
  refine ⟨fun t => t.base = s.base ∧ t.offset = s.offset, ⟨rfl, rfl⟩, fun t ht d => ?_⟩
  obtain ⟨c, b, o⟩ := t
  obtain ⟨c', b', o'⟩ := s
  obtain ⟨rfl, rfl⟩ : b = b' ∧ o = o' := ht
  cases c <;> exact ⟨⟨rfl, rfl⟩, rfl⟩

end generic

/-- `Center` stays configured: the hypothesis of `C139_first_spectrum`. -/
theorem sticky_center {α : Type} [Add α] [Sub α] [Zero α] [Div α] [NatCast α] :
    Sticky (center : Trans α (CenterState α) Empty) := by
  intro d s s' h
  injection h with h1 h2
  subst h1
  rfl

theorem center_fresh (A : Matrix (Fin m) (Fin k) ℝ) :
    transform center (of A) center.init =
      (⟨true, some (of (Matrix.of fun (_ : Fin 1) j => mu fun i => A i j))⟩,
        .ok (of (Matrix.of fun i j => A i j - mu fun i => A i j))) := by
  rw [← columnMeans_of]
  refine Prod.ext rfl ?_
  show subByVector (of A) ((of A).columnMeans) = _
  rw [columnMeans_of]
  exact vectorOp_row _ _ _

theorem center_later (A : Matrix (Fin m) (Fin k) ℝ) (v : Matrix (Fin 1) (Fin k) ℝ) :
    transform center (of A) ⟨true, some (of v)⟩ =
      (⟨true, some (of v)⟩, .ok (of (Matrix.of fun i j => A i j - v 0 j))) := by
  refine Prod.ext rfl ?_
  show subByVector (of A) (of v) = _
  exact vectorOp_row _ _ _

/-- A reference spectrum, wave numbers 0 and 2. -/
def preR : Matrix (Fin 2) (Fin 2) ℝ := !![0, 0; 2, 1]
/-- A first spectrum. -/
def preA : Matrix (Fin 2) (Fin 2) ℝ := !![0, 0; 2, 0]
/-- A second spectrum: `10 + 2 · reference`. -/
def preB : Matrix (Fin 2) (Fin 2) ℝ := !![0, 10; 2, 12]

theorem rowsIn_all (r : ℝ × ℝ) (w : Fin 2 → ℝ) (h0 : r.1 ≤ w 0 ∧ w 0 ≤ r.2) (h1 : r.1 ≤ w 1 ∧ w 1 ≤ r.2) :
    rowsIn leR r w = [0, 1] := by
  unfold rowsIn
  rw [List.filter_eq_self.2 fun i _ => ?_]
  · rfl
  · rw [inRange_iff]
    fin_cases i
    · exact h0
    · exact h1

theorem preLine (F : Matrix (Fin 2) (Fin 2) ℝ) (h0 : F 0 0 = -1) (h1 : F 1 0 = 1) :
    mscLine leR preR F (-1, 2) = (F 0 1, F 1 1 - F 0 1) := by
  unfold mscLine
  rw [rowsIn_all _ _ (by rw [h0]; norm_num) (by rw [h1]; norm_num)]
  simp only [List.map_cons, List.map_nil, Utils.linearRegression, Utils.pySum, Utils.sumOfSquares, List.zip_cons_cons,
    List.zip_nil_right, List.foldl_cons, List.foldl_nil, List.length_cons, List.length_nil, preR]
  norm_num
  ring

/-- The two results for `preB`: with a fresh `Center` as prefilter, and with one that has already seen `preA`. -/
theorem pre_results :
    (mscPTransform leR center [(-1, 2)] (of preB) ⟨true, some (of preR), center.init⟩).2 =
      .ok (of !![(0 : ℝ), 11 / 2; 2, 13 / 2]) ∧
    (mscPTransform leR center [(-1, 2)] (of preB)
      (mscPTransform leR center [(-1, 2)] (of preA) ⟨true, some (of preR), center.init⟩).1).2 =
      .ok (of preR) := by
  constructor
  · rw [C139_values leR center _ preR preB _ _ _ (center_fresh preB)]
    refine congrArg Except.ok (mk_congr fun i j => ?_)
    have hl := preLine (Matrix.of fun i j => preB i j - mu fun i => preB i j)
      (by simp [preB, mu, Fin.sum_univ_two]) (by simp [preB, mu, Fin.sum_univ_two]; norm_num)
    have hin : ∀ i, inRange leR ((-1, 2) : ℝ × ℝ) (preB i 0) = true := fun i => by
      rw [inRange_iff]; fin_cases i <;> norm_num [preB]
    fin_cases j
    · fin_cases i <;> simp [preB]
    · simp only [Matrix.of_apply, mscValueP, hin, hl, if_true]
      fin_cases i <;> simp [preB, mu, Fin.sum_univ_two] <;> norm_num
  · rw [C139_values leR center _ preR preA _ _ _ (center_fresh preA)]
    dsimp only
    rw [C139_values leR center _ preR preB _ _ _ (center_later preB _)]
    refine congrArg Except.ok (mk_congr fun i j => ?_)
    simp only [Matrix.of_apply]
    have hl := preLine (Matrix.of fun i j => preB i j - mu fun i => preA i j)
      (by simp [preA, preB, mu, Fin.sum_univ_two]) (by simp [preA, preB, mu, Fin.sum_univ_two]; norm_num)
    have hin : ∀ i, inRange leR ((-1, 2) : ℝ × ℝ) (preB i 0) = true := fun i => by
      rw [inRange_iff]; fin_cases i <;> norm_num [preB]
    fin_cases j
    · fin_cases i <;> simp [preB, preR]
    · simp only [Matrix.of_apply, mscValueP, hin, hl, if_true]
      fin_cases i <;> simp [preA, preB, preR, mu, Fin.sum_univ_two]
      norm_num

/-- **C139 (violation)** With a `Center` prefilter the correction of a spectrum depends on the spectra corrected
before it: the same spectrum, the same reference and the same ranges give two results. -/
theorem C139_order_violation :
    ∃ (R A B : Matrix (Fin 2) (Fin 2) ℝ) (ranges : List (ℝ × ℝ)) (b b' : Except PyErr (Mat ℝ)),
      b ≠ b' ∧
      mscPRun leR center ranges [of B] ⟨true, some (of R), center.init⟩ = [b] ∧
      (mscPRun leR center ranges [of A, of B] ⟨true, some (of R), center.init⟩)[1]? = some b' := by
  refine ⟨preR, preA, preB, [(-1, 2)], _, _, ?_, congrArg (fun x => [x]) pre_results.1,
    congrArg some pre_results.2⟩
  intro h
  have h' := Except.ok.inj h
  have h1 := congrFun (congrFun (of_inj.1 h') 0) 1
  norm_num [preR] at h1

/-- **C139 (violation)** `reset` of the corrector does not reset the prefilter: after correcting `A`, resetting and
configuring on new data, a spectrum is corrected differently than by a new object configured on the same
data. -/
theorem C139_reset_violation :
    ∃ (A B C : Matrix (Fin 2) (Fin 2) ℝ) (R : Mat ℝ) (ranges : List (ℝ × ℝ)) (s : MSCPState ℝ (CenterState ℝ)),
      s = mscPReset (mscPTransform leR center ranges (of A) ⟨true, some R, center.init⟩).1 ∧
      s.configured = false ∧
      (mscPTransform leR center ranges (of C) s).1.average =
        (mscPTransform leR center ranges (of C) ⟨false, none, center.init⟩).1.average ∧
      (mscPRun leR center ranges [of C, of B] s)[1]? ≠
        (mscPRun leR center ranges [of C, of B] ⟨false, none, center.init⟩)[1]? := by
  have hav : mscAverage (of preR) = .ok (of preR) := by
    rw [C34_reference]
    refine congrArg Except.ok (mk_congr fun i j => ?_)
    fin_cases j <;> fin_cases i <;> simp [preR]
  have hA := congrArg Prod.fst (C139_values leR center [(-1, 2)] preR preA _ _ _ (center_fresh preA))
  have h1 : ∀ a t t' (f : Matrix (Fin 2) (Fin 2) ℝ), transform center (of preR) t = (t', .ok (of f)) →
      (mscPTransform leR center [(-1, 2)] (of preR) ⟨false, a, t⟩).1 =
        (⟨true, some (of preR), t'⟩ : MSCPState ℝ (CenterState ℝ)) := by
    intro a t t' f h
    have h2 : mscPTransform leR center [(-1, 2)] (of preR) ⟨false, a, t⟩ =
        mscPTransform leR center [(-1, 2)] (of preR) ⟨true, some (of preR), t⟩ := by
      unfold mscPTransform
      dsimp only
      rw [if_neg Bool.false_ne_true, if_pos rfl, hav]
    rw [h2, C139_values leR center [(-1, 2)] preR preR f t t' h]
  refine ⟨preA, preB, preR, of preR, [(-1, 2)], _, rfl, rfl, ?_, ?_⟩
  · rw [hA]
    show (mscPTransform leR center [(-1, 2)] (of preR) ⟨false, _, _⟩).1.average = _
    rw [h1 _ _ _ _ (center_later preR _), h1 _ _ _ _ (center_fresh preR)]
  · show some _ ≠ some _
    rw [hA]
    show some (mscPTransform leR center _ (of preB)
      (mscPTransform leR center [(-1, 2)] (of preR) ⟨false, _, _⟩).1).2 ≠ _
    rw [h1 _ _ _ _ (center_later preR _), h1 _ _ _ _ (center_fresh preR)]
    have e2 := pre_results.2
    rw [hA] at e2
    rw [e2, C139_values leR center _ preR preB _ _ _ (center_later preB _)]
    intro h
    have h2 := congrFun (congrFun (of_inj.1 (Except.ok.inj (Option.some.inj h))) 0) 1
    simp only [Matrix.of_apply] at h2
    have hl := preLine (Matrix.of fun i j => preB i j - mu fun i => preR i j)
      (by simp [preR, preB, mu, Fin.sum_univ_two]) (by simp [preR, preB, mu, Fin.sum_univ_two]; norm_num)
    have hin : ∀ i, inRange leR ((-1, 2) : ℝ × ℝ) (preB i 0) = true := fun i => by
      rw [inRange_iff]; fin_cases i <;> norm_num [preB]
    simp only [mscValueP, hin, hl, if_true] at h2
    norm_num [preB, preR, mu, Fin.sum_univ_two] at h2

/-- **C139 (violation)** A prefilter which moves the wave numbers (`Center` and `Standardize` treat the wave number
column as any other) leaves a range without samples for the fit; then every amplitude of the range
becomes NaN. -/
theorem C139_no_samples_violation {τ P : Type} (T : Trans (X ℝ) τ P) (t t' : τ) (R : Matrix (Fin m) (Fin 2) (X ℝ))
    (A : Matrix (Fin m) (Fin (k + 2)) (X ℝ)) (F : Matrix (Fin m) (Fin (l + 2)) (X ℝ)) (r : X ℝ × X ℝ)
    (h : transform T (of A) t = (t', .ok (of F))) (hF : ∀ i, inRange leX r (F i 0) = false) :
    ∃ C : Matrix (Fin m) (Fin (k + 2)) (X ℝ),
      (mscPTransform leX T [r] (of A) ⟨true, some (of R), t⟩).2 = .ok (of C) ∧
      ∀ i, inRange leX r (A i 0) = true → C i 1 = .nan := by
  refine ⟨_, congrArg Prod.snd (C139_values leX T [r] R A F t t' h), fun i hi => ?_⟩
  have hrows : rowsIn leX r (fun i => F i 0) = [] := by
    unfold rowsIn
    rw [List.filter_eq_nil_iff]
    intro i _
    rw [hF i]
    exact Bool.false_ne_true
  have hline : mscLine leX R F r = (.nan, .nan) := by
    unfold mscLine
    rw [hrows]
    exact C24_constant_nan 0 []
  simp only [Matrix.of_apply, if_true, mscValueP, hline]
  exact (if_pos hi).trans (X.div_nan _)

/-- **C139 (violation)** A case of the previous theorem: wave numbers 100 and 200, the range from 100 to 200 and a new
`Center` as prefilter.  Both amplitudes become NaN, although the reference is not constant. -/
theorem C139_center_nan_violation :
    ∃ (A : Matrix (Fin 2) (Fin 2) ℝ) (r : X ℝ × X ℝ) (C : Matrix (Fin 2) (Fin 2) (X ℝ)),
      (∀ i, inRange leX r (X.fin (A i 0)) = true) ∧ A 0 1 ≠ A 1 1 ∧
      (mscPTransform leX center [r] (of (X.finMat A)) ⟨true, some (of (X.finMat A)), center.init⟩).2 =
        .ok (of C) ∧ ∀ i, C i 1 = .nan := by
  let A : Matrix (Fin 2) (Fin 2) ℝ := !![100, 0; 200, 1]
  let r : X ℝ × X ℝ := (.fin 100, .fin 200)
  have hin : ∀ i, inRange leX r (X.fin (A i 0)) = true := by
    intro i
    fin_cases i <;> simp [inRange, leX, X.ltb, X.eqb, r, A] <;> norm_num
  have hf : transform center (of (X.finMat A)) center.init =
      (⟨true, some (of (X.finMat A)).columnMeans⟩,
        .ok (of (Matrix.of fun i j => X.finMat A i j - (X.fin (mu fun i => A i j) : X ℝ)))) := by
    refine Prod.ext rfl ?_
    show subByVector (of (X.finMat A)) ((of (X.finMat A)).columnMeans) = _
    rw [X.columnMeans_fin A (by norm_num)]
    exact vectorOp_row _ _ _
  obtain ⟨C, h1, h2⟩ := C139_no_samples_violation center _ _ (X.finMat A) (X.finMat A) _ r hf (by
    intro i
    fin_cases i
    · show inRange leX r (X.fin (A 0 0) - X.fin (mu fun i => A i 0)) = false
      rw [X.fin_sub]
      simp [inRange, leX, X.ltb, X.eqb, r, A, mu, Fin.sum_univ_two]
      norm_num
    · show inRange leX r (X.fin (A 1 0) - X.fin (mu fun i => A i 0)) = false
      rw [X.fin_sub]
      simp [inRange, leX, X.ltb, X.eqb, r, A, mu, Fin.sum_univ_two]
      norm_num)
  exact ⟨A, r, C, hin, by norm_num [A], h1, fun i => h2 i (hin i)⟩

/-- **C139 (violation)** A `SavitzkyGolay` prefilter with a window of more than two points never works on a spectrum
given as wave numbers and amplitudes: it smooths along the rows, which have two entries, and the
correction raises `ValueError`. -/
theorem C139_savitzky_golay_violation (ranges : List (ℝ × ℝ)) (a : Option (Mat ℝ)) (w : Nat)
    (c : Matrix (Fin 1) (Fin (w + 3)) ℝ) (A : Matrix (Fin m) (Fin 2) ℝ) (s : SGState ℝ) (hs : s.configured = true)
    (hc : s.coef = some (of c)) :
    (mscPTransform leR savGol ranges (of A) ⟨true, a, s⟩).2 = .error .valueError := by
  refine congrArg Prod.snd (C139_error leR savGol ranges a (of A) s s .valueError ?_)
  unfold transform
  rw [if_pos (show savGol.configured s = true from hs)]
  refine Prod.ext rfl ?_
  unfold savGol
  dsimp only
  rw [hc]
  exact C32_too_narrow c A (by omega)

end mscpre
end Verif.Props
