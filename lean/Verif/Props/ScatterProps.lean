import Verif.Transf.Scatter
import Verif.Props.UtilsProps
import Verif.Props.TransfProps
import Verif.Core.ListLemmas

/-!
# C34 multiplicative scatter correction, C35 Y-gradient filter
-/

namespace Verif.Props
open Verif Mat Transf Finset

/-! ## C34 -/

section msc
variable {m k : Nat}

section generic
variable {α : Type} [Sub α] [Div α]

theorem mscCorrect_of (le : α → α → Bool) (r : α × α) (a b : α) (is : List (Fin m)) (hn : is.Nodup)
    (A : Matrix (Fin m) (Fin (k + 2)) α) :
    mscCorrect le r a b (is.map fun (i : Fin m) => ((i.1 : Nat) : Int)) (of A) =
      .ok (of (Matrix.of fun i j =>
        if j = 1 ∧ i ∈ is ∧ inRange le r (A i 0) = true then (A i 1 - a) / b else A i j)) := by
  induction is generalizing A with
  | nil =>
    show Except.ok _ = _
    congr 1
    exact mk_congr fun i j => by simp
  | cons i is ih =>
    rw [List.map_cons, mscCorrect]
    have hg : (of A).get ((i : Nat) : Int) 0 = .ok (A i 0) := get_of A i 0
    have hg1 : (of A).get ((i : Nat) : Int) 1 = .ok (A i 1) := get_of A i 1
    rw [hg]
    show (if inRange le r (A i 0) = true then _ else _) = _
    have hni : i ∉ is := (List.nodup_cons.1 hn).1
    have h01 : (0 : Fin (k + 2)) ≠ 1 := by simp
    by_cases hr : inRange le r (A i 0) = true
    · rw [if_pos hr, hg1]
      have hs : (of A).set ((i : Nat) : Int) 1 ((A i 1 - a) / b) = _ := set_of A i 1 _
      show ((of A).set ((i : Nat) : Int) 1 ((A i 1 - a) / b) >>= fun res => _) = _
      rw [hs]
      refine (ih (List.nodup_cons.1 hn).2 _).trans ?_
      congr 1
      refine mk_congr fun x y => ?_
      simp only [Matrix.of_apply, List.mem_cons]
      by_cases hx : x = i
      · subst hx
        by_cases hy : y = 1
        · subst hy; simp [hni, hr]
        · simp [hy]
      · simp [hx]
    · rw [if_neg hr]
      refine (ih (List.nodup_cons.1 hn).2 _).trans ?_
      congr 1
      refine mk_congr fun x y => ?_
      simp only [Matrix.of_apply, List.mem_cons]
      by_cases hx : x = i
      · subst hx; simp [hr]
      · simp [hx]

omit [Sub α] [Div α] in
theorem mscGather_of (le : α → α → Bool) (r : α × α) (is : List (Fin m))
    (R : Matrix (Fin m) (Fin 2) α) (A : Matrix (Fin m) (Fin (k + 2)) α) :
    mscGather le r (of R) (of A) (is.map fun (i : Fin m) => ((i.1 : Nat) : Int)) =
      .ok (((is.filter fun i => inRange le r (A i 0)).map fun i => R i 1),
        ((is.filter fun i => inRange le r (A i 0)).map fun i => A i 1)) := by
  induction is with
  | nil => rfl
  | cons i is ih =>
    rw [List.map_cons, mscGather]
    have hg : (of A).get ((i : Nat) : Int) 0 = .ok (A i 0) := get_of A i 0
    have hg1 : (of A).get ((i : Nat) : Int) 1 = .ok (A i 1) := get_of A i 1
    have hg2 : (of R).get ((i : Nat) : Int) 1 = .ok (R i 1) := get_of R i 1
    rw [hg]
    show (if inRange le r (A i 0) = true then _ else _) = _
    by_cases hr : inRange le r (A i 0) = true
    · rw [if_pos hr, hg1, hg2, ih, List.filter_cons, if_pos hr]; rfl
    · rw [if_neg hr, ih, List.filter_cons, if_neg hr]

end generic

theorem pyRange_finRange (n : Nat) :
    pyRange 0 (n : Int) = (List.finRange n).map fun (i : Fin n) => ((i.1 : Nat) : Int) := by
  rw [pyRange_zero, ← List.map_coe_finRange_eq_range, List.map_map]
  rfl

/-- The rows of a spectrum (wave numbers `w`) within a range. -/
def rowsIn {α : Type} (le : α → α → Bool) (r : α × α) (w : Fin m → α) : List (Fin m) :=
  (List.finRange m).filter fun i => inRange le r (w i)

section typed
variable {α : Type} [Add α] [Sub α] [Mul α] [Div α] [Zero α] [NatCast α]

/-- Intercept and slope used for a range. -/
def mscLine (le : α → α → Bool) (R : Matrix (Fin m) (Fin 2) α) (A : Matrix (Fin m) (Fin (k + 2)) α)
    (r : α × α) : α × α :=
  Utils.linearRegression ((rowsIn le r fun i => A i 0).map fun i => R i 1)
    ((rowsIn le r fun i => A i 0).map fun i => A i 1)

theorem mscRange_of (le : α → α → Bool) (R : Matrix (Fin m) (Fin 2) α)
    (A B : Matrix (Fin m) (Fin (k + 2)) α) (r : α × α) :
    mscRange le (of R) (of A) (of B) r = .ok (of (Matrix.of fun i j =>
      if j = 1 ∧ inRange le r (B i 0) = true then (B i 1 - (mscLine le R A r).1) / (mscLine le R A r).2
      else B i j)) := by
  unfold mscRange
  show (mscGather le r (of R) (of A) (pyRange 0 (m : Int)) >>= _) = _
  have hg : mscGather le r (of R) (of A) (pyRange 0 (m : Int)) = _ :=
    (congrArg _ (pyRange_finRange m)).trans (mscGather_of le r (List.finRange m) R A)
  rw [hg]
  show mscCorrect le r (mscLine le R A r).1 (mscLine le R A r).2 (pyRange 0 (m : Int)) (of B) = _
  rw [pyRange_finRange, mscCorrect_of _ _ _ _ _ (List.nodup_finRange m)]
  congr 1
  exact mk_congr fun i j => by simp

/-- The corrected amplitude of row `i` after the given ranges, in order. -/
def mscValue (le : α → α → Bool) (R : Matrix (Fin m) (Fin 2) α) (A : Matrix (Fin m) (Fin (k + 2)) α)
    (i : Fin m) : List (α × α) → α → α
  | [], v => v
  | r :: rs, v => mscValue le R A i rs
      (if inRange le r (A i 0) = true then (v - (mscLine le R A r).1) / (mscLine le R A r).2 else v)

theorem mscApply_of (le : α → α → Bool) (ranges : List (α × α)) (R : Matrix (Fin m) (Fin 2) α)
    (A : Matrix (Fin m) (Fin (k + 2)) α) :
    mscApply le none ranges (of R) (of A) = .ok (of (Matrix.of fun i j =>
      if j = 1 then mscValue le R A i ranges (A i 1) else A i j)) := by
  have h01 : (0 : Fin (k + 2)) ≠ 1 := by simp
  have key : ∀ (B : Matrix (Fin m) (Fin (k + 2)) α), (∀ i, B i 0 = A i 0) →
      ranges.foldlM (mscRange le (of R) (of A)) (of B) = .ok (of (Matrix.of fun i j =>
        if j = 1 then mscValue le R A i ranges (B i 1) else B i j)) := by
    induction ranges with
    | nil =>
      intro B _
      show Except.ok _ = _
      congr 1
      refine mk_congr fun i j => ?_
      by_cases hj : j = 1
      · subst hj; simp [mscValue]
      · simp [hj]
    | cons r rs ih =>
      intro B hB
      rw [List.foldlM_cons, mscRange_of]
      refine (ih _ fun i => ?_).trans ?_
      · simp [hB]
      · congr 1
        refine mk_congr fun i j => ?_
        by_cases hj : j = 1
        · subst hj; simp [mscValue, hB]
        · simp [hj]
  exact key A fun _ => rfl

end typed

/-- `<=` on exact numbers. -/
noncomputable def leR (a b : ℝ) : Bool := decide (a ≤ b)

theorem inRange_iff (r : ℝ × ℝ) (v : ℝ) : inRange leR r v = true ↔ r.1 ≤ v ∧ v ≤ r.2 := by
  simp [inRange, leR]

/-- **C34** Whatever the reference and the prefilter, a successful correction keeps the shape; every column
other than the amplitudes (column 1), and every amplitude whose wave number lies in no range, is
unchanged. -/
theorem C34_untouched (pre : Option (Mat ℝ → Except PyErr (Mat ℝ))) (ranges : List (ℝ × ℝ))
    (average : Mat ℝ) (A : Matrix (Fin m) (Fin (k + 2)) ℝ) (B : Mat ℝ)
    (h : mscApply leR pre ranges average (of A) = .ok B) :
    ∃ C : Matrix (Fin m) (Fin (k + 2)) ℝ, B = of C ∧ (∀ i j, j ≠ 1 → C i j = A i j) ∧
      ∀ i, (∀ r ∈ ranges, ¬ (r.1 ≤ A i 0 ∧ A i 0 ≤ r.2)) → C i 1 = A i 1 := by
  have key : ∀ (rs : List (ℝ × ℝ)) (filtered : Mat ℝ) (A : Matrix (Fin m) (Fin (k + 2)) ℝ) (B : Mat ℝ),
      rs.foldlM (mscRange leR average filtered) (of A) = .ok B →
      ∃ C : Matrix (Fin m) (Fin (k + 2)) ℝ, B = of C ∧ (∀ i j, j ≠ 1 → C i j = A i j) ∧
        ∀ i, (∀ r ∈ rs, ¬ (r.1 ≤ A i 0 ∧ A i 0 ≤ r.2)) → C i 1 = A i 1 := by
    intro rs filtered
    induction rs with
    | nil =>
      intro A B h
      exact ⟨A, (Except.ok.inj h).symm, fun _ _ _ => rfl, fun _ _ => rfl⟩
    | cons r rs ih =>
      intro A B h
      rw [List.foldlM_cons] at h
      unfold mscRange at h
      cases hg : mscGather leR r average filtered (pyRange 0 average.rows) with
      | error e => rw [hg] at h; cases h
      | ok p =>
        rw [hg] at h
        replace h : (mscCorrect leR r (Utils.linearRegression p.1 p.2).1
          (Utils.linearRegression p.1 p.2).2 (pyRange 0 (m : Int)) (of A) >>= fun res =>
            rs.foldlM (mscRange leR average filtered) res) = .ok B := h
        rw [pyRange_finRange, mscCorrect_of _ _ _ _ _ (List.nodup_finRange m)] at h
        obtain ⟨C, hC, h1, h2⟩ := ih _ _ h
        refine ⟨C, hC, fun i j hj => ?_, fun i hi => ?_⟩
        · rw [h1 i j hj]; simp [hj]
        · rw [h2 i fun s hs => ?_]
          · have := hi r (List.mem_cons_self ..)
            simp [inRange_iff, this]
          · simpa using hi s (List.mem_cons_of_mem _ hs)
  unfold mscApply at h
  cases pre with
  | none => exact key ranges (of A) A B h
  | some f =>
    replace h : (f (of A) >>= fun filtered => ranges.foldlM (mscRange leR average filtered) (of A)) = .ok B := h
    cases hf : f (of A) with
    | error e => rw [hf] at h; cases h
    | ok filtered => rw [hf] at h; exact key ranges filtered A B h

/-- **C34** Without prefilter, and with a reference for the same wave numbers, the correction always succeeds;
the columns other than the amplitudes (column 1), and the amplitudes in no range, are unchanged. -/
theorem C34_total (ranges : List (ℝ × ℝ)) (R : Matrix (Fin m) (Fin 2) ℝ)
    (A : Matrix (Fin m) (Fin (k + 2)) ℝ) :
    ∃ C : Matrix (Fin m) (Fin (k + 2)) ℝ, mscApply leR none ranges (of R) (of A) = .ok (of C) ∧
      (∀ i j, j ≠ 1 → C i j = A i j) ∧
      ∀ i, (∀ r ∈ ranges, ¬ (r.1 ≤ A i 0 ∧ A i 0 ≤ r.2)) → C i 1 = A i 1 := by
  refine ⟨_, mscApply_of leR ranges R A, fun i j hj => by simp [hj], fun i h => ?_⟩
  simp only [Matrix.of_apply, if_true]
  generalize A i 1 = v
  induction ranges generalizing v with
  | nil => rfl
  | cons r rs ih =>
    rw [mscValue, if_neg (fun hr => h r (List.mem_cons_self ..) ((inRange_iff _ _).1 hr))]
    exact ih (fun r hr => h r (List.mem_cons_of_mem _ hr)) v

/-- The samples (reference amplitude, amplitude) of the rows within a range. -/
noncomputable def samples (R : Matrix (Fin m) (Fin 2) ℝ) (A : Matrix (Fin m) (Fin (k + 2)) ℝ) (r : ℝ × ℝ) :
    List (ℝ × ℝ) := (rowsIn leR r fun i => A i 0).map fun i => (R i 1, A i 1)

theorem mscLine_eq (R : Matrix (Fin m) (Fin 2) ℝ) (A : Matrix (Fin m) (Fin (k + 2)) ℝ) (r : ℝ × ℝ) :
    mscLine leR R A r = Utils.linearRegression ((samples R A r).map (·.1)) ((samples R A r).map (·.2)) := by
  unfold mscLine samples
  rw [List.map_map, List.map_map]
  rfl

/-- **C34 (partial)** If the ranges do not overlap (no wave number lies in two of them), then for every
range on which the reference is not constant and the fitted slope is not zero, the corrected
amplitudes regressed on the reference give intercept 0 and slope 1: the line `y = x` satisfies the
normal equations of least squares (hence is the least-squares line).
Missing: overlapping ranges and ranges with a constant reference, see the violations. -/
theorem C34_corrected_partial (ranges : List (ℝ × ℝ)) (R : Matrix (Fin m) (Fin 2) ℝ)
    (A : Matrix (Fin m) (Fin (k + 2)) ℝ)
    (hdis : ranges.Pairwise fun r s => ∀ i, ¬ ((r.1 ≤ A i 0 ∧ A i 0 ≤ r.2) ∧ (s.1 ≤ A i 0 ∧ A i 0 ≤ s.2)))
    (r : ℝ × ℝ) (hr : r ∈ ranges) (hc : NotConstant (samples R A r))
    (hs : (mscLine leR R A r).2 ≠ 0) :
    ∃ C : Matrix (Fin m) (Fin (k + 2)) ℝ, mscApply leR none ranges (of R) (of A) = .ok (of C) ∧
      ((samples R C r).map fun p => p.2 - p.1).sum = 0 ∧
      ((samples R C r).map fun p => (p.2 - p.1) * p.1).sum = 0 := by
  refine ⟨_, mscApply_of leR ranges R A, ?_⟩
  set C : Matrix (Fin m) (Fin (k + 2)) ℝ := Matrix.of fun i j =>
      if j = 1 then mscValue leR R A i ranges (A i 1) else A i j with hCdef
  have hnot : ∀ (rs : List (ℝ × ℝ)) (i : Fin m) (v : ℝ),
      (∀ s ∈ rs, ¬ (s.1 ≤ A i 0 ∧ A i 0 ≤ s.2)) → mscValue leR R A i rs v = v := by
    intro rs i
    induction rs with
    | nil => intro v _; rfl
    | cons s rs ih =>
      intro v h
      rw [mscValue, if_neg (fun hr => h s (List.mem_cons_self ..) ((inRange_iff _ _).1 hr))]
      exact ih v fun s hs => h s (List.mem_cons_of_mem _ hs)
  have hval : ∀ (rs : List (ℝ × ℝ)) (i : Fin m) (v : ℝ), rs.Pairwise (fun r s => ∀ i,
        ¬ ((r.1 ≤ A i 0 ∧ A i 0 ≤ r.2) ∧ (s.1 ≤ A i 0 ∧ A i 0 ≤ s.2))) → r ∈ rs →
      (r.1 ≤ A i 0 ∧ A i 0 ≤ r.2) →
      mscValue leR R A i rs v = (v - (mscLine leR R A r).1) / (mscLine leR R A r).2 := by
    intro rs i
    induction rs with
    | nil => intro v _ h; cases h
    | cons s rs ih =>
      intro v hp hmem hin
      rw [List.pairwise_cons] at hp
      rw [mscValue]
      by_cases hsr : s = r
      · subst hsr
        rw [if_pos ((inRange_iff _ _).2 hin), hnot]
        exact fun t ht h => hp.1 t ht i ⟨hin, h⟩
      · have hmem' : r ∈ rs := by
          rcases List.mem_cons.1 hmem with h | h
          · exact absurd h.symm hsr
          · exact h
        rw [if_neg (fun h => hp.1 r hmem' i ⟨(inRange_iff _ _).1 h, hin⟩)]
        exact ih v hp.2 hmem' hin
  have hC0 : ∀ i, C i 0 = A i 0 := fun i => by
    simp [hCdef]
  have hsam : samples R C r = (rowsIn leR r fun i => A i 0).map fun i =>
      (R i 1, (A i 1 - (mscLine leR R A r).1) / (mscLine leR R A r).2) := by
    unfold samples
    rw [show (fun i => C i 0) = fun i => A i 0 from funext hC0]
    refine List.map_congr_left fun i hi => ?_
    have hin : r.1 ≤ A i 0 ∧ A i 0 ≤ r.2 := (inRange_iff _ _).1 (List.mem_filter.1 hi).2
    have : C i 1 = _ := (by simp only [hCdef, Matrix.of_apply, if_true]; exact hval ranges i _ hdis hr hin)
    rw [this]
  obtain ⟨e1, e2, _⟩ := C24_least_squares (samples R A r) hc
  rw [← mscLine_eq] at e1 e2
  set a := (mscLine leR R A r).1
  set b := (mscLine leR R A r).2
  have hsum : ∀ (l : List (Fin m)) (f : Fin m → ℝ), (l.map fun i => f i / b).sum = (l.map f).sum / b := by
    intro l f
    induction l with
    | nil => simp
    | cons i l ih => rw [List.map_cons, List.map_cons, List.sum_cons, List.sum_cons, ih, add_div]
  constructor
  · rw [hsam, List.map_map]
    have : ((rowsIn leR r fun i => A i 0).map fun i => (A i 1 - a - b * R i 1) / b).sum = 0 := by
      rw [hsum]
      unfold samples at e1
      rw [List.map_map] at e1
      rw [show (((rowsIn leR r fun i => A i 0).map fun i => A i 1 - a - b * R i 1)).sum = 0 from e1, zero_div]
    rw [← this]
    congr 1
    refine List.map_congr_left fun i _ => ?_
    show (A i 1 - a) / b - R i 1 = _
    field_simp
  · rw [hsam, List.map_map]
    have : ((rowsIn leR r fun i => A i 0).map fun i => ((A i 1 - a - b * R i 1) * R i 1) / b).sum = 0 := by
      rw [hsum]
      unfold samples at e2
      rw [List.map_map] at e2
      rw [show (((rowsIn leR r fun i => A i 0).map fun i => (A i 1 - a - b * R i 1) * R i 1)).sum = 0 from e2,
        zero_div]
    rw [← this]
    congr 1
    refine List.map_congr_left fun i _ => ?_
    show ((A i 1 - a) / b - R i 1) * R i 1 = _
    field_simp

/-- **C34** The reference spectrum: wave numbers and the mean of the amplitude columns. -/
theorem C34_reference (A : Matrix (Fin m) (Fin (k + 1)) ℝ) :
    mscAverage (of A) = .ok (of (Matrix.of fun i (j : Fin 2) =>
      if j = 0 then A i 0 else (∑ l : Fin k, A i l.succ) / k)) := by
  unfold mscAverage
  have h0 : (of A).getColumn 0 = .ok (of (Matrix.of fun a (_ : Fin 1) => A a 0)) := getColumn_of A 0
  have h1 : (of A).getSubMatrix (.tuple 0 (m : Int)) (.tuple 1 ((k + 1 : Nat) : Int)) =
      .ok (of (Matrix.of fun i (l : Fin k) => A i l.succ)) := by
    have := getSubMatrix_tuple A 0 m 1 (k + 1) (by omega) le_rfl (by omega) le_rfl
    rw [Int.natCast_zero, Int.natCast_one] at this
    rw [this, ok_inj]
    refine mk_eq rfl (by omega) fun i l => ?_
    simp only [Matrix.of_apply]
    congr 1
    · exact Fin.ext (Nat.zero_add _)
    · exact Fin.ext (Nat.add_comm _ _)
  rw [h0]
  show ((of A).getSubMatrix (.tuple 0 (m : Int)) (.tuple 1 ((k + 1 : Nat) : Int)) >>= _) = _
  rw [h1]
  show concatAlongColumns (of _) (rowMeans (of _)) = _
  rw [rowMeans_of, concatAlongColumns_of, ok_inj]
  refine mk_eq rfl rfl fun i j => ?_
  refine Fin.addCases (fun j => ?_) (fun j => ?_) j
  · have : j = 0 := Subsingleton.elim _ _
    subst this
    rw [Matrix.of_apply, Fin.addCases_left]
    rfl
  · have : j = 0 := Subsingleton.elim _ _
    subst this
    simp only [Matrix.of_apply, Fin.addCases_right]
    rfl

/-- **C34** The inverse transformation is always rejected. -/
theorem C34_no_inverse (le : ℝ → ℝ → Bool) (pre : Option (Mat ℝ → Except PyErr (Mat ℝ)))
    (ranges : List (ℝ × ℝ)) (s : MSCState ℝ) (hs : s.configured = true) (d : Mat ℝ) :
    inverseTransform (msc le pre ranges) d s = (s, .error .notImplemented) := by
  unfold inverseTransform
  rw [if_pos (show (msc le pre ranges).configured s = true from hs)]
  rfl

/-- **C34 (violation)** With overlapping ranges the correction is applied twice, with coefficients of the
uncorrected data: for a spectrum that is exactly twice the reference on two wave numbers, listing the
range twice returns half the reference. -/
theorem C34_overlap_violation :
    ∃ (R A : Matrix (Fin 2) (Fin 2) ℝ) (r : ℝ × ℝ), NotConstant (samples R A r) ∧
      (mscLine leR R A r).2 ≠ 0 ∧
      ∃ C : Matrix (Fin 2) (Fin 2) ℝ, mscApply leR none [r, r] (of R) (of A) = .ok (of C) ∧
        ((samples R C r).map fun p => p.2 - p.1).sum ≠ 0 := by
  let R : Matrix (Fin 2) (Fin 2) ℝ := Matrix.of fun i j => (i : ℝ)
  let A : Matrix (Fin 2) (Fin 2) ℝ := Matrix.of fun i j => if j = 1 then 2 * (i : ℝ) else (i : ℝ)
  let r : ℝ × ℝ := (0, 1)
  have hin : ∀ i : Fin 2, inRange leR r (A i 0) = true := by
    intro i
    rw [inRange_iff]
    fin_cases i <;> simp [A, r]
  have hrows : ∀ w : Fin 2 → ℝ, (∀ i, inRange leR r (w i) = true) → rowsIn leR r w = [0, 1] := by
    intro w hw
    unfold rowsIn
    rw [List.filter_eq_self.2 fun i _ => hw i]
    rfl
  have hsam : samples R A r = [(0, 0), (1, 2)] := by
    unfold samples
    rw [hrows _ hin]
    simp [R, A]
  have hline : mscLine leR R A r = (0, 2) := by
    rw [mscLine_eq, hsam]
    norm_num [Utils.linearRegression, Utils.pySum, Utils.sumOfSquares]
  refine ⟨R, A, r, ?_, ?_, _, mscApply_of leR [r, r] R A, ?_⟩
  · rw [hsam]
    exact ⟨(0, 0), by simp, (1, 2), by simp, by simp⟩
  · rw [hline]; norm_num
  · unfold samples
    rw [hrows _ (fun i => by simpa using hin i)]
    simp only [List.map_cons, List.map_nil, List.sum_cons, List.sum_nil, Matrix.of_apply, if_true,
      mscValue, hin, hline]
    norm_num [R, A]

/-- Float comparison on extended scalars. -/
noncomputable def leX (a b : X ℝ) : Bool := X.ltb a b || X.eqb a b

/-- **C34 (violation)** If the reference is constant on the samples of a range (in particular if only one
wave number falls into it), every amplitude of the range becomes NaN. -/
theorem C34_constant_reference_violation (R : Matrix (Fin m) (Fin 2) ℝ) (A : Matrix (Fin m) (Fin (k + 2)) ℝ)
    (r : X ℝ × X ℝ) (c : ℝ) (hc : ∀ i, inRange leX r (X.fin (A i 0)) = true → R i 1 = c) :
    ∃ C : Matrix (Fin m) (Fin (k + 2)) (X ℝ),
      mscApply leX none [r] (of (X.finMat R)) (of (X.finMat A)) = .ok (of C) ∧
      ∀ i, inRange leX r (X.fin (A i 0)) = true → C i 1 = .nan := by
  refine ⟨_, mscApply_of leX [r] _ _, fun i hi => ?_⟩
  have hline : mscLine leX (X.finMat R) (X.finMat A) r = (.nan, .nan) := by
    unfold mscLine
    rw [← C24_constant_nan c ((rowsIn leX r fun i => X.finMat A i 0).map fun i => A i 1)]
    congr 1
    · rw [List.length_map, ← List.map_const']
      refine List.map_congr_left fun i hi => ?_
      show X.fin (R i 1) = X.fin c
      rw [hc i (List.mem_filter.1 hi).2]
    · rw [List.map_map]; rfl
  simp only [Matrix.of_apply, if_true, mscValue, hline]
  exact (if_pos hi).trans (X.div_nan _)

/-- **C34** The configuration matrix built from spectra with the same number of rows: the wave numbers of the
first spectrum followed by the amplitudes of all spectra.  No spectra at all are rejected. -/
theorem C34_configuration_matrix {α : Type} (n : Nat) (S : Fin (n + 1) → Matrix (Fin m) (Fin (k + 2)) α) :
    mscConfigMatrix (List.ofFn fun l => of (S l)) = .ok (of (Matrix.of fun i (j : Fin (n + 2)) =>
      Fin.cases (S 0 i 0) (fun l => S l i 1) j)) ∧
    mscConfigMatrix ([] : List (Mat α)) = .error .valueError := by
  refine ⟨?_, rfl⟩
  have hm : (List.ofFn fun l => of (S l)).mapM (·.getColumn 1) =
      .ok (List.ofFn fun l => (of (Matrix.of fun a (_ : Fin 1) => S l a 1))) :=
    mapM_ofFn fun l => getColumn_of (S l) 1
  have h0 : (of (S 0)).getColumn 0 = .ok (of (Matrix.of fun a (_ : Fin 1) => S 0 a 0)) := getColumn_of (S 0) 0
  have hc : (List.ofFn fun l => of (S l)) = of (S 0) :: List.ofFn fun l : Fin n => of (S l.succ) :=
    List.ofFn_succ
  rw [hc] at hm ⊢
  rw [mscConfigMatrix, h0, hm]
  show multiConcat 1 (_ :: _) = _
  rw [← multiConcat_cols, List.ofFn_succ (n := n + 1)]
  rfl

/-- **C34** A spectrum with fewer rows than the reference is rejected with an `IndexError`, as soon as there
is a range to correct. -/
theorem C34_short_spectrum {p : Nat} (r : ℝ × ℝ) (rs : List (ℝ × ℝ)) (R : Matrix (Fin (m + (p + 1))) (Fin 2) ℝ)
    (A : Matrix (Fin m) (Fin (k + 2)) ℝ) :
    mscApply leR none (r :: rs) (of R) (of A) = .error .indexError := by
  have hsplit : pyRange 0 ((m + (p + 1) : Nat) : Int) =
      ((List.finRange m).map fun (i : Fin m) => ((i.1 : Nat) : Int)) ++
        (m : Int) :: (List.range p).map fun (i : Nat) => ((m + 1 + i : Nat) : Int) := by
    rw [← pyRange_finRange, pyRange_zero, pyRange_zero, List.range_add, List.map_append, List.map_map,
      List.range_succ_eq_map]
    simp only [List.map_cons, List.map_map]
    congr 2
    refine List.map_congr_left fun i _ => ?_
    simp only [Function.comp]
    omega
  have key : ∀ (is : List (Fin m)) (tl : List Int),
      mscGather leR r (of R) (of A) ((is.map fun (i : Fin m) => ((i.1 : Nat) : Int)) ++ (m : Int) :: tl) =
        .error .indexError := by
    intro is tl
    induction is with
    | nil =>
      rw [List.map_nil, List.nil_append, mscGather]
      have : (of A).get (m : Int) 0 = .error .indexError := by
        have hneg : ¬ ((m : Int) < 0) := by omega
        simp [Mat.get, pyIndex, hneg]
      rw [this]; rfl
    | cons i is ih =>
      rw [List.map_cons, List.cons_append, mscGather]
      have hg : (of A).get ((i : Nat) : Int) 0 = .ok (A i 0) := get_of A i 0
      have hg1 : (of A).get ((i : Nat) : Int) 1 = .ok (A i 1) := get_of A i 1
      have hg2 : (of R).get ((i : Nat) : Int) 1 = .ok (R (Fin.castAdd _ i) 1) :=
        get_of R (Fin.castAdd _ i) 1
      rw [hg]
      show (if inRange leR r (A i 0) = true then _ else _) = _
      by_cases hr : inRange leR r (A i 0) = true
      · rw [if_pos hr, hg1, hg2, ih]; rfl
      · rw [if_neg hr, ih]
  have h1 : mscGather leR r (of R) (of A) (pyRange 0 ((m + (p + 1) : Nat) : Int)) = .error .indexError := by
    rw [hsplit]; exact key _ _
  show ((r :: rs).foldlM (mscRange leR (of R) (of A)) (of A)) = _
  rw [List.foldlM_cons]
  have h2 : mscRange leR (of R) (of A) (of A) r = .error .indexError := by
    unfold mscRange
    show (mscGather leR r (of R) (of A) (pyRange 0 ((m + (p + 1) : Nat) : Int)) >>= _) = _
    rw [h1]; rfl
  rw [h2]; rfl

/-- A concrete case meeting the hypotheses of `C34_corrected_partial`: reference `0, 1`, spectrum `0, 2`. -/
example : ∃ (R A : Matrix (Fin 2) (Fin 2) ℝ) (r : ℝ × ℝ), NotConstant (samples R A r) ∧
    (mscLine leR R A r).2 ≠ 0 :=
  let ⟨R, A, r, h1, h2, _⟩ := C34_overlap_violation
  ⟨R, A, r, h1, h2⟩

end msc

/-! ## C35 -/

section ygrad
variable {m n : Nat}

/-- Row `i + t - 2`, clamped to the first and last row. -/
def edgeIdx (i : Fin (m + 1)) (t : Fin 5) : Fin (m + 1) := ⟨min (i + t - 2) m, by omega⟩

theorem extendMatrix_of {α : Type} (A : Matrix (Fin (m + 1)) (Fin n) α) :
    extendMatrix (of A) = .ok (of (Matrix.of fun (i : Fin (m + 5)) j =>
      A ⟨min (i - 2) m, by omega⟩ j)) := by
  unfold extendMatrix
  have h0 : (of A).getRow 0 = .ok (of (Matrix.of fun (_ : Fin 1) b => A 0 b)) := getRow_of A 0
  have h1 : (of A).getRow ((((m + 1 : Nat) : Int)) - 1) =
      .ok (of (Matrix.of fun (_ : Fin 1) b => A (Fin.last m) b)) := by
    have := getRow_of A (Fin.last m)
    rw [← this]
    congr 1
    simp
  rw [h0]
  show ((of A).getRow ((((m + 1 : Nat) : Int)) - 1) >>= _) = _
  rw [h1]
  show (concatAlongRows (of _) (of _) >>= fun a => concatAlongRows a (of A) >>= fun b =>
    concatAlongRows b (of _) >>= fun c => concatAlongRows c (of _)) = _
  rw [concatAlongRows_of]
  show (concatAlongRows (of _) (of A) >>= fun b =>
    concatAlongRows b (of _) >>= fun c => concatAlongRows c (of _)) = _
  rw [concatAlongRows_of]
  show (concatAlongRows (of _) (of _) >>= fun c => concatAlongRows c (of _)) = _
  rw [concatAlongRows_of]
  show concatAlongRows (of _) (of _) = _
  rw [concatAlongRows_of, ok_inj]
  refine mk_eq (by omega) rfl fun i j => ?_
  simp only [Matrix.of_apply]
  refine Fin.addCases (fun i => ?_) (fun i => ?_) i
  · rw [Fin.addCases_left]
    refine Fin.addCases (fun i => ?_) (fun i => ?_) i
    · rw [Fin.addCases_left]
      refine Fin.addCases (fun i => ?_) (fun i => ?_) i
      · rw [Fin.addCases_left]
        refine Fin.addCases (fun i => ?_) (fun i => ?_) i
        · rw [Fin.addCases_left]
          exact congrArg (A · j) (Fin.ext (by simp))
        · rw [Fin.addCases_right]
          exact congrArg (A · j) (Fin.ext (by simp))
      · rw [Fin.addCases_right]
        refine congrArg (A · j) (Fin.ext ?_)
        simp only [Fin.val_cast, Fin.val_castAdd, Fin.val_natAdd]
        have := i.2
        show i.1 = min (1 + 1 + i.1 - 2) m
        omega
    · rw [Fin.addCases_right]
      refine congrArg (A · j) (Fin.ext ?_)
      simp only [Fin.val_cast, Fin.val_castAdd, Fin.val_natAdd, Fin.val_last]
      omega
  · rw [Fin.addCases_right]
    refine congrArg (A · j) (Fin.ext ?_)
    simp only [Fin.val_cast, Fin.val_natAdd, Fin.val_last]
    omega

/-- The five coefficients as a list. -/
def five {α : Type} (c : Fin 5 → α) : List α := [c 0, c 1, c 2, c 3, c 4]

theorem smoothRow_of (c : Fin 5 → ℝ) (E : Matrix (Fin (m + 5)) (Fin n) ℝ) (i : Fin (m + 1)) :
    smoothRow (five c) (((i : Nat) : Int) + 2) (of E) =
      .ok (of (Matrix.of fun (_ : Fin 1) j => ∑ t : Fin 5, c t * E ⟨i + t, by omega⟩ j)) := by
  unfold smoothRow
  have hz : Factory.zeros (α := ℝ) 1 (of E).cols = .ok (of (0 : Matrix (Fin 1) (Fin n) ℝ)) :=
    Factory.zeros_nat (m := 1) (by decide) n
  rw [hz]
  have hr : ∀ (t : Fin 5), (of E).getRow ((((i : Nat) : Int) + 2) - ((4 - ((t : Nat) : Int)) - 2)) =
      .ok (of (Matrix.of fun (_ : Fin 1) b => E ⟨i + t, by omega⟩ b)) := by
    intro t
    have := getRow_of E ⟨i + t, by have := i.2; have := t.2; omega⟩
    rw [← this]
    congr 1
    push_cast
    ring
  show smoothLoop (five c) _ (of E) [0, 1, 2, 3, 4] (of 0) = _
  have h0 := hr 4
  have h1 := hr 3
  have h2 := hr 2
  have h3 := hr 1
  have h4 := hr 0
  have e0 : ((4 : Int) - (((4 : Fin 5) : Nat) : Int)) = 0 := by decide
  have e1 : ((4 : Int) - (((3 : Fin 5) : Nat) : Int)) = 1 := by decide
  have e2 : ((4 : Int) - (((2 : Fin 5) : Nat) : Int)) = 2 := by decide
  have e3 : ((4 : Int) - (((1 : Fin 5) : Nat) : Int)) = 3 := by decide
  have e4 : ((4 : Int) - (((0 : Fin 5) : Nat) : Int)) = 4 := by decide
  rw [e0] at h0
  rw [e1] at h1
  rw [e2] at h2
  rw [e3] at h3
  rw [e4] at h4
  have i0 : Utils.item (five c) (((five c).length : Int) - 1 - 0) = .ok (c 4) := rfl
  have i1 : Utils.item (five c) (((five c).length : Int) - 1 - 1) = .ok (c 3) := rfl
  have i2 : Utils.item (five c) (((five c).length : Int) - 1 - 2) = .ok (c 2) := rfl
  have i3 : Utils.item (five c) (((five c).length : Int) - 1 - 3) = .ok (c 1) := rfl
  have i4 : Utils.item (five c) (((five c).length : Int) - 1 - 4) = .ok (c 0) := rfl
  simp only [smoothLoop, h0, h1, h2, h3, h4, i0, i1, i2, i3, i4, except_bind_ok, smul_of, add_of]
  rw [ok_inj]
  refine mk_congr fun x j => ?_
  simp only [Matrix.of_apply, Matrix.add_apply, Matrix.smul_apply, Matrix.zero_apply, smul_eq_mul,
    Fin.sum_univ_five]
  ring

theorem rowLoop_of (c : Fin 5 → ℝ) (E : Matrix (Fin (m + 5)) (Fin n) ℝ) (is : List (Fin (m + 1)))
    (B : Matrix (Fin (m + 5)) (Fin n) ℝ) :
    rowLoop (five c) (of E) (is.map fun (i : Fin (m + 1)) => ((i.1 : Nat) : Int) + 2) (of B) =
      .ok (of (Matrix.of fun (x : Fin (m + 5)) j =>
        if h : ∃ i ∈ is, (i : Nat) + 2 = x then
          ∑ t : Fin 5, c t * E ⟨x + t - 2, by obtain ⟨i, _, hi⟩ := h; omega⟩ j else B x j)) := by
  induction is generalizing B with
  | nil =>
    show Except.ok _ = _
    congr 1
    exact mk_congr fun x j => by simp
  | cons i is ih =>
    rw [List.map_cons, rowLoop, smoothRow_of]
    have hs := setRow_of B ⟨i + 2, by omega⟩ (Matrix.of fun (_ : Fin 1) j => ∑ t : Fin 5, c t * E ⟨i + t, by omega⟩ j)
    have hi : (((i : Nat) + 2 : Nat) : Int) = ((i : Nat) : Int) + 2 := by push_cast; rfl
    rw [show ((((⟨i + 2, by omega⟩ : Fin (m + 5)) : Nat)) : Int) = ((i : Nat) : Int) + 2 from hi] at hs
    rw [except_bind_ok, hs, except_bind_ok, ih, ok_inj]
    refine mk_congr fun x j => ?_
    simp only [Matrix.of_apply]
    by_cases h1 : ∃ i ∈ is, (i : Nat) + 2 = x
    · rw [dif_pos h1, dif_pos (let ⟨a, b, d⟩ := h1; ⟨a, List.mem_cons_of_mem _ b, d⟩)]
    · rw [dif_neg h1]
      by_cases h2 : (i : Nat) + 2 = x
      · rw [dif_pos ⟨i, List.mem_cons_self .., h2⟩]
        obtain ⟨x, hx⟩ := x
        replace h2 : (i : Nat) + 2 = x := h2
        subst h2
        refine Eq.trans (congrFun (Matrix.updateRow_self ..) j) ?_
        rw [Matrix.of_apply]
        refine Finset.sum_congr rfl fun t _ => ?_
        congr 2
        exact Fin.ext (by show i.1 + t.1 = i.1 + 2 + t.1 - 2; omega)
      · rw [dif_neg, Matrix.updateRow_ne]
        · exact fun h => h2 (by rw [h])
        · rintro ⟨a, ha, hb⟩
          rcases List.mem_cons.1 ha with h | h
          · exact h2 (h ▸ hb)
          · exact h1 ⟨a, h, hb⟩

/-- **C35** What the filter computes, for every matrix with at least one row and every coefficient vector:
row `i` is `Σ_t coef[t] · row(i + t - 2)`, rows beyond the ends being copies of the first and last
row; the shape is preserved. -/
theorem C35_formula (c : Fin 5 → ℝ) (A : Matrix (Fin (m + 1)) (Fin n) ℝ) :
    ygradApply (five c) (of A) =
      .ok (of (Matrix.of fun i j => ∑ t : Fin 5, c t * A (edgeIdx i t) j)) := by
  unfold ygradApply
  rw [extendMatrix_of]
  set E : Matrix (Fin (m + 5)) (Fin n) ℝ := Matrix.of fun i j => A ⟨min (i - 2) m, by omega⟩ j with hE
  show (Factory.zeros ((m + 5 : Nat) : Int) (n : Int) >>= fun res => _) = _
  rw [Factory.zeros_nat (by omega) n]
  show (rowLoop (five c) (of E) (pyRange 2 (((m + 5 : Nat) : Int) - 2)) (of 0) >>= fun res =>
    res.getSubMatrix (.tuple 2 ((res.rows : Int) - 2)) (.tuple 0 res.cols)) = _
  have hp : pyRange 2 (((m + 5 : Nat) : Int) - 2) =
      (List.finRange (m + 1)).map fun (i : Fin (m + 1)) => ((i.1 : Nat) : Int) + 2 := by
    have := pyRange_finRange (m + 1)
    rw [pyRange_zero] at this
    unfold pyRange
    have e : ((((m + 5 : Nat) : Int) - 2) - 2).toNat = m + 1 := by omega
    rw [e]
    rw [← List.map_coe_finRange_eq_range, List.map_map]
    refine List.map_congr_left fun i _ => ?_
    simp only [Function.comp]
    ring
  rw [hp, rowLoop_of]
  set B : Matrix (Fin (m + 5)) (Fin n) ℝ := Matrix.of fun (x : Fin (m + 5)) j =>
        if h : ∃ i ∈ List.finRange (m + 1), (i : Nat) + 2 = x then
          ∑ t : Fin 5, c t * E ⟨x + t - 2, by obtain ⟨i, _, hi⟩ := h; omega⟩ j else (0 : Matrix _ _ ℝ) x j with hB
  show (of B).getSubMatrix (.tuple 2 (((m + 5 : Nat) : Int) - 2)) (.tuple 0 (n : Int)) = _
  have hs := getSubMatrix_tuple B 2 (m + 3) 0 n (by omega) (by omega) (by omega) le_rfl
  have e : (((m + 5 : Nat) : Int) - 2) = ((m + 3 : Nat) : Int) := by push_cast; ring
  rw [e]
  refine hs.trans ?_
  rw [ok_inj]
  refine mk_eq (by omega) (by omega) fun i j => ?_
  simp only [Matrix.of_apply, hB]
  have hi := i.2
  rw [dif_pos ⟨⟨i, by omega⟩, List.mem_finRange _, by simp [Nat.add_comm]⟩]
  refine Finset.sum_congr rfl fun t _ => ?_
  simp only [hE, Matrix.of_apply, edgeIdx]
  congr 2
  · refine Fin.ext ?_
    show min (2 + i.1 + t.1 - 2 - 2) m = min (i.1 + t.1 - 2) m
    omega
  · exact Fin.ext (Nat.zero_add _)

/-- The shipped coefficients. -/
noncomputable def yCoef : Fin 5 → ℝ := ![2 / 10, 1 / 10, 0, -(1 / 10), -(2 / 10)]

theorem ygradCoef_eq : (ygradCoef : List ℝ) = five yCoef := rfl

/-- **C35** The filter is linear. -/
theorem C35_linear (A B : Matrix (Fin (m + 1)) (Fin n) ℝ) (a b : ℝ) :
    ∃ FA FB : Matrix (Fin (m + 1)) (Fin n) ℝ, ygradApply ygradCoef (of A) = .ok (of FA) ∧
      ygradApply ygradCoef (of B) = .ok (of FB) ∧
      ygradApply ygradCoef (of (a • A + b • B)) = .ok (of (a • FA + b • FB)) := by
  rw [ygradCoef_eq]
  refine ⟨_, _, C35_formula _ A, C35_formula _ B, ?_⟩
  rw [C35_formula, ok_inj]
  refine mk_congr fun i j => ?_
  simp only [Matrix.of_apply, Matrix.add_apply, Matrix.smul_apply, smul_eq_mul, Finset.mul_sum,
    ← Finset.sum_add_distrib]
  exact Finset.sum_congr rfl fun t _ => by ring

/-- **C35** Constant columns become zero, at the edges too. -/
theorem C35_constants (v : Fin n → ℝ) :
    ygradApply ygradCoef (of (Matrix.of fun (_ : Fin (m + 1)) j => v j)) =
      .ok (of (0 : Matrix (Fin (m + 1)) (Fin n) ℝ)) := by
  rw [ygradCoef_eq, C35_formula, ok_inj]
  refine mk_congr fun i j => ?_
  simp only [Matrix.of_apply, Fin.sum_univ_five, yCoef, Matrix.zero_apply]
  simp

/-- **C35** On a linear ramp the interior rows return a constant: **minus** the slope. -/
theorem C35_ramp (v s : Fin n → ℝ) :
    ∃ F : Matrix (Fin (m + 1)) (Fin n) ℝ,
      ygradApply ygradCoef (of (Matrix.of fun (i : Fin (m + 1)) j => v j + s j * (i : ℕ))) = .ok (of F) ∧
      ∀ i : Fin (m + 1), 2 ≤ (i : Nat) → (i : Nat) + 2 ≤ m → ∀ j, F i j = -(s j) := by
  rw [ygradCoef_eq]
  refine ⟨_, C35_formula _ _, fun i h2 hm j => ?_⟩
  obtain ⟨k, hk⟩ : ∃ k, (i : Nat) = k + 2 := ⟨i - 2, by omega⟩
  have e : ∀ t : Fin 5, ((edgeIdx i t : Fin (m + 1)) : Nat) = k + t := by
    intro t
    show min (i.1 + t.1 - 2) m = k + t.1
    omega
  simp only [Matrix.of_apply, Fin.sum_univ_five, yCoef, e]
  push_cast
  simp
  ring

/-- **C35 (violation)** The filter is documented as a gradient, but it has the wrong sign: an increasing ramp
with slope 1 gives -1. -/
theorem C35_gradient_sign_violation : ∃ F : Matrix (Fin 5) (Fin 1) ℝ,
    ygradApply ygradCoef (of (Matrix.of fun (i : Fin 5) (_ : Fin 1) => 0 + 1 * ((i : ℕ) : ℝ))) = .ok (of F) ∧
      F 2 0 = -1 := by
  obtain ⟨F, h1, h2⟩ := C35_ramp (m := 4) (n := 1) (fun _ => 0) (fun _ => 1)
  exact ⟨F, h1, h2 2 (by decide) (by decide) 0⟩

/-- **C35** A matrix without rows is rejected with an `IndexError`, and the inverse with the package's error. -/
theorem C35_rejected (A : Matrix (Fin 0) (Fin n) ℝ) (d : Mat ℝ) (s : Bool) :
    ygradApply ygradCoef (of A) = .error .indexError ∧
      (inverseTransform (ygrad (α := ℝ) ygradCoef) d s).2 = .error .matrixAlgorithms := by
  constructor
  · have : (of A).getRow 0 = .error .indexError := by simp [getRow, pyIndex]
    unfold ygradApply extendMatrix
    rw [this]; rfl
  · cases s <;> rfl

end ygrad
end Verif.Props
