import Verif.Transf.Filter
import Verif.Props.MatrixSelect
import Verif.Core.RealInst
import Verif.Core.Decide
import Mathlib.Algebra.Order.Floor.Ring
import Mathlib.Tactic.Linarith
import Mathlib.Tactic.FieldSimp
import Mathlib.Tactic.Positivity

/-!
# Filters (C42-C44)
-/

namespace Verif.Props

open Verif Mat

variable {α : Type}

/-! ## Downsample -/

theorem pyRangeLen_lt {a n s : Int} (hs : 0 < s) (t : Nat) :
    t < pyRangeLen a n s ↔ a + t * s < n := by
  unfold pyRangeLen
  rw [if_pos hs, Int.lt_toNat, Int.lt_iff_add_one_le, Int.le_ediv_iff_mul_le hs]
  constructor
  · intro h; nlinarith
  · intro h; nlinarith

/-- **C42** (columns).  With a positive step and a start not before column `-cols`, `Downsample` keeps
the columns with the Python indices `start, start + step, ...` below the number of columns, in that
order, and all rows.  For a start `>= 0` these are plain column numbers. -/
theorem C42_columns (start step : Int) (hs : 0 < step) (M : Mat α) (h0 : -(M.cols : Int) ≤ start) :
    ∃ R, downsample start step M = .ok R ∧ R.rows = M.rows ∧
      (∀ t : Nat, t < R.cols ↔ start + t * step < M.cols) ∧
      ∀ i t : Nat, ∀ c : Nat, t < R.cols → Addresses M.cols (start + t * step) c →
        R.entry? i t = M.entry? i c := by
  have hlt : ∀ t : Nat, t < pyRangeLen start M.cols step ↔ start + t * step < M.cols :=
    pyRangeLen_lt hs
  let wrap : Int → Nat := fun c => if c < 0 then (c + M.cols).toNat else c.toNat
  have hcols : List.Forall₂ (Addresses M.cols)
      (Sel.positions (.list ((List.range (pyRangeLen start M.cols step)).map
        fun (t : Nat) => start + (t : Int) * step)))
      ((List.range (pyRangeLen start M.cols step)).map fun (t : Nat) => wrap (start + t * step)) := by
    rw [Sel.positions, List.forall₂_map_left_iff, List.forall₂_map_right_iff, List.forall₂_same]
    intro t ht
    have h1 := (hlt t).1 (List.mem_range.1 ht)
    have h2 : 0 ≤ (t : Int) * step := mul_nonneg (by omega) hs.le
    show Addresses M.cols _ (wrap _)
    generalize hc : start + (t : Int) * step = c at *
    show _ ∧ _
    show (if c < 0 then (c + M.cols).toNat else c.toNat) < M.cols ∧ _
    by_cases hneg : c < 0
    · rw [if_pos hneg]
      refine ⟨by omega, Or.inr ⟨hneg, ?_⟩⟩
      show c + (M.cols : Int) = ((if c < 0 then (c + M.cols).toNat else c.toNat : Nat) : Int)
      rw [if_pos hneg]; omega
    · rw [if_neg hneg]
      refine ⟨by omega, Or.inl ⟨by omega, ?_⟩⟩
      show c = ((if c < 0 then (c + M.cols).toNat else c.toNat : Nat) : Int)
      rw [if_neg hneg]; omega
  have hrows : List.Forall₂ (Addresses M.rows) (Sel.positions (.tuple 0 M.rows)) (List.range M.rows) := by
    rw [Sel.positions, pyRange_zero, List.forall₂_map_left_iff, List.forall₂_same]
    intro x hx
    exact ⟨List.mem_range.1 hx, Or.inl ⟨by omega, rfl⟩⟩
  obtain ⟨R, hR, hr, hc, he⟩ := C04_getSubMatrix M (.tuple 0 M.rows) _ _ _ hrows hcols
  rw [List.length_range] at hr
  rw [List.length_map, List.length_range] at hc
  refine ⟨R, ?_, hr, fun t => by rw [hc]; exact hlt t, fun i t c ht ha => ?_⟩
  · unfold downsample pyRangeStep
    rw [if_neg (by omega)]
    exact hR
  · have hw : wrap (start + t * step) = c := by
      obtain ⟨h1, h2 | h2⟩ := ha
      · show (if _ < 0 then _ else _) = _
        rw [if_neg (by omega)]; omega
      · show (if _ < 0 then _ else _) = _
        rw [if_pos h2.1]; omega
    by_cases hi : i < M.rows
    · refine he i t i c (by rw [List.getElem?_range hi]) ?_
      rw [List.getElem?_map, List.getElem?_range (by omega), Option.map_some, hw]
    · unfold entry?
      rw [dif_neg (fun h => hi (hr ▸ h.1)), dif_neg (fun h => hi h.1)]

/-- A column is kept by a non-negative start exactly when it is the start plus a multiple of the step. -/
theorem C42_exactly (start step : Nat) (hs : 0 < step) (M : Mat α) :
    ∃ R, downsample start step M = .ok R ∧ R.rows = M.rows ∧
      (∀ c, (c < M.cols ∧ start ≤ c ∧ step ∣ c - start) ↔ ∃ t, t < R.cols ∧ c = start + t * step) ∧
      ∀ i t, t < R.cols → R.entry? i t = M.entry? i (start + t * step) := by
  obtain ⟨R, h1, h2, h3, h4⟩ := C42_columns (start : Int) (step : Int) (by omega) M (by omega)
  have h3' : ∀ t, t < R.cols ↔ start + t * step < M.cols := by
    intro t
    rw [h3]
    constructor
    · intro h; exact_mod_cast h
    · intro h; exact_mod_cast h
  refine ⟨R, h1, h2, fun c => ?_, fun i t ht => h4 i t _ ht ⟨(h3' t).1 ht, Or.inl ⟨by positivity, by push_cast; rfl⟩⟩⟩
  constructor
  · rintro ⟨hc, hsc, t, ht⟩
    have : c = start + t * step := by rw [mul_comm]; omega
    exact ⟨t, (h3' t).2 (by omega), this⟩
  · rintro ⟨t, ht, rfl⟩
    exact ⟨(h3' t).1 ht, by omega, ⟨t, by rw [mul_comm]; omega⟩⟩

/-- **C42** (step 0).  A zero step raises `ValueError`. -/
theorem C42_zero_step (start : Int) (M : Mat α) : downsample start 0 M = .error .valueError := rfl

/-- **C42** (negative step).  A negative step selects nothing when the start is within the columns, and
raises `IndexError` when it lies beyond them (for data with rows). -/
theorem C42_negative_step (start step : Int) (hs : step < 0) (M : Mat α) :
    (start ≤ M.cols → ∃ R, downsample start step M = .ok R ∧ R.rows = M.rows ∧ R.cols = 0) ∧
      (M.cols < start → 0 < M.rows → downsample start step M = .error .indexError) := by
  have hlen : pyRangeLen start M.cols step = ((start - M.cols - step - 1) / (-step)).toNat := by
    unfold pyRangeLen
    rw [if_neg (by omega)]
  constructor
  · intro h
    have h0 : pyRangeLen start M.cols step = 0 := by
      rw [hlen, Int.toNat_eq_zero]
      apply Int.le_of_lt_add_one
      rw [Int.ediv_lt_iff_lt_mul (by omega)]
      omega
    have hrows : List.Forall₂ (Addresses M.rows) (Sel.positions (.tuple 0 M.rows)) (List.range M.rows) := by
      rw [Sel.positions, pyRange_zero, List.forall₂_map_left_iff, List.forall₂_same]
      intro x hx
      exact ⟨List.mem_range.1 hx, Or.inl ⟨by omega, rfl⟩⟩
    obtain ⟨R, hR, hr, hc, -⟩ := C04_getSubMatrix M (.tuple 0 M.rows) (.list []) _ [] hrows .nil
    refine ⟨R, ?_, by rw [hr, List.length_range], hc⟩
    unfold downsample pyRangeStep
    rw [if_neg (by omega), h0]
    exact hR
  · intro h hm
    unfold downsample pyRangeStep
    rw [if_neg (by omega)]
    have hpos : 0 < pyRangeLen start M.cols step := by
      rw [hlen, Int.lt_toNat]
      have : (1 : Int) ≤ (start - M.cols - step - 1) / (-step) := by
        rw [Int.le_ediv_iff_mul_le (by omega)]; omega
      omega
    have hmem : start ∈ (List.range (pyRangeLen start M.cols step)).map
        fun (k : Nat) => start + (k : Int) * step :=
      List.mem_map.2 ⟨0, List.mem_range.2 hpos, by simp⟩
    refine C04_getSubMatrix_error M (.tuple 0 M.rows) (.list _) ?_ ?_ (Or.inr ⟨start, hmem, ?_⟩)
    · rw [Sel.positions, pyRange_zero]
      intro h'
      have := congrArg List.length h'
      simp at this
      omega
    · exact List.ne_nil_of_mem hmem
    · rintro ⟨a, h1, h2 | h2⟩ <;> omega

/-- **C42** (start too small).  A start before `-cols` raises `IndexError` (data with rows). -/
theorem C42_start_too_small (start step : Int) (hs : 0 < step) (M : Mat α) (hm : 0 < M.rows)
    (h : start < -(M.cols : Int)) : downsample start step M = .error .indexError := by
  unfold downsample pyRangeStep
  rw [if_neg (by omega)]
  have hmem : start ∈ (List.range (pyRangeLen start M.cols step)).map
      fun (k : Nat) => start + (k : Int) * step :=
    List.mem_map.2 ⟨0, List.mem_range.2 ((pyRangeLen_lt hs 0).2 (by push_cast; omega)), by simp⟩
  refine C04_getSubMatrix_error M (.tuple 0 M.rows) (.list _) ?_ ?_ (Or.inr ⟨start, hmem, ?_⟩)
  · rw [Sel.positions, pyRange_zero]
    intro h'
    have := congrArg List.length h'
    simp at this
    omega
  · exact List.ne_nil_of_mem hmem
  · rintro ⟨a, h1, h2 | h2⟩ <;> omega

/-- A negative start repeats columns: `Downsample` from column -1 of a two-column matrix returns its
last column, then the whole matrix. -/
example : downsample (-1) 1 (of !![1, 2; 3, 4] : Mat Int) = .ok (of !![2, 1, 2; 4, 3, 4]) := by
  decide +kernel

/-- Columns 1, 3, 5 of six. -/
example : downsample 1 2 (of !![10, 11, 12, 13, 14, 15] : Mat Int) = .ok (of !![11, 13, 15]) := by
  decide +kernel

/-! ## Equidistance -/

/-- Linear interpolation of the points `(c, f c)` at the position `p`. -/
noncomputable def interp (f : ℤ → ℝ) (p : ℝ) : ℝ :=
  f ⌊p⌋ + (p - ⌊p⌋) * (f (⌊p⌋ + 1) - f ⌊p⌋)

/-- A row extended by zeros to all integers. -/
noncomputable def extRow {n : Nat} (r : Fin n → ℝ) (c : ℤ) : ℝ :=
  if h : 0 ≤ c ∧ c.toNat < n then r ⟨c.toNat, h.2⟩ else 0

theorem extRow_fin {n : Nat} (r : Fin n → ℝ) (c : Fin n) : extRow r (c : Nat) = r c := by
  unfold extRow
  rw [dif_pos ⟨by omega, by simp⟩]
  congr

/-- The position of sample `j` of `k` among `n` columns. -/
noncomputable def samplePos (n k j : Nat) : ℝ := ((n : ℝ) - 1) * j / ((k : ℝ) - 1)

theorem floor_samplePos {n k j : Nat} (hn : 0 < n) (hk : 2 ≤ k) :
    ⌊samplePos n k j⌋ = (((n - 1) * j / (k - 1) : Nat) : Int) ∧
      samplePos n k j - (((n - 1) * j / (k - 1) : Nat) : ℝ) =
        (((n - 1) * j % (k - 1) : Nat) : ℝ) / ((k - 1 : Nat) : ℝ) := by
  have hk' : (0 : ℝ) < ((k - 1 : Nat) : ℝ) := by
    have : 0 < k - 1 := by omega
    exact_mod_cast this
  have e : samplePos n k j = (((n - 1) * j : Nat) : ℝ) / ((k - 1 : Nat) : ℝ) := by
    unfold samplePos
    rw [Nat.cast_mul, Nat.cast_sub (by omega : 1 ≤ n), Nat.cast_sub (by omega : 1 ≤ k)]
    simp
  have e2 : (((n - 1) * j : Nat) : ℝ) = ((k - 1 : Nat) : ℝ) * (((n - 1) * j / (k - 1) : Nat) : ℝ) +
      (((n - 1) * j % (k - 1) : Nat) : ℝ) := by
    exact_mod_cast (Nat.div_add_mod ((n - 1) * j) (k - 1)).symm
  have hlt : (((n - 1) * j % (k - 1) : Nat) : ℝ) < ((k - 1 : Nat) : ℝ) := by
    exact_mod_cast Nat.mod_lt _ (by omega)
  have e3 : samplePos n k j - (((n - 1) * j / (k - 1) : Nat) : ℝ) =
        (((n - 1) * j % (k - 1) : Nat) : ℝ) / ((k - 1 : Nat) : ℝ) := by
    rw [e, e2]
    field_simp
    ring
  refine ⟨?_, e3⟩
  rw [Int.floor_eq_iff]
  push_cast only [Int.cast_natCast]
  have h1 : (0 : ℝ) ≤ (((n - 1) * j % (k - 1) : Nat) : ℝ) / ((k - 1 : Nat) : ℝ) := by positivity
  have h2 : (((n - 1) * j % (k - 1) : Nat) : ℝ) / ((k - 1 : Nat) : ℝ) < 1 := (div_lt_one hk').2 hlt
  constructor <;> linarith

theorem equiColumn_of {m n k : Nat} (hn : 0 < n) (hk : 2 ≤ k) (A : Matrix (Fin m) (Fin n) ℝ) (j : Fin k) :
    equiColumn (k : Int) (of A) ((j : Nat) : Int) =
      .ok (of (Matrix.of fun i (_ : Fin 1) => interp (extRow (A i)) (samplePos n k j))) := by
  obtain ⟨hfl, hfr⟩ := floor_samplePos (j := j) hn hk
  have hx : (((of A).cols : Int) - 1) * ((j : Nat) : Int) = (((n - 1) * j.1 : Nat) : Int) := by
    push_cast [Nat.cast_sub (show 1 ≤ n by omega)]
    rfl
  have hk1 : ((k : Int) - 1) = ((k - 1 : Nat) : Int) := by omega
  have hj : j.1 ≤ k - 1 := by have := j.2; omega
  have hle : (n - 1) * j.1 ≤ (n - 1) * (k - 1) := Nat.mul_le_mul_left _ hj
  have hq : (n - 1) * j.1 / (k - 1) ≤ n - 1 := by
    exact Nat.div_le_of_le_mul (by rw [Nat.mul_comm (k - 1)]; exact hle)
  have key : ∀ i, interp (extRow (A i)) (samplePos n k j) =
      extRow (A i) (((n - 1) * j.1 / (k - 1) : Nat) : Int) +
        (((n - 1) * j.1 % (k - 1) : Nat) : ℝ) / ((k - 1 : Nat) : ℝ) *
          (extRow (A i) ((((n - 1) * j.1 / (k - 1) : Nat) : Int) + 1) -
            extRow (A i) (((n - 1) * j.1 / (k - 1) : Nat) : Int)) := by
    intro i
    rw [← hfr]
    unfold interp
    rw [hfl]
    push_cast only [Int.cast_natCast]
  have hqn : (n - 1) * j.1 / (k - 1) < n := by omega
  have hcol : (of A).getColumn (((n - 1) * j.1 / (k - 1) : Nat) : Int) =
      .ok (of (Matrix.of fun i (_ : Fin 1) => A i ⟨(n - 1) * j.1 / (k - 1), hqn⟩)) :=
    getColumn_of A ⟨_, hqn⟩
  have hext : ∀ i, extRow (A i) (((n - 1) * j.1 / (k - 1) : Nat) : Int) =
      A i ⟨(n - 1) * j.1 / (k - 1), hqn⟩ := fun i => extRow_fin (A i) ⟨_, hqn⟩
  unfold equiColumn
  simp only []
  rw [hx, hk1, ← Int.natCast_div, ← Int.natCast_mod]
  by_cases hr : (n - 1) * j.1 % (k - 1) = 0
  · rw [if_pos (by exact_mod_cast hr), hcol]
    congr 1
    refine mk_congr fun i l => ?_
    simp only [Matrix.of_apply]
    rw [key, hext, hr]
    simp
  · rw [if_neg (by exact_mod_cast hr)]
    have hq1 : (n - 1) * j.1 / (k - 1) + 1 < n := by
      have h1 := Nat.div_add_mod ((n - 1) * j.1) (k - 1)
      by_contra h2
      have h3 : (n - 1) * j.1 / (k - 1) = n - 1 := by omega
      rw [h3, Nat.mul_comm] at h1
      omega
    have hcol1 : (of A).getColumn ((((n - 1) * j.1 / (k - 1) : Nat) : Int) + 1) =
        .ok (of (Matrix.of fun i (_ : Fin 1) => A i ⟨(n - 1) * j.1 / (k - 1) + 1, hq1⟩)) := by
      have := getColumn_of A ⟨_, hq1⟩
      push_cast at this ⊢
      exact this
    have hext1 : ∀ i, extRow (A i) ((((n - 1) * j.1 / (k - 1) : Nat) : Int) + 1) =
        A i ⟨(n - 1) * j.1 / (k - 1) + 1, hq1⟩ := fun i => by
      have := extRow_fin (A i) ⟨_, hq1⟩
      push_cast at this ⊢
      exact this
    rw [hcol, hcol1]
    show (Mat.add _ _) = _
    rw [smul_of, smul_of, add_of]
    congr 1
    refine mk_congr fun i l => ?_
    show (1 - _ / _) * A i _ + _ / _ * A i _ = _
    rw [Matrix.of_apply, key, hext, hext1]
    push_cast only [Int.cast_natCast]
    ring

theorem equiLoop_of {m n k : Nat} (hn : 0 < n) (hk : 2 ≤ k) (A : Matrix (Fin m) (Fin n) ℝ)
    (js : List (Fin k)) (R : Matrix (Fin m) (Fin k) ℝ) :
    equiLoop (k : Int) (of A) (js.map fun (j : Fin k) => ((j.1 : Nat) : Int)) (of R) =
      .ok (of (Matrix.of fun i j =>
        if j ∈ js then interp (extRow (A i)) (samplePos n k j) else R i j)) := by
  induction js generalizing R with
  | nil =>
    show Except.ok _ = _
    congr 1
  | cons j js ih =>
    rw [List.map_cons, equiLoop, equiColumn_of hn hk]
    show ((of R).setColumn _ _ >>= fun R => equiLoop _ _ _ R) = _
    rw [setColumn_of]
    show equiLoop _ _ _ (of _) = _
    rw [ih]
    congr 1
    refine mk_congr fun i l => ?_
    simp only [Matrix.of_apply, List.mem_cons]
    by_cases h1 : l ∈ js
    · simp [h1]
    · by_cases h2 : l = j
      · subst h2; simp [h1]
      · simp [h1, h2]

/-- **C43** (interpolation).  Every row is resampled at `k` equidistant positions, from its first to its
last column, by linear interpolation. -/
theorem C43_interpolation {m n k : Nat} (hm : 0 < m) (hn : 0 < n) (hk : 2 ≤ k)
    (A : Matrix (Fin m) (Fin n) ℝ) :
    equidistance (k : Int) (of A) =
      .ok (of (Matrix.of fun i (j : Fin k) => interp (extRow (A i)) (samplePos n k j))) := by
  unfold equidistance
  rw [show (of A).rows = m from rfl, Factory.zeros_nat hm, pyRange_finRange']
  refine (equiLoop_of hn hk A (List.finRange k) _).trans ?_
  congr 1
  refine mk_congr fun i j => ?_
  simp only [Matrix.of_apply]
  exact if_pos (List.mem_finRange j)

theorem interp_int (f : ℤ → ℝ) (c : ℤ) : interp f c = f c := by
  unfold interp
  rw [Int.floor_intCast]
  ring

theorem samplePos_last {n k : Nat} (hn : 0 < n) (hk : 2 ≤ k) :
    samplePos n k (k - 1) = ((n - 1 : Nat) : ℤ) := by
  unfold samplePos
  have : ((k : ℝ) - 1) ≠ 0 := by
    have : (2 : ℝ) ≤ k := by exact_mod_cast hk
    linarith
  rw [Nat.cast_sub (by omega : 1 ≤ k)]
  push_cast [Nat.cast_sub (show 1 ≤ n by omega)]
  field_simp

/-- **C43** (end points).  The first and last column are preserved. -/
theorem C43_endpoints {m n k : Nat} (hm : 0 < m) (hk : 2 ≤ k) (A : Matrix (Fin m) (Fin (n + 1)) ℝ) :
    ∃ R : Matrix (Fin m) (Fin k) ℝ, equidistance (k : Int) (of A) = .ok (of R) ∧
      (∀ i, R i ⟨0, by omega⟩ = A i 0) ∧ ∀ i, R i ⟨k - 1, by omega⟩ = A i (Fin.last n) := by
  refine ⟨_, C43_interpolation hm (by omega) hk A, fun i => ?_, fun i => ?_⟩
  · rw [Matrix.of_apply]
    have : samplePos (n + 1) k 0 = ((0 : ℤ) : ℝ) := by simp [samplePos]
    rw [this, interp_int]
    exact extRow_fin (A i) 0
  · rw [Matrix.of_apply]
    show interp _ (samplePos (n + 1) k (k - 1)) = _
    rw [samplePos_last (by omega) hk, interp_int]
    exact extRow_fin (A i) (Fin.last n)

/-- **C43** (identity).  Resampling to the present number of columns changes nothing. -/
theorem C43_identity {m n : Nat} (hm : 0 < m) (hn : 2 ≤ n) (A : Matrix (Fin m) (Fin n) ℝ) :
    equidistance (n : Int) (of A) = .ok (of A) := by
  rw [C43_interpolation hm (by omega) hn]
  congr 1
  refine mk_congr fun i j => ?_
  rw [Matrix.of_apply]
  have : samplePos n n j = ((j : Nat) : ℤ) := by
    unfold samplePos
    have : ((n : ℝ) - 1) ≠ 0 := by
      have : (2 : ℝ) ≤ n := by exact_mod_cast hn
      linarith
    field_simp
    simp
  rw [this, interp_int, extRow_fin]

/-- **C43** (between neighbours).  Every sample lies between two adjacent columns of its row (or equals
one column). -/
theorem C43_between {m n k : Nat} (hm : 0 < m) (hk : 2 ≤ k) (A : Matrix (Fin m) (Fin (n + 1)) ℝ) :
    ∃ R : Matrix (Fin m) (Fin k) ℝ, equidistance (k : Int) (of A) = .ok (of R) ∧
      ∀ j : Fin k, ∃ c d : Fin (n + 1), c ≤ d ∧ d.1 ≤ c.1 + 1 ∧ (c : ℝ) ≤ samplePos (n + 1) k j ∧
        samplePos (n + 1) k j ≤ (d : ℝ) ∧
        ∀ i, min (A i c) (A i d) ≤ R i j ∧ R i j ≤ max (A i c) (A i d) := by
  refine ⟨_, C43_interpolation hm (by omega) hk A, fun j => ?_⟩
  obtain ⟨hfl, hfr⟩ := floor_samplePos (n := n + 1) (j := j) (by omega) hk
  rw [Nat.add_sub_cancel] at hfl hfr
  have hj : j.1 ≤ k - 1 := by have := j.2; omega
  have hle : n * j.1 ≤ n * (k - 1) := Nat.mul_le_mul_left _ hj
  have hq : n * j.1 / (k - 1) ≤ n := by
    exact Nat.div_le_of_le_mul (by rw [Nat.mul_comm (k - 1)]; exact hle)
  have hk' : (0 : ℝ) < ((k - 1 : Nat) : ℝ) := by
    have : 0 < k - 1 := by omega
    exact_mod_cast this
  have hlt : ((n * j.1 % (k - 1) : Nat) : ℝ) < ((k - 1 : Nat) : ℝ) := by
    exact_mod_cast Nat.mod_lt _ (by omega)
  have h0 : (0 : ℝ) ≤ ((n * j.1 % (k - 1) : Nat) : ℝ) / ((k - 1 : Nat) : ℝ) := by positivity
  have h1 : ((n * j.1 % (k - 1) : Nat) : ℝ) / ((k - 1 : Nat) : ℝ) < 1 := (div_lt_one hk').2 hlt
  by_cases hr : n * j.1 % (k - 1) = 0
  · have hp : samplePos (n + 1) k j = ((n * j.1 / (k - 1) : Nat) : ℤ) := by
      rw [hr] at hfr
      simp only [Nat.cast_zero, zero_div] at hfr
      push_cast only [Int.cast_natCast]
      linarith
    refine ⟨⟨_, by omega⟩, ⟨n * j.1 / (k - 1), by omega⟩, le_rfl, by simp, ?_, ?_, fun i => ?_⟩
    · rw [hp, Int.cast_natCast]
    · rw [hp, Int.cast_natCast]
    · rw [Matrix.of_apply, hp, interp_int, min_self, max_self]
      have := extRow_fin (A i) ⟨n * j.1 / (k - 1), by omega⟩
      exact ⟨this.ge, this.le⟩
  · have hq1 : n * j.1 / (k - 1) + 1 < n + 1 := by
      have h1 := Nat.div_add_mod (n * j.1) (k - 1)
      by_contra h2
      have h3 : n * j.1 / (k - 1) = n := by omega
      rw [h3, Nat.mul_comm] at h1
      omega
    refine ⟨⟨n * j.1 / (k - 1), by omega⟩, ⟨n * j.1 / (k - 1) + 1, hq1⟩, ?_, le_rfl, ?_, ?_, fun i => ?_⟩
    · exact Fin.mk_le_mk.2 (by omega)
    · show ((n * j.1 / (k - 1) : Nat) : ℝ) ≤ _
      linarith
    · show _ ≤ ((n * j.1 / (k - 1) + 1 : Nat) : ℝ)
      push_cast only [Nat.cast_add, Nat.cast_one]
      linarith
    · rw [Matrix.of_apply]
      unfold interp
      rw [hfl]
      have e0 := extRow_fin (A i) ⟨n * j.1 / (k - 1), by omega⟩
      have e1 := extRow_fin (A i) ⟨n * j.1 / (k - 1) + 1, hq1⟩
      push_cast only [Nat.cast_add, Nat.cast_one] at e0 e1
      rw [e0, e1]
      push_cast only [Int.cast_natCast]
      rw [hfr]
      generalize ((n * j.1 % (k - 1) : Nat) : ℝ) / ((k - 1 : Nat) : ℝ) = t at *
      generalize A i ⟨n * j.1 / (k - 1), _⟩ = a at *
      generalize A i ⟨n * j.1 / (k - 1) + 1, hq1⟩ = b at *
      rcases le_total a b with hab | hab
      · rw [min_eq_left hab, max_eq_right hab]
        constructor <;> nlinarith
      · rw [min_eq_right hab, max_eq_left hab]
        constructor <;> nlinarith

/-- **C43** (linear data).  Rows that are linear in the column number stay linear, with the step
rescaled. -/
theorem C43_linear {m n k : Nat} (hm : 0 < m) (hk : 2 ≤ k) (a b : Fin m → ℝ) :
    equidistance (k : Int) (of (Matrix.of fun i (c : Fin (n + 1)) => a i + b i * (c : ℕ))) =
      .ok (of (Matrix.of fun i (j : Fin k) => a i + b i * ((n : ℝ) / ((k : ℝ) - 1)) * (j : ℕ))) := by
  set A : Matrix (Fin m) (Fin (n + 1)) ℝ := Matrix.of fun i (c : Fin (n + 1)) => a i + b i * (c : ℕ) with hA
  rw [C43_interpolation hm (by omega) hk]
  congr 1
  refine mk_congr fun i j => ?_
  rw [Matrix.of_apply, Matrix.of_apply]
  obtain ⟨hfl, hfr⟩ := floor_samplePos (n := n + 1) (j := j) (by omega) hk
  rw [Nat.add_sub_cancel] at hfl hfr
  have hj : j.1 ≤ k - 1 := by have := j.2; omega
  have hle : n * j.1 ≤ n * (k - 1) := Nat.mul_le_mul_left _ hj
  have hq : n * j.1 / (k - 1) ≤ n := by
    exact Nat.div_le_of_le_mul (by rw [Nat.mul_comm (k - 1)]; exact hle)
  have hpos : samplePos (n + 1) k j = (n : ℝ) / ((k : ℝ) - 1) * (j : ℕ) := by
    unfold samplePos
    push_cast
    ring
  by_cases hr : n * j.1 % (k - 1) = 0
  · have hp : samplePos (n + 1) k j = ((n * j.1 / (k - 1) : Nat) : ℤ) := by
      rw [hr] at hfr
      simp only [Nat.cast_zero, zero_div] at hfr
      push_cast only [Int.cast_natCast]
      linarith
    rw [hp, interp_int]
    have e0 := extRow_fin (A i) ⟨n * j.1 / (k - 1), by omega⟩
    refine e0.trans ?_
    rw [hA, Matrix.of_apply]
    push_cast only [Int.cast_natCast] at hp
    show a i + b i * ((n * j.1 / (k - 1) : Nat) : ℝ) = _
    rw [← hp, hpos]
    ring
  · have hq1 : n * j.1 / (k - 1) + 1 < n + 1 := by
      have h1 := Nat.div_add_mod (n * j.1) (k - 1)
      by_contra h2
      have h3 : n * j.1 / (k - 1) = n := by omega
      rw [h3, Nat.mul_comm] at h1
      omega
    unfold interp
    rw [hfl]
    have e0 := extRow_fin (A i) ⟨n * j.1 / (k - 1), by omega⟩
    have e1 := extRow_fin (A i) ⟨n * j.1 / (k - 1) + 1, hq1⟩
    push_cast only [Nat.cast_add, Nat.cast_one] at e0 e1
    rw [e0, e1, hA, Matrix.of_apply, Matrix.of_apply]
    show (a i + b i * ((n * j.1 / (k - 1) : Nat) : ℝ)) + (samplePos (n + 1) k j - _) *
      ((a i + b i * ((n * j.1 / (k - 1) + 1 : Nat) : ℝ)) - (a i + b i * ((n * j.1 / (k - 1) : Nat) : ℝ))) = _
    push_cast only [Int.cast_natCast, Nat.cast_add, Nat.cast_one]
    rw [hpos]
    ring

/-- **C43** (rejected values).  Fewer than two samples are refused and the old value is kept; every
other value is stored. -/
theorem C43_validation (old value : Int) :
    (value < 2 → setNumSamples old value = .error .valueError) ∧
      (2 ≤ value → setNumSamples old value = .ok value) := by
  unfold setNumSamples
  constructor
  · intro h; rw [if_pos h]
  · intro h; rw [if_neg (by omega)]

/-- **C43** (no columns).  A matrix with rows but without columns is refused. -/
theorem C43_no_columns {m k : Nat} (hm : 0 < m) (hk : 2 ≤ k) (A : Matrix (Fin m) (Fin 0) ℝ) :
    equidistance (k : Int) (of A) = .error .indexError := by
  unfold equidistance
  rw [show (of A).rows = m from rfl, Factory.zeros_nat hm]
  obtain ⟨k, rfl⟩ : ∃ k', k = k' + 2 := ⟨k - 2, by omega⟩
  rw [pyRange_finRange', List.finRange_succ, List.map_cons]
  show equiLoop _ _ (_ :: _) _ = _
  rw [equiLoop]
  have : equiColumn ((k + 2 : Nat) : Int) (of A) (((0 : Fin (k + 2)).1 : Nat) : Int) =
      .error .indexError := by
    unfold equiColumn
    simp only [Fin.val_zero, Nat.cast_zero, mul_zero, Int.zero_emod, if_true, Int.zero_ediv]
    rfl
  rw [this]
  rfl

/-- Three columns resampled to five: the middle values are averages. -/
example : equidistance 5 (of !![0, 2, 8] : Mat ℚ) = .ok (of !![0, 1, 2, 5, 8]) := by
  decide +kernel

/-! ## MultiFilter -/

/-- **C44** (empty).  No filters: the data unchanged. -/
theorem C44_empty (M : Mat α) : multiFilter [] M = .ok M := rfl

/-- **C44** (composition).  Filtering by a concatenation of lists is filtering by the first and then by
the second. -/
theorem C44_append (fs gs : List (Mat α → Except PyErr (Mat α))) (M : Mat α) :
    multiFilter (fs ++ gs) M = (do let R ← multiFilter fs M; multiFilter gs R) := by
  induction fs generalizing M with
  | nil => rfl
  | cons f fs ih =>
    rw [List.cons_append, multiFilter, multiFilter]
    cases f M with
    | error e => rfl
    | ok R => exact ih R

/-- **C44** (order).  A result is returned exactly when there is a chain of intermediate results, each
filter applied to the output of the one before it. -/
theorem C44_order (fs : List (Mat α → Except PyErr (Mat α))) (M R : Mat α) :
    multiFilter fs M = .ok R ↔
      ∃ Ms : List (Mat α), Ms.length = fs.length + 1 ∧ Ms[0]? = some M ∧ Ms[fs.length]? = some R ∧
        ∀ i f, fs[i]? = some f → ∃ A B, Ms[i]? = some A ∧ Ms[i + 1]? = some B ∧ f A = .ok B := by
  induction fs generalizing M with
  | nil =>
    rw [multiFilter, ok_inj]
    constructor
    · rintro rfl
      exact ⟨[M], rfl, rfl, rfl, fun i f h => by simp at h⟩
    · rintro ⟨Ms, -, h1, h2, -⟩
      rw [List.length_nil, h1] at h2
      exact Option.some.inj h2
  | cons f fs ih =>
    rw [multiFilter]
    constructor
    · intro h
      cases hf : f M with
      | error e => rw [hf] at h; cases h
      | ok A =>
        rw [hf] at h
        obtain ⟨Ms, h1, h2, h3, h4⟩ := (ih A).1 h
        refine ⟨M :: Ms, by simp [h1], rfl, by simpa using h3, ?_⟩
        intro i g hg
        cases i with
        | zero =>
          simp only [List.getElem?_cons_zero, Option.some.injEq] at hg
          subst hg
          exact ⟨M, A, rfl, by simpa using h2, hf⟩
        | succ i =>
          rw [List.getElem?_cons_succ] at hg
          obtain ⟨B, C, h5, h6, h7⟩ := h4 i g hg
          exact ⟨B, C, by simpa using h5, by simpa using h6, h7⟩
    · rintro ⟨Ms, h1, h2, h3, h4⟩
      cases Ms with
      | nil => simp at h1
      | cons M' Ms =>
        simp only [List.getElem?_cons_zero, Option.some.injEq] at h2
        subst h2
        obtain ⟨A, B, h5, h6, h7⟩ := h4 0 f rfl
        simp only [List.getElem?_cons_zero, Option.some.injEq] at h5
        subst h5
        rw [h7]
        refine (ih B).2 ⟨Ms, by simpa using h1, by simpa using h6, by simpa using h3, fun i g hg => ?_⟩
        obtain ⟨C, D, h8, h9, h10⟩ := h4 (i + 1) g (by simpa using hg)
        exact ⟨C, D, by simpa using h8, by simpa using h9, h10⟩

/-- **C44** (errors).  The first filter that fails determines the error; later filters are not used. -/
theorem C44_first_error (fs gs : List (Mat α → Except PyErr (Mat α)))
    (f : Mat α → Except PyErr (Mat α)) (M A : Mat α) (e : PyErr) (h1 : multiFilter fs M = .ok A)
    (h2 : f A = .error e) : multiFilter (fs ++ f :: gs) M = .error e := by
  rw [C44_append, h1]
  show multiFilter (f :: gs) A = _
  rw [multiFilter, h2]
  rfl

/-- Every second column, then resampling to three. -/
example : multiFilter [downsample 0 2, equidistance 3] (of !![0, 9, 4] : Mat ℚ) =
    .ok (of !![0, 2, 4]) := by
  decide +kernel

end Verif.Props
