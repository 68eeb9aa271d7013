import Verif.Core.FactoryLemmas

/-!
# C01 — factory functions build exactly the matrix they describe
-/

namespace Verif.Props
open Verif Verif.Mat Verif.Factory

variable {α : Type}

/-- C01, `zeros`: for every positive number of rows the result is the zero matrix. -/
theorem C01_zeros_partial [Zero α] (m n : Nat) (hm : 0 < m) :
    zeros (α := α) m n = .ok (of (0 : Matrix (Fin m) (Fin n) α)) := zeros_nat hm n

/-- C01, `zeros` with the default column count is square. -/
theorem C01_zeros_square [Zero α] (m : Nat) (hm : 0 < m) :
    zeros (α := α) m = .ok (of (0 : Matrix (Fin m) (Fin m) α)) := by
  have := zeros_nat (α := α) hm m
  unfold zeros defaultColumns at *
  simp only [if_true]
  rw [if_neg (by omega)] at this
  exact this

/-- C01 is violated by `zeros(0, c)`: the result has one row and no columns. -/
theorem C01_zeros_no_rows_violation [Zero α] (c : Nat) :
    ∃ M, zeros (α := α) 0 c = .ok M ∧ M.rows = 1 ∧ M.cols = 0 :=
  ⟨_, rfl, rfl, rfl⟩

/-- C01, `eye`: for all natural shapes. -/
theorem C01_eye [Zero α] [One α] (m n : Nat) :
    eye (α := α) m n = .ok (ofFn fun (i : Fin m) (j : Fin n) => if i.val = j.val then 1 else 0) := by
  have : defaultColumns (m : Int) (n : Int) = n := by unfold defaultColumns; split <;> omega
  unfold eye
  simp only [this]
  rw [if_neg (by omega), ok_inj]
  exact mk_eq (by simp) (by simp [this]) (fun _ _ => rfl)

/-- C01, square `eye` is the identity matrix of linear algebra. -/
theorem C01_eye_square [Zero α] [One α] (n : Nat) :
    eye (α := α) n = .ok (of (1 : Matrix (Fin n) (Fin n) α)) := by
  unfold eye defaultColumns
  simp only [if_true]
  rw [if_neg (by omega), ok_inj]
  refine mk_eq (by simp) (by simp) (fun i j => ?_)
  simp [Matrix.one_apply, Fin.ext_iff]

/-- C01, `eye` rejects negative dimensions (other than the column default `-1`). -/
theorem C01_eye_negative [Zero α] [One α] (r c : Int) (h : r < 0 ∨ c < -1) :
    eye (α := α) r c = .error .valueError := by
  unfold eye defaultColumns
  simp only
  rw [if_pos]
  split <;> omega

/-- C01, `filled`. -/
theorem C01_filled (m n : Nat) (v : α) :
    filled m n v = .ok (ofFn fun (_ : Fin m) (_ : Fin n) => v) := by
  unfold filled
  rw [if_neg (by omega), ok_inj]
  exact mk_eq (by simp) (by simp) (fun _ _ => rfl)

/-- C01, `filled` rejects negative dimensions. -/
theorem C01_filled_negative (r c : Int) (v : α) (h : r < 0 ∨ c < 0) :
    filled r c v = .error .valueError := by
  unfold filled; rw [if_pos h]

/-- C01, `filled_like`, `eye_like` copy the shape, whatever it is. -/
theorem C01_like [Zero α] [One α] (M : Mat α) (v : α) :
    filledLike M v = .ok (ofFn fun (_ : Fin M.rows) (_ : Fin M.cols) => v) ∧
    eyeLike M = .ok (ofFn fun (i : Fin M.rows) (j : Fin M.cols) => if i.val = j.val then 1 else 0) :=
  ⟨C01_filled _ _ _, C01_eye _ _⟩

/-- C01, `from_row`: one row holding the list. -/
theorem C01_fromRow (l : List α) :
    fromRow l = .ok (ofFn fun (_ : Fin 1) (j : Fin l.length) => l.get j) := by
  unfold fromRow
  rw [create_eq [l] l.length (by simp) (by simp), ok_inj]
  refine mk_eq rfl rfl fun i j => ?_
  have : i = 0 := Subsingleton.elim (α := Fin 1) i 0
  subst this
  rfl

/-- C01, `from_column`: one column holding the (non-empty) list. -/
theorem C01_fromColumn_partial (l : List α) (hl : l ≠ []) :
    fromColumn l = .ok (ofFn fun (i : Fin l.length) (_ : Fin 1) => l.get i) := by
  unfold fromColumn
  rw [create_eq _ 1 (by simpa using hl) (by simp), ok_inj]
  refine mk_eq (by simp) rfl fun i j => ?_
  have : j = 0 := Subsingleton.elim (α := Fin 1) j 0
  subst this
  simp

/-- C01 is violated by `from_column([])`: a 1×0 matrix instead of 0×1. -/
theorem C01_fromColumn_empty_violation :
    ∃ M, fromColumn ([] : List α) = .ok M ∧ M.rows = 1 ∧ M.cols = 0 := ⟨_, rfl, rfl, rfl⟩

/-- C01, `create` accepts exactly the rectangular lists of lists and keeps every entry. -/
theorem C01_create (data : List (List α)) (hne : data ≠ []) :
    (∀ M, create data = .ok M → M.rows = data.length ∧
        (∀ x ∈ data, x.length = M.cols) ∧
        ∀ (i j : Nat) (l : List α), data[i]? = some l → M.entry? i j = l[j]?) ∧
    (create data = .error .valueError ↔ ∃ x ∈ data, ∃ y ∈ data, x.length ≠ y.length) := by
  by_cases h : ∃ x ∈ data, ∃ y ∈ data, x.length ≠ y.length
  · obtain ⟨x, hx, y, hy, hxy⟩ := h
    have he := create_ragged data hx hy hxy
    refine ⟨fun M hM => ?_, fun _ => ⟨x, hx, y, hy, hxy⟩, fun _ => he⟩
    rw [he] at hM; cases hM
  · push Not at h
    obtain ⟨r, hr⟩ := List.exists_mem_of_ne_nil data hne
    have hall : ∀ x ∈ data, x.length = r.length := fun x hx => h x hx r hr
    have hc := create_eq data r.length hne hall
    refine ⟨fun M hM => ?_, fun he => ?_, fun ⟨x, hx, y, hy, hxy⟩ => absurd (h x hx y hy) hxy⟩
    · rw [hc, ok_inj] at hM
      subst hM
      refine ⟨rfl, hall, fun i j l hl => ?_⟩
      obtain ⟨hi, hl⟩ := List.getElem?_eq_some_iff.1 hl
      have hlen : l.length = r.length := hall l (hl ▸ List.getElem_mem hi)
      subst hl
      unfold entry?
      by_cases hj : j < r.length
      · rw [dif_pos ⟨hi, hj⟩]
        simp [hlen, hj]
      · rw [dif_neg (by simp; omega)]
        rw [eq_comm, List.getElem?_eq_none_iff]
        omega
    · rw [hc] at he; cases he

/-- C01, `create` restores any matrix (with at least one row) from its list of rows. -/
theorem C01_create_toRaw_partial (M : Mat α) (h : 0 < M.rows) :
    create M.toRawCopy2D = .ok M := create_ofFn h M.data

/-- C01, `range`: the arithmetic sequence, row by row. -/
theorem C01_range_partial [IntCast α] (m n : Nat) (start : Int) (hm : 0 < m) (hn : 0 < n) :
    Factory.range (α := α) m n start =
      .ok (ofFn fun (i : Fin m) (j : Fin n) => ((start + i * n + j : Int) : α)) := by
  have hlen : pyRangeLen start (start + m * n) n = m := by
    unfold pyRangeLen
    rw [if_pos (by omega)]
    have : start + (m : Int) * n - start + n - 1 = (n - 1) + (m : Int) * n := by ring
    rw [this, Int.add_mul_ediv_right _ _ (by omega), Int.ediv_eq_zero_of_lt (by omega) (by omega)]
    omega
  unfold Factory.range
  unfold pyRangeStep
  rw [if_neg (by omega), hlen]
  simp only [except_bind_ok, List.map_map]
  rw [create_eq _ n]
  · rw [ok_inj]
    refine mk_eq (by simp) rfl fun i j => ?_
    simp only [Matrix.of_apply, List.get_eq_getElem, List.getElem_map, Function.comp, pyRange,
      List.getElem_range, Fin.val_cast]
    rfl
  · intro h
    have : (List.map ((fun s => List.map (Int.cast : Int → α) (pyRange s (s + ↑n))) ∘
      fun k : Nat => start + (k : Int) * (n : Int)) (List.range m)).length = 0 := by rw [h]; rfl
    simp at this
    omega
  · intro x hx
    simp only [List.mem_map] at hx
    obtain ⟨k, _, rfl⟩ := hx
    simp [pyRange]

/-- C01 is violated by `range` with no columns (an exception) and with no rows (1×0). -/
theorem C01_range_empty_violation [IntCast α] (m n : Nat) (start : Int) (hn : 0 < n) :
    Factory.range (α := α) m 0 start = .error .valueError ∧
    ∃ M, Factory.range (α := α) 0 n start = .ok M ∧ M.rows = 1 ∧ M.cols = 0 := by
  refine ⟨by simp [Factory.range, pyRangeStep], ?_⟩
  refine ⟨⟨1, 0, Matrix.of fun _ j => j.elim0⟩, ?_, rfl, rfl⟩
  unfold Factory.range pyRangeStep pyRangeLen
  rw [if_neg (by omega), if_pos (by omega)]
  have : (start + 0 * (n : Int) - start + n - 1) / n = 0 := by
    rw [Int.ediv_eq_zero_of_lt] <;> omega
  rw [this]
  rfl

/-- C01, `diag`: a diagonal matrix holding the vector's first column. -/
theorem C01_diag_partial [Zero α] {n k : Nat} (hn : 0 < n) (v : Matrix (Fin n) (Fin (k + 1)) α) :
    Factory.diag (of v) = .ok (ofFn fun i j : Fin n => if i = j then v i 0 else 0) := by
  unfold Factory.diag
  simp only [zeros_nat hn, except_bind_ok]
  have key : ∀ (l : List Nat) (hl : ∀ x ∈ l, x < n) (A : Matrix (Fin n) (Fin n) α),
      diagLoop (of v) (l.map fun k : Nat => (k : Int)) (of A) =
        .ok (ofFn fun i j : Fin n => if i = j ∧ i.val ∈ l then v i 0 else A i j) := by
    intro l
    induction l with
    | nil => intro _ A; simp [diagLoop]; rfl
    | cons a l ih =>
      intro hl A
      have ha : a < n := hl a (by simp)
      have hget : (of v).get (a : Int) 0 = .ok (v ⟨a, ha⟩ 0) := get_of v ⟨a, ha⟩ 0
      have hset := set_of A ⟨a, ha⟩ ⟨a, ha⟩ (v ⟨a, ha⟩ 0)
      simp only [List.map_cons, diagLoop, hget, except_bind_ok]
      simp only [] at hset
      rw [hset, except_bind_ok, ih (fun x hx => hl x (by simp [hx]))]
      rw [ok_inj]
      refine mk_congr fun i j => ?_
      simp only [List.mem_cons]
      by_cases hij : i = j
      · subst hij
        by_cases hia : i = ⟨a, ha⟩
        · subst hia; simp
        · have : i.val ≠ a := fun h => hia (Fin.ext h)
          simp [hia, this]
      · simp only [hij, false_and, if_false, Matrix.of_apply]
        rw [if_neg]
        rintro ⟨rfl, rfl⟩; exact hij rfl
  rw [pyRange_zero, key _ (fun x hx => List.mem_range.1 hx)]
  rw [ok_inj]
  refine mk_congr fun i j => ?_
  simp [List.mem_range]

/-- C01, `create_spectrum`: two columns; lists of unequal length are rejected. -/
theorem C01_createSpectrum (w a : List α) (hw : w ≠ []) :
    (∀ h : w.length = a.length, createSpectrum w a = .ok (ofFn fun (i : Fin w.length) (j : Fin 2) =>
      if j = 0 then w.get i else a.get (i.cast h))) ∧
    (w.length ≠ a.length → createSpectrum w a = .error .valueError) := by
  constructor
  · intro h
    unfold createSpectrum
    rw [if_neg (by simpa using h)]
    have hz : (List.zipWith (fun w a => [w, a]) w a).length = w.length := by simp [h]
    rw [create_eq _ 2]
    · rw [ok_inj]
      refine mk_eq hz rfl fun i j => ?_
      have hj : (j : Fin 2) = 0 ∨ (j : Fin 2) = 1 := by
        have := j.2
        rcases j with ⟨_ | _ | j, hj⟩
        · exact .inl rfl
        · exact .inr rfl
        · omega
      rcases hj with rfl | rfl <;> simp
    · intro hnil
      rw [hnil] at hz
      exact hw (List.length_eq_zero_iff.1 hz.symm)
    · intro x hx
      obtain ⟨i, hi, rfl⟩ := List.getElem_of_mem hx
      simp
  · intro h
    unfold createSpectrum
    rw [if_pos h]

/-! ### The hypotheses are satisfiable by non-trivial inputs -/

example : zeros (α := Int) 2 3 = .ok (of (0 : Matrix (Fin 2) (Fin 3) Int)) := C01_zeros_partial 2 3 (by omega)
example : ∃ M, Factory.range (α := Int) 2 3 5 = .ok M ∧ M.entry? 1 2 = some 10 :=
  ⟨_, C01_range_partial 2 3 5 (by omega) (by omega), rfl⟩
example : ∃ M, create [[1, 2], [3, 4], [5, 6]] = .ok M ∧ M.rows = 3 ∧ M.entry? 2 1 = some 6 :=
  ⟨_, rfl, rfl, rfl⟩

end Verif.Props
