/-!
# Errors and Python indexing

Python exceptions are modelled as values of `PyErr`; a function that may raise returns
`Except PyErr _`.  Only the exception class is kept, not the message.
-/

namespace Verif

/-- The exception classes raised by the modelled code.
`invalidShape`, `invalidAxis`, `matrixAlgorithms` are the package's own classes
(`/repo/src/wai/ma/core/error/*.py`), the others are Python / NumPy built-ins. -/
inductive PyErr where
  | valueError
  | indexError
  | runtimeError
  | typeError
  | attributeError
  | overflowError
  | notImplemented
  | fileNotFound
  | osError
  | zeroDivision
  | recursionError
  | keyError
  | nameError
  | linAlgError
  | invalidShape
  | invalidAxis
  | matrixAlgorithms
  deriving DecidableEq, Repr

/-- Python sequence / NumPy axis indexing: an index `i` addresses position `i` when
`0 ≤ i < n`, position `n + i` when `-n ≤ i < 0`, and raises `IndexError` otherwise.
(Language semantics used by `self.data[row][column]`, `_Matrix.py` 269-274.) -/
def pyIndex (n : Nat) (i : Int) : Except PyErr (Fin n) :=
  if h : 0 ≤ i ∧ i < n then .ok ⟨i.toNat, by omega⟩
  else if h : -n ≤ i ∧ i < 0 then .ok ⟨(i + n).toNat, by omega⟩
  else .error .indexError

/-- `range(start, stop)` for integers (Python built-in). -/
def pyRange (start stop : Int) : List Int :=
  (List.range (stop - start).toNat).map fun (k : Nat) => start + (k : Int)

/-- Number of elements of `range(start, stop, step)` for a non-zero step. -/
def pyRangeLen (start stop step : Int) : Nat :=
  if 0 < step then ((stop - start + step - 1) / step).toNat
  else ((start - stop - step - 1) / (-step)).toNat

/-- `range(start, stop, step)` (Python built-in); step 0 raises `ValueError`. -/
def pyRangeStep (start stop step : Int) : Except PyErr (List Int) :=
  if step = 0 then .error .valueError
  else .ok ((List.range (pyRangeLen start stop step)).map fun (k : Nat) => start + (k : Int) * step)

/-! ## Lemmas about indexing -/

theorem pyIndex_natCast {n : Nat} (k : Nat) (h : k < n) :
    pyIndex n (k : Int) = .ok ⟨k, h⟩ := by
  unfold pyIndex
  rw [dif_pos ⟨by omega, by omega⟩]
  simp

@[simp] theorem pyIndex_fin {n : Nat} (k : Fin n) :
    pyIndex n ((k : Nat) : Int) = .ok k := pyIndex_natCast k.1 k.2

@[simp] theorem pyIndex_zero_one : pyIndex 1 0 = .ok 0 := rfl

theorem pyIndex_neg {n : Nat} (k : Nat) (h : k < n) :
    pyIndex n (-(k + 1 : Nat) : Int) = .ok ⟨n - 1 - k, by omega⟩ := by
  unfold pyIndex
  rw [dif_neg (by omega), dif_pos ⟨by omega, by omega⟩]
  congr 1
  apply Fin.ext
  simp only
  omega

theorem pyIndex_error_iff {n : Nat} {i : Int} :
    pyIndex n i = .error .indexError ↔ i < -n ∨ (n : Int) ≤ i := by
  unfold pyIndex
  by_cases h1 : 0 ≤ i ∧ i < n
  · rw [dif_pos h1]; constructor
    · intro h; cases h
    · omega
  · rw [dif_neg h1]
    by_cases h2 : -n ≤ i ∧ i < 0
    · rw [dif_pos h2]; constructor
      · intro h; cases h
      · omega
    · rw [dif_neg h2]; constructor
      · intro _; omega
      · intro _; rfl

theorem pyIndex_ok_iff {n : Nat} {i : Int} {k : Fin n} :
    pyIndex n i = .ok k ↔ (0 ≤ i ∧ i = k) ∨ (i < 0 ∧ i + n = k) := by
  unfold pyIndex
  by_cases h1 : 0 ≤ i ∧ i < n
  · rw [dif_pos h1]
    constructor
    · intro h
      injection h with h
      left; rw [← h]; constructor
      · exact h1.1
      · simp only; omega
    · intro h
      congr 1; apply Fin.ext; simp only; omega
  · rw [dif_neg h1]
    by_cases h2 : -n ≤ i ∧ i < 0
    · rw [dif_pos h2]
      constructor
      · intro h
        injection h with h
        right; rw [← h]; constructor
        · exact h2.2
        · simp only; omega
      · intro h
        congr 1; apply Fin.ext; simp only; omega
    · rw [dif_neg h2]
      constructor
      · intro h; cases h
      · intro h; have := k.2; omega

theorem pyIndex_total {n : Nat} (i : Int) :
    (∃ k, pyIndex n i = .ok k) ∨ pyIndex n i = .error .indexError := by
  unfold pyIndex
  split
  · exact .inl ⟨_, rfl⟩
  · split
    · exact .inl ⟨_, rfl⟩
    · exact .inr rfl

theorem pyRange_length (a b : Int) : (pyRange a b).length = (b - a).toNat := by
  simp [pyRange]

theorem pyRange_zero (n : Nat) : pyRange 0 n = (List.range n).map fun (k : Nat) => (k : Int) := by
  simp [pyRange]

/-- Helper for `Except` bind reduction. -/
@[simp] theorem except_bind_ok {ε α β : Type _} (a : α) (f : α → Except ε β) :
    (Except.ok a >>= f) = f a := rfl

@[simp] theorem except_bind_error {ε α β : Type _} (e : ε) (f : α → Except ε β) :
    ((Except.error e : Except ε α) >>= f) = .error e := rfl

@[simp] theorem except_pure {ε α : Type _} (a : α) : (pure a : Except ε α) = .ok a := rfl

@[simp] theorem except_throw {ε α : Type _} (e : ε) : (throw e : Except ε α) = .error e := rfl

@[simp] theorem except_map_ok {ε α β : Type _} (f : α → β) (a : α) :
    (f <$> (Except.ok a : Except ε α)) = .ok (f a) := rfl

@[simp] theorem except_map_error {ε α β : Type _} (f : α → β) (e : ε) :
    (f <$> (Except.error e : Except ε α)) = .error e := rfl

end Verif
