import Verif.Core.MatLemmas

/-!
# C02–C06 — element access, row/column writes, selection, transpose, concatenation
-/

namespace Verif.Props
open Verif Verif.Mat

variable {α : Type}

/-- Specification vocabulary: the Python index `i` addresses position `a` of a sequence of
length `n`. -/
def Addresses (n : Nat) (i : Int) (a : Nat) : Prop :=
  a < n ∧ ((0 ≤ i ∧ i = a) ∨ (i < 0 ∧ i + n = a))

theorem pyIndex_addresses {n : Nat} {i : Int} {k : Fin n} (h : pyIndex n i = .ok k) :
    Addresses n i k := ⟨k.2, pyIndex_ok_iff.1 h⟩

theorem addresses_pyIndex {n : Nat} {i : Int} {a : Nat} (h : Addresses n i a) :
    pyIndex n i = .ok ⟨a, h.1⟩ := pyIndex_ok_iff.2 h.2

theorem addresses_exists_iff {n : Nat} {i : Int} :
    (∃ a, Addresses n i a) ↔ -(n : Int) ≤ i ∧ i < n := by
  constructor
  · rintro ⟨a, h1, h2⟩; omega
  · intro h
    by_cases h0 : 0 ≤ i
    · exact ⟨i.toNat, by unfold Addresses; omega⟩
    · exact ⟨(i + n).toNat, by unfold Addresses; omega⟩

/-! ## C02 -/

/-- C02: `get` succeeds exactly for in-range (possibly negative) indices and then returns the
addressed entry; otherwise it raises `IndexError`. -/
theorem C02_get (M : Mat α) (i j : Int) :
    (∀ a b, Addresses M.rows i a → Addresses M.cols j b →
      ∃ x, M.get i j = .ok x ∧ M.entry? a b = some x) ∧
    (¬(∃ a, Addresses M.rows i a) ∨ ¬(∃ b, Addresses M.cols j b) →
      M.get i j = .error .indexError) := by
  constructor
  · intro a b ha hb
    refine ⟨M.data ⟨a, ha.1⟩ ⟨b, hb.1⟩, ?_, entry?_mk M ⟨a, ha.1⟩ ⟨b, hb.1⟩⟩
    simp [Mat.get, addresses_pyIndex ha, addresses_pyIndex hb]
  · intro h
    unfold Mat.get
    rcases pyIndex_total (n := M.rows) i with ⟨r, hr⟩ | hr
    · rw [hr]
      rcases pyIndex_total (n := M.cols) j with ⟨c, hc⟩ | hc
      · rcases h with h | h
        · exact absurd ⟨_, pyIndex_addresses hr⟩ h
        · exact absurd ⟨_, pyIndex_addresses hc⟩ h
      · rw [hc]; rfl
    · rw [hr]; rfl

/-- C02: a successful `set` changes exactly the addressed entry. -/
theorem C02_set (M : Mat α) (i j : Int) (v : α) (a b : Nat)
    (ha : Addresses M.rows i a) (hb : Addresses M.cols j b) :
    ∃ M', M.set i j v = .ok M' ∧ M'.rows = M.rows ∧ M'.cols = M.cols ∧
      M'.get i j = .ok v ∧
      ∀ a' b', M'.entry? a' b' = if a' = a ∧ b' = b then some v else M.entry? a' b' := by
  refine ⟨ofFn fun x y => if x = ⟨a, ha.1⟩ ∧ y = ⟨b, hb.1⟩ then v else M.data x y, ?_, rfl, rfl, ?_, ?_⟩
  · simp [Mat.set, addresses_pyIndex ha, addresses_pyIndex hb]
  · simp [Mat.get, addresses_pyIndex ha, addresses_pyIndex hb]
  · intro a' b'
    unfold entry?
    by_cases h : a' < M.rows ∧ b' < M.cols
    · rw [dif_pos h, dif_pos h]
      by_cases h' : a' = a ∧ b' = b
      · obtain ⟨rfl, rfl⟩ := h'; simp
      · rw [if_neg h']
        simp [h']
    · rw [dif_neg h, dif_neg h, if_neg]
      rintro ⟨rfl, rfl⟩
      exact h ⟨ha.1, hb.1⟩

/-- C02: an out-of-range `set` raises `IndexError` (so the matrix is not changed). -/
theorem C02_set_error (M : Mat α) (i j : Int) (v : α)
    (h : ¬(∃ a, Addresses M.rows i a) ∨ ¬(∃ b, Addresses M.cols j b)) :
    M.set i j v = .error .indexError := by
  unfold Mat.set
  rcases pyIndex_total (n := M.rows) i with ⟨r, hr⟩ | hr
  · rw [hr]
    rcases pyIndex_total (n := M.cols) j with ⟨c, hc⟩ | hc
    · rcases h with h | h
      · exact absurd ⟨_, pyIndex_addresses hr⟩ h
      · exact absurd ⟨_, pyIndex_addresses hc⟩ h
    · rw [hc]; rfl
  · rw [hr]; rfl

/-- C02: the last write to a cell wins. -/
theorem C02_set_set (M : Mat α) (i j : Int) (v w : α) :
    (M.set i j v >>= fun M' => M'.set i j w) = M.set i j w := by
  unfold Mat.set
  rcases pyIndex_total (n := M.rows) i with ⟨r, hr⟩ | hr
  · rcases pyIndex_total (n := M.cols) j with ⟨c, hc⟩ | hc
    · simp only [hr, hc, except_bind_ok, except_pure, ok_inj]
      refine mk_congr fun a b => ?_
      simp only [Matrix.of_apply]
      split <;> rfl
    · simp [hr, hc]
  · simp [hr]

example : Addresses 3 (-1) 2 ∧ Addresses 3 0 0 ∧ ¬ ∃ a, Addresses 3 3 a := by
  refine ⟨by unfold Addresses; omega, by unfold Addresses; omega, ?_⟩
  rw [addresses_exists_iff]; omega

/-! ## C03 -/

/-- The entries of a row or column vector. -/
def IsVec (v : Mat α) (f : Nat → Option α) (len : Nat) : Prop :=
  (v.rows = 1 ∧ v.cols = len ∧ ∀ k, f k = v.entry? 0 k) ∨
  (v.cols = 1 ∧ v.rows = len ∧ ∀ k, f k = v.entry? k 0)

/-- C03: `set_row` overwrites the first `min(len, columns)` entries of the addressed row (vector
orientation is irrelevant) and nothing else. -/
theorem C03_setRow (M v : Mat α) (i : Int) (a : Nat) (ha : Addresses M.rows i a)
    (f : Nat → Option α) (len : Nat) (hv : IsVec v f len) :
    ∃ M', M.setRow i v = .ok M' ∧ M'.rows = M.rows ∧ M'.cols = M.cols ∧
      ∀ x y, M'.entry? x y = if x = a ∧ y < min len M.cols then f y else M.entry? x y := by
  have hvec : v.mustBeVector = .ok () := by
    unfold mustBeVector; rw [if_pos]; rw [isVector_iff]
    rcases hv with h | h
    · exact .inl h.1
    · exact .inr h.1
  have hrow : ∀ k, (if v.isColumnVector = true then v.transpose else v).entry? 0 k = f k ∧
      (if v.isColumnVector = true then v.transpose else v).cols = len := by
    intro k
    by_cases hc : v.isColumnVector = true
    · have hc' := (isColumnVector_iff v).1 hc
      rw [if_pos hc]
      rcases hv with ⟨h1, h2, h3⟩ | ⟨h1, h2, h3⟩
      · constructor
        · rw [h3]
          unfold entry? transpose
          simp only [hc', h1]
          by_cases hk : k < 1
          · have : k = 0 := by omega
            subst this; rfl
          · simp [hk]
        · simp only [transpose]; omega
      · constructor
        · rw [h3]; unfold entry? transpose; simp only [hc', Matrix.of_apply]
          by_cases hk : k < v.rows <;> simp [hk]
        · exact h2
    · rw [if_neg hc]
      have hc' : v.cols ≠ 1 := fun h => hc ((isColumnVector_iff v).2 h)
      rcases hv with ⟨h1, h2, h3⟩ | ⟨h1, _, _⟩
      · exact ⟨(h3 k).symm, h2⟩
      · exact absurd h1 hc'
  refine ⟨ofFn fun x y => if x = ⟨a, ha.1⟩ ∧ y.val < min len M.cols then (f y).getD (M.data x y)
    else M.data x y, ?_, rfl, rfl, fun x y => ?_⟩
  · simp only [setRow, hvec, except_bind_ok, addresses_pyIndex ha, except_pure, ok_inj]
    refine mk_congr fun x y => ?_
    simp only [Matrix.of_apply, (hrow y).1, (hrow y).2]
  unfold entry?
  by_cases h : x < M.rows ∧ y < M.cols
  · rw [dif_pos h, dif_pos h]
    simp only [Matrix.of_apply, Fin.mk.injEq]
    by_cases h' : x = a ∧ y < min len M.cols
    · rw [if_pos h', if_pos h']
      have hy : y < len := by omega
      have : ∃ z, f y = some z := by
        rcases hv with ⟨h1, h2, h3⟩ | ⟨h1, h2, h3⟩
        · rw [h3]; exact ⟨_, entry?_mk v ⟨0, by omega⟩ ⟨y, by omega⟩⟩
        · rw [h3]; exact ⟨_, entry?_mk v ⟨y, by omega⟩ ⟨0, by omega⟩⟩
      obtain ⟨z, hz⟩ := this
      rw [hz]; rfl
    · rw [if_neg h', if_neg h']
  · rw [dif_neg h, dif_neg h, if_neg]
    rintro ⟨rfl, h2⟩
    exact h ⟨ha.1, by omega⟩

/-- C03: `set_row` raises `ValueError` for a non-vector and `IndexError` for a bad row index. -/
theorem C03_setRow_error (M v : Mat α) (i : Int) :
    (v.rows ≠ 1 ∧ v.cols ≠ 1 → M.setRow i v = .error .valueError) ∧
    ((v.rows = 1 ∨ v.cols = 1) → (¬∃ a, Addresses M.rows i a) →
      M.setRow i v = .error .indexError) := by
  constructor
  · rintro ⟨h1, h2⟩
    have : v.isVector = false := by
      rw [← Bool.not_eq_true, isVector_iff]; omega
    simp [setRow, mustBeVector, this]
  · intro hv h
    have hvec : v.mustBeVector = .ok () := by
      unfold mustBeVector; rw [if_pos]; rw [isVector_iff]; exact hv
    rcases pyIndex_total (n := M.rows) i with ⟨r, hr⟩ | hr
    · exact absurd ⟨_, pyIndex_addresses hr⟩ h
    · simp [setRow, hvec, hr]

/-- C03: `set_column`. -/
theorem C03_setColumn (M v : Mat α) (j : Int) (b : Nat) (hb : Addresses M.cols j b)
    (f : Nat → Option α) (len : Nat) (hv : IsVec v f len) :
    ∃ M', M.setColumn j v = .ok M' ∧ M'.rows = M.rows ∧ M'.cols = M.cols ∧
      ∀ x y, M'.entry? x y = if y = b ∧ x < min len M.rows then f x else M.entry? x y := by
  have hvec : v.mustBeVector = .ok () := by
    unfold mustBeVector; rw [if_pos]; rw [isVector_iff]
    rcases hv with h | h
    · exact .inl h.1
    · exact .inr h.1
  have hcol : ∀ k, (if v.isRowVector = true then v.transpose else v).entry? k 0 = f k ∧
      (if v.isRowVector = true then v.transpose else v).rows = len := by
    intro k
    by_cases hc : v.isRowVector = true
    · have hc' := (isRowVector_iff v).1 hc
      rw [if_pos hc]
      rcases hv with ⟨h1, h2, h3⟩ | ⟨h1, h2, h3⟩
      · constructor
        · rw [h3]; unfold entry? transpose; simp only [hc', Matrix.of_apply]
          by_cases hk : k < v.cols <;> simp [hk]
        · exact h2
      · constructor
        · rw [h3]
          unfold entry? transpose
          simp only [hc', h1]
          by_cases hk : k < 1
          · have : k = 0 := by omega
            subst this; rfl
          · simp [hk]
        · simp only [transpose]; omega
    · rw [if_neg hc]
      have hc' : v.rows ≠ 1 := fun h => hc ((isRowVector_iff v).2 h)
      rcases hv with ⟨h1, _, _⟩ | ⟨h1, h2, h3⟩
      · exact absurd h1 hc'
      · exact ⟨(h3 k).symm, h2⟩
  refine ⟨ofFn fun x y => if y = ⟨b, hb.1⟩ ∧ x.val < min len M.rows then (f x).getD (M.data x y)
    else M.data x y, ?_, rfl, rfl, fun x y => ?_⟩
  · simp only [setColumn, hvec, except_bind_ok, addresses_pyIndex hb, except_pure, ok_inj]
    refine mk_congr fun x y => ?_
    simp only [Matrix.of_apply, (hcol x).1, (hcol x).2]
  unfold entry?
  by_cases h : x < M.rows ∧ y < M.cols
  · rw [dif_pos h, dif_pos h]
    simp only [Matrix.of_apply, Fin.mk.injEq]
    by_cases h' : y = b ∧ x < min len M.rows
    · rw [if_pos h', if_pos h']
      have : ∃ z, f x = some z := by
        rcases hv with ⟨h1, h2, h3⟩ | ⟨h1, h2, h3⟩
        · rw [h3]; exact ⟨_, entry?_mk v ⟨0, by omega⟩ ⟨x, by omega⟩⟩
        · rw [h3]; exact ⟨_, entry?_mk v ⟨x, by omega⟩ ⟨0, by omega⟩⟩
      obtain ⟨z, hz⟩ := this
      rw [hz]; rfl
    · rw [if_neg h', if_neg h']
  · rw [dif_neg h, dif_neg h, if_neg]
    rintro ⟨rfl, h2⟩
    exact h ⟨by omega, hb.1⟩

/-- C03: `set_column` raises `ValueError` for a non-vector and `IndexError` for a bad index. -/
theorem C03_setColumn_error (M v : Mat α) (j : Int) :
    (v.rows ≠ 1 ∧ v.cols ≠ 1 → M.setColumn j v = .error .valueError) ∧
    ((v.rows = 1 ∨ v.cols = 1) → (¬∃ b, Addresses M.cols j b) →
      M.setColumn j v = .error .indexError) := by
  constructor
  · rintro ⟨h1, h2⟩
    have : v.isVector = false := by
      rw [← Bool.not_eq_true, isVector_iff]; omega
    simp [setColumn, mustBeVector, this]
  · intro hv h
    have hvec : v.mustBeVector = .ok () := by
      unfold mustBeVector; rw [if_pos]; rw [isVector_iff]; exact hv
    rcases pyIndex_total (n := M.cols) j with ⟨r, hr⟩ | hr
    · exact absurd ⟨_, pyIndex_addresses hr⟩ h
    · simp [setColumn, hvec, hr]

example : IsVec (ofFn fun (_ : Fin 1) (j : Fin 3) => j.val) (fun k => if k < 3 then some k else none) 3 :=
  .inl ⟨rfl, rfl, fun k => by simp [entry?]⟩

end Verif.Props
