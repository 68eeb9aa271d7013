import Verif.Core.SelLemmas
import Verif.Props.MatrixAccess

/-!
# C04–C06 — selection, transpose / copies, concatenation
-/

namespace Verif.Props
open Verif Verif.Mat

variable {α : Type}

/-! ## C04 -/

/-- C04: a selection of valid positions returns exactly the entries at those positions, in
order (repeats, negatives and empty selections included). -/
theorem C04_getSubMatrix (M : Mat α) (rows cols : Sel) (rs cs : List Nat)
    (hr : List.Forall₂ (Addresses M.rows) rows.positions rs)
    (hc : List.Forall₂ (Addresses M.cols) cols.positions cs) :
    ∃ M', M.getSubMatrix rows cols = .ok M' ∧ M'.rows = rs.length ∧ M'.cols = cs.length ∧
      ∀ i j a b, rs[i]? = some a → cs[j]? = some b → M'.entry? i j = M.entry? a b := by
  have key : ∀ (n : Nat) (is : List Int) (as : List Nat), List.Forall₂ (Addresses n) is as →
      ∃ ks, resolve n is = .ok ks ∧ ks.map Fin.val = as := by
    intro n is as h
    induction h with
    | nil => exact ⟨[], rfl, rfl⟩
    | cons h1 _ ih =>
      obtain ⟨ks, hks, hm⟩ := ih
      refine ⟨⟨_, h1.1⟩ :: ks, ?_, by simp [hm]⟩
      rw [resolve_cons, addresses_pyIndex h1, hks]; rfl
  obtain ⟨kr, hkr, hmr⟩ := key _ _ _ hr
  obtain ⟨kc, hkc, hmc⟩ := key _ _ _ hc
  refine ⟨⟨kr.length, kc.length, Matrix.of fun i j => M.data (kr.get i) (kc.get j)⟩, ?_, ?_, ?_, ?_⟩
  · simp [getSubMatrix, hkr, hkc]
  · simp [← hmr]
  · simp [← hmc]
  · intro i j a b ha hb
    rw [← hmr, List.getElem?_map, Option.map_eq_some_iff] at ha
    rw [← hmc, List.getElem?_map, Option.map_eq_some_iff] at hb
    obtain ⟨a', ha', rfl⟩ := ha
    obtain ⟨b', hb', rfl⟩ := hb
    obtain ⟨hi, ha'⟩ := List.getElem?_eq_some_iff.1 ha'
    obtain ⟨hj, hb'⟩ := List.getElem?_eq_some_iff.1 hb'
    rw [entry?_mk]
    unfold entry?
    rw [dif_pos ⟨hi, hj⟩]
    simp [ha', hb']

/-- C04: a non-empty selection with an invalid position raises `IndexError`. -/
theorem C04_getSubMatrix_error (M : Mat α) (rows cols : Sel)
    (_hr : rows.positions ≠ []) (_hc : cols.positions ≠ [])
    (h : (∃ i ∈ rows.positions, ¬∃ a, Addresses M.rows i a) ∨
         (∃ j ∈ cols.positions, ¬∃ b, Addresses M.cols j b)) :
    M.getSubMatrix rows cols = .error .indexError := by
  have key : ∀ (n : Nat) (is : List Int), (∃ i ∈ is, ¬∃ a, Addresses n i a) →
      resolve n is = .error .indexError := by
    rintro n is ⟨i, hi, ha⟩
    refine resolve_error hi ?_
    rcases pyIndex_total (n := n) i with ⟨k, hk⟩ | hk
    · exact absurd ⟨_, pyIndex_addresses hk⟩ ha
    · exact hk
  unfold getSubMatrix
  rcases h with h | h
  · rw [key _ _ h]; rfl
  · rcases resolve_total (n := M.rows) rows.positions with ⟨ks, hks⟩ | he
    · rw [hks, key _ _ h]; rfl
    · rw [he]; rfl

/-- C04: `get_row` and `get_column` return the addressed row / column. -/
theorem C04_getRow_getColumn (M : Mat α) (i : Int) (a : Nat) :
    (Addresses M.rows i a → ∃ R, M.getRow i = .ok R ∧ R.rows = 1 ∧ R.cols = M.cols ∧
      ∀ j, R.entry? 0 j = M.entry? a j) ∧
    (Addresses M.cols i a → ∃ C, M.getColumn i = .ok C ∧ C.rows = M.rows ∧ C.cols = 1 ∧
      ∀ j, C.entry? j 0 = M.entry? j a) ∧
    ((¬∃ a, Addresses M.rows i a) → M.getRow i = .error .indexError) ∧
    ((¬∃ a, Addresses M.cols i a) → M.getColumn i = .error .indexError) := by
  refine ⟨fun h => ?_, fun h => ?_, fun h => ?_, fun h => ?_⟩
  · refine ⟨⟨1, M.cols, Matrix.of fun _ b => M.data ⟨a, h.1⟩ b⟩,
      by simp only [getRow, addresses_pyIndex h, except_bind_ok, except_pure],
      rfl, rfl, fun j => ?_⟩
    unfold entry?
    by_cases hj : j < M.cols
    · simp [hj, h.1]
    · simp [hj]
  · refine ⟨⟨M.rows, 1, Matrix.of fun b _ => M.data b ⟨a, h.1⟩⟩,
      by simp only [getColumn, addresses_pyIndex h, except_bind_ok, except_pure],
      rfl, rfl, fun j => ?_⟩
    unfold entry?
    by_cases hj : j < M.rows
    · simp [hj, h.1]
    · simp [hj]
  · rcases pyIndex_total (n := M.rows) i with ⟨k, hk⟩ | hk
    · exact absurd ⟨_, pyIndex_addresses hk⟩ h
    · simp [getRow, hk]
  · rcases pyIndex_total (n := M.cols) i with ⟨k, hk⟩ | hk
    · exact absurd ⟨_, pyIndex_addresses hk⟩ h
    · simp [getColumn, hk]

/-- C04: selecting all rows (or all columns) is the identity. -/
theorem C04_select_all (M : Mat α) :
    M.getRows (.tuple 0 M.rows) = .ok M ∧ M.getColumns (.tuple 0 M.cols) = .ok M := by
  constructor
  · have := getSubMatrix_rows M.data 0 M.rows (by omega) le_rfl
    rw [Int.natCast_zero] at this
    rw [show M = of M.data from rfl, this, ok_inj]
    refine mk_eq rfl rfl fun i j => ?_
    simp only [Matrix.of_apply]
    congr 1
    exact Fin.ext (Nat.zero_add _)
  · have := getColumns_tuple M.data 0 M.cols (by omega) le_rfl
    rw [Int.natCast_zero] at this
    rw [show M = of M.data from rfl, this, ok_inj]
    refine mk_eq rfl rfl fun i j => ?_
    simp only [Matrix.of_apply]
    congr 1
    exact Fin.ext (Nat.zero_add _)

/-- C04: `delete_cols` keeps, in order, exactly the columns whose index is not listed (negative
entries delete nothing). -/
theorem C04_deleteCols (M : Mat α) (del : List Int) :
    ∃ M', M.deleteCols del = .ok M' ∧ M'.rows = M.rows ∧
      M'.cols = ((List.range M.cols).filter fun (c : Nat) => (c : Int) ∉ del).length ∧
      ∀ i j c, ((List.range M.cols).filter fun (c : Nat) => (c : Int) ∉ del)[j]? = some c → i < M.rows →
        M'.entry? i j = M.entry? i c := by
  have h1 : List.Forall₂ (Addresses M.rows) (Sel.positions (.tuple 0 M.rows)) (List.range M.rows) := by
    rw [Sel.positions, pyRange_zero, List.forall₂_map_left_iff, List.forall₂_same]
    intro x hx
    have := List.mem_range.1 hx
    exact ⟨this, .inl ⟨by omega, rfl⟩⟩
  have h2 : List.Forall₂ (Addresses M.cols)
      (Sel.positions (.list ((pyRange 0 M.cols).filter fun c => c ∉ del)))
      ((List.range M.cols).filter fun (c : Nat) => (c : Int) ∉ del) := by
    rw [Sel.positions, pyRange_zero, List.filter_map, List.forall₂_map_left_iff]
    refine List.forall₂_same.2 ?_
    intro x hx
    have := List.mem_range.1 (List.mem_filter.1 hx).1
    exact ⟨this, .inl ⟨by omega, rfl⟩⟩
  obtain ⟨M', h, hr, hc, he⟩ := C04_getSubMatrix M _ _ _ _ h1 h2
  refine ⟨M', h, by simpa using hr, hc, fun i j c hj hi => ?_⟩
  exact he i j i c (by simp [hi]) hj

example : List.Forall₂ (Addresses 3) [0, -1, 1, 1] [0, 2, 1, 1] := by
  refine .cons ⟨by omega, .inl (by omega)⟩ (.cons ⟨by omega, .inr (by omega)⟩
    (.cons ⟨by omega, .inl (by omega)⟩ (.cons ⟨by omega, .inl (by omega)⟩ .nil)))

/-! ## C05 -/

/-- C05: transposition swaps coordinates and is an involution. -/
theorem C05_transpose (M : Mat α) :
    M.transpose.transpose = M ∧ M.transpose.rows = M.cols ∧ M.transpose.cols = M.rows ∧
    ∀ i j, M.transpose.entry? i j = M.entry? j i := by
  refine ⟨rfl, rfl, rfl, fun i j => ?_⟩
  unfold entry? transpose
  by_cases h : i < M.cols ∧ j < M.rows
  · rw [dif_pos h, dif_pos ⟨h.2, h.1⟩]; rfl
  · rw [dif_neg h, dif_neg (fun h' => h ⟨h'.2, h'.1⟩)]

/-- C05: `(A·B)ᵀ = Bᵀ·Aᵀ`, including agreement on which products are rejected. -/
theorem C05_transpose_mul {R : Type} [CommSemiring R] (M N : Mat R) :
    (M.mul N).map Mat.transpose = N.transpose.mul M.transpose := by
  by_cases h : M.cols = N.rows
  · obtain ⟨m, n, A⟩ := M
    obtain ⟨n', p, B⟩ := N
    dsimp at h
    subst h
    rw [mul_of, transpose_of, transpose_of, mul_of]
    show Except.ok (of (A * B)).transpose = _
    rw [transpose_of, Matrix.transpose_mul]
  · rw [mul_error h, mul_error (M := N.transpose) (N := M.transpose) (fun h' => h h'.symm)]; rfl

/-- C05: `copy` is equal to its source. -/
theorem C05_copy (M : Mat α) : M.copy = M := rfl

/-- C05: `to_raw_copy_2D` lists the rows, `to_raw_copy_1D` lists the columns one after another. -/
theorem C05_raw_copies (M : Mat α) :
    M.toRawCopy2D.length = M.rows ∧
    (∀ i j l, M.toRawCopy2D[i]? = some l → l.length = M.cols ∧ l[j]? = M.entry? i j) ∧
    M.toRawCopy1D.length = M.cols * M.rows ∧
    ∀ i j, i < M.rows → j < M.cols → M.toRawCopy1D[j * M.rows + i]? = M.entry? i j := by
  refine ⟨by simp [toRawCopy2D], ?_, ?_, ?_⟩
  · intro i j l hl
    unfold toRawCopy2D at hl
    obtain ⟨hi, rfl⟩ := List.getElem?_eq_some_iff.1 hl
    simp only [List.length_ofFn] at hi
    refine ⟨by simp, ?_⟩
    unfold entry?
    by_cases hj : j < M.cols
    · simp [hi, hj]
    · simp [hj]
  · simp [toRawCopy1D, List.length_flatten, Function.comp_def]
  · intro i j hi hj
    unfold toRawCopy1D
    have := List.ofFn_mul (m := M.cols) (n := M.rows) (fun k : Fin (M.cols * M.rows) =>
      M.data (Fin.modNat k) (Fin.divNat k))
    have h2 : (List.ofFn fun j : Fin M.cols => List.ofFn fun i : Fin M.rows => M.data i j).flatten =
        List.ofFn fun k : Fin (M.cols * M.rows) => M.data (Fin.modNat k) (Fin.divNat k) := by
      rw [this]
      congr 2
      funext j
      congr 1
      funext i
      congr 1
      · apply Fin.ext
        simp [Fin.modNat, Nat.mod_eq_of_lt i.2]
      · apply Fin.ext
        simp only [Fin.divNat]
        rw [Nat.add_comm, Nat.add_mul_div_right _ _ (by have := i.2; omega),
          Nat.div_eq_of_lt i.2, Nat.zero_add]
    rw [h2]
    have hk : j * M.rows + i < M.cols * M.rows := by
      calc j * M.rows + i < j * M.rows + M.rows := by omega
        _ = (j + 1) * M.rows := by ring
        _ ≤ M.cols * M.rows := Nat.mul_le_mul_right _ hj
    unfold entry?
    rw [dif_pos ⟨hi, hj⟩, List.getElem?_ofFn, dif_pos hk]
    congr 2
    · apply Fin.ext
      simp [Fin.modNat, Nat.mod_eq_of_lt hi]
    · apply Fin.ext
      simp only [Fin.divNat]
      rw [Nat.add_comm, Nat.add_mul_div_right _ _ (by omega), Nat.div_eq_of_lt hi, Nat.zero_add]

/-- C05: `as_real` succeeds exactly on 1×1 matrices. -/
theorem C05_asReal (M : Mat α) :
    (∀ x, M.asReal = .ok x ↔ M.rows = 1 ∧ M.cols = 1 ∧ M.entry? 0 0 = some x) ∧
    (M.asReal = .error .matrixAlgorithms ↔ ¬(M.rows = 1 ∧ M.cols = 1)) := by
  obtain ⟨m, n, A⟩ := M
  by_cases h : m = 1 ∧ n = 1
  · obtain ⟨rfl, rfl⟩ := h
    have : (⟨1, 1, A⟩ : Mat α).asReal = .ok (A 0 0) := by
      simp [asReal, Mat.get]
    rw [this]
    refine ⟨fun x => ?_, ?_⟩
    · rw [ok_inj]
      simp only [true_and]
      have := entry?_of A 0 0
      simp only [Fin.isValue, Fin.val_zero] at this
      rw [this]; simp
    · simp
  · have : (⟨m, n, A⟩ : Mat α).asReal = .error .matrixAlgorithms := by
      unfold asReal; rw [if_pos]; simp only; omega
    rw [this]
    refine ⟨fun x => ⟨fun h' => (by cases h'), fun h' => absurd ⟨h'.1, h'.2.1⟩ h⟩, ?_⟩
    simpa using h

/-! ## C06 -/

/-- C06: block placement of row-wise concatenation; rejected exactly when the column counts
differ. -/
theorem C06_concatRows (M N : Mat α) :
    (M.cols = N.cols → ∃ C, M.concatAlongRows N = .ok C ∧ C.rows = M.rows + N.rows ∧
      C.cols = M.cols ∧
      ∀ i j, C.entry? i j = if i < M.rows then M.entry? i j else N.entry? (i - M.rows) j) ∧
    (M.cols ≠ N.cols → M.concatAlongRows N = .error .valueError) := by
  constructor
  · intro h
    obtain ⟨m, n, A⟩ := M
    obtain ⟨p, n', B⟩ := N
    dsimp at h
    subst h
    refine ⟨_, concatAlongRows_of A B, rfl, rfl, fun i j => ?_⟩
    unfold entry?
    simp only
    by_cases hj : j < n
    · by_cases hi : i < m
      · rw [dif_pos ⟨by omega, hj⟩, if_pos hi, dif_pos ⟨hi, hj⟩]
        simp only [Matrix.of_apply, Option.some.injEq]
        exact Fin.addCases_left (m := m) (n := p) (motive := fun _ => α) (i := ⟨i, hi⟩)
      · by_cases hi' : i < m + p
        · rw [dif_pos ⟨hi', hj⟩, if_neg hi, dif_pos ⟨by omega, hj⟩]
          simp only [Matrix.of_apply, Option.some.injEq]
          have := Fin.addCases_right (m := m) (n := p) (motive := fun _ => α)
            (left := fun b => A b ⟨j, hj⟩) (right := fun b => B b ⟨j, hj⟩) (⟨i - m, by omega⟩ : Fin p)
          rw [← this]
          congr 1
          apply Fin.ext
          simp
          omega
        · rw [dif_neg (by omega), if_neg hi, dif_neg (by omega)]
    · rw [dif_neg (by omega), dif_neg (by omega), dif_neg (by omega)]; simp
  · intro h
    unfold concatAlongRows concat
    rw [if_pos (.inl rfl), dif_neg h]

/-- C06: column-wise concatenation. -/
theorem C06_concatColumns (M N : Mat α) :
    (M.rows = N.rows → ∃ C, M.concatAlongColumns N = .ok C ∧ C.rows = M.rows ∧
      C.cols = M.cols + N.cols ∧
      ∀ i j, C.entry? i j = if j < M.cols then M.entry? i j else N.entry? i (j - M.cols)) ∧
    (M.rows ≠ N.rows → M.concatAlongColumns N = .error .valueError) := by
  constructor
  · intro h
    obtain ⟨m, n, A⟩ := M
    obtain ⟨m', p, B⟩ := N
    dsimp at h
    subst h
    refine ⟨_, concatAlongColumns_of A B, rfl, rfl, fun i j => ?_⟩
    unfold entry?
    simp only
    by_cases hi : i < m
    · by_cases hj : j < n
      · rw [dif_pos ⟨hi, by omega⟩, if_pos hj, dif_pos ⟨hi, hj⟩]
        simp only [Matrix.of_apply, Option.some.injEq]
        exact Fin.addCases_left (m := n) (n := p) (motive := fun _ => α) (i := ⟨j, hj⟩)
      · by_cases hj' : j < n + p
        · rw [dif_pos ⟨hi, hj'⟩, if_neg hj, dif_pos ⟨hi, by omega⟩]
          simp only [Matrix.of_apply, Option.some.injEq]
          have := Fin.addCases_right (m := n) (n := p) (motive := fun _ => α)
            (left := fun b => A ⟨i, hi⟩ b) (right := fun b => B ⟨i, hi⟩ b) (⟨j - n, by omega⟩ : Fin p)
          rw [← this]
          congr 1
          apply Fin.ext
          simp
          omega
        · rw [dif_neg (by omega), if_neg hj, dif_neg (by omega)]
    · rw [dif_neg (by omega), dif_neg (by omega), dif_neg (by omega)]; simp
  · intro h
    unfold concatAlongColumns concat
    rw [if_neg (by omega), if_pos (.inl rfl), dif_neg h]

/-- C06: row-wise concatenation is associative, errors included. -/
theorem C06_concatRows_assoc (M N P : Mat α) :
    (M.concatAlongRows N >>= fun C => C.concatAlongRows P) =
    (N.concatAlongRows P >>= fun C => M.concatAlongRows C) := by
  by_cases h1 : M.cols = N.cols
  · by_cases h2 : N.cols = P.cols
    · obtain ⟨C, hC, cr, cc, ce⟩ := (C06_concatRows M N).1 h1
      obtain ⟨D, hD, dr, dc, de⟩ := (C06_concatRows N P).1 h2
      obtain ⟨C', hC', cr', cc', ce'⟩ := (C06_concatRows C P).1 (by omega)
      obtain ⟨D', hD', dr', dc', de'⟩ := (C06_concatRows M D).1 (by omega)
      rw [hC, hD, except_bind_ok, except_bind_ok, hC', hD', ok_inj]
      refine ext_entry (by omega) (by omega) fun i j => ?_
      rw [ce', de', ce, cr, de]
      by_cases h : i < M.rows
      · rw [if_pos (by omega), if_pos h, if_pos h]
      · by_cases h' : i < M.rows + N.rows
        · rw [if_pos h', if_neg h, if_neg h, if_pos (by omega)]
        · rw [if_neg h', if_neg h, if_neg (by omega)]
          congr 1; omega
    · rw [(C06_concatRows N P).2 h2]
      obtain ⟨C, hC, cr, cc, ce⟩ := (C06_concatRows M N).1 h1
      rw [hC, except_bind_ok, (C06_concatRows C P).2 (by omega)]; rfl
  · rw [(C06_concatRows M N).2 h1]
    by_cases h2 : N.cols = P.cols
    · obtain ⟨D, hD, dr, dc, de⟩ := (C06_concatRows N P).1 h2
      rw [hD, except_bind_ok, (C06_concatRows M D).2 (by omega)]; rfl
    · rw [(C06_concatRows N P).2 h2]; rfl

/-- C06: selecting the two row ranges of a row-wise concatenation returns the two parts. -/
theorem C06_concatRows_split (M N C : Mat α) (h : M.concatAlongRows N = .ok C) :
    C.getRows (.tuple 0 M.rows) = .ok M ∧
    C.getRows (.tuple M.rows (M.rows + N.rows : Nat)) = .ok N := by
  have hc : M.cols = N.cols := by
    by_contra h'
    rw [(C06_concatRows M N).2 h'] at h; cases h
  obtain ⟨C', hC, cr, cc, ce⟩ := (C06_concatRows M N).1 hc
  rw [h, ok_inj] at hC
  subst hC
  constructor
  · have := getSubMatrix_rows C.data 0 M.rows (by omega) (by omega)
    rw [Int.natCast_zero] at this
    rw [show C = of C.data from rfl, this, ok_inj]
    refine ext_entry (by simp) cc fun i j => ?_
    unfold entry?
    simp only [Nat.sub_zero]
    by_cases hi : i < M.rows ∧ j < M.cols
    · have h3 := ce i j
      rw [if_pos hi.1, entry?, dif_pos ⟨by omega, by omega⟩, entry?, dif_pos hi] at h3
      rw [dif_pos ⟨hi.1, by omega⟩, dif_pos hi, ← h3]
      simp
    · rw [dif_neg (by omega), dif_neg hi]
  · have := getSubMatrix_rows C.data M.rows (M.rows + N.rows) (by omega) (by omega)
    rw [show C = of C.data from rfl, this, ok_inj]
    refine ext_entry (by simp) (by simp only; omega) fun i j => ?_
    unfold entry?
    simp only [Nat.add_sub_cancel_left]
    by_cases hi : i < N.rows ∧ j < N.cols
    · have h3 := ce (M.rows + i) j
      rw [if_neg (by omega), entry?, dif_pos ⟨by omega, by omega⟩, entry?,
        dif_pos ⟨by omega, hi.2⟩] at h3
      rw [dif_pos ⟨hi.1, by omega⟩, dif_pos hi]
      simpa using h3
    · rw [dif_neg (by omega), dif_neg hi]

/-- C06: the axes -2 and -1 are other names for 0 and 1; an axis other than -2..1 is rejected. -/
theorem C06_concat_axis (M N : Mat α) :
    M.concat N (-2) = M.concatAlongRows N ∧ M.concat N (-1) = M.concatAlongColumns N ∧
    ∀ axis : Int, axis < -2 ∨ 1 < axis → M.concat N axis = .error .valueError := by
  refine ⟨?_, ?_, fun axis h => ?_⟩
  · unfold concatAlongRows concat
    rw [if_pos (.inr rfl), if_pos (.inl rfl)]
  · unfold concatAlongColumns concat
    rw [if_neg (by omega), if_pos (.inr rfl), if_neg (by omega), if_pos (.inl rfl)]
  · unfold concat
    rw [if_neg (by omega), if_neg (by omega)]

/-- C06: `multi_concat` along the columns of a non-empty list adds up the column counts; the
empty list is rejected. -/
theorem C06_multiConcat_columns (m : Nat) :
    multiConcat (α := α) 1 [] = .error .valueError ∧
    ∀ (M : Mat α) (Ms : List (Mat α)), M.rows = m → (∀ x ∈ Ms, x.rows = m) →
      ∃ C, multiConcat 1 (M :: Ms) = .ok C ∧ C.rows = m ∧
        C.cols = ((M :: Ms).map Mat.cols).sum := by
  refine ⟨rfl, fun M Ms hM hMs => ?_⟩
  have key : ∀ (Ms : List (Mat α)) (M : Mat α), M.rows = m → (∀ x ∈ Ms, x.rows = m) →
      ∃ C, Ms.foldlM (fun acc x => Mat.concat acc x 1) M = .ok C ∧ C.rows = m ∧
        C.cols = M.cols + (Ms.map Mat.cols).sum := by
    intro Ms
    induction Ms with
    | nil => intro M hM _; exact ⟨M, rfl, hM, by simp⟩
    | cons N Ns ih =>
      intro M hM hN
      have hNm := hN N (by simp)
      obtain ⟨C, hC, cr, cc, _⟩ := (C06_concatColumns M N).1 (by omega)
      obtain ⟨D, hD, dr, dc⟩ := ih C (by omega) (fun x hx => hN x (by simp [hx]))
      refine ⟨D, ?_, dr, ?_⟩
      · rw [List.foldlM_cons]
        have : M.concat N 1 = .ok C := hC
        rw [this]; exact hD
      · simp; omega
  obtain ⟨C, hC, cr, cc⟩ := key Ms M hM hMs
  exact ⟨C, hC, cr, by simpa using cc⟩

example : ∃ C, (of !![1, 2; 3, 4]).concatAlongRows (of !![5, 6]) = .ok C ∧ C.rows = 3 ∧
    C.entry? 2 1 = some 6 := ⟨_, rfl, rfl, rfl⟩

end Verif.Props
