import Verif.Core.CsvLemmas

/-!
# C67: CSV text

Specification: the text of a table of cells is, per row, the cells with the separator between them and
a line feed; a cell has the value of the number it holds, and zero when it is missing or unreadable.
-/

namespace Verif.Props
open Verif Mat Csv

variable {α : Type}

/-- The text of a table, with an optional header line. -/
def csvText (sep : Str) (header : Option Str) (table : List (List Str)) : Str :=
  (header.toList ++ table.map fun row => sep.intercalate row).flatMap fun line => line ++ ['\n']

/-- No carriage return or line feed. -/
def OneLine (s : Str) : Prop := '\n' ∉ s ∧ '\r' ∉ s

theorem oneLine_intercalate (sep : Str) (l : List Str) (hs : OneLine sep) (h : ∀ x ∈ l, OneLine x) :
    OneLine (sep.intercalate l) := by
  rw [← join_eq]
  induction l with
  | nil => exact ⟨by simp [join], by simp [join]⟩
  | cons x l ih =>
    have hx := h x (List.mem_cons_self ..)
    have hi := ih fun y hy => h y (List.mem_cons_of_mem _ hy)
    cases l with
    | nil => exact hx
    | cons y ys =>
      rw [join_cons _ _ _ (by simp)]
      constructor
      · simp only [List.mem_append, not_or]; exact ⟨⟨hx.1, hs.1⟩, hi.1⟩
      · simp only [List.mem_append, not_or]; exact ⟨⟨hx.2, hs.2⟩, hi.2⟩

/-- Attaching the line feed to the last cell of a row. -/
def lastLF : List Str → List Str
  | [] => []
  | [x] => [x ++ ['\n']]
  | x :: y :: ys => x :: lastLF (y :: ys)

theorem lastLF_append (l : List Str) (x : Str) : lastLF (l ++ [x]) = l ++ [x ++ ['\n']] := by
  induction l with
  | nil => rfl
  | cons y l ih =>
    cases l with
    | nil => rfl
    | cons z l => exact congrArg (y :: ·) ih

theorem join_lastLF (sep : Str) (l : List Str) (h : l ≠ []) : join sep l ++ ['\n'] = join sep (lastLF l) := by
  obtain ⟨l', x, rfl⟩ : ∃ l' x, l = l' ++ [x] := ⟨_, _, (List.dropLast_concat_getLast h).symm⟩
  rw [lastLF_append, join_append_last]

theorem lastLF_length (l : List Str) : (lastLF l).length = l.length := by
  by_cases h : l = []
  · rw [h]; rfl
  · obtain ⟨l', x, rfl⟩ : ∃ l' x, l = l' ++ [x] := ⟨_, _, (List.dropLast_concat_getLast h).symm⟩
    rw [lastLF_append]; simp

theorem lastLF_ne (l : List Str) (h : l ≠ []) : lastLF l ≠ [] := by
  intro e
  have := lastLF_length l
  rw [e] at this
  exact h (List.length_eq_zero_iff.mp this.symm)

theorem lastLF_mem (l : List Str) (c0 : Char) (h0 : c0 ≠ '\n') (h : ∀ x ∈ l, c0 ∉ x) :
    ∀ x ∈ lastLF l, c0 ∉ x := by
  by_cases hl : l = []
  · rw [hl]; intro x hx; simp [lastLF] at hx
  · obtain ⟨l', x, rfl⟩ : ∃ l' x, l = l' ++ [x] := ⟨_, _, (List.dropLast_concat_getLast hl).symm⟩
    rw [lastLF_append]
    intro y hy
    rw [List.mem_append, List.mem_singleton] at hy
    rcases hy with hy | rfl
    · exact h y (List.mem_append_left _ hy)
    · rw [List.mem_append, not_or]
      exact ⟨h x (by simp), by simpa using h0⟩

theorem cellVal_lastLF [Zero α] (real : Str → Option α) (hr : ∀ t, real (t ++ ['\n']) = real t)
    (l : List Str) (j : Nat) : cellVal real (lastLF l)[j]? = cellVal real l[j]? := by
  by_cases hl : l = []
  · rw [hl]; rfl
  · obtain ⟨l', x, rfl⟩ : ∃ l' x, l = l' ++ [x] := ⟨_, _, (List.dropLast_concat_getLast hl).symm⟩
    rw [lastLF_append]
    by_cases hj : j < l'.length
    · rw [List.getElem?_append_left hj, List.getElem?_append_left hj]
    · rw [List.getElem?_append_right (by omega), List.getElem?_append_right (by omega)]
      cases j - l'.length with
      | zero => exact congrArg (Option.getD · 0) (hr x)
      | succ k => rfl

/-- The matrix of a table: as many rows as the table, as many columns as its first row. -/
def tableMat [Zero α] (real : Str → Option α) (table : List (List Str)) (n : Nat) : Mat α :=
  of (Matrix.of fun (i : Fin table.length) (j : Fin n) => ((table[i.1][j.1]?).bind real).getD 0)

/-- **C67 (reading).** A table of cells written as text is read cell by cell: every readable cell lands
at its own position, unreadable and missing cells are zero, surplus cells are dropped, and none of these
disturbs any other cell.  Proved for non-empty separators whose first character occurs in no cell, with
no line break in cells or separator. -/
theorem C67_table_partial [Zero α] (real : Str → Option α) (hr : ∀ t, real (t ++ ['\n']) = real t)
    (c0 : Char) (rest : Str) (hsep : OneLine (c0 :: rest))
    (first : List Str) (more : List (List Str)) (hne : ∀ row ∈ first :: more, row ≠ [])
    (hcell : ∀ row ∈ first :: more, ∀ x ∈ row, OneLine x ∧ c0 ∉ x)
    (header : Option Str) (hhead : ∀ h ∈ header, OneLine h) :
    readNamed real header.isSome (c0 :: rest) (csvText (c0 :: rest) header (first :: more)) =
        .ok (tableMat real (first :: more) first.length) ∧
      readStream real header.isSome (c0 :: rest) (csvText (c0 :: rest) header (first :: more)) =
        .ok (tableMat real (first :: more) first.length) := by
  set table := first :: more with htable
  set lines := header.toList ++ table.map fun row => join (c0 :: rest) row with hlines
  have hc0 : c0 ≠ '\n' := fun h => hsep.1 (h ▸ List.mem_cons_self ..)
  have hl : ∀ x ∈ lines, OneLine x := by
    intro x hx
    rw [hlines, List.mem_append] at hx
    rcases hx with hx | hx
    · exact hhead x (by simpa using hx)
    · obtain ⟨row, hrow, rfl⟩ := List.mem_map.mp hx
      rw [join_eq]
      exact oneLine_intercalate _ _ hsep fun y hy => (hcell row hrow y hy).1
  have htext : csvText (c0 :: rest) header table = (lines.map fun x => x ++ ['\n']).flatten := by
    unfold csvText
    rw [hlines, List.flatMap_def]
    simp only [join_eq]
  have hfl : fileLines (csvText (c0 :: rest) header table) = lines.map fun x => x ++ ['\n'] := by
    have := fileLines_flatten lines (fun x hx => (hl x hx).1) []
    rw [List.append_nil] at this
    rw [htext, this]
    simp [fileLines, fileLinesGo]
  have hun : universalNewlines (csvText (c0 :: rest) header table) = csvText (c0 :: rest) header table := by
    apply universalNewlines_id
    rw [htext]
    intro h
    obtain ⟨x, hx, hxr⟩ := List.mem_flatten.mp h
    obtain ⟨y, hy, rfl⟩ := List.mem_map.mp hx
    rw [List.mem_append] at hxr
    rcases hxr with hxr | hxr
    · exact (hl y hy).2 hxr
    · simp at hxr
  have hread : ∀ isName : Bool, readLines real isName header.isSome (c0 :: rest) (lines.map fun x => x ++ ['\n']) =
      .ok (tableMat real table first.length) := by
    intro isName
    rw [hlines, List.map_append]
    have h := readLines_eq real isName (c0 :: rest) (table.map lastLF)
      ((table.map fun row => join (c0 :: rest) row).map fun x => x ++ ['\n']) (lastLF first)
      (by simp) (by simp [htable]) (fun i hi => by
        simp only [List.length_map] at hi
        simp only [List.getElem_map]
        have hmem : table[i] ∈ table := List.getElem_mem hi
        rw [join_lastLF _ _ (hne _ hmem)]
        exact split_join c0 rest _ (lastLF_ne _ (hne _ hmem))
          (lastLF_mem _ c0 hc0 fun x hx => (hcell _ hmem x hx).2))
      header.isSome (header.toList.map fun x => x ++ ['\n']) (by cases header <;> rfl)
    rw [h]
    congr 1
    unfold tableMat
    refine mk_eq (by simp) (lastLF_length first) ?_
    intro i j
    simp only [Matrix.of_apply, List.getElem_map]
    exact cellVal_lastLF real hr _ _
  constructor
  · unfold readNamed
    rw [hun, hfl]
    exact hread true
  · unfold readStream
    rw [hfl]
    exact hread false

/-! ## Round trip -/

theorem toLines_eq (F : Formats α) (m n : Nat) (A : Matrix (Fin m) (Fin n) α) (header : Bool) (sep : Str)
    (numDec : Int) (sci : Bool) :
    toLines F (of A) header sep numDec sci = .ok
      ((if header then some (sep.intercalate ((List.range n).map fun j => "col".toList ++ natStr (j + 1))) else none).toList ++
        List.ofFn fun i => sep.intercalate (List.ofFn fun j => F.pick sci numDec (A i j))) := by
  unfold toLines
  have hbody : (pyRange 0 (of A).rows).mapM (fun i => lineGen (F.pick sci numDec) sep (of A) i) =
      .ok (List.ofFn fun i : Fin m => sep.intercalate (List.ofFn fun j => F.pick sci numDec (A i j))) := by
    show (pyRange 0 (m : Int)).mapM _ = _
    rw [pyRange_ofFn]
    apply mapM_ofFn
    intro i
    unfold lineGen
    show ((pyRange 0 (n : Int)).mapM _ >>= _) = _
    rw [pyRange_ofFn, mapM_ofFn (h := fun j => F.pick sci numDec (A i j))]
    · show Except.ok (join sep _) = _
      rw [join_eq]
    · intro j
      rw [get_of]; rfl
  show ((pyRange 0 (of A).rows).mapM _ >>= _) = _
  rw [hbody]
  show Except.ok _ = _
  congr 2
  cases header with
  | true => simp [join_eq]
  | false => rfl

/-- The written text is the text of the table of formatted entries. -/
theorem write_eq (F : Formats α) (m n : Nat) (A : Matrix (Fin m) (Fin n) α) (header : Bool) (sep : Str)
    (numDec : Int) (sci : Bool) :
    write F (of A) header sep numDec sci = .ok (csvText sep
      (if header then some (sep.intercalate ((List.range n).map fun j => "col".toList ++ natStr (j + 1))) else none)
      (List.ofFn fun i => List.ofFn fun j => F.pick sci numDec (A i j))) := by
  unfold write
  rw [toLines_eq]
  show Except.ok _ = _
  congr 1
  unfold csvText
  rw [List.flatMap_def, List.map_ofFn]
  rfl

theorem join_newline : ∀ lines : List Str, lines ≠ [] → join ['\n'] lines ++ ['\n'] = (lines.map fun line => line ++ ['\n']).flatten
  | [x], _ => by simp [join]
  | x :: y :: ys, _ => by
    have ih := join_newline (y :: ys) (List.cons_ne_nil _ _)
    rw [join, List.append_assoc, ih]
    simp

/-- **C67** `to_string` is the text `write` puts into a file without the final line break; both are empty when there is neither a
header nor a row. -/
theorem C67_to_string (F : Formats α) (m n : Nat) (A : Matrix (Fin m) (Fin n) α) (header : Bool) (sep : Str) (numDec : Int) :
    ∃ text, toString F (of A) header sep numDec = .ok text ∧
      write F (of A) header sep numDec = .ok (if header = true ∨ 0 < m then text ++ ['\n'] else []) ∧
      (¬ (header = true ∨ 0 < m) → text = []) := by
  unfold Csv.toString write
  rw [toLines_eq]
  refine ⟨_, rfl, ?_, fun h => ?_⟩
  · show Except.ok _ = _
    congr 1
    by_cases h : header = true ∨ 0 < m
    · rw [if_pos h]
      refine (join_newline _ fun h0 => ?_).symm
      rcases h with h | h
      · rw [h] at h0; simp at h0
      · have := congrArg List.length h0
        simp at this
        omega
    · rw [if_neg h]
      push Not at h
      obtain ⟨h1, h2⟩ := h
      obtain rfl : m = 0 := by omega
      simp [h1]
  · push Not at h
    obtain ⟨h1, h2⟩ := h
    obtain rfl : m = 0 := by omega
    simp [h1, join]

theorem header_oneLine (sep : Str) (hsep : OneLine sep) (n : Nat) :
    OneLine (sep.intercalate ((List.range n).map fun j => "col".toList ++ natStr (j + 1))) := by
  apply oneLine_intercalate _ _ hsep
  intro x hx
  obtain ⟨j, -, rfl⟩ := List.mem_map.mp hx
  have hd := isDigit_natStr (j + 1)
  constructor
  · rw [List.mem_append]
    rintro (h | h)
    · simp at h
    · have := hd _ h; cases this
  · rw [List.mem_append]
    rintro (h | h)
    · simp at h
    · have := hd _ h; cases this

/-- **C67 (round trip).** Writing a matrix with at least one entry and reading it back gives the matrix
whose entries are the readings of the formatted entries, for every header choice and number format.
Proved for separators whose first character does not occur in a formatted number. -/
theorem C67_roundtrip_partial [Zero α] (F : Formats α) (numDec : Int) (sci : Bool)
    (real : Str → Option α) (q : α → α) (c0 : Char) (rest : Str) (hsep : OneLine (c0 :: rest))
    (hr : ∀ t, real (t ++ ['\n']) = real t)
    (hq : ∀ x, real (F.pick sci numDec x) = some (q x))
    (hf : ∀ x, OneLine (F.pick sci numDec x) ∧ c0 ∉ F.pick sci numDec x)
    (m n : Nat) (hm : 0 < m) (hn : 0 < n) (A : Matrix (Fin m) (Fin n) α) (header : Bool) :
    ∃ text, write F (of A) header (c0 :: rest) numDec sci = .ok text ∧
      readNamed real header (c0 :: rest) text = .ok (of (Matrix.of fun i j => q (A i j))) ∧
      readStream real header (c0 :: rest) text = .ok (of (Matrix.of fun i j => q (A i j))) := by
  refine ⟨_, write_eq F m n A header (c0 :: rest) numDec sci, ?_⟩
  set table := List.ofFn fun i => List.ofFn fun j => F.pick sci numDec (A i j) with htable
  obtain ⟨m, rfl⟩ : ∃ k, m = k + 1 := ⟨m - 1, by omega⟩
  have hcons : table = (List.ofFn fun j => F.pick sci numDec (A 0 j)) ::
      List.ofFn fun i : Fin m => List.ofFn fun j => F.pick sci numDec (A i.succ j) := by
    rw [htable, List.ofFn_succ]
  have hrows : ∀ row ∈ table, ∃ i, row = List.ofFn fun j => F.pick sci numDec (A i j) := by
    intro row hrow
    rw [htable, List.mem_ofFn] at hrow
    obtain ⟨i, rfl⟩ := hrow
    exact ⟨i, rfl⟩
  have hM : tableMat real table (List.ofFn fun j => F.pick sci numDec (A 0 j)).length =
      of (Matrix.of fun i j => q (A i j)) := by
    unfold tableMat
    refine mk_eq (by simp [htable]) (by simp) ?_
    intro i j
    have hj : j.1 < n := by have := j.2; simpa using this
    simp only [Matrix.of_apply, htable, List.getElem_ofFn, List.getElem?_ofFn]
    rw [dif_pos hj]
    show (real _).getD 0 = _
    rw [hq]
    rfl
  have h := C67_table_partial real hr c0 rest hsep (List.ofFn fun j => F.pick sci numDec (A 0 j))
    (List.ofFn fun i : Fin m => List.ofFn fun j => F.pick sci numDec (A i.succ j))
    (by
      rw [← hcons]
      intro row hrow
      obtain ⟨i, rfl⟩ := hrows row hrow
      intro h
      have := congrArg List.length h
      simp at this
      omega)
    (by
      rw [← hcons]
      intro row hrow x hx
      obtain ⟨i, rfl⟩ := hrows row hrow
      rw [List.mem_ofFn] at hx
      obtain ⟨j, rfl⟩ := hx
      exact hf _)
    (if header then some ((c0 :: rest).intercalate ((List.range n).map fun j => "col".toList ++ natStr (j + 1))) else none)
    (by
      intro h hh
      cases header with
      | true =>
        simp only [if_true, Option.mem_some_iff] at hh
        rw [← hh]
        exact header_oneLine _ hsep n
      | false => simp at hh)
  rw [← hcons, hM] at h
  have hs : (if header then some ((c0 :: rest).intercalate ((List.range n).map fun j => "col".toList ++ natStr (j + 1))) else none).isSome
      = header := by cases header <;> rfl
  rw [hs] at h
  exact h

/-- The number formats over exact rationals (`plain` and `scientific` are left open). -/
def ratFormats (plain : ℚ → Str) (scientific : Int → ℚ → Str) : Formats ℚ :=
  ⟨scientific, plain, realToStringFixed plain⟩

theorem dropWhile_nil_iff (p : Char → Bool) (l : Str) : l.dropWhile p = [] ↔ ∀ c ∈ l, p c = true := by
  induction l with
  | nil => simp
  | cons c l ih =>
    rw [List.dropWhile_cons]
    cases hc : p c with
    | true => simp [ih, hc]
    | false => simp [hc]

theorem strip_lf (t : Str) : strip (t ++ ['\n']) = strip t := by
  have h2 : ∀ l : Str, ((l ++ ['\n']).reverse.dropWhile isWs) = l.reverse.dropWhile isWs := by
    intro l
    rw [List.reverse_append]
    show ('\n' :: l.reverse).dropWhile isWs = _
    rw [List.dropWhile_cons]
    rfl
  unfold strip
  by_cases h : t.dropWhile isWs = []
  · have hall : ∀ c ∈ t, isWs c = true := by
      intro c hc
      rw [dropWhile_nil_iff] at h
      exact h c hc
    have : (t ++ ['\n']).dropWhile isWs = [] := by
      rw [dropWhile_nil_iff]
      intro c hc
      rw [List.mem_append, List.mem_singleton] at hc
      rcases hc with hc | rfl
      · exact hall c hc
      · rfl
    rw [this, h]
  · have : (t ++ ['\n']).dropWhile isWs = t.dropWhile isWs ++ ['\n'] := by
      rw [List.dropWhile_append]
      simp [h]
    rw [this, h2]

theorem isDigit_ne {c : Char} (e : Char) (h : c.isDigit) (he : e.isDigit = false) : c ≠ e := by
  rintro rfl
  rw [h] at he
  cases he

/-- **C67 (fixed decimals).** With `num_dec = d ≥ 0` decimals, a matrix of exact numbers written and read
back differs by at most half a unit of the last decimal in every entry, has the same shape, and is
restored exactly if its entries have at most `d` decimals.  Every entry read back is a multiple of the
last decimal; of two equally near multiples it is the even one.  The separator is any text that starts with
something other than a digit, `-` or `.` and has no line break. -/
theorem C67_fixed_decimals (plain : ℚ → Str) (scientific : Int → ℚ → Str) (d : Nat) (c0 : Char) (rest : Str)
    (hsep : OneLine (c0 :: rest)) (h0 : c0 ≠ '-' ∧ c0 ≠ '.' ∧ c0.isDigit = false)
    (m n : Nat) (hm : 0 < m) (hn : 0 < n) (A : Matrix (Fin m) (Fin n) ℚ) (header : Bool) :
    ∃ (text : Str) (B : Matrix (Fin m) (Fin n) ℚ),
      write (ratFormats plain scientific) (of A) header (c0 :: rest) d = .ok text ∧
      readNamed parseDec header (c0 :: rest) text = .ok (of B) ∧
      readStream parseDec header (c0 :: rest) text = .ok (of B) ∧
      (∀ i j, |B i j - A i j| ≤ 1 / 2 / 10 ^ d) ∧
      (∀ i j, ∃ k : Int, B i j * 10 ^ d = k ∧ (|B i j - A i j| = 1 / 2 / 10 ^ d → Even k)) ∧
      ∀ i j, (∃ k : Int, A i j * 10 ^ d = k) → B i j = A i j := by
  have hpick : (ratFormats plain scientific).pick false d = fmtFixed d := by
    unfold Formats.pick ratFormats
    rw [if_neg (by simp), if_neg (by omega)]
    funext x
    show realToStringFixed plain (d : Int) x = _
    unfold realToStringFixed
    rw [if_neg (by omega)]
    rfl
  obtain ⟨text, h1, h2, h3⟩ := C67_roundtrip_partial (ratFormats plain scientific) (d : Int) false parseDec (fixedVal d)
    c0 rest hsep (fun t => by unfold parseDec; rw [strip_lf])
    (fun x => by
      have := parseDec_fmtFixed d x [] (by simp)
      rw [List.append_nil] at this
      rw [hpick]; exact this)
    (fun x => by
      rw [hpick]
      refine ⟨⟨fun h => ?_, fun h => ?_⟩, fun h => ?_⟩
      · rcases mem_fmtFixed d x _ h with h | h | h <;> cases h
      · rcases mem_fmtFixed d x _ h with h | h | h <;> cases h
      · rcases mem_fmtFixed d x _ h with h | h | h
        · exact h0.1 h
        · exact h0.2.1 h
        · exact isDigit_ne c0 h h0.2.2 rfl)
    m n hm hn A header
  refine ⟨text, _, h1, h2, h3, fun i j => fixedVal_near d _, fun i j => fixedVal_even d _,
    fun i j ⟨k, hk⟩ => fixedVal_exact d _ k hk⟩

/-- Concrete case: a 2 × 2 matrix with two decimals, written with header and separator `,`. -/
example : ∃ (text : Str) (B : Matrix (Fin 2) (Fin 2) ℚ),
    write (ratFormats (fun _ => []) (fun _ _ => [])) (of (!![5/4, -3; 1/3, 0] : Matrix (Fin 2) (Fin 2) ℚ)) true [','] 2 =
      .ok text ∧ readNamed parseDec true [','] text = .ok (of B) ∧ B 0 0 = 5 / 4 ∧ B 0 1 = -3 ∧ |B 1 0 - 1 / 3| ≤ 1 / 200 := by
  obtain ⟨t, B, h1, h2, -, h4, -, h5⟩ := C67_fixed_decimals (fun _ => []) (fun _ _ => []) 2 ',' []
    ⟨by decide, by decide⟩ ⟨by decide, by decide, by decide⟩ 2 2 (by decide) (by decide)
    (!![5/4, -3; 1/3, 0] : Matrix (Fin 2) (Fin 2) ℚ) true
  refine ⟨t, B, h1, h2, ?_, ?_, ?_⟩
  · exact h5 0 0 ⟨125, by simp; norm_num⟩
  · exact h5 0 1 ⟨-300, by simp; norm_num⟩
  · have := h4 1 0
    simp at this
    norm_num at this ⊢
    exact this

/-! ## Violations -/

theorem intercalate_dot (l : List (Str × Str)) :
    ['.'].intercalate (l.map fun p => p.1 ++ '.' :: p.2) = ['.'].intercalate (l.flatMap fun p => [p.1, p.2]) := by
  simp only [← join_eq]
  induction l with
  | nil => rfl
  | cons p l ih =>
    cases l with
    | nil => simp [join]
    | cons q l =>
      rw [List.map_cons, join_cons _ _ _ (by simp), ih, List.flatMap_cons]
      show _ = join ['.'] (p.1 :: p.2 :: (q :: l).flatMap fun p => [p.1, p.2])
      rw [join_cons _ _ _ (by simp), join_cons _ _ _ (by simp)]
      simp

/-- **C67 violated (separators).** `write` accepts separators that occur in numbers, and what it writes
is then read as something else: with the separator `.` and any number of decimals, every `m × n` matrix
comes back as an `m × 2n` matrix. -/
theorem C67_separator_violation (plain : ℚ → Str) (scientific : Int → ℚ → Str) (d : Nat)
    (m n : Nat) (hm : 0 < m) (hn : 0 < n) (A : Matrix (Fin m) (Fin n) ℚ) (header : Bool) :
    ∃ (text : Str) (B : Matrix (Fin m) (Fin (2 * n)) ℚ),
      write (ratFormats plain scientific) (of A) header ['.'] d = .ok text ∧
      readNamed parseDec header ['.'] text = .ok (of B) := by
  have hpick : (ratFormats plain scientific).pick false d = fmtFixed d := by
    unfold Formats.pick ratFormats
    rw [if_neg (by simp), if_neg (by omega)]
    funext x
    show realToStringFixed plain (d : Int) x = _
    unfold realToStringFixed
    rw [if_neg (by omega)]
    rfl
  let ip : ℚ → Str := fun x => (if x < 0 then ['-'] else []) ++ natStr (roundEven (|x| * 10 ^ d) / 10 ^ d)
  let fp : ℚ → Str := fun x => lowDigits d (roundEven (|x| * 10 ^ d))
  have hfmt : ∀ x, fmtFixed d x = ip x ++ '.' :: fp x := fun x => rfl
  let cells : Fin m → List Str := fun i => (List.ofFn fun j => (ip (A i j), fp (A i j))).flatMap fun p => [p.1, p.2]
  have hlen : ∀ i, (cells i).length = 2 * n := by
    intro i
    show ((List.ofFn fun j => (ip (A i j), fp (A i j))).flatMap fun p => [p.1, p.2]).length = _
    have : ∀ l : List (Str × Str), (l.flatMap fun p => [p.1, p.2]).length = 2 * l.length := by
      intro l
      induction l with
      | nil => rfl
      | cons p l ih => rw [List.flatMap_cons, List.length_append, ih, List.length_cons]; simp; omega
    rw [this, List.length_ofFn]
  set hd := (if header then some (['.'].intercalate ((List.range n).map fun j => "col".toList ++ natStr (j + 1))) else none)
    with hhd
  have htext : csvText ['.'] hd (List.ofFn fun i => List.ofFn fun j => fmtFixed d (A i j)) =
      csvText ['.'] hd (List.ofFn cells) := by
    unfold csvText
    congr 2
    rw [List.map_ofFn, List.map_ofFn]
    congr 1
    funext i
    show ['.'].intercalate (List.ofFn fun j => fmtFixed d (A i j)) = ['.'].intercalate (cells i)
    rw [show cells i = (List.ofFn fun j => (ip (A i j), fp (A i j))).flatMap fun p => [p.1, p.2] from rfl,
      ← intercalate_dot, List.map_ofFn]
    rfl
  have hw := write_eq (ratFormats plain scientific) m n A header ['.'] d false
  rw [hpick, ← hhd, htext] at hw
  obtain ⟨m, rfl⟩ : ∃ k, m = k + 1 := ⟨m - 1, by omega⟩
  have hcons : List.ofFn cells = cells 0 :: List.ofFn fun i : Fin m => cells i.succ := List.ofFn_succ
  have hchar : ∀ x, (OneLine (ip x) ∧ '.' ∉ ip x) ∧ (OneLine (fp x) ∧ '.' ∉ fp x) := by
    intro x
    have h1 : ∀ c ∈ ip x, c = '-' ∨ c.isDigit := by
      intro c hc
      rw [List.mem_append] at hc
      rcases hc with hc | hc
      · split at hc
        · left; simpa using hc
        · simp at hc
      · right; exact isDigit_natStr _ c hc
    have h2 := isDigit_lowDigits d (roundEven (|x| * 10 ^ d))
    refine ⟨⟨⟨fun h => ?_, fun h => ?_⟩, fun h => ?_⟩, ⟨fun h => ?_, fun h => ?_⟩, fun h => ?_⟩
    · rcases h1 _ h with h | h <;> cases h
    · rcases h1 _ h with h | h <;> cases h
    · rcases h1 _ h with h | h <;> cases h
    · cases h2 _ h
    · cases h2 _ h
    · cases h2 _ h
  have h := C67_table_partial parseDec (fun t => by unfold parseDec; rw [strip_lf]) '.' [] ⟨by decide, by decide⟩
    (cells 0) (List.ofFn fun i : Fin m => cells i.succ)
    (by
      rw [← hcons]
      intro row hrow h
      obtain ⟨i, rfl⟩ := List.mem_ofFn.mp hrow
      have := hlen i
      rw [h] at this
      simp at this
      omega)
    (by
      rw [← hcons]
      intro row hrow x hx
      obtain ⟨i, rfl⟩ := List.mem_ofFn.mp hrow
      obtain ⟨p, hp, hx⟩ := List.mem_flatMap.mp hx
      obtain ⟨j, rfl⟩ := List.mem_ofFn.mp hp
      simp only [List.mem_cons, List.not_mem_nil, or_false] at hx
      rcases hx with rfl | rfl
      · exact (hchar _).1
      · exact (hchar _).2)
    hd
    (by
      intro h hh
      rw [hhd] at hh
      cases header with
      | true =>
        simp only [if_true, Option.mem_some_iff] at hh
        rw [← hh]
        exact header_oneLine _ ⟨by decide, by decide⟩ n
      | false => simp at hh)
  rw [← hcons] at h
  have hs : hd.isSome = header := by rw [hhd]; cases header <;> rfl
  rw [hs] at h
  refine ⟨_, fun i j => (tableMat parseDec (List.ofFn cells) (cells 0).length).data (i.cast (List.length_ofFn (f := cells)).symm) (j.cast (hlen 0).symm),
    hw, h.1.trans ?_⟩
  congr 1
  exact mk_eq (by rw [List.length_ofFn]) (hlen 0) fun i j => rfl

/-- **C67 violated (no columns).** A matrix with rows but no columns comes back with one column of
zeros. -/
theorem C67_no_columns_violation [Zero α] (F : Formats α) (numDec : Int) (sci : Bool) (real : Str → Option α)
    (hr : ∀ t, real (t ++ ['\n']) = real t) (hnil : real [] = none)
    (m : Nat) (hm : 0 < m) (A : Matrix (Fin m) (Fin 0) α) (sep : Str) (hsep : OneLine sep) (hs : sep ≠ []) :
    ∃ text, write F (of A) false sep numDec sci = .ok text ∧
      readNamed real false sep text = .ok (of (0 : Matrix (Fin m) (Fin 1) α)) := by
  refine ⟨_, write_eq F m 0 A false sep numDec sci, ?_⟩
  obtain ⟨c0, rest, rfl⟩ : ∃ c0 rest, sep = c0 :: rest := by
    cases sep with
    | nil => exact absurd rfl hs
    | cons c r => exact ⟨c, r, rfl⟩
  have htext : csvText (c0 :: rest) (if false then some ((c0 :: rest).intercalate ((List.range 0).map fun j => "col".toList ++ natStr (j + 1))) else none)
      (List.ofFn fun i => List.ofFn fun j => F.pick sci numDec (A i j)) =
      csvText (c0 :: rest) none (List.replicate m [[]]) := by
    unfold csvText
    congr 2
    rw [List.map_ofFn, List.map_replicate, ← List.ofFn_const]
    congr 1
  rw [htext]
  obtain ⟨m, rfl⟩ : ∃ k, m = k + 1 := ⟨m - 1, by omega⟩
  have h := (C67_table_partial real hr c0 rest hsep [[]] (List.replicate m [[]])
    (by
      intro row hrow
      rw [← List.replicate_succ] at hrow
      rw [List.eq_of_mem_replicate hrow]; simp)
    (by
      intro row hrow x hx
      rw [← List.replicate_succ] at hrow
      rw [List.eq_of_mem_replicate hrow, List.mem_singleton] at hx
      rw [hx]
      exact ⟨⟨by simp, by simp⟩, by simp⟩) none (by simp)).1
  rw [← List.replicate_succ] at h
  refine h.trans ?_
  congr 1
  refine mk_eq (by simp) rfl ?_
  intro i j
  have hj : j.1 = 0 := Nat.lt_one_iff.mp j.2
  simp only [Matrix.of_apply, List.getElem_replicate, hj]
  show (real []).getD 0 = _
  rw [hnil]
  rfl

/-- **C67 (errors).** An empty separator raises `ValueError` on any data; a named file without data lines
raises `RuntimeError`, but a stream without data lines raises `TypeError`, because building the message
fails. -/
theorem C67_errors [Zero α] (real : Str → Option α) (isName header : Bool) (sep : Str) (line : Str)
    (lines : List Str) (headLine : List Str) (hh : headLine.length = if header then 1 else 0) :
    readLines real isName header [] (headLine ++ line :: lines) = .error .valueError ∧
    readLines real true header sep headLine = .error .runtimeError ∧
    readLines real false header sep headLine = .error .typeError := by
  cases header with
  | true =>
    match headLine, hh with
    | [x], _ => exact ⟨rfl, rfl, rfl⟩
  | false =>
    simp only [Bool.false_eq_true, if_false] at hh
    rw [List.length_eq_zero_iff.mp hh]
    exact ⟨rfl, rfl, rfl⟩

/-- Concrete case: an unreadable, a missing and a surplus cell.  The table `1;x;3 / 4 / 7;8;9;10` is
read as a 3 × 3 matrix in which only the cells `x` and the missing ones are zero. -/
example : readNamed parseDec false [';'] "1;x;3\n4\n7;8;9;10\n".toList =
    .ok (tableMat parseDec [["1".toList, "x".toList, "3".toList], ["4".toList], ["7".toList, "8".toList, "9".toList, "10".toList]] 3) := by
  have h := (C67_table_partial parseDec (fun t => by unfold parseDec; rw [strip_lf]) ';' []
    ⟨by decide, by decide⟩ ["1".toList, "x".toList, "3".toList]
    [["4".toList], ["7".toList, "8".toList, "9".toList, "10".toList]] (by simp)
    (by unfold OneLine; decide) none (by simp)).1
  exact h

end Verif.Props
