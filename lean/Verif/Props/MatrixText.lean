import Verif.Props.CsvProps

/-!
# C129: printing a matrix, and files without a final line break

`str(matrix)` (`_Matrix.py` 492-503) is the comma-separated text of the matrix, and reading that text restores the
matrix.  Reading (`helper.py` 96-132) does not depend on whether the last line of a file ends with a line break.
-/

namespace Verif.Csv
open Verif Mat

variable {α : Type}

/-- `row_str`, `_Matrix.py` 498-503; `str` is Python's `str` of a number. -/
def rowStr (str : α → Str) (M : Mat α) (i : Int) : Except PyErr Str := do
  let r ← pyIndex M.rows i
  let c ← pyIndex M.cols 0
  loopM (fun j s => do
    let c ← pyIndex M.cols j
    .ok (s ++ [','] ++ str (M.data r c))) (pyRange 1 M.cols) (str (M.data r c))

/-- `__str__`, `_Matrix.py` 492-496. -/
def matStr (str : α → Str) (M : Mat α) : Except PyErr Str := do
  let s ← rowStr str M 0
  loopM (fun i s => do
    let t ← rowStr str M i
    .ok (s ++ (['\n'] ++ t))) (pyRange 1 M.rows) s

/-- `shape_string`, `_Matrix.py` 520-525. -/
def shapeString (M : Mat α) : Str := ['['] ++ natStr M.rows ++ [' ', 'x', ' '] ++ natStr M.cols ++ [']']

/-- `dim`, `helper.py` 180-181. -/
def dim (M : Mat α) : Str := natStr M.rows ++ [' ', 'x', ' '] ++ natStr M.cols

/-! ## Loops that start at one -/

theorem loopM_map {σ : Type} (f : Int → σ → Except PyErr σ) (g : Int → Int) (l : List Int) (s : σ) :
    loopM f (l.map g) s = loopM (fun i => f (g i)) l s := by
  induction l generalizing s with
  | nil => rfl
  | cons a l ih =>
    rw [List.map_cons, loopM, loopM]
    cases f (g a) s with
    | error e => rfl
    | ok s' => exact ih s'

theorem pyRange_one (n : Nat) : pyRange 1 ((n + 1 : Nat) : Int) = (pyRange 0 (n : Int)).map (1 + ·) := by
  unfold pyRange
  rw [List.map_map]
  have h : (((n + 1 : Nat) : Int) - 1).toNat = ((n : Int) - 0).toNat := by omega
  rw [h]
  refine List.map_congr_left fun k _ => ?_
  simp

/-- Joining the texts `t 0, …, t n` one by one. -/
theorem loopM_join (sep : Str) {n : Nat} (t : Fin (n + 1) → Str) (f : Int → Str → Except PyErr Str)
    (hf : ∀ (k : Fin (n + 1)) (s : Str), f ((k : Nat) : Int) s = .ok (s ++ (sep ++ t k))) :
    loopM f (pyRange 1 ((n + 1 : Nat) : Int)) (t 0) = .ok (join sep (List.ofFn t)) := by
  rw [pyRange_one, loopM_map]
  have hS : ∀ k (hk : k ≤ n), join sep (List.ofFn fun i : Fin (k + 1) => t ⟨i.1, by omega⟩) =
      if h : k = 0 then t 0 else join sep (List.ofFn fun i : Fin (k - 1 + 1) => t ⟨i.1, by omega⟩) ++ (sep ++ t ⟨k, by omega⟩) := by
    intro k hk
    cases k with
    | zero => simp [join]
    | succ k =>
      rw [dif_neg (by omega), List.ofFn_succ_last]
      have := fun (l : List Str) (x : Str) (h : l ≠ []) => show join sep (l ++ [x]) = join sep l ++ (sep ++ x) by
        induction l with
        | nil => exact absurd rfl h
        | cons a l ih =>
          cases l with
          | nil => simp [join]
          | cons b l =>
            rw [List.cons_append, join_cons _ _ _ (by simp), join_cons _ _ _ (by simp), ih (by simp)]
            simp
      rw [this _ _ (by simp)]
      rfl
  have := loopM_range (fun i => f (1 + i)) (fun k => if hk : k ≤ n then
      join sep (List.ofFn fun i : Fin (k + 1) => t ⟨i.1, by omega⟩) else []) n fun k hk => by
    rw [dif_pos (by omega), dif_pos (by omega), hS (k + 1) (by omega), dif_neg (by omega)]
    have e := hf ⟨k + 1, by omega⟩ (join sep (List.ofFn fun i : Fin (k + 1) => t ⟨i.1, by omega⟩))
    rw [show (((⟨k + 1, by omega⟩ : Fin (n + 1)) : Nat) : Int) = 1 + (k : Int) by push_cast; ring] at e
    exact e
  rw [dif_pos (by omega), dif_pos (le_refl n), hS 0 (by omega), dif_pos rfl] at this
  exact this

theorem rowStr_of (str : α → Str) {m n : Nat} (A : Matrix (Fin m) (Fin (n + 1)) α) (i : Fin m) :
    rowStr str (of A) ((i : Nat) : Int) = .ok (join [','] (List.ofFn fun j => str (A i j))) := by
  unfold rowStr
  have h0 : pyIndex (of A).cols 0 = .ok (0 : Fin (n + 1)) := pyIndex_natCast 0 (Nat.succ_pos n)
  have hi : pyIndex (of A).rows ((i : Nat) : Int) = .ok i := pyIndex_natCast i.1 i.2
  rw [hi, h0]
  simp only [except_bind_ok]
  refine loopM_join [','] (fun j => str (A i j)) _ fun k s => ?_
  have hk : pyIndex (of A).cols ((k : Nat) : Int) = .ok k := pyIndex_natCast k.1 k.2
  rw [hk]
  simp only [except_bind_ok]
  rw [List.append_assoc]

theorem matStr_of (str : α → Str) {m n : Nat} (A : Matrix (Fin (m + 1)) (Fin (n + 1)) α) :
    matStr str (of A) = .ok (join ['\n'] (List.ofFn fun i => join [','] (List.ofFn fun j => str (A i j)))) := by
  unfold matStr
  have h0 := rowStr_of str A 0
  rw [show (((0 : Fin (m + 1)) : Nat) : Int) = 0 from rfl] at h0
  rw [h0]
  simp only [except_bind_ok]
  refine loopM_join ['\n'] (fun i => join [','] (List.ofFn fun j => str (A i j))) _ fun k s => ?_
  rw [rowStr_of]
  rfl

/-! ## The final line break -/

theorem isPrefixOf_nl (sep s : Str) (h : '\n' ∉ sep) : sep.isPrefixOf (s ++ ['\n']) = sep.isPrefixOf s := by
  induction sep generalizing s with
  | nil => simp
  | cons c sep ih =>
    have hc : c ≠ '\n' := fun e => h (by simp [e])
    cases s with
    | nil =>
      rw [List.nil_append, List.isPrefixOf_cons_cons, beq_eq_false_iff_ne.2 hc]
      rfl
    | cons a s =>
      rw [List.cons_append, List.isPrefixOf_cons_cons, List.isPrefixOf_cons_cons,
        ih s fun e => h (List.mem_cons_of_mem _ e)]

/-- Cutting a line with a line break appended: the line break ends up in the last piece. -/
theorem splitGo_nl (sep : Str) (hsep : '\n' ∉ sep) (h0 : sep ≠ []) : ∀ (s acc : Str) (k : Nat), k ≤ s.length →
    ∃ l x, splitGo sep k acc s = l ++ [x] ∧ splitGo sep k acc (s ++ ['\n']) = l ++ [x ++ ['\n']] := by
  intro s
  induction s with
  | nil =>
    intro acc k hk
    obtain rfl : k = 0 := by simpa using hk
    have hp : sep.isPrefixOf ['\n'] = false := by
      have := isPrefixOf_nl sep [] hsep
      rw [List.nil_append] at this
      rw [this]
      cases sep with
      | nil => exact absurd rfl h0
      | cons c sep => rfl
    refine ⟨[], acc.reverse, rfl, ?_⟩
    rw [List.nil_append, splitGo, hp]
    simp [splitGo]
  | cons c s ih =>
    intro acc k hk
    cases k with
    | succ k =>
      rw [splitGo, List.cons_append, splitGo]
      exact ih acc k (by simpa using hk)
    | zero =>
      rw [splitGo, List.cons_append, splitGo, ← List.cons_append, isPrefixOf_nl _ _ hsep]
      cases hp : sep.isPrefixOf (c :: s) with
      | true =>
        have hl : sep.length ≤ s.length + 1 := by
          have := (List.isPrefixOf_iff_prefix.1 hp).length_le
          simpa using this
        obtain ⟨l, x, h1, h2⟩ := ih [] (sep.length - 1) (by omega)
        exact ⟨acc.reverse :: l, x, by simp [h1], by simp [h2]⟩
      | false => exact ih (c :: acc) 0 (by omega)

theorem fileLinesGo_nl : ∀ (t acc : Str), (t = [] → acc ≠ []) → t.getLast? ≠ some '\n' →
    ∃ ls l, fileLinesGo acc t = ls ++ [l] ∧ fileLinesGo acc (t ++ ['\n']) = ls ++ [l ++ ['\n']] := by
  intro t
  induction t with
  | nil =>
    intro acc h _
    cases acc with
    | nil => exact absurd rfl (h rfl)
    | cons a acc => exact ⟨[], (a :: acc).reverse, rfl, by simp [fileLinesGo]⟩
  | cons c t ih =>
    intro acc _ hl
    rw [List.cons_append, fileLinesGo, fileLinesGo]
    by_cases hc : c = '\n'
    · rw [if_pos hc, if_pos hc]
      have ht : t ≠ [] := fun e => hl (by rw [e, hc]; rfl)
      obtain ⟨ls, l, h1, h2⟩ := ih [] (fun e => absurd e ht) (by
        rw [List.getLast?_cons_of_ne_nil ht] at hl
        exact hl)
      exact ⟨_ :: ls, l, by rw [h1]; rfl, by rw [h2]; rfl⟩
    · rw [if_neg hc, if_neg hc]
      refine ih (c :: acc) (fun _ => by simp) ?_
      cases t with
      | nil => simp
      | cons d t => rwa [List.getLast?_cons_of_ne_nil (by simp)] at hl

/-- A file text not ending in a line break gains one by appending a line feed, unless it ends in a carriage return. -/
theorem universalNewlines_nl : ∀ t : Str, t.getLast? ≠ some '\n' →
    universalNewlines (t ++ ['\n']) =
      if t.getLast? = some '\r' then universalNewlines t else universalNewlines t ++ ['\n'] := by
  intro t
  induction t using universalNewlines.induct with
  | case1 => intro _; rfl
  | case2 => intro _; rfl
  | case3 cs ih =>
    intro h
    cases cs with
    | nil => simp at h
    | cons d cs =>
      have e : ('\r' :: '\n' :: d :: cs).getLast? = (d :: cs).getLast? := by simp [List.getLast?_cons_cons]
      rw [e] at h ⊢
      have := ih h
      show '\n' :: universalNewlines ((d :: cs) ++ ['\n']) = _
      rw [this]
      split <;> rfl
  | case4 c cs hc ih =>
    intro h
    have e : ('\r' :: c :: cs).getLast? = (c :: cs).getLast? := by simp [List.getLast?_cons_cons]
    rw [e] at h ⊢
    have := ih h
    have hne : ∀ s, universalNewlines ('\r' :: c :: s) = '\n' :: universalNewlines (c :: s) := fun s => by
      rw [universalNewlines]
      exact hc
    rw [List.cons_append, List.cons_append, hne, hne, ← List.cons_append, this]
    split <;> rfl
  | case5 c cs h1 h2 h3 ih =>
    intro h
    have hc : c ≠ '\r' := fun e => by
      cases cs with
      | nil => exact h1 e rfl
      | cons d ds => exact h3 d ds e rfl
    have hne : ∀ s, universalNewlines (c :: s) = c :: universalNewlines s := fun s => by
      rw [universalNewlines]
      · exact fun e _ => hc e
      · exact fun _ e _ => hc e
      · exact fun _ _ e _ => hc e
    rw [List.cons_append, hne, hne]
    cases cs with
    | nil =>
      have hl : ([c] : Str).getLast? ≠ some '\r' := by simpa using hc
      rw [if_neg hl]
      rfl
    | cons d cs =>
      have e : (c :: d :: cs).getLast? = (d :: cs).getLast? := by simp [List.getLast?_cons_cons]
      rw [e] at h ⊢
      rw [ih h]
      split <;> rfl

/-! ### Reading -/

/-- An index into one of two lists of the same length. -/
theorem pyIndex_forall₂ {β : Type} {R : β → β → Prop} {l l' : List β} (h : List.Forall₂ R l l') (i : Int) :
    (∃ e, pyIndex l.length i = .error e ∧ pyIndex l'.length i = .error e) ∨
      ∃ k k', pyIndex l.length i = .ok k ∧ pyIndex l'.length i = .ok k' ∧ R (l.get k) (l'.get k') := by
  have hl := h.length_eq
  have key : ∀ (n n' : Nat) (_ : n = n'), (∃ e, pyIndex n i = .error e ∧ pyIndex n' i = .error e) ∨
      ∃ (k : Fin n) (k' : Fin n'), pyIndex n i = .ok k ∧ pyIndex n' i = .ok k' ∧ k.1 = k'.1 := by
    rintro n _ rfl
    cases e : pyIndex n i with
    | error x => exact Or.inl ⟨x, rfl, rfl⟩
    | ok k => exact Or.inr ⟨k, k, rfl, rfl, rfl⟩
  rcases key _ _ hl with h1 | ⟨k, k', h1, h2, h3⟩
  · exact Or.inl h1
  · refine Or.inr ⟨k, k', h1, h2, ?_⟩
    obtain ⟨k, hk⟩ := k
    obtain ⟨k', hk'⟩ := k'
    obtain rfl : k = k' := h3
    exact h.get hk hk'

variable (real : Str → Option α)

theorem readCell_congr {cells cells' : List Str} (h : List.Forall₂ (fun a b => real a = real b) cells cells') (i j : Int)
    (r : Mat α) : readCell real cells i j r = readCell real cells' i j r := by
  unfold readCell
  rcases pyIndex_forall₂ h j with ⟨e, h1, h2⟩ | ⟨k, k', h1, h2, h3⟩
  · rw [h1, h2]
    rfl
  · rw [h1, h2]
    show (match real (cells.get k) with | some v => _ | none => _) = _
    rw [h3]
    rfl

/-- Two lines whose pieces read the same. -/
def SameLine (sep : Str) (a b : Str) : Prop :=
  ∃ ca cb, split sep a = .ok ca ∧ split sep b = .ok cb ∧ List.Forall₂ (fun x y => real x = real y) ca cb

theorem forall₂_self {β : Type} {R : β → β → Prop} (h : ∀ x, R x x) : ∀ l : List β, List.Forall₂ R l l
  | [] => .nil
  | x :: l => .cons (h x) (forall₂_self h l)

theorem SameLine.rfl {sep : Str} (h0 : sep ≠ []) (a : Str) : SameLine real sep a a :=
  ⟨_, _, if_neg h0, if_neg h0, forall₂_self (R := fun x y => real x = real y) (fun _ => Eq.refl _) _⟩

theorem forall₂_last {β : Type} {R : β → β → Prop} (h : ∀ x, R x x) {x y : β} (hxy : R x y) :
    ∀ l : List β, List.Forall₂ R (l ++ [x]) (l ++ [y])
  | [] => .cons hxy .nil
  | a :: l => .cons (h a) (forall₂_last h hxy l)

theorem SameLine.nl (hr : ∀ t, real (t ++ ['\n']) = real t) {sep : Str} (h0 : sep ≠ []) (hsep : '\n' ∉ sep) (a : Str) :
    SameLine real sep a (a ++ ['\n']) := by
  obtain ⟨l, x, h1, h2⟩ := splitGo_nl sep hsep h0 a [] 0 (Nat.zero_le _)
  refine ⟨_, _, if_neg h0, if_neg h0, ?_⟩
  rw [h1, h2]
  exact forall₂_last (R := fun x y => real x = real y) (fun _ => Eq.refl _) (hr x).symm l

theorem readRow_congr {sep : Str} {ls ls' : List Str} (h : List.Forall₂ (SameLine real sep) ls ls') (i : Int) (r : Mat α) :
    readRow real sep ls i r = readRow real sep ls' i r := by
  unfold readRow
  rcases pyIndex_forall₂ h i with ⟨e, h1, h2⟩ | ⟨k, k', h1, h2, ca, cb, h3, h4, h5⟩
  · rw [h1, h2]
    rfl
  · rw [h1, h2]
    simp only [except_bind_ok]
    rw [h3, h4]
    simp only [except_bind_ok]
    rw [h5.length_eq]
    congr 1
    funext j r
    exact readCell_congr real h5 i j r

theorem readLines_congr [Zero α] {sep : Str} {ls ls' : List Str} (h : List.Forall₂ (SameLine real sep) ls ls')
    (isName header : Bool) : readLines real isName header sep ls = readLines real isName header sep ls' := by
  unfold readLines
  rw [h.length_eq]
  by_cases hl : ls'.length = 0
  · simp only [hl, if_true]
  simp only [hl, if_false]
  have hd : List.Forall₂ (SameLine real sep) (if header then ls.drop 1 else ls) (if header then ls'.drop 1 else ls') := by
    cases header with
    | true => exact List.forall₂_drop 1 h
    | false => exact h
  revert hd
  generalize (if header = true then ls.drop 1 else ls) = a
  generalize (if header = true then ls'.drop 1 else ls') = b
  intro hd
  cases hd with
  | nil => rfl
  | cons h1 h2 =>
    have hall := List.Forall₂.cons h1 h2
    obtain ⟨ca, cb, h3, h4, h5⟩ := h1
    simp only []
    rw [h3, h4]
    simp only [except_bind_ok]
    rw [h5.length_eq, hall.length_eq]
    congr 1
    funext r
    congr 1
    funext i r
    exact readRow_congr real hall i r

/-- With an empty separator only the number of lines matters. -/
theorem readLines_nil [Zero α] (isName header : Bool) {ls ls' : List Str} (h : ls.length = ls'.length) :
    readLines real isName header [] ls = readLines real isName header [] ls' := by
  have key : ∀ l : List Str, readLines real isName header [] l =
      if l.length = 0 ∨ (header = true ∧ l.length = 1) then .error (if isName then .runtimeError else .typeError)
      else .error .valueError := by
    intro l
    cases l with
    | nil => rfl
    | cons a l =>
      cases header with
      | false => simp [readLines, split]
      | true => cases l <;> simp [readLines, split]
  rw [key, key, h]

theorem universalNewlines_ne : ∀ t : Str, t ≠ [] → universalNewlines t ≠ [] := by
  intro t
  induction t using universalNewlines.induct with
  | case1 => exact fun h => h
  | case2 => intro _ h; cases h
  | case3 cs ih => intro _ h; cases h
  | case4 c cs hc ih =>
    intro _ h
    rw [universalNewlines] at h
    · cases h
    · exact hc
  | case5 c cs h1 h2 h3 ih =>
    intro _ h
    rw [universalNewlines] at h
    · cases h
    · exact h1
    · exact h2
    · exact h3

theorem universalNewlines_last : ∀ t : Str, t.getLast? ≠ some '\n' → t.getLast? ≠ some '\r' →
    (universalNewlines t).getLast? = t.getLast? := by
  intro t
  induction t using universalNewlines.induct with
  | case1 => intro _ _; rfl
  | case2 => intro _ h; exact absurd rfl h
  | case3 cs ih =>
    intro h h'
    cases cs with
    | nil => simp at h
    | cons d cs =>
      have e : ('\r' :: '\n' :: d :: cs).getLast? = (d :: cs).getLast? := by simp [List.getLast?_cons_cons]
      rw [e] at h h' ⊢
      show ('\n' :: universalNewlines (d :: cs)).getLast? = _
      rw [List.getLast?_cons_of_ne_nil (universalNewlines_ne _ (by simp)), ih h h']
  | case4 c cs hc ih =>
    intro h h'
    have e : ('\r' :: c :: cs).getLast? = (c :: cs).getLast? := by simp [List.getLast?_cons_cons]
    rw [e] at h h' ⊢
    rw [universalNewlines.eq_4 _ _ hc, List.getLast?_cons_of_ne_nil (universalNewlines_ne _ (by simp)), ih h h']
  | case5 c cs h1 h2 h3 ih =>
    intro h h'
    rw [universalNewlines.eq_5 _ _ h1 h2 h3]
    cases cs with
    | nil => rfl
    | cons d cs =>
      have e : (c :: d :: cs).getLast? = (d :: cs).getLast? := by simp [List.getLast?_cons_cons]
      rw [e] at h h' ⊢
      rw [List.getLast?_cons_of_ne_nil (universalNewlines_ne _ (by simp)), ih h h']

end Verif.Csv

namespace Verif.Props
open Verif Mat Csv

variable {α : Type}

/-- **C129.** A file that does not end in a line break is read as the same file with the line break, for every separator
without a line feed, every number parser that ignores a trailing line feed, and every content. -/
theorem C129_final_newline [Zero α] (real : Str → Option α) (hr : ∀ t, real (t ++ ['\n']) = real t) (sep : Str)
    (hsep : '\n' ∉ sep) (header : Bool) (text : Str) (h0 : text ≠ []) (hl : text.getLast? ≠ some '\n') :
    readNamed real header sep (text ++ ['\n']) = readNamed real header sep text ∧
      readStream real header sep (text ++ ['\n']) = readStream real header sep text := by
  have key : ∀ isName (t : Str), t ≠ [] → t.getLast? ≠ some '\n' →
      readLines real isName header sep (fileLines (t ++ ['\n'])) = readLines real isName header sep (fileLines t) := by
    intro isName t ht htl
    obtain ⟨ls, l, h1, h2⟩ := fileLinesGo_nl t [] (fun e => absurd e ht) htl
    unfold fileLines
    rw [h1, h2]
    by_cases hs : sep = []
    · subst hs
      exact readLines_nil real isName header (by simp)
    · exact (readLines_congr real (forall₂_last (SameLine.rfl real hs) (SameLine.nl real hr hs hsep l) ls) isName
        header).symm
  refine ⟨?_, key false text h0 hl⟩
  unfold readNamed
  rw [universalNewlines_nl text hl]
  split
  · rfl
  · rename_i hcr
    refine key true _ ?_ ?_
    · exact universalNewlines_ne _ h0
    · rw [universalNewlines_last _ hl hcr]
      exact hl

/-- **C129.** Printing a matrix with at least one entry gives its comma-separated text: what `to_string` gives without
header, with commas and unlimited decimals. -/
theorem C129_str (F : Formats α) {m n : Nat} (hm : 0 < m) (hn : 0 < n) (A : Matrix (Fin m) (Fin n) α) :
    ∃ text, matStr F.plain (of A) = .ok text ∧ Csv.toString F (of A) false [','] (-1) = .ok text := by
  obtain ⟨m, rfl⟩ : ∃ k, m = k + 1 := ⟨m - 1, by omega⟩
  obtain ⟨n, rfl⟩ : ∃ k, n = k + 1 := ⟨n - 1, by omega⟩
  refine ⟨_, matStr_of F.plain A, ?_⟩
  unfold Csv.toString
  rw [toLines_eq]
  simp only [join_eq]
  rfl

/-- The printed text ends with the text of an entry. -/
theorem matStr_last (str : α → Str) {m n : Nat} (hm : 0 < m) (hn : 0 < n) (A : Matrix (Fin m) (Fin n) α) {text : Str}
    (h : matStr str (of A) = .ok text) : ∃ t x, text = t ++ str x := by
  obtain ⟨m, rfl⟩ : ∃ k, m = k + 1 := ⟨m - 1, by omega⟩
  obtain ⟨n, rfl⟩ : ∃ k, n = k + 1 := ⟨n - 1, by omega⟩
  have hj : ∀ (sep : Str) (l : List Str) (x : Str), ∃ t, join sep (l ++ [x]) = t ++ x := by
    intro sep l x
    induction l with
    | nil => exact ⟨[], rfl⟩
    | cons a l ih =>
      obtain ⟨t, ht⟩ := ih
      exact ⟨a ++ sep ++ t, by rw [List.cons_append, join_cons _ _ _ (by simp), ht]; simp⟩
  rw [matStr_of] at h
  injection h with h
  rw [List.ofFn_succ_last, List.ofFn_succ_last (f := fun j => str (A (Fin.last m) j))] at h
  obtain ⟨t, ht⟩ := hj ['\n'] _ (join [','] ((List.ofFn fun i : Fin n => str (A (Fin.last m) i.castSucc)) ++
    [str (A (Fin.last m) (Fin.last n))]))
  obtain ⟨t', ht'⟩ := hj [','] (List.ofFn fun i : Fin n => str (A (Fin.last m) i.castSucc))
    (str (A (Fin.last m) (Fin.last n)))
  refine ⟨t ++ t', A (Fin.last m) (Fin.last n), ?_⟩
  rw [← h, ht, ht', List.append_assoc]

/-- **C129.** The printed text read with commas and without header is the matrix again, from a file or a stream, if
`real(str(x))` is `x`, ignores a trailing line feed, and numbers print as
non-empty text without comma or line break. -/
theorem C129_roundtrip [Zero α] (str : α → Str) (real : Str → Option α) (hr : ∀ t, real (t ++ ['\n']) = real t)
    (hs : ∀ x, real (str x) = some x) (hf : ∀ x, OneLine (str x) ∧ ',' ∉ str x ∧ str x ≠ []) {m n : Nat} (hm : 0 < m) (hn : 0 < n)
    (A : Matrix (Fin m) (Fin n) α) :
    ∃ text, matStr str (of A) = .ok text ∧ readNamed real false [','] text = .ok (of A) ∧
      readStream real false [','] text = .ok (of A) := by
  let F : Formats α := ⟨fun _ => str, str, fun _ => str⟩
  have hp : F.pick false (-1) = str := by simp [Formats.pick, F]
  obtain ⟨text, h1, h2⟩ := C129_str F hm hn A
  obtain ⟨text', h3, h4, -⟩ := C67_to_string F m n A false [','] (-1)
  rw [h2] at h3
  injection h3 with h3
  subst h3
  rw [if_pos (Or.inr hm)] at h4
  obtain ⟨text', h5, h6, h7⟩ := C67_roundtrip_partial F (-1) false real id ',' [] ⟨by decide, by decide⟩ hr
    (fun x => by rw [hp]; exact hs x) (fun x => by rw [hp]; exact ⟨(hf x).1, (hf x).2.1⟩) m n hm hn A false
  rw [h4] at h5
  injection h5 with h5
  subst h5
  obtain ⟨t, x, ht⟩ := matStr_last str hm hn A h1
  have hne : text ≠ [] := by
    rw [ht]
    exact List.append_ne_nil_of_right_ne_nil _ (hf x).2.2
  have hl : text.getLast? ≠ some '\n' := by
    rw [ht, List.getLast?_append_of_ne_nil _ (hf x).2.2]
    exact fun e => (hf x).1.1 (List.mem_of_getLast? e)
  obtain ⟨e1, e2⟩ := C129_final_newline real hr [','] (by decide) false text hne hl
  exact ⟨text, h1, by rw [← e1]; exact h6, by rw [← e2]; exact h7⟩

theorem append_sep_inj {c : Char} : ∀ {a b s t : Str}, c ∉ a → c ∉ b → a ++ c :: s = b ++ c :: t → a = b ∧ s = t
  | [], [], _, _, _, _, h => ⟨rfl, by simpa using h⟩
  | [], y :: b, _, _, _, hb, h => by
    injection h with h1 _
    exact absurd (h1 ▸ List.mem_cons_self ..) hb
  | x :: a, [], _, _, ha, _, h => by
    injection h with h1 _
    exact absurd (h1 ▸ List.mem_cons_self ..) ha
  | x :: a, y :: b, _, _, ha, hb, h => by
    injection h with h1 h2
    obtain ⟨h3, h4⟩ := append_sep_inj (fun e => ha (List.mem_cons_of_mem _ e)) (fun e => hb (List.mem_cons_of_mem _ e)) h2
    exact ⟨by rw [h1, h3], h4⟩

theorem natStr_inj {a b : Nat} (h : natStr a = natStr b) : a = b := by
  have := digitsVal_natStr a
  rw [h, digitsVal_natStr b] at this
  exact (Option.some.inj this).symm

/-- **C129.** The texts that state the shape of a matrix determine it. -/
theorem C129_shape {β : Type} (M : Mat α) (N : Mat β) :
    (shapeString M = shapeString N ↔ M.rows = N.rows ∧ M.cols = N.cols) ∧
      (dim M = dim N ↔ M.rows = N.rows ∧ M.cols = N.cols) := by
  have hd : ∀ (x : ℕ) (c : Char), c.isDigit = false → c ∉ natStr x := fun x c hc hm => by
    rw [isDigit_natStr x c hm] at hc
    cases hc
  refine ⟨⟨fun h => ?_, fun h => by rw [shapeString, shapeString, h.1, h.2]⟩,
    ⟨fun h => ?_, fun h => by rw [dim, dim, h.1, h.2]⟩⟩
  · have h' : '[' :: (natStr M.rows ++ ' ' :: ('x' :: ' ' :: (natStr M.cols ++ ']' :: []))) =
        '[' :: (natStr N.rows ++ ' ' :: ('x' :: ' ' :: (natStr N.cols ++ ']' :: []))) := by
      simpa [shapeString] using h
    injection h' with _ h'
    obtain ⟨h1, h2⟩ := append_sep_inj (hd _ _ (by decide)) (hd _ _ (by decide)) h'
    injection h2 with _ h2
    injection h2 with _ h2
    obtain ⟨h3, -⟩ := append_sep_inj (hd _ _ (by decide)) (hd _ _ (by decide)) h2
    exact ⟨natStr_inj h1, natStr_inj h3⟩
  · have h' : natStr M.rows ++ ' ' :: ('x' :: ' ' :: natStr M.cols) =
        natStr N.rows ++ ' ' :: ('x' :: ' ' :: natStr N.cols) := by
      simpa [dim] using h
    obtain ⟨h1, h2⟩ := append_sep_inj (hd _ _ (by decide)) (hd _ _ (by decide)) h'
    injection h2 with _ h2
    injection h2 with _ h2
    exact ⟨natStr_inj h1, natStr_inj h2⟩

/-! ## Violation -/

/-- **C129, violated.** Printing a matrix without rows or without columns raises an `IndexError`. -/
theorem C129_empty_violation (str : α → Str) (M : Mat α) (h : M.rows = 0 ∨ M.cols = 0) :
    matStr str M = .error .indexError := by
  unfold matStr rowStr
  have key : ∀ n, n = 0 → pyIndex n 0 = .error .indexError := by
    rintro _ rfl
    rfl
  by_cases hr : M.rows = 0
  · rw [key _ hr]
    rfl
  · have hc := h.resolve_left hr
    have : ∃ r, pyIndex M.rows 0 = .ok r := ⟨_, pyIndex_natCast 0 (Nat.pos_of_ne_zero hr)⟩
    obtain ⟨r, hr⟩ := this
    rw [hr, key _ hc]
    rfl

/-! ## A case -/

/-- Whole numbers with their decimal digits meet the hypotheses on the number format. -/
example : ∃ text, matStr natStr (of (!![1, 20; 3, 4] : Matrix (Fin 2) (Fin 2) ℕ)) = .ok text ∧
    readNamed (fun t => digitsVal 0 (strip t)) false [','] text = .ok (of (!![1, 20; 3, 4] : Matrix (Fin 2) (Fin 2) ℕ)) ∧
    text = "1,20\n3,4".toList := by
  have hd : ∀ (x : ℕ) (c : Char), c.isDigit = false → c ∉ natStr x := fun x c hc hm => by
    rw [isDigit_natStr x c hm] at hc
    cases hc
  have hw : ∀ (x : ℕ), ∀ c ∈ natStr x, isWs c = false := fun x c hc => not_isWs_of (Or.inr (Or.inr (isDigit_natStr x c hc)))
  obtain ⟨text, h1, h2, -⟩ := C129_roundtrip natStr (fun t => digitsVal 0 (strip t)) (fun t => by rw [strip_lf])
    (fun x => by
      have := strip_append (natStr x) [] (hw x) (by simp) (natStr_ne_nil x)
      rw [List.append_nil] at this
      rw [this, digitsVal_natStr])
    (fun x => ⟨⟨hd x _ (by decide), hd x _ (by decide)⟩, hd x _ (by decide), natStr_ne_nil x⟩) (by norm_num) (by norm_num)
    (!![1, 20; 3, 4] : Matrix (Fin 2) (Fin 2) ℕ)
  refine ⟨text, h1, h2, ?_⟩
  have : _ = Except.ok "1,20\n3,4".toList := matStr_of natStr (!![1, 20; 3, 4] : Matrix (Fin 2) (Fin 2) ℕ)
  rw [h1] at this
  injection this

end Verif.Props
