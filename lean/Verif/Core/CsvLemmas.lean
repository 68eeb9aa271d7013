import Verif.Core.Csv
import Verif.Core.ListLemmas
import Mathlib.Tactic.Ring
import Mathlib.Tactic.Linarith
import Mathlib.Tactic.FieldSimp
import Mathlib.Tactic.NormNum

/-! # Helper lemmas for the CSV model -/

namespace Verif.Csv
open Verif Mat

variable {α : Type}

theorem join_cons (sep x : Str) (l : List Str) (h : l ≠ []) : join sep (x :: l) = x ++ sep ++ join sep l := by
  cases l with
  | nil => exact absurd rfl h
  | cons y ys => rfl

theorem join_eq (sep : Str) (l : List Str) : join sep l = sep.intercalate l := by
  induction l with
  | nil => rfl
  | cons x l ih =>
    cases l with
    | nil => simp [join, List.intercalate]
    | cons y ys => rw [join_cons _ _ _ (by simp), ih]; simp [List.intercalate]

theorem join_append_last (sep t : Str) (l : List Str) (x : Str) :
    join sep (l ++ [x]) ++ t = join sep (l ++ [x ++ t]) := by
  induction l with
  | nil => rfl
  | cons y l ih =>
    rw [List.cons_append, List.cons_append, join_cons _ _ _ (by simp), join_cons _ _ _ (by simp),
      List.append_assoc, ih]

/-- Skipping over the rest of a match. -/
theorem splitGo_skip (sep acc t s : Str) : splitGo sep t.length acc (t ++ s) = splitGo sep 0 acc s := by
  induction t with
  | nil => rfl
  | cons c t ih =>
    show splitGo sep (t.length + 1) acc (c :: (t ++ s)) = _
    rw [splitGo, ih]

/-- Reading a cell free of the first character of the separator. -/
theorem splitGo_cell (c0 : Char) (rest acc x s : Str) (hx : c0 ∉ x) :
    splitGo (c0 :: rest) 0 acc (x ++ s) = splitGo (c0 :: rest) 0 (x.reverse ++ acc) s := by
  induction x generalizing acc with
  | nil => rfl
  | cons c x ih =>
    rw [List.cons_append, splitGo, if_neg, ih _ (fun h => hx (List.mem_cons_of_mem _ h))]
    · rw [List.reverse_cons, List.append_assoc]; rfl
    · intro h
      rw [List.isPrefixOf_iff_prefix, List.cons_prefix_cons] at h
      exact hx (h.1 ▸ List.mem_cons_self ..)

theorem splitGo_join (c0 : Char) (rest : Str) (l : List Str) (hl : l ≠ []) (h : ∀ x ∈ l, c0 ∉ x) :
    splitGo (c0 :: rest) 0 [] (join (c0 :: rest) l) = l := by
  induction l with
  | nil => exact absurd rfl hl
  | cons x l ih =>
    have hx := h x (List.mem_cons_self ..)
    cases l with
    | nil =>
      have := splitGo_cell c0 rest [] x [] hx
      rw [List.append_nil, List.append_nil] at this
      show splitGo (c0 :: rest) 0 [] x = [x]
      rw [this, splitGo, List.reverse_reverse]
    | cons y ys =>
      rw [join_cons _ _ _ (by simp), List.append_assoc, splitGo_cell c0 rest [] x _ hx, List.append_nil,
        List.cons_append, splitGo, if_pos, List.reverse_reverse]
      · show x :: splitGo (c0 :: rest) rest.length [] (rest ++ _) = _
        rw [splitGo_skip, ih (by simp) fun z hz => h z (List.mem_cons_of_mem _ hz)]
      · rw [List.isPrefixOf_iff_prefix, ← List.cons_append]
        exact List.prefix_append _ _

theorem splitGo_ne_nil (sep : Str) (k : Nat) (acc s : Str) : splitGo sep k acc s ≠ [] := by
  induction s generalizing k acc with
  | nil => rw [splitGo]; simp
  | cons c s ih =>
    cases k with
    | zero =>
      rw [splitGo]
      split
      · simp
      · exact ih 0 _
    | succ k => rw [splitGo]; exact ih k acc

theorem split_join (c0 : Char) (rest : Str) (l : List Str) (hl : l ≠ []) (h : ∀ x ∈ l, c0 ∉ x) :
    split (c0 :: rest) (join (c0 :: rest) l) = .ok l := by
  unfold split
  rw [if_neg (by simp), splitGo_join c0 rest l hl h]

theorem nl_cons {c : Char} {x : Str} (h : '\n' ∉ c :: x) : ¬ c = '\n' := by
  intro hc
  exact h (hc ▸ List.mem_cons_self ..)

theorem fileLinesGo_line (acc x s : Str) (hx : '\n' ∉ x) :
    fileLinesGo acc (x ++ '\n' :: s) = (acc.reverse ++ x ++ ['\n']) :: fileLinesGo [] s := by
  induction x generalizing acc with
  | nil =>
    rw [List.nil_append, fileLinesGo, if_pos rfl]
    simp
  | cons c x ih =>
    rw [List.cons_append, fileLinesGo, if_neg (nl_cons hx),
      ih _ (fun h => hx (List.mem_cons_of_mem _ h))]
    simp

theorem fileLinesGo_end (a : Char) (acc x : Str) (hx : '\n' ∉ x) :
    fileLinesGo (a :: acc) x = [(a :: acc).reverse ++ x] := by
  induction x generalizing a acc with
  | nil => rw [fileLinesGo]; simp
  | cons c x ih =>
    rw [fileLinesGo, if_neg (nl_cons hx), ih _ _ (fun h => hx (List.mem_cons_of_mem _ h))]
    simp

theorem fileLines_end (x : Str) (hx : '\n' ∉ x) (h0 : x ≠ []) : fileLines x = [x] := by
  cases x with
  | nil => exact absurd rfl h0
  | cons c x =>
    unfold fileLines
    rw [fileLinesGo, if_neg (nl_cons hx),
      fileLinesGo_end _ _ _ (fun h => hx (List.mem_cons_of_mem _ h))]
    simp

theorem fileLines_flatten (l : List Str) (h : ∀ x ∈ l, '\n' ∉ x) (s : Str) :
    fileLines ((l.map fun x => x ++ ['\n']).flatten ++ s) = (l.map fun x => x ++ ['\n']) ++ fileLines s := by
  induction l with
  | nil => rfl
  | cons x l ih =>
    rw [List.map_cons, List.flatten_cons, List.append_assoc, List.append_assoc]
    show fileLinesGo [] (x ++ '\n' :: ((l.map fun x => x ++ ['\n']).flatten ++ s)) = _
    rw [fileLinesGo_line _ _ _ (h x (List.mem_cons_self ..))]
    show _ :: fileLines _ = _
    rw [ih fun y hy => h y (List.mem_cons_of_mem _ hy)]
    rfl

theorem universalNewlines_id (s : Str) (h : '\r' ∉ s) : universalNewlines s = s := by
  fun_induction universalNewlines s with
  | case1 => rfl
  | case2 => simp at h
  | case3 cs ih => simp at h
  | case4 c cs _ ih => simp at h
  | case5 c cs _ _ _ ih => rw [ih fun hc => h (List.mem_cons_of_mem _ hc)]

/-! ### The loops of `read` -/

/-- The value of a cell: the number it holds, zero if it is missing or unreadable. -/
def cellVal [Zero α] (real : Str → Option α) (t : Option Str) : α := (t.bind real).getD 0

theorem readRow_loop [Zero α] {m n : Nat} (real : Str → Option α) (cells : List Str)
    (A : Matrix (Fin m) (Fin n) α) (k : Fin m) (hA : ∀ j, A k j = 0) :
    loopM (readCell real cells ((k : Nat) : Int)) (pyRange 0 (min (cells.length : Int) (n : Int))) (of A) =
      .ok (of (Matrix.of fun i j => if i = k then cellVal real cells[j.1]? else A i j)) := by
  have hmin : min (cells.length : Int) (n : Int) = ((min cells.length n : Nat) : Int) := by omega
  rw [hmin]
  let S : Nat → Mat α := fun l =>
    of (Matrix.of fun (i : Fin m) (j : Fin n) => if i = k ∧ j.1 < l then cellVal real cells[j.1]? else A i j)
  have h0 : of A = S 0 := by
    simp only [S]
    congr 1
    ext i j
    simp
  have hend : of (Matrix.of fun (i : Fin m) (j : Fin n) => if i = k then cellVal real cells[j.1]? else A i j) =
      S (min cells.length n) := by
    simp only [S]
    congr 1
    ext i j
    simp only [Matrix.of_apply]
    by_cases hi : i = k
    · subst hi
      by_cases hj : j.1 < min cells.length n
      · rw [if_pos rfl, if_pos ⟨rfl, hj⟩]
      · rw [if_pos rfl, if_neg (fun h => hj h.2), hA]
        rw [List.getElem?_eq_none (by have := j.2; omega)]
        rfl
    · rw [if_neg hi, if_neg (fun h => hi h.1)]
  rw [h0, hend]
  apply loopM_range
  intro l hl
  have hlc : l < cells.length := by omega
  have hln : l < n := by omega
  unfold readCell
  rw [pyIndex_natCast l hlc]
  show (match real (cells.get ⟨l, hlc⟩) with
    | some v => (S l).set ((k : Nat) : Int) (l : Int) v
    | none => .ok (S l)) = .ok (S (l + 1))
  have hv : cellVal real cells[l]? = (real (cells.get ⟨l, hlc⟩)).getD 0 := by
    rw [List.getElem?_eq_getElem hlc]; rfl
  cases hr : real (cells.get ⟨l, hlc⟩) with
  | none =>
    rw [hr] at hv
    show Except.ok (S l) = .ok (S (l + 1))
    congr 1
    simp only [S]
    congr 1
    ext i j
    simp only [Matrix.of_apply]
    by_cases hij : i = k ∧ j.1 = l
    · obtain ⟨rfl, rfl⟩ := hij
      rw [if_neg (by omega), if_pos ⟨rfl, by omega⟩, hv, hA]; rfl
    · by_cases h : i = k ∧ j.1 < l
      · rw [if_pos h, if_pos ⟨h.1, by omega⟩]
      · rw [if_neg h, if_neg]
        intro h'
        exact hij ⟨h'.1, by have := h'.2; by_contra hne; exact h ⟨h'.1, by omega⟩⟩
  | some v =>
    rw [hr] at hv
    show (S l).set ((k : Nat) : Int) (((⟨l, hln⟩ : Fin n) : Nat) : Int) v = .ok (S (l + 1))
    rw [set_of]
    congr 1
    simp only [S]
    congr 1
    ext i j
    simp only [Matrix.of_apply]
    by_cases hi : i = k
    · subst hi
      by_cases hj : j = ⟨l, hln⟩
      · subst hj
        simp [hv]
      · have hj' : j.1 ≠ l := fun h => hj (Fin.ext h)
        by_cases h : j.1 < l
        · simp [hj, h, Nat.lt_succ_of_lt h]
        · have : ¬ j.1 < l + 1 := by omega
          simp [hj, h, this]
    · simp [hi]

/-- The result of `read` on given cells. -/
theorem readLines_eq [Zero α] (real : Str → Option α) (isName : Bool) (sep : Str)
    (rows : List (List Str)) (lines : List Str) (first : List Str)
    (hlen : rows.length = lines.length) (hfirst : rows[0]? = some first)
    (hsplit : ∀ i (h : i < lines.length), split sep lines[i] = .ok (rows[i]'(by rw [hlen]; exact h)))
    (header : Bool) (headLine : List Str) (hh : headLine.length = if header then 1 else 0) :
    readLines real isName header sep (headLine ++ lines) = .ok (of (Matrix.of fun (i : Fin rows.length) (j : Fin first.length) =>
      cellVal real (rows[i.1][j.1]?))) := by
  have hpos : 0 < lines.length := by
    rw [← hlen]
    by_contra h
    have : rows.length = 0 := by omega
    rw [List.getElem?_eq_none (by omega)] at hfirst
    cases hfirst
  obtain ⟨l0, ls, rfl⟩ : ∃ l0 ls, lines = l0 :: ls := by
    cases lines with
    | nil => simp at hpos
    | cons a b => exact ⟨a, b, rfl⟩
  have hdrop : (if header then (headLine ++ l0 :: ls).drop 1 else headLine ++ l0 :: ls) = l0 :: ls := by
    cases header with
    | true =>
      simp only [if_true] at hh ⊢
      match headLine, hh with
      | [x], _ => rfl
    | false =>
      simp only [Bool.false_eq_true, if_false] at hh ⊢
      rw [List.length_eq_zero_iff.mp hh]; rfl
  unfold readLines
  simp only [hdrop]
  rw [if_neg (by simp)]
  have hs0 : split sep l0 = .ok first := by
    have := hsplit 0 hpos
    rw [List.getElem?_eq_getElem (by omega)] at hfirst
    rw [← Option.some.inj hfirst]
    exact this
  show (split sep l0 >>= fun cells => Factory.zeros (α := α) _ (cells.length : Int) >>= _) = _
  rw [hs0]
  show (Factory.zeros (α := α) ((l0 :: ls).length : Int) (first.length : Int) >>= _) = _
  rw [Factory.zeros_nat hpos]
  show loopM (readRow real sep (l0 :: ls)) (pyRange 0 ((l0 :: ls).length : Int)) (of (0 : Matrix (Fin (l0 :: ls).length) (Fin first.length) α)) = _
  let S : Nat → Mat α := fun k =>
    of (Matrix.of fun (i : Fin (l0 :: ls).length) (j : Fin first.length) =>
      if i.1 < k then cellVal real ((rows[i.1]'(by rw [hlen]; exact i.2))[j.1]?) else 0)
  have h0 : of (0 : Matrix (Fin (l0 :: ls).length) (Fin first.length) α) = S 0 := by
    simp only [S]
    congr 1
  have hend : of (Matrix.of fun (i : Fin rows.length) (j : Fin first.length) => cellVal real (rows[i.1][j.1]?)) =
      S (l0 :: ls).length := by
    refine mk_eq hlen rfl ?_
    intro i j
    simp only [Matrix.of_apply]
    rw [if_pos (by show i.1 < _; rw [← hlen]; exact i.2)]
    rfl
  rw [h0, hend]
  apply loopM_range
  intro k hk
  unfold readRow
  rw [pyIndex_natCast k hk]
  show (split sep ((l0 :: ls)[k]) >>= _) = _
  rw [hsplit k hk]
  show loopM (readCell real (rows[k]'(by rw [hlen]; exact hk)) (((⟨k, hk⟩ : Fin (l0 :: ls).length) : Nat) : Int))
    (pyRange 0 (min ((rows[k]'(by rw [hlen]; exact hk)).length : Int) (first.length : Int))) (S k) = _
  rw [readRow_loop]
  · congr 1
    simp only [S]
    congr 1
    ext i j
    simp only [Matrix.of_apply]
    by_cases hi : i = ⟨k, hk⟩
    · subst hi; simp
    · have : i.1 ≠ k := fun h => hi (Fin.ext h)
      rw [if_neg hi]
      by_cases h : i.1 < k
      · rw [if_pos h, if_pos (by omega)]
      · rw [if_neg h, if_neg (by omega)]
  · intro j
    simp

/-! ### The decimal codec -/

theorem digitVal_digitChar {n : Nat} (h : n < 10) : digitVal (Nat.digitChar n) = some n := by
  unfold digitVal
  rw [Nat.isDigit_digitChar, if_pos (by simpa using h)]
  have := Nat.toNat_digitChar_sub_48_of_lt_ten h
  exact congrArg some this

theorem digitsVal_append (acc : Nat) (s t : Str) :
    digitsVal acc (s ++ t) = (digitsVal acc s).bind fun v => digitsVal v t := by
  induction s generalizing acc with
  | nil => rfl
  | cons c s ih =>
    rw [List.cons_append, digitsVal, digitsVal]
    cases digitVal c with
    | none => rfl
    | some v => exact ih _

theorem digitsVal_natStr (n : Nat) : digitsVal 0 (natStr n) = some n := by
  induction n using Nat.strongRecOn with
  | _ n ih =>
    unfold natStr at ih ⊢
    rw [Nat.toDigits_eq_if (by decide)]
    split
    · rename_i h
      rw [digitsVal, digitVal_digitChar h]
      show digitsVal (0 * 10 + n) [] = some n
      rw [digitsVal]; simp
    · rename_i h
      rw [digitsVal_append, ih (n / 10) (by omega)]
      show digitsVal (n / 10) [Nat.digitChar (n % 10)] = some n
      rw [digitsVal, digitVal_digitChar (by omega)]
      show digitsVal (n / 10 * 10 + n % 10) [] = some n
      rw [digitsVal]
      congr 1
      omega

theorem length_lowDigits (d n : Nat) : (lowDigits d n).length = d := by
  induction d generalizing n with
  | zero => rfl
  | succ d ih => rw [lowDigits, List.length_append, ih]; rfl

theorem digitsVal_lowDigits (d n : Nat) : digitsVal 0 (lowDigits d n) = some (n % 10 ^ d) := by
  induction d generalizing n with
  | zero => simp [lowDigits, digitsVal, Nat.mod_one]
  | succ d ih =>
    rw [lowDigits, digitsVal_append, ih]
    show digitsVal (n / 10 % 10 ^ d) [Nat.digitChar (n % 10)] = _
    rw [digitsVal, digitVal_digitChar (by omega)]
    show digitsVal (n / 10 % 10 ^ d * 10 + n % 10) [] = _
    rw [digitsVal]
    congr 1
    rw [pow_succ, mul_comm (10 ^ d) 10, Nat.mod_mul]
    ring

theorem isDigit_natStr (n : Nat) : ∀ c ∈ natStr n, c.isDigit := fun _ hc =>
  Nat.isDigit_of_mem_toDigits (by decide) (by decide) hc

theorem isDigit_lowDigits (d n : Nat) : ∀ c ∈ lowDigits d n, c.isDigit := by
  induction d generalizing n with
  | zero => intro c hc; simp [lowDigits] at hc
  | succ d ih =>
    intro c hc
    rw [lowDigits, List.mem_append] at hc
    rcases hc with hc | hc
    · exact ih _ c hc
    · rw [List.mem_singleton] at hc
      rw [hc, Nat.isDigit_digitChar]
      simpa using Nat.mod_lt n (by decide)

theorem natStr_ne_nil (n : Nat) : natStr n ≠ [] := by
  have := Nat.length_toDigits_pos (b := 10) (n := n)
  intro h
  unfold natStr at h
  rw [h] at this
  simp at this

/-- The characters of a number in fixed format. -/
theorem mem_fmtFixed (d : Nat) (x : ℚ) (c : Char) (hc : c ∈ fmtFixed d x) :
    c = '-' ∨ c = '.' ∨ c.isDigit := by
  unfold fmtFixed at hc
  simp only [List.mem_append, List.mem_cons] at hc
  rcases hc with (hc | hc) | hc | hc
  · split at hc
    · left; simpa using hc
    · simp at hc
  · right; right; exact isDigit_natStr _ c hc
  · right; left; exact hc
  · right; right; exact isDigit_lowDigits _ _ c hc

theorem not_isWs_of {c : Char} (h : c = '-' ∨ c = '.' ∨ c.isDigit) : isWs c = false := by
  rcases h with rfl | rfl | h
  · rfl
  · rfl
  · unfold isWs
    have h1 : ∀ e : Char, e.isDigit = false → c ≠ e := by
      intro e he hce
      rw [← hce, h] at he
      cases he
    have h2 : 48 ≤ c.toNat := by
      unfold Char.isDigit at h
      simp only [Bool.and_eq_true, decide_eq_true_eq] at h
      exact h.1
    simp [h1 ' ' rfl, h1 '\t' rfl, h1 '\n' rfl, h1 '\r' rfl]
    omega

theorem dropWhile_of_not {β : Type} (p : β → Bool) (l : List β) (h : ∀ c ∈ l, p c = false) :
    l.dropWhile p = l := by
  cases l with
  | nil => rfl
  | cons c l => rw [List.dropWhile_cons, h c (List.mem_cons_self ..)]; rfl

theorem strip_append (s w : Str) (hs : ∀ c ∈ s, isWs c = false) (hw : ∀ c ∈ w, isWs c = true) (h0 : s ≠ []) :
    strip (s ++ w) = s := by
  unfold strip
  have h1 : (s ++ w).dropWhile isWs = s ++ w := by
    cases s with
    | nil => exact absurd rfl h0
    | cons c s => rw [List.cons_append, List.dropWhile_cons, hs c (List.mem_cons_self ..)]; rfl
  rw [h1, List.reverse_append]
  have h2 : ∀ l t : Str, (∀ c ∈ l, isWs c = true) → (l ++ t).dropWhile isWs = t.dropWhile isWs := by
    intro l t hl
    induction l with
    | nil => rfl
    | cons c l ih =>
      rw [List.cons_append, List.dropWhile_cons, hl c (List.mem_cons_self ..)]
      exact ih fun d hd => hl d (List.mem_cons_of_mem _ hd)
  rw [h2 _ _ fun c hc => hw c (List.mem_reverse.mp hc),
    dropWhile_of_not _ _ fun c hc => hs c (List.mem_reverse.mp hc), List.reverse_reverse]

theorem takeWhile_dot (s t : Str) (h : ∀ c ∈ s, c.isDigit) :
    (s ++ '.' :: t).takeWhile (· ≠ '.') = s ∧ (s ++ '.' :: t).dropWhile (· ≠ '.') = '.' :: t := by
  induction s with
  | nil => simp
  | cons c s ih =>
    have hc : c ≠ '.' := by
      intro e
      have := h c (List.mem_cons_self ..)
      rw [e] at this
      cases this
    have := ih fun d hd => h d (List.mem_cons_of_mem _ hd)
    rw [List.cons_append, List.takeWhile_cons, List.dropWhile_cons]
    simp only [ne_eq, hc, not_false_eq_true, decide_true, if_true]
    exact ⟨by rw [show (s ++ '.' :: t).takeWhile (fun x => decide (¬ x = '.')) = s from this.1], this.2⟩

theorem parseUnsigned_fixed (d m : Nat) :
    parseUnsigned (natStr (m / 10 ^ d) ++ '.' :: lowDigits d m) = some ((m : ℚ) / 10 ^ d) := by
  unfold parseUnsigned
  have ht := takeWhile_dot (natStr (m / 10 ^ d)) (lowDigits d m) (isDigit_natStr _)
  simp only [ht.1, ht.2, List.drop_succ_cons, List.drop_zero]
  rw [if_neg (fun h => natStr_ne_nil _ h.1), digitsVal_natStr, digitsVal_lowDigits, length_lowDigits]
  simp only
  congr 1
  have h10 : ((10 : ℚ) ^ d) ≠ 0 := by positivity
  rw [← mul_left_inj' h10, add_mul, div_mul_cancel₀ _ h10, div_mul_cancel₀ _ h10]
  have := Nat.div_add_mod m (10 ^ d)
  have h' : ((m / 10 ^ d : Nat) : ℚ) * ((10 ^ d : Nat) : ℚ) + ((m % 10 ^ d : Nat) : ℚ) = (m : ℚ) := by
    rw [← Nat.cast_mul, ← Nat.cast_add, mul_comm, this]
  rw [Nat.cast_pow] at h'
  exact h'

/-- The value shown by the fixed format. -/
def fixedVal (d : Nat) (x : ℚ) : ℚ :=
  (if x < 0 then -1 else 1) * ((roundEven (|x| * 10 ^ d) : ℚ) / 10 ^ d)

theorem parseDec_fmtFixed (d : Nat) (x : ℚ) (w : Str) (hw : ∀ c ∈ w, isWs c = true) :
    parseDec (fmtFixed d x ++ w) = some (fixedVal d x) := by
  have hne : fmtFixed d x ≠ [] := by
    unfold fmtFixed
    intro h
    simp only [List.append_eq_nil_iff] at h
    exact natStr_ne_nil _ h.1.2
  unfold parseDec
  rw [strip_append _ _ (fun c hc => not_isWs_of (mem_fmtFixed d x c hc)) hw hne]
  unfold fmtFixed fixedVal
  by_cases hx : x < 0
  · simp only [if_pos hx]
    show (parseUnsigned (natStr _ ++ '.' :: lowDigits d _)).map _ = _
    rw [parseUnsigned_fixed]
    simp
  · simp only [if_neg hx, List.nil_append]
    have hdig : ∀ (t : Str) (n : Nat), (match natStr n ++ t with
        | '-' :: t => (parseUnsigned t).map fun v => -v
        | '+' :: t => parseUnsigned t
        | t => parseUnsigned t) = parseUnsigned (natStr n ++ t) := by
      intro t n
      cases hn : natStr n with
      | nil => exact absurd hn (natStr_ne_nil n)
      | cons c cs =>
        have hc := isDigit_natStr n c (hn ▸ List.mem_cons_self ..)
        have h1 : c ≠ '-' := by rintro rfl; cases hc
        have h2 : c ≠ '+' := by rintro rfl; cases hc
        rw [List.cons_append]
        split
        · rename_i heq; exact absurd (List.cons.inj heq).1 h1
        · rename_i heq; exact absurd (List.cons.inj heq).1 h2
        · rfl
    refine (hdig _ _).trans ?_
    rw [parseUnsigned_fixed, one_mul]

theorem roundEven_near (x : ℚ) (hx : 0 ≤ x) : |(roundEven x : ℚ) - x| ≤ 1 / 2 := by
  have h0 : (0 : ℤ) ≤ ⌊x⌋ := Int.floor_nonneg.mpr hx
  have hf : ((⌊x⌋.toNat : Nat) : ℚ) = (⌊x⌋ : ℚ) := by
    have := Int.toNat_of_nonneg h0
    exact_mod_cast this
  have h1 := Int.floor_le x
  have h2 := Int.lt_floor_add_one x
  unfold roundEven
  simp only
  rw [abs_le]
  split_ifs <;> push_cast <;> rw [hf] <;> constructor <;> linarith

theorem roundEven_tie (x : ℚ) (hx : 0 ≤ x) (h : |(roundEven x : ℚ) - x| = 1 / 2) : Even (roundEven x) := by
  have h0 := Int.floor_nonneg.2 hx
  have hc : ((⌊x⌋.toNat : Nat) : ℚ) = (⌊x⌋ : ℚ) := by
    rw [← Int.cast_natCast, Int.toNat_of_nonneg h0]
  have h1 := Int.floor_le x
  have h2 := Int.lt_floor_add_one x
  unfold roundEven at h ⊢
  dsimp only at h ⊢
  split_ifs at h ⊢ with a b c
  · rw [hc, abs_of_nonpos (by linarith)] at h
    linarith
  · push_cast at h
    rw [hc, abs_of_nonneg (by linarith)] at h
    linarith
  · exact Nat.even_iff.2 c
  · exact Nat.even_iff.2 (by omega)

theorem roundEven_int (n : Nat) : roundEven (n : ℚ) = n := by
  unfold roundEven
  simp

theorem fixedVal_near (d : Nat) (x : ℚ) : |fixedVal d x - x| ≤ 1 / 2 / 10 ^ d := by
  have h10 : (0 : ℚ) < 10 ^ d := by positivity
  have h := roundEven_near (|x| * 10 ^ d) (by positivity)
  unfold fixedVal
  have key : ∀ s : ℚ, |s| = 1 → s * |x| = x →
      |s * ((roundEven (|x| * 10 ^ d) : ℚ) / 10 ^ d) - x| ≤ 1 / 2 / 10 ^ d := by
    intro s hs hx
    have e : s * ((roundEven (|x| * 10 ^ d) : ℚ) / 10 ^ d) - x =
        s * (((roundEven (|x| * 10 ^ d) : ℚ) - |x| * 10 ^ d) / 10 ^ d) := by
      rw [sub_div, mul_div_cancel_right₀ _ h10.ne', mul_sub, hx]
    rw [e, abs_mul, hs, one_mul, abs_div, abs_of_pos h10]
    gcongr
  by_cases hx : x < 0
  · rw [if_pos hx]
    exact key (-1) (by simp) (by rw [abs_of_neg hx]; ring)
  · rw [if_neg hx]
    exact key 1 (by simp) (by rw [abs_of_nonneg (not_lt.mp hx)]; ring)

/-- The value written is a multiple of the last decimal, an even one if two multiples are equally near. -/
theorem fixedVal_even (d : Nat) (x : ℚ) :
    ∃ k : Int, fixedVal d x * 10 ^ d = k ∧ (|fixedVal d x - x| = 1 / 2 / 10 ^ d → Even k) := by
  have h10 : (0 : ℚ) < 10 ^ d := by positivity
  have key : ∀ s : ℚ, (s = 1 ∨ s = -1) → s * |x| = x →
      |s * ((roundEven (|x| * 10 ^ d) : ℚ) / 10 ^ d) - x| = 1 / 2 / 10 ^ d → Even (roundEven (|x| * 10 ^ d)) := by
    intro s hs hx h
    refine roundEven_tie _ (by positivity) ?_
    have e : s * ((roundEven (|x| * 10 ^ d) : ℚ) / 10 ^ d) - x =
        s * (((roundEven (|x| * 10 ^ d) : ℚ) - |x| * 10 ^ d) / 10 ^ d) := by
      have e2 : s * (((roundEven (|x| * 10 ^ d) : ℚ) - |x| * 10 ^ d) / 10 ^ d) =
          s * ((roundEven (|x| * 10 ^ d) : ℚ) / 10 ^ d) - s * |x| := by
        field_simp
      rw [e2, hx]
    have hs1 : |s| = 1 := by rcases hs with rfl | rfl <;> simp
    rw [e, abs_mul, hs1, one_mul, abs_div, abs_of_pos h10] at h
    exact (div_left_inj' h10.ne').1 h
  unfold fixedVal
  by_cases hx : x < 0
  · rw [if_pos hx]
    refine ⟨-(roundEven (|x| * 10 ^ d) : Int), ?_, fun h => ?_⟩
    · push_cast; field_simp
    · have := key (-1) (Or.inr rfl) (by rw [abs_of_neg hx]; ring) h
      exact (Int.even_coe_nat _ |>.2 this).neg
  · rw [if_neg hx]
    refine ⟨(roundEven (|x| * 10 ^ d) : Int), ?_, fun h => ?_⟩
    · push_cast; field_simp
    · have := key 1 (Or.inl rfl) (by rw [abs_of_nonneg (not_lt.1 hx)]; ring) h
      exact Int.even_coe_nat _ |>.2 this

/-- A number with at most `d` decimals is shown exactly. -/
theorem fixedVal_exact (d : Nat) (x : ℚ) (k : Int) (h : x * 10 ^ d = k) : fixedVal d x = x := by
  have h10 : (0 : ℚ) < 10 ^ d := by positivity
  have hk : |x| * 10 ^ d = ((k.natAbs : Nat) : ℚ) := by
    rw [← abs_of_pos h10, ← abs_mul, h, Nat.cast_natAbs, Int.cast_abs]
  unfold fixedVal
  rw [hk, roundEven_int, ← hk, mul_div_cancel_right₀ _ h10.ne']
  by_cases hx : x < 0
  · rw [if_pos hx, abs_of_neg hx]; ring
  · rw [if_neg hx, abs_of_nonneg (not_lt.mp hx)]; ring

end Verif.Csv
