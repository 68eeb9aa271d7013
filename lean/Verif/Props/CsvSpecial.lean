import Verif.Core.CsvSpecial
import Verif.Props.CsvProps

/-!
# C110 — NaN and the infinities in text; the defaults of `to_string`
-/

namespace Verif.Props
open Verif Verif.Mat Verif.Csv

variable {α : Type}

theorem parseX_consts : parseX NAN = some .nan ∧ parseX NEGATIVE_INFINITY = some .ninf ∧ parseX POSITIVE_INFINITY = some .pinf ∧
    parseX "inf".toList = some .pinf ∧ parseX "-inf".toList = some .ninf ∧ parseX "nan".toList = some .nan := by
  refine ⟨?_, ?_, ?_, ?_, ?_, ?_⟩ <;> rfl

/-- The text of each kind of value. -/
theorem realToStringFixedX_eq (plain : ℚ → Str) (d : Int) (v : X ℚ) : realToStringFixedX plain d v =
    match v with
    | .fin x => realToStringFixed plain d x
    | .pinf => "+Infinity".toList
    | .ninf => "-Infinity".toList
    | .nan => "nan".toList := by
  unfold realToStringFixedX realToStringFixed
  obtain ⟨h1, h2, h3, -⟩ := parseX_consts
  rw [h1, h2, h3]
  cases v with
  | fin x =>
    simp only [X.eqb, npSpecial]
    simp
  | pinf => rfl
  | ninf => rfl
  | nan =>
    simp only [X.eqb, npSpecial]
    simp

/-- C110 (texts).  With `num_dec` other than -1 the infinities are written as the constants `+Infinity` and `-Infinity`;
finite values as before; with `num_dec = -1` the infinities are written by `str`, as `inf` and `-inf`. -/
theorem C110_infinities (plain : ℚ → Str) (scientific : Int → ℚ → Str) (d : Int) :
    (d ≠ -1 → (xFormats plain scientific).pick false d .pinf = POSITIVE_INFINITY ∧
      (xFormats plain scientific).pick false d .ninf = NEGATIVE_INFINITY ∧
      ∀ x, (xFormats plain scientific).pick false d (.fin x) = realToStringFixed plain d x) ∧
    (xFormats plain scientific).pick false (-1) .pinf = "inf".toList ∧
    (xFormats plain scientific).pick false (-1) .ninf = "-inf".toList := by
  refine ⟨fun hd => ?_, rfl, rfl⟩
  have : (xFormats plain scientific).pick false d = realToStringFixedX plain d := by
    unfold Formats.pick
    rw [if_neg (by simp), if_neg hd]
    rfl
  rw [this]
  exact ⟨realToStringFixedX_eq plain d .pinf, realToStringFixedX_eq plain d .ninf, fun x => realToStringFixedX_eq plain d (.fin x)⟩

/-- C110 (NaN) is violated: the branch for NaN compares with `==` and is never taken.  NaN is never written as the constant `NaN`
but always as `nan`, whatever the number of decimals. -/
theorem C110_nan_violation (plain : ℚ → Str) (d : Int) :
    realToStringFixedX plain d .nan = "nan".toList ∧ realToStringFixedX plain d .nan ≠ NAN := by
  have h := realToStringFixedX_eq plain d .nan
  simp only at h
  rw [h]
  exact ⟨rfl, by decide⟩

/-- The reading of a value written with `d` decimals. -/
def fixedValX (d : Nat) : X ℚ → X ℚ
  | .fin x => .fin (fixedVal d x)
  | v => v

/-- The characters of the texts. -/
def specialChars : List Char := "+-.Infinityna".toList

theorem parseWord_digit (c : Char) (s : Str) (hc : c.isDigit ∨ c = '.') : parseWord (c :: s) = none := by
  have hl : lowerC c = c := by
    unfold lowerC
    rw [if_neg]
    rcases hc with hc | rfl
    · rintro ⟨h1, _⟩
      simp only [Char.isDigit, Bool.and_eq_true, decide_eq_true_eq] at hc
      have h2 : c.toNat ≤ 57 := hc.2
      have h3 : (65 : Nat) ≤ c.toNat := h1
      omega
    · decide
  have hi : c ≠ 'i' ∧ c ≠ 'n' := by
    rcases hc with hc | rfl
    · exact ⟨isDigit_ne 'i' hc rfl, isDigit_ne 'n' hc rfl⟩
    · decide
  unfold parseWord
  simp only [List.map_cons, hl]
  rw [if_neg, if_neg]
  · intro h
    exact hi.2 (List.cons.inj h).1
  · rintro (h | h)
    · exact hi.1 (List.cons.inj h).1
    · exact hi.1 (List.cons.inj h).1

theorem natStr_head (n : Nat) : ∃ c s, natStr n = c :: s ∧ c.isDigit := by
  match h : natStr n with
  | [] => exact absurd h (natStr_ne_nil n)
  | c :: s =>
    refine ⟨c, s, rfl, ?_⟩
    have : c ∈ natStr n := by rw [h]; exact List.mem_cons_self
    exact Nat.isDigit_of_mem_toDigits (by decide) (by decide) this

theorem strip_id_fmt (d : Nat) (x : ℚ) : strip (fmtFixed d x) = fmtFixed d x := by
  have hm := mem_fmtFixed d x
  have hws : ∀ c ∈ fmtFixed d x, isWs c = false := by
    intro c hc
    rcases hm c hc with rfl | rfl | h
    · rfl
    · rfl
    · unfold isWs
      have h1 := isDigit_ne ' ' h rfl
      have h2 := isDigit_ne '\t' h rfl
      have h3 := isDigit_ne '\n' h rfl
      have h4 := isDigit_ne '\r' h rfl
      have h5 : ¬ (c.toNat = 11) ∧ ¬ (c.toNat = 12) := by
        simp only [Char.isDigit, Bool.and_eq_true, decide_eq_true_eq] at h
        have : (48 : Nat) ≤ c.toNat := h.1
        omega
      simp [h1, h2, h3, h4, h5]
  unfold strip
  have h1 : ∀ l : Str, (∀ c ∈ l, isWs c = false) → l.dropWhile isWs = l := by
    intro l hl
    cases l with
    | nil => rfl
    | cons c l => rw [List.dropWhile_cons_of_neg]; simp [hl c List.mem_cons_self]
  rw [h1 _ hws, h1 _ (fun c hc => hws c (List.mem_reverse.1 hc)), List.reverse_reverse]

theorem parseX_fmt (d : Nat) (x : ℚ) : parseX (fmtFixed d x) = some (.fin (fixedVal d x)) := by
  have hp := parseDec_fmtFixed d x [] (by simp)
  rw [List.append_nil] at hp
  unfold parseX
  rw [strip_id_fmt, hp]
  obtain ⟨c, s, hs, hc⟩ := natStr_head (roundEven (|x| * 10 ^ d) / 10 ^ d)
  have hne1 := isDigit_ne '-' hc rfl
  have hne2 := isDigit_ne '+' hc rfl
  have key : fmtFixed d x = (if x < 0 then ['-'] else []) ++ c :: (s ++ '.' :: lowDigits d (roundEven (|x| * 10 ^ d))) := by
    unfold fmtFixed
    simp only []
    rw [hs]
    simp
  rw [key]
  by_cases hx : x < 0
  · rw [if_pos hx]
    show (match (parseWord (c :: _)).map X.neg with
      | some v => some v
      | none => _) = _
    rw [parseWord_digit c _ (Or.inl hc)]
    rfl
  · rw [if_neg hx]
    generalize hrest : s ++ '.' :: lowDigits d (roundEven (|x| * 10 ^ d)) = rest
    rw [List.nil_append]
    dsimp only
    split
    · rename_i v h
      exfalso
      split at h
      · rename_i h2; exact hne1 (List.cons.inj h2).1
      · rename_i h2; exact hne2 (List.cons.inj h2).1
      · rw [parseWord_digit c _ (Or.inl hc)] at h
        cases h
    · rfl

/-- C110 (round trip).  With `d ≥ 0` decimals a matrix of finite numbers, infinities and NaN is written and read back with the
special values restored exactly and the finite ones rounded to `d` decimals, for every separator that starts with a character
that occurs in none of the texts. -/
theorem C110_roundtrip (plain : ℚ → Str) (scientific : Int → ℚ → Str) (d : Nat) (c0 : Char) (rest : Str)
    (hsep : OneLine (c0 :: rest)) (h0 : c0 ∉ specialChars ∧ c0.isDigit = false)
    (m n : Nat) (hm : 0 < m) (hn : 0 < n) (A : Matrix (Fin m) (Fin n) (X ℚ)) (header : Bool) :
    ∃ (text : Str) (B : Matrix (Fin m) (Fin n) (X ℚ)),
      write (xFormats plain scientific) (of A) header (c0 :: rest) d = .ok text ∧
      readNamed parseX header (c0 :: rest) text = .ok (of B) ∧
      readStream parseX header (c0 :: rest) text = .ok (of B) ∧
      ∀ i j, (A i j = .nan → B i j = .nan) ∧ (A i j = .pinf → B i j = .pinf) ∧ (A i j = .ninf → B i j = .ninf) ∧
        ∀ x, A i j = .fin x → ∃ b, B i j = .fin b ∧ |b - x| ≤ 1 / 2 / 10 ^ d := by
  have hpick : (xFormats plain scientific).pick false d = realToStringFixedX plain d := by
    unfold Formats.pick
    rw [if_neg (by simp), if_neg (by omega)]
    rfl
  have hfix : ∀ x, realToStringFixed plain (d : Int) x = fmtFixed d x := by
    intro x
    unfold realToStringFixed
    rw [if_neg (by omega)]
    rfl
  obtain ⟨-, k2, k3, -, -, k6⟩ := parseX_consts
  obtain ⟨text, h1, h2, h3⟩ := C67_roundtrip_partial (xFormats plain scientific) (d : Int) false parseX (fixedValX d)
    c0 rest hsep (fun t => by unfold parseX parseDec; rw [strip_lf])
    (fun v => by
      rw [hpick, realToStringFixedX_eq]
      cases v with
      | fin x =>
        simp only [hfix]
        exact parseX_fmt d x
      | pinf => exact k3
      | ninf => exact k2
      | nan => exact k6)
    (fun v => by
      rw [hpick, realToStringFixedX_eq]
      cases v with
      | fin x =>
        simp only [hfix]
        have h0' : c0 ≠ '-' ∧ c0 ≠ '.' := ⟨fun h => h0.1 (by rw [h]; decide), fun h => h0.1 (by rw [h]; decide)⟩
        refine ⟨⟨fun h => ?_, fun h => ?_⟩, fun h => ?_⟩
        · rcases mem_fmtFixed d x _ h with h | h | h <;> cases h
        · rcases mem_fmtFixed d x _ h with h | h | h <;> cases h
        · rcases mem_fmtFixed d x _ h with h | h | h
          · exact h0'.1 h
          · exact h0'.2 h
          · exact isDigit_ne c0 h h0.2 rfl
      | pinf =>
        refine ⟨(by constructor <;> decide : OneLine "+Infinity".toList), fun h => h0.1 ?_⟩
        have hs : ∀ c ∈ "+Infinity".toList, c ∈ specialChars := by decide
        exact hs _ h
      | ninf =>
        refine ⟨(by constructor <;> decide : OneLine "-Infinity".toList), fun h => h0.1 ?_⟩
        have hs : ∀ c ∈ "-Infinity".toList, c ∈ specialChars := by decide
        exact hs _ h
      | nan =>
        refine ⟨(by constructor <;> decide : OneLine "nan".toList), fun h => h0.1 ?_⟩
        have hs : ∀ c ∈ "nan".toList, c ∈ specialChars := by decide
        exact hs _ h)
    m n hm hn A header
  refine ⟨text, _, h1, h2, h3, fun i j => ⟨fun h => ?_, fun h => ?_, fun h => ?_, fun x h => ?_⟩⟩
  · show fixedValX d (A i j) = _
    rw [h]; rfl
  · show fixedValX d (A i j) = _
    rw [h]; rfl
  · show fixedValX d (A i j) = _
    rw [h]; rfl
  · refine ⟨fixedVal d x, ?_, fixedVal_near d x⟩
    show fixedValX d (A i j) = _
    rw [h]; rfl

/-- Concrete case: `[nan, inf; -inf, 1.25]` with separator `;`. -/
example : ∃ (text : Str) (B : Matrix (Fin 2) (Fin 2) (X ℚ)),
    write (xFormats (fun _ => []) (fun _ _ => [])) (of (!![.nan, .pinf; .ninf, .fin (5 / 4)] : Matrix (Fin 2) (Fin 2) (X ℚ))) true
      [';'] (2 : Nat) = .ok text ∧ readNamed parseX true [';'] text = .ok (of B) ∧ B 0 0 = .nan ∧ B 0 1 = .pinf ∧ B 1 0 = .ninf := by
  obtain ⟨t, B, h1, h2, -, h4⟩ := C110_roundtrip (fun _ => []) (fun _ _ => []) 2 ';' [] ⟨by decide, by decide⟩
    ⟨by decide, by decide⟩ 2 2 (by decide) (by decide)
    (!![.nan, .pinf; .ninf, .fin (5 / 4)] : Matrix (Fin 2) (Fin 2) (X ℚ)) true
  exact ⟨t, B, h1, h2, (h4 0 0).1 rfl, (h4 0 1).2.1 rfl, (h4 1 0).2.2.1 rfl⟩

/-- C110 (defaults of `to_string`).  Called with a matrix only, `to_string` gives a heading `col1 … coln` and one line per row, cells
separated by tabs, entries with six decimals, lines separated by line feeds. -/
theorem C110_to_string_defaults (F : Formats α) (m n : Nat) (A : Matrix (Fin m) (Fin n) α) :
    Csv.toString F (of A) = .ok (['\n'].intercalate
      (['\t'].intercalate ((List.range n).map fun j => "col".toList ++ natStr (j + 1)) ::
        List.ofFn fun i => ['\t'].intercalate (List.ofFn fun j => F.fixed 6 (A i j)))) := by
  unfold Csv.toString
  rw [toLines_eq]
  show Except.ok (join ['\n'] _) = _
  rw [join_eq]
  rfl

/-- Concrete case. -/
example : Csv.toString (xFormats (fun _ => []) (fun _ _ => [])) (of (!![.nan, .pinf] : Matrix (Fin 1) (Fin 2) (X ℚ))) =
    .ok "col1\tcol2\nnan\t+Infinity".toList := by
  rw [C110_to_string_defaults]
  rfl

end Verif.Props
