import Verif.Props.RandomProps
import Verif.Props.SerialProps
import Verif.Props.CsvProps

/-!
# Statements sharpened after mutation testing, second part
-/

namespace Verif.Props
open Verif Mat

/-! ## C68: the generator after a random matrix -/

theorem nth_draws {S α : Type} (g : Random.Gen S α) (n : Nat) (s : S) (k : Nat) :
    nth g (Random.draws g n s).2 k = nth g s (n + k) := by
  induction n generalizing s with
  | zero => rw [Nat.zero_add]; rfl
  | succ n ih =>
    rw [show n + 1 + k = n + k + 1 by omega]
    exact ih (g.draw s).2

/-- **C68 (the global generator).** A random matrix uses up exactly one number for each of its entries: whatever draws from the global
generator afterwards gets the numbers that follow. -/
theorem C68_rand_consumes {S α : Type} (g : Random.Gen S α) (rows columns seed : Nat) (hs : seed < 4294967296) (s : S) :
    ∃ s', (Random.rand g rows columns seed s).2 = s' ∧ ∀ k, nth g s' k = nth g (g.seed seed) (rows * columns + k) := by
  refine ⟨_, rfl, fun k => ?_⟩
  rw [rand_of_ok (setSeed_ok g seed hs s), npRand_eq]
  exact nth_draws g _ _ k

/-- With a counting generator the next number after a 2 by 3 matrix with seed 10 is 16. -/
example : nth (⟨fun n => n, fun n => (n, n + 1)⟩ : Random.Gen Nat Nat)
    (Random.rand (⟨fun n => n, fun n => (n, n + 1)⟩ : Random.Gen Nat Nat) 2 3 10 0).2 0 = 16 := by
  obtain ⟨s', h, h'⟩ := C68_rand_consumes (⟨fun n => n, fun n => (n, n + 1)⟩ : Random.Gen Nat Nat) 2 3 10 (by norm_num) 0
  rw [show Random.rand (⟨fun n => n, fun n => (n, n + 1)⟩ : Random.Gen Nat Nat) 2 3 10 0 = Random.rand _ ((2 : Nat) : Int) ((3 : Nat) : Int) ((10 : Nat) : Int) 0 from rfl,
    h, h' 0]
  rfl

/-! ## C71: a failure while the state is written -/

theorem writeAll_cons {v : Serial.PyVal} {b : Serial.Bytes} (h : Serial.serialiseToBytes v = .ok b) (vs : List Serial.PyVal) :
    Serial.writeAll (v :: vs) = ⟨b ++ (Serial.writeAll vs).out, (Serial.writeAll vs).err⟩ := by
  rw [Serial.writeAll, h]

theorem writeAll_stop {v : Serial.PyVal} {e : PyErr} (h : Serial.serialiseToBytes v = .error e) (vs : List Serial.PyVal) :
    Serial.writeAll (v :: vs) = ⟨[], some e⟩ := by
  rw [Serial.writeAll, h]

theorem serialise_int (v : Int) : Serial.serialiseToBytes (.int v) = Serial.toBytes 4 v := rfl

theorem matrixState_overflow (M : Mat UInt64) {b : Serial.Bytes} (hb : Serial.toBytes 4 M.rows = .ok b)
    (hc : Serial.toBytes 4 M.cols = .error .overflowError) : Serial.matrixState M = ⟨b, some .overflowError⟩ := by
  unfold Serial.matrixState
  rw [writeAll_cons ((serialise_int _).trans hb), writeAll_stop ((serialise_int _).trans hc), List.append_nil]

/-- **C71 (failure).** When the means cannot be written, because there are `2^31` or more of them, OverflowError is raised and nothing follows
the bytes of the number of rows: no deviations are written after the failure. -/
theorem C71_standardize_overflow (means stds : Mat UInt64) {b : Serial.Bytes} (hb : Serial.toBytes 4 means.rows = .ok b)
    (hc : 2147483648 ≤ (means.cols : Int)) :
    Serial.standardizeState true means stds = ⟨b, some .overflowError⟩ := by
  have h := matrixState_overflow means hb (toBytes4_error _ fun h => by linarith [h.2])
  unfold Serial.standardizeState
  rw [if_pos rfl, h, Serial.Written.andThen]

example (means stds : Mat UInt64) (hr : means.rows = 1) (hc : means.cols = 3000000000) :
    ∃ b, Serial.standardizeState true means stds = ⟨b, some .overflowError⟩ := by
  obtain ⟨b, hb⟩ := toBytes4_ok 1 ⟨by norm_num, by norm_num⟩
  exact ⟨b, C71_standardize_overflow means stds (by rw [hr, Nat.cast_one, hb]) (by rw [hc]; norm_num)⟩

/-! ## C67: blanks around a cell -/

theorem strip_pad (u s w : Csv.Str) (hu : ∀ c ∈ u, Csv.isWs c = true) :
    Csv.strip (u ++ (s ++ w)) = Csv.strip (s ++ w) := by
  unfold Csv.strip
  have : ∀ l t : Csv.Str, (∀ c ∈ l, Csv.isWs c = true) → (l ++ t).dropWhile Csv.isWs = t.dropWhile Csv.isWs := by
    intro l t hl
    induction l with
    | nil => rfl
    | cons c l ih =>
      rw [List.cons_append, List.dropWhile_cons, hl c (List.mem_cons_self ..)]
      exact ih fun d hd => hl d (List.mem_cons_of_mem _ hd)
  rw [this _ _ hu]

/-- **C67 (padding).** Blanks, tabs, line breaks, vertical tabs and form feeds before and after a number do not change the value of the cell. -/
theorem C67_padding (d : Nat) (x : ℚ) (u w : Csv.Str)
    (hu : ∀ c ∈ u, c = ' ' ∨ c = '\t' ∨ c = '\n' ∨ c = '\r' ∨ c = Char.ofNat 11 ∨ c = Char.ofNat 12)
    (hw : ∀ c ∈ w, c = ' ' ∨ c = '\t' ∨ c = '\n' ∨ c = '\r' ∨ c = Char.ofNat 11 ∨ c = Char.ofNat 12) :
    Csv.parseDec (u ++ (Csv.fmtFixed d x ++ w)) = Csv.parseDec (Csv.fmtFixed d x) ∧
      Csv.parseDec (Csv.fmtFixed d x) ≠ none := by
  have ws : ∀ c : Char, (c = ' ' ∨ c = '\t' ∨ c = '\n' ∨ c = '\r' ∨ c = Char.ofNat 11 ∨ c = Char.ofNat 12) → Csv.isWs c = true := by
    rintro c (rfl | rfl | rfl | rfl | rfl | rfl) <;> rfl
  have h0 := Csv.parseDec_fmtFixed d x [] (by simp)
  rw [List.append_nil] at h0
  have h1 := Csv.parseDec_fmtFixed d x w fun c hc => ws c (hw c hc)
  refine ⟨?_, by rw [h0]; exact Option.some_ne_none _⟩
  rw [h0, ← h1]
  unfold Csv.parseDec
  rw [strip_pad u _ _ fun c hc => ws c (hu c hc)]

example := C67_padding 2 (3 / 4) ['\t', ' '] ['\t', '\r', '\n'] (by simp) (by simp)

end Verif.Props
