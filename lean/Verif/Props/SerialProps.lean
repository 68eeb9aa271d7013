import Verif.Core.Serial
import Mathlib.Algebra.Order.Ring.Int
import Mathlib.Data.Nat.Bitwise
import Mathlib.Data.List.OfFn
import Mathlib.Data.List.TakeWhile
import Mathlib.Tactic.Linarith
import Mathlib.Tactic.Ring
import Mathlib.Tactic.NormNum
import Mathlib.Tactic.IntervalCases

/-!
# C17–C21, C68, C69 serialisation
-/

namespace Verif.Props
open Verif Serial

/-! ## Specification: decoding bytes -/

/-- The natural number with the given little-endian bytes. -/
def leNat : Bytes → Nat
  | [] => 0
  | b :: bs => b.toNat + 256 * leNat bs

/-- `int.from_bytes(b, "little", signed=True)`: two's complement. -/
def fromBytes (b : Bytes) : Int :=
  if 2 * leNat b < 2 ^ (8 * b.length) then leNat b else (leNat b : Int) - (2 ^ (8 * b.length) : Nat)

/-- Takes one UTF-8 encoded code point off the front (of well-formed input). -/
def utf8DecodeChar : Bytes → Option (Nat × Bytes)
  | [] => none
  | b0 :: t =>
    if b0.toNat < 0x80 then some (b0.toNat, t)
    else if b0.toNat < 0xE0 then
      t[0]?.map fun b1 => ((b0.toNat - 0xC0) * 64 + (b1.toNat - 0x80), t.drop 1)
    else if b0.toNat < 0xF0 then
      t[0]?.bind fun b1 => t[1]?.map fun b2 =>
        ((b0.toNat - 0xE0) * 4096 + (b1.toNat - 0x80) * 64 + (b2.toNat - 0x80), t.drop 2)
    else
      t[0]?.bind fun b1 => t[1]?.bind fun b2 => t[2]?.map fun b3 =>
        ((b0.toNat - 0xF0) * 262144 + (b1.toNat - 0x80) * 4096 + (b2.toNat - 0x80) * 64 +
          (b3.toNat - 0x80), t.drop 3)

/-- Takes at most `n` code points off the front. -/
def utf8DecodeN : Nat → Bytes → Option (List Nat)
  | _, [] => some []
  | 0, _ :: _ => none
  | n + 1, b0 :: t =>
    (utf8DecodeChar (b0 :: t)).bind fun c => (utf8DecodeN n c.2).map fun s => c.1 :: s

/-- A UTF-8 decoder (for well-formed input). -/
def utf8Decode (b : Bytes) : Option (List Nat) := utf8DecodeN b.length b

/-- The kinds of values a reader expects. -/
inductive Kind where
  | int | float | str

/-- What a reader recovers. -/
inductive Value where
  | int (v : Int) | float (bits : Nat) | str (s : List Nat)
  deriving DecidableEq

/-- Reads one value of the given kind off the front of a byte string. -/
def readOne : Kind → Bytes → Option (Value × Bytes)
  | .int, b => if b.length < 4 then none else some (.int (fromBytes (b.take 4)), b.drop 4)
  | .float, b => if b.length < 8 then none else some (.float (leNat (b.take 8)), b.drop 8)
  | .str, b =>
    if b.length < 4 then none
    else
      let n := (fromBytes (b.take 4)).toNat
      (utf8Decode ((b.drop 4).take n)).map fun s => (.str s, (b.drop 4).drop n)

/-- Reads a sequence of values. -/
def readAll : List Kind → Bytes → Option (List Value × Bytes)
  | [], b => some ([], b)
  | k :: ks, b => do
    let (v, b) ← readOne k b
    let (vs, b) ← readAll ks b
    return (v :: vs, b)

/-- The kind and the meaning of a Python value; `True`/`False` are the integers 1/0. -/
def kindOf : PyVal → Option (Kind × Value)
  | .int v => some (.int, .int v)
  | .bool b => some (.int, .int (if b then 1 else 0))
  | .float bits => some (.float, .float bits.toNat)
  | .str s => some (.str, .str s)
  | .other => none

/-! ## Generic steps -/

theorem bind_ok {α β : Type} {x : Except PyErr α} {f : α → Except PyErr β} {b : β}
    (h : (x >>= f) = .ok b) : ∃ a, x = .ok a ∧ f a = .ok b := by
  cases x with
  | error e => cases h
  | ok a => exact ⟨a, rfl, h⟩

theorem bind_of_ok {α β : Type} {x : Except PyErr α} {a : α} (h : x = .ok a)
    (f : α → Except PyErr β) : (x >>= f) = f a := by subst h; rfl

theorem bind_of_error {α β : Type} {x : Except PyErr α} {e : PyErr} (h : x = .error e)
    (f : α → Except PyErr β) : (x >>= f) = .error e := by subst h; rfl

theorem writeAll_ok {v : PyVal} {b : Bytes} (h : serialiseToBytes v = .ok b) (vs : List PyVal) :
    writeAll (v :: vs) = ⟨b ++ (writeAll vs).out, (writeAll vs).err⟩ := by rw [writeAll, h]

theorem writeAll_error {v : PyVal} {e : PyErr} (h : serialiseToBytes v = .error e) (vs : List PyVal) :
    writeAll (v :: vs) = ⟨[], some e⟩ := by rw [writeAll, h]

/-! ## Bytes of integers -/

theorem leBytes_length (k n : Nat) : (leBytes k n).length = k := by
  induction k generalizing n with
  | zero => rfl
  | succ k ih => simp [leBytes, ih]

theorem leNat_leBytes (k n : Nat) : leNat (leBytes k n) = n % 256 ^ k := by
  induction k generalizing n with
  | zero => simp [leBytes, leNat, Nat.mod_one]
  | succ k ih =>
    simp only [leBytes, leNat, ih]
    have : (UInt8.ofNat (n % 256)).toNat = n % 256 := by
      simp
    rw [this, pow_succ, mul_comm (256 ^ k), Nat.mod_mul]

theorem pow_bytes (k : Nat) : 2 ^ (8 * k) = 256 ^ k := by
  rw [pow_mul]; norm_num

/-- Two's complement round trip. -/
theorem fromBytes_toBytes {k : Nat} {v : Int} {b : Bytes} (h : toBytes k v = .ok b) :
    fromBytes b = v ∧ b.length = k := by
  unfold toBytes at h
  split at h
  · next hr =>
    cases h
    have hlen := leBytes_length k (v % (2 ^ (8 * k) : Nat)).toNat
    refine ⟨?_, hlen⟩
    unfold fromBytes
    rw [hlen, leNat_leBytes, ← pow_bytes]
    have hp : 0 < 2 ^ (8 * k) := by positivity
    generalize 2 ^ (8 * k) = N at *
    have hm0 : 0 ≤ v % (N : Int) := Int.emod_nonneg _ (by omega)
    have hm1 : v % (N : Int) < N := Int.emod_lt_of_pos _ (by omega)
    rw [Nat.mod_eq_of_lt (by omega)]
    by_cases hv : 0 ≤ v
    · rw [Int.emod_eq_of_lt hv (by omega), if_pos (by omega)]
      omega
    · have : v % (N : Int) = v + N := by
        rw [← Int.add_emod_right, Int.emod_eq_of_lt (by omega) (by omega)]
      rw [this, if_neg (by omega)]
      omega
  · cases h

theorem toBytes_ok_iff (k : Nat) (v : Int) :
    (∃ b, toBytes k v = .ok b) ↔ -(2 ^ (8 * k) : Nat) ≤ 2 * v ∧ 2 * v < (2 ^ (8 * k) : Nat) := by
  unfold toBytes
  split
  · next h => exact ⟨fun _ => h, fun _ => ⟨_, rfl⟩⟩
  · next h => exact ⟨fun ⟨_, e⟩ => (by cases e), fun h' => absurd h' h⟩

theorem toBytes4_ok (v : Int) (h : -2147483648 ≤ v ∧ v ≤ 2147483647) : ∃ b, toBytes 4 v = .ok b := by
  refine (toBytes_ok_iff 4 v).2 ?_
  have e : (2 ^ (8 * 4) : Nat) = 4294967296 := by norm_num
  rw [e]
  push_cast
  constructor <;> linarith [h.1, h.2]

theorem toBytes4_error (v : Int) (h : ¬ (-2147483648 ≤ v ∧ v ≤ 2147483647)) :
    toBytes 4 v = .error .overflowError := by
  rw [toBytes, if_neg]
  have e : (2 ^ (8 * 4) : Nat) = 4294967296 := by norm_num
  rw [e]
  push_cast
  intro h'
  apply h
  constructor <;> omega

theorem ser_int (v : Int) : serialiseToBytes (.int v) = toBytes 4 v := by rw [serialiseToBytes]
theorem ser_bool (b : Bool) : serialiseToBytes (.bool b) = toBytes 4 (if b then 1 else 0) := by
  rw [serialiseToBytes]

/-! ## UTF-8 -/

theorem u8 (n : Nat) (h : n < 256) : (UInt8.ofNat n).toNat = n := by
  simp; omega

theorem utf8Decode_char (c : Nat) (b bs : Bytes) (h : utf8Char c = .ok b) :
    utf8DecodeChar (b ++ bs) = some (c, bs) ∧ b ≠ [] := by
  unfold utf8Char at h
  split at h
  · next h1 =>
    cases h
    have e := u8 c (by omega)
    refine ⟨?_, by simp⟩
    rw [List.singleton_append, utf8DecodeChar, if_pos (by omega), e]
  split at h
  · next h1 h2 =>
    cases h
    have e0 := u8 (0xC0 + c / 64) (by omega)
    have e1 := u8 (0x80 + c % 64) (by omega)
    refine ⟨?_, by simp⟩
    simp only [List.cons_append, List.nil_append]
    rw [utf8DecodeChar, if_neg (by omega), if_pos (by omega), e0]
    show some (_, bs) = _
    rw [e1]
    simp only [Option.some.injEq, Prod.mk.injEq, and_true]
    omega
  split at h
  · cases h
  split at h
  · next h1 h2 h3 h4 =>
    cases h
    have e0 := u8 (0xE0 + c / 4096) (by omega)
    have e1 := u8 (0x80 + c / 64 % 64) (by omega)
    have e2 := u8 (0x80 + c % 64) (by omega)
    refine ⟨?_, by simp⟩
    simp only [List.cons_append, List.nil_append]
    rw [utf8DecodeChar, if_neg (by omega), if_neg (by omega), if_pos (by omega), e0]
    show some (_, bs) = _
    rw [e1, e2]
    simp only [Option.some.injEq, Prod.mk.injEq, and_true]
    omega
  split at h
  · next h1 h2 h3 h4 h5 =>
    cases h
    have e0 := u8 (0xF0 + c / 262144) (by omega)
    have e1 := u8 (0x80 + c / 4096 % 64) (by omega)
    have e2 := u8 (0x80 + c / 64 % 64) (by omega)
    have e3 := u8 (0x80 + c % 64) (by omega)
    refine ⟨?_, by simp⟩
    simp only [List.cons_append, List.nil_append]
    rw [utf8DecodeChar, if_neg (by omega), if_neg (by omega), if_neg (by omega), e0]
    show some (_, bs) = _
    rw [e1, e2, e3]
    simp only [Option.some.injEq, Prod.mk.injEq, and_true]
    omega
  · cases h

theorem utf8DecodeN_utf8 (s : List Nat) (b : Bytes) (n : Nat) (hn : b.length ≤ n)
    (h : utf8 s = .ok b) : utf8DecodeN n b = some s := by
  induction s generalizing b n with
  | nil => cases h; cases n <;> rfl
  | cons c cs ih =>
    rw [utf8] at h
    cases hc : utf8Char c with
    | error e => rw [hc] at h; cases h
    | ok b1 =>
      cases hcs : utf8 cs with
      | error e => rw [hc, hcs] at h; cases h
      | ok b2 =>
        rw [hc, hcs] at h
        cases h
        obtain ⟨h1, h2⟩ := utf8Decode_char c b1 b2 hc
        have hl : 0 < b1.length := List.length_pos_of_ne_nil h2
        have hn' : b1.length + b2.length ≤ n := by
          have : (b1 ++ b2).length ≤ n := hn
          rwa [List.length_append] at this
        obtain ⟨m, rfl⟩ : ∃ m, n = m + 1 := ⟨n - 1, by omega⟩
        obtain ⟨x, t, hx⟩ : ∃ x t, b1 ++ b2 = x :: t := by
          cases b1 with
          | nil => exact absurd rfl h2
          | cons x t => exact ⟨x, t ++ b2, rfl⟩
        show utf8DecodeN (m + 1) (b1 ++ b2) = _
        rw [hx] at h1 ⊢
        rw [utf8DecodeN, h1]
        show (utf8DecodeN m b2).map _ = _
        rw [ih b2 m (by omega) hcs]
        rfl

theorem utf8Decode_utf8 (s : List Nat) (b : Bytes) (h : utf8 s = .ok b) : utf8Decode b = some s :=
  utf8DecodeN_utf8 s b _ (le_refl _) h

/-! ## C17 -/

theorem readOne_ok (v : PyVal) (b rest : Bytes) (h : serialiseToBytes v = .ok b) :
    ∃ k x, kindOf v = some (k, x) ∧ readOne k (b ++ rest) = some (x, rest) := by
  have hint : ∀ (i : Int) (b : Bytes), toBytes 4 i = .ok b →
      readOne .int (b ++ rest) = some (.int i, rest) := by
    intro i b hb
    obtain ⟨h1, h2⟩ := fromBytes_toBytes hb
    rw [readOne, if_neg (by rw [List.length_append]; omega), List.take_left' h2, List.drop_left' h2, h1]
  cases v with
  | int v => exact ⟨_, _, rfl, hint v b ((ser_int v).symm.trans h)⟩
  | bool x => exact ⟨_, _, rfl, hint _ b ((ser_bool x).symm.trans h)⟩
  | float bits =>
    cases h
    refine ⟨_, _, rfl, ?_⟩
    have hl : (packDouble bits).length = 8 := leBytes_length 8 _
    rw [readOne, if_neg (by rw [List.length_append]; omega), List.take_left' hl, List.drop_left' hl]
    unfold packDouble
    rw [leNat_leBytes, Nat.mod_eq_of_lt]
    exact lt_of_lt_of_eq bits.toNat_lt (by norm_num)
  | str s =>
    refine ⟨_, _, rfl, ?_⟩
    rw [serialiseToBytes] at h
    obtain ⟨u, hs, h⟩ := bind_ok h
    obtain ⟨len, hl, h⟩ := bind_ok h
    cases h
    obtain ⟨h1, h2⟩ := fromBytes_toBytes hl
    rw [readOne, List.append_assoc, if_neg (by rw [List.length_append]; omega), List.take_left' h2,
      List.drop_left' h2, h1]
    simp only [Int.toNat_natCast, List.take_left, List.drop_left]
    rw [utf8Decode_utf8 s u hs]
    rfl
  | other => cases h

/-- **C17** Whatever sequence of ints, bools, floats and strings is written to a stream without an
exception, a reader that knows the kinds recovers exactly the values and leaves exactly what was
written after them. -/
theorem C17_round_trip (vs : List PyVal) (rest : Bytes) (h : (writeAll vs).err = none) :
    ∃ kvs, vs.mapM kindOf = some kvs ∧
      readAll (kvs.map (·.1)) ((writeAll vs).out ++ rest) = some (kvs.map (·.2), rest) := by
  induction vs generalizing rest with
  | nil => exact ⟨[], rfl, rfl⟩
  | cons v vs ih =>
    rw [writeAll] at h ⊢
    cases hv : serialiseToBytes v with
    | error e => rw [hv] at h; cases h
    | ok b =>
      rw [hv] at h
      obtain ⟨kvs, h1, h2⟩ := ih rest h
      obtain ⟨k, x, hk, hr⟩ := readOne_ok v b ((writeAll vs).out ++ rest) hv
      refine ⟨(k, x) :: kvs, ?_, ?_⟩
      · rw [List.mapM_cons, hk, h1]; rfl
      · show readAll (k :: kvs.map (·.1)) ((b ++ (writeAll vs).out) ++ rest) = _
        rw [List.append_assoc, readAll, hr]
        simp only [Option.bind_eq_bind, Option.bind_some, h2]
        rfl

/-- **C17** An int is written (in 4 bytes) exactly when it lies in the signed 32-bit range;
otherwise `OverflowError`. -/
theorem C17_int_range (v : Int) :
    (-2147483648 ≤ v ∧ v ≤ 2147483647 → ∃ b, serialiseToBytes (.int v) = .ok b ∧ b.length = 4) ∧
    (¬ (-2147483648 ≤ v ∧ v ≤ 2147483647) → serialiseToBytes (.int v) = .error .overflowError) := by
  constructor
  · intro h
    obtain ⟨b, hb⟩ := toBytes4_ok v h
    exact ⟨b, (ser_int v).trans hb, (fromBytes_toBytes hb).2⟩
  · intro h
    exact (ser_int v).trans (toBytes4_error v h)

/-- **C17** Floats never fail; anything but int, float and str raises `TypeError`. -/
theorem C17_float_and_other (bits : UInt64) :
    (∃ b, serialiseToBytes (.float bits) = .ok b ∧ b.length = 8) ∧
    serialiseToBytes .other = .error .typeError :=
  ⟨⟨_, rfl, leBytes_length 8 _⟩, rfl⟩

/-- **C17** A string is written exactly when it has no surrogate code point and its UTF-8 form has
fewer than 2^31 bytes. -/
theorem C17_str_ok (s : List Nat) (hs : ∀ c ∈ s, c < 0xD800 ∨ (0xE000 ≤ c ∧ c < 0x110000))
    (hl : 4 * s.length < 2147483648) : ∃ b, serialiseToBytes (.str s) = .ok b := by
  have hu : ∃ u, utf8 s = .ok u ∧ u.length ≤ 4 * s.length := by
    clear hl
    induction s with
    | nil => exact ⟨[], rfl, le_refl _⟩
    | cons c cs ih =>
      obtain ⟨u, h1, h2⟩ := ih fun c hc => hs c (List.mem_cons_of_mem _ hc)
      have hc := hs c (List.mem_cons_self ..)
      have : ∃ b, utf8Char c = .ok b ∧ b.length ≤ 4 := by
        unfold utf8Char
        by_cases a1 : c < 0x80
        · rw [if_pos a1]; exact ⟨_, rfl, by simp⟩
        rw [if_neg a1]
        by_cases a2 : c < 0x800
        · rw [if_pos a2]; exact ⟨_, rfl, by simp⟩
        rw [if_neg a2, if_neg (by omega)]
        by_cases a3 : c < 0x10000
        · rw [if_pos a3]; exact ⟨_, rfl, by simp⟩
        rw [if_neg a3, if_pos (by omega)]
        exact ⟨_, rfl, by simp⟩
      obtain ⟨b, hb, hbl⟩ := this
      refine ⟨b ++ u, ?_, ?_⟩
      · rw [utf8, hb, h1]; rfl
      · rw [List.length_append, List.length_cons]; omega
  obtain ⟨u, h1, h2⟩ := hu
  obtain ⟨p, hp⟩ := toBytes4_ok (u.length : Int) (by omega)
  refine ⟨p ++ u, ?_⟩
  rw [serialiseToBytes]
  refine (bind_of_ok h1 _).trans ?_
  exact (bind_of_ok hp _).trans rfl

/-- **C17** A surrogate raises `UnicodeEncodeError` (a `ValueError`), wherever it stands. -/
theorem C17_str_surrogate (s t : List Nat) (c : Nat) (hc : 0xD800 ≤ c ∧ c < 0xE000)
    (hs : ∀ c ∈ s, c < 0xD800 ∨ (0xE000 ≤ c ∧ c < 0x110000)) :
    serialiseToBytes (.str (s ++ c :: t)) = .error .valueError := by
  have : utf8 (s ++ c :: t) = .error .valueError := by
    induction s with
    | nil =>
      show utf8 (c :: t) = _
      unfold utf8 utf8Char
      rw [if_neg (by omega), if_neg (by omega), if_pos hc]
      rfl
    | cons d s ih =>
      have hd := hs d (List.mem_cons_self ..)
      have h2 := ih fun c hc => hs c (List.mem_cons_of_mem _ hc)
      show utf8 (d :: (s ++ c :: t)) = _
      unfold utf8
      rw [h2]
      have : ∃ b, utf8Char d = .ok b := by
        unfold utf8Char
        by_cases a1 : d < 0x80
        · rw [if_pos a1]; exact ⟨_, rfl⟩
        rw [if_neg a1]
        by_cases a2 : d < 0x800
        · rw [if_pos a2]; exact ⟨_, rfl⟩
        rw [if_neg a2, if_neg (by omega)]
        by_cases a3 : d < 0x10000
        · rw [if_pos a3]; exact ⟨_, rfl⟩
        rw [if_neg a3, if_pos (by omega)]
        exact ⟨_, rfl⟩
      obtain ⟨b, hb⟩ := this
      rw [hb]
      rfl
  rw [serialiseToBytes]
  rw [this]
  rfl

/-- Non-vacuity: a stream holding a negative int, a float, a string with 1-, 2-, 3- and 4-byte
characters and a bool is written without exception. -/
example : writeAll [.int (-2), .float 0x3FF0000000000000, .str [65, 0xE9, 0x20AC, 0x1F600], .bool true] =
    ⟨[254, 255, 255, 255, 0, 0, 0, 0, 0, 0, 240, 63, 10, 0, 0, 0, 65, 195, 169, 226, 130, 172,
      240, 159, 152, 128, 1, 0, 0, 0], none⟩ := by decide +kernel

/-! ## C18 -/

/-- The entries of a matrix row by row. -/
def rowMajor (M : Mat UInt64) : List UInt64 := (List.ofFn fun i => List.ofFn fun j => M.data i j).flatten

theorem matrixState_eq (M : Mat UInt64) :
    matrixState M = writeAll (.int M.rows :: .int M.cols :: (rowMajor M).map PyVal.float) := by
  unfold matrixState rowMajor
  rw [List.map_flatten, List.map_ofFn]
  congr 5
  funext i
  show _ = List.map PyVal.float (List.ofFn fun j => M.data i j)
  rw [List.map_ofFn]
  rfl

theorem writeAll_floats (l : List UInt64) :
    writeAll (l.map PyVal.float) = ⟨(l.map packDouble).flatten, none⟩ := by
  induction l with
  | nil => rfl
  | cons a l ih => simp [writeAll, serialiseToBytes, ih]

theorem rowMajor_length (M : Mat UInt64) : (rowMajor M).length = M.rows * M.cols := by
  unfold rowMajor
  rw [List.length_flatten, List.map_ofFn]
  have : (List.length ∘ fun i => List.ofFn fun j => M.data i j) = fun _ : Fin M.rows => M.cols := by
    funext i; simp
  rw [this, List.sum_ofFn]
  simp

theorem flat_length (l : List UInt64) : (l.map packDouble).flatten.length = 8 * l.length := by
  induction l with
  | nil => rfl
  | cons a l ih =>
    rw [List.map_cons, List.flatten_cons, List.length_append, ih, List.length_cons]
    have : (packDouble a).length = 8 := leBytes_length 8 _
    omega

/-- **C18** The byte form of every matrix whose two dimensions fit in 32 bits: 4 bytes for the number
of rows, 4 bytes for the number of columns, then 8 bytes per entry, row by row; its length is
`8 + 8·rows·cols` and no exception is raised. -/
theorem C18_layout (M : Mat UInt64) (hr : M.rows < 2147483648) (hc : M.cols < 2147483648) :
    ∃ r c, (matrixState M) = ⟨r ++ c ++ ((rowMajor M).map packDouble).flatten, none⟩ ∧
      r.length = 4 ∧ c.length = 4 ∧ fromBytes r = M.rows ∧ fromBytes c = M.cols ∧
      (matrixState M).out.length = 8 + 8 * (M.rows * M.cols) := by
  obtain ⟨r, h1⟩ := toBytes4_ok (M.rows : Int) (by omega)
  rw [← ser_int] at h1
  obtain ⟨c, h2⟩ := toBytes4_ok (M.cols : Int) (by omega)
  rw [← ser_int] at h2
  obtain ⟨e1, l1⟩ := fromBytes_toBytes ((ser_int _).symm.trans h1)
  obtain ⟨e2, l2⟩ := fromBytes_toBytes ((ser_int _).symm.trans h2)
  have hs : matrixState M = ⟨r ++ c ++ ((rowMajor M).map packDouble).flatten, none⟩ := by
    rw [matrixState_eq]
    rw [writeAll_ok h1, writeAll_ok h2, writeAll_floats, List.append_assoc]
  refine ⟨r, c, hs, l1, l2, e1, e2, ?_⟩
  rw [hs]
  simp only [List.length_append, flat_length, rowMajor_length]
  omega

/-- Decoder for matrices. -/
def readMatrix (b : Bytes) : Option (Nat × Nat × List Nat) := do
  let (v, b) ← readOne .int b
  let (w, b) ← readOne .int b
  match v, w with
  | .int r, .int c =>
    let (vs, _) ← readAll (List.replicate (r.toNat * c.toNat) .float) b
    return (r.toNat, c.toNat, vs.filterMap fun | .float x => some x | _ => none)
  | _, _ => none

/-- **C18** Decoding recovers the shape and the 64-bit pattern of every entry. -/
theorem C18_decode (M : Mat UInt64) (rest : Bytes) (hr : M.rows < 2147483648)
    (hc : M.cols < 2147483648) :
    readMatrix ((matrixState M).out ++ rest) = some (M.rows, M.cols, (rowMajor M).map (·.toNat)) := by
  obtain ⟨r, h1⟩ := toBytes4_ok (M.rows : Int) (by omega)
  rw [← ser_int] at h1
  obtain ⟨c, h2⟩ := toBytes4_ok (M.cols : Int) (by omega)
  rw [← ser_int] at h2
  have hs : (matrixState M).out = r ++ (c ++ (writeAll ((rowMajor M).map PyVal.float)).out) := by
    rw [matrixState_eq]
    rw [writeAll_ok h1, writeAll_ok h2]
  rw [hs]
  obtain ⟨k, x, hk, hx⟩ := readOne_ok (.int M.rows) r
    ((c ++ (writeAll ((rowMajor M).map PyVal.float)).out) ++ rest) h1
  obtain ⟨k', x', hk', hx'⟩ := readOne_ok (.int M.cols) c
    ((writeAll ((rowMajor M).map PyVal.float)).out ++ rest) h2
  cases hk; cases hk'
  have hf : (writeAll ((rowMajor M).map PyVal.float)).err = none := by rw [writeAll_floats]
  obtain ⟨kvs, e1, e2⟩ := C17_round_trip _ rest hf
  have hkvs : kvs = (rowMajor M).map fun b => (Kind.float, Value.float b.toNat) := by
    clear * - e1
    generalize rowMajor M = l at e1
    induction l generalizing kvs with
    | nil => cases e1; rfl
    | cons a l ih =>
      rw [List.map_cons, List.mapM_cons] at e1
      cases hl : (l.map PyVal.float).mapM kindOf with
      | none => rw [hl] at e1; cases e1
      | some ks =>
        rw [hl] at e1
        cases e1
        rw [ih ks hl]
        rfl
  subst hkvs
  rw [List.map_map, List.map_map] at e2
  have hrep : (rowMajor M).map (Prod.fst ∘ fun b => (Kind.float, Value.float b.toNat)) =
      List.replicate (M.rows * M.cols) Kind.float := by
    rw [← rowMajor_length, ← List.map_const']
    rfl
  rw [hrep] at e2
  unfold readMatrix
  rw [List.append_assoc, hx]
  simp only [Option.bind_eq_bind, Option.bind_some]
  rw [List.append_assoc, hx']
  simp only [Option.bind_some, Int.toNat_natCast, e2]
  simp [List.filterMap_map, Function.comp_def]

theorem flatten_ofFn_getElem? {r c : Nat} (d : Matrix (Fin r) (Fin c) UInt64) (i : Fin r) (j : Fin c) :
    ((List.ofFn fun i => List.ofFn fun j => d i j).flatten)[i.1 * c + j.1]? = some (d i j) := by
  induction r with
  | zero => exact i.elim0
  | succ r ih =>
    rw [List.ofFn_succ, List.flatten_cons]
    refine Fin.cases ?_ (fun i => ?_) i
    · rw [List.getElem?_append_left (by simp)]
      simp
    · rw [List.getElem?_append_right (by simp; nlinarith [i.2])]
      have := ih (fun i j => d i.succ j) i
      rw [← this]
      congr 1
      simp only [List.length_ofFn, Fin.val_succ]
      rw [Nat.succ_mul]
      omega

/-- **C18** The encoding is injective: matrices with equal byte forms are equal. -/
theorem C18_injective (M N : Mat UInt64) (hM : M.rows < 2147483648 ∧ M.cols < 2147483648)
    (hN : N.rows < 2147483648 ∧ N.cols < 2147483648)
    (h : (matrixState M).out = (matrixState N).out) : M = N := by
  have e1 := C18_decode M [] hM.1 hM.2
  have e2 := C18_decode N [] hN.1 hN.2
  rw [h, e2] at e1
  simp only [Option.some.injEq, Prod.mk.injEq] at e1
  obtain ⟨a, b, c⟩ := e1
  obtain ⟨r, cc, d⟩ := M
  obtain ⟨r', c', d'⟩ := N
  simp only at a b
  subst a; subst b
  clear e2 h hM hN
  suffices hd : d = d' by rw [hd]
  have hinj : Function.Injective (UInt64.toNat) := fun x y hxy => UInt64.toNat_inj.1 hxy
  have c := List.map_injective_iff.2 hinj c
  unfold rowMajor at c
  ext i j
  have get : ∀ d : Matrix (Fin r') (Fin c') UInt64,
      ((List.ofFn fun i => List.ofFn fun j => d i j).flatten)[i.1 * c' + j.1]? = some (d i j) := by
    intro d
    exact flatten_ofFn_getElem? d i j
  have h1 := get d
  have h2 := get d'
  simp only at c
  rw [c] at h2
  rw [h2] at h1
  exact congrArg UInt64.toNat (Option.some.inj h1).symm

/-- **C18** A dimension of 2^31 or more raises `OverflowError`. -/
theorem C18_overflow (M : Mat UInt64) (h : 2147483648 ≤ M.rows ∨ 2147483648 ≤ M.cols) :
    (matrixState M).err = some .overflowError := by
  rw [matrixState_eq]
  by_cases hr : M.rows < 2147483648
  · obtain ⟨r, h1⟩ := toBytes4_ok (M.rows : Int) (by omega)
    rw [← ser_int] at h1
    have h2 : serialiseToBytes (.int M.cols) = .error .overflowError :=
      (C17_int_range M.cols).2 (by omega)
    rw [writeAll_ok h1, writeAll_error h2]
  · have h1 : serialiseToBytes (.int M.rows) = .error .overflowError :=
      (C17_int_range M.rows).2 (by omega)
    rw [writeAll_error h1]

example : (⟨2, 3, fun i j => UInt64.ofNat (i.1 * 3 + j.1)⟩ : Mat UInt64).rows < 2147483648 := by
  show 2 < _; omega

/-! ## C19 -/

/-- **C19 (violation)** Whatever an object writes, `get_serialised_state` returns the empty byte
string: the stream is read from its end. -/
theorem C19_always_empty_violation (w : Written) (h : w.err = none) :
    getSerialisedState w = .ok [] := by
  unfold getSerialisedState
  rw [h]
  simp [BytesIO.read, BytesIO.write, BytesIO.new]

/-- **C19 (partial)** The result is the serialised state exactly when that state is empty, and an
exception raised while serialising is passed on.  Missing: every non-empty state. -/
theorem C19_state_partial (w : Written) :
    (∀ e, w.err = some e → getSerialisedState w = .error e) ∧
    (w.err = none → (getSerialisedState w = .ok w.out ↔ w.out = [])) := by
  constructor
  · intro e h
    unfold getSerialisedState
    rw [h]
  · intro h
    rw [C19_always_empty_violation w h]
    constructor
    · intro h; exact (Except.ok.inj h).symm
    · intro h; rw [h]

/-- In particular for every matrix: its serialised state has at least eight bytes, the method returns
none of them. -/
theorem C19_matrix_violation (M : Mat UInt64) (hr : M.rows < 2147483648) (hc : M.cols < 2147483648) :
    getSerialisedState (matrixState M) = .ok [] ∧ (matrixState M).out ≠ [] := by
  obtain ⟨r, c, h, h1, _, _, _, hl⟩ := C18_layout M hr hc
  refine ⟨C19_always_empty_violation _ (by rw [h]), ?_⟩
  intro h0
  rw [h0] at hl
  simp only [List.length_nil] at hl
  omega

/-! ## C20 -/

/-- The integers whose magnitude uses its top byte completely, other than `-2^(8k-1)`. -/
def FullTopByte (v : Int) : Prop :=
  ∃ k : Nat, 0 < k ∧ 2 ^ (8 * k - 1) ≤ v.natAbs ∧ v.natAbs < 2 ^ (8 * k) ∧ v ≠ -(2 ^ (8 * k - 1) : Nat)

theorem bitLength_spec (v : Int) (hv : v ≠ 0) :
    0 < bitLength v ∧ 2 ^ (bitLength v - 1) ≤ v.natAbs ∧ v.natAbs < 2 ^ bitLength v := by
  have h0 : v.natAbs ≠ 0 := by omega
  unfold bitLength
  rw [if_neg h0]
  exact ⟨by omega, Nat.log2_self_le h0, Nat.lt_log2_self⟩

/-- The number of bytes `serialise_big_int` uses. -/
theorem bigInt_fits (v : Int) :
    let k := bitLength v / 8 + if bitLength v % 8 ≠ 0 then 1 else 0
    (-(2 ^ (8 * k) : Nat) ≤ 2 * v ∧ 2 * v < (2 ^ (8 * k) : Nat)) ↔ ¬ FullTopByte v := by
  intro k
  by_cases hv : v = 0
  · subst hv
    refine iff_of_true ?_ ?_
    · have : 0 < 2 ^ (8 * k) := by positivity
      omega
    · rintro ⟨k, hk, h1, -, -⟩
      have : 0 < 2 ^ (8 * k - 1) := by positivity
      simp only [Int.natAbs_zero] at h1
      omega
  obtain ⟨hb, hlo, hhi⟩ := bitLength_spec v hv
  by_cases hm : bitLength v % 8 = 0
  · have hk : 8 * k = bitLength v := by
      show 8 * (bitLength v / 8 + if bitLength v % 8 ≠ 0 then 1 else 0) = _
      rw [if_neg (by omega)]; omega
    have hk0 : 0 < k := by omega
    have e : 2 ^ (8 * k) = 2 * 2 ^ (8 * k - 1) := by
      rw [← pow_succ']; congr 1; omega
    rw [← hk] at hlo hhi
    constructor
    · rintro ⟨h1, h2⟩ ⟨k', hk', h1', h2', h3'⟩
      have hkk : k' = k := by
        have a := (Nat.pow_lt_pow_iff_right (a := 2) (by norm_num)).1 (lt_of_le_of_lt h1' hhi)
        have b := (Nat.pow_lt_pow_iff_right (a := 2) (by norm_num)).1 (lt_of_le_of_lt hlo h2')
        omega
      rw [hkk] at h3'
      rw [e] at h1 h2 hhi
      clear h1' h2' hk e
      generalize 2 ^ (8 * k - 1) = N at *
      omega
    · intro hn
      by_contra hc
      apply hn
      refine ⟨k, hk0, hlo, hhi, ?_⟩
      intro hve
      apply hc
      rw [e, hve]
      clear hve hc hn hlo hhi e
      have : 0 < 2 ^ (8 * k - 1) := by positivity
      generalize 2 ^ (8 * k - 1) = N at *
      omega
  · have hk : bitLength v + 1 ≤ 8 * k := by
      show _ ≤ 8 * (bitLength v / 8 + if bitLength v % 8 ≠ 0 then 1 else 0)
      rw [if_pos hm]; omega
    refine iff_of_true ?_ ?_
    · have : 2 ^ (bitLength v + 1) ≤ 2 ^ (8 * k) := Nat.pow_le_pow_right (by norm_num) hk
      rw [pow_succ] at this
      generalize 2 ^ (8 * k) = N at *
      generalize 2 ^ bitLength v = B at *
      omega
    · rintro ⟨k', hk', h1', h2', h3'⟩
      have a := (Nat.pow_lt_pow_iff_right (a := 2) (by norm_num)).1 (lt_of_le_of_lt h1' hhi)
      have b := (Nat.pow_lt_pow_iff_right (a := 2) (by norm_num)).1 (lt_of_le_of_lt hlo h2')
      omega

/-- **C20 (partial)** Every integer that is not of the exceptional form (and whose magnitude has fewer
than `2^34 - 8` bits, so that the length prefix fits) is encoded as a 4-byte length followed by that
many two's complement bytes, and decodes to itself.  Missing: the integers of `FullTopByte`, for
which the function raises, see the violation. -/
theorem C20_big_int_partial (v : Int) (h : ¬ FullTopByte v) (hs : bitLength v < 8 * 2147483647) :
    ∃ p b, serialiseBigInt v = .ok (p ++ b) ∧ p.length = 4 ∧ fromBytes p = b.length ∧
      fromBytes b = v := by
  obtain ⟨b, hb⟩ := (toBytes_ok_iff _ v).2 ((bigInt_fits v).2 h)
  obtain ⟨e1, l1⟩ := fromBytes_toBytes hb
  obtain ⟨p, hp⟩ := toBytes4_ok
    ((bitLength v / 8 + if bitLength v % 8 ≠ 0 then 1 else 0 : Nat) : Int) (by split <;> omega)
  obtain ⟨e2, l2⟩ := fromBytes_toBytes hp
  refine ⟨p, b, ?_, l2, ?_, e1⟩
  · rw [serialiseBigInt]
    refine (bind_of_ok hb _).trans ?_
    exact (bind_of_ok hp _).trans rfl
  · rw [e2, l1]

/-- **C20 (violation)** For *every* integer of the exceptional form — one in 128 of the positive
integers of each byte length has a full top byte: 128…255, 32768…65535, … and −255…−129, … — the
function raises `OverflowError` instead of encoding it. -/
theorem C20_full_top_byte_violation (v : Int) (h : FullTopByte v) :
    serialiseBigInt v = .error .overflowError := by
  rw [serialiseBigInt]
  refine bind_of_error ?_ _
  rw [toBytes, if_neg]
  intro hc
  exact (bigInt_fits v).1 hc h

/-- The exceptional integers below one byte: 128…255 and −255…−129. -/
theorem C20_one_byte_violation (v : Int) (h : (128 ≤ v ∧ v ≤ 255) ∨ (-255 ≤ v ∧ v ≤ -129)) :
    serialiseBigInt v = .error .overflowError :=
  C20_full_top_byte_violation v ⟨1, by norm_num, by norm_num; omega, by norm_num; omega, by norm_num; omega⟩

/-- The hypotheses of the partial theorem hold for large integers, e.g. `2^62` and `-2^63`. -/
example : serialiseBigInt (2 ^ 62) = .ok [8, 0, 0, 0, 0, 0, 0, 0, 0, 0, 0, 64] ∧
    serialiseBigInt (-2 ^ 63) = .ok [8, 0, 0, 0, 0, 0, 0, 0, 0, 0, 0, 128] ∧
    serialiseBigInt 0 = .ok [0, 0, 0, 0] := by
  refine ⟨?_, ?_, ?_⟩ <;> decide +kernel

/-! ## C21 -/

theorem segs_append (a b : List Char) : segs (a ++ '/' :: b) = segs a ++ segs b := by
  induction a with
  | nil => simp [segs]
  | cons c t ih =>
    by_cases hc : c = '/'
    · simp [segs, hc, ih]
    · simp only [List.cons_append, segs, if_neg hc, ih]
      cases hs : segs t with
      | nil =>
        exfalso
        cases t with
        | nil => simp [segs] at hs
        | cons d t =>
          by_cases hd : d = '/'
          · simp [segs, hd] at hs
          · simp only [segs, if_neg hd] at hs
            cases hs' : segs t <;> simp [hs'] at hs
      | cons h r => rfl

theorem segs_noslash (b : List Char) (h : '/' ∉ b) : segs b = [b] := by
  induction b with
  | nil => rfl
  | cons c t ih =>
    have hc : c ≠ '/' := fun e => h (by simp [e])
    simp only [segs, if_neg hc, ih fun h' => h (List.mem_cons_of_mem _ h')]

theorem comps_append (a b : List Char) : comps (a ++ '/' :: b) = comps a ++ comps b := by
  unfold comps
  rw [segs_append, List.filter_append]

theorem comps_slash (a : List Char) : comps (a ++ ['/']) = comps a := by
  rw [comps_append]; simp [comps, segs]

theorem comps_strip (a : List Char) (n : Nat) : comps (a ++ List.replicate n '/') = comps a := by
  induction n with
  | zero => simp
  | succ n ih => rw [List.replicate_succ', ← List.append_assoc, comps_slash, ih]

/-- Stripping trailing slashes. -/
theorem strip_spec (h : List Char) : ∃ n, h = (h.reverse.dropWhile (· = '/')).reverse ++ List.replicate n '/' := by
  have e := List.takeWhile_append_dropWhile (p := (· = '/')) (l := h.reverse)
  refine ⟨(h.reverse.takeWhile (· = '/')).length, ?_⟩
  have e' := congrArg List.reverse e
  rw [List.reverse_append, List.reverse_reverse] at e'
  conv_lhs => rw [← e']
  congr 1
  rw [List.eq_replicate_iff]
  refine ⟨by simp, ?_⟩
  intro b hb
  have := List.mem_takeWhile_imp (List.mem_reverse.1 hb)
  simpa using this

theorem head_cons (d base : List Char) (hb : '/' ∉ base) :
    ((d ++ '/' :: base).reverse.dropWhile (· ≠ '/')).reverse = d ++ ['/'] := by
  have h1 : (d ++ '/' :: base).reverse = base.reverse ++ '/' :: d.reverse := by simp
  rw [h1, List.dropWhile_append_of_pos]
  · simp
  · intro c hc
    simp only [ne_eq, decide_not, Bool.not_eq_true', decide_eq_false_iff_not]
    rintro rfl
    exact hb (List.mem_reverse.1 hc)

/-- `dirname` of a path with a directory part: not empty, same anchor, same components. -/
theorem dirname_spec (fs : FS) (d base : List Char) (hb : '/' ∉ base) :
    dirname (d ++ '/' :: base) ≠ [] ∧ comps (dirname (d ++ '/' :: base)) = comps d ∧
    anchor fs (dirname (d ++ '/' :: base)) = anchor fs (d ++ '/' :: base) := by
  have hanch : ∀ x : List Char, x ≠ [] → (∃ n, d ++ ['/'] = x ++ List.replicate n '/') →
      anchor fs x = anchor fs (d ++ '/' :: base) := by
    rintro x hx ⟨n, hn⟩
    have e1 : (d ++ '/' :: base).head? = (d ++ ['/']).head? := by cases d <;> rfl
    unfold anchor
    rw [e1, hn]
    cases x with
    | nil => exact absurd rfl hx
    | cons c t => rfl
  unfold dirname
  simp only [head_cons d base hb]
  split
  · exact ⟨by simp, comps_slash d, hanch _ (by simp) ⟨0, by simp⟩⟩
  · next hall =>
    obtain ⟨n, hn⟩ := strip_spec (d ++ ['/'])
    have hne : ((d ++ ['/']).reverse.dropWhile (· = '/')).reverse ≠ [] := by
      intro h0
      rw [h0] at hn
      apply hall
      rw [hn]
      simp
    refine ⟨hne, ?_, hanch _ hne ⟨n, hn⟩⟩
    rw [← comps_strip _ n, ← hn, comps_slash]

/-- The effect of `makedirs` when no file is in the way. -/
theorem makeDirs_spec (cs : List Name) (fs : FS) (p : Path)
    (hno : ∀ k, 0 < k → k ≤ cs.length → fs.file (p ++ cs.take k) = none) :
    ∃ fs', makeDirs fs p cs = (fs', none) ∧ fs'.file = fs.file ∧ fs'.cwd = fs.cwd ∧
      ∀ q, fs'.isDir q = true ↔ (fs.isDir q = true ∨ ∃ k, 0 < k ∧ k ≤ cs.length ∧ q = p ++ cs.take k) := by
  induction cs generalizing fs p with
  | nil =>
    refine ⟨fs, rfl, rfl, rfl, fun q => ⟨Or.inl, ?_⟩⟩
    rintro (h | ⟨k, h1, h2, _⟩)
    · exact h
    · simp at h2; omega
  | cons c cs ih =>
    have h1 : fs.file (p ++ [c]) = none := hno 1 (by omega) (by simp)
    rw [makeDirs, if_neg (by rw [h1]; simp)]
    obtain ⟨fs', e1, e2, e3, e4⟩ := ih
      { fs with isDir := fun q => decide (q = p ++ [c]) || fs.isDir q } (p ++ [c]) (by
        intro k hk hk'
        have := hno (k + 1) (by omega) (by simp; omega)
        simpa using this)
    refine ⟨fs', e1, e2, e3, fun q => ?_⟩
    rw [e4]
    simp only [Bool.or_eq_true, decide_eq_true_eq]
    constructor
    · rintro ((h | h) | ⟨k, h1, h2, h3⟩)
      · exact Or.inr ⟨1, by omega, by simp, by simpa using h⟩
      · exact Or.inl h
      · exact Or.inr ⟨k + 1, by omega, by simp; omega, by simpa using h3⟩
    · rintro (h | ⟨k, h1, h2, h3⟩)
      · exact Or.inl (Or.inr h)
      · obtain ⟨k, rfl⟩ : ∃ j, k = j + 1 := ⟨k - 1, by omega⟩
        by_cases hk : k = 0
        · subst hk; exact Or.inl (Or.inl (by simpa using h3))
        · exact Or.inr ⟨k, by omega, by simp at h2; omega, by simpa using h3⟩

/-- What `save_state` does for a filename `d/base`, whether or not serialising succeeds. -/
theorem saveState_spec (fs : FS) (d base : List Char) (hb : base ≠ []) (hb' : '/' ∉ base) (w : Written)
    (hroot : fs.isDir (anchor fs (d ++ '/' :: base)) = true)
    (hno : ∀ k, 0 < k → k ≤ (comps d).length →
      fs.file (anchor fs (d ++ '/' :: base) ++ (comps d).take k) = none)
    (hnd : fs.isDir (anchor fs (d ++ '/' :: base) ++ comps d ++ [base]) = false) :
    ∃ fs', saveState fs (d ++ '/' :: base) w = (fs', w.err) ∧
      fs'.file (anchor fs (d ++ '/' :: base) ++ comps d ++ [base]) = some w.out ∧
      (∀ q, q ≠ anchor fs (d ++ '/' :: base) ++ comps d ++ [base] → fs'.file q = fs.file q) ∧
      fs'.isDir (anchor fs (d ++ '/' :: base) ++ comps d) = true ∧
      (∀ q, fs.isDir q = true → fs'.isDir q = true) ∧
      (∀ q, fs'.isDir q = true → fs.isDir q = true ∨
        ∃ k, k ≤ (comps d).length ∧ q = anchor fs (d ++ '/' :: base) ++ (comps d).take k) := by
  obtain ⟨h1, h2, h3⟩ := dirname_spec fs d base hb'
  set a := anchor fs (d ++ '/' :: base) with ha
  have hres : ∀ fs₁ : FS, fs₁.cwd = fs.cwd → resolve fs₁ (d ++ '/' :: base) = a ++ comps d ++ [base] := by
    intro fs₁ hc
    unfold resolve
    have : anchor fs₁ (d ++ '/' :: base) = a := by rw [ha]; unfold anchor; rw [hc]
    rw [this, comps_append]
    have : comps base = [base] := by
      unfold comps; rw [segs_noslash base hb']; simp [hb]
    rw [this, List.append_assoc]
  have hlast : (d ++ '/' :: base).getLast? ≠ some '/' := by
    obtain ⟨x, b, rfl⟩ : ∃ x b, base = b ++ [x] := by
      refine ⟨base.getLast hb, base.dropLast, ?_⟩
      rw [List.dropLast_append_getLast]
    intro h
    have : (d ++ '/' :: (b ++ [x])).getLast? = some x := by
      rw [← List.cons_append, ← List.append_assoc, List.getLast?_append]
      simp
    rw [this] at h
    cases h
    exact hb' (by simp)
  have hopen : ∀ fs₁ : FS, fs₁.cwd = fs.cwd → fs₁.isDir (a ++ comps d) = true →
      fs₁.isDir (a ++ comps d ++ [base]) = false →
      openWrite fs₁ (d ++ '/' :: base) w =
        ({ fs₁ with file := fun q => if q = a ++ comps d ++ [base] then some w.out else fs₁.file q },
          w.err) := by
    intro fs₁ hc hd hf
    have hne : d ++ '/' :: base ≠ [] := by simp
    unfold openWrite
    rw [if_neg hne, hres fs₁ hc, if_neg (by rw [hf, Bool.or_false, decide_eq_true_eq]; exact hlast), List.dropLast_concat, if_pos hd]
  unfold saveState
  simp only []
  by_cases hex : pathExists fs (dirname (d ++ '/' :: base)) = true
  · rw [if_pos hex]
    have hdir : fs.isDir (a ++ comps d) = true := by
      unfold pathExists at hex
      have hr : resolve fs (dirname (d ++ '/' :: base)) = a ++ comps d := by
        unfold resolve; rw [h2, h3]
      rw [hr] at hex
      by_cases hz : comps d = []
      · rw [hz, List.append_nil]; exact hroot
      · have := hno (comps d).length (List.length_pos_of_ne_nil hz) (le_refl _)
        rw [List.take_length] at this
        rw [this] at hex
        simpa [h1] using hex
    refine ⟨_, hopen fs rfl hdir hnd, if_pos rfl, fun q hq => if_neg hq, hdir, fun q h => h, ?_⟩
    intro q h
    exact Or.inl h
  · rw [if_neg hex]
    unfold makedirs
    rw [if_neg h1, h2, h3]
    obtain ⟨fs', e1, e2, e3, e4⟩ := makeDirs_spec (comps d) fs a hno
    rw [e1]
    simp only []
    have hdir : fs'.isDir (a ++ comps d) = true := by
      rw [e4]
      by_cases hz : comps d = []
      · left; rw [hz, List.append_nil]; exact hroot
      · right
        exact ⟨_, List.length_pos_of_ne_nil hz, le_refl _, by rw [List.take_length]⟩
    have hfile : fs'.isDir (a ++ comps d ++ [base]) = false := by
      rw [Bool.eq_false_iff]
      intro h
      rcases (e4 _).1 h with h | ⟨k, _, hk, he⟩
      · rw [hnd] at h; cases h
      · have := congrArg List.length he
        simp only [List.length_append, List.length_take, List.length_cons, List.length_nil] at this
        omega
    refine ⟨_, hopen fs' e3 hdir hfile, if_pos rfl, fun q hq => ?_, hdir, ?_, ?_⟩
    · show (if _ then _ else fs'.file q) = _
      rw [if_neg hq, e2]
    · intro q h
      exact (e4 q).2 (Or.inl h)
    · intro q h
      rcases (e4 q).1 h with h | ⟨k, _, hk, he⟩
      · exact Or.inl h
      · exact Or.inr ⟨k, hk, he⟩

/-- **C21 (partial)** Saving an object to `d/base`, where `d` may name any number of missing
directories: provided the starting point (root or working directory) exists, no file stands where a
directory is needed and the target is not a directory, `save_state` succeeds, the target holds
exactly the bytes written by `serialise_state`, every other file is unchanged, the parent directory
exists, and directories were created only on the way to it.
Missing: filenames without a directory part, see the violation. -/
theorem C21_save_partial (fs : FS) (d base : List Char) (hb : base ≠ []) (hb' : '/' ∉ base)
    (w : Written) (hw : w.err = none)
    (hroot : fs.isDir (anchor fs (d ++ '/' :: base)) = true)
    (hno : ∀ k, 0 < k → k ≤ (comps d).length →
      fs.file (anchor fs (d ++ '/' :: base) ++ (comps d).take k) = none)
    (hnd : fs.isDir (anchor fs (d ++ '/' :: base) ++ comps d ++ [base]) = false) :
    ∃ fs', saveState fs (d ++ '/' :: base) w = (fs', none) ∧
      fs'.file (anchor fs (d ++ '/' :: base) ++ comps d ++ [base]) = some w.out ∧
      (∀ q, q ≠ anchor fs (d ++ '/' :: base) ++ comps d ++ [base] → fs'.file q = fs.file q) ∧
      fs'.isDir (anchor fs (d ++ '/' :: base) ++ comps d) = true ∧
      (∀ q, fs.isDir q = true → fs'.isDir q = true) ∧
      (∀ q, fs'.isDir q = true → fs.isDir q = true ∨
        ∃ k, k ≤ (comps d).length ∧ q = anchor fs (d ++ '/' :: base) ++ (comps d).take k) := by
  have := saveState_spec fs d base hb hb' w hroot hno hnd
  rw [hw] at this
  exact this

/-- **C21 (violation)** For *every* filename without a slash, on every file system and for every
object, `save_state` raises `FileNotFoundError` (from `os.makedirs('')`) and writes nothing. -/
theorem C21_no_directory_violation (fs : FS) (filename : List Char) (h : '/' ∉ filename) (w : Written) :
    saveState fs filename w = (fs, some .fileNotFound) := by
  have hd : dirname filename = [] := by
    have : filename.reverse.dropWhile (· ≠ '/') = [] := by
      rw [List.dropWhile_eq_nil_iff]
      intro c hc
      simp only [ne_eq, decide_not, Bool.not_eq_true', decide_eq_false_iff_not]
      rintro rfl
      exact h (List.mem_reverse.1 hc)
    unfold dirname
    rw [this]
    rfl
  unfold saveState
  rw [hd]
  rfl

/-- An empty file system with `/home` as working directory. -/
def exampleFS : FS :=
  ⟨fun p => decide (p = []) || decide (p = ["home".toList]), fun _ => none, ["home".toList]⟩

/-- Non-vacuity of `C21_save_partial`: saving to `a//b/m.bin` with `a` and `b` missing. -/
example : ∃ fs', saveState exampleFS ("a//b".toList ++ '/' :: "m.bin".toList) ⟨[1, 2], none⟩ = (fs', none) ∧
    fs'.file ["home".toList, "a".toList, "b".toList, "m.bin".toList] = some [1, 2] ∧
    fs'.isDir ["home".toList, "a".toList, "b".toList] = true := by
  obtain ⟨fs', h1, h2, _, h3, _⟩ := C21_save_partial exampleFS "a//b".toList "m.bin".toList
    (by decide) (by decide) ⟨[1, 2], none⟩ rfl (by decide) (fun _ _ _ => rfl) (by decide)
  exact ⟨fs', h1, h2, h3⟩

/-! ## C69, C70 -/

/-- **C69 (violation)** A save that fails does not leave the previous file alone: whenever
`serialise_state` raises, the existing file has already been truncated and afterwards holds only the
bytes written before the exception. -/
theorem C69_failed_save_violation (fs : FS) (d base : List Char) (hb : base ≠ []) (hb' : '/' ∉ base)
    (w : Written) (e : PyErr) (hw : w.err = some e)
    (hroot : fs.isDir (anchor fs (d ++ '/' :: base)) = true)
    (hno : ∀ k, 0 < k → k ≤ (comps d).length →
      fs.file (anchor fs (d ++ '/' :: base) ++ (comps d).take k) = none)
    (hnd : fs.isDir (anchor fs (d ++ '/' :: base) ++ comps d ++ [base]) = false) :
    ∃ fs', saveState fs (d ++ '/' :: base) w = (fs', some e) ∧
      fs'.file (anchor fs (d ++ '/' :: base) ++ comps d ++ [base]) = some w.out := by
  obtain ⟨fs', h1, h2, _⟩ := saveState_spec fs d base hb hb' w hroot hno hnd
  rw [hw] at h1
  exact ⟨fs', h1, h2⟩

/-- **C69 (partial)** What a failing save does preserve: every other file. Missing: the target itself,
see the violation. -/
theorem C69_failed_save_partial (fs : FS) (d base : List Char) (hb : base ≠ []) (hb' : '/' ∉ base)
    (w : Written)
    (hroot : fs.isDir (anchor fs (d ++ '/' :: base)) = true)
    (hno : ∀ k, 0 < k → k ≤ (comps d).length →
      fs.file (anchor fs (d ++ '/' :: base) ++ (comps d).take k) = none)
    (hnd : fs.isDir (anchor fs (d ++ '/' :: base) ++ comps d ++ [base]) = false) :
    ∀ q, q ≠ anchor fs (d ++ '/' :: base) ++ comps d ++ [base] →
      (saveState fs (d ++ '/' :: base) w).1.file q = fs.file q := by
  obtain ⟨fs', h1, _, h3, _⟩ := saveState_spec fs d base hb hb' w hroot hno hnd
  rw [h1]
  exact h3

/-- Saving an unconfigured `Standardize` over an existing file empties it and raises `RuntimeError`. -/
example : let fs := { exampleFS with file := fun p =>
      if p = ["home".toList, "m.bin".toList] then some [1, 2, 3] else none }
    ∃ fs', saveState fs (".".toList ++ '/' :: "m.bin".toList)
        (standardizeState false ⟨0, 0, fun _ _ => 0⟩ ⟨0, 0, fun _ _ => 0⟩) = (fs', some .runtimeError) ∧
      fs'.file ["home".toList, ".".toList, "m.bin".toList] = some [] := by
  intro fs
  exact C69_failed_save_violation fs ".".toList "m.bin".toList (by decide) (by decide) _ _ rfl
    (by decide) (fun k h1 h2 => by
      have : k = 1 := by simp [comps, segs] at h2; omega
      subst this; decide) (by decide)

/-- **C70 (violation)** The state of `Log` depends on the Python type of its parameters, not only on
their values: an `int` base takes 4 bytes and an equal `float` base takes 8, so a reader with a fixed
layout cannot recover the state. -/
theorem C70_log_layout_violation (n : Int) (hn : -2147483648 ≤ n ∧ n ≤ 2147483647)
    (bits factor offset : UInt64) :
    (logState (.int n) (.float factor) (.float offset)).out.length = 20 ∧
    (logState (.float bits) (.float factor) (.float offset)).out.length = 24 := by
  have h8 : ∀ x : UInt64, (packDouble x).length = 8 := fun x => leBytes_length 8 _
  obtain ⟨b, hb, hl⟩ := (C17_int_range n).1 hn
  have hf : ∀ x : UInt64, serialiseToBytes (.float x) = .ok (packDouble x) := fun x => by
    rw [serialiseToBytes]
  have e0 : writeAll [] = ⟨[], none⟩ := by rw [writeAll]
  unfold logState
  constructor
  · rw [writeAll_ok hb, writeAll_ok (hf _), writeAll_ok (hf _), e0]
    simp [h8, hl]
  · rw [writeAll_ok (hf _), writeAll_ok (hf _), writeAll_ok (hf _), e0]
    simp [h8]

/-- **C70 (partial)** With `float` parameters (the default) the three values are recovered exactly.
Missing: `int` parameters, for which the reader needs to know the types. -/
theorem C70_log_float_partial (base factor offset : UInt64) (rest : Bytes) :
    readAll [.float, .float, .float]
        ((logState (.float base) (.float factor) (.float offset)).out ++ rest) =
      some ([.float base.toNat, .float factor.toNat, .float offset.toNat], rest) := by
  have hf : ∀ x : UInt64, serialiseToBytes (.float x) = .ok (packDouble x) := fun x => by
    rw [serialiseToBytes]
  have herr : (writeAll [.float base, .float factor, .float offset]).err = none := by
    rw [writeAll_ok (hf _), writeAll_ok (hf _), writeAll_ok (hf _), writeAll]
  obtain ⟨kvs, h1, h2⟩ := C17_round_trip [.float base, .float factor, .float offset] rest herr
  have hk : kvs = [(.float, .float base.toNat), (.float, .float factor.toNat),
      (.float, .float offset.toNat)] := by
    simp [kindOf] at h1
    exact h1.symm
  subst hk
  unfold logState
  exact h2

theorem andThen_ok {a b : Written} (ha : a.err = none) (hb : b.err = none) :
    a.andThen b = ⟨a.out ++ b.out, none⟩ := by
  unfold Written.andThen
  rw [ha, hb]

/-- **C71** The state of a configured `Standardize` is the state of the means followed by the state of
the standard deviations, from which both matrices are recovered. -/
theorem C71_standardize_state (means stds : Mat UInt64)
    (hm : means.rows < 2147483648 ∧ means.cols < 2147483648)
    (hs : stds.rows < 2147483648 ∧ stds.cols < 2147483648) :
    ∃ b₁ b₂, standardizeState true means stds = ⟨b₁ ++ b₂, none⟩ ∧
      b₁.length = 8 + 8 * (means.rows * means.cols) ∧
      readMatrix (b₁ ++ b₂) = some (means.rows, means.cols, (rowMajor means).map (·.toNat)) ∧
      readMatrix ((b₁ ++ b₂).drop b₁.length) =
        some (stds.rows, stds.cols, (rowMajor stds).map (·.toNat)) := by
  obtain ⟨r, c, h, _, _, _, _, hl⟩ := C18_layout means hm.1 hm.2
  obtain ⟨r', c', h', _, _, _, _, _⟩ := C18_layout stds hs.1 hs.2
  refine ⟨(matrixState means).out, (matrixState stds).out, ?_, hl, C18_decode _ _ hm.1 hm.2, ?_⟩
  · unfold standardizeState
    rw [if_pos rfl]
    exact andThen_ok (by rw [h]) (by rw [h'])
  · rw [List.drop_left]
    have := C18_decode stds [] hs.1 hs.2
    rwa [List.append_nil] at this

/-- **C71** Before configuration nothing is written and `RuntimeError` is raised, for `Standardize`,
`SavitzkyGolay` and `SIMPLS`; afterwards the latter two write exactly one matrix. -/
theorem C71_unconfigured (means stds W : Mat UInt64) :
    standardizeState false means stds = ⟨[], some .runtimeError⟩ ∧
    singleMatrixState false W = ⟨[], some .runtimeError⟩ ∧
    singleMatrixState true W = matrixState W := by
  unfold standardizeState singleMatrixState
  exact ⟨if_neg Bool.false_ne_true, if_neg Bool.false_ne_true, if_pos rfl⟩

end Verif.Props
