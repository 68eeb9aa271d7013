import Verif.Transf.Kernel

/-!
# `for k in range(n)` loops over a state
-/

namespace Verif

open Mat

variable {α σ : Type}

/-- `for k in ks: state = f(k, state)`; an exception stops the loop. -/
def loopM (f : Int → σ → Except PyErr σ) : List Int → σ → Except PyErr σ
  | [], s => .ok s
  | k :: ks, s => do
    let s ← f k s
    loopM f ks s

theorem loopM_append (f : Int → σ → Except PyErr σ) (as bs : List Int) (s : σ) :
    loopM f (as ++ bs) s = (do let s ← loopM f as s; loopM f bs s) := by
  induction as generalizing s with
  | nil => rfl
  | cons a as ih =>
    rw [List.cons_append, loopM, loopM]
    cases f a s with
    | error e => rfl
    | ok s' => exact ih s'

theorem pyRange_succ (n : Nat) : pyRange 0 ((n + 1 : Nat) : Int) = pyRange 0 (n : Int) ++ [(n : Int)] := by
  rw [pyRange_zero, pyRange_zero, List.range_succ, List.map_append]
  rfl

/-- A loop whose `k`-th pass leads from `S k` to `S (k + 1)`. -/
theorem loopM_range (f : Int → σ → Except PyErr σ) (S : Nat → σ) (n : Nat)
    (h : ∀ k < n, f (k : Int) (S k) = .ok (S (k + 1))) :
    loopM f (pyRange 0 (n : Int)) (S 0) = .ok (S n) := by
  induction n with
  | zero => rfl
  | succ n ih =>
    rw [pyRange_succ, loopM_append, ih fun k hk => h k (by omega)]
    show loopM f [(n : Int)] (S n) = _
    rw [loopM, h n (by omega)]
    rfl

/-- A loop stops with the exception of the first failing pass. -/
theorem loopM_range_error (f : Int → σ → Except PyErr σ) (S : Nat → σ) (n k : Nat) (hk : k < n)
    (e : PyErr) (h : ∀ j < k, f (j : Int) (S j) = .ok (S (j + 1))) (he : f (k : Int) (S k) = .error e) :
    loopM f (pyRange 0 (n : Int)) (S 0) = .error e := by
  obtain ⟨d, rfl⟩ : ∃ d, n = k + 1 + d := ⟨n - (k + 1), by omega⟩
  have hsplit : ∃ l, pyRange 0 ((k + 1 + d : Nat) : Int) = pyRange 0 ((k + 1 : Nat) : Int) ++ l := by
    rw [pyRange_zero, pyRange_zero, List.range_add, List.map_append]
    exact ⟨_, rfl⟩
  obtain ⟨l, hl⟩ := hsplit
  rw [hl, pyRange_succ, List.append_assoc, loopM_append, loopM_range f S k h]
  show loopM f ((k : Int) :: l) (S k) = _
  rw [loopM, he]
  rfl

/-- An invariant of the passes is an invariant of the loop. -/
theorem loopM_inv (f : Int → σ → Except PyErr σ) (P : σ → Prop)
    (h : ∀ k s s', P s → f k s = .ok s' → P s') (ks : List Int) (s s' : σ) (hs : P s)
    (e : loopM f ks s = .ok s') : P s' := by
  induction ks generalizing s with
  | nil => cases e; exact hs
  | cons k ks ih =>
    rw [loopM] at e
    cases hf : f k s with
    | error x => rw [hf] at e; cases e
    | ok t => rw [hf] at e; exact ih t (h k s t hs hf) e

/-- A loop all of whose passes succeed, keeping an invariant. -/
theorem loopM_ok (f : Int → σ → Except PyErr σ) (P : σ → Prop) (n : Nat)
    (h : ∀ k < n, ∀ s, P s → ∃ s', f (k : Int) s = .ok s' ∧ P s') (s : σ) (hs : P s) :
    ∃ s', loopM f (pyRange 0 (n : Int)) s = .ok s' ∧ P s' := by
  induction n with
  | zero => exact ⟨s, rfl, hs⟩
  | succ n ih =>
    obtain ⟨s1, h1, h2⟩ := ih fun k hk => h k (by omega)
    obtain ⟨s2, h3, h4⟩ := h n (by omega) s1 h2
    refine ⟨s2, ?_, h4⟩
    rw [pyRange_succ, loopM_append, h1]
    show loopM f [(n : Int)] s1 = _
    rw [loopM, h3]
    rfl

/-- The columns `f 0, …, f (k-1)` followed by zero columns. -/
def colsUpTo [Zero α] {m K : Nat} (f : Nat → Matrix (Fin m) (Fin 1) α) (k : Nat) :
    Matrix (Fin m) (Fin K) α :=
  Matrix.of fun i j => if j.1 < k then f j.1 i 0 else 0

theorem colsUpTo_zero [Zero α] {m K : Nat} (f : Nat → Matrix (Fin m) (Fin 1) α) :
    colsUpTo f 0 = (0 : Matrix (Fin m) (Fin K) α) := by
  ext i j
  simp [colsUpTo]

theorem colsUpTo_set [Zero α] {m K : Nat} (f : Nat → Matrix (Fin m) (Fin 1) α) (k : Nat) (hk : k < K) :
    (of (colsUpTo f k : Matrix (Fin m) (Fin K) α)).setColumn (k : Int) (of (f k)) =
      .ok (of (colsUpTo f (k + 1) : Matrix (Fin m) (Fin K) α)) := by
  have h := setColumn_of (colsUpTo f k : Matrix (Fin m) (Fin K) α) ⟨k, hk⟩ (f k)
  refine h.trans ?_
  congr 1
  refine mk_congr fun i j => ?_
  rw [Matrix.updateCol_apply]
  simp only [colsUpTo, Matrix.of_apply]
  by_cases hj : j = ⟨k, hk⟩
  · subst hj
    rw [if_pos rfl, if_pos (Nat.lt_succ_self k)]
  · have hj' : j.1 ≠ k := fun h => hj (Fin.ext h)
    rw [if_neg hj]
    by_cases h1 : j.1 < k
    · rw [if_pos h1, if_pos (by omega)]
    · rw [if_neg h1, if_neg (by omega)]

theorem colsUpTo_all [Zero α] {m K : Nat} (f : Nat → Matrix (Fin m) (Fin 1) α) :
    (colsUpTo f K : Matrix (Fin m) (Fin K) α) = Matrix.of fun i j => f j.1 i 0 := by
  ext i j
  simp only [colsUpTo, Matrix.of_apply]
  rw [if_pos j.2]

theorem vectorDot_cols [CommSemiring α] {n : Nat} (a b : Matrix (Fin n) (Fin 1) α) :
    vectorDot (of a) (of b) = .ok (∑ l, a l 0 * b l 0) := by
  have hv : ∀ a : Matrix (Fin n) (Fin 1) α, (of a).vecEntries = some (List.ofFn fun l => a l 0) := by
    intro a
    unfold vecEntries
    rw [dif_pos rfl]
    rfl
  unfold vectorDot
  rw [hv, hv]
  simp only []
  rw [if_neg (by simp [numElements]), ok_inj, dotList]
  rw [show List.zipWith (· * ·) (List.ofFn fun l => a l 0) (List.ofFn fun l => b l 0) =
    List.ofFn fun l => a l 0 * b l 0 from ?_, List.sum_ofFn]
  apply List.ext_getElem
  · simp
  · intro i h1 h2
    simp

theorem of_rows {m n : Nat} (A : Matrix (Fin m) (Fin n) α) : (of A).rows = m := rfl
theorem of_cols {m n : Nat} (A : Matrix (Fin m) (Fin n) α) : (of A).cols = n := rfl

theorem asReal_of (a : Matrix (Fin 1) (Fin 1) α) : (of a).asReal = .ok (a 0 0) := by
  simp [asReal, Mat.get]

end Verif
