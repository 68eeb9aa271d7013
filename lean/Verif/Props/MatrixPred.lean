import Verif.Core.SelLemmas
import Verif.Core.Ext
import Mathlib.Data.List.FinRange
import Mathlib.Tactic.Linarith

/-!
# C10–C12 — clipping / sign / abs, predicates and searches, equality
-/

namespace Verif.Props
open Verif Verif.Mat

variable {α : Type}

theorem entry?_map (M : Mat α) (f : α → α) (i j : Nat) :
    (M.map f).entry? i j = (M.entry? i j).map f := by
  unfold Mat.map Mat.entry?
  by_cases h : i < M.rows ∧ j < M.cols <;> simp [h]

/-! ## C10 -/

/-- C10: `clip` raises exactly when the bounds are swapped; otherwise every entry becomes the
nearest value of the interval (so in-range entries are untouched and the result is in range). -/
theorem C10_clip [LinearOrder α] (M : Mat α) (lo hi : α) :
    (hi < lo → M.clip lo hi = .error .matrixAlgorithms) ∧
    (lo ≤ hi → ∃ C, M.clip lo hi = .ok C ∧ C.rows = M.rows ∧ C.cols = M.cols ∧
      ∀ i j x, M.entry? i j = some x → ∃ y, C.entry? i j = some y ∧ lo ≤ y ∧ y ≤ hi ∧
        (lo ≤ x → x ≤ hi → y = x) ∧ (x < lo → y = lo) ∧ (hi < x → y = hi)) := by
  constructor
  · intro h; unfold Mat.clip; rw [if_pos h]
  · intro h
    refine ⟨M.map fun x => if x < lo then lo else if x > hi then hi else x,
      by unfold Mat.clip; rw [if_neg (not_lt.2 h)]; rfl, rfl, rfl, fun i j x hx => ?_⟩
    refine ⟨if x < lo then lo else if x > hi then hi else x, ?_, ?_⟩
    · rw [entry?_map, hx]; rfl
    · by_cases h1 : x < lo
      · rw [if_pos h1]
        exact ⟨le_rfl, h, fun h' => absurd h1 (not_lt.2 h'), fun _ => rfl,
          fun h' => absurd (lt_of_lt_of_le h1 h) (not_lt.2 h'.le)⟩
      · rw [if_neg h1]
        by_cases h2 : x > hi
        · rw [if_pos h2]
          exact ⟨h, le_rfl, fun _ h' => absurd h2 (not_lt.2 h'), fun h' => absurd h' h1, fun _ => rfl⟩
        · rw [if_neg h2]
          exact ⟨not_lt.1 h1, not_lt.1 h2, fun _ _ => rfl, fun h' => absurd h' h1,
            fun h' => absurd h' h2⟩

/-- C10: clipping is idempotent. -/
theorem C10_clip_idem [LinearOrder α] (M C : Mat α) (lo hi : α) (h : M.clip lo hi = .ok C) :
    C.clip lo hi = .ok C := by
  have hle : lo ≤ hi := by
    by_contra h'
    rw [(C10_clip M lo hi).1 (not_le.1 h')] at h; cases h
  obtain ⟨C', hC', hr, hc, he⟩ := (C10_clip M lo hi).2 hle
  rw [h, ok_inj] at hC'; subst hC'
  obtain ⟨D, hD, hr', hc', he'⟩ := (C10_clip C lo hi).2 hle
  rw [hD, ok_inj]
  refine ext_entry hr' hc' fun i j => ?_
  cases hx : C.entry? i j with
  | none =>
    unfold entry? at hx ⊢
    by_cases hb : i < C.rows ∧ j < C.cols
    · rw [dif_pos hb] at hx; cases hx
    · rw [dif_neg (by omega)]
  | some y =>
    obtain ⟨hi, hj, _⟩ := entry?_eq_some.1 hx
    obtain ⟨y', hy', h1, h2, _⟩ := he i j (M.data ⟨i, by omega⟩ ⟨j, by omega⟩)
      (entry?_eq_some.2 ⟨by omega, by omega, rfl⟩)
    rw [hx] at hy'; cases hy'
    obtain ⟨z, hz, _, _, h3, _⟩ := he' i j _ hx
    rw [hz, h3 h1 h2]

section ext
variable {K : Type} [Field K] [LinearOrder K]

omit [Field K] in
/-- C10, one-sided clipping over floats with infinities and NaN: `clip_lower`/`clip_upper` never
raise (even for an infinite or NaN bound), NaN entries stay NaN, other entries end up not below
(above) a non-NaN bound and are unchanged when they already satisfy it. -/
theorem C10_clip_one_sided (M : Mat (X K)) (b : X K) :
    (∃ C, Mat.clipLower X.pinf M b = .ok C ∧ ∀ i j x, M.entry? i j = some x →
      C.entry? i j = some (if X.ltb x b then b else x)) ∧
    (∃ C, Mat.clipUpper X.ninf M b = .ok C ∧ ∀ i j x, M.entry? i j = some x →
      C.entry? i j = some (if X.ltb b x then b else x)) := by
  have hp : ∀ x : X K, ¬ (X.ltb X.pinf x = true) := by intro x; cases x <;> simp [X.ltb]
  have hn : ∀ x : X K, ¬ (X.ltb x X.ninf = true) := by intro x; cases x <;> simp [X.ltb]
  constructor
  · refine ⟨M.map fun x => if X.ltb x b then b else x, ?_, fun i j x hx => by rw [entry?_map, hx]; rfl⟩
    unfold clipLower Mat.clip
    rw [if_neg (show ¬ (b > X.pinf) from hp b)]
    unfold applyElementwise
    congr 2
    funext el
    show (if X.ltb el b = true then b else if X.ltb X.pinf el = true then X.pinf else el) = _
    rw [if_neg (hp el)]
  · refine ⟨M.map fun x => if X.ltb b x then b else x, ?_, fun i j x hx => by rw [entry?_map, hx]; rfl⟩
    unfold clipUpper Mat.clip
    rw [if_neg (show ¬ (X.ninf > b) from hn b)]
    unfold applyElementwise
    congr 2
    funext el
    show (if X.ltb el X.ninf = true then X.ninf else if X.ltb b el = true then b else el) = _
    rw [if_neg (hn el)]

end ext

/-- C10: `sign(x)·abs(x) = x`, `abs(x) ≥ 0` and `sign(x) ∈ {-1,0,1}` entrywise. -/
theorem C10_sign_abs [Ring α] [LinearOrder α] [IsStrictOrderedRing α] (M : Mat α) (i j : Nat) (x : α)
    (hx : M.entry? i j = some x) :
    ∃ s a, M.sign.entry? i j = some s ∧ M.abs.entry? i j = some a ∧ s * a = x ∧ 0 ≤ a ∧
      (s = -1 ∨ s = 0 ∨ s = 1) ∧ a = |x| := by
  unfold Mat.sign Mat.abs applyElementwise
  rw [entry?_map, entry?_map, hx]
  refine ⟨_, _, rfl, rfl, ?_⟩
  rcases lt_trichotomy x 0 with h | h | h
  · simp [h, h.le, abs_of_neg h]
  · subst h; simp
  · simp [h, h.le, not_lt.2 h.le, abs_of_pos h]

/-- C10 on floats with special values: `sign·abs` restores every entry, NaN and infinities
included. -/
theorem C10_sign_abs_ext {K : Type} [Field K] [LinearOrder K] [IsStrictOrderedRing K]
    (M : Mat (X K)) (i j : Nat) (x : X K) (hx : M.entry? i j = some x) :
    ∃ s a, M.sign.entry? i j = some s ∧ M.abs.entry? i j = some a ∧ s * a = x := by
  unfold Mat.sign Mat.abs applyElementwise
  rw [entry?_map, entry?_map, hx]
  refine ⟨_, _, rfl, rfl, ?_⟩
  show X.mul (if X.ltb x (X.fin 0) = true then X.fin (-1) else
      if X.ltb (X.fin 0) x = true then X.fin 1 else X.fin 0)
    (if X.ltb x (X.fin 0) = true then X.neg x else x) = x
  cases x with
  | fin x =>
    rcases lt_trichotomy x 0 with h | h | h
    · simp [X.ltb, h, X.neg, X.mul]
    · subst h; simp [X.ltb, X.mul]
    · simp [X.ltb, h, not_lt.2 h.le, X.mul]
  | pinf => simp [X.ltb, X.mul, X.signedInf]
  | ninf => simp [X.ltb, X.mul, X.neg, X.signedInf]
  | nan => simp [X.ltb, X.mul]

/-! ## C11 -/

theorem mem_coords (M : Mat α) (c : Fin M.rows × Fin M.cols) : c ∈ M.coords := by
  simp only [coords, List.mem_flatMap, List.mem_map]
  exact ⟨c.1, List.mem_finRange _, c.2, List.mem_finRange _, rfl⟩

/-- C11: `which` lists exactly the positions satisfying the predicate. -/
theorem C11_which (M : Mat α) (p : α → Bool) (i j : Nat) :
    (i, j) ∈ M.which p ↔ ∃ x, M.entry? i j = some x ∧ p x = true := by
  simp only [which, List.mem_map, List.mem_filter]
  constructor
  · rintro ⟨c, ⟨_, hp⟩, hc⟩
    cases hc
    exact ⟨_, entry?_mk M c.1 c.2, hp⟩
  · rintro ⟨x, hx, hp⟩
    obtain ⟨hi, hj, rfl⟩ := entry?_eq_some.1 hx
    exact ⟨(⟨i, hi⟩, ⟨j, hj⟩), ⟨mem_coords _ _, hp⟩, rfl⟩

/-- C11: each position is listed once, in row-major order. -/
theorem C11_which_sorted (M : Mat α) (p : α → Bool) :
    (M.which p).Pairwise fun a b => a.1 < b.1 ∨ (a.1 = b.1 ∧ a.2 < b.2) := by
  unfold which
  rw [List.pairwise_map]
  refine List.Pairwise.filter _ ?_
  unfold coords
  rw [List.pairwise_flatMap]
  refine ⟨fun i _ => ?_, ?_⟩
  · rw [List.pairwise_map]
    refine (List.pairwise_lt_finRange _).imp fun h => .inr ⟨rfl, h⟩
  · refine (List.pairwise_lt_finRange _).imp fun {a b} h => ?_
    intro x hx y hy
    simp only [List.mem_map] at hx hy
    obtain ⟨_, _, rfl⟩ := hx
    obtain ⟨_, _, rfl⟩ := hy
    exact .inl h

/-- C11: `any` holds iff some entry satisfies the predicate iff `which` is non-empty; `all` holds
iff every entry does. -/
theorem C11_any_all (M : Mat α) (p : α → Bool) :
    (M.any p = true ↔ ∃ i j x, M.entry? i j = some x ∧ p x = true) ∧
    (M.any p = true ↔ M.which p ≠ []) ∧
    (M.all p = true ↔ ∀ i j x, M.entry? i j = some x → p x = true) := by
  have hany : ∀ q : α → Bool, M.any q = true ↔ ∃ i j x, M.entry? i j = some x ∧ q x = true := by
    intro q
    simp only [any, List.any_eq_true]
    constructor
    · rintro ⟨c, _, hc⟩; exact ⟨c.1, c.2, _, entry?_mk M c.1 c.2, hc⟩
    · rintro ⟨i, j, x, hx, hp⟩
      obtain ⟨hi, hj, rfl⟩ := entry?_eq_some.1 hx
      exact ⟨(⟨i, hi⟩, ⟨j, hj⟩), mem_coords _ _, hp⟩
  refine ⟨hany p, ?_, ?_⟩
  · rw [hany]
    constructor
    · rintro ⟨i, j, x, hx⟩ h
      have := (C11_which M p i j).2 ⟨x, hx⟩
      rw [h] at this; cases this
    · intro h
      obtain ⟨⟨i, j⟩, hc⟩ := List.exists_mem_of_ne_nil _ h
      obtain ⟨x, hx⟩ := (C11_which M p i j).1 hc
      exact ⟨i, j, x, hx⟩
  · unfold all
    rw [Bool.not_eq_true', ← Bool.not_eq_true, hany]
    constructor
    · intro h i j x hx
      by_contra hp
      exact h ⟨i, j, x, hx, by simp [hp]⟩
    · rintro h ⟨i, j, x, hx, hp⟩
      rw [h i j x hx] at hp; cases hp

/-- C11: `where_vector` lists, in increasing order, exactly the satisfying positions of a vector,
and rejects everything that is not a vector. -/
theorem C11_whereVector (M : Mat α) (p : α → Bool) :
    (M.rows = 1 → ∃ l, M.whereVector p = .ok l ∧ l.Pairwise (· < ·) ∧
      ∀ k, k ∈ l ↔ ∃ x, M.entry? 0 k = some x ∧ p x = true) ∧
    (M.rows ≠ 1 → M.cols = 1 → ∃ l, M.whereVector p = .ok l ∧ l.Pairwise (· < ·) ∧
      ∀ k, k ∈ l ↔ ∃ x, M.entry? k 0 = some x ∧ p x = true) ∧
    (M.rows ≠ 1 → M.cols ≠ 1 → M.whereVector p = .error .valueError) := by
  refine ⟨fun h => ?_, fun h h' => ?_, fun h h' => ?_⟩
  · refine ⟨_, by unfold whereVector; exact dif_pos h, ?_, fun k => ?_⟩
    · rw [List.pairwise_map]
      exact (List.pairwise_lt_finRange _).filter _
    · simp only [List.mem_map, List.mem_filter, List.mem_finRange, true_and]
      constructor
      · rintro ⟨j, hj, rfl⟩
        exact ⟨_, entry?_eq_some.2 ⟨by omega, j.2, rfl⟩, hj⟩
      · rintro ⟨x, hx, hp⟩
        obtain ⟨hi, hj, rfl⟩ := entry?_eq_some.1 hx
        exact ⟨⟨k, hj⟩, hp, rfl⟩
  · refine ⟨_, by unfold whereVector; rw [dif_neg h]; exact dif_pos h', ?_, fun k => ?_⟩
    · rw [List.pairwise_map]
      exact (List.pairwise_lt_finRange _).filter _
    · simp only [List.mem_map, List.mem_filter, List.mem_finRange, true_and]
      constructor
      · rintro ⟨j, hj, rfl⟩
        exact ⟨_, entry?_eq_some.2 ⟨j.2, by omega, rfl⟩, hj⟩
      · rintro ⟨x, hx, hp⟩
        obtain ⟨hi, hj, rfl⟩ := entry?_eq_some.1 hx
        exact ⟨⟨k, hi⟩, hp, rfl⟩
  · unfold whereVector; rw [dif_neg h, dif_neg h']

example : (of !![1, 0; 0, 2]).which (fun x => x != 0) = [(0, 0), (1, 1)] := by decide

section ext
variable {K : Type} [Field K] [LinearOrder K]

omit [Field K] in
/-- C11 is violated for `contains_NaN`: it answers `False` on every matrix, because it compares
with `== NaN`. -/
theorem C11_containsNaN_violation :
    (∀ M : Mat (X K), M.containsNaN X.eqb X.nan = false) ∧
    ∃ M : Mat (X K), M.entry? 0 0 = some X.nan ∧ M.containsNaN X.eqb X.nan = false := by
  have h : ∀ M : Mat (X K), M.containsNaN X.eqb X.nan = false := by
    intro M
    unfold containsNaN
    rw [← Bool.not_eq_true, (C11_any_all M _).1]
    rintro ⟨i, j, x, _, hx⟩
    cases x <;> simp [X.eqb] at hx
  exact ⟨h, ⟨ofFn fun (_ _ : Fin 1) => X.nan, rfl, h _⟩⟩

omit [Field K] in
/-- C11 (partial: NaN-free matrices only): `contains_NaN` is right when there is no NaN. -/
theorem C11_containsNaN_partial (M : Mat (X K)) (h : ∀ i j x, M.entry? i j = some x → x ≠ X.nan) :
    M.containsNaN X.eqb X.nan = true ↔ ∃ i j, M.entry? i j = some X.nan := by
  rw [C11_containsNaN_violation.1 M]
  exact ⟨fun h' => (by cases h'), fun ⟨i, j, hx⟩ => absurd rfl (h i j _ hx)⟩

/-! ## C12 -/

/-- C12: on finite entries, `==` of two distinct matrix objects of equal shape is entrywise
equality. -/
theorem C12_eq_partial (M N : Mat (X K)) (h : M.rows = N.rows ∧ M.cols = N.cols)
    (hM : ∀ i j x, M.entry? i j = some x → x.IsFinite)
    (hN : ∀ i j x, N.entry? i j = some x → x.IsFinite) :
    ∃ b, M.eq (fun x => X.eqb x 0) N = .ok b ∧ (b = true ↔ M = N) := by
  obtain ⟨m, n, A⟩ := M
  obtain ⟨m', n', B⟩ := N
  obtain ⟨h1, h2⟩ := h
  dsimp at h1 h2
  subst h1 h2
  refine ⟨!((of (A - B)).any fun x => !X.eqb x 0), by simp [Mat.eq], ?_⟩
  rw [Bool.not_eq_true', ← Bool.not_eq_true, (C11_any_all _ _).1]
  constructor
  · intro h
    refine mk_congr fun i j => ?_
    by_contra hne
    apply h
    refine ⟨i, j, A i j - B i j, entry?_of (A - B) i j, ?_⟩
    have hA := hM i j _ (entry?_of A i j)
    have hB := hN i j _ (entry?_of B i j)
    cases ha : A i j with
    | fin a =>
      cases hb : B i j with
      | fin b =>
        rw [ha, hb] at hne
        show (!(X.eqb (X.fin (a + -b)) (X.fin 0))) = true
        have : a + -b ≠ 0 := fun h => hne (by rw [← sub_eq_zero.1 ((sub_eq_add_neg a b).trans h)])
        simp [X.eqb, this]
      | _ => rw [hb] at hB; cases hB
    | _ => rw [ha] at hA; cases hA
  · intro h
    have := of_injective (show of A = of B from h)
    subst this
    rintro ⟨i, j, x, hx, hp⟩
    obtain ⟨hi, hj, rfl⟩ := entry?_eq_some.1 hx
    have hA := hM i j _ (entry?_of A ⟨i, hi⟩ ⟨j, hj⟩)
    change (!(X.eqb (A ⟨i, hi⟩ ⟨j, hj⟩ - A ⟨i, hi⟩ ⟨j, hj⟩) (X.fin 0))) = true at hp
    cases ha : A ⟨i, hi⟩ ⟨j, hj⟩ with
    | fin a =>
      rw [ha] at hp
      change (!(X.eqb (X.fin (a + -a)) (X.fin 0))) = true at hp
      simp [X.eqb] at hp
    | _ => rw [ha] at hA; cases hA

/-- C12: comparing matrices of different shapes with `==` raises. -/
theorem C12_eq_shape [Sub α] (isZero : α → Bool) (M N : Mat α)
    (h : ¬(M.rows = N.rows ∧ M.cols = N.cols)) : M.eq isZero N = .error .invalidShape := by
  unfold Mat.eq Mat.sub zipWith
  rw [dif_neg h]; rfl

/-- C12: a NaN anywhere makes `==` false. -/
theorem C12_eq_nan (M N : Mat (X K)) (h : M.rows = N.rows ∧ M.cols = N.cols) (i j : Nat)
    (hx : M.entry? i j = some X.nan) : M.eq (fun x => X.eqb x 0) N = .ok false := by
  obtain ⟨m, n, A⟩ := M
  obtain ⟨m', n', B⟩ := N
  obtain ⟨h1, h2⟩ := h
  dsimp at h1 h2
  subst h1 h2
  unfold Mat.eq
  rw [sub_of, except_bind_ok, except_pure, ok_inj, Bool.not_eq_false', (C11_any_all _ _).1]
  obtain ⟨hi, hj, hx⟩ := entry?_eq_some.1 hx
  refine ⟨i, j, _, entry?_of (A - B) ⟨i, hi⟩ ⟨j, hj⟩, ?_⟩
  show (!(X.eqb (A ⟨i, hi⟩ ⟨j, hj⟩ - B ⟨i, hi⟩ ⟨j, hj⟩) (X.fin 0))) = true
  dsimp only at hx
  rw [hx]
  cases B ⟨i, hi⟩ ⟨j, hj⟩ <;> rfl

/-- C12 is violated for infinities: a matrix with an infinite entry is not `==` to its own copy
(`inf - inf` is NaN, which is truthy), although all entries agree. -/
theorem C12_eq_inf_violation (M : Mat (X K)) (i j : Nat) (hx : M.entry? i j = some X.pinf) :
    M.eq (fun x => X.eqb x 0) M.copy = .ok false := by
  unfold Mat.eq
  rw [copy_eq, show M = of M.data from rfl, sub_of, except_bind_ok, except_pure, ok_inj,
    Bool.not_eq_false', (C11_any_all _ _).1]
  obtain ⟨hi, hj, hx⟩ := entry?_eq_some.1 hx
  refine ⟨i, j, _, entry?_of (M.data - M.data) ⟨i, hi⟩ ⟨j, hj⟩, ?_⟩
  show (!(X.eqb (M.data ⟨i, hi⟩ ⟨j, hj⟩ - M.data ⟨i, hi⟩ ⟨j, hj⟩) (X.fin 0))) = true
  rw [hx]; rfl

end ext

/-- C12 (partial: exact ordered scalars, no NaN): `helper.equal` holds iff the shapes agree and
all entries are within the tolerance. -/
theorem C12_helperEqual_partial [Ring α] [LinearOrder α] (M N : Mat α) (eps : α) :
    M.helperEqual (fun x => |x|) (fun a b => decide (b < a)) N eps = true ↔
      (M.rows = N.rows ∧ M.cols = N.cols) ∧
      ∀ i j x y, M.entry? i j = some x → N.entry? i j = some y → |x - y| ≤ eps := by
  by_cases h : M.rows = N.rows ∧ M.cols = N.cols
  · unfold helperEqual
    rw [dif_pos h, Bool.not_eq_true', ← Bool.not_eq_true, List.any_eq_true]
    constructor
    · intro hn
      refine ⟨h, fun i j x y hx hy => ?_⟩
      obtain ⟨hi, hj, rfl⟩ := entry?_eq_some.1 hx
      obtain ⟨hi', hj', rfl⟩ := entry?_eq_some.1 hy
      by_contra hlt
      exact hn ⟨(⟨i, hi⟩, ⟨j, hj⟩), mem_coords _ _, by simpa using not_le.1 hlt⟩
    · rintro ⟨_, h'⟩ ⟨c, _, hc⟩
      simp only [decide_eq_true_eq] at hc
      exact absurd hc (not_lt.2 (h' c.1 c.2 _ _ (entry?_mk M c.1 c.2)
        (entry?_eq_some.2 ⟨by have := c.1.2; omega, by have := c.2.2; omega, rfl⟩)))
  · unfold helperEqual
    rw [dif_neg h]
    constructor
    · intro h'; cases h'
    · intro h'; exact absurd h'.1 h

/-- C12 is violated: `helper.equal` reports a NaN matrix equal to *any* matrix of its shape,
whatever the tolerance. -/
theorem C12_helperEqual_nan_violation {K : Type} [Field K] [LinearOrder K] (m n : Nat)
    (N : Matrix (Fin m) (Fin n) (X K)) (eps : X K) :
    (ofFn fun (_ : Fin m) (_ : Fin n) => (X.nan : X K)).helperEqual X.absX
      (fun a b => X.ltb b a) (of N) eps = true := by
  unfold helperEqual
  rw [dif_pos ⟨rfl, rfl⟩, Bool.not_eq_true', ← Bool.not_eq_true, List.any_eq_true]
  rintro ⟨c, _, hc⟩
  have : (X.nan : X K) - N c.1 c.2 = X.nan := by cases N c.1 c.2 <;> rfl
  change X.ltb eps (X.absX (X.nan - N c.1 c.2)) = true at hc
  rw [this] at hc
  cases eps <;> cases hc

example : (of !![1, 2; 3, (4 : Int)]).helperEqual (fun x => |x|) (fun a b => decide (b < a))
    (of !![1, 3; 3, 4]) 1 = true := by decide
example : (of !![1, 2; 3, (4 : Int)]).helperEqual (fun x => |x|) (fun a b => decide (b < a))
    (of !![1, 3; 3, 4]) 0 = false := by decide

end Verif.Props
