import Verif.Core.Stats
import Verif.Props.PrmRobust
import Verif.Props.PrmLimit
import Verif.Props.TransfProps
import Verif.Transf.StatLemmas
import Mathlib.Data.List.Count

/-!
# C141: means, standard deviations and the median

`helper.mean` and `helper.stdev` of one row or column, and `Matrix.median`.
-/

namespace Verif.Props
open Verif Mat Transf Finset

variable {m n : Nat}

/-! ## Mean and standard deviation of one column or row -/

theorem get_row0 {α : Type} {n : Nat} (R : Matrix (Fin 1) (Fin n) α) (idx : Int) :
    (of R).get 0 idx = (pyIndex n idx >>= fun j => .ok (R 0 j)) := rfl

theorem get_col0 {α : Type} {m : Nat} (R : Matrix (Fin m) (Fin 1) α) (idx : Int) :
    (of R).get idx 0 = (pyIndex m idx >>= fun i => .ok (R i 0)) := by
  show (pyIndex m idx >>= fun r => _) = _
  rfl

theorem pyIndex_pos {n : Nat} (j : Fin n) : pyIndex n (j.1 : Int) = .ok j := by
  unfold pyIndex
  rw [dif_pos ⟨by omega, by omega⟩]
  exact congrArg Except.ok (Fin.ext (by simp))

theorem pyIndex_neg {n : Nat} (j : Fin n) : pyIndex n ((j.1 : Int) - n) = .ok j := by
  unfold pyIndex
  rw [dif_neg (by omega), dif_pos ⟨by omega, by omega⟩]
  exact congrArg Except.ok (Fin.ext (by simp))

theorem pyIndex_out {n : Nat} {i : Int} (h : i < -n ∨ (n : Int) ≤ i) : pyIndex n i = .error .indexError := by
  unfold pyIndex
  rw [dif_neg (by omega), dif_neg (by omega)]

/-- C141 (which entry): `helper.mean` and `helper.stdev` look at the column or row with the given index; a negative index counts from the end,
and any other index raises `IndexError`. -/
theorem C141_index (A : Matrix (Fin m) (Fin n) ℝ) :
    (∀ j : Fin n, ∀ idx : Int, idx = j.1 ∨ idx = (j.1 : Int) - n →
      helperMean (of A) idx = .ok (mu fun i => A i j) ∧ helperStdev (of A) idx = .ok (sd fun i => A i j)) ∧
    (∀ i : Fin m, ∀ idx : Int, idx = i.1 ∨ idx = (i.1 : Int) - m →
      helperMean (of A) idx false = .ok (mu fun j => A i j) ∧ helperStdev (of A) idx false = .ok (sd fun j => A i j)) ∧
    (∀ idx : Int, idx < -n ∨ (n : Int) ≤ idx →
      helperMean (of A) idx = .error .indexError ∧ helperStdev (of A) idx = .error .indexError) ∧
    (∀ idx : Int, idx < -m ∨ (m : Int) ≤ idx →
      helperMean (of A) idx false = .error .indexError ∧ helperStdev (of A) idx false = .error .indexError) := by
  have e1 : ∀ idx, helperMean (of A) idx = (pyIndex n idx >>= fun j => .ok (mu fun i => A i j)) := fun idx => by
    show (of A).columnMeans.get 0 idx = _
    rw [columnMeans_of]
    rfl
  have e2 : ∀ idx, helperStdev (of A) idx = (pyIndex n idx >>= fun j => .ok (sd fun i => A i j)) := fun idx => by
    show (of A).columnStdevs.get 0 idx = _
    rw [columnStdevs_of]
    rfl
  have e3 : ∀ idx, helperMean (of A) idx false = (pyIndex m idx >>= fun i => .ok (mu fun j => A i j)) := fun idx => by
    show (of A).rowMeans.get idx 0 = _
    rw [rowMeans_of]
    rfl
  have e4 : ∀ idx, helperStdev (of A) idx false = (pyIndex m idx >>= fun i => .ok (sd fun j => A i j)) := fun idx => by
    show (of A).rowStdevs.get idx 0 = _
    rw [rowStdevs_of]
    rfl
  refine ⟨fun j idx h => ?_, fun i idx h => ?_, fun idx h => ?_, fun idx h => ?_⟩
  · rw [e1, e2]
    rcases h with rfl | rfl
    · rw [pyIndex_pos]; exact ⟨rfl, rfl⟩
    · rw [pyIndex_neg]; exact ⟨rfl, rfl⟩
  · rw [e3, e4]
    rcases h with rfl | rfl
    · rw [pyIndex_pos]; exact ⟨rfl, rfl⟩
    · rw [pyIndex_neg]; exact ⟨rfl, rfl⟩
  · rw [e1, e2, pyIndex_out h]
    exact ⟨rfl, rfl⟩
  · rw [e3, e4, pyIndex_out h]
    exact ⟨rfl, rfl⟩

theorem mu_affine (hm : m ≠ 0) (f : Fin m → ℝ) (c d : ℝ) : (mu fun i => c * f i + d) = c * mu f + d := by
  have : (m : ℝ) ≠ 0 := by exact_mod_cast hm
  unfold mu
  rw [sum_add_distrib, ← mul_sum, sum_const, card_univ, Fintype.card_fin, nsmul_eq_mul]
  field_simp

theorem sd_affine (hm : m ≠ 0) (f : Fin m → ℝ) (c d : ℝ) : (sd fun i => c * f i + d) = |c| * sd f := by
  unfold sd
  rw [mu_affine hm]
  have e : ∀ i, (c * f i + d - (c * mu f + d)) ^ 2 = c ^ 2 * (f i - mu f) ^ 2 := fun i => by ring
  rw [sum_congr rfl fun i _ => e i, ← mul_sum, mul_div_assoc, Real.sqrt_mul (sq_nonneg c), Real.sqrt_sq_eq_abs]

/-- C141 (what they are): with at least one sample the mean times the number of samples is their sum; with at least two the standard deviation is
the non-negative number whose square times the number of samples less one is the sum of the squared deviations, and it is zero exactly for
constant samples.  Changing units and origin changes them accordingly. -/
theorem C141_mean_stdev (A : Matrix (Fin m) (Fin n) ℝ) (j : Fin n) (hm : m ≠ 0) :
    ∃ a, helperMean (of A) j.1 = .ok a ∧ m * a = ∑ i, A i j ∧
      (2 ≤ m → ∃ s, helperStdev (of A) j.1 = .ok s ∧ 0 ≤ s ∧ s ^ 2 * ((m : ℝ) - 1) = ∑ i, (A i j - a) ^ 2 ∧
        (s = 0 ↔ ∀ i k, A i j = A k j) ∧
        ∀ c d : ℝ, helperMean (of (Matrix.of fun i k => c * A i k + d)) j.1 = .ok (c * a + d) ∧
          helperStdev (of (Matrix.of fun i k => c * A i k + d)) j.1 = .ok (|c| * s)) := by
  have h := (C141_index A).1 j j.1 (.inl rfl)
  have hm' : (m : ℝ) ≠ 0 := by exact_mod_cast hm
  refine ⟨_, h.1, by unfold mu; field_simp, fun h2 => ⟨_, h.2, sd_nonneg _, ?_, sd_eq_zero_iff h2 _, fun c d => ?_⟩⟩
  · rw [← sd_sq h2, Nat.cast_sub (by omega), Nat.cast_one]
  · have h' := (C141_index (Matrix.of fun i k => c * A i k + d)).1 j j.1 (.inl rfl)
    rw [h'.1, h'.2]
    exact ⟨congrArg _ (mu_affine hm (fun i => A i j) c d), congrArg _ (sd_affine hm (fun i => A i j) c d)⟩

/-- C141: the statistics of the rows are those of the columns of the transpose. -/
theorem C141_rows (A : Matrix (Fin m) (Fin n) ℝ) (idx : Int) :
    helperMean (of A) idx false = helperMean (of A).transpose idx ∧ helperStdev (of A) idx false = helperStdev (of A).transpose idx := by
  have ht : (of A).transpose = of A.transpose := rfl
  rw [ht]
  by_cases h : idx < -m ∨ (m : Int) ≤ idx
  · rw [((C141_index A).2.2.2 idx h).1, ((C141_index A).2.2.2 idx h).2, ((C141_index A.transpose).2.2.1 idx h).1,
      ((C141_index A.transpose).2.2.1 idx h).2]
    exact ⟨rfl, rfl⟩
  · have hi : ∃ i : Fin m, idx = i.1 ∨ idx = (i.1 : Int) - m := by
      rcases Int.lt_or_le idx 0 with h0 | h0
      · exact ⟨⟨(idx + m).toNat, by omega⟩, .inr (by simp; omega)⟩
      · exact ⟨⟨idx.toNat, by omega⟩, .inl (by simp; omega)⟩
    obtain ⟨i, hi⟩ := hi
    rw [((C141_index A).2.1 i idx hi).1, ((C141_index A).2.1 i idx hi).2, ((C141_index A.transpose).1 i idx hi).1,
      ((C141_index A.transpose).1 i idx hi).2]
    exact ⟨rfl, rfl⟩

/-! ## The median -/

section med
variable {K : Type} [Field K] [LinearOrder K]

/-- The number `c` is the mid-point of a lower and an upper middle element: fewer than half of the elements are below the lower one and at least
half are not above it; fewer than half are above the upper one and at least half are not below it. -/
def Middle (l : List K) (c : K) : Prop :=
  ∃ a ∈ l, ∃ b ∈ l, c = (a + b) / 2 ∧
    2 * l.countP (fun x => decide (x < a)) < l.length ∧ l.length ≤ 2 * l.countP (fun x => decide (x ≤ a)) ∧
    2 * l.countP (fun x => decide (b < x)) < l.length ∧ l.length ≤ 2 * l.countP (fun x => decide (b ≤ x))

omit [Field K] in
theorem lower_unique {l : List K} {a a' : K} (h : 2 * l.countP (fun x => decide (x < a')) < l.length)
    (h' : l.length ≤ 2 * l.countP (fun x => decide (x ≤ a))) : a' ≤ a := by
  by_contra hlt
  have : l.countP (fun x => decide (x ≤ a)) ≤ l.countP (fun x => decide (x < a')) :=
    List.countP_mono_left fun x _ hx => by
      simp only [decide_eq_true_eq] at hx ⊢
      exact lt_of_le_of_lt hx (not_le.1 hlt)
  omega

omit [Field K] in
theorem upper_unique {l : List K} {b b' : K} (h : 2 * l.countP (fun x => decide (b' < x)) < l.length)
    (h' : l.length ≤ 2 * l.countP (fun x => decide (b ≤ x))) : b ≤ b' := by
  by_contra hlt
  have : l.countP (fun x => decide (b ≤ x)) ≤ l.countP (fun x => decide (b' < x)) :=
    List.countP_mono_left fun x _ hx => by
      simp only [decide_eq_true_eq] at hx ⊢
      exact lt_of_lt_of_le (not_le.1 hlt) hx
  omega

/-- There is at most one such number. -/
theorem Middle.unique {l : List K} {c c' : K} (h : Middle l c) (h' : Middle l c') : c = c' := by
  obtain ⟨a, -, b, -, rfl, a1, a2, b1, b2⟩ := h
  obtain ⟨a', -, b', -, rfl, a1', a2', b1', b2'⟩ := h'
  rw [le_antisymm (lower_unique a1 a2') (lower_unique a1' a2), le_antisymm (upper_unique b1' b2) (upper_unique b1 b2')]

theorem Middle.perm {l l' : List K} (hp : l.Perm l') {c : K} (h : Middle l c) : Middle l' c := by
  obtain ⟨a, ha, b, hb, e, a1, a2, b1, b2⟩ := h
  refine ⟨a, hp.mem_iff.1 ha, b, hp.mem_iff.1 hb, e, ?_⟩
  rw [← hp.countP_eq, ← hp.countP_eq, ← hp.countP_eq, ← hp.countP_eq, ← hp.length_eq]
  exact ⟨a1, a2, b1, b2⟩

omit [Field K] in
theorem sorted_middle (s : List K) (hs : s.Pairwise (· ≤ ·)) (k : Nat) (hk : k < s.length) :
    s.countP (fun x => decide (x < s[k])) ≤ k ∧ k + 1 ≤ s.countP (fun x => decide (x ≤ s[k])) ∧
    s.countP (fun x => decide (s[k] < x)) + (k + 1) ≤ s.length ∧ s.length ≤ s.countP (fun x => decide (s[k] ≤ x)) + k := by
  have hp := List.pairwise_iff_getElem.1 hs
  have split : ∀ (p : K → Bool) (j : Nat), s.countP p = (s.take j).countP p + (s.drop j).countP p := fun p j => by
    rw [← List.countP_append, List.take_append_drop]
  have lower : ∀ x ∈ s.take (k + 1), x ≤ s[k] := fun x hx => by
    obtain ⟨i, hi, rfl⟩ := List.mem_iff_getElem.1 hx
    rw [List.length_take] at hi
    rw [List.getElem_take]
    rcases Nat.lt_or_ge i k with h | h
    · exact hp i k _ _ h
    · exact le_of_eq (by congr 1; omega)
  have upper : ∀ x ∈ s.drop k, s[k] ≤ x := fun x hx => by
    obtain ⟨i, hi, rfl⟩ := List.mem_iff_getElem.1 hx
    rw [List.length_drop] at hi
    rw [List.getElem_drop]
    rcases Nat.eq_zero_or_pos i with rfl | h
    · exact le_rfl
    · exact hp k (k + i) _ _ (by omega)
  refine ⟨?_, ?_, ?_, ?_⟩
  · have h0 : (s.drop k).countP (fun x => decide (x < s[k])) = 0 := List.countP_eq_zero.2 fun x hx => by simpa using upper x hx
    have h1 : (s.take k).countP (fun x => decide (x < s[k])) ≤ (s.take k).length := List.countP_le_length
    rw [List.length_take] at h1
    rw [split _ k, h0]
    omega
  · rw [split _ (k + 1), List.countP_eq_length.2 fun x hx => by simpa using lower x hx, List.length_take]
    omega
  · rw [split _ (k + 1), List.countP_eq_zero.2 fun x hx => by simpa using lower x hx]
    have : (s.drop (k + 1)).countP (fun x => decide (s[k] < x)) ≤ (s.drop (k + 1)).length := List.countP_le_length
    rw [List.length_drop] at this
    omega
  · have h0 : (s.drop k).countP (fun x => decide (s[k] ≤ x)) = (s.drop k).length :=
      List.countP_eq_length.2 fun x hx => by simpa using upper x hx
    rw [List.length_drop] at h0
    rw [split _ k, h0]
    omega

theorem median_middle (l : List K) (hl : l ≠ []) : Middle l (medianList l) := by
  have hpos : 0 < l.length := List.length_pos_iff.2 hl
  have hperm := List.mergeSort_perm l (fun a b => decide (a ≤ b))
  have hlen : (l.mergeSort (fun a b => decide (a ≤ b))).length = l.length := hperm.length_eq
  have hs := mergeSort_sorted l
  refine Middle.perm hperm ?_
  unfold medianList
  generalize l.mergeSort (fun a b => decide (a ≤ b)) = s at *
  have h1 := sorted_middle s hs ((l.length - 1) / 2) (by omega)
  have h2 := sorted_middle s hs (l.length / 2) (by omega)
  refine ⟨s[(l.length - 1) / 2]'(by omega), List.getElem_mem _, s[l.length / 2]'(by omega), List.getElem_mem _, ?_, ?_⟩
  · rw [List.getD_eq_getElem?_getD, List.getD_eq_getElem?_getD, List.getElem?_eq_getElem (by omega),
      List.getElem?_eq_getElem (by omega), Option.getD_some, Option.getD_some]
  · omega

variable [IsStrictOrderedRing K]

theorem Middle.affine {l : List K} {c : K} (h : Middle l c) (u v : K) : Middle (l.map fun x => u * x + v) (u * c + v) := by
  obtain ⟨a, ha, b, hb, rfl, a1, a2, b1, b2⟩ := h
  have hpos : 0 < l.length := List.length_pos_of_mem ha
  rcases lt_trichotomy u 0 with hu | rfl | hu
  · refine ⟨u * b + v, List.mem_map.2 ⟨b, hb, rfl⟩, u * a + v, List.mem_map.2 ⟨a, ha, rfl⟩, by ring, ?_⟩
    simp only [List.countP_map, List.length_map, Function.comp_def, add_lt_add_iff_right, add_le_add_iff_right,
      mul_lt_mul_left_of_neg hu, mul_le_mul_left_of_neg hu]
    exact ⟨b1, b2, a1, a2⟩
  · refine ⟨v, List.mem_map.2 ⟨a, ha, by ring⟩, v, List.mem_map.2 ⟨a, ha, by ring⟩, by ring, ?_⟩
    simp only [List.countP_map, List.length_map, Function.comp_def, zero_mul, zero_add, lt_irrefl, decide_false, le_refl, decide_true]
    simp
    omega
  · refine ⟨u * a + v, List.mem_map.2 ⟨a, ha, rfl⟩, u * b + v, List.mem_map.2 ⟨b, hb, rfl⟩, by ring, ?_⟩
    simp only [List.countP_map, List.length_map, Function.comp_def, add_lt_add_iff_right, add_le_add_iff_right,
      mul_lt_mul_iff_right₀ hu, mul_le_mul_iff_right₀ hu]
    exact ⟨a1, a2, b1, b2⟩

theorem medianX_fin {M : Mat (X K)} {l : List K} (hM : M.toRawCopy1D = l.map X.fin) (hl : l ≠ []) : M.medianX = X.fin (medianList l) := by
  have hpos : 0 < l.length := List.length_pos_iff.2 hl
  have hany : (l.map (X.fin (K := K))).any X.isNan = false := by
    rw [List.any_eq_false]
    intro x hx
    obtain ⟨y, -, rfl⟩ := List.mem_map.1 hx
    exact Bool.false_ne_true
  have hemp : (l.map (X.fin (K := K))).isEmpty = false := by
    rw [List.isEmpty_eq_false_iff]
    simpa using hl
  have e : (l.map (X.fin (K := K))).mergeSort (fun a b => !X.ltb b a) = (l.mergeSort fun a b => decide (a ≤ b)).map X.fin := by
    refine (List.map_mergeSort fun a _ b _ => ?_).symm
    show decide (a ≤ b) = !(decide (b < a))
    by_cases h : a ≤ b
    · rw [decide_eq_true h, decide_eq_false (not_lt.2 h)]; rfl
    · rw [decide_eq_false h, decide_eq_true (not_le.1 h)]; rfl
  have hlen : (l.mergeSort (fun a b => decide (a ≤ b))).length = l.length := List.length_mergeSort l
  unfold Mat.medianX medianList
  simp only [hM]
  rw [hany, hemp, e, List.length_map, Bool.or_false, if_neg Bool.false_ne_true]
  generalize l.mergeSort (fun a b => decide (a ≤ b)) = s at *
  have g : ∀ k, k < l.length → (s.map (X.fin (K := K))).getD k X.nan = X.fin (s.getD k 0) := by
    intro k hk
    rw [List.getD_eq_getElem?_getD, List.getD_eq_getElem?_getD, List.getElem?_map, List.getElem?_eq_getElem (by omega)]
    rfl
  rw [g _ (by omega), g _ (by omega)]
  exact X.fin_div _ two_ne_zero

omit [Field K] [LinearOrder K] [IsStrictOrderedRing K] in
theorem countP_ofFn (p : K → Bool) : ∀ {n : Nat} (f : Fin n → K), (List.ofFn f).countP p = ∑ i, if p (f i) then 1 else 0
  | 0, _ => rfl
  | n + 1, f => by
    rw [List.ofFn_succ, List.countP_cons, countP_ofFn p, Fin.sum_univ_succ, Nat.add_comm]

omit [Field K] [LinearOrder K] [IsStrictOrderedRing K] in
theorem countP_flatten_ofFn (p : K → Bool) : ∀ {n : Nat} (f : Fin n → List K), (List.ofFn f).flatten.countP p = ∑ i, (f i).countP p
  | 0, _ => rfl
  | n + 1, f => by
    rw [List.ofFn_succ, List.flatten_cons, List.countP_append, countP_flatten_ofFn p, Fin.sum_univ_succ]

omit [Field K] [LinearOrder K] [IsStrictOrderedRing K] in
theorem countP_raw (p : K → Prop) [DecidablePred p] (A : Matrix (Fin m) (Fin n) K) :
    (of A).toRawCopy1D.countP (fun x => decide (p x)) = #{c : Fin m × Fin n | p (A c.1 c.2)} := by
  unfold Mat.toRawCopy1D
  rw [countP_flatten_ofFn, card_filter, Fintype.sum_prod_type_right]
  exact sum_congr rfl fun j _ => by
    rw [countP_ofFn]
    simp only [decide_eq_true_eq]

omit [Field K] [LinearOrder K] [IsStrictOrderedRing K] in
theorem length_raw (A : Matrix (Fin m) (Fin n) K) : (of A).toRawCopy1D.length = m * n := by
  have h := countP_raw (fun _ => True) A
  simpa using h

omit [Field K] [LinearOrder K] [IsStrictOrderedRing K] in
theorem raw_finMat (A : Matrix (Fin m) (Fin n) K) : (of (X.finMat A)).toRawCopy1D = (of A).toRawCopy1D.map X.fin := by
  unfold Mat.toRawCopy1D
  rw [List.map_flatten, List.map_ofFn]
  congr 2
  funext j
  show _ = List.map _ (List.ofFn _)
  rw [List.map_ofFn]
  rfl

omit [Field K] [LinearOrder K] [IsStrictOrderedRing K] in
theorem mem_raw (A : Matrix (Fin m) (Fin n) K) {x : K} (h : x ∈ (of A).toRawCopy1D) : ∃ i j, A i j = x := by
  unfold Mat.toRawCopy1D at h
  simp only [List.mem_flatten, List.mem_ofFn] at h
  obtain ⟨_, ⟨j, rfl⟩, hx⟩ := h
  obtain ⟨i, hi⟩ := List.mem_ofFn.1 hx
  exact ⟨i, j, hi⟩

/-- C141 (median): the median of a matrix of finite numbers is the mid-point of two entries, the lower and the upper middle one: fewer than half
of the cells are below the lower one, at least half are not above it; fewer than half are above the upper one, at least half are not below it
(so for an odd number of cells the two agree).  These two entries are determined by that. -/
theorem C141_median (hm : 0 < m) (hn : 0 < n) (A : Matrix (Fin m) (Fin n) K) :
    ∃ i j i' j', (of (X.finMat A)).medianX = X.fin ((A i j + A i' j') / 2) ∧
      2 * #{c : Fin m × Fin n | A c.1 c.2 < A i j} < m * n ∧ m * n ≤ 2 * #{c : Fin m × Fin n | A c.1 c.2 ≤ A i j} ∧
      2 * #{c : Fin m × Fin n | A i' j' < A c.1 c.2} < m * n ∧ m * n ≤ 2 * #{c : Fin m × Fin n | A i' j' ≤ A c.1 c.2} ∧
      (m * n % 2 = 1 → A i j = A i' j') := by
  have hl : (of A).toRawCopy1D ≠ [] := by
    rw [← List.length_pos_iff, length_raw]
    exact Nat.mul_pos hm hn
  obtain ⟨a, ha, b, hb, e, a1, a2, b1, b2⟩ := median_middle _ hl
  obtain ⟨i, j, rfl⟩ := mem_raw A ha
  obtain ⟨i', j', rfl⟩ := mem_raw A hb
  refine ⟨i, j, i', j', by rw [medianX_fin (raw_finMat A) hl, e], ?_⟩
  rw [countP_raw, length_raw] at a1 a2 b1 b2
  refine ⟨a1, a2, b1, b2, fun ho => ?_⟩
  have s1 : #{c : Fin m × Fin n | A c.1 c.2 < A i j} + #{c : Fin m × Fin n | A i j ≤ A c.1 c.2} = m * n := by
    have := card_filter_add_card_filter_not (s := (univ : Finset (Fin m × Fin n))) (fun c => A c.1 c.2 < A i j)
    simpa using this
  have s2 : #{c : Fin m × Fin n | A i' j' < A c.1 c.2} + #{c : Fin m × Fin n | A c.1 c.2 ≤ A i' j'} = m * n := by
    have := card_filter_add_card_filter_not (s := (univ : Finset (Fin m × Fin n))) (fun c => A i' j' < A c.1 c.2)
    simpa using this
  rcases lt_trichotomy (A i j) (A i' j') with h | h | h
  · have s3 : #{c : Fin m × Fin n | A c.1 c.2 ≤ A i j} + #{c : Fin m × Fin n | A i' j' ≤ A c.1 c.2} ≤ m * n := by
      rw [← card_union_of_disjoint (disjoint_filter.2 fun c _ h1 h2 => absurd (h2.trans h1) (not_le.2 h))]
      exact (card_le_univ _).trans (by simp)
    omega
  · exact h
  · have s3 : #{c : Fin m × Fin n | A i j ≤ A c.1 c.2} ≤ #{c : Fin m × Fin n | A i' j' < A c.1 c.2} :=
      card_le_card fun c hc => by
        simp only [mem_filter, mem_univ, true_and] at hc ⊢
        exact lt_of_lt_of_le h hc
    omega

/-- C141 (median): only the values matter, not where they stand; changing units (also the sign) and origin changes the median accordingly; and if
more than half of the cells lie between two bounds, so does the median, whatever the others are. -/
theorem C141_median_laws (hm : 0 < m) (hn : 0 < n) (A : Matrix (Fin m) (Fin n) K) :
    ∃ c, (of (X.finMat A)).medianX = X.fin c ∧
      (∀ {m' n' : Nat} (e : Fin m' × Fin n' ≃ Fin m × Fin n),
        (of (X.finMat (Matrix.of fun i j => A (e (i, j)).1 (e (i, j)).2))).medianX = X.fin c) ∧
      (∀ u v : K, (of (X.finMat (Matrix.of fun i j => u * A i j + v))).medianX = X.fin (u * c + v)) ∧
      ∀ a b : K, m * n < 2 * #{c : Fin m × Fin n | a ≤ A c.1 c.2 ∧ A c.1 c.2 ≤ b} → a ≤ c ∧ c ≤ b := by
  have hl : (of A).toRawCopy1D ≠ [] := by
    rw [← List.length_pos_iff, length_raw]
    exact Nat.mul_pos hm hn
  have hmid := median_middle _ hl
  refine ⟨_, medianX_fin (raw_finMat A) hl, fun {m' n'} e => ?_, fun u v => ?_, fun a b h => ?_⟩
  · have hp : (of A).toRawCopy1D.Perm (of (Matrix.of fun i j => A (e (i, j)).1 (e (i, j)).2)).toRawCopy1D := by
      refine List.perm_iff_count.2 fun x => ?_
      have h1 := countP_raw (fun y => y = x) A
      have h2 := countP_raw (fun y => y = x) (Matrix.of fun i j => A (e (i, j)).1 (e (i, j)).2)
      have h3 : #{c : Fin m' × Fin n' | (Matrix.of fun i j => A (e (i, j)).1 (e (i, j)).2) c.1 c.2 = x} =
          #{c : Fin m × Fin n | A c.1 c.2 = x} := by
        refine card_bij (fun c _ => e c) (fun c hc => ?_) (fun c _ d _ h => e.injective h) fun c hc => ⟨e.symm c, ?_, e.apply_symm_apply c⟩
        · simpa using hc
        · simpa using hc
      rw [h3, ← h1] at h2
      rw [List.count_eq_countP, List.count_eq_countP]
      simp only [beq_eq_decide]
      exact h2.symm
    have hl' : (of (Matrix.of fun i j => A (e (i, j)).1 (e (i, j)).2)).toRawCopy1D ≠ [] := fun h => by
      rw [h] at hp
      exact hl hp.eq_nil
    rw [medianX_fin (raw_finMat _) hl']
    exact congrArg _ ((median_middle _ hl').unique (hmid.perm hp))
  · have e : (of (Matrix.of fun i j => u * A i j + v)).toRawCopy1D = (of A).toRawCopy1D.map fun x => u * x + v := by
      unfold Mat.toRawCopy1D
      rw [List.map_flatten, List.map_ofFn]
      congr 2
      funext j
      show _ = List.map _ (List.ofFn _)
      rw [List.map_ofFn]
      rfl
    have hl' : (of (Matrix.of fun i j => u * A i j + v)).toRawCopy1D ≠ [] := by
      rw [e]
      simpa using hl
    rw [medianX_fin (raw_finMat _) hl']
    refine congrArg _ ((median_middle _ hl').unique ?_)
    rw [e]
    exact hmid.affine u v
  · refine median_within _ a b ?_
    rw [countP_raw (fun x => a ≤ x ∧ x ≤ b), length_raw]
    exact h

omit [IsStrictOrderedRing K] in
/-- C141 (median): NaN if an entry is NaN or there are no entries. -/
theorem C141_median_nan (M : Mat (X K)) (h : (∃ i j, M.data i j = X.nan) ∨ M.rows = 0 ∨ M.cols = 0) : M.medianX = X.nan := by
  obtain ⟨m, n, A⟩ := M
  unfold Mat.medianX Mat.toRawCopy1D
  dsimp only at h ⊢
  refine if_pos ?_
  rw [Bool.or_eq_true]
  rcases h with ⟨i, j, h⟩ | h | h
  · right
    rw [List.any_eq_true]
    refine ⟨X.nan, ?_, rfl⟩
    simp only [List.mem_flatten, List.mem_ofFn]
    exact ⟨_, ⟨j, rfl⟩, List.mem_ofFn.2 ⟨i, h⟩⟩
  · left
    subst h
    simp
  · left
    subst h
    simp

end med

/-- The function the PRM theorems ask for. -/
theorem medianX_isMedian : IsMedian (K := ℝ) Mat.medianX := fun n f hn => by
  have e : (of (Matrix.of fun i (_ : Fin 1) => X.fin (f i))).toRawCopy1D = (List.ofFn f).map X.fin := by
    simp [Mat.toRawCopy1D, Function.comp_def]
  refine medianX_fin e fun h => ?_
  have := congrArg List.length h
  simp at this
  omega

/-- C141 (limit): the standard deviation of a single sample is NaN. -/
theorem C141_single_limits (A : Matrix (Fin 1) (Fin n) ℝ) (j : Fin n) : helperStdev (of (X.finMat A)) j.1 = .ok X.nan := by
  show (of (X.finMat A)).columnStdevs.get 0 j.1 = _
  rw [X.columnStdevs_single, get_row0, pyIndex_pos]
  rfl

/-- C142 (violated): `helper.euclidean_distance` is documented as giving the distances between the rows of two matrices; it raises
`NotImplementedError` for all of them. -/
theorem C142_euclidean_violation {α : Type} (rest : Mat α → Mat α → Mat α → Mat α → Except PyErr (Mat α)) (x y : Mat α) :
    helperEuclidean rest x y = .error .notImplemented := rfl

/-- Four numbers: the lower middle one is 3, the upper one 4. -/
example : (of (X.finMat (!![3, 4; 100, -7] : Matrix (Fin 2) (Fin 2) ℚ))).medianX = X.fin (7 / 2) := by
  have e : (of (!![3, 4; 100, -7] : Matrix (Fin 2) (Fin 2) ℚ)).toRawCopy1D = [3, 100, 4, -7] := by simp [Mat.toRawCopy1D, List.ofFn_succ]
  rw [medianX_fin (l := [3, 100, 4, -7]) ((raw_finMat _).trans (by rw [e])) (by simp)]
  refine congrArg _ ((median_middle _ (by simp)).unique ⟨3, by simp, 4, by simp, by norm_num, ?_⟩)
  decide +kernel

end Verif.Props
