import Verif.Core.UtilsLemmas
import Verif.Core.Ext
import Mathlib.Data.Real.Basic
import Mathlib.Algebra.BigOperators.Ring.Finset
import Mathlib.Algebra.Order.BigOperators.Ring.Finset
import Mathlib.Order.WithBot
import Mathlib.Tactic.Linarith
import Mathlib.Tactic.Ring
import Mathlib.Tactic.LinearCombination
import Mathlib.Tactic.FieldSimp
import Mathlib.Tactic.NormNum

/-!
# C22, C23 sorting; C24 linear regression; C25 maximum

Floats are the extended scalars `X K` (finite numbers of an ordered field, infinities, NaN) with
the IEEE comparisons.
-/

namespace Verif.Props
open Verif Utils

/-! ## Floats and their comparisons -/

section sorting
variable {K : Type} [LinearOrder K]

/-- Python's `<` and `>` on floats. -/
def floatCmp : Cmp (X K) := ⟨fun a b => X.ltb a b, fun a b => X.ltb b a⟩

/-- The position of a float in the extended order; NaN has none. -/
def rank : X K → Option (WithBot (WithTop K))
  | .fin x => some ((x : WithTop K) : WithBot (WithTop K))
  | .pinf => some ((⊤ : WithTop K) : WithBot (WithTop K))
  | .ninf => some ⊥
  | .nan => none

theorem floatCmp_eq : (floatCmp : Cmp (X K)) = keyCmp rank := by
  have h : ∀ a b : X K, X.ltb a b = gtKey (rank b) (rank a) := by
    intro a b
    have htop : ∀ x : K, (((x : WithTop K) : WithBot (WithTop K)) < ((⊤ : WithTop K) : WithBot _)) :=
      fun x => WithBot.coe_lt_coe.2 (WithTop.coe_lt_top x)
    cases a <;> cases b <;> simp [X.ltb, gtKey, rank]
    exact htop _
  unfold floatCmp keyCmp
  congr 1
  · funext a b; exact h a b
  · funext a b; exact h b a

/-- **C22** `sort` on a list of `np.float64` values returns, for every input (NaN, infinities and
ties included), a permutation of `0 … n-1`; the amount of fuel is irrelevant once it exceeds the
length. -/
theorem C22_sort_perm (array : List (X K)) (fuel : Nat) (hf : array.length < fuel) :
    ∃ index, sort floatCmp true fuel array = .ok index ∧ index.Perm (List.range array.length) := by
  rw [floatCmp_eq]
  obtain ⟨index, h, _⟩ := sort_ok (key := rank) array fuel hf
  exact ⟨index, h, sort_perm h⟩

/-- **C22 (partial)** On any other element type (`int`, Python `float`) and for any comparison,
whenever `sort` returns, it returns a permutation.  Missing: it may raise instead, see
`C22_plain_violation`. -/
theorem C22_plain_partial {α : Type} (cmp : Cmp α) (fuel : Nat) (array : List α) (index : List Nat)
    (h : sort cmp false fuel array = .ok index) : index.Perm (List.range array.length) :=
  sort_perm h

/-- Integer comparison. -/
def intCmp : Cmp Int := ⟨fun a b => decide (a < b), fun a b => decide (a > b)⟩

/-- **C22 (violation)** On a list of four plain `int`s, `sort` raises `IndexError`. -/
theorem C22_plain_violation : sort intCmp false 100 [1, 1, 0, 0] = .error .indexError := by
  decide +kernel

/-- **C23 (partial)** Reading a NaN-free list of `np.float64` through the returned index gives a
non-decreasing sequence: whenever position `i` comes before position `j`, the element there is not
greater.  Missing: NaN and plain Python numbers, see the violations. -/
theorem C23_sort_sorted_partial (array : List (X K)) (hnan : X.nan ∉ array) (fuel : Nat)
    (hf : array.length < fuel) :
    ∃ index, sort floatCmp true fuel array = .ok index ∧
      ∀ (i j : Nat) (a b : X K), i < j → (index[i]?.bind fun p => array[p]?) = some a →
        (index[j]?.bind fun p => array[p]?) = some b → X.ltb b a = false := by
  have hperm := C22_sort_perm array fuel hf
  rw [floatCmp_eq] at hperm ⊢
  obtain ⟨index, h, hs⟩ := sort_ok (key := rank) array fuel hf
  refine ⟨index, h, ?_⟩
  intro i j a b hij ha hb
  have hnn : ∀ x ∈ array, rank x ≠ none := by
    intro x hx hr
    cases x with
    | nan => exact hnan hx
    | _ => cases hr
  obtain ⟨p, hp, hpa⟩ := Option.bind_eq_some_iff.1 ha
  obtain ⟨q, hq, hqb⟩ := Option.bind_eq_some_iff.1 hb
  have hlen : index.length = array.length := by rw [(sort_perm h).length_eq, List.length_range]
  have hj : j < index.length := (List.getElem?_eq_some_iff.1 hq).1
  have := hs hnn a i j (le_of_lt hij) (by omega)
  have e : ∀ k p x, index[k]? = some p → array[p]? = some x → Utils.X array a index k = x := by
    intro k p x h1 h2
    unfold Utils.X
    rw [List.getD_eq_getElem?_getD, List.getD_eq_getElem?_getD, h1]
    show array[p]?.getD a = x
    rw [h2]; rfl
  rw [e i p a hp hpa, e j q b hq hqb] at this
  have hlt : X.ltb b a = (floatCmp : Cmp (X K)).gt a b := rfl
  rw [hlt, floatCmp_eq]
  exact this

/-- **C23 (violation)** A NaN spoils the order of the other elements (the docstring says it is
treated as the largest value): `sort([1, nan, 0, nan])` leaves the list as it is. -/
theorem C23_nan_violation :
    sort (floatCmp : Cmp (X ℚ)) true 100 [.fin 1, .nan, .fin 0, .nan] = .ok [0, 1, 2, 3] := by
  decide +kernel

/-- **C23 (violation)** A list of plain `int`s is not sorted: `sort([0, 1, 2, 3])` moves the
elements to `0, 2, 1, 3`. -/
theorem C23_plain_violation : sort intCmp false 100 [0, 1, 2, 3] = .ok [0, 2, 1, 3] := by
  decide +kernel

/-- The hypotheses of `C23_sort_sorted_partial` are met by a list with ties and infinities. -/
example : X.nan ∉ ([.fin 2, .pinf, .fin 2, .ninf, .fin (-1)] : List (X ℚ)) ∧
    sort (floatCmp : Cmp (X ℚ)) true 6 [.fin 2, .pinf, .fin 2, .ninf, .fin (-1)] =
      .ok [3, 4, 2, 0, 1] := by
  constructor <;> decide +kernel

end sorting

/-! ## C24 -/

section regression

theorem pySum_eq {R : Type} [AddCommMonoid R] (l : List R) : pySum l = l.sum := by
  unfold pySum
  rw [List.sum_eq_foldl]

/-- The residual sum of squares of the line `y = a + b x` on the data. -/
def rss (data : List (ℝ × ℝ)) (a b : ℝ) : ℝ := (data.map fun p => (p.2 - a - b * p.1) ^ 2).sum

/-- The predictor is not constant. -/
def NotConstant (data : List (ℝ × ℝ)) : Prop := ∃ p ∈ data, ∃ q ∈ data, p.1 ≠ q.1

section sums
variable (data : List (ℝ × ℝ))

/-- All five sums of a data list at once. -/
theorem sums_lin (c d e f g : ℝ) (data : List (ℝ × ℝ)) :
    (data.map fun p => c + d * p.1 + e * p.2 + f * (p.1 * p.1) + g * (p.1 * p.2)).sum =
      c * data.length + d * (data.map (·.1)).sum + e * (data.map (·.2)).sum +
      f * (data.map fun p => p.1 * p.1).sum + g * (data.map fun p => p.1 * p.2).sum := by
  induction data with
  | nil => simp
  | cons p l ih => simp only [List.map_cons, List.sum_cons, ih, List.length_cons]; push_cast; ring

theorem sums_sq_nonneg (f : ℝ × ℝ → ℝ) : 0 ≤ (data.map fun p => f p ^ 2).sum := by
  apply List.sum_nonneg
  intro x hx
  obtain ⟨p, _, rfl⟩ := List.mem_map.1 hx
  exact sq_nonneg _

theorem sums_sq_eq_zero (f : ℝ × ℝ → ℝ) (h : (data.map fun p => f p ^ 2).sum = 0) :
    ∀ p ∈ data, f p = 0 := by
  induction data with
  | nil => simp
  | cons q l ih =>
    simp only [List.map_cons, List.sum_cons] at h
    have h1 := sums_sq_nonneg l f
    have h2 := sq_nonneg (f q)
    intro p hp
    rcases List.mem_cons.1 hp with rfl | hp
    · exact pow_eq_zero_iff (two_ne_zero) |>.1 (by linarith)
    · exact ih (by linarith) p hp

/-- A predictor that is not constant has a nonzero denominator. -/
theorem denom_ne_zero (hc : NotConstant data) :
    (data.length : ℝ) * (data.map fun p => p.1 * p.1).sum -
      (data.map (·.1)).sum * (data.map (·.1)).sum ≠ 0 := by
  intro h0
  obtain ⟨p, hp, q, hq, hpq⟩ := hc
  have hn : (data.length : ℝ) ≠ 0 := by
    have : data ≠ [] := List.ne_nil_of_mem hp
    exact_mod_cast fun h => this (List.length_eq_zero_iff.1 h)
  set n : ℝ := (data.length : ℝ)
  set s := (data.map (·.1)).sum
  have key : (data.map fun p => (p.1 - s / n) ^ 2).sum = 0 := by
    have e : (fun p : ℝ × ℝ => (p.1 - s / n) ^ 2) = fun p =>
        (s / n) ^ 2 + (-2 * (s / n)) * p.1 + 0 * p.2 + 1 * (p.1 * p.1) + 0 * (p.1 * p.2) := by
      funext p; ring
    rw [e, sums_lin]
    have hs : (data.map (·.1)).sum = s := rfl
    have hl : (data.length : ℝ) = n := rfl
    rw [hs, hl]
    have : (data.map fun p => p.1 * p.1).sum = s * s / n := by
      rw [eq_div_iff hn]; linarith
    rw [this]
    field_simp
    ring
  have hz := sums_sq_eq_zero data (fun p => p.1 - s / n) key
  have h1 := hz p hp
  have h2 := hz q hq
  exact hpq (by linarith)

end sums

variable (data : List (ℝ × ℝ))

theorem linearRegression_eq : linearRegression (data.map (·.1)) (data.map (·.2)) =
    (let n : ℝ := data.length
     let sx := (data.map (·.1)).sum
     let sy := (data.map (·.2)).sum
     let sxx := (data.map fun p => p.1 * p.1).sum
     let sxy := (data.map fun p => p.1 * p.2).sum
     ((sy * sxx - sx * sxy) / (n * sxx - sx * sx), (n * sxy - sx * sy) / (n * sxx - sx * sx))) := by
  unfold linearRegression sumOfSquares
  simp only [pySum_eq, List.length_map, List.map_map]
  have : (data.map (·.1)).zip (data.map (·.2)) = data := by
    rw [List.zip_map']; simp
  rw [this]
  rfl

/-- **C24** For every data set whose predictor is not constant, `linear_regression` returns the
(intercept, slope) of the least-squares line: residuals sum to zero, are orthogonal to the
predictor, and no other line has a smaller residual sum of squares. -/
theorem C24_least_squares (hc : NotConstant data) :
    let r := linearRegression (data.map (·.1)) (data.map (·.2))
    (data.map fun p => p.2 - r.1 - r.2 * p.1).sum = 0 ∧
    (data.map fun p => (p.2 - r.1 - r.2 * p.1) * p.1).sum = 0 ∧
    ∀ a b : ℝ, rss data r.1 r.2 ≤ rss data a b := by
  have hd := denom_ne_zero data hc
  rw [linearRegression_eq]
  set n : ℝ := (data.length : ℝ)
  set sx := (data.map (·.1)).sum with hsx
  set sy := (data.map (·.2)).sum with hsy
  set sxx := (data.map fun p => p.1 * p.1).sum with hsxx
  set sxy := (data.map fun p => p.1 * p.2).sum with hsxy
  simp only []
  set a₀ := (sy * sxx - sx * sxy) / (n * sxx - sx * sx) with ha
  set b₀ := (n * sxy - sx * sy) / (n * sxx - sx * sx) with hb
  have ha' : a₀ * (n * sxx - sx * sx) = sy * sxx - sx * sxy := div_mul_cancel₀ _ hd
  have hb' : b₀ * (n * sxx - sx * sx) = n * sxy - sx * sy := div_mul_cancel₀ _ hd
  have e1 : sy - a₀ * n - b₀ * sx = 0 := by
    refine (mul_eq_zero.1 (?_ : (sy - a₀ * n - b₀ * sx) * (n * sxx - sx * sx) = 0)).resolve_right hd
    linear_combination (-n) * ha' - sx * hb'
  have e2 : sxy - a₀ * sx - b₀ * sxx = 0 := by
    refine (mul_eq_zero.1 (?_ : (sxy - a₀ * sx - b₀ * sxx) * (n * sxx - sx * sx) = 0)).resolve_right hd
    linear_combination (-sx) * ha' - sxx * hb'
  have r1 : (data.map fun p => p.2 - a₀ - b₀ * p.1).sum = 0 := by
    have e : (fun p : ℝ × ℝ => p.2 - a₀ - b₀ * p.1) = fun p =>
        (-a₀) + (-b₀) * p.1 + 1 * p.2 + 0 * (p.1 * p.1) + 0 * (p.1 * p.2) := by funext p; ring
    rw [e, sums_lin, ← hsx, ← hsy, ← hsxx, ← hsxy]
    linarith
  have r2 : (data.map fun p => (p.2 - a₀ - b₀ * p.1) * p.1).sum = 0 := by
    have e : (fun p : ℝ × ℝ => (p.2 - a₀ - b₀ * p.1) * p.1) = fun p =>
        0 + (-a₀) * p.1 + 0 * p.2 + (-b₀) * (p.1 * p.1) + 1 * (p.1 * p.2) := by funext p; ring
    rw [e, sums_lin, ← hsx, ← hsy, ← hsxx, ← hsxy]
    linarith
  refine ⟨r1, r2, fun a b => ?_⟩
  unfold rss
  have split : (data.map fun p => (p.2 - a - b * p.1) ^ 2).sum =
      (data.map fun p => (p.2 - a₀ - b₀ * p.1) ^ 2).sum +
      2 * ((a₀ - a) * (data.map fun p => p.2 - a₀ - b₀ * p.1).sum +
        (b₀ - b) * (data.map fun p => (p.2 - a₀ - b₀ * p.1) * p.1).sum) +
      (data.map fun p => ((a₀ - a) + (b₀ - b) * p.1) ^ 2).sum := by
    generalize a₀ = A; generalize b₀ = B
    clear * -
    induction data with
    | nil => simp
    | cons p l ih => simp only [List.map_cons, List.sum_cons, ih]; ring
  rw [split, r1, r2]
  have := sums_sq_nonneg data (fun p => (a₀ - a) + (b₀ - b) * p.1)
  linarith

example : NotConstant [((1 : ℝ), 5), (1, 7), (4, 2)] :=
  ⟨(1, 5), by simp, (4, 2), by simp, by norm_num⟩

/-- **C24** On a constant predictor both results are NaN (`0/0` in float arithmetic, computed here
without rounding). -/
theorem C24_constant_nan (c : ℝ) (ys : List ℝ) :
    linearRegression (List.replicate ys.length (X.fin c)) (ys.map X.fin) = (X.nan, X.nan) := by
  have hsum : ∀ l : List ℝ, pySum (l.map X.fin) = X.fin l.sum := by
    intro l
    unfold pySum
    have : ∀ (l : List ℝ) (s : ℝ), (l.map X.fin).foldl (· + ·) (X.fin s) = X.fin (s + l.sum) := by
      intro l
      induction l with
      | nil => intro s; simp
      | cons a l ih =>
        intro s
        show (l.map X.fin).foldl (· + ·) (X.fin (s + a)) = _
        rw [ih, List.sum_cons, add_assoc]
    have h0 : (0 : X ℝ) = X.fin 0 := rfl
    rw [h0, this l 0, zero_add]
  have hrep : List.replicate ys.length (X.fin c) = (List.replicate ys.length c).map X.fin := by
    rw [List.map_replicate]
  unfold linearRegression sumOfSquares
  rw [hrep]
  have hsq : ((List.replicate ys.length c).map X.fin).map (fun x => x * x) =
      ((List.replicate ys.length (c * c))).map X.fin := by
    simp only [List.map_replicate]; rfl
  have hxy : ((((List.replicate ys.length c).map X.fin).zip (ys.map X.fin)).map fun p => p.1 * p.2) =
      (ys.map fun y => c * y).map X.fin := by
    clear * -
    induction ys with
    | nil => rfl
    | cons y ys ih =>
      simp only [List.length_cons, List.replicate_succ, List.map_cons, List.zip_cons_cons]
      rw [ih]; rfl
  rw [hsq, hxy]
  simp only [hsum, List.length_map, List.length_replicate, List.sum_replicate, nsmul_eq_mul]
  have hcs : (ys.map fun y => c * y).sum = c * ys.sum := by
    clear * -
    induction ys with
    | nil => simp
    | cons y ys ih => simp only [List.map_cons, List.sum_cons, ih]; ring
  rw [hcs]
  have hn : ((ys.length : Nat) : X ℝ) = X.fin (ys.length : ℝ) := rfl
  have sub : ∀ a b : ℝ, (X.fin a - X.fin b : X ℝ) = X.fin (a - b) := by
    intro a b
    show X.fin (a + -b) = _
    rw [sub_eq_add_neg]
  have mul : ∀ a b : ℝ, (X.fin a * X.fin b : X ℝ) = X.fin (a * b) := fun _ _ => rfl
  have div0 : (X.fin 0 / X.fin 0 : X ℝ) = X.nan := by
    show (if (0 : ℝ) = 0 then X.signedInf 0 else X.fin (0 / 0)) = X.nan
    simp [X.signedInf]
  rw [hn]
  simp only [mul, sub]
  have z1 : ys.sum * (↑ys.length * (c * c)) - ↑ys.length * c * (c * ys.sum) = 0 := by ring
  have z2 : ↑ys.length * (↑ys.length * (c * c)) - ↑ys.length * c * (↑ys.length * c) = 0 := by ring
  have z3 : ↑ys.length * (c * ys.sum) - ↑ys.length * c * ys.sum = 0 := by ring
  rw [z1, z2, z3, div0]

end regression

/-! ## C25 -/

section maximum
variable {α : Type} [Zero α]

/-- **C25 (violation)** `max_index` returns `1` for *every* non-empty list, whatever its length and
contents (and `0` for the empty list): the loop stores the constant `1` instead of the index. -/
theorem C25_max_index_violation (cmp : Cmp α) (reals : List α) (h : reals ≠ []) :
    maxIndex cmp reals = 1 := by
  unfold maxIndex
  cases reals with
  | nil => exact absurd rfl h
  | cons a l =>
    have : ∀ (ps : List (Nat × α)) (s : Nat × α), s.1 = 1 →
        (ps.foldl (fun (s : Nat × α) (p : Nat × α) =>
          if p.1 = 0 || cmp.gt p.2 s.2 then (1, p.2) else s) s).1 = 1 := by
      intro ps
      induction ps with
      | nil => intro s hs; exact hs
      | cons p ps ih =>
        intro s hs
        rw [List.foldl_cons]
        apply ih
        split
        · rfl
        · exact hs
    simp only [List.length_cons, List.range_succ_eq_map, List.zip_cons_cons, List.foldl_cons]
    exact this _ _ rfl

/-- **C25 (partial)** It is the index of a maximum exactly when position 1 is: for lists of length
at least two whose element 1 is maximal. Missing: all other lists, see the violation. -/
theorem C25_max_index_partial (cmp : Cmp α) (a b : α) (l : List α)
    (hmax : ∀ x ∈ a :: b :: l, cmp.gt x b = false) :
    ∃ m, (a :: b :: l)[maxIndex cmp (a :: b :: l)]? = some m ∧
      ∀ x ∈ a :: b :: l, cmp.gt x m = false := by
  rw [C25_max_index_violation cmp _ (by simp)]
  exact ⟨b, rfl, hmax⟩

/-- In particular `max_index([5, 1, 2])` is `1`, the position of the smallest element, and
`max_index([5])` is `1`, which is out of range. -/
example : maxIndex intCmp [5, 1, 2] = 1 ∧ maxIndex intCmp [5] = 1 := by
  constructor <;> decide

end maximum
end Verif.Props
