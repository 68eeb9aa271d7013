import Verif.Props.FilterProps
import Verif.Props.SavGolProps
import Verif.Props.PlsRotation

/-!
# Resampling composes and commutes with linear operations (C138)

`Downsample` and `Equidistance` act on the columns of every row alike.  Two downsamplings are one; a resampling onto a
refinement of the grid loses nothing; and both filters, like `SavitzkyGolay`, multiply the data on the right by a matrix that
does not depend on the data, so that they may be exchanged with centring and with combinations of rows.
-/

namespace Verif.Props

open Verif Mat Factory Transf
open scoped Matrix

variable {α : Type} {m n k r : Nat}

/-! ## Two downsamplings -/

theorem mat_eq_entries {A B : Mat α} (hr : A.rows = B.rows) (hc : A.cols = B.cols)
    (h : ∀ i j, A.entry? i j = B.entry? i j) : A = B := by
  obtain ⟨a, b, A⟩ := A
  obtain ⟨a', b', B⟩ := B
  dsimp only at hr hc
  subst hr hc
  congr 1
  ext i j
  have := h i j
  rw [entry?_mk, entry?_mk] at this
  exact Option.some.inj this

/-- The columns kept by a downsampling from a column number. -/
theorem downsample_nat (start step : Nat) (hs : 0 < step) (M : Mat α) :
    ∃ R, downsample start step M = .ok R ∧ R.rows = M.rows ∧ (∀ t, t < R.cols ↔ start + t * step < M.cols) ∧
      ∀ i t, R.entry? i t = M.entry? i (start + t * step) := by
  obtain ⟨R, h1, h2, h3, h4⟩ := C42_columns (start : Int) (step : Int) (by omega) M (by omega)
  have h3' : ∀ t, t < R.cols ↔ start + t * step < M.cols := by
    intro t
    rw [h3]
    constructor
    · intro h; exact_mod_cast h
    · intro h; exact_mod_cast h
  refine ⟨R, h1, h2, h3', fun i t => ?_⟩
  by_cases ht : t < R.cols
  · exact h4 i t _ ht ⟨(h3' t).1 ht, Or.inl ⟨by positivity, by push_cast; rfl⟩⟩
  · unfold entry?
    rw [dif_neg (fun h => ht h.2), dif_neg (fun h => ht ((h3' t).2 h.2))]

theorem cols_eq {a b : Nat} (h : ∀ t, t < a ↔ t < b) : a = b := by
  have h1 := h a
  have h2 := h b
  omega

/-- **C138** (two downsamplings).  Downsampling what a downsampling kept is one downsampling: the second start counts in steps
of the first, and the steps multiply. -/
theorem C138_downsample (s₁ k₁ s₂ k₂ : Nat) (h₁ : 0 < k₁) (h₂ : 0 < k₂) (M : Mat α) :
    (downsample s₁ k₁ M >>= downsample s₂ k₂) = downsample ((s₁ + k₁ * s₂ : Nat) : Int) ((k₁ * k₂ : Nat) : Int) M := by
  obtain ⟨R, e, hr, hc, he⟩ := downsample_nat s₁ k₁ h₁ M
  obtain ⟨S, e', hr', hc', he'⟩ := downsample_nat s₂ k₂ h₂ R
  obtain ⟨T, f, gr, gc, ge⟩ := downsample_nat (s₁ + k₁ * s₂) (k₁ * k₂) (Nat.mul_pos h₁ h₂) M
  have key : ∀ t, s₁ + (s₂ + t * k₂) * k₁ = s₁ + k₁ * s₂ + t * (k₁ * k₂) := fun t => by ring
  rw [e, f]
  show downsample _ _ R = _
  rw [e']
  congr 1
  refine mat_eq_entries (by rw [hr', hr, gr]) (cols_eq fun t => ?_) fun i t => ?_
  · rw [hc', hc, gc, key]
  · rw [he', he, ge, key]

/-- Every second column from the second on, and of these every second: columns 1, 5 of seven. -/
example : (downsample 1 2 (of !![10, 11, 12, 13, 14, 15, 16] : Mat Int) >>= downsample 0 2) = .ok (of !![11, 15]) := by
  decide +kernel

/-! ## Resampling onto a finer grid -/

/-- On the interval between two grid points the interpolation is the line through them. -/
theorem interp_cell (f : ℤ → ℝ) {p : ℝ} (c : ℤ) (h0 : (c : ℝ) ≤ p) (h1 : p ≤ c + 1) :
    interp f p = f c + (p - c) * (f (c + 1) - f c) := by
  rcases h1.lt_or_eq with h | h
  · have : ⌊p⌋ = c := Int.floor_eq_iff.2 ⟨h0, h⟩
    unfold interp
    rw [this]
  · have : p = ((c + 1 : ℤ) : ℝ) := by rw [h]; push_cast; ring
    rw [this, interp_int]
    push_cast
    ring

/-- Interpolating the values of an interpolation on a grid `q` times as fine is that interpolation. -/
theorem interp_refined (f g : ℤ → ℝ) (n q : Nat) (hq : 0 < q) (hg : ∀ t : Nat, t ≤ q * n → g t = interp f ((t : ℝ) / q))
    {x : ℝ} (h0 : 0 ≤ x) (hx : x ≤ n) : interp g (q * x) = interp f x := by
  have hq' : (0 : ℝ) < q := by exact_mod_cast hq
  have hf0 : 0 ≤ ⌊(q : ℝ) * x⌋ := Int.floor_nonneg.2 (by positivity)
  obtain ⟨t, ht⟩ := Int.eq_ofNat_of_zero_le hf0
  have hlo : (t : ℝ) ≤ q * x := by
    have := Int.floor_le ((q : ℝ) * x)
    rw [ht] at this
    exact_mod_cast this
  have hhi : (q : ℝ) * x < t + 1 := by
    have := Int.lt_floor_add_one ((q : ℝ) * x)
    rw [ht] at this
    exact_mod_cast this
  have htn : t ≤ q * n := by
    have : (t : ℝ) ≤ ((q * n : Nat) : ℝ) := by
      push_cast
      exact hlo.trans (mul_le_mul_of_nonneg_left hx hq'.le)
    exact_mod_cast this
  rcases htn.lt_or_eq with hlt | heq
  · have d1 : ((q * (t / q) : Nat) : ℝ) ≤ t := by exact_mod_cast Nat.mul_div_le t q
    have d2 : ((t + 1 : Nat) : ℝ) ≤ ((q * (t / q) + q : Nat) : ℝ) := by
      have : t < q * (t / q) + q := by
        have a := Nat.div_add_mod t q
        have b := Nat.mod_lt t hq
        omega
      exact_mod_cast this
    generalize t / q = c at d1 d2
    push_cast at d1 d2
    have hc0 : ((c : ℤ) : ℝ) ≤ (t : ℝ) / q := by rw [le_div_iff₀ hq', Int.cast_natCast]; linarith
    have hc1 : ((t : ℝ) + 1) / q ≤ ((c : ℤ) : ℝ) + 1 := by rw [div_le_iff₀ hq', Int.cast_natCast]; linarith
    have hstep : (t : ℝ) / q ≤ ((t : ℝ) + 1) / q := by gcongr; linarith
    have hx0 : (t : ℝ) / q ≤ x := by rw [div_le_iff₀ hq']; linarith
    have hx1 : x ≤ ((t : ℝ) + 1) / q := by rw [le_div_iff₀ hq']; linarith
    have g0 : g t = f c + ((t : ℝ) / q - c) * (f (c + 1) - f c) := by
      rw [hg t htn, interp_cell f c hc0 (hstep.trans hc1), Int.cast_natCast]
    have g1 : g ((t : ℤ) + 1) = f c + (((t : ℝ) + 1) / q - c) * (f (c + 1) - f c) := by
      have := hg (t + 1) (by omega)
      push_cast at this
      rw [this, interp_cell f c (hc0.trans hstep) hc1, Int.cast_natCast]
    rw [interp_cell g t (by exact_mod_cast hlo) (by exact_mod_cast hhi.le), g0, g1,
      interp_cell f c (hc0.trans hx0) (hx1.trans hc1), Int.cast_natCast, Int.cast_natCast]
    field_simp
    ring
  · have hxe : x = n := by
      refine le_antisymm hx ?_
      rw [heq] at hlo
      push_cast at hlo
      exact le_of_mul_le_mul_left hlo hq'
    have e1 : (q : ℝ) * x = ((q * n : Nat) : ℤ) := by rw [hxe]; push_cast; ring
    have e2 : ((q * n : Nat) : ℝ) / q = x := by rw [hxe]; push_cast; field_simp
    rw [e1, interp_int, hg _ le_rfl, e2]

theorem samplePos_le {j : Nat} (hk : 2 ≤ k) (hj : j < k) : 0 ≤ samplePos (n + 1) k j ∧ samplePos (n + 1) k j ≤ n := by
  have hk' : (0 : ℝ) < (k : ℝ) - 1 := by
    have : (2 : ℝ) ≤ k := by exact_mod_cast hk
    linarith
  have hj' : (j : ℝ) ≤ (k : ℝ) - 1 := by
    have : ((j + 1 : Nat) : ℝ) ≤ k := by exact_mod_cast hj
    push_cast at this
    linarith
  unfold samplePos
  push_cast
  rw [add_sub_cancel_right]
  refine ⟨by positivity, ?_⟩
  rw [div_le_iff₀ hk']
  exact mul_le_mul_of_nonneg_left hj' (by positivity)

/-- **C138** (a finer grid loses nothing).  Resampling `n + 1` columns to `q n + 1` columns, and the result to any number of
columns, is resampling the original to that number. -/
theorem C138_refine {l q : Nat} (hm : 0 < m) (hn : 0 < n) (hq : 0 < q) (hl : 2 ≤ l) (A : Matrix (Fin m) (Fin (n + 1)) ℝ) :
    (equidistance ((q * n + 1 : Nat) : Int) (of A) >>= equidistance (l : Int)) = equidistance (l : Int) (of A) := by
  have hqn : 0 < q * n := Nat.mul_pos hq hn
  have hq' : (q : ℝ) ≠ 0 := by exact_mod_cast hq.ne'
  have hn' : (n : ℝ) ≠ 0 := by exact_mod_cast hn.ne'
  rw [C43_interpolation hm (by omega) (by omega) A, C43_interpolation hm (by omega) hl A]
  show equidistance _ _ = _
  rw [C43_interpolation hm (by omega) hl]
  congr 1
  refine mk_congr fun i j => ?_
  rw [Matrix.of_apply, Matrix.of_apply]
  obtain ⟨h0, h1⟩ := samplePos_le (n := n) hl j.2
  have e : samplePos (q * n + 1) l j = q * samplePos (n + 1) l j := by
    unfold samplePos
    push_cast
    ring
  rw [e]
  refine interp_refined _ _ n q hq (fun t ht => ?_) h0 h1
  have := extRow_fin (fun j : Fin (q * n + 1) => interp (extRow (A i)) (samplePos (n + 1) (q * n + 1) j)) ⟨t, by omega⟩
  refine this.trans ?_
  congr 1
  unfold samplePos
  push_cast
  rw [add_sub_cancel_right, add_sub_cancel_right]
  field_simp

/-- **C138** (and back).  After the refinement the original is recovered, by resampling to the first number of columns. -/
theorem C138_back {q : Nat} (hm : 0 < m) (hn : 0 < n) (hq : 0 < q) (A : Matrix (Fin m) (Fin (n + 1)) ℝ) :
    (equidistance ((q * n + 1 : Nat) : Int) (of A) >>= equidistance ((n + 1 : Nat) : Int)) = .ok (of A) := by
  rw [C138_refine hm hn hq (by omega), C43_identity hm (by omega)]

/-- **C138** (and back).  Or by keeping every `q`-th column. -/
theorem C138_back_downsample {q : Nat} (hm : 0 < m) (hn : 0 < n) (hq : 0 < q) (A : Matrix (Fin m) (Fin (n + 1)) ℝ) :
    (equidistance ((q * n + 1 : Nat) : Int) (of A) >>= downsample 0 (q : Int)) = .ok (of A) := by
  have hqn : 0 < q * n := Nat.mul_pos hq hn
  have hq' : (q : ℝ) ≠ 0 := by exact_mod_cast hq.ne'
  have hn' : (n : ℝ) ≠ 0 := by exact_mod_cast hn.ne'
  rw [C43_interpolation hm (by omega) (by omega) A]
  obtain ⟨R, e, hr, hc, he⟩ := downsample_nat 0 q hq (of (Matrix.of fun i (j : Fin (q * n + 1)) =>
    interp (extRow (A i)) (samplePos (n + 1) (q * n + 1) j)))
  show downsample _ _ _ = _
  rw [show (0 : Int) = ((0 : Nat) : Int) from rfl, e]
  congr 1
  have hcols : R.cols = (of A).cols := by
    refine cols_eq fun t => (hc t).trans ?_
    show 0 + t * q < q * n + 1 ↔ t < n + 1
    rw [zero_add, Nat.lt_succ_iff, Nat.lt_succ_iff, mul_comm]
    exact Nat.mul_le_mul_left_iff hq
  refine mat_eq_entries hr hcols fun i t => ?_
  rw [he]
  by_cases hi : i < m
  · by_cases ht : t < n + 1
    · have htq : t * q < q * n + 1 := by
        rw [Nat.lt_succ_iff, mul_comm]
        exact Nat.mul_le_mul_left q (Nat.lt_succ_iff.1 ht)
      rw [zero_add]
      have h1 := entry?_of (Matrix.of fun i (j : Fin (q * n + 1)) =>
        interp (extRow (A i)) (samplePos (n + 1) (q * n + 1) j)) ⟨i, hi⟩ ⟨t * q, htq⟩
      have h2 := entry?_of A ⟨i, hi⟩ ⟨t, ht⟩
      refine h1.trans (Eq.trans ?_ h2.symm)
      congr 1
      rw [Matrix.of_apply]
      have : samplePos (n + 1) (q * n + 1) (t * q) = ((t : ℤ) : ℝ) := by
        unfold samplePos
        push_cast
        field_simp
        ring
      show interp _ (samplePos (n + 1) (q * n + 1) (t * q)) = _
      rw [this, interp_int]
      exact extRow_fin (A ⟨i, hi⟩) ⟨t, ht⟩
    · unfold entry?
      rw [dif_neg (fun h => ht (by have := (hc t).2 h.2; rw [hcols] at this; exact this)), dif_neg (fun h => ht h.2)]
  · unfold entry?
    rw [dif_neg (fun h => hi h.1), dif_neg (fun h => hi h.1)]

/-- Three columns to five and back; a coarser grid in between does lose values (three to two and back). -/
example : (equidistance 5 (of !![0, 2, 1] : Mat ℚ)) = .ok (of !![0, 1, 2, 3/2, 1]) ∧
    (equidistance 5 (of !![0, 2, 1] : Mat ℚ) >>= equidistance 3) = .ok (of !![0, 2, 1]) ∧
    (equidistance 2 (of !![0, 2, 1] : Mat ℚ) >>= equidistance 3) = .ok (of !![0, 1/2, 1]) := by
  decide +kernel

/-! ## Right multiplication by a fixed matrix -/

/-- The filter multiplies data with `n` columns on the right by `W`. -/
def RightMul (f : Mat ℝ → Except PyErr (Mat ℝ)) (W : Matrix (Fin n) (Fin k) ℝ) : Prop :=
  ∀ {m : Nat}, 0 < m → ∀ A : Matrix (Fin m) (Fin n) ℝ, f (of A) = .ok (of (A * W))

theorem extRow_single (r : Fin n → ℝ) (c : ℤ) : extRow r c = ∑ l, r l * extRow (Pi.single l (1 : ℝ)) c := by
  unfold extRow
  by_cases h : 0 ≤ c ∧ c.toNat < n
  · simp only [dif_pos h]
    rw [Finset.sum_eq_single ⟨c.toNat, h.2⟩]
    · simp
    · intro l _ hl
      rw [Pi.single_eq_of_ne (Ne.symm hl), mul_zero]
    · intro h'
      exact absurd (Finset.mem_univ _) h'
  · simp only [dif_neg h, mul_zero, Finset.sum_const_zero]

theorem interp_single (r : Fin n → ℝ) (p : ℝ) : interp (extRow r) p = ∑ l, r l * interp (extRow (Pi.single l (1 : ℝ))) p := by
  unfold interp
  rw [extRow_single r ⌊p⌋, extRow_single r (⌊p⌋ + 1), ← Finset.sum_sub_distrib, Finset.mul_sum, ← Finset.sum_add_distrib]
  exact Finset.sum_congr rfl fun l _ => by ring

/-- **C138** (`Equidistance` is linear).  Resampling multiplies on the right by a fixed matrix of non-negative weights, the
weights of every output column summing to one, at most two neighbouring ones being nonzero. -/
theorem C138_equidistance (hn : 0 < n) (hk : 2 ≤ k) :
    ∃ W : Matrix (Fin n) (Fin k) ℝ, RightMul (equidistance (k : Int)) W ∧ (∀ c j, 0 ≤ W c j) ∧ (∀ j, ∑ c, W c j = 1) ∧
      ∀ c j, W c j ≠ 0 → |samplePos n k j - c| < 1 := by
  obtain ⟨n, rfl⟩ : ∃ n', n = n' + 1 := ⟨n - 1, by omega⟩
  let W : Matrix (Fin (n + 1)) (Fin k) ℝ := Matrix.of fun c j => interp (extRow (Pi.single c (1 : ℝ))) (samplePos (n + 1) k j)
  have hW : RightMul (equidistance (k : Int)) W := by
    intro m hm A
    rw [C43_interpolation hm hn hk A]
    congr 1
    refine mk_congr fun i j => ?_
    rw [Matrix.of_apply, interp_single, Matrix.mul_apply]
    rfl
  have hE : ∀ (c : Fin (n + 1)) (z : ℤ), extRow (Pi.single c (1 : ℝ)) z = if z = (c : Nat) then 1 else 0 := by
    intro c z
    unfold extRow
    by_cases h : 0 ≤ z ∧ z.toNat < n + 1
    · rw [dif_pos h, Pi.single_apply]
      have : ((⟨z.toNat, h.2⟩ : Fin (n + 1)) = c) ↔ z = (c : Nat) := by
        rw [Fin.ext_iff]
        dsimp only
        omega
      simp only [this]
    · rw [dif_neg h, if_neg]
      intro hz
      exact h ⟨by omega, by have := c.2; omega⟩
  have hform : ∀ c j, W c j = (1 - (samplePos (n + 1) k j - ⌊samplePos (n + 1) k j⌋)) *
      (if ⌊samplePos (n + 1) k j⌋ = ((c : Nat) : ℤ) then 1 else 0) +
        (samplePos (n + 1) k j - ⌊samplePos (n + 1) k j⌋) * (if ⌊samplePos (n + 1) k j⌋ + 1 = ((c : Nat) : ℤ) then 1 else 0) := by
    intro c j
    show interp _ _ = _
    unfold interp
    rw [hE, hE]
    ring
  refine ⟨W, hW, fun c j => ?_, fun j => ?_, fun c j => ?_⟩
  · rw [hform]
    have h0 := Int.floor_le (samplePos (n + 1) k j)
    have h1 := Int.lt_floor_add_one (samplePos (n + 1) k j)
    refine add_nonneg (mul_nonneg (by linarith) ?_) (mul_nonneg (by linarith) ?_) <;> split_ifs <;> norm_num
  · have h1 := hW (m := 1) Nat.one_pos (Matrix.of fun _ _ => 1)
    have h2 := C43_interpolation (m := 1) Nat.one_pos hn hk (Matrix.of fun _ (_ : Fin (n + 1)) => (1 : ℝ))
    rw [h1] at h2
    have h3 := congrFun (congrFun (of_inj.1 (Except.ok.inj h2)) 0) j
    rw [Matrix.mul_apply, Matrix.of_apply] at h3
    simp only [Matrix.of_apply, one_mul] at h3
    rw [h3]
    obtain ⟨a, b⟩ := samplePos_le (n := n) hk j.2
    rcases b.lt_or_eq with hb | hb
    · have f0 : 0 ≤ ⌊samplePos (n + 1) k j⌋ := Int.floor_nonneg.2 a
      have f1 : ⌊samplePos (n + 1) k j⌋ < (n : ℤ) := by
        rw [Int.floor_lt]
        exact_mod_cast hb
      unfold interp extRow
      rw [dif_pos ⟨f0, by omega⟩, dif_pos ⟨by omega, by omega⟩]
      simp
    · rw [hb, show ((n : Nat) : ℝ) = ((n : ℤ) : ℝ) by push_cast; rfl, interp_int]
      unfold extRow
      rw [dif_pos ⟨by omega, by omega⟩]
      rfl
  · rw [hform]
    have h0 := Int.floor_le (samplePos (n + 1) k j)
    have h1 := Int.lt_floor_add_one (samplePos (n + 1) k j)
    intro hne
    by_cases e1 : ⌊samplePos (n + 1) k j⌋ = ((c : Nat) : ℤ)
    · rw [e1] at h0 h1
      push_cast at h0 h1
      rw [abs_lt]
      constructor <;> linarith
    · rw [if_neg e1, mul_zero, zero_add] at hne
      by_cases e2 : ⌊samplePos (n + 1) k j⌋ + 1 = ((c : Nat) : ℤ)
      · rw [if_pos e2, mul_one] at hne
        have e3 : (⌊samplePos (n + 1) k j⌋ : ℝ) + 1 = (c : Nat) := by exact_mod_cast e2
        rw [abs_lt]
        have : 0 < samplePos (n + 1) k j - ⌊samplePos (n + 1) k j⌋ := lt_of_le_of_ne (by linarith) (Ne.symm hne)
        constructor <;> linarith
      · rw [if_neg e2, mul_zero] at hne
        exact absurd rfl hne

/-- **C138** (`Downsample` is linear).  The matrix is the selection of the kept columns. -/
theorem C138_downsample_linear (start step : Nat) (hs : 0 < step) (n : Nat) :
    ∃ (k : Nat) (W : Matrix (Fin n) (Fin k) ℝ), RightMul (downsample (start : Int) (step : Int)) W ∧
      ∀ c t, W c t = if c.1 = start + t.1 * step then 1 else 0 := by
  have hk : ∀ t : Nat, t < pyRangeLen (start : Int) n (step : Int) ↔ start + t * step < n := by
    intro t
    rw [pyRangeLen_lt (by omega)]
    constructor
    · intro h; exact_mod_cast h
    · intro h; exact_mod_cast h
  refine ⟨pyRangeLen (start : Int) n (step : Int),
    Matrix.of fun c t => if c.1 = start + t.1 * step then (1 : ℝ) else 0, fun {m} _ A => ?_, fun c t => rfl⟩
  obtain ⟨R, e, hr, hc, he⟩ := downsample_nat start step hs (of A)
  rw [e]
  congr 1
  have hcols : R.cols = pyRangeLen (start : Int) n (step : Int) := cols_eq fun t => (hc t).trans (hk t).symm
  refine mat_eq_entries hr hcols fun i t => ?_
  rw [he]
  by_cases hi : i < m
  · by_cases ht : start + t * step < n
    · have htk := (hk t).2 ht
      refine (entry?_of A ⟨i, hi⟩ ⟨_, ht⟩).trans (Eq.trans ?_ (entry?_of _ ⟨i, hi⟩ ⟨t, htk⟩).symm)
      congr 1
      rw [Matrix.mul_apply, Finset.sum_eq_single ⟨_, ht⟩]
      · simp
      · intro c _ hne
        rw [Matrix.of_apply, if_neg, mul_zero]
        intro h
        exact hne (Fin.ext h)
      · intro h
        exact absurd (Finset.mem_univ _) h
    · unfold entry?
      rw [dif_neg (fun h => ht h.2), dif_neg (fun h => ht ((hk t).1 h.2))]
  · unfold entry?
    rw [dif_neg (fun h => hi h.1), dif_neg (fun h => hi h.1)]

/-- **C138** (`SavitzkyGolay` is linear).  The matrix is the band of coefficients. -/
theorem C138_savgol {w : Nat} (c : Matrix (Fin 1) (Fin (w + 1)) ℝ) :
    RightMul (n := n + w + 1) (sgApply (of c)) (Matrix.of fun (a : Fin (n + w + 1)) (j : Fin (n + 1)) =>
      ∑ l : Fin (w + 1), if a.1 = j.1 + l.1 then c 0 l else 0) := by
  intro m _ A
  rw [C32_values c A]
  congr 1
  refine mk_congr fun i j => ?_
  rw [Matrix.of_apply, Matrix.mul_apply]
  simp only [Matrix.of_apply, Finset.mul_sum]
  rw [Finset.sum_comm]
  refine Finset.sum_congr rfl fun l _ => ?_
  rw [Finset.sum_eq_single ⟨j.1 + l.1, by omega⟩]
  · simp
  · intro a _ hne
    rw [if_neg, mul_zero]
    intro h
    exact hne (Fin.ext h)
  · intro h
    exact absurd (Finset.mem_univ _) h

theorem cen_rightMul (hm : 0 < m) (W : Matrix (Fin n) (Fin k) ℝ) (A : Matrix (Fin m) (Fin n) ℝ) (Z : Matrix (Fin r) (Fin n) ℝ) :
    cen (A * W) (Z * W) = cen A Z * W := by
  have h := cen_moved hm W (fun _ => 0) A Z
  have e : ∀ {s : Nat} (B : Matrix (Fin s) (Fin n) ℝ), moved W (fun _ => 0) B = B * W := by
    intro s B
    ext i j
    simp [moved]
  rw [e, e] at h
  exact h

/-- **C138** (centring and filtering may be exchanged).  Data centred by a `Center` configured on `A` and then filtered are the
filtered data centred by a `Center` configured on the filtered `A`. -/
theorem C138_center {f : Mat ℝ → Except PyErr (Mat ℝ)} {W : Matrix (Fin n) (Fin k) ℝ} (hf : RightMul f W) (hm : 0 < m)
    (hr : 0 < r) (A : Matrix (Fin m) (Fin n) ℝ) (Z : Matrix (Fin r) (Fin n) ℝ) :
    ((transform center (of Z) (transform center (of A) center.init).1).2 >>= f) =
      (f (of A) >>= fun A' => f (of Z) >>= fun Z' => (transform center Z' (transform center A' center.init).1).2) := by
  rw [cen_fit, cen_do, hf hm, hf hr]
  show f (of (cen A Z)) = (transform center (of (Z * W)) (transform center (of (A * W)) center.init).1).2
  rw [hf hr, cen_fit, cen_do, cen_rightMul hm]

/-- **C138** (combinations of rows and filtering may be exchanged).  A mixture of spectra, filtered, is the mixture of the
filtered spectra. -/
theorem C138_mix {f : Mat ℝ → Except PyErr (Mat ℝ)} {W : Matrix (Fin n) (Fin k) ℝ} (hf : RightMul f W) (hm : 0 < m)
    (hr : 0 < r) (C : Matrix (Fin r) (Fin m) ℝ) (A : Matrix (Fin m) (Fin n) ℝ) :
    ((of C).mul (of A) >>= f) = (f (of A) >>= fun A' => (of C).mul A') := by
  rw [mul_of, hf hm]
  show f (of (C * A)) = (of C).mul (of (A * W))
  rw [hf hr, mul_of, Matrix.mul_assoc]

/-- Filters that multiply on the right compose: `MultiFilter` multiplies by the product. -/
theorem RightMul.comp {f g : Mat ℝ → Except PyErr (Mat ℝ)} {l : Nat} {W : Matrix (Fin n) (Fin k) ℝ}
    {V : Matrix (Fin k) (Fin l) ℝ} (hf : RightMul f W) (hg : RightMul g V) : RightMul (multiFilter [f, g]) (W * V) := by
  intro m hm A
  show (f (of A) >>= fun R => g R >>= fun R => .ok R) = _
  rw [hf hm]
  show (g (of (A * W)) >>= fun R => .ok R) = _
  rw [hg hm, Matrix.mul_assoc]
  rfl

/-- Two rows of three columns, centred and resampled to five columns, by either order of the two steps. -/
example : ((transform center (of !![0, 2, 1; 2, 4, 5] : Mat ℝ) (transform center (of !![0, 2, 1; 2, 4, 5]) center.init).1).2 >>=
      equidistance 5) =
    (equidistance 5 (of !![0, 2, 1; 2, 4, 5]) >>= fun A' => equidistance 5 (of !![0, 2, 1; 2, 4, 5]) >>= fun Z' =>
      (transform center Z' (transform center A' center.init).1).2) := by
  obtain ⟨W, hW, -⟩ := C138_equidistance (n := 3) (k := 5) (by norm_num) (by norm_num)
  exact C138_center hW (by norm_num) (by norm_num) _ _

end Verif.Props
