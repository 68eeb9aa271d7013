import Verif.Props.FFTProps

/-!
# C130: what the FFT transformation keeps and forgets

Consequences of C72 users rely on when they use amplitude spectra as features (`_FFT.py` 60-306): the amplitudes carry the
energy of a row (Parseval), they do not change when the rows are shifted cyclically, and the real and imaginary parts
depend linearly on the data.
-/

namespace Verif.Props

open Verif Mat Transf

variable {m n : Nat}

theorem unitRoot_norm (N : Nat) (t : Int) : ‖unitRoot N t‖ = 1 := by
  have h : unitRoot N t * (starRingEnd ℂ) (unitRoot N t) = 1 := by
    rw [unitRoot_conj, ← unitRoot_add, add_neg_cancel, unitRoot_zero]
  rw [Complex.mul_conj, Complex.normSq_eq_norm_sq] at h
  have h' : ‖unitRoot N t‖ ^ 2 = 1 := by exact_mod_cast h
  exact (pow_eq_one_iff_of_nonneg (norm_nonneg _) two_ne_zero).1 h'

/-- Energy of the spectrum relative to the energy of the data. -/
noncomputable def energyScale (ortho : Bool) (N : Nat) : ℝ := if ortho then 1 else N

/-- Parseval's identity. -/
theorem dft_parseval (ortho : Bool) (x : Fin (n + 1) → ℝ) :
    ∑ k : Fin (n + 1), ‖dft ortho x k‖ ^ 2 = energyScale ortho (n + 1) * ∑ j, x j ^ 2 := by
  have h1 : ∀ k : Fin (n + 1), ((‖dft ortho x k‖ ^ 2 : ℝ) : ℂ) =
      ∑ j : Fin (n + 1), fwdScale ortho (n + 1) * (x j : ℂ) * (dft ortho x k * unitRoot (n + 1) ((k : Nat) * (j : Nat) : Int)) := by
    intro k
    rw [← Complex.normSq_eq_norm_sq, ← Complex.mul_conj]
    conv_lhs => rw [dft_eq ortho x k]
    rw [← dft_eq ortho x k, dft_eq, map_mul, fwdScale_conj, map_sum, ← dft_eq, ← mul_assoc, Finset.mul_sum]
    refine Finset.sum_congr rfl fun j _ => ?_
    rw [map_mul, Complex.conj_ofReal, unitRoot_conj, neg_neg, mul_comm ((j : Nat) : Int)]
    ring
  have h2 : bwdScale ortho (n + 1) * ((∑ k : Fin (n + 1), ‖dft ortho x k‖ ^ 2 : ℝ) : ℂ) =
      fwdScale ortho (n + 1) * ((∑ j, x j ^ 2 : ℝ) : ℂ) := by
    rw [Complex.ofReal_sum, Finset.sum_congr rfl fun k _ => h1 k, Finset.sum_comm, Complex.ofReal_sum, Finset.mul_sum,
      Finset.mul_sum]
    refine Finset.sum_congr rfl fun j _ => ?_
    rw [← Finset.mul_sum]
    have := dft_inversion ortho x j
    rw [Complex.ofReal_pow]
    linear_combination fwdScale ortho (n + 1) * (x j : ℂ) * this
  have hN : ((n + 1 : ℕ) : ℂ) ≠ 0 := by exact_mod_cast Nat.succ_ne_zero n
  have hs := scales ortho (N := n + 1) (by omega)
  have h3 : ((∑ k : Fin (n + 1), ‖dft ortho x k‖ ^ 2 : ℝ) : ℂ) =
      fwdScale ortho (n + 1) ^ 2 * (n + 1 : ℕ) * ((∑ j, x j ^ 2 : ℝ) : ℂ) := by
    linear_combination (-((∑ k : Fin (n + 1), ‖dft ortho x k‖ ^ 2 : ℝ) : ℂ)) * hs + fwdScale ortho (n + 1) * (n + 1 : ℕ) * h2
  have h4 : fwdScale ortho (n + 1) ^ 2 * (n + 1 : ℕ) = ((energyScale ortho (n + 1) : ℝ) : ℂ) := by
    unfold fwdScale energyScale
    cases ortho
    · simp
    · simp only [if_true]
      have hpos : (0 : ℝ) < (n + 1 : ℕ) := by exact_mod_cast Nat.succ_pos n
      have : (1 / Real.sqrt (n + 1 : ℕ)) ^ 2 * ((n + 1 : ℕ) : ℝ) = 1 := by
        rw [div_pow, one_pow, Real.sq_sqrt hpos.le]
        exact one_div_mul_cancel hpos.ne'
      exact_mod_cast this
  rw [h4] at h3
  exact_mod_cast h3

/-- A sum over all frequencies of something symmetric is a weighted sum over the frequencies up to half. -/
theorem sum_half (N : Nat) (hN : 0 < N) (g : Nat → ℝ) (hg : ∀ k, 0 < k → k < N → g (N - k) = g k) :
    ∑ k ∈ Finset.range N, g k =
      ∑ k ∈ Finset.range (N / 2 + 1), (if k = 0 ∨ 2 * k = N then 1 else 2) * g k := by
  have h1 : Finset.range N = Finset.range (N / 2 + 1) ∪ Finset.Ico (N / 2 + 1) N := by
    ext k
    simp only [Finset.mem_range, Finset.mem_union, Finset.mem_Ico]
    omega
  by_cases h2 : N = 1
  · subst h2
    simp
  have hd : Disjoint (Finset.range (N / 2 + 1)) (Finset.Ico (N / 2 + 1) N) := by
    rw [Finset.disjoint_left]
    intro k hk hk'
    simp only [Finset.mem_range, Finset.mem_Ico] at hk hk'
    omega
  have h3 : ∑ k ∈ Finset.Ico (N / 2 + 1) N, g k =
      ∑ k ∈ (Finset.range (N / 2 + 1)).filter (fun k => ¬ (k = 0 ∨ 2 * k = N)), g k := by
    refine Finset.sum_nbij' (fun k => N - k) (fun k => N - k) ?_ ?_ ?_ ?_ ?_
    · intro k hk
      simp only [Finset.mem_Ico, Finset.mem_filter, Finset.mem_range] at hk ⊢
      omega
    · intro k hk
      simp only [Finset.mem_Ico, Finset.mem_filter, Finset.mem_range] at hk ⊢
      omega
    · intro k hk
      simp only [Finset.mem_Ico] at hk
      omega
    · intro k hk
      simp only [Finset.mem_filter, Finset.mem_range] at hk
      omega
    · intro k hk
      simp only [Finset.mem_Ico] at hk
      exact (hg k (by omega) (by omega)).symm
  rw [h1, Finset.sum_union hd, h3, Finset.sum_filter, ← Finset.sum_add_distrib]
  refine Finset.sum_congr rfl fun k _ => ?_
  by_cases hk : k = 0 ∨ 2 * k = N
  · rw [if_neg (not_not.2 hk), if_pos hk]
    ring
  · rw [if_pos hk, if_neg hk]
    ring

theorem srcRow_injective : Function.Injective (srcRow (m := m)) := by
  intro i j h
  have h' : (i.1 + (m - m / 2)) % m = (j.1 + (m - m / 2)) % m := congrArg Fin.val h
  have : i.1 % m = j.1 % m := Nat.ModEq.add_right_cancel' _ h'
  exact Fin.ext ((Nat.mod_eq_of_lt i.2).symm.trans (this.trans (Nat.mod_eq_of_lt j.2)))

/-- **C130 (energy).** In amplitude mode every row of the output carries the energy of one row of the data, and every row of
the data is accounted for once: counting all frequencies but zero and the highest twice, the squares of the amplitudes
sum to the sum of the squares of the data, times the number of columns if the transformation is not orthonormal. -/
theorem C130_energy (ortho : Bool) (A : Matrix (Fin m) (Fin (n + 1)) ℝ) :
    ∃ (B : Matrix (Fin m) (Fin ((n + 1) / 2 + 1)) ℝ) (σ : Equiv.Perm (Fin m)),
      fftTransform ortho .amplitudeOnly (of A) = .ok (of B) ∧
      ∀ i, ∑ k, (if k.1 = 0 ∨ 2 * k.1 = n + 1 then 1 else 2) * B i k ^ 2 =
        (if ortho then 1 else ((n + 1 : ℕ) : ℝ)) * ∑ j, A (σ i) j ^ 2 := by
  refine ⟨_, Equiv.ofBijective srcRow (Finite.injective_iff_bijective.1 srcRow_injective), C72_modes ortho .amplitudeOnly A,
    fun i => ?_⟩
  have h := dft_parseval ortho (A (srcRow i))
  rw [Fin.sum_univ_eq_sum_range (fun k => ‖dft ortho (A (srcRow i)) k‖ ^ 2),
    sum_half (n + 1) (Nat.succ_pos n) (fun k => ‖dft ortho (A (srcRow i)) k‖ ^ 2) fun k _ hk => by
      show ‖dft ortho (A (srcRow i)) (n + 1 - k)‖ ^ 2 = ‖dft ortho (A (srcRow i)) k‖ ^ 2
      rw [dft_symm ortho _ k hk.le, Complex.norm_conj],
    Finset.sum_range] at h
  exact h

/-- Shifting the data cyclically multiplies the spectrum by a root of unity. -/
theorem dft_shift (ortho : Bool) (x : Fin (n + 1) → ℝ) (s : Fin (n + 1)) (k : Nat) :
    dft ortho (fun j => x (j + s)) k = unitRoot (n + 1) ((s : Nat) * k : Int) * dft ortho x k := by
  rw [dft_eq, dft_eq, mul_left_comm]
  congr 1
  rw [Finset.mul_sum]
  refine Eq.trans ?_ (Equiv.sum_comp (Equiv.addRight s) fun l =>
    unitRoot (n + 1) ((s : Nat) * k : Int) * ((x l : ℂ) * unitRoot (n + 1) (-((l : Nat) * k : Int))))
  refine Finset.sum_congr rfl fun j _ => ?_
  show (x (j + s) : ℂ) * _ = unitRoot (n + 1) ((s : Nat) * k : Int) *
    ((x (j + s) : ℂ) * unitRoot (n + 1) (-(((j + s : Fin (n + 1)) : Nat) * k : Int)))
  rw [mul_left_comm]
  congr 1
  rw [← unitRoot_add]
  have hv : ((j + s : Fin (n + 1)) : Nat) = (j.1 + s.1) % (n + 1) := rfl
  have hd := Nat.div_add_mod (j.1 + s.1) (n + 1)
  rw [← hv] at hd
  have e : (-((j : Nat) * k : Int)) = ((n + 1 : Nat) : Int) * (-(((j.1 + s.1) / (n + 1) : Nat) : Int) * k) +
      (((s : Nat) * k : Int) + -(((j + s : Fin (n + 1)) : Nat) * k : Int)) := by
    have hd' : ((n + 1 : Nat) : Int) * (((j.1 + s.1) / (n + 1) : Nat) : Int) + (((j + s : Fin (n + 1)) : Nat) : Int) =
        (j.1 : Int) + (s.1 : Int) := by exact_mod_cast hd
    linear_combination (k : Int) * hd'
  rw [e, unitRoot_add, unitRoot_mul_self (by omega), one_mul]

/-- **C130 (shift).** Amplitudes do not change when all rows are shifted cyclically. -/
theorem C130_shift (ortho : Bool) (A : Matrix (Fin m) (Fin (n + 1)) ℝ) (s : Fin (n + 1)) :
    fftTransform ortho .amplitudeOnly (of (Matrix.of fun i j => A i (j + s))) =
      fftTransform ortho .amplitudeOnly (of A) := by
  rw [C72_modes, C72_modes]
  congr 2
  ext i k
  show ‖dft ortho (fun j => A (srcRow i) (j + s)) k‖ = ‖dft ortho (A (srcRow i)) k‖
  rw [dft_shift, norm_mul, unitRoot_norm, one_mul]

theorem dft_linear (ortho : Bool) (a b : ℝ) (x y : Fin (n + 1) → ℝ) (k : Nat) :
    dft ortho (fun j => a * x j + b * y j) k = a * dft ortho x k + b * dft ortho y k := by
  rw [dft_eq, dft_eq, dft_eq]
  simp only [Finset.mul_sum, ← Finset.sum_add_distrib]
  refine Finset.sum_congr rfl fun j _ => ?_
  push_cast
  ring

/-- **C130 (linearity).** Real parts, imaginary parts and pairs of them depend linearly on the data. -/
theorem C130_linear (ortho : Bool) (mode : OutputMode)
    (hmode : mode = .realOnly ∨ mode = .imagOnly ∨ mode = .realImagPairs) (m n : Nat) :
    ∃ (q : Nat) (T : Matrix (Fin m) (Fin (n + 1)) ℝ →ₗ[ℝ] Matrix (Fin m) (Fin q) ℝ),
      ∀ A, fftTransform ortho mode (of A) = .ok (of (T A)) := by
  have key : ∀ (a b : ℝ) (x y : Fin (n + 1) → ℝ) (k : Nat),
      modeRow ortho (fun j => a * x j + b * y j) mode k = a * modeRow ortho x mode k + b * modeRow ortho y mode k := by
    intro a b x y k
    have hre : ∀ k, (dft ortho (fun j => a * x j + b * y j) k).re = a * (dft ortho x k).re + b * (dft ortho y k).re := by
      intro k
      rw [dft_linear]
      simp
    have him : ∀ k, (dft ortho (fun j => a * x j + b * y j) k).im = a * (dft ortho x k).im + b * (dft ortho y k).im := by
      intro k
      rw [dft_linear]
      simp
    rcases hmode with rfl | rfl | rfl
    · exact hre k
    · exact him k
    · simp only [modeRow]
      split
      · exact hre 0
      · split
        · exact hre _
        · exact him _
  refine ⟨modeCols n mode, ⟨⟨fun A => Matrix.of fun i k => modeRow ortho (A (srcRow i)) mode k, fun A B => ?_⟩, fun c A => ?_⟩,
    fun A => C72_modes ortho mode A⟩
  · ext i k
    have := key 1 1 (A (srcRow i)) (B (srcRow i)) k
    simp only [one_mul] at this
    exact this
  · ext i k
    have := key c 0 (A (srcRow i)) (A (srcRow i)) k
    simp only [zero_mul, add_zero] at this
    exact this

/-- **C130 (gain).** Multiplying the data by a number multiplies the amplitudes by its absolute value and, if the number is
positive, leaves the phases alone. -/
theorem C130_gain (ortho : Bool) (A : Matrix (Fin m) (Fin (n + 1)) ℝ) (c : ℝ) :
    (∃ B : Matrix (Fin m) (Fin ((n + 1) / 2 + 1)) ℝ, fftTransform ortho .amplitudeOnly (of A) = .ok (of B) ∧
      fftTransform ortho .amplitudeOnly (of (c • A)) = .ok (of (|c| • B))) ∧
    (0 < c → fftTransform ortho .phaseOnly (of (c • A)) = fftTransform ortho .phaseOnly (of A)) := by
  have hd : ∀ i k, dft ortho ((c • A) i) k = c * dft ortho (A i) k := by
    intro i k
    have := dft_linear ortho c 0 (A i) (A i) k
    simp only [zero_mul, add_zero, Complex.ofReal_zero] at this
    exact this
  refine ⟨⟨_, C72_modes ortho .amplitudeOnly A, (C72_modes ortho .amplitudeOnly (c • A)).trans ?_⟩, fun hc => ?_⟩
  · congr 2
    ext i k
    show ‖dft ortho ((c • A) (srcRow i)) k‖ = |c| * ‖dft ortho (A (srcRow i)) k‖
    rw [hd, norm_mul, Complex.norm_real, Real.norm_eq_abs]
  · rw [C72_modes, C72_modes]
    congr 2
    ext i k
    show (dft ortho ((c • A) (srcRow i)) k).arg = (dft ortho (A (srcRow i)) k).arg
    rw [hd, Complex.arg_real_mul _ hc]

/-! ## A case -/

/-- Two rows: their energies are 25 and 2, and so are those of the orthonormal amplitude spectrum, in some order. -/
example : ∃ (B : Matrix (Fin 2) (Fin 2) ℝ) (σ : Equiv.Perm (Fin 2)),
    fftTransform true .amplitudeOnly (of (!![3, 4; 1, -1] : Matrix (Fin 2) (Fin 2) ℝ)) = .ok (of B) ∧
      ∀ i, B i 0 ^ 2 + B i 1 ^ 2 = if σ i = 0 then 25 else 2 := by
  obtain ⟨B, σ, h, h'⟩ := C130_energy true (!![3, 4; 1, -1] : Matrix (Fin 2) (Fin 2) ℝ)
  refine ⟨B, σ, h, fun i => ?_⟩
  have e := (Fin.sum_univ_two fun k : Fin 2 => (if k.1 = 0 ∨ 2 * k.1 = 1 + 1 then (1 : ℝ) else 2) * B i k ^ 2).symm.trans (h' i)
  have hs : ∀ r : Fin 2, ∑ j, (!![3, 4; 1, -1] : Matrix (Fin 2) (Fin 2) ℝ) r j ^ 2 = if r = 0 then 25 else 2 := by
    intro r
    fin_cases r <;> (simp [Fin.sum_univ_two]; try norm_num)
  rw [hs] at e
  simpa using e

end Verif.Props
