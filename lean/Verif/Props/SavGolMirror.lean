import Verif.Props.SavGolFit
import Mathlib.LinearAlgebra.Lagrange

/-!
# C153: Savitzky-Golay has no preferred direction, no superfluous orders, and smoothing never adds noise
-/

namespace Verif.Props
open Verif Mat Transf Finset Polynomial

section mirror
variable {m n l r p d : Nat}

/-- Coefficients that are values of a polynomial of at most the order and reproduce such polynomials are unique. -/
theorem sg_unique {N : Nat} (x c c' : Fin N → ℝ)
    (hc : ∀ f : ℝ[X], f.natDegree ≤ p → ∑ k, c k * f.eval (x k) = f.coeff d)
    (hc' : ∀ f : ℝ[X], f.natDegree ≤ p → ∑ k, c' k * f.eval (x k) = f.coeff d)
    (hg : ∃ g : ℝ[X], g.natDegree ≤ p ∧ ∀ k, c k = g.eval (x k)) (hg' : ∃ g : ℝ[X], g.natDegree ≤ p ∧ ∀ k, c' k = g.eval (x k)) :
    c = c' := by
  obtain ⟨g, hg, e⟩ := hg
  obtain ⟨g', hg', e'⟩ := hg'
  have hd : (g - g').natDegree ≤ p := (natDegree_sub_le g g').trans (max_le hg hg')
  have h : ∑ k, (c k - c' k) ^ 2 = 0 := by
    have h1 := (hc _ hd).trans (hc' _ hd).symm
    rw [← sub_eq_zero, ← sum_sub_distrib] at h1
    rw [← h1]
    refine sum_congr rfl fun k _ => ?_
    rw [eval_sub, ← e, ← e']
    ring
  funext k
  have := (sum_eq_zero_iff_of_nonneg fun k _ => sq_nonneg (c k - c' k)).1 h k (mem_univ k)
  exact sub_eq_zero.1 (pow_eq_zero_iff two_ne_zero |>.1 this)

/-- A polynomial read backwards. -/
noncomputable def flip (f : ℝ[X]) : ℝ[X] := f.comp (C (-1) * Polynomial.X)

theorem flip_eval (f : ℝ[X]) (x : ℝ) : (flip f).eval x = f.eval (-x) := by
  simp [flip, eval_comp]

theorem flip_coeff (f : ℝ[X]) (i : Nat) : (flip f).coeff i = (-1) ^ i * f.coeff i := by
  rw [flip, comp_C_mul_X_coeff, mul_comm]

theorem flip_degree (f : ℝ[X]) (h : f.natDegree ≤ p) : (flip f).natDegree ≤ p := by
  rw [flip, natDegree_comp, natDegree_C_mul_X _ (by norm_num), mul_one]
  exact h

theorem sign_sq (d : Nat) : ((-1 : ℝ)) ^ d * (-1) ^ d = 1 := by
  rw [← mul_pow]
  norm_num

/-- The coefficients of the mirrored window. -/
theorem sg_mirror (h1 : 1 ≤ l + r) (hp : p ≤ l + r) (hd : d ≤ p) :
    ∃ c : Fin (l + r + 1) → ℝ,
      determineCoefficients (l : Int) (r : Int) (p : Int) (d : Int) = .ok (List.ofFn c) ∧
      determineCoefficients (r : Int) (l : Int) (p : Int) (d : Int) = .ok (List.ofFn fun k => (-1) ^ d * c k.rev) := by
  obtain ⟨c, hc, hex, g, hg, hcg⟩ := sg_coefficients h1 hp hd
  obtain ⟨c', hc', hex', g', hg', hcg'⟩ := sg_coefficients (l := r) (r := l) (by omega) (by omega : p ≤ r + l) hd
  refine ⟨c, hc, ?_⟩
  have hN : r + l + 1 = l + r + 1 := by omega
  rw [hc', List.ofFn_congr hN]
  congr 2
  have hpt : ∀ k : Fin (l + r + 1), pt l k.rev = -pt r k := by
    intro k
    unfold pt
    rw [Fin.val_rev]
    have : ((l + r + 1 - ((k : Nat) + 1) : Nat) : ℝ) = (l : ℝ) + r - k := by
      rw [Nat.cast_sub (by omega)]
      push_cast
      ring
    rw [this]
    ring
  refine sg_unique (p := p) (d := d) (fun k => pt r k) _ _ (fun f hf => ?_) (fun f hf => ?_) ⟨g', hg', fun k => hcg' _⟩
    ⟨C ((-1) ^ d) * flip g, (natDegree_C_mul_le _ _).trans (flip_degree g hg), fun k => ?_⟩
  · rw [← hex' f hf]
    exact Fintype.sum_equiv (finCongr hN.symm) _ _ fun k => rfl
  · have h2 := hex (flip f) (flip_degree f hf)
    rw [flip_coeff] at h2
    have h3 : ∑ k, (-1) ^ d * c k.rev * f.eval (pt r k) = (-1) ^ d * ∑ k, c k * (flip f).eval (((k : Nat) : ℝ) - l) := by
      rw [mul_sum, ← Equiv.sum_comp Fin.revPerm]
      refine sum_congr rfl fun k _ => ?_
      rw [flip_eval, Fin.revPerm_apply, Fin.rev_rev, mul_assoc]
      congr 3
      have := hpt k.rev
      rw [Fin.rev_rev] at this
      show pt r k.rev = -pt l k
      rw [this, neg_neg]
    rw [h3, h2, ← mul_assoc, sign_sq, one_mul]
  · rw [eval_mul, eval_C, flip_eval, ← hpt, hcg]

/-- The columns in reverse order. -/
def revCols {m n : Nat} (A : Matrix (Fin m) (Fin n) ℝ) : Matrix (Fin m) (Fin n) ℝ := Matrix.of fun i j => A i j.rev

theorem create_coef {N : Nat} (c : Fin N → ℝ) : Factory.create [List.ofFn c] = .ok (of (Matrix.of fun (_ : Fin 1) k => c k)) := by
  have := Factory.create_ofFn (m := 1) Nat.one_pos (Matrix.of fun (_ : Fin 1) k => c k)
  simpa using this

/-- **C153** The coefficients for the mirrored window, `r` points left and `l` points right, are those for `l` points left and
`r` points right in reverse order, with the sign changed for odd derivatives; with unusable parameters both raise the same. -/
theorem C153_coefficients (h1 : 1 ≤ l + r) :
    (determineCoefficients (r : Int) (l : Int) (p : Int) (d : Int) : Except PyErr (List ℝ)) =
      (determineCoefficients (l : Int) (r : Int) (p : Int) (d : Int)).map fun c => (c.map ((-1) ^ d * ·)).reverse := by
  by_cases hd : d ≤ p
  · by_cases hp : p ≤ l + r
    · obtain ⟨c, hc, hc'⟩ := sg_mirror h1 hp hd
      rw [hc, hc']
      show _ = Except.ok _
      congr 1
      dsimp only
      rw [List.map_ofFn]
      refine List.ext_getElem (by simp) fun k h2 h3 => ?_
      rw [List.getElem_reverse]
      simp only [List.getElem_ofFn, List.length_ofFn, Function.comp]
      congr 2
      refine Fin.ext ?_
      simp only [Fin.val_rev]
      omega
    · rw [C31_too_few_points (by omega) (by omega) hd, C31_too_few_points h1 (by omega) hd]
      rfl
  · rw [C31_derivative_too_high (by omega) (by omega), C31_derivative_too_high h1 (by omega)]
    rfl

/-- **C153** Filtering spectra read from right to left with the mirrored window gives the filtered spectra read from right to
left, with the sign changed for odd derivatives. -/
theorem C153_mirror (h1 : 1 ≤ l + r) (hp : p ≤ l + r) (hd : d ≤ p) (A : Matrix (Fin m) (Fin (n + (l + r) + 1)) ℝ) :
    ∃ (c c' : Mat ℝ) (F : Matrix (Fin m) (Fin (n + 1)) ℝ),
      sgCoefficients (l : Int) (r : Int) (p : Int) (d : Int) = .ok c ∧ sgCoefficients (r : Int) (l : Int) (p : Int) (d : Int) = .ok c' ∧
      sgApply c (of A) = .ok (of F) ∧ sgApply c' (of (revCols A)) = .ok (of ((-1 : ℝ) ^ d • revCols F)) := by
  obtain ⟨c, hc, hc'⟩ := sg_mirror h1 hp hd
  refine ⟨of (Matrix.of fun (_ : Fin 1) k => c k), of (Matrix.of fun (_ : Fin 1) k => (-1) ^ d * c k.rev), _, ?_, ?_, C32_values _ _,
    (C32_values _ _).trans ?_⟩
  · unfold sgCoefficients
    rw [hc]
    exact create_coef c
  · unfold sgCoefficients
    rw [hc']
    exact create_coef _
  · rw [ok_inj]
    refine mk_congr fun i j => ?_
    rw [Matrix.smul_apply, smul_eq_mul]
    simp only [revCols, Matrix.of_apply]
    rw [mul_sum, ← Equiv.sum_comp Fin.revPerm]
    refine sum_congr rfl fun k _ => ?_
    rw [Fin.revPerm_apply, Fin.rev_rev]
    have : (⟨j + k.rev, by omega⟩ : Fin (n + (l + r) + 1)).rev = ⟨j.rev + k, by omega⟩ := by
      refine Fin.ext ?_
      simp only [Fin.val_rev]
      omega
    rw [this]
    ring

/-- **C153** With as many points left as right, reading the spectra from right to left is the same as reading the result from right
to left: for even derivatives exactly, for odd ones with the sign changed. -/
theorem C153_symmetric (h1 : 1 ≤ l) (hp : p ≤ 2 * l) (hd : d ≤ p) (A : Matrix (Fin m) (Fin (n + (l + l) + 1)) ℝ) :
    ∃ (c : Mat ℝ) (F : Matrix (Fin m) (Fin (n + 1)) ℝ), sgCoefficients (l : Int) (l : Int) (p : Int) (d : Int) = .ok c ∧
      sgApply c (of A) = .ok (of F) ∧ sgApply c (of (revCols A)) = .ok (of ((-1 : ℝ) ^ d • revCols F)) := by
  obtain ⟨c, c', F, h2, h3, h4, h5⟩ := C153_mirror (l := l) (r := l) (by omega) (by omega) hd A
  rw [h2, ok_inj] at h3
  subst h3
  exact ⟨c, F, h2, h4, h5⟩

/-- **C153** With as many points left as right, an order that differs from the derivative by an even number can be raised by one
without any change: orders 2 and 3 smooth alike, orders 1 and 2 give the same first derivative. -/
theorem C153_superfluous_order (hp : p + 1 ≤ 2 * l) (hd : d ≤ p) (hpar : (p - d) % 2 = 0) :
    (determineCoefficients (l : Int) (l : Int) ((p + 1 : Nat) : Int) (d : Int) : Except PyErr (List ℝ)) =
      determineCoefficients (l : Int) (l : Int) (p : Int) (d : Int) := by
  obtain ⟨c, hc, hex, g, hg, hcg⟩ := sg_coefficients (l := l) (r := l) (p := p) (d := d) (by omega) (by omega) hd
  obtain ⟨c', hc', hex', g', hg', hcg'⟩ := sg_coefficients (l := l) (r := l) (p := p + 1) (d := d) (by omega) (by omega) (by omega)
  rw [hc, hc']
  congr 2
  refine (sg_unique (p := p + 1) (d := d) (fun k => pt l k) c c' (fun f hf => ?_) hex' ⟨g, by omega, hcg⟩ ⟨g', hg', hcg'⟩).symm
  obtain ⟨c₂, h2, h3⟩ := sg_mirror (l := l) (r := l) (p := p) (d := d) (by omega) (by omega) hd
  rw [hc, ok_inj] at h2 h3
  have e2 := List.ofFn_injective h2
  subst e2
  have e3 := List.ofFn_injective h3
  -- the sum over `X ^ (p + 1)` vanishes by symmetry
  have hpt : ∀ k : Fin (l + l + 1), pt l k.rev = -pt l k := by
    intro k
    unfold pt
    rw [Fin.val_rev, Nat.cast_sub (by omega)]
    push_cast
    ring
  have hodd : ∑ k, c k * pt l k ^ (p + 1) = 0 := by
    have h4 : ∑ k, c k * pt l k ^ (p + 1) = -∑ k, c k * pt l k ^ (p + 1) := by
      conv_lhs => rw [← Equiv.sum_comp Fin.revPerm]
      rw [← sum_neg_distrib]
      refine sum_congr rfl fun k _ => ?_
      rw [Fin.revPerm_apply, hpt, neg_pow]
      have h5 := congrFun e3 k
      have h6 : ((-1 : ℝ)) ^ (p + 1) = -(-1) ^ d := by
        obtain ⟨t, ht⟩ : ∃ t, p = d + 2 * t := ⟨(p - d) / 2, by omega⟩
        rw [ht, pow_succ, pow_add, pow_mul]
        norm_num
      rw [h6]
      linear_combination (pt l k ^ (p + 1)) * h5
    linarith
  have hf' : f = f.erase (p + 1) + C (f.coeff (p + 1)) * Polynomial.X ^ (p + 1) := by
    rw [C_mul_X_pow_eq_monomial, add_comm]
    exact (monomial_add_erase f (p + 1)).symm
  have hdeg : (f.erase (p + 1)).natDegree ≤ p := by
    refine natDegree_le_iff_coeff_eq_zero.2 fun N hN => ?_
    rw [coeff_erase]
    split
    · rfl
    · exact coeff_eq_zero_of_natDegree_lt (by omega)
  have h7 := hex _ hdeg
  have h8 : ∑ k, c k * f.eval (pt l k) = ∑ k, c k * (f.erase (p + 1)).eval (((k : Nat) : ℝ) - l) +
      f.coeff (p + 1) * ∑ k, c k * pt l k ^ (p + 1) := by
    rw [mul_sum, ← sum_add_distrib]
    refine sum_congr rfl fun k _ => ?_
    conv_lhs => rw [hf']
    rw [eval_add, eval_mul, eval_C, eval_pow, eval_X]
    show _ = c k * (f.erase (p + 1)).eval (pt l k) + _
    ring
  rw [h8, h7, hodd, mul_zero, add_zero, coeff_erase, if_neg (by omega)]

/-- **C153** Smoothing (derivative order 0) never adds noise: the sum of the squared coefficients is the coefficient at the centre of
the window, which lies between 0 and 1. -/
theorem C153_smoothing_noise (h1 : 1 ≤ l + r) (hp : p ≤ l + r) :
    ∃ c : Fin (l + r + 1) → ℝ, determineCoefficients (l : Int) (r : Int) (p : Int) 0 = .ok (List.ofFn c) ∧
      ∑ k, c k ^ 2 = c ⟨l, by omega⟩ ∧ 0 < c ⟨l, by omega⟩ ∧ c ⟨l, by omega⟩ ≤ 1 := by
  obtain ⟨c, hc, hex, g, hg, hcg⟩ := sg_coefficients (d := 0) h1 hp (by omega)
  have h0 : c ⟨l, by omega⟩ = g.coeff 0 := by
    rw [hcg, coeff_zero_eq_eval_zero]
    congr 1
    simp [pt]
  have hs : ∑ k, c k ^ 2 = c ⟨l, by omega⟩ := by
    rw [h0, ← hex g hg]
    refine sum_congr rfl fun k _ => ?_
    have : c k = g.eval (((k : Nat) : ℝ) - l) := hcg k
    rw [← this, sq]
  have hle : c ⟨l, by omega⟩ ^ 2 ≤ ∑ k, c k ^ 2 :=
    single_le_sum (f := fun k => c k ^ 2) (fun k _ => sq_nonneg (c k)) (mem_univ (⟨l, by omega⟩ : Fin (l + r + 1)))
  have hpos : 0 < ∑ k, c k ^ 2 := by
    refine lt_of_le_of_ne (sum_nonneg fun k _ => sq_nonneg _) fun h => ?_
    have hz : ∀ k, c k = 0 := fun k =>
      pow_eq_zero_iff two_ne_zero |>.1 ((sum_eq_zero_iff_of_nonneg fun k _ => sq_nonneg (c k)).1 h.symm k (mem_univ k))
    have := hex 1 (by simp)
    simp [hz] at this
  rw [hs] at hle hpos
  refine ⟨c, by exact_mod_cast hc, hs, hpos, ?_⟩
  nlinarith

/-- **C153** No smoothed value is larger than the Euclidean length of the window it is computed from. -/
theorem C153_smoothing_bounded (h1 : 1 ≤ l + r) (hp : p ≤ l + r) (A : Matrix (Fin m) (Fin (n + (l + r) + 1)) ℝ) :
    ∃ (c : Mat ℝ) (F : Matrix (Fin m) (Fin (n + 1)) ℝ), sgCoefficients (l : Int) (r : Int) (p : Int) 0 = .ok c ∧
      sgApply c (of A) = .ok (of F) ∧ ∀ i j, F i j ^ 2 ≤ ∑ k : Fin (l + r + 1), A i ⟨j + k, by omega⟩ ^ 2 := by
  obtain ⟨c, hc, hs, h0, h1'⟩ := C153_smoothing_noise h1 hp
  refine ⟨of (Matrix.of fun (_ : Fin 1) k => c k), _, ?_, C32_values _ _, fun i j => ?_⟩
  · unfold sgCoefficients
    rw [hc]
    exact create_coef c
  · simp only [Matrix.of_apply]
    refine (sum_mul_sq_le_sq_mul_sq univ _ _).trans ?_
    rw [hs]
    exact mul_le_of_le_one_right (sum_nonneg fun k _ => sq_nonneg _) h1'

/-- **C153** With as many coefficients as points nothing is smoothed: the output is the centre of the window. -/
theorem C153_interpolation (h1 : 1 ≤ l + r) (A : Matrix (Fin m) (Fin (n + (l + r) + 1)) ℝ) :
    ∃ c : Mat ℝ, sgCoefficients (l : Int) (r : Int) ((l + r : Nat) : Int) 0 = .ok c ∧
      sgApply c (of A) = .ok (of (Matrix.of fun (i : Fin m) (j : Fin (n + 1)) => A i ⟨j + l, by omega⟩)) := by
  obtain ⟨c, hc, hex, -⟩ := sg_coefficients (p := l + r) (d := 0) h1 le_rfl (by omega)
  refine ⟨of (Matrix.of fun (_ : Fin 1) k => c k), ?_, (C32_values _ _).trans ?_⟩
  · unfold sgCoefficients
    rw [show (0 : Int) = ((0 : Nat) : Int) from rfl, hc]
    exact create_coef c
  · rw [ok_inj]
    refine mk_congr fun i j => ?_
    simp only [Matrix.of_apply]
    have hinj : Set.InjOn (fun k : Fin (l + r + 1) => pt l k) (univ : Finset (Fin (l + r + 1))) := (pt_injective l _).injOn
    let f : ℝ[X] := Lagrange.interpolate univ (fun k : Fin (l + r + 1) => pt l k) fun k => A i ⟨j + k, by omega⟩
    have hf : f.natDegree ≤ l + r := by
      have := Lagrange.degree_interpolate_lt (fun k : Fin (l + r + 1) => A i ⟨j + k, by omega⟩) hinj
      rw [card_univ, Fintype.card_fin] at this
      exact natDegree_le_of_degree_le (Order.lt_succ_iff.1 (by exact_mod_cast this))
    have he : ∀ k : Fin (l + r + 1), f.eval (pt l k) = A i ⟨j + k, by omega⟩ := fun k =>
      Lagrange.eval_interpolate_at_node _ hinj (mem_univ k)
    have h0 := hex f hf
    rw [coeff_zero_eq_eval_zero, show (0 : ℝ) = pt l (⟨l, by omega⟩ : Fin (l + r + 1)) by simp [pt], he] at h0
    rw [← h0]
    refine sum_congr rfl fun k _ => ?_
    rw [← he k, mul_comm]
    rfl

/-! Concrete cases -/

example := C153_mirror (l := 1) (r := 3) (p := 2) (d := 1) (n := 1) (by decide) (by decide) (by decide)
  (!![1, 0, 5, 2, 7, 7] : Matrix (Fin 1) (Fin 6) ℝ)
example := C153_symmetric (l := 3) (p := 2) (d := 1) (n := 0) (by decide) (by decide) (by decide)
  (!![1, 0, 5, 2, 7, 7, 1] : Matrix (Fin 1) (Fin 7) ℝ)

/-- The default window: smoothing with order 2 and order 3, first derivative with order 3 and order 4. -/
example : (determineCoefficients 3 3 3 0 : Except PyErr (List ℝ)) = determineCoefficients 3 3 2 0 ∧
    (determineCoefficients 3 3 4 1 : Except PyErr (List ℝ)) = determineCoefficients 3 3 3 1 :=
  ⟨C153_superfluous_order (l := 3) (p := 2) (d := 0) (by decide) (by decide) rfl,
    C153_superfluous_order (l := 3) (p := 3) (d := 1) (by decide) (by decide) rfl⟩

example := C153_smoothing_bounded (l := 3) (r := 3) (p := 2) (n := 0) (by decide) (by decide)
  (!![1, 0, 5, 2, 7, 7, 1] : Matrix (Fin 1) (Fin 7) ℝ)
example := C153_interpolation (l := 1) (r := 1) (n := 2) (by decide) (!![1, 0, 5, 2, 7] : Matrix (Fin 1) (Fin 5) ℝ)

end mirror

end Verif.Props
