import Verif.Props.SavGolProps

/-!
# C118: Savitzky-Golay is a least-squares polynomial fit in every window

The output is the (scaled) derivative of the polynomial that fits the window best, and among all filters that are exact on polynomials the
coefficients have the smallest sum of squares.
-/

namespace Verif.Props
open Verif Mat Transf Finset Polynomial

section fit
variable {l r p : Nat}

/-- Sum of squared distances between values and polynomial on the window. -/
noncomputable def sgErr (l r : Nat) (v : Fin (l + r + 1) → ℝ) (f : ℝ[X]) : ℝ := ∑ k, (v k - f.eval (pt l k)) ^ 2

/-- A polynomial whose residual is orthogonal to all polynomials of the order. -/
theorem sg_normal (hp : p ≤ l + r) (v : Fin (l + r + 1) → ℝ) :
    ∃ f : ℝ[X], f.natDegree ≤ p ∧ ∀ g : ℝ[X], g.natDegree ≤ p → ∑ k, g.eval (pt l k) * (v k - f.eval (pt l k)) = 0 := by
  have hdet := sgGram_det_ne_zero hp
  let b : Fin (p + 1) → ℝ := fun i => ∑ k, pt l k ^ (i : Nat) * v k
  let s : Fin (p + 1) → ℝ := (sgGram l r p)⁻¹.mulVec b
  have hs : (sgGram l r p).mulVec s = b := by
    show (sgGram l r p).mulVec ((sgGram l r p)⁻¹.mulVec b) = b
    rw [Matrix.mulVec_mulVec, Matrix.mul_nonsing_inv _ (isUnit_iff_ne_zero.2 hdet), Matrix.one_mulVec]
  refine ⟨vecPoly s, vecPoly_degree s, fun g hg => ?_⟩
  have key : ∀ i : Fin (p + 1), ∑ k : Fin (l + r + 1), pt l k ^ (i : Nat) * (v k - (vecPoly s).eval (pt l k)) = 0 := by
    intro i
    have h := congrFun hs i
    rw [sgGram_mulVec] at h
    simp only [mul_sub, sum_sub_distrib]
    rw [h]
    exact sub_self _
  have hgv : g = vecPoly fun j : Fin (p + 1) => g.coeff j := by
    ext n
    by_cases hn : n < p + 1
    · exact (vecPoly_coeff (fun j : Fin (p + 1) => g.coeff j) ⟨n, hn⟩).symm
    · rw [coeff_eq_zero_of_natDegree_lt (n := n) (lt_of_le_of_lt (vecPoly_degree _) (by omega)),
        coeff_eq_zero_of_natDegree_lt (by omega)]
  have h2 : ∀ k : Fin (l + r + 1), g.eval (pt l k) * (v k - (vecPoly s).eval (pt l k)) =
      ∑ i : Fin (p + 1), g.coeff i * (pt l k ^ (i : Nat) * (v k - (vecPoly s).eval (pt l k))) := by
    intro k
    conv_lhs => rw [hgv, vecPoly_eval (fun j : Fin (p + 1) => g.coeff j), sum_mul]
    exact sum_congr rfl fun i _ => by ring
  rw [sum_congr rfl fun k _ => h2 k, sum_comm]
  simp only [← mul_sum, key, mul_zero, sum_const_zero]

/-- Pythagoras on the window. -/
theorem sgErr_split (v : Fin (l + r + 1) → ℝ) (f g : ℝ[X])
    (h : ∑ k : Fin (l + r + 1), (f - g).eval (pt l k) * (v k - f.eval (pt l k)) = 0) :
    sgErr l r v g = sgErr l r v f + ∑ k : Fin (l + r + 1), (f - g).eval (pt l k) ^ 2 := by
  unfold sgErr
  have e : ∀ k : Fin (l + r + 1), (v k - g.eval (pt l k)) ^ 2 =
      (v k - f.eval (pt l k)) ^ 2 + (f - g).eval (pt l k) ^ 2 + 2 * ((f - g).eval (pt l k) * (v k - f.eval (pt l k))) := by
    intro k
    rw [eval_sub]
    ring
  rw [sum_congr rfl fun k _ => e k, sum_add_distrib, sum_add_distrib, ← mul_sum, h, mul_zero, add_zero]

/-- A polynomial of degree at most `p` vanishing on the window is zero. -/
theorem sg_zero (hp : p ≤ l + r) {f : ℝ[X]} (hf : f.natDegree ≤ p) (h : ∑ k : Fin (l + r + 1), f.eval (pt l k) ^ 2 = 0) : f = 0 := by
  refine eq_zero_of_natDegree_lt_card_of_eval_eq_zero f (pt_injective l (l + r + 1)) (fun k => ?_) (by simp; omega)
  have := (sum_eq_zero_iff_of_nonneg fun k _ => sq_nonneg (f.eval (pt l k))).1 h k (mem_univ k)
  exact pow_eq_zero_iff two_ne_zero |>.1 this

/-- A best-fitting polynomial has the orthogonal residual. -/
theorem sg_best (hp : p ≤ l + r) (v : Fin (l + r + 1) → ℝ) :
    ∃ f : ℝ[X], f.natDegree ≤ p ∧ (∀ g : ℝ[X], g.natDegree ≤ p → ∑ k, g.eval (pt l k) * (v k - f.eval (pt l k)) = 0) ∧
      (∀ g : ℝ[X], g.natDegree ≤ p → sgErr l r v f ≤ sgErr l r v g ∧ (sgErr l r v g ≤ sgErr l r v f → g = f)) := by
  obtain ⟨f, hf, ho⟩ := sg_normal hp v
  refine ⟨f, hf, ho, fun g hg => ?_⟩
  have hd : (f - g).natDegree ≤ p := (natDegree_sub_le f g).trans (max_le hf hg)
  have hs := sgErr_split v f g (ho _ hd)
  have hn : 0 ≤ ∑ k : Fin (l + r + 1), (f - g).eval (pt l k) ^ 2 := sum_nonneg fun k _ => sq_nonneg _
  refine ⟨by rw [hs]; linarith, fun hle => ?_⟩
  have : f - g = 0 := sg_zero hp hd (by linarith)
  exact (sub_eq_zero.1 this).symm

end fit

section claims
variable {m n l r p d : Nat}

/-- **C118.** For every data matrix, row `i` and window `j … j + l + r`: there is exactly one polynomial of at most the polynomial order
with the least squared error on the window, and `d!` times the output is its `d`-th derivative at the window centre `j + l`. -/
theorem C118_least_squares (h1 : 1 ≤ l + r) (hp : p ≤ l + r) (hd : d ≤ p) (A : Matrix (Fin m) (Fin (n + (l + r) + 1)) ℝ) :
    ∃ (c : Mat ℝ) (F : Matrix (Fin m) (Fin (n + 1)) ℝ),
      sgCoefficients (l : Int) (r : Int) (p : Int) (d : Int) = .ok c ∧ sgApply c (of A) = .ok (of F) ∧
      ∀ (i : Fin m) (j : Fin (n + 1)), ∃ f : ℝ[X], f.natDegree ≤ p ∧
        (∀ g : ℝ[X], g.natDegree ≤ p →
          let err : ℝ[X] → ℝ := fun q => ∑ k : Fin (l + r + 1), (A i ⟨j + k, by omega⟩ - q.eval (((j : Nat) : ℝ) + ((k : Nat) : ℝ))) ^ 2
          err f ≤ err g ∧ (err g ≤ err f → g = f)) ∧
        (d.factorial : ℝ) * F i j = (derivative^[d] f).eval (((j : Nat) : ℝ) + l) := by
  obtain ⟨c, hc, hex, q, hq, hcq⟩ := sg_coefficients h1 hp hd
  have hcm : Factory.create [List.ofFn c] = .ok (of (Matrix.of fun (_ : Fin 1) k => c k)) := by
    have := Factory.create_ofFn (m := 1) Nat.one_pos (Matrix.of fun (_ : Fin 1) k => c k)
    simpa using this
  refine ⟨of (Matrix.of fun (_ : Fin 1) k => c k), _, ?_, C32_values _ _, fun i j => ?_⟩
  · unfold sgCoefficients
    rw [hc]
    exact hcm
  · let x : ℝ := ((j : Nat) : ℝ) + l
    let v : Fin (l + r + 1) → ℝ := fun k => A i ⟨j + k, by omega⟩
    obtain ⟨f, hf, ho, hb⟩ := sg_best hp v
    have hev : ∀ (g : ℝ[X]) (k : Fin (l + r + 1)), g.eval (((j : Nat) : ℝ) + ((k : Nat) : ℝ)) = (taylor x g).eval (pt l k) := by
      intro g k
      rw [taylor_eval]
      congr 1
      show _ = ((k : Nat) : ℝ) - l + (((j : Nat) : ℝ) + l)
      ring
    have htt : taylor x (taylor (-x) f) = f := by rw [taylor_taylor, add_neg_cancel, taylor_zero]
    have herr : ∀ g : ℝ[X], ∑ k : Fin (l + r + 1), (A i ⟨j + k, by omega⟩ - g.eval (((j : Nat) : ℝ) + ((k : Nat) : ℝ))) ^ 2 =
        sgErr l r v (taylor x g) := fun g => sum_congr rfl fun k _ => by rw [hev]
    refine ⟨taylor (-x) f, by rw [natDegree_taylor]; exact hf, fun g hg => ?_, ?_⟩
    · have h2 := hb (taylor x g) (by rw [natDegree_taylor]; exact hg)
      simp only [herr, htt]
      refine ⟨h2.1, fun hle => ?_⟩
      rw [← h2.2 hle, taylor_taylor, neg_add_cancel, taylor_zero]
    · simp only [Matrix.of_apply]
      have h3 : ∑ k : Fin (l + r + 1), A i ⟨j + k, by omega⟩ * c k = f.coeff d := by
        rw [← hex f hf]
        have h4 := ho q hq
        have e : ∀ k : Fin (l + r + 1), q.eval (pt l k) * (v k - f.eval (pt l k)) = v k * c k - c k * f.eval (((k : Nat) : ℝ) - l) := by
          intro k
          rw [hcq k, show ((k : Nat) : ℝ) - l = pt l k from rfl]
          ring
        rw [sum_congr rfl fun k _ => e k, sum_sub_distrib] at h4
        exact sub_eq_zero.1 h4
      rw [h3]
      have h5 := congrFun (factorial_smul_hasseDeriv (R := ℝ) (k := d)) (taylor (-x) f)
      rw [← h5]
      have h6 : f.coeff d = (hasseDeriv d (taylor (-x) f)).eval x := by
        rw [← taylor_coeff, htt]
      rw [h6]
      simp [x]

/-- **C118.** Least noise amplification: any other window filter that is exact on all polynomials of at most the polynomial order has a
larger sum of squared coefficients. -/
theorem C118_least_noise (h1 : 1 ≤ l + r) (hp : p ≤ l + r) (hd : d ≤ p) :
    ∃ c : Fin (l + r + 1) → ℝ, determineCoefficients (l : Int) (r : Int) (p : Int) (d : Int) = .ok (List.ofFn c) ∧
      ∀ c' : Fin (l + r + 1) → ℝ, (∀ f : ℝ[X], f.natDegree ≤ p → ∑ k, c' k * f.eval (((k : Nat) : ℝ) - l) = f.coeff d) →
        ∑ k, c k ^ 2 ≤ ∑ k, c' k ^ 2 ∧ (∑ k, c' k ^ 2 ≤ ∑ k, c k ^ 2 → c' = c) := by
  obtain ⟨c, hc, hex, q, hq, hcq⟩ := sg_coefficients h1 hp hd
  refine ⟨c, hc, fun c' hc' => ?_⟩
  have h0 : ∑ k, c k * (c' k - c k) = 0 := by
    have := (hc' q hq).trans (hex q hq).symm
    have e : ∀ k, c k * (c' k - c k) = c' k * q.eval (((k : Nat) : ℝ) - l) - c k * q.eval (((k : Nat) : ℝ) - l) := by
      intro k
      have := hcq k
      rw [show q.eval (((k : Nat) : ℝ) - l) = c k from this.symm]
      ring
    rw [sum_congr rfl fun k _ => e k, sum_sub_distrib, this, sub_self]
  have hs : ∑ k, c' k ^ 2 = ∑ k, c k ^ 2 + ∑ k, (c' k - c k) ^ 2 := by
    have e : ∀ k, c' k ^ 2 = c k ^ 2 + (c' k - c k) ^ 2 + 2 * (c k * (c' k - c k)) := fun k => by ring
    rw [sum_congr rfl fun k _ => e k, sum_add_distrib, sum_add_distrib, ← mul_sum, h0, mul_zero, add_zero]
  have hn : 0 ≤ ∑ k, (c' k - c k) ^ 2 := sum_nonneg fun k _ => sq_nonneg _
  refine ⟨by linarith, fun hle => funext fun k => ?_⟩
  have h2 := (sum_eq_zero_iff_of_nonneg fun k _ => sq_nonneg (c' k - c k)).1 (by linarith) k (mem_univ k)
  exact sub_eq_zero.1 (pow_eq_zero_iff two_ne_zero |>.1 h2)

/-! Concrete cases: the default window, with data that is not a polynomial. -/

example := C118_least_squares (l := 3) (r := 3) (p := 2) (d := 1) (n := 0) (by decide) (by decide) (by decide)
  (!![1, 0, 5, 2, 7, 7, 1] : Matrix (Fin 1) (Fin 7) ℝ)
example := C118_least_noise (l := 3) (r := 3) (p := 2) (d := 1) (by decide) (by decide) (by decide)

end claims

end Verif.Props
