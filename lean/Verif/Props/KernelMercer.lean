import Verif.Props.KernelProps
import Mathlib.Analysis.Matrix.Order
import Mathlib.Analysis.SpecialFunctions.ImproperIntegrals
import Mathlib.Analysis.SpecialFunctions.Exponential

/-!
# C106 — kernel matrices are positive semidefinite

The kernel of `_RBFKernel.py` is `exp(-gamma ‖x - y‖)` (not squared, see C40).  That it is a kernel at all is not
immediate: the distance is shown to be conditionally negative definite, by writing it as an integral of Gaussians.
-/

namespace Verif.Props
open Verif Verif.Mat
open scoped Matrix
open MeasureTheory

/-- `K` is symmetric and its quadratic form is non-negative. -/
def Psd {ι : Type} [Fintype ι] (K : ι → ι → ℝ) : Prop :=
  (∀ i j, K i j = K j i) ∧ ∀ c : ι → ℝ, 0 ≤ ∑ i, ∑ j, c i * c j * K i j

section psd
variable {ι : Type} [Fintype ι]

theorem psd_iff (K : ι → ι → ℝ) : Psd K ↔ (Matrix.of K).PosSemidef := by
  rw [Matrix.posSemidef_iff_dotProduct_mulVec]
  refine and_congr ⟨fun h => ?_, fun h i j => ?_⟩ ?_
  · ext i j
    simp only [Matrix.conjTranspose_apply, Matrix.of_apply, star_trivial]
    exact h j i
  · have := congrFun (congrFun h j) i
    simpa using this
  · refine forall_congr' fun c => ?_
    have e : star c ⬝ᵥ (Matrix.of K *ᵥ c) = ∑ i, ∑ j, c i * c j * K i j := by
      simp only [dotProduct, Matrix.mulVec, star_trivial, Matrix.of_apply, Finset.mul_sum]
      exact Finset.sum_congr rfl fun i _ => Finset.sum_congr rfl fun j _ => by ring
    rw [e]

/-- Gram matrices. -/
theorem psd_gram {κ : Type} [Fintype κ] (φ : ι → κ → ℝ) : Psd fun i j => ∑ l, φ i l * φ j l := by
  refine ⟨fun i j => Finset.sum_congr rfl fun l _ => mul_comm _ _, fun c => ?_⟩
  have e : ∑ i, ∑ j, c i * c j * ∑ l, φ i l * φ j l = ∑ l, (∑ i, c i * φ i l) * ∑ j, c j * φ j l := by
    calc ∑ i, ∑ j, c i * c j * ∑ l, φ i l * φ j l
        = ∑ i, ∑ l, ∑ j, c i * φ i l * (c j * φ j l) := by
          refine Finset.sum_congr rfl fun i _ => ?_
          rw [Finset.sum_comm]
          refine Finset.sum_congr rfl fun j _ => ?_
          rw [Finset.mul_sum]
          exact Finset.sum_congr rfl fun l _ => by ring
      _ = ∑ l, ∑ i, ∑ j, c i * φ i l * (c j * φ j l) := Finset.sum_comm
      _ = _ := Finset.sum_congr rfl fun l _ => (Finset.sum_mul_sum _ _ _ _).symm
  rw [e]
  exact Finset.sum_nonneg fun l _ => mul_self_nonneg _

/-- Schur's product theorem. -/
theorem psd_mul {K L : ι → ι → ℝ} (hK : Psd K) (hL : Psd L) : Psd fun i j => K i j * L i j :=
  (psd_iff _).2 (((psd_iff K).1 hK).hadamard ((psd_iff L).1 hL))

theorem psd_const {a : ℝ} (ha : 0 ≤ a) : Psd fun _ _ : ι => a := by
  have h := psd_gram (ι := ι) fun _ (_ : Unit) => Real.sqrt a
  simpa [Real.mul_self_sqrt ha] using h

theorem psd_pow {K : ι → ι → ℝ} (hK : Psd K) : ∀ k : Nat, Psd fun i j => K i j ^ k
  | 0 => by simpa using psd_const (ι := ι) zero_le_one
  | k + 1 => by simpa only [pow_succ] using psd_mul (psd_pow hK k) hK

theorem psd_smul {K : ι → ι → ℝ} (hK : Psd K) {a : ℝ} (ha : 0 ≤ a) : Psd fun i j => a * K i j :=
  psd_mul (psd_const ha) hK

theorem psd_add {K L : ι → ι → ℝ} (hK : Psd K) (hL : Psd L) : Psd fun i j => K i j + L i j := by
  refine ⟨fun i j => congrArg₂ (· + ·) (hK.1 i j) (hL.1 i j), fun c => ?_⟩
  simp only [mul_add, Finset.sum_add_distrib]
  exact add_nonneg (hK.2 c) (hL.2 c)

theorem psd_scale {K : ι → ι → ℝ} (hK : Psd K) (f : ι → ℝ) : Psd fun i j => f i * f j * K i j := by
  refine psd_mul ?_ hK
  simpa using psd_gram fun i (_ : Unit) => f i

/-- The entrywise exponential. -/
theorem psd_exp {K : ι → ι → ℝ} (hK : Psd K) : Psd fun i j => Real.exp (K i j) := by
  refine ⟨fun i j => congrArg Real.exp (hK.1 i j), fun c => ?_⟩
  have hs : HasSum (fun k : ℕ => ∑ i, ∑ j, c i * c j * (K i j ^ k / (k.factorial : ℝ)))
      (∑ i, ∑ j, c i * c j * Real.exp (K i j)) := by
    refine hasSum_sum fun i _ => hasSum_sum fun j _ => ?_
    rw [Real.exp_eq_exp_ℝ]
    exact (NormedSpace.expSeries_div_hasSum_exp (K i j)).mul_left _
  refine hs.nonneg fun k => ?_
  have h := (psd_smul (psd_pow hK k) (a := ((k.factorial : ℝ))⁻¹) (by positivity)).2 c
  refine h.trans (le_of_eq ?_)
  exact Finset.sum_congr rfl fun i _ => Finset.sum_congr rfl fun j _ => by rw [div_eq_inv_mul]

variable {n : Nat} (x : ι → Fin n → ℝ)

/-- Squared distances. -/
def sqDist (i j : ι) : ℝ := ∑ l, (x i l - x j l) * (x i l - x j l)

omit [Fintype ι] in
theorem sqDist_nonneg (i j : ι) : 0 ≤ sqDist x i j := Finset.sum_nonneg fun _ _ => mul_self_nonneg _

omit [Fintype ι] in
theorem sqDist_comm (i j : ι) : sqDist x i j = sqDist x j i := Finset.sum_congr rfl fun _ _ => by ring

omit [Fintype ι] in
theorem sqDist_self (i : ι) : sqDist x i i = 0 := by simp [sqDist]

/-- Gaussians. -/
theorem psd_gauss {t : ℝ} (ht : 0 ≤ t) : Psd fun i j => Real.exp (-t * sqDist x i j) := by
  have h := psd_scale (psd_exp (psd_smul (psd_gram x) (a := 2 * t) (by positivity)))
    fun i => Real.exp (-t * ∑ l, x i l * x i l)
  have e : (fun i j => Real.exp (-t * sqDist x i j)) = fun i j => Real.exp (-t * ∑ l, x i l * x i l) *
      Real.exp (-t * ∑ l, x j l * x j l) * Real.exp (2 * t * ∑ l, x i l * x j l) := by
    funext i j
    rw [← Real.exp_add, ← Real.exp_add]
    congr 1
    have : sqDist x i j = ∑ l, x i l * x i l + ∑ l, x j l * x j l - 2 * ∑ l, x i l * x j l := by
      unfold sqDist
      rw [Finset.mul_sum, ← Finset.sum_add_distrib, ← Finset.sum_sub_distrib]
      exact Finset.sum_congr rfl fun _ _ => by ring
    rw [this]
    ring
  rw [e]
  exact h

/-- Inverse quadratics, as integrals of Gaussians. -/
theorem psd_inv {s : ℝ} (hs : 0 < s) : Psd fun i j => (s + sqDist x i j)⁻¹ := by
  refine ⟨fun i j => by dsimp only; rw [sqDist_comm], fun c => ?_⟩
  have hneg : ∀ i j, -(s + sqDist x i j) < 0 := fun i j => by have := sqDist_nonneg x i j; linarith
  have hint : ∀ i j, IntegrableOn (fun t => Real.exp (-(s + sqDist x i j) * t)) (Set.Ioi 0) :=
    fun i j => integrableOn_exp_mul_Ioi (hneg i j) 0
  have hval : ∀ i j, (s + sqDist x i j)⁻¹ = ∫ t in Set.Ioi (0 : ℝ), Real.exp (-(s + sqDist x i j) * t) := by
    intro i j
    rw [integral_exp_mul_Ioi (hneg i j), mul_zero, Real.exp_zero, neg_div_neg_eq, one_div]
  have e : ∑ i, ∑ j, c i * c j * (s + sqDist x i j)⁻¹ =
      ∫ t in Set.Ioi (0 : ℝ), ∑ i, ∑ j, c i * c j * Real.exp (-(s + sqDist x i j) * t) := by
    rw [integral_finsetSum _ fun i _ => integrable_finsetSum _ fun j _ => (hint i j).const_mul _]
    refine Finset.sum_congr rfl fun i _ => ?_
    rw [integral_finsetSum _ fun j _ => (hint i j).const_mul _]
    refine Finset.sum_congr rfl fun j _ => ?_
    rw [integral_const_mul, hval]
  rw [e]
  refine setIntegral_nonneg measurableSet_Ioi fun t ht => ?_
  have ht0 : 0 ≤ t := le_of_lt ht
  have h := (psd_smul (psd_gauss x ht0) (a := Real.exp (-s * t)) (Real.exp_pos _).le).2 c
  refine h.trans (le_of_eq ?_)
  refine Finset.sum_congr rfl fun i _ => Finset.sum_congr rfl fun j _ => ?_
  dsimp only
  rw [← Real.exp_add]
  congr 2
  ring

/-- A square root as an integral. -/
theorem sqrt_integral {d : ℝ} (hd : 0 ≤ d) :
    IntegrableOn (fun u => d * (u ^ 2 + d)⁻¹) (Set.Ioi 0) ∧
      ∫ u in Set.Ioi (0 : ℝ), d * (u ^ 2 + d)⁻¹ = Real.pi / 2 * Real.sqrt d := by
  rcases hd.eq_or_lt with rfl | hd
  · simp
  · have hr : 0 < Real.sqrt d := Real.sqrt_pos.2 hd
    have hsq : Real.sqrt d ^ 2 = d := Real.sq_sqrt hd.le
    have e : (fun u : ℝ => d * (u ^ 2 + d)⁻¹) = fun u => (1 + ((Real.sqrt d)⁻¹ * u) ^ 2)⁻¹ := by
      funext u
      rw [mul_pow, inv_pow, hsq]
      have : u ^ 2 + d ≠ 0 := by positivity
      have : 1 + d⁻¹ * u ^ 2 ≠ 0 := by positivity
      field_simp
      ring
    rw [e]
    refine ⟨(integrable_inv_one_add_sq.comp_mul_left' (inv_ne_zero hr.ne')).integrableOn, ?_⟩
    rw [integral_comp_mul_left_Ioi (fun u => (1 + u ^ 2)⁻¹) 0 (inv_pos.2 hr), mul_zero, integral_Ioi_inv_one_add_sq,
      Real.arctan_zero, sub_zero, inv_inv, smul_eq_mul, mul_comm]

/-- The distance is conditionally negative definite. -/
theorem cnd_dist (c : ι → ℝ) (hc : ∑ i, c i = 0) : ∑ i, ∑ j, c i * c j * Real.sqrt (sqDist x i j) ≤ 0 := by
  have hI := fun i j => sqrt_integral (sqDist_nonneg x i j)
  have e : Real.pi / 2 * ∑ i, ∑ j, c i * c j * Real.sqrt (sqDist x i j) =
      ∫ u in Set.Ioi (0 : ℝ), ∑ i, ∑ j, c i * c j * (sqDist x i j * (u ^ 2 + sqDist x i j)⁻¹) := by
    rw [integral_finsetSum _ fun i _ => integrable_finsetSum _ fun j _ => (hI i j).1.const_mul _, Finset.mul_sum]
    refine Finset.sum_congr rfl fun i _ => ?_
    rw [integral_finsetSum _ fun j _ => (hI i j).1.const_mul _, Finset.mul_sum]
    refine Finset.sum_congr rfl fun j _ => ?_
    rw [integral_const_mul, (hI i j).2]
    ring
  have hle : ∫ u in Set.Ioi (0 : ℝ), ∑ i, ∑ j, c i * c j * (sqDist x i j * (u ^ 2 + sqDist x i j)⁻¹) ≤ 0 := by
    refine setIntegral_nonpos measurableSet_Ioi fun u hu => ?_
    have hu0 : 0 < u := hu
    have h := (psd_smul (psd_inv x (s := u ^ 2) (by positivity)) (a := u ^ 2) (by positivity)).2 c
    have h0 : ∑ i, ∑ j, c i * c j = 0 := by
      rw [← Finset.sum_mul_sum, hc, zero_mul]
    have h1 : ∑ i, ∑ j, c i * c j * (sqDist x i j * (u ^ 2 + sqDist x i j)⁻¹) =
        ∑ i, ∑ j, c i * c j - ∑ i, ∑ j, c i * c j * (u ^ 2 * (u ^ 2 + sqDist x i j)⁻¹) := by
      rw [← Finset.sum_sub_distrib]
      refine Finset.sum_congr rfl fun i _ => ?_
      rw [← Finset.sum_sub_distrib]
      refine Finset.sum_congr rfl fun j _ => ?_
      have hne : u ^ 2 + sqDist x i j ≠ 0 := by have := sqDist_nonneg x i j; positivity
      field_simp
      ring
    rw [h1, h0, zero_sub]
    exact neg_nonpos.2 h
  have hpi : 0 < Real.pi / 2 := by positivity
  rw [← e] at hle
  by_contra hcon
  exact absurd hle (not_le.2 (mul_pos hpi (not_le.1 hcon)))

/-- Distances from a base point `o`, less the distance of the two points. -/
theorem psd_base [DecidableEq ι] (o : ι) :
    Psd fun i j => Real.sqrt (sqDist x i o) + Real.sqrt (sqDist x j o) - Real.sqrt (sqDist x i j) := by
  refine ⟨fun i j => by dsimp only; rw [sqDist_comm x i j]; ring, fun c => ?_⟩
  have hc : ∑ i, (c i - if i = o then ∑ k, c k else 0) = 0 := by
    rw [Finset.sum_sub_distrib, Finset.sum_ite_eq' Finset.univ o, if_pos (Finset.mem_univ o), sub_self]
  have h := cnd_dist x (fun i => c i - if i = o then ∑ k, c k else 0) hc
  have e : ∑ i, ∑ j, (c i - if i = o then ∑ k, c k else 0) * (c j - if j = o then ∑ k, c k else 0) *
      Real.sqrt (sqDist x i j) = -∑ i, ∑ j, c i * c j *
        (Real.sqrt (sqDist x i o) + Real.sqrt (sqDist x j o) - Real.sqrt (sqDist x i j)) := by
    have e1 : ∀ i, ∑ j, (c i - if i = o then ∑ k, c k else 0) * (c j - if j = o then ∑ k, c k else 0) *
        Real.sqrt (sqDist x i j) = (c i - if i = o then ∑ k, c k else 0) *
          (∑ j, c j * Real.sqrt (sqDist x i j) - (∑ k, c k) * Real.sqrt (sqDist x i o)) := by
      intro i
      rw [mul_sub, Finset.mul_sum]
      have : ∀ j, (c i - if i = o then ∑ k, c k else 0) * (c j - if j = o then ∑ k, c k else 0) *
          Real.sqrt (sqDist x i j) = (c i - if i = o then ∑ k, c k else 0) * (c j * Real.sqrt (sqDist x i j)) -
            if j = o then (c i - if i = o then ∑ k, c k else 0) * ((∑ k, c k) * Real.sqrt (sqDist x i o)) else 0 := by
        intro j
        by_cases hj : j = o
        · rw [if_pos hj, if_pos hj, hj]; ring
        · rw [if_neg hj, if_neg hj]; ring
      rw [Finset.sum_congr rfl fun j _ => this j, Finset.sum_sub_distrib, Finset.sum_ite_eq' Finset.univ o,
        if_pos (Finset.mem_univ o)]
    rw [Finset.sum_congr rfl fun i _ => e1 i]
    have e2 : ∀ i, (c i - if i = o then ∑ k, c k else 0) *
        (∑ j, c j * Real.sqrt (sqDist x i j) - (∑ k, c k) * Real.sqrt (sqDist x i o)) =
        (c i * ∑ j, c j * Real.sqrt (sqDist x i j) - c i * ((∑ k, c k) * Real.sqrt (sqDist x i o))) -
          if i = o then (∑ k, c k) * ∑ j, c j * Real.sqrt (sqDist x j o) else 0 := by
      intro i
      by_cases hi : i = o
      · subst hi
        rw [if_pos rfl, if_pos rfl, sqDist_self, Real.sqrt_zero]
        have : ∑ j, c j * Real.sqrt (sqDist x i j) = ∑ j, c j * Real.sqrt (sqDist x j i) :=
          Finset.sum_congr rfl fun j _ => by rw [sqDist_comm x i j]
        rw [this]
        ring
      · rw [if_neg hi, if_neg hi]; ring
    rw [Finset.sum_congr rfl fun i _ => e2 i, Finset.sum_sub_distrib, Finset.sum_ite_eq' Finset.univ o,
      if_pos (Finset.mem_univ o), Finset.sum_sub_distrib]
    have e3 : ∑ i, ∑ j, c i * c j *
        (Real.sqrt (sqDist x i o) + Real.sqrt (sqDist x j o) - Real.sqrt (sqDist x i j)) =
        (∑ i, c i * ((∑ k, c k) * Real.sqrt (sqDist x i o)) + (∑ k, c k) * ∑ j, c j * Real.sqrt (sqDist x j o)) -
          ∑ i, c i * ∑ j, c j * Real.sqrt (sqDist x i j) := by
      rw [Finset.sum_mul, ← Finset.sum_add_distrib, ← Finset.sum_sub_distrib]
      refine Finset.sum_congr rfl fun i _ => ?_
      rw [Finset.sum_mul, Finset.mul_sum, Finset.mul_sum, Finset.mul_sum, ← Finset.sum_add_distrib,
        ← Finset.sum_sub_distrib]
      refine Finset.sum_congr rfl fun j _ => ?_
      ring
    rw [e3]
    ring
  rw [e] at h
  linarith

/-- The exponential of the negative distance. -/
theorem psd_laplace {γ : ℝ} (hγ : 0 ≤ γ) : Psd fun i j => Real.exp (-γ * Real.sqrt (sqDist x i j)) := by
  classical
  rcases isEmpty_or_nonempty ι with hi | ⟨⟨o⟩⟩
  · exact ⟨fun i => (hi.false i).elim, fun c => by simp⟩
  · have h := psd_scale (psd_exp (psd_smul (psd_base x o) hγ)) fun i => Real.exp (-γ * Real.sqrt (sqDist x i o))
    have e : (fun i j => Real.exp (-γ * Real.sqrt (sqDist x i j))) = fun i j =>
        Real.exp (-γ * Real.sqrt (sqDist x i o)) * Real.exp (-γ * Real.sqrt (sqDist x j o)) *
          Real.exp (γ * (Real.sqrt (sqDist x i o) + Real.sqrt (sqDist x j o) - Real.sqrt (sqDist x i j))) := by
      funext i j
      rw [← Real.exp_add, ← Real.exp_add]
      congr 1
      ring
    rw [e]
    exact h

end psd

/-! ## The kernels of the library -/

variable {m n : Nat}

/-- **C106** (linear kernel).  `LinearKernel.apply_matrix(X)` is positive semidefinite for all data. -/
theorem C106_linear (A : Matrix (Fin m) (Fin n) ℝ) :
    ∃ K : Matrix (Fin m) (Fin m) ℝ, linearMatrix (of A) none = .ok (of K) ∧ Psd K := by
  refine ⟨A * Aᵀ, ?_, ?_⟩
  · show (of A).mul (of A).transpose = _
    rw [transpose_of, mul_of]
  · have h := psd_gram A
    exact h

/-- **C106** (polynomial kernel).  `PolyKernel.apply_matrix(X)` is positive semidefinite for all data, every degree,
every non-negative offset, and a `gamma` that is non-negative or left at its default (with no columns the default
divides by zero, hence `_hn`). -/
theorem C106_poly (s : PolyState ℝ) (hc : 0 ≤ s.coef0) (hg : ∀ g, s.gamma = some g → 0 ≤ g)
    (_hn : 0 < n) (A : Matrix (Fin m) (Fin n) ℝ) :
    ∃ K : Matrix (Fin m) (Fin m) ℝ, (polyMatrix s (of A) none).2 = .ok (of K) ∧ Psd K := by
  have h0 : 0 ≤ s.gamma.getD (1 / (n : ℝ)) := by
    cases h : s.gamma with
    | none => exact div_nonneg zero_le_one (Nat.cast_nonneg n)
    | some g => exact hg g h
  refine ⟨Matrix.of fun i j => (s.gamma.getD (1 / (n : ℝ)) * (∑ l, A i l * A j l) + s.coef0) ^ s.degree, ?_, ?_⟩
  · rw [polyMatrix_value]
    show ((of A).mul (of A).transpose).map _ = _
    rw [transpose_of, mul_of]
    rfl
  · exact psd_pow (psd_add (psd_smul (psd_gram A) h0) (psd_const hc)) s.degree

/-- **C106** (RBF kernel).  `RBFKernel.apply_matrix(X)` is positive semidefinite for all data and a `gamma` that is
non-negative or set to `NAN`: `exp(-gamma ‖x - y‖)` is a kernel, as the documented Gaussian would be. -/
theorem C106_rbf (hm : 0 < m) (_hn : 0 < n) (s : Option ℝ) (hg : ∀ g, s = some g → 0 ≤ g) (A : Matrix (Fin m) (Fin n) ℝ) :
    ∃ K : Matrix (Fin m) (Fin m) ℝ, (applyMatrix1 rbfVector s (of A)).2 = .ok (of K) ∧ Psd K := by
  have h0 : 0 ≤ s.getD (1 / (n : ℝ)) := by
    cases h : s with
    | none => exact div_nonneg zero_le_one (Nat.cast_nonneg n)
    | some g => exact hg g h
  refine ⟨_, by rw [(C39_rbf hm s A A).2.1], ?_⟩
  exact psd_laplace A h0

/-- **C106** (limits).  Non-negativity is needed, and nothing enforces it: with a negative `gamma` the RBF kernel of any
two different points is not positive semidefinite, and neither is a polynomial kernel of odd degree with a negative
offset on data containing the origin. -/
theorem C106_limits :
    (∀ (γ : ℝ), γ < 0 → ∀ x y : Fin n → ℝ, x ≠ y → ¬ Psd (fun i j => rbf γ (![x, y] i) (![x, y] j))) ∧
    (∀ (γ c : ℝ) (d : Nat), c < 0 → Odd d → ∀ A : Matrix (Fin m) (Fin n) ℝ, (∃ i, A i = 0) →
      ∃ K : Matrix (Fin m) (Fin m) ℝ, (polyMatrix ⟨d, c, some γ⟩ (of A) none).2 = .ok (of K) ∧ ¬ Psd K) := by
  refine ⟨fun γ hγ x y hxy h => ?_, fun γ c d hc hd A hA => ?_⟩
  · have h2 := h.2 ![1, -1]
    simp only [Fin.sum_univ_two, Matrix.cons_val_zero, Matrix.cons_val_one] at h2
    rw [C40_self, C40_self, C40_symmetric γ y x] at h2
    have hd : 0 < dist2 x y := by
      refine Real.sqrt_pos.2 (lt_of_le_of_ne (Finset.sum_nonneg fun _ _ => mul_self_nonneg _) fun h0 => hxy ?_)
      funext l
      have := (Finset.sum_eq_zero_iff_of_nonneg fun l _ => mul_self_nonneg (x l - y l)).1 h0.symm l (Finset.mem_univ l)
      exact sub_eq_zero.1 (mul_self_eq_zero.1 this)
    have h1 : 1 < rbf γ x y := Real.one_lt_exp_iff.2 (mul_pos (neg_pos.2 hγ) hd)
    linarith
  · obtain ⟨i, hi⟩ := hA
    refine ⟨Matrix.of fun i j => (γ * (∑ l, A i l * A j l) + c) ^ d, ?_, fun h => ?_⟩
    · rw [polyMatrix_value]
      show ((of A).mul (of A).transpose).map _ = _
      rw [transpose_of, mul_of]
      rfl
    · have h2 := h.2 (Pi.single i 1)
      have e : ∑ a, ∑ b, (Pi.single i (1 : ℝ) : Fin m → ℝ) a * (Pi.single i (1 : ℝ) : Fin m → ℝ) b *
          (Matrix.of fun i j => (γ * (∑ l, A i l * A j l) + c) ^ d) a b = c ^ d := by
        rw [Finset.sum_eq_single i, Finset.sum_eq_single i]
        · simp [hi]
        · intro b _ hb
          simp [hb]
        · simp
        · intro b _ hb
          simp [hb]
        · simp
      rw [e] at h2
      exact absurd h2 (not_le.2 (hd.pow_neg hc))

/-- Three points on a line, default parameters: all kernels are positive semidefinite. -/
example : (∃ K : Matrix (Fin 3) (Fin 3) ℝ, (applyMatrix1 rbfVector (some 1) (of (!![0; 1; 3] : Matrix (Fin 3) (Fin 1) ℝ))).2 =
      .ok (of K) ∧ Psd K) ∧
    ∃ K : Matrix (Fin 3) (Fin 3) ℝ, (polyMatrix ⟨3, 0, none⟩ (of (!![0; 1; 3] : Matrix (Fin 3) (Fin 1) ℝ)) none).2 =
      .ok (of K) ∧ Psd K :=
  ⟨C106_rbf (by decide) (by decide) _ (fun g h => by cases h; exact zero_le_one) _,
    C106_poly _ le_rfl (fun g h => by cases h) (by decide) _⟩

/-- Negative parameters on concrete data. -/
example : ¬ Psd (fun i j => rbf (-1) ((![![0], ![1]] : Fin 2 → Fin 1 → ℝ) i) ((![![0], ![1]] : Fin 2 → Fin 1 → ℝ) j)) :=
  (C106_limits (m := 1) (n := 1)).1 (-1) (by norm_num) ![0] ![1] (fun h => by simpa using congrFun h 0)

end Verif.Props
