import Verif.Transf.SavGol
import Verif.Core.ListLemmas
import Verif.Props.TransfProps
import Mathlib.Algebra.Polynomial.Taylor
import Mathlib.Algebra.Polynomial.HasseDeriv
import Mathlib.LinearAlgebra.Matrix.ToLinearEquiv

/-!
# C31 coefficients, C32 filtering, C33 no stale coefficients (Savitzky-Golay)
-/

namespace Verif.Props
open Verif Mat Transf Finset Polynomial

/-! ## C31 -/

section coef
variable {l r p d : Nat}

/-- The `k`-th point of the window `-l, …, r`. -/
def pt (l : Nat) {n : Nat} (k : Fin n) : ℝ := ((k : Nat) : ℝ) - l

/-- The normal equations of the window. -/
noncomputable def sgGram (l r p : Nat) : Matrix (Fin (p + 1)) (Fin (p + 1)) ℝ :=
  Matrix.of fun i j => ∑ k : Fin (l + r + 1), pt l k ^ (i.val + j.val)

theorem pt_injective (l n : Nat) : Function.Injective (pt l : Fin n → ℝ) := by
  intro a b h
  unfold pt at h
  have : ((a : Nat) : ℝ) = (b : Nat) := by linarith
  exact Fin.ext (by exact_mod_cast this)

/-- The polynomial with the given coefficients. -/
noncomputable def vecPoly (x : Fin (p + 1) → ℝ) : ℝ[X] := ∑ j : Fin (p + 1), C (x j) * Polynomial.X ^ (j : Nat)

theorem vecPoly_eval (x : Fin (p + 1) → ℝ) (t : ℝ) : (vecPoly x).eval t = ∑ j, x j * t ^ (j : Nat) := by
  unfold vecPoly
  rw [eval_finsetSum]
  exact sum_congr rfl fun j _ => by simp

theorem vecPoly_coeff (x : Fin (p + 1) → ℝ) (j : Fin (p + 1)) : (vecPoly x).coeff j = x j := by
  unfold vecPoly
  rw [finsetSum_coeff]
  rw [sum_eq_single j]
  · simp
  · intro b _ hb
    rw [coeff_C_mul, coeff_X_pow, if_neg (fun h => hb (Fin.ext h.symm)), mul_zero]
  · simp

theorem vecPoly_degree (x : Fin (p + 1) → ℝ) : (vecPoly x).natDegree ≤ p := by
  unfold vecPoly
  refine natDegree_sum_le_of_forall_le _ _ fun j _ => ?_
  exact (natDegree_C_mul_X_pow_le _ _).trans (by omega)

theorem sgGram_mulVec (x : Fin (p + 1) → ℝ) (i : Fin (p + 1)) :
    (sgGram l r p).mulVec x i = ∑ k : Fin (l + r + 1), pt l k ^ (i : Nat) * (vecPoly x).eval (pt l k) := by
  simp only [Matrix.mulVec, dotProduct, sgGram, Matrix.of_apply, vecPoly_eval]
  simp only [sum_mul, mul_sum]
  rw [sum_comm]
  refine sum_congr rfl fun k _ => sum_congr rfl fun j _ => ?_
  rw [pow_add]; ring

theorem sgGram_det_ne_zero (h : p ≤ l + r) : (sgGram l r p).det ≠ 0 := by
  intro h0
  obtain ⟨x, hx, hzero⟩ := Matrix.exists_mulVec_eq_zero_iff.2 h0
  have hs : ∑ k : Fin (l + r + 1), (vecPoly x).eval (pt l k) ^ 2 = 0 := by
    have : ∑ i, x i * (sgGram l r p).mulVec x i = 0 := by simp [hzero]
    rw [← this]
    simp only [sgGram_mulVec, mul_sum]
    rw [sum_comm]
    refine sum_congr rfl fun k _ => ?_
    rw [sq]
    conv_lhs => rw [vecPoly_eval x, sum_mul]
    refine sum_congr rfl fun i _ => ?_
    rw [vecPoly_eval]; ring
  have hk : ∀ k : Fin (l + r + 1), (vecPoly x).eval (pt l k) = 0 := by
    intro k
    have := (sum_eq_zero_iff_of_nonneg fun i _ => sq_nonneg _).1 hs k (mem_univ k)
    exact pow_eq_zero_iff (two_ne_zero) |>.1 this
  have hz : vecPoly x = 0 := by
    refine Polynomial.eq_zero_of_natDegree_lt_card_of_eval_eq_zero _ (pt_injective l (l + r + 1)) hk ?_
    rw [Fintype.card_fin]
    have := vecPoly_degree x
    omega
  exact hx (funext fun j => by rw [← vecPoly_coeff x j, hz]; simp)

theorem sgGram_det_eq_zero (h : l + r < p) : (sgGram l r p).det = 0 := by
  rw [← Matrix.exists_mulVec_eq_zero_iff]
  let q : ℝ[X] := ∏ k : Fin (l + r + 1), (Polynomial.X - C (pt l k))
  have hdeg : q.natDegree = l + r + 1 := by
    rw [natDegree_prod_of_monic _ _ fun k _ => monic_X_sub_C _]
    simp
  have hmon : q.Monic := monic_prod_of_monic _ _ fun k _ => monic_X_sub_C _
  have hv : vecPoly (fun j : Fin (p + 1) => q.coeff j) = q := by
    ext n
    by_cases hn : n < p + 1
    · exact vecPoly_coeff _ ⟨n, hn⟩
    · rw [coeff_eq_zero_of_natDegree_lt (lt_of_le_of_lt (vecPoly_degree _) (by omega)),
        coeff_eq_zero_of_natDegree_lt (by omega)]
  refine ⟨fun j => q.coeff j, ?_, ?_⟩
  · intro h0
    have : vecPoly (fun j : Fin (p + 1) => q.coeff j) = 0 := by
      rw [h0]; simp [vecPoly]
    rw [hv] at this
    exact hmon.ne_zero this
  · funext i
    rw [sgGram_mulVec, hv]
    refine sum_eq_zero fun k _ => ?_
    rw [eval_prod, prod_eq_zero (mem_univ k) (by simp), mul_zero]

theorem powInt_pt {n : Nat} (k : Fin n) (i : Nat) :
    (powInt (((k : Nat) : Int) - l) (i : Int) : ℝ) = pt l k ^ i := by
  unfold powInt pt
  rw [Int.toNat_natCast]
  push_cast
  rfl

theorem sg_fill (l r p : Nat) :
    fillLoop (fun i j => .ok ((pyRange (-(l : Int)) ((r : Int) + 1)).map fun k => (powInt k (i + j) : ℝ)).sum)
      (pairs (pyRange 0 ((p + 1 : Nat) : Int)) (pyRange 0 ((p + 1 : Nat) : Int)))
      (of (0 : Matrix (Fin (p + 1)) (Fin (p + 1)) ℝ)) = .ok (of (sgGram l r p)) := by
  refine (fillLoop_all _ (fun i j => sgGram l r p i j) (fun i j => ?_) _).trans rfl
  rw [pyRange_window, List.map_ofFn, List.sum_ofFn]
  congr 1
  refine sum_congr rfl fun k _ => ?_
  exact powInt_pt k (i.val + j.val)

theorem sg_width_ne (h : 1 ≤ l + r) : ((l : Int) + (r : Int) + 1).toNat ≠ 1 := by omega

/-- The coefficients are the values of a polynomial of at most the polynomial order and reproduce such polynomials. -/
theorem sg_coefficients (h1 : 1 ≤ l + r) (hp : p ≤ l + r) (hd : d ≤ p) :
    ∃ c : Fin (l + r + 1) → ℝ,
      determineCoefficients (l : Int) (r : Int) (p : Int) (d : Int) = .ok (List.ofFn c) ∧
      (∀ f : ℝ[X], f.natDegree ≤ p → ∑ k, c k * f.eval (((k : Nat) : ℝ) - l) = f.coeff d) ∧
      ∃ g : ℝ[X], g.natDegree ≤ p ∧ ∀ k, c k = g.eval (pt l k) := by
  have hdet := sgGram_det_ne_zero hp
  let e : Matrix (Fin (p + 1)) (Fin 1) ℝ := Matrix.of fun i _ => if i.val = d then 1 else 0
  let s : Fin (p + 1) → ℝ := fun j => ((sgGram l r p)⁻¹ * e) j 0
  have hs : (sgGram l r p).mulVec s = fun i => e i 0 := by
    have : sgGram l r p * ((sgGram l r p)⁻¹ * e) = e := by
      rw [← Matrix.mul_assoc, Matrix.mul_nonsing_inv _ (isUnit_iff_ne_zero.2 hdet), Matrix.one_mul]
    funext i
    have := congrFun (congrFun this i) 0
    rw [← this]
    rfl
  refine ⟨fun k => (vecPoly s).eval (pt l k), ?_, ?_, vecPoly s, vecPoly_degree s, fun _ => rfl⟩
  · unfold determineCoefficients
    rw [if_neg (sg_width_ne h1)]
    have hz : Factory.zeros (α := ℝ) ((p : Int) + 1) ((p : Int) + 1) =
        .ok (of (0 : Matrix (Fin (p + 1)) (Fin (p + 1)) ℝ)) := by
      exact_mod_cast Factory.zeros_nat (α := ℝ) (m := p + 1) (by omega) (p + 1)
    have hz1 : Factory.zeros (α := ℝ) ((p : Int) + 1) 1 =
        .ok (of (0 : Matrix (Fin (p + 1)) (Fin 1) ℝ)) := by
      exact_mod_cast Factory.zeros_nat (α := ℝ) (m := p + 1) (by omega) 1
    have hf := sg_fill l r p
    push_cast at hf
    have hset : (of (0 : Matrix (Fin (p + 1)) (Fin 1) ℝ)).set (d : Int) 0 1 = .ok (of e) := by
      refine (set_of (0 : Matrix (Fin (p + 1)) (Fin 1) ℝ) ⟨d, by omega⟩ 0 1).trans ?_
      congr 1
      refine mk_congr fun i j => ?_
      have hj : j = 0 := Subsingleton.elim _ _
      subst hj
      simp only [Matrix.of_apply, Matrix.zero_apply, and_true, e, Fin.ext_iff]
    have hsol := solve_of (sgGram l r p) e hdet
    simp only [hz, hz1, except_bind_ok, hf, hset, hsol]
    rw [pyRange_window]
    refine mapM_ofFn fun k => ?_
    have hterms : (pyRange 0 ((p : Int) + 1)).mapM (fun j => do
        let s ← (of ((sgGram l r p)⁻¹ * e)).get j 0
        pure (s * powInt (((k : Nat) : Int) - l) j)) =
        (.ok (List.ofFn fun j : Fin (p + 1) => s j * pt l k ^ (j : Nat)) : Except PyErr (List ℝ)) := by
      have : (p : Int) + 1 = ((p + 1 : Nat) : Int) := by push_cast; rfl
      rw [this, pyRange_ofFn]
      refine mapM_ofFn fun j => ?_
      have hg : (of ((sgGram l r p)⁻¹ * e)).get ((j : Nat) : Int) 0 = .ok (s j) := get_of _ j 0
      rw [hg]
      show Except.ok _ = _
      rw [powInt_pt]
    rw [hterms]
    show Except.ok _ = _
    rw [List.sum_ofFn, vecPoly_eval]
  · intro f hf
    have hfv : f = vecPoly fun j : Fin (p + 1) => f.coeff j := by
      ext n
      by_cases hn : n < p + 1
      · exact (vecPoly_coeff (fun j : Fin (p + 1) => f.coeff j) ⟨n, hn⟩).symm
      · rw [coeff_eq_zero_of_natDegree_lt (n := n) (lt_of_le_of_lt (vecPoly_degree _) (by omega)),
          coeff_eq_zero_of_natDegree_lt (by omega)]
    have key : ∀ i : Fin (p + 1), ∑ k : Fin (l + r + 1), pt l k ^ (i : Nat) * (vecPoly s).eval (pt l k) =
        if i.val = d then 1 else 0 := by
      intro i
      rw [← sgGram_mulVec, hs]
      rfl
    have : ∀ k : Fin (l + r + 1), (vecPoly s).eval (pt l k) * f.eval (((k : Nat) : ℝ) - l) =
        ∑ i : Fin (p + 1), f.coeff i * (pt l k ^ (i : Nat) * (vecPoly s).eval (pt l k)) := by
      intro k
      rw [show ((k : Nat) : ℝ) - l = pt l k from rfl]
      conv_lhs => rw [hfv, vecPoly_eval (fun j : Fin (p + 1) => f.coeff j), mul_sum]
      exact sum_congr rfl fun i _ => by ring
    rw [sum_congr rfl fun k _ => this k, sum_comm]
    simp only [← mul_sum, key]
    rw [sum_eq_single ⟨d, by omega⟩]
    · simp
    · intro b _ hb
      rw [if_neg (fun h => hb (Fin.ext h)), mul_zero]
    · simp

/-- **C31** For every window `-l … r` with more points than the polynomial order and every derivative
order up to the polynomial order, the coefficients exist (one per point of the window), and applying
them to the values of a polynomial `f` of degree at most the polynomial order gives exactly the
coefficient of `t^d` in `f`, that is `f⁽ᵈ⁾(0)/d!`. -/
theorem C31_coefficients (h1 : 1 ≤ l + r) (hp : p ≤ l + r) (hd : d ≤ p) :
    ∃ c : Fin (l + r + 1) → ℝ,
      determineCoefficients (l : Int) (r : Int) (p : Int) (d : Int) = .ok (List.ofFn c) ∧
      ∀ f : ℝ[X], f.natDegree ≤ p → ∑ k, c k * f.eval (((k : Nat) : ℝ) - l) = f.coeff d := by
  obtain ⟨c, hc, hf, -⟩ := sg_coefficients h1 hp hd
  exact ⟨c, hc, hf⟩

/-- **C31** With fewer points than coefficients of the polynomial (but more than one point) the normal
equations are singular: `LinAlgError`. -/
theorem C31_too_few_points (h1 : 1 ≤ l + r) (hp : l + r < p) (hd : d ≤ p) :
    (determineCoefficients (l : Int) (r : Int) (p : Int) (d : Int) : Except PyErr (List ℝ)) =
      .error .linAlgError := by
  unfold determineCoefficients
  rw [if_neg (sg_width_ne h1)]
  have hz : Factory.zeros (α := ℝ) ((p : Int) + 1) ((p : Int) + 1) =
        .ok (of (0 : Matrix (Fin (p + 1)) (Fin (p + 1)) ℝ)) := by
    exact_mod_cast Factory.zeros_nat (α := ℝ) (m := p + 1) (by omega) (p + 1)
  have hz1 : Factory.zeros (α := ℝ) ((p : Int) + 1) 1 =
        .ok (of (0 : Matrix (Fin (p + 1)) (Fin 1) ℝ)) := by
    exact_mod_cast Factory.zeros_nat (α := ℝ) (m := p + 1) (by omega) 1
  have hf := sg_fill l r p
  push_cast at hf
  have hset : (of (0 : Matrix (Fin (p + 1)) (Fin 1) ℝ)).set (d : Int) 0 1 = .ok (of _) :=
    set_of (0 : Matrix (Fin (p + 1)) (Fin 1) ℝ) ⟨d, by omega⟩ 0 1
  simp only [hz, hz1, except_bind_ok, hf, hset, solve_singular _ _ (sgGram_det_eq_zero hp)]
  rfl

/-- **C31** A derivative order above the polynomial order is an `IndexError` (at configuration time). -/
theorem C31_derivative_too_high (h1 : 1 ≤ l + r) (hd : p < d) :
    (determineCoefficients (l : Int) (r : Int) (p : Int) (d : Int) : Except PyErr (List ℝ)) =
      .error .indexError := by
  unfold determineCoefficients
  rw [if_neg (sg_width_ne h1)]
  have hz : Factory.zeros (α := ℝ) ((p : Int) + 1) ((p : Int) + 1) =
        .ok (of (0 : Matrix (Fin (p + 1)) (Fin (p + 1)) ℝ)) := by
    exact_mod_cast Factory.zeros_nat (α := ℝ) (m := p + 1) (by omega) (p + 1)
  have hz1 : Factory.zeros (α := ℝ) ((p : Int) + 1) 1 =
        .ok (of (0 : Matrix (Fin (p + 1)) (Fin 1) ℝ)) := by
    exact_mod_cast Factory.zeros_nat (α := ℝ) (m := p + 1) (by omega) 1
  have hf := sg_fill l r p
  push_cast at hf
  have hset : (of (0 : Matrix (Fin (p + 1)) (Fin 1) ℝ)).set (d : Int) 0 1 = .error .indexError := by
    unfold Mat.set
    have : pyIndex (p + 1) (d : Int) = .error .indexError := pyIndex_error_iff.2 (by omega)
    show (pyIndex (p + 1) (d : Int) >>= _) = _
    rw [this]
    rfl
  simp only [hz, hz1, except_bind_ok, hf, hset]
  rfl

/-- **C31 (violation)** The coefficients of derivative order `d ≥ 2` do not give the derivative but the
derivative divided by `d!`: on `f = t²` the second-derivative filter returns 1 instead of 2. -/
theorem C31_scale_violation (h1 : 1 ≤ l + r) (hp : p ≤ l + r) (h2 : 2 ≤ p) :
    ∃ c : Fin (l + r + 1) → ℝ,
      determineCoefficients (l : Int) (r : Int) (p : Int) 2 = .ok (List.ofFn c) ∧
      ∑ k, c k * (Polynomial.X ^ 2 : ℝ[X]).eval (((k : Nat) : ℝ) - l) ≠
        (derivative^[2] (Polynomial.X ^ 2 : ℝ[X])).eval 0 := by
  obtain ⟨c, hc, h⟩ := C31_coefficients (d := 2) h1 hp h2
  refine ⟨c, by exact_mod_cast hc, ?_⟩
  rw [h (Polynomial.X ^ 2) (by rw [natDegree_X_pow]; exact h2)]
  simp [coeff_X_pow]

/-- **C31 (violation)** For the single-point window the coefficients are `[1]` whatever the derivative
order, so even "first derivative" returns the data themselves. -/
theorem C31_single_point_violation (p d : Int) :
    (determineCoefficients 0 0 p d : Except PyErr (List ℝ)) = .ok [1] := by
  unfold determineCoefficients
  rw [if_pos (by decide)]

end coef

/-! ## C32 -/

section apply
variable {m n w : Nat}

/-- **C32** With `w + 1` coefficients and data with `n + w + 1` columns, column `j` of the output (which
has `n + 1` columns) is the weighted sum of the input columns `j … j + w`. -/
theorem C32_values (c : Matrix (Fin 1) (Fin (w + 1)) ℝ) (A : Matrix (Fin m) (Fin (n + w + 1)) ℝ) :
    sgApply (of c) (of A) = .ok (of (Matrix.of fun (i : Fin m) (j : Fin (n + 1)) =>
      ∑ k : Fin (w + 1), A i ⟨j + k, by omega⟩ * c 0 k)) := by
  unfold sgApply
  show (pyRange 0 (((n + w + 1 : Nat) : Int) - ((w + 1 : Nat) : Int) + 1)).mapM _ >>= multiConcat 1 = _
  have hr : ((n + w + 1 : Nat) : Int) - ((w + 1 : Nat) : Int) + 1 = ((n + 1 : Nat) : Int) := by
    push_cast; ring
  rw [hr, pyRange_ofFn]
  rw [mapM_ofFn (h := fun j : Fin (n + 1) => (⟨m, 1, Matrix.of fun i _ =>
    ∑ k : Fin (w + 1), A i ⟨j + k, by omega⟩ * c 0 k⟩ : Mat ℝ))]
  · exact multiConcat_cols _
  · intro j
    have hsub : (of A).getSubMatrix (.tuple 0 (m : Int)) (.tuple ((j : Nat) : Int)
        (((j : Nat) : Int) + ((w + 1 : Nat) : Int))) = .ok (of (Matrix.of fun i (k : Fin (w + 1)) =>
          A i ⟨j + k, by omega⟩)) := by
      have := getSubMatrix_tuple A 0 m j (j + (w + 1)) (by omega) le_rfl (by omega) (by omega)
      push_cast at this ⊢
      rw [this, ok_inj]
      refine mk_eq (by omega) (by omega) fun i k => ?_
      simp only [Matrix.of_apply]
      congr 1
      exact Fin.ext (Nat.zero_add _)
    show ((of A).getSubMatrix (.tuple 0 (m : Int)) (.tuple ((j : Nat) : Int)
        (((j : Nat) : Int) + ((w + 1 : Nat) : Int))) >>= _) = _
    rw [hsub]
    show (mulByVector (of _) (of c) >>= fun x => pure x.rowSums) = _
    unfold mulByVector
    rw [vectorOp_row]
    show Except.ok _ = Except.ok _
    congr 1
    refine mk_congr fun i _ => ?_
    show sumFin _ = _
    rw [sumFin_eq]
    rfl

/-- **C32** Input narrower than the window is rejected. -/
theorem C32_too_narrow (c : Matrix (Fin 1) (Fin w) ℝ) (A : Matrix (Fin m) (Fin n) ℝ) (h : n < w) :
    sgApply (of c) (of A) = .error .valueError := by
  unfold sgApply
  show (pyRange 0 ((n : Int) - (w : Int) + 1)).mapM _ >>= multiConcat 1 = _
  rw [pyRange_nonpos _ (by omega)]
  rfl

/-- **C32** The filter is linear. -/
theorem C32_linear (c : Matrix (Fin 1) (Fin (w + 1)) ℝ) (A B : Matrix (Fin m) (Fin (n + w + 1)) ℝ)
    (a b : ℝ) :
    ∃ FA FB : Matrix (Fin m) (Fin (n + 1)) ℝ, sgApply (of c) (of A) = .ok (of FA) ∧
      sgApply (of c) (of B) = .ok (of FB) ∧
      sgApply (of c) (of (a • A + b • B)) = .ok (of (a • FA + b • FB)) := by
  refine ⟨_, _, C32_values c A, C32_values c B, (C32_values c _).trans ?_⟩
  congr 1
  refine mk_congr fun i j => ?_
  simp only [Matrix.of_apply, Matrix.add_apply, Matrix.smul_apply, smul_eq_mul, mul_sum]
  rw [← sum_add_distrib]
  exact sum_congr rfl fun k _ => by ring

/-- **C31/C32** The whole transformation on sampled polynomials: if every row of the data samples a
polynomial `f i` of degree at most the polynomial order at `0, 1, 2, …`, then `d!` times output column
`j` is exactly the `d`-th derivative at the window centre `j + l`. -/
theorem C31_exact_on_polynomials {l r p d : Nat} (h1 : 1 ≤ l + r) (hp : p ≤ l + r) (hd : d ≤ p)
    (f : Fin m → ℝ[X]) (hf : ∀ i, (f i).natDegree ≤ p) :
    ∃ (c : Mat ℝ) (F : Matrix (Fin m) (Fin (n + 1)) ℝ),
      sgCoefficients (l : Int) (r : Int) (p : Int) (d : Int) = .ok c ∧
      sgApply c (of (Matrix.of fun i (j : Fin (n + (l + r) + 1)) => (f i).eval ((j : Nat) : ℝ))) =
        .ok (of F) ∧
      ∀ i j, (d.factorial : ℝ) * F i j = (derivative^[d] (f i)).eval (((j : Nat) : ℝ) + l) := by
  obtain ⟨c, hc, hex⟩ := C31_coefficients h1 hp hd
  have hcm : Factory.create [List.ofFn c] = .ok (of (Matrix.of fun (_ : Fin 1) k => c k)) := by
    have := Factory.create_ofFn (m := 1) Nat.one_pos (Matrix.of fun (_ : Fin 1) k => c k)
    simpa using this
  refine ⟨of (Matrix.of fun (_ : Fin 1) k => c k), _, ?_, C32_values _ _, fun i j => ?_⟩
  · unfold sgCoefficients
    rw [hc]
    exact hcm
  · simp only [Matrix.of_apply]
    have h2 := hex (taylor (((j : Nat) : ℝ) + l) (f i)) (by rw [natDegree_taylor]; exact hf i)
    have h3 : ∑ k : Fin (l + r + 1), (f i).eval (((j.val + k.val : Nat) : ℝ)) * c k =
        (taylor (((j : Nat) : ℝ) + l) (f i)).coeff d := by
      rw [← h2]
      refine sum_congr rfl fun k _ => ?_
      rw [taylor_eval, mul_comm]
      congr 2
      push_cast
      ring
    rw [h3, taylor_coeff]
    have h4 := congrFun (factorial_smul_hasseDeriv (R := ℝ) (k := d)) (f i)
    rw [← h4]
    simp

/-- A case meeting the hypotheses: the default settings (3 points on both sides, order 2, first
derivative). -/
example : 1 ≤ 3 + 3 ∧ 2 ≤ 3 + 3 ∧ 1 ≤ 2 := by decide

end apply

/-! ## C33 -/

section history
variable {α : Type} [Field α] [DecidableEq α]

/-- What a user expects: the coefficients of the current parameters are applied. -/
def sgSpec : TSpec α SGParam (Int × Int × Int × Int) where
  params := (2, 1, 3, 3)
  check q _ := (sgCoefficients q.2.2.1 q.2.2.2 q.1 q.2.1 : Except PyErr (Mat α)).map fun _ => ()
  apply q _ d := do
    let c ← sgCoefficients q.2.2.1 q.2.2.2 q.1 q.2.1
    sgApply c d
  unapply _ _ _ := .error .notImplemented
  assign q
    | .poly v => if v < 2 then .error .valueError else .ok ((v, q.2.1, q.2.2.1, q.2.2.2), true)
    | .der v => if v < 0 then .error .valueError else .ok ((q.1, v, q.2.2.1, q.2.2.2), true)
    | .left v => if v < 0 then .error .valueError else .ok ((q.1, q.2.1, v, q.2.2.2), true)
    | .right v => if v < 0 then .error .valueError else .ok ((q.1, q.2.1, q.2.2.1, v), true)

/-- The simulation relation. -/
structure SGRel (a : (Int × Int × Int × Int) × Option (Mat α)) (s : SGState α) : Prop where
  conf : s.configured = a.2.isSome
  poly : s.poly = a.1.1
  der : s.der = a.1.2.1
  left : s.left = a.1.2.2.1
  right : s.right = a.1.2.2.2
  seen : a.2.isSome → s.coef.isSome
  coef : ∀ c, s.coef = some c → sgCoefficients a.1.2.2.1 a.1.2.2.2 a.1.1 a.1.2.1 = .ok c

/-- **C33** In every history of assignments, transforms, inverse transforms, configures and resets,
`SavitzkyGolay` uses the coefficients belonging to the current parameters; invalid assignments raise
`ValueError` and change nothing. -/
theorem C33_savitzkyGolay (cs : List (TCall α SGParam)) :
    tRun (savGol : Trans α _ _) cs savGol.init = sRun sgSpec cs ((2, 1, 3, 3), none) := by
  refine tRun_eq_sRun savGol sgSpec SGRel (fun _ => True) ?_ cs (fun _ _ => trivial) _ _
    ⟨rfl, rfl, rfl, rfl, rfl, by simp, fun c h => by cases h⟩
  rintro c ⟨⟨p, d, l, r⟩, seen⟩ ⟨conf, p', d', l', r', coef⟩ - ⟨h1, h2, h3, h4, h5, h6, h7⟩
  simp only at h1 h2 h3 h4 h5 h6 h7
  subst h1 h2 h3 h4 h5
  cases c with
  | transform x =>
    cases seen with
    | none =>
      cases coef with
      | some c =>
        have hc := h7 c rfl
        simp only [tStep, transform, savGol, sStep, sgSpec, hc, Option.isSome_none, Bool.false_eq_true,
          if_false, Except.map]
        exact ⟨rfl, rfl, rfl, rfl, rfl, rfl, fun _ => rfl, fun c' h => by cases h; exact hc⟩
      | none =>
        cases hc : (sgCoefficients l' r' p' d' : Except PyErr (Mat α)) with
        | error e =>
          simp only [tStep, transform, savGol, sStep, sgSpec, hc, Option.isSome_none,
            Bool.false_eq_true, if_false, Except.map]
          exact ⟨trivial, rfl, rfl, rfl, rfl, rfl, (fun h => by cases h), fun c' h => by cases h⟩
        | ok c =>
          simp only [tStep, transform, savGol, sStep, sgSpec, hc, Option.isSome_none,
            Bool.false_eq_true, if_false, Except.map]
          exact ⟨rfl, rfl, rfl, rfl, rfl, rfl, fun _ => rfl, fun c' h => by cases h; exact hc⟩
    | some d₀ =>
      cases coef with
      | none => exact absurd (h6 rfl) (by simp)
      | some c =>
        have hc := h7 c rfl
        simp only [tStep, transform, savGol, sStep, sgSpec, hc, Option.isSome_some, if_true]
        exact ⟨rfl, rfl, rfl, rfl, rfl, rfl, fun _ => rfl, fun c' h => by cases h; exact hc⟩
  | inverse x =>
    cases seen with
    | none =>
      cases coef with
      | some c =>
        have hc := h7 c rfl
        simp only [tStep, inverseTransform, savGol, sStep, sgSpec, hc, Option.isSome_none,
          Bool.false_eq_true, if_false, Except.map]
        exact ⟨trivial, rfl, rfl, rfl, rfl, rfl, fun _ => rfl, fun c' h => by cases h; exact hc⟩
      | none =>
        cases hc : (sgCoefficients l' r' p' d' : Except PyErr (Mat α)) with
        | error e =>
          simp only [tStep, inverseTransform, savGol, sStep, sgSpec, hc, Option.isSome_none,
            Bool.false_eq_true, if_false, Except.map]
          exact ⟨trivial, rfl, rfl, rfl, rfl, rfl, (fun h => by cases h), fun c' h => by cases h⟩
        | ok c =>
          simp only [tStep, inverseTransform, savGol, sStep, sgSpec, hc, Option.isSome_none,
            Bool.false_eq_true, if_false, Except.map]
          exact ⟨trivial, rfl, rfl, rfl, rfl, rfl, fun _ => rfl, fun c' h => by cases h; exact hc⟩
    | some d₀ =>
      cases coef with
      | none => exact absurd (h6 rfl) (by simp)
      | some c =>
        have hc := h7 c rfl
        simp only [tStep, inverseTransform, savGol, sStep, sgSpec, Option.isSome_some, if_true]
        exact ⟨trivial, rfl, rfl, rfl, rfl, rfl, fun _ => rfl, fun c' h => by cases h; exact hc⟩
  | configure x =>
    cases coef with
    | some c =>
      have hc := h7 c rfl
      simp only [tStep, savGol, sStep, sgSpec, hc, Except.map]
      exact ⟨trivial, rfl, rfl, rfl, rfl, rfl, fun _ => rfl, fun c' h => by cases h; exact hc⟩
    | none =>
      cases hc : (sgCoefficients l' r' p' d' : Except PyErr (Mat α)) with
      | error e =>
        simp only [tStep, savGol, sStep, sgSpec, hc, Except.map]
        exact ⟨trivial, rfl, rfl, rfl, rfl, rfl, h6, fun c' h => by cases h⟩
      | ok c =>
        simp only [tStep, savGol, sStep, sgSpec, hc, Except.map]
        exact ⟨trivial, rfl, rfl, rfl, rfl, rfl, fun _ => rfl, fun c' h => by cases h; exact hc⟩
  | reset => exact ⟨rfl, rfl, rfl, rfl, rfl, rfl, (fun h => by cases h), fun c' h => by cases h⟩
  | set v =>
    cases v with
    | poly v =>
      simp only [tStep, savGol, sgSet, sStep, sgSpec]
      by_cases hv : v < 2
      · simp only [if_pos hv]; exact ⟨rfl, rfl, rfl, rfl, rfl, rfl, h6, h7⟩
      · simp only [if_neg hv]
        exact ⟨rfl, rfl, rfl, rfl, rfl, rfl, (fun h => by cases h), fun c' h => by cases h⟩
    | der v =>
      simp only [tStep, savGol, sgSet, sStep, sgSpec]
      by_cases hv : v < 0
      · simp only [if_pos hv]; exact ⟨rfl, rfl, rfl, rfl, rfl, rfl, h6, h7⟩
      · simp only [if_neg hv]
        exact ⟨rfl, rfl, rfl, rfl, rfl, rfl, (fun h => by cases h), fun c' h => by cases h⟩
    | left v =>
      simp only [tStep, savGol, sgSet, sStep, sgSpec]
      by_cases hv : v < 0
      · simp only [if_pos hv]; exact ⟨rfl, rfl, rfl, rfl, rfl, rfl, h6, h7⟩
      · simp only [if_neg hv]
        exact ⟨rfl, rfl, rfl, rfl, rfl, rfl, (fun h => by cases h), fun c' h => by cases h⟩
    | right v =>
      simp only [tStep, savGol, sgSet, sStep, sgSpec]
      by_cases hv : v < 0
      · simp only [if_pos hv]; exact ⟨rfl, rfl, rfl, rfl, rfl, rfl, h6, h7⟩
      · simp only [if_neg hv]
        exact ⟨rfl, rfl, rfl, rfl, rfl, rfl, (fun h => by cases h), fun c' h => by cases h⟩

/-! ### `SavitzkyGolay2` -/

/-- What `SavitzkyGolay2` computes: the window is `num_points` on both sides. -/
def sg2Spec : TSpec α SG2Param (Int × Int × Int) where
  params := (2, 1, 3)
  check q _ := (sgCoefficients q.2.2 q.2.2 q.1 q.2.1 : Except PyErr (Mat α)).map fun _ => ()
  apply q _ d := do
    let c ← sgCoefficients q.2.2 q.2.2 q.1 q.2.1
    sgApply c d
  unapply _ _ _ := .error .notImplemented
  assign q
    | .poly v => if v < 2 then .error .valueError else .ok ((v, q.2.1, q.2.2), true)
    | .der v => if v < 0 then .error .valueError else .ok ((q.1, v, q.2.2), true)
    | .points v => if v < 0 then .error .valueError else .ok ((q.1, q.2.1, v), true)
    | .left v => if v < 0 then .error .valueError else .ok (q, true)
    | .right v => if v < 0 then .error .valueError else .ok (q, true)

/-- The simulation relation. -/
structure SG2Rel (a : (Int × Int × Int) × Option (Mat α)) (s : SG2State α) : Prop where
  conf : s.configured = a.2.isSome
  poly : s.poly = a.1.1
  der : s.der = a.1.2.1
  points : s.points = a.1.2.2
  seen : a.2.isSome → s.coef.isSome
  coef : ∀ c, s.coef = some c → sgCoefficients a.1.2.2 a.1.2.2 a.1.1 a.1.2.1 = .ok c

/-- **C33 (partial)** `SavitzkyGolay2` never uses stale coefficients either; its window is determined by
`num_points` alone.  Missing: assignments to `num_points_left`/`num_points_right` are accepted but have
no effect on the window, see the violation. -/
theorem C33_savitzkyGolay2_partial (cs : List (TCall α SG2Param)) :
    tRun (savGol2 : Trans α _ _) cs savGol2.init = sRun sg2Spec cs ((2, 1, 3), none) := by
  refine tRun_eq_sRun savGol2 sg2Spec SG2Rel (fun _ => True) ?_ cs (fun _ _ => trivial) _ _
    ⟨rfl, rfl, rfl, rfl, by simp, fun c h => by cases h⟩
  rintro c ⟨⟨p, d, l⟩, seen⟩ ⟨conf, p', d', l', sl, sr, coef⟩ - ⟨h1, h2, h3, h4, h6, h7⟩
  simp only at h1 h2 h3 h4 h6 h7
  subst h1 h2 h3 h4
  cases c with
  | transform x =>
    cases seen with
    | none =>
      cases coef with
      | some c =>
        have hc := h7 c rfl
        simp only [tStep, transform, savGol2, sStep, sg2Spec, hc, Option.isSome_none,
          Bool.false_eq_true, if_false, Except.map]
        exact ⟨rfl, rfl, rfl, rfl, rfl, fun _ => rfl, fun c' h => by cases h; exact hc⟩
      | none =>
        cases hc : (sgCoefficients l' l' p' d' : Except PyErr (Mat α)) with
        | error e =>
          simp only [tStep, transform, savGol2, sStep, sg2Spec, hc, Option.isSome_none,
            Bool.false_eq_true, if_false, Except.map]
          exact ⟨trivial, rfl, rfl, rfl, rfl, (fun h => by cases h), fun c' h => by cases h⟩
        | ok c =>
          simp only [tStep, transform, savGol2, sStep, sg2Spec, hc, Option.isSome_none,
            Bool.false_eq_true, if_false, Except.map]
          exact ⟨rfl, rfl, rfl, rfl, rfl, fun _ => rfl, fun c' h => by cases h; exact hc⟩
    | some d₀ =>
      cases coef with
      | none => exact absurd (h6 rfl) (by simp)
      | some c =>
        have hc := h7 c rfl
        simp only [tStep, transform, savGol2, sStep, sg2Spec, hc, Option.isSome_some, if_true]
        exact ⟨rfl, rfl, rfl, rfl, rfl, fun _ => rfl, fun c' h => by cases h; exact hc⟩
  | inverse x =>
    cases seen with
    | none =>
      cases coef with
      | some c =>
        have hc := h7 c rfl
        simp only [tStep, inverseTransform, savGol2, sStep, sg2Spec, hc, Option.isSome_none,
          Bool.false_eq_true, if_false, Except.map]
        exact ⟨trivial, rfl, rfl, rfl, rfl, fun _ => rfl, fun c' h => by cases h; exact hc⟩
      | none =>
        cases hc : (sgCoefficients l' l' p' d' : Except PyErr (Mat α)) with
        | error e =>
          simp only [tStep, inverseTransform, savGol2, sStep, sg2Spec, hc, Option.isSome_none,
            Bool.false_eq_true, if_false, Except.map]
          exact ⟨trivial, rfl, rfl, rfl, rfl, (fun h => by cases h), fun c' h => by cases h⟩
        | ok c =>
          simp only [tStep, inverseTransform, savGol2, sStep, sg2Spec, hc, Option.isSome_none,
            Bool.false_eq_true, if_false, Except.map]
          exact ⟨trivial, rfl, rfl, rfl, rfl, fun _ => rfl, fun c' h => by cases h; exact hc⟩
    | some d₀ =>
      cases coef with
      | none => exact absurd (h6 rfl) (by simp)
      | some c =>
        have hc := h7 c rfl
        simp only [tStep, inverseTransform, savGol2, sStep, sg2Spec, Option.isSome_some, if_true]
        exact ⟨trivial, rfl, rfl, rfl, rfl, fun _ => rfl, fun c' h => by cases h; exact hc⟩
  | configure x =>
    cases coef with
    | some c =>
      have hc := h7 c rfl
      simp only [tStep, savGol2, sStep, sg2Spec, hc, Except.map]
      exact ⟨trivial, rfl, rfl, rfl, rfl, fun _ => rfl, fun c' h => by cases h; exact hc⟩
    | none =>
      cases hc : (sgCoefficients l' l' p' d' : Except PyErr (Mat α)) with
      | error e =>
        simp only [tStep, savGol2, sStep, sg2Spec, hc, Except.map]
        exact ⟨trivial, rfl, rfl, rfl, rfl, h6, fun c' h => by cases h⟩
      | ok c =>
        simp only [tStep, savGol2, sStep, sg2Spec, hc, Except.map]
        exact ⟨trivial, rfl, rfl, rfl, rfl, fun _ => rfl, fun c' h => by cases h; exact hc⟩
  | reset => exact ⟨rfl, rfl, rfl, rfl, rfl, (fun h => by cases h), fun c' h => by cases h⟩
  | set v =>
    cases v with
    | poly v =>
      simp only [tStep, savGol2, sg2Set, sStep, sg2Spec]
      by_cases hv : v < 2
      · simp only [if_pos hv]; exact ⟨rfl, rfl, rfl, rfl, rfl, h6, h7⟩
      · simp only [if_neg hv]
        exact ⟨rfl, rfl, rfl, rfl, rfl, (fun h => by cases h), fun c' h => by cases h⟩
    | der v =>
      simp only [tStep, savGol2, sg2Set, sStep, sg2Spec]
      by_cases hv : v < 0
      · simp only [if_pos hv]; exact ⟨rfl, rfl, rfl, rfl, rfl, h6, h7⟩
      · simp only [if_neg hv]
        exact ⟨rfl, rfl, rfl, rfl, rfl, (fun h => by cases h), fun c' h => by cases h⟩
    | points v =>
      simp only [tStep, savGol2, sg2Set, sStep, sg2Spec]
      by_cases hv : v < 0
      · simp only [if_pos hv]; exact ⟨rfl, rfl, rfl, rfl, rfl, h6, h7⟩
      · simp only [if_neg hv]
        exact ⟨rfl, rfl, rfl, rfl, rfl, (fun h => by cases h), fun c' h => by cases h⟩
    | left v =>
      simp only [tStep, savGol2, sg2Set, sStep, sg2Spec]
      by_cases hv : v < 0
      · simp only [if_pos hv]; exact ⟨rfl, rfl, rfl, rfl, rfl, h6, h7⟩
      · simp only [if_neg hv]
        exact ⟨rfl, rfl, rfl, rfl, rfl, (fun h => by cases h), fun c' h => by cases h⟩
    | right v =>
      simp only [tStep, savGol2, sg2Set, sStep, sg2Spec]
      by_cases hv : v < 0
      · simp only [if_pos hv]; exact ⟨rfl, rfl, rfl, rfl, rfl, h6, h7⟩
      · simp only [if_neg hv]
        exact ⟨rfl, rfl, rfl, rfl, rfl, (fun h => by cases h), fun c' h => by cases h⟩

/-- **C33 (violation)** Assigning `num_points_left` of a `SavitzkyGolay2` succeeds, but the next
transform still uses the window given by `num_points`: every outcome is as without the assignment. -/
theorem C33_left_ignored_violation (v : Int) (hv : 0 ≤ v) (d : Mat α) :
    tRun (savGol2 : Trans α _ _) [.set (.left v), .transform d] savGol2.init =
      .ok none :: tRun (savGol2 : Trans α _ _) [.transform d] savGol2.init := by
  rw [C33_savitzkyGolay2_partial, C33_savitzkyGolay2_partial]
  have : ¬ v < 0 := by omega
  simp only [sRun, sStep, sg2Spec, if_neg this, if_true]

end history
end Verif.Props
