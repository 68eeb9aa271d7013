import Verif.Props.KernelLinear
import Verif.Props.KernelMercer
import Verif.Props.EigSpec
import Mathlib.Topology.Instances.Matrix
import Mathlib.Analysis.SpecificLimits.Basic

/-!
# C123 — the inner iteration of KernelPLS converges

`_KernelPLS.py` 107-130 repeats `t = K u / |K u|`, `u = Y Y^T t / |Y Y^T t|` until `u` changes by at most `tol`.
-/

namespace Verif.Props
open Verif Verif.Mat Transf
open scoped Matrix
open Filter Topology

variable {n p q K : Nat}

/-! ## The power method -/

theorem psd_symm {S : Matrix (Fin q) (Fin q) ℝ} (h : Psd S) : Sᵀ = S := by
  ext i j
  exact h.1 j i

theorem psd_form {S : Matrix (Fin q) (Fin q) ℝ} (h : Psd S) (x : Matrix (Fin q) (Fin 1) ℝ) : 0 ≤ (xᵀ * S * x) 0 0 := by
  have := h.2 fun i => x i 0
  have e : (xᵀ * S * x) 0 0 = ∑ i, ∑ j, x i 0 * x j 0 * S i j := by
    simp only [Matrix.mul_apply, Matrix.transpose_apply, Finset.sum_mul]
    rw [Finset.sum_comm]
    exact Finset.sum_congr rfl fun i _ => Finset.sum_congr rfl fun j _ => by ring
  rw [e]
  exact this

theorem psd_congr {m : Nat} {S : Matrix (Fin m) (Fin m) ℝ} (h : Psd S) (A : Matrix (Fin m) (Fin q) ℝ) : Psd (Aᵀ * S * A) := by
  have h1 := (psd_iff S).1 h
  have h2 := h1.conjTranspose_mul_mul_same A
  rw [Matrix.conjTranspose_eq_transpose_of_trivial] at h2
  exact (psd_iff _).2 h2

theorem col_eq_sum (V : Matrix (Fin q) (Fin q) ℝ) (a : Matrix (Fin q) (Fin 1) ℝ) (i : Fin q) :
    (V * a) i 0 = ∑ l, V i l * a l 0 := Matrix.mul_apply

/-- The power method for a positive semidefinite matrix: `S^m z`, divided by the `m`-th power of an eigenvalue, converges to
an eigenvector. -/
theorem power_tendsto {S : Matrix (Fin q) (Fin q) ℝ} (hS : Psd S) (z : Matrix (Fin q) (Fin 1) ℝ) (hz : S * z ≠ 0) :
    ∃ (l : ℝ) (e : Matrix (Fin q) (Fin 1) ℝ), 0 < l ∧ e ≠ 0 ∧ S * e = l • e ∧
      Tendsto (fun m : Nat => (l ^ m)⁻¹ • (S ^ m * z)) atTop (𝓝 e) := by
  obtain ⟨w, V, hV, hO⟩ := symm_eig S (psd_symm hS)
  have hO' : V * Vᵀ = 1 := mul_eq_one_comm.1 hO
  set c : Matrix (Fin q) (Fin 1) ℝ := Vᵀ * z with hc
  have hzc : z = V * c := by rw [hc, ← Matrix.mul_assoc, hO', Matrix.one_mul]
  have hpow : ∀ m : Nat, S ^ m * V = V * Matrix.diagonal fun i => w i ^ m := by
    intro m
    induction m with
    | zero => simp
    | succ m ih =>
      rw [pow_succ', Matrix.mul_assoc, ih, ← Matrix.mul_assoc, hV.eigen, Matrix.mul_assoc, Matrix.diagonal_mul_diagonal]
      congr 2
      funext i
      rw [pow_succ']
  have hentry : ∀ (m : Nat) i, (S ^ m * z) i 0 = ∑ l, V i l * (w l ^ m * c l 0) := by
    intro m i
    rw [hzc, ← Matrix.mul_assoc, hpow, Matrix.mul_assoc, col_eq_sum]
    refine Finset.sum_congr rfl fun l _ => ?_
    rw [Matrix.diagonal_mul]
  have hw : ∀ i, 0 ≤ w i := by
    intro i
    have h := psd_form hS (Matrix.of fun k (_ : Fin 1) => V k i)
    have e1 : (S * Matrix.of fun k (_ : Fin 1) => V k i) = w i • Matrix.of fun k (_ : Fin 1) => V k i := by
      ext k j
      have := congrFun (congrFun hV.eigen k) i
      rw [Matrix.mul_diagonal, Matrix.mul_apply] at this
      rw [Matrix.mul_apply, Matrix.smul_apply, Matrix.of_apply, smul_eq_mul, mul_comm (w i), ← this]
      rfl
    rw [Matrix.mul_assoc, e1, Matrix.mul_smul, Matrix.smul_apply, Matrix.mul_apply] at h
    simp only [Matrix.transpose_apply, Matrix.of_apply, smul_eq_mul, ← pow_two, hV.unit i, mul_one] at h
    exact h
  -- the largest eigenvalue present in the start vector
  obtain ⟨i1, h1c, h1w⟩ : ∃ i, c i 0 ≠ 0 ∧ 0 < w i := by
    by_contra hcon
    push Not at hcon
    refine hz ?_
    ext i j
    rw [Subsingleton.elim j 0, ← pow_one S, hentry, Matrix.zero_apply]
    refine Finset.sum_eq_zero fun l _ => ?_
    by_cases hl : c l 0 = 0
    · rw [hl, mul_zero, mul_zero]
    · rw [le_antisymm (hcon l hl) (hw l), pow_one, zero_mul, mul_zero]
  obtain ⟨i0, h0, hmax⟩ := Finset.exists_max_image (Finset.univ.filter fun i => c i 0 ≠ 0) w ⟨i1, by simpa using h1c⟩
  simp only [Finset.mem_filter, Finset.mem_univ, true_and] at h0 hmax
  have hl : 0 < w i0 := h1w.trans_le (hmax i1 h1c)
  set d : Matrix (Fin q) (Fin 1) ℝ := Matrix.of fun l _ => if w l = w i0 then c l 0 else 0 with hd
  refine ⟨w i0, V * d, hl, fun h => h0 ?_, ?_, ?_⟩
  · have h2 := congrArg (fun M => Vᵀ * M) h
    simp only [← Matrix.mul_assoc, hO, Matrix.one_mul, Matrix.mul_zero] at h2
    have h3 := congrFun (congrFun h2 i0) 0
    rw [hd, Matrix.of_apply, if_pos rfl] at h3
    exact h3
  · rw [← Matrix.mul_assoc, hV.eigen, Matrix.mul_assoc, ← Matrix.mul_smul]
    congr 1
    ext l j
    rw [Matrix.diagonal_mul, Matrix.smul_apply, hd, Matrix.of_apply, smul_eq_mul]
    split_ifs with h
    · rw [h]
    · rw [mul_zero, mul_zero]
  · refine tendsto_pi_nhds.2 fun i => tendsto_pi_nhds.2 fun j => ?_
    rw [Subsingleton.elim j 0]
    have e : ∀ m : Nat, ((w i0 ^ m)⁻¹ • (S ^ m * z)) i 0 = ∑ l, V i l * ((w l / w i0) ^ m * c l 0) := by
      intro m
      rw [Matrix.smul_apply, hentry, smul_eq_mul, Finset.mul_sum]
      refine Finset.sum_congr rfl fun l _ => ?_
      rw [div_pow]
      field_simp
    simp only [e]
    rw [col_eq_sum]
    refine tendsto_finsetSum _ fun l _ => Tendsto.const_mul _ ?_
    rw [hd, Matrix.of_apply]
    split_ifs with h
    · rw [h, div_self hl.ne']
      simp only [one_pow, one_mul]
      exact tendsto_const_nhds
    · by_cases hcl : c l 0 = 0
      · simp only [hcl, mul_zero]
        exact tendsto_const_nhds
      · have hlt : w l / w i0 < 1 := (div_lt_one hl).2 (lt_of_le_of_ne (hmax l hcl) h)
        have := (tendsto_pow_atTop_nhds_zero_of_lt_one (div_nonneg (hw l) hl.le) hlt).mul_const (c l 0)
        rwa [zero_mul] at this

/-! ## The passes -/

/-- `u` after one pass. -/
noncomputable def kPass (Kd : Matrix (Fin n) (Fin n) ℝ) (Y : Matrix (Fin n) (Fin q) ℝ) (u : Matrix (Fin n) (Fin 1) ℝ) :
    Matrix (Fin n) (Fin 1) ℝ := kU Y (nrm (Kd * u))

theorem nrm_zero {m : Nat} : nrm (0 : Matrix (Fin m) (Fin 1) ℝ) = 0 := smul_zero _

theorem kPass_eq (Kd : Matrix (Fin n) (Fin n) ℝ) (Y : Matrix (Fin n) (Fin q) ℝ) (u : Matrix (Fin n) (Fin 1) ℝ) :
    kPass Kd Y u = nrm (Y * (Yᵀ * (Kd * u))) := by
  unfold kPass kU
  by_cases h : Kd * u = 0
  · rw [h, nrm_zero]
  · have hs : 0 < (Real.sqrt (sq1 (Kd * u)))⁻¹ := by
      have : 0 < sq1 (Kd * u) := lt_of_le_of_ne (sq1_nonneg _) fun e => h ((sq1_eq_zero _).1 e.symm)
      positivity
    rw [show nrm (Kd * u) = (Real.sqrt (sq1 (Kd * u)))⁻¹ • (Kd * u) from rfl, Matrix.mul_smul, Matrix.mul_smul, nrm_smul hs]

theorem kPass_smul (Kd : Matrix (Fin n) (Fin n) ℝ) (Y : Matrix (Fin n) (Fin q) ℝ) (u : Matrix (Fin n) (Fin 1) ℝ) {a : ℝ}
    (ha : 0 < a) : kPass Kd Y (a • u) = kPass Kd Y u := by
  rw [kPass_eq, kPass_eq, Matrix.mul_smul, Matrix.mul_smul, Matrix.mul_smul, nrm_smul ha]

/-- After `m + 1` passes `u` is the normalised `Y S^m (Y^T K u)` with `S = Y^T K Y`. -/
theorem kPass_iter (Kd : Matrix (Fin n) (Fin n) ℝ) (Y : Matrix (Fin n) (Fin q) ℝ) (u : Matrix (Fin n) (Fin 1) ℝ) (m : Nat) :
    (kPass Kd Y)^[m + 1] u = nrm (Y * ((Yᵀ * Kd * Y) ^ m * (Yᵀ * (Kd * u)))) := by
  induction m with
  | zero => simp [kPass_eq]
  | succ m ih =>
    rw [Function.iterate_succ_apply', ih]
    set x := Y * ((Yᵀ * Kd * Y) ^ m * (Yᵀ * (Kd * u)))
    have e : kPass Kd Y (nrm x) = kPass Kd Y x := by
      by_cases h : x = 0
      · rw [h, nrm_zero]
      · refine kPass_smul Kd Y x ?_
        have : 0 < sq1 x := lt_of_le_of_ne (sq1_nonneg _) fun e => h ((sq1_eq_zero _).1 e.symm)
        positivity
    rw [e, kPass_eq, pow_succ']
    simp only [x, Matrix.mul_assoc]

theorem nrm_tendsto {m : Nat} {f : Nat → Matrix (Fin m) (Fin 1) ℝ} {e : Matrix (Fin m) (Fin 1) ℝ} (he : e ≠ 0)
    (h : Tendsto f atTop (𝓝 e)) : Tendsto (fun k => nrm (f k)) atTop (𝓝 (nrm e)) := by
  have hs : Tendsto (fun k => sq1 (f k)) atTop (𝓝 (sq1 e)) := by
    unfold sq1
    refine tendsto_finsetSum _ fun i _ => ?_
    have := tendsto_pi_nhds.1 (tendsto_pi_nhds.1 h i) 0
    exact this.mul this
  have hne : Real.sqrt (sq1 e) ≠ 0 := by
    have : 0 < sq1 e := lt_of_le_of_ne (sq1_nonneg _) fun e' => he ((sq1_eq_zero _).1 e'.symm)
    positivity
  exact ((hs.sqrt).inv₀ hne).smul h

/-- **C123, pass.**  One pass of the loop on `u` leaves `kPass Kd Y u` in `u`. -/
theorem C123_pass (Kd : Matrix (Fin n) (Fin n) ℝ) (Y : Matrix (Fin n) (Fin q) ℝ) (u : Matrix (Fin n) (Fin 1) ℝ) :
    ∃ t w, kplsPass (of Kd) (of Y) (of u) = .ok ⟨t, w, of (kPass Kd Y u)⟩ :=
  ⟨_, _, kplsPass_eq Kd Y u⟩

/-- **C123, limit.**  Unless the second pass already divides by zero, the passes converge: `u` tends to a unit vector with
`Y Y^T K u = l u` for some positive `l`, and no eigenvector with a larger eigenvalue is present in the start vector. -/
theorem C123_limit {Kd : Matrix (Fin n) (Fin n) ℝ} (hK : Psd Kd) (Y : Matrix (Fin n) (Fin q) ℝ) (u : Matrix (Fin n) (Fin 1) ℝ)
    (hu : Kd * (Y * (Yᵀ * (Kd * u))) ≠ 0) :
    ∃ (l : ℝ) (e : Matrix (Fin n) (Fin 1) ℝ), 0 < l ∧ sq1 e = 1 ∧ Y * (Yᵀ * (Kd * e)) = l • e ∧
      Tendsto (fun m => (kPass Kd Y)^[m] u) atTop (𝓝 e) ∧
      ∀ (mu : ℝ) (x : Matrix (Fin n) (Fin 1) ℝ), Y * (Yᵀ * (Kd * x)) = mu • x → uᵀ * (Kd * x) ≠ 0 → mu ≤ l := by
  have hS : Psd (Yᵀ * Kd * Y) := psd_congr hK Y
  set z := Yᵀ * (Kd * u) with hz
  have hSz : Yᵀ * Kd * Y * z ≠ 0 := by
    intro h
    -- `z^T S z = 0` makes `K Y z` vanish
    have h0 : (Y * z)ᵀ * Kd * (Y * z) = 0 := by
      rw [Matrix.transpose_mul, Matrix.mul_assoc, Matrix.mul_assoc,
        show Yᵀ * (Kd * (Y * z)) = Yᵀ * Kd * Y * z by simp only [Matrix.mul_assoc], h, Matrix.mul_zero]
    refine hu ?_
    have hp := (show Kd.PosSemidef from (psd_iff Kd).1 hK).dotProduct_mulVec_zero_iff (fun i => (Y * z) i 0)
    have h1 : star (fun i => (Y * z) i 0) ⬝ᵥ Kd *ᵥ (fun i => (Y * z) i 0) = 0 := by
      have := congrFun (congrFun h0 0) 0
      rw [Matrix.mul_assoc, Matrix.mul_apply] at this
      simpa [dotProduct, Matrix.mulVec, Matrix.mul_apply] using this
    have h2 := hp.1 h1
    ext i j
    rw [Subsingleton.elim j 0]
    have := congrFun h2 i
    rw [Matrix.mul_apply]
    simpa [dotProduct, Matrix.mulVec] using this
  obtain ⟨l, e, hl, he, hSe, ht⟩ := power_tendsto hS z hSz
  have hYe : Y * e ≠ 0 := by
    intro h
    rw [Matrix.mul_assoc, h, Matrix.mul_zero] at hSe
    exact he ((smul_eq_zero.1 hSe.symm).resolve_left hl.ne')
  have ht' : Tendsto (fun m : Nat => (l ^ m)⁻¹ • (Y * ((Yᵀ * Kd * Y) ^ m * z))) atTop (𝓝 (Y * e)) := by
    have hcont : Continuous fun M : Matrix (Fin q) (Fin 1) ℝ => Y * M := continuous_const.matrix_mul continuous_id
    have := (hcont.tendsto e).comp ht
    refine this.congr fun m => ?_
    simp only [Function.comp_apply, Matrix.mul_smul]
  have hpos : 0 < (Real.sqrt (sq1 (Y * e)))⁻¹ := by
    have : 0 < sq1 (Y * e) := lt_of_le_of_ne (sq1_nonneg _) fun e' => hYe ((sq1_eq_zero _).1 e'.symm)
    positivity
  refine ⟨l, nrm (Y * e), hl, sq1_nrm _ hYe, ?_, ?_, ?_⟩
  · rw [nrm, Matrix.mul_smul, Matrix.mul_smul, Matrix.mul_smul,
      show Y * (Yᵀ * (Kd * (Y * e))) = Y * (Yᵀ * Kd * Y * e) by simp only [Matrix.mul_assoc], hSe, Matrix.mul_smul, smul_comm]
  · rw [← tendsto_add_atTop_iff_nat 1]
    refine (nrm_tendsto hYe ht').congr fun m => ?_
    rw [kPass_iter, nrm_smul (by positivity)]
  · intro mu x hx hne
    -- the component along `x` of the unnormalised iterates grows like `mu^m`
    have hx' : ∀ m : Nat, (Y * ((Yᵀ * Kd * Y) ^ m * z))ᵀ * (Kd * x) = mu ^ (m + 1) • (uᵀ * (Kd * x)) := by
      intro m
      have step : ∀ a : Matrix (Fin n) (Fin 1) ℝ, (Y * (Yᵀ * (Kd * a)))ᵀ * (Kd * x) = mu • (aᵀ * (Kd * x)) := by
        intro a
        rw [Matrix.transpose_mul, Matrix.transpose_mul, Matrix.transpose_mul, Matrix.transpose_transpose, psd_symm hK]
        simp only [Matrix.mul_assoc]
        rw [hx, Matrix.mul_smul, Matrix.mul_smul]
      induction m with
      | zero =>
        rw [pow_zero, Matrix.one_mul, hz, step, zero_add, pow_one]
      | succ m ih =>
        have e2 : Y * ((Yᵀ * Kd * Y) ^ (m + 1) * z) = Y * (Yᵀ * (Kd * (Y * ((Yᵀ * Kd * Y) ^ m * z)))) := by
          rw [pow_succ']
          simp only [Matrix.mul_assoc]
        rw [e2, step, ih, smul_smul, ← pow_succ']
    by_contra hlt
    push Not at hlt
    have h1 : Tendsto (fun m : Nat => (((l ^ m)⁻¹ • (Y * ((Yᵀ * Kd * Y) ^ m * z)))ᵀ * (Kd * x)) 0 0) atTop
        (𝓝 (((Y * e)ᵀ * (Kd * x)) 0 0)) := by
      have hcont : Continuous fun M : Matrix (Fin n) (Fin 1) ℝ => (Mᵀ * (Kd * x)) 0 0 :=
        ((continuous_id.matrix_transpose).matrix_mul continuous_const).matrix_elem 0 0
      exact (hcont.tendsto (Y * e)).comp ht'
    have hd : (uᵀ * (Kd * x)) 0 0 ≠ 0 := fun h0 => hne (by
      ext i j
      rw [Subsingleton.elim i 0, Subsingleton.elim j 0, h0]
      rfl)
    have h2 : ∀ m : Nat, (((l ^ m)⁻¹ • (Y * ((Yᵀ * Kd * Y) ^ m * z)))ᵀ * (Kd * x)) 0 0 =
        (mu / l) ^ m * (mu * (uᵀ * (Kd * x)) 0 0) := by
      intro m
      rw [Matrix.transpose_smul, Matrix.smul_mul, hx', smul_smul, Matrix.smul_apply, smul_eq_mul, div_pow, pow_succ]
      field_simp
    simp only [h2] at h1
    have hmu : 0 < mu := hl.trans hlt
    have h3 : Tendsto (fun m : Nat => (mu / l) ^ m) atTop (𝓝 (((Y * e)ᵀ * (Kd * x)) 0 0 / (mu * (uᵀ * (Kd * x)) 0 0))) := by
      have := h1.div_const (mu * (uᵀ * (Kd * x)) 0 0)
      refine this.congr fun m => ?_
      rw [mul_div_assoc, div_self (mul_ne_zero hmu.ne' hd), mul_one]
    exact not_tendsto_nhds_of_tendsto_atTop (tendsto_pow_atTop_atTop_of_one_lt ((one_lt_div hl).2 hlt)) _ h3

/-! ## The loop of the code -/

/-- The change `u` undergoes in the next pass. -/
noncomputable def kChange (Kd : Matrix (Fin n) (Fin n) ℝ) (Y : Matrix (Fin n) (Fin q) ℝ) (u : Matrix (Fin n) (Fin 1) ℝ) : ℝ :=
  Real.sqrt (sq1 (kPass Kd Y u - u))

theorem kLast_stable {tol : ℝ} {Kd : Matrix (Fin n) (Fin n) ℝ} {Y : Matrix (Fin n) (Fin q) ℝ} (m : Nat)
    (u : Matrix (Fin n) (Fin 1) ℝ) (h : kChange Kd Y ((kPass Kd Y)^[m] u) ≤ tol) :
    kChange Kd Y (kLast tol Kd Y m u) ≤ tol ∧ ∀ f, m ≤ f → kLast tol Kd Y f u = kLast tol Kd Y m u := by
  induction m generalizing u with
  | zero =>
    refine ⟨h, fun f _ => ?_⟩
    rw [kLast_zero]
    cases f with
    | zero => rfl
    | succ f =>
      rw [kLast_succ]
      exact if_neg (not_lt.2 h)
  | succ m ih =>
    rw [Function.iterate_succ_apply] at h
    obtain ⟨h1, h2⟩ := ih (kPass Kd Y u) h
    rw [kLast_succ]
    split_ifs with hc
    · refine ⟨h1, fun f hf => ?_⟩
      obtain ⟨f, rfl⟩ : ∃ g, f = g + 1 := ⟨f - 1, by omega⟩
      rw [kLast_succ, if_pos hc]
      exact h2 f (by omega)
    · refine ⟨not_lt.1 hc, fun f hf => ?_⟩
      obtain ⟨f, rfl⟩ : ∃ g, f = g + 1 := ⟨f - 1, by omega⟩
      rw [kLast_succ, if_neg hc]

/-- Some pass changes `u` by at most `tol`. -/
theorem kChange_small {tol : ℝ} (htol : 0 < tol) {Kd : Matrix (Fin n) (Fin n) ℝ} (hK : Psd Kd) (Y : Matrix (Fin n) (Fin q) ℝ)
    (u : Matrix (Fin n) (Fin 1) ℝ) (hu : Kd * (Y * (Yᵀ * (Kd * u))) ≠ 0) :
    ∃ m, kChange Kd Y ((kPass Kd Y)^[m] u) ≤ tol := by
  obtain ⟨l, e, -, -, -, ht, -⟩ := C123_limit hK Y u hu
  have h1 : Tendsto (fun m => (kPass Kd Y)^[m + 1] u) atTop (𝓝 e) := (tendsto_add_atTop_iff_nat 1).2 ht
  have h2 : Tendsto (fun m => kChange Kd Y ((kPass Kd Y)^[m] u)) atTop (𝓝 0) := by
    have h3 : Tendsto (fun m => sq1 ((kPass Kd Y)^[m + 1] u - (kPass Kd Y)^[m] u)) atTop (𝓝 0) := by
      have hcont : Continuous fun M : Matrix (Fin n) (Fin 1) ℝ => sq1 M := by
        unfold sq1
        exact continuous_finsetSum _ fun i _ => (continuous_id.matrix_elem i 0).mul (continuous_id.matrix_elem i 0)
      have := (hcont.tendsto (e - e)).comp (h1.sub ht)
      rw [sub_self, (sq1_eq_zero 0).2 rfl] at this
      exact this
    have h4 := h3.sqrt
    rw [Real.sqrt_zero] at h4
    refine h4.congr fun m => ?_
    rw [kChange, Function.iterate_succ_apply']
  obtain ⟨m, hm⟩ := (h2.eventually (gt_mem_nhds htol)).exists
  exact ⟨m, hm.le⟩

variable {σ : Type}

/-- **C123, loop.**  For a positive tolerance the loop ends because `u` changes by at most `tol`, once `max_iter` is large
enough: from some `N` on the result does not depend on `max_iter`, and it comes from a pass that changed `u` by at most `tol`. -/
theorem C123_loop {c : KplsCfg ℝ σ} {v : Nat → Matrix (Fin n) (Fin 1) ℝ} (hc : KplsReal c n v) (htol : 0 < c.tol)
    {Kd : Matrix (Fin n) (Fin n) ℝ} (hK : Psd Kd) (Y : Matrix (Fin n) (Fin q) ℝ) (u : Matrix (Fin n) (Fin 1) ℝ)
    (hu : Kd * (Y * (Yᵀ * (Kd * u))) ≠ 0) (t0 q0 : Mat ℝ) :
    ∃ (N : Int) (r : KplsInner ℝ) (w : Matrix (Fin n) (Fin 1) ℝ) (d : Mat ℝ),
      (∀ M, N ≤ M → kplsInner { c with maxIter := M } (of Kd) (of Y) 0 (c.tol * ((10 : Nat) : ℝ)) ⟨t0, q0, of u⟩ = .ok r) ∧
      kplsPass (of Kd) (of Y) (of w) = .ok r ∧ r.u.sub (of w) = .ok d ∧ d.norm2 ≤ c.tol := by
  obtain ⟨m, hm⟩ := kChange_small htol hK Y u hu
  obtain ⟨h1, h2⟩ := kLast_stable m u hm
  refine ⟨(m : Int) + 1, _, kLast c.tol Kd Y m u, _, fun M hM => ?_, kplsPass_eq _ _ _, sub_of _ _, ?_⟩
  · obtain ⟨f, rfl⟩ : ∃ f : Nat, M = f + 1 := ⟨(M - 1).toNat, by omega⟩
    have := kplsInner_eq (c := { c with maxIter := ((f : Int) + 1) }) (v := v) ⟨hc.lt, hc.start⟩ Kd Y f 0
      (c.tol * ((10 : Nat) : ℝ)) (by simp) (by push_cast; linarith) t0 q0 u
    rw [h2 f (by omega)] at this
    exact this
  · rw [norm2_col]
    exact h1

/-! ## All components -/

theorem psd_deflate {Kd : Matrix (Fin n) (Fin n) ℝ} (hK : Psd Kd) (t : Matrix (Fin n) (Fin 1) ℝ) :
    Psd ((1 - t * tᵀ) * Kd * (1 - t * tᵀ)) := by
  have hs : (1 - t * tᵀ)ᵀ = 1 - t * tᵀ := by
    rw [Matrix.transpose_sub, Matrix.transpose_mul, Matrix.transpose_transpose, Matrix.transpose_one]
  have := psd_congr hK (1 - t * tᵀ)
  rwa [hs] at this

theorem psd_cenK {G : Matrix (Fin n) (Fin n) ℝ} (hG : Psd G) : Psd (cenK G) := by
  have hs : (1 - avg n n)ᵀ = 1 - avg n n := by
    rw [Matrix.transpose_sub, Matrix.transpose_one]
    rfl
  have := psd_congr hG (1 - avg n n)
  rwa [hs] at this

theorem kS_psd {tol : ℝ} {f : Nat} {v : Nat → Matrix (Fin n) (Fin 1) ℝ} {K0 : Matrix (Fin n) (Fin n) ℝ} (hK : Psd K0)
    (Y0 : Matrix (Fin n) (Fin q) ℝ) (k : Nat) : Psd (kS tol f v K0 Y0 k).1 := by
  induction k with
  | zero => exact hK
  | succ k ih =>
    rw [kS_succ]
    exact psd_deflate ih _

/-- On no run, whatever `max_iter`, does the second pass of a component divide by zero.  `kS tol f v K0 Y0 k` are the kernel
and the response before component `k` if `max_iter` is `f + 1`. -/
def NoZeroPass (tol : ℝ) (K : Nat) (v : Nat → Matrix (Fin n) (Fin 1) ℝ) (K0 : Matrix (Fin n) (Fin n) ℝ)
    (Y0 : Matrix (Fin n) (Fin q) ℝ) : Prop :=
  ∀ f k, k < K → (kS tol f v K0 Y0 k).1 * ((kS tol f v K0 Y0 k).2 * ((kS tol f v K0 Y0 k).2ᵀ *
    ((kS tol f v K0 Y0 k).1 * v k))) ≠ 0

theorem kS_stable {tol : ℝ} (htol : 0 < tol) {v : Nat → Matrix (Fin n) (Fin 1) ℝ} {K0 : Matrix (Fin n) (Fin n) ℝ} (hK : Psd K0)
    (Y0 : Matrix (Fin n) (Fin q) ℝ) (h : NoZeroPass tol K v K0 Y0) :
    ∃ m, ∀ f, m ≤ f → (∀ k ≤ K, kS tol f v K0 Y0 k = kS tol m v K0 Y0 k) ∧ ∀ k < K, kT tol f v K0 Y0 k = kT tol m v K0 Y0 k := by
  induction K with
  | zero =>
    refine ⟨0, fun f _ => ⟨fun k hk => ?_, fun k hk => by omega⟩⟩
    obtain rfl : k = 0 := by omega
    rfl
  | succ K ih =>
    obtain ⟨m, hm⟩ := ih fun f k hk => h f k (by omega)
    obtain ⟨m', hm'⟩ := kChange_small htol (kS_psd hK Y0 K) _ _ (h m K (by omega))
    obtain ⟨-, hst⟩ := kLast_stable m' (v K) hm'
    have hS : ∀ f, m ≤ f → ∀ k ≤ K, kS tol f v K0 Y0 k = kS tol m v K0 Y0 k := fun f hf => (hm f hf).1
    have hT : ∀ f, max m m' ≤ f → kT tol f v K0 Y0 K =
        nrm ((kS tol m v K0 Y0 K).1 * kLast tol (kS tol m v K0 Y0 K).1 (kS tol m v K0 Y0 K).2 m' (v K)) := by
      intro f hf
      have e : kT tol f v K0 Y0 K = nrm ((kS tol f v K0 Y0 K).1 * kLast tol (kS tol f v K0 Y0 K).1 (kS tol f v K0 Y0 K).2 f (v K)) :=
        rfl
      rw [e, hS f (le_of_max_le_left hf) K le_rfl, hst f (le_of_max_le_right hf)]
    refine ⟨max m m', fun f hf => ⟨fun k hk => ?_, fun k hk => ?_⟩⟩
    · rcases Nat.lt_or_eq_of_le hk with hk | rfl
      · rw [hS f (le_of_max_le_left hf) k (by omega), hS _ (le_max_left _ _) k (by omega)]
      · have eQ : ∀ f, kQ tol f v K0 Y0 K = (kS tol f v K0 Y0 K).2ᵀ * kT tol f v K0 Y0 K := fun _ => rfl
        rw [kS_succ, kS_succ, eQ, eQ, hT f hf, hT _ le_rfl, hS f (le_of_max_le_left hf) K le_rfl, hS _ (le_max_left _ _) K le_rfl]
    · rcases Nat.lt_or_eq_of_le (Nat.le_of_lt_succ hk) with hk | rfl
      · rw [(hm f (le_of_max_le_left hf)).2 k hk, (hm _ (le_max_left _ _)).2 k hk]
      · rw [hT f hf, hT _ le_rfl]

/-- **C123, training.**  With a positive semidefinite kernel (C106) and a positive tolerance, a sufficiently large `max_iter`
does not matter: from some `N` on training returns the same model. -/
theorem C123_training {c : KplsCfg ℝ σ} {v : Nat → Matrix (Fin n) (Fin 1) ℝ} (hc : KplsReal c n v) (htol : 0 < c.tol)
    (hK : c.K = K) (hn : 0 < n) (hq : 0 < q) (kern : σ) (X : Matrix (Fin n) (Fin p) ℝ) (Y : Matrix (Fin n) (Fin q) ℝ)
    (G : Matrix (Fin n) (Fin n) ℝ) (hG : (c.kern1 kern (of (cen X X))).2 = .ok (of G)) (hpsd : Psd G)
    (h : NoZeroPass c.tol K v (cenK G) (cen Y Y)) :
    ∃ N : Int, ∀ M, N ≤ M →
      kplsTrain { c with maxIter := M } kern (of X) (of Y) = kplsTrain { c with maxIter := N } kern (of X) (of Y) := by
  obtain ⟨m, hm⟩ := kS_stable htol (psd_cenK hpsd) (cen Y Y) h
  refine ⟨(m : Int) + 1, fun M hM => ?_⟩
  obtain ⟨f, rfl⟩ : ∃ f : Nat, M = f + 1 := ⟨(M - 1).toNat, by omega⟩
  obtain ⟨hS, hT⟩ := hm f (by omega)
  rw [kplsTrain_eq (c := { c with maxIter := (f : Int) + 1 }) (v := v) (f := f) ⟨hc.lt, hc.start⟩ htol rfl hK hn hq kern X Y G hG,
    kplsTrain_eq (c := { c with maxIter := (m : Int) + 1 }) (v := v) (f := m) ⟨hc.lt, hc.start⟩ htol rfl hK hn hq kern X Y G hG]
  have hQ : ∀ k < K, kQ c.tol f v (cenK G) (cen Y Y) k = kQ c.tol m v (cenK G) (cen Y Y) k := fun k hk => by
    show (kS c.tol f v (cenK G) (cen Y Y) k).2ᵀ * kT c.tol f v (cenK G) (cen Y Y) k = _
    rw [hS k hk.le, hT k hk]
    rfl
  have hU : ∀ k < K, kUs c.tol f v (cenK G) (cen Y Y) k = kUs c.tol m v (cenK G) (cen Y Y) k := fun k hk => by
    show kU (kS c.tol f v (cenK G) (cen Y Y) k).2 (kT c.tol f v (cenK G) (cen Y Y) k) = _
    rw [hS k hk.le, hT k hk]
    rfl
  have hP : ∀ k < K, kP c.tol f v (cenK G) (cen Y Y) k = kP c.tol m v (cenK G) (cen Y Y) k := fun k hk => by
    unfold kP
    rw [hS (k + 1) hk, hT k hk]
  have cols : ∀ {r : Nat} {g g' : Nat → Matrix (Fin r) (Fin 1) ℝ}, (∀ k < K, g k = g' k) → colsM (K := K) g = colsM g' :=
    fun hg => by
      ext i j
      exact congrFun (congrFun (hg j.1 j.2) i) 0
  have upTo : ∀ {r : Nat} {g g' : Nat → Matrix (Fin r) (Fin 1) ℝ}, (∀ k < K, g k = g' k) →
      (colsUpTo g K : Matrix (Fin r) (Fin K) ℝ) = colsUpTo g' K := fun hg => by
    rw [colsUpTo_all, colsUpTo_all]
    exact cols hg
  have hv : kVars c.tol f v (cenK G) (cen Y Y) K K = kVars c.tol m v (cenK G) (cen Y Y) K K := by
    unfold kVars
    rw [hS K le_rfl, upTo hT, upTo hU, upTo hP, upTo hQ]
    by_cases h0 : K = 0
    · simp only [h0, if_true]
    · rw [if_neg h0, if_neg h0, if_neg h0, if_neg h0, hT (K - 1) (by omega), hQ (K - 1) (by omega)]
  rw [cols hT, cols hU, cols hQ, hv]

/-! ## Concrete cases -/

/-- A kernel matrix and two responses for which the power method needs more than one pass. -/
example : ∃ (Kd Y : Matrix (Fin 2) (Fin 2) ℝ) (u : Matrix (Fin 2) (Fin 1) ℝ), Psd Kd ∧ Kd * (Y * (Yᵀ * (Kd * u))) ≠ 0 ∧
    kPass Kd Y u ≠ u := by
  refine ⟨!![2, 0; 0, 1], 1, !![1; 1], ⟨fun i j => ?_, fun c => ?_⟩, fun h => ?_, fun h => ?_⟩
  · fin_cases i <;> fin_cases j <;> rfl
  · simp only [Fin.sum_univ_two]
    simp
    nlinarith [mul_self_nonneg (c 0), mul_self_nonneg (c 1)]
  · have := congrFun (congrFun h 0) 0
    simp [Matrix.mul_apply, Fin.sum_univ_two] at this
  · have h1 := congrArg sq1 h
    rw [kPass_eq, sq1_nrm _ fun h => ?_] at h1
    · simp [sq1, Fin.sum_univ_two] at h1
    · have := congrFun (congrFun h 0) 0
      simp [Matrix.mul_apply, Fin.sum_univ_two] at this

/-- The kernel matrix of `dxA`. -/
def kcG : Matrix (Fin 3) (Fin 3) ℝ := !![2, -3, 1; -3, 5, -2; 1, -2, 1]

theorem kcG_eq : dxA * dxAᵀ = kcG := by
  ext i j
  rw [Matrix.mul_apply, Fin.sum_univ_two, Matrix.transpose_apply, Matrix.transpose_apply]
  fin_cases i <;> fin_cases j <;> (simp [dxA, kcG]; try norm_num)

theorem kc_cenK : cenK kcG = kcG := by
  ext i j
  fin_cases i <;> fin_cases j <;>
    (simp [cenK, avg, kcG, Matrix.mul_apply, Matrix.sub_apply, Fin.sum_univ_three, Matrix.one_apply]; try norm_num)

/-- One component of KernelPLS with the linear kernel for two responses. -/
example (lstsq : Mat ℝ → Except PyErr (Mat ℝ)) :
    ∃ N : Int, ∀ M, N ≤ M → kplsTrain { klCfg M lstsq with K := 1 } () (of dxA) (of dxA) =
      kplsTrain { klCfg N lstsq with K := 1 } () (of dxA) (of dxA) := by
  refine C123_training (c := { klCfg 10 lstsq with K := 1 }) (v := klV) (K := 1) ⟨fun _ _ => rfl, fun _ => rfl⟩
    (by norm_num [klCfg]) rfl (by decide) (by decide) () dxA dxA kcG ?_ (kcG_eq ▸ psd_gram dxA) ?_
  · rw [kl_cenX, ← kcG_eq]
    show (of dxA).mul (of dxA).transpose = _
    rw [transpose_of, mul_of]
  · intro f k hk
    obtain rfl : k = 0 := by omega
    intro h
    have h1 : cenK kcG * (cen dxA dxA * ((cen dxA dxA)ᵀ * (cenK kcG * klV 0))) = 0 := h
    rw [kc_cenK, kl_cenX, ← Matrix.mul_assoc dxA dxAᵀ, kcG_eq] at h1
    have h2 := congrFun (congrFun h1 0) 0
    simp only [Matrix.mul_apply, Fin.sum_univ_three] at h2
    simp [kcG, klV] at h2
    norm_num at h2

end Verif.Props
