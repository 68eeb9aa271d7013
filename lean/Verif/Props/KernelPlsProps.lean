import Verif.Alg.KernelPLS
import Verif.Props.KernelProps
import Verif.Props.PLS1Props

/-!
# C58, C75, C76, C77: KernelPLS
-/

namespace Verif.Props

open Verif Mat Transf
open scoped Matrix

variable {σ : Type} {n p q K : Nat}

/-! ## C58: the centred kernel -/

theorem cenK_rows (hn : 0 < n) (G : Matrix (Fin n) (Fin n) ℝ) (i : Fin n) : ∑ j, cenK G i j = 0 := by
  have h : cenK G * avg n n = 0 := by rw [cenK, Matrix.mul_assoc, centred_avg hn, Matrix.mul_zero]
  have := congrFun (congrFun h i) i
  have hn' : (n : ℝ) ≠ 0 := by positivity
  rw [Matrix.mul_apply] at this
  simp only [avg, Matrix.of_apply, ← Finset.sum_mul, Matrix.zero_apply] at this
  exact (mul_eq_zero.mp this).resolve_right (by positivity)

theorem cenK_cols (hn : 0 < n) (G : Matrix (Fin n) (Fin n) ℝ) (j : Fin n) : ∑ i, cenK G i j = 0 := by
  have h : avg n n * cenK G = 0 := by
    rw [cenK, ← Matrix.mul_assoc, ← Matrix.mul_assoc, avg_centred hn, Matrix.zero_mul, Matrix.zero_mul]
  have := congrFun (congrFun h j) j
  rw [Matrix.mul_apply] at this
  simp only [avg, Matrix.of_apply, ← Finset.mul_sum, Matrix.zero_apply] at this
  exact (mul_eq_zero.mp this).resolve_left (by positivity)

theorem cenK_symm {G : Matrix (Fin n) (Fin n) ℝ} (h : Gᵀ = G) : (cenK G)ᵀ = cenK G := by
  rw [cenK, Matrix.transpose_mul, Matrix.transpose_mul, h, Matrix.transpose_sub, Matrix.transpose_one, avg_transpose,
    Matrix.mul_assoc]

/-- **C58.** Whatever the kernel, the options and the data: the centred training kernel of a trained model has zero row
and column sums, and it is symmetric when the kernel matrix is. -/
theorem C58_centred {c : KplsCfg ℝ σ} (kern : σ) (hn : 0 < n) (X : Matrix (Fin n) (Fin p) ℝ)
    (Y : Matrix (Fin n) (Fin q) ℝ) (G : Matrix (Fin n) (Fin n) ℝ)
    (hG : (c.kern1 kern (of (cen X X))).2 = .ok (of G)) (m : KplsModel ℝ σ)
    (h : kplsTrain c kern (of X) (of Y) = .ok m) :
    ∃ A : Matrix (Fin n) (Fin n) ℝ, m.Korig = of A ∧ (∀ i, ∑ j, A i j = 0) ∧ (∀ j, ∑ i, A i j = 0) ∧
      (Gᵀ = G → Aᵀ = A) := by
  rw [kplsTrain_eq' kern X Y G hG] at h
  refine ⟨cenK G, ?_, cenK_rows hn G, cenK_cols hn G, cenK_symm⟩
  cases h1 : kplsInit c (of (cenK G)) (of (cen Y Y)) n with
  | error e => rw [h1] at h; cases h
  | ok s =>
    rw [h1, except_bind_ok] at h
    cases h2 : loopM (kplsStep c) (pyRange 0 c.K) s with
    | error e => rw [h2] at h; cases h
    | ok s2 =>
      rw [h2, except_bind_ok] at h
      cases h3 : kplsRhs c s2.T (of (cenK G)) s2.U s2.Q with
      | error e => rw [h3] at h; cases h
      | ok B =>
        rw [h3, except_bind_ok] at h
        rw [← Except.ok.inj h]

/-- **C58.** The kernels of the library yield symmetric kernel matrices, for all data. -/
theorem C58_library_kernels (hn : 0 < n) (A : Matrix (Fin n) (Fin p) ℝ) :
    (∃ G : Matrix (Fin n) (Fin n) ℝ, Gᵀ = G ∧ linearMatrix (of A) none = .ok (of G)) ∧
      (∀ s, ∃ G : Matrix (Fin n) (Fin n) ℝ, Gᵀ = G ∧ (applyMatrix1 rbfVector s (of A)).2 = .ok (of G)) ∧
      ∀ s, ∃ G : Matrix (Fin n) (Fin n) ℝ, Gᵀ = G ∧ (polyMatrix s (of A) none).2 = .ok (of G) := by
  refine ⟨⟨A * Aᵀ, by rw [Matrix.transpose_mul, Matrix.transpose_transpose], ?_⟩, 
    fun s => ⟨Matrix.of fun i j => rbf (s.getD (1 / (p : ℝ))) (A i) (A j), ?_, ?_⟩, fun s =>
    ⟨Matrix.of fun i j => (s.gamma.getD (1 / (p : ℝ)) * (A * Aᵀ) i j + s.coef0) ^ s.degree, ?_, ?_⟩⟩
  · show (of A).mul (of A).transpose = _
    rw [transpose_of, mul_of]
  · ext i j
    exact C40_symmetric _ _ _
  · rw [(C39_rbf hn s A A).2.1]
  · ext i j
    have : (A * Aᵀ) j i = (A * Aᵀ) i j := by
      rw [← Matrix.transpose_apply (A * Aᵀ) i j, Matrix.transpose_mul, Matrix.transpose_transpose]
    simp only [Matrix.transpose_apply, Matrix.of_apply, this]
  · rw [polyMatrix_value, Option.getD_none, transpose_of, mul_of]
    rfl

/-! ## C58: scores -/

/-- What training stores. -/
theorem trained {c : KplsCfg ℝ σ} {v : Nat → Matrix (Fin n) (Fin 1) ℝ} {f : Nat} (hc : KplsReal c n v)
    (htol : 0 < c.tol) (hf : c.maxIter = f + 1) (hK : c.K = K) (hn : 0 < n) (hq : 0 < q) (kern : σ)
    {X : Matrix (Fin n) (Fin p) ℝ} {Y : Matrix (Fin n) (Fin q) ℝ}
    {G : Matrix (Fin n) (Fin n) ℝ} (hG : (c.kern1 kern (of (cen X X))).2 = .ok (of G)) {m : KplsModel ℝ σ}
    (h : kplsTrain c kern (of X) (of Y) = .ok m) :
    m = ⟨(c.kern1 kern (of (cen X X))).1, cenState X, cenState Y, of (cen X X), of (cenK G),
        kVars c.tol f v (cenK G) (cen Y Y) K K, m.B⟩ ∧
      (do
        let i ← c.inv (of ((colsM (K := K) (kT c.tol f v (cenK G) (cen Y Y)))ᵀ * cenK G *
          colsM (K := K) (kUs c.tol f v (cenK G) (cen Y Y))))
        i.mul (of (colsM (K := K) (kQ c.tol f v (cenK G) (cen Y Y)))ᵀ)) = .ok m.B := by
  rw [kplsTrain_eq hc htol hf hK hn hq kern X Y G hG] at h
  cases h1 : c.inv (of ((colsM (K := K) (kT c.tol f v (cenK G) (cen Y Y)))ᵀ * cenK G *
          colsM (K := K) (kUs c.tol f v (cenK G) (cen Y Y)))) with
  | error e => rw [h1] at h; cases h
  | ok i =>
    rw [h1, except_bind_ok] at h
    cases h2 : i.mul (of (colsM (K := K) (kQ c.tol f v (cenK G) (cen Y Y)))ᵀ) with
    | error e => rw [h2] at h; cases h
    | ok B =>
      rw [h2, except_bind_ok] at h
      have := Except.ok.inj h
      refine ⟨by rw [← this], ?_⟩
      rw [except_bind_ok, h2, ← this]

/-- **C58.** The scores of a trained model are orthonormal and the loadings on the response are the projections of the
centred response on them, for every kernel, all start vectors, tolerances, iteration limits and data, as long as no
score vanishes (the code would have divided by zero). -/
theorem C58_scores {c : KplsCfg ℝ σ} {v : Nat → Matrix (Fin n) (Fin 1) ℝ} (hc : KplsReal c n v)
    (htol : 0 < c.tol) (hmax : 1 ≤ c.maxIter) (hK : c.K = K) (hn : 0 < n) (hq : 0 < q) (kern : σ)
    (X : Matrix (Fin n) (Fin p) ℝ) (Y : Matrix (Fin n) (Fin q) ℝ)
    (G : Matrix (Fin n) (Fin n) ℝ) (hG : (c.kern1 kern (of (cen X X))).2 = .ok (of G)) (m : KplsModel ℝ σ)
    (h : kplsTrain c kern (of X) (of Y) = .ok m) :
    ∃ (T : Matrix (Fin n) (Fin K) ℝ) (Q : Matrix (Fin q) (Fin K) ℝ), m.vars.T = of T ∧ m.vars.Q = of Q ∧
      ((∀ k, ∃ i, T i k ≠ 0) → Tᵀ * T = 1 ∧ Q = (cen Y Y)ᵀ * T) := by
  obtain ⟨f, hf⟩ : ∃ f : Nat, c.maxIter = f + 1 := ⟨(c.maxIter - 1).toNat, by omega⟩
  obtain ⟨hm, -⟩ := trained hc htol hf hK hn hq kern hG h
  refine ⟨colsM (kT c.tol f v (cenK G) (cen Y Y)), colsM (kQ c.tol f v (cenK G) (cen Y Y)), ?_, ?_, fun hT => ?_⟩
  · rw [hm, kVars_T]
  · rw [hm, kVars_Q]
  · have hu : ∀ k < K, sq1 (kT c.tol f v (cenK G) (cen Y Y) k) = 1 := by
      intro k hk
      obtain ⟨i, hi⟩ := hT ⟨k, hk⟩
      exact kT_unit fun e => hi (congrFun (congrFun e i) 0)
    constructor
    · ext j k
      rw [Matrix.mul_apply, Matrix.one_apply]
      show ∑ i, kT c.tol f v (cenK G) (cen Y Y) j i 0 * kT c.tol f v (cenK G) (cen Y Y) k i 0 = _
      by_cases hjk : j = k
      · subst hjk
        rw [if_pos rfl]
        exact hu j.1 j.2
      · rw [if_neg hjk]
        rcases Nat.lt_or_gt_of_ne fun e => hjk (Fin.ext e) with hlt | hgt
        · have := congrFun (congrFun (kT_orth (hu j.1 j.2) hlt) 0) 0
          rw [Matrix.mul_apply] at this
          exact this
        · have := congrFun (congrFun (kT_orth (hu k.1 k.2) hgt) 0) 0
          rw [Matrix.mul_apply] at this
          refine Eq.trans ?_ this
          exact Finset.sum_congr rfl fun i _ => mul_comm _ _
    · ext i k
      have := congrFun (congrFun (kQ_eq (k := k.1) fun j hj => hu j (by have := k.2; omega)) i) 0
      refine this.trans ?_
      rw [Matrix.mul_apply, Matrix.mul_apply]
      rfl

/-- **C76, violated.** The loadings `P` of the kernel exposed by `get_matrix('P')` are zero for all data: they are
computed from the kernel after the score has been removed from it. -/
theorem C76_loadings_violation {c : KplsCfg ℝ σ} {v : Nat → Matrix (Fin n) (Fin 1) ℝ} (hc : KplsReal c n v)
    (htol : 0 < c.tol) (hmax : 1 ≤ c.maxIter) (hK : c.K = K) (hn : 0 < n) (hq : 0 < q) (kern : σ)
    (X : Matrix (Fin n) (Fin p) ℝ) (Y : Matrix (Fin n) (Fin q) ℝ)
    (G : Matrix (Fin n) (Fin n) ℝ) (hG : (c.kern1 kern (of (cen X X))).2 = .ok (of G)) (m : KplsModel ℝ σ)
    (h : kplsTrain c kern (of X) (of Y) = .ok m) :
    ∃ T : Matrix (Fin n) (Fin K) ℝ, m.vars.T = of T ∧
      ((∀ k, ∃ i, T i k ≠ 0) → m.vars.P = of (0 : Matrix (Fin n) (Fin K) ℝ)) := by
  obtain ⟨f, hf⟩ : ∃ f : Nat, c.maxIter = f + 1 := ⟨(c.maxIter - 1).toNat, by omega⟩
  obtain ⟨hm, -⟩ := trained hc htol hf hK hn hq kern hG h
  refine ⟨colsM (kT c.tol f v (cenK G) (cen Y Y)), by rw [hm, kVars_T], fun hT => ?_⟩
  rw [hm, kVars_P]
  refine congrArg of ?_
  ext i k
  obtain ⟨i', hi⟩ := hT k
  have hu : kT c.tol f v (cenK G) (cen Y Y) k.1 ≠ 0 := fun e => hi (congrFun (congrFun e i') 0)
  exact congrFun (congrFun (kP_zero (kT_unit hu)) i) 0

/-! ## C75: predictions for the training data -/

/-- **C75.** New data `Z` are mapped to `K_Z (I - 1 1^T / n) U` with `K_Z` the raw kernel between `Z` and the training
data: the term meant to centre the columns vanishes, because it uses the training kernel already centred. -/
theorem C75_transform {r : Nat} {c : KplsCfg ℝ σ} {v : Nat → Matrix (Fin n) (Fin 1) ℝ} (hc : KplsReal c n v)
    (htol : 0 < c.tol) (hmax : 1 ≤ c.maxIter) (hK : c.K = K) (hn : 0 < n) (hq : 0 < q) (kern : σ)
    (X : Matrix (Fin n) (Fin p) ℝ) (Y : Matrix (Fin n) (Fin q) ℝ)
    (G : Matrix (Fin n) (Fin n) ℝ) (hG : (c.kern1 kern (of (cen X X))).2 = .ok (of G)) (m : KplsModel ℝ σ)
    (h : kplsTrain c kern (of X) (of Y) = .ok m) (Z : Matrix (Fin r) (Fin p) ℝ) (H : Matrix (Fin r) (Fin n) ℝ)
    (hH : (c.kern2 m.kern (of (cen X Z)) (of (cen X X))).2 = .ok (of H)) :
    ∃ U : Matrix (Fin n) (Fin K) ℝ, m.vars.U = of U ∧
      kplsTransform c m (of Z) = .ok (of ((Matrix.of fun i j => H i j - (∑ k, H i k) / (n : ℝ)) * U)) := by
  obtain ⟨f, hf⟩ : ∃ f : Nat, c.maxIter = f + 1 := ⟨(c.maxIter - 1).toNat, by omega⟩
  obtain ⟨hm, -⟩ := trained hc htol hf hK hn hq kern hG h
  refine ⟨colsM (kUs c.tol f v (cenK G) (cen Y Y)), by rw [hm, kVars_U], ?_⟩
  unfold kplsTransform
  rw [hm] at hH ⊢
  simp only [kVars_U, cen_do, except_bind_ok] at hH ⊢
  rw [hH]
  simp only [except_bind_ok, kplsCentreTest_eq, mul_of]
  refine congrArg (fun A => Except.ok (of (A * _))) ?_
  have h0 : avg r n * cenK G = 0 := by
    rw [cenK, ← Matrix.mul_assoc, ← Matrix.mul_assoc, avg_centred hn, Matrix.zero_mul, Matrix.zero_mul]
  rw [h0, sub_zero, Matrix.mul_sub, Matrix.mul_one]
  ext i j
  rw [Matrix.sub_apply, Matrix.mul_apply, Matrix.of_apply]
  simp only [avg, Matrix.of_apply, mul_one_div, Finset.sum_div]

theorem typedB {c : KplsCfg ℝ σ} {lstsq : Mat ℝ → Except PyErr (Mat ℝ)} (hinv : c.inv = inverse lstsq)
    {A : Matrix (Fin K) (Fin K) ℝ} {Q : Matrix (Fin K) (Fin q) ℝ} {R : Mat ℝ}
    (h : (do let i ← c.inv (of A); i.mul (of Q)) = .ok R) : ∃ B : Matrix (Fin K) (Fin q) ℝ, R = of B := by
  rw [hinv] at h
  by_cases hd : A.det = 0
  · rw [inverse_singular lstsq A hd] at h
    cases h
  · rw [inverse_of lstsq A hd, except_bind_ok, mul_of] at h
    exact ⟨_, (Except.ok.inj h).symm⟩

/-- **C75.** With the linear kernel the training data are mapped to `K U` with the centred training kernel `K`, and
the predictions for them are the fitted values `K U B` plus the mean.  Missing for C75: other kernels, where it is
false (`C75_violation`). -/
theorem C75_linear_partial {c : KplsCfg ℝ Unit} {v : Nat → Matrix (Fin n) (Fin 1) ℝ} (hc : KplsReal c n v)
    (hl1 : ∀ A, c.kern1 () A = ((), linearMatrix A none)) (hl2 : ∀ A B, c.kern2 () A B = ((), linearMatrix A (some B)))
    (htol : 0 < c.tol) (hmax : 1 ≤ c.maxIter) (hK : c.K = K) (hn : 0 < n) (hq : 0 < q)
    (X : Matrix (Fin n) (Fin p) ℝ) (Y : Matrix (Fin n) (Fin q) ℝ) (m : KplsModel ℝ Unit)
    (lstsq : Mat ℝ → Except PyErr (Mat ℝ)) (hinv : c.inv = inverse lstsq) (h : kplsTrain c () (of X) (of Y) = .ok m) :
    ∃ (A : Matrix (Fin n) (Fin n) ℝ) (U : Matrix (Fin n) (Fin K) ℝ) (B : Matrix (Fin K) (Fin q) ℝ),
      m.Korig = of A ∧ m.vars.U = of U ∧ m.B = of B ∧ kplsTransform c m (of X) = .ok (of (A * U)) ∧
      kplsPredict c m (of X) = .ok (of (Matrix.of fun i j => (A * U * B) i j + mu fun k => Y k j)) := by
  have hprod : ∀ A B : Matrix (Fin n) (Fin p) ℝ, linearMatrix (of A) (some (of B)) = .ok (of (A * Bᵀ)) := by
    intro A B
    show (of A).mul (of B).transpose = _
    rw [transpose_of, mul_of]
  have hG : (c.kern1 () (of (cen X X))).2 = .ok (of (cen X X * (cen X X)ᵀ)) := by
    rw [hl1]
    exact hprod _ _
  obtain ⟨f, hf⟩ : ∃ f : Nat, c.maxIter = f + 1 := ⟨(c.maxIter - 1).toNat, by omega⟩
  obtain ⟨hm, hB⟩ := trained hc htol hf hK hn hq () hG h
  obtain ⟨B, hB⟩ := typedB hinv hB
  obtain ⟨U, hU, ht⟩ := C75_transform hc htol hmax hK hn hq () X Y _ hG m h X (cen X X * (cen X X)ᵀ) (by
    rw [hl2]
    exact hprod _ _)
  have hav : avg n n * cen X X = 0 := by
    ext i j
    rw [Matrix.mul_apply]
    have hn' : (n : ℝ) ≠ 0 := by positivity
    simp only [avg, Matrix.of_apply, ← Finset.mul_sum, cen, Matrix.zero_apply, Finset.sum_sub_distrib, mu,
      Finset.sum_const, Finset.card_univ, Fintype.card_fin, nsmul_eq_mul]
    field_simp
    ring
  have hcen : (Matrix.of fun i j => (cen X X * (cen X X)ᵀ) i j - (∑ k, (cen X X * (cen X X)ᵀ) i k) / (n : ℝ)) =
      cenK (cen X X * (cen X X)ᵀ) := by
    have e : cenK (cen X X * (cen X X)ᵀ) = cen X X * (cen X X)ᵀ * (1 - avg n n) := by
      rw [cenK, ← Matrix.mul_assoc, Matrix.sub_mul, hav, Matrix.one_mul, sub_zero]
    rw [e, Matrix.mul_sub, Matrix.mul_one]
    ext i j
    rw [Matrix.sub_apply, Matrix.mul_apply (N := avg n n), Matrix.of_apply]
    simp only [avg, Matrix.of_apply, mul_one_div, Finset.sum_div]
  rw [hcen] at ht
  refine ⟨cenK (cen X X * (cen X X)ᵀ), U, B, by rw [hm], hU, hB, ht, ?_⟩
  unfold kplsPredict
  rw [ht, hB, except_bind_ok, mul_of, except_bind_ok, hm]
  exact cen_undo _ _

/-! ### A polynomial kernel -/

/-- KernelPLS with one component and a polynomial kernel; start vectors, tolerance and iteration limit are free. -/
noncomputable def pkCfg (tol : ℝ) (maxIter : Int) (v : Nat → Matrix (Fin 3) (Fin 1) ℝ)
    (lstsq : Mat ℝ → Except PyErr (Mat ℝ)) : KplsCfg ℝ (PolyState ℝ) where
  K := 1
  tol := tol
  maxIter := maxIter
  kern1 s X := polyMatrix s X none
  kern2 s X Y := polyMatrix s X (some Y)
  start _ k := .ok (of (v k.toNat))
  lt a b := decide (a < b)
  inv := inverse lstsq

def pkX : Matrix (Fin 3) (Fin 1) ℝ := !![-1; 0; 1]
def pkY : Matrix (Fin 3) (Fin 1) ℝ := !![1; -2; 1]
def pkG : Matrix (Fin 3) (Fin 3) ℝ := !![1, 0, 1; 0, 0, 0; 1, 0, 1]

theorem pk_real (tol : ℝ) (maxIter : Int) (v : Nat → Matrix (Fin 3) (Fin 1) ℝ)
    (lstsq : Mat ℝ → Except PyErr (Mat ℝ)) : KplsReal (pkCfg tol maxIter v lstsq) 3 v :=
  ⟨fun _ _ => rfl, fun _ => rfl⟩

theorem pk_cenX : cen pkX pkX = pkX := by
  ext i j
  rw [Subsingleton.elim j 0]
  simp [cen, mu, Fin.sum_univ_three, pkX]

theorem pk_cenY : cen pkY pkY = pkY := by
  ext i j
  rw [Subsingleton.elim j 0]
  simp [cen, mu, Fin.sum_univ_three, pkY]
  norm_num

theorem pk_kernel (g : Option ℝ) (hg : g.getD 1 = 1) (Y : Option (Mat ℝ)) (hY : Y.getD (of pkX) = of pkX) :
    (polyMatrix ⟨2, 0, g⟩ (of pkX) Y).2 = .ok (of pkG) := by
  rw [polyMatrix_value, hY, transpose_of, mul_of]
  show Except.ok _ = Except.ok _
  rw [ok_inj]
  refine mk_congr fun i j => ?_
  have : g.getD (1 / ((1 : Nat) : ℝ)) = 1 := by rw [Nat.cast_one, div_one, hg]
  show (g.getD (1 / ((1 : Nat) : ℝ)) * (pkX * pkXᵀ) i j + 0) ^ 2 = pkG i j
  rw [this, Matrix.mul_apply, Fin.sum_univ_one, Matrix.transpose_apply]
  fin_cases i <;> fin_cases j <;> simp [pkX, pkG]

theorem pk_cenK : cenK pkG = (1 / 9 : ℝ) • (pkY * pkYᵀ) := by
  have h1 : pkG * (1 - avg 3 3) = !![1 / 3, -(2 / 3), 1 / 3; 0, 0, 0; 1 / 3, -(2 / 3), 1 / 3] := by
    ext i j
    rw [Matrix.mul_apply, Fin.sum_univ_three]
    simp only [Matrix.sub_apply, avg, Matrix.of_apply, Matrix.one_apply]
    fin_cases i <;> fin_cases j <;> (simp [pkG]; try norm_num)
  rw [cenK, Matrix.mul_assoc, h1]
  ext i j
  rw [Matrix.mul_apply, Fin.sum_univ_three, Matrix.smul_apply, Matrix.mul_apply, Fin.sum_univ_one,
    Matrix.transpose_apply]
  simp only [Matrix.sub_apply, avg, Matrix.of_apply, Matrix.one_apply]
  fin_cases i <;> fin_cases j <;> (simp [pkY]; try norm_num)

theorem pkY_sq : sq1 pkY = 6 := by
  simp [sq1, Fin.sum_univ_three, pkY]
  norm_num

/-- Multiplying a rank one matrix. -/
theorem pk_mul (u : Matrix (Fin 3) (Fin 1) ℝ) : cenK pkG * u = ((1 / 9) * (pkYᵀ * u) 0 0) • pkY := by
  rw [pk_cenK, Matrix.smul_mul, Matrix.mul_assoc, mul_one_one, smul_smul]

theorem nrm_smul_sign {m : Nat} (v : Matrix (Fin m) (Fin 1) ℝ) {a : ℝ} (ha : a ≠ 0) :
    ∃ s : ℝ, s * s = 1 ∧ nrm (a • v) = s • nrm v := by
  refine ⟨a / |a|, ?_, ?_⟩
  · have : |a| ≠ 0 := abs_ne_zero.mpr ha
    field_simp
    exact (sq_abs a).symm
  · rw [nrm, nrm, sq1_smul, Real.sqrt_mul (mul_self_nonneg a), Real.sqrt_mul_self_eq_abs, smul_smul, smul_smul]
    congr 1
    rw [mul_inv]
    ring

theorem pk_dot (s : ℝ) : (pkYᵀ * ((s / Real.sqrt 6) • pkY)) 0 0 = s * Real.sqrt 6 := by
  have h66 : Real.sqrt 6 * Real.sqrt 6 = 6 := Real.mul_self_sqrt (by norm_num)
  have h6 : Real.sqrt 6 ≠ 0 := (Real.sqrt_pos.2 (by norm_num)).ne'
  rw [Matrix.mul_smul, col_gram, pkY_sq, smul_smul, Matrix.smul_apply, Matrix.one_apply_eq, smul_eq_mul, mul_one]
  field_simp
  linear_combination (-s) * h66

/-- The single score, up to sign. -/
theorem pk_score (tol : ℝ) (f : Nat) (v : Nat → Matrix (Fin 3) (Fin 1) ℝ) (hv : (pkYᵀ * v 0) 0 0 ≠ 0) :
    ∃ s : ℝ, s * s = 1 ∧ kT tol f v (cenK pkG) pkY 0 = (s / Real.sqrt 6) • pkY ∧
      kQ tol f v (cenK pkG) pkY 0 = (s * Real.sqrt 6) • (1 : Matrix (Fin 1) (Fin 1) ℝ) ∧
      ∃ s' : ℝ, s' = s ∧ kUs tol f v (cenK pkG) pkY 0 = (s' / Real.sqrt 6) • pkY := by
  have h6 : Real.sqrt 6 ≠ 0 := (Real.sqrt_pos.2 (by norm_num)).ne'
  have h66 : Real.sqrt 6 * Real.sqrt 6 = 6 := Real.mul_self_sqrt (by norm_num)
  have hn : nrm pkY = (1 / Real.sqrt 6) • pkY := by rw [nrm, pkY_sq, one_div]
  have hg : (pkYᵀ * pkY) = (6 : ℝ) • (1 : Matrix (Fin 1) (Fin 1) ℝ) := by rw [col_gram, pkY_sq]
  have ht : ∀ u : Matrix (Fin 3) (Fin 1) ℝ, (pkYᵀ * u) 0 0 ≠ 0 →
      ∃ s : ℝ, s * s = 1 ∧ nrm (cenK pkG * u) = (s / Real.sqrt 6) • pkY := by
    intro u hu
    obtain ⟨s, hs, e⟩ := nrm_smul_sign pkY (a := (1 / 9) * (pkYᵀ * u) 0 0) (mul_ne_zero (by norm_num) hu)
    refine ⟨s, hs, ?_⟩
    rw [pk_mul, e, hn, smul_smul]
    congr 1
    ring
  have hq : ∀ s : ℝ, pkYᵀ * ((s / Real.sqrt 6) • pkY) = (s * Real.sqrt 6) • (1 : Matrix (Fin 1) (Fin 1) ℝ) := by
    intro s
    rw [Matrix.mul_smul, hg, smul_smul]
    congr 1
    field_simp
    linear_combination (-s) * h66
  have hu : ∀ s : ℝ, s * s = 1 → kU pkY ((s / Real.sqrt 6) • pkY) = (s / Real.sqrt 6) • pkY := by
    intro s hs
    rw [kU, hq, Matrix.mul_smul, Matrix.mul_one, nrm, sq1_smul, pkY_sq, smul_smul]
    congr 1
    rw [show s * Real.sqrt 6 * (s * Real.sqrt 6) * 6 = 6 * 6 by nlinarith [h66, hs],
      Real.sqrt_mul_self (by norm_num)]
    rw [eq_div_iff h6]
    linear_combination (s / 6) * h66
  have hinv : ∀ u : Matrix (Fin 3) (Fin 1) ℝ, (pkYᵀ * u) 0 0 ≠ 0 →
      (pkYᵀ * kU pkY (nrm (cenK pkG * u))) 0 0 ≠ 0 := by
    intro u hu0
    obtain ⟨s, hs, e⟩ := ht u hu0
    rw [e, hu s hs, hq]
    have : s ≠ 0 := by rintro rfl; simp at hs
    simp [this]
  obtain ⟨s, hs, e⟩ := ht _ (kLast_inv tol (cenK pkG) pkY (fun u => (pkYᵀ * u) 0 0 ≠ 0) hinv f (v 0) hv)
  have eT : kT tol f v (cenK pkG) pkY 0 = (s / Real.sqrt 6) • pkY := e
  refine ⟨s, hs, eT, ?_, s, rfl, ?_⟩
  · show pkYᵀ * kT tol f v (cenK pkG) pkY 0 = _
    rw [eT, hq]
  · show kU pkY (kT tol f v (cenK pkG) pkY 0) = _
    rw [eT, hu s hs]

/-- **C75, violated.** KernelPLS with one component and a polynomial kernel of degree two, trained on the predictors
`-1, 0, 1` and the response `1, -2, 1`: the fitted values `K U B` are exactly the response, but the predictions for
the training data are `3, 0, 3`.  This holds for all tolerances, all iteration limits and all start vectors that are
not orthogonal to the response. -/
theorem C75_violation (tol : ℝ) (htol : 0 < tol) (maxIter : Int) (hmax : 1 ≤ maxIter)
    (v : Nat → Matrix (Fin 3) (Fin 1) ℝ) (hv : v 0 0 0 - 2 * v 0 1 0 + v 0 2 0 ≠ 0)
    (lstsq : Mat ℝ → Except PyErr (Mat ℝ)) :
    ∃ (m : KplsModel ℝ (PolyState ℝ)) (A : Matrix (Fin 3) (Fin 3) ℝ) (U : Matrix (Fin 3) (Fin 1) ℝ)
      (B : Matrix (Fin 1) (Fin 1) ℝ),
      kplsTrain (pkCfg tol maxIter v lstsq) ⟨2, 0, none⟩ (of pkX) (of pkY) = .ok m ∧
      m.Korig = of A ∧ m.vars.U = of U ∧ m.B = of B ∧ A * U * B = !![1; -2; 1] ∧
      kplsPredict (pkCfg tol maxIter v lstsq) m (of pkX) =
        .ok (of (!![3; 0; 3] : Matrix (Fin 3) (Fin 1) ℝ)) := by
  have h6 : Real.sqrt 6 ≠ 0 := (Real.sqrt_pos.2 (by norm_num)).ne'
  have h66 : Real.sqrt 6 * Real.sqrt 6 = 6 := Real.mul_self_sqrt (by norm_num)
  obtain ⟨f, hf⟩ : ∃ f : Nat, maxIter = f + 1 := ⟨(maxIter - 1).toNat, by omega⟩
  have hv' : (pkYᵀ * v 0) 0 0 ≠ 0 := by
    rw [Matrix.mul_apply, Fin.sum_univ_three]
    simpa [pkY, sub_eq_add_neg] using hv
  obtain ⟨s, hs, eT, eQ, s', rfl, eU⟩ := pk_score tol f v hv'
  set c := pkCfg tol maxIter v lstsq with hc
  have hG : (c.kern1 ⟨2, 0, none⟩ (of (cen pkX pkX))).2 = .ok (of pkG) := by
    rw [pk_cenX]
    exact pk_kernel none rfl none rfl
  have hcol : ∀ {r : Nat} (g : Nat → Matrix (Fin r) (Fin 1) ℝ), colsM (K := 1) g = g 0 := by
    intro r g
    ext i j
    rw [Subsingleton.elim j 0]
    rfl
  have hA : (kT tol f v (cenK pkG) pkY 0)ᵀ * cenK pkG * kUs tol f v (cenK pkG) pkY 0 =
      (2 / 3 : ℝ) • (1 : Matrix (Fin 1) (Fin 1) ℝ) := by
    rw [Matrix.mul_assoc, pk_mul, eU, pk_dot, eT, Matrix.transpose_smul, Matrix.smul_mul, Matrix.mul_smul, col_gram,
      pkY_sq, smul_smul, smul_smul]
    congr 1
    field_simp
    linear_combination 18 * hs
  have hdet : ((2 / 3 : ℝ) • (1 : Matrix (Fin 1) (Fin 1) ℝ)).det ≠ 0 := by
    simp
  have hAinv : ((2 / 3 : ℝ) • (1 : Matrix (Fin 1) (Fin 1) ℝ))⁻¹ = (3 / 2 : ℝ) • (1 : Matrix (Fin 1) (Fin 1) ℝ) := by
    refine Matrix.inv_eq_right_inv ?_
    rw [Matrix.smul_mul, Matrix.one_mul, smul_smul]
    norm_num
  have htrain : kplsTrain c ⟨2, 0, none⟩ (of pkX) (of pkY) = .ok ⟨(c.kern1 ⟨2, 0, none⟩ (of pkX)).1, cenState pkX,
      cenState pkY, of pkX, of (cenK pkG), kVars tol f v (cenK pkG) pkY 1 1,
      of ((s' * Real.sqrt 6 * (3 / 2)) • (1 : Matrix (Fin 1) (Fin 1) ℝ))⟩ := by
    rw [kplsTrain_eq (K := 1) (pk_real tol maxIter v lstsq) htol hf rfl (by decide) (by decide) _ pkX pkY pkG hG]
    rw [pk_cenX, pk_cenY, hcol, hcol, hcol]
    rw [show c.tol = tol from rfl, hA, show c.inv = inverse lstsq from rfl, inverse_of lstsq _ hdet, except_bind_ok, hAinv,
      mul_of, except_bind_ok, eQ]
    congr 3
    rw [Matrix.transpose_smul, Matrix.transpose_one, Matrix.smul_mul, Matrix.one_mul, smul_smul]
    congr 1
    ring
  refine ⟨_, cenK pkG, kUs tol f v (cenK pkG) pkY 0, (s' * Real.sqrt 6 * (3 / 2)) • (1 : Matrix (Fin 1) (Fin 1) ℝ),
    htrain, rfl, ?_, rfl, ?_, ?_⟩
  · rw [← hcol (kUs tol f v (cenK pkG) pkY)]
    exact kVars_U (K := 1) tol f v (cenK pkG) pkY
  · rw [pk_mul, eU, pk_dot, Matrix.mul_smul, Matrix.mul_one, smul_smul]
    have : s' * Real.sqrt 6 * (3 / 2) * (1 / 9 * (s' * Real.sqrt 6)) = 1 := by
      linear_combination (s' * s' / 6) * h66 + hs
    rw [this, one_smul]
    rfl
  · obtain ⟨U, hU, ht⟩ := C75_transform (K := 1) (pk_real tol maxIter v lstsq) htol hmax rfl (by decide) (by decide) _ pkX
      pkY pkG hG _ htrain pkX pkG (by
        rw [pk_cenX]
        exact pk_kernel (some (1 / ((1 : Nat) : ℝ))) (by simp) (some (of pkX)) rfl)
    have hU' : U = kUs tol f v (cenK pkG) pkY 0 := by
      rw [← hcol (kUs tol f v (cenK pkG) pkY)]
      exact (of_inj.mp ((kVars_U (K := 1) tol f v (cenK pkG) pkY).symm.trans hU)).symm
    unfold kplsPredict
    rw [ht, except_bind_ok, mul_of, except_bind_ok, cen_undo, hU', eU]
    refine congrArg (fun A => Except.ok (of A)) ?_
    have hmu : ∀ j, mu (fun k => pkY k j) = 0 := by
      intro j
      rw [Subsingleton.elim j 0]
      simp [mu, Fin.sum_univ_three, pkY]
      norm_num
    ext i j
    rw [uncen, Matrix.of_apply, hmu, add_zero, Matrix.mul_smul, Matrix.mul_smul, Matrix.mul_one, smul_smul,
      Matrix.smul_apply, Matrix.mul_apply, Fin.sum_univ_three]
    simp only [Matrix.of_apply, Fin.sum_univ_three]
    rw [Subsingleton.elim j 0, show s' * Real.sqrt 6 * (3 / 2) * (s' / Real.sqrt 6) = 3 / 2 by
      field_simp
      nlinarith [hs]]
    fin_cases i <;> (simp [pkG, pkY]; try norm_num)

/-! ## C77: accepted options -/

/-- **C77, violated.** A tolerance of zero and an iteration limit of zero pass the validation (`validate_tol`,
`validate_max_iter`), but then the inner loop is never entered, all scores stay zero, and training ends in an exception,
for every kernel, all data and any positive number of components. -/
theorem C77_violation {c : KplsCfg ℝ σ} {v : Nat → Matrix (Fin n) (Fin 1) ℝ} (hc : KplsReal c n v)
    (h0 : c.tol = 0 ∨ c.maxIter = 0) (lstsq : Mat ℝ → Except PyErr (Mat ℝ)) (hinv : c.inv = inverse lstsq)
    (hK : c.K = K) (hK1 : 1 ≤ K) (hn : 0 < n) (hq : 0 < q) (kern : σ)
    (X : Matrix (Fin n) (Fin p) ℝ) (Y : Matrix (Fin n) (Fin q) ℝ)
    (G : Matrix (Fin n) (Fin n) ℝ) (hG : (c.kern1 kern (of (cen X X))).2 = .ok (of G)) :
    kplsTrain c kern (of X) (of Y) = .error .linAlgError := by
  have hz1 := Factory.zeros_nat (α := ℝ) hn 1
  have hz2 := Factory.zeros_nat (α := ℝ) hq 1
  rw [show ((1 : Nat) : Int) = 1 from rfl] at hz1 hz2
  have hinit : kplsInit c (of (cenK G)) (of (cen Y Y)) n = .ok ⟨of (cenK G), of (cen Y Y),
      of (0 : Matrix (Fin n) (Fin K) ℝ), of (0 : Matrix (Fin n) (Fin K) ℝ), of (0 : Matrix (Fin n) (Fin K) ℝ),
      of (0 : Matrix (Fin q) (Fin K) ℝ), of (0 : Matrix (Fin n) (Fin 1) ℝ), of (0 : Matrix (Fin q) (Fin 1) ℝ)⟩ := by
    unfold kplsInit
    simp only [hK, hz1, hz2, Factory.zeros_nat hn, Factory.zeros_nat hq, except_bind_ok]
  obtain ⟨s, h1, Kd, U, Y', P, rfl⟩ := loopM_ok (kplsStep c) (fun s => ∃ (Kd : Matrix (Fin n) (Fin n) ℝ)
    (U : Matrix (Fin n) (Fin K) ℝ) (Y' : Matrix (Fin n) (Fin q) ℝ) (P : Matrix (Fin n) (Fin K) ℝ),
    s = ⟨of Kd, of Y', of (0 : Matrix (Fin n) (Fin K) ℝ), of U, of P, of (0 : Matrix (Fin q) (Fin K) ℝ),
      of (0 : Matrix (Fin n) (Fin 1) ℝ), of (0 : Matrix (Fin q) (Fin 1) ℝ)⟩) K (by
    rintro k hk s ⟨Kd, U, Y', P, rfl⟩
    have hi : kplsInner c (of Kd) (of Y') 0 (c.tol * ((10 : Nat) : ℝ)) ⟨of (0 : Matrix (Fin n) (Fin 1) ℝ),
        of (0 : Matrix (Fin q) (Fin 1) ℝ), of (v k)⟩ = .ok ⟨of (0 : Matrix (Fin n) (Fin 1) ℝ), of (0 : Matrix (Fin q) (Fin 1) ℝ), of (v k)⟩ := by
      refine kplsInner_stop _ _ _ _ _ ?_
      rintro ⟨ha, hb⟩
      rcases h0 with h0 | h0
      · rw [hc.lt, h0] at ha
        simp at ha
      · omega
    have hT0 : ∀ {r : Nat}, (of (0 : Matrix (Fin r) (Fin K) ℝ)).setColumn (k : Int) (of (0 : Matrix (Fin r) (Fin 1) ℝ)) =
        .ok (of (0 : Matrix (Fin r) (Fin K) ℝ)) := by
      intro r
      have h := setColumn_of (0 : Matrix (Fin r) (Fin K) ℝ) ⟨k, hk⟩ (0 : Matrix (Fin r) (Fin 1) ℝ)
      refine h.trans ?_
      congr 1
      refine mk_congr fun i j => ?_
      rw [Matrix.updateCol_apply]
      split_ifs <;> rfl
    obtain ⟨U', hU⟩ := setColumn_typed U k hk (v k)
    obtain ⟨P', hP⟩ := setColumn_typed P k hk ((sq1 (0 : Matrix (Fin n) (Fin 1) ℝ))⁻¹ •
      (((1 - (0 : Matrix (Fin n) (Fin 1) ℝ) * (0 : Matrix (Fin n) (Fin 1) ℝ)ᵀ) * Kd *
        (1 - (0 : Matrix (Fin n) (Fin 1) ℝ) * (0 : Matrix (Fin n) (Fin 1) ℝ)ᵀ))ᵀ * (0 : Matrix (Fin n) (Fin 1) ℝ)))
    refine ⟨_, ?_, (1 - (0 : Matrix (Fin n) (Fin 1) ℝ) * (0 : Matrix (Fin n) (Fin 1) ℝ)ᵀ) * Kd *
        (1 - (0 : Matrix (Fin n) (Fin 1) ℝ) * (0 : Matrix (Fin n) (Fin 1) ℝ)ᵀ), U',
      Y' - (0 : Matrix (Fin n) (Fin 1) ℝ) * (0 : Matrix (Fin q) (Fin 1) ℝ)ᵀ, P', rfl⟩
    unfold kplsStep
    simp only []
    rw [hc.start k, except_bind_ok, hi, except_bind_ok]
    simp only [kplsDeflate_eq, except_bind_ok, transpose_of, mul_of, sub_of, kplsLoad_eq, hT0, hU, hP])
    ⟨of (cenK G), of (cen Y Y),
      of (0 : Matrix (Fin n) (Fin K) ℝ), of (0 : Matrix (Fin n) (Fin K) ℝ), of (0 : Matrix (Fin n) (Fin K) ℝ),
      of (0 : Matrix (Fin q) (Fin K) ℝ), of (0 : Matrix (Fin n) (Fin 1) ℝ), of (0 : Matrix (Fin q) (Fin 1) ℝ)⟩
    ⟨_, _, _, _, rfl⟩
  rw [kplsTrain_eq' kern X Y G hG, hinit, except_bind_ok, hK, h1, except_bind_ok, kplsRhs_eq, hinv, inverse_singular]
  · rfl
  · rw [Matrix.transpose_zero, Matrix.zero_mul, Matrix.zero_mul]
    have : Nonempty (Fin K) := ⟨⟨0, hK1⟩⟩
    exact Matrix.det_zero

/-- The hypotheses are met: in the example of `C75_violation` training succeeds and no score vanishes. -/
example : ∃ (v : Nat → Matrix (Fin 3) (Fin 1) ℝ) (m : KplsModel ℝ (PolyState ℝ)) (T : Matrix (Fin 3) (Fin 1) ℝ),
    KplsReal (pkCfg 1 5 v (fun A => .ok A)) 3 v ∧
      kplsTrain (pkCfg 1 5 v (fun A => .ok A)) ⟨2, 0, none⟩ (of pkX) (of pkY) = .ok m ∧ m.vars.T = of T ∧
      ∀ k, ∃ i, T i k ≠ 0 := by
  obtain ⟨m, _, _, _, h, -⟩ := C75_violation 1 one_pos 5 (by decide) (fun _ => !![1; 0; 0]) (by simp) (fun A => .ok A)
  have hG : ((pkCfg 1 5 (fun _ => !![1; 0; 0]) (fun A => .ok A)).kern1 ⟨2, 0, none⟩ (of (cen pkX pkX))).2 =
      .ok (of pkG) := by
    rw [pk_cenX]
    exact pk_kernel none rfl none rfl
  obtain ⟨hm, -⟩ := trained (K := 1) (f := 4) (pk_real 1 5 (fun _ => !![1; 0; 0]) _) one_pos rfl rfl (by decide)
    (by decide) _ hG h
  obtain ⟨s, hs, eT, -⟩ := pk_score 1 4 (fun _ => !![1; 0; 0]) (by
    rw [Matrix.mul_apply, Fin.sum_univ_three]
    simp [pkY])
  refine ⟨_, m, kT 1 4 (fun _ => !![1; 0; 0]) (cenK pkG) pkY 0, pk_real _ _ _ _, h, ?_, fun k => ⟨0, ?_⟩⟩
  · rw [hm, kVars_T, pk_cenY]
    refine congrArg of ?_
    ext i j
    rw [Subsingleton.elim j 0]
    rfl
  · have : s ≠ 0 := by rintro rfl; simp at hs
    rw [eT, Subsingleton.elim k 0]
    simp [pkY, this]

end Verif.Props
