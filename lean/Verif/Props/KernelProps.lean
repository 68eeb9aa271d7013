import Verif.Transf.Kernel
import Verif.Core.RealInst
import Mathlib.Tactic.Linarith
import Mathlib.Tactic.Ring
import Mathlib.Tactic.NormNum

/-!
# Kernel matrices and the RBF and polynomial kernels (C39-C41)
-/

namespace Verif.Props

open Verif Mat

variable {α σ : Type}

/-- A kernel without state. -/
def pureKernel (f : Mat α → Mat α → Except PyErr α) : KernelFn α Unit := fun s x y => (s, f x y)

/-- Row `i` of `A` as the 1×n matrix `get_row` returns. -/
def rowMat {m n : Nat} (A : Matrix (Fin m) (Fin n) α) (i : Fin m) : Mat α :=
  of (Matrix.of fun (_ : Fin 1) l => A i l)

/-! ## The generic `apply_matrix` -/

theorem applyMatrix2_inv [Zero α] {m n p : Nat} (hm : 0 < m) (k : KernelFn α σ)
    (A : Matrix (Fin m) (Fin n) α) (B : Matrix (Fin p) (Fin n) α) (g : Fin m → Fin p → α)
    (Inv : σ → Prop)
    (hk : ∀ s i j, Inv s → ∃ s', Inv s' ∧ k s (rowMat A i) (rowMat B j) = (s', .ok (g i j)))
    (s : σ) (hs : Inv s) :
    ∃ s', Inv s' ∧ (0 < p → ∃ t i j, Inv t ∧ s' = (k t (rowMat A i) (rowMat B j)).1) ∧
      applyMatrix2 k s (of A) (of B) = (s', .ok (of (Matrix.of g))) := by
  obtain ⟨s', h1, h2, h3⟩ := kernelLoop_two k A B g Inv hk
    ((List.finRange m).flatMap fun i => (List.finRange p).map fun j => (i, j)) s hs (fun _ _ => 0)
  refine ⟨s', h1, fun hp => h2 ?_, ?_⟩
  · intro h0
    have : (⟨0, hm⟩, ⟨0, hp⟩) ∈
        ((List.finRange m).flatMap fun i => (List.finRange p).map fun j => (i, j)) := by simp
    rw [h0] at this
    cases this
  · unfold applyMatrix2
    rw [show (of A).rows = m from rfl, show (of B).rows = p from rfl, Factory.zeros_nat hm]
    simp only []
    rw [pairs_range]
    refine h3.trans ?_
    congr 2
    refine mk_congr fun i j => ?_
    rw [Matrix.of_apply]
    exact if_pos (by simp)

theorem applyMatrix1_inv [Zero α] {m n : Nat} (hm : 0 < m) (k : KernelFn α σ)
    (A : Matrix (Fin m) (Fin n) α) (g : Fin m → Fin m → α)
    (Inv : σ → Prop)
    (hk : ∀ s i j, Inv s → ∃ s', Inv s' ∧ k s (rowMat A i) (rowMat A j) = (s', .ok (g i j)))
    (s : σ) (hs : Inv s) :
    ∃ s', Inv s' ∧ (∃ t i j, Inv t ∧ s' = (k t (rowMat A i) (rowMat A j)).1) ∧
      applyMatrix1 k s (of A) =
        (s', .ok (of (Matrix.of fun i j => g (min i j) (max i j)))) := by
  obtain ⟨s', h1, h2, h3⟩ := kernelLoop_one k A g Inv hk
    ((List.finRange m).flatMap fun i => (indicesFrom i).map fun j => (i, j))
    (fun c hc => by
      simp only [List.mem_flatMap, List.mem_map, List.mem_finRange, true_and] at hc
      obtain ⟨i, j, hj, rfl⟩ := hc
      exact (mem_indicesFrom i j).1 hj) s hs (fun _ _ => 0)
  have hmem : ∀ i j : Fin m, i ≤ j →
      (i, j) ∈ ((List.finRange m).flatMap fun i => (indicesFrom i).map fun j => (i, j)) := by
    intro i j hij
    simp only [List.mem_flatMap, List.mem_map, List.mem_finRange, true_and]
    exact ⟨i, j, (mem_indicesFrom i j).2 hij, rfl⟩
  refine ⟨s', h1, h2 ?_, ?_⟩
  · intro h0
    have := hmem ⟨0, hm⟩ ⟨0, hm⟩ le_rfl
    rw [h0] at this
    cases this
  · unfold applyMatrix1
    rw [show (of A).rows = m from rfl, Factory.zeros_nat hm]
    simp only []
    rw [triangle_range]
    refine h3.trans ?_
    congr 2
    refine mk_congr fun i j => ?_
    rw [Matrix.of_apply, Matrix.of_apply]
    exact if_pos (hmem _ _ min_le_max)

/-- **C39** (entries).  `apply_matrix(X, Y)` has `rows(X)` rows, `rows(Y)` columns and holds the kernel
values of the rows: for any kernel, any data. -/
theorem C39_entries [Zero α] {m n p : Nat} (hm : 0 < m) (f : Mat α → Mat α → Except PyErr α)
    (A : Matrix (Fin m) (Fin n) α) (B : Matrix (Fin p) (Fin n) α) (g : Fin m → Fin p → α)
    (hf : ∀ i j, f (rowMat A i) (rowMat B j) = .ok (g i j)) :
    (applyMatrix2 (pureKernel f) () (of A) (of B)).2 = .ok (of (Matrix.of g)) := by
  obtain ⟨s', -, -, h⟩ := applyMatrix2_inv hm (pureKernel f) A B g (fun _ => True)
    (fun s i j _ => ⟨s, trivial, by rw [pureKernel, hf]⟩) () trivial
  rw [h]

/-- **C39** (one argument).  `apply_matrix(X)` evaluates the kernel on and above the diagonal only and
mirrors the values. -/
theorem C39_single [Zero α] {m n : Nat} (hm : 0 < m) (f : Mat α → Mat α → Except PyErr α)
    (A : Matrix (Fin m) (Fin n) α) (g : Fin m → Fin m → α)
    (hf : ∀ i j, f (rowMat A i) (rowMat A j) = .ok (g i j)) :
    (applyMatrix1 (pureKernel f) () (of A)).2 =
      .ok (of (Matrix.of fun i j => g (min i j) (max i j))) := by
  obtain ⟨s', -, -, h⟩ := applyMatrix1_inv hm (pureKernel f) A g (fun _ => True)
    (fun s i j _ => ⟨s, trivial, by rw [pureKernel, hf]⟩) () trivial
  rw [h]

/-- **C39** (symmetry).  The one-argument kernel matrix is symmetric, whatever the kernel. -/
theorem C39_symmetric [Zero α] {m n : Nat} (hm : 0 < m) (f : Mat α → Mat α → Except PyErr α)
    (A : Matrix (Fin m) (Fin n) α) (g : Fin m → Fin m → α)
    (hf : ∀ i j, f (rowMat A i) (rowMat A j) = .ok (g i j)) :
    ∃ K : Matrix (Fin m) (Fin m) α, K.transpose = K ∧
      (applyMatrix1 (pureKernel f) () (of A)).2 = .ok (of K) := by
  refine ⟨_, ?_, C39_single hm f A g hf⟩
  ext i j
  simp only [Matrix.transpose_apply, Matrix.of_apply]
  rw [min_comm, max_comm]

/-- **C39** (agreement).  `apply_matrix(X)` equals `apply_matrix(X, X)` exactly when the kernel is
symmetric on the rows of `X`. -/
theorem C39_agree [Zero α] {m n : Nat} (hm : 0 < m) (f : Mat α → Mat α → Except PyErr α)
    (A : Matrix (Fin m) (Fin n) α) (g : Fin m → Fin m → α)
    (hf : ∀ i j, f (rowMat A i) (rowMat A j) = .ok (g i j)) :
    (applyMatrix1 (pureKernel f) () (of A)).2 = (applyMatrix2 (pureKernel f) () (of A) (of A)).2 ↔
      ∀ i j, g i j = g j i := by
  rw [C39_single hm f A g hf, C39_entries hm f A A g hf]
  rw [ok_inj, of_inj]
  constructor
  · intro h i j
    have h1 := congrFun (congrFun h i) j
    have h2 := congrFun (congrFun h j) i
    simp only [Matrix.of_apply] at h1 h2
    rw [← h1, ← h2, min_comm, max_comm]
  · intro h
    ext i j
    simp only [Matrix.of_apply]
    rcases le_total i j with hij | hij
    · rw [min_eq_left hij, max_eq_right hij]
    · rw [min_eq_right hij, max_eq_left hij, h]

theorem kernelLoop_error (f : Mat α → Mat α → Except PyErr α) (X Y : Mat α) (both : Bool)
    (cs : List (Int × Int)) (c : Int × Int) (hc : c ∈ cs) {x y : Mat α}
    (hx : X.getRow c.1 = .ok x) (hy : Y.getRow c.2 = .ok y) {e : PyErr} (he : f x y = .error e)
    (M : Mat α) : ∃ e', (kernelLoop (pureKernel f) X Y both cs () M).2 = .error e' := by
  induction cs generalizing M with
  | nil => cases hc
  | cons d cs ih =>
    obtain ⟨i, j⟩ := d
    rw [kernelLoop]
    rcases List.mem_cons.1 hc with rfl | hc
    · have : kernelStep (pureKernel f) X Y both i j () M = ((), .error e) := by
        unfold kernelStep
        simp only [] at hx hy
        rw [hx, hy]
        simp only [pureKernel]
        rw [he]
      rw [this]
      exact ⟨e, rfl⟩
    · rcases h : kernelStep (pureKernel f) X Y both i j () M with ⟨s, r⟩
      cases r with
      | error e' => exact ⟨e', rfl⟩
      | ok M' => exact ih hc M'

/-- **C39** (errors).  A kernel matrix is returned only if the kernel is defined on every pair of rows:
an error of the kernel is never swallowed. -/
theorem C39_errors [Zero α] {m n p : Nat} (hm : 0 < m) (f : Mat α → Mat α → Except PyErr α)
    (A : Matrix (Fin m) (Fin n) α) (B : Matrix (Fin p) (Fin n) α) (i : Fin m) (j : Fin p) {e : PyErr}
    (he : f (rowMat A i) (rowMat B j) = .error e) :
    ∃ e', (applyMatrix2 (pureKernel f) () (of A) (of B)).2 = .error e' := by
  unfold applyMatrix2
  rw [show (of A).rows = m from rfl, show (of B).rows = p from rfl, Factory.zeros_nat hm]
  simp only []
  refine kernelLoop_error f _ _ _ _ (((i : Nat) : Int), ((j : Nat) : Int)) ?_ (getRow_of A i)
    (getRow_of B j) he _
  rw [pairs_range, List.mem_map]
  exact ⟨(i, j), by simp, rfl⟩

/-! ## Linear kernel -/

theorem vectorDot_rows [CommSemiring α] {n : Nat} (a b : Fin n → α) :
    vectorDot (of (Matrix.of fun (_ : Fin 1) l => a l)) (of (Matrix.of fun (_ : Fin 1) l => b l)) =
      .ok (∑ l, a l * b l) := by
  have hv : ∀ a : Fin n → α, (of (Matrix.of fun (_ : Fin 1) l => a l)).vecEntries = some (List.ofFn a) := by
    intro a
    unfold vecEntries
    by_cases h : n = 1
    · subst h
      rw [dif_pos rfl]
      simp
    · rw [dif_neg h, dif_pos rfl]; rfl
  unfold vectorDot
  rw [hv, hv]
  simp only []
  rw [if_neg (by simp [numElements]), ok_inj, dotList]
  rw [show List.zipWith (· * ·) (List.ofFn a) (List.ofFn b) = List.ofFn fun l => a l * b l from ?_,
    List.sum_ofFn]
  apply List.ext_getElem
  · simp
  · intro i h1 h2
    simp

/-- **C39** (linear kernel).  `LinearKernel.apply_matrix`, computed as a matrix product, agrees with
its `apply_vector` on every pair of rows, with one argument and with two. -/
theorem C39_linear [CommSemiring α] {m n p : Nat} (hm : 0 < m) (A : Matrix (Fin m) (Fin n) α)
    (B : Matrix (Fin p) (Fin n) α) :
    linearMatrix (of A) (some (of B)) = (applyMatrix2 linearVector () (of A) (of B)).2 ∧
      linearMatrix (of A) none = (applyMatrix1 linearVector () (of A)).2 ∧
      linearMatrix (of A) (some (of B)) = .ok (of (Matrix.of fun i j => ∑ l, A i l * B j l)) := by
  have h2 := C39_entries hm vectorDot A B (fun i j => ∑ l, A i l * B j l)
    (fun i j => vectorDot_rows _ _)
  have h1 := C39_single hm vectorDot A (fun i j => ∑ l, A i l * A j l)
    (fun i j => vectorDot_rows _ _)
  have e : ∀ {q : Nat} (B : Matrix (Fin q) (Fin n) α), (of A).mul (of B).transpose =
      .ok (of (Matrix.of fun i j => ∑ l, A i l * B j l)) := by
    intro q B
    rw [transpose_of, mul_of]
    congr 1
  refine ⟨?_, ?_, e B⟩
  · rw [show linearVector = pureKernel (vectorDot (α := α)) from rfl, h2]
    exact e B
  · rw [show linearVector = pureKernel (vectorDot (α := α)) from rfl, h1]
    refine (e A).trans ?_
    congr 1
    refine mk_congr fun i j => ?_
    simp only [Matrix.of_apply]
    rcases le_total i j with hij | hij
    · rw [min_eq_left hij, max_eq_right hij]
    · rw [min_eq_right hij, max_eq_left hij]
      exact Finset.sum_congr rfl fun l _ => mul_comm _ _

/-- **C39** (mismatch).  Data with different numbers of columns are refused. -/
theorem C39_mismatch [CommSemiring α] {m n p q : Nat} (h : n ≠ q) (A : Matrix (Fin m) (Fin n) α)
    (B : Matrix (Fin p) (Fin q) α) : linearMatrix (of A) (some (of B)) = .error .valueError :=
  mul_error h

/-! ## RBF kernel -/

/-- The Euclidean distance of two vectors. -/
noncomputable def dist2 {n : Nat} (x y : Fin n → ℝ) : ℝ := Real.sqrt (∑ l, (x l - y l) * (x l - y l))

theorem rbfVector_rows {n : Nat} (s : Option ℝ) (x y : Fin n → ℝ) :
    rbfVector s (of (Matrix.of fun (_ : Fin 1) l => x l)) (of (Matrix.of fun (_ : Fin 1) l => y l)) =
      (some (s.getD (1 / (n : ℝ))), .ok (Real.exp (-(s.getD (1 / (n : ℝ))) * dist2 x y))) := by
  unfold rbfVector
  rw [sub_of]
  simp only [resolveGamma]
  rw [Prod.mk.injEq, ok_inj]
  refine ⟨rfl, ?_⟩
  have hn : (of (Matrix.of (fun (_ : Fin 1) l => x l) - Matrix.of (fun (_ : Fin 1) l => y l))).norm2 =
      dist2 x y := by
    unfold norm2 dist2
    simp only []
    rw [if_pos (by rw [isVector_iff]; left; rfl), hasSqrt_real]
    congr 1
    unfold sumSq
    rw [sumFin_eq]
    refine (Fin.sum_univ_one _).trans ?_
    rw [sumFin_eq]
    rfl
  rw [hn, hasExp_real]
  congr 1
  show -1 * (s.getD (1 / (n : ℝ))) * dist2 x y = _
  ring

/-- The value of the RBF kernel with parameter `γ`. -/
noncomputable def rbf {n : Nat} (γ : ℝ) (x y : Fin n → ℝ) : ℝ := Real.exp (-γ * dist2 x y)

/-- **C39** (RBF kernel).  `RBFKernel.apply_matrix` holds the kernel values of all pairs of rows and the
one-argument form agrees with the two-argument form; a `gamma` left at `NAN` becomes one over the
number of columns, for all entries alike. -/
theorem C39_rbf {m n p : Nat} (hm : 0 < m) (s : Option ℝ) (A : Matrix (Fin m) (Fin n) ℝ)
    (B : Matrix (Fin p) (Fin n) ℝ) :
    (applyMatrix2 rbfVector s (of A) (of B)).2 =
        .ok (of (Matrix.of fun i j => rbf (s.getD (1 / (n : ℝ))) (A i) (B j))) ∧
      applyMatrix1 rbfVector s (of A) = (some (s.getD (1 / (n : ℝ))),
        .ok (of (Matrix.of fun i j => rbf (s.getD (1 / (n : ℝ))) (A i) (A j)))) ∧
      (0 < p → (applyMatrix2 rbfVector s (of A) (of B)).1 = some (s.getD (1 / (n : ℝ)))) := by
  have key : ∀ t : Option ℝ, (t = s ∨ t = some (s.getD (1 / (n : ℝ)))) →
      t.getD (1 / (n : ℝ)) = s.getD (1 / (n : ℝ)) := by
    rintro t (rfl | rfl) <;> rfl
  obtain ⟨s2, -, h22, h23⟩ := applyMatrix2_inv hm rbfVector A B
    (fun i j => rbf (s.getD (1 / (n : ℝ))) (A i) (B j))
    (fun t => t = s ∨ t = some (s.getD (1 / (n : ℝ))))
    (fun t i j ht => ⟨_, Or.inr rfl, by rw [rowMat, rowMat, rbfVector_rows, key t ht, rbf]⟩) s (Or.inl rfl)
  obtain ⟨s1, -, ⟨t, i, j, ht, h12⟩, h13⟩ := applyMatrix1_inv hm rbfVector A
    (fun i j => rbf (s.getD (1 / (n : ℝ))) (A i) (A j))
    (fun t => t = s ∨ t = some (s.getD (1 / (n : ℝ))))
    (fun t i j ht => ⟨_, Or.inr rfl, by rw [rowMat, rowMat, rbfVector_rows, key t ht, rbf]⟩) s (Or.inl rfl)
  refine ⟨by rw [h23], ?_, fun hp => ?_⟩
  · rw [h13, h12, rowMat, rowMat, rbfVector_rows, key t ht]
    congr 3
    ext i j
    simp only [Matrix.of_apply]
    rcases le_total i j with hij | hij
    · rw [min_eq_left hij, max_eq_right hij]
    · rw [min_eq_right hij, max_eq_left hij, rbf, rbf, dist2, dist2]
      congr 3
      exact Finset.sum_congr rfl fun l _ => by ring
  · obtain ⟨t, i, j, ht, h⟩ := h22 hp
    rw [h23]
    simp only []
    rw [h, rowMat, rowMat, rbfVector_rows, key t ht]

/-- **C40** (value).  The RBF kernel of two rows is `exp(-gamma * distance)`; `gamma` is unchanged when
set. -/
theorem C40_value {n : Nat} (γ : ℝ) (x y : Fin n → ℝ) :
    rbfVector (some γ) (of (Matrix.of fun (_ : Fin 1) l => x l))
      (of (Matrix.of fun (_ : Fin 1) l => y l)) = (some γ, .ok (rbf γ x y)) :=
  rbfVector_rows (some γ) x y

/-- **C40** (different lengths).  Vectors of different length are refused and the kernel is unchanged. -/
theorem C40_mismatch {n n' : Nat} (h : n ≠ n') (s : Option ℝ) (x : Fin n → ℝ) (y : Fin n' → ℝ) :
    rbfVector s (of (Matrix.of fun (_ : Fin 1) l => x l)) (of (Matrix.of fun (_ : Fin 1) l => y l)) =
      (s, .error .invalidShape) := by
  have e : (of (Matrix.of fun (_ : Fin 1) l => x l)).sub (of (Matrix.of fun (_ : Fin 1) l => y l)) =
      .error .invalidShape := by
    unfold Mat.sub Mat.zipWith
    rw [dif_neg]
    rintro ⟨-, h2⟩
    exact h h2
  unfold rbfVector
  rw [e]

theorem dist2_nonneg {n : Nat} (x y : Fin n → ℝ) : 0 ≤ dist2 x y := Real.sqrt_nonneg _

theorem dist2_self {n : Nat} (x : Fin n → ℝ) : dist2 x x = 0 := by simp [dist2]

theorem dist2_comm {n : Nat} (x y : Fin n → ℝ) : dist2 x y = dist2 y x := by
  unfold dist2
  congr 1
  exact Finset.sum_congr rfl fun l _ => by ring

theorem dist2_sq {n : Nat} (x y : Fin n → ℝ) :
    dist2 x y ^ 2 = ∑ l, (x l - y l) * (x l - y l) :=
  Real.sq_sqrt (Finset.sum_nonneg fun _ _ => mul_self_nonneg _)

/-- **C40** (self).  `k(x, x) = 1`. -/
theorem C40_self {n : Nat} (γ : ℝ) (x : Fin n → ℝ) : rbf γ x x = 1 := by
  rw [rbf, dist2_self, mul_zero, Real.exp_zero]

/-- **C40** (symmetry). -/
theorem C40_symmetric {n : Nat} (γ : ℝ) (x y : Fin n → ℝ) : rbf γ x y = rbf γ y x := by
  rw [rbf, rbf, dist2_comm]

/-- **C40** (range).  For `gamma >= 0` the values lie in `(0, 1]`. -/
theorem C40_range {n : Nat} {γ : ℝ} (hγ : 0 ≤ γ) (x y : Fin n → ℝ) :
    0 < rbf γ x y ∧ rbf γ x y ≤ 1 := by
  refine ⟨Real.exp_pos _, ?_⟩
  rw [rbf, Real.exp_le_one_iff]
  have := mul_nonneg hγ (dist2_nonneg x y)
  linarith

/-- **C40** (monotone).  For `gamma > 0` the kernel is strictly decreasing in the distance. -/
theorem C40_decreasing {n : Nat} {γ : ℝ} (hγ : 0 < γ) (x y x' y' : Fin n → ℝ) :
    rbf γ x y < rbf γ x' y' ↔ dist2 x' y' < dist2 x y := by
  rw [rbf, rbf, Real.exp_lt_exp]
  constructor
  · intro h
    by_contra h'
    have := mul_le_mul_of_nonneg_left (not_lt.1 h') hγ.le
    linarith
  · intro h
    have := mul_lt_mul_of_pos_left h hγ
    linarith

/-- **C40** (documented formula, partial).  The class documents `exp(-gamma * ||x - y||^2)`.  That holds
exactly when `gamma` is zero or the distance is 0 or 1: the code does not square the norm. -/
theorem C40_documented_partial {n : Nat} (γ : ℝ) (x y : Fin n → ℝ) :
    rbf γ x y = Real.exp (-γ * ∑ l, (x l - y l) * (x l - y l)) ↔
      γ = 0 ∨ dist2 x y = 0 ∨ dist2 x y = 1 := by
  rw [rbf, Real.exp_eq_exp, ← dist2_sq]
  constructor
  · intro h
    have : γ * (dist2 x y * (dist2 x y - 1)) = 0 := by linarith [h]
    rcases mul_eq_zero.1 this with h | h
    · exact Or.inl h
    · rcases mul_eq_zero.1 h with h | h
      · exact Or.inr (Or.inl h)
      · exact Or.inr (Or.inr (by linarith))
  · rintro (h | h | h) <;> rw [h] <;> ring

/-- **C40** (documented formula, violation).  With the default `gamma = 1`, the kernel of `[0]` and `[2]`
is `exp(-2)`, not the documented `exp(-4)`. -/
theorem C40_documented_violation :
    rbfVector (some 1) (of (Matrix.of fun (_ _ : Fin 1) => (0 : ℝ)))
        (of (Matrix.of fun (_ _ : Fin 1) => (2 : ℝ))) = (some 1, .ok (Real.exp (-2))) ∧
      Real.exp (-2) ≠ Real.exp (-1 * ∑ _l : Fin 1, ((0 : ℝ) - 2) * (0 - 2)) := by
  constructor
  · have h := rbfVector_rows (n := 1) (some (1 : ℝ)) (fun _ => 0) (fun _ => 2)
    refine h.trans ?_
    simp only [Option.getD_some, dist2]
    rw [Finset.sum_const, Finset.card_univ, Fintype.card_fin, one_smul,
      show ((0 : ℝ) - 2) * (0 - 2) = 2 ^ 2 by norm_num, Real.sqrt_sq (by norm_num)]
    norm_num
  · rw [Ne, Real.exp_eq_exp, Finset.sum_const, Finset.card_univ, Fintype.card_fin, one_smul]
    norm_num

/-- A case with a non-trivial distance: `[0, 0]` and `[3, 4]` are at distance 5. -/
example : rbf 2 ![0, 0] ![3, 4] = Real.exp (-10) := by
  rw [rbf, dist2, Fin.sum_univ_two]
  simp only [Matrix.cons_val_zero, Matrix.cons_val_one]
  rw [show ((0 : ℝ) - 3) * (0 - 3) + (0 - 4) * (0 - 4) = 5 ^ 2 by norm_num, Real.sqrt_sq (by norm_num)]
  norm_num

/-! ## Polynomial kernel -/

/-- Calls on a polynomial kernel object. -/
inductive PolyCall
  | vector (x y : Mat ℝ)
  | matrix (X : Mat ℝ) (Y : Option (Mat ℝ))
  | setDegree (d : Int)
  | setCoef0 (c : ℝ)
  | setGamma (g : Option ℝ)

/-- What a call returns. -/
inductive PolyOut
  | value (r : Except PyErr ℝ)
  | mat (r : Except PyErr (Mat ℝ))
  | none

/-- One call on the modelled object. -/
noncomputable def polyStep (s : PolyState ℝ) : PolyCall → PolyState ℝ × PolyOut
  | .vector x y => let r := polyVector s x y; (r.1, .value r.2)
  | .matrix X Y => let r := polyMatrix s X Y; (r.1, .mat r.2)
  | .setDegree d => (polySetDegree s d, .none)
  | .setCoef0 c => ({ s with coef0 := c }, .none)
  | .setGamma g => ({ s with gamma := g }, .none)

/-- The answers to a history of calls. -/
noncomputable def polyRun : PolyState ℝ → List PolyCall → List PolyOut
  | _, [] => []
  | s, c :: cs => (polyStep s c).2 :: polyRun (polyStep s c).1 cs

/-- The intended behaviour: parameters only change when assigned (non-positive degrees are ignored),
and a `gamma` left open is one over the number of columns of the data of the call at hand. -/
noncomputable def polySpec (d : Nat) (c : ℝ) (g : Option ℝ) : List PolyCall → List PolyOut
  | [] => []
  | .vector x y :: cs =>
      .value ((x.vectorDot y).map fun l => (g.getD (1 / (x.cols : ℝ)) * l + c) ^ d) :: polySpec d c g cs
  | .matrix X Y :: cs =>
      .mat ((X.mul (Y.getD X).transpose).map fun P =>
        P.map fun l => (g.getD (1 / (X.cols : ℝ)) * l + c) ^ d) :: polySpec d c g cs
  | .setDegree d' :: cs => .none :: polySpec (if 0 < d' then d'.toNat else d) c g cs
  | .setCoef0 c' :: cs => .none :: polySpec d c' g cs
  | .setGamma g' :: cs => .none :: polySpec d c g' cs

theorem polyMatrix_value (s : PolyState ℝ) (X : Mat ℝ) (Y : Option (Mat ℝ)) :
    (polyMatrix s X Y).2 = (X.mul (Y.getD X).transpose).map fun P =>
      P.map fun l => (s.gamma.getD (1 / (X.cols : ℝ)) * l + s.coef0) ^ s.degree := by
  unfold polyMatrix
  simp only [resolveGamma]
  cases X.mul (Y.getD X).transpose with
  | error e => rfl
  | ok P =>
    show Except.ok _ = Except.ok _
    rw [ok_inj]
    refine mk_congr fun i j => ?_
    show (P.data i j * _ + s.coef0) ^ s.degree = (_ * P.data i j + s.coef0) ^ s.degree
    rw [mul_comm]

/-- Every call of the history uses data with `n` columns; `gamma` is reset to the default or to a
value at will. -/
def callWidth (n : Nat) : PolyCall → Prop
  | .vector x _ => x.cols = n
  | .matrix X _ => X.cols = n
  | _ => True

theorem polyRun_width (n : Nat) (cs : List PolyCall) (hcs : ∀ c ∈ cs, callWidth n c) (d : Nat) (c : ℝ)
    (g g' : Option ℝ) (hg : g'.getD (1 / (n : ℝ)) = g.getD (1 / (n : ℝ))) :
    polyRun ⟨d, c, g'⟩ cs = polySpec d c g cs := by
  induction cs generalizing d c g g' with
  | nil => rfl
  | cons a cs ih =>
    have ih' := fun d c g g' h => ih (fun c hc => hcs c (List.mem_cons_of_mem _ hc)) d c g g' h
    have ha := hcs a (List.mem_cons_self ..)
    rw [polyRun]
    cases a with
    | vector x y =>
      have hx : x.cols = n := ha
      rw [polySpec, hx]
      cases hd : x.vectorDot y with
      | error e =>
        have : polyStep ⟨d, c, g'⟩ (.vector x y) = (⟨d, c, g'⟩, .value (.error e)) := by
          simp only [polyStep, polyVector]
          rw [hd]
        rw [this, ih' _ _ _ _ hg]
        rfl
      | ok l =>
        have : polyStep ⟨d, c, g'⟩ (.vector x y) = (⟨d, c, some (g.getD (1 / (n : ℝ)))⟩,
            .value (.ok ((g.getD (1 / (n : ℝ)) * l + c) ^ d))) := by
          simp only [polyStep, polyVector]
          rw [hd]
          simp only [resolveGamma, hx, hg]
        rw [this, ih' _ _ g (some (g.getD (1 / (n : ℝ)))) rfl]
        rfl
    | matrix X Y =>
      have hx : X.cols = n := ha
      rw [polySpec, hx]
      have h1 : (polyStep ⟨d, c, g'⟩ (.matrix X Y)).1 = ⟨d, c, some (g.getD (1 / (n : ℝ)))⟩ := by
        simp only [polyStep, polyMatrix, resolveGamma, hx, hg]
      have h2 : (polyStep ⟨d, c, g'⟩ (.matrix X Y)).2 = .mat (polyMatrix ⟨d, c, g'⟩ X Y).2 := rfl
      rw [h1, h2, ih' _ _ g (some (g.getD (1 / (n : ℝ)))) rfl, polyMatrix_value, hx, hg]
    | setDegree d' =>
      rw [polySpec]
      have : polyStep ⟨d, c, g'⟩ (.setDegree d') =
          (⟨if 0 < d' then d'.toNat else d, c, g'⟩, .none) := by
        simp only [polyStep, polySetDegree]
        by_cases h : d' ≤ 0
        · rw [if_pos h, if_neg (by omega)]
        · rw [if_neg h, if_pos (by omega)]
      rw [this, ih' _ _ _ _ hg]
    | setCoef0 c' =>
      rw [polySpec]
      show PolyOut.none :: polyRun ⟨d, c', g'⟩ cs = _
      rw [ih' _ _ _ _ hg]
    | setGamma g2 =>
      rw [polySpec]
      show PolyOut.none :: polyRun ⟨d, c, g2⟩ cs = _
      rw [ih' _ _ _ _ rfl]

/-- **C41** (same width, partial).  In every history of calls and parameter changes whose data all have
the same number of columns, a new polynomial kernel gives exactly the intended answers.  The full
statement drops the restriction on the width, which is false (`C41_violation`). -/
theorem C41_same_width_partial (n : Nat) (cs : List PolyCall) (hcs : ∀ c ∈ cs, callWidth n c) :
    polyRun PolyState.init cs = polySpec 3 0 none cs :=
  polyRun_width n cs hcs 3 0 none none rfl

/-- Calls that leave `gamma` alone or set it to a number. -/
def gammaSet : PolyCall → Prop
  | .setGamma g => g ≠ none
  | _ => True

/-- **C41** (explicit `gamma`, partial).  Once `gamma` has been set to a number, every later history
(data of any width, any parameter changes except back to `NAN`) gives the intended answers. -/
theorem C41_explicit_gamma_partial (γ : ℝ) (cs : List PolyCall) (hcs : ∀ c ∈ cs, gammaSet c)
    (d : Nat) (c : ℝ) :
    polyRun ⟨d, c, some γ⟩ cs = polySpec d c (some γ) cs := by
  induction cs generalizing d c γ with
  | nil => rfl
  | cons a cs ih =>
    have ih' := fun γ d c => ih γ (fun c hc => hcs c (List.mem_cons_of_mem _ hc)) d c
    have ha := hcs a (List.mem_cons_self ..)
    cases a with
    | setGamma g =>
      cases g with
      | none => exact absurd rfl ha
      | some g2 =>
        rw [polyRun, polySpec]
        show PolyOut.none :: polyRun ⟨d, c, some g2⟩ cs = _
        rw [ih']
    | setCoef0 c' =>
      rw [polyRun, polySpec]
      show PolyOut.none :: polyRun ⟨d, c', some γ⟩ cs = _
      rw [ih']
    | setDegree d' =>
      rw [polyRun, polySpec]
      have : polyStep ⟨d, c, some γ⟩ (.setDegree d') =
          (⟨if 0 < d' then d'.toNat else d, c, some γ⟩, .none) := by
        simp only [polyStep, polySetDegree]
        by_cases h : d' ≤ 0
        · rw [if_pos h, if_neg (by omega)]
        · rw [if_neg h, if_pos (by omega)]
      rw [this, ih']
    | vector x y =>
      rw [polyRun, polySpec]
      cases hd : x.vectorDot y with
      | error e =>
        have : polyStep ⟨d, c, some γ⟩ (.vector x y) = (⟨d, c, some γ⟩, .value (.error e)) := by
          simp only [polyStep, polyVector]
          rw [hd]
        rw [this, ih']
        rfl
      | ok l =>
        have : polyStep ⟨d, c, some γ⟩ (.vector x y) = (⟨d, c, some γ⟩,
            .value (.ok ((γ * l + c) ^ d))) := by
          simp only [polyStep, polyVector]
          rw [hd]
          rfl
        rw [this, ih']
        rfl
    | matrix X Y =>
      rw [polyRun, polySpec]
      have h1 : (polyStep ⟨d, c, some γ⟩ (.matrix X Y)).1 = ⟨d, c, some γ⟩ := rfl
      have h2 : (polyStep ⟨d, c, some γ⟩ (.matrix X Y)).2 = .mat (polyMatrix ⟨d, c, some γ⟩ X Y).2 := rfl
      rw [h1, h2, ih', polyMatrix_value]

/-- **C41** (violation).  A new kernel used on `[1, 1]` and then on `[1]` answers `1/8` for the second
call, while a new kernel used on `[1]` alone answers `1`. -/
theorem C41_violation :
    let r2 : Mat ℝ := of (Matrix.of fun (_ : Fin 1) (_ : Fin 2) => 1)
    let r1 : Mat ℝ := of (Matrix.of fun (_ : Fin 1) (_ : Fin 1) => 1)
    polyRun PolyState.init [.vector r2 r2, .vector r1 r1] = [.value (.ok 1), .value (.ok (1 / 8))] ∧
      polySpec 3 0 none [.vector r2 r2, .vector r1 r1] = [.value (.ok 1), .value (.ok 1)] := by
  have e2 := vectorDot_rows (n := 2) (fun _ => (1 : ℝ)) (fun _ => 1)
  have e1 := vectorDot_rows (n := 1) (fun _ => (1 : ℝ)) (fun _ => 1)
  simp only [Fin.sum_univ_two, Fin.sum_univ_one] at e2 e1
  intro r2 r1
  have c2 : r2.cols = 2 := rfl
  have c1 : r1.cols = 1 := rfl
  have e2' : r2.vectorDot r2 = _ := e2
  have e1' : r1.vectorDot r1 = _ := e1
  constructor
  · simp only [polyRun, polyStep, polyVector, e2', e1', resolveGamma, PolyState.init, c2]
    norm_num
  · simp only [polySpec, e2', e1', c2, c1, Except.map]
    norm_num

/-- **C41** (vector and matrix forms).  On the rows of data with at least one row, `apply_matrix` holds
the values of `apply_vector`, and both fill in the same `gamma`. -/
theorem C41_forms_agree {m n p : Nat} (hm : 0 < m) (hp : 0 < p) (s : PolyState ℝ)
    (A : Matrix (Fin m) (Fin n) ℝ) (B : Matrix (Fin p) (Fin n) ℝ) :
    polyMatrix s (of A) (some (of B)) = applyMatrix2 polyVector s (of A) (of B) := by
  have hv : ∀ (t : PolyState ℝ) (i : Fin m) (j : Fin p), polyVector t (rowMat A i) (rowMat B j) =
      ({ t with gamma := some (t.gamma.getD (1 / (n : ℝ))) },
        .ok ((t.gamma.getD (1 / (n : ℝ)) * ∑ l, A i l * B j l + t.coef0) ^ t.degree)) := by
    intro t i j
    unfold polyVector rowMat
    rw [vectorDot_rows]
    rfl
  obtain ⟨s2, -, h2, h3⟩ := applyMatrix2_inv hm polyVector A B
    (fun i j => (s.gamma.getD (1 / (n : ℝ)) * ∑ l, A i l * B j l + s.coef0) ^ s.degree)
    (fun t => t.degree = s.degree ∧ t.coef0 = s.coef0 ∧
      t.gamma.getD (1 / (n : ℝ)) = s.gamma.getD (1 / (n : ℝ)))
    (fun t i j ht => ⟨{ s with gamma := some (s.gamma.getD (1 / (n : ℝ))) }, ⟨rfl, rfl, rfl⟩,
      by rw [hv, ht.1, ht.2.1, ht.2.2]⟩) s ⟨rfl, rfl, rfl⟩
  obtain ⟨t, i, j, ht, e⟩ := h2 hp
  rw [h3, e, hv, Prod.ext_iff]
  refine ⟨?_, ?_⟩
  · show ({ s with gamma := some (s.gamma.getD (1 / (n : ℝ))) } : PolyState ℝ) = _
    rw [← ht.1, ← ht.2.1, ← ht.2.2]
  · rw [polyMatrix_value]
    show ((of A).mul (of B).transpose).map _ = _
    rw [transpose_of, mul_of]
    rfl

end Verif.Props
