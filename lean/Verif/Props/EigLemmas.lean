import Verif.Props.EigSpec
import Verif.Props.Decomp
import Mathlib.LinearAlgebra.Matrix.Charpoly.Basic
import Mathlib.Algebra.Polynomial.Roots

/-!
# Orthonormal eigenvectors, sorting and singular values
-/

namespace Verif.Props
open Verif Verif.Mat
open scoped Matrix

variable {p : Nat}

/-- An orthonormal eigendecomposition. -/
structure OrthoEig (C : Matrix (Fin p) (Fin p) ℝ) (ev : Fin p → ℝ) (V : Matrix (Fin p) (Fin p) ℝ) : Prop where
  eigen : C * V = V * Matrix.diagonal ev
  ortho : Vᵀ * V = 1

theorem OrthoEig.ortho' {C : Matrix (Fin p) (Fin p) ℝ} {ev : Fin p → ℝ} {V : Matrix (Fin p) (Fin p) ℝ} (h : OrthoEig C ev V) :
    V * Vᵀ = 1 := mul_eq_one_comm.1 h.ortho

theorem OrthoEig.eq {C : Matrix (Fin p) (Fin p) ℝ} {ev : Fin p → ℝ} {V : Matrix (Fin p) (Fin p) ℝ} (h : OrthoEig C ev V) :
    C = V * Matrix.diagonal ev * Vᵀ := by
  rw [← h.eigen, Matrix.mul_assoc, h.ortho', Matrix.mul_one]

/-- Unit eigenvectors of a symmetric matrix with distinct eigenvalues are orthonormal. -/
theorem EigPair.orthoEig {C : Matrix (Fin p) (Fin p) ℝ} {ev : Fin p → ℝ} {V : Matrix (Fin p) (Fin p) ℝ} (h : EigPair C ev V)
    (hC : Cᵀ = C) (hi : Function.Injective ev) : OrthoEig C ev V := by
  refine ⟨h.eigen, ?_⟩
  have key : Vᵀ * (C * V) = (Vᵀ * C) * V := (Matrix.mul_assoc _ _ _).symm
  have h2 : Vᵀ * C = Matrix.diagonal ev * Vᵀ := by
    have := congrArg Matrix.transpose h.eigen
    rw [Matrix.transpose_mul, Matrix.transpose_mul, hC, Matrix.diagonal_transpose] at this
    exact this
  rw [h.eigen, h2, ← Matrix.mul_assoc, Matrix.mul_assoc (Matrix.diagonal ev)] at key
  ext i j
  have hk := congrFun (congrFun key i) j
  rw [Matrix.mul_diagonal, Matrix.diagonal_mul] at hk
  by_cases hij : i = j
  · subst hij
    rw [Matrix.one_apply_eq, Matrix.mul_apply, ← h.unit i]
    exact Finset.sum_congr rfl fun k _ => (pow_two _).symm
  · rw [Matrix.one_apply_ne hij]
    have hne : ev j - ev i ≠ 0 := sub_ne_zero.2 fun he => hij (hi he).symm
    have : (Vᵀ * V) i j * (ev j - ev i) = 0 := by linear_combination hk
    exact (mul_eq_zero.1 this).resolve_right hne

theorem OrthoEig.eigPair {C : Matrix (Fin p) (Fin p) ℝ} {ev : Fin p → ℝ} {V : Matrix (Fin p) (Fin p) ℝ} (h : OrthoEig C ev V) :
    EigPair C ev V := by
  refine ⟨h.eigen, fun h0 => ?_, fun j => ?_⟩
  · have := congrArg Matrix.det h.ortho
    rw [Matrix.det_mul, h0, mul_zero, Matrix.det_one] at this
    exact zero_ne_one this
  · have := congrFun (congrFun h.ortho j) j
    rw [Matrix.one_apply_eq, Matrix.mul_apply] at this
    rw [← this]
    exact Finset.sum_congr rfl fun k _ => pow_two _

theorem OrthoEig.col {C : Matrix (Fin p) (Fin p) ℝ} {ev : Fin p → ℝ} {V : Matrix (Fin p) (Fin p) ℝ} (h : OrthoEig C ev V) (j : Fin p) :
    C *ᵥ V.col j = ev j • V.col j := by
  ext i
  have := congrFun (congrFun h.eigen i) j
  rw [Matrix.mul_diagonal, mul_comm] at this
  exact this

theorem OrthoEig.col_ne {C : Matrix (Fin p) (Fin p) ℝ} {ev : Fin p → ℝ} {V : Matrix (Fin p) (Fin p) ℝ} (h : OrthoEig C ev V) (j : Fin p) :
    V.col j ≠ 0 := by
  intro h0
  have := congrFun (congrFun h.ortho j) j
  rw [Matrix.one_apply_eq, Matrix.mul_apply] at this
  have h1 : ∀ k, V k j = 0 := fun k => congrFun h0 k
  simp [h1] at this

theorem OrthoEig.col_inj {C : Matrix (Fin p) (Fin p) ℝ} {ev : Fin p → ℝ} {V : Matrix (Fin p) (Fin p) ℝ} (h : OrthoEig C ev V)
    {i j : Fin p} (hij : V.col i = V.col j) : i = j := by
  by_contra hne
  have h1 := congrFun (congrFun h.ortho i) j
  have h2 := congrFun (congrFun h.ortho i) i
  rw [Matrix.one_apply_ne hne, Matrix.mul_apply] at h1
  rw [Matrix.one_apply_eq, Matrix.mul_apply] at h2
  have h3 : ∀ k, V k i = V k j := fun k => congrFun hij k
  simp only [Matrix.transpose_apply] at h1 h2
  simp only [← h3] at h1
  exact zero_ne_one (h1.symm.trans h2)

/-- The sorted accessors on an orthonormal eigendecomposition rearrange it. -/
theorem sorted_ortho (hp : p ≠ 0) {C : Matrix (Fin p) (Fin p) ℝ} {ev : Fin p → ℝ} {V : Matrix (Fin p) (Fin p) ℝ} (h : OrthoEig C ev V)
    (asc : Bool) : ∃ σ : Fin p → Fin p, Function.Bijective σ ∧
      eigenvectorsSorted (fun a b => decide (a ≤ b)) p (ofFn fun i (_ : Fin 1) => ev i) (of V) asc = .ok (of (V.submatrix id σ)) ∧
      eigenvaluesSorted (fun a b => decide (a ≤ b)) (ofFn fun i (_ : Fin 1) => ev i) asc = ofFn (fun i (_ : Fin 1) => ev (σ i)) ∧
      (if asc then Monotone (ev ∘ σ) else Antitone (ev ∘ σ)) ∧ OrthoEig C (ev ∘ σ) (V.submatrix id σ) := by
  obtain ⟨S, d, h1, h2, h3, h4, h5⟩ := C16_sorted_pairs hp C V ev ⟨h.col, h.col_ne⟩ asc
  have hmem : ∀ k, ∃ j, (ev j, V.col j) = (d k, S.col k) := fun k =>
    (List.mem_ofFn' _ _).1 (h5.mem_iff.1 ((List.mem_ofFn' _ _).2 ⟨k, rfl⟩))
  choose σ hσ using hmem
  have hnd : (List.ofFn fun k => (d k, S.col k)).Nodup := by
    refine h5.nodup_iff.2 (List.nodup_ofFn.2 fun i j hij => ?_)
    exact h.col_inj (Prod.ext_iff.1 hij).2
  have hinj : Function.Injective σ := by
    intro a b hab
    refine List.nodup_ofFn.1 hnd ?_
    show (d a, S.col a) = (d b, S.col b)
    rw [← hσ a, ← hσ b, hab]
  have hd : d = ev ∘ σ := funext fun k => (Prod.ext_iff.1 (hσ k)).1.symm
  have hS : S = V.submatrix id σ := by
    ext i k
    exact (congrFun (Prod.ext_iff.1 (hσ k)).2 i).symm
  have ho : (V.submatrix id σ)ᵀ * V.submatrix id σ = 1 := by
    ext i j
    have := congrFun (congrFun h.ortho (σ i)) (σ j)
    rw [Matrix.mul_apply] at this ⊢
    rw [Matrix.one_apply] at this ⊢
    simp only [Matrix.transpose_apply, Matrix.submatrix_apply, id] at this ⊢
    rw [this]
    by_cases hij : i = j
    · rw [if_pos hij, if_pos (by rw [hij])]
    · rw [if_neg hij, if_neg fun e => hij (hinj e)]
  refine ⟨σ, Finite.injective_iff_bijective.1 hinj, by rw [h1, hS], by rw [h2, hd]; rfl, by rw [hd] at h3; exact h3, ?_, ho⟩
  ext i j
  have := congrFun (h.col (σ j)) i
  rw [Matrix.mul_diagonal, mul_comm]
  exact this

/-- Contract of the singular values of a square matrix. -/
def IsSingular (C : Matrix (Fin p) (Fin p) ℝ) (s : Fin p → ℝ) : Prop :=
  ∃ u vh : Matrix (Fin p) (Fin p) ℝ, C = u * Matrix.diagonal s * vh ∧ uᵀ * u = 1 ∧ vh * vhᵀ = 1 ∧ (∀ i, 0 ≤ s i) ∧ Antitone s

/-- It is the contract of `np.linalg.svd` for a square matrix. -/
theorem isSingular_of_svd (C : Matrix (Fin p) (Fin p) ℝ) {u : Matrix (Fin p) (Fin (min p p)) ℝ} {s : Fin (min p p) → ℝ}
    {vh : Matrix (Fin (min p p)) (Fin p) ℝ} (h : IsSVD C u s vh) : IsSingular C fun i => s (i.cast (min_self p).symm) := by
  let e : Fin p ≃ Fin (min p p) := finCongr (min_self p).symm
  refine ⟨u.submatrix id e, vh.submatrix e id, ?_, ?_, ?_, fun i => h.nonneg _, fun i j hij => h.anti hij⟩
  · have h1 : Matrix.diagonal (fun i : Fin p => s (i.cast (min_self p).symm)) = (Matrix.diagonal s).submatrix e e :=
      (Matrix.submatrix_diagonal_equiv s e).symm
    rw [h1, Matrix.submatrix_mul_equiv, Matrix.submatrix_mul_equiv, Matrix.submatrix_id_id]
    exact h.eq
  · rw [Matrix.transpose_submatrix, Matrix.submatrix_mul _ _ _ _ _ Function.bijective_id |>.symm, h.left]
    exact Matrix.submatrix_one_equiv e
  · rw [Matrix.transpose_submatrix, Matrix.submatrix_mul _ _ _ _ _ Function.bijective_id |>.symm, h.right]
    exact Matrix.submatrix_one_equiv e

theorem multiset_antitone {f g : Fin p → ℝ} (hf : Antitone f) (hg : Antitone g)
    (h : Finset.univ.val.map f = Finset.univ.val.map g) : f = g := by
  have e : ∀ f : Fin p → ℝ, Finset.univ.val.map f = ((List.ofFn f : List ℝ) : Multiset ℝ) := by
    intro f
    rw [List.ofFn_eq_map]
    rfl
  rw [e, e, Multiset.coe_eq_coe] at h
  have := h.eq_of_pairwise (le := (· ≥ ·)) (fun a b _ _ h1 h2 => le_antisymm h2 h1)
    (List.sortedGE_ofFn_iff.2 hf).pairwise (List.sortedGE_ofFn_iff.2 hg).pairwise
  exact List.ofFn_injective this

theorem roots_diag (d : Fin p → ℝ) : (Matrix.diagonal d).charpoly.roots = Finset.univ.val.map d := by
  rw [Matrix.charpoly_diagonal]
  have := Polynomial.roots_multiset_prod_X_sub_C (Finset.univ.val.map d)
  rw [Multiset.map_map] at this
  exact this

/-- The singular values of a positive semidefinite symmetric matrix are its eigenvalues in descending order. -/
theorem singular_eq {C : Matrix (Fin p) (Fin p) ℝ} {ev : Fin p → ℝ} {V : Matrix (Fin p) (Fin p) ℝ} (h : OrthoEig C ev V)
    (hn : ∀ i, 0 ≤ ev i) {s : Fin p → ℝ} (hs : IsSingular C s) (σ : Fin p → Fin p) (hσ : Function.Bijective σ) (ha : Antitone (ev ∘ σ)) :
    s = ev ∘ σ := by
  obtain ⟨u, vh, hC, hu, hv, hs0, hsa⟩ := hs
  have h1 : (Cᵀ * C).charpoly = (Matrix.diagonal fun i => s i ^ 2).charpoly := by
    have : Cᵀ * C = vhᵀ * ((Matrix.diagonal fun i => s i ^ 2) * vh) := by
      rw [hC, Matrix.transpose_mul, Matrix.transpose_mul, Matrix.diagonal_transpose]
      calc vhᵀ * (Matrix.diagonal s * uᵀ) * (u * Matrix.diagonal s * vh)
          = vhᵀ * (Matrix.diagonal s * (uᵀ * u) * Matrix.diagonal s * vh) := by simp only [Matrix.mul_assoc]
        _ = _ := by
          rw [hu, Matrix.mul_one, Matrix.diagonal_mul_diagonal]
          simp only [pow_two]
    rw [this, Matrix.charpoly_mul_comm, Matrix.mul_assoc, hv, Matrix.mul_one]
  have h2 : (Cᵀ * C).charpoly = (Matrix.diagonal fun i => ev i ^ 2).charpoly := by
    have : Cᵀ * C = V * ((Matrix.diagonal fun i => ev i ^ 2) * Vᵀ) := by
      rw [h.eq, Matrix.transpose_mul, Matrix.transpose_mul, Matrix.diagonal_transpose, Matrix.transpose_transpose]
      calc V * (Matrix.diagonal ev * Vᵀ) * (V * Matrix.diagonal ev * Vᵀ)
          = V * (Matrix.diagonal ev * (Vᵀ * V) * Matrix.diagonal ev * Vᵀ) := by simp only [Matrix.mul_assoc]
        _ = _ := by
          rw [h.ortho, Matrix.mul_one, Matrix.diagonal_mul_diagonal]
          simp only [pow_two]
    rw [this, Matrix.charpoly_mul_comm, Matrix.mul_assoc, h.ortho, Matrix.mul_one]
  have h3 : Finset.univ.val.map (fun i => s i ^ 2) = Finset.univ.val.map (fun i => ev (σ i) ^ 2) := by
    rw [← roots_diag, ← h1, h2, roots_diag]
    have hb := Finset.univ.val.map_map (fun i => ev i ^ 2) (Equiv.ofBijective σ hσ)
    have : (Finset.univ : Finset (Fin p)).val.map (Equiv.ofBijective σ hσ) = (Finset.univ : Finset (Fin p)).val := by
      have := congrArg Finset.val (Finset.map_univ_equiv (Equiv.ofBijective σ hσ))
      exact this
    rw [this] at hb
    exact hb
  have h4 := multiset_antitone (f := fun i => s i ^ 2) (g := fun i => ev (σ i) ^ 2)
    (fun i j hij => pow_le_pow_left₀ (hs0 j) (hsa hij) 2) (fun i j hij => pow_le_pow_left₀ (hn _) (ha hij) 2) h3
  funext i
  have := congrFun h4 i
  exact (pow_left_inj₀ (hs0 i) (hn _) two_ne_zero).1 this

/-- Singular values exist: those of a symmetric positive semidefinite matrix. -/
theorem isSingular_of_ortho {C : Matrix (Fin p) (Fin p) ℝ} {ev : Fin p → ℝ} {V : Matrix (Fin p) (Fin p) ℝ} (h : OrthoEig C ev V)
    (hn : ∀ i, 0 ≤ ev i) (ha : Antitone ev) : IsSingular C ev :=
  ⟨V, Vᵀ, h.eq, h.ortho, by rw [Matrix.transpose_transpose, h.ortho], hn, ha⟩

/-- Contract of `np.linalg.svd(M, full_matrices=False)`, with `r` singular values. -/
structure ThinSVD {p q : Nat} (r : Nat) (M : Matrix (Fin p) (Fin q) ℝ) (u : Matrix (Fin p) (Fin r) ℝ) (s : Fin r → ℝ) (vh : Matrix (Fin r) (Fin q) ℝ) : Prop where
  size : r = min p q
  eq : M = u * Matrix.diagonal s * vh
  left : uᵀ * u = 1
  right : vh * vhᵀ = 1
  nonneg : ∀ i, 0 ≤ s i
  anti : Antitone s

end Verif.Props
