import Verif.Core.MatLemmas
import Mathlib.Analysis.Matrix.Spectrum

/-!
# Contracts of `np.linalg.eig` and `np.argsort`

The properties quantify over every routine meeting these contracts; such routines exist.
-/

namespace Verif.Props
open Verif Verif.Mat
open scoped Matrix

/-- Eigenvalues `ev` and eigenvectors (the columns of `V`) of `C`, forming a basis. -/
structure EigPair {m : Nat} (C : Matrix (Fin m) (Fin m) ℝ) (ev : Fin m → ℝ) (V : Matrix (Fin m) (Fin m) ℝ) : Prop where
  eigen : C * V = V * Matrix.diagonal ev
  regular : V.det ≠ 0
  /-- Eigenvectors have length one. -/
  unit : ∀ j, ∑ k, V k j ^ 2 = 1

/-- `np.linalg.eig` on symmetric matrices: the eigenvalues as a column and a basis of eigenvectors, in any order. -/
def EigRoutine (eig : Mat ℝ → Except PyErr (Mat ℝ × Mat ℝ)) : Prop :=
  ∀ {m : Nat} (C : Matrix (Fin m) (Fin m) ℝ), Cᵀ = C →
    ∃ ev V, eig (of C) = .ok (of (Matrix.of fun i (_ : Fin 1) => ev i), of V) ∧ EigPair C ev V

/-- `np.argsort`: some permutation that puts the values in ascending order. -/
def ArgsortRoutine (argsort : List ℝ → List Nat) : Prop :=
  ∀ {m : Nat} (f : Fin m → ℝ), ∃ ord : Fin m → Fin m, Function.Bijective ord ∧ Monotone (f ∘ ord) ∧
    argsort (List.ofFn f) = List.ofFn fun i => (ord i).1

theorem EigPair.trace {m : Nat} {C : Matrix (Fin m) (Fin m) ℝ} {ev : Fin m → ℝ} {V : Matrix (Fin m) (Fin m) ℝ}
    (h : EigPair C ev V) : C.trace = ∑ i, ev i := by
  have hu : IsUnit V.det := isUnit_iff_ne_zero.2 h.regular
  have h1 : C = V * Matrix.diagonal ev * V⁻¹ := by
    rw [← h.eigen, Matrix.mul_nonsing_inv_cancel_right _ _ hu]
  rw [h1, Matrix.trace_mul_comm, ← Matrix.mul_assoc, Matrix.nonsing_inv_mul _ hu, Matrix.one_mul, Matrix.trace_diagonal]

/-- Symmetric matrices have an orthonormal basis of eigenvectors. -/
theorem symm_eig {m : Nat} (C : Matrix (Fin m) (Fin m) ℝ) (hC : Cᵀ = C) :
    ∃ ev V, EigPair C ev V ∧ Vᵀ * V = 1 := by
  have hH : C.IsHermitian := by
    rw [Matrix.IsHermitian, Matrix.conjTranspose_eq_transpose_of_trivial, hC]
  set U : Matrix (Fin m) (Fin m) ℝ := (hH.eigenvectorUnitary : Matrix (Fin m) (Fin m) ℝ) with hU
  have h1 : Uᵀ * U = 1 := by
    have := Matrix.mem_unitaryGroup_iff'.1 hH.eigenvectorUnitary.2
    rw [Matrix.star_eq_conjTranspose, Matrix.conjTranspose_eq_transpose_of_trivial] at this
    exact this
  refine ⟨hH.eigenvalues, U, ⟨?_, ?_, ?_⟩, h1⟩
  · ext i j
    have := congrFun (hH.mulVec_eigenvectorBasis j) i
    rw [Matrix.mul_diagonal, Matrix.mul_apply]
    rw [Pi.smul_apply, smul_eq_mul] at this
    rw [mul_comm]
    exact this
  · intro h0
    have := congrArg Matrix.det h1
    rw [Matrix.det_mul, h0, mul_zero, Matrix.det_one] at this
    exact zero_ne_one this
  · intro j
    have := congrFun (congrFun h1 j) j
    rw [Matrix.one_apply_eq, Matrix.mul_apply] at this
    rw [← this]
    exact Finset.sum_congr rfl fun k _ => pow_two _

/-- Routines meeting the contracts exist. -/
theorem eigRoutine_exists : ∃ eig, EigRoutine eig := by
  classical
  let good (M : Mat ℝ) (o : Mat ℝ × Mat ℝ) : Prop := ∃ (m : Nat) (C : Matrix (Fin m) (Fin m) ℝ) (ev : Fin m → ℝ) (V : Matrix (Fin m) (Fin m) ℝ),
    M = of C ∧ o = (of (Matrix.of fun i (_ : Fin 1) => ev i), of V) ∧ EigPair C ev V
  refine ⟨fun M => if h : ∃ o, good M o then .ok h.choose else .error .linAlgError, ?_⟩
  intro m C hC
  obtain ⟨ev, V, hp, _⟩ := symm_eig C hC
  have h : ∃ o, good (of C) o := ⟨_, m, C, ev, V, rfl, rfl, hp⟩
  obtain ⟨m', C', ev', V', e1, e2, e3⟩ := h.choose_spec
  have hm : m = m' := congrArg Mat.rows e1
  subst hm
  rw [of_inj] at e1
  subst e1
  exact ⟨ev', V', (dif_pos h).trans (congrArg Except.ok e2), e3⟩

theorem argsortRoutine_exists : ∃ argsort, ArgsortRoutine argsort := by
  classical
  refine ⟨fun l => List.ofFn fun i => (Tuple.sort (fun k : Fin l.length => l.get k) i).1, ?_⟩
  intro m f
  have hl : (List.ofFn f).length = m := List.length_ofFn
  have hget : (fun k : Fin (List.ofFn f).length => (List.ofFn f).get k) = fun k => f (k.cast hl) := by
    funext k
    simp
    rfl
  refine ⟨fun i => (Tuple.sort (fun k : Fin (List.ofFn f).length => (List.ofFn f).get k) (i.cast hl.symm)).cast hl, ?_, ?_, ?_⟩
  · exact (finCongr hl).bijective.comp ((Equiv.bijective _).comp (finCongr hl.symm).bijective)
  · intro a b hab
    have := Tuple.monotone_sort (fun k : Fin (List.ofFn f).length => (List.ofFn f).get k) (a := a.cast hl.symm) (b := b.cast hl.symm) hab
    simp only [Function.comp] at this ⊢
    have hv : ∀ k : Fin (List.ofFn f).length, (List.ofFn f).get k = f (k.cast hl) := fun k => congrFun hget k
    rw [hv, hv] at this
    exact this
  · apply List.ext_getElem
    · simp
    · intro i h1 h2
      simp

end Verif.Props
