import Verif.Core.SelLemmas
import Mathlib.LinearAlgebra.Matrix.NonsingularInverse

/-!
# Solving linear systems, and a loop filling a matrix

`np.linalg.solve` and `np.linalg.inv` are modelled in exact arithmetic: a singular matrix raises
`LinAlgError`, otherwise the result is the exact one.  (With rounding, NumPy only notices a pivot that
is exactly zero.)
-/

namespace Verif
namespace Mat

variable {α : Type}

/-- The inverse matrix, computably (adjugate over determinant). -/
def invMatrix [Field α] {n : Nat} (M : Matrix (Fin n) (Fin n) α) : Matrix (Fin n) (Fin n) α :=
  M.det⁻¹ • M.adjugate

theorem invMatrix_eq [Field α] {n : Nat} (M : Matrix (Fin n) (Fin n) α) : invMatrix M = M⁻¹ := by
  rw [invMatrix, Matrix.inv_def, Ring.inverse_eq_inv']

/-- `helper.solve`, `helper.py` 231-232: `np.linalg.solve` wants a square matrix (`LinAlgError`),
right-hand sides of the same height (`ValueError`) and a non-singular matrix (`LinAlgError`). -/
def solve [Field α] [DecidableEq α] (A b : Mat α) : Except PyErr (Mat α) :=
  if h : A.rows = A.cols then
    if hb : b.rows = A.cols then
      let M : Matrix (Fin A.cols) (Fin A.cols) α := Matrix.of fun i j => A.data (i.cast h.symm) j
      if M.det = 0 then .error .linAlgError
      else .ok ⟨A.cols, b.cols, invMatrix M * Matrix.of fun i j => b.data (i.cast hb.symm) j⟩
    else .error .valueError
  else .error .linAlgError

/-- `Matrix.inverse` of a square matrix, `_Matrix.py` 298-300.  For other matrices the code solves a
least squares problem (302-304), which is the parameter `lstsq`. -/
def inverse [Field α] [DecidableEq α] (lstsq : Mat α → Except PyErr (Mat α)) (A : Mat α) :
    Except PyErr (Mat α) :=
  if h : A.rows = A.cols then
    let M : Matrix (Fin A.cols) (Fin A.cols) α := Matrix.of fun i j => A.data (i.cast h.symm) j
    if M.det = 0 then .error .linAlgError
    else .ok ⟨A.cols, A.cols, invMatrix M⟩
  else lstsq A

theorem solve_of [Field α] [DecidableEq α] {n k : Nat} (A : Matrix (Fin n) (Fin n) α)
    (b : Matrix (Fin n) (Fin k) α) (h : A.det ≠ 0) : solve (of A) (of b) = .ok (of (A⁻¹ * b)) := by
  unfold solve
  rw [dif_pos rfl, dif_pos rfl, ← invMatrix_eq]
  exact if_neg h

theorem solve_singular [Field α] [DecidableEq α] {n k : Nat} (A : Matrix (Fin n) (Fin n) α)
    (b : Matrix (Fin n) (Fin k) α) (h : A.det = 0) : solve (of A) (of b) = .error .linAlgError := by
  unfold solve
  rw [dif_pos rfl, dif_pos rfl]
  exact if_pos h

theorem inverse_of [Field α] [DecidableEq α] {n : Nat} (lstsq : Mat α → Except PyErr (Mat α))
    (A : Matrix (Fin n) (Fin n) α) (h : A.det ≠ 0) : inverse lstsq (of A) = .ok (of A⁻¹) := by
  unfold inverse
  rw [dif_pos rfl, ← invMatrix_eq]
  exact if_neg h

theorem inverse_singular [Field α] [DecidableEq α] {n : Nat} (lstsq : Mat α → Except PyErr (Mat α))
    (A : Matrix (Fin n) (Fin n) α) (h : A.det = 0) : inverse lstsq (of A) = .error .linAlgError := by
  unfold inverse
  rw [dif_pos rfl]
  exact if_pos h

/-! ## Filling a matrix in a loop -/

/-- `for i in rows: for j in cols: M.set(i, j, f(i, j))` over a list of index pairs. -/
def fillLoop (f : Int → Int → Except PyErr α) : List (Int × Int) → Mat α → Except PyErr (Mat α)
  | [], M => .ok M
  | (i, j) :: r, M => do
    let v ← f i j
    let M' ← M.set i j v
    fillLoop f r M'

/-- The index pairs of two nested loops. -/
def pairs (rows cols : List Int) : List (Int × Int) := rows.flatMap fun i => cols.map fun j => (i, j)

/-- Index pairs as Python integers. -/
def castPair {m n : Nat} (c : Fin m × Fin n) : Int × Int := (((c.1 : Nat) : Int), ((c.2 : Nat) : Int))

open Classical in
theorem fillLoop_of {m n : Nat} (f : Int → Int → Except PyErr α) (g : Fin m → Fin n → α)
    (cs : List (Fin m × Fin n))
    (hf : ∀ c ∈ cs, f ((c.1 : Nat) : Int) ((c.2 : Nat) : Int) = .ok (g c.1 c.2))
    (A : Matrix (Fin m) (Fin n) α) :
    fillLoop f (cs.map castPair) (of A) =
      .ok (of (Matrix.of fun i j => if (i, j) ∈ cs then g i j else A i j)) := by
  induction cs generalizing A with
  | nil =>
    show Except.ok _ = _
    congr 1
  | cons c cs ih =>
    rw [List.map_cons, show castPair c = (((c.1 : Nat) : Int), ((c.2 : Nat) : Int)) from rfl, fillLoop,
      hf c (List.mem_cons_self ..)]
    have hs : (of A).set ((c.1 : Nat) : Int) ((c.2 : Nat) : Int) (g c.1 c.2) = _ := set_of A c.1 c.2 _
    show ((of A).set _ _ _ >>= fun M' => fillLoop f _ M') = _
    rw [hs]
    show fillLoop f _ (of _) = _
    rw [ih fun c hc => hf c (List.mem_cons_of_mem _ hc)]
    congr 1
    refine mk_congr fun i j => ?_
    simp only [Matrix.of_apply, List.mem_cons]
    by_cases h1 : (i, j) ∈ cs
    · simp [h1]
    · by_cases h2 : (i, j) = c
      · subst h2; simp [h1]
      · have h3 : ¬ (i = c.1 ∧ j = c.2) := fun h => h2 (Prod.ext h.1 h.2)
        simp [h1, h2, h3]

/-- The full double loop overwrites every entry. -/
theorem fillLoop_all {m n : Nat} (f : Int → Int → Except PyErr α) (g : Fin m → Fin n → α)
    (hf : ∀ i j, f (((i : Fin m) : Nat) : Int) (((j : Fin n) : Nat) : Int) = .ok (g i j))
    (A : Matrix (Fin m) (Fin n) α) :
    fillLoop f (pairs (pyRange 0 m) (pyRange 0 n)) (of A) = .ok (of (Matrix.of fun i j => g i j)) := by
  have hr : ∀ k : Nat, pyRange 0 (k : Int) =
      (List.finRange k).map fun (i : Fin k) => ((i.1 : Nat) : Int) := by
    intro k
    rw [pyRange_zero, ← List.map_coe_finRange_eq_range, List.map_map]
    rfl
  have hp : pairs (pyRange 0 m) (pyRange 0 n) =
      ((List.finRange m).flatMap fun i => (List.finRange n).map fun j => (i, j)).map castPair := by
    rw [pairs, hr, hr, List.flatMap_map, List.map_flatMap]
    congr 1
    funext i
    rw [List.map_map, List.map_map]
    rfl
  rw [hp, fillLoop_of f g _ (fun c _ => hf c.1 c.2)]
  congr 1
  refine mk_congr fun i j => ?_
  simp

end Mat
end Verif
