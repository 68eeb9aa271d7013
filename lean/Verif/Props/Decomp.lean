import Verif.Core.SelLemmas
import Verif.Core.Eigen
import Verif.Core.RealInst
import Mathlib.Data.List.Sort
import Mathlib.Data.List.OfFn
import Mathlib.LinearAlgebra.Matrix.Notation

/-!
# C15, C16 — SVD accessors and sorted eigenpairs

`np.linalg.svd` / `np.linalg.eig` are external: the claims quantify over every output that meets
the routine's contract (`IsSVD`, `IsEig`).
-/

namespace Verif.Props
open Verif Verif.Mat
open scoped Matrix
open Matrix (diagonal diagonal_apply diagonal_apply_ne mulVec)

/-! ## C15 -/

/-- Contract of `np.linalg.svd(A, full_matrices=False)`: `A = u · diag(s) · vh` with orthonormal
columns of `u`, orthonormal rows of `vh` and non-negative, non-increasing singular values. -/
structure IsSVD {m n : Nat} (A : Matrix (Fin m) (Fin n) ℝ)
    (u : Matrix (Fin m) (Fin (min m n)) ℝ) (s : Fin (min m n) → ℝ)
    (vh : Matrix (Fin (min m n)) (Fin n) ℝ) : Prop where
  eq : A = u * diagonal s * vh
  left : uᵀ * u = 1
  right : vh * vhᵀ = 1
  nonneg : ∀ i, 0 ≤ s i
  anti : Antitone s

theorem vecEntries_row {k : Nat} (s : Fin k → ℝ) :
    (ofFn fun (_ : Fin 1) j => s j : Mat ℝ).vecEntries = some (List.ofFn s) := by
  unfold vecEntries
  by_cases h : k = 1
  · subst h
    rw [dif_pos rfl]
    simp
  · rw [dif_neg h, dif_pos rfl]; rfl

theorem vectorToDiagonal_row {k : Nat} (hk : k ≠ 0) (s : Fin k → ℝ) :
    (ofFn fun (_ : Fin 1) j => s j : Mat ℝ).vectorToDiagonal = .ok (of (diagonal s)) := by
  unfold vectorToDiagonal
  rw [vecEntries_row]
  simp only []
  rw [if_neg (by simpa using hk), ok_inj]
  refine mk_eq (by simp) (by simp) fun i j => ?_
  show (if j = i then (List.ofFn s).get j else 0) = diagonal s _ _
  rw [diagonal_apply]
  by_cases hij : j = i
  · subst hij
    rw [if_pos rfl, if_pos rfl]; simp; rfl
  · rw [if_neg hij, if_neg]
    intro h'
    apply hij
    apply Fin.ext
    simpa using (congrArg Fin.val h').symm

theorem svdS_of (k : Nat) (hk : k ≠ 0) (s : Fin k → ℝ) :
    svdS (ofFn fun (_ : Fin 1) j => s j) = .ok (of (diagonal s)) := vectorToDiagonal_row hk s

/-- C15 (partial: what the accessors *do* reconstruct).  `svd_U · svd_S · svd_V` — without
transposing `svd_V` — equals the matrix, the factors have orthonormal columns / rows, and the
diagonal of `svd_S` is non-increasing and non-negative.  Missing: `svd_V` holds the transposed
right factor, so the documented `U·S·Vᵀ` fails (see the violation below). -/
theorem C15_svd_partial {m n : Nat} (hm : m ≠ 0) (hn : n ≠ 0) (A : Matrix (Fin m) (Fin n) ℝ)
    (u : Matrix (Fin m) (Fin (min m n)) ℝ) (s : Fin (min m n) → ℝ)
    (vh : Matrix (Fin (min m n)) (Fin n) ℝ) (h : IsSVD A u s vh) :
    ∃ (U : Matrix (Fin m) (Fin (min m n)) ℝ) (V : Matrix (Fin (min m n)) (Fin n) ℝ)
      (S : Matrix (Fin (min m n)) (Fin (min m n)) ℝ), svdU (of u) = of U ∧ svdV (of vh) = of V ∧
      svdS (ofFn fun (_ : Fin 1) j => s j) = .ok (of S) ∧
      (do let US ← (of U).mul (of S); US.mul (of V)) = .ok (of A) ∧
      Uᵀ * U = 1 ∧ V * Vᵀ = 1 ∧
      (∀ i j, i ≠ j → S i j = 0) ∧ (∀ i, 0 ≤ S i i) ∧ Antitone fun i => S i i := by
  refine ⟨-u, -vh, diagonal s, ?_, ?_, svdS_of _ (by omega) s, ?_, ?_, ?_, ?_, ?_, ?_⟩
  · unfold svdU; rw [smul_of]; simp
  · unfold svdV; rw [smul_of]; simp
  · rw [mul_of, except_bind_ok, mul_of, h.eq]; simp
  · simp [h.left]
  · simp [h.right]
  · intro i j hij; exact diagonal_apply_ne _ hij
  · intro i; simpa using h.nonneg i
  · intro i j hij; simpa using h.anti hij

/-- C15 is violated: for every matrix with more columns than rows the documented product
`U·S·Vᵀ` of the accessors is not even defined (shape `ValueError`), whatever valid SVD the
solver returned. -/
theorem C15_svd_violation {m n : Nat} (hm : m ≠ 0) (hmn : m < n) (A : Matrix (Fin m) (Fin n) ℝ)
    (u : Matrix (Fin m) (Fin (min m n)) ℝ) (s : Fin (min m n) → ℝ)
    (vh : Matrix (Fin (min m n)) (Fin n) ℝ) (_h : IsSVD A u s vh) :
    (do let S ← svdS (ofFn fun (_ : Fin 1) j => s j)
        let US ← (svdU (of u)).mul S
        US.mul (svdV (of vh)).transpose) = .error .valueError := by
  rw [svdS_of _ (by omega), except_bind_ok]
  unfold svdU svdV
  rw [smul_of, smul_of, transpose_of, mul_of, except_bind_ok]
  refine mul_error ?_
  show min m n ≠ n
  omega

/-- The SVD contract is satisfiable: a wide 1×2 matrix. -/
example : IsSVD (!![0, 2] : Matrix (Fin 1) (Fin 2) ℝ) !![-1] (fun _ => 2) !![0, -1] where
  eq := by ext i j; fin_cases i; fin_cases j <;> simp [Matrix.mul_apply]
  left := by ext i j; fin_cases i; fin_cases j; simp [Matrix.mul_apply]
  right := by ext i j; fin_cases i; fin_cases j; simp [Matrix.mul_apply, Fin.sum_univ_two]
  nonneg := by intro i; norm_num
  anti := by intro i j _; rfl

/-! ## C16 -/

/-- Contract of `np.linalg.eig` on a matrix with real spectrum: column `j` of `V` is a non-zero
eigenvector for `lam j`. -/
structure IsEig {n : Nat} (A V : Matrix (Fin n) (Fin n) ℝ) (lam : Fin n → ℝ) : Prop where
  eigen : ∀ j, A *ᵥ V.col j = lam j • V.col j
  nonzero : ∀ j, V.col j ≠ 0

theorem eigenpairs_of {n : Nat} (lam : Fin n → ℝ) (V : Matrix (Fin n) (Fin n) ℝ) :
    eigenpairs n (ofFn fun i (_ : Fin 1) => lam i) (of V) =
      .ok (List.ofFn fun j : Fin n => (lam j, (ofFn fun i (_ : Fin 1) => V i j : Mat ℝ))) := by
  have key : ∀ (f : Int → Except PyErr (ℝ × Mat ℝ)) (g : Fin n → ℝ × Mat ℝ) (l : List (Fin n)),
      (∀ j : Fin n, f ((j : Nat) : Int) = .ok (g j)) →
      (l.map fun j : Fin n => ((j : Nat) : Int)).mapM f = .ok (l.map g) := by
    intro f g l hf
    induction l with
    | nil => rfl
    | cons a l ih => rw [List.map_cons, List.mapM_cons, hf, ih]; rfl
  have hr : pyRange 0 n = (List.finRange n).map fun j : Fin n => ((j : Nat) : Int) := by
    rw [pyRange_zero, ← List.map_coe_finRange_eq_range, List.map_map]; rfl
  unfold eigenpairs
  rw [hr, key _ (fun j : Fin n => (lam j, (ofFn fun i (_ : Fin 1) => V i j : Mat ℝ)))]
  · rw [List.ofFn_eq_map]
  · intro j
    have h1 : (ofFn fun i (_ : Fin 1) => lam i : Mat ℝ).getFromVector ((j : Nat) : Int) =
        .ok (lam j) := by
      unfold getFromVector
      simp only [mustBeVector_col, except_bind_ok]
      by_cases hn : n = 1
      · subst hn
        rw [if_pos (by simp)]
        have : j = 0 := Subsingleton.elim _ _
        subst this
        rfl
      · rw [if_neg (by simp [hn])]
        exact get_of_col _ j
    rw [h1, getColumn_of]; rfl

/-- The eigenvector accessor on typed data: the columns in sorted order. -/
theorem eigenvectorsSorted_of {n : Nat} (hn : n ≠ 0) (lam : Fin n → ℝ)
    (V : Matrix (Fin n) (Fin n) ℝ) (asc : Bool) :
    ∃ L : List (ℝ × (Fin n → ℝ)), L.Perm (List.ofFn fun j => (lam j, V.col j)) ∧
      L.Pairwise (fun a b => if asc then a.1 ≤ b.1 else b.1 ≤ a.1) ∧
      eigenvectorsSorted (fun a b => decide (a ≤ b)) n (ofFn fun i (_ : Fin 1) => lam i) (of V) asc =
        .ok (colsMat n (L.map Prod.snd)) := by
  let le' : ℝ × (Fin n → ℝ) → ℝ × (Fin n → ℝ) → Bool :=
    fun a b => if asc then decide (a.1 ≤ b.1) else decide (b.1 ≤ a.1)
  let toM : ℝ × (Fin n → ℝ) → ℝ × Mat ℝ := fun p => (p.1, ⟨n, 1, Matrix.of fun i _ => p.2 i⟩)
  refine ⟨(List.ofFn fun j => (lam j, V.col j)).mergeSort le', List.mergeSort_perm _ _, ?_, ?_⟩
  · have := List.pairwise_mergeSort (le := le') (l := List.ofFn fun j => (lam j, V.col j))
      (by intro a b c; cases asc <;> simp only [le'] <;> simp <;> intros <;> linarith)
      (by intro a b; cases asc <;> simp only [le'] <;> simp [le_total])
    refine this.imp ?_
    intro a b h
    cases asc <;> simpa [le'] using h
  · unfold eigenvectorsSorted
    rw [eigenpairs_of, except_bind_ok]
    have hsort : sortPairs (fun a b : ℝ => decide (a ≤ b)) asc
        (List.ofFn fun j : Fin n => (lam j, (ofFn fun i (_ : Fin 1) => V i j : Mat ℝ))) =
        ((List.ofFn fun j => (lam j, V.col j)).mergeSort le').map toM := by
      unfold sortPairs
      rw [List.map_mergeSort (f := toM) (s := fun a b => if asc then decide (a.1 ≤ b.1) else decide (b.1 ≤ a.1))]
      · rw [List.map_ofFn]; rfl
      · intro a _ b _; rfl
    rw [hsort]
    have hlen : ((List.ofFn fun j => (lam j, V.col j)).mergeSort le').length = n := by
      rw [List.length_mergeSort, List.length_ofFn]
    cases hL : (List.ofFn fun j => (lam j, V.col j)).mergeSort le' with
    | nil => rw [hL] at hlen; exact absurd hlen.symm hn
    | cons p ps =>
      rw [List.map_cons]
      simp only []
      have := foldlM_concat_cols [p.2] (ps.map Prod.snd)
      rw [colsMat_singleton] at this
      rw [List.map_cons]
      have e : [p.2] ++ ps.map Prod.snd = p.2 :: ps.map Prod.snd := rfl
      rw [e] at this
      rw [← this, List.map_map]
      simp only [List.foldlM_map]
      rfl

theorem eigenvaluesSorted_of {n : Nat} (lam : Fin n → ℝ) (asc : Bool) :
    ∃ d : Fin n → ℝ, eigenvaluesSorted (fun a b => decide (a ≤ b))
        (ofFn fun i (_ : Fin 1) => lam i) asc = ofFn (fun i (_ : Fin 1) => d i) ∧
      (List.ofFn d).Perm (List.ofFn lam) ∧ (if asc then Monotone d else Antitone d) := by
  set L := (List.ofFn lam).mergeSort fun a b => decide (a ≤ b) with hL
  have hlen : L.length = n := by rw [hL, List.length_mergeSort, List.length_ofFn]
  have hperm : L.Perm (List.ofFn lam) := List.mergeSort_perm _ _
  have hsorted : L.Pairwise (· ≤ ·) := by
    have := List.pairwise_mergeSort (le := fun a b : ℝ => decide (a ≤ b)) (l := List.ofFn lam)
      (by intro a b c; simp; intros; linarith) (by intro a b; simp [le_total])
    exact this.imp fun {a b} h => by simpa using h
  let d0 : Fin n → ℝ := fun i => L.get (i.cast hlen.symm)
  have hd0 : List.ofFn d0 = L := by
    apply List.ext_get (by simp [hlen])
    intro k h1 h2
    simp [d0]
  have hmono : Monotone d0 := by
    rw [← List.sortedLE_ofFn_iff, hd0]
    exact hsorted.sortedLE
  have hsc : sortColumns (fun a b : ℝ => decide (a ≤ b)) (ofFn fun i (_ : Fin 1) => lam i) =
      ofFn (fun i (_ : Fin 1) => d0 i) := mk_congr fun i j => rfl
  cases asc with
  | true => exact ⟨d0, by simp [eigenvaluesSorted, hsc], by rw [hd0]; exact hperm, hmono⟩
  | false =>
    refine ⟨fun i => d0 i.rev, ?_, ?_, ?_⟩
    · simp only [eigenvaluesSorted, hsc, Bool.false_eq_true, if_false]
      exact mk_congr fun i j => rfl
    · have : (List.ofFn fun i => d0 i.rev) = L.reverse := by
        rw [← hd0]
        apply List.ext_getElem (by simp)
        intro k h1 h2
        simp only [List.getElem_ofFn, List.getElem_reverse, List.length_ofFn]
        congr 1
        apply Fin.ext
        simp [Fin.val_rev]
        omega
      rw [this]
      exact (List.reverse_perm L).trans hperm
    · intro i j hij
      exact hmono (Fin.rev_le_rev.2 hij)

/-- C16: for any valid eigensolver output, column `k` of the sorted eigenvector accessor is an
eigenvector for the `k`-th entry of the equally sorted eigenvalue accessor; the sorted
(value, vector) pairs are a rearrangement of the solver's pairs, and the values are monotone in
the requested direction. -/
theorem C16_sorted_pairs {n : Nat} (hn : n ≠ 0) (A V : Matrix (Fin n) (Fin n) ℝ) (lam : Fin n → ℝ)
    (h : IsEig A V lam) (asc : Bool) :
    ∃ (S : Matrix (Fin n) (Fin n) ℝ) (d : Fin n → ℝ),
      eigenvectorsSorted (fun a b => decide (a ≤ b)) n (ofFn fun i (_ : Fin 1) => lam i) (of V) asc
        = .ok (of S) ∧
      eigenvaluesSorted (fun a b => decide (a ≤ b)) (ofFn fun i (_ : Fin 1) => lam i) asc
        = ofFn (fun i (_ : Fin 1) => d i) ∧
      (if asc then Monotone d else Antitone d) ∧
      (∀ k, A *ᵥ S.col k = d k • S.col k ∧ S.col k ≠ 0) ∧
      (List.ofFn fun k => (d k, S.col k)).Perm (List.ofFn fun k => (lam k, V.col k)) := by
  obtain ⟨L, hperm, hsorted, hrun⟩ := eigenvectorsSorted_of hn lam V asc
  obtain ⟨d, hd, hdp, hdm⟩ := eigenvaluesSorted_of lam asc
  have hlen : L.length = n := by rw [hperm.length_eq, List.length_ofFn]
  -- the values of the pairs are `d`
  have hvals : L.map Prod.fst = List.ofFn d := by
    have hp : (L.map Prod.fst).Perm (List.ofFn d) := by
      refine (hperm.map Prod.fst).trans ?_
      rw [List.map_ofFn]
      exact hdp.symm
    cases asc with
    | true =>
      simp only [if_true] at hdm hsorted
      refine hp.eq_of_pairwise (le := (· ≤ ·)) (fun a b _ _ h1 h2 => le_antisymm h1 h2) ?_ ?_
      · rw [List.pairwise_map]; exact hsorted
      · exact (List.sortedLE_ofFn_iff.2 hdm).pairwise
    | false =>
      simp only [Bool.false_eq_true, if_false] at hdm hsorted
      refine hp.eq_of_pairwise (le := (· ≥ ·)) (fun a b _ _ h1 h2 => le_antisymm h2 h1) ?_ ?_
      · rw [List.pairwise_map]; exact hsorted
      · exact (List.sortedGE_ofFn_iff.2 hdm).pairwise
  let S : Matrix (Fin n) (Fin n) ℝ := Matrix.of fun i k => (L.get (k.cast hlen.symm)).2 i
  have hS : colsMat n (L.map Prod.snd) = of S := by
    refine mk_eq rfl (by simp [hlen]) fun i j => ?_
    simp [S]
  have hpair : ∀ k : Fin n, (d k, S.col k) = L.get (k.cast hlen.symm) := by
    intro k
    refine Prod.ext ?_ rfl
    have h1 : (L.map Prod.fst)[k.val]? = (List.ofFn d)[k.val]? := by rw [hvals]
    rw [List.getElem?_ofFn, dif_pos k.2, List.getElem?_map,
      List.getElem?_eq_getElem (by rw [hlen]; exact k.2)] at h1
    simpa using h1.symm
  refine ⟨S, d, by rw [hrun, hS], hd, hdm, fun k => ?_, ?_⟩
  · have hmem : (d k, S.col k) ∈ List.ofFn fun k => (lam k, V.col k) := by
      rw [hpair]; exact hperm.mem_iff.1 (List.get_mem _ _)
    obtain ⟨j, hj⟩ := (List.mem_ofFn' _ _).1 hmem
    have h1 : lam j = d k := congrArg Prod.fst hj
    have h2 : V.col j = S.col k := congrArg Prod.snd hj
    rw [← h1, ← h2]
    exact ⟨h.eigen j, h.nonzero j⟩
  · have : (List.ofFn fun k => (d k, S.col k)) = L := by
      apply List.ext_get (by simp [hlen])
      intro k h1 h2
      simp only [List.get_ofFn]
      rw [hpair]; rfl
    rw [this]; exact hperm

/-- C16: the dominant eigenvector is one of the solver's vectors and belongs to the largest eigenvalue. -/
theorem C16_dominant {n : Nat} (hn : n ≠ 0) (A V : Matrix (Fin n) (Fin n) ℝ) (lam : Fin n → ℝ)
    (h : IsEig A V lam) :
    ∃ (v : Fin n → ℝ) (l : ℝ), dominantEigenvector (fun a b => decide (a ≤ b)) n
        (ofFn fun i (_ : Fin 1) => lam i) (of V) = .ok (ofFn fun i (_ : Fin 1) => v i) ∧
      A *ᵥ v = l • v ∧ v ≠ 0 ∧ (∃ j, lam j = l ∧ V.col j = v) ∧ ∀ j, lam j ≤ l := by
  obtain ⟨S, d, hS, _, hanti, heig, hperm⟩ := C16_sorted_pairs hn A V lam h false
  simp only [Bool.false_eq_true, if_false] at hanti
  let z : Fin n := ⟨0, by omega⟩
  refine ⟨S.col z, d z, ?_, (heig z).1, (heig z).2, ?_, ?_⟩
  · unfold dominantEigenvector
    rw [hS, except_bind_ok]
    exact getColumn_of S z
  · have : (d z, S.col z) ∈ List.ofFn fun k => (lam k, V.col k) :=
      hperm.mem_iff.1 ((List.mem_ofFn' _ _).2 ⟨z, rfl⟩)
    obtain ⟨j, hj⟩ := (List.mem_ofFn' _ _).1 this
    exact ⟨j, congrArg Prod.fst hj, congrArg Prod.snd hj⟩
  · intro j
    have : (lam j, V.col j) ∈ List.ofFn fun k => (d k, S.col k) :=
      hperm.mem_iff.2 ((List.mem_ofFn' _ _).2 ⟨j, rfl⟩)
    obtain ⟨k, hk⟩ := (List.mem_ofFn' _ _).1 this
    have h1 : d k = lam j := congrArg Prod.fst hk
    rw [← h1]
    exact hanti (Fin.mk_le_of_le_val (Nat.zero_le _))

/-- A valid (unsorted, with a tie) eigensolver output. -/
example : IsEig (diagonal ![1, 3, 1]) 1 ![1, 3, 1] where
  eigen := by
    intro j; ext i
    fin_cases j <;> fin_cases i <;> simp [mulVec, dotProduct, diagonal, Matrix.one_apply]
  nonzero := by
    intro j h
    have := congrFun h j
    simp at this

end Verif.Props
