import Verif.Core.MatLemmas

/-! # Helper lemmas about positional selection and concatenation -/

namespace Verif
namespace Mat
variable {α : Type}

@[simp] theorem resolve_nil (n : Nat) : resolve n [] = .ok [] := rfl

theorem resolve_cons (n : Nat) (i : Int) (is : List Int) :
    resolve n (i :: is) = (do
      let k ← pyIndex n i
      let ks ← resolve n is
      pure (k :: ks)) := by
  simp [resolve, List.mapM_cons]

theorem resolve_ok_iff {n : Nat} {is : List Int} {ks : List (Fin n)} :
    resolve n is = .ok ks ↔ List.Forall₂ (fun i k => pyIndex n i = .ok k) is ks := by
  induction is generalizing ks with
  | nil =>
    simp only [resolve_nil, ok_inj]
    constructor
    · rintro rfl; exact .nil
    · intro h; cases h; rfl
  | cons i is ih =>
    rw [resolve_cons]
    rcases pyIndex_total (n := n) i with ⟨k, hk⟩ | hk
    · rw [hk, except_bind_ok]
      cases hr : resolve n is with
      | error e =>
        simp only [except_bind_error]
        constructor
        · intro h; cases h
        · intro h
          cases h with
          | cons h1 h2 => rw [ih.2 h2] at hr; cases hr
      | ok ks' =>
        simp only [except_bind_ok, except_pure, ok_inj]
        constructor
        · rintro rfl; exact .cons hk (ih.1 hr)
        · intro h
          cases h with
          | cons h1 h2 =>
            rw [hk, ok_inj] at h1
            have := ih.2 h2
            rw [hr, ok_inj] at this
            rw [h1, this]
    · rw [hk]
      simp only [except_bind_error]
      constructor
      · intro h; cases h
      · intro h
        cases h with
        | cons h1 h2 => rw [hk] at h1; cases h1

theorem resolve_error {n : Nat} {is : List Int} {i : Int} (hi : i ∈ is)
    (h : pyIndex n i = .error .indexError) : resolve n is = .error .indexError := by
  induction is with
  | nil => cases hi
  | cons j is ih =>
    rw [resolve_cons]
    rcases pyIndex_total (n := n) j with ⟨k, hk⟩ | hk
    · rw [hk, except_bind_ok]
      rcases List.mem_cons.1 hi with rfl | hi
      · rw [hk] at h; cases h
      · rw [ih hi]; rfl
    · rw [hk]; rfl

theorem resolve_total {n : Nat} (is : List Int) :
    (∃ ks, resolve n is = .ok ks) ∨ resolve n is = .error .indexError := by
  induction is with
  | nil => exact .inl ⟨_, rfl⟩
  | cons j is ih =>
    rw [resolve_cons]
    rcases pyIndex_total (n := n) j with ⟨k, hk⟩ | hk
    · rw [hk, except_bind_ok]
      rcases ih with ⟨ks, hks⟩ | h
      · rw [hks]; exact .inl ⟨_, rfl⟩
      · rw [h]; exact .inr rfl
    · rw [hk]; exact .inr rfl

theorem resolve_range {n : Nat} (a b : Nat) (hab : a ≤ b) (hb : b ≤ n) :
    resolve n (pyRange a b) = .ok (List.ofFn fun k : Fin (b - a) => ⟨a + k, by have := k.2; omega⟩) := by
  rw [resolve_ok_iff, List.forall₂_iff_get]
  refine ⟨?_, ?_⟩
  · rw [pyRange_length]; simp
  · intro i h1 h2
    simp only [List.length_ofFn] at h2
    have : (pyRange a b).get ⟨i, h1⟩ = ((a + i : Nat) : Int) := by simp [pyRange]
    rw [this, pyIndex_natCast (a + i) (by omega)]
    simp

/-- Selection of contiguous ranges on a typed matrix. -/
theorem getSubMatrix_tuple {m n : Nat} (A : Matrix (Fin m) (Fin n) α) (a b c d : Nat)
    (hab : a ≤ b) (hb : b ≤ m) (hcd : c ≤ d) (hd : d ≤ n) :
    (of A).getSubMatrix (.tuple a b) (.tuple c d) =
      .ok ⟨b - a, d - c, Matrix.of fun i j =>
        A ⟨a + i, by have := i.2; omega⟩ ⟨c + j, by have := j.2; omega⟩⟩ := by
  unfold getSubMatrix Sel.positions
  simp only [resolve_range a b hab hb, resolve_range c d hcd hd, except_bind_ok, except_pure,
    ok_inj]
  refine mk_eq (by simp) (by simp) fun i j => ?_
  simp only [Matrix.of_apply, List.get_ofFn]

theorem getSubMatrix_rows {m n : Nat} (A : Matrix (Fin m) (Fin n) α) (a b : Nat)
    (hab : a ≤ b) (hb : b ≤ m) :
    (of A).getRows (.tuple a b) =
      .ok ⟨b - a, n, Matrix.of fun i j => A ⟨a + i, by have := i.2; omega⟩ j⟩ := by
  unfold getRows
  have := getSubMatrix_tuple A a b 0 n hab hb (by omega) le_rfl
  rw [Int.natCast_zero] at this
  simp only [] at this ⊢
  rw [this, ok_inj]
  refine mk_eq rfl rfl fun i j => ?_
  simp only [Matrix.of_apply]
  congr 1
  exact Fin.ext (Nat.zero_add _)

theorem getColumns_tuple {m n : Nat} (A : Matrix (Fin m) (Fin n) α) (c d : Nat)
    (hcd : c ≤ d) (hd : d ≤ n) :
    (of A).getColumns (.tuple c d) =
      .ok ⟨m, d - c, Matrix.of fun i j => A i ⟨c + j, by have := j.2; omega⟩⟩ := by
  unfold getColumns
  have := getSubMatrix_tuple A 0 m c d (by omega) le_rfl hcd hd
  rw [Int.natCast_zero] at this
  simp only [] at this ⊢
  rw [this, ok_inj]
  refine mk_eq rfl rfl fun i j => ?_
  simp only [Matrix.of_apply]
  congr 1
  exact Fin.ext (Nat.zero_add _)

/-! ### concatenation -/

theorem concatAlongColumns_of {m n p : Nat} (A : Matrix (Fin m) (Fin n) α)
    (B : Matrix (Fin m) (Fin p) α) :
    (of A).concatAlongColumns (of B) =
      .ok ⟨m, n + p, Matrix.of fun i j => Fin.addCases (fun b => A i b) (fun b => B i b) j⟩ := by
  unfold concatAlongColumns concat
  simp

theorem concatAlongRows_of {m n p : Nat} (A : Matrix (Fin m) (Fin n) α)
    (B : Matrix (Fin p) (Fin n) α) :
    (of A).concatAlongRows (of B) =
      .ok ⟨m + p, n, Matrix.of fun i j => Fin.addCases (fun b => A b j) (fun b => B b j) i⟩ := by
  unfold concatAlongRows concat
  simp

/-- The matrix whose columns are the given vectors. -/
def colsMat (m : Nat) (cs : List (Fin m → α)) : Mat α :=
  ⟨m, cs.length, Matrix.of fun i j => cs.get j i⟩

theorem colsMat_singleton {m : Nat} (c : Fin m → α) :
    colsMat m [c] = ⟨m, 1, Matrix.of fun i _ => c i⟩ := by
  refine mk_eq rfl rfl fun i j => ?_
  simp [List.get_eq_getElem]

theorem colsMat_append {m : Nat} (as bs : List (Fin m → α)) :
    (colsMat m as).concatAlongColumns (colsMat m bs) = .ok (colsMat m (as ++ bs)) := by
  unfold colsMat
  rw [show (⟨m, as.length, Matrix.of fun i j => as.get j i⟩ : Mat α) =
    of (Matrix.of fun (i : Fin m) (j : Fin as.length) => as.get j i) from rfl,
    show (⟨m, bs.length, Matrix.of fun i j => bs.get j i⟩ : Mat α) =
    of (Matrix.of fun (i : Fin m) (j : Fin bs.length) => bs.get j i) from rfl,
    concatAlongColumns_of, ok_inj]
  refine mk_eq rfl (by simp) fun i j => ?_
  simp only [Matrix.of_apply]
  refine Fin.addCases (fun j => ?_) (fun j => ?_) j
  · simp [List.getElem_append_left]
  · simp only [Fin.addCases_right]
    refine congrFun ?_ i
    have h : (as ++ bs)[as.length + j.val]? = bs[j.val]? := by
      rw [List.getElem?_append_right (by omega)]; congr 1; omega
    rw [List.getElem?_eq_getElem (by simp), List.getElem?_eq_getElem j.2, Option.some_inj] at h
    exact h.symm

theorem foldlM_concat_cols {m : Nat} (as bs : List (Fin m → α)) :
    (bs.map fun c => (⟨m, 1, Matrix.of fun i _ => c i⟩ : Mat α)).foldlM
      (fun acc q => acc.concatAlongColumns q) (colsMat m as) = .ok (colsMat m (as ++ bs)) := by
  induction bs generalizing as with
  | nil => simp
  | cons b bs ih =>
    rw [List.map_cons, List.foldlM_cons, ← colsMat_singleton, colsMat_append]
    show List.foldlM _ (colsMat m (as ++ [b])) _ = _
    rw [ih, List.append_assoc]; rfl

end Mat
end Verif
