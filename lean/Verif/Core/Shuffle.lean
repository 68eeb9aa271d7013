import Verif.Core.Loop
import Verif.Core.ListLemmas
import Verif.Transf.Basic
import Mathlib.Algebra.BigOperators.Group.Finset.Basic

/-!
# Two runs of the same code on data whose rows are in a different order

`Shuf σ A B`: `B` has the rows of `A` in the order given by `σ`.  `ShufC` is the same for columns.  `ERel R` relates two
results: both raise the same exception, or both succeed and the values are related by `R`.
-/

namespace Verif

open Mat

variable {α β γ δ : Type} {n : Nat}

/-- The same exception, or values related by `R`. -/
def ERel (R : β → γ → Prop) : Except PyErr β → Except PyErr γ → Prop
  | .ok a, .ok b => R a b
  | .error e, .error e' => e = e'
  | _, _ => False

theorem ERel.of_eq {R : β → β → Prop} (h : ∀ a, R a a) {x y : Except PyErr β} (e : x = y) : ERel R x y := by
  subst e
  cases x with
  | error => rfl
  | ok a => exact h a

theorem ERel.eq {x y : Except PyErr β} (h : ERel (· = ·) x y) : x = y := by
  cases x <;> cases y <;> first | exact congrArg _ h | exact h.elim

theorem ERel.mono {R S : β → γ → Prop} (h : ∀ a b, R a b → S a b) {x : Except PyErr β} {y : Except PyErr γ}
    (e : ERel R x y) : ERel S x y := by
  cases x <;> cases y <;> first | exact h _ _ e | exact e

theorem ERel.bind {β' γ' : Type} {R : β → γ → Prop} {S : β' → γ' → Prop} {x : Except PyErr β} {y : Except PyErr γ}
    {f : β → Except PyErr β'} {g : γ → Except PyErr γ'} (h : ERel R x y)
    (hf : ∀ a b, R a b → ERel S (f a) (g b)) : ERel S (x >>= f) (y >>= g) := by
  cases x <;> cases y <;> first | exact hf _ _ h | exact h | exact h.elim

theorem ERel.bindEq {β' γ' : Type} {S : β' → γ' → Prop} {x y : Except PyErr β}
    {f : β → Except PyErr β'} {g : β → Except PyErr γ'} (h : x = y)
    (hf : ∀ a, ERel S (f a) (g a)) : ERel S (x >>= f) (y >>= g) := by
  subst h
  cases x with
  | error => rfl
  | ok a => exact hf a

theorem ERel.map {β' γ' : Type} {R : β → γ → Prop} {S : β' → γ' → Prop} {x : Except PyErr β} {y : Except PyErr γ}
    {f : β → β'} {g : γ → γ'} (h : ERel R x y) (hf : ∀ a b, R a b → S (f a) (g b)) :
    ERel S (x.map f) (y.map g) := by
  cases x <;> cases y <;> first | exact hf _ _ h | exact h

/-- Loops over related states. -/
theorem ERel.loopM {σ τ : Type} {R : σ → τ → Prop} {f : Int → σ → Except PyErr σ} {g : Int → τ → Except PyErr τ}
    (h : ∀ k s t, R s t → ERel R (f k s) (g k t)) (ks : List Int) (s : σ) (t : τ) (hs : R s t) :
    ERel R (Verif.loopM f ks s) (Verif.loopM g ks t) := by
  induction ks generalizing s t with
  | nil => exact hs
  | cons k ks ih => exact ERel.bind (h k s t hs) fun a b hab => ih a b hab

/-- `B` has the rows of `A` in the order `σ 0, σ 1, …`. -/
def Shuf (σ : Equiv.Perm (Fin n)) (A B : Mat α) : Prop :=
  ∃ (c : Nat) (M : Matrix (Fin n) (Fin c) α), A = of M ∧ B = of (Matrix.of fun i j => M (σ i) j)

/-- `B` has the columns of `A` in the order `σ 0, σ 1, …`. -/
def ShufC (σ : Equiv.Perm (Fin n)) (A B : Mat α) : Prop :=
  ∃ (r : Nat) (M : Matrix (Fin r) (Fin n) α), A = of M ∧ B = of (Matrix.of fun i j => M i (σ j))

variable {σ : Equiv.Perm (Fin n)} {A A' B B' : Mat α}

theorem Shuf.rows (h : Shuf σ A B) : A.rows = n ∧ B.rows = n := by
  obtain ⟨c, M, rfl, rfl⟩ := h
  exact ⟨rfl, rfl⟩

theorem Shuf.rows_eq (h : Shuf σ A B) : B.rows = A.rows := by rw [h.rows.1, h.rows.2]

theorem Shuf.cols_eq (h : Shuf σ A B) : B.cols = A.cols := by
  obtain ⟨c, M, rfl, rfl⟩ := h
  rfl

theorem Shuf.isVector (h : Shuf σ A B) : B.isVector = A.isVector := by
  unfold Mat.isVector
  rw [h.rows_eq, h.cols_eq]

/-- One row can only be left where it is. -/
theorem Shuf.one (hn : n = 1) (h : Shuf σ A B) : A = B := by
  obtain ⟨c, M, rfl, rfl⟩ := h
  refine mk_congr fun i j => ?_
  subst hn
  rw [Matrix.of_apply, Subsingleton.elim (σ i) i]

theorem Shuf.transpose (h : Shuf σ A B) : ShufC σ A.transpose B.transpose := by
  obtain ⟨c, M, rfl, rfl⟩ := h
  exact ⟨c, Matrix.of fun i j => M j i, rfl, rfl⟩

theorem ShufC.transpose (h : ShufC σ A B) : Shuf σ A.transpose B.transpose := by
  obtain ⟨c, M, rfl, rfl⟩ := h
  exact ⟨c, Matrix.of fun i j => M j i, rfl, rfl⟩

theorem Shuf.map (f : α → α) (h : Shuf σ A B) : Shuf σ (A.map f) (B.map f) := by
  obtain ⟨c, M, rfl, rfl⟩ := h
  exact ⟨c, Matrix.of fun i j => f (M i j), rfl, rfl⟩

theorem Shuf.zipWith (e : PyErr) (f : α → α → α) (h : Shuf σ A A') (h' : Shuf σ B B') :
    ERel (Shuf σ) (A.zipWith e f B) (A'.zipWith e f B') := by
  obtain ⟨c, M, rfl, rfl⟩ := h
  obtain ⟨d, N, rfl, rfl⟩ := h'
  unfold Mat.zipWith
  by_cases hc : c = d
  · subst hc
    rw [dif_pos ⟨rfl, rfl⟩, dif_pos ⟨rfl, rfl⟩]
    exact ⟨c, Matrix.of fun i j => f (M i j) (N i j), rfl, rfl⟩
  · rw [dif_neg fun hh => hc hh.2, dif_neg fun hh => hc hh.2]
    rfl

theorem Shuf.sub [Sub α] (h : Shuf σ A A') (h' : Shuf σ B B') : ERel (Shuf σ) (A.sub B) (A'.sub B') :=
  h.zipWith _ _ h'

theorem Shuf.add [Add α] (h : Shuf σ A A') (h' : Shuf σ B B') : ERel (Shuf σ) (A.add B) (A'.add B') :=
  h.zipWith _ _ h'

theorem Shuf.getColumn (k : Int) (h : Shuf σ A B) : ERel (Shuf σ) (A.getColumn k) (B.getColumn k) := by
  obtain ⟨c, M, rfl, rfl⟩ := h
  unfold Mat.getColumn
  refine ERel.bindEq rfl fun j => ?_
  exact ⟨1, Matrix.of fun i _ => M i j, rfl, rfl⟩

theorem Shuf.setColumn (k : Int) (h : Shuf σ A A') (h' : Shuf σ B B') :
    ERel (Shuf σ) (A.setColumn k B) (A'.setColumn k B') := by
  by_cases hn : n = 1
  · have e := h.one hn
    have e' := h'.one hn
    subst e e'
    refine ERel.mono (R := fun a b => a = b ∧ a.rows = n) ?_ ?_
    · rintro a b ⟨rfl, ha⟩
      subst hn
      obtain ⟨r, c, M⟩ := a
      change r = 1 at ha
      subst ha
      refine ⟨c, M, rfl, mk_congr fun i j => ?_⟩
      rw [Matrix.of_apply, Subsingleton.elim (σ i) i]
    · have hr := h.rows.1
      unfold Mat.setColumn
      refine ERel.bindEq rfl fun _ => ?_
      dsimp only
      refine ERel.bindEq rfl fun j => ?_
      exact ⟨rfl, hr⟩
  · obtain ⟨c, M, rfl, rfl⟩ := h
    obtain ⟨d, N, rfl, rfl⟩ := h'
    unfold Mat.setColumn Mat.mustBeVector Mat.isRowVector Mat.isVector
    by_cases hd : d = 1
    · subst hd
      have hb : (n == 1) = false := by simpa using hn
      simp only [hb, Bool.and_false]
      refine ERel.bindEq rfl fun _ => ?_
      refine ERel.bindEq rfl fun j => ?_
      refine ⟨c, Matrix.of fun a b => if b = j ∧ a.1 < min n n then ((of N).entry? a 0).getD (M a b) else M a b, rfl, ?_⟩
      refine mk_congr fun a b => ?_
      simp only [Matrix.of_apply, Bool.false_eq_true, if_false]
      by_cases hbj : b = j
      · subst hbj
        have h1 : (b = b ∧ a.1 < min n n) := ⟨rfl, by have := a.2; omega⟩
        have h2 : (b = b ∧ (σ a).1 < min n n) := ⟨rfl, by have := (σ a).2; omega⟩
        refine (if_pos h1).trans (Eq.trans ?_ (if_pos h2).symm)
        unfold Mat.entry?
        rw [dif_pos ⟨a.2, Nat.one_pos⟩, dif_pos ⟨(σ a).2, Nat.one_pos⟩]
        rfl
      · rw [if_neg fun hh => hbj hh.1, if_neg fun hh => hbj hh.1]
    · have hb : (n == 1) = false := by simpa using hn
      have hb' : (d == 1) = false := by simpa using hd
      simp only [hb, hb', Bool.or_false]
      rfl

section sums
variable [AddCommMonoid α]

theorem sumFin_perm (σ : Equiv.Perm (Fin n)) (f : Fin n → α) : sumFin (fun i => f (σ i)) = sumFin f := by
  unfold sumFin
  rw [List.sum_ofFn, List.sum_ofFn]
  exact Equiv.sum_comp σ f

theorem Shuf.colSums (h : Shuf σ A B) : B.colSums = A.colSums := by
  obtain ⟨c, M, rfl, rfl⟩ := h
  refine mk_congr fun i j => ?_
  exact sumFin_perm σ fun i => M i j

end sums

section field
variable [Field α]

theorem Shuf.mul (C : Mat α) (h : Shuf σ A B) : ERel (Shuf σ) (A.mul C) (B.mul C) := by
  obtain ⟨c, M, rfl, rfl⟩ := h
  unfold Mat.mul
  by_cases hc : c = C.rows
  · rw [dif_pos hc, dif_pos hc]
    exact ⟨C.cols, Matrix.of fun i j => sumFin fun k => M i k * C.data (k.cast hc) j, rfl, rfl⟩
  · rw [dif_neg hc, dif_neg hc]
    rfl

theorem ShufC.lmul (C : Mat α) (h : ShufC σ A B) : ERel (ShufC σ) (C.mul A) (C.mul B) := by
  obtain ⟨c, M, rfl, rfl⟩ := h
  unfold Mat.mul
  by_cases hc : C.cols = c
  · rw [dif_pos hc, dif_pos hc]
    exact ⟨C.rows, Matrix.of fun i j => sumFin fun k => C.data i k * M (k.cast hc) j, rfl, rfl⟩
  · rw [dif_neg hc, dif_neg hc]
    rfl

/-- Sums over the samples do not depend on their order. -/
theorem ShufC.mul (h : ShufC σ A A') (h' : Shuf σ B B') : A'.mul B' = A.mul B := by
  obtain ⟨r, M, rfl, rfl⟩ := h
  obtain ⟨c, N, rfl, rfl⟩ := h'
  unfold Mat.mul
  rw [dif_pos rfl, dif_pos rfl, ok_inj]
  refine mk_congr fun i j => ?_
  exact sumFin_perm σ fun k => M i k * N k j

theorem Shuf.gram (h : Shuf σ A A') (h' : Shuf σ B B') : A'.transpose.mul B' = A.transpose.mul B :=
  h.transpose.mul h'

theorem Shuf.columnMeans (h : Shuf σ A B) : B.columnMeans = A.columnMeans := by
  unfold Mat.columnMeans
  rw [h.colSums, h.rows_eq]

theorem Shuf.vectorDot (h : Shuf σ A A') (h' : Shuf σ B B') : A'.vectorDot B' = A.vectorDot B := by
  by_cases hn : n = 1
  · rw [h.one hn, h'.one hn]
  · obtain ⟨c, M, rfl, rfl⟩ := h
    obtain ⟨d, N, rfl, rfl⟩ := h'
    have hv : ∀ {c : Nat} (M : Matrix (Fin n) (Fin c) α), c ≠ 1 → (of M).vecEntries = none := fun M hc => by
      unfold Mat.vecEntries
      rw [dif_neg hc, dif_neg hn]
    have hv1 : ∀ M : Matrix (Fin n) (Fin 1) α, (of M).vecEntries = some (List.ofFn fun l => M l 0) := fun M => by
      unfold Mat.vecEntries
      rw [dif_pos rfl]
      rfl
    by_cases hc : c = 1
    · subst hc
      by_cases hd : d = 1
      · subst hd
        rw [vectorDot_cols, vectorDot_cols, ok_inj]
        exact Equiv.sum_comp σ fun l => M l 0 * N l 0
      · unfold Mat.vectorDot
        rw [hv1, hv1, hv _ hd, hv _ hd]
    · unfold Mat.vectorDot
      rw [hv _ hc, hv _ hc]

theorem Shuf.sumSq (h : Shuf σ A B) : B.sumSq = A.sumSq := by
  obtain ⟨c, M, rfl, rfl⟩ := h
  exact sumFin_perm σ fun i => sumFin fun j => M i j * M i j

variable [HasSqrt α]

theorem Shuf.norm2 (h : Shuf σ A B) : B.norm2 = A.norm2 := by
  unfold Mat.norm2
  rw [h.sumSq, h.isVector, h.rows_eq, h.cols_eq]

theorem Shuf.norm2Squared (h : Shuf σ A B) : B.norm2Squared = A.norm2Squared := by
  unfold Mat.norm2Squared
  rw [h.norm2]

theorem Shuf.normalized (h : Shuf σ A B) : ERel (Shuf σ) A.normalized B.normalized := by
  obtain ⟨c, M, rfl, rfl⟩ := h
  show ERel (Shuf σ) (.ok _) (.ok _)
  refine ⟨c, Matrix.of fun i j => M i j / HasSqrt.sqrt (sumFin fun k => M k j * M k j), rfl, mk_congr fun i j => ?_⟩
  show M (σ i) j / HasSqrt.sqrt (sumFin fun k => M (σ k) j * M (σ k) j) = _
  rw [sumFin_perm σ fun k => M k j * M k j]
  rfl

theorem Shuf.columnStdevs (h : Shuf σ A B) : B.columnStdevs = A.columnStdevs := by
  obtain ⟨c, M, rfl, rfl⟩ := h
  refine mk_congr fun i j => ?_
  simp only [Matrix.of_apply]
  rw [sumFin_perm σ fun k => M k j]
  congr 2
  exact sumFin_perm σ fun i => (M i j - (sumFin fun k => M k j) / (n : α)) * (M i j - (sumFin fun k => M k j) / (n : α))

end field

/-- Broadcasting a row. -/
theorem Shuf.vectorOp (f : α → α → α) (v : Mat α) (hv : v.rows = 1) (h : Shuf σ A B) :
    ERel (Shuf σ) (A.vectorOp f v) (B.vectorOp f v) := by
  obtain ⟨c, M, rfl, rfl⟩ := h
  unfold Mat.vectorOp
  refine ERel.bindEq rfl fun _ => ?_
  have hr : v.isRowVector = true := by simp [Mat.isRowVector, Mat.isVector, hv]
  have hs : (of (Matrix.of fun i j => M (σ i) j)).vectorSizeMatches v = (of M).vectorSizeMatches v := rfl
  rw [hs]
  cases (of M).vectorSizeMatches v with
  | false => rfl
  | true =>
    refine ⟨c, Matrix.of fun i j => match v.entry? 0 j with | some x => f (M i j) x | none => M i j, ?_, ?_⟩
    · refine mk_congr fun i j => ?_
      simp only [Matrix.of_apply, hr, if_true]
      cases v.entry? 0 j.1 <;> rfl
    · refine mk_congr fun i j => ?_
      simp only [Matrix.of_apply, hr, if_true]
      cases v.entry? 0 j.1 <;> rfl

/-- Broadcasting a column that is shuffled as well. -/
theorem Shuf.scaleByColumnVector [Mul α] (h : Shuf σ A A') (h' : Shuf σ B B') :
    ERel (Shuf σ) (A.scaleByColumnVector B) (A'.scaleByColumnVector B') := by
  obtain ⟨c, M, rfl, rfl⟩ := h
  obtain ⟨d, N, rfl, rfl⟩ := h'
  unfold Mat.scaleByColumnVector
  by_cases hd : d = 1
  · subst hd
    have e : ∀ N : Matrix (Fin n) (Fin 1) α, (of N).mustBeColumnVector = .ok () := fun N => by
      simp [Mat.mustBeColumnVector, Mat.isColumnVector, Mat.isVector]
    rw [e, e, except_bind_ok, except_bind_ok, if_pos rfl, if_pos rfl]
    unfold Mat.mulByVector
    by_cases hn : n = 1
    · subst hn
      have hσ : ∀ i, σ i = i := fun i => Subsingleton.elim _ _
      have e1 : of (Matrix.of fun i j => N (σ i) j) = of N := mk_congr fun i j => by rw [Matrix.of_apply, hσ]
      rw [e1]
      exact Shuf.vectorOp _ _ rfl ⟨c, M, rfl, rfl⟩
    · have hb : (n == 1) = false := by simpa using hn
      have hv : ∀ (M : Matrix (Fin n) (Fin c) α) (N : Matrix (Fin n) (Fin 1) α),
          (of M).vectorOp (· * ·) (of N) = .ok (of (Matrix.of fun i j => M i j * N i 0)) := fun M N => by
        unfold Mat.vectorOp Mat.mustBeVector Mat.vectorSizeMatches Mat.broadcastVec Mat.isRowVector Mat.isVector
        simp only [hb, Bool.and_false, Bool.false_or, beq_self_eq_true, if_true, Bool.not_true, Bool.false_eq_true, if_false]
        rw [except_bind_ok, ok_inj]
        refine mk_congr fun i j => ?_
        simp only [Matrix.of_apply]
        unfold Mat.entry?
        rw [dif_pos ⟨i.2, Nat.one_pos⟩]
        rfl
      rw [hv, hv]
      exact ⟨c, Matrix.of fun i j => M i j * N i 0, rfl, rfl⟩
  · have e : ∀ N : Matrix (Fin n) (Fin d) α, (of N).mustBeColumnVector = .error .valueError := fun N => by
      simp [Mat.mustBeColumnVector, Mat.isColumnVector, hd]
    rw [e, e]
    rfl

/-- A new matrix of zeros. -/
theorem Shuf.zeros [Zero α] (hn : n ≠ 0) (h : Shuf σ A B) (K : Int) :
    ERel (Shuf σ) (Factory.zeros (α := α) (A.rows : Int) K) (Factory.zeros (B.rows : Int) K) := by
  rw [h.rows_eq, h.rows.1]
  have e : ∃ c : Nat, Factory.zeros (α := α) (n : Int) K = .ok (of (0 : Matrix (Fin n) (Fin c) α)) := by
    by_cases hK : 0 ≤ Factory.defaultColumns (n : Int) K
    · obtain ⟨c, hc⟩ := Int.eq_ofNat_of_zero_le hK
      refine ⟨c, ?_⟩
      rw [← Factory.zeros_nat (Nat.pos_of_ne_zero hn) c]
      unfold Factory.zeros
      rw [hc, show Factory.defaultColumns (n : Int) (c : Int) = c by unfold Factory.defaultColumns; split <;> omega]
    · refine ⟨0, ?_⟩
      rw [← Factory.zeros_nat (Nat.pos_of_ne_zero hn) 0]
      unfold Factory.zeros
      have h0 : pyRange 0 (Factory.defaultColumns (n : Int) K) = [] := by
        unfold pyRange
        rw [show (Factory.defaultColumns (n : Int) K - 0).toNat = 0 by omega]
        rfl
      have h1 : pyRange 0 (Factory.defaultColumns (n : Int) ((0 : Nat) : Int)) = [] := rfl
      simp only [h0, h1]
  obtain ⟨c, e⟩ := e
  rw [e]
  exact ⟨c, 0, rfl, rfl⟩

end Verif
