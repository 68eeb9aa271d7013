import Verif.Props.RowWiseAlg

/-!
# C145: a trained linear model is a table of coefficients

For every fixed number of columns, a trained model of the linear methods either rejects all data or computes `Z ↦ Z B + b` with one
matrix `B` and one row `b`, for data with any number of rows.  So predictions of mixtures are mixtures of predictions, and the table
can be read off from the predictions for the zero sample and the unit samples.

The scalars are a field, where `x / 0 = 0`.  A `Standardize` fitted on a constant column other than the first divides by zero; the code
then gives NaN, so the theorems on NIPALS and SparsePLS ask for divisors that are not zero.
-/

namespace Verif.Props
open Verif Mat Transf
open scoped Matrix

variable {α M : Type} [Field α]

/-- On data with `c` columns (and at least one row) `f` always raises, or is `Z ↦ Z B + b`. -/
def AffineAt (c : Nat) (f : Mat α → Except PyErr (Mat α)) : Prop :=
  (∀ (r : Nat) (Z : Matrix (Fin (r + 1)) (Fin c) α), ∃ e, f (of Z) = .error e) ∨
    ∃ (c' : Nat) (B : Matrix (Fin c) (Fin c') α) (b : Fin c' → α), ∀ (r : Nat) (Z : Matrix (Fin (r + 1)) (Fin c) α),
      f (of Z) = .ok (of (Z * B + Matrix.of fun _ j => b j))

/-- … for every number of columns. -/
def Affine (f : Mat α → Except PyErr (Mat α)) : Prop := ∀ c : Nat, AffineAt c f

/-! ## What it means -/

/-- C145 (mixtures).  If the coefficients of a mixture add up to one, the result for the mixture of two data sets is the mixture of the
results. -/
theorem C145_mixture {f : Mat α → Except PyErr (Mat α)} {r c c' : Nat} (hf : AffineAt c f) (Z Z' : Matrix (Fin (r + 1)) (Fin c) α)
    (R R' : Matrix (Fin (r + 1)) (Fin c') α) (s t : α) (hst : s + t = 1) (h : f (of Z) = .ok (of R)) (h' : f (of Z') = .ok (of R')) :
    f (of (s • Z + t • Z')) = .ok (of (s • R + t • R')) := by
  rcases hf with hf | ⟨d, B, b, hf⟩
  · obtain ⟨e, he⟩ := hf r Z
    rw [he] at h
    cases h
  · rw [hf, ok_inj] at h h'
    obtain rfl : d = c' := congrArg Mat.cols h
    rw [← of_injective h, ← of_injective h', hf, ok_inj]
    congr 1
    ext i j
    simp only [Matrix.add_apply, Matrix.add_mul, Matrix.smul_mul, Matrix.smul_apply, Matrix.of_apply, smul_eq_mul]
    have : b j = s * b j + t * b j := by rw [← add_mul, hst, one_mul]
    linear_combination this

/-- C145 (reading off).  Asked about the zero sample and the `c` unit samples, the model gives its table: the result for any data is
`Σ_k Z i k * (row k of the second answer - the first answer) + the first answer`. -/
theorem C145_read_off {f : Mat α → Except PyErr (Mat α)} {r c c' : Nat} (hf : AffineAt (c + 1) f)
    (R0 : Matrix (Fin 1) (Fin c') α) (RE : Matrix (Fin (c + 1)) (Fin c') α) (h0 : f (of (0 : Matrix (Fin 1) (Fin (c + 1)) α)) = .ok (of R0))
    (hE : f (of (1 : Matrix (Fin (c + 1)) (Fin (c + 1)) α)) = .ok (of RE)) (Z : Matrix (Fin (r + 1)) (Fin (c + 1)) α) :
    f (of Z) = .ok (of (Matrix.of fun i j => (∑ k, Z i k * (RE k j - R0 0 j)) + R0 0 j)) := by
  rcases hf with hf | ⟨d, B, b, hf⟩
  · obtain ⟨e, he⟩ := hf 0 0
    rw [he] at h0
    cases h0
  · rw [hf, ok_inj] at h0 hE
    obtain rfl : d = c' := congrArg Mat.cols h0
    rw [← of_injective h0, ← of_injective hE, hf, ok_inj]
    congr 1
    ext i j
    simp only [Matrix.add_apply, Matrix.one_mul, Matrix.zero_mul, Matrix.zero_apply, Matrix.of_apply, Matrix.mul_apply, zero_add,
      add_sub_cancel_right]

/-! ## Building blocks -/

omit [Field α] in
theorem AffineAt.congr [Field α] {c : Nat} {f g : Mat α → Except PyErr (Mat α)} (hf : AffineAt c f) (h : ∀ Z, g Z = f Z) :
    AffineAt c g := by
  have : g = f := funext h
  rwa [this]

theorem Affine.congr {f g : Mat α → Except PyErr (Mat α)} (hf : Affine f) (h : ∀ Z, g Z = f Z) : Affine g :=
  fun c => (hf c).congr h

theorem Affine.fail (e : PyErr) : Affine (fun _ : Mat α => (.error e : Except PyErr (Mat α))) := fun _ => .inl fun _ _ => ⟨e, rfl⟩

theorem Affine.id : Affine (fun Z : Mat α => (.ok Z : Except PyErr (Mat α))) := fun c => .inr ⟨c, 1, 0, fun r Z => by
  rw [ok_inj]
  refine mk_congr fun i j => ?_
  simp⟩

theorem Affine.bind {f g : Mat α → Except PyErr (Mat α)} (hf : Affine f) (hg : Affine g) : Affine (fun Z => f Z >>= g) := by
  intro c
  rcases hf c with hf | ⟨c', B, b, hf⟩
  · refine .inl fun r Z => ?_
    obtain ⟨e, he⟩ := hf r Z
    exact ⟨e, by dsimp only; rw [he]; rfl⟩
  · rcases hg c' with hg | ⟨c'', D, d, hg⟩
    · refine .inl fun r Z => ?_
      obtain ⟨e, he⟩ := hg r (Z * B + Matrix.of fun _ j => b j)
      exact ⟨e, by dsimp only; rw [hf, except_bind_ok, he]⟩
    · refine .inr ⟨c'', B * D, fun j => (∑ k, b k * D k j) + d j, fun r Z => ?_⟩
      dsimp only
      rw [hf, except_bind_ok, hg, ok_inj]
      congr 1
      rw [Matrix.add_mul, Matrix.mul_assoc, add_assoc]
      congr 1

/-- Sums and differences of two results. -/
theorem Affine.sub {f g : Mat α → Except PyErr (Mat α)} (hf : Affine f) (hg : Affine g) :
    Affine (fun Z => f Z >>= fun a => g Z >>= fun b => a.sub b) := by
  intro c
  rcases hf c with hf | ⟨c', B, b, hf⟩
  · refine .inl fun r Z => ?_
    obtain ⟨e, he⟩ := hf r Z
    exact ⟨e, by dsimp only; rw [he]; rfl⟩
  · rcases hg c with hg | ⟨c'', D, d, hg⟩
    · refine .inl fun r Z => ?_
      obtain ⟨e, he⟩ := hg r Z
      exact ⟨e, by dsimp only; rw [hf, except_bind_ok, he]; rfl⟩
    · by_cases hc : c' = c''
      · subst hc
        refine .inr ⟨c', B - D, fun j => b j - d j, fun r Z => ?_⟩
        dsimp only
        rw [hf, except_bind_ok, hg, except_bind_ok, sub_of, ok_inj]
        congr 1
        ext i j
        simp only [Matrix.sub_apply, Matrix.add_apply, Matrix.mul_sub, Matrix.of_apply]
        ring
      · refine .inl fun r Z => ⟨.invalidShape, ?_⟩
        dsimp only
        rw [hf, except_bind_ok, hg, except_bind_ok]
        unfold Mat.sub Mat.zipWith
        rw [dif_neg fun h => hc h.2]

/-- Multiplication by a stored matrix. -/
theorem Affine.mul (S : Mat α) : Affine (fun Z : Mat α => Z.mul S) := by
  intro c
  obtain ⟨m, n, S⟩ := S
  by_cases h : c = m
  · subst h
    refine .inr ⟨n, S, 0, fun r Z => ?_⟩
    refine (mul_of Z S).trans ?_
    rw [ok_inj]
    refine mk_congr fun i j => ?_
    simp
  · exact .inl fun r Z => ⟨_, mul_error h⟩

/-- An affine map on every entry, with coefficients depending on the column. -/
theorem AffineAt.cols {c : Nat} {f : Mat α → Except PyErr (Mat α)} (g d : Fin c → α)
    (h : ∀ (r : Nat) (Z : Matrix (Fin (r + 1)) (Fin c) α), f (of Z) = .ok (of (Matrix.of fun i j => Z i j * g j + d j))) :
    AffineAt c f := by
  refine .inr ⟨c, Matrix.diagonal g, d, fun r Z => ?_⟩
  rw [h, ok_inj]
  refine mk_congr fun i j => ?_
  rw [Matrix.add_apply, Matrix.mul_diagonal, Matrix.of_apply, Matrix.of_apply]

/-- A stored row vector combined with every row by an operation that is affine in the first argument. -/
theorem Affine.vectorOp (f : α → α → α) (p q : α → α) (hf : ∀ x y, f x y = x * p y + q y) (v : Mat α) (hv : v.rows = 1) :
    Affine (fun Z : Mat α => Z.vectorOp f v) := by
  intro c
  obtain ⟨m, n, v⟩ := v
  obtain rfl : m = 1 := hv
  by_cases h : c = n
  · subst h
    refine AffineAt.cols (fun j => p (v 0 j)) (fun j => q (v 0 j)) fun r Z => ?_
    refine (vectorOp_row f Z v).trans ?_
    rw [ok_inj]
    exact mk_congr fun i j => hf _ _
  · exact .inl fun r Z => ⟨_, vectorOp_row_bad f _ _ rfl h⟩

theorem Affine.addVec (v : Mat α) (hv : v.rows = 1) : Affine (fun Z : Mat α => Z.vectorOp (· + ·) v) :=
  Affine.vectorOp _ (fun _ => 1) (fun y => y) (fun x y => by ring) v hv
theorem Affine.subVec (v : Mat α) (hv : v.rows = 1) : Affine (fun Z : Mat α => Z.vectorOp (· - ·) v) :=
  Affine.vectorOp _ (fun _ => 1) (fun y => -y) (fun x y => by ring) v hv
theorem Affine.mulVec (v : Mat α) (hv : v.rows = 1) : Affine (fun Z : Mat α => Z.vectorOp (· * ·) v) :=
  Affine.vectorOp _ (fun y => y) (fun _ => 0) (fun x y => by ring) v hv
theorem Affine.divVec (v : Mat α) (hv : v.rows = 1) : Affine (fun Z : Mat α => Z.vectorOp (· / ·) v) :=
  Affine.vectorOp _ (fun y => y⁻¹) (fun _ => 0) (fun x y => by rw [div_eq_mul_inv, add_zero]) v hv

theorem Affine.addScalar (b : α) : Affine (fun Z : Mat α => .ok (Z.addScalar b)) := fun c =>
  AffineAt.cols (fun _ => 1) (fun _ => b) fun r Z => by
    rw [ok_inj]
    refine mk_congr fun i j => ?_
    simp

theorem Affine.scaleByRowVector (v : Mat α) : Affine (fun Z : Mat α => Z.scaleByRowVector v) := by
  by_cases hv : v.isColumnVector = true
  · intro c
    have hv1 : v.cols = 1 := by
      unfold isColumnVector at hv
      rw [Bool.and_eq_true] at hv
      exact beq_iff_eq.1 hv.2
    by_cases hc : c = v.rows
    · subst hc
      obtain ⟨m, n, V⟩ := v
      obtain rfl : n = 1 := hv1
      refine AffineAt.cols (fun j => V j 0) (fun _ => 0) fun r Z => ?_
      unfold Mat.scaleByRowVector mustBeColumnVector
      rw [if_pos hv, except_bind_ok, if_pos rfl]
      refine (vectorOp_row (· * ·) Z V.transpose).trans ?_
      rw [ok_inj]
      refine mk_congr fun i j => ?_
      simp
    · refine .inl fun r Z => ⟨.invalidShape, ?_⟩
      show (of Z).scaleByRowVector v = _
      unfold Mat.scaleByRowVector mustBeColumnVector
      rw [if_pos hv, except_bind_ok, if_neg hc]
  · refine (Affine.fail .valueError).congr fun Z => ?_
    unfold Mat.scaleByRowVector mustBeColumnVector
    rw [if_neg hv]
    rfl

/-- Selecting columns. -/
theorem Affine.spCols (A : List Nat) : Affine (fun Z : Mat α => Verif.spCols Z A) := by
  intro c
  by_cases h : ∀ i ∈ A, i < c
  · refine .inr ⟨A.length, Matrix.of fun k (j : Fin A.length) => if k = ⟨A[j.1], h _ (List.getElem_mem j.2)⟩ then 1 else 0, 0,
      fun r Z => ?_⟩
    refine (spCols_of (Nat.succ_pos r) Z A h).trans ?_
    rw [ok_inj]
    refine mk_congr fun i j => ?_
    rw [Matrix.add_apply, Matrix.mul_apply]
    simp
  · push Not at h
    refine .inl fun r Z => ?_
    show ∃ e, Verif.spCols (of Z) A = .error e
    unfold Verif.spCols
    have hz : Factory.zeros (α := α) ((of Z).rows : Int) (A.length : Int) = .ok (of (0 : Matrix (Fin (r + 1)) (Fin A.length) α)) :=
      Factory.zeros_nat (Nat.succ_pos r) _
    rw [hz, except_bind_ok]
    exact colsLoop_bad Z A h 0 _

/-! ## PLS1 and VCPLS -/

/-- The inner loop: two rows that depend linearly on the sample stay so, or the loop raises for every sample. -/
theorem pls1Row_loop {c K : Nat} (W P : Mat α) (is : List Int) : ∀ (A : Matrix (Fin c) (Fin c) α) (T : Matrix (Fin c) (Fin K) α),
    (∀ x : Fin c → α, ∃ e, loopM (pls1RowStep W P) is (asRow (x ᵥ* A), asRow (x ᵥ* T)) = .error e) ∨
    ∃ (A' : Matrix (Fin c) (Fin c) α) (T' : Matrix (Fin c) (Fin K) α), ∀ x : Fin c → α,
      loopM (pls1RowStep W P) is (asRow (x ᵥ* A), asRow (x ᵥ* T)) = .ok (asRow (x ᵥ* A'), asRow (x ᵥ* T')) := by
  induction is with
  | nil => exact fun A T => .inr ⟨A, T, fun x => rfl⟩
  | cons k is ih =>
    intro A T
    obtain ⟨wr, wc, W⟩ := W
    obtain ⟨pr, pc, P⟩ := P
    -- the step
    suffices hstep : (∀ x : Fin c → α, ∃ e, pls1RowStep (of W) (of P) k (asRow (x ᵥ* A), asRow (x ᵥ* T)) = .error e) ∨
        ∃ (A' : Matrix (Fin c) (Fin c) α) (T' : Matrix (Fin c) (Fin K) α), ∀ x : Fin c → α,
          pls1RowStep (of W) (of P) k (asRow (x ᵥ* A), asRow (x ᵥ* T)) = .ok (asRow (x ᵥ* A'), asRow (x ᵥ* T')) by
      rcases hstep with h | ⟨A', T', h⟩
      · refine .inl fun x => ?_
        obtain ⟨e, he⟩ := h x
        exact ⟨e, by rw [loopM, show pls1RowStep (⟨wr, wc, W⟩ : Mat α) ⟨pr, pc, P⟩ k _ = _ from he]; rfl⟩
      · rcases ih A' T' with h2 | ⟨A2, T2, h2⟩
        · refine .inl fun x => ?_
          obtain ⟨e, he⟩ := h2 x
          exact ⟨e, by rw [loopM, show pls1RowStep (⟨wr, wc, W⟩ : Mat α) ⟨pr, pc, P⟩ k _ = _ from h x, except_bind_ok, he]⟩
        · exact .inr ⟨A2, T2, fun x => by
            rw [loopM, show pls1RowStep (⟨wr, wc, W⟩ : Mat α) ⟨pr, pc, P⟩ k _ = _ from h x, except_bind_ok, h2]⟩
    cases hW : pyIndex wc k with
    | error e =>
      refine .inl fun x => ⟨e, ?_⟩
      unfold pls1RowStep getColumn
      rw [show pyIndex (of W).cols k = _ from hW]
      rfl
    | ok j =>
      have eW : (of W).getColumn k = .ok (of (Matrix.of fun a (_ : Fin 1) => W a j)) := by
        unfold getColumn
        rw [show pyIndex (of W).cols k = _ from hW]
        rfl
      by_cases hc : c = wr
      swap
      · refine .inl fun x => ⟨.valueError, ?_⟩
        unfold pls1RowStep
        rw [eW, except_bind_ok, mul_error hc]
        rfl
      subst hc
      have eM : ∀ x : Fin c → α, (asRow (x ᵥ* A)).mul (of (Matrix.of fun a (_ : Fin 1) => W a j)) =
          .ok (asRow fun _ : Fin 1 => (x ᵥ* A) ⬝ᵥ fun a => W a j) := fun x => by
        refine (mul_of _ _).trans ?_
        rw [ok_inj]
        exact mk_congr fun i l => rfl
      cases hK : pyIndex K k with
      | error e =>
        refine .inl fun x => ⟨e, ?_⟩
        unfold pls1RowStep
        rw [eW, except_bind_ok, eM, except_bind_ok]
        have : (asRow (x ᵥ* T)).setColumn k (asRow fun _ : Fin 1 => (x ᵥ* A) ⬝ᵥ fun a => W a j) = .error e := by
          unfold setColumn
          rw [show (asRow fun _ : Fin 1 => (x ᵥ* A) ⬝ᵥ fun a => W a j).mustBeVector = .ok () from mustBeVector_row _, except_bind_ok,
            show pyIndex (asRow (x ᵥ* T)).cols k = _ from hK]
          rfl
        rw [this]
        rfl
      | ok l =>
        have eT : ∀ x : Fin c → α, (asRow (x ᵥ* T)).setColumn k (asRow fun _ : Fin 1 => (x ᵥ* A) ⬝ᵥ fun a => W a j) =
            .ok (asRow (x ᵥ* (T.updateCol l (A *ᵥ fun a => W a j)))) := fun x => by
          have hk : (asRow (x ᵥ* T)).setColumn k (asRow fun _ : Fin 1 => (x ᵥ* A) ⬝ᵥ fun a => W a j) =
              (asRow (x ᵥ* T)).setColumn ((l : Nat) : Int) (asRow fun _ : Fin 1 => (x ᵥ* A) ⬝ᵥ fun a => W a j) := by
            unfold setColumn
            rw [show pyIndex (asRow (x ᵥ* T)).cols k = _ from hK, show pyIndex (asRow (x ᵥ* T)).cols ((l : Nat) : Int) = _ from pyIndex_fin l]
          rw [hk]
          refine (setColumn_of _ l _).trans ?_
          rw [ok_inj]
          refine mk_congr fun i b => ?_
          rw [Matrix.updateCol_apply, Matrix.of_apply, Matrix.of_apply]
          show _ = ∑ a, x a * T.updateCol l (A *ᵥ fun a => W a j) a b
          by_cases hb : b = l
          · rw [if_pos hb]
            subst hb
            simp only [Matrix.updateCol_self]
            exact (Matrix.dotProduct_mulVec _ _ _).symm
          · rw [if_neg hb]
            simp only [Matrix.updateCol_ne hb]
            rfl
        cases hP : pyIndex pc k with
        | error e =>
          refine .inl fun x => ⟨e, ?_⟩
          unfold pls1RowStep
          rw [eW, except_bind_ok, eM, except_bind_ok, eT, except_bind_ok]
          unfold getColumn
          rw [show pyIndex (of P).cols k = _ from hP]
          rfl
        | ok q =>
          have eP : (of P).getColumn k = .ok (of (Matrix.of fun a (_ : Fin 1) => P a q)) := by
            unfold getColumn
            rw [show pyIndex (of P).cols k = _ from hP]
            rfl
          have eR : ∀ x : Fin c → α, (asRow fun _ : Fin 1 => (x ᵥ* A) ⬝ᵥ fun a => W a j).asReal = .ok ((x ᵥ* A) ⬝ᵥ fun a => W a j) :=
            fun x => asReal_of _
          by_cases hp : c = pr
          · subst hp
            refine .inr ⟨A - Matrix.of fun a b => (A *ᵥ fun a => W a j) a * P b q, T.updateCol l (A *ᵥ fun a => W a j), fun x => ?_⟩
            unfold pls1RowStep
            rw [eW, except_bind_ok, eM, except_bind_ok, eT, except_bind_ok, eP, except_bind_ok, eR, except_bind_ok]
            have eS : (asRow (x ᵥ* A)).sub (((of (Matrix.of fun a (_ : Fin 1) => P a q)).transpose).smul ((x ᵥ* A) ⬝ᵥ fun a => W a j)) =
                .ok (asRow (x ᵥ* (A - Matrix.of fun a b => (A *ᵥ fun a => W a j) a * P b q))) := by
              refine (zipWith_of .invalidShape (· - ·) (Matrix.of fun _ : Fin 1 => x ᵥ* A)
                (Matrix.of fun (_ : Fin 1) b => P b q * ((x ᵥ* A) ⬝ᵥ fun a => W a j))).trans ?_
              rw [ok_inj]
              refine mk_congr fun i b => ?_
              simp only [Matrix.of_apply]
              rw [Matrix.vecMul_sub, Pi.sub_apply]
              congr 1
              show P b q * ((x ᵥ* A) ⬝ᵥ fun a => W a j) = ∑ a, x a * ((A *ᵥ fun a => W a j) a * P b q)
              rw [← Matrix.dotProduct_mulVec, mul_comm, dotProduct, Finset.sum_mul]
              exact Finset.sum_congr rfl fun a _ => mul_assoc _ _ _
            rw [eS]
            rfl
          · refine .inl fun x => ⟨.invalidShape, ?_⟩
            unfold pls1RowStep
            rw [eW, except_bind_ok, eM, except_bind_ok, eT, except_bind_ok, eP, except_bind_ok, eR, except_bind_ok]
            have eS : (asRow (x ᵥ* A)).sub (((of (Matrix.of fun a (_ : Fin 1) => P a q)).transpose).smul ((x ᵥ* A) ⬝ᵥ fun a => W a j)) =
                .error .invalidShape := by
              unfold Mat.sub Mat.zipWith
              rw [dif_neg fun h => hp h.2]
            rw [eS]
            rfl

/-- The scores of a row. -/
theorem pls1Row_linear (c K : Nat) (W P : Mat α) :
    (∀ x : Fin c → α, ∃ e, pls1Row (K : Int) W P (asRow x) = .error e) ∨
    ∃ T : Matrix (Fin c) (Fin K) α, ∀ x : Fin c → α, pls1Row (K : Int) W P (asRow x) = .ok (asRow (x ᵥ* T)) := by
  have hz : Factory.zeros (α := α) (1 : Int) (K : Int) = .ok (of (0 : Matrix (Fin 1) (Fin K) α)) := Factory.zeros_nat Nat.one_pos K
  have hs : ∀ x : Fin c → α, (asRow x, of (0 : Matrix (Fin 1) (Fin K) α)) =
      (asRow (x ᵥ* (1 : Matrix (Fin c) (Fin c) α)), asRow (x ᵥ* (0 : Matrix (Fin c) (Fin K) α))) := fun x => by
    rw [Matrix.vecMul_one, Matrix.vecMul_zero]
    rfl
  rcases pls1Row_loop W P (pyRange 0 (K : Int)) (1 : Matrix (Fin c) (Fin c) α) (0 : Matrix (Fin c) (Fin K) α) with h | ⟨A, T, h⟩
  · refine .inl fun x => ?_
    obtain ⟨e, he⟩ := h x
    refine ⟨e, ?_⟩
    unfold pls1Row
    rw [hz, except_bind_ok, hs, he]
    rfl
  · refine .inr ⟨T, fun x => ?_⟩
    unfold pls1Row
    rw [hz, except_bind_ok, hs, h]
    rfl

/-- C145.  `transform` of PLS1 and VCPLS. -/
theorem C145_pls1_transform (K : Nat) (m : Pls1Model α) : Affine (pls1Transform (K : Int) m) := by
  intro c
  have start : ∀ (r : Nat) (Z : Matrix (Fin (r + 1)) (Fin c) α), pls1Transform (K : Int) m (of Z) =
      loopM (pls1TransformRow (K : Int) m.W m.P (of Z)) (pyRange 0 ((r + 1 : Nat) : Int)) (of 0) := fun r Z => by
    unfold pls1Transform
    rw [show (of Z).rows = r + 1 from rfl, Factory.zeros_nat (Nat.succ_pos r), except_bind_ok]
  rcases pls1Row_linear c K m.W m.P with h | ⟨T, h⟩
  · refine .inl fun r Z => ?_
    rw [start]
    cases hr : loopM (pls1TransformRow (K : Int) m.W m.P (of Z)) (pyRange 0 ((r + 1 : Nat) : Int)) (of (0 : Matrix (Fin (r + 1)) (Fin K) α)) with
    | error e => exact ⟨e, rfl⟩
    | ok B =>
      exfalso
      obtain ⟨C, _, hC⟩ := (loop_rows _ (0 : Matrix (Fin (r + 1)) (Fin K) α) (fun _ => none) (fun _ _ _ _ h => by cases h)
        (fun k A _ _ => by
          obtain ⟨e, he⟩ := h (Z k)
          refine ⟨e, ?_⟩
          unfold pls1TransformRow
          rw [show (of Z).getRow ((k : Nat) : Int) = .ok (asRow (Z k)) from getRow_of Z k, except_bind_ok, he]
          rfl) B).1 hr
      cases hC 0
  · refine .inr ⟨K, T, 0, fun r Z => ?_⟩
    rw [start]
    refine (loop_rows _ (0 : Matrix (Fin (r + 1)) (Fin K) α) (fun i => some (Z i ᵥ* T)) (fun k A t _ ht => ?_) (fun _ _ _ h => by cases h) _).2
      ⟨_, rfl, fun i => ?_⟩
    · rw [Option.some_inj] at ht
      subst ht
      unfold pls1TransformRow
      rw [show (of Z).getRow ((k : Nat) : Int) = .ok (asRow (Z k)) from getRow_of Z k, except_bind_ok, h, except_bind_ok]
      exact setRow_of A k _
    · rw [Option.some_inj]
      funext j
      simp [Matrix.mul_apply, Matrix.vecMul, dotProduct]

/-- C145.  `predict` of PLS1 and VCPLS, whatever the model holds: a linear map without offset. -/
theorem C145_pls1_predict (K : Nat) (m : Pls1Model α) : Affine (pls1Predict (K : Int) m) := by
  intro c
  have start : ∀ (r : Nat) (Z : Matrix (Fin (r + 1)) (Fin c) α), pls1Predict (K : Int) m (of Z) =
      loopM (pls1PredictRow (K : Int) m (of Z)) (pyRange 0 ((r + 1 : Nat) : Int)) (of (0 : Matrix (Fin (r + 1)) (Fin 1) α)) := fun r Z => by
    have hz : Factory.zeros (α := α) ((of Z).rows : Int) 1 = .ok (of (0 : Matrix (Fin (r + 1)) (Fin 1) α)) :=
      Factory.zeros_nat (Nat.succ_pos r) 1
    unfold pls1Predict
    rw [hz, except_bind_ok]
  have bad : (∀ x : Fin c → α, ∃ e, (pls1Row (K : Int) m.W m.P (asRow x) >>= fun T => T.mul m.bHat >>= fun tb => tb.asReal) = .error e) →
      ∀ (r : Nat) (Z : Matrix (Fin (r + 1)) (Fin c) α), ∃ e, pls1Predict (K : Int) m (of Z) = .error e := by
    intro h r Z
    rw [start]
    cases hr : loopM (pls1PredictRow (K : Int) m (of Z)) (pyRange 0 ((r + 1 : Nat) : Int)) (of (0 : Matrix (Fin (r + 1)) (Fin 1) α)) with
    | error e => exact ⟨e, rfl⟩
    | ok B =>
      exfalso
      obtain ⟨C, _, hC⟩ := (loop_rows _ (0 : Matrix (Fin (r + 1)) (Fin 1) α) (fun _ => none) (fun _ _ _ _ h => by cases h)
        (fun k A _ _ => by
          obtain ⟨e, he⟩ := h (Z k)
          refine ⟨e, ?_⟩
          unfold pls1PredictRow
          rw [show (of Z).getRow ((k : Nat) : Int) = .ok (asRow (Z k)) from getRow_of Z k, except_bind_ok]
          revert he
          cases pls1Row (K : Int) m.W m.P (asRow (Z k)) with
          | error e => exact fun he => by cases he; rfl
          | ok T =>
            simp only [except_bind_ok]
            cases T.mul m.bHat with
            | error e => exact fun he => by cases he; rfl
            | ok tb =>
              simp only [except_bind_ok]
              cases tb.asReal with
              | error e => exact fun he => by cases he; rfl
              | ok v => exact fun he => by cases he) B).1 hr
      cases hC 0
  rcases pls1Row_linear c K m.W m.P with h | ⟨T, h⟩
  · refine .inl (bad fun x => ?_)
    obtain ⟨e, he⟩ := h x
    exact ⟨e, by rw [he]; rfl⟩
  · rcases hm : m.bHat with ⟨br, bc, b⟩
    by_cases hb : K = br ∧ bc = 1
    · obtain ⟨rfl, rfl⟩ := hb
      refine .inr ⟨1, T * b, 0, fun r Z => ?_⟩
      rw [start]
      refine (loop_rows _ (0 : Matrix (Fin (r + 1)) (Fin 1) α) (fun i => some fun _ => (Z i ᵥ* T) ⬝ᵥ fun a => b a 0) (fun k A t _ ht => ?_)
        (fun _ _ _ h => by cases h) _).2 ⟨_, rfl, fun i => ?_⟩
      · rw [Option.some_inj] at ht
        subst ht
        unfold pls1PredictRow
        rw [show (of Z).getRow ((k : Nat) : Int) = .ok (asRow (Z k)) from getRow_of Z k, except_bind_ok, h, except_bind_ok, hm]
        have e1 : (asRow (Z k ᵥ* T)).mul (⟨K, 1, b⟩ : Mat α) = .ok (asRow fun _ : Fin 1 => (Z k ᵥ* T) ⬝ᵥ fun a => b a 0) := by
          refine (mul_of _ b).trans ?_
          rw [ok_inj]
          refine mk_congr fun i j => ?_
          rw [Subsingleton.elim j 0]
          rfl
        rw [e1, except_bind_ok, show (asRow fun _ : Fin 1 => (Z k ᵥ* T) ⬝ᵥ fun a => b a 0).asReal = _ from asReal_of _, except_bind_ok]
        refine (set_of A k 0 _).trans ?_
        rw [ok_inj]
        refine mk_congr fun i j => ?_
        rw [Matrix.updateRow_apply, Matrix.of_apply, Subsingleton.elim j 0]
        by_cases hi : i = k
        · rw [if_pos ⟨hi, rfl⟩, if_pos hi]
          rfl
        · rw [if_neg fun h => hi h.1, if_neg hi]
      · rw [Option.some_inj]
        funext j
        rw [← Matrix.mul_assoc]
        simp [Matrix.mul_apply, Matrix.vecMul, dotProduct, Subsingleton.elim j 0]
    · refine .inl (bad fun x => ?_)
      rw [h, except_bind_ok, hm]
      by_cases hk : K = br
      · subst hk
        refine ⟨.matrixAlgorithms, ?_⟩
        rw [show (asRow (x ᵥ* T)).mul (⟨K, bc, b⟩ : Mat α) = _ from mul_of _ b, except_bind_ok]
        unfold asReal
        rw [if_pos (.inr fun h => hb ⟨rfl, h⟩)]
      · exact ⟨_, by rw [mul_error hk]; rfl⟩

/-! ## Undoing the preprocessing of the response -/

theorem Affine.denorm (mean sd : α) : Affine (fun R : Mat α => loopM (denormStep mean sd) (pyRange 0 R.rows) R) := by
  intro c
  rcases c with _ | c
  · refine .inl fun r Z => ?_
    dsimp only
    cases hr : loopM (denormStep mean sd) (pyRange 0 ((of Z).rows : Int)) (of Z) with
    | error e => exact ⟨e, rfl⟩
    | ok B =>
      exfalso
      obtain ⟨C, _, hC⟩ := (loop_rows _ Z (fun _ => none) (fun _ _ _ _ h => by cases h) (fun k A _ _ => by
        refine ⟨.indexError, ?_⟩
        have e1 : (of A).get ((k : Nat) : Int) 0 = .error .indexError := by
          have e : pyIndex (of A).rows ((k : Nat) : Int) = .ok k := pyIndex_fin k
          unfold Mat.get
          rw [e]
          rfl
        unfold denormStep
        rw [e1]
        rfl) B).1 hr
      cases hC 0
  · refine AffineAt.cols (fun j => if j = 0 then sd else 1) (fun j => if j = 0 then mean else 0) fun r Z => ?_
    refine (loop_rows _ Z (fun i => some (Function.update (Z i) 0 (Z i 0 * sd + mean))) ?_ (fun _ _ _ h => by cases h) _).2
      ⟨_, rfl, fun i => ?_⟩
    · intro k A t hA ht
      rw [Option.some_inj] at ht
      unfold denormStep
      have e1 : (of A).get ((k : Nat) : Int) 0 = .ok (A k 0) := get_of A k 0
      rw [e1, except_bind_ok]
      refine (set_of A k 0 _).trans ?_
      rw [ok_inj]
      refine mk_congr fun i j => ?_
      rw [Matrix.updateRow_apply, Matrix.of_apply, ← ht]
      by_cases hi : i = k
      · subst hi
        rw [if_pos rfl, Function.update_apply, hA]
        by_cases hj : j = 0
        · rw [if_pos ⟨rfl, hj⟩, if_pos hj]
        · rw [if_neg fun h => hj h.2, if_neg hj]
      · rw [if_neg fun h => hi h.1, if_neg hi]
    · rw [Option.some_inj]
      funext j
      rw [Function.update_apply, Matrix.of_apply]
      by_cases hj : j = 0
      · rw [if_pos hj, if_pos hj, if_pos hj, hj]
      · rw [if_neg hj, if_neg hj, if_neg hj, mul_one, add_zero]

/-- C145.  `predict` of a single-response algorithm with its preprocessing. -/
theorem C145_single_predict (predict : M → Mat α → Except PyErr (Mat α)) (m : SingleModel α M) (h : Affine (predict m.base)) :
    Affine (singlePredict predict m) := by
  refine (h.bind (g := fun R => if m.hasTrans then loopM (denormStep m.mean m.sd) (pyRange 0 R.rows) R else .ok R)
    ?_).congr fun _ => rfl
  cases m.hasTrans with
  | true => exact (Affine.denorm m.mean m.sd).congr fun _ => if_pos rfl
  | false => exact Affine.id.congr fun _ => if_neg Bool.false_ne_true

theorem Affine.multiDenorm (ms ds : List α) :
    Affine (fun R : Mat α => loopM (fun i R => loopM (fun j R => multiDenormCell ms ds i j R) (pyRange 0 R.cols) R)
      (pyRange 0 R.rows) R) := by
  intro c
  by_cases hc : c ≤ ms.length ∧ c ≤ ds.length
  · obtain ⟨h1, h2⟩ := hc
    refine AffineAt.cols (fun j => ds[j.1]'(by omega)) (fun j => ms[j.1]'(by omega)) fun r Z => ?_
    refine (loop_rows _ Z (fun i => some fun j => Z i j * ds[j.1]'(by omega) + ms[j.1]'(by omega)) ?_
      (fun _ _ _ h => by cases h) _).2 ⟨_, rfl, fun i => rfl⟩
    intro k A t hA ht
    rw [Option.some_inj] at ht
    refine (denormRow_ok ms ds h1 h2 A k c (le_refl c)).trans ?_
    rw [ok_inj]
    refine mk_congr fun i j => ?_
    rw [Matrix.updateRow_apply, Matrix.of_apply, ← ht]
    by_cases hi : i = k
    · subst hi
      rw [if_pos ⟨rfl, j.2⟩, if_pos rfl, hA]
    · rw [if_neg fun h => hi h.1, if_neg hi]
  · refine .inl fun r Z => ?_
    dsimp only
    cases hr : loopM (fun i R => loopM (fun j R => multiDenormCell ms ds i j R) (pyRange 0 R.cols) R) (pyRange 0 ((of Z).rows : Int)) (of Z) with
    | error e => exact ⟨e, rfl⟩
    | ok B =>
      exfalso
      obtain ⟨C, _, hC⟩ := (loop_rows (K := c) _ Z (fun _ => none) (fun _ _ _ _ h => by cases h)
        (fun k A _ _ => denormRow_bad ms ds hc k A) B).1 hr
      cases hC 0

/-- C145.  `predict` of a multi-response algorithm with its preprocessing. -/
theorem C145_multi_predict (predict : M → Mat α → Except PyErr (Mat α)) (m : MultiModel α M) (h : Affine (predict m.base)) :
    Affine (multiPredict predict m) := by
  refine (h.bind (g := fun R => if m.hasTrans then
      loopM (fun i R => loopM (fun j R => multiDenormCell m.means m.sds i j R) (pyRange 0 R.cols) R)
        (pyRange 0 R.rows) R
    else .ok R) ?_).congr fun _ => rfl
  cases m.hasTrans with
  | true => exact (Affine.multiDenorm m.means m.sds).congr fun _ => if_pos rfl
  | false => exact Affine.id.congr fun _ => if_neg Bool.false_ne_true

/-! ## The other methods -/

/-- C145.  SIMPLS. -/
theorem C145_simpls (m : SimplsModel α) : Affine (simplsTransform m) ∧ Affine (simplsPredict m) := ⟨Affine.mul m.W, Affine.mul m.B⟩

/-- C145.  PRM. -/
theorem C145_prm {K : Type} [Field K] [LinearOrder K] [HasSqrt K] (m : PrmModel K) : Affine (prmPredict m) := Affine.mul m.B

/-- C145.  GLSW, EPO and their Y-gradient versions. -/
theorem C145_glsw (G : Option (Mat α)) : Affine (glswTransform G) := by
  cases G with
  | none => exact Affine.fail .runtimeError
  | some G => exact Affine.mul G

/-- C145.  OPLS: the filter, and predictions with an affine base method. -/
theorem C145_opls (base : BasePls α M) (m : OplsModel α M) :
    Affine (oplsTransform m) ∧ (Affine (base.predict m.base) → Affine (oplsPredict base m)) := by
  have h : Affine (oplsTransform m) := by
    refine (Affine.sub Affine.id ((Affine.mul m.W).bind (Affine.mul m.P.transpose))).congr fun Z => ?_
    show oplsFilter m.W m.P Z = (Z.mul m.W >>= fun T => T.mul m.P.transpose) >>= fun b => Z.sub b
    unfold oplsFilter
    cases Z.mul m.W with
    | error e => rfl
    | ok T =>
      show (T.mul m.P.transpose >>= fun o => Z.sub o) = _
      rfl
  exact ⟨h, fun hb => (h.bind hb).congr fun _ => rfl⟩

/-- C145.  A fitted `Center` and its inverse. -/
theorem C145_center (D : Mat α) (s : CenterState α) :
    Affine (fun Z => (transform center Z (center.configure D s).1).2) ∧
    Affine (fun Z => (inverseTransform center Z (center.configure D s).1).2) :=
  ⟨(Affine.subVec D.columnMeans rfl).congr fun _ => rfl, (Affine.addVec D.columnMeans rfl).congr fun _ => rfl⟩

section std
variable [HasSqrt α]

/-- All divisors of a fitted `Standardize` differ from zero. -/
def DivisorsOk (s : StatState α) : Prop := ∀ d, s.stds = some d → ∀ i j, d.data i j ≠ 0

/-- C145.  A fitted `Standardize` and its inverse. -/
theorem C145_standardize (isZero : α → Bool) (D : Mat α) (s s' : StatState α) (h : (standardize isZero).configure D s = (s', .ok ()))
    (_ : DivisorsOk s') : Affine (fun Z => (transform (standardize isZero) Z s').2) ∧
      Affine (fun Z => (inverseTransform (standardize isZero) Z s').2) := by
  obtain ⟨m, d, rfl, hm, hd⟩ := standardize_fitted isZero D s s' h
  exact ⟨((Affine.subVec m hm).bind (Affine.divVec d hd)).congr fun _ => rfl,
    ((Affine.mulVec d hd).bind (Affine.addVec m hm)).congr fun _ => rfl⟩

/-- C145.  A trained NIPALS or CCARegression. -/
theorem C145_nipals (c : NipalsCfg α) (X Y : Mat α) (m : NipalsModel α) (h : nipalsTrain c X Y = .ok m) (hX0 : DivisorsOk m.stdX)
    (hY0 : DivisorsOk m.stdY) : Affine (nipalsPredict c m) ∧ Affine (nipalsTransform c m) ∧ Affine (nipalsTransformResponse c m) := by
  obtain ⟨⟨BX, hX⟩, ⟨BY, hY⟩, e1, e2⟩ := nipalsTrain_states c X Y m h
  have hx := (C145_standardize c.isZero X _ _ (standardize_first c.isZero X hX) (by rw [← e1]; exact hX0)).1
  rw [← e1] at hx
  have hy := (C145_standardize c.isZero Y _ _ (standardize_first c.isZero Y hY) (by rw [← e2]; exact hY0)).1
  rw [← e2] at hy
  obtain ⟨mu, sd, e3, hmu, _⟩ := standardize_fitted c.isZero Y _ _ (standardize_first c.isZero Y hY)
  rw [← e2] at e3
  refine ⟨(hx.bind ((Affine.mul m.coef).bind (Affine.addVec mu hmu))).congr fun Z => ?_,
    (hx.bind (Affine.mul m.xRot)).congr fun Z => rfl, (hy.bind (Affine.mul m.yRot)).congr fun Z => rfl⟩
  unfold nipalsPredict
  rw [e3]
  rfl

/-- C145.  `predict` of a trained SparsePLS. -/
theorem C145_sparse {K : Type} [Field K] [LinearOrder K] [HasSqrt K] (c : SpCfg K) (X Y : Mat K) (m : SpModel K) (h : spTrain c X Y = .ok m)
    (hX0 : DivisorsOk m.stdX) : Affine (spPredict c m) := by
  obtain ⟨⟨BX, hX⟩, ⟨BY, hY⟩, e1, e2⟩ := spTrain_states c X Y m h
  have hx := (C145_standardize c.isZero X _ _ (standardize_first c.isZero X hX) (by rw [← e1]; exact hX0)).1
  rw [← e1] at hx
  obtain ⟨mu, sd, e3, hmu, _⟩ := standardize_fitted c.isZero Y _ _ (standardize_first c.isZero Y hY)
  rw [← e2] at e3
  cases hB : spRows m.vars.B m.vars.A with
  | error e =>
    refine (((hx.bind (Affine.spCols m.vars.A))).bind (Affine.fail e)).congr fun Z => ?_
    unfold spPredict
    rw [hB]
    cases (transform (standardize c.isZero) Z m.stdX).2 with
    | error e => rfl
    | ok Z' => rfl
  | ok BA =>
    refine (((hx.bind (Affine.spCols m.vars.A))).bind ((Affine.mul BA).bind ((Affine.scaleByRowVector sd).bind
      (Affine.addVec mu hmu)))).congr fun Z => ?_
    unfold spPredict
    rw [hB, e3]
    cases (transform (standardize c.isZero) Z _).2 with
    | error e => rfl
    | ok Z' => rfl

/-! ## DIPLS and CCA -/

omit [HasSqrt α] in
theorem Affine.optCentre (v : Mat α) (hv : v.rows = 1) :
    Affine (fun Z : Mat α => Verif.optCentre (some ⟨true, some v⟩) Z >>= fun z => .ok z.2) := by
  refine (Affine.subVec v hv).congr fun Z => ?_
  show ((Z.vectorOp (· - ·) v >>= fun B => Except.ok ((⟨true, some v⟩ : CenterState α), B)) >>= fun z => .ok z.2) = _
  cases Z.vectorOp (· - ·) v with
  | error e => rfl
  | ok B => rfl

/-- C145.  A trained DIPLS. -/
theorem C145_dipls (cfg : DiplsCfg α) (o : DiplsObj α) (X y : Mat α) (m : DiplsModel α)
    (ho : SaneCentre o.xc ∧ SaneCentre o.xtc) (h : diplsPerform cfg o X y = .ok (.trained m)) :
    Affine (diplsTransform m) ∧ Affine (diplsPredict m) := by
  obtain ⟨⟨v, hv, hv1⟩, ⟨w, hw, hw1⟩⟩ := diplsPerform_states cfg o X y m ho h
  constructor
  · cases hW : unNone m.vars.W with
    | error e =>
      refine ((Affine.optCentre v hv1).bind (Affine.fail e)).congr fun Z => ?_
      unfold diplsTransform
      rw [hv, hW]
      cases optCentre (some ⟨true, some v⟩) Z with
      | error e => rfl
      | ok z => rfl
    | ok W =>
      refine ((Affine.optCentre v hv1).bind (Affine.mul W)).congr fun Z => ?_
      unfold diplsTransform
      rw [hv, hW]
      cases optCentre (some ⟨true, some v⟩) Z with
      | error e => rfl
      | ok z => rfl
  · have key : ∀ u : Mat α, u.rows = 1 → Affine (fun Z => do
        let z ← optCentre (some ⟨true, some u⟩) Z
        let r ← z.2.mul m.b
        (.ok (r.addScalar m.b0) : Except PyErr (Mat α))) := fun u hu => by
      refine ((Affine.optCentre u hu).bind ((Affine.mul m.b).bind (Affine.addScalar m.b0))).congr fun Z => ?_
      cases optCentre (some ⟨true, some u⟩) Z with
      | error e => rfl
      | ok z => rfl
    cases hs : m.obj.strategy with
    | none =>
      refine (Affine.fail .attributeError).congr fun Z => ?_
      unfold diplsPredict
      rw [hs]
      rfl
    | some st =>
      cases st with
      | unsupervised =>
        refine (key w hw1).congr fun Z => ?_
        unfold diplsPredict
        rw [hs, hw]
      | supervised =>
        refine (key v hv1).congr fun Z => ?_
        unfold diplsPredict
        rw [hs, hv]
      | semisupervised =>
        refine (key v hv1).congr fun Z => ?_
        unfold diplsPredict
        rw [hs, hv]

/-- C145.  A trained CCAFilter. -/
theorem C145_cca [DecidableEq α] (cfg : CcaCfg α) (o o' : CcaObj α) (X Y : Mat α) (ho : SaneCentre o.cX ∧ SaneCentre o.cY)
    (h : ccaInit cfg o X Y = .ok (o', none)) : Affine (ccaTransform o') ∧ Affine (ccaTransformResponse o') := by
  obtain ⟨v, w, A, B, rfl, hv, hw⟩ := ccaInit_states cfg o o' X Y ho h
  constructor
  · refine ((Affine.optCentre v hv).bind (Affine.mul A)).congr fun Z => ?_
    unfold ccaTransform
    rw [if_pos rfl]
    dsimp only
    cases optCentre (some ⟨true, some v⟩) Z with
    | error e => rfl
    | ok z => rfl
  · refine ((Affine.optCentre w hw).bind (Affine.mul B)).congr fun Z => ?_
    unfold ccaTransformResponse
    rw [if_pos rfl]
    dsimp only
    cases optCentre (some ⟨true, some w⟩) Z with
    | error e => rfl
    | ok z => rfl

/-! ## KernelPLS -/

omit [HasSqrt α] in
theorem Affine.kplsCentreTest (n : Nat) (Ko : Mat α) : Affine (fun K : Mat α => Verif.kplsCentreTest n Ko K) := by
  have h1 : Affine (fun K : Mat α => Factory.filled (K.rows : Int) (n : Int) (1 / (n : α))) := fun c =>
    .inr ⟨n, 0, fun _ => 1 / (n : α), fun r Z => (rw_filled (r + 1) n _).trans (by
      rw [ok_inj]
      refine mk_congr fun i j => ?_
      simp)⟩
  refine ((Affine.sub Affine.id (h1.bind (Affine.mul Ko))).bind
    (Affine.mul (of ((1 : Matrix (Fin n) (Fin n) α) - Matrix.of fun _ _ => 1 / (n : α))))).congr fun K => ?_
  have e1 : Factory.eye (α := α) (n : Int) (n : Int) = .ok (of (1 : Matrix (Fin n) (Fin n) α)) := rw_eye n
  unfold Verif.kplsCentreTest
  rw [e1, except_bind_ok, rw_filled, rw_filled, except_bind_ok, except_bind_ok, sub_of]
  show _ = ((of (Matrix.of fun (_ : Fin K.rows) (_ : Fin n) => 1 / (n : α))).mul Ko >>= fun b => K.sub b) >>= _
  cases (of (Matrix.of fun (_ : Fin K.rows) (_ : Fin n) => 1 / (n : α))).mul Ko with
  | error e => rfl
  | ok a =>
    show (K.sub a >>= fun d => _) = K.sub a >>= _
    rfl

/-- C145.  A trained KernelPLS, if the kernel is affine in its first argument; the linear kernel is. -/
theorem C145_kernel {σ : Type} (c : KplsCfg α σ) (kern : σ) (X Y : Mat α) (m : KplsModel α σ)
    (h : kplsTrain c kern X Y = .ok m) (hk : Affine (fun Z => (c.kern2 m.kern Z m.X).2)) :
    Affine (kplsTransform c m) ∧ Affine (kplsPredict c m) := by
  obtain ⟨e1, e2⟩ := kplsTrain_states c kern X Y m h
  have hx := (C145_center X (center.init : CenterState α)).1
  rw [← e1] at hx
  have hy := (C145_center Y (center.init : CenterState α)).2
  rw [← e2] at hy
  have ht : Affine (kplsTransform c m) :=
    (hx.bind (hk.bind ((Affine.kplsCentreTest m.X.rows m.Korig).bind (Affine.mul m.vars.U)))).congr fun Z => rfl
  exact ⟨ht, (ht.bind ((Affine.mul m.B).bind hy)).congr fun Z => rfl⟩

omit [HasSqrt α] in
/-- C145.  The linear kernel. -/
theorem C145_linear_kernel (Y : Mat α) : Affine (fun Z : Mat α => linearMatrix Z (some Y)) := Affine.mul Y.transpose

end std

/-! ## PCA -/

/-- C145.  `do_transform` of a fitted PCA on data with the columns it was fitted on. -/
theorem C145_pca {n q : Nat} (cfg : PcaCfg ℝ) (hcfg : PcaReal cfg) (X : Matrix (Fin n) (Fin q) ℝ) (h : ∃ j i i', X i j ≠ X i' j) :
    ∃ st S L, pcaTransform cfg (of X) = .ok (st, S, L) ∧ AffineAt q (pcaScores cfg st) := by
  obtain ⟨p, κ, ev, V, comp, K, hK, st, S, L, h1, _, h3⟩ := C84_do_transform_partial cfg hcfg X h
  let d : Fin p → ℝ := fun j => if cfg.centered then 1 else sd fun k => X k (κ j)
  let u : Fin K → Fin p := fun c => comp ⟨c.1, lt_of_lt_of_le c.2 hK⟩
  refine ⟨st, S, L, h1, .inr ⟨K, Matrix.of fun a c => ∑ j, if a = κ j then V j (u c) / d j else 0,
    fun c => -∑ j, (mu fun k => X k (κ j)) * V j (u c) / d j, fun r Z => ?_⟩⟩
  obtain ⟨S', e1, e2⟩ := h3 (r + 1) Z (Nat.succ_pos r)
  rw [e1, ok_inj]
  refine mk_congr fun i c => ?_
  rw [e2 i c, Matrix.mul_apply, Matrix.add_apply, Matrix.mul_apply, Matrix.of_apply]
  simp only [Matrix.of_apply, Finset.mul_sum]
  rw [Finset.sum_comm, ← sub_eq_add_neg, ← Finset.sum_sub_distrib]
  refine Finset.sum_congr rfl fun j _ => ?_
  simp only [mul_ite, mul_zero, Finset.sum_ite_eq', Finset.mem_univ, if_true]
  show (Z i (κ j) - mu fun k => X k (κ j)) / d j * V j (u c) = _
  ring

/-! ## What is not affine -/

/-- C145 (limits).  The RBF kernel is not affine in the sample: its values lie in `(0, 1]` and are not constant. -/
theorem C145_rbf_limits {γ : ℝ} (hγ : 0 < γ) {m c : Nat} (Y : Matrix (Fin (m + 1)) (Fin (c + 1)) ℝ) :
    ¬ AffineAt (c + 1) (fun Z : Mat ℝ => (applyMatrix2 rbfVector (some γ) Z (of Y)).2) := by
  intro h
  have val : ∀ x : Fin (c + 1) → ℝ, (applyMatrix2 rbfVector (some γ) (of (Matrix.of fun _ : Fin 1 => x)) (of Y)).2 =
      .ok (of (Matrix.of fun (_ : Fin 1) j => rbf γ x (Y j))) := fun x => (C39_rbf Nat.one_pos (some γ) (Matrix.of fun _ : Fin 1 => x) Y).1
  -- the first stored sample and another point
  let y := Y 0
  let z : Fin (c + 1) → ℝ := fun k => y k + 1
  have hlt : rbf γ z y < 1 := by
    rw [← C40_self γ y, C40_decreasing hγ]
    rw [dist2_self]
    refine lt_of_le_of_ne (dist2_nonneg z y) fun h0 => ?_
    have := (C40_decreasing hγ z y y y).not.2 (by rw [dist2_self, ← h0]; exact lt_irrefl _)
    rw [C40_self, rbf, ← h0, mul_zero, Real.exp_zero] at this
    have h1 : dist2 z y = Real.sqrt (∑ l, (z l - y l) * (z l - y l)) := rfl
    rw [h1] at h0
    have h2 : (∑ l : Fin (c + 1), (z l - y l) * (z l - y l)) = (c : ℝ) + 1 := by
      simp [z]
    rw [h2] at h0
    have := Real.sqrt_pos.2 (show (0 : ℝ) < (c : ℝ) + 1 by positivity)
    linarith
  set v := rbf γ z y with hv
  have hv1 : (1 : ℝ) - v ≠ 0 := by linarith
  have key := C145_mixture h (Matrix.of fun _ : Fin 1 => y) (Matrix.of fun _ : Fin 1 => z) _ _ (1 - 1 / (1 - v)) (1 / (1 - v)) (by ring)
    (val y) (val z)
  have e : (1 - 1 / (1 - v)) • (Matrix.of fun _ : Fin 1 => y) + (1 / (1 - v)) • (Matrix.of fun _ : Fin 1 => z) =
      Matrix.of fun _ : Fin 1 => ((1 - 1 / (1 - v)) • y + (1 / (1 - v)) • z) := by
    ext i j
    rfl
  rw [e] at key
  have key := (val _).symm.trans key
  rw [ok_inj] at key
  have k0 := congrFun (congrFun (of_injective key) 0) 0
  simp only [Matrix.of_apply, Matrix.add_apply, Matrix.smul_apply, smul_eq_mul] at k0
  have hpos := (C40_range hγ.le ((1 - 1 / (1 - v)) • y + (1 / (1 - v)) • z) (Y 0)).1
  rw [k0, show rbf γ y (Y 0) = 1 from C40_self γ y, show rbf γ z (Y 0) = v from rfl] at hpos
  have : (1 - 1 / (1 - v)) * 1 + 1 / (1 - v) * v = 0 := by
    field_simp
    ring
  rw [this] at hpos
  exact lt_irrefl _ hpos

/-! ## Examples -/

/-- PLS1 with centring: the prediction half way between two samples is half way between their predictions, for any model. -/
example (m : SingleModel ℝ (Pls1Model ℝ)) (Z Z' : Matrix (Fin 3) (Fin 2) ℝ) (R R' : Matrix (Fin 3) (Fin 1) ℝ)
    (h : singlePredict (pls1Predict (2 : Nat)) m (of Z) = .ok (of R)) (h' : singlePredict (pls1Predict (2 : Nat)) m (of Z') = .ok (of R')) :
    singlePredict (pls1Predict (2 : Nat)) m (of ((1 / 2 : ℝ) • Z + (1 / 2 : ℝ) • Z')) = .ok (of ((1 / 2 : ℝ) • R + (1 / 2 : ℝ) • R')) :=
  C145_mixture (C145_single_predict _ m (C145_pls1_predict 2 m.base) 2) Z Z' R R' _ _ (by norm_num) h h'

/-- A model that answers, and its table read off: SIMPLS with the coefficients `2, 3`. -/
example (m : SimplsModel ℝ) (hB : m.B = of (!![2; 3] : Matrix (Fin 2) (Fin 1) ℝ)) (Z : Matrix (Fin 4) (Fin 2) ℝ) :
    simplsPredict m (of Z) = .ok (of (Matrix.of fun i (_ : Fin 1) => (∑ k, Z i k * ((!![2; 3] : Matrix (Fin 2) (Fin 1) ℝ) k 0 - 0)) + 0)) := by
  have h0 : simplsPredict m (of (0 : Matrix (Fin 1) (Fin 2) ℝ)) = .ok (of (0 : Matrix (Fin 1) (Fin 1) ℝ)) := by
    unfold simplsPredict
    rw [hB, mul_of, Matrix.zero_mul]
  have h1 : simplsPredict m (of (1 : Matrix (Fin 2) (Fin 2) ℝ)) = .ok (of (!![2; 3] : Matrix (Fin 2) (Fin 1) ℝ)) := by
    unfold simplsPredict
    rw [hB, mul_of, Matrix.one_mul]
  refine (C145_read_off ((C145_simpls m).2 2) 0 _ h0 h1 Z).trans ?_
  rw [ok_inj]
  refine mk_congr fun i j => ?_
  rw [Subsingleton.elim j 0]
  rfl

/-- What a `Standardize` holds after its first use. -/
theorem standardize_divisors {n p : Nat} (A : Matrix (Fin n) (Fin (p + 1)) ℝ) (isZero : ℝ → Bool) (hz : ∀ x, isZero x = true ↔ x = 0) :
    (transform (standardize isZero) (of A) (standardize isZero).init).1.stds = some (of (Matrix.of fun (_ : Fin 1) j => divisor A j)) := by
  have hg : guardStds isZero (of A).columnStdevs = .ok (of (Matrix.of fun (_ : Fin 1) j => divisor A j)) := by
    rw [columnStdevs_of, guardStds_row]
    congr 1
    refine mk_congr fun i j => ?_
    show (if j = 0 ∧ isZero (sd fun k => A k 0) = true then (1 : ℝ) else sd fun k => A k j) =
      if j.1 = 0 ∧ sd (fun k => A k j) = 0 then 1 else sd fun k => A k j
    by_cases h0 : j = 0
    · subst h0
      by_cases h : sd (fun k => A k 0) = 0
      · exact (if_pos ⟨rfl, (hz _).2 h⟩).trans (if_pos ⟨rfl, h⟩).symm
      · exact (if_neg fun hh => h ((hz _).1 hh.2)).trans (if_neg fun hh => h hh.2).symm
    · exact (if_neg fun hh => h0 hh.1).trans (if_neg fun hh => h0 (Fin.ext hh.1)).symm
  unfold transform
  rw [if_neg (show ¬ (standardize isZero).configured (standardize isZero).init = true from Bool.false_ne_true)]
  have hc : (standardize isZero).configure (of A) (standardize isZero).init =
      (⟨true, some (of A).columnMeans, some (of (Matrix.of fun (_ : Fin 1) j => divisor A j))⟩, .ok ()) := by
    simp only [standardize, hg]
  rw [hc]

/-- The divisors differ from zero if no column other than the first is constant. -/
theorem divisorsOk {n p : Nat} (A : Matrix (Fin n) (Fin (p + 1)) ℝ) (isZero : ℝ → Bool) (hz : ∀ x, isZero x = true ↔ x = 0)
    (hA : ∀ j : Fin (p + 1), j ≠ 0 → (sd fun k => A k j) ≠ 0) :
    DivisorsOk (transform (standardize isZero) (of A) (standardize isZero).init).1 := by
  intro d hd i j
  rw [standardize_divisors A isZero hz, Option.some_inj] at hd
  subst hd
  show divisor A j ≠ 0
  unfold divisor
  by_cases h0 : j = 0
  · subst h0
    by_cases h : (sd fun k => A k 0) = 0
    · rw [if_pos ⟨rfl, h⟩]
      exact one_ne_zero
    · rw [if_neg fun hh => h hh.2]
      exact h
  · rw [if_neg fun hh => h0 (Fin.ext hh.1)]
    exact hA j h0

/-- Trained models meeting the hypotheses on the divisors exist: SparsePLS on `x = y = 1, 2, 3`. -/
example (med amax : Mat ℝ → ℝ) (hmed : ∀ p (f : Fin p → ℝ) (a : ℝ), 0 < p → (∀ i, f i = a) →
    med (of (Matrix.of fun i (_ : Fin 1) => f i)) = a) (hmax : IsAmax amax) :
    ∃ m, spTrain (spRamp med amax) (of ramp) (of ramp) = .ok m ∧ Affine (spPredict (spRamp med amax) m) := by
  obtain ⟨m, h, -⟩ := sp_example med amax hmed hmax
  refine ⟨m, h, C145_sparse _ _ _ m h ?_⟩
  obtain ⟨⟨_, hX⟩, _, e, _⟩ := spTrain_states _ _ _ m h
  rw [e]
  exact divisorsOk ramp _ (fun x => by simp [spRamp, spDemo]) fun j hj => absurd (Fin.ext (by omega)) hj

end Verif.Props
