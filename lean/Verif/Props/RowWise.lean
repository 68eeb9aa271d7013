import Verif.Core.SelLemmas
import Verif.Core.ListLemmas
import Verif.Core.Loop
import Verif.Transf.SavGol
import Verif.Transf.Filter
import Verif.Transf.FFT
import Verif.Props.KernelProps
import Verif.Props.SavGolProps
import Verif.Props.FilterProps
import Verif.Props.FFTProps
import Verif.Props.TransfProps

/-!
# C103: results do not depend on what else is in the batch

A fitted transformation, filter or regression model treats every sample (row) by itself: the result for a sample is
the same whether it is passed alone or with other samples, in any order.
-/

namespace Verif.Props
open Verif Mat Transf

variable {α β γ : Type}

/-- On data with `c` columns `f` is the map of one function of a row: there is a partial function `φ` of a row such
that `f` succeeds on a data set exactly when `φ` is defined on every row, and then row `i` of the result is `φ` of row
`i` of the data. -/
def RowWiseAt (c : Nat) (f : Mat α → Except PyErr (Mat β)) : Prop :=
  ∃ (c' : Nat) (φ : (Fin c → α) → Option (Fin c' → β)),
    ∀ (r : Nat) (Z : Matrix (Fin (r + 1)) (Fin c) α) (B : Mat β),
      f (of Z) = .ok B ↔ ∃ C : Matrix (Fin (r + 1)) (Fin c') β, B = of C ∧ ∀ i, φ (Z i) = some (C i)

/-- … for data with any number of columns. -/
def RowWise (f : Mat α → Except PyErr (Mat β)) : Prop := ∀ c : Nat, RowWiseAt c f

/-- The samples `σ 0, σ 1, …` of a data set (any selection: a single one, a reordering, with repetitions). -/
def rowSel {r r' c : Nat} (σ : Fin r' → Fin r) (Z : Matrix (Fin r) (Fin c) α) : Matrix (Fin r') (Fin c) α :=
  Matrix.of fun i => Z (σ i)

/-! ## What it means -/

/-- **C103** A row-wise operation commutes with every selection of samples: the result for the selected samples is
the selection of the results. -/
theorem C103_selection {f : Mat α → Except PyErr (Mat β)} {r r' c : Nat} (hf : RowWiseAt c f)
    (Z : Matrix (Fin (r + 1)) (Fin c) α) (σ : Fin (r' + 1) → Fin (r + 1)) (B : Mat β) (h : f (of Z) = .ok B) :
    ∃ (c' : Nat) (C : Matrix (Fin (r + 1)) (Fin c') β), B = of C ∧ f (of (rowSel σ Z)) = .ok (of (rowSel σ C)) := by
  obtain ⟨c', φ, hφ⟩ := hf
  obtain ⟨C, rfl, hC⟩ := (hφ r Z B).1 h
  exact ⟨c', C, rfl, (hφ r' _ _).2 ⟨_, rfl, fun i => hC (σ i)⟩⟩

/-- … in the form for a result of known shape. -/
theorem C103_selected {f : Mat α → Except PyErr (Mat β)} {r r' c c' : Nat} (hf : RowWiseAt c f)
    (Z : Matrix (Fin (r + 1)) (Fin c) α) (σ : Fin (r' + 1) → Fin (r + 1)) (C : Matrix (Fin (r + 1)) (Fin c') β)
    (h : f (of Z) = .ok (of C)) : f (of (rowSel σ Z)) = .ok (of (rowSel σ C)) := by
  obtain ⟨d, D, hD, e⟩ := C103_selection hf Z σ _ h
  obtain rfl : c' = d := congrArg Mat.cols hD
  rw [e, of_injective hD]

/-- **C103** A batch is accepted exactly when each of its samples is accepted alone, and row `i` of the result of the
batch is the result for sample `i` alone. -/
theorem C103_one_at_a_time {f : Mat α → Except PyErr (Mat β)} {r c : Nat} (hf : RowWiseAt c f)
    (Z : Matrix (Fin (r + 1)) (Fin c) α) :
    ((∃ B, f (of Z) = .ok B) ↔ ∀ i, ∃ B, f (of (rowSel (fun _ : Fin 1 => i) Z)) = .ok B) ∧
      ∀ B, f (of Z) = .ok B → ∃ (c' : Nat) (C : Matrix (Fin (r + 1)) (Fin c') β), B = of C ∧
        ∀ i, f (of (rowSel (fun _ : Fin 1 => i) Z)) = .ok (of (Matrix.of fun _ : Fin 1 => C i)) := by
  refine ⟨⟨fun ⟨B, h⟩ i => ?_, fun h => ?_⟩, fun B h => ?_⟩
  · obtain ⟨_, C, _, hC⟩ := C103_selection hf (r' := 0) Z (fun _ => i) B h
    exact ⟨_, hC⟩
  · obtain ⟨c', φ, hφ⟩ := hf
    have : ∀ i, ∃ x, φ (Z i) = some x := fun i => by
      obtain ⟨B, hB⟩ := h i
      obtain ⟨C, -, hC⟩ := (hφ 0 _ _).1 hB
      exact ⟨_, hC 0⟩
    choose C hC using this
    exact ⟨_, (hφ r Z _).2 ⟨Matrix.of C, rfl, hC⟩⟩
  · obtain ⟨c', φ, hφ⟩ := hf
    obtain ⟨C, rfl, hC⟩ := (hφ r Z B).1 h
    exact ⟨c', C, rfl, fun i => (hφ 0 _ _).2 ⟨_, rfl, fun _ => hC i⟩⟩

/-- **C103** Results for two batches stacked are the stacked results. -/
theorem C103_stacked {f : Mat α → Except PyErr (Mat β)} {r₁ r₂ c : Nat} (hf : RowWiseAt c f)
    (Z₁ : Matrix (Fin (r₁ + 1)) (Fin c) α) (Z₂ : Matrix (Fin (r₂ + 1)) (Fin c) α) (Z B B₁ B₂ : Mat _)
    (hZ : (of Z₁).concatAlongRows (of Z₂) = .ok Z) (h₁ : f (of Z₁) = .ok B₁) (h₂ : f (of Z₂) = .ok B₂)
    (hB : B₁.concatAlongRows B₂ = .ok B) : f Z = .ok B := by
  obtain ⟨c', φ, hφ⟩ := hf
  obtain ⟨C₁, rfl, hC₁⟩ := (hφ _ _ _).1 h₁
  obtain ⟨C₂, rfl, hC₂⟩ := (hφ _ _ _).1 h₂
  rw [concatAlongRows_of, ok_inj] at hZ hB
  subst hZ hB
  refine (hφ (r₁ + 1 + r₂) _ _).2 ⟨_, rfl, fun i => ?_⟩
  refine Fin.addCases (fun i => ?_) (fun i => ?_) (show Fin (r₁ + 1 + (r₂ + 1)) from i)
  · refine (congrArg φ (funext fun j => ?_)).trans ((hC₁ i).trans (congrArg some (funext fun j => ?_)))
    · simp only [Matrix.of_apply, Fin.addCases_left]
    · simp only [Matrix.of_apply, Fin.addCases_left]
  · refine (congrArg φ (funext fun j => ?_)).trans ((hC₂ i).trans (congrArg some (funext fun j => ?_)))
    · simp only [Matrix.of_apply, Fin.addCases_right]
    · simp only [Matrix.of_apply, Fin.addCases_right]

/-! ## Building blocks -/

/-- An operation that, for each number of columns, either always fails or applies one total function to every row. -/
theorem RowWise.total {f : Mat α → Except PyErr (Mat β)}
    (h : ∀ c : Nat, (∀ (r : Nat) (Z : Matrix (Fin (r + 1)) (Fin c) α), ∃ e, f (of Z) = .error e) ∨
      ∃ (c' : Nat) (φ : (Fin c → α) → Fin c' → β), ∀ (r : Nat) (Z : Matrix (Fin (r + 1)) (Fin c) α),
        f (of Z) = .ok (of (Matrix.of fun i => φ (Z i)))) : RowWise f := by
  intro c
  rcases h c with h | ⟨c', φ, h⟩
  · refine ⟨0, fun _ => none, fun r Z B => ⟨fun hB => ?_, fun ⟨C, _, hC⟩ => ?_⟩⟩
    · obtain ⟨e, he⟩ := h r Z
      rw [he] at hB
      cases hB
    · exact absurd (hC 0) (by simp)
  · refine ⟨c', fun x => some (φ x), fun r Z B => ?_⟩
    rw [h, ok_inj]
    constructor
    · rintro rfl
      exact ⟨_, rfl, fun i => rfl⟩
    · rintro ⟨C, rfl, hC⟩
      refine mk_congr fun i j => ?_
      exact congrFun (Option.some_injective _ (hC i)) j

theorem RowWise.congr {f g : Mat α → Except PyErr (Mat β)} (hf : RowWise f) (h : ∀ Z, g Z = f Z) : RowWise g := by
  have : g = f := funext h
  rwa [this]

theorem RowWise.fail (e : PyErr) : RowWise (fun _ : Mat α => (.error e : Except PyErr (Mat β))) :=
  RowWise.total fun _ => .inl fun _ _ => ⟨e, rfl⟩

theorem RowWise.id : RowWise (fun Z : Mat α => (.ok Z : Except PyErr (Mat α))) :=
  RowWise.total fun c => .inr ⟨c, fun x => x, fun _ _ => rfl⟩

theorem RowWise.bind {f : Mat α → Except PyErr (Mat β)} {g : Mat β → Except PyErr (Mat γ)} (hf : RowWise f)
    (hg : RowWise g) : RowWise (fun Z => f Z >>= g) := by
  intro c
  obtain ⟨c', φ, hφ⟩ := hf c
  obtain ⟨c'', ψ, hψ⟩ := hg c'
  refine ⟨c'', fun x => φ x >>= ψ, fun r Z B => ?_⟩
  constructor
  · intro h
    dsimp only at h
    cases hfZ : f (of Z) with
    | error e => rw [hfZ] at h; cases h
    | ok A =>
      rw [hfZ] at h
      obtain ⟨C, rfl, hC⟩ := (hφ _ _ _).1 hfZ
      obtain ⟨D, rfl, hD⟩ := (hψ _ _ _).1 h
      refine ⟨D, rfl, fun i => ?_⟩
      show (φ (Z i)).bind ψ = _
      rw [hC i]
      exact hD i
  · rintro ⟨D, rfl, hD⟩
    have : ∀ i, ∃ x, φ (Z i) = some x ∧ ψ x = some (D i) := fun i => by
      have h := hD i
      exact Option.bind_eq_some_iff.1 h
    choose C hC hC' using this
    have h1 : f (of Z) = .ok (of (Matrix.of C)) := (hφ _ _ _).2 ⟨_, rfl, hC⟩
    show f (of Z) >>= g = _
    rw [h1]
    exact (hψ _ _ _).2 ⟨_, rfl, hC'⟩

/-- Two row-wise results of the same data combined entry by entry. -/
theorem RowWise.zip (e : PyErr) (op : α → α → α) {f g : Mat β → Except PyErr (Mat α)} (hf : RowWise f)
    (hg : RowWise g) : RowWise (fun Z => do let a ← f Z; let b ← g Z; Mat.zipWith e op a b) := by
  intro c
  obtain ⟨c1, φ, hφ⟩ := hf c
  obtain ⟨c2, ψ, hψ⟩ := hg c
  by_cases hc : c1 = c2
  · subst hc
    refine ⟨c1, fun x => (φ x).bind fun a => (ψ x).map fun b => fun j => op (a j) (b j), fun r Z B => ?_⟩
    constructor
    · intro h
      dsimp only at h
      cases hfZ : f (of Z) with
      | error e => rw [hfZ] at h; cases h
      | ok A =>
        cases hgZ : g (of Z) with
        | error e => rw [hfZ, hgZ] at h; cases h
        | ok A' =>
          rw [hfZ, hgZ] at h
          obtain ⟨C, rfl, hC⟩ := (hφ _ _ _).1 hfZ
          obtain ⟨D, rfl, hD⟩ := (hψ _ _ _).1 hgZ
          have h : Mat.zipWith e op (of C) (of D) = .ok B := h
          rw [zipWith_of, ok_inj] at h
          refine ⟨_, h.symm, fun i => ?_⟩
          simp only []
          rw [hC i, hD i]
          rfl
    · rintro ⟨D, rfl, hD⟩
      have : ∀ i, ∃ a b, φ (Z i) = some a ∧ ψ (Z i) = some b ∧ D i = fun j => op (a j) (b j) := fun i => by
        obtain ⟨a, ha, hb⟩ := Option.bind_eq_some_iff.1 (hD i)
        obtain ⟨b, hb, hc⟩ := Option.map_eq_some_iff.1 hb
        exact ⟨a, b, ha, hb, hc.symm⟩
      choose A B' hA hB hAB using this
      have h1 : f (of Z) = .ok (of (Matrix.of A)) := (hφ _ _ _).2 ⟨_, rfl, hA⟩
      have h2 : g (of Z) = .ok (of (Matrix.of B')) := (hψ _ _ _).2 ⟨_, rfl, hB⟩
      simp only [h1, h2, except_bind_ok, zipWith_of, ok_inj]
      refine mk_congr fun i j => ?_
      rw [hAB i]
      rfl
  · refine ⟨0, fun _ => none, fun r Z B => ⟨fun h => ?_, fun ⟨C, _, hC⟩ => absurd (hC 0) (by simp)⟩⟩
    dsimp only at h
    cases hfZ : f (of Z) with
    | error e => rw [hfZ] at h; cases h
    | ok A =>
      cases hgZ : g (of Z) with
      | error e => rw [hfZ, hgZ] at h; cases h
      | ok A' =>
        rw [hfZ, hgZ] at h
        obtain ⟨C, rfl, hC⟩ := (hφ _ _ _).1 hfZ
        obtain ⟨D, rfl, hD⟩ := (hψ _ _ _).1 hgZ
        have h : Mat.zipWith e op (of C) (of D) = .ok B := h
        unfold Mat.zipWith at h
        rw [dif_neg fun h => hc h.2] at h
        cases h

/-- Multiplication by a stored matrix. -/
theorem RowWise.mul [Add α] [Mul α] [Zero α] (S : Mat α) : RowWise (fun Z : Mat α => Z.mul S) :=
  RowWise.total fun c => by
    by_cases h : c = S.rows
    · subst h
      refine .inr ⟨S.cols, fun x j => sumFin fun k => x k * S.data k j, fun r Z => ?_⟩
      unfold Mat.mul
      rw [dif_pos rfl]
      rfl
    · exact .inl fun r Z => ⟨_, mul_error h⟩

/-- A stored row vector combined with every row. -/
theorem RowWise.vectorOp (f : α → α → α) (v : Mat α) (hv : v.rows = 1) : RowWise (fun Z : Mat α => Z.vectorOp f v) :=
  RowWise.total fun c => by
    obtain ⟨m, n, v⟩ := v
    obtain rfl : m = 1 := hv
    by_cases h : c = n
    · subst h
      exact .inr ⟨c, fun x j => f (x j) (v 0 j), fun r Z => vectorOp_row f Z v⟩
    · exact .inl fun r Z => ⟨_, vectorOp_row_bad f _ _ rfl h⟩

/-- A function of every entry. -/
theorem RowWise.map (g : α → α) : RowWise (fun Z : Mat α => .ok (Z.map g)) :=
  RowWise.total fun c => .inr ⟨c, fun x j => g (x j), fun _ _ => rfl⟩

/-! ## Fitted transformations -/

section transformations

/-- **C103** A fitted `Center`. -/
theorem C103_center [Add α] [Sub α] [Zero α] [Div α] [NatCast α] (D : Mat α) (s : CenterState α) :
    RowWise (fun Z => (transform center Z (center.configure D s).1).2) :=
  (RowWise.vectorOp (· - ·) D.columnMeans rfl).congr fun _ => rfl

/-- **C103** … and its inverse. -/
theorem C103_center_inverse [Add α] [Sub α] [Zero α] [Div α] [NatCast α] (D : Mat α) (s : CenterState α) :
    RowWise (fun Z => (inverseTransform center Z (center.configure D s).1).2) :=
  (RowWise.vectorOp (· + ·) D.columnMeans rfl).congr fun _ => rfl

theorem rw_set_rows {M N : Mat α} {i j : Int} {v : α} (h : M.set i j v = .ok N) : N.rows = M.rows := by
  unfold Mat.set at h
  cases h1 : pyIndex M.rows i with
  | error e => rw [h1] at h; cases h
  | ok r =>
    cases h2 : pyIndex M.cols j with
    | error e => rw [h1, h2] at h; cases h
    | ok c =>
      rw [h1, h2] at h
      cases h
      rfl

theorem guardLoop_rows [One α] (isZero : α → Bool) (is : List Int) {M N : Mat α}
    (h : guardLoop isZero is M = .ok N) : N.rows = M.rows := by
  induction is generalizing M with
  | nil => cases h; rfl
  | cons i is ih =>
    rw [guardLoop] at h
    cases h1 : M.get i 0 with
    | error e => rw [h1] at h; cases h
    | ok x =>
      rw [h1, except_bind_ok] at h
      by_cases hx : isZero x = true
      · rw [if_pos hx] at h
        cases h2 : M.set i 0 1 with
        | error e => rw [h2] at h; cases h
        | ok M' =>
          rw [h2] at h
          exact (ih h).trans (rw_set_rows h2)
      · rw [if_neg hx] at h
        exact ih h

section std
variable [Add α] [Sub α] [Mul α] [Zero α] [One α] [Div α] [NatCast α] [HasSqrt α]

/-- What fitting a `Standardize` leaves behind. -/
theorem standardize_fitted (isZero : α → Bool) (D : Mat α) (s s' : StatState α)
    (h : (standardize isZero).configure D s = (s', .ok ())) :
    ∃ m d, s' = ⟨true, some m, some d⟩ ∧ m.rows = 1 ∧ d.rows = 1 := by
  cases hg : guardStds isZero D.columnStdevs with
  | error e => simp [standardize, hg] at h
  | ok d =>
    simp only [standardize, hg, Prod.mk.injEq, and_true] at h
    exact ⟨D.columnMeans, d, h.symm, rfl, guardLoop_rows isZero _ hg⟩

/-- **C103** A fitted `Standardize`. -/
theorem C103_standardize (isZero : α → Bool) (D : Mat α) (s s' : StatState α)
    (h : (standardize isZero).configure D s = (s', .ok ())) :
    RowWise (fun Z => (transform (standardize isZero) Z s').2) := by
  obtain ⟨m, d, rfl, hm, hd⟩ := standardize_fitted isZero D s s' h
  exact ((RowWise.vectorOp (· - ·) m hm).bind (RowWise.vectorOp (· / ·) d hd)).congr fun _ => rfl

/-- **C103** … and its inverse. -/
theorem C103_standardize_inverse (isZero : α → Bool) (D : Mat α) (s s' : StatState α)
    (h : (standardize isZero).configure D s = (s', .ok ())) :
    RowWise (fun Z => (inverseTransform (standardize isZero) Z s').2) := by
  obtain ⟨m, d, rfl, hm, hd⟩ := standardize_fitted isZero D s s' h
  exact ((RowWise.vectorOp (· * ·) d hd).bind (RowWise.vectorOp (· + ·) m hm)).congr fun _ => rfl

end std

/-- **C103** `RowNorm` in a state in which `inverse_transform` was not called (it refits for every data set, but only
ever uses the statistics of the row itself). -/
theorem C103_rowNorm (s : StatState ℝ) (hs : s.configured = false) :
    RowWise (fun Z => (transform (rowNorm isZeroR) Z s).2) :=
  RowWise.total fun c => .inr ⟨c, fun x j => (x j - mu x) / (if sd x = 0 then 1 else sd x),
    fun _ Z => (rowNorm_fresh Z s hs).1⟩

/-- **C103** `Log`, whatever its base and offset: a batch is rejected exactly when one of its rows is. -/
theorem C103_log [Zero α] [One α] [Add α] [Sub α] [Mul α] [Div α] [HasLog α] [HasExp α] (e : α)
    (eq le : α → α → Bool) (s : LogState α) :
    RowWise (fun Z => (transform (log e eq le) Z s).2) := by
  have ht : ∀ Z, (transform (log e eq le) Z s).2 = (log e eq le).doTransform s Z := fun Z => by
    unfold transform
    cases hs : s.configured <;> simp [log, hs]
  refine RowWise.congr (fun c => ⟨c, fun x => if ∃ j, le (x j + s.offset) 0 = true then none else
    some fun j => HasLog.log (x j + s.offset) * logFactor e eq s.base, fun r Z B => ?_⟩) ht
  have hany : ((of Z).addScalar s.offset).any (fun x => le x 0) = true ↔ ∃ i j, le (Z i j + s.offset) 0 = true := by
    rw [show (of Z).addScalar s.offset = of (Matrix.of fun i j => Z i j + s.offset) from rfl, any_of_iff]
    rfl
  show (if ((of Z).addScalar s.offset).any (fun x => le x 0) = true then _ else _) = _ ↔ _
  by_cases h : ∃ i j, le (Z i j + s.offset) 0 = true
  · rw [if_pos (hany.2 h)]
    obtain ⟨i, hi⟩ := h
    constructor
    · intro h; cases h
    · rintro ⟨C, -, hC⟩
      have := hC i
      simp only at this
      rw [if_pos hi] at this
      cases this
  · rw [if_neg fun h' => h (hany.1 h'), ok_inj]
    constructor
    · rintro rfl
      refine ⟨Matrix.of fun i j => HasLog.log (Z i j + s.offset) * logFactor e eq s.base, rfl, fun i => ?_⟩
      exact if_neg fun hi => h ⟨i, hi⟩
    · rintro ⟨C, rfl, hC⟩
      refine mk_congr fun i j => ?_
      have := (if_neg fun hi => h ⟨i, hi⟩).symm.trans (hC i)
      exact congrFun (Option.some_injective _ this) j

/-- **C103** `PassThrough`. -/
theorem C103_passThrough (s : Bool) : RowWise (fun Z : Mat α => (transform passThrough Z s).2) :=
  RowWise.id.congr fun Z => by cases s <;> rfl

/-- A convolution along the rows. -/
theorem sgApply_row [Add α] [Mul α] [Zero α] {m n w : Nat} (c : Matrix (Fin 1) (Fin w) α)
    (A : Matrix (Fin m) (Fin (n + w)) α) :
    sgApply (of c) (of A) = .ok (of (Matrix.of fun (i : Fin m) (j : Fin (n + 1)) =>
      sumFin fun k : Fin w => A i ⟨j + k, by omega⟩ * c 0 k)) := by
  unfold sgApply
  show (pyRange 0 (((n + w : Nat) : Int) - ((w : Nat) : Int) + 1)).mapM _ >>= multiConcat 1 = _
  have hr : ((n + w : Nat) : Int) - ((w : Nat) : Int) + 1 = ((n + 1 : Nat) : Int) := by
    push_cast; ring
  rw [hr, pyRange_ofFn]
  rw [mapM_ofFn (h := fun j : Fin (n + 1) => (⟨m, 1, Matrix.of fun i _ =>
    sumFin fun k : Fin w => A i ⟨j + k, by omega⟩ * c 0 k⟩ : Mat α))]
  · exact multiConcat_cols _
  · intro j
    have hsub : (of A).getSubMatrix (.tuple 0 (m : Int)) (.tuple ((j : Nat) : Int)
        (((j : Nat) : Int) + ((w : Nat) : Int))) = .ok (of (Matrix.of fun i (k : Fin w) =>
          A i ⟨j + k, by omega⟩)) := by
      have := getSubMatrix_tuple A 0 m j (j + w) (by omega) le_rfl (by omega) (by omega)
      push_cast at this ⊢
      rw [this, ok_inj]
      refine mk_eq (by omega) (by omega) fun i k => ?_
      simp only [Matrix.of_apply]
      congr 1
      exact Fin.ext (Nat.zero_add _)
    show ((of A).getSubMatrix (.tuple 0 (m : Int)) (.tuple ((j : Nat) : Int)
        (((j : Nat) : Int) + ((w : Nat) : Int))) >>= _) = _
    rw [hsub]
    show (mulByVector (of _) (of c) >>= fun x => pure x.rowSums) = _
    unfold mulByVector
    rw [vectorOp_row]
    rfl

/-- A Savitzky-Golay filter with a stored row of coefficients. -/
theorem RowWise.sgApply [Add α] [Mul α] [Zero α] (c : Mat α) (hc : c.rows = 1) :
    RowWise (fun Z => Transf.sgApply c Z) :=
  RowWise.total fun n => by
    obtain ⟨m, w, c⟩ := c
    obtain rfl : m = 1 := hc
    by_cases h : w ≤ n
    · obtain ⟨d, rfl⟩ : ∃ d, n = d + w := ⟨n - w, by omega⟩
      exact .inr ⟨d + 1, fun x j => sumFin fun k : Fin w => x ⟨j + k, by omega⟩ * c 0 k, fun r Z => sgApply_row c Z⟩
    · refine .inl fun r Z => ⟨.valueError, ?_⟩
      unfold Transf.sgApply
      show (pyRange 0 ((n : Int) - (w : Int) + 1)).mapM _ >>= multiConcat 1 = _
      rw [pyRange_nonpos _ (by omega)]
      rfl

theorem sgCoefficients_rows [Field α] [DecidableEq α] {l r p d : Int} {c : Mat α}
    (h : sgCoefficients l r p d = .ok c) : c.rows = 1 := by
  unfold sgCoefficients at h
  cases h1 : (determineCoefficients l r p d : Except PyErr (List α)) with
  | error e => rw [h1] at h; cases h
  | ok x =>
    rw [h1, except_bind_ok, Factory.create_eq [x] x.length (by simp) (by simp), ok_inj] at h
    rw [← h]
    rfl

/-- **C103** A configured `SavitzkyGolay` (any parameters, coefficients computed on the first use). -/
theorem C103_savitzkyGolay [Field α] [DecidableEq α] (D : Mat α) (s s' : SGState α) (hs : s.coef = none)
    (h : savGol.configure D s = (s', .ok ())) : RowWise (fun Z => (transform savGol Z s').2) := by
  simp only [savGol, hs] at h
  cases hc : (sgCoefficients s.left s.right s.poly s.der : Except PyErr (Mat α)) with
  | error e => simp [hc] at h
  | ok c =>
    simp only [hc, Prod.mk.injEq, and_true] at h
    subst h
    exact (RowWise.sgApply c (sgCoefficients_rows hc)).congr fun _ => rfl

/-- **C103** A configured `SavitzkyGolay2`. -/
theorem C103_savitzkyGolay2 [Field α] [DecidableEq α] (D : Mat α) (s s' : SG2State α) (hs : s.coef = none)
    (h : savGol2.configure D s = (s', .ok ())) : RowWise (fun Z => (transform savGol2 Z s').2) := by
  simp only [savGol2, hs] at h
  cases hc : (sgCoefficients s.points s.points s.poly s.der : Except PyErr (Mat α)) with
  | error e => simp [hc] at h
  | ok c =>
    simp only [hc, Prod.mk.injEq, and_true] at h
    subst h
    exact (RowWise.sgApply c (sgCoefficients_rows hc)).congr fun _ => rfl

/-- **C103 (violation)** `FFT` is not row-wise: its output rows are permuted (see C37). -/
theorem C103_fft_violation : ¬ RowWise (fftTransform false .realOnly) := by
  intro h
  obtain ⟨A, A', h0, C, C', hC, hC', hne⟩ := C37_misaligned_violation 2 0 le_rfl
  obtain ⟨c', φ, hφ⟩ := h 1
  obtain ⟨D, hD, hD1⟩ := (hφ 1 A _).1 hC
  obtain ⟨D', hD', hD1'⟩ := (hφ 1 A' _).1 hC'
  have e : modeCols 0 .realOnly = c' := congrArg Mat.cols hD
  subst e
  have e1 : C = D := of_injective hD
  have e2 : C' = D' := of_injective hD'
  subst e1 e2
  apply hne
  have := (hD1 0).symm.trans ((congrArg φ h0).trans (hD1' 0))
  exact Option.some_injective _ this

end transformations

/-! ## Filters -/

section filters

/-- Selection of columns. -/
theorem RowWise.getColumns (is : Nat → Except PyErr (List Int)) :
    RowWise (fun Z : Mat α => do let l ← is Z.cols; Z.getColumns (.list l)) :=
  RowWise.total fun c => by
    cases hl : is c with
    | error e => exact .inl fun r Z => ⟨e, by show (is c >>= _) = _; rw [hl]; rfl⟩
    | ok l =>
      have h0 : ∀ (r : Nat) (Z : Matrix (Fin (r + 1)) (Fin c) α),
          (is (of Z).cols >>= fun l => (of Z).getColumns (.list l)) =
            (resolve c l >>= fun cs => .ok (of (Matrix.of fun (i : Fin (r + 1)) j => Z i (cs.get j)))) := by
        intro r Z
        show (is c >>= fun l => (of Z).getColumns (.list l)) = _
        rw [hl, except_bind_ok]
        unfold Mat.getColumns getSubMatrix
        show (resolve (r + 1) (pyRange ((0 : Nat) : Int) ((r + 1 : Nat) : Int)) >>= fun rs => resolve c l >>= _) = _
        rw [resolve_range 0 (r + 1) (by omega) le_rfl, except_bind_ok]
        cases resolve c l with
        | error e => rfl
        | ok cs =>
          show Except.ok _ = Except.ok _
          rw [ok_inj]
          refine mk_eq (by simp) rfl fun i j => ?_
          simp only [Matrix.of_apply, List.get_ofFn]
          congr 1
          exact Fin.ext (Nat.zero_add _)
      cases hr : resolve c l with
      | error e => exact .inl fun r Z => ⟨e, by rw [h0, hr]; rfl⟩
      | ok cs => exact .inr ⟨cs.length, fun x j => x (cs.get j), fun r Z => by rw [h0, hr]; rfl⟩

/-- **C103** `Downsample`, for every start and step. -/
theorem C103_downsample (start step : Int) : RowWise (fun Z : Mat α => downsample start step Z) :=
  (RowWise.getColumns fun c => pyRangeStep start c step).congr fun _ => rfl

/-- **C103** `Equidistance`. -/
theorem C103_equidistance (k : Nat) (hk : 2 ≤ k) : RowWise (fun Z : Mat ℝ => equidistance (k : Int) Z) :=
  RowWise.total fun c => by
    rcases Nat.eq_zero_or_pos c with rfl | hc
    · refine .inl fun r Z => ⟨.indexError, ?_⟩
      obtain ⟨k, rfl⟩ : ∃ d, k = d + 1 := ⟨k - 1, by omega⟩
      unfold equidistance
      rw [show (of Z).rows = r + 1 from rfl, Factory.zeros_nat (Nat.succ_pos r), except_bind_ok, pyRange_zero,
        List.range_succ_eq_map, List.map_cons, equiLoop]
      have : equiColumn ((k + 1 : Nat) : Int) (of Z) ((0 : Nat) : Int) = .error .indexError := by
        unfold equiColumn
        simp only [Int.natCast_zero, Int.mul_zero, Int.zero_emod, Int.zero_ediv, if_true]
        rfl
      rw [this]
      rfl
    · exact .inr ⟨k, fun x j => interp (extRow x) (samplePos c k j), fun r Z => C43_interpolation (Nat.succ_pos r) hc hk Z⟩

/-- **C103** `MultiFilter` of row-wise filters. -/
theorem C103_multiFilter (fs : List (Mat α → Except PyErr (Mat α))) (h : ∀ f ∈ fs, RowWise f) :
    RowWise (multiFilter fs) := by
  induction fs with
  | nil => exact RowWise.id
  | cons f fs ih =>
    exact ((h f (List.mem_cons_self ..)).bind (ih fun g hg => h g (List.mem_cons_of_mem _ hg))).congr fun _ => rfl

end filters

/-! ## Kernels -/

section kernels

/-- **C103** The kernel matrix of new samples against stored ones, linear kernel. -/
theorem C103_linear_kernel [Add α] [Mul α] [Zero α] (Y : Mat α) : RowWise (fun Z : Mat α => linearMatrix Z (some Y)) :=
  (RowWise.mul Y.transpose).congr fun _ => rfl

/-- **C103** … polynomial kernel. -/
theorem C103_poly_kernel [Ring α] [Div α] (s : PolyState α) (Y : Mat α) :
    RowWise (fun Z : Mat α => (polyMatrix s Z (some Y)).2) :=
  RowWise.total fun c => by
    by_cases h : c = Y.cols
    · refine .inr ⟨Y.rows, fun x j => ((sumFin fun k => x k * Y.data j (k.cast h)) * s.gamma.getD (1 / (c : α)) + s.coef0)
        ^ s.degree, fun r Z => ?_⟩
      unfold polyMatrix
      show (Mat.mul (of Z) Y.transpose >>= _) = _
      unfold Mat.mul
      rw [dif_pos (show (of Z).cols = Y.transpose.rows from h), except_bind_ok]
      rfl
    · refine .inl fun r Z => ⟨.valueError, ?_⟩
      unfold polyMatrix
      show (Mat.mul (of Z) Y.transpose >>= _) = _
      rw [mul_error h]
      rfl

/-- **C103** … RBF kernel. -/
theorem C103_rbf_kernel (s : Option ℝ) (Y : Mat ℝ) :
    RowWise (fun Z : Mat ℝ => (applyMatrix2 rbfVector s Z Y).2) :=
  RowWise.total fun c => by
    obtain ⟨p, q, Y⟩ := Y
    by_cases h : c = q
    · subst h
      exact .inr ⟨p, fun x j => rbf (s.getD (1 / (c : ℝ))) x (Y j), fun r Z => (C39_rbf (Nat.succ_pos r) s Z Y).1⟩
    · rcases Nat.eq_zero_or_pos p with rfl | hp
      · refine .inr ⟨0, fun _ => Fin.elim0, fun r Z => ?_⟩
        unfold applyMatrix2
        rw [show (of Z).rows = r + 1 from rfl, show (of Y).rows = 0 from rfl, Factory.zeros_nat (Nat.succ_pos r)]
        simp only []
        rw [pairs_range]
        have : ((List.finRange (r + 1)).flatMap fun i => (List.finRange 0).map fun j => (i, j)) = [] := by simp
        rw [this]
        show Except.ok _ = Except.ok _
        rw [ok_inj]
        exact mk_congr fun _ j => j.elim0
      · obtain ⟨p, rfl⟩ : ∃ d, p = d + 1 := ⟨p - 1, by omega⟩
        refine .inl fun r Z => ⟨.invalidShape, ?_⟩
        unfold applyMatrix2
        rw [show (of Z).rows = r + 1 from rfl, show (of Y).rows = p + 1 from rfl, Factory.zeros_nat (Nat.succ_pos r)]
        simp only []
        rw [pairs_range, List.finRange_succ (n := p), List.finRange_succ (n := r), List.flatMap_cons, List.map_cons,
          List.cons_append, List.map_cons]
        have hs : ∀ M, kernelStep rbfVector (of Z) (of Y) false ((0 : Nat) : Int) ((0 : Nat) : Int) s M =
            (s, .error .invalidShape) := by
          intro M
          unfold kernelStep
          have e1 := getRow_of Z 0
          have e2 := getRow_of Y 0
          rw [show (((0 : Fin (r + 1)) : Nat) : Int) = ((0 : Nat) : Int) from rfl] at e1
          rw [show (((0 : Fin (p + 1)) : Nat) : Int) = ((0 : Nat) : Int) from rfl] at e2
          rw [e1, e2]
          simp only []
          rw [C40_mismatch h]
        show (kernelLoop rbfVector (of Z) (of Y) false ((((0 : Nat) : Int), ((0 : Nat) : Int)) :: _) s _).2 = _
        rw [kernelLoop, hs]

end kernels

/-! ## Examples -/

/-- A fitted `Center` gives the middle one of three samples the row it would give it alone. -/
example (D : Mat ℝ) (Z C : Matrix (Fin 3) (Fin 2) ℝ)
    (h : (transform center (of Z) (center.configure D center.init).1).2 = .ok (of C)) :
    (transform center (of (rowSel (![1] : Fin 1 → Fin 3) Z)) (center.configure D center.init).1).2 =
      .ok (of (rowSel (![1] : Fin 1 → Fin 3) C)) :=
  C103_selected (C103_center D center.init 2) Z _ C h

/-- A pipeline of row-wise steps is row-wise: take every second column, then normalise the rows. -/
example (s : StatState ℝ) (hs : s.configured = false) :
    RowWise (fun Z : Mat ℝ => downsample 0 2 Z >>= fun D => (transform (rowNorm isZeroR) D s).2) :=
  (C103_downsample 0 2).bind (C103_rowNorm s hs)

/-- Matrix multiplication from the left is not row-wise: swapping the two rows of the data is not a map of the rows. -/
example : ¬ RowWise (fun Z : Mat ℚ => (of (!![0, 1; 1, 0] : Matrix (Fin 2) (Fin 2) ℚ)).mul Z) := by
  intro h
  have h1 := C103_selected (h 1) (!![1; 2] : Matrix (Fin 2) (Fin 1) ℚ) (fun _ : Fin 1 => 0)
    (!![0, 1; 1, 0] * !![1; 2]) (mul_of _ _)
  have h2 := mul_error (M := of (!![0, 1; 1, 0] : Matrix (Fin 2) (Fin 2) ℚ))
    (N := of (rowSel (fun _ : Fin 1 => 0) (!![1; 2] : Matrix (Fin 2) (Fin 1) ℚ))) (by decide)
  exact absurd (h2.symm.trans h1) (by simp)

end Verif.Props
