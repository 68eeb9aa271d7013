import Verif.Alg.GLSW
import Verif.Core.ListLemmas

/-!
# Y-gradient GLSW and EPO

`src/wai/ma/algorithm/glsw/_YGradientGLSW.py`, `_YGradientEPO.py` and
`src/wai/ma/transformation/_YGradientGLSWSavitzkyGolayFilter.py` (the same filter).  `pow(2.0, x)` is a parameter.
-/

set_option linter.unusedSectionVars false

namespace Verif

open Mat Transf

variable {α : Type}

section code
variable [Add α] [Sub α] [Mul α] [Neg α] [Zero α] [One α] [Div α] [NatCast α] [HasSqrt α]

/-- `coef`, `_YGradientGLSW.py` 74-78. -/
def ygCoef : Fin 5 → α := ![((2 : Nat) : α) / ((10 : Nat) : α), 1 / ((10 : Nat) : α), 0, -1 / ((10 : Nat) : α), -((2 : Nat) : α) / ((10 : Nat) : α)]

/-- One pass of the loop of `smooth_row`, lines 137-142. -/
def ygPass (i : Int) (M : Mat α) (m : Int) (res : Mat α) : Except PyErr (Mat α) := do
  let c ← pyIndex 5 (4 - m)
  let row ← M.getRow (i - (m - 2))
  res.add (row.smul (ygCoef c))

/-- `smooth_row`, lines 125-144. -/
def ygSmoothRow (i : Int) (M : Mat α) : Except PyErr (Mat α) := do
  let res ← Factory.zeros 1 (M.cols : Int)
  loopM (ygPass i M) (pyRange 0 (5 : Nat)) res

/-- `extend_matrix`, lines 106-120. -/
def ygExtend (data : Mat α) : Except PyErr (Mat α) := do
  let first ← data.getRow 0
  let last ← data.getRow ((data.rows : Int) - 1)
  let a ← first.concatAlongRows first
  let b ← a.concatAlongRows data
  let c ← b.concatAlongRows last
  c.concatAlongRows last

/-- `do_transform`, lines 83-95, with `shrink_matrix`, 97-104. -/
def ygFilter (data : Mat α) : Except PyErr (Mat α) := do
  let ext ← ygExtend data
  let zero ← Factory.zerosLike ext
  let result ← loopM (fun i (r : Mat α) => do
    let row ← ygSmoothRow i ext
    r.setRow i row) (pyRange 2 ((ext.rows : Int) - 2)) zero
  result.getSubMatrix (.tuple 2 ((result.rows : Int) - 2)) (.tuple 0 (result.cols : Int))

/-- `SavitzkyGolayFilter`, lines 73-144: the only attribute is `configured`. -/
def ygSavGol : Trans α Bool Empty where
  init := false
  reset _ := false
  configured s := s
  setConfigured _ := true
  configure _ _ := (true, .ok ())
  doTransform _ data := ygFilter data
  doInverse _ _ := .error .matrixAlgorithms
  setParam e := e.elim

/-- `sorted_increasing_row_indices`, lines 28-30: a stable sort of `range(len(y_vals))` by value. -/
def ygOrder (le : α → α → Bool) (ys : List α) : List Int :=
  (pyRange 0 (ys.length : Int)).mergeSort fun a b => le (ys.getD a.toNat 0) (ys.getD b.toNat 0)

/-- `syd`, lines 43-44. -/
def ygSpread (ym : Mat α) : α :=
  HasSqrt.sqrt ((((ym.subScalar ym.meanAll).map fun x => x * x).total) / ((ym.rows - 1 : Nat) : α))

/-- `get_covariance_matrix`, lines 27-53.  `x ** 2` is `x * x`; `num_rows() - 1` is taken on naturals, as line 115 has
raised for a matrix without rows. -/
def yGradCov (le : α → α → Bool) (pow2 : α → α) (X y : Mat α) : Except PyErr (Mat α) := do
  let idx := ygOrder le y.toRawCopy1D
  let Xs ← X.getSubMatrix (.list idx) (.list (pyRange 0 (X.cols : Int)))
  let ys ← y.getSubMatrix (.list idx) (.list [0])
  let f1 := transform ygSavGol Xs ygSavGol.init
  let Xm ← f1.2
  let ym ← (transform ygSavGol ys f1.1).2
  let W ← Factory.zeros (y.rows : Int) (y.rows : Int)
  let W ← loopM (fun i (W : Mat α) => do
    let yd ← ym.get i 0
    W.set i i (pow2 (-1 * yd / ygSpread ym))) (pyRange 0 (ym.rows : Int)) W
  let WW ← W.mul W
  let A ← Xm.transpose.mul WW
  A.mul Xm

end code

/-- `YGradientGLSW.initialize`. -/
def yGlswFit [Field α] [DecidableEq α] [HasSqrt α] (cfg : GlswCfg α) : Mat α → Mat α → Except PyErr (GlswResult α) :=
  glswInit cfg yGradCheck (yGradCov cfg.le cfg.pow2) (glswVecs cfg) (glswWeights cfg)

/-- `YGradientEPO.initialize`. -/
def yEpoFit [Field α] [DecidableEq α] [HasSqrt α] (cfg : GlswCfg α) : Mat α → Mat α → Except PyErr (GlswResult α) :=
  glswInit cfg yGradCheck (yGradCov cfg.le cfg.pow2) (epoVecs cfg) (epoWeights cfg)

/-! ## On typed data -/

open scoped Matrix

variable {n p : Nat}

section typed
variable [Add α] [Sub α] [Mul α] [Neg α] [Zero α] [One α] [Div α] [NatCast α] [HasSqrt α]

/-- Row number, two less than `i`, moved into the range of the data. -/
def clampRow (hn : n ≠ 0) (i : Nat) : Fin n := ⟨min (i - 2) (n - 1), by omega⟩

theorem ygExtend_of (hn : n ≠ 0) (A : Matrix (Fin n) (Fin p) α) :
    ygExtend (of A) = .ok (of (Matrix.of fun (i : Fin (n + 4)) j => A (clampRow hn i) j)) := by
  unfold ygExtend
  have h0 : (of A).getRow 0 = .ok (of (Matrix.of fun (_ : Fin 1) b => A ⟨0, by omega⟩ b)) :=
    getRow_of A ⟨0, by omega⟩
  have h1 : (of A).getRow (((of A).rows : Int) - 1) = .ok (of (Matrix.of fun (_ : Fin 1) b => A ⟨n - 1, by omega⟩ b)) := by
    rw [show (((of A).rows : Int) - 1) = ((⟨n - 1, by omega⟩ : Fin n) : Nat) from by simp; omega]
    exact getRow_of A ⟨n - 1, by omega⟩
  rw [h0, h1]
  simp only [except_bind_ok]
  rw [concatAlongRows_of]
  simp only [except_bind_ok]
  rw [show (⟨1 + 1, p, _⟩ : Mat α) = of _ from rfl, concatAlongRows_of]
  simp only [except_bind_ok]
  rw [show (⟨1 + 1 + n, p, _⟩ : Mat α) = of _ from rfl, concatAlongRows_of]
  simp only [except_bind_ok]
  rw [show (⟨1 + 1 + n + 1, p, _⟩ : Mat α) = of _ from rfl, concatAlongRows_of, ok_inj]
  refine mk_eq (by omega) rfl fun i j => ?_
  simp only [Matrix.of_apply]
  show _ = A (clampRow hn i.1) j
  refine Fin.addCases (fun i => ?_) (fun i => ?_) i
  · rw [Fin.addCases_left]
    refine Fin.addCases (fun i => ?_) (fun i => ?_) i
    · rw [Fin.addCases_left]
      refine Fin.addCases (fun i => ?_) (fun i => ?_) i
      · rw [Fin.addCases_left]
        refine Fin.addCases (fun i => ?_) (fun i => ?_) i
        · rw [Fin.addCases_left]
          congr 1
          apply Fin.ext
          simp [clampRow]
        · rw [Fin.addCases_right]
          congr 1
          apply Fin.ext
          simp [clampRow]
      · rw [Fin.addCases_right]
        congr 1
        apply Fin.ext
        simp [clampRow]
        omega
    · rw [Fin.addCases_right]
      congr 1
      apply Fin.ext
      simp [clampRow]
  · rw [Fin.addCases_right]
    congr 1
    apply Fin.ext
    simp [clampRow]
    omega

theorem ygExtend_empty (A : Matrix (Fin 0) (Fin p) α) : ygExtend (of A) = .error .indexError := rfl

/-- What the loop of `smooth_row` adds up, given the five values of the window. -/
def ygSum (f : Fin 5 → α) : α := 0 + f 4 * ygCoef 4 + f 3 * ygCoef 3 + f 2 * ygCoef 2 + f 1 * ygCoef 1 + f 0 * ygCoef 0

theorem ygPass_of {m : Nat} (A : Matrix (Fin m) (Fin p) α) (i k : Nat) (hk : k < 5) (r : Fin m) (hr : (i : Int) - ((k : Int) - 2) = (r : Nat))
    (R : Matrix (Fin 1) (Fin p) α) :
    ygPass (i : Int) (of A) (k : Int) (of R) =
      .ok (of (Matrix.of fun (_ : Fin 1) j => R 0 j + A r j * ygCoef ⟨4 - k, by omega⟩)) := by
  unfold ygPass
  have h1 : pyIndex 5 (4 - (k : Int)) = .ok ⟨4 - k, by omega⟩ := by
    rw [show (4 - (k : Int)) = ((4 - k : Nat) : Int) by omega]
    exact pyIndex_natCast _ _
  rw [h1, hr, getRow_of]
  simp only [except_bind_ok]
  show (of R).add (of (Matrix.of fun (_ : Fin 1) j => A r j * ygCoef ⟨4 - k, by omega⟩)) = _
  unfold add zipWith
  rw [dif_pos ⟨rfl, rfl⟩, ok_inj]
  refine mk_congr fun a j => ?_
  rw [Subsingleton.elim (α := Fin 1) a 0]
  rfl

theorem ygSmoothRow_of {m : Nat} (A : Matrix (Fin m) (Fin p) α) (i : Nat) (h2 : 2 ≤ i) (hm : i + 2 < m) :
    ygSmoothRow (i : Int) (of A) = .ok (of (Matrix.of fun (_ : Fin 1) j => ygSum fun k => A ⟨i + k.1 - 2, by omega⟩ j)) := by
  unfold ygSmoothRow
  have hz : Factory.zeros 1 ((of A).cols : Int) = .ok (of (0 : Matrix (Fin 1) (Fin p) α)) :=
    Factory.zeros_nat one_pos p
  rw [hz, except_bind_ok]
  rw [show pyRange 0 (5 : Nat) = [((0 : Nat) : Int), ((1 : Nat) : Int), ((2 : Nat) : Int), ((3 : Nat) : Int), ((4 : Nat) : Int)] from rfl]
  simp only [loopM]
  rw [ygPass_of A i 0 (by omega) ⟨i + 2, by omega⟩ (by simp)]
  simp only [except_bind_ok]
  rw [ygPass_of A i 1 (by omega) ⟨i + 1, by omega⟩ (by simp)]
  simp only [except_bind_ok]
  rw [ygPass_of A i 2 (by omega) ⟨i, by omega⟩ (by simp)]
  simp only [except_bind_ok]
  rw [ygPass_of A i 3 (by omega) ⟨i - 1, by omega⟩ (by simp; omega)]
  simp only [except_bind_ok]
  rw [ygPass_of A i 4 (by omega) ⟨i - 2, by omega⟩ (by simp; omega)]
  simp only [except_bind_ok]
  rfl

/-- Effect of the filter: every row becomes the weighted sum of the five rows around it, rows outside the data being
replaced by the nearest one. -/
def ygSmooth (hn : n ≠ 0) (A : Matrix (Fin n) (Fin p) α) : Matrix (Fin n) (Fin p) α :=
  Matrix.of fun i j => ygSum fun k => A (clampRow hn (i.1 + k.1)) j

theorem pyRange_shift (a : Nat) (n : Nat) : pyRange (a : Int) ((a + n : Nat) : Int) = (pyRange 0 (n : Int)).map fun (k : Int) => k + a := by
  unfold pyRange
  rw [List.map_map, show ((a + n : Nat) : Int) - (a : Int) = (n : Int) by omega, show (n : Int) - 0 = (n : Int) by omega]
  refine List.map_congr_left fun k _ => ?_
  simp
  omega

theorem loopM_map {σ : Type} (f : Int → σ → Except PyErr σ) (g : Int → Int) (ks : List Int) (s : σ) :
    loopM f (ks.map g) s = loopM (fun k => f (g k)) ks s := by
  induction ks generalizing s with
  | nil => rfl
  | cons k ks ih =>
    rw [List.map_cons, loopM, loopM]
    cases f (g k) s with
    | error e => rfl
    | ok t => exact ih t

theorem ygFilter_of (hn : n ≠ 0) (A : Matrix (Fin n) (Fin p) α) : ygFilter (of A) = .ok (of (ygSmooth hn A)) := by
  unfold ygFilter
  rw [ygExtend_of hn, except_bind_ok]
  set E : Matrix (Fin (n + 4)) (Fin p) α := Matrix.of fun i j => A (clampRow hn i) j with hE
  have hz : Factory.zerosLike (of E) = .ok (of (0 : Matrix (Fin (n + 4)) (Fin p) α)) :=
    Factory.zeros_nat (Nat.succ_pos _) p
  rw [hz, except_bind_ok]
  have hr : pyRange 2 (((of E).rows : Int) - 2) = (pyRange 0 (n : Int)).map fun (k : Int) => k + (2 : Nat) := by
    rw [← pyRange_shift]
    congr 1
    simp
    omega
  rw [hr, loopM_map]
  let S : Nat → Mat α := fun k => of (Matrix.of fun (i : Fin (n + 4)) j => if 2 ≤ i.1 ∧ i.1 < k + 2 then ygSum fun c => A (clampRow hn (i.1 - 2 + c.1)) j else 0)
  have hS0 : of (0 : Matrix (Fin (n + 4)) (Fin p) α) = S 0 := by
    refine mk_congr fun i j => ?_
    simp only [Matrix.of_apply, Matrix.zero_apply]
    rw [if_neg (by omega)]
  have hstep : ∀ k < n, (do
      let row ← ygSmoothRow ((k : Int) + (2 : Nat)) (of E)
      (S k).setRow ((k : Int) + (2 : Nat)) row) = .ok (S (k + 1)) := by
    intro k hk
    rw [show ((k : Int) + (2 : Nat)) = ((k + 2 : Nat) : Int) by simp, ygSmoothRow_of E (k + 2) (by omega) (by omega), except_bind_ok]
    refine (setRow_of _ (⟨k + 2, by omega⟩ : Fin (n + 4)) _).trans ?_
    rw [ok_inj]
    refine mk_congr fun i j => ?_
    rw [Matrix.updateRow_apply]
    simp only [Matrix.of_apply]
    by_cases hi : i = ⟨k + 2, by omega⟩
    · subst hi
      rw [if_pos rfl, if_pos ⟨by simp, by simp⟩]
      congr 1
      funext c
      rw [hE]
      simp only [Matrix.of_apply]
      congr 2
      omega
    · rw [if_neg hi]
      have hi' : i.1 ≠ k + 2 := fun e => hi (Fin.ext e)
      by_cases h : 2 ≤ i.1 ∧ i.1 < k + 2
      · rw [if_pos h, if_pos ⟨h.1, by omega⟩]
      · rw [if_neg h, if_neg (by omega)]
  rw [hS0, loopM_range _ S n hstep, except_bind_ok]
  have := getSubMatrix_tuple (Matrix.of fun (i : Fin (n + 4)) (j : Fin p) => if 2 ≤ i.1 ∧ i.1 < n + 2 then ygSum fun c => A (clampRow hn (i.1 - 2 + c.1)) j else 0)
    2 (n + 2) 0 p (by omega) (by omega) (by omega) le_rfl
  rw [show (((S n).rows : Int) - 2) = ((n + 2 : Nat) : Int) by simp [S]; omega]
  refine this.trans ?_
  rw [ok_inj]
  refine mk_eq (by omega) (by omega) fun i j => ?_
  have hi := i.2
  simp only [Matrix.of_apply]
  rw [if_pos (by omega)]
  show _ = ygSum fun k => A (clampRow hn (i.1 + k.1)) _
  congr 1
  funext c
  congr 1
  · congr 1
    omega
  · exact Fin.ext (by simp)

theorem ygFilter_empty (A : Matrix (Fin 0) (Fin p) α) : ygFilter (of A) = .error .indexError := rfl

theorem ygTransform (s : Bool) (M : Mat α) : transform ygSavGol M s = (true, ygFilter M) := by
  cases s <;> rfl

theorem getSubMatrix_rows_list {m : Nat} (A : Matrix (Fin n) (Fin p) α) (σ : Fin m → Fin n) :
    (of A).getSubMatrix (.list (List.ofFn fun i => ((σ i : Nat) : Int))) (.list (pyRange 0 (p : Int))) = .ok (of (A.submatrix σ id)) := by
  unfold getSubMatrix Sel.positions
  have h1 : resolve (of A).rows (List.ofFn fun i => ((σ i : Nat) : Int)) = .ok (List.ofFn σ) := by
    rw [resolve_ok_iff, List.forall₂_iff_get]
    refine ⟨by simp, fun i h1 h2 => ?_⟩
    simp
  have h2 : resolve (of A).cols (pyRange 0 (p : Int)) = .ok (List.ofFn id) := by
    rw [resolve_ok_iff, pyRange_ofFn, List.forall₂_iff_get]
    refine ⟨by simp, fun i h1 h2 => ?_⟩
    simp
    exact pyIndex_natCast _ _
  rw [h1, except_bind_ok, h2, except_bind_ok, except_pure, ok_inj]
  refine mk_eq (by simp) (by simp) fun i j => ?_
  simp only [Matrix.of_apply, Matrix.submatrix_apply, List.get_ofFn]

/-- Selecting rows in any order from a one-column matrix. -/
theorem getSubMatrix_first (y : Fin n → α) (σ : Fin n → Fin n) :
    (of (Matrix.of fun i (_ : Fin 1) => y i)).getSubMatrix (.list (List.ofFn fun i => ((σ i : Nat) : Int))) (.list [0]) =
      .ok (of (Matrix.of fun i (_ : Fin 1) => y (σ i))) :=
  getSubMatrix_rows_list (Matrix.of fun i (_ : Fin 1) => y i) σ

theorem perm_ofFn {β : Type} (f : Fin n → β) (hf : Function.Injective f) (l : List β) (h : l.Perm (List.ofFn f)) :
    ∃ σ : Fin n → Fin n, Function.Bijective σ ∧ l = List.ofFn (f ∘ σ) := by
  have hlen : l.length = n := by rw [h.length_eq, List.length_ofFn]
  have hmem : ∀ k : Fin n, ∃ j, f j = l.get (k.cast hlen.symm) := fun k =>
    (List.mem_ofFn' _ _).1 (h.mem_iff.1 (List.get_mem _ _))
  choose σ hσ using hmem
  refine ⟨σ, Finite.injective_iff_bijective.1 fun a b hab => ?_, ?_⟩
  · have hnd : l.Nodup := h.nodup_iff.2 (List.nodup_ofFn.2 hf)
    have h1 : l.get (a.cast hlen.symm) = l.get (b.cast hlen.symm) := by rw [← hσ a, ← hσ b, hab]
    have := List.nodup_iff_injective_get.1 hnd h1
    exact Fin.ext (by simpa using congrArg Fin.val this)
  · apply List.ext_get (by simp [hlen])
    intro i h1 h2
    rw [List.get_ofFn]
    exact (hσ ⟨i, by omega⟩).symm

theorem ygOrder_of (le : α → α → Bool) (y : Fin n → α) :
    ∃ σ : Fin n → Fin n, Function.Bijective σ ∧ ygOrder le (List.ofFn y) = List.ofFn fun i => ((σ i : Nat) : Int) := by
  have h : (ygOrder le (List.ofFn y)).Perm (List.ofFn fun i : Fin n => ((i : Nat) : Int)) := by
    unfold ygOrder
    refine (List.mergeSort_perm _ _).trans ?_
    rw [List.length_ofFn, pyRange_ofFn]
  obtain ⟨σ, h1, h2⟩ := perm_ofFn (fun i : Fin n => ((i : Nat) : Int)) (fun a b hab => Fin.ext (by simpa using hab)) _ h
  exact ⟨σ, h1, h2⟩

theorem toRawCopy1D_col (y : Fin n → α) : (of (Matrix.of fun i (_ : Fin 1) => y i)).toRawCopy1D = List.ofFn y := by
  unfold toRawCopy1D
  show (List.ofFn fun _ : Fin 1 => List.ofFn y).flatten = _
  simp

/-- Diagonal of the weights. -/
def ygWeight (pow2 : α → α) (ym : Mat α) (v : Fin n → α) : Matrix (Fin n) (Fin n) α :=
  Matrix.of fun i j => if i = j then pow2 (-1 * v i / ygSpread ym) else 0

theorem ygLoop (pow2 : α → α) (v : Fin n → α) :
    loopM (fun i (W : Mat α) => do
      let yd ← (of (Matrix.of fun i (_ : Fin 1) => v i)).get i 0
      W.set i i (pow2 (-1 * yd / ygSpread (of (Matrix.of fun i (_ : Fin 1) => v i))))) (pyRange 0 (n : Int)) (of (0 : Matrix (Fin n) (Fin n) α)) =
    .ok (of (ygWeight pow2 (of (Matrix.of fun i (_ : Fin 1) => v i)) v)) := by
  let S : Nat → Mat α := fun k => of (Matrix.of fun (i j : Fin n) =>
    if i = j ∧ i.1 < k then pow2 (-1 * v i / ygSpread (of (Matrix.of fun i (_ : Fin 1) => v i))) else 0)
  have h0 : of (0 : Matrix (Fin n) (Fin n) α) = S 0 := by
    refine mk_congr fun i j => ?_
    simp only [Matrix.of_apply, Matrix.zero_apply]
    rw [if_neg (by omega)]
  rw [h0, loopM_range _ S n]
  · rw [ok_inj]
    refine mk_congr fun i j => ?_
    simp only [ygWeight, Matrix.of_apply]
    by_cases h : i = j
    · rw [if_pos h, if_pos ⟨h, i.2⟩]
    · rw [if_neg h, if_neg fun e => h e.1]
  · intro k hk
    have hg : (of (Matrix.of fun i (_ : Fin 1) => v i)).get (k : Int) 0 = .ok (v ⟨k, hk⟩) :=
      get_of (Matrix.of fun i (_ : Fin 1) => v i) ⟨k, hk⟩ 0
    show ((of (Matrix.of fun i (_ : Fin 1) => v i)).get (k : Int) 0 >>= fun yd => _) = _
    rw [hg, except_bind_ok]
    refine (set_of _ (⟨k, hk⟩ : Fin n) (⟨k, hk⟩ : Fin n) _).trans ?_
    rw [ok_inj]
    refine mk_congr fun i j => ?_
    simp only [Matrix.of_apply]
    by_cases hi : i = ⟨k, hk⟩ ∧ j = ⟨k, hk⟩
    · rw [if_pos hi, hi.1, hi.2, if_pos ⟨rfl, by simp⟩]
    · rw [if_neg hi]
      by_cases h : i = j ∧ i.1 < k
      · rw [if_pos h, if_pos ⟨h.1, by omega⟩]
      · rw [if_neg h, if_neg]
        rintro ⟨e, h3⟩
        subst e
        have : i.1 ≠ k := fun e => hi ⟨Fin.ext e, Fin.ext e⟩
        exact h ⟨rfl, by omega⟩

/-- The covariance as a product of typed matrices. -/
theorem yGradCov_of (hn : n ≠ 0) (le : α → α → Bool) (pow2 : α → α) (X : Matrix (Fin n) (Fin p) α) (y : Fin n → α)
    (σ : Fin n → Fin n) (hσ : ygOrder le (List.ofFn y) = List.ofFn fun i => ((σ i : Nat) : Int)) :
    yGradCov le pow2 (of X) (of (Matrix.of fun i (_ : Fin 1) => y i)) = (do
      let W := ygWeight pow2 (of (ygSmooth hn (Matrix.of fun i (_ : Fin 1) => y (σ i)))) fun i => ygSmooth hn (Matrix.of fun i (_ : Fin 1) => y (σ i)) i 0
      let WW ← (of W).mul (of W)
      let A ← (of (ygSmooth hn (X.submatrix σ id)).transpose).mul WW
      A.mul (of (ygSmooth hn (X.submatrix σ id)))) := by
  unfold yGradCov
  simp only [toRawCopy1D_col]
  rw [hσ]
  have h1 := getSubMatrix_rows_list X σ
  have h2 := getSubMatrix_first y σ
  show ((of X).getSubMatrix (.list (List.ofFn fun i => ((σ i : Nat) : Int))) (.list (pyRange 0 (p : Int))) >>= _) = _
  rw [h1, except_bind_ok, h2, except_bind_ok]
  simp only [ygTransform]
  rw [ygFilter_of hn, except_bind_ok, ygFilter_of hn, except_bind_ok]
  have hz : Factory.zeros ((of (Matrix.of fun i (_ : Fin 1) => y i)).rows : Int) ((of (Matrix.of fun i (_ : Fin 1) => y i)).rows : Int) =
      .ok (of (0 : Matrix (Fin n) (Fin n) α)) := Factory.zeros_nat (Nat.pos_of_ne_zero hn) n
  rw [hz, except_bind_ok]
  have h3 : ygSmooth hn (Matrix.of fun i (_ : Fin 1) => y (σ i)) =
      Matrix.of fun i (_ : Fin 1) => ygSmooth hn (Matrix.of fun i (_ : Fin 1) => y (σ i)) i 0 := by
    ext i j
    rw [Matrix.of_apply, Subsingleton.elim (α := Fin 1) j 0]
  have h4 := ygLoop pow2 fun i => ygSmooth hn (Matrix.of fun i (_ : Fin 1) => y (σ i)) i 0
  rw [← h3] at h4
  rw [show (((of (ygSmooth hn (Matrix.of fun i (_ : Fin 1) => y (σ i)))).rows : Int)) = (n : Int) from rfl, h4, except_bind_ok]
  rfl

/-- A response with several columns makes the first selection fail. -/
theorem yGradCov_wide {q : Nat} (le : α → α → Bool) (pow2 : α → α) (hn : n ≠ 0) (hq : 2 ≤ q) (X : Matrix (Fin n) (Fin p) α) (Y : Matrix (Fin n) (Fin q) α) :
    yGradCov le pow2 (of X) (of Y) = .error .indexError := by
  unfold yGradCov
  have hlen : (of Y).toRawCopy1D.length = n * q := by
    unfold toRawCopy1D
    simp [List.length_flatten, List.sum_ofFn, mul_comm]
  have hmem : (n : Int) ∈ ygOrder le (of Y).toRawCopy1D := by
    unfold ygOrder
    rw [(List.mergeSort_perm _ _).mem_iff, hlen, pyRange_zero, List.mem_map]
    refine ⟨n, List.mem_range.2 ?_, rfl⟩
    nlinarith [Nat.pos_of_ne_zero hn]
  have : (of X).getSubMatrix (.list (ygOrder le (of Y).toRawCopy1D)) (.list (pyRange 0 ((of X).cols : Int))) = .error .indexError := by
    unfold getSubMatrix Sel.positions
    simp only []
    rw [resolve_error hmem]
    · rfl
    · unfold pyIndex
      rw [dif_neg (by simp), dif_neg (by simp)]
  simp only [this]
  rfl

end typed

end Verif
