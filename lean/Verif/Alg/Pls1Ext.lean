import Verif.Alg.PLS1

/-!
# PLS1 for scalars without algebraic laws

`_PLS1.py` again, this time for any scalar type with the five operations and a square root, so that it can be run on scalars with NaN and
infinities.  The inverse of `_PLS1.py` 128 is a parameter.  For a field these are the programs of `Verif.Alg.PLS1` (`pls1TrainG_field`,
`pls1PredictG_field`: equal by unfolding).
-/

namespace Verif
open Mat
open scoped Matrix

variable {α : Type}

section programs
variable [Add α] [Sub α] [Mul α] [Zero α] [Div α]

/-- One pass of the training loop, `_PLS1.py` 105-123. -/
def pls1StepG (weights : Mat α → Mat α → Except PyErr (Mat α)) (y : Mat α) (k : Int) (s : Pls1Vars α) : Except PyErr (Pls1Vars α) := do
  let w ← weights s.X y
  let W ← s.W.setColumn k w
  let t ← s.X.mul w
  let T ← s.T.setColumn k t
  let tt ← t.vectorDot t
  let ty ← t.vectorDot y
  let b ← s.b.set k 0 (ty / tt)
  let xt ← s.X.transpose.mul t
  let P ← s.P.setColumn k (xt.div tt)
  let tp ← t.mul (xt.div tt).transpose
  let X ← s.X.sub tp
  .ok ⟨X, W, P, T, b⟩

/-- The regression vector, `_PLS1.py` 126-134. -/
def pls1FinishG (inv : Mat α → Except PyErr (Mat α)) (s : Pls1Vars α) : Except PyErr (Pls1Model α) := do
  let ptw ← s.P.transpose.mul s.W
  let inv ← inv ptw
  let tmp ← s.W.mul inv
  let r ← tmp.mul s.b
  .ok ⟨r, s.P, s.W, s.b⟩

/-- `do_perform_initialization`, `_PLS1.py` 87-136. -/
def pls1TrainG (weights : Mat α → Mat α → Except PyErr (Mat α)) (inv : Mat α → Except PyErr (Mat α)) (K : Int) (X y : Mat α) :
    Except PyErr (Pls1Model α × Mat α) := do
  let s ← pls1Init K X
  let s ← loopM (pls1StepG weights y) (pyRange 0 K) s
  let m ← pls1FinishG inv s
  .ok (m, s.T)

/-- One pass of the inner loop of `do_transform` and `do_perform_predictions`, `_PLS1.py` 163-169 and 197-203. -/
def pls1RowStepG (W P : Mat α) (j : Int) (s : Mat α × Mat α) : Except PyErr (Mat α × Mat α) := do
  let wj ← W.getColumn j
  let t ← s.1.mul wj
  let T ← s.2.setColumn j t
  let pj ← P.getColumn j
  let tr ← t.asReal
  let x ← s.1.sub (pj.transpose.smul tr)
  .ok (x, T)

/-- The scores of one row, `_PLS1.py` 159-169 and 193-203. -/
def pls1RowG (K : Int) (W P : Mat α) (x : Mat α) : Except PyErr (Mat α) := do
  let T ← Factory.zeros 1 K
  let s ← loopM (pls1RowStepG W P) (pyRange 0 K) (x, T)
  .ok s.2

/-- One row of `do_perform_predictions`, `_PLS1.py` 192-205. -/
def pls1PredictRowG (K : Int) (m : Pls1Model α) (X : Mat α) (i : Int) (R : Mat α) : Except PyErr (Mat α) := do
  let x ← X.getRow i
  let T ← pls1RowG K m.W m.P x
  let tb ← T.mul m.bHat
  let v ← tb.asReal
  R.set i 0 v

/-- `do_perform_predictions`, `_PLS1.py` 183-207. -/
def pls1PredictG (K : Int) (m : Pls1Model α) (X : Mat α) : Except PyErr (Mat α) := do
  let R ← Factory.zeros (X.rows : Int) 1
  loopM (pls1PredictRowG K m X) (pyRange 0 X.rows) R

end programs

/-- For a field this is the training of `Verif.Alg.PLS1`. -/
theorem pls1TrainG_field [Field α] [DecidableEq α] (weights : Mat α → Mat α → Except PyErr (Mat α)) (K : Int) (X y : Mat α) :
    pls1TrainG weights (fun A => A.inverse fun _ => .error .linAlgError) K X y = pls1Train weights K X y := rfl

/-- For a field this is the prediction of `Verif.Alg.PLS1`. -/
theorem pls1PredictG_field [Field α] (K : Int) (m : Pls1Model α) (X : Mat α) : pls1PredictG K m X = pls1Predict K m X := rfl

/-! ## The recursion the programs follow -/

section recursion
variable [Add α] [Sub α] [Mul α] [Zero α] [Div α] {n p : Nat}

/-- The matrix product, as the sum of products in order. -/
def gmul {m n p : Nat} (A : Matrix (Fin m) (Fin n) α) (B : Matrix (Fin n) (Fin p) α) : Matrix (Fin m) (Fin p) α :=
  Matrix.of fun i j => sumFin fun k => A i k * B k j

/-- The dot product of two columns. -/
def gdot {n : Nat} (a b : Matrix (Fin n) (Fin 1) α) : α := sumFin fun l => a l 0 * b l 0

/-- The loadings. -/
def gload (X : Matrix (Fin n) (Fin p) α) (t : Matrix (Fin n) (Fin 1) α) : Matrix (Fin p) (Fin 1) α :=
  Matrix.of fun i j => gmul Xᵀ t i j / gdot t t

variable (wf : Matrix (Fin n) (Fin p) α → Matrix (Fin p) (Fin 1) α)

/-- The deflated predictors. -/
def gX (X : Matrix (Fin n) (Fin p) α) : Nat → Matrix (Fin n) (Fin p) α
  | 0 => X
  | k + 1 => gX X k - gmul (gmul (gX X k) (wf (gX X k))) (gload (gX X k) (gmul (gX X k) (wf (gX X k))))ᵀ

/-- The weights of component `k`. -/
def gW (X : Matrix (Fin n) (Fin p) α) (k : Nat) : Matrix (Fin p) (Fin 1) α := wf (gX wf X k)
/-- The scores of component `k`. -/
def gT (X : Matrix (Fin n) (Fin p) α) (k : Nat) : Matrix (Fin n) (Fin 1) α := gmul (gX wf X k) (gW wf X k)
/-- The loadings of component `k`. -/
def gP (X : Matrix (Fin n) (Fin p) α) (k : Nat) : Matrix (Fin p) (Fin 1) α := gload (gX wf X k) (gT wf X k)
/-- The coefficient of component `k`. -/
def gB (X : Matrix (Fin n) (Fin p) α) (y : Matrix (Fin n) (Fin 1) α) (k : Nat) : α := gdot (gT wf X k) y / gdot (gT wf X k) (gT wf X k)

theorem gX_succ (X : Matrix (Fin n) (Fin p) α) (k : Nat) : gX wf X (k + 1) = gX wf X k - gmul (gT wf X k) (gP wf X k)ᵀ := rfl

omit [Sub α] [Div α] in
theorem mul_gen {m n p : Nat} (A : Matrix (Fin m) (Fin n) α) (B : Matrix (Fin n) (Fin p) α) : (of A).mul (of B) = .ok (of (gmul A B)) := by
  unfold Mat.mul
  rw [dif_pos rfl]
  rfl

omit [Sub α] [Div α] in
theorem vectorDot_gen (a b : Matrix (Fin n) (Fin 1) α) : vectorDot (of a) (of b) = .ok (gdot a b) := by
  have hv : ∀ a : Matrix (Fin n) (Fin 1) α, (of a).vecEntries = some (List.ofFn fun l => a l 0) := by
    intro a
    unfold vecEntries
    rw [dif_pos rfl]
    rfl
  unfold vectorDot
  rw [hv, hv]
  simp only []
  rw [if_neg (by simp [numElements])]
  unfold dotList gdot sumFin
  congr 2
  refine List.ext_getElem (by simp) fun i h1 h2 => ?_
  simp

/-- The coefficients of the first `k` components, zeros after them. -/
def bUpTo (f : Nat → α) (K k : Nat) : Matrix (Fin K) (Fin 1) α := Matrix.of fun j _ => if j.1 < k then f j.1 else 0

omit [Add α] [Sub α] [Mul α] [Div α] in
theorem bUpTo_set (f : Nat → α) (K k : Nat) (hk : k < K) : (of (bUpTo f K k)).set (k : Int) 0 (f k) = .ok (of (bUpTo f K (k + 1))) := by
  refine (set_of (bUpTo f K k) ⟨k, hk⟩ (0 : Fin 1) (f k)).trans ?_
  congr 1
  refine mk_congr fun i j => ?_
  simp only [bUpTo, Matrix.of_apply]
  by_cases hi : i = ⟨k, hk⟩
  · subst hi
    rw [if_pos ⟨rfl, Subsingleton.elim _ _⟩, if_pos (Nat.lt_succ_self k)]
  · have hi' : i.1 ≠ k := fun h => hi (Fin.ext h)
    rw [if_neg fun h => hi h.1]
    by_cases h1 : i.1 < k
    · rw [if_pos h1, if_pos (by omega)]
    · rw [if_neg h1, if_neg (by omega)]

variable (weights : Mat α → Mat α → Except PyErr (Mat α))

theorem pls1StepG_eq (K k : Nat) (hk : k < K) (X : Matrix (Fin n) (Fin p) α) (y : Matrix (Fin n) (Fin 1) α)
    (hw : weights (of (gX wf X k)) (of y) = .ok (of (gW wf X k))) :
    pls1StepG weights (of y) (k : Int)
      ⟨of (gX wf X k), of (colsUpTo (gW wf X) k : Matrix (Fin p) (Fin K) α), of (colsUpTo (gP wf X) k : Matrix (Fin p) (Fin K) α),
        of (colsUpTo (gT wf X) k : Matrix (Fin n) (Fin K) α), of (bUpTo (gB wf X y) K k)⟩ =
      .ok ⟨of (gX wf X (k + 1)), of (colsUpTo (gW wf X) (k + 1) : Matrix (Fin p) (Fin K) α),
        of (colsUpTo (gP wf X) (k + 1) : Matrix (Fin p) (Fin K) α),
        of (colsUpTo (gT wf X) (k + 1) : Matrix (Fin n) (Fin K) α), of (bUpTo (gB wf X y) K (k + 1))⟩ := by
  unfold pls1StepG
  simp only [hw, except_bind_ok, colsUpTo_set _ k hk, mul_gen]
  rw [show gmul (gX wf X k) (gW wf X k) = gT wf X k from rfl, colsUpTo_set _ k hk]
  simp only [except_bind_ok, vectorDot_gen]
  rw [show gdot (gT wf X k) y / gdot (gT wf X k) (gT wf X k) = gB wf X y k from rfl, bUpTo_set _ K k hk]
  simp only [except_bind_ok, transpose_of, mul_gen, div_of]
  rw [show (Matrix.of fun i j => gmul (gX wf X k)ᵀ (gT wf X k) i j / gdot (gT wf X k) (gT wf X k)) = gP wf X k from rfl,
    colsUpTo_set _ k hk]
  simp only [except_bind_ok, sub_of, ← gX_succ]

/-- The matrices stored by training. -/
def gWM (K : Nat) (X : Matrix (Fin n) (Fin p) α) : Matrix (Fin p) (Fin K) α := Matrix.of fun i j => gW wf X j.1 i 0
/-- The loadings stored by training. -/
def gPM (K : Nat) (X : Matrix (Fin n) (Fin p) α) : Matrix (Fin p) (Fin K) α := Matrix.of fun i j => gP wf X j.1 i 0
/-- The scores of the training data. -/
def gTM (K : Nat) (X : Matrix (Fin n) (Fin p) α) : Matrix (Fin n) (Fin K) α := Matrix.of fun i j => gT wf X j.1 i 0
/-- The coefficients stored by training. -/
def gBM (K : Nat) (X : Matrix (Fin n) (Fin p) α) (y : Matrix (Fin n) (Fin 1) α) : Matrix (Fin K) (Fin 1) α :=
  Matrix.of fun j _ => gB wf X y j.1

/-- What training does, for any scalars: it follows the recursion, and only the inverse can fail. -/
theorem pls1TrainG_eq (inv : Mat α → Except PyErr (Mat α)) (K : Nat) (hn : 0 < n) (hp : 0 < p) (hK : 0 < K)
    (X : Matrix (Fin n) (Fin p) α) (y : Matrix (Fin n) (Fin 1) α)
    (hw : ∀ k < K, weights (of (gX wf X k)) (of y) = .ok (of (gW wf X k))) :
    pls1TrainG weights inv (K : Int) (of X) (of y) =
      (inv (of (gmul (gPM wf K X)ᵀ (gWM wf K X))) >>= fun R => (of (gWM wf K X)).mul R >>= fun C => C.mul (of (gBM wf K X y)) >>= fun r =>
        .ok (⟨r, of (gPM wf K X), of (gWM wf K X), of (gBM wf K X y)⟩, of (gTM wf K X))) := by
  unfold pls1TrainG pls1Init
  simp only [Factory.zeros_nat hp, Factory.zeros_nat hn, except_bind_ok]
  have hz : Factory.zeros (α := α) (K : Int) 1 = .ok (of (0 : Matrix (Fin K) (Fin 1) α)) := Factory.zeros_nat hK 1
  rw [hz]
  simp only [except_bind_ok]
  have hloop := loopM_range (pls1StepG weights (of y)) (fun k =>
      ⟨of (gX wf X k), of (colsUpTo (gW wf X) k : Matrix (Fin p) (Fin K) α), of (colsUpTo (gP wf X) k : Matrix (Fin p) (Fin K) α),
        of (colsUpTo (gT wf X) k : Matrix (Fin n) (Fin K) α), of (bUpTo (gB wf X y) K k)⟩) K
    fun k hk => pls1StepG_eq wf weights K k hk X y (hw k hk)
  have h0 : bUpTo (gB wf X y) K 0 = (0 : Matrix (Fin K) (Fin 1) α) := by
    ext i j
    simp [bUpTo]
  have hK' : bUpTo (gB wf X y) K K = gBM wf K X y := by
    ext i j
    simp [bUpTo, gBM]
  simp only [colsUpTo_zero, h0, hK', colsUpTo_all] at hloop
  rw [show gX wf X 0 = X from rfl] at hloop
  rw [hloop]
  simp only [except_bind_ok]
  unfold pls1FinishG
  simp only [transpose_of, mul_gen, except_bind_ok]
  change (inv (of (gmul (gPM wf K X)ᵀ (gWM wf K X))) >>= _) >>= _ = _
  cases inv (of (gmul (gPM wf K X)ᵀ (gWM wf K X))) with
  | error e => rfl
  | ok R =>
    simp only [except_bind_ok]
    change ((of (gWM wf K X)).mul R >>= _) >>= _ = _
    cases (of (gWM wf K X)).mul R with
    | error e => rfl
    | ok C =>
      simp only [except_bind_ok]
      cases C.mul (of (gBM wf K X y)) with
      | error e => rfl
      | ok r => rfl

/-! ## Predictions -/

/-- A sample after removing the first `j` components, given the stored matrices. -/
def gRow {K : Nat} (W P : Matrix (Fin p) (Fin K) α) (x : Fin p → α) : Nat → Fin p → α
  | 0 => x
  | j + 1 => fun c => gRow W P x j c -
      (if h : j < K then P c ⟨j, h⟩ else 0) * (sumFin fun l => gRow W P x j l * (if h : j < K then W l ⟨j, h⟩ else 0))

/-- The score of a sample on component `j`. -/
def gScore {K : Nat} (W P : Matrix (Fin p) (Fin K) α) (x : Fin p → α) (j : Fin K) : α := sumFin fun l => gRow W P x j.1 l * W l j

omit [Div α] in
theorem pls1RowG_eq {K : Nat} (W P : Matrix (Fin p) (Fin K) α) (x : Fin p → α) :
    pls1RowG (K : Int) (of W) (of P) (of (Matrix.of fun (_ : Fin 1) j => x j)) = .ok (of (Matrix.of fun (_ : Fin 1) j => gScore W P x j)) := by
  unfold pls1RowG
  have hz : Factory.zeros (α := α) 1 (K : Int) = .ok (of (0 : Matrix (Fin 1) (Fin K) α)) := Factory.zeros_nat (m := 1) (by decide) K
  rw [hz]
  simp only [except_bind_ok]
  let S : Nat → Matrix (Fin 1) (Fin 1) α := fun j => Matrix.of fun _ _ => if h : j < K then gScore W P x ⟨j, h⟩ else 0
  have hloop := loopM_range (pls1RowStepG (of W) (of P))
    (fun k => (of (Matrix.of fun (_ : Fin 1) j => gRow W P x k j), of (colsUpTo S k : Matrix (Fin 1) (Fin K) α))) K ?_
  · simp only [colsUpTo_zero, colsUpTo_all] at hloop
    rw [show (Matrix.of fun (_ : Fin 1) j => gRow W P x 0 j) = Matrix.of fun (_ : Fin 1) j => x j from rfl] at hloop
    rw [hloop]
    simp only [except_bind_ok]
    congr 1
    refine mk_congr fun i j => ?_
    simp only [S, Matrix.of_apply]
    rw [dif_pos j.2]
  · intro k hk
    unfold pls1RowStepG
    have hW := getColumn_of W ⟨k, hk⟩
    have hP := getColumn_of P ⟨k, hk⟩
    simp only [] at hW hP
    rw [hW, hP]
    simp only [except_bind_ok, mul_gen]
    have hS : gmul (Matrix.of fun (_ : Fin 1) j => gRow W P x k j) (Matrix.of fun a (_ : Fin 1) => W a ⟨k, hk⟩) = S k := by
      ext a b
      show _ = if h : k < K then gScore W P x ⟨k, h⟩ else 0
      rw [dif_pos hk]
      rfl
    rw [hS, colsUpTo_set _ k hk]
    simp only [except_bind_ok, asReal_of, transpose_of]
    have hs : (of (Matrix.of fun a (_ : Fin 1) => P a ⟨k, hk⟩)ᵀ).smul (S k 0 0) =
        of (Matrix.of fun (_ : Fin 1) a => P a ⟨k, hk⟩ * S k 0 0) := rfl
    rw [hs, sub_of]
    simp only [except_bind_ok]
    congr 2
    refine mk_congr fun i j => ?_
    show gRow W P x k j - P j ⟨k, hk⟩ * S k 0 0 = gRow W P x (k + 1) j
    simp only [S, Matrix.of_apply, gRow]
    rw [dif_pos hk, dif_pos hk]
    congr 2
    unfold gScore
    congr 1
    funext l
    rw [dif_pos hk]

omit [Div α] in
/-- What prediction does, for any scalars. -/
theorem pls1PredictG_eq {r K : Nat} (hr : 0 < r) (rh : Mat α) (W P : Matrix (Fin p) (Fin K) α) (b : Matrix (Fin K) (Fin 1) α)
    (Z : Matrix (Fin r) (Fin p) α) :
    pls1PredictG (K : Int) ⟨rh, of P, of W, of b⟩ (of Z) =
      .ok (of (Matrix.of fun i (_ : Fin 1) => sumFin fun k => gScore W P (Z i) k * b k 0)) := by
  unfold pls1PredictG
  have hz : Factory.zeros (α := α) ((of Z).rows : Int) 1 = .ok (of (0 : Matrix (Fin r) (Fin 1) α)) := Factory.zeros_nat hr 1
  rw [hz]
  simp only [except_bind_ok]
  let f : Nat → α := fun i => if h : i < r then sumFin fun k => gScore W P (Z ⟨i, h⟩) k * b k 0 else 0
  have hloop := loopM_range (pls1PredictRowG (K : Int) ⟨rh, of P, of W, of b⟩ (of Z)) (fun k => of (bUpTo f r k)) r ?_
  · have h0 : bUpTo f r 0 = 0 := by
      ext i j
      simp [bUpTo]
    rw [h0] at hloop
    refine hloop.trans ?_
    congr 1
    refine mk_congr fun i j => ?_
    simp only [bUpTo, f, Matrix.of_apply]
    rw [if_pos i.2, dif_pos i.2]
  · intro k hk
    unfold pls1PredictRowG
    have hR : (of Z).getRow (k : Int) = .ok (of (Matrix.of fun (_ : Fin 1) j => Z ⟨k, hk⟩ j)) := getRow_of Z ⟨k, hk⟩
    rw [hR]
    simp only [except_bind_ok, pls1RowG_eq, mul_gen, asReal_of]
    have e : gmul (Matrix.of fun (_ : Fin 1) j => gScore W P (Z ⟨k, hk⟩) j) b 0 0 = f k := by
      show _ = if h : k < r then _ else _
      rw [dif_pos hk]
      rfl
    rw [e]
    exact bUpTo_set f r k hk

end recursion

/-- The weights of PLS1 for any scalars, `_PLS1.py` 138-146. -/
def gWeights [Add α] [Mul α] [Zero α] [Div α] [HasSqrt α] {n p : Nat} (y : Matrix (Fin n) (Fin 1) α) (X : Matrix (Fin n) (Fin p) α) :
    Matrix (Fin p) (Fin 1) α :=
  Matrix.of fun i j => gmul Xᵀ y i j / HasSqrt.sqrt (sumFin fun k => gmul Xᵀ y k j * gmul Xᵀ y k j)

theorem pls1Weights_gen [Add α] [Mul α] [Zero α] [Div α] [HasSqrt α] {n p : Nat} (y : Matrix (Fin n) (Fin 1) α)
    (X : Matrix (Fin n) (Fin p) α) : pls1Weights (of X) (of y) = .ok (of (gWeights y X)) := by
  unfold pls1Weights
  simp only [transpose_of, mul_gen, except_bind_ok]
  unfold normalized
  rw [if_pos (Or.inl rfl)]
  rfl

end Verif
