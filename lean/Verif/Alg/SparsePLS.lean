import Verif.Alg.PRM

/-!
# SparsePLS

`src/wai/ma/algorithm/pls/_SparsePLS.py`.  `np.median`, `np.amax` and the inner NIPALS model are parameters.
-/

set_option linter.unusedSectionVars false

namespace Verif

open Mat Transf

variable {α : Type}

/-! ## The code -/

/-- Options and external routines. -/
structure SpCfg (α : Type) where
  K : Int
  /-- `lambda_`. -/
  lam : α
  /-- The constant `1e-6` of `collect_indices`. -/
  thr : α
  /-- `== 0`. -/
  isZero : α → Bool
  med : Mat α → α
  amax : Mat α → α
  /-- `nip k X y`: the attribute `coef` of a NIPALS object with `k` components trained on `X` and `y`,
  `_SparsePLS.py` 188-193. -/
  nip : Int → Mat α → Mat α → Except PyErr (Mat α)

/-- Local variable `y_j` and the attributes `A` (in ascending order), `B_pls` and `W`. -/
structure SpVars (α : Type) where
  yj : Mat α
  A : List Nat
  B : Mat α
  W : Mat α

/-- Attributes after training. -/
structure SpModel (α : Type) where
  stdX : StatState α
  stdY : StatState α
  vars : SpVars α

section code
variable [Add α] [Sub α] [Mul α] [Neg α] [Zero α] [One α] [Div α] [NatCast α] [HasSqrt α] [LT α] [DecidableLT α]

/-- `d >= 0`. -/
def geZero (isZero : α → Bool) (d : α) : Bool := decide (0 < d) || isZero d

/-- Copying the entries at `idxs`, `_SparsePLS.py` 264-266. -/
def copyAt (pre : Mat α) : List Nat → Mat α → Except PyErr (Mat α)
  | [], c => .ok c
  | i :: is, c => do
    let v ← pre.get (i : Int) 0
    let c ← c.set (i : Int) 0 v
    copyAt pre is c

/-- `get_direction_vector` after line 254, `_SparsePLS.py` 255-268. -/
def spShrink (cfg : SpCfg α) (z : Mat α) : Except PyErr (Mat α) := do
  let z := z.div (cfg.med z.abs)
  let val := z.abs.subScalar (cfg.lam * cfg.amax z.abs)
  let idxs ← val.whereVector (geZero cfg.isZero)
  let pre ← val.mulElementwise z.sign
  let c ← Factory.zeros (z.rows : Int) 1
  let c ← copyAt pre idxs c
  .ok (c.div c.norm2Squared)

/-- `get_direction_vector`, `_SparsePLS.py` 245-268. -/
def spDirection (cfg : SpCfg α) (X y : Mat α) : Except PyErr (Mat α) := do
  let z ← X.transpose.mul y
  spShrink cfg z

/-- `abs(d) > 1e-6`. -/
def above (cfg : SpCfg α) (d : α) : Bool := decide (cfg.thr < pyAbs d)

/-- `collect_indices`, `_SparsePLS.py` 225-233; the set is kept as the list that `sorted` makes of it. -/
def spCollect (cfg : SpCfg α) (w B : Mat α) : Except PyErr (List Nat) := do
  let a ← w.whereVector (above cfg)
  let b ← B.whereVector (above cfg)
  .ok ((List.range (max w.numElements B.numElements)).filter fun i => decide (i ∈ a) || decide (i ∈ b))

/-- The loop of `get_column_submatrix_of`, `_SparsePLS.py` 203-207. -/
def colsLoop (X : Mat α) : List Nat → Nat → Mat α → Except PyErr (Mat α)
  | [], _, M => .ok M
  | i :: is, k, M => do
    let c ← X.getColumn (i : Int)
    let M ← M.setColumn (k : Int) c
    colsLoop X is (k + 1) M

/-- `get_column_submatrix_of`, `_SparsePLS.py` 195-208. -/
def spCols (X : Mat α) (A : List Nat) : Except PyErr (Mat α) := do
  let M ← Factory.zeros (X.rows : Int) (A.length : Int)
  colsLoop X A 0 M

/-- The loop of `get_row_submatrix_of`, `_SparsePLS.py` 218-222. -/
def rowsLoop (X : Mat α) : List Nat → Nat → Mat α → Except PyErr (Mat α)
  | [], _, M => .ok M
  | i :: is, k, M => do
    let c ← X.getRow (i : Int)
    let M ← M.setRow (k : Int) c
    rowsLoop X is (k + 1) M

/-- `get_row_submatrix_of`, `_SparsePLS.py` 210-223. -/
def spRows (X : Mat α) (A : List Nat) : Except PyErr (Mat α) := do
  let M ← Factory.zeros (A.length : Int) (X.cols : Int)
  rowsLoop X A 0 M

/-- Distributing the coefficients, `_SparsePLS.py` 162-165. -/
def scatter (coef : Mat α) : List Nat → Nat → Mat α → Except PyErr (Mat α)
  | [], _, M => .ok M
  | i :: is, k, M => do
    let r ← coef.getRow (k : Int)
    let M ← M.setRow (i : Int) r
    scatter coef is (k + 1) M

/-- `get_regression_coefficient`, `_SparsePLS.py` 178-193. -/
def spCoef (cfg : SpCfg α) (XA y : Mat α) (k : Int) : Except PyErr (Mat α) :=
  cfg.nip (min (XA.cols : Int) (k + 1)) XA y

/-- One pass of the training loop, `_SparsePLS.py` 147-168. -/
def spStep (cfg : SpCfg α) (X y : Mat α) (k : Int) (s : SpVars α) : Except PyErr (SpVars α) := do
  let w ← spDirection cfg X s.yj
  let W ← s.W.setColumn k w
  let A ← spCollect cfg w s.B
  let XA ← spCols X A
  let B ← Factory.zeros (X.cols : Int) (y.cols : Int)
  let coef ← spCoef cfg XA y k
  let B ← scatter coef A 0 B
  let f ← X.mul B
  let yj ← y.sub f
  .ok ⟨yj, A, B, W⟩

/-- The state before the loop, `_SparsePLS.py` 141-145. -/
def spInit (cfg : SpCfg α) (X y : Mat α) : Except PyErr (SpVars α) := do
  let B ← Factory.zeros (X.cols : Int) (y.cols : Int)
  let W ← Factory.zeros (X.cols : Int) cfg.K
  .ok ⟨y, [], B, W⟩

/-- `do_perform_initialization`, `_SparsePLS.py` 131-176 (the standardisers are fresh, 77-78). -/
def spTrain (cfg : SpCfg α) (X y : Mat α) : Except PyErr (SpModel α) := do
  let sx := transform (standardize cfg.isZero) X (standardize cfg.isZero).init
  let X ← sx.2
  let sy := transform (standardize cfg.isZero) y (standardize cfg.isZero).init
  let y ← sy.2
  let s ← spInit cfg X y
  let s ← loopM (spStep cfg X y) (pyRange 0 cfg.K) s
  .ok ⟨sx.1, sy.1, s⟩

/-- `do_perform_predictions`, `_SparsePLS.py` 298-314. -/
def spPredict (cfg : SpCfg α) (m : SpModel α) (Z : Mat α) : Except PyErr (Mat α) := do
  let Z ← (transform (standardize cfg.isZero) Z m.stdX).2
  let ZA ← spCols Z m.vars.A
  let BA ← spRows m.vars.B m.vars.A
  match m.stdY.means, m.stdY.stds with
  | some mean, some sd => do
    let r ← ZA.mul BA
    let r ← r.scaleByRowVector sd
    r.addByVector mean
  | _, _ => .error .attributeError

/-- One pass of `do_transform`, `_SparsePLS.py` 280-286. -/
def spTransformStep (W : Mat α) (k : Int) (s : Mat α × Mat α) : Except PyErr (Mat α × Mat α) := do
  let w ← W.getColumn k
  let t ← s.1.mul w
  let T ← s.2.setColumn k t
  let p ← s.1.transpose.mul t
  let p := p.div t.norm2Squared
  let tp ← t.mul p.transpose
  let X ← s.1.sub tp
  .ok (X, T)

/-- `do_transform`, `_SparsePLS.py` 270-288. -/
def spTransform (cfg : SpCfg α) (m : SpModel α) (Z : Mat α) : Except PyErr (Mat α) := do
  let T ← Factory.zeros (Z.rows : Int) cfg.K
  let s ← loopM (spTransformStep m.vars.W) (pyRange 0 cfg.K) (Z.copy, T)
  .ok s.2

end code

/-! ## Selecting columns and rows -/

section gen
variable [Zero α]

/-- The column submatrix. -/
theorem colsLoop_of {n p : Nat} (X : Matrix (Fin n) (Fin p) α) (A : List Nat) (hA : ∀ i ∈ A, i < p) :
    ∀ (pre suf : List Nat), A = pre ++ suf →
      colsLoop (of X) suf pre.length (of (colsUpTo (K := A.length)
        (fun k => Matrix.of fun i (_ : Fin 1) => if h : A.getD k 0 < p then X i ⟨A.getD k 0, h⟩ else 0) pre.length)) =
      .ok (of (Matrix.of fun i (j : Fin A.length) => X i ⟨A[j.1], hA _ (List.getElem_mem j.2)⟩)) := by
  intro pre suf
  induction suf generalizing pre with
  | nil =>
    intro h
    rw [List.append_nil] at h
    subst h
    rw [colsLoop, colsUpTo_all, ok_inj]
    refine mk_congr fun i j => ?_
    simp only [Matrix.of_apply]
    have e : A.getD j.1 0 = A[j.1] := by
      rw [List.getD_eq_getElem?_getD, List.getElem?_eq_getElem j.2, Option.getD_some]
    simp only [e]
    exact dif_pos (hA _ (List.getElem_mem j.2))
  | cons a suf ih =>
    intro h
    have hk : pre.length < A.length := by rw [h]; simp
    have ha : a < p := hA a (by rw [h]; simp)
    have hget : A.getD pre.length 0 = a := by
      rw [h, List.getD_eq_getElem?_getD, List.getElem?_append_right (le_refl _)]
      simp
    rw [colsLoop]
    have hc := getColumn_of X ⟨a, ha⟩
    simp only at hc
    rw [hc, except_bind_ok]
    have hs := colsUpTo_set (K := A.length)
      (fun k => Matrix.of fun i (_ : Fin 1) => if h : A.getD k 0 < p then X i ⟨A.getD k 0, h⟩ else 0) pre.length hk
    have he : (Matrix.of fun i (_ : Fin 1) => X i ⟨a, ha⟩) =
        Matrix.of fun i (_ : Fin 1) => if h : A.getD pre.length 0 < p then X i ⟨A.getD pre.length 0, h⟩ else 0 := by
      ext i j
      simp only [Matrix.of_apply, hget]
      rw [dif_pos ha]
    rw [he, hs, except_bind_ok]
    have := ih (pre ++ [a]) (by rw [h]; simp)
    rw [List.length_append] at this
    exact this

theorem spCols_of {n p : Nat} (hn : 0 < n) (X : Matrix (Fin n) (Fin p) α) (A : List Nat) (hA : ∀ i ∈ A, i < p) :
    spCols (of X) A = .ok (of (Matrix.of fun i (j : Fin A.length) => X i ⟨A[j.1], hA _ (List.getElem_mem j.2)⟩)) := by
  unfold spCols
  have hz : Factory.zeros (α := α) (n : Int) (A.length : Int) = .ok (of (0 : Matrix (Fin n) (Fin A.length) α)) :=
    Factory.zeros_nat hn _
  show (Factory.zeros (n : Int) (A.length : Int) >>= _) = _
  rw [hz, except_bind_ok]
  have := colsLoop_of X A hA [] A rfl
  rw [List.length_nil, colsUpTo_zero] at this
  exact this

/-- Shape and support of a matrix into which rows have been distributed. -/
theorem scatter_inv (coef : Mat α) : ∀ (A : List Nat) (k : Nat) (M M' : Mat α), scatter coef A k M = .ok M' →
    ∃ (h1 : M'.rows = M.rows) (h2 : M'.cols = M.cols), ∀ (i : Fin M.rows) (j : Fin M.cols), i.1 ∉ A →
      M'.data (i.cast h1.symm) (j.cast h2.symm) = M.data i j := by
  intro A
  induction A with
  | nil =>
    intro k M M' h
    rw [scatter] at h
    cases h
    exact ⟨rfl, rfl, fun i j _ => rfl⟩
  | cons a A ih =>
    intro k M M' h
    rw [scatter] at h
    cases h1 : coef.getRow (k : Int) with
    | error e => rw [h1] at h; cases h
    | ok r =>
      rw [h1, except_bind_ok] at h
      cases h2 : M.setRow (a : Int) r with
      | error e => rw [h2] at h; cases h
      | ok M1 =>
        rw [h2, except_bind_ok] at h
        obtain ⟨e1, e2, he⟩ := ih _ _ _ h
        unfold setRow at h2
        cases hv : r.mustBeVector with
        | error e => rw [hv] at h2; cases h2
        | ok u =>
          rw [hv, except_bind_ok] at h2
          simp only [] at h2
          cases hi : pyIndex M.rows (a : Int) with
          | error e => rw [hi] at h2; cases h2
          | ok q =>
            rw [hi, except_bind_ok, except_pure] at h2
            cases h2
            refine ⟨e1, e2, fun i j hij => ?_⟩
            rw [List.mem_cons, not_or] at hij
            refine (he i j hij.2).trans ?_
            show (if i = q ∧ _ then _ else M.data i j) = M.data i j
            rw [if_neg]
            rintro ⟨rfl, _⟩
            apply hij.1
            rw [pyIndex_ok_iff] at hi
            omega

/-- Rows `A` of a matrix. -/
theorem rowsLoop_of {p q : Nat} (X : Matrix (Fin p) (Fin q) α) (A : List Nat) (hA : ∀ i ∈ A, i < p) :
    ∀ (pre suf : List Nat), A = pre ++ suf →
      rowsLoop (of X) suf pre.length (of (Matrix.of fun (k : Fin A.length) j =>
        if k.1 < pre.length then X ⟨A[k.1], hA _ (List.getElem_mem k.2)⟩ j else 0)) =
      .ok (of (Matrix.of fun (k : Fin A.length) j => X ⟨A[k.1], hA _ (List.getElem_mem k.2)⟩ j)) := by
  intro pre suf
  induction suf generalizing pre with
  | nil =>
    intro h
    rw [List.append_nil] at h
    subst h
    rw [rowsLoop, ok_inj]
    refine mk_congr fun k j => ?_
    simp only [Matrix.of_apply]
    rw [if_pos k.2]
  | cons a suf ih =>
    intro h
    have hk : pre.length < A.length := by rw [h]; simp
    have ha : a < p := hA a (by rw [h]; simp)
    have hget : A[pre.length] = a := by simp [h]
    rw [rowsLoop]
    have hc := getRow_of X ⟨a, ha⟩
    simp only at hc
    rw [hc, except_bind_ok]
    have hs := setRow_of (Matrix.of fun (k : Fin A.length) j =>
        if k.1 < pre.length then X ⟨A[k.1], hA _ (List.getElem_mem k.2)⟩ j else 0) ⟨pre.length, hk⟩
        (Matrix.of fun (_ : Fin 1) b => X ⟨a, ha⟩ b)
    simp only at hs
    rw [hs, except_bind_ok]
    have := ih (pre ++ [a]) (by rw [h]; simp)
    rw [List.length_append] at this
    refine Eq.trans ?_ this
    show rowsLoop _ _ (pre.length + 1) _ = rowsLoop _ _ (pre.length + 1) _
    congr 1
    refine mk_congr fun k j => ?_
    rw [Matrix.updateRow_apply]
    simp only [Matrix.of_apply, List.length_singleton]
    by_cases hkp : k = ⟨pre.length, hk⟩
    · subst hkp
      rw [if_pos rfl, if_pos (Nat.lt_succ_self _)]
      simp only [hget]
    · have hk' : k.1 ≠ pre.length := fun e => hkp (Fin.ext e)
      rw [if_neg hkp]
      by_cases h1 : k.1 < pre.length
      · rw [if_pos h1, if_pos (by omega)]
      · rw [if_neg h1, if_neg (by omega)]

theorem spRows_of {p q : Nat} (X : Matrix (Fin p) (Fin q) α) (A : List Nat) (hA : ∀ i ∈ A, i < p) (h0 : 0 < A.length) :
    spRows (of X) A = .ok (of (Matrix.of fun (k : Fin A.length) j => X ⟨A[k.1], hA _ (List.getElem_mem k.2)⟩ j)) := by
  unfold spRows
  have hz : Factory.zeros (α := α) (A.length : Int) (q : Int) = .ok (of (0 : Matrix (Fin A.length) (Fin q) α)) :=
    Factory.zeros_nat h0 _
  show (Factory.zeros (A.length : Int) (q : Int) >>= _) = _
  rw [hz, except_bind_ok]
  have := rowsLoop_of X A hA [] A rfl
  refine Eq.trans ?_ this
  show rowsLoop _ _ 0 _ = rowsLoop _ _ 0 _
  congr 1

/-- Distributing the rows of `coef` to the positions `A`. -/
theorem scatter_of {p q : Nat} (A : List Nat) (hA : ∀ i ∈ A, i < p) (hnd : A.Nodup)
    (coef : Matrix (Fin A.length) (Fin q) α) :
    ∀ (pre suf : List Nat), A = pre ++ suf →
      scatter (of coef) suf pre.length (of (Matrix.of fun (i : Fin p) j =>
        if h : i.1 ∈ A then (if i.1 ∈ pre then coef ⟨A.idxOf i.1, List.idxOf_lt_length_iff.2 h⟩ j else 0) else 0)) =
      .ok (of (Matrix.of fun (i : Fin p) j =>
        if h : i.1 ∈ A then coef ⟨A.idxOf i.1, List.idxOf_lt_length_iff.2 h⟩ j else 0)) := by
  intro pre suf
  induction suf generalizing pre with
  | nil =>
    intro h
    rw [List.append_nil] at h
    subst h
    rw [scatter, ok_inj]
    refine mk_congr fun i j => ?_
    simp only [Matrix.of_apply]
    by_cases hi : i.1 ∈ A
    · rw [dif_pos hi, dif_pos hi, if_pos hi]
    · rw [dif_neg hi, dif_neg hi]
  | cons a suf ih =>
    intro h
    have hk : pre.length < A.length := by rw [h]; simp
    have hmem : a ∈ A := by rw [h]; simp
    have ha : a < p := hA a hmem
    have hget : A[pre.length] = a := by simp [h]
    have hidx : A.idxOf a = pre.length := by
      conv_lhs => rw [← hget]
      exact List.Nodup.idxOf_getElem hnd _ hk
    rw [scatter]
    have hc := getRow_of coef ⟨pre.length, hk⟩
    simp only at hc
    rw [hc, except_bind_ok]
    have hs := setRow_of (Matrix.of fun (i : Fin p) j =>
        if h : i.1 ∈ A then (if i.1 ∈ pre then coef ⟨A.idxOf i.1, List.idxOf_lt_length_iff.2 h⟩ j else 0) else 0) ⟨a, ha⟩
        (Matrix.of fun (_ : Fin 1) b => coef ⟨pre.length, hk⟩ b)
    simp only at hs
    rw [hs, except_bind_ok]
    have := ih (pre ++ [a]) (by rw [h]; simp)
    rw [List.length_append] at this
    refine Eq.trans ?_ this
    show scatter _ _ (pre.length + 1) _ = scatter _ _ (pre.length + 1) _
    congr 1
    refine mk_congr fun i j => ?_
    rw [Matrix.updateRow_apply]
    simp only [Matrix.of_apply, List.mem_append, List.mem_singleton]
    by_cases hia : i = ⟨a, ha⟩
    · subst hia
      rw [if_pos rfl, dif_pos hmem, if_pos (Or.inr rfl)]
      simp only [hidx]
    · have hia' : i.1 ≠ a := fun e => hia (Fin.ext e)
      rw [if_neg hia]
      simp only [hia', or_false]

/-- `where_vector` of a column. -/
theorem whereVector_col {p : Nat} (f : α → Bool) (v : Matrix (Fin p) (Fin 1) α) :
    (of v).whereVector f = .ok (((List.finRange p).filter fun i => f (v i 0)).map (·.val)) := by
  unfold whereVector
  by_cases h : p = 1
  · subst h
    rw [dif_pos rfl]
    have e : (fun j : Fin 1 => f ((of v).data ⟨0, Nat.one_pos⟩ j)) = fun i : Fin 1 => f (v i 0) := by
      funext j
      rw [Subsingleton.elim j 0]
      rfl
    exact congrArg (fun g => Except.ok (((List.finRange 1).filter g).map (·.val))) e
  · rw [dif_neg h, dif_pos rfl]
    rfl

/-- Copying selected entries. -/
theorem copyAt_of {p : Nat} (pre : Matrix (Fin p) (Fin 1) α) : ∀ (l : List (Fin p)) (c : Matrix (Fin p) (Fin 1) α),
    copyAt (of pre) (l.map (·.val)) (of c) =
      .ok (of (Matrix.of fun i (_ : Fin 1) => if i ∈ l then pre i 0 else c i 0)) := by
  intro l
  induction l with
  | nil =>
    intro c
    rw [List.map_nil, copyAt, ok_inj]
    refine mk_congr fun i j => ?_
    rw [Subsingleton.elim j 0]
    simp
  | cons a l ih =>
    intro c
    rw [List.map_cons, copyAt]
    have hg : (of pre).get ((a.1 : Nat) : Int) 0 = .ok (pre a 0) := get_of pre a 0
    have hs : (of c).set ((a.1 : Nat) : Int) 0 (pre a 0) = _ := set_of c a 0 (pre a 0)
    rw [hg, except_bind_ok, hs, except_bind_ok, ih, ok_inj]
    refine mk_congr fun i j => ?_
    simp only [Matrix.of_apply, List.mem_cons]
    by_cases hi : i ∈ l
    · rw [if_pos hi, if_pos (Or.inr hi)]
    · rw [if_neg hi]
      by_cases ha : i = a
      · subst ha
        simp
      · simp [ha, hi]

end gen

section shrink
variable [Add α] [Sub α] [Mul α] [Neg α] [Zero α] [One α] [Div α] [NatCast α] [HasSqrt α] [LT α] [DecidableLT α]

/-- `np.sign`-like sign of a number. -/
def sgn (x : α) : α := if x < 0 then -1 else if x > 0 then 1 else 0

/-- The thresholded vector: `zs` is the scaled vector, `M` the largest absolute value. -/
def spC (cfg : SpCfg α) {p : Nat} (zs : Matrix (Fin p) (Fin 1) α) (M : α) : Matrix (Fin p) (Fin 1) α :=
  Matrix.of fun i _ => if geZero cfg.isZero (pyAbs (zs i 0) - cfg.lam * M) then
    (pyAbs (zs i 0) - cfg.lam * M) * sgn (zs i 0) else 0

/-- Absolute values of a column. -/
def absM {p : Nat} (z : Matrix (Fin p) (Fin 1) α) : Matrix (Fin p) (Fin 1) α := Matrix.of fun i _ => pyAbs (z i 0)

/-- A column divided by a number. -/
def divM {p : Nat} (z : Matrix (Fin p) (Fin 1) α) (s : α) : Matrix (Fin p) (Fin 1) α := Matrix.of fun i _ => z i 0 / s

theorem abs_col {p : Nat} (z : Matrix (Fin p) (Fin 1) α) : (of z).abs = of (absM z) := by
  refine mk_congr fun i j => ?_
  rw [Subsingleton.elim j 0]
  rfl

theorem div_colM {p : Nat} (z : Matrix (Fin p) (Fin 1) α) (s : α) : (of z).div s = of (divM z s) := by
  refine mk_congr fun i j => ?_
  rw [Subsingleton.elim j 0]
  rfl

theorem spShrink_of (cfg : SpCfg α) {p : Nat} (hp : 0 < p) (z : Matrix (Fin p) (Fin 1) α) :
    spShrink cfg (of z) =
      .ok ((of (spC cfg (divM z (cfg.med (of (absM z)))) (cfg.amax (of (absM (divM z (cfg.med (of (absM z))))))))).div
        (of (spC cfg (divM z (cfg.med (of (absM z)))) (cfg.amax (of (absM (divM z (cfg.med (of (absM z))))))))).norm2Squared) := by
  unfold spShrink
  rw [abs_col, div_colM]
  generalize divM z (cfg.med (of (absM z))) = zs
  show (do
    let idxs ← ((of zs).abs.subScalar (cfg.lam * cfg.amax (of zs).abs)).whereVector (geZero cfg.isZero)
    let pre ← ((of zs).abs.subScalar (cfg.lam * cfg.amax (of zs).abs)).mulElementwise (of zs).sign
    let c ← Factory.zeros (p : Int) 1
    let c ← copyAt pre idxs c
    Except.ok (c.div c.norm2Squared)) = _
  rw [abs_col]
  generalize cfg.amax (of (absM zs)) = M
  have hv : (of (absM zs)).subScalar (cfg.lam * M) =
      of (Matrix.of fun i (_ : Fin 1) => pyAbs (zs i 0) - cfg.lam * M) := by
    refine mk_congr fun i j => ?_
    rfl
  have hs : (of zs).sign = of (Matrix.of fun i (_ : Fin 1) => sgn (zs i 0)) := by
    refine mk_congr fun i j => ?_
    rw [Subsingleton.elim j 0]
    rfl
  have hz : Factory.zeros (α := α) (p : Int) 1 = .ok (of (0 : Matrix (Fin p) (Fin 1) α)) := Factory.zeros_nat hp 1
  rw [hv, hs, whereVector_col, except_bind_ok, mulElementwise_of, except_bind_ok, hz, except_bind_ok, copyAt_of,
    except_bind_ok]
  have e : (Matrix.of fun i (_ : Fin 1) =>
      if i ∈ (List.finRange p).filter fun i => geZero cfg.isZero
          ((Matrix.of fun i (_ : Fin 1) => pyAbs (zs i 0) - cfg.lam * M : Matrix (Fin p) (Fin 1) α) i 0) then
        (Matrix.of fun i j => (Matrix.of fun i (_ : Fin 1) => pyAbs (zs i 0) - cfg.lam * M : Matrix (Fin p) (Fin 1) α) i j *
          (Matrix.of fun i (_ : Fin 1) => sgn (zs i 0) : Matrix (Fin p) (Fin 1) α) i j : Matrix (Fin p) (Fin 1) α) i 0
      else (0 : Matrix (Fin p) (Fin 1) α) i 0) = spC cfg zs M := by
    ext i j
    simp only [Matrix.of_apply, List.mem_filter, List.mem_finRange, true_and, spC, Matrix.zero_apply]
  rw [e]

end shrink

end Verif
