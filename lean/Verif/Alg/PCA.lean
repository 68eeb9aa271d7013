import Verif.Alg.NIPALS
import Verif.Core.ListLemmas

/-!
# PCA

`src/wai/ma/algorithm/_PCA.py`.  `np.linalg.eig` and `np.argsort` are parameters.  Eigenvalues are taken to be real.
-/

set_option linter.unusedSectionVars false

namespace Verif

open Mat Transf

variable {α σ : Type}

/-- `for i in is: body; if cond: break`: `step` returns the new state and whether to leave the loop. -/
def breakLoop (step : Int → σ → Except PyErr (σ × Bool)) : List Int → σ → Except PyErr σ
  | [], s => .ok s
  | i :: is, s => do
    let r ← step i s
    if r.2 then .ok r.1 else breakLoop step is r.1

/-! ## The code -/

/-- Options and external routines. -/
structure PcaCfg (α : Type) where
  variance : α
  maxColumns : Int
  /-- Attribute `center`. -/
  centered : Bool
  /-- `== 0`. -/
  isZero : α → Bool
  /-- Equality of set elements. -/
  eq : α → α → Bool
  /-- `a <= b`. -/
  le : α → α → Bool
  /-- `np.linalg.eig`: the column of eigenvalues and the matrix of eigenvectors. -/
  eig : Mat α → Except PyErr (Mat α × Mat α)
  /-- `np.argsort`. -/
  argsort : List α → List Nat

/-- The attribute `transformation` after fitting. -/
inductive PcaTr (α : Type) where
  | center (s : CenterState α)
  | standardize (s : StatState α)

/-- Attributes after `configure`. -/
structure PcaState (α : Type) where
  keep : List Nat
  tr : PcaTr α
  numCols : Nat
  corr : Mat α
  vecs : Mat α
  vals : Mat α
  sorted : List Nat
  total : α

section code
variable [Add α] [Sub α] [Mul α] [Neg α] [Zero α] [One α] [Div α] [NatCast α] [HasSqrt α] [LT α] [DecidableLT α]

/-- Whether a second distinct value is met, `_PCA.py` 118-122: values are added to a set until it has two
elements. -/
def hasTwo (eq : α → α → Bool) : List α → Bool
  | [] => false
  | x :: xs => xs.any fun v => !eq x v

/-- The loop collecting `keep_cols`, `_PCA.py` 116-124. -/
def pcaKeep (eq : α → α → Bool) (X : Mat α) : List Nat :=
  ((List.finRange X.cols).filter fun j => hasTwo eq (List.ofFn fun i : Fin X.rows => X.data i j)).map (·.val)

/-- `remove_columns`, `_PCA.py` 91-104. -/
def removeColumns (keep : List Nat) (X : Mat α) : Except PyErr (Mat α) :=
  if keep.length ≠ X.cols then
    X.getSubMatrix (.list (pyRange 0 X.rows)) (.list (keep.map fun k : Nat => (k : Int)))
  else .ok X

/-- Creating and fitting the transformation, `_PCA.py` 128-132. -/
def pcaPrep (cfg : PcaCfg α) (X : Mat α) : Except PyErr (PcaTr α × Mat α) :=
  if cfg.centered then
    let r := transform center X center.init
    r.2.map fun T => (.center r.1, T)
  else
    let r := transform (standardize cfg.isZero) X (standardize cfg.isZero).init
    r.2.map fun T => (.standardize r.1, T)

/-- `self.transformation.transform(data)` of the fitted transformation, `_PCA.py` 168. -/
def pcaApply (cfg : PcaCfg α) (tr : PcaTr α) (X : Mat α) : Except PyErr (Mat α) :=
  match tr with
  | .center s => (transform center X s).2
  | .standardize s => (transform (standardize cfg.isZero) X s).2

/-- The sum over the rows, `_PCA.py` 82-84. -/
def corrSum (T : Mat α) (i j : Int) : List Int → α → Except PyErr α
  | [], s => .ok s
  | n :: ns, s => do
    let a ← T.get n i
    let b ← T.get n j
    corrSum T i j ns (s + a * b)

/-- One entry of the covariance matrix, `_PCA.py` 82-88. -/
def corrCell (T : Mat α) (i j : Int) (C : Mat α) : Except PyErr (Mat α) := do
  let s ← corrSum T i j (pyRange 0 T.rows) 0
  let cov := s / ((T.rows - 1 : Nat) : α)
  let C ← C.set i j cov
  C.set j i cov

/-- `fill_correlation`, `_PCA.py` 74-89. -/
def fillCorr (T : Mat α) : Except PyErr (Mat α) := do
  let C ← Factory.zeros (T.cols : Int) (T.cols : Int)
  loopM (fun i C => loopM (fun j C => corrCell T i j C) (pyRange i T.cols) C) (pyRange 0 T.cols) C

/-- Negative eigenvalues are replaced by zero, `_PCA.py` 144-145. -/
def clampNeg (v : α) : α := if v < 0 then 0 else v

/-- `configure`, `_PCA.py` 106-150. -/
def pcaConfigure (cfg : PcaCfg α) (X : Mat α) : Except PyErr (PcaState α) := do
  let keep := pcaKeep cfg.eq X
  let T ← removeColumns keep X
  let (tr, T) ← pcaPrep cfg T
  let C ← fillCorr T
  let (vals, vecs) ← cfg.eig C
  let vals := vals.map clampNeg
  .ok ⟨keep, tr, T.cols, C, vecs, vals, cfg.argsort vals.toRawCopy1D, vals.toRawCopy1D.foldl (· + ·) 0⟩

/-- `num_cols_lower_bound`, `_PCA.py` 160-165 and 205-210. -/
def pcaLower (cfg : PcaCfg α) (st : PcaState α) : Int :=
  let l : Int := if 0 < cfg.maxColumns then st.numCols - cfg.maxColumns else 0
  if l < 0 then 0 else l

/-- `reversed(range(num_cols_lower_bound, self.num_cols))`. -/
def pcaOrder (cfg : PcaCfg α) (st : PcaState α) : List Int := (pyRange (pcaLower cfg st) st.numCols).reverse

/-- One score, `_PCA.py` 178-180. -/
def scoreSum (st : PcaState α) (idx : Nat) (data : Mat α) (n : Int) : List Int → α → Except PyErr α
  | [], s => .ok s
  | j :: js, s => do
    let r ← st.vecs.getRow j
    let a ← r.get 0 (idx : Int)
    let b ← data.get n j
    scoreSum st idx data n js (s + a * b)

/-- One pass over the components for one row, `_PCA.py` 176-185: the list `new_vals`, `cumulative` and `cols`. -/
def rowStep (cfg : PcaCfg α) (st : PcaState α) (data : Mat α) (n : Int) (i : Int) (s : List α × α × Nat) :
    Except PyErr ((List α × α × Nat) × Bool) := do
  let idx ← Utils.item st.sorted i
  let val ← scoreSum st idx data n (pyRange 0 st.numCols) 0
  let vals ← Utils.put s.1 (st.numCols - i - 1) val
  let idx ← Utils.item st.sorted i
  let ev ← st.vals.getFromVector (idx : Int)
  .ok ((vals, s.2.1 + ev, s.2.2 + 1), cfg.le cfg.variance ((s.2.1 + ev) / st.total))

/-- The scores of one row, `_PCA.py` 171-188. -/
def pcaRow (cfg : PcaCfg α) (st : PcaState α) (data : Mat α) (n : Int) : Except PyErr (List α × Nat) := do
  let width : Int := if 0 < cfg.maxColumns then cfg.maxColumns else st.numCols
  let s ← breakLoop (rowStep cfg st data n) (pcaOrder cfg st) (List.replicate width.toNat 0, 0, 0)
  .ok (s.1, s.2.2)

/-- `do_transform`, `_PCA.py` 152-199. -/
def pcaScores (cfg : PcaCfg α) (st : PcaState α) (data : Mat α) : Except PyErr (Mat α) := do
  let data ← removeColumns st.keep data
  let data ← pcaApply cfg st.tr data
  let rows ← (pyRange 0 data.rows).mapM (pcaRow cfg st data)
  let act : Nat := rows.foldl (fun (a : Nat) r => max a r.2) 0
  let R ← Factory.zeros (data.rows : Int) (act : Int)
  fillLoop (fun n i => do let r ← Utils.item rows n; Utils.item r.1 i)
    ((pyRange 0 rows.length).flatMap fun n =>
      (pyRange 0 (min ((rows.getD n.toNat ([], 0)).1.length : Int) act)).map fun i => (n, i)) R

/-- The coefficients of one component, `_PCA.py` 220-222. -/
def coeffList (st : PcaState α) (idx : Nat) : Except PyErr (List α) :=
  (pyRange 0 st.numCols).mapM fun j => st.vecs.get j (idx : Int)

/-- One pass of `get_coefficients`, `_PCA.py` 217-228. -/
def coeffStep (cfg : PcaCfg α) (st : PcaState α) (i : Int) (s : List (List α) × α) :
    Except PyErr ((List (List α) × α) × Bool) := do
  let idx ← Utils.item st.sorted i
  let c ← coeffList st idx
  let ev ← st.vals.getFromVector (idx : Int)
  .ok ((s.1 ++ [c], s.2 + ev), cfg.le cfg.variance ((s.2 + ev) / st.total))

/-- `get_coefficients` after `configure`, `_PCA.py` 201-230. -/
def pcaCoeffs (cfg : PcaCfg α) (st : PcaState α) : Except PyErr (List (List α)) := do
  let s ← breakLoop (coeffStep cfg st) (pcaOrder cfg st) ([], 0)
  .ok s.1

/-- The value of cell `(n, i)` of the loadings, `_PCA.py` 248-254. -/
def loadCell (st : PcaState α) (coeff : List (List α)) (n i : Int) : Except PyErr α := do
  let c ← Utils.item coeff i
  if n.toNat ∈ st.keep then
    if st.keep.idxOf n.toNat < c.length then Utils.item c (st.keep.idxOf n.toNat : Int)
    else .ok 0
  else .ok 0

/-- `extract_loadings`, `_PCA.py` 232-256. -/
def pcaLoadings (cfg : PcaCfg α) (st : PcaState α) : Except PyErr (Mat α) := do
  let coeff ← pcaCoeffs cfg st
  let R ← Factory.zeros (st.numCols : Int) ((coeff.length + 1 : Nat) : Int)
  let R ← fillLoop (fun n _ => .ok ((n.toNat + 1 : Nat) : α))
    ((pyRange 0 st.numCols).map fun n => (n, (R.cols : Int) - 1)) R
  fillLoop (fun n i => loadCell st coeff n i)
    ((pyRange 0 coeff.length).flatMap fun i => (pyRange 0 st.numCols).map fun n => (n, i)) R

/-- `transform`, `_PCA.py` 258-271: the state, the scores and the loadings. -/
def pcaTransform (cfg : PcaCfg α) (X : Mat α) : Except PyErr (PcaState α × Mat α × Mat α) := do
  let st ← pcaConfigure cfg X
  let S ← pcaScores cfg st X
  let L ← pcaLoadings cfg st
  .ok (st, S, L)

end code

/-! ## Loops that can be left early -/

/-- The number of passes when the loop is left after the first pass `c` with `stop (c + 1)`. -/
def kStop (stop : Nat → Bool) : Nat → Nat → Nat
  | 0, c => c
  | r + 1, c => if stop (c + 1) then c + 1 else kStop stop r (c + 1)

theorem breakLoop_from (step : Int → σ → Except PyErr (σ × Bool)) (e : Nat → Int) (S : Nat → σ) (stop : Nat → Bool) :
    ∀ (r c : Nat), (∀ k, c ≤ k → k < c + r → step (e k) (S k) = .ok (S (k + 1), stop (k + 1))) →
      breakLoop step ((List.range' c r).map e) (S c) = .ok (S (kStop stop r c)) := by
  intro r
  induction r with
  | zero => intro c _; rfl
  | succ r ih =>
    intro c h
    rw [List.range'_succ, List.map_cons, breakLoop, h c le_rfl (by omega), except_bind_ok, kStop]
    by_cases hs : stop (c + 1) = true
    · rw [if_pos hs, if_pos hs]
    · rw [if_neg hs, if_neg hs]
      exact ih (c + 1) fun k h1 h2 => h k (by omega) (by omega)

theorem breakLoop_of (step : Int → σ → Except PyErr (σ × Bool)) (e : Nat → Int) (S : Nat → σ) (stop : Nat → Bool) (B : Nat)
    (h : ∀ k < B, step (e k) (S k) = .ok (S (k + 1), stop (k + 1))) :
    breakLoop step ((List.range B).map e) (S 0) = .ok (S (kStop stop B 0)) := by
  rw [List.range_eq_range']
  exact breakLoop_from step e S stop B 0 fun k _ hk => h k (by omega)

theorem kStop_spec (stop : Nat → Bool) : ∀ (r c : Nat), c ≤ kStop stop r c ∧ kStop stop r c ≤ c + r ∧
    (0 < r → c < kStop stop r c) ∧ (∀ k, c < k → k < kStop stop r c → stop k = false) ∧
    (kStop stop r c < c + r → stop (kStop stop r c) = true) := by
  intro r
  induction r with
  | zero =>
    intro c
    refine ⟨le_rfl, le_rfl, fun h => absurd h (lt_irrefl _), fun k h1 h2 => ?_, fun h => ?_⟩
    · rw [kStop] at h2; omega
    · rw [kStop] at h; omega
  | succ r ih =>
    intro c
    rw [kStop]
    by_cases hs : stop (c + 1) = true
    · rw [if_pos hs]
      refine ⟨by omega, by omega, fun _ => by omega, fun k h1 h2 => by omega, fun _ => hs⟩
    · rw [if_neg hs]
      obtain ⟨h1, h2, _, h4, h5⟩ := ih (c + 1)
      refine ⟨by omega, by omega, fun _ => by omega, fun k h6 h7 => ?_, fun h6 => h5 (by omega)⟩
      by_cases hk : k = c + 1
      · subst hk
        cases hb : stop (c + 1) with
        | false => rfl
        | true => exact absurd hb hs
      · exact h4 k (by omega) h7

/-- `reversed(range(m - B, m))`. -/
theorem pyRange_reverse (m B : Nat) :
    (pyRange ((m : Int) - B) m).reverse = (List.range B).map fun c : Nat => (m : Int) - 1 - (c : Int) := by
  unfold pyRange
  have e : ((m : Int) - ((m : Int) - B)).toNat = B := by omega
  rw [e]
  apply List.ext_getElem
  · simp
  · intro i h1 h2
    simp only [List.getElem_reverse, List.getElem_map, List.getElem_range, List.length_map, List.length_range]
    simp only [List.length_map, List.length_range] at h2
    omega

/-! ## The covariance matrix -/

open scoped Matrix

theorem pyRange_finRange (k : Nat) : pyRange 0 (k : Int) = (List.finRange k).map fun (i : Fin k) => ((i.1 : Nat) : Int) := by
  rw [pyRange_zero, ← List.map_coe_finRange_eq_range, List.map_map]
  rfl

/-- A loop over `range(a, b)`. -/
theorem loopM_rangeFrom (f : Int → σ → Except PyErr σ) (S : Nat → σ) (a b : Nat) (hab : a ≤ b)
    (h : ∀ k, a ≤ k → k < b → f (k : Int) (S k) = .ok (S (k + 1))) :
    loopM f (pyRange (a : Int) (b : Int)) (S a) = .ok (S b) := by
  obtain ⟨d, rfl⟩ : ∃ d, b = a + d := ⟨b - a, by omega⟩
  clear hab
  induction d with
  | zero =>
    unfold pyRange
    simp [loopM]
  | succ d ih =>
    have e : pyRange (a : Int) ((a + (d + 1) : Nat) : Int) = pyRange (a : Int) ((a + d : Nat) : Int) ++ [((a + d : Nat) : Int)] := by
      unfold pyRange
      have e1 : (((a + (d + 1) : Nat) : Int) - a).toNat = d + 1 := by omega
      have e2 : (((a + d : Nat) : Int) - a).toNat = d := by omega
      rw [e1, e2, List.range_succ, List.map_append]
      congr 1
    rw [e, loopM_append, ih fun k h1 h2 => h k h1 (by omega)]
    show loopM f [((a + d : Nat) : Int)] (S (a + d)) = _
    rw [loopM, h (a + d) (by omega) (by omega)]
    rfl

section corr
variable {n p q r : Nat}

theorem corrSum_of (T : Matrix (Fin n) (Fin p) ℝ) (i j : Fin p) (l : List (Fin n)) (s : ℝ) :
    corrSum (of T) ((i : Nat) : Int) ((j : Nat) : Int) (l.map fun k : Fin n => ((k.1 : Nat) : Int)) s =
      .ok (s + (l.map fun k => T k i * T k j).sum) := by
  induction l generalizing s with
  | nil => rw [List.map_nil, corrSum, List.map_nil, List.sum_nil, add_zero]
  | cons a l ih =>
    rw [List.map_cons, corrSum, get_of, except_bind_ok, get_of, except_bind_ok, ih, List.map_cons, List.sum_cons, add_assoc]

/-- The covariance (or correlation) matrix of centred (or standardised) data. -/
noncomputable def covM (T : Matrix (Fin n) (Fin p) ℝ) : Matrix (Fin p) (Fin p) ℝ :=
  Matrix.of fun i j => (∑ k, T k i * T k j) / ((n - 1 : Nat) : ℝ)

theorem covM_symm (T : Matrix (Fin n) (Fin p) ℝ) (i j : Fin p) : covM T i j = covM T j i := by
  simp only [covM, Matrix.of_apply]
  congr 1
  exact Finset.sum_congr rfl fun k _ => mul_comm _ _

/-- The matrix filled in up to a set of positions. -/
def partM (c : Matrix (Fin p) (Fin p) ℝ) (P : Nat → Nat → Prop) [∀ a b, Decidable (P a b)] : Matrix (Fin p) (Fin p) ℝ :=
  Matrix.of fun a b => if P a.1 b.1 then c a b else 0

theorem corrCell_of (T : Matrix (Fin n) (Fin p) ℝ) (i j : Fin p) (C : Matrix (Fin p) (Fin p) ℝ) :
    corrCell (of T) ((i : Nat) : Int) ((j : Nat) : Int) (of C) =
      .ok (of (Matrix.of fun a b => if (a = i ∧ b = j) ∨ (a = j ∧ b = i) then covM T a b else C a b)) := by
  unfold corrCell
  have h := corrSum_of T i j (List.finRange n) 0
  rw [← pyRange_finRange, ← List.ofFn_eq_map, List.sum_ofFn, zero_add] at h
  show (corrSum (of T) _ _ (pyRange 0 (n : Int)) 0 >>= _) = _
  rw [h, except_bind_ok]
  show ((of C).set _ _ _ >>= _) = _
  rw [set_of, except_bind_ok, set_of, ok_inj]
  refine mk_congr fun a b => ?_
  simp only [Matrix.of_apply]
  by_cases h1 : a = j ∧ b = i
  · rw [if_pos h1, if_pos (Or.inr h1), h1.1, h1.2, covM_symm]
    rfl
  · rw [if_neg h1]
    by_cases h2 : a = i ∧ b = j
    · rw [if_pos h2, if_pos (Or.inl h2), h2.1, h2.2]
      rfl
    · rw [if_neg h2, if_neg (by tauto)]

theorem fillCorr_of (hp : 0 < p) (T : Matrix (Fin n) (Fin p) ℝ) : fillCorr (of T) = .ok (of (covM T)) := by
  unfold fillCorr
  have hz : Factory.zeros (α := ℝ) ((of T).cols : Int) ((of T).cols : Int) = .ok (of (0 : Matrix (Fin p) (Fin p) ℝ)) :=
    Factory.zeros_nat hp p
  rw [hz, except_bind_ok]
  have hin : ∀ i : Fin p, loopM (fun j C => corrCell (of T) ((i : Nat) : Int) j C) (pyRange ((i : Nat) : Int) ((of T).cols : Int))
      (of (partM (covM T) fun a b => a < i.1 ∨ b < i.1)) =
      .ok (of (partM (covM T) fun a b => a < i.1 + 1 ∨ b < i.1 + 1)) := by
    intro i
    have h := loopM_rangeFrom (fun j C => corrCell (of T) ((i : Nat) : Int) j C)
      (fun k => of (partM (covM T) fun a b => (a < i.1 ∨ b < i.1) ∨ (a = i.1 ∧ b < k) ∨ (b = i.1 ∧ a < k))) i.1 p
      (le_of_lt i.2) (by
        intro k hk1 hk2
        have := corrCell_of T i ⟨k, hk2⟩ (partM (covM T) fun a b => (a < i.1 ∨ b < i.1) ∨ (a = i.1 ∧ b < k) ∨ (b = i.1 ∧ a < k))
        refine this.trans ?_
        rw [ok_inj]
        refine mk_congr fun a b => ?_
        simp only [partM, Matrix.of_apply, Fin.ext_iff]
        split
        · rw [if_pos (by omega)]
        · rename_i h1
          split
          · rw [if_pos (by omega)]
          · rw [if_neg (by omega)])
    have e1 : (partM (covM T) fun a b => (a < i.1 ∨ b < i.1) ∨ (a = i.1 ∧ b < i.1) ∨ (b = i.1 ∧ a < i.1)) =
        partM (covM T) fun a b => a < i.1 ∨ b < i.1 := by
      ext a b
      simp only [partM, Matrix.of_apply]
      congr 1
      apply propext
      omega
    have e2 : (partM (covM T) fun a b => (a < i.1 ∨ b < i.1) ∨ (a = i.1 ∧ b < p) ∨ (b = i.1 ∧ a < p)) =
        partM (covM T) fun a b => a < i.1 + 1 ∨ b < i.1 + 1 := by
      ext a b
      simp only [partM, Matrix.of_apply]
      have := a.2
      have := b.2
      congr 1
      apply propext
      omega
    simp only [e1, e2] at h
    exact h
  have h := loopM_range (fun i C => loopM (fun j C => corrCell (of T) i j C) (pyRange i ((of T).cols : Int)) C)
    (fun k => of (partM (covM T) fun a b => a < k ∨ b < k)) p (fun k hk => hin ⟨k, hk⟩)
  have e0 : (partM (covM T) fun a b => a < 0 ∨ b < 0) = 0 := by
    ext a b
    simp [partM]
  have e1 : (partM (covM T) fun a b => a < p ∨ b < p) = covM T := by
    ext a b
    simp only [partM, Matrix.of_apply]
    rw [if_pos (Or.inl a.2)]
  simp only [e0, e1] at h
  exact h

/-! ## Scores -/

theorem scoreSum_of (st : PcaState ℝ) (V : Matrix (Fin p) (Fin p) ℝ) (hV : st.vecs = of V) (idx : Fin p)
    (D : Matrix (Fin r) (Fin p) ℝ) (k : Fin r) (l : List (Fin p)) (s : ℝ) :
    scoreSum st idx.1 (of D) ((k : Nat) : Int) (l.map fun j : Fin p => ((j.1 : Nat) : Int)) s =
      .ok (s + (l.map fun j => V j idx * D k j).sum) := by
  induction l generalizing s with
  | nil => rw [List.map_nil, scoreSum, List.map_nil, List.sum_nil, add_zero]
  | cons a l ih =>
    rw [List.map_cons, scoreSum, hV, getRow_of, except_bind_ok]
    have h1 : (of (Matrix.of fun (_ : Fin 1) j => V a j)).get 0 ((idx : Nat) : Int) = .ok (V a idx) :=
      get_of (Matrix.of fun (_ : Fin 1) j => V a j) 0 idx
    rw [h1, except_bind_ok, get_of, except_bind_ok, ih, List.map_cons, List.sum_cons, add_assoc]

/-- Position of component `c` in ascending order. -/
def compIdx (ord : Fin p → Fin p) (c : Nat) (h : c < p) : Fin p := ord ⟨p - 1 - c, by omega⟩

/-- `Σ` of the `k` leading eigenvalues. -/
noncomputable def cum (lam : Fin p → ℝ) (ord : Fin p → Fin p) (k : Nat) : ℝ :=
  ∑ c ∈ Finset.range k, if h : c < p then lam (compIdx ord c h) else 0

/-- A fitted state in typed form. -/
structure PcaTyped (cfg : PcaCfg ℝ) (st : PcaState ℝ) (V : Matrix (Fin p) (Fin p) ℝ) (lam : Fin p → ℝ) (ord : Fin p → Fin p) :
    Prop where
  numCols : st.numCols = p
  vecs : st.vecs = of V
  vals : st.vals = of (Matrix.of fun i (_ : Fin 1) => lam i)
  sorted : st.sorted = List.ofFn fun i => (ord i).1
  total : st.total = ∑ i, lam i
  le : ∀ a b, cfg.le a b = true ↔ a ≤ b

/-- The most components that may be kept. -/
def pcaBound (cfg : PcaCfg ℝ) (p : Nat) : Nat := if 0 < cfg.maxColumns then min p cfg.maxColumns.toNat else p

theorem pcaBound_le (cfg : PcaCfg ℝ) (p : Nat) : pcaBound cfg p ≤ p := by
  unfold pcaBound
  split <;> omega

theorem pcaOrder_of (cfg : PcaCfg ℝ) (st : PcaState ℝ) (h : st.numCols = p) :
    pcaOrder cfg st = (List.range (pcaBound cfg p)).map fun c : Nat => (p : Int) - 1 - (c : Int) := by
  rw [← pyRange_reverse p (pcaBound cfg p)]
  unfold pcaOrder
  rw [h]
  congr 2
  unfold pcaLower pcaBound
  simp only [h]
  split <;> split <;> omega

/-- Whether the `k` leading eigenvalues reach the requested fraction. -/
noncomputable def reached (cfg : PcaCfg ℝ) (lam : Fin p → ℝ) (ord : Fin p → Fin p) (k : Nat) : Bool :=
  decide (cfg.variance ≤ cum lam ord k / ∑ i, lam i)

/-- The number of components kept. -/
noncomputable def numKept (cfg : PcaCfg ℝ) (lam : Fin p → ℝ) (ord : Fin p → Fin p) : Nat :=
  kStop (reached cfg lam ord) (pcaBound cfg p) 0

theorem getFromVector_col (lam : Fin p → ℝ) (i : Fin p) :
    (of (Matrix.of fun i (_ : Fin 1) => lam i)).getFromVector ((i : Nat) : Int) = .ok (lam i) := by
  unfold getFromVector
  rw [mustBeVector_col]
  show (if (of (Matrix.of fun i (_ : Fin 1) => lam i)).isRowVector then _ else _) = _
  split
  · rename_i h
    have hp : p = 1 := by simpa [isRowVector] using h
    subst hp
    rw [Subsingleton.elim i 0]
    exact get_of (Matrix.of fun i (_ : Fin 1) => lam i) 0 0
  · exact get_of (Matrix.of fun i (_ : Fin 1) => lam i) i 0

/-- `new_vals` after `c` components. -/
noncomputable def newVals (w : Nat) (V : Matrix (Fin p) (Fin p) ℝ) (ord : Fin p → Fin p) (d : Fin p → ℝ) (c : Nat) : List ℝ :=
  List.ofFn fun t : Fin w => if h : t.1 < c ∧ t.1 < p then ∑ j, V j (compIdx ord t.1 h.2) * d j else 0

theorem rowStep_of (cfg : PcaCfg ℝ) {st : PcaState ℝ} {V : Matrix (Fin p) (Fin p) ℝ} {lam : Fin p → ℝ} {ord : Fin p → Fin p}
    (ht : PcaTyped cfg st V lam ord) (D : Matrix (Fin r) (Fin p) ℝ) (k : Fin r) (w c : Nat) (hc : c < p) (hw : c < w) :
    rowStep cfg st (of D) ((k : Nat) : Int) ((p : Int) - 1 - (c : Int)) (newVals w V ord (D k) c, cum lam ord c, c) =
      .ok ((newVals w V ord (D k) (c + 1), cum lam ord (c + 1), c + 1), reached cfg lam ord (c + 1)) := by
  have hi : Utils.item st.sorted ((p : Int) - 1 - (c : Int)) = .ok (compIdx ord c hc).1 := by
    have e : ((p : Int) - 1 - (c : Int)) = ((p - 1 - c : Nat) : Int) := by omega
    rw [e, ht.sorted, Utils.item_ok (by rw [List.length_ofFn]; omega), List.getElem_ofFn]
    rfl
  have hcum : cum lam ord (c + 1) = cum lam ord c + lam (compIdx ord c hc) := by
    unfold cum
    rw [Finset.sum_range_succ, dif_pos hc]
  unfold rowStep
  rw [hi, except_bind_ok]
  have hs := scoreSum_of st V ht.vecs (compIdx ord c hc) D k (List.finRange p) 0
  rw [← pyRange_finRange, ← List.ofFn_eq_map, List.sum_ofFn, zero_add] at hs
  rw [ht.numCols, hs, except_bind_ok]
  have hput : Utils.put (newVals w V ord (D k) c) ((p : Int) - ((p : Int) - 1 - (c : Int)) - 1)
      (∑ j, V j (compIdx ord c hc) * D k j) = .ok (newVals w V ord (D k) (c + 1)) := by
    have e : ((p : Int) - ((p : Int) - 1 - (c : Int)) - 1) = ((c : Nat) : Int) := by omega
    unfold Utils.put
    have hl : c < (newVals w V ord (D k) c).length := by rw [newVals, List.length_ofFn]; exact hw
    rw [e, pyIndex_natCast c hl]
    show Except.ok _ = _
    rw [ok_inj]
    apply List.ext_getElem
    · simp [newVals]
    · intro i h1 h2
      rw [List.getElem_set]
      simp only [newVals, List.getElem_ofFn]
      by_cases hic : c = i
      · subst hic
        rw [if_pos rfl, dif_pos ⟨by omega, hc⟩]
      · rw [if_neg hic]
        by_cases h3 : i < c ∧ i < p
        · rw [dif_pos h3, dif_pos ⟨by omega, h3.2⟩]
        · rw [dif_neg h3, dif_neg (by omega)]
  rw [hput, except_bind_ok, except_bind_ok, ht.vals, getFromVector_col, except_bind_ok, ht.total, ← hcum, ok_inj]
  congr 1
  unfold reached
  rw [Bool.eq_iff_iff, ht.le, decide_eq_true_eq]

theorem pcaRow_of (cfg : PcaCfg ℝ) {st : PcaState ℝ} {V : Matrix (Fin p) (Fin p) ℝ} {lam : Fin p → ℝ} {ord : Fin p → Fin p}
    (ht : PcaTyped cfg st V lam ord) (D : Matrix (Fin r) (Fin p) ℝ) (k : Fin r) :
    pcaRow cfg st (of D) ((k : Nat) : Int) =
      .ok (newVals (if 0 < cfg.maxColumns then cfg.maxColumns else (p : Int)).toNat V ord (D k) (numKept cfg lam ord),
        numKept cfg lam ord) := by
  unfold pcaRow
  rw [pcaOrder_of cfg st ht.numCols, ht.numCols]
  have h := breakLoop_of (rowStep cfg st (of D) ((k : Nat) : Int)) (fun c : Nat => (p : Int) - 1 - (c : Int))
    (fun c => (newVals (if 0 < cfg.maxColumns then cfg.maxColumns else (p : Int)).toNat V ord (D k) c, cum lam ord c, c))
    (reached cfg lam ord) (pcaBound cfg p) (by
      intro c hc
      have := pcaBound_le cfg p
      refine rowStep_of cfg ht D k _ c (by omega) ?_
      unfold pcaBound at hc
      split at hc <;> rename_i h1
      · rw [if_pos h1]; omega
      · rw [if_neg h1]; omega)
  have e0 : (List.replicate (if 0 < cfg.maxColumns then cfg.maxColumns else (p : Int)).toNat (0 : ℝ), (0 : ℝ), 0) =
      (newVals (if 0 < cfg.maxColumns then cfg.maxColumns else (p : Int)).toNat V ord (D k) 0, cum lam ord 0, 0) := by
    refine Prod.ext ?_ (Prod.ext ?_ rfl)
    · show List.replicate _ _ = _
      apply List.ext_getElem
      · simp [newVals]
      · intro i h1 h2
        simp only [newVals, List.getElem_replicate, List.getElem_ofFn]
        rw [dif_neg (by omega)]
    · show (0 : ℝ) = cum lam ord 0
      rw [cum, Finset.sum_range_zero]
  show (breakLoop _ _ _ >>= _) = _
  rw [e0, h, except_bind_ok]
  rfl

/-- The scores of the `K` leading components. -/
def scoreM (V : Matrix (Fin p) (Fin p) ℝ) (ord : Fin p → Fin p) (D : Matrix (Fin r) (Fin p) ℝ) (K : Nat) (hK : K ≤ p) :
    Matrix (Fin r) (Fin K) ℝ :=
  Matrix.of fun i c => ∑ j, V j (compIdx ord c.1 (lt_of_lt_of_le c.2 hK)) * D i j

theorem numKept_le (cfg : PcaCfg ℝ) (lam : Fin p → ℝ) (ord : Fin p → Fin p) : numKept cfg lam ord ≤ pcaBound cfg p := by
  have := (kStop_spec (reached cfg lam ord) (pcaBound cfg p) 0).2.1
  unfold numKept
  omega

theorem numKept_le' (cfg : PcaCfg ℝ) (lam : Fin p → ℝ) (ord : Fin p → Fin p) : numKept cfg lam ord ≤ p :=
  (numKept_le cfg lam ord).trans (pcaBound_le cfg p)

theorem foldl_max_const {β : Type} (l : List β) (f : β → Nat) (K : Nat) (h : ∀ b ∈ l, f b = K) (a : Nat) (ha : a ≤ K) (hl : l ≠ []) :
    l.foldl (fun a b => max a (f b)) a = K := by
  induction l generalizing a with
  | nil => exact absurd rfl hl
  | cons b l ih =>
    rw [List.foldl_cons, h b (List.mem_cons_self ..), max_eq_right ha]
    cases l with
    | nil => rfl
    | cons c l => exact ih (fun b hb => h b (List.mem_cons_of_mem _ hb)) K le_rfl (by simp)

theorem pcaScores_of (cfg : PcaCfg ℝ) {st : PcaState ℝ} {V : Matrix (Fin p) (Fin p) ℝ} {lam : Fin p → ℝ} {ord : Fin p → Fin p}
    (ht : PcaTyped cfg st V lam ord) (X : Mat ℝ) (D0 : Mat ℝ) (D : Matrix (Fin r) (Fin p) ℝ) (hr : 0 < r)
    (h1 : removeColumns st.keep X = .ok D0) (h2 : pcaApply cfg st.tr D0 = .ok (of D)) :
    pcaScores cfg st X = .ok (of (scoreM V ord D (numKept cfg lam ord) (numKept_le' cfg lam ord))) := by
  unfold pcaScores
  rw [h1, except_bind_ok, h2, except_bind_ok]
  set K := numKept cfg lam ord with hK
  set w := (if 0 < cfg.maxColumns then cfg.maxColumns else (p : Int)).toNat with hw
  have hKw : K ≤ w := by
    have := numKept_le cfg lam ord
    rw [← hK] at this
    unfold pcaBound at this
    rw [hw]
    split at this <;> rename_i h
    · rw [if_pos h]; omega
    · rw [if_neg h]; omega
  have hm : (pyRange 0 ((of D).rows : Int)).mapM (pcaRow cfg st (of D)) =
      .ok (List.ofFn fun k : Fin r => (newVals w V ord (D k) K, K)) := by
    show (pyRange 0 (r : Int)).mapM _ = _
    rw [pyRange_ofFn]
    exact mapM_ofFn fun k => pcaRow_of cfg ht D k
  rw [hm, except_bind_ok]
  have hact : (List.ofFn fun k : Fin r => (newVals w V ord (D k) K, K)).foldl (fun a r => max a r.2) 0 = K := by
    refine foldl_max_const _ (fun r : List ℝ × Nat => r.2) K ?_ 0 (Nat.zero_le _) ?_
    · intro b hb
      obtain ⟨i, rfl⟩ := (List.mem_ofFn' _ _).1 hb
      rfl
    · intro h
      have := congrArg List.length h
      rw [List.length_ofFn] at this
      simp at this
      omega
  simp only [hact]
  have hz : Factory.zeros (α := ℝ) ((of D).rows : Int) (K : Int) = .ok (of (0 : Matrix (Fin r) (Fin K) ℝ)) :=
    Factory.zeros_nat hr K
  rw [hz, except_bind_ok]
  have hl : ((pyRange 0 ((List.ofFn fun k : Fin r => (newVals w V ord (D k) K, K)).length : Int)).flatMap fun n =>
      (pyRange 0 (min ((((List.ofFn fun k : Fin r => (newVals w V ord (D k) K, K)).getD n.toNat ([], 0)).1.length : Nat) : Int) (K : Int))).map
        fun i => (n, i)) = pairs (pyRange 0 r) (pyRange 0 K) := by
    rw [List.length_ofFn, pairs]
    refine List.flatMap_congr fun n hn => ?_
    rw [pyRange_finRange] at hn
    obtain ⟨k, _, rfl⟩ := List.mem_map.1 hn
    have : (((List.ofFn fun k : Fin r => (newVals w V ord (D k) K, K)).getD ((k.1 : Nat) : Int).toNat ([], 0)).1.length) = w := by
      rw [Int.toNat_natCast, List.getD_eq_getElem?_getD, List.getElem?_eq_getElem (by rw [List.length_ofFn]; exact k.2),
        List.getElem_ofFn]
      simp [newVals]
    rw [this, show min (w : Int) (K : Int) = (K : Int) by omega]
  rw [hl]
  refine (fillLoop_all _ (fun i c => ∑ j, V j (compIdx ord c.1 (lt_of_lt_of_le c.2 (numKept_le' cfg lam ord))) * D i j)
    (fun i c => ?_) _).trans ?_
  · have e1 : Utils.item (List.ofFn fun k : Fin r => (newVals w V ord (D k) K, K)) ((i : Nat) : Int) =
        .ok (newVals w V ord (D i) K, K) := by
      rw [Utils.item_ok (by rw [List.length_ofFn]; exact i.2), List.getElem_ofFn]
    rw [e1, except_bind_ok]
    have hc : c.1 < (newVals w V ord (D i) K).length := by
      rw [newVals, List.length_ofFn]
      exact lt_of_lt_of_le c.2 hKw
    rw [Utils.item_ok hc, ok_inj]
    simp only [newVals, List.getElem_ofFn]
    rw [dif_pos ⟨c.2, lt_of_lt_of_le c.2 (numKept_le' cfg lam ord)⟩]
  · rfl

/-! ## Loadings -/

/-- The coefficients of component `c`. -/
def coeffs (V : Matrix (Fin p) (Fin p) ℝ) (ord : Fin p → Fin p) (c : Nat) : List ℝ :=
  List.ofFn fun j => if h : c < p then V j (compIdx ord c h) else 0

theorem coeffStep_of (cfg : PcaCfg ℝ) {st : PcaState ℝ} {V : Matrix (Fin p) (Fin p) ℝ} {lam : Fin p → ℝ} {ord : Fin p → Fin p}
    (ht : PcaTyped cfg st V lam ord) (c : Nat) (hc : c < p) :
    coeffStep cfg st ((p : Int) - 1 - (c : Int)) ((List.range c).map (coeffs V ord), cum lam ord c) =
      .ok (((List.range (c + 1)).map (coeffs V ord), cum lam ord (c + 1)), reached cfg lam ord (c + 1)) := by
  have hi : Utils.item st.sorted ((p : Int) - 1 - (c : Int)) = .ok (compIdx ord c hc).1 := by
    have e : ((p : Int) - 1 - (c : Int)) = ((p - 1 - c : Nat) : Int) := by omega
    rw [e, ht.sorted, Utils.item_ok (by rw [List.length_ofFn]; omega), List.getElem_ofFn]
    rfl
  have hcum : cum lam ord (c + 1) = cum lam ord c + lam (compIdx ord c hc) := by
    unfold cum
    rw [Finset.sum_range_succ, dif_pos hc]
  have hco : coeffList st (compIdx ord c hc).1 = .ok (coeffs V ord c) := by
    unfold coeffList coeffs
    rw [ht.numCols, ht.vecs, pyRange_ofFn]
    refine mapM_ofFn fun j => ?_
    rw [dif_pos hc]
    exact get_of V j _
  unfold coeffStep
  rw [hi, except_bind_ok, hco, except_bind_ok, ht.vals, getFromVector_col, except_bind_ok, ht.total, ← hcum, List.range_succ,
    List.map_append, ok_inj]
  congr 1
  unfold reached
  rw [Bool.eq_iff_iff, ht.le, decide_eq_true_eq]

theorem pcaCoeffs_of (cfg : PcaCfg ℝ) {st : PcaState ℝ} {V : Matrix (Fin p) (Fin p) ℝ} {lam : Fin p → ℝ} {ord : Fin p → Fin p}
    (ht : PcaTyped cfg st V lam ord) :
    pcaCoeffs cfg st = .ok ((List.range (numKept cfg lam ord)).map (coeffs V ord)) := by
  unfold pcaCoeffs
  rw [pcaOrder_of cfg st ht.numCols]
  have h := breakLoop_of (coeffStep cfg st) (fun c : Nat => (p : Int) - 1 - (c : Int))
    (fun c => ((List.range c).map (coeffs V ord), cum lam ord c)) (reached cfg lam ord) (pcaBound cfg p)
    (fun c hc => coeffStep_of cfg ht c (lt_of_lt_of_le hc (pcaBound_le cfg p)))
  have e0 : cum lam ord 0 = 0 := by rw [cum, Finset.sum_range_zero]
  simp only [e0, List.range_zero, List.map_nil] at h
  rw [h, except_bind_ok]
  rfl

open Classical in
/-- The loadings: one row for each of the first `p` column numbers, and the row number in the last column. -/
noncomputable def loadM (V : Matrix (Fin p) (Fin p) ℝ) (ord : Fin p → Fin p) (κ : Fin p → Nat) (K : Nat) (hK : K ≤ p) :
    Matrix (Fin p) (Fin (K + 1)) ℝ :=
  Matrix.of fun a c => if h : c.1 < K then
    (if hj : ∃ j, κ j = a.1 then V hj.choose (compIdx ord c.1 (lt_of_lt_of_le h hK)) else 0) else ((a.1 + 1 : Nat) : ℝ)

theorem loadCell_of (st : PcaState ℝ) (V : Matrix (Fin p) (Fin p) ℝ) (ord : Fin p → Fin p) (κ : Fin p → Nat)
    (hκ : Function.Injective κ) (hk : st.keep = List.ofFn κ) (K : Nat) (hK : K ≤ p) (a : Fin p) (c : Nat) (hc : c < K) :
    loadCell st ((List.range K).map (coeffs V ord)) ((a : Nat) : Int) (c : Int) =
      .ok (loadM V ord κ K hK a ⟨c, by omega⟩) := by
  unfold loadCell
  have hcc : c < ((List.range K).map (coeffs V ord)).length := by simpa using hc
  rw [Utils.item_ok hcc, except_bind_ok, List.getElem_map, List.getElem_range, Int.toNat_natCast, hk]
  simp only [loadM, Matrix.of_apply]
  rw [dif_pos hc]
  by_cases h : ∃ j, κ j = a.1
  · have hm : a.1 ∈ List.ofFn κ := by
      obtain ⟨j, hj⟩ := h
      rw [← hj]
      exact (List.mem_ofFn' _ _).2 ⟨j, rfl⟩
    have hidx : (List.ofFn κ).idxOf a.1 = (h.choose).1 := by
      have hnd : (List.ofFn κ).Nodup := List.nodup_ofFn.2 hκ
      have := List.Nodup.idxOf_getElem hnd h.choose.1 (by rw [List.length_ofFn]; exact h.choose.2)
      rw [List.getElem_ofFn] at this
      rw [← this]
      congr 1
      exact h.choose_spec.symm
    rw [if_pos hm, dif_pos h, hidx]
    have hl : h.choose.1 < (coeffs V ord c).length := by rw [coeffs, List.length_ofFn]; exact h.choose.2
    rw [if_pos hl, Utils.item_ok hl, ok_inj]
    simp only [coeffs, List.getElem_ofFn]
    rw [dif_pos (lt_of_lt_of_le hc hK)]
  · have hm : a.1 ∉ List.ofFn κ := by
      intro hm
      obtain ⟨j, hj⟩ := (List.mem_ofFn' _ _).1 hm
      exact h ⟨j, hj⟩
    rw [if_neg hm, dif_neg h]

theorem pcaLoadings_of (cfg : PcaCfg ℝ) {st : PcaState ℝ} {V : Matrix (Fin p) (Fin p) ℝ} {lam : Fin p → ℝ} {ord : Fin p → Fin p}
    (ht : PcaTyped cfg st V lam ord) (hp : 0 < p) (κ : Fin p → Nat) (hκ : Function.Injective κ) (hk : st.keep = List.ofFn κ) :
    pcaLoadings cfg st = .ok (of (loadM V ord κ (numKept cfg lam ord) (numKept_le' cfg lam ord))) := by
  unfold pcaLoadings
  rw [pcaCoeffs_of cfg ht, except_bind_ok]
  set K := numKept cfg lam ord with hK
  have hlen : ((List.range K).map (coeffs V ord)).length = K := by simp
  have hz : Factory.zeros (α := ℝ) (st.numCols : Int) ((((List.range K).map (coeffs V ord)).length + 1 : Nat) : Int) =
      .ok (of (0 : Matrix (Fin p) (Fin (K + 1)) ℝ)) := by
    rw [hlen, ht.numCols]
    exact Factory.zeros_nat hp (K + 1)
  rw [hz, except_bind_ok, ht.numCols]
  have h1 : ((pyRange 0 (p : Int)).map fun n => (n, (((of (0 : Matrix (Fin p) (Fin (K + 1)) ℝ)).cols : Nat) : Int) - 1)) =
      ((List.finRange p).map fun n => (n, Fin.last K)).map castPair := by
    rw [pyRange_finRange, List.map_map, List.map_map]
    refine List.map_congr_left fun n _ => ?_
    show (_, ((K + 1 : Nat) : Int) - 1) = (_, ((K : Nat) : Int))
    refine Prod.ext rfl ?_
    show ((K + 1 : Nat) : Int) - 1 = (K : Int)
    omega
  rw [h1, fillLoop_of _ (fun (a : Fin p) (_ : Fin (K + 1)) => ((a.1 + 1 : Nat) : ℝ)) _ (fun c _ => by rw [Int.toNat_natCast]),
    except_bind_ok]
  have h2 : ((pyRange 0 (((List.range K).map (coeffs V ord)).length : Int)).flatMap fun i =>
      (pyRange 0 (p : Int)).map fun n => (n, i)) =
      ((List.finRange K).flatMap fun i => (List.finRange p).map fun n => (n, i.castSucc)).map castPair := by
    rw [hlen, pyRange_finRange, pyRange_finRange, List.flatMap_map, List.map_flatMap]
    congr 1
    funext i
    rw [List.map_map, List.map_map]
    rfl
  rw [h2, fillLoop_of _ (fun (a : Fin p) (c : Fin (K + 1)) => loadM V ord κ K (numKept_le' cfg lam ord) a c) _ ?_, ok_inj]
  · refine mk_congr fun a c => ?_
    simp only [Matrix.of_apply, List.mem_flatMap, List.mem_map, List.mem_finRange, true_and]
    by_cases hc : c.1 < K
    · rw [if_pos ⟨⟨c.1, hc⟩, a, rfl⟩]
    · have hcK : c = Fin.last K := by
        apply Fin.ext
        have := c.2
        show c.1 = K
        omega
      rw [if_neg, if_pos ⟨a, by rw [hcK]⟩]
      · simp only [loadM, Matrix.of_apply]
        rw [dif_neg hc]
      · rintro ⟨i, b, hb⟩
        have := congrArg (fun x => x.2.1) hb
        have hi := i.2
        simp only [Fin.val_castSucc] at this
        omega
  · intro c hcm
    obtain ⟨i, _, hi⟩ := List.mem_flatMap.1 hcm
    obtain ⟨b, _, rfl⟩ := List.mem_map.1 hi
    exact loadCell_of st V ord κ hκ hk K (numKept_le' cfg lam ord) b i.1 i.2

/-! ## Fitting -/

/-- Column `j` has two different entries. -/
def NonConst (X : Matrix (Fin n) (Fin q) ℝ) (j : Fin q) : Prop := ∃ i i', X i j ≠ X i' j

theorem hasTwo_iff {eq : ℝ → ℝ → Bool} (heq : ∀ a b, eq a b = true ↔ a = b) (f : Fin n → ℝ) :
    hasTwo eq (List.ofFn f) = true ↔ ∃ i i', f i ≠ f i' := by
  cases n with
  | zero =>
    rw [List.ofFn_zero, hasTwo]
    exact ⟨fun h => (Bool.false_ne_true h).elim, fun h => h.choose.elim0⟩
  | succ n =>
    rw [List.ofFn_succ, hasTwo, List.any_eq_true]
    constructor
    · rintro ⟨v, hv, h⟩
      obtain ⟨i, rfl⟩ := (List.mem_ofFn' _ _).1 hv
      refine ⟨0, i.succ, fun e => ?_⟩
      rw [(heq _ _).2 e] at h
      cases h
    · rintro ⟨i, i', h⟩
      have h0 : ∃ i, f 0 ≠ f i := by
        by_contra hc
        push Not at hc
        exact h ((hc i).symm.trans (hc i'))
      obtain ⟨k, hk⟩ := h0
      have hk0 : k ≠ 0 := fun e => hk (by rw [e])
      obtain ⟨k', rfl⟩ := Fin.exists_succ_eq.2 hk0
      refine ⟨_, (List.mem_ofFn' _ _).2 ⟨k', rfl⟩, ?_⟩
      rw [Bool.not_eq_true', Bool.eq_false_iff]
      exact fun e => hk ((heq _ _).1 e)

/-- `κ` enumerates the non-constant columns in ascending order. -/
structure Enumerates (X : Matrix (Fin n) (Fin q) ℝ) (κ : Fin p → Fin q) : Prop where
  mono : StrictMono κ
  mem : ∀ j, (∃ t, κ t = j) ↔ NonConst X j

theorem pcaKeep_of {eq : ℝ → ℝ → Bool} (heq : ∀ a b, eq a b = true ↔ a = b) (X : Matrix (Fin n) (Fin q) ℝ)
    (κ : Fin p → Fin q) (h : Enumerates X κ) : pcaKeep eq (of X) = List.ofFn fun t => (κ t).1 := by
  unfold pcaKeep
  have e : (List.ofFn fun t => (κ t).1) = (List.ofFn κ).map (·.val) := by
    rw [List.map_ofFn]
    rfl
  rw [e]
  congr 1
  have hs : (List.ofFn κ).Pairwise (· < ·) := by
    rw [List.pairwise_ofFn]
    exact fun i j hij => h.mono hij
  have hs2 : ((List.finRange q).filter fun j => hasTwo eq (List.ofFn fun i : Fin n => X i j)).Pairwise (· < ·) :=
    List.Pairwise.filter _ (List.pairwise_lt_finRange q)
  refine List.Perm.eq_of_pairwise (fun a b _ _ h1 h2 => (lt_asymm h1 h2).elim) hs2 hs ?_
  rw [List.perm_ext_iff_of_nodup (hs2.imp fun h => h.ne) (hs.imp fun h => h.ne)]
  intro j
  rw [List.mem_filter, List.mem_ofFn', hasTwo_iff heq]
  exact ⟨fun hj => (h.mem j).2 hj.2, fun hj => ⟨List.mem_finRange j, (h.mem j).1 hj⟩⟩

theorem resolve_cast (l : List (Fin q)) : resolve q (l.map fun k => ((k.1 : Nat) : Int)) = .ok l := by
  rw [resolve_ok_iff, List.forall₂_map_left_iff, List.forall₂_same]
  exact fun k _ => pyIndex_fin k

theorem removeColumns_of (X : Matrix (Fin n) (Fin q) ℝ) (κ : Fin p → Fin q) (h : StrictMono κ) :
    removeColumns (List.ofFn fun t => (κ t).1) (of X) = .ok (of (X.submatrix id κ)) := by
  unfold removeColumns
  rw [List.length_ofFn]
  by_cases hpq : p = q
  · subst hpq
    rw [if_neg (by simp), ok_inj]
    have : ∀ j, κ j = j := fun j => le_antisymm h.apply_le h.le_apply
    refine mk_congr fun i j => ?_
    rw [Matrix.submatrix_apply, this]
    rfl
  · rw [if_pos hpq]
    unfold getSubMatrix Sel.positions
    have e1 : resolve (of X).rows (pyRange 0 ((of X).rows : Int)) = .ok (List.finRange n) := by
      show resolve n (pyRange 0 (n : Int)) = _
      rw [pyRange_finRange]
      exact resolve_cast _
    have e2 : resolve (of X).cols ((List.ofFn fun t => (κ t).1).map fun k : Nat => (k : Int)) = .ok (List.ofFn κ) := by
      have : ((List.ofFn fun t => (κ t).1).map fun k : Nat => (k : Int)) = (List.ofFn κ).map fun k => ((k.1 : Nat) : Int) := by
        rw [List.map_ofFn, List.map_ofFn]
        rfl
      rw [this]
      exact resolve_cast _
    simp only [e1, e2, except_bind_ok]
    show Except.ok _ = _
    rw [ok_inj]
    refine mk_eq (List.length_finRange) (List.length_ofFn) fun i j => ?_
    simp only [Matrix.of_apply, Matrix.submatrix_apply, id]
    congr 1
    · apply Fin.ext; simp
    · simp only [List.get_eq_getElem, List.getElem_ofFn]
      rfl

/-- Data `B` transformed with the statistics of the training data `T`. -/
noncomputable def prepB (cfg : PcaCfg ℝ) (T : Matrix (Fin n) (Fin p) ℝ) (B : Matrix (Fin r) (Fin p) ℝ) : Matrix (Fin r) (Fin p) ℝ :=
  if cfg.centered then cen T B else std T B

/-- The transformed training data. -/
noncomputable def prepM (cfg : PcaCfg ℝ) (T : Matrix (Fin n) (Fin p) ℝ) : Matrix (Fin n) (Fin p) ℝ := prepB cfg T T

theorem pcaPrep_of (cfg : PcaCfg ℝ) (hz : ∀ x, cfg.isZero x = true ↔ x = 0) (T : Matrix (Fin n) (Fin (p + 1)) ℝ) :
    ∃ tr, pcaPrep cfg (of T) = .ok (tr, of (prepM cfg T)) ∧
      ∀ (r : Nat) (B : Matrix (Fin r) (Fin (p + 1)) ℝ), pcaApply cfg tr (of B) = .ok (of (prepB cfg T B)) := by
  unfold pcaPrep prepM prepB
  by_cases hc : cfg.centered = true
  · simp only [if_pos hc]
    have h2 : ∀ (r : Nat) (B : Matrix (Fin r) (Fin (p + 1)) ℝ), (of B).subByVector (of T).columnMeans = .ok (of (cen T B)) := by
      intro r B
      rw [columnMeans_of]
      exact vectorOp_row _ _ _
    refine ⟨.center ⟨true, some (of T).columnMeans⟩, ?_, h2⟩
    show Except.map _ ((of T).subByVector (of T).columnMeans) = _
    rw [h2]
    rfl
  · simp only [if_neg hc]
    refine ⟨.standardize (stdState T), ?_, fun r B => std_do cfg.isZero T B⟩
    show Except.map _ (transform (standardize cfg.isZero) (of T) (standardize cfg.isZero).init).2 = _
    rw [std_fit cfg.isZero hz T]
    rfl

theorem clampNeg_real (v : ℝ) : clampNeg v = max 0 v := by
  unfold clampNeg
  split
  · rename_i h; rw [max_eq_left h.le]
  · rename_i h; rw [max_eq_right (not_lt.1 h)]

theorem toRaw_col (lam : Fin p → ℝ) : (of (Matrix.of fun i (_ : Fin 1) => lam i)).toRawCopy1D = List.ofFn lam := by
  unfold toRawCopy1D
  show (List.ofFn fun _ : Fin 1 => List.ofFn lam).flatten = _
  rw [List.ofFn_succ, List.ofFn_zero]
  simp

/-- Configuring, for outputs `ev`, `V` of `eig` and `ord` of `argsort`. -/
theorem pcaConfigure_of (cfg : PcaCfg ℝ) (hz : ∀ x, cfg.isZero x = true ↔ x = 0) (heq : ∀ a b, cfg.eq a b = true ↔ a = b)
    (hle : ∀ a b, cfg.le a b = true ↔ a ≤ b) (X : Matrix (Fin n) (Fin q) ℝ) (κ : Fin (p + 1) → Fin q) (h : Enumerates X κ)
    (ev : Fin (p + 1) → ℝ) (V : Matrix (Fin (p + 1)) (Fin (p + 1)) ℝ)
    (heig : cfg.eig (of (covM (prepM cfg (X.submatrix id κ)))) = .ok (of (Matrix.of fun i (_ : Fin 1) => ev i), of V))
    (ord : Fin (p + 1) → Fin (p + 1))
    (hord : cfg.argsort (List.ofFn fun i => max 0 (ev i)) = List.ofFn fun i => (ord i).1) :
    ∃ st, pcaConfigure cfg (of X) = .ok st ∧ PcaTyped cfg st V (fun i => max 0 (ev i)) ord ∧
      st.keep = (List.ofFn fun t => (κ t).1) ∧
      (∀ (r : Nat) (Z : Matrix (Fin r) (Fin q) ℝ), removeColumns st.keep (of Z) = .ok (of (Z.submatrix id κ))) ∧
      ∀ (r : Nat) (B : Matrix (Fin r) (Fin (p + 1)) ℝ), pcaApply cfg st.tr (of B) = .ok (of (prepB cfg (X.submatrix id κ) B)) := by
  obtain ⟨tr, h1, h2⟩ := pcaPrep_of cfg hz (X.submatrix id κ)
  unfold pcaConfigure
  simp only []
  rw [pcaKeep_of heq X κ h, removeColumns_of X κ h.mono, except_bind_ok, h1, except_bind_ok]
  simp only []
  rw [fillCorr_of (Nat.succ_pos p), except_bind_ok, heig, except_bind_ok]
  simp only []
  have hv : (of (Matrix.of fun i (_ : Fin 1) => ev i)).map clampNeg = of (Matrix.of fun i (_ : Fin 1) => max 0 (ev i)) := by
    refine mk_congr fun i j => ?_
    exact clampNeg_real _
  rw [hv, toRaw_col, hord]
  refine ⟨_, rfl, ⟨rfl, rfl, rfl, rfl, ?_, hle⟩, rfl, ?_, h2⟩
  · show (List.ofFn fun i => max 0 (ev i)).foldl (· + ·) 0 = _
    rw [← List.sum_eq_foldl, List.sum_ofFn]
  · exact fun r Z => removeColumns_of Z κ h.mono

/-- Everything `transform` does, for given outputs of the external routines. -/
theorem pcaTransform_of (cfg : PcaCfg ℝ) (hz : ∀ x, cfg.isZero x = true ↔ x = 0) (heq : ∀ a b, cfg.eq a b = true ↔ a = b)
    (hle : ∀ a b, cfg.le a b = true ↔ a ≤ b) (X : Matrix (Fin n) (Fin q) ℝ) (hn : 0 < n) (κ : Fin (p + 1) → Fin q)
    (h : Enumerates X κ) (ev : Fin (p + 1) → ℝ) (V : Matrix (Fin (p + 1)) (Fin (p + 1)) ℝ)
    (heig : cfg.eig (of (covM (prepM cfg (X.submatrix id κ)))) = .ok (of (Matrix.of fun i (_ : Fin 1) => ev i), of V))
    (ord : Fin (p + 1) → Fin (p + 1))
    (hord : cfg.argsort (List.ofFn fun i => max 0 (ev i)) = List.ofFn fun i => (ord i).1) :
    ∃ st, pcaTransform cfg (of X) = .ok (st,
      of (scoreM V ord (prepM cfg (X.submatrix id κ)) (numKept cfg (fun i => max 0 (ev i)) ord) (numKept_le' cfg _ ord)),
      of (loadM V ord (fun t => (κ t).1) (numKept cfg (fun i => max 0 (ev i)) ord) (numKept_le' cfg _ ord))) ∧
      ∀ (r : Nat) (Z : Matrix (Fin r) (Fin q) ℝ), 0 < r → pcaScores cfg st (of Z) = .ok (of (scoreM V ord
        (prepB cfg (X.submatrix id κ) (Z.submatrix id κ)) (numKept cfg (fun i => max 0 (ev i)) ord) (numKept_le' cfg _ ord))) := by
  obtain ⟨st, h1, ht, hk, h2, h3⟩ := pcaConfigure_of cfg hz heq hle X κ h ev V heig ord hord
  refine ⟨st, ?_, fun r Z hr => pcaScores_of cfg ht (of Z) _ _ hr (h2 r Z) (h3 r _)⟩
  unfold pcaTransform
  rw [h1, except_bind_ok, pcaScores_of cfg ht (of X) _ _ hn (h2 n X) (h3 n _), except_bind_ok,
    pcaLoadings_of cfg ht (Nat.succ_pos p) (fun t => (κ t).1) (fun a b e => h.mono.injective (Fin.ext e)) hk, except_bind_ok]
  rfl

/-- Data without any non-constant column cannot be standardised. -/
theorem pcaTransform_const (cfg : PcaCfg ℝ) (hc : cfg.centered = false) (heq : ∀ a b, cfg.eq a b = true ↔ a = b)
    (X : Matrix (Fin n) (Fin q) ℝ) (h : ∀ j, ¬ NonConst X j) : pcaTransform cfg (of X) = .error .indexError := by
  have hk := pcaKeep_of heq X (fun t : Fin 0 => t.elim0) ⟨fun a => a.elim0, fun j => ⟨fun ⟨t, _⟩ => t.elim0, fun hj => absurd hj (h j)⟩⟩
  have hr := removeColumns_of X (fun t : Fin 0 => t.elim0) (fun a => a.elim0)
  rw [List.ofFn_zero] at hk hr
  have hp : pcaPrep cfg (of (X.submatrix id fun t : Fin 0 => t.elim0)) = .error .indexError := by
    unfold pcaPrep
    rw [hc]
    rfl
  unfold pcaTransform pcaConfigure
  simp only []
  rw [hk, hr, except_bind_ok, hp]
  rfl

end corr

end Verif
