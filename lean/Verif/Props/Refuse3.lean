import Verif.Props.Refuse2
import Verif.Props.DiplsProps
import Verif.Props.PcaProps
import Verif.Alg.PRM
import Verif.Alg.NipalsPls1

/-!
# C147: filters, PRM, and the places where data that does not fit is accepted
-/

namespace Verif.Props
open Verif Mat Factory Transf
open scoped Matrix

variable {α : Type}

/-! ## Center and Standardize themselves -/

/-- **C147 (Center, Standardize).**  Once fitted, both refuse other widths. -/
theorem C147_scaling [Field α] [HasSqrt α] (isZero : α → Bool) (X R S : Mat α) (hR : (transform center X center.init).2 = .ok R)
    (hS : (transform (standardize isZero) X (standardize isZero).init).2 = .ok S) :
    Refuses (fun Z => (transform center Z (transform center X center.init).1).2) X.cols ∧
    Refuses (fun Z => (transform (standardize isZero) Z (transform (standardize isZero) X (standardize isZero).init).1).2) X.cols :=
  ⟨fun Z _ hZ => (center_refuses (s := center.init) (fun _ h => nomatch h) hR).2 Z hZ, fun Z _ hZ => std_refuses isZero hS Z hZ⟩

/-! ## GLSW, EPO and the Y-gradient variants -/

section glsw
variable [Field α] [DecidableEq α] [HasSqrt α]

/-- The matrix of eigenvectors has as many rows as the matrix it was computed from. -/
def EigRows (eig : Mat α → Except PyErr (Mat α × Mat α)) : Prop := ∀ C r, eig C = .ok r → r.2.rows = C.rows

omit [Field α] [DecidableEq α] [HasSqrt α] in
theorem foldConcat_dims {l : List (α × Mat α)} {A R : Mat α} (h : l.foldlM (fun acc q => acc.concatAlongColumns q.2) A = .ok R) :
    R.rows = A.rows := by
  induction l generalizing A with
  | nil => cases h; rfl
  | cons q l ih =>
    rw [List.foldlM_cons] at h
    obtain ⟨B, h1, h⟩ := bindOk h
    exact (ih h).trans (concatCols_dims h1)

omit [Field α] [DecidableEq α] [HasSqrt α] in
theorem eigSorted_dims {le : α → α → Bool} {n : Nat} {vals vecs V : Mat α} {asc : Bool} (h : eigenvectorsSorted le n vals vecs asc = .ok V) :
    V.rows = vecs.rows := by
  unfold eigenvectorsSorted at h
  obtain ⟨ps, h1, h⟩ := bindOk h
  have hp : ∀ q ∈ ps, q.2.rows = vecs.rows := by
    unfold eigenpairs at h1
    intro q hq
    have key : ∀ (l : List Int) (ps : List (α × Mat α)), (l.mapM fun i => do
        let v ← vals.getFromVector i
        let c ← vecs.getColumn i
        pure (v, c)) = .ok ps → ∀ q ∈ ps, q.2.rows = vecs.rows := by
      intro l
      induction l with
      | nil => intro ps h q hq; cases h; cases hq
      | cons i l ih =>
        intro ps h q hq
        rw [List.mapM_cons] at h
        obtain ⟨a, ha, h⟩ := bindOk h
        obtain ⟨as, has, h⟩ := bindOk h
        cases h
        rcases List.mem_cons.1 hq with rfl | hq
        · obtain ⟨v, -, ha⟩ := bindOk ha
          obtain ⟨c, hc, ha⟩ := bindOk ha
          cases ha
          exact (getColumn_dims hc).1
        · exact ih as has q hq
    exact key _ ps h1 q hq
  have hs : ∀ q ∈ sortPairs le asc ps, q.2.rows = vecs.rows := fun q hq => hp q ((List.mergeSort_perm _ _).mem_iff.1 hq)
  split at h
  · cases h
  · rename_i p ps' e
    rw [foldConcat_dims h]
    exact hs p (by rw [e]; exact List.mem_cons_self)

omit [HasSqrt α] in
theorem glswInit_refuses {cfg : GlswCfg α} {check : Mat α → Mat α → Option String} {cov : Mat α → Mat α → Except PyErr (Mat α)}
    {vecs weights : Mat α → Except PyErr (Mat α)} {x1 x2 : Mat α} (hc : ∀ C, cov x1 x2 = .ok C → C.rows = x1.cols)
    (hv : ∀ C V, vecs C = .ok V → V.rows = C.rows) {G : Mat α} (h : glswInit cfg check cov vecs weights x1 x2 = .ok (.ready G)) :
    Refuses (glswTransform (some G)) x1.cols := by
  unfold glswInit at h
  split at h
  · cases h
  · cases hg : glswDo cfg cov vecs weights x1 x2 with
    | error e => rw [hg] at h; cases h
    | ok G' =>
      rw [hg] at h
      cases h
      unfold glswDo at hg
      obtain ⟨C, h1, hg⟩ := bindOk hg
      obtain ⟨V, h2, hg⟩ := bindOk hg
      obtain ⟨D, -, hg⟩ := bindOk hg
      obtain ⟨Di, -, hg⟩ := bindOk hg
      obtain ⟨VD, h3, hg⟩ := bindOk hg
      intro Z _ hZ
      refine mul_fails ?_
      rw [(mul_dims hg).1, (mul_dims h3).1, hv C V h2, hc C h1]
      exact hZ

omit [DecidableEq α] [HasSqrt α] in
theorem glswCov_dims {x1 x2 C : Mat α} (hs : x1.sameShapeAs x2 = true) (h : glswCov x1 x2 = .ok C) : C.rows = x1.cols := by
  unfold glswCov at h
  obtain ⟨c1, h1, h⟩ := bindOk h
  obtain ⟨c2, h2, h⟩ := bindOk h
  obtain ⟨Xd, h3, h⟩ := bindOk h
  rw [(mul_dims h).1]
  show Xd.cols = _
  rw [(Heap.sub_shape h3).2]
  have e : c2.cols = x2.cols := (Heap.vectorOp_shape (M := x2) h2).2
  rw [e]
  simp only [sameShapeAs, Bool.and_eq_true, beq_iff_eq] at hs
  exact hs.2.symm

omit [Field α] [DecidableEq α] [HasSqrt α] in
theorem glswVecs_dims {cfg : GlswCfg α} (he : EigRows cfg.eig) (C V : Mat α) (h : glswVecs cfg C = .ok V) : V.rows = C.rows := by
  obtain ⟨r, h1, h⟩ := bindOk h
  cases h
  exact he C r h1

omit [Field α] [DecidableEq α] [HasSqrt α] in
theorem epoVecs_dims {cfg : GlswCfg α} (he : EigRows cfg.eig) (C V : Mat α) (h : epoVecs cfg C = .ok V) : V.rows = C.rows := by
  obtain ⟨r, h1, h⟩ := bindOk h
  obtain ⟨V', h2, h⟩ := bindOk h
  rw [(getSub_dims h).1]
  show (pyRange 0 (V'.rows : Int)).length = _
  rw [range_len, eigSorted_dims h2, he C r h1]

/-- **C147 (GLSW, EPO: columns).** -/
theorem C147_glsw_columns (cfg : GlswCfg α) (he : EigRows cfg.eig) (x1 x2 G : Mat α)
    (h : glswFit cfg x1 x2 = .ok (.ready G) ∨ epoFit cfg x1 x2 = .ok (.ready G)) : Refuses (glswTransform (some G)) x1.cols := by
  have hs : x1.sameShapeAs x2 = true := by
    by_contra hn
    have hc : glswCheck x1 x2 = some "Matrices x1 and x2 must have the same shape" := by
      unfold glswCheck
      rw [if_neg hn]
    rcases h with h | h
    · unfold glswFit glswInit at h; rw [hc] at h; cases h
    · unfold epoFit glswInit at h; rw [hc] at h; cases h
  rcases h with h | h
  · exact glswInit_refuses (fun C hC => glswCov_dims hs hC) (glswVecs_dims he) h
  · exact glswInit_refuses (fun C hC => glswCov_dims hs hC) (epoVecs_dims he) h

/-- **C147 (GLSW, EPO, Y-gradient: rows).**  The filters answer with a message. -/
theorem C147_glsw_rows (cfg : GlswCfg α) (x1 x2 : Mat α) (hr : x1.rows ≠ x2.rows) :
    (∃ s, glswFit cfg x1 x2 = .ok (.message s)) ∧ (∃ s, epoFit cfg x1 x2 = .ok (.message s)) ∧
    (∃ s, yGlswFit cfg x1 x2 = .ok (.message s)) ∧ ∃ s, yEpoFit cfg x1 x2 = .ok (.message s) := by
  have hc : glswCheck x1 x2 = some "Matrices x1 and x2 must have the same shape" := by
    unfold glswCheck
    rw [if_neg]
    simp [sameShapeAs, hr]
  have hy : yGradCheck x1 x2 = some "Predictors and response must have the same number of rows!" := if_pos hr
  refine ⟨⟨"Matrices x1 and x2 must have the same shape", ?_⟩, ⟨"Matrices x1 and x2 must have the same shape", ?_⟩,
    ⟨"Predictors and response must have the same number of rows!", ?_⟩, ⟨"Predictors and response must have the same number of rows!", ?_⟩⟩
  · unfold glswFit glswInit; rw [hc]
  · unfold epoFit glswInit; rw [hc]
  · unfold yGlswFit glswInit; rw [hy]
  · unfold yEpoFit glswInit; rw [hy]

omit [DecidableEq α] [HasSqrt α] in
theorem ygFilter_dims {X R : Mat α} (h : ygFilter X = .ok R) : R.cols = X.cols := by
  unfold ygFilter at h
  obtain ⟨E, h1, h⟩ := bindOk h
  obtain ⟨Z, h2, h⟩ := bindOk h
  obtain ⟨S, h3, h⟩ := bindOk h
  have hE : E.cols = X.cols ∧ 0 < E.rows := by
    unfold ygExtend at h1
    obtain ⟨f, hf, h1⟩ := bindOk h1
    obtain ⟨l, -, h1⟩ := bindOk h1
    obtain ⟨a, ha, h1⟩ := bindOk h1
    obtain ⟨b, hb, h1⟩ := bindOk h1
    obtain ⟨c, hc, h1⟩ := bindOk h1
    have e1 := concatRows_dims h1
    have e2 := concatRows_dims hc
    have e3 := concatRows_dims hb
    have e4 := concatRows_dims ha
    have e5 := getRow_dims hf
    omega
  have hS : S.cols = E.cols := by
    have hz := zeros_dims hE.2 (Int.natCast_nonneg E.cols) h2
    rw [Int.toNat_natCast] at hz
    have key : ∀ (l : List Int) (A S : Mat α), loopM (fun i (r : Mat α) => do
        let row ← ygSmoothRow i E
        r.setRow i row) l A = .ok S → S.cols = A.cols := by
      intro l
      induction l with
      | nil => intro A S h; cases h; rfl
      | cons i l ih =>
        intro A S h
        rw [loopM] at h
        obtain ⟨B, hB, h⟩ := bindOk h
        obtain ⟨row, -, hB⟩ := bindOk hB
        exact (ih _ _ h).trans (Heap.setRow_shape hB).2
    exact (key _ _ _ h3).trans hz.2
  have := (getSub_dims h).2
  rw [this]
  show (pyRange 0 (S.cols : Int)).length = _
  rw [range_len, hS, hE.1]

omit [DecidableEq α] in
theorem yGradCov_dims {le : α → α → Bool} {pow2 : α → α} {X y C : Mat α} (h : yGradCov le pow2 X y = .ok C) : C.rows = X.cols := by
  unfold yGradCov at h
  obtain ⟨Xs, h1, h⟩ := bindOk h
  obtain ⟨ys, -, h⟩ := bindOk h
  obtain ⟨Xm, h2, h⟩ := bindOk h
  obtain ⟨ym, -, h⟩ := bindOk h
  obtain ⟨W0, -, h⟩ := bindOk h
  obtain ⟨W, -, h⟩ := bindOk h
  obtain ⟨WW, -, h⟩ := bindOk h
  obtain ⟨A, h3, h⟩ := bindOk h
  rw [(mul_dims h).1, (mul_dims h3).1]
  show Xm.cols = _
  rw [ygFilter_dims (X := Xs) h2, (getSub_dims h1).2]
  exact range_len _

/-- **C147 (Y-gradient GLSW and EPO: columns).** -/
theorem C147_ygradient_columns (cfg : GlswCfg α) (he : EigRows cfg.eig) (x y G : Mat α)
    (h : yGlswFit cfg x y = .ok (.ready G) ∨ yEpoFit cfg x y = .ok (.ready G)) : Refuses (glswTransform (some G)) x.cols := by
  rcases h with h | h
  · exact glswInit_refuses (fun C hC => yGradCov_dims hC) (glswVecs_dims he) h
  · exact glswInit_refuses (fun C hC => yGradCov_dims hC) (epoVecs_dims he) h

end glsw

/-! ## PCA -/

/-- **C147 (PCA: columns).**  A kept column that is missing is noticed, unless the number of columns is the number of kept ones.  Missing:
everything else, `C147_pca_violation`. -/
theorem C147_pca_columns_partial [Field α] [LinearOrder α] [HasSqrt α] (cfg : PcaCfg α) (st : PcaState α) (Z : Mat α) (k : Nat)
    (hk : k ∈ st.keep) (hZ : Z.cols ≤ k) (hl : st.keep.length ≠ Z.cols) : Fails (pcaScores cfg st Z) := by
  unfold pcaScores removeColumns
  rw [if_pos hl]
  refine Fails.left ?_ _
  unfold getSubMatrix
  refine Fails.bind fun rs _ => Fails.left ⟨_, resolve_error (i := (k : Int)) ?_ ?_⟩ _
  · exact List.mem_map.2 ⟨k, hk, rfl⟩
  · exact pyIndex_error_iff.2 (.inr (by exact_mod_cast hZ))

/-- **C147 is violated by PCA.**  Every trained PCA accepts wider data and ignores the further columns. -/
theorem C147_pca_violation {n q : Nat} (cfg : PcaCfg ℝ) (hcfg : PcaReal cfg) (X : Matrix (Fin n) (Fin q) ℝ) (hX : ∃ j, NonConst X j) :
    ∃ st S L, pcaTransform cfg (of X) = .ok (st, S, L) ∧ ∀ (r e : Nat) (Z : Matrix (Fin r) (Fin (q + e)) ℝ), 0 < r →
      ∃ R, pcaScores cfg st (of Z) = .ok R ∧ pcaScores cfg st (of (Z.submatrix id (Fin.castAdd e))) = .ok R := by
  obtain ⟨p, κ, hκ⟩ := enum_exists X hX
  obtain ⟨ev, V, comp, K, hK, st, S, L, h1, -, -, -, -, -, h7⟩ := pca_general cfg hcfg X κ hκ
  refine ⟨st, of S, of L, h1, fun r e Z hr => ?_⟩
  have hkeep : st.keep = List.ofFn fun t => (κ t).1 := by
    obtain ⟨st', h2, h1⟩ := bindOk h1
    obtain ⟨S', -, h1⟩ := bindOk h1
    obtain ⟨L', -, h1⟩ := bindOk h1
    cases h1
    unfold pcaConfigure at h2
    dsimp only at h2
    obtain ⟨T, -, h2⟩ := bindOk h2
    obtain ⟨a, -, h2⟩ := bindOk h2
    obtain ⟨C, -, h2⟩ := bindOk h2
    obtain ⟨b, -, h2⟩ := bindOk h2
    cases h2
    exact pcaKeep_of hcfg.eq X κ hκ
  obtain ⟨S', hS, -⟩ := h7 r (Z.submatrix id (Fin.castAdd e)) hr
  refine ⟨of S', ?_, hS⟩
  rw [← hS]
  unfold pcaScores
  have w1 : removeColumns st.keep (of Z) = .ok (of (Z.submatrix id fun t => Fin.castAdd e (κ t))) := by
    rw [hkeep]
    exact removeColumns_of Z (fun t => Fin.castAdd e (κ t)) fun a b hab => hκ.mono hab
  have w2 : removeColumns st.keep (of (Z.submatrix id (Fin.castAdd e))) = .ok (of (Z.submatrix id fun t => Fin.castAdd e (κ t))) := by
    rw [hkeep, removeColumns_of _ κ hκ.mono]
    rfl
  rw [w1, w2]

/-! ## DIPLS -/

/-- **C147 is violated by supervised DIPLS.**  Only the totals are compared: with three source and three target samples, two source and
four target responses are accepted, and the model is the one of three and three. -/
theorem C147_dipls_violation (lam : ℝ) : ∃ m,
    diplsSupervised (exactCfg 2 lam) diplsFresh (of dxA) (of dxA) (of (!![1; 0] : Matrix (Fin 2) (Fin 1) ℝ))
      (of (!![-1; 1; 0; -1] : Matrix (Fin 4) (Fin 1) ℝ)) = .ok (.trained m) ∧
    diplsSupervised (exactCfg 2 lam) diplsFresh (of dxA) (of dxA) (of dxY) (of dxY) = .ok (.trained m) := by
  have h := C59_supervised (exactCfg_inv 2 lam) diplsFresh ⟨rfl, rfl, rfl⟩ (by decide) (by decide) 2 (by decide) rfl _ _ _ _ (dx_reg lam)
  refine ⟨_, ?_, h⟩
  rw [← h]
  have e : (of (!![1; 0] : Matrix (Fin 2) (Fin 1) ℝ)).concatAlongRows (of (!![-1; 1; 0; -1] : Matrix (Fin 4) (Fin 1) ℝ)) =
      (of dxY).concatAlongRows (of dxY) := by
    rw [concatRows_stack, concatRows_stack, ok_inj]
    refine mk_congr fun i j => ?_
    fin_cases i <;> fin_cases j <;> rfl
  unfold diplsSupervised
  rw [e]

/-! ## NIPALS -/

theorem loop_stop {c : NipalsCfg ℝ} {s : NipalsVars ℝ} (hs : s.stop = true) (l : List Int) : loopM (nipalsStep c) l s = .ok s := by
  induction l with
  | nil => rfl
  | cons k l ih =>
    rw [loopM]
    have : nipalsStep c k s = .ok s := by unfold nipalsStep; rw [if_pos hs]
    rw [this]
    exact ih

/-- **C147 is violated by NIPALS.**  Predictors of `n` samples and a constant response of `m` samples, for any `n` and `m`: the loop stops
before it looks at the predictors, and the model is accepted. -/
theorem C147_nipals_violation {n m p K : Nat} (c : NipalsCfg ℝ) (hc : NipalsReal c) (hK : c.K = ((K + 1 : Nat) : Int))
    (hpinv : c.pinv (of (0 : Matrix (Fin (K + 1)) (Fin (K + 1)) ℝ)) = .ok (of (0 : Matrix (Fin (K + 1)) (Fin (K + 1)) ℝ)))
    (hn : 0 < n) (hm : 0 < m) (X : Matrix (Fin n) (Fin (p + 1)) ℝ) (v : ℝ) :
    ∃ M, nipalsTrain c (of X) (of (Matrix.of fun (_ : Fin m) (_ : Fin 1) => v)) = .ok M := by
  set Y : Matrix (Fin m) (Fin (0 + 1)) ℝ := Matrix.of fun _ _ => v with hY
  have hmu : (mu fun k => Y k 0) = v := by
    have : (m : ℝ) ≠ 0 := by positivity
    simp [mu, hY, this]
  have hstd : std Y Y = 0 := by
    ext i j
    have : j = 0 := Subsingleton.elim (α := Fin 1) _ _
    subst this
    show (v - mu fun k => Y k 0) / _ = 0
    rw [hmu, sub_self, zero_div]
  unfold nipalsTrain
  dsimp only
  rw [std_fit c.isZero hc.zero X, std_fit c.isZero hc.zero Y, hstd]
  dsimp only
  rw [except_bind_ok, except_bind_ok]
  have hz : ∀ a b : Nat, 0 < a → Factory.zeros (α := ℝ) (a : Int) (b : Int) = .ok (of (0 : Matrix (Fin a) (Fin b) ℝ)) :=
    fun a b ha => zeros_nat ha b
  have hz1 : Factory.zeros (α := ℝ) (((0 + 1 : Nat)) : Int) 1 = .ok (of (0 : Matrix (Fin (0 + 1)) (Fin 1) ℝ)) := hz (0 + 1) 1 (by omega)
  have hinit : nipalsInit c (of (std X X)) (of (0 : Matrix (Fin m) (Fin (0 + 1)) ℝ)) = .ok ⟨of (std X X), of (0 : Matrix (Fin m) (Fin (0 + 1)) ℝ),
      of (0 : Matrix (Fin n) (Fin (K + 1)) ℝ), of (0 : Matrix (Fin n) (Fin (K + 1)) ℝ), of (0 : Matrix (Fin (p + 1)) (Fin (K + 1)) ℝ),
      of (0 : Matrix (Fin (0 + 1)) (Fin (K + 1)) ℝ), of (0 : Matrix (Fin (p + 1)) (Fin (K + 1)) ℝ),
      of (0 : Matrix (Fin (0 + 1)) (Fin (K + 1)) ℝ), of (0 : Matrix (Fin (0 + 1)) (Fin 1) ℝ), false⟩ := by
    unfold nipalsInit
    simp only [hK, hz n _ hn, hz (p + 1) _ (Nat.succ_pos p), hz (0 + 1) _ (Nat.succ_pos 0), hz1, except_bind_ok]
  rw [hinit, except_bind_ok, hK, pyRange_zero, List.range_succ_eq_map, List.map_cons, loopM]
  have hstep : ∀ s : NipalsVars ℝ, s.stop = false → s.Y = of (0 : Matrix (Fin m) (Fin (0 + 1)) ℝ) →
      nipalsStep c ((0 : Nat) : Int) s = .ok { s with stop := true } := by
    intro s h0 hs
    unfold nipalsStep
    rw [h0, if_neg Bool.false_ne_true, hs, transpose_of, mul_of, except_bind_ok, if_pos]
    rw [Matrix.mul_zero]
    have : c.lt 0 e10 = true := by
      rw [hc.lt]
      refine decide_eq_true ?_
      unfold e10
      positivity
    simp only [Mat.all, Mat.any, Bool.not_eq_true', List.any_eq_false]
    intro q _ hq
    have h0 : c.lt ((0 : Matrix _ _ ℝ) q.1 q.2) e10 = true := this
    rw [h0] at hq
    cases hq
  rw [hstep _ rfl rfl, except_bind_ok, loop_stop rfl, except_bind_ok]
  unfold nipalsRot nipalsYRot
  dsimp only
  rw [transpose_of, mul_of, except_bind_ok, Matrix.mul_zero, hpinv, except_bind_ok, mul_of, except_bind_ok, if_neg (by show ¬ (0 + 1 > 1); omega),
    except_bind_ok, transpose_of, mul_of, except_bind_ok]
  have hd : (of (0 : Matrix (Fin (p + 1)) (Fin (0 + 1)) ℝ)).scaleByRowVector (of (Matrix.of fun (_ : Fin 1) j => divisor Y j)) =
      .ok (of ((Matrix.of fun (_ : Fin 1) j => divisor Y j) 0 0 • (0 : Matrix (Fin (p + 1)) (Fin (0 + 1)) ℝ))) := scale_row_one _ _
  simp only [stdState, Matrix.zero_mul, Matrix.mul_zero]
  rw [hd]
  exact ⟨_, rfl⟩

/-! ## PRM -/

section prm
variable [Field α] [LinearOrder α] [HasSqrt α]

omit [Field α] [LinearOrder α] [HasSqrt α] in
theorem fillLoop_dims {f : Int → Int → Except PyErr α} {l : List (Int × Int)} {A R : Mat α} (h : fillLoop f l A = .ok R) :
    R.rows = A.rows ∧ R.cols = A.cols := by
  induction l generalizing A with
  | nil => cases h; exact ⟨rfl, rfl⟩
  | cons q l ih =>
    obtain ⟨i, j⟩ := q
    rw [fillLoop] at h
    obtain ⟨v, -, h⟩ := bindOk h
    obtain ⟨B, h1, h⟩ := bindOk h
    have a := Heap.set_shape h1
    exact ⟨(ih h).1.trans a.1, (ih h).2.trans a.2⟩

omit [HasSqrt α] in
theorem residualWeights_dims {cfg : PrmCfg α} {n : Nat} (hn : 0 < n) {y : Mat α} {tg : Option (Mat α × Mat α)} {W : Mat α}
    (h : residualWeights cfg n y tg = .ok W) : W.rows = n := by
  unfold residualWeights at h
  obtain ⟨W0, h1, h⟩ := bindOk h
  obtain ⟨R, -, h⟩ := bindOk h
  exact (fillLoop_dims h).1.trans (zeros_dims hn (by omega) h1).1

omit [LinearOrder α] in
theorem reweight_fails {Wr Wx A : Mat α} (h : A.rows ≠ Wr.rows) : Fails (reweight Wr Wx A) := by
  unfold reweight
  refine Fails.bind fun w hw => ?_
  have e : w.rows = Wr.rows := by
    unfold Mat.mulElementwise Mat.zipWith at hw
    split at hw
    · cases hw; rfl
    · cases hw
  unfold scaleByColumnVector
  refine Fails.bind fun _ _ => ?_
  rw [if_neg (by show ¬ A.rows = w.rows; rw [e]; exact h)]
  exact ⟨_, rfl⟩

/-- Shapes of the outputs of `np.linalg.svd(A, full_matrices=False)`. -/
def SvdShape (svd : Mat α → Except PyErr (Mat α × Mat α × Mat α)) : Prop :=
  ∀ A r, svd A = .ok r → r.1.rows = A.rows ∧ r.2.2.rows = min A.rows A.cols

omit [LinearOrder α] [HasSqrt α] in
theorem prmReplace_dims {cfg : PrmCfg α} (hs : SvdShape cfg.svd) {X : Mat α} {r : Option (Mat α) × Mat α} (h : prmReplace cfg X = .ok r) :
    r.2.rows = X.rows ∧ ((r.1 = none ∧ r.2 = X) ∨ ∃ U, r.1 = some U ∧ U.rows = X.cols) := by
  unfold prmReplace at h
  split at h
  · rename_i hlt
    obtain ⟨d, h1, h⟩ := bindOk h
    obtain ⟨S, -, h⟩ := bindOk h
    obtain ⟨X', h2, h⟩ := bindOk h
    cases h
    have := hs _ _ h1
    refine ⟨?_, .inr ⟨_, rfl, this.1⟩⟩
    rw [(mul_dims h2).1]
    refine this.2.trans ?_
    show min X.cols X.rows = X.rows
    omega
  · cases h
    exact ⟨rfl, .inl ⟨rfl, rfl⟩⟩

/-- **C147 (PRM: rows).**  For wide data the shapes of the singular value decomposition are needed. -/
theorem C147_prm_rows (cfg : PrmCfg α) (hs : SvdShape cfg.svd) (X Y : Mat α) (hX : 0 < X.rows) (hXY : X.rows ≠ Y.rows) :
    Fails (prmTrain cfg X Y) := by
  unfold prmTrain
  refine Fails.bind fun r hr => Fails.bind fun Wr hW => Fails.bind fun Wx _ => Fails.left ?_ _
  have e := (prmReplace_dims hs hr).1
  have eW := residualWeights_dims (by rw [e]; exact hX) hW
  unfold prmLoop
  refine Fails.bind fun g _ => Fails.left ?_ _
  unfold prmPass
  refine Fails.bind fun Xp _ => Fails.left (reweight_fails ?_) _
  show Y.rows ≠ Wr.rows
  rw [eW, e]
  exact hXY.symm

/-- Weights and coefficients of the inner model have one row for every column of its predictors. -/
def BaseShape (base : Mat α → Mat α → Except PyErr (PrmBase α)) : Prop :=
  ∀ X y b, 0 < X.cols → base X y = .ok b → b.B.rows = X.cols ∧ b.W.rows = X.cols

theorem prmPass_dims {cfg : PrmCfg α} (hb : BaseShape cfg.base) {X y : Mat α} {s s' : PrmState α} (h : prmPass cfg X y s = .ok s') :
    ∃ b, s'.base = some b ∧ (0 < X.cols → b.B.rows = X.cols ∧ b.W.rows = X.cols) := by
  unfold prmPass at h
  obtain ⟨Xp, h1, h⟩ := bindOk h
  obtain ⟨yp, -, h⟩ := bindOk h
  obtain ⟨b, h2, h⟩ := bindOk h
  obtain ⟨T, -, h⟩ := bindOk h
  obtain ⟨Wr, -, h⟩ := bindOk h
  obtain ⟨Wx, -, h⟩ := bindOk h
  cases h
  have e : Xp.cols = X.cols := by
    unfold reweight scaleByColumnVector at h1
    obtain ⟨w, -, h1⟩ := bindOk h1
    obtain ⟨_, -, h1⟩ := bindOk h1
    split at h1
    · exact (Heap.vectorOp_shape h1).2
    · cases h1
  exact ⟨b, rfl, fun h0 => e ▸ hb _ _ _ (by omega) h2⟩

theorem prmMore_dims {cfg : PrmCfg α} (hb : BaseShape cfg.base) {X y : Mat α} {iter : Int} {old : Mat α} {s : PrmState α}
    {r : PrmState α × Int} (hs : ∃ b, s.base = some b ∧ (0 < X.cols → b.B.rows = X.cols ∧ b.W.rows = X.cols)) (h : prmMore cfg X y iter old s = .ok r) :
    ∃ b, r.1.base = some b ∧ (0 < X.cols → b.B.rows = X.cols ∧ b.W.rows = X.cols) := by
  induction hn : (cfg.maxIter - iter).toNat generalizing iter old s with
  | zero =>
    rw [prmMore] at h
    obtain ⟨d, -, h⟩ := bindOk h
    rw [dif_neg (by omega)] at h
    cases h
    exact hs
  | succ k ih =>
    rw [prmMore] at h
    obtain ⟨d, -, h⟩ := bindOk h
    split at h
    · obtain ⟨s', h1, h⟩ := bindOk h
      exact ih (prmPass_dims hb h1) h (by omega)
    · cases h
      exact hs

/-- **C147 (PRM: columns).**  For predictions, and for `transform` when there are at least as many samples as columns (with fewer samples
`transform` refuses the training data as well). -/
theorem C147_prm_columns (cfg : PrmCfg α) (hs : SvdShape cfg.svd) (hb : BaseShape cfg.base) (X Y : Mat α) (hX : 0 < X.cols)
    (m : PrmModel α) (h : prmTrain cfg X Y = .ok m) : Refuses (prmPredict m) X.cols ∧ (X.cols ≤ X.rows → Refuses (prmTransform m) X.cols) := by
  unfold prmTrain at h
  obtain ⟨r, hr, h⟩ := bindOk h
  obtain ⟨Wr, -, h⟩ := bindOk h
  obtain ⟨Wx, -, h⟩ := bindOk h
  obtain ⟨s, h1, h⟩ := bindOk h
  obtain ⟨B, h2, h⟩ := bindOk h
  cases h
  have hbase : ∃ b, s.1.base = some b ∧ (0 < r.2.cols → b.B.rows = r.2.cols ∧ b.W.rows = r.2.cols) := by
    unfold prmLoop at h1
    obtain ⟨g, -, h1⟩ := bindOk h1
    obtain ⟨s0, h3, h1⟩ := bindOk h1
    exact prmMore_dims hb (prmPass_dims hb h3) h1
  obtain ⟨b, e, hBW⟩ := hbase
  unfold prmCoefs at h2
  rw [e] at h2
  dsimp only at h2
  refine ⟨fun Z _ hZ => mul_fails ?_, fun hle Z _ hZ => ?_⟩
  · show Z.cols ≠ B.rows
    rcases (prmReplace_dims hs hr).2 with ⟨h0, hx⟩ | ⟨U, h0, hU⟩
    · rw [h0] at h2
      cases h2
      rw [(hBW (by rw [hx]; exact hX)).1, hx]
      exact hZ
    · rw [h0] at h2
      rw [(mul_dims h2).1, hU]
      exact hZ
  · unfold prmReplace at hr
    rw [if_neg (by omega)] at hr
    cases hr
    unfold prmTransform
    dsimp only
    rw [e]
    exact mul_fails (by rw [(hBW hX).2]; exact hZ)

end prm

end Verif.Props
