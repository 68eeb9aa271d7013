import Verif.Props.NipalsProps
import Verif.Props.SimplsProps
import Verif.Props.KernelPlsProps
import Verif.Props.DiplsProps
import Verif.Props.OplsProps
import Verif.Props.PcaProps
import Verif.Props.PLS1Props
import Verif.Core.UtilsLemmas

/-!
# C121: models with fewer components are part of models with more

Training with `k` components gives the first `k` columns of what training with `K ≥ k` components gives.
-/

namespace Verif.Props

open Verif Mat Transf
open scoped Matrix

variable {α : Type} {n p q k K : Nat}

/-- `B` consists of the first columns of `A`. -/
structure Leading (A B : Mat α) : Prop where
  rows : A.rows = B.rows
  cols : B.cols ≤ A.cols
  eq : ∀ i j, j < B.cols → A.entry? i j = B.entry? i j

/-- `B` consists of the first rows of `A`. -/
structure LeadingRows (A B : Mat α) : Prop where
  rows : B.rows ≤ A.rows
  cols : A.cols = B.cols
  eq : ∀ i j, i < B.rows → A.entry? i j = B.entry? i j

theorem leading_of {A : Matrix (Fin n) (Fin K) α} {B : Matrix (Fin n) (Fin k) α} (h : k ≤ K)
    (he : ∀ i j, A i (Fin.castLE h j) = B i j) : Leading (of A) (of B) := by
  refine ⟨rfl, h, fun i j hj => ?_⟩
  have hj' : j < k := hj
  by_cases hi : i < n
  · exact (entry?_of A ⟨i, hi⟩ ⟨j, by omega⟩).trans
      ((congrArg some (he ⟨i, hi⟩ ⟨j, hj'⟩)).trans (entry?_of B ⟨i, hi⟩ ⟨j, hj'⟩).symm)
  · unfold entry?
    rw [dif_neg (fun hc => hi hc.1), dif_neg (fun hc => hi hc.1)]

theorem leadingRows_of {A : Matrix (Fin K) (Fin n) α} {B : Matrix (Fin k) (Fin n) α} (h : k ≤ K)
    (he : ∀ i j, A (Fin.castLE h i) j = B i j) : LeadingRows (of A) (of B) := by
  refine ⟨h, rfl, fun i j hi => ?_⟩
  have hi' : i < k := hi
  by_cases hj : j < n
  · exact (entry?_of A ⟨i, by omega⟩ ⟨j, hj⟩).trans
      ((congrArg some (he ⟨i, hi'⟩ ⟨j, hj⟩)).trans (entry?_of B ⟨i, hi'⟩ ⟨j, hj⟩).symm)
  · unfold entry?
    rw [dif_neg (fun hc => hj hc.2), dif_neg (fun hc => hj hc.2)]

/-! ## PLS1, VCPLS -/

/-- **C121, PLS1 and VCPLS** (any weight function): weights, loadings, training scores and regression coefficients of the
scores are nested, and so are the scores of new samples. -/
theorem C121_pls1 {weights : Mat ℝ → Mat ℝ → Except PyErr (Mat ℝ)} {wf : Matrix (Fin n) (Fin p) ℝ → Matrix (Fin p) (Fin 1) ℝ}
    (hn : 0 < n) (hp : 0 < p) (hk : 0 < k) (hkK : k ≤ K) (X : Matrix (Fin n) (Fin p) ℝ) {y : Matrix (Fin n) (Fin 1) ℝ}
    (hw : Computes weights wf y) (h : Regular wf K X) :
    ∃ m m' T T', pls1Train weights (k : Int) (of X) (of y) = .ok (m, T) ∧ pls1Train weights (K : Int) (of X) (of y) = .ok (m', T') ∧
      Leading T' T ∧ Leading m'.W m.W ∧ Leading m'.P m.P ∧ LeadingRows m'.bHat m.bHat ∧
      ∀ {r : Nat} (Z : Matrix (Fin r) (Fin p) ℝ), 0 < r → ∃ S S', pls1Transform (k : Int) m (of Z) = .ok S ∧
        pls1Transform (K : Int) m' (of Z) = .ok S' ∧ Leading S' S := by
  refine ⟨_, _, _, _, pls1Train_eq wf _ k hn hp hk X y (fun _ _ => hw _) (fun j hj => (h.sq1_ne j (by omega))),
    pls1Train_eq wf _ K hn hp (by omega) X y (fun _ _ => hw _) (fun j hj => (h.sq1_ne j hj)),
    leading_of hkK fun _ _ => rfl, leading_of hkK fun _ _ => rfl, leading_of hkK fun _ _ => rfl,
    leadingRows_of hkK fun _ _ => rfl, fun Z hr => ⟨_, _, pls1Transform_eq wf hr k X _ _ Z, pls1Transform_eq wf hr K X _ _ Z,
      leading_of hkK fun _ _ => rfl⟩⟩

/-! ## SIMPLS -/

/-- **C121, SIMPLS** (without slimming): the weights `W` and the loadings of the response are nested, and so are the scores
of new samples. -/
theorem C121_simpls {eig : Mat ℝ → Mat ℝ × Mat ℝ} (he : EigOne eig) (hp : 0 < p) (hkK : k ≤ K) {count : Int}
    (hcount : count ≤ 0) (X : Matrix (Fin n) (Fin p) ℝ) (y : Matrix (Fin n) (Fin 1) ℝ) :
    ∃ m m', simplsTrain (domOf eig) k count (of X) (of y) = .ok m ∧ simplsTrain (domOf eig) K count (of X) (of y) = .ok m' ∧
      Leading m'.W m.W ∧ Leading m'.Q m.Q ∧
      ∀ {r : Nat} (Z : Matrix (Fin r) (Fin p) ℝ), ∃ S S', simplsTransform m (of Z) = .ok S ∧
        simplsTransform m' (of Z) = .ok S' ∧ Leading S' S := by
  obtain ⟨qf, hq, -⟩ := domOf_one he
  refine ⟨_, _, (simplsTrain_eq qf X y (domOf eig) k hp count hq).trans (if_neg (by omega)),
    (simplsTrain_eq qf X y (domOf eig) K hp count hq).trans (if_neg (by omega)), leading_of hkK fun _ _ => rfl,
    leading_of hkK fun _ _ => rfl, fun Z => ⟨_, _, mul_of _ _, mul_of _ _, leading_of hkK fun _ _ => rfl⟩⟩

/-! ## KernelPLS -/

/-- **C121, KernelPLS**: for any kernel and any data, scores and loadings of predictors and response are nested. -/
theorem C121_kernel {σ : Type} {c : KplsCfg ℝ σ} {v : Nat → Matrix (Fin n) (Fin 1) ℝ} (hc : KplsReal c n v)
    (htol : 0 < c.tol) (hmax : 1 ≤ c.maxIter) (hkK : k ≤ K) (hn : 0 < n) (hq : 0 < q) (kern : σ)
    (X : Matrix (Fin n) (Fin p) ℝ) (Y : Matrix (Fin n) (Fin q) ℝ)
    (G : Matrix (Fin n) (Fin n) ℝ) (hG : (c.kern1 kern (of (cen X X))).2 = .ok (of G)) (m m' : KplsModel ℝ σ)
    (h : kplsTrain { c with K := (k : Int) } kern (of X) (of Y) = .ok m)
    (h' : kplsTrain { c with K := (K : Int) } kern (of X) (of Y) = .ok m') :
    Leading m'.vars.T m.vars.T ∧ Leading m'.vars.U m.vars.U ∧ Leading m'.vars.P m.vars.P ∧ Leading m'.vars.Q m.vars.Q := by
  obtain ⟨f, hf⟩ : ∃ f : Nat, c.maxIter = f + 1 := ⟨(c.maxIter - 1).toNat, by omega⟩
  obtain ⟨e, -⟩ := trained (c := { c with K := (k : Int) }) (v := v) ⟨hc.lt, hc.start⟩ htol hf rfl hn hq kern hG h
  obtain ⟨e', -⟩ := trained (c := { c with K := (K : Int) }) (v := v) ⟨hc.lt, hc.start⟩ htol hf rfl hn hq kern hG h'
  rw [e, e']
  simp only [kVars_T, kVars_U, kVars_P, kVars_Q]
  exact ⟨leading_of hkK fun _ _ => rfl, leading_of hkK fun _ _ => rfl, leading_of hkK fun _ _ => rfl,
    leading_of hkK fun _ _ => rfl⟩

/-! ## OPLS -/

/-- **C121, OPLS**: weights, loadings and scores of the removed components are nested, for any data and base model. -/
theorem C121_opls {M : Type} (base : BasePls ℝ M) (hb : Accepts base) (hkK : k ≤ K) (hn : 0 < n) (hp : 0 < p)
    (X : Matrix (Fin n) (Fin p) ℝ) (y : Matrix (Fin n) (Fin 1) ℝ) :
    ∃ m m', oplsTrain base k (of X) (of y) = .ok (m, none) ∧ oplsTrain base K (of X) (of y) = .ok (m', none) ∧
      Leading m'.W m.W ∧ Leading m'.P m.P ∧ Leading m'.T m.T := by
  obtain ⟨e, he⟩ := hb (of (X - X * oWM (opW X y) X k * (oPM (opW X y) X k)ᵀ)) (of y)
  obtain ⟨e', he'⟩ := hb (of (X - X * oWM (opW X y) X K * (oPM (opW X y) X K)ᵀ)) (of y)
  have t := oplsTrain_eq X y base k hn hp
  have t' := oplsTrain_eq X y base K hn hp
  rw [he, except_bind_ok] at t
  rw [he', except_bind_ok] at t'
  exact ⟨_, _, t, t', leading_of hkK fun _ _ => rfl, leading_of hkK fun _ _ => rfl, leading_of hkK fun _ _ => rfl⟩

/-! ## DIPLS -/

/-- An attribute that training collects column by column. -/
def LeadingO (A B : Option (Mat ℝ)) : Prop := ∃ a b, A = some a ∧ B = some b ∧ Leading a b

theorem acc_leading {m : Nat} (f : Nat → Matrix (Fin m) (Fin 1) ℝ) (hk : 0 < k) (hkK : k ≤ K) : LeadingO (acc f K) (acc f k) := by
  obtain ⟨k, rfl⟩ : ∃ k', k = k' + 1 := ⟨k - 1, by omega⟩
  obtain ⟨K, rfl⟩ : ∃ K', K = K' + 1 := ⟨K - 1, by omega⟩
  exact ⟨_, _, rfl, rfl, leading_of hkK fun _ _ => rfl⟩

/-- The attributes of `DIPLS`. -/
structure DiplsNested (m' m : DiplsModel ℝ) : Prop where
  c : LeadingO m'.vars.c m.vars.c
  T : LeadingO m'.vars.T m.vars.T
  Ts : LeadingO m'.vars.Ts m.vars.Ts
  Tt : LeadingO m'.vars.Tt m.vars.Tt
  P : LeadingO m'.vars.P m.vars.P
  Ps : LeadingO m'.vars.Ps m.vars.Ps
  Pt : LeadingO m'.vars.Pt m.vars.Pt
  W : LeadingO m'.vars.W m.vars.W
  /-- The intercept does not depend on the number of components. -/
  b0 : m'.b0 = m.b0

theorem dipls_nested {n' s' t' : Nat} (cfg cfg' : DiplsCfg ℝ) (hl : cfg'.lambda = cfg.lambda) (st : Strategy) (ns nt : Nat)
    (cx cs ct : CenterState ℝ) (b0 : ℝ) (S : DState n' s' t' p) (hk : 0 < k) (hkK : k ≤ K) :
    DiplsNested (trainedOf cfg' st ns nt cx cs ct b0 K S) (trainedOf cfg st ns nt cx cs ct b0 k S) := by
  unfold trainedOf dVars
  rw [hl]
  constructor <;> dsimp only <;> exact acc_leading _ hk hkK

/-- **C121, DIPLS**: unsupervised and supervised training. -/
theorem C121_dipls {s t : Nat} {cfg : DiplsCfg ℝ} (hinv : IsInv cfg.inv) (o : DiplsObj ℝ) (ho : Initialised o)
    (hs : 2 ≤ s) (ht : 2 ≤ t) (hk : 0 < k) (hkK : k ≤ K)
    (Xs : Matrix (Fin s) (Fin p) ℝ) (Xt : Matrix (Fin t) (Fin p) ℝ) (ys : Matrix (Fin s) (Fin 1) ℝ)
    (yt : Matrix (Fin t) (Fin 1) ℝ) :
    ((∀ j < K, DReg cfg.lambda s t (dSt cfg.lambda s t (supState Xs Xt ys yt) j)) → ∃ m m',
      diplsSupervised { cfg with K := (k : Int) } o (of Xs) (of Xt) (of ys) (of yt) = .ok (.trained m) ∧
      diplsSupervised { cfg with K := (K : Int) } o (of Xs) (of Xt) (of ys) (of yt) = .ok (.trained m') ∧ DiplsNested m' m) ∧
    ((∀ j < K, DReg cfg.lambda s t (dSt cfg.lambda s t (unsupState Xs Xt ys) j)) → ∃ m m',
      diplsUnsupervised { cfg with K := (k : Int) } o (of Xs) (of Xt) (of ys) = .ok (.trained m) ∧
      diplsUnsupervised { cfg with K := (K : Int) } o (of Xs) (of Xt) (of ys) = .ok (.trained m') ∧ DiplsNested m' m) := by
  constructor
  · intro h
    refine ⟨_, _, C59_supervised (cfg := { cfg with K := (k : Int) }) hinv o ho hs ht k hk rfl Xs Xt ys yt
      (fun j hj => h j (by omega)), C59_supervised (cfg := { cfg with K := (K : Int) }) hinv o ho hs ht K (by omega) rfl Xs Xt ys yt h, ?_⟩
    exact dipls_nested _ _ rfl _ _ _ _ _ _ _ _ hk hkK
  · intro h
    refine ⟨_, _, C59_unsupervised (cfg := { cfg with K := (k : Int) }) hinv o ho hs ht k hk rfl Xs Xt ys
      (fun j hj => h j (by omega)), C59_unsupervised (cfg := { cfg with K := (K : Int) }) hinv o ho hs ht K (by omega) rfl Xs Xt ys h, ?_⟩
    exact dipls_nested _ _ rfl _ _ _ _ _ _ _ _ hk hkK

/-! ## PCA -/

theorem kStop_mono {stop stop' : Nat → Bool} (h : ∀ k, stop' k = true → stop k = true) :
    ∀ (r r' c : Nat), r ≤ r' → kStop stop r c ≤ kStop stop' r' c := by
  intro r
  induction r with
  | zero => exact fun r' c _ => (kStop_spec stop' r' c).1
  | succ r ih =>
    intro r' c hr
    obtain ⟨r', rfl⟩ : ∃ r'', r' = r'' + 1 := ⟨r' - 1, by omega⟩
    rw [kStop, kStop]
    by_cases h1 : stop (c + 1) = true
    · rw [if_pos h1]
      split
      · exact le_refl _
      · exact (kStop_spec stop' r' (c + 1)).1
    · rw [if_neg h1, if_neg (fun h2 => h1 (h _ h2))]
      exact ih r' (c + 1) (by omega)

/-- **C121, PCA**: asking for at least as much variance, with at least as high a limit on the number of columns, keeps at
least as many components; the scores of the data and of new data, and the loadings of the components kept by both, agree. -/
theorem C121_pca (cfg : PcaCfg ℝ) (hcfg : PcaReal cfg) {v' : ℝ} {mc' : Int} (hv : cfg.variance ≤ v')
    (hm : mc' ≤ 0 ∨ 0 < cfg.maxColumns ∧ cfg.maxColumns ≤ mc') (X : Matrix (Fin n) (Fin q) ℝ) (hX : ∃ j, NonConst X j) :
    ∃ st st' S S' L L', pcaTransform cfg (of X) = .ok (st, S, L) ∧
      pcaTransform { cfg with variance := v', maxColumns := mc' } (of X) = .ok (st', S', L') ∧ Leading S' S ∧
      (L'.rows = L.rows ∧ L.cols = S.cols + 1 ∧ L'.cols = S'.cols + 1 ∧ ∀ i j, j < S.cols → L'.entry? i j = L.entry? i j) ∧
      ∀ {r : Nat} (Z : Matrix (Fin r) (Fin q) ℝ), 0 < r → ∃ R R', pcaScores cfg st (of Z) = .ok R ∧
        pcaScores { cfg with variance := v', maxColumns := mc' } st' (of Z) = .ok R' ∧ Leading R' R := by
  obtain ⟨p, κ, hκ⟩ := enum_exists X hX
  have hn : 2 ≤ n := two_le_of_nonConst ((hκ.mem (κ 0)).1 ⟨0, rfl⟩)
  have hT : prepM cfg (X.submatrix id κ) = prepared cfg.centered X κ X := prepB_eq cfg X κ hκ X
  have hC : covM (prepM cfg (X.submatrix id κ)) = cov (prepared cfg.centered X κ X) := by rw [hT, covM_eq _ (by omega)]
  obtain ⟨ev, V, he, -⟩ := hcfg.eig (cov (prepared cfg.centered X κ X)) (cov_symm _)
  obtain ⟨ord, -, -, ho⟩ := hcfg.argsort fun i => max 0 (ev i)
  obtain ⟨st, h1, h2⟩ := pcaTransform_of cfg hcfg.isZero hcfg.eq hcfg.le X (by omega) κ hκ ev V (by rw [hC]; exact he) ord ho
  obtain ⟨st', h1', h2'⟩ := pcaTransform_of { cfg with variance := v', maxColumns := mc' } hcfg.isZero hcfg.eq hcfg.le X (by omega)
    κ hκ ev V ((congrArg (fun A => cfg.eig (of A)) hC).trans he) ord ho
  have hle : numKept cfg (fun i => max 0 (ev i)) ord ≤
      numKept { cfg with variance := v', maxColumns := mc' } (fun i => max 0 (ev i)) ord := by
    refine kStop_mono (fun k hk => ?_) _ _ _ ?_
    · rw [reached, decide_eq_true_eq] at hk ⊢
      exact hv.trans hk
    · unfold pcaBound
      simp only []
      split <;> split <;> omega
  refine ⟨st, st', _, _, _, _, h1, h1', leading_of hle fun _ _ => rfl, ⟨rfl, rfl, rfl, fun i j hj => ?_⟩,
    fun Z hr => ⟨_, _, h2 _ Z hr, h2' _ Z hr, leading_of hle fun _ _ => rfl⟩⟩
  have hj' : j < numKept cfg (fun i => max 0 (ev i)) ord := hj
  by_cases hi : i < p + 1
  · refine (entry?_of _ ⟨i, hi⟩ ⟨j, by omega⟩).trans (Eq.trans ?_ (entry?_of _ ⟨i, hi⟩ ⟨j, by omega⟩).symm)
    refine congrArg some ?_
    simp only [loadM, Matrix.of_apply]
    rw [dif_pos hj', dif_pos (lt_of_lt_of_le hj' hle)]
  · unfold entry?
    rw [dif_neg (fun hc => hi hc.1), dif_neg (fun hc => hi hc.1)]

/-! ## NIPALS, CCARegression -/

section nipals

theorem pyIndex_nat {m j : Nat} (h : j < m) : pyIndex m (j : Int) = .ok ⟨j, h⟩ := by
  unfold pyIndex
  rw [dif_pos ⟨by omega, by omega⟩]
  rfl

/-- What `set_column` does for a column number that is not negative. -/
theorem setColumn_ok {A A' v : Mat α} {j : Nat} (h : A.setColumn (j : Int) v = .ok A') :
    ∃ (g : Nat → Option α) (len : Nat) (hj : j < A.cols), A' = ⟨A.rows, A.cols, Matrix.of fun a b =>
      if b = ⟨j, hj⟩ ∧ a.1 < min len A.rows then (g a.1).getD (A.data a b) else A.data a b⟩ ∧
      g = (fun i => (if v.isRowVector then v.transpose else v).entry? i 0) ∧
      len = (if v.isRowVector then v.transpose else v).rows := by
  unfold Mat.setColumn at h
  rw [Utils.bind_ok_iff] at h
  obtain ⟨_, -, h⟩ := h
  rw [Utils.bind_ok_iff] at h
  obtain ⟨jj, hjj, h⟩ := h
  have hjv : jj.1 = j := by
    unfold pyIndex at hjj
    split at hjj
    · cases hjj
      simp
    · rw [dif_neg (by omega)] at hjj
      cases hjj
  have hj : j < A.cols := by rw [← hjv]; exact jj.2
  obtain rfl : jj = ⟨j, hj⟩ := Fin.ext hjv
  cases h
  exact ⟨_, _, hj, rfl, rfl, rfl⟩

/-- `set_column` on both. -/
theorem Leading.setBoth {A B A' B' v : Mat α} (h : Leading A B) {j : Nat}
    (hA : A.setColumn (j : Int) v = .ok A') (hB : B.setColumn (j : Int) v = .ok B') : Leading A' B' ∧ B'.cols = B.cols := by
  obtain ⟨g, len, hj, rfl, rfl, rfl⟩ := setColumn_ok hA
  obtain ⟨g', len', hj', rfl, rfl, rfl⟩ := setColumn_ok hB
  obtain ⟨ar, ac, a⟩ := A
  obtain ⟨br, bc, b⟩ := B
  obtain ⟨hr, hc, he⟩ := h
  cases hr
  refine ⟨⟨rfl, hc, fun i l hl => ?_⟩, rfl⟩
  have hc' : bc ≤ ac := hc
  have hl' : l < bc := hl
  by_cases hi : i < ar
  · have e := he i l hl
    unfold entry? at e ⊢
    rw [dif_pos ⟨hi, (by omega : l < ac)⟩, dif_pos ⟨hi, hl'⟩] at e ⊢
    have e' := Option.some.inj e
    simp only [Matrix.of_apply, Fin.mk.injEq, Option.some.injEq]
    rw [show a ⟨i, hi⟩ ⟨l, _⟩ = b ⟨i, hi⟩ ⟨l, hl'⟩ from e']
  · unfold entry?
    rw [dif_neg (fun hc => hi hc.1), dif_neg (fun hc => hi hc.1)]

/-- `set_column` at a column only the wider matrix has. -/
theorem Leading.setWide {A B A' v : Mat α} (h : Leading A B) {j : Nat} (hj : B.cols ≤ j)
    (hA : A.setColumn (j : Int) v = .ok A') : Leading A' B := by
  obtain ⟨g, len, hj2, rfl, -, -⟩ := setColumn_ok hA
  obtain ⟨ar, ac, a⟩ := A
  obtain ⟨br, bc, b⟩ := B
  obtain ⟨hr, hc, he⟩ := h
  cases hr
  refine ⟨rfl, hc, fun i l hl => ?_⟩
  have hl' : l < bc := hl
  have hj' : bc ≤ j := hj
  rw [← he i l hl]
  unfold entry?
  split
  · refine congrArg some ?_
    simp only [Matrix.of_apply]
    rw [if_neg]
    rintro ⟨h2, -⟩
    have : l = j := congrArg Fin.val h2
    omega
  · rfl

theorem zeros_leading [Zero α] {r : Int} {A B : Mat α} (h : k ≤ K) (hA : Factory.zeros r (K : Int) = .ok A)
    (hB : Factory.zeros r (k : Int) = .ok B) : Leading A B ∧ B.cols ≤ k := by
  by_cases hr : 0 < r
  · obtain ⟨m, rfl⟩ : ∃ m : Nat, r = m := ⟨r.toNat, by omega⟩
    rw [Factory.zeros_nat (by omega)] at hA hB
    cases hA
    cases hB
    exact ⟨leading_of h fun _ _ => rfl, le_refl _⟩
  · have e : ∀ c : Int, Factory.zeros (α := α) r c = .ok ⟨1, 0, Matrix.of fun _ j => j.elim0⟩ := by
      intro c
      unfold Factory.zeros pyRange
      rw [show (r - 0).toNat = 0 by omega]
      rfl
    rw [e] at hA hB
    cases hA
    cases hB
    exact ⟨⟨rfl, le_refl _, fun _ _ _ => rfl⟩, Nat.zero_le _⟩

/-- The states of two training loops with more and with `k` components. -/
structure NipNested (k : Nat) (s s' : NipalsVars α) : Prop where
  T : Leading s.T s'.T ∧ s'.T.cols ≤ k
  U : Leading s.U s'.U ∧ s'.U.cols ≤ k
  W : Leading s.W s'.W ∧ s'.W.cols ≤ k
  C : Leading s.C s'.C ∧ s'.C.cols ≤ k
  P : Leading s.P s'.P ∧ s'.P.cols ≤ k
  Q : Leading s.Q s'.Q ∧ s'.Q.cols ≤ k

/-- The variables both loops share. -/
def NipSame (s s' : NipalsVars α) : Prop := s.X = s'.X ∧ s.Y = s'.Y ∧ s.yk = s'.yk ∧ s.stop = s'.stop

theorem setBoth_le {A B A' B' v : Mat α} (h : Leading A B ∧ B.cols ≤ k) {j : Nat}
    (hA : A.setColumn (j : Int) v = .ok A') (hB : B.setColumn (j : Int) v = .ok B') : Leading A' B' ∧ B'.cols ≤ k := by
  obtain ⟨h1, h2⟩ := h.1.setBoth hA hB
  exact ⟨h1, h2 ▸ h.2⟩

theorem setWide_le {A B A' v : Mat α} (h : Leading A B ∧ B.cols ≤ k) {j : Nat} (hj : k ≤ j)
    (hA : A.setColumn (j : Int) v = .ok A') : Leading A' B ∧ B.cols ≤ k :=
  ⟨h.1.setWide (h.2.trans hj) hA, h.2⟩

variable [Add α] [Sub α] [Mul α] [Zero α] [One α] [Div α] [NatCast α] [HasSqrt α]

/-- One pass of either loop: the variables that do not depend on the number of components, and the columns stored. -/
theorem nipalsStep_ok {c : NipalsCfg α} {j : Int} {s t : NipalsVars α} (h : nipalsStep c j s = .ok t) :
    (t = { s with stop := true } ∧ ∀ s' : NipalsVars α, NipSame s s' → ∀ t', nipalsStep c j s' = .ok t' → t' = { s' with stop := true }) ∨
    ∃ X Y yk t1 u1 w1 c1 p1 T U W C P Q, t = ⟨X, Y, T, U, W, C, P, Q, yk, false⟩ ∧
      s.T.setColumn j t1 = .ok T ∧ s.U.setColumn j u1 = .ok U ∧ s.W.setColumn j w1 = .ok W ∧ s.C.setColumn j c1 = .ok C ∧
      s.P.setColumn j p1 = .ok P ∧ s.Q.setColumn j yk = .ok Q ∧
      ∀ s' : NipalsVars α, NipSame s s' → ∀ t', nipalsStep c j s' = .ok t' → ∃ T U W C P Q, t' = ⟨X, Y, T, U, W, C, P, Q, yk, false⟩ ∧
      s'.T.setColumn j t1 = .ok T ∧ s'.U.setColumn j u1 = .ok U ∧ s'.W.setColumn j w1 = .ok W ∧ s'.C.setColumn j c1 = .ok C ∧
      s'.P.setColumn j p1 = .ok P ∧ s'.Q.setColumn j yk = .ok Q := by
  obtain ⟨X, Y, T, U, W, C, P, Q, yk, b⟩ := s
  unfold nipalsStep at h ⊢
  simp only [] at h
  cases b with
  | true =>
    rw [if_pos rfl] at h
    cases h
    left
    refine ⟨rfl, ?_⟩
    rintro ⟨X', Y', T', U', W', C', P', Q', yk', b'⟩ ⟨rfl, rfl, rfl, rfl⟩ t' ht
    simp only [if_true] at ht
    cases ht
    rfl
  | false =>
    simp only [Bool.false_eq_true, if_false] at h
    rw [Utils.bind_ok_iff] at h
    obtain ⟨yty, h1, h⟩ := h
    split at h
    · rename_i hst
      cases h
      left
      refine ⟨rfl, ?_⟩
      rintro ⟨X', Y', T', U', W', C', P', Q', yk', b'⟩ ⟨rfl, rfl, rfl, rfl⟩ t' ht
      simp only [Bool.false_eq_true, if_false, h1, except_bind_ok] at ht
      rw [if_pos hst] at ht
      cases ht
      rfl
    · rename_i hst
      simp only [Utils.bind_ok_iff] at h
      obtain ⟨r, h2, t1, h3, u1, h4, h⟩ := h
      split at h
      · rename_i hlt
        cases h
        left
        refine ⟨rfl, ?_⟩
        rintro ⟨X', Y', T', U', W', C', P', Q', yk', b'⟩ ⟨rfl, rfl, rfl, rfl⟩ t' ht
        simp only [Bool.false_eq_true, if_false, h1, except_bind_ok] at ht
        rw [if_neg hst] at ht
        simp only [h2, except_bind_ok] at ht
        simp only [h3, h4, except_bind_ok] at ht
        rw [if_pos hlt] at ht
        cases ht
        rfl
      · rename_i hlt
        simp only [Utils.bind_ok_iff] at h
        obtain ⟨pp, h5, tp, h6, X1, h7, d, h8, T1, h9, U1, h10, W1, h11, C1, h12, P1, h13, Q1, h14, h⟩ := h
        cases h
        right
        refine ⟨_, _, _, _, _, _, _, _, _, _, _, _, _, _, rfl, h9, h10, h11, h12, h13, h14, ?_⟩
        rintro ⟨X', Y', T', U', W', C', P', Q', yk', b'⟩ ⟨rfl, rfl, rfl, rfl⟩ t' ht
        simp only [Bool.false_eq_true, if_false, h1, except_bind_ok] at ht
        rw [if_neg hst] at ht
        simp only [h2, except_bind_ok] at ht
        simp only [h3, h4, except_bind_ok] at ht
        rw [if_neg hlt] at ht
        simp only [h5, h6, h7, h8, except_bind_ok] at ht
        simp only [Utils.bind_ok_iff] at ht
        obtain ⟨T2, g9, U2, g10, W2, g11, C2, g12, P2, g13, Q2, g14, ht⟩ := ht
        cases ht
        exact ⟨_, _, _, _, _, _, rfl, g9, g10, g11, g12, g13, g14⟩

theorem nipals_both {c : NipalsCfg α} {j : Nat} {s s' t t' : NipalsVars α} (h : NipNested k s s') (hsame : NipSame s s')
    (hs : nipalsStep c (j : Int) s = .ok t) (hs' : nipalsStep c (j : Int) s' = .ok t') : NipNested k t t' ∧ NipSame t t' := by
  obtain ⟨rfl, h2⟩ | ⟨X, Y, yk, t1, u1, w1, c1, p1, T, U, W, C, P, Q, rfl, g1, g2, g3, g4, g5, g6, h2⟩ := nipalsStep_ok hs
  · obtain rfl := h2 s' hsame t' hs'
    exact ⟨⟨h.T, h.U, h.W, h.C, h.P, h.Q⟩, hsame.1, hsame.2.1, hsame.2.2.1, rfl⟩
  · obtain ⟨T', U', W', C', P', Q', rfl, e1, e2, e3, e4, e5, e6⟩ := h2 s' hsame t' hs'
    exact ⟨⟨setBoth_le h.T g1 e1, setBoth_le h.U g2 e2, setBoth_le h.W g3 e3, setBoth_le h.C g4 e4, setBoth_le h.P g5 e5,
      setBoth_le h.Q g6 e6⟩, rfl, rfl, rfl, rfl⟩

theorem nipals_wide {c : NipalsCfg α} {j : Nat} (hj : k ≤ j) {s s' t : NipalsVars α} (h : NipNested k s s')
    (hs : nipalsStep c (j : Int) s = .ok t) : NipNested k t s' := by
  obtain ⟨rfl, -⟩ | ⟨X, Y, yk, t1, u1, w1, c1, p1, T, U, W, C, P, Q, rfl, g1, g2, g3, g4, g5, g6, -⟩ := nipalsStep_ok hs
  · exact ⟨h.T, h.U, h.W, h.C, h.P, h.Q⟩
  · exact ⟨setWide_le h.T hj g1, setWide_le h.U hj g2, setWide_le h.W hj g3, setWide_le h.C hj g4, setWide_le h.P hj g5,
      setWide_le h.Q hj g6⟩

theorem pyRange_succ' (n : Nat) : pyRange 0 ((n + 1 : Nat) : Int) = pyRange 0 (n : Int) ++ [(n : Int)] := by
  unfold pyRange
  rw [show (((n + 1 : Nat) : Int) - 0).toNat = n + 1 by omega, show ((n : Int) - 0).toNat = n by omega, List.range_succ,
    List.map_append, List.map_singleton, zero_add]

theorem loopM_succ_ok {σ : Type} {f : Int → σ → Except PyErr σ} {n : Nat} {s t : σ}
    (h : loopM f (pyRange 0 ((n + 1 : Nat) : Int)) s = .ok t) :
    ∃ u, loopM f (pyRange 0 (n : Int)) s = .ok u ∧ f (n : Int) u = .ok t := by
  rw [pyRange_succ', loopM_append, Utils.bind_ok_iff] at h
  obtain ⟨u, h1, h2⟩ := h
  refine ⟨u, h1, ?_⟩
  rw [loopM, Utils.bind_ok_iff] at h2
  obtain ⟨t', h3, h4⟩ := h2
  cases h4
  exact h3

theorem nipals_loops {c : NipalsCfg α} {s s' t t' : NipalsVars α} (h : NipNested k s s') (hsame : NipSame s s') (d : Nat)
    (hs : loopM (nipalsStep c) (pyRange 0 ((k + d : Nat) : Int)) s = .ok t)
    (hs' : loopM (nipalsStep c) (pyRange 0 (k : Int)) s' = .ok t') : NipNested k t t' := by
  have key : ∀ (m : Nat) (t t' : NipalsVars α), loopM (nipalsStep c) (pyRange 0 (m : Int)) s = .ok t →
      loopM (nipalsStep c) (pyRange 0 (m : Int)) s' = .ok t' → NipNested k t t' ∧ NipSame t t' := by
    intro m
    induction m with
    | zero =>
      intro t t' e e'
      cases e
      cases e'
      exact ⟨h, hsame⟩
    | succ m ih =>
      intro t t' e e'
      obtain ⟨u, e1, e2⟩ := loopM_succ_ok e
      obtain ⟨u', e1', e2'⟩ := loopM_succ_ok e'
      obtain ⟨a1, a2⟩ := ih u u' e1 e1'
      exact nipals_both a1 a2 e2 e2'
  induction d generalizing t with
  | zero => exact (key k t t' hs hs').1
  | succ d ih =>
    obtain ⟨u, e1, e2⟩ := loopM_succ_ok (n := k + d) hs
    exact nipals_wide (by omega) (ih e1) e2

/-- The inner loop does not look at the number of components. -/
theorem nipalsIter_K (c : NipalsCfg α) (k : Int) (X Y u : Mat α) (iter : Int) (w : Mat α) :
    nipalsIter { c with K := k } X Y u iter w = nipalsIter c X Y u iter w := by
  induction h : (c.maxIter - iter).toNat generalizing iter w with
  | zero =>
    rw [nipalsIter, nipalsIter]
    have hi : iter ≥ c.maxIter := by omega
    simp only [dif_pos hi]
    rfl
  | succ d ih =>
    rw [nipalsIter, nipalsIter]
    have hi : ¬ iter ≥ c.maxIter := by omega
    simp only [dif_neg hi]
    have := fun w => ih (iter + 1) w (by omega)
    simp only [this]
    rfl

theorem nipalsStep_K (c : NipalsCfg α) (k : Int) : nipalsStep { c with K := k } = nipalsStep c := by
  funext j s
  unfold nipalsStep nipalsLoop
  simp only [nipalsIter_K]
  rfl

/-- **C121, NIPALS and CCARegression.**  In any arithmetic, with any options, stopping rule and data: when training with `k`
and with `K ≥ k` components both succeed, scores, weights and loadings of predictors and responses are nested. -/
theorem C121_nipals (c : NipalsCfg α) (hkK : k ≤ K) (X Y : Mat α) (m m' : NipalsModel α)
    (h : nipalsTrain { c with K := (k : Int) } X Y = .ok m) (h' : nipalsTrain { c with K := (K : Int) } X Y = .ok m') :
    Leading m'.vars.T m.vars.T ∧ Leading m'.vars.U m.vars.U ∧ Leading m'.vars.W m.vars.W ∧ Leading m'.vars.C m.vars.C ∧
      Leading m'.vars.P m.vars.P ∧ Leading m'.vars.Q m.vars.Q := by
  obtain ⟨d, rfl⟩ : ∃ d, K = k + d := ⟨K - k, by omega⟩
  unfold nipalsTrain nipalsInit at h h'
  simp only [Utils.bind_ok_iff] at h h'
  obtain ⟨X1, hX, Y1, hY, s0, ⟨T, z1, U, z2, W, z3, C, z4, P, z5, Q, z6, yk, z7, e0⟩, s, hs, xr, -, yr, -, b, -, h⟩ := h
  obtain ⟨X1', hX', Y1', hY', s0', ⟨T', z1', U', z2', W', z3', C', z4', P', z5', Q', z6', yk', z7', e0'⟩, s', hs', xr', -, yr', -, b', -, h'⟩ := h'
  rw [hX] at hX'
  cases hX'
  rw [hY] at hY'
  cases hY'
  rw [z7] at z7'
  cases z7'
  cases e0
  cases e0'
  rw [nipalsStep_K] at hs hs'
  have hn := nipals_loops (c := c) (k := k) (s := ⟨X1, Y1, T', U', W', C', P', Q', yk, false⟩)
    (s' := ⟨X1, Y1, T, U, W, C, P, Q, yk, false⟩) ⟨zeros_leading hkK z1' z1, zeros_leading hkK z2' z2, zeros_leading hkK z3' z3,
      zeros_leading hkK z4' z4, zeros_leading hkK z5' z5, zeros_leading hkK z6' z6⟩ ⟨rfl, rfl, rfl, rfl⟩ d hs' hs
  have hv : m.vars = s := by
    split at h
    · cases h
    · rw [Utils.bind_ok_iff] at h
      obtain ⟨_, -, h⟩ := h
      cases h
      rfl
  have hv' : m'.vars = s' := by
    split at h'
    · cases h'
    · rw [Utils.bind_ok_iff] at h'
      obtain ⟨_, -, h'⟩ := h'
      cases h'
      rfl
  rw [hv, hv']
  exact ⟨hn.T.1, hn.U.1, hn.W.1, hn.C.1, hn.P.1, hn.Q.1⟩

end nipals

/-! ## Concrete cases -/

example := C121_pls1 (k := 1) (K := 2) (by decide) (by decide) (by decide) (by decide) exX (pls1_computes exY) ex_regular
example := (C121_dipls (exactCfg_inv 2 1) diplsFresh ⟨rfl, rfl, rfl⟩ (by decide) (by decide) (k := 1) (K := 2) (by decide)
  (by decide) dxA dxA dxY dxY).1 (dx_reg 1)
/-- The same data with one component and with as many as one likes. -/
example (K : Nat) (hK : 1 ≤ K) : ∃ m m', nipalsTrain { exCfg with K := ((1 : Nat) : Int) } (of ramp) (of ramp) = .ok m ∧
    nipalsTrain { exCfg with K := (K : Int) } (of ramp) (of ramp) = .ok m' ∧ Leading m'.vars.T m.vars.T := by
  obtain ⟨m, h, -⟩ := C53_single_partial (K := 1) (c := { exCfg with K := ((1 : Nat) : Int) }) ⟨exCfg_real.lt, exCfg_real.zero⟩
    rfl rfl exCfg_total (by decide) ramp ramp
  obtain ⟨m', h', -⟩ := C53_single_partial (K := K) (c := { exCfg with K := (K : Int) }) ⟨exCfg_real.lt, exCfg_real.zero⟩
    rfl rfl exCfg_total (by decide) ramp ramp
  exact ⟨m, m', h, h', (C121_nipals exCfg hK _ _ m m' h h').1⟩

/-- A small matrix that has leading columns, and one that has not. -/
example : Leading (of (!![1, 2; 3, 4] : Matrix (Fin 2) (Fin 2) ℝ)) (of (!![1; 3] : Matrix (Fin 2) (Fin 1) ℝ)) ∧
    ¬ Leading (of (!![1, 2; 3, 4] : Matrix (Fin 2) (Fin 2) ℝ)) (of (!![2; 4] : Matrix (Fin 2) (Fin 1) ℝ)) := by
  constructor
  · refine leading_of (by decide) fun i j => ?_
    fin_cases i <;> fin_cases j <;> rfl
  · intro h
    have := h.eq 0 0 (by decide)
    have h1 := (entry?_of (!![1, 2; 3, 4] : Matrix (Fin 2) (Fin 2) ℝ) 0 0).symm.trans
      (this.trans (entry?_of (!![2; 4] : Matrix (Fin 2) (Fin 1) ℝ) 0 0))
    norm_num at h1

end Verif.Props
