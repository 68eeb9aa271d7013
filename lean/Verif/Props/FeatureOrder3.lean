import Verif.Props.FeatureOrder2
import Verif.Props.SparseNipals
import Verif.Core.UtilsLemmas

/-!
# C143 continued: SparsePLS

The selected predictors are kept as an ascending list of positions.  With the predictors in another order the same predictors are
selected, at other positions and gathered in another order.
-/

namespace Verif.Props
open Verif Mat Transf
open scoped Matrix

variable {n p r a : Nat}

/-- Two lists of positions that select the same predictors before and after reordering: one list of positions, and the other in terms
of it. -/
theorem sel_perm {σ : Equiv.Perm (Fin p)} {A A' : List Nat} (hA : GoodIdx p A) (hA' : GoodIdx p A')
    (h : ∀ i : Fin p, i.1 ∈ A' ↔ (σ i).1 ∈ A) :
    ∃ (a : Nat) (f : Fin a → Fin p) (τ : Equiv.Perm (Fin a)), A = pickIdx f ∧ A' = pickIdx fun k => σ.symm (f (τ k)) := by
  have key : ∀ L : List Nat, GoodIdx p L → ∃ (a : Nat) (f : Fin a → Fin p), L = pickIdx f := fun L hL => by
    refine ⟨L.length, fun k => ⟨L[k.1], hL.lt _ (List.getElem_mem k.2)⟩, ?_⟩
    unfold pickIdx
    exact (List.ofFn_getElem (xs := L)).symm
  obtain ⟨a, f, rfl⟩ := key A hA
  obtain ⟨a', g, rfl⟩ := key A' hA'
  have hf := pickIdx_inj hA.nodup
  have hg := pickIdx_inj hA'.nodup
  have h1 : ∀ k, ∃ l, f l = σ (g k) := fun k => (pickIdx_mem f _).1 ((h (g k)).1 ((pickIdx_mem g _).2 ⟨k, rfl⟩))
  have h2 : ∀ l, ∃ k, g k = σ.symm (f l) := fun l =>
    (pickIdx_mem g _).1 ((h (σ.symm (f l))).2 (by rw [Equiv.apply_symm_apply]; exact (pickIdx_mem f _).2 ⟨l, rfl⟩))
  choose t ht using h1
  choose u hu using h2
  have ti : Function.Injective t := fun k k' hk => hg (σ.injective (by rw [← ht, ← ht, hk]))
  have ui : Function.Injective u := fun k k' hk => hf (σ.symm.injective (by rw [← hu, ← hu, hk]))
  have e : a' = a := le_antisymm (by simpa using Fintype.card_le_of_injective t ti) (by simpa using Fintype.card_le_of_injective u ui)
  subst e
  refine ⟨a', f, Equiv.ofBijective t (Finite.injective_iff_bijective.1 ti), rfl, ?_⟩
  congr 1
  funext k
  rw [Equiv.ofBijective_apply, ht, Equiv.symm_apply_apply]

/-- The positions are in range. -/
theorem pickIdx_lt (f : Fin a → Fin p) : ∀ i ∈ pickIdx f, i < p := fun i hi => by
  unfold pickIdx at hi
  rw [List.mem_ofFn] at hi
  obtain ⟨j, rfl⟩ := hi
  exact (f j).2

theorem spCols_pick (hn : 0 < n) (X : Matrix (Fin n) (Fin p) ℝ) (f : Fin a → Fin p) : spCols (of X) (pickIdx f) = .ok (of (pick f X)) := by
  rw [spCols_of hn X _ (pickIdx_lt f), pick_gather f X]

/-- The inner model follows a reordering of its predictors and answers with one coefficient for each, whenever it is trained on
predictors of which none is constant. -/
def NipFeat (nip : Int → Mat ℝ → Mat ℝ → Except PyErr (Mat ℝ)) : Prop :=
  ∀ {n a : Nat} (k : Int) (τ : Equiv.Perm (Fin (a + 1))) (X : Matrix (Fin n) (Fin (a + 1)) ℝ) (y : Matrix (Fin n) (Fin 1) ℝ),
    (∀ j, sd (fun i => X i j) ≠ 0) →
    ERel (fun b b' => ∃ B : Matrix (Fin (a + 1)) (Fin 1) ℝ, b = of B ∧ b' = of (Matrix.of fun i j => B (τ i) j))
      (nip k (of X) (of y)) (nip k (of (colSel τ X)) (of y))

/-- `np.amax` and `np.median` of reordered columns. -/
def ColFree (g : Mat ℝ → ℝ) : Prop :=
  ∀ {p : Nat} (σ : Equiv.Perm (Fin p)) (z : Matrix (Fin p) (Fin 1) ℝ), 0 < p → g (of (Matrix.of fun i j => z (σ i) j)) = g (of z)

theorem colFree_amax {amax : Mat ℝ → ℝ} (h : IsAmax amax) : ColFree amax := by
  intro p σ z hp
  obtain ⟨k, hk, hm⟩ := h hp fun i => z i 0
  obtain ⟨k', hk', hm'⟩ := h hp fun i => z (σ i) 0
  have e : ∀ w : Matrix (Fin p) (Fin 1) ℝ, of w = of (Matrix.of fun i (_ : Fin 1) => w i 0) := fun w => mk_congr fun i j => by
    rw [Subsingleton.elim j 0]
    rfl
  rw [e, e z]
  refine (hk'.trans ?_).trans hk.symm
  refine le_antisymm (hm _) ?_
  have := hm' (σ.symm k)
  rwa [Equiv.apply_symm_apply] at this

theorem colFree_med {med : Mat ℝ → ℝ} (h : MedShuf med) : ColFree med := by
  intro p σ z hp
  exact h p σ z

/-- The direction vector follows the predictors. -/
theorem spDirection_feat (cfg : SpCfg ℝ) (hmed : ColFree cfg.med) (hmax : ColFree cfg.amax) (hp : 0 < p) (σ : Equiv.Perm (Fin p))
    (X : Matrix (Fin n) (Fin p) ℝ) (y : Matrix (Fin n) (Fin 1) ℝ) : ∃ w : Matrix (Fin p) (Fin 1) ℝ,
      spDirection cfg (of X) (of y) = .ok (of w) ∧
      spDirection cfg (of (colSel σ X)) (of y) = .ok (of (Matrix.of fun i j => w (σ i) j)) := by
  unfold spDirection
  rw [transpose_of, transpose_of, mul_of, mul_of, except_bind_ok, except_bind_ok]
  have e : (colSel σ X)ᵀ * y = Matrix.of fun i j => (Xᵀ * y) (σ i) j := by
    ext i j
    rfl
  rw [e]
  generalize Xᵀ * y = z
  rw [spShrink_of cfg hp, spShrink_of cfg hp]
  have e1 : absM (Matrix.of fun i j => z (σ i) j) = Matrix.of fun i j => absM z (σ i) j := rfl
  rw [e1, hmed σ (absM z) hp]
  generalize cfg.med (of (absM z)) = s
  have e2 : divM (Matrix.of fun i j => z (σ i) j) s = Matrix.of fun i j => divM z s (σ i) j := rfl
  rw [e2]
  generalize divM z s = d
  have e3 : absM (Matrix.of fun i j => d (σ i) j) = Matrix.of fun i j => absM d (σ i) j := rfl
  rw [e3, hmax σ (absM d) hp]
  generalize cfg.amax (of (absM d)) = M
  have e4 : spC cfg (Matrix.of fun i j => d (σ i) j) M = Matrix.of fun i j => spC cfg d M (σ i) j := rfl
  rw [e4]
  generalize spC cfg d M = c
  have hs : Shuf σ (of c) (of (Matrix.of fun i j => c (σ i) j)) := ⟨1, c, rfl, rfl⟩
  rw [hs.norm2Squared]
  exact ⟨_, rfl, rfl⟩

/-- Distributing the coefficients follows the predictors. -/
theorem scatter_feat {σ : Equiv.Perm (Fin p)} (f : Fin a → Fin p) (τ : Equiv.Perm (Fin a)) (hA : GoodIdx p (pickIdx f))
    (hA' : GoodIdx p (pickIdx fun k => σ.symm (f (τ k)))) (b : Matrix (Fin a) (Fin 1) ℝ) : ∃ B : Matrix (Fin p) (Fin 1) ℝ,
      scatter (of b) (pickIdx f) 0 (of (0 : Matrix (Fin p) (Fin 1) ℝ)) = .ok (of B) ∧
      scatter (of (Matrix.of fun i j => b (τ i) j)) (pickIdx fun k => σ.symm (f (τ k))) 0 (of (0 : Matrix (Fin p) (Fin 1) ℝ)) =
        .ok (of (Matrix.of fun i j => B (σ i) j)) := by
  obtain ⟨B, hB, h1, h2⟩ := pick_scatter f hA b
  obtain ⟨B', hB', h1', h2'⟩ := pick_scatter _ hA' (Matrix.of fun i j => b (τ i) j)
  refine ⟨B, hB, hB'.trans ?_⟩
  rw [ok_inj]
  refine mk_congr fun i j => ?_
  rw [Subsingleton.elim j 0, Matrix.of_apply]
  by_cases hi : ∃ l, f l = σ i
  · obtain ⟨l, hl⟩ := hi
    have e := h1' (τ.symm l)
    simp only [Matrix.of_apply, Equiv.apply_symm_apply, hl, Equiv.symm_apply_apply] at e
    rw [e, ← hl, h1]
  · rw [h2 _ hi]
    refine h2' i ?_
    rintro ⟨k, hk⟩
    exact hi ⟨τ k, by rw [← hk, Equiv.apply_symm_apply]⟩

/-- States of the training loop for two orders of the predictors. -/
structure SpFeat (n : Nat) (σ : Equiv.Perm (Fin p)) (s t : SpVars ℝ) : Prop where
  yj : ∃ v : Matrix (Fin n) (Fin 1) ℝ, s.yj = of v ∧ t.yj = of v
  A : GoodIdx p s.A
  A' : GoodIdx p t.A
  sel : ∀ i : Fin p, i.1 ∈ t.A ↔ (σ i).1 ∈ s.A
  B : ∃ B : Matrix (Fin p) (Fin 1) ℝ, s.B = of B ∧ t.B = of (Matrix.of fun i j => B (σ i) j)
  W : Shuf σ s.W t.W

theorem spStep_feat (cfg : SpCfg ℝ) (hmed : ColFree cfg.med) (hmax : ColFree cfg.amax) (hnip : NipFeat cfg.nip) (hn : 0 < n)
    (hp : 0 < p) (σ : Equiv.Perm (Fin p)) (X : Matrix (Fin n) (Fin p) ℝ) (hX : ∀ j, sd (fun i => X i j) ≠ 0)
    (y : Matrix (Fin n) (Fin 1) ℝ) (k : Int) (s t : SpVars ℝ) (h : SpFeat n σ s t) :
    ERel (SpFeat n σ) (spStep cfg (of X) (of y) k s) (spStep cfg (of (colSel σ X)) (of y) k t) := by
  obtain ⟨yj, A, B, W⟩ := s
  obtain ⟨yj', A', B', W'⟩ := t
  obtain ⟨⟨v, h1, h2⟩, _, _, _, ⟨B0, h3, h4⟩, hW⟩ := h
  dsimp only at h1 h2 h3 h4 hW
  subst h1 h2 h3 h4
  obtain ⟨w, hw, hw'⟩ := spDirection_feat cfg hmed hmax hp σ X v
  unfold spStep
  dsimp only
  rw [hw, hw', except_bind_ok, except_bind_ok]
  refine ERel.bind (hW.setColumn k ⟨1, w, rfl, rfl⟩) fun W W' hW => ?_
  obtain ⟨L, hL, gL, mL⟩ := spCollect_of cfg w B0
  obtain ⟨L', hL', gL', mL'⟩ := spCollect_of cfg (Matrix.of fun i j => w (σ i) j) (Matrix.of fun i j => B0 (σ i) j)
  have hsel : ∀ i : Fin p, i.1 ∈ L' ↔ (σ i).1 ∈ L := fun i => by
    rw [mL', mL]
    rfl
  rw [hL, hL', except_bind_ok, except_bind_ok]
  have hz : Factory.zeros (α := ℝ) ((of X).cols : Int) ((of y).cols : Int) = .ok (of (0 : Matrix (Fin p) (Fin 1) ℝ)) :=
    Factory.zeros_nat hp 1
  rw [hz]
  obtain ⟨a, f, τ, rfl, rfl⟩ := sel_perm gL gL' hsel
  rw [spCols_pick hn, spCols_pick hn]
  simp only [except_bind_ok]
  have e : pick (fun k => σ.symm (f (τ k))) (colSel σ X) = colSel τ (pick f X) := by
    ext i j
    show X i (σ (σ.symm (f (τ j)))) = X i (f (τ j))
    rw [Equiv.apply_symm_apply]
  rw [e]
  have fin : ∀ B : Matrix (Fin p) (Fin 1) ℝ, ERel (SpFeat n σ)
      (do
        let g ← (of X).mul (of B)
        let yj ← (of y).sub g
        (.ok ⟨yj, pickIdx f, of B, W⟩ : Except PyErr (SpVars ℝ)))
      (do
        let g ← (of (colSel σ X)).mul (of (Matrix.of fun i j => B (σ i) j))
        let yj ← (of y).sub g
        (.ok ⟨yj, pickIdx fun k => σ.symm (f (τ k)), of (Matrix.of fun i j => B (σ i) j), W'⟩ : Except PyErr (SpVars ℝ))) := by
    intro B
    have hX' : ShufC σ (of X) (of (colSel σ X)) := ⟨n, X, rfl, rfl⟩
    have hB' : Shuf σ (of B) (of (Matrix.of fun i j => B (σ i) j)) := ⟨1, B, rfl, rfl⟩
    rw [hX'.mul hB', mul_of, except_bind_ok, except_bind_ok, sub_of, except_bind_ok, except_bind_ok]
    exact ⟨⟨_, rfl, rfl⟩, gL, gL', hsel, ⟨B, rfl, rfl⟩, hW⟩
  cases a with
  | zero =>
    have e2 : colSel τ (pick f X) = pick f X := by
      ext i j
      exact j.elim0
    rw [e2]
    refine ERel.bindEq rfl fun coef => ?_
    have e3 : pickIdx f = [] := by simp [pickIdx]
    have e4 : (pickIdx fun k => σ.symm (f (τ k))) = [] := by simp [pickIdx]
    have := fin 0
    rw [e3, e4] at this
    rw [e3, e4]
    rw [show scatter coef [] 0 (of (0 : Matrix (Fin p) (Fin 1) ℝ)) = .ok (of 0) from rfl, except_bind_ok, except_bind_ok]
    exact this
  | succ a =>
    refine ERel.bind (hnip _ τ (pick f X) y fun j => hX (f j)) fun c c' hc => ?_
    obtain ⟨b, rfl, rfl⟩ := hc
    obtain ⟨B, hB, hB'⟩ := scatter_feat f τ gL gL' b
    rw [hB, hB', except_bind_ok, except_bind_ok]
    exact fin B

theorem std_colSel (σ : Equiv.Perm (Fin p)) (X : Matrix (Fin n) (Fin p) ℝ) (hX : ∀ j, sd (fun i => X i j) ≠ 0)
    (Z : Matrix (Fin r) (Fin p) ℝ) : std (colSel σ X) (colSel σ Z) = colSel σ (std X Z) := std_pick σ X hX Z

theorem spTrain_feat (cfg : SpCfg ℝ) (hz : ∀ x, cfg.isZero x = true ↔ x = 0) (hmed : ColFree cfg.med) (hmax : ColFree cfg.amax)
    (hnip : NipFeat cfg.nip) (hn : 2 ≤ n) (σ : Equiv.Perm (Fin (p + 1))) (X : Matrix (Fin n) (Fin (p + 1)) ℝ)
    (hX : ∀ j, sd (fun i => X i j) ≠ 0) (y : Matrix (Fin n) (Fin 1) ℝ) :
    ERel (fun m m' => m.stdX = stdState X ∧ m'.stdX = stdState (colSel σ X) ∧ m'.stdY = m.stdY ∧ SpFeat n σ m.vars m'.vars)
      (spTrain cfg (of X) (of y)) (spTrain cfg (of (colSel σ X)) (of y)) := by
  unfold spTrain
  rw [std_fit cfg.isZero hz X, std_fit cfg.isZero hz (colSel σ X), std_fit (p := 0) cfg.isZero hz y, std_colSel σ X hX X]
  simp only [except_bind_ok]
  have hS : ∀ j, sd (fun i => std X X i j) ≠ 0 := fun j => by
    have hd : ∀ j, divisor X j = sd fun k => X k j := fun j => if_neg fun h => hX j h.2
    have hcol : (fun k => std X X k j) = fun k => (X k j - mu fun k => X k j) / sd fun k => X k j := by
      funext k
      show (X k j - mu fun k => X k j) / divisor X j = _
      rw [hd]
    rw [hcol, sd_standard hn _ (hX j)]
    exact one_ne_zero
  generalize std X X = S at hS
  generalize std y y = v
  refine ERel.bind (R := SpFeat n σ) ?_ fun s t hst => ?_
  · unfold spInit
    have h0 : Factory.zeros (α := ℝ) ((of S).cols : Int) ((of v).cols : Int) = .ok (of (0 : Matrix (Fin (p + 1)) (Fin 1) ℝ)) :=
      Factory.zeros_nat (Nat.succ_pos p) 1
    rw [h0, except_bind_ok]
    have hS' : ShufC σ (of S) (of (colSel σ S)) := ⟨n, S, rfl, rfl⟩
    refine ERel.bind (hS'.zeros (Nat.succ_ne_zero p) cfg.K) fun W W' hW => ?_
    exact ⟨⟨v, rfl, rfl⟩, ⟨fun i hi => absurd hi (by simp), List.Pairwise.nil⟩, ⟨fun i hi => absurd hi (by simp), List.Pairwise.nil⟩,
      fun i => by simp, ⟨0, rfl, rfl⟩, hW⟩
  · refine ERel.bind (ERel.loopM (fun k s t h => spStep_feat cfg hmed hmax hnip (by omega) (Nat.succ_pos p) σ S hS v k s t h) _ s t hst)
      fun s t hst => ?_
    exact ⟨rfl, rfl, rfl, hst⟩

/-- **C143** SparsePLS: the same predictors are selected, and the predictions and the scores are the same, whatever the order of the
predictors, as long as none of them is constant. -/
theorem C143_sparse (cfg : SpCfg ℝ) (hz : ∀ x, cfg.isZero x = true ↔ x = 0) (hmed : ColFree cfg.med) (hmax : ColFree cfg.amax)
    (hnip : NipFeat cfg.nip) (hn : 2 ≤ n) (σ : Equiv.Perm (Fin (p + 1))) (X : Matrix (Fin n) (Fin (p + 1)) ℝ)
    (hX : ∀ j, sd (fun i => X i j) ≠ 0) (y : Matrix (Fin n) (Fin 1) ℝ) (Z : Matrix (Fin (r + 1)) (Fin (p + 1)) ℝ) :
    (spTrain cfg (of (colSel σ X)) (of y) >>= fun m => spPredict cfg m (of (colSel σ Z))) =
      (spTrain cfg (of X) (of y) >>= fun m => spPredict cfg m (of Z)) ∧
    (spTrain cfg (of (colSel σ X)) (of y) >>= fun m => spTransform cfg m (of (colSel σ Z))) =
      (spTrain cfg (of X) (of y) >>= fun m => spTransform cfg m (of Z)) ∧
    ERel (fun m m' => ∀ i : Fin (p + 1), i.1 ∈ m'.vars.A ↔ (σ i).1 ∈ m.vars.A)
      (spTrain cfg (of X) (of y)) (spTrain cfg (of (colSel σ X)) (of y)) := by
  have key := spTrain_feat cfg hz hmed hmax hnip hn σ X hX y
  have hZ : ShufC σ (of Z) (of (colSel σ Z)) := ⟨r + 1, Z, rfl, rfl⟩
  refine ⟨?_, ?_, key.mono fun m m' h => h.2.2.2.sel⟩
  · refine (ERel.eq (ERel.bind key fun m m' h => ERel.of_eq (fun _ => rfl) ?_)).symm
    obtain ⟨sx, sy, ⟨vy, A, B, W⟩⟩ := m
    obtain ⟨sx', sy', ⟨vy', A', B', W'⟩⟩ := m'
    obtain ⟨h1, h2, h3, ⟨_, hA, hA', hsel, ⟨b, hB, hB'⟩, _⟩⟩ := h
    dsimp only at h1 h2 h3 hA hA' hsel hB hB'
    subst h1 h2 h3 hB hB'
    unfold spPredict
    dsimp only
    rw [std_do, std_do, std_colSel σ X hX Z, except_bind_ok, except_bind_ok]
    generalize std X Z = S
    obtain ⟨a, f, τ, rfl, rfl⟩ := sel_perm hA hA' hsel
    cases a with
    | zero =>
      have e3 : pickIdx f = [] := by simp [pickIdx]
      have e4 : (pickIdx fun k => σ.symm (f (τ k))) = [] := by simp [pickIdx]
      rw [e3, e4]
      rfl
    | succ a =>
      rw [spCols_pick (Nat.succ_pos r), spCols_pick (Nat.succ_pos r), except_bind_ok, except_bind_ok]
      have eR : ∀ (g : Fin (a + 1) → Fin (p + 1)) (b : Matrix (Fin (p + 1)) (Fin 1) ℝ),
          spRows (of b) (pickIdx g) = .ok (of (Matrix.of fun i j => b (g i) j)) := fun g b => by
        rw [spRows_of b _ (pickIdx_lt g) (by simp [pickIdx]), ok_inj]
        refine mk_eq (by simp [pickIdx]) rfl fun i j => ?_
        simp only [Matrix.of_apply, pickIdx, List.getElem_ofFn]
        rfl
      rw [eR, eR, except_bind_ok, except_bind_ok]
      have e6 : (of (pick (fun k => σ.symm (f (τ k))) (colSel σ S))).mul
          (of (Matrix.of fun i j => (Matrix.of fun i j => b (σ i) j : Matrix (Fin (p + 1)) (Fin 1) ℝ) (σ.symm (f (τ i))) j)) =
          (of (pick f S)).mul (of (Matrix.of fun i j => b (f i) j)) := by
        refine ShufC.mul (σ := τ) ⟨r + 1, pick f S, rfl, mk_congr fun i j => ?_⟩ ⟨1, Matrix.of fun i j => b (f i) j, rfl, mk_congr fun i j => ?_⟩
        · show S i (σ (σ.symm (f (τ j)))) = S i (f (τ j))
          rw [Equiv.apply_symm_apply]
        · show b (σ (σ.symm (f (τ i)))) j = b (f (τ i)) j
          rw [Equiv.apply_symm_apply]
      rw [e6]
  · refine (ERel.eq (ERel.bind key fun m m' h => ERel.of_eq (fun _ => rfl) ?_)).symm
    unfold spTransform
    have hW := h.2.2.2.W
    refine ERel.eq ?_
    rw [hZ.rows_eq]
    refine ERel.bindEq rfl fun T => ?_
    refine ERel.bind (R := fun s t => ShufC σ s.1 t.1 ∧ t.2 = s.2) (ERel.loopM (fun k s t h => ?_) _ _ _ ⟨hZ.copy, rfl⟩) fun s t h => ?_
    rotate_left
    · exact (show s.2 = t.2 from h.2.symm)
    unfold spTransformStep
    obtain ⟨h1, h2⟩ := h
    refine ERel.bind (hW.getColumn k) fun w w' hw => ?_
    rw [h1.mul hw, h2]
    refine ERel.bindEq rfl fun t => ?_
    refine ERel.bindEq rfl fun T => ?_
    refine ERel.bind (h1.transpose.mul t) fun q q' hq => ?_
    refine ERel.bind ((hq.map _).transpose.lmul t) fun o o' ho => ?_
    refine ERel.bind (h1.sub ho) fun Y Y' hY => ?_
    exact ⟨hY, rfl⟩

/-- The NIPALS of the code, without CCA mode, is such an inner model. -/
theorem nipFeat_nipals (c : NipalsCfg ℝ) (hz : ∀ x, c.isZero x = true ↔ x = 0) (hc : c.cca = false) : NipFeat (nipCoef c) := by
  intro n a k τ X y hX
  unfold nipCoef
  have hst : Steady c.isZero (of X) := fun i j => by
    cases h : c.isZero ((of X).columnStdevs.data i j) with
    | false => rfl
    | true =>
      have e : (of X).columnStdevs.data = Matrix.of fun (_ : Fin 1) j => sd fun k => X k j := of_inj.1 (columnStdevs_of X)
      exact absurd ((congrFun (congrFun e i) j).symm.trans ((hz _).1 h)) (hX j)
  have key := nipalsTrain_shufC { c with K := k } (fun h => absurd h (by simp [hc])) (Nat.succ_ne_zero a) hst
    (σ := τ) (A' := of (colSel τ X)) ⟨n, X, rfl, rfl⟩ (of y)
  have hcols : ∀ m, nipalsTrain { c with K := k } (of X) (of y) = .ok m → m.coef.cols = 1 := by
    intro m hm
    unfold nipalsTrain at hm
    rw [std_fit (p := 0) c.isZero hz y] at hm
    simp only [Utils.bind_ok_iff, stdState] at hm
    obtain ⟨_, _, _, _, s, _, s', _, xr, _, yr, _, b, _, coef, hcoef, hm⟩ := hm
    cases hm
    unfold scaleByRowVector at hcoef
    rw [Utils.bind_ok_iff] at hcoef
    obtain ⟨_, _, hcoef⟩ := hcoef
    split at hcoef
    · rename_i hb
      unfold mulByVector vectorOp at hcoef
      rw [Utils.bind_ok_iff] at hcoef
      obtain ⟨_, _, hcoef⟩ := hcoef
      split at hcoef
      · cases hcoef
        exact hb
      · cases hcoef
    · cases hcoef
  cases h1 : nipalsTrain { c with K := k } (of X) (of y) with
  | error e =>
    rw [h1] at key
    cases h2 : nipalsTrain { c with K := k } (of (colSel τ X)) (of y) with
    | error e' => rw [h2] at key; exact key
    | ok m => rw [h2] at key; exact key.elim
  | ok m =>
    rw [h1] at key
    cases h2 : nipalsTrain { c with K := k } (of (colSel τ X)) (of y) with
    | error e' => rw [h2] at key; exact key.elim
    | ok m' =>
      rw [h2] at key
      obtain ⟨d, C, e1, e2⟩ := (show NipMC τ m m' from key).coef
      have hd := hcols m h1
      rw [e1] at hd
      change d = 1 at hd
      subst hd
      exact ⟨C, e1, e2⟩

/-- **C143** SparsePLS with the NIPALS of the code inside. -/
theorem C143_sparse_nipals (cfg : SpCfg ℝ) (c : NipalsCfg ℝ) (hz : ∀ x, cfg.isZero x = true ↔ x = 0)
    (hz' : ∀ x, c.isZero x = true ↔ x = 0) (hc : c.cca = false) (hnip : cfg.nip = nipCoef c) (hmed : MedShuf cfg.med)
    (hmax : IsAmax cfg.amax) (hn : 2 ≤ n) (σ : Equiv.Perm (Fin (p + 1))) (X : Matrix (Fin n) (Fin (p + 1)) ℝ)
    (hX : ∀ j, sd (fun i => X i j) ≠ 0) (y : Matrix (Fin n) (Fin 1) ℝ) (Z : Matrix (Fin (r + 1)) (Fin (p + 1)) ℝ) :
    (spTrain cfg (of (colSel σ X)) (of y) >>= fun m => spPredict cfg m (of (colSel σ Z))) =
      (spTrain cfg (of X) (of y) >>= fun m => spPredict cfg m (of Z)) ∧
    (spTrain cfg (of (colSel σ X)) (of y) >>= fun m => spTransform cfg m (of (colSel σ Z))) =
      (spTrain cfg (of X) (of y) >>= fun m => spTransform cfg m (of Z)) :=
  have h := C143_sparse cfg hz (colFree_med hmed) (colFree_amax hmax) (hnip ▸ nipFeat_nipals c hz' hc) hn σ X hX y Z
  ⟨h.1, h.2.1⟩

/-- SparsePLS with the order statistics and NIPALS, three samples of two predictors, and the predictors exchanged. -/
example (amax : Mat ℝ → ℝ) (hmax : IsAmax amax) (y : Matrix (Fin 3) (Fin 1) ℝ) (Z : Matrix (Fin 1) (Fin 2) ℝ) :
    (spTrain (spRamp orderMedian amax) (of (!![2, 1; 5, 3; 13, 8] : Matrix (Fin 3) (Fin 2) ℝ)) (of y) >>= fun m =>
        spPredict (spRamp orderMedian amax) m (of (colSel (Equiv.swap 0 1) Z))) =
      (spTrain (spRamp orderMedian amax) (of (!![1, 2; 3, 5; 8, 13] : Matrix (Fin 3) (Fin 2) ℝ)) (of y) >>= fun m =>
        spPredict (spRamp orderMedian amax) m (of Z)) := by
  have h := (C143_sparse_nipals (p := 1) (r := 0) (spRamp orderMedian amax) exCfg (fun x => by simp [spRamp, spDemo])
    (fun x => by simp [exCfg]) rfl rfl orderMedian_shuf hmax (by decide) (Equiv.swap 0 1)
    (!![1, 2; 3, 5; 8, 13] : Matrix (Fin 3) (Fin 2) ℝ) (fun j => by
      rw [ne_eq, sd_eq_zero_iff (by decide)]
      intro h
      have h1 := h 0 1
      revert h1
      fin_cases j <;> norm_num [Matrix.of_apply]) y Z).1
  rw [colSel_swap] at h
  exact h

end Verif.Props
