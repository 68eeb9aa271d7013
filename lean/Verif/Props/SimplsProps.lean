import Verif.Alg.SimplsPls1
import Verif.Props.PLS1Props
import Verif.Props.Decomp

/-!
# C55, C56, C73: SIMPLS

`Regular` is the condition of C49 (no score of the textbook recursion has length zero).  The eigensolver is any
routine which meets the contract `IsEig` of C16 on `1 × 1` matrices.
-/

namespace Verif.Props

open Verif Mat
open scoped Matrix

variable {n p : Nat}

/-- `get_dominant_eigenvector` (`_Matrix.py` 83-84) with the eigensolver `eig` (values, vectors). -/
noncomputable def domOf (eig : Mat ℝ → Mat ℝ × Mat ℝ) (M : Mat ℝ) : Except PyErr (Mat ℝ) :=
  dominantEigenvector (fun a b => decide (a ≤ b)) M.rows (eig M).1 (eig M).2

/-- The eigensolver meets its contract on the `1 × 1` matrices. -/
def EigOne (eig : Mat ℝ → Mat ℝ × Mat ℝ) : Prop :=
  ∀ a : Matrix (Fin 1) (Fin 1) ℝ, ∃ (lam : Fin 1 → ℝ) (V : Matrix (Fin 1) (Fin 1) ℝ),
    eig (of a) = (ofFn fun i (_ : Fin 1) => lam i, of V) ∧ IsEig a V lam

theorem domOf_one {eig : Mat ℝ → Mat ℝ × Mat ℝ} (he : EigOne eig) :
    ∃ qf : Matrix (Fin 1) (Fin 1) ℝ → Matrix (Fin 1) (Fin 1) ℝ,
      (∀ a, domOf eig (of a) = .ok (of (qf a))) ∧ ∀ a, qf a 0 0 ≠ 0 := by
  have : ∀ a : Matrix (Fin 1) (Fin 1) ℝ, ∃ q : Matrix (Fin 1) (Fin 1) ℝ, domOf eig (of a) = .ok (of q) ∧ q 0 0 ≠ 0 := by
    intro a
    obtain ⟨lam, V, h1, h2⟩ := he a
    obtain ⟨v, l, h3, -, h4, -⟩ := C16_dominant (by decide) a V lam h2
    refine ⟨Matrix.of fun i _ => v i, ?_, fun h0 => h4 ?_⟩
    · unfold domOf
      rw [h1]
      exact h3
    · ext i
      rw [Subsingleton.elim i 0]
      exact h0
  choose qf h using this
  exact ⟨qf, fun a => (h a).1, fun a => (h a).2⟩

/-- An eigensolver meeting the contract exists. -/
def eigOne : Mat ℝ → Mat ℝ × Mat ℝ := fun M =>
  (M, ofFn fun (_ : Fin 1) (_ : Fin 1) => (1 : ℝ))

theorem eigOne_ok : EigOne eigOne := fun a =>
  ⟨fun i => a i 0, 1, by
    refine Prod.ext ?_ ?_
    · show of a = _
      refine congrArg of ?_
      ext i j
      rw [Subsingleton.elim j 0]
      rfl
    · refine congrArg of ?_
      ext i j
      rw [Subsingleton.elim i j]
      simp, by
    constructor
    · intro j
      ext i
      rw [Subsingleton.elim i 0, Subsingleton.elim j 0]
      simp [Matrix.mulVec, dotProduct]
    · intro j h
      have := congrFun h j
      simp at this⟩

/-- **C55.** Training without slimming succeeds with weights `W` whose scores are orthonormal; `Q` holds the
covariances of the scores with the response; `B = W Q^T`; transformation is `Z W`, prediction `Z B`; the
serialised state of a trained object is `W`. -/
theorem C55_scores_partial {eig : Mat ℝ → Mat ℝ × Mat ℝ} (he : EigOne eig) (hp : 0 < p) (K : Nat) {count : Int}
    (hcount : count ≤ 0) (X : Matrix (Fin n) (Fin p) ℝ) (y : Matrix (Fin n) (Fin 1) ℝ) (h : Regular (pls1W y) K X) :
    ∃ (W : Matrix (Fin p) (Fin K) ℝ) (Q : Matrix (Fin 1) (Fin K) ℝ) (m : SimplsModel ℝ),
      simplsTrain (domOf eig) K count (of X) (of y) = .ok m ∧
      m.W = of W ∧ m.Q = of Q ∧ m.B = of (W * Qᵀ) ∧
      (X * W)ᵀ * (X * W) = 1 ∧ Qᵀ = (X * W)ᵀ * y ∧
      (∀ (r : Nat) (Z : Matrix (Fin r) (Fin p) ℝ), simplsTransform m (of Z) = .ok (of (Z * W)) ∧
        simplsPredict m (of Z) = .ok (of (Z * (W * Qᵀ)))) ∧
      simplsState true m = .ok (of W) ∧ simplsState false m = .error .runtimeError := by
  obtain ⟨qf, hdom, hq⟩ := domOf_one he
  have hc : ∀ j < K, X * simU qf X y j ≠ 0 := fun j hj => (same_all hq h.sq1_ne j hj).1
  refine ⟨simWM qf X y K, simQM qf X y K,
    ⟨of (simWM qf X y K), of (simWM qf X y K * (simQM qf X y K)ᵀ), of (simQM qf X y K)⟩,
    ?_, rfl, rfl, rfl, simWM_gram qf X y K hc, simQM_eq qf X y K hc,
    fun r Z => ⟨mul_of _ _, mul_of _ _⟩, rfl, rfl⟩
  rw [simplsTrain_eq qf X y (domOf eig) K hp count hdom, if_neg (by omega)]

/-- **C55.** The fitted values are the projection of the response on the scores, i.e. the least-squares fit. -/
theorem C55_least_squares {eig : Mat ℝ → Mat ℝ × Mat ℝ} (he : EigOne eig) (hp : 0 < p) (K : Nat) {count : Int}
    (hcount : count ≤ 0) (X : Matrix (Fin n) (Fin p) ℝ) (y : Matrix (Fin n) (Fin 1) ℝ) (h : Regular (pls1W y) K X) :
    ∃ (T : Matrix (Fin n) (Fin K) ℝ) (F : Matrix (Fin n) (Fin 1) ℝ) (m : SimplsModel ℝ),
      simplsTrain (domOf eig) K count (of X) (of y) = .ok m ∧ simplsTransform m (of X) = .ok (of T) ∧
      simplsPredict m (of X) = .ok (of F) ∧ F = T * Tᵀ * y ∧
      ∀ c : Matrix (Fin K) (Fin 1) ℝ, ∑ i, (y i 0 - F i 0) ^ 2 ≤ ∑ i, (y i 0 - (T * c) i 0) ^ 2 := by
  obtain ⟨W, Q, m, h1, -, -, -, h5, h6, h7, -, -⟩ := C55_scores_partial he hp K hcount X y h
  have hF : X * (W * Qᵀ) = X * W * (X * W)ᵀ * y := by rw [h6, ← Matrix.mul_assoc, Matrix.mul_assoc (X * W)]
  refine ⟨X * W, X * (W * Qᵀ), m, h1, (h7 n X).1, (h7 n X).2, hF, fun c => ?_⟩
  have hres : (X * W)ᵀ * (y - X * W * ((X * W)ᵀ * y)) = 0 := by
    rw [Matrix.mul_sub, ← Matrix.mul_assoc, h5, Matrix.one_mul, sub_self]
  have := lsq_of_orth (X * W) y ((X * W)ᵀ * y) c hres
  simp only [sq1, ← sq, Matrix.sub_apply] at this
  rw [hF, Matrix.mul_assoc]
  exact this

/-- **C55.** New data of the wrong width is rejected, whatever the model. -/
theorem C55_width (m : SimplsModel ℝ) {K : Nat} (W : Matrix (Fin p) (Fin K) ℝ) (B : Matrix (Fin p) (Fin 1) ℝ)
    (hW : m.W = of W) (hB : m.B = of B) {r c : Nat} (hc : c ≠ p) (Z : Matrix (Fin r) (Fin c) ℝ) :
    simplsTransform m (of Z) = .error .valueError ∧ simplsPredict m (of Z) = .error .valueError := by
  constructor
  · unfold simplsTransform
    rw [hW]
    exact mul_error hc
  · unfold simplsPredict
    rw [hB]
    exact mul_error hc

/-- **C73.** On every data set SIMPLS (without slimming) and PLS1 make the same predictions. -/
theorem C73_same_predictions {eig : Mat ℝ → Mat ℝ × Mat ℝ} (he : EigOne eig) (hn : 0 < n) (hp : 0 < p) {K : Nat}
    (hK : 0 < K) {count : Int} (hcount : count ≤ 0) (X : Matrix (Fin n) (Fin p) ℝ) (y : Matrix (Fin n) (Fin 1) ℝ)
    (h : Regular (pls1W y) K X) :
    ∃ (m : SimplsModel ℝ) (m' : Pls1Model ℝ) (T : Mat ℝ),
      simplsTrain (domOf eig) K count (of X) (of y) = .ok m ∧
      pls1Train pls1Weights K (of X) (of y) = .ok (m', T) ∧
      ∀ (r : Nat), 0 < r → ∀ Z : Matrix (Fin r) (Fin p) ℝ, ∃ F : Matrix (Fin r) (Fin 1) ℝ,
        simplsPredict m (of Z) = .ok (of F) ∧ pls1Predict K m' (of Z) = .ok (of F) := by
  obtain ⟨qf, hdom, hq⟩ := domOf_one he
  refine ⟨⟨of (simWM qf X y K), of (simWM qf X y K * (simQM qf X y K)ᵀ), of (simQM qf X y K)⟩, _, _, ?_,
    pls1Train_eq (pls1W y) pls1Weights K hn hp hK X y (fun k _ => pls1Weights_eq y _) h.sq1_ne,
    fun r hr Z => ⟨_, mul_of _ _, ?_⟩⟩
  · rw [simplsTrain_eq qf X y (domOf eig) K hp count hdom, if_neg (by omega)]
  · rw [pls1Predict_eq (pls1W y) hr, simpls_eq_pls1 hq h.sq1_ne]

/-- **C73.** The scores of the two methods span the same lines: each SIMPLS score is a non-zero multiple of the
PLS1 score. -/
theorem C73_same_scores {eig : Mat ℝ → Mat ℝ × Mat ℝ} (he : EigOne eig) (hn : 0 < n) (hp : 0 < p) {K : Nat}
    (hK : 0 < K) {count : Int} (hcount : count ≤ 0) (X : Matrix (Fin n) (Fin p) ℝ) (y : Matrix (Fin n) (Fin 1) ℝ)
    (h : Regular (pls1W y) K X) :
    ∃ (m : SimplsModel ℝ) (m' : Pls1Model ℝ) (T : Mat ℝ),
      simplsTrain (domOf eig) K count (of X) (of y) = .ok m ∧
      pls1Train pls1Weights K (of X) (of y) = .ok (m', T) ∧
      ∀ (r : Nat), 0 < r → ∀ Z : Matrix (Fin r) (Fin p) ℝ, ∃ S S' : Matrix (Fin r) (Fin K) ℝ,
        simplsTransform m (of Z) = .ok (of S) ∧ pls1Transform K m' (of Z) = .ok (of S') ∧
        ∀ j, ∃ c : ℝ, c ≠ 0 ∧ (∀ i, S' i j = c * S i j) := by
  obtain ⟨qf, hdom, hq⟩ := domOf_one he
  refine ⟨⟨of (simWM qf X y K), of (simWM qf X y K * (simQM qf X y K)ᵀ), of (simQM qf X y K)⟩, _, _, ?_,
    pls1Train_eq (pls1W y) pls1Weights K hn hp hK X y (fun k _ => pls1Weights_eq y _) h.sq1_ne,
    fun r hr Z => ⟨Z * simWM qf X y K, _, mul_of _ _, pls1Transform_eq (pls1W y) hr _ _ _ _ _, ?_⟩⟩
  · rw [simplsTrain_eq qf X y (domOf eig) K hp count hdom, if_neg (by omega)]
  · intro j
    obtain ⟨-, c, hc, hr⟩ := same_all (qf := qf) hq h.sq1_ne j.1 j.2
    refine ⟨c, hc, fun i => ?_⟩
    show plsS (pls1W y) X Z j.1 i 0 = c * (Z * simWM qf X y K) i j
    rw [plsS_mul, hr, Matrix.mul_smul]
    rfl

example := C55_scores_partial eigOne_ok (by decide) 2 (count := 0) le_rfl exX exY ex_regular
example := C73_same_predictions eigOne_ok (by decide) (by decide) (K := 2) (by decide) (count := 0) le_rfl exX exY
  ex_regular

/-! ## Slimming -/

/-- **C56.** What slimming does, for every matrix, count and whatever ties there are: an entry survives exactly if
at most `count` entries of its column are larger in magnitude. -/
theorem C56_slim {K : Nat} (hp : 0 < p) (count : Nat) (W : Matrix (Fin p) (Fin K) ℝ) :
    slim (count : Int) (of W) = .ok (of (Matrix.of fun i j =>
      if (Finset.univ.filter fun i' => |W i j| < |W i' j|).card ≤ count then W i j else 0)) := by
  obtain ⟨thr, h, hb⟩ := slim_eq hp count W
  rw [h]
  refine congrArg (fun M => Except.ok (of M)) ?_
  ext i j
  obtain ⟨h1, h2⟩ := hb j
  have hlow : (Finset.univ.filter fun i' => ¬ |W i' j| < thr j).card = p - (Finset.univ.filter fun i' => |W i' j| < thr j).card := by
    have := Finset.card_filter_add_card_filter_not (s := (Finset.univ : Finset (Fin p))) (fun i' => |W i' j| < thr j)
    rw [Finset.card_univ, Fintype.card_fin] at this
    omega
  have hhigh : (Finset.univ.filter fun i' => ¬ |W i' j| ≤ thr j).card = p - (Finset.univ.filter fun i' => |W i' j| ≤ thr j).card := by
    have := Finset.card_filter_add_card_filter_not (s := (Finset.univ : Finset (Fin p))) (fun i' => |W i' j| ≤ thr j)
    rw [Finset.card_univ, Fintype.card_fin] at this
    omega
  simp only [slimCols, Matrix.of_apply, j.2, true_and]
  by_cases hi : |W i j| < thr j
  · have hsub : (Finset.univ.filter fun i' => ¬ |W i' j| < thr j) ⊆ Finset.univ.filter fun i' => |W i j| < |W i' j| := by
      intro i' hi'
      exact Finset.mem_filter.mpr ⟨Finset.mem_univ _, lt_of_lt_of_le hi (not_lt.mp (Finset.mem_filter.mp hi').2)⟩
    have hcard := Finset.card_le_card hsub
    have hpos : 0 < (Finset.univ.filter fun i' => |W i' j| < thr j).card :=
      Finset.card_pos.mpr ⟨i, Finset.mem_filter.mpr ⟨Finset.mem_univ _, hi⟩⟩
    rw [if_pos hi, if_neg (by omega)]
  · have hsub : (Finset.univ.filter fun i' => |W i j| < |W i' j|) ⊆ Finset.univ.filter fun i' => ¬ |W i' j| ≤ thr j := by
      intro i' hi'
      exact Finset.mem_filter.mpr ⟨Finset.mem_univ _, not_le.mpr (lt_of_le_of_lt (not_lt.mp hi) (Finset.mem_filter.mp hi').2)⟩
    have hcard := Finset.card_le_card hsub
    rw [if_neg hi, if_pos (by omega)]

/-- Number of entries of a finite family with at most `m` larger ones, if all are different. -/
theorem card_top {f : Fin p → ℝ} (hf : Function.Injective f) (m : Nat) :
    (Finset.univ.filter fun i => (Finset.univ.filter fun i' => f i < f i').card ≤ m).card = min (m + 1) p := by
  obtain ⟨-, σ, -, -, hb, hm⟩ := sort_real f
  have hlt : ∀ a b, f (σ a) < f (σ b) ↔ a < b := by
    intro a b
    constructor
    · intro h
      by_contra hab
      exact absurd h (not_lt.mpr (hm b a (not_lt.mp hab)))
    · intro h
      exact lt_of_le_of_ne (hm a b h.le) fun e => h.ne (hb.1 (hf e))
  have hcount : ∀ a : Fin p, (Finset.univ.filter fun i' => f (σ a) < f i').card = p - 1 - a.1 := by
    intro a
    have : (Finset.univ.filter fun i' => f (σ a) < f i') = (Finset.Ioi a).image σ := by
      ext i
      obtain ⟨b, rfl⟩ := hb.2 i
      simp only [Finset.mem_filter, Finset.mem_univ, true_and, Finset.mem_image, Finset.mem_Ioi, hlt]
      exact ⟨fun h => ⟨b, h, rfl⟩, fun ⟨c, hc, e⟩ => hb.1 e ▸ hc⟩
    rw [this, Finset.card_image_of_injective _ hb.1, Fin.card_Ioi]
  have : (Finset.univ.filter fun i => (Finset.univ.filter fun i' => f i < f i').card ≤ m) =
      (Finset.univ.filter fun a : Fin p => p - 1 - a.1 ≤ m).image σ := by
    ext i
    obtain ⟨b, rfl⟩ := hb.2 i
    simp only [Finset.mem_filter, Finset.mem_univ, true_and, Finset.mem_image, hcount]
    exact ⟨fun h => ⟨b, h, rfl⟩, fun ⟨c, hc, e⟩ => hb.1 e ▸ hc⟩
  rw [this, Finset.card_image_of_injective _ hb.1]
  have h2 : (Finset.univ.filter fun a : Fin p => p - 1 - a.1 ≤ m) = (Finset.univ.filter fun a : Fin p => a.1 ≤ m).image Fin.rev := by
    ext a
    simp only [Finset.mem_filter, Finset.mem_univ, true_and, Finset.mem_image]
    constructor
    · intro h
      exact ⟨a.rev, by rw [Fin.val_rev]; omega, Fin.rev_rev a⟩
    · rintro ⟨b, hb, rfl⟩
      rw [Fin.val_rev]
      have := b.2
      omega
  rw [h2, Finset.card_image_of_injective _ Fin.rev_injective]
  rcases Nat.lt_or_ge m p with h | h
  · have : (Finset.univ.filter fun a : Fin p => a.1 ≤ m) = Finset.Iic ⟨m, h⟩ := by
      ext a
      simp [Fin.le_def]
    rw [this, Fin.card_Iic]
    show m + 1 = min (m + 1) p
    omega
  · have : (Finset.univ.filter fun a : Fin p => a.1 ≤ m) = Finset.univ := by
      ext a
      simp
      have := a.2
      omega
    rw [this, Finset.card_univ, Fintype.card_fin]
    omega

/-- **C56** (full statement: `count` entries are kept).  What holds: if the entries of a column have different
non-zero magnitudes then `count + 1` are kept (all, if there are fewer), and every kept entry is larger than
every entry set to zero. -/
theorem C56_kept_partial {K : Nat} (hp : 0 < p) (count : Nat) (W : Matrix (Fin p) (Fin K) ℝ) :
    ∃ R : Matrix (Fin p) (Fin K) ℝ, slim (count : Int) (of W) = .ok (of R) ∧
      (∀ i j, R i j = 0 ∨ R i j = W i j) ∧
      (∀ i i' j, R i j ≠ W i j → R i' j ≠ 0 → |W i j| < |W i' j|) ∧
      ∀ j, (Function.Injective fun i => |W i j|) → (∀ i, W i j ≠ 0) →
        (Finset.univ.filter fun i => R i j ≠ 0).card = min (count + 1) p := by
  refine ⟨_, C56_slim hp count W, fun i j => ?_, fun i i' j h h' => ?_, fun j hinj h0 => ?_⟩
  · simp only [Matrix.of_apply]
    split
    · exact Or.inr rfl
    · exact Or.inl rfl
  · simp only [Matrix.of_apply] at h h'
    have h1 : ¬ (Finset.univ.filter fun i'' => |W i j| < |W i'' j|).card ≤ count := fun e => h (if_pos e)
    have h2 : (Finset.univ.filter fun i'' => |W i' j| < |W i'' j|).card ≤ count := by
      by_contra e
      exact h' (if_neg e)
    by_contra hle
    refine h1 (le_trans (Finset.card_le_card fun a ha => ?_) h2)
    exact Finset.mem_filter.mpr ⟨Finset.mem_univ _, lt_of_le_of_lt (not_lt.mp hle) (Finset.mem_filter.mp ha).2⟩
  · rw [← card_top hinj count]
    refine congrArg Finset.card (Finset.filter_congr fun i _ => ?_)
    simp only [Matrix.of_apply]
    constructor
    · intro h
      by_contra e
      exact h (if_neg e)
    · intro h e
      exact h0 i ((if_pos h).symm.trans e)

/-- **C56** fails for every matrix large enough: with different non-zero magnitudes the number of entries kept is
never `count`. -/
theorem C56_count_violation {K : Nat} (count : Nat) (hp : count < p) (W : Matrix (Fin p) (Fin K) ℝ) (j : Fin K)
    (hinj : Function.Injective fun i => |W i j|) (h0 : ∀ i, W i j ≠ 0) :
    ∃ R : Matrix (Fin p) (Fin K) ℝ, slim (count : Int) (of W) = .ok (of R) ∧
      (Finset.univ.filter fun i => R i j ≠ 0).card = count + 1 := by
  obtain ⟨R, h, -, -, hc⟩ := C56_kept_partial (by omega) count W
  refine ⟨R, h, ?_⟩
  rw [hc j hinj h0]
  omega

/-! Concrete case: three predictors, one coefficient wanted. -/

/-- Response `(2, 3, 6)`, of length 7. -/
def slimY : Matrix (Fin 3) (Fin 1) ℝ := !![2; 3; 6]

theorem slimY_inj : Function.Injective fun i => |slimY i 0| := by
  intro a b
  fin_cases a <;> fin_cases b <;> simp [slimY]

example := C56_count_violation 1 (by decide) slimY 0 slimY_inj (by intro i; fin_cases i <;> simp [slimY])

/-- **C55** fails with slimming: for the predictors `I`, the response `(2, 3, 6)`, one component and one
coefficient, every norm in training is non-zero but the score has length `√45 / 7`. -/
theorem C55_slim_violation {eig : Mat ℝ → Mat ℝ × Mat ℝ} (he : EigOne eig) :
    ∃ (W : Matrix (Fin 3) (Fin 1) ℝ) (m : SimplsModel ℝ), Regular (pls1W slimY) 1 (1 : Matrix (Fin 3) (Fin 3) ℝ) ∧
      simplsTrain (domOf eig) 1 1 (of (1 : Matrix (Fin 3) (Fin 3) ℝ)) (of slimY) = .ok m ∧
      m.W = of W ∧ Wᵀ * W ≠ 1 := by
  have hr : Regular (pls1W slimY) 1 (1 : Matrix (Fin 3) (Fin 3) ℝ) := by
    refine Regular.of_sq1 fun k hk => ?_
    obtain rfl : k = 0 := by omega
    show sq1 ((1 : Matrix (Fin 3) (Fin 3) ℝ) * pls1W slimY 1) ≠ 0
    rw [Matrix.one_mul, pls1W_eq, sq1_smul, Matrix.transpose_one, Matrix.one_mul]
    have : sq1 slimY = 49 := by simp [sq1, slimY, Fin.sum_univ_three]; norm_num
    rw [this]
    positivity
  obtain ⟨qf, hdom, hq⟩ := domOf_one he
  have hc := fun j hj => (same_all (qf := qf) hq hr.sq1_ne j hj).1
  have hgram := simWM_gram qf (1 : Matrix (Fin 3) (Fin 3) ℝ) slimY 1 hc
  rw [Matrix.one_mul] at hgram
  -- the only weight is a multiple of the response
  have hw : ∃ c : ℝ, simWM qf (1 : Matrix (Fin 3) (Fin 3) ℝ) slimY 1 = c • slimY := by
    have hu : simU qf (1 : Matrix (Fin 3) (Fin 3) ℝ) slimY 0 = qf (((1 : Matrix (Fin 3) (Fin 3) ℝ)ᵀ * slimY)ᵀ *
        ((1 : Matrix (Fin 3) (Fin 3) ℝ)ᵀ * slimY)) 0 0 • slimY := by
      have : (1 : Matrix (Fin 3) (Fin 3) ℝ)ᵀ * slimY = slimY := by rw [Matrix.transpose_one, Matrix.one_mul]
      rw [← mul_one_one]
      rw [this]
      show ((1 : Matrix (Fin 3) (Fin 3) ℝ)ᵀ * slimY) * qf (((1 : Matrix (Fin 3) (Fin 3) ℝ)ᵀ * slimY)ᵀ *
        ((1 : Matrix (Fin 3) (Fin 3) ℝ)ᵀ * slimY)) = _
      rw [this]
    refine ⟨(Real.sqrt (sq1 ((1 : Matrix (Fin 3) (Fin 3) ℝ) * simU qf 1 slimY 0)))⁻¹ *
      qf (((1 : Matrix (Fin 3) (Fin 3) ℝ)ᵀ * slimY)ᵀ * ((1 : Matrix (Fin 3) (Fin 3) ℝ)ᵀ * slimY)) 0 0, ?_⟩
    rw [mul_smul, ← hu, ← (simInv hc 0 (by omega)).w_eq]
    ext i j
    rw [Subsingleton.elim j 0]
    rfl
  obtain ⟨c, hw⟩ := hw
  rw [hw] at hgram
  have hc2 : c * c * 49 = 1 := by
    have := congrFun (congrFun hgram 0) 0
    rw [sq1_eq, sq1_smul, Matrix.one_apply_eq, show sq1 slimY = 49 by simp [sq1, slimY, Fin.sum_univ_three]; norm_num] at this
    exact this
  have hc0 : 0 < |c| := abs_pos.mpr fun e => by rw [e] at hc2; norm_num at hc2
  have hslim := C56_slim (by decide) 1 (c • slimY)
  refine ⟨Matrix.of fun i j => if i = 0 then 0 else (c • slimY) i j,
    ⟨_, of (Matrix.of (fun i j => if i = 0 then 0 else (c • slimY) i j) *
      (simQM qf (1 : Matrix (Fin 3) (Fin 3) ℝ) slimY 1)ᵀ), of (simQM qf (1 : Matrix (Fin 3) (Fin 3) ℝ) slimY 1)⟩,
    hr, ?_, rfl, ?_⟩
  · have htr := simplsTrain_eq qf (1 : Matrix (Fin 3) (Fin 3) ℝ) slimY (domOf eig) 1 (by decide) 1 hdom
    rw [if_pos (by decide), hw] at htr
    have hsl : slim (1 : Int) (of (c • slimY)) = .ok (of (Matrix.of fun i j => if i = 0 then 0 else (c • slimY) i j)) := by
      refine hslim.trans (congrArg (fun M => Except.ok (of M)) ?_)
      ext i j
      rw [Subsingleton.elim j 0]
      simp only [Matrix.of_apply, Matrix.smul_apply, smul_eq_mul, abs_mul, mul_lt_mul_iff_right₀ hc0]
      have e : ∀ i i', (|slimY i 0| < |slimY i' 0|) ↔ i < i' := by
        intro i i'
        fin_cases i <;> fin_cases i' <;> (simp [slimY]; try norm_num)
      simp only [e]
      rcases (by revert i; decide : i = 0 ∨ i = 1 ∨ i = 2) with rfl | rfl | rfl
      · exact (if_neg (by decide)).trans (if_pos rfl).symm
      · exact (if_pos (by decide)).trans (if_neg (by decide)).symm
      · exact (if_pos (by decide)).trans (if_neg (by decide)).symm
    rw [hsl] at htr
    simp only [except_bind_ok, mul_of] at htr
    exact htr
  · intro h
    have := congrFun (congrFun h 0) 0
    rw [Matrix.mul_apply, Fin.sum_univ_three] at this
    simp [slimY] at this
    nlinarith

example := C55_slim_violation eigOne_ok

end Verif.Props
