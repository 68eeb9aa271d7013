import Verif.Props.PlsGram
import Verif.Props.PlsRotation
import Verif.Props.ExtendedPrep
import Verif.Props.Rounding2

/-!
# C149: predictors that never change

Columns that are the same for all training samples (dead channels, one-valued flags) carry no information.  Adding them to the training data, in any
place, should not change any prediction, whatever values they have for new samples.
-/

namespace Verif.Props
open Verif Mat Factory Transf
open scoped Matrix

variable {n p p' q r : Nat}

/-- `X'` has the columns of `X`, column `j` in place `e j`, and otherwise columns that are constant. -/
structure Padded (e : Fin p → Fin p') (X : Matrix (Fin n) (Fin p) ℝ) (X' : Matrix (Fin n) (Fin p') ℝ) : Prop where
  inj : Function.Injective e
  kept : ∀ i j, X' i (e j) = X i j
  const : ∀ k, (∀ j, e j ≠ k) → ∀ i i', X' i k = X' i' k

/-- The values of the predictors that were kept. -/
def onKept (e : Fin p → Fin p') (Z : Matrix (Fin r) (Fin p') ℝ) : Matrix (Fin r) (Fin p) ℝ := Matrix.of fun i j => Z i (e j)

theorem sum_onKept {e : Fin p → Fin p'} (he : Function.Injective e) (f : Fin p' → ℝ) (h : ∀ k, (∀ j, e j ≠ k) → f k = 0) :
    ∑ j, f (e j) = ∑ k, f k :=
  Fintype.sum_of_injective e he (fun j => f (e j)) f (fun k hk => h k fun j hj => hk ⟨j, hj⟩) fun _ => rfl

section centred
variable {e : Fin p → Fin p'} {X : Matrix (Fin n) (Fin p) ℝ} {X' : Matrix (Fin n) (Fin p') ℝ} (h : Padded e X X')
include h

theorem Padded.mean (j : Fin p) : (mu fun k => X' k (e j)) = mu fun k => X k j := by
  simp only [h.kept]

theorem Padded.cen_zero (hn : 0 < n) (k : Fin p') (hk : ∀ j, e j ≠ k) (i : Fin n) : cen X' X' i k = 0 := by
  have hn' : (n : ℝ) ≠ 0 := by exact_mod_cast hn.ne'
  have : (mu fun l => X' l k) = X' i k := by
    unfold mu
    rw [Finset.sum_congr rfl fun l _ => h.const k hk l i, Finset.sum_const, Finset.card_univ, Fintype.card_fin, nsmul_eq_mul,
      mul_div_cancel_left₀ _ hn']
  show X' i k - _ = 0
  rw [this, sub_self]

theorem Padded.cen_kept (Z : Matrix (Fin r) (Fin p') ℝ) (i : Fin r) (j : Fin p) : cen X' Z i (e j) = cen X (onKept e Z) i j := by
  show Z i (e j) - _ = Z i (e j) - _
  rw [h.mean]

theorem Padded.gram (hn : 0 < n) (Z : Matrix (Fin r) (Fin p') ℝ) (i : Fin r) (j : Fin n) :
    ∑ l, cen X (onKept e Z) i l * cen X X j l = ∑ l, cen X' Z i l * cen X' X' j l := by
  rw [← sum_onKept h.inj (fun l => cen X' Z i l * cen X' X' j l) fun k hk => by rw [h.cen_zero hn k hk, mul_zero]]
  refine Finset.sum_congr rfl fun l _ => ?_
  rw [h.cen_kept, h.cen_kept]
  have : onKept e X' = X := by ext i j; exact h.kept i j
  rw [this]

theorem Padded.onKept_eq : onKept e X' = X := by ext i j; exact h.kept i j

end centred

/-! ## PLS1 and SIMPLS -/

/-- C149.  **PLS1 without preprocessing**: columns of zeros have no influence. -/
theorem C149_pls1_none (hn : 0 < n) (hp : 0 < p) (hp' : 0 < p') {K : Nat} (hK : 0 < K) (e : Fin p → Fin p')
    (X : Matrix (Fin n) (Fin p) ℝ) (X' : Matrix (Fin n) (Fin p') ℝ) (h : Padded e X X') (h0 : ∀ k, (∀ j, e j ≠ k) → ∀ i, X' i k = 0)
    (y : Matrix (Fin n) (Fin 1) ℝ) (hr : Regular (pls1W y) K X) :
    ∃ (m m' : Pls1Model ℝ) (T : Mat ℝ), pls1Train pls1Weights K (of X) (of y) = .ok (m, T) ∧
      pls1Train pls1Weights K (of X') (of y) = .ok (m', T) ∧
      ∀ {r : Nat}, 0 < r → ∀ Z : Matrix (Fin r) (Fin p') ℝ, ∃ F : Matrix (Fin r) (Fin 1) ℝ,
        pls1Predict K m (of (onKept e Z)) = .ok (of F) ∧ pls1Predict K m' (of Z) = .ok (of F) := by
  have g : ∀ {r : Nat} (Z : Matrix (Fin r) (Fin p') ℝ) (i : Fin r) (j : Fin n), ∑ l, onKept e Z i l * X j l = ∑ l, Z i l * X' j l := by
    intro r Z i j
    rw [← sum_onKept h.inj (fun l => Z i l * X' j l) fun k hk => by rw [h0 k hk, mul_zero]]
    exact Finset.sum_congr rfl fun l _ => by rw [h.kept]; rfl
  obtain ⟨m, m', T, h1, h2, h3⟩ := C136_pls1 hn hp hp' hK X X' (fun i j => by rw [← g X', h.onKept_eq]) y hr
  refine ⟨m, m', T, h1, h2, fun {r} hr Z => ?_⟩
  obtain ⟨S, F, -, -, h4, h5⟩ := h3 hr (onKept e Z) Z (g Z)
  exact ⟨F, h4, h5⟩

/-- C149.  **PLS1 with CENTER**: constant columns have no influence. -/
theorem C149_pls1_center (hn : 0 < n) (hp : 0 < p) (hp' : 0 < p') {K : Nat} (hK : 0 < K) (e : Fin p → Fin p')
    (X : Matrix (Fin n) (Fin p) ℝ) (X' : Matrix (Fin n) (Fin p') ℝ) (h : Padded e X X')
    (y : Matrix (Fin n) (Fin 1) ℝ) (hr : Regular (pls1W (cen y y)) K (cen X X)) (isZero : ℝ → Bool) :
    ∃ s s', singleTrain isZero (pls1Base K) .center (of X) (of y) = .ok s ∧
      singleTrain isZero (pls1Base K) .center (of X') (of y) = .ok s' ∧
      ∀ {r : Nat}, 0 < r → ∀ Z : Matrix (Fin r) (Fin p') ℝ, ∃ F : Matrix (Fin r) (Fin 1) ℝ,
        singlePredict (pls1Predict K) s (of (onKept e Z)) = .ok (of F) ∧ singlePredict (pls1Predict K) s' (of Z) = .ok (of F) := by
  have hc : Padded e (cen X X) (cen X' X') :=
    ⟨h.inj, fun i j => by rw [h.cen_kept, h.onKept_eq], fun k hk i i' => by rw [h.cen_zero hn k hk, h.cen_zero hn k hk]⟩
  obtain ⟨m, m', T, h1, h2, h3⟩ := C149_pls1_none hn hp hp' hK e _ _ hc (fun k hk i => h.cen_zero hn k hk i) (cen y y) hr
  obtain ⟨s, g1, g2⟩ := C51_center_value (pls1Base K) (pls1Predict K) isZero X y m (by unfold pls1Base; rw [h1]; rfl)
  obtain ⟨s', g1', g2'⟩ := C51_center_value (pls1Base K) (pls1Predict K) isZero X' y m' (by unfold pls1Base; rw [h2]; rfl)
  refine ⟨s, s', g1, g1', fun {r} hr Z => ?_⟩
  obtain ⟨F, h4, h5⟩ := h3 hr Z
  exact ⟨_, g2 _ _ h4, g2' _ _ h5⟩

/-- C149.  **SIMPLS** (not slimmed) without preprocessing: columns of zeros have no influence. -/
theorem C149_simpls_none {eig : Mat ℝ → Mat ℝ × Mat ℝ} (he : EigOne eig) (hn : 0 < n) (hp : 0 < p) (hp' : 0 < p') {K : Nat} (hK : 0 < K)
    {count : Int} (hcount : count ≤ 0) (e : Fin p → Fin p')
    (X : Matrix (Fin n) (Fin p) ℝ) (X' : Matrix (Fin n) (Fin p') ℝ) (h : Padded e X X') (h0 : ∀ k, (∀ j, e j ≠ k) → ∀ i, X' i k = 0)
    (y : Matrix (Fin n) (Fin 1) ℝ) (hr : Regular (pls1W y) K X) :
    ∃ m m' : SimplsModel ℝ, simplsTrain (domOf eig) K count (of X) (of y) = .ok m ∧ simplsTrain (domOf eig) K count (of X') (of y) = .ok m' ∧
      ∀ {r : Nat}, 0 < r → ∀ Z : Matrix (Fin r) (Fin p') ℝ, ∃ F : Matrix (Fin r) (Fin 1) ℝ,
        simplsPredict m (of (onKept e Z)) = .ok (of F) ∧ simplsPredict m' (of Z) = .ok (of F) := by
  have g : ∀ {r : Nat} (Z : Matrix (Fin r) (Fin p') ℝ) (i : Fin r) (j : Fin n), ∑ l, onKept e Z i l * X j l = ∑ l, Z i l * X' j l := by
    intro r Z i j
    rw [← sum_onKept h.inj (fun l => Z i l * X' j l) fun k hk => by rw [h0 k hk, mul_zero]]
    exact Finset.sum_congr rfl fun l _ => by rw [h.kept]; rfl
  obtain ⟨m, m', h1, h2, h3⟩ := C136_simpls he hn hp hp' hK hcount X X' (fun i j => by rw [← g X', h.onKept_eq]) y hr
  exact ⟨m, m', h1, h2, fun hr Z => h3 hr (onKept e Z) Z (g Z)⟩

/-- C149.  **SIMPLS with CENTER**: constant columns have no influence. -/
theorem C149_simpls_center {eig : Mat ℝ → Mat ℝ × Mat ℝ} (he : EigOne eig) (hn : 0 < n) (hp : 0 < p) (hp' : 0 < p') {K : Nat} (hK : 0 < K)
    {count : Int} (hcount : count ≤ 0) (e : Fin p → Fin p')
    (X : Matrix (Fin n) (Fin p) ℝ) (X' : Matrix (Fin n) (Fin p') ℝ) (h : Padded e X X')
    (y : Matrix (Fin n) (Fin 1) ℝ) (hr : Regular (pls1W (cen y y)) K (cen X X)) (isZero : ℝ → Bool) :
    ∃ s s', singleTrain isZero (simplsTrain (domOf eig) K count) .center (of X) (of y) = .ok s ∧
      singleTrain isZero (simplsTrain (domOf eig) K count) .center (of X') (of y) = .ok s' ∧
      ∀ {r : Nat}, 0 < r → ∀ Z : Matrix (Fin r) (Fin p') ℝ, ∃ F : Matrix (Fin r) (Fin 1) ℝ,
        singlePredict simplsPredict s (of (onKept e Z)) = .ok (of F) ∧ singlePredict simplsPredict s' (of Z) = .ok (of F) := by
  have hc : Padded e (cen X X) (cen X' X') :=
    ⟨h.inj, fun i j => by rw [h.cen_kept, h.onKept_eq], fun k hk i i' => by rw [h.cen_zero hn k hk, h.cen_zero hn k hk]⟩
  obtain ⟨m, m', h1, h2, h3⟩ := C149_simpls_none he hn hp hp' hK hcount e _ _ hc (fun k hk i => h.cen_zero hn k hk i) (cen y y) hr
  obtain ⟨s, g1, g2⟩ := C51_center_value (simplsTrain (domOf eig) K count) simplsPredict isZero X y m h1
  obtain ⟨s', g1', g2'⟩ := C51_center_value (simplsTrain (domOf eig) K count) simplsPredict isZero X' y m' h2
  refine ⟨s, s', g1, g1', fun {r} hr Z => ?_⟩
  obtain ⟨F, h4, h5⟩ := h3 hr Z
  exact ⟨_, g2 _ _ h4, g2' _ _ h5⟩

/-- C149 (what remains true with STANDARDIZE).  **A constant first column** has no influence on PLS1, since its deviation is replaced by one;
all other columns must vary. -/
theorem C149_pls1_standardize_partial (hn : 0 < n) {K : Nat} (hK : 0 < K) (X : Matrix (Fin n) (Fin (p + 1)) ℝ)
    (X' : Matrix (Fin n) (Fin (p + 2)) ℝ) (h : Padded Fin.succ X X') (hX : ∀ j, sd (fun k => X k j) ≠ 0)
    (y : Matrix (Fin n) (Fin 1) ℝ) (hr : Regular (pls1W (std y y)) K (std X X)) (isZero : ℝ → Bool) (hz : ∀ x, isZero x = true ↔ x = 0) :
    ∃ s s', singleTrain isZero (pls1Base K) .standardize (of X) (of y) = .ok s ∧
      singleTrain isZero (pls1Base K) .standardize (of X') (of y) = .ok s' ∧
      ∀ {r : Nat}, 0 < r → ∀ Z : Matrix (Fin r) (Fin (p + 2)) ℝ, ∃ F : Matrix (Fin r) (Fin 1) ℝ,
        singlePredict (pls1Predict K) s (of (onKept Fin.succ Z)) = .ok (of F) ∧ singlePredict (pls1Predict K) s' (of Z) = .ok (of F) := by
  have hs : ∀ k : Fin (p + 2), (∀ j : Fin (p + 1), j.succ ≠ k) → k = 0 := fun k hk => by
    by_contra h0
    obtain ⟨j, rfl⟩ := Fin.exists_succ_eq.2 h0
    exact hk j rfl
  have hz0 : ∀ k, (∀ j : Fin (p + 1), j.succ ≠ k) → ∀ i, std X' X' i k = 0 := fun k hk i => by
    show (cen X' X' i k) / _ = 0
    rw [h.cen_zero hn k hk, zero_div]
  have hc : Padded Fin.succ (std X X) (std X' X') := by
    refine ⟨h.inj, fun i j => ?_, fun k hk i i' => by rw [hz0 k hk, hz0 k hk]⟩
    show cen X' X' i j.succ / divisor X' j.succ = cen X X i j / divisor X j
    rw [h.cen_kept, h.onKept_eq]
    have e1 : divisor X j = sd fun k => X k j := if_neg fun h => hX j h.2
    have e2 : divisor X' j.succ = sd fun k => X' k j.succ := if_neg fun h => Nat.succ_ne_zero _ h.1
    rw [e1, e2]
    simp only [h.kept]
  obtain ⟨m, m', T, h1, h2, h3⟩ := C149_pls1_none hn (Nat.succ_pos p) (Nat.succ_pos _) hK Fin.succ _ _ hc hz0 (std y y) hr
  obtain ⟨s, g1, g2⟩ := C51_standardize_value (pls1Base K) (pls1Predict K) isZero hz X y m (by unfold pls1Base; rw [h1]; rfl)
  obtain ⟨s', g1', g2'⟩ := C51_standardize_value (pls1Base K) (pls1Predict K) isZero hz X' y m' (by unfold pls1Base; rw [h2]; rfl)
  refine ⟨s, s', g1, g1', fun {r} hr Z => ?_⟩
  obtain ⟨F, h4, h5⟩ := h3 hr Z
  exact ⟨_, g2 _ _ h4, g2' _ _ h5⟩

/-! ## KernelPLS -/

/-- Training and prediction see centred samples only through the kernel. -/
theorem kernel_padded {σ : Type} {c : KplsCfg ℝ σ} (kern : σ) (X : Matrix (Fin n) (Fin p) ℝ) (X' : Matrix (Fin n) (Fin p') ℝ)
    (h1 : c.kern1 kern (of (cen X' X')) = c.kern1 kern (of (cen X X))) (Z : Matrix (Fin r) (Fin p) ℝ) (Z' : Matrix (Fin r) (Fin p') ℝ)
    (h2 : ∀ s, s = (c.kern1 kern (of (cen X X))).1 →
      (c.kern2 s (of (cen X' Z')) (of (cen X' X'))).2 = (c.kern2 s (of (cen X Z)) (of (cen X X))).2)
    (Y : Matrix (Fin n) (Fin q) ℝ) :
    (kplsTrain c kern (of X') (of Y) >>= fun m => kplsPredict c m (of Z')) =
      (kplsTrain c kern (of X) (of Y) >>= fun m => kplsPredict c m (of Z)) := by
  have key : ∀ (cy : CenterState ℝ) (Ko : Mat ℝ) (v : KplsVars ℝ) (B : Mat ℝ),
      kplsTransform c ⟨(c.kern1 kern (of (cen X X))).1, cenState X', cy, of (cen X' X'), Ko, v, B⟩ (of Z') =
        kplsTransform c ⟨(c.kern1 kern (of (cen X X))).1, cenState X, cy, of (cen X X), Ko, v, B⟩ (of Z) := by
    intro cy Ko v B
    unfold kplsTransform
    simp only []
    rw [cen_do, cen_do]
    simp only [except_bind_ok]
    rw [h2 _ rfl]
  unfold kplsTrain
  rw [cen_fit, cen_fit, cen_fit]
  simp only [except_bind_ok, bind_assoc]
  rw [h1]
  refine bind_congr fun K => bind_congr fun K' => bind_congr fun s => bind_congr fun s' => bind_congr fun B => ?_
  unfold kplsPredict
  simp only [key]

/-- C149.  **KernelPLS with the linear kernel**: constant columns have no influence, success or failure. -/
theorem C149_kernel_linear {c : KplsCfg ℝ Unit} (hn : 0 < n) (h1 : c.kern1 = fun s A => (s, linearMatrix A none))
    (h2 : c.kern2 = fun s A B => (s, linearMatrix A (some B))) (e : Fin p → Fin p') (X : Matrix (Fin n) (Fin p) ℝ)
    (X' : Matrix (Fin n) (Fin p') ℝ) (h : Padded e X X') (Y : Matrix (Fin n) (Fin q) ℝ) (Z : Matrix (Fin r) (Fin p') ℝ) :
    (kplsTrain c () (of X') (of Y) >>= fun m => kplsPredict c m (of Z)) =
      (kplsTrain c () (of X) (of Y) >>= fun m => kplsPredict c m (of (onKept e Z))) := by
  have g : ∀ {s : Nat} (Z : Matrix (Fin s) (Fin p') ℝ), cen X' Z * (cen X' X')ᵀ = cen X (onKept e Z) * (cen X X)ᵀ := by
    intro s Z
    ext i j
    simp only [Matrix.mul_apply, Matrix.transpose_apply]
    exact (h.gram hn Z i j).symm
  have g' := g X'
  rw [h.onKept_eq] at g'
  refine kernel_padded () X X' ?_ (onKept e Z) Z (fun s _ => ?_) Y
  · rw [h1]
    simp only [linearMatrix, Option.getD_none]
    rw [transpose_of, transpose_of, mul_of, mul_of, g']
  · rw [h2]
    simp only [linearMatrix, Option.getD_some]
    rw [transpose_of, transpose_of, mul_of, mul_of, g]

/-- C149.  **KernelPLS with the RBF kernel and a given `gamma`**: constant columns have no influence on new samples that have these constants,
too.  (The default `gamma` is one over the number of columns and does change.) -/
theorem C149_kernel_rbf {c : KplsCfg ℝ (Option ℝ)} (hn : 0 < n) (h1 : c.kern1 = applyMatrix1 rbfVector)
    (h2 : c.kern2 = applyMatrix2 rbfVector) (gamma : ℝ) (e : Fin p → Fin p') (X : Matrix (Fin n) (Fin p) ℝ)
    (X' : Matrix (Fin n) (Fin p') ℝ) (h : Padded e X X') (Y : Matrix (Fin n) (Fin q) ℝ) (hr : 0 < r) (Z : Matrix (Fin r) (Fin p') ℝ)
    (hZ : ∀ k, (∀ j, e j ≠ k) → ∀ i i', Z i k = X' i' k) :
    (kplsTrain c (some gamma) (of X') (of Y) >>= fun m => kplsPredict c m (of Z)) =
      (kplsTrain c (some gamma) (of X) (of Y) >>= fun m => kplsPredict c m (of (onKept e Z))) := by
  have g : ∀ {s : Nat} (Z : Matrix (Fin s) (Fin p') ℝ), (∀ k, (∀ j, e j ≠ k) → ∀ i i', Z i k = X' i' k) → ∀ i j,
      rbf gamma (cen X' Z i) (cen X' X' j) = rbf gamma (cen X (onKept e Z) i) (cen X X j) := by
    intro s Z hZ i j
    have hd : ∑ l, (cen X' Z i l - cen X' X' j l) * (cen X' Z i l - cen X' X' j l) =
        ∑ l, (cen X (onKept e Z) i l - cen X X j l) * (cen X (onKept e Z) i l - cen X X j l) := by
      rw [← sum_onKept h.inj (fun l => (cen X' Z i l - cen X' X' j l) * (cen X' Z i l - cen X' X' j l)) fun k hk => by
        have : cen X' Z i k = cen X' X' j k := by
          show Z i k - _ = X' j k - _
          rw [hZ k hk i j]
        rw [this, sub_self, mul_zero]]
      refine Finset.sum_congr rfl fun l _ => ?_
      rw [h.cen_kept, h.cen_kept, h.onKept_eq]
    show Real.exp (-gamma * Real.sqrt _) = Real.exp (-gamma * Real.sqrt _)
    rw [hd]
  have g' := g X' h.const
  rw [h.onKept_eq] at g'
  have e1 : c.kern1 (some gamma) (of (cen X' X')) = c.kern1 (some gamma) (of (cen X X)) := by
    rw [h1, (C39_rbf hn (some gamma) (cen X' X') (cen X' X')).2.1, (C39_rbf hn (some gamma) (cen X X) (cen X X)).2.1]
    simp only [Option.getD_some, g']
  refine kernel_padded (some gamma) X X' e1 (onKept e Z) Z (fun s hs => ?_) Y
  rw [h1, (C39_rbf hn (some gamma) (cen X X) (cen X X)).2.1] at hs
  subst hs
  rw [h2, (C39_rbf hr _ (cen X' Z) (cen X' X')).1, (C39_rbf hr _ (cen X (onKept e Z)) (cen X X)).1]
  simp only [Option.getD_some, g Z hZ]

/-- C149 (a limit).  **With the default `gamma`** the kernel itself changes as soon as two samples differ: the default is one over the number of
columns, constant ones included. -/
theorem C149_rbf_default_limits (hp : 0 < p) (hpp : p < p') (e : Fin p → Fin p') (X : Matrix (Fin n) (Fin p) ℝ)
    (X' : Matrix (Fin n) (Fin p') ℝ) (h : Padded e X X') (a b : Fin n) (hab : dist2 (X a) (X b) ≠ 0) :
    (applyMatrix1 rbfVector none (of X')).2 ≠ (applyMatrix1 rbfVector none (of X)).2 := by
  have hn : 0 < n := a.pos
  have hd : dist2 (X' a) (X' b) = dist2 (X a) (X b) := by
    unfold dist2
    rw [← sum_onKept h.inj (fun l => (X' a l - X' b l) * (X' a l - X' b l)) fun k hk => by rw [h.const k hk a b, sub_self, mul_zero]]
    simp only [h.kept]
  rw [(C39_rbf hn none X' X').2.1, (C39_rbf hn none X X).2.1]
  intro hc
  have h1 := congrFun (congrFun (of_inj.1 (Except.ok.inj hc)) a) b
  simp only [Option.getD_none, Matrix.of_apply, rbf, hd, Real.exp_eq_exp, neg_mul, neg_inj] at h1
  have h2 := mul_right_cancel₀ hab h1
  have hp0 : (0 : ℝ) < p := by exact_mod_cast hp
  have hp1 : (p : ℝ) < p' := by exact_mod_cast hpp
  exact absurd h2 (one_div_lt_one_div_of_lt hp0 hp1).ne

/-! ## STANDARDIZE -/

/-- C149 (false with STANDARDIZE).  **A constant column behind the first** makes every prediction NaN, although the same data without this column
give numbers. -/
theorem C149_standardize_violation :
    ∃ (A : Matrix (Fin 3) (Fin 1) ℝ) (A' : Matrix (Fin 3) (Fin 2) ℝ) (y : Matrix (Fin 3) (Fin 1) ℝ), Padded (fun _ => 0) A A' ∧
      (∀ isZero : ℝ → Bool, (∀ x, isZero x = true ↔ x = 0) → ∃ (m : SingleModel ℝ (Pls1Model ℝ)) (F : Matrix (Fin 3) (Fin 1) ℝ),
        singleTrain isZero (fun X y => (pls1Train pls1Weights (1 : Nat) X y).map Prod.fst) .standardize (of A) (of y) = .ok m ∧
        singlePredict (pls1Predict (1 : Nat)) m (of A) = .ok (of F)) ∧
      ∀ (isZero : X ℝ → Bool) (inv : Mat (X ℝ) → Except PyErr (Mat (X ℝ))),
        ((∀ (k : Nat) (M : Matrix (Fin k) (Fin k) (X ℝ)), ∃ R : Matrix (Fin k) (Fin k) (X ℝ), inv (of M) = .ok (of R)) →
          ∃ m, pls1SingleG isZero inv 1 .standardize (of (X.finMat A')) (of (X.finMat y)) = .ok m) ∧
        ∀ m, pls1SingleG isZero inv 1 .standardize (of (X.finMat A')) (of (X.finMat y)) = .ok m →
          ∀ {r : Nat}, 0 < r → ∀ Z : Matrix (Fin r) (Fin 2) (X ℝ),
            pls1SinglePredictG 1 m (of Z) = .ok (of (Matrix.of fun (_ : Fin r) (_ : Fin 1) => X.nan)) := by
  refine ⟨ramp, Matrix.of fun i j => if j = 0 then ramp i 0 else 5, ramp, ⟨fun _ _ _ => Subsingleton.elim _ _, fun i j => ?_, fun k hk i i' => ?_⟩,
    fun isZero hz => ?_, fun isZero inv => ⟨fun hinv => ?_, fun m hm r hr Z => ?_⟩⟩
  · rw [Subsingleton.elim j 0]; rfl
  · have : k ≠ 0 := fun h => hk 0 h.symm
    simp [this]
  · obtain ⟨m, h1, h2⟩ := exact_run (r := 3) (p := 0) (by decide) (by decide) (by decide) isZero hz .standardize (by decide) ramp ramp ramp_std_regular
    exact ⟨m, _, h1, h2 ramp⟩
  · exact C146_prep_training_ends isZero inv hinv (by decide) (by decide) (by decide) .standardize (by decide) _ _
  · refine C146_constant_predictor isZero inv (p := 1) (by decide) (by decide) _ _ 1 (by decide) (fun i k => ?_) m hm hr Z
    simp

/-! ## Concrete cases -/

/-- The training data of the example, with columns of zeros before, between and behind. -/
theorem pad_ex : Padded (![1, 3] : Fin 2 → Fin 5) exX (Matrix.of fun i j => if j = 1 then exX i 0 else if j = 3 then exX i 1 else 0) := by
  refine ⟨by decide, fun i j => ?_, fun k hk i i' => ?_⟩
  · fin_cases j <;> simp
  · have h1 : k ≠ 1 := fun h => hk 0 h.symm
    have h3 : k ≠ 3 := fun h => hk 1 h.symm
    simp [h1, h3]

example := C149_pls1_none (by decide) (by decide) (by decide) (K := 2) (by decide) _ exX _ pad_ex (fun k hk i => by
  have h1 : k ≠ 1 := fun h => hk 0 h.symm
  have h3 : k ≠ 3 := fun h => hk 1 h.symm
  simp [h1, h3]) exY ex_regular

example (start : Int → Int → Except PyErr (Mat ℝ)) (inv : Mat ℝ → Except PyErr (Mat ℝ)) :=
  C149_kernel_linear (c := ⟨2, 1 / 1000, 500, fun s A => (s, linearMatrix A none), fun s A B => (s, linearMatrix A (some B)), start,
    fun a b => decide (a < b), inv⟩) (by decide) rfl rfl _ exX _ pad_ex exY (!![7, 1, 8, 2, 9] : Matrix (Fin 1) (Fin 5) ℝ)

example (start : Int → Int → Except PyErr (Mat ℝ)) (inv : Mat ℝ → Except PyErr (Mat ℝ)) :=
  C149_kernel_rbf (c := ⟨2, 1 / 1000, 500, applyMatrix1 rbfVector, applyMatrix2 rbfVector, start, fun a b => decide (a < b), inv⟩) (by decide)
    rfl rfl (1 / 3) _ exX _ pad_ex exY (by decide) (!![0, 1, 0, 2, 0] : Matrix (Fin 1) (Fin 5) ℝ) (fun k hk i i' => by
      have h1 : k ≠ 1 := fun h => hk 0 h.symm
      have h3 : k ≠ 3 := fun h => hk 1 h.symm
      fin_cases k <;> simp_all)

example := C149_rbf_default_limits (by decide) (by decide) _ exX _ pad_ex 0 1 (by
  unfold dist2
  rw [Real.sqrt_ne_zero']
  simp [exX, Fin.sum_univ_two]
  try norm_num)

/-- A ramp and a column of fives in front. -/
theorem pad_ramp : Padded Fin.succ ramp (Matrix.of fun i (j : Fin 2) => if j = 1 then ramp i 0 else 5) := by
  refine ⟨Fin.succ_injective _, fun i j => ?_, fun k hk i i' => ?_⟩
  · rw [Subsingleton.elim j 0]; rfl
  · have h1 : k ≠ 1 := fun h => hk 0 h.symm
    simp [h1]

theorem ramp_cen_regular : Regular (pls1W (cen ramp ramp)) 1 (cen ramp ramp) := by
  have hw : pls1W (cen ramp ramp) (cen ramp ramp) = !![1] := ramp_weights _ _ cen_ramp cen_ramp
  refine Regular.of_sq1 fun k hk => ?_
  obtain rfl : k = 0 := by omega
  show sq1 (cen ramp ramp * pls1W (cen ramp ramp) (cen ramp ramp)) ≠ 0
  rw [hw, cen_ramp]
  simp [sq1, Matrix.mul_apply, Fin.sum_univ_three]

example := C149_pls1_center (by decide) (by decide) (by decide) (by decide) _ ramp _ pad_ramp ramp ramp_cen_regular

example := C149_pls1_standardize_partial (p := 0) (by decide) (by decide) ramp _ pad_ramp spread_ramp ramp ramp_std_regular (fun x => decide (x = 0))
  (fun x => by simp)

end Verif.Props
