import Verif.Core.Rounded
import Verif.Alg.PrepExt
import Verif.Props.ExtendedPls
import Verif.Props.TransfProps
import Verif.Props.PlsPrepProps

/-!
# C148: PLS1 in floating-point arithmetic

The training and prediction programs of PLS1, with all preprocessing options, run on the scalars `Fl A` of a machine `A` that meets the
standard model of floating-point arithmetic with unit roundoff `u` and underflow threshold `η`.
-/

namespace Verif.Props
open Verif Mat Transf
open Filter Topology
open scoped Matrix

/-- The predictions, as computed. -/
def gPred {α : Type} [Add α] [Sub α] [Mul α] [Zero α] [Div α] [HasSqrt α] {n p r : Nat} (K : Nat) (X : Matrix (Fin n) (Fin p) α)
    (y : Matrix (Fin n) (Fin 1) α) (Z : Matrix (Fin r) (Fin p) α) : Matrix (Fin r) (Fin 1) α :=
  Matrix.of fun a _ => sumFin fun k => gScore (gWM (gWeights y) K X) (gPM (gWeights y) K X) (Z a) k * gBM (gWeights y) K X y k 0

section limits
variable {ι : Type} {l : Filter ι} {A : ι → Arith} {m n p q r : Nat}

/-- Entrywise limit of stored matrices. -/
def MTo (l : Filter ι) (F : ∀ i, Matrix (Fin m) (Fin n) (Fl (A i))) (M : Matrix (Fin m) (Fin n) ℝ) : Prop :=
  ∀ a b, Vanishing.To l (fun i => F i a b) (M a b)

variable (V : Vanishing l A)
include V

theorem gmul_to {F : ∀ i, Matrix (Fin m) (Fin n) (Fl (A i))} {G : ∀ i, Matrix (Fin n) (Fin p) (Fl (A i))} {M : Matrix (Fin m) (Fin n) ℝ}
    {N : Matrix (Fin n) (Fin p) ℝ} (hF : MTo l F M) (hG : MTo l G N) : MTo l (fun i => gmul (F i) (G i)) (M * N) := by
  intro a b
  rw [Matrix.mul_apply]
  exact V.sum fun k => V.mul (hF a k) (hG k b)

theorem gdot_to {F G : ∀ i, Matrix (Fin n) (Fin 1) (Fl (A i))} {M N : Matrix (Fin n) (Fin 1) ℝ} (hF : MTo l F M) (hG : MTo l G N) :
    Vanishing.To l (fun i => gdot (F i) (G i)) (∑ k, M k 0 * N k 0) :=
  V.sum fun k => V.mul (hF k 0) (hG k 0)

omit V in
theorem transpose_to {F : ∀ i, Matrix (Fin m) (Fin n) (Fl (A i))} {M : Matrix (Fin m) (Fin n) ℝ} (hF : MTo l F M) :
    MTo l (fun i => (F i)ᵀ) Mᵀ := fun a b => hF b a

theorem gload_to {F : ∀ i, Matrix (Fin n) (Fin p) (Fl (A i))} {G : ∀ i, Matrix (Fin n) (Fin 1) (Fl (A i))} {M : Matrix (Fin n) (Fin p) ℝ}
    {t : Matrix (Fin n) (Fin 1) ℝ} (hF : MTo l F M) (hG : MTo l G t) (h : sq1 t ≠ 0) : MTo l (fun i => gload (F i) (G i)) (loading M t) :=
  fun a b => V.div (gmul_to V (transpose_to hF) hG a b) (gdot_to V hG hG) h

theorem gWeights_to {F : ∀ i, Matrix (Fin n) (Fin p) (Fl (A i))} {Y : ∀ i, Matrix (Fin n) (Fin 1) (Fl (A i))} {M : Matrix (Fin n) (Fin p) ℝ}
    {y : Matrix (Fin n) (Fin 1) ℝ} (hF : MTo l F M) (hY : MTo l Y y) (h : Mᵀ * y ≠ 0) : MTo l (fun i => gWeights (Y i) (F i)) (pls1W y M) := by
  have hc := gmul_to V (transpose_to hF) hY
  have hpos : 0 < sq1 (Mᵀ * y) := by
    refine lt_of_le_of_ne (Finset.sum_nonneg fun k _ => mul_self_nonneg _) fun h0 => h ?_
    have h2 := (Finset.sum_eq_zero_iff_of_nonneg fun k _ => mul_self_nonneg ((Mᵀ * y) k 0)).1 h0.symm
    ext i j
    rw [Subsingleton.elim j 0]
    exact mul_self_eq_zero.1 (h2 i (Finset.mem_univ i))
  intro a b
  obtain rfl : b = 0 := Subsingleton.elim _ _
  exact V.div (hc a 0) (V.sqrt (gdot_to V hc hc) hpos) (Real.sqrt_ne_zero'.2 hpos)

variable {X : ∀ i, Matrix (Fin n) (Fin p) (Fl (A i))} {Y : ∀ i, Matrix (Fin n) (Fin 1) (Fl (A i))} {M : Matrix (Fin n) (Fin p) ℝ}
    {y : Matrix (Fin n) (Fin 1) ℝ} (hX : MTo l X M) (hY : MTo l Y y)
include hX hY

theorem gX_to (d : Nat) (h : ∀ k < d, sq1 (plsT (pls1W y) M k) ≠ 0) : MTo l (fun i => gX (gWeights (Y i)) (X i) d) (plsX (pls1W y) M d) := by
  induction d with
  | zero => exact hX
  | succ d ih =>
    have ih := ih fun k hk => h k (by omega)
    have hd : sq1 (plsX (pls1W y) M d * pls1W y (plsX (pls1W y) M d)) ≠ 0 := h d (by omega)
    have hT := gmul_to V ih (gWeights_to V ih hY (cov_ne hd))
    have hP := gload_to V ih hT hd
    exact fun a b => V.sub (ih a b) (gmul_to V hT (transpose_to hP) a b)

variable {K : Nat} (h : ∀ k < K, sq1 (plsT (pls1W y) M k) ≠ 0)
include h

theorem gW_to (k : Nat) (hk : k < K) : MTo l (fun i => gW (gWeights (Y i)) (X i) k) (plsW (pls1W y) M k) :=
  gWeights_to V (gX_to V hX hY k fun j hj => h j (by omega)) hY (cov_ne (h k hk))

theorem gT_to (k : Nat) (hk : k < K) : MTo l (fun i => gT (gWeights (Y i)) (X i) k) (plsT (pls1W y) M k) :=
  gmul_to V (gX_to V hX hY k fun j hj => h j (by omega)) (gW_to V hX hY h k hk)

theorem gP_to (k : Nat) (hk : k < K) : MTo l (fun i => gP (gWeights (Y i)) (X i) k) (plsP (pls1W y) M k) :=
  gload_to V (gX_to V hX hY k fun j hj => h j (by omega)) (gT_to V hX hY h k hk) (h k hk)

theorem gB_to (k : Nat) (hk : k < K) : Vanishing.To l (fun i => gB (gWeights (Y i)) (X i) (Y i) k) (plsB (pls1W y) M y k) :=
  V.div (gdot_to V (gT_to V hX hY h k hk) hY) (gdot_to V (gT_to V hX hY h k hk) (gT_to V hX hY h k hk)) (h k hk)

variable {Z : ∀ i, Matrix (Fin r) (Fin p) (Fl (A i))} {N : Matrix (Fin r) (Fin p) ℝ} (hZ : MTo l Z N)
include hZ

theorem gRow_to (a : Fin r) (j : Nat) (hj : j ≤ K) (c : Fin p) :
    Vanishing.To l (fun i => gRow (gWM (gWeights (Y i)) K (X i)) (gPM (gWeights (Y i)) K (X i)) (Z i a) j c) (plsZ (pls1W y) M N j a c) := by
  induction j generalizing c with
  | zero => exact hZ a c
  | succ j ih =>
    have hjK : j < K := hj
    simp only [gRow, dif_pos hjK]
    have e : plsZ (pls1W y) M N (j + 1) a c = plsZ (pls1W y) M N j a c -
        plsP (pls1W y) M j c 0 * ∑ k, plsZ (pls1W y) M N j a k * plsW (pls1W y) M j k 0 := by
      rw [plsZ, Matrix.sub_apply, Matrix.mul_apply]
      simp [Matrix.mul_apply, mul_comm]
    rw [e]
    exact V.sub (ih (by omega) c) (V.mul (gP_to V hX hY h j hjK c 0) (V.sum fun k => V.mul (ih (by omega) k) (gW_to V hX hY h j hjK k 0)))

theorem gPred_to : MTo l (fun i => gPred K (X i) (Y i) (Z i)) (plsSM (pls1W y) K M N * plsBM (pls1W y) K M y) := by
  intro a b
  rw [Matrix.mul_apply]
  refine V.sum fun k => V.mul (V.sum (x := fun j => plsZ (pls1W y) M N k.1 a j * plsW (pls1W y) M k.1 j 0) fun j => ?_) (gB_to V hX hY h k.1 k.2)
  exact V.mul (gRow_to V hX hY h hZ a k.1 k.2.le j) (gW_to V hX hY h k.1 k.2 j 0)

end limits

/-! ## Preprocessing -/

section prep
variable {n p : Nat}

/-- What the preprocessing makes of a matrix. -/
noncomputable def prepMat : Prep → Matrix (Fin n) (Fin p) ℝ → Matrix (Fin n) (Fin p) ℝ
  | .center, A => cen A A
  | .standardize, A => std A A
  | _, A => A

/-- The offset added to predictions. -/
noncomputable def prepMean : Prep → Matrix (Fin n) (Fin 1) ℝ → ℝ
  | .center, y => mu fun k => y k 0
  | .standardize, y => mu fun k => y k 0
  | _, _ => 0

/-- The factor applied to predictions. -/
noncomputable def prepSd : Prep → Matrix (Fin n) (Fin 1) ℝ → ℝ
  | .standardize, y => sd fun k => y k 0
  | _, _ => 1

/-- The standard deviations the option divides by are not zero. -/
def PrepSpread : Prep → Matrix (Fin n) (Fin p) ℝ → Prop
  | .standardize, A => ∀ j, sd (fun k => A k j) ≠ 0
  | _, _ => True

variable {α : Type} [Add α] [Sub α] [Mul α] [Zero α] [One α] [Div α] [NatCast α] [HasSqrt α]

/-- The preprocessed matrix, as computed. -/
def gPrep (isZero : α → Bool) : Prep → Matrix (Fin n) (Fin (p + 1)) α → Matrix (Fin n) (Fin (p + 1)) α
  | .center, A => Matrix.of fun i j => A i j - gMean A j
  | .standardize, A => Matrix.of fun i j => (A i j - gMean A j) / if j = 0 ∧ isZero (gStd A 0) = true then 1 else gStd A j
  | _, A => A

/-- The offset, as computed. -/
def gOff : Prep → Matrix (Fin n) (Fin 1) α → α
  | .center, y => gMean y 0
  | .standardize, y => gMean y 0
  | _, _ => 0

/-- The factor, as computed. -/
def gFac : Prep → Matrix (Fin n) (Fin 1) α → α
  | .standardize, y => gStd y 0
  | _, _ => 1

theorem prepApplyG_eq (isZero : α → Bool) (prep : Prep) (hp : prep ≠ .unknown) (A : Matrix (Fin n) (Fin (p + 1)) α) :
    prepApplyG isZero prep (of A) = .ok (of (gPrep isZero prep A)) := by
  cases prep with
  | none => rfl
  | center => exact fitTransformG_center A
  | standardize => exact fitTransformG_standardize isZero A
  | unknown => exact absurd rfl hp

theorem classStatsG_eq (prep : Prep) (hp : prep ≠ .unknown) (y : Matrix (Fin n) (Fin 1) α) :
    classStatsG prep (of y) = .ok (gOff prep y, gFac prep y) := by
  cases prep with
  | none => rfl
  | center => rfl
  | standardize => rfl
  | unknown => exact absurd rfl hp

/-- Training and prediction together, as computed. -/
def gRun {r : Nat} (isZero : α → Bool) (prep : Prep) (K : Nat) (X : Matrix (Fin n) (Fin (p + 1)) α) (y : Matrix (Fin n) (Fin 1) α)
    (Z : Matrix (Fin r) (Fin (p + 1)) α) : Matrix (Fin r) (Fin 1) α :=
  if prep.hasTrans then
    Matrix.of fun a b => gPred K (gPrep isZero prep X) (gPrep isZero prep y) Z a b * gFac prep y + gOff prep y
  else gPred K (gPrep isZero prep X) (gPrep isZero prep y) Z

/-- What the programs return, for any scalars. -/
theorem gRun_eq {r K : Nat} (isZero : α → Bool) (inv : Mat α → Except PyErr (Mat α)) (prep : Prep) (hp : prep ≠ .unknown) (hn : 0 < n)
    (hK : 0 < K) (X : Matrix (Fin n) (Fin (p + 1)) α) (y : Matrix (Fin n) (Fin 1) α) (m : SingleModel α (Pls1Model α))
    (hm : singleTrainG isZero (fun A y => (pls1TrainG pls1Weights inv (K : Int) A y).map Prod.fst) prep (of X) (of y) = .ok m)
    (hr : 0 < r) (Z : Matrix (Fin r) (Fin (p + 1)) α) :
    singlePredictG (pls1PredictG (K : Int)) m (of Z) = .ok (of (gRun isZero prep K X y Z)) := by
  unfold singleTrainG at hm
  rw [classStatsG_eq prep hp, prepApplyG_eq isZero prep hp, prepApplyG_eq (p := 0) isZero prep hp] at hm
  simp only [except_bind_ok] at hm
  set X' := gPrep isZero prep X
  set y' : Matrix (Fin n) (Fin 1) α := gPrep (p := 0) isZero prep y
  rw [pls1TrainG_eq (gWeights y') pls1Weights inv K hn (Nat.succ_pos p) hK X' y' fun k _ => pls1Weights_gen y' _] at hm
  cases h1 : inv (of (gmul (gPM (gWeights y') K X')ᵀ (gWM (gWeights y') K X'))) with
  | error e => rw [h1] at hm; cases hm
  | ok R =>
    rw [h1, except_bind_ok] at hm
    cases h2 : (of (gWM (gWeights y') K X')).mul R with
    | error e => rw [h2] at hm; cases hm
    | ok C =>
      rw [h2, except_bind_ok] at hm
      cases h3 : C.mul (of (gBM (gWeights y') K X' y')) with
      | error e => rw [h3] at hm; cases hm
      | ok rh =>
        rw [h3, except_bind_ok] at hm
        cases hm
        unfold singlePredictG
        rw [pls1PredictG_eq hr, except_bind_ok]
        unfold gRun
        dsimp only
        split
        · exact denorm_loopG (r := r) _ _ _
        · rfl

end prep

section prepLimits
variable {ι : Type} {l : Filter ι} {A : ι → Arith} {n p r : Nat} (V : Vanishing l A)
include V

theorem gMean_to (hn : 0 < n) {F : ∀ i, Matrix (Fin n) (Fin p) (Fl (A i))} {M : Matrix (Fin n) (Fin p) ℝ} (hF : MTo l F M) (j : Fin p) :
    Vanishing.To l (fun i => gMean (F i) j) (mu fun k => M k j) :=
  V.div (V.sum fun k => hF k j) (V.cast n) (by exact_mod_cast (by omega : n ≠ 0))

theorem gStd_to (hn : 0 < n) {F : ∀ i, Matrix (Fin n) (Fin p) (Fl (A i))} {M : Matrix (Fin n) (Fin p) ℝ} (hF : MTo l F M) (j : Fin p)
    (h : sd (fun k => M k j) ≠ 0) : Vanishing.To l (fun i => gStd (F i) j) (sd fun k => M k j) := by
  have h0 : ((n - 1 : Nat) : ℝ) ≠ 0 := by
    intro h1
    refine h ?_
    unfold sd
    rw [h1, div_zero, Real.sqrt_zero]
  have hpos := Real.sqrt_ne_zero'.1 h
  refine V.sqrt (V.div ?_ (V.cast (n - 1)) h0) hpos
  simp only [pow_two]
  exact V.sum fun k => V.mul (V.sub (hF k j) (gMean_to V hn hF j)) (V.sub (hF k j) (gMean_to V hn hF j))

theorem gPrep_to (hn : 0 < n) (isZero : ∀ i, Fl (A i) → Bool) (hz : ∀ i x, isZero i x = true → x.val = 0) (prep : Prep)
    {F : ∀ i, Matrix (Fin n) (Fin (p + 1)) (Fl (A i))} {M : Matrix (Fin n) (Fin (p + 1)) ℝ} (hF : MTo l F M) (hS : PrepSpread prep M) :
    MTo l (fun i => gPrep (isZero i) prep (F i)) (prepMat prep M) := by
  cases prep with
  | none => exact hF
  | unknown => exact hF
  | center => exact fun a b => V.sub (hF a b) (gMean_to V hn hF b)
  | standardize =>
    intro a b
    have hd : divisor M b = sd fun k => M k b := if_neg fun h => hS b h.2
    have e : prepMat .standardize M a b = (M a b - mu fun k => M k b) / sd fun k => M k b := by
      show _ / divisor M b = _
      rw [hd]
    rw [e]
    refine Tendsto.congr' ?_ (V.div (V.sub (hF a b) (gMean_to V hn hF b)) (gStd_to V hn hF b (hS b)) (hS b))
    filter_upwards [Tendsto.eventually_ne (gStd_to V hn hF 0 (hS 0)) (hS 0)] with i hi
    simp only [gPrep, Matrix.of_apply]
    rw [if_neg fun h => hi (hz i _ h.2)]

theorem gRun_to (hn : 0 < n) (isZero : ∀ i, Fl (A i) → Bool) (hz : ∀ i x, isZero i x = true → x.val = 0) (prep : Prep) {K : Nat}
    {X : ∀ i, Matrix (Fin n) (Fin (p + 1)) (Fl (A i))} {Y : ∀ i, Matrix (Fin n) (Fin 1) (Fl (A i))}
    {Z : ∀ i, Matrix (Fin r) (Fin (p + 1)) (Fl (A i))} {M : Matrix (Fin n) (Fin (p + 1)) ℝ} {y : Matrix (Fin n) (Fin 1) ℝ}
    {N : Matrix (Fin r) (Fin (p + 1)) ℝ} (hX : MTo l X M) (hY : MTo l Y y) (hZ : MTo l Z N) (hSX : PrepSpread prep M) (hSy : PrepSpread prep y)
    (h : Regular (pls1W (prepMat prep y)) K (prepMat prep M)) :
    MTo l (fun i => gRun (isZero i) prep K (X i) (Y i) (Z i)) (Matrix.of fun a b =>
      (plsSM (pls1W (prepMat prep y)) K (prepMat prep M) N * plsBM (pls1W (prepMat prep y)) K (prepMat prep M) (prepMat prep y)) a b *
        prepSd prep y + prepMean prep y) := by
  have hX' := gPrep_to V hn isZero hz prep hX hSX
  have hY' : MTo l (fun i => gPrep (p := 0) (isZero i) prep (Y i)) (prepMat prep y) := gPrep_to (p := 0) V hn isZero hz prep hY hSy
  have hP := gPred_to V hX' hY' h.sq1_ne hZ
  intro a b
  cases prep with
  | none => simpa [gRun, Prep.hasTrans, prepSd, prepMean] using hP a b
  | unknown => simpa [gRun, Prep.hasTrans, prepSd, prepMean] using hP a b
  | center => exact V.add (V.mul (hP a b) (Vanishing.const 1)) (gMean_to V hn hY 0)
  | standardize => exact V.add (V.mul (hP a b) (gStd_to V hn hY 0 (hSy 0))) (gMean_to V hn hY 0)

end prepLimits

/-! ## The claim -/

/-- Stored values within `δ` of the true ones. -/
def Stored {A : Arith} {m n : Nat} (δ : ℝ) (M : Matrix (Fin m) (Fin n) ℝ) (F : Matrix (Fin m) (Fin n) (Fl A)) : Prop :=
  ∀ i j, |(F i j).val - M i j| ≤ δ

theorem near_to {A : ℕ → Arith} {m n : Nat} {M : Matrix (Fin m) (Fin n) ℝ} {F : ∀ k, Matrix (Fin m) (Fin n) (Fl (A k))}
    (h : ∀ k : ℕ, Stored (1 / ((k : ℝ) + 1)) M (F k)) : MTo atTop F M := by
  intro a b
  have h1 : Tendsto (fun k => (F k a b).val - M a b) atTop (𝓝 0) :=
    squeeze_zero_norm (fun k => h k a b) tendsto_one_div_add_atTop_nhds_zero_nat
  have := h1.add_const (M a b)
  simpa [Vanishing.To] using this

/-- What exact arithmetic predicts. -/
theorem exact_run {n p r K : Nat} (hn : 0 < n) (hK : 0 < K) (hr : 0 < r) (isZero : ℝ → Bool) (hz : ∀ x, isZero x = true ↔ x = 0)
    (prep : Prep) (hprep : prep ≠ .unknown) (X : Matrix (Fin n) (Fin (p + 1)) ℝ) (y : Matrix (Fin n) (Fin 1) ℝ)
    (h : Regular (pls1W (prepMat prep y)) K (prepMat prep X)) :
    ∃ m, singleTrain isZero (fun X y => (pls1Train pls1Weights (K : Int) X y).map Prod.fst) prep (of X) (of y) = .ok m ∧
      ∀ Z : Matrix (Fin r) (Fin (p + 1)) ℝ, singlePredict (pls1Predict (K : Int)) m (of Z) = .ok (of (Matrix.of fun a b =>
        (plsSM (pls1W (prepMat prep y)) K (prepMat prep X) Z * plsBM (pls1W (prepMat prep y)) K (prepMat prep X) (prepMat prep y)) a b *
          prepSd prep y + prepMean prep y)) := by
  have hb := pls1Train_eq (pls1W (prepMat prep y)) pls1Weights K hn (Nat.succ_pos p) hK (prepMat prep X) (prepMat prep y)
    (fun k _ => pls1Weights_eq _ _) h.sq1_ne
  have hb' := congrArg (Except.map Prod.fst) hb
  have hpred := fun Z : Matrix (Fin r) (Fin (p + 1)) ℝ => pls1Predict_eq (pls1W (prepMat prep y)) hr K (prepMat prep X)
    (of (plsWM (pls1W (prepMat prep y)) K (prepMat prep X) * ((plsPM (pls1W (prepMat prep y)) K (prepMat prep X))ᵀ *
      plsWM (pls1W (prepMat prep y)) K (prepMat prep X))⁻¹ * plsBM (pls1W (prepMat prep y)) K (prepMat prep X) (prepMat prep y)))
    (plsBM (pls1W (prepMat prep y)) K (prepMat prep X) (prepMat prep y)) Z
  cases prep with
  | none =>
    obtain ⟨s, h1, h2⟩ := C51_none (fun X y => (pls1Train pls1Weights (K : Int) X y).map Prod.fst) (pls1Predict (K : Int)) isZero (of X) (of y) _ hb'
    refine ⟨s, h1, fun Z => ?_⟩
    rw [h2, hpred Z]
    simp only [prepSd, prepMean, mul_one, add_zero]
    rfl
  | center =>
    obtain ⟨s, h1, h2⟩ := C51_center_value (fun X y => (pls1Train pls1Weights (K : Int) X y).map Prod.fst) (pls1Predict (K : Int)) isZero X y _ hb'
    refine ⟨s, h1, fun Z => ?_⟩
    rw [h2 Z _ (hpred Z)]
    simp only [prepSd, prepMean, mul_one]
  | standardize =>
    obtain ⟨s, h1, h2⟩ := C51_standardize_value (fun X y => (pls1Train pls1Weights (K : Int) X y).map Prod.fst) (pls1Predict (K : Int)) isZero hz X y _ hb'
    exact ⟨s, h1, fun Z => h2 Z _ (hpred Z)⟩
  | unknown => exact absurd rfl hprep

/-- C148.  **PLS1 in floating-point arithmetic.**  Let the data have `K` components in exact arithmetic.  Then for every `ε` there is a `δ` such
that on every machine with unit roundoff and underflow threshold at most `δ`, for data stored with errors of at most `δ`, every model that
training returns predicts within `ε` of exact arithmetic. -/
theorem C148_pls1 {n p r K : Nat} (hn : 0 < n) (hK : 0 < K) (hr : 0 < r) (isZero : ℝ → Bool) (hz : ∀ x, isZero x = true ↔ x = 0)
    (prep : Prep) (hprep : prep ≠ .unknown)
    (X : Matrix (Fin n) (Fin (p + 1)) ℝ) (y : Matrix (Fin n) (Fin 1) ℝ) (Z : Matrix (Fin r) (Fin (p + 1)) ℝ)
    (hX : PrepSpread prep X) (hy : PrepSpread prep y) (h : Regular (pls1W (prepMat prep y)) K (prepMat prep X)) :
    ∃ (m : SingleModel ℝ (Pls1Model ℝ)) (F : Matrix (Fin r) (Fin 1) ℝ),
      singleTrain isZero (fun X y => (pls1Train pls1Weights (K : Int) X y).map Prod.fst) prep (of X) (of y) = .ok m ∧
      singlePredict (pls1Predict (K : Int)) m (of Z) = .ok (of F) ∧
      ∀ ε > 0, ∃ δ > 0, ∀ (A : Arith) (u η : ℝ), A.Close u η → u ≤ δ → η ≤ δ →
        ∀ (zero : Fl A → Bool), (∀ x, zero x = true → x.val = 0) → ∀ (inv : Mat (Fl A) → Except PyErr (Mat (Fl A)))
          (X' : Matrix (Fin n) (Fin (p + 1)) (Fl A)) (y' : Matrix (Fin n) (Fin 1) (Fl A)) (Z' : Matrix (Fin r) (Fin (p + 1)) (Fl A)),
          Stored δ X X' → Stored δ y y' → Stored δ Z Z' → ∀ m',
          singleTrainG zero (fun X y => (pls1TrainG pls1Weights inv (K : Int) X y).map Prod.fst) prep (of X') (of y') = .ok m' →
          ∃ F' : Matrix (Fin r) (Fin 1) (Fl A), singlePredictG (pls1PredictG (K : Int)) m' (of Z') = .ok (of F') ∧ Stored ε F F' := by
  obtain ⟨m, h1, h2⟩ := exact_run hn hK hr isZero hz prep hprep X y h
  refine ⟨m, _, h1, h2 Z, ?_⟩
  · intro ε hε
    by_contra hc
    push Not at hc
    choose A u η hclose hu hη zero hzero inv X' y' Z' nX ny nZ m' hm' hbad using fun k : ℕ => hc (1 / ((k : ℝ) + 1)) (by positivity)
    have h0 : Tendsto (fun k : ℕ => 1 / ((k : ℝ) + 1)) atTop (𝓝 0) := tendsto_one_div_add_atTop_nhds_zero_nat
    have V : Vanishing atTop A := ⟨u, η, hclose, squeeze_zero (fun k => (hclose k).unit) hu h0, squeeze_zero (fun k => (hclose k).under) hη h0⟩
    have hlim := gRun_to V hn zero hzero prep (near_to nX) (near_to ny) (near_to nZ) hX hy h
    have hev : ∀ᶠ k in atTop, ∀ a b, |(gRun (zero k) prep K (X' k) (y' k) (Z' k) a b).val - (Matrix.of fun a b =>
      (plsSM (pls1W (prepMat prep y)) K (prepMat prep X) Z * plsBM (pls1W (prepMat prep y)) K (prepMat prep X) (prepMat prep y)) a b *
        prepSd prep y + prepMean prep y : Matrix (Fin r) (Fin 1) ℝ) a b| ≤ ε := by
      rw [eventually_all]
      intro a
      rw [eventually_all]
      intro b
      have := (hlim a b).eventually (Metric.closedBall_mem_nhds _ hε)
      filter_upwards [this] with k hk
      simpa [Real.dist_eq] using hk
    obtain ⟨k, hk⟩ := hev.exists
    exact hbad k _ (gRun_eq (zero k) (inv k) prep hprep hn hK _ _ _ (hm' k) hr _) hk

end Verif.Props
