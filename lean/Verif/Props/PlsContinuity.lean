import Verif.Props.PlsMoments
import Mathlib.Topology.Instances.Matrix

/-!
# C135: small changes of the data change the predictions of PLS1 and SIMPLS by little

As long as every component that is asked for exists (`Regular`; with standardisation, no constant column), training on
slightly different data still succeeds, and scores and predictions of slightly different samples differ by little.  Close
to data for which a component does not exist no such bound holds (`C135_limits`).
-/

namespace Verif.Props

open Verif Mat Factory Transf Filter Topology
open scoped Matrix

variable {n p r : Nat} {E : Type} [TopologicalSpace E] {e : E}

theorem cont_entries {a b : Nat} {A : E → Matrix (Fin a) (Fin b) ℝ} :
    ContinuousAt A e ↔ ∀ i j, ContinuousAt (fun x => A x i j) e := by
  have h : ∀ B : E → Fin a → Fin b → ℝ, ContinuousAt B e ↔ ∀ i j, ContinuousAt (fun x => B x i j) e := fun B =>
    continuousAt_pi.trans (forall_congr' fun i => continuousAt_pi)
  exact h A

theorem cont_mul {a b c : Nat} {A : E → Matrix (Fin a) (Fin b) ℝ} {B : E → Matrix (Fin b) (Fin c) ℝ}
    (hA : ContinuousAt A e) (hB : ContinuousAt B e) : ContinuousAt (fun x => A x * B x) e := by
  rw [cont_entries] at *
  intro i j
  simp only [Matrix.mul_apply]
  exact tendsto_finsetSum _ fun k _ => (hA i k).mul (hB k j)

theorem cont_transpose {a b : Nat} {A : E → Matrix (Fin a) (Fin b) ℝ} (hA : ContinuousAt A e) :
    ContinuousAt (fun x => (A x)ᵀ) e := by
  rw [cont_entries] at *
  exact fun i j => hA j i

theorem cont_sub {a b : Nat} {A B : E → Matrix (Fin a) (Fin b) ℝ} (hA : ContinuousAt A e) (hB : ContinuousAt B e) :
    ContinuousAt (fun x => A x - B x) e := by
  rw [cont_entries] at *
  exact fun i j => (hA i j).sub (hB i j)

theorem cont_sq1 {t : E → Matrix (Fin n) (Fin 1) ℝ} (h : ContinuousAt t e) : ContinuousAt (fun x => sq1 (t x)) e := by
  rw [cont_entries] at h
  exact tendsto_finsetSum _ fun k _ => (h k 0).mul (h k 0)

theorem cont_loading {X : E → Matrix (Fin n) (Fin p) ℝ} {t : E → Matrix (Fin n) (Fin 1) ℝ} (hX : ContinuousAt X e)
    (ht : ContinuousAt t e) (h0 : sq1 (t e) ≠ 0) : ContinuousAt (fun x => loading (X x) (t x)) e :=
  cont_entries.2 fun i j => (cont_entries.1 (cont_mul (cont_transpose hX) ht) i j).div (cont_sq1 ht) h0

theorem cont_pls1W {X : E → Matrix (Fin n) (Fin p) ℝ} {y : E → Matrix (Fin n) (Fin 1) ℝ} (hX : ContinuousAt X e)
    (hy : ContinuousAt y e) (h0 : sq1 (X e * pls1W (y e) (X e)) ≠ 0) : ContinuousAt (fun x => pls1W (y x) (X x)) e := by
  have hm := cont_mul (cont_transpose hX) hy
  have hne : Real.sqrt (sq1 ((X e)ᵀ * y e)) ≠ 0 := by
    intro hs
    refine h0 ?_
    have : pls1W (y e) (X e) = 0 := by
      ext i j
      simp only [pls1W, Matrix.of_apply, hs, div_zero, Matrix.zero_apply]
    rw [this, Matrix.mul_zero]
    simp [sq1]
  exact cont_entries.2 fun i j => (cont_entries.1 hm i j).div (cont_sq1 hm).sqrt hne

section
variable {X : E → Matrix (Fin n) (Fin p) ℝ} {y : E → Matrix (Fin n) (Fin 1) ℝ} (hX : ContinuousAt X e)
  (hy : ContinuousAt y e) {K : Nat}
include hX hy

theorem cont_plsX (h : ∀ k < K, sq1 (plsT (pls1W (y e)) (X e) k) ≠ 0) (k : Nat) (hk : k ≤ K) :
    ContinuousAt (fun x => plsX (pls1W (y x)) (X x) k) e := by
  induction k with
  | zero => exact hX
  | succ k ih =>
    have hi := ih (by omega)
    have h0 := h k (by omega)
    have hw := cont_pls1W hi hy h0
    have ht := cont_mul hi hw
    exact cont_sub hi (cont_mul ht (cont_transpose (cont_loading hi ht h0)))

theorem cont_plsW (h : ∀ k < K, sq1 (plsT (pls1W (y e)) (X e) k) ≠ 0) (k : Nat) (hk : k < K) :
    ContinuousAt (fun x => plsW (pls1W (y x)) (X x) k) e :=
  cont_pls1W (cont_plsX hX hy h k hk.le) hy (h k hk)

theorem cont_plsT (h : ∀ k < K, sq1 (plsT (pls1W (y e)) (X e) k) ≠ 0) (k : Nat) (hk : k < K) :
    ContinuousAt (fun x => plsT (pls1W (y x)) (X x) k) e :=
  cont_mul (cont_plsX hX hy h k hk.le) (cont_plsW hX hy h k hk)

theorem cont_plsP (h : ∀ k < K, sq1 (plsT (pls1W (y e)) (X e) k) ≠ 0) (k : Nat) (hk : k < K) :
    ContinuousAt (fun x => plsP (pls1W (y x)) (X x) k) e :=
  cont_loading (cont_plsX hX hy h k hk.le) (cont_plsT hX hy h k hk) (h k hk)

theorem cont_plsB (h : ∀ k < K, sq1 (plsT (pls1W (y e)) (X e) k) ≠ 0) (k : Nat) (hk : k < K) :
    ContinuousAt (fun x => plsB (pls1W (y x)) (X x) (y x) k) e := by
  have ht := cont_plsT hX hy h k hk
  refine ContinuousAt.div (tendsto_finsetSum _ fun l _ => ?_) (cont_sq1 ht) (h k hk)
  exact (cont_entries.1 ht l 0).mul (cont_entries.1 hy l 0)

/-- The data for which all components exist form an open set. -/
theorem regular_near (h : Regular (pls1W (y e)) K (X e)) : ∀ᶠ x in 𝓝 e, Regular (pls1W (y x)) K (X x) := by
  have hs := h.sq1_ne
  have : ∀ k : Fin K, ∀ᶠ x in 𝓝 e, sq1 (plsT (pls1W (y x)) (X x) k.1) ≠ 0 := fun k =>
    (cont_sq1 (cont_plsT hX hy hs k.1 k.2)).eventually_ne (hs k.1 k.2)
  filter_upwards [eventually_all.2 this] with x hx
  exact Regular.of_sq1 fun k hk => hx ⟨k, hk⟩

variable {Z : E → Matrix (Fin r) (Fin p) ℝ} (hZ : ContinuousAt Z e)
include hZ

theorem cont_plsZ (h : ∀ k < K, sq1 (plsT (pls1W (y e)) (X e) k) ≠ 0) (k : Nat) (hk : k ≤ K) :
    ContinuousAt (fun x => plsZ (pls1W (y x)) (X x) (Z x) k) e := by
  induction k with
  | zero => exact hZ
  | succ k ih =>
    have hi := ih (by omega)
    exact cont_sub hi (cont_mul (cont_mul hi (cont_plsW hX hy h k (by omega))) (cont_transpose (cont_plsP hX hy h k (by omega))))

theorem cont_plsSM (h : Regular (pls1W (y e)) K (X e)) : ContinuousAt (fun x => plsSM (pls1W (y x)) K (X x) (Z x)) e :=
  cont_entries.2 fun i j => cont_entries.1 (cont_mul (cont_plsZ hX hy hZ h.sq1_ne j.1 j.2.le)
    (cont_plsW hX hy h.sq1_ne j.1 j.2)) i 0

/-- The predictions are continuous. -/
theorem cont_predict (h : Regular (pls1W (y e)) K (X e)) :
    ContinuousAt (fun x => plsSM (pls1W (y x)) K (X x) (Z x) * plsBM (pls1W (y x)) K (X x) (y x)) e :=
  cont_mul (cont_plsSM hX hy hZ h) (cont_entries.2 fun i _ => cont_plsB hX hy h.sq1_ne i.1 i.2)

end

/-! ## Preprocessing -/

theorem cont_mu {f : E → Fin n → ℝ} (h : ∀ i, ContinuousAt (fun x => f x i) e) : ContinuousAt (fun x => mu (f x)) e :=
  ContinuousAt.div_const (tendsto_finsetSum _ fun i _ => h i) _

theorem cont_sd {f : E → Fin n → ℝ} (h : ∀ i, ContinuousAt (fun x => f x i) e) : ContinuousAt (fun x => sd (f x)) e :=
  ContinuousAt.sqrt (ContinuousAt.div_const (tendsto_finsetSum _ fun i _ => ((h i).sub (cont_mu h)).pow 2) _)

theorem cont_cen {A : E → Matrix (Fin n) (Fin p) ℝ} {B : E → Matrix (Fin r) (Fin p) ℝ} (hA : ContinuousAt A e)
    (hB : ContinuousAt B e) : ContinuousAt (fun x => cen (A x) (B x)) e :=
  cont_entries.2 fun i j => (cont_entries.1 hB i j).sub (cont_mu fun k => cont_entries.1 hA k j)

theorem cont_divisor {A : E → Matrix (Fin n) (Fin p) ℝ} (hA : ContinuousAt A e) (j : Fin p)
    (h0 : (sd fun k => A e k j) ≠ 0) : ContinuousAt (fun x => divisor (A x) j) e := by
  have hs : ContinuousAt (fun x => sd fun k => A x k j) e := cont_sd fun k => cont_entries.1 hA k j
  refine hs.congr ?_
  filter_upwards [hs.eventually_ne h0] with x hx
  rw [divisor, if_neg fun h => hx h.2]

theorem cont_std {A : E → Matrix (Fin n) (Fin p) ℝ} {B : E → Matrix (Fin r) (Fin p) ℝ} (hA : ContinuousAt A e)
    (hB : ContinuousAt B e) (h0 : ∀ j, (sd fun k => A e k j) ≠ 0) : ContinuousAt (fun x => std (A x) (B x)) e :=
  cont_entries.2 fun i j => ((cont_entries.1 hB i j).sub (cont_mu fun k => cont_entries.1 hA k j)).div
    (cont_divisor hA j (h0 j)) (by
      rw [divisor, if_neg fun h => h0 j h.2]
      exact h0 j)

/-! ## From continuity to bounds -/

/-- All entries differ by less than `δ`. -/
def Near {a b : Nat} (δ : ℝ) (A B : Matrix (Fin a) (Fin b) ℝ) : Prop := ∀ i j, |A i j - B i j| < δ

/-- Training sets with the samples to predict. -/
abbrev Data (n p r : Nat) : Type := Matrix (Fin n) (Fin p) ℝ × Matrix (Fin n) (Fin 1) ℝ × Matrix (Fin r) (Fin p) ℝ

theorem near_of_eventually {P : Data n p r → Prop} {X : Matrix (Fin n) (Fin p) ℝ} {y : Matrix (Fin n) (Fin 1) ℝ}
    {Z : Matrix (Fin r) (Fin p) ℝ} (h : ∀ᶠ x in 𝓝 (X, y, Z), P x) :
    ∃ δ : ℝ, 0 < δ ∧ ∀ X' y' Z', Near δ X' X → Near δ y' y → Near δ Z' Z → P (X', y', Z') := by
  let P' : (Fin n → Fin p → ℝ) × (Fin n → Fin 1 → ℝ) × (Fin r → Fin p → ℝ) → Prop := P
  have h' : ∀ᶠ x in 𝓝 ((X : Fin n → Fin p → ℝ), (y : Fin n → Fin 1 → ℝ), (Z : Fin r → Fin p → ℝ)), P' x := h
  obtain ⟨δ, hδ, hb⟩ := Metric.eventually_nhds_iff.1 h'
  refine ⟨δ, hδ, fun X' y' Z' h1 h2 h3 => hb (y := ((X' : Fin n → Fin p → ℝ), (y' : Fin n → Fin 1 → ℝ),
    (Z' : Fin r → Fin p → ℝ))) ?_⟩
  have key : ∀ {a b : Nat} (A B : Fin a → Fin b → ℝ), (∀ i j, |A i j - B i j| < δ) → dist A B < δ := fun A B hAB =>
    (dist_pi_lt_iff hδ).2 fun i => (dist_pi_lt_iff hδ).2 fun j => by
      rw [Real.dist_eq]
      exact hAB i j
  rw [Prod.dist_eq, Prod.dist_eq]
  exact max_lt (key _ _ h1) (max_lt (key _ _ h2) (key _ _ h3))

theorem near_of_continuous {a b : Nat} {f : E → Matrix (Fin a) (Fin b) ℝ} (h : ContinuousAt f e) {ε : ℝ} (hε : 0 < ε) :
    ∀ᶠ x in 𝓝 e, Near ε (f x) (f e) := by
  refine eventually_all.2 fun i => eventually_all.2 fun j => ?_
  have := Metric.tendsto_nhds.1 (cont_entries.1 h i j) ε hε
  filter_upwards [this] with x hx
  rwa [Real.dist_eq] at hx

/-! ## The theorems -/

/-- A training and a prediction function that compute single-response PLS with `K` components. -/
def IsPls {M : Type} (train : Mat ℝ → Mat ℝ → Except PyErr M) (predict : M → Mat ℝ → Except PyErr (Mat ℝ)) (K : Nat) : Prop :=
  ∀ {n p : Nat}, 0 < n → 0 < p → ∀ (X : Matrix (Fin n) (Fin p) ℝ) (y : Matrix (Fin n) (Fin 1) ℝ), Regular (pls1W y) K X →
    ∃ m, train (of X) (of y) = .ok m ∧ ∀ {r : Nat}, 0 < r → ∀ Z : Matrix (Fin r) (Fin p) ℝ,
      predict m (of Z) = .ok (of (plsSM (pls1W y) K X Z * plsBM (pls1W y) K X y))

theorem isPls_pls1 {K : Nat} (hK : 0 < K) : IsPls (pls1Base K) (fun m Z => pls1Predict K m Z) K := fun hn hp X y h =>
  ⟨_, by
    unfold pls1Base
    rw [pls1Train_eq (pls1W y) pls1Weights K hn hp hK X y (fun k _ => pls1Weights_eq y _) h.sq1_ne]
    rfl, fun hr Z => pls1Predict_eq (pls1W y) hr K X _ _ Z⟩

theorem isPls_simpls {eig : Mat ℝ → Mat ℝ × Mat ℝ} (he : EigOne eig) {K : Nat} (hK : 0 < K) {count : Int} (hcount : count ≤ 0) :
    IsPls (fun X y => simplsTrain (domOf eig) K count X y) simplsPredict K := fun hn hp X y h => by
  obtain ⟨m, m', T, h1, h2, h3⟩ := C73_same_predictions he hn hp hK hcount X y h
  refine ⟨m, h1, fun hr Z => ?_⟩
  obtain ⟨F, f1, f2⟩ := h3 _ hr Z
  rw [pls1Train_eq (pls1W y) pls1Weights K hn hp hK X y (fun k _ => pls1Weights_eq y _) h.sq1_ne] at h2
  obtain ⟨rfl, -⟩ := Prod.mk.inj (Except.ok.inj h2)
  rw [pls1Predict_eq (pls1W y) hr K X] at f2
  rw [f1, ← f2]

section
variable {M : Type} {train : Mat ℝ → Mat ℝ → Except PyErr M} {predict : M → Mat ℝ → Except PyErr (Mat ℝ)} {K : Nat}
  (hpls : IsPls train predict K) (hn : 0 < n) (hr : 0 < r) (isZero : ℝ → Bool)
include hpls hn hr

/-- Without preprocessing. -/
theorem near_none (hp : 0 < p) (X : Matrix (Fin n) (Fin p) ℝ) (y : Matrix (Fin n) (Fin 1) ℝ) (Z : Matrix (Fin r) (Fin p) ℝ)
    (h : Regular (pls1W y) K X) {ε : ℝ} (hε : 0 < ε) :
    ∃ (s : SingleModel ℝ M) (F : Matrix (Fin r) (Fin 1) ℝ), singleTrain isZero train .none (of X) (of y) = .ok s ∧ singlePredict predict s (of Z) = .ok (of F) ∧
      ∃ δ : ℝ, 0 < δ ∧ ∀ X' y' Z', Near δ X' X → Near δ y' y → Near δ Z' Z →
        ∃ (s' : SingleModel ℝ M) (F' : Matrix (Fin r) (Fin 1) ℝ), singleTrain isZero train .none (of X') (of y') = .ok s' ∧ singlePredict predict s' (of Z') = .ok (of F') ∧
          Near ε F' F := by
  have val : ∀ (X : Matrix (Fin n) (Fin p) ℝ) (y : Matrix (Fin n) (Fin 1) ℝ) (Z : Matrix (Fin r) (Fin p) ℝ),
      Regular (pls1W y) K X → ∃ s, singleTrain isZero train .none (of X) (of y) = .ok s ∧
        singlePredict predict s (of Z) = .ok (of (plsSM (pls1W y) K X Z * plsBM (pls1W y) K X y)) := by
    intro X y Z h
    obtain ⟨m, h1, h2⟩ := hpls hn hp X y h
    obtain ⟨s, s1, s2⟩ := C51_none train predict isZero _ _ m h1
    exact ⟨s, s1, (s2 _).trans (h2 hr Z)⟩
  obtain ⟨s, s1, s2⟩ := val X y Z h
  refine ⟨s, _, s1, s2, ?_⟩
  have c1 : ContinuousAt (fun x : Data n p r => x.1) (X, y, Z) := continuousAt_fst
  have c2 : ContinuousAt (fun x : Data n p r => x.2.1) (X, y, Z) := (continuous_fst.comp continuous_snd).continuousAt
  have c3 : ContinuousAt (fun x : Data n p r => x.2.2) (X, y, Z) := (continuous_snd.comp continuous_snd).continuousAt
  obtain ⟨δ, hδ, hb⟩ := near_of_eventually ((regular_near c1 c2 h).and (near_of_continuous (cont_predict c1 c2 c3 h) hε))
  refine ⟨δ, hδ, fun X' y' Z' h1 h2 h3 => ?_⟩
  obtain ⟨g1, g2⟩ := hb X' y' Z' h1 h2 h3
  obtain ⟨s', t1, t2⟩ := val X' y' Z' g1
  exact ⟨s', _, t1, t2, g2⟩

/-- With centering. -/
theorem near_center (hp : 0 < p) (X : Matrix (Fin n) (Fin p) ℝ) (y : Matrix (Fin n) (Fin 1) ℝ) (Z : Matrix (Fin r) (Fin p) ℝ)
    (h : Regular (pls1W (cen y y)) K (cen X X)) {ε : ℝ} (hε : 0 < ε) :
    ∃ (s : SingleModel ℝ M) (F : Matrix (Fin r) (Fin 1) ℝ), singleTrain isZero train .center (of X) (of y) = .ok s ∧ singlePredict predict s (of Z) = .ok (of F) ∧
      ∃ δ : ℝ, 0 < δ ∧ ∀ X' y' Z', Near δ X' X → Near δ y' y → Near δ Z' Z →
        ∃ (s' : SingleModel ℝ M) (F' : Matrix (Fin r) (Fin 1) ℝ), singleTrain isZero train .center (of X') (of y') = .ok s' ∧ singlePredict predict s' (of Z') = .ok (of F') ∧
          Near ε F' F := by
  have val : ∀ (X : Matrix (Fin n) (Fin p) ℝ) (y : Matrix (Fin n) (Fin 1) ℝ) (Z : Matrix (Fin r) (Fin p) ℝ),
      Regular (pls1W (cen y y)) K (cen X X) → ∃ s, singleTrain isZero train .center (of X) (of y) = .ok s ∧
        singlePredict predict s (of Z) = .ok (of (Matrix.of fun i j =>
          (plsSM (pls1W (cen y y)) K (cen X X) Z * plsBM (pls1W (cen y y)) K (cen X X) (cen y y)) i j + mu fun k => y k 0)) := by
    intro X y Z h
    obtain ⟨m, h1, h2⟩ := hpls hn hp _ _ h
    obtain ⟨s, s1, s2⟩ := C51_center_value train predict isZero X y m h1
    exact ⟨s, s1, s2 Z _ (h2 hr Z)⟩
  obtain ⟨s, s1, s2⟩ := val X y Z h
  refine ⟨s, _, s1, s2, ?_⟩
  have c1 : ContinuousAt (fun x : Data n p r => x.1) (X, y, Z) := continuousAt_fst
  have c2 : ContinuousAt (fun x : Data n p r => x.2.1) (X, y, Z) := (continuous_fst.comp continuous_snd).continuousAt
  have c3 : ContinuousAt (fun x : Data n p r => x.2.2) (X, y, Z) := (continuous_snd.comp continuous_snd).continuousAt
  have cX := cont_cen c1 c1
  have cy := cont_cen c2 c2
  have hc : ContinuousAt (fun x : Data n p r => (Matrix.of fun i j =>
      (plsSM (pls1W (cen x.2.1 x.2.1)) K (cen x.1 x.1) x.2.2 * plsBM (pls1W (cen x.2.1 x.2.1)) K (cen x.1 x.1) (cen x.2.1 x.2.1))
        i j + mu fun k => x.2.1 k 0 : Matrix (Fin r) (Fin 1) ℝ)) (X, y, Z) :=
    cont_entries.2 fun i j => (cont_entries.1 (cont_predict cX cy c3 h) i j).add (cont_mu fun k => cont_entries.1 c2 k 0)
  obtain ⟨δ, hδ, hb⟩ := near_of_eventually ((regular_near cX cy h).and (near_of_continuous hc hε))
  refine ⟨δ, hδ, fun X' y' Z' h1 h2 h3 => ?_⟩
  obtain ⟨g1, g2⟩ := hb X' y' Z' h1 h2 h3
  obtain ⟨s', t1, t2⟩ := val X' y' Z' g1
  exact ⟨s', _, t1, t2, g2⟩

/-- With standardisation. -/
theorem near_standardize (hz : ∀ x, isZero x = true ↔ x = 0) (X : Matrix (Fin n) (Fin (p + 1)) ℝ) (y : Matrix (Fin n) (Fin 1) ℝ)
    (Z : Matrix (Fin r) (Fin (p + 1)) ℝ) (hX : ∀ j, (sd fun k => X k j) ≠ 0) (hy : (sd fun k => y k 0) ≠ 0)
    (h : Regular (pls1W (std y y)) K (std X X)) {ε : ℝ} (hε : 0 < ε) :
    ∃ (s : SingleModel ℝ M) (F : Matrix (Fin r) (Fin 1) ℝ), singleTrain isZero train .standardize (of X) (of y) = .ok s ∧ singlePredict predict s (of Z) = .ok (of F) ∧
      ∃ δ : ℝ, 0 < δ ∧ ∀ X' y' Z', Near δ X' X → Near δ y' y → Near δ Z' Z →
        ∃ (s' : SingleModel ℝ M) (F' : Matrix (Fin r) (Fin 1) ℝ), singleTrain isZero train .standardize (of X') (of y') = .ok s' ∧
          singlePredict predict s' (of Z') = .ok (of F') ∧ Near ε F' F := by
  have val : ∀ (X : Matrix (Fin n) (Fin (p + 1)) ℝ) (y : Matrix (Fin n) (Fin 1) ℝ) (Z : Matrix (Fin r) (Fin (p + 1)) ℝ),
      Regular (pls1W (std y y)) K (std X X) → ∃ s, singleTrain isZero train .standardize (of X) (of y) = .ok s ∧
        singlePredict predict s (of Z) = .ok (of (Matrix.of fun i j =>
          (plsSM (pls1W (std y y)) K (std X X) Z * plsBM (pls1W (std y y)) K (std X X) (std y y)) i j * (sd fun k => y k 0) +
            mu fun k => y k 0)) := by
    intro X y Z h
    obtain ⟨m, h1, h2⟩ := hpls hn (by omega) _ _ h
    obtain ⟨s, s1, s2⟩ := C51_standardize_value train predict isZero hz X y m h1
    exact ⟨s, s1, s2 Z _ (h2 hr Z)⟩
  obtain ⟨s, s1, s2⟩ := val X y Z h
  refine ⟨s, _, s1, s2, ?_⟩
  have c1 : ContinuousAt (fun x : Data n (p + 1) r => x.1) (X, y, Z) := continuousAt_fst
  have c2 : ContinuousAt (fun x : Data n (p + 1) r => x.2.1) (X, y, Z) := (continuous_fst.comp continuous_snd).continuousAt
  have c3 : ContinuousAt (fun x : Data n (p + 1) r => x.2.2) (X, y, Z) := (continuous_snd.comp continuous_snd).continuousAt
  have cX := cont_std c1 c1 hX
  have cy := cont_std c2 c2 (fun j => by rw [Subsingleton.elim j 0]; exact hy)
  have hc : ContinuousAt (fun x : Data n (p + 1) r => (Matrix.of fun i j =>
      (plsSM (pls1W (std x.2.1 x.2.1)) K (std x.1 x.1) x.2.2 * plsBM (pls1W (std x.2.1 x.2.1)) K (std x.1 x.1) (std x.2.1 x.2.1))
        i j * (sd fun k => x.2.1 k 0) + mu fun k => x.2.1 k 0 : Matrix (Fin r) (Fin 1) ℝ)) (X, y, Z) :=
    cont_entries.2 fun i j => ((cont_entries.1 (cont_predict cX cy c3 h) i j).mul (cont_sd fun k => cont_entries.1 c2 k 0)).add
      (cont_mu fun k => cont_entries.1 c2 k 0)
  obtain ⟨δ, hδ, hb⟩ := near_of_eventually ((regular_near cX cy h).and (near_of_continuous hc hε))
  refine ⟨δ, hδ, fun X' y' Z' h1 h2 h3 => ?_⟩
  obtain ⟨g1, g2⟩ := hb X' y' Z' h1 h2 h3
  obtain ⟨s', t1, t2⟩ := val X' y' Z' g1
  exact ⟨s', _, t1, t2, g2⟩

end

/-- What the preprocessing makes of the training data. -/
noncomputable def preparedData {q : Nat} : Prep → Matrix (Fin n) (Fin q) ℝ → Matrix (Fin n) (Fin q) ℝ
  | .center, A => cen A A
  | .standardize, A => std A A
  | _, A => A

/-- The preprocessing is one of the three documented ones and, for standardisation, no column is constant. -/
def PrepOk : Prep → Matrix (Fin n) (Fin (p + 1)) ℝ → Matrix (Fin n) (Fin 1) ℝ → Prop
  | .standardize, X, y => (∀ j, (sd fun k => X k j) ≠ 0) ∧ (sd fun k => y k 0) ≠ 0
  | .unknown, _, _ => False
  | _, _, _ => True

/-- The predictions of a trained model change by less than `ε` if training data and samples change by less than some `δ`,
and training on the changed data succeeds. -/
def Stable {M : Type} (train : Mat ℝ → Mat ℝ → Except PyErr M) (predict : M → Mat ℝ → Except PyErr (Mat ℝ))
    (X : Matrix (Fin n) (Fin p) ℝ) (y : Matrix (Fin n) (Fin 1) ℝ) (Z : Matrix (Fin r) (Fin p) ℝ) : Prop :=
  ∃ (m : M) (F : Matrix (Fin r) (Fin 1) ℝ), train (of X) (of y) = .ok m ∧ predict m (of Z) = .ok (of F) ∧ ∀ ε : ℝ, 0 < ε →
    ∃ δ : ℝ, 0 < δ ∧ ∀ (X' : Matrix (Fin n) (Fin p) ℝ) (y' : Matrix (Fin n) (Fin 1) ℝ) (Z' : Matrix (Fin r) (Fin p) ℝ),
      Near δ X' X → Near δ y' y → Near δ Z' Z →
      ∃ (m' : M) (F' : Matrix (Fin r) (Fin 1) ℝ), train (of X') (of y') = .ok m' ∧ predict m' (of Z') = .ok (of F') ∧ Near ε F' F

theorem stable_of {M : Type} {train : Mat ℝ → Mat ℝ → Except PyErr M} {predict : M → Mat ℝ → Except PyErr (Mat ℝ)}
    {X : Matrix (Fin n) (Fin p) ℝ} {y : Matrix (Fin n) (Fin 1) ℝ} {Z : Matrix (Fin r) (Fin p) ℝ}
    (h : ∀ ε : ℝ, 0 < ε → ∃ (m : M) (F : Matrix (Fin r) (Fin 1) ℝ), train (of X) (of y) = .ok m ∧ predict m (of Z) = .ok (of F) ∧
      ∃ δ : ℝ, 0 < δ ∧ ∀ (X' : Matrix (Fin n) (Fin p) ℝ) (y' : Matrix (Fin n) (Fin 1) ℝ) (Z' : Matrix (Fin r) (Fin p) ℝ),
        Near δ X' X → Near δ y' y → Near δ Z' Z →
        ∃ (m' : M) (F' : Matrix (Fin r) (Fin 1) ℝ), train (of X') (of y') = .ok m' ∧ predict m' (of Z') = .ok (of F') ∧
          Near ε F' F) : Stable train predict X y Z := by
  obtain ⟨m, F, h1, h2, -⟩ := h 1 one_pos
  refine ⟨m, F, h1, h2, fun ε hε => ?_⟩
  obtain ⟨m', F', g1, g2, g3⟩ := h ε hε
  rw [h1] at g1
  obtain rfl := Except.ok.inj g1
  rw [h2] at g2
  obtain rfl : F = F' := of_inj.1 (Except.ok.inj g2)
  exact g3

theorem stable_prep {M : Type} {train : Mat ℝ → Mat ℝ → Except PyErr M} {predict : M → Mat ℝ → Except PyErr (Mat ℝ)} {K : Nat}
    (hpls : IsPls train predict K) (hn : 0 < n) (hr : 0 < r) (isZero : ℝ → Bool) (hz : ∀ x, isZero x = true ↔ x = 0) (prep : Prep)
    (X : Matrix (Fin n) (Fin (p + 1)) ℝ) (y : Matrix (Fin n) (Fin 1) ℝ) (Z : Matrix (Fin r) (Fin (p + 1)) ℝ)
    (hprep : PrepOk prep X y) (h : Regular (pls1W (preparedData prep y)) K (preparedData prep X)) :
    Stable (singleTrain isZero train prep) (singlePredict predict) X y Z := by
  refine stable_of fun ε hε => ?_
  cases prep with
  | none => exact near_none hpls hn hr isZero (by omega) X y Z h hε
  | center => exact near_center hpls hn hr isZero (by omega) X y Z h hε
  | standardize => exact near_standardize hpls hn hr isZero hz X y Z hprep.1 hprep.2 h hε
  | unknown => exact hprep.elim

/-- **C135 (PLS1).** Predictions depend continuously on the training data and on the samples, with any preprocessing. -/
theorem C135_pls1 {K : Nat} (hK : 0 < K) (hn : 0 < n) (hr : 0 < r) (isZero : ℝ → Bool) (hz : ∀ x, isZero x = true ↔ x = 0)
    (prep : Prep) (X : Matrix (Fin n) (Fin (p + 1)) ℝ) (y : Matrix (Fin n) (Fin 1) ℝ) (Z : Matrix (Fin r) (Fin (p + 1)) ℝ)
    (hprep : PrepOk prep X y) (h : Regular (pls1W (preparedData prep y)) K (preparedData prep X)) :
    Stable (singleTrain isZero (pls1Base K) prep) (singlePredict fun m Z => pls1Predict K m Z) X y Z :=
  stable_prep (isPls_pls1 hK) hn hr isZero hz prep X y Z hprep h

/-- **C135 (SIMPLS).** The same, whatever signs the eigenvector routine chooses. -/
theorem C135_simpls {eig : Mat ℝ → Mat ℝ × Mat ℝ} (he : EigOne eig) {K : Nat} (hK : 0 < K) {count : Int} (hcount : count ≤ 0)
    (hn : 0 < n) (hr : 0 < r) (isZero : ℝ → Bool) (hz : ∀ x, isZero x = true ↔ x = 0)
    (prep : Prep) (X : Matrix (Fin n) (Fin (p + 1)) ℝ) (y : Matrix (Fin n) (Fin 1) ℝ) (Z : Matrix (Fin r) (Fin (p + 1)) ℝ)
    (hprep : PrepOk prep X y) (h : Regular (pls1W (preparedData prep y)) K (preparedData prep X)) :
    Stable (singleTrain isZero (fun X y => simplsTrain (domOf eig) K count X y) prep) (singlePredict simplsPredict) X y Z :=
  stable_prep (isPls_simpls he hK hcount) hn hr isZero hz prep X y Z hprep h

/-- **C135 (PLS1 scores).** The scores `transform` returns depend continuously on the data, signs included. -/
theorem C135_scores {K : Nat} (hK : 0 < K) (hn : 0 < n) (hp : 0 < p) (hr : 0 < r) (X : Matrix (Fin n) (Fin p) ℝ)
    (y : Matrix (Fin n) (Fin 1) ℝ) (Z : Matrix (Fin r) (Fin p) ℝ) (h : Regular (pls1W y) K X) :
    ∃ (m : Pls1Model ℝ) (S : Matrix (Fin r) (Fin K) ℝ), pls1Base K (of X) (of y) = .ok m ∧ pls1Transform K m (of Z) = .ok (of S) ∧ ∀ ε : ℝ, 0 < ε →
      ∃ δ : ℝ, 0 < δ ∧ ∀ X' y' Z', Near δ X' X → Near δ y' y → Near δ Z' Z →
        ∃ (m' : Pls1Model ℝ) (S' : Matrix (Fin r) (Fin K) ℝ), pls1Base K (of X') (of y') = .ok m' ∧ pls1Transform K m' (of Z') = .ok (of S') ∧ Near ε S' S := by
  have val : ∀ (X : Matrix (Fin n) (Fin p) ℝ) (y : Matrix (Fin n) (Fin 1) ℝ) (Z : Matrix (Fin r) (Fin p) ℝ),
      Regular (pls1W y) K X → ∃ m, pls1Base K (of X) (of y) = .ok m ∧
        pls1Transform K m (of Z) = .ok (of (plsSM (pls1W y) K X Z)) := by
    intro X y Z h
    have ht : pls1Base K (of X) (of y) = .ok ⟨of (plsWM (pls1W y) K X * ((plsPM (pls1W y) K X)ᵀ * plsWM (pls1W y) K X)⁻¹ *
        plsBM (pls1W y) K X y), of (plsPM (pls1W y) K X), of (plsWM (pls1W y) K X), of (plsBM (pls1W y) K X y)⟩ := by
      unfold pls1Base
      rw [pls1Train_eq (pls1W y) pls1Weights K hn hp hK X y (fun k _ => pls1Weights_eq y _) h.sq1_ne]
      rfl
    exact ⟨_, ht, pls1Transform_eq (pls1W y) hr K X _ _ Z⟩
  obtain ⟨m, m1, m2⟩ := val X y Z h
  refine ⟨m, _, m1, m2, fun ε hε => ?_⟩
  have c1 : ContinuousAt (fun x : Data n p r => x.1) (X, y, Z) := continuousAt_fst
  have c2 : ContinuousAt (fun x : Data n p r => x.2.1) (X, y, Z) := (continuous_fst.comp continuous_snd).continuousAt
  have c3 : ContinuousAt (fun x : Data n p r => x.2.2) (X, y, Z) := (continuous_snd.comp continuous_snd).continuousAt
  obtain ⟨δ, hδ, hb⟩ := near_of_eventually ((regular_near c1 c2 h).and (near_of_continuous (cont_plsSM c1 c2 c3 h) hε))
  refine ⟨δ, hδ, fun X' y' Z' h1 h2 h3 => ?_⟩
  obtain ⟨g1, g2⟩ := hb X' y' Z' h1 h2 h3
  obtain ⟨m', t1, t2⟩ := val X' y' Z' g1
  exact ⟨m', _, t1, t2, g2⟩

/-- One sample, one predictor. -/
def oneX (a : ℝ) : Matrix (Fin 1) (Fin 1) ℝ := !![a]

theorem one_regular {a : ℝ} (ha : a ≠ 0) : Regular (pls1W (oneX 1)) 1 (oneX a) := by
  refine Regular.of_sq1 fun k hk => ?_
  obtain rfl : k = 0 := by omega
  have h1 : sq1 ((oneX a)ᵀ * oneX 1) = a ^ 2 := by
    simp [sq1, oneX, Matrix.mul_apply]
    ring
  have h2 : pls1W (oneX 1) (oneX a) 0 0 = a / |a| := by
    simp only [pls1W, Matrix.of_apply, h1, Real.sqrt_sq_eq_abs]
    simp [oneX, Matrix.mul_apply]
  have : sq1 (plsT (pls1W (oneX 1)) (oneX a) 0) = a ^ 2 := by
    simp only [plsT, plsX, plsW, sq1, Matrix.mul_apply, Fin.sum_univ_one, Fin.isValue, h2]
    simp only [oneX, Matrix.of_apply, Matrix.cons_val', Matrix.cons_val_fin_one]
    rw [show a * (a / |a|) * (a * (a / |a|)) = a ^ 2 * (a ^ 2 / |a| ^ 2) by ring, sq_abs, div_self (pow_ne_zero 2 ha), mul_one]
  rw [this]
  exact pow_ne_zero 2 ha

/-- **C135 (where it ends).** Close to data without the component asked for there is no bound: for every `δ` and every bound
there are two training sets that differ by less than `δ`, both of which train, and whose predictions for the same sample
differ by more than the bound. -/
theorem C135_limits (δ B : ℝ) (hδ : 0 < δ) :
    ∃ (X X' y Z : Matrix (Fin 1) (Fin 1) ℝ) (m m' : Pls1Model ℝ) (F F' : Matrix (Fin 1) (Fin 1) ℝ), Near δ X' X ∧
      pls1Base (1 : Nat) (of X) (of y) = .ok m ∧ pls1Base (1 : Nat) (of X') (of y) = .ok m' ∧
      pls1Predict (1 : Nat) m (of Z) = .ok (of F) ∧ pls1Predict (1 : Nat) m' (of Z) = .ok (of F') ∧ B < |F' 0 0 - F 0 0| := by
  have val : ∀ a : ℝ, a ≠ 0 → (plsSM (pls1W (oneX 1)) 1 (oneX a) (oneX 1) * plsBM (pls1W (oneX 1)) 1 (oneX a) (oneX 1)) 0 0 =
      1 / a := by
    intro a ha
    have h1 : sq1 ((oneX a)ᵀ * oneX 1) = a ^ 2 := by
      simp [sq1, oneX, Matrix.mul_apply]
      ring
    have h2 : pls1W (oneX 1) (oneX a) 0 0 = a / |a| := by
      simp only [pls1W, Matrix.of_apply, h1, Real.sqrt_sq_eq_abs]
      simp [oneX, Matrix.mul_apply]
    have ha' : |a| ≠ 0 := abs_ne_zero.2 ha
    simp only [Matrix.mul_apply, Fin.sum_univ_one, Fin.isValue, plsSM, plsBM, Matrix.of_apply, plsS, plsZ, plsB, plsT, plsX,
      plsW, sq1, h2]
    simp only [oneX, Matrix.of_apply, Matrix.cons_val', Matrix.cons_val_fin_one]
    have : |a| * |a| = a * a := abs_mul_abs_self a
    field_simp
  obtain ⟨t, ht0, ht1, ht2⟩ : ∃ t : ℝ, 0 < t ∧ 2 * t < δ ∧ B < 2 / t := by
    refine ⟨min (δ / 4) (1 / (|B| + 1)), lt_min (by positivity) (by positivity), ?_, ?_⟩
    · have := min_le_left (δ / 4) (1 / (|B| + 1))
      linarith
    · have h := min_le_right (δ / 4) (1 / (|B| + 1))
      have hp : 0 < min (δ / 4) (1 / (|B| + 1)) := lt_min (by positivity) (by positivity)
      rw [lt_div_iff₀ hp]
      have hB : 0 < |B| + 1 := by positivity
      rw [le_div_iff₀ hB] at h
      have := le_abs_self B
      nlinarith
  obtain ⟨m, h1, h2⟩ := isPls_pls1 (K := 1) one_pos one_pos one_pos (oneX t) (oneX 1) (one_regular ht0.ne')
  obtain ⟨m', h1', h2'⟩ := isPls_pls1 (K := 1) one_pos one_pos one_pos (oneX (-t)) (oneX 1) (one_regular (neg_ne_zero.2 ht0.ne'))
  refine ⟨oneX t, oneX (-t), oneX 1, oneX 1, m, m', _, _, ?_, h1, h1', h2 one_pos _, h2' one_pos _, ?_⟩
  · intro i j
    fin_cases i
    fin_cases j
    show |-t - t| < δ
    rw [abs_sub_lt_iff]
    constructor <;> linarith
  · rw [val t ht0.ne', val (-t) (neg_ne_zero.2 ht0.ne')]
    have : 1 / -t - 1 / t = -(2 / t) := by
      field_simp
      ring
    rw [this, abs_neg]
    exact ht2.trans_le (le_abs_self _)

/-- The hypotheses hold for two samples with two predictors and two components. -/
example : Stable (singleTrain (fun x => decide (x = 0)) (pls1Base (2 : Nat)) .none) (singlePredict fun m Z => pls1Predict (2 : Nat) m Z)
    exX exY (1 : Matrix (Fin 2) (Fin 2) ℝ) :=
  C135_pls1 (K := 2) (by norm_num) (by norm_num) (by norm_num) _ (fun x => decide_eq_true_iff) .none exX exY 1 trivial ex_regular

end Verif.Props
