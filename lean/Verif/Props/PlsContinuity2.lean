import Verif.Props.PlsContinuity
import Verif.Props.OplsReduction
import Verif.Props.KernelLinear
import Verif.Props.NipalsProps

/-!
# C135 for OPLS, KernelPLS with the linear kernel, and NIPALS with one response

Small changes of the data change the predictions by little, by the reductions C102, C101 and C74.
-/

namespace Verif.Props

open Verif Mat Factory Transf Filter Topology
open scoped Matrix

variable {n p r : Nat}

/-! ## OPLS -/

/-- OPLS with one orthogonal component on PLS1 with `K` components computes PLS with `K + 1` components. -/
theorem isPls_opls {K : Nat} (hK : 0 < K) :
    IsPls (fun X y => (oplsTrain (pls1AsBase K) 1 X y).map Prod.fst) (oplsPredict (pls1AsBase K)) (K + 1) := fun hn hp X y h => by
  obtain ⟨m, q, T, R, h1, h2, h3⟩ := C102_one_orthogonal_partial hn hp hK h
  refine ⟨m, by dsimp only; rw [h1]; rfl, fun hr Z => ?_⟩
  obtain ⟨g1, g2⟩ := h3 hr Z
  rw [pls1Train_eq (pls1W y) pls1Weights (K + 1) hn hp (Nat.succ_pos K) X y (fun k _ => pls1Weights_eq y _) h.sq1_ne] at h2
  obtain ⟨rfl, -⟩ := Prod.mk.inj (Except.ok.inj h2)
  rw [pls1Predict_eq (pls1W y) hr (K + 1) X] at g2
  rw [g1, ← g2]

/-- **C135 (OPLS).** With one orthogonal component and PLS1 as base, predictions depend continuously on training data and samples, with any
preprocessing. -/
theorem C135_opls {K : Nat} (hK : 0 < K) (hn : 0 < n) (hr : 0 < r) (isZero : ℝ → Bool) (hz : ∀ x, isZero x = true ↔ x = 0)
    (prep : Prep) (X : Matrix (Fin n) (Fin (p + 1)) ℝ) (y : Matrix (Fin n) (Fin 1) ℝ) (Z : Matrix (Fin r) (Fin (p + 1)) ℝ)
    (hprep : PrepOk prep X y) (h : Regular (pls1W (preparedData prep y)) (K + 1) (preparedData prep X)) :
    Stable (singleTrain isZero (fun X y => (oplsTrain (pls1AsBase K) 1 X y).map Prod.fst) prep)
      (singlePredict (oplsPredict (pls1AsBase K))) X y Z :=
  stable_prep (isPls_opls hK) hn hr isZero hz prep X y Z hprep h

/-! ## KernelPLS -/

/-- **C135 (KernelPLS, linear kernel, one response).** Predictions depend continuously on training data and samples, whatever the start vectors, as long
as these suit the data. -/
theorem C135_kernel {K : Nat} {c : KplsCfg ℝ Unit} {v : Nat → Matrix (Fin n) (Fin 1) ℝ} (hc : KplsReal c n v)
    (hl1 : ∀ A, c.kern1 () A = ((), linearMatrix A none)) (hl2 : ∀ A B, c.kern2 () A B = ((), linearMatrix A (some B)))
    (htol : 0 < c.tol) (hmax : 2 ≤ c.maxIter) (hK : c.K = K) (hK0 : 0 < K) (hn : 0 < n) (hp : 0 < p) (hr : 0 < r)
    (lstsq : Mat ℝ → Except PyErr (Mat ℝ)) (hinv : c.inv = inverse lstsq)
    (X : Matrix (Fin n) (Fin p) ℝ) (y : Matrix (Fin n) (Fin 1) ℝ) (Z : Matrix (Fin r) (Fin p) ℝ)
    (h : Regular (pls1W (cen y y)) K (cen X X)) (hv : GoodStart c.tol K (cen X X) (cen y y) v) :
    Stable (kplsTrain c ()) (kplsPredict c) X y Z := by
  have val : ∀ (X : Matrix (Fin n) (Fin p) ℝ) (y : Matrix (Fin n) (Fin 1) ℝ) (Z : Matrix (Fin r) (Fin p) ℝ),
      Regular (pls1W (cen y y)) K (cen X X) → GoodStart c.tol K (cen X X) (cen y y) v → ∃ m, kplsTrain c () (of X) (of y) = .ok m ∧
        kplsPredict c m (of Z) = .ok (of (Matrix.of fun i j =>
          (plsSM (pls1W (cen y y)) K (cen X X) (cen X Z) * plsBM (pls1W (cen y y)) K (cen X X) (cen y y)) i j + mu fun k => y k 0)) := by
    intro X y Z h hv
    obtain ⟨m, m', T, h1, h2, h3⟩ := C101_linear_kernel hc hl1 hl2 htol hmax hK hK0 hn hp X y lstsq hinv h hv
    refine ⟨m, h1, ?_⟩
    obtain ⟨F, f1, f2⟩ := h3 hr Z
    rw [pls1Train_eq (pls1W (cen y y)) pls1Weights K hn hp hK0 _ _ (fun k _ => pls1Weights_eq (cen y y) _) h.sq1_ne] at h2
    obtain ⟨rfl, -⟩ := Prod.mk.inj (Except.ok.inj h2)
    rw [pls1Predict_eq (pls1W (cen y y)) hr K] at f1
    rw [f2, of_inj.1 (Except.ok.inj f1)]
  obtain ⟨m, m1, m2⟩ := val X y Z h hv
  refine ⟨m, _, m1, m2, fun ε hε => ?_⟩
  have c1 : ContinuousAt (fun x : Data n p r => x.1) (X, y, Z) := continuousAt_fst
  have c2 : ContinuousAt (fun x : Data n p r => x.2.1) (X, y, Z) := (continuous_fst.comp continuous_snd).continuousAt
  have c3 : ContinuousAt (fun x : Data n p r => x.2.2) (X, y, Z) := (continuous_snd.comp continuous_snd).continuousAt
  have cX := cont_cen c1 c1
  have cy := cont_cen c2 c2
  have cZ := cont_cen c1 c3
  have hc' : ContinuousAt (fun x : Data n p r => (Matrix.of fun i j =>
      (plsSM (pls1W (cen x.2.1 x.2.1)) K (cen x.1 x.1) (cen x.1 x.2.2) *
        plsBM (pls1W (cen x.2.1 x.2.1)) K (cen x.1 x.1) (cen x.2.1 x.2.1)) i j + mu fun k => x.2.1 k 0 : Matrix (Fin r) (Fin 1) ℝ)) (X, y, Z) :=
    cont_entries.2 fun i j => (cont_entries.1 (cont_predict cX cy cZ h) i j).add (cont_mu fun k => cont_entries.1 c2 k 0)
  have hs : ∀ᶠ x : Data n p r in 𝓝 (X, y, Z), ∀ k : Fin K, ∑ i, plsT (pls1W (cen x.2.1 x.2.1)) (cen x.1 x.1) k i 0 * v k i 0 ≠ 0 :=
    eventually_all.2 fun k => ContinuousAt.eventually_ne
      (tendsto_finsetSum _ fun i _ => (cont_entries.1 (cont_plsT cX cy h.sq1_ne k.1 k.2) i 0).mul continuousAt_const) (hv.score k.1 k.2)
  obtain ⟨δ, hδ, hb⟩ := near_of_eventually (((regular_near cX cy h).and hs).and (near_of_continuous hc' hε))
  refine ⟨δ, hδ, fun X' y' Z' h1 h2 h3 => ?_⟩
  obtain ⟨⟨g0, g1⟩, g2⟩ := hb X' y' Z' h1 h2 h3
  obtain ⟨m', t1, t2⟩ := val X' y' Z' g0 ⟨hv.length, fun k hk => g1 ⟨k, hk⟩⟩
  exact ⟨m', _, t1, t2, g2⟩

/-! ## NIPALS -/

/-- None of the thresholds of the code is met, not even with equality, in the first `K` passes (compare `NipRegular`). -/
def NipStrict : Nat → Matrix (Fin n) (Fin p) ℝ → Matrix (Fin n) (Fin 1) ℝ → Prop
  | 0, _, _ => True
  | K + 1, X, y =>
    let t := X * pls1W y X
    1 / 10 ^ 10 < ∑ i, y i 0 ^ 2 ∧ 1 / 10 ^ 16 * (∑ i, y i 0 ^ 2) ^ 2 < ∑ j, (Xᵀ * y) j 0 ^ 2 ∧
      2 / 10 ^ 10 < ∑ i, t i 0 ^ 2 ∧
      NipStrict K (X - (∑ i, t i 0 ^ 2)⁻¹ • (t * (tᵀ * X))) (y - (∑ i, t i 0 ^ 2)⁻¹ • (t * (tᵀ * y)))

theorem NipStrict.regular {K : Nat} {X : Matrix (Fin n) (Fin p) ℝ} {y : Matrix (Fin n) (Fin 1) ℝ} (h : NipStrict K X y) : NipRegular K X y := by
  induction K generalizing X y with
  | zero => trivial
  | succ K ih => exact ⟨h.1.le, h.2.1.le, h.2.2.1.le, ih h.2.2.2⟩

theorem cont_ss {E : Type} [TopologicalSpace E] {e : E} {t : E → Matrix (Fin n) (Fin 1) ℝ} (h : ContinuousAt t e) :
    ContinuousAt (fun x => ∑ i, t x i 0 ^ 2) e :=
  tendsto_finsetSum _ fun i _ => (cont_entries.1 h i 0).pow 2

theorem cont_defl {E : Type} [TopologicalSpace E] {e : E} {q : Nat} {A : E → Matrix (Fin n) (Fin q) ℝ} {t : E → Matrix (Fin n) (Fin 1) ℝ}
    (hA : ContinuousAt A e) (h : ContinuousAt t e) (h0 : ∑ i, t e i 0 ^ 2 ≠ 0) :
    ContinuousAt (fun x => A x - (∑ i, t x i 0 ^ 2)⁻¹ • (t x * ((t x)ᵀ * A x))) e :=
  cont_sub hA (cont_entries.2 fun i j => ((cont_ss h).inv₀ h0).mul
    (cont_entries.1 (cont_mul h (cont_mul (cont_transpose h) hA)) i j))

theorem NipStrict.near {E : Type} [TopologicalSpace E] {e : E} {K : Nat} {X : E → Matrix (Fin n) (Fin p) ℝ} {y : E → Matrix (Fin n) (Fin 1) ℝ}
    (hX : ContinuousAt X e) (hy : ContinuousAt y e) (h : NipStrict K (X e) (y e)) : ∀ᶠ x in 𝓝 e, NipStrict K (X x) (y x) := by
  induction K generalizing X y with
  | zero => exact Eventually.of_forall fun _ => trivial
  | succ K ih =>
    obtain ⟨h1, h2, h3, h4⟩ := h
    have hs : ∑ i, (X e * pls1W (y e) (X e)) i 0 ^ 2 ≠ 0 := (lt_trans (by norm_num) h3).ne'
    have ht : ContinuousAt (fun x => X x * pls1W (y x) (X x)) e := cont_mul hX (cont_pls1W hX hy (by
      simpa only [sq1, sq] using hs))
    have e1 := (cont_ss hy).eventually (lt_mem_nhds h1)
    have e2 : ∀ᶠ x in 𝓝 e, 1 / 10 ^ 16 * (∑ i, y x i 0 ^ 2) ^ 2 < ∑ j, ((X x)ᵀ * y x) j 0 ^ 2 :=
      (continuousAt_const.mul ((cont_ss hy).pow 2)).eventually_lt (cont_ss (cont_mul (cont_transpose hX) hy)) h2
    have e3 := (cont_ss ht).eventually (lt_mem_nhds h3)
    have e4 := ih (cont_defl hX ht hs) (cont_defl hy ht hs) h4
    filter_upwards [e1, e2, e3, e4] with x a1 a2 a3 a4
    exact ⟨a1, a2, a3, a4⟩

/-- **C135 (NIPALS, one response).** Predictions depend continuously on training data and samples, away from the thresholds of the code and from constant
columns. -/
theorem C135_nipals {K : Nat} {c : NipalsCfg ℝ} (hc : NipalsReal c) (hcca : c.cca = false) (hdefl : c.defl = .regression)
    (hpinv : PinvRegular c.pinv) (hK0 : 0 < K) (hK : c.K = (K : Int)) (hn : 0 < n) (hr : 0 < r) (X : Matrix (Fin n) (Fin (p + 1)) ℝ)
    (y : Matrix (Fin n) (Fin 1) ℝ) (Z : Matrix (Fin r) (Fin (p + 1)) ℝ) (hX : ∀ j, (sd fun k => X k j) ≠ 0) (hy : (sd fun k => y k 0) ≠ 0)
    (h : NipStrict K (std X X) (std y y)) :
    Stable (nipalsTrain c) (nipalsPredict c) X y Z := by
  have val : ∀ (X : Matrix (Fin n) (Fin (p + 1)) ℝ) (y : Matrix (Fin n) (Fin 1) ℝ) (Z : Matrix (Fin r) (Fin (p + 1)) ℝ),
      NipStrict K (std X X) (std y y) → ∃ m, nipalsTrain c (of X) (of y) = .ok m ∧
        nipalsPredict c m (of Z) = .ok (of (Matrix.of fun i (_ : Fin 1) =>
          divisor y 0 * (plsSM (pls1W (std y y)) K (std X X) (std X Z) * plsBM (pls1W (std y y)) K (std X X) (std y y)) i 0 +
            mu fun k => y k 0)) := by
    intro X y Z h
    obtain ⟨m, m', T, h1, h2, h3⟩ := C74_same_predictions hc hcca hdefl hpinv hK0 hK hn X y h.regular
    refine ⟨m, h1, ?_⟩
    obtain ⟨F, f1, f2⟩ := h3 r hr Z
    rw [pls1Train_eq (pls1W (std y y)) pls1Weights K hn (Nat.succ_pos p) hK0 _ _ (fun k _ => pls1Weights_eq (std y y) _)
      (PassOk.sq1_ne h.regular.passOk)] at h2
    obtain ⟨rfl, -⟩ := Prod.mk.inj (Except.ok.inj h2)
    rw [pls1Predict_eq (pls1W (std y y)) hr K] at f1
    rw [f2, of_inj.1 (Except.ok.inj f1)]
  have hreg : Regular (pls1W (std y y)) K (std X X) := Regular.of_sq1 (PassOk.sq1_ne h.regular.passOk)
  obtain ⟨m, m1, m2⟩ := val X y Z h
  refine ⟨m, _, m1, m2, fun ε hε => ?_⟩
  have c1 : ContinuousAt (fun x : Data n (p + 1) r => x.1) (X, y, Z) := continuousAt_fst
  have c2 : ContinuousAt (fun x : Data n (p + 1) r => x.2.1) (X, y, Z) := (continuous_fst.comp continuous_snd).continuousAt
  have c3 : ContinuousAt (fun x : Data n (p + 1) r => x.2.2) (X, y, Z) := (continuous_snd.comp continuous_snd).continuousAt
  have hy' : ∀ j : Fin 1, (sd fun k => y k j) ≠ 0 := fun j => by rw [Subsingleton.elim j 0]; exact hy
  have cX := cont_std c1 c1 hX
  have cy := cont_std c2 c2 hy'
  have cZ := cont_std c1 c3 hX
  have hc' : ContinuousAt (fun x : Data n (p + 1) r => (Matrix.of fun i (_ : Fin 1) =>
      divisor x.2.1 0 * (plsSM (pls1W (std x.2.1 x.2.1)) K (std x.1 x.1) (std x.1 x.2.2) *
        plsBM (pls1W (std x.2.1 x.2.1)) K (std x.1 x.1) (std x.2.1 x.2.1)) i 0 + mu fun k => x.2.1 k 0 : Matrix (Fin r) (Fin 1) ℝ)) (X, y, Z) :=
    cont_entries.2 fun i j => ((cont_divisor c2 0 hy).mul (cont_entries.1 (cont_predict cX cy cZ hreg) i 0)).add
      (cont_mu fun k => cont_entries.1 c2 k 0)
  obtain ⟨δ, hδ, hb⟩ := near_of_eventually ((NipStrict.near cX cy h).and (near_of_continuous hc' hε))
  refine ⟨δ, hδ, fun X' y' Z' h1 h2 h3 => ?_⟩
  obtain ⟨g1, g2⟩ := hb X' y' Z' h1 h2 h3
  obtain ⟨m', t1, t2⟩ := val X' y' Z' g1
  exact ⟨m', _, t1, t2, g2⟩

/-! ## Concrete cases -/

/-- Two components on three samples: OPLS with one predictive and one orthogonal component. -/
example (Z : Matrix (Fin 1) (Fin 2) ℝ) (isZero : ℝ → Bool) (hz : ∀ x, isZero x = true ↔ x = 0) :=
  C135_opls (K := 1) (by decide) (by decide) (by decide) isZero hz .none dxA dxY Z trivial kl_regular

example (lstsq : Mat ℝ → Except PyErr (Mat ℝ)) (Z : Matrix (Fin 1) (Fin 2) ℝ) :
    Stable (kplsTrain (klCfg 10 lstsq) ()) (kplsPredict (klCfg 10 lstsq)) dxA dxY Z :=
  C135_kernel (c := klCfg 10 lstsq) (v := klV) ⟨fun _ _ => rfl, fun _ => rfl⟩ (fun _ => rfl) (fun _ _ => rfl)
    (by norm_num [klCfg]) (by norm_num [klCfg]) rfl (by decide) (by decide) (by decide) (by decide) lstsq rfl dxA dxY Z
    (by rw [kl_cenX, kl_cenY]; exact kl_regular) (by rw [kl_cenX, kl_cenY]; exact kl_start)

example : NipStrict 1 (std ramp ramp) (std ramp ramp) := by
  rw [ramp_std]
  refine ⟨?_, ?_, ?_, trivial⟩
  · simp [Fin.sum_univ_three]
    norm_num
  · simp [Fin.sum_univ_three, Matrix.mul_apply]
    norm_num
  · rw [ramp_weights _ _ rfl rfl]
    simp [Fin.sum_univ_three, Matrix.mul_apply]
    norm_num

end Verif.Props
