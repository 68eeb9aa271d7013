import Verif.Props.PrmSymmetry
import Verif.Props.UnitInvariance
import Verif.Props.OplsReduction
import Verif.Props.DiplsLambda
import Verif.Props.PlsInvariance
import Verif.Props.PlsPrepProps

/-!
# C156 — the unit of the response: SIMPLS, OPLS, DIPLS and the preprocessing around them

C99 is about PLS1, C112 about the methods that standardise, C155 about PRM.
-/

namespace Verif.Props
open Verif Mat Factory Transf
open scoped Matrix

variable {n p K : Nat}

/-! ## SIMPLS, also with slimming -/

theorem IsSign.abs_eq {e : ℝ} (h : IsSign e) : |e| = 1 := by
  rcases mul_self_eq_one_iff.1 h with rfl | rfl <;> norm_num

/-- A threshold with the property of `slim_eq` is the only one. -/
theorem thr_unique {f : Fin p → ℝ} {m : Nat} {a b : ℝ}
    (ha : (Finset.univ.filter fun i => f i < a).card ≤ m) (ha' : m + 1 ≤ (Finset.univ.filter fun i => f i ≤ a).card)
    (hb : (Finset.univ.filter fun i => f i < b).card ≤ m) (hb' : m + 1 ≤ (Finset.univ.filter fun i => f i ≤ b).card) :
    a = b := by
  have key : ∀ {a b : ℝ}, m + 1 ≤ (Finset.univ.filter fun i => f i ≤ a).card →
      (Finset.univ.filter fun i => f i < b).card ≤ m → ¬a < b := by
    intro a b h1 h2 hab
    have : (Finset.univ.filter fun i => f i ≤ a) ⊆ Finset.univ.filter fun i => f i < b := fun i hi => by
      rw [Finset.mem_filter] at hi ⊢
      exact ⟨hi.1, hi.2.trans_lt hab⟩
    have := Finset.card_le_card this
    omega
  exact le_antisymm (not_lt.1 (key hb' ha)) (not_lt.1 (key ha' hb))

/-- Changing the sign of columns before slimming or after it is the same. -/
theorem slim_sign (hp : 0 < p) (count : Nat) (W : Matrix (Fin p) (Fin K) ℝ) (e : Fin K → ℝ) (he : ∀ j, IsSign (e j)) :
    ∃ S : Matrix (Fin p) (Fin K) ℝ, slim (count : Int) (of W) = .ok (of S) ∧
      slim (count : Int) (of (W * Matrix.diagonal e)) = .ok (of (S * Matrix.diagonal e)) := by
  obtain ⟨t, h1, h2⟩ := slim_eq hp count W
  obtain ⟨t', h1', h2'⟩ := slim_eq hp count (W * Matrix.diagonal e)
  have habs : ∀ i j, |(W * Matrix.diagonal e) i j| = |W i j| := fun i j => by
    rw [Matrix.mul_diagonal, abs_mul, (he j).abs_eq, mul_one]
  simp only [habs] at h2'
  have ht : t' = t := funext fun j => thr_unique (h2' j).1 (h2' j).2 (h2 j).1 (h2 j).2
  refine ⟨_, h1, ?_⟩
  rw [h1', ht, ok_inj]
  refine mk_congr fun i j => ?_
  rw [Matrix.mul_diagonal]
  simp only [slimCols, Matrix.of_apply, habs]
  split
  · rw [zero_mul]
  · rw [Matrix.mul_diagonal]

/-- **C156 (SIMPLS).** For every response unit, with and without slimming, and without any condition on the data: the
predictions are multiplied by the factor, the scores change at most in sign. -/
theorem C156_simpls {eig : Mat ℝ → Mat ℝ × Mat ℝ} (he : EigOne eig) (hp : 0 < p) (K : Nat) (count : Int)
    {c : ℝ} (hc : c ≠ 0) (X : Matrix (Fin n) (Fin p) ℝ) (y : Matrix (Fin n) (Fin 1) ℝ) :
    ∃ m m' : SimplsModel ℝ, simplsTrain (domOf eig) K count (of X) (of y) = .ok m ∧
      simplsTrain (domOf eig) K count (of X) (of (c • y)) = .ok m' ∧
      (∀ {r : Nat} (Z : Matrix (Fin r) (Fin p) ℝ), ∃ F : Matrix (Fin r) (Fin 1) ℝ,
        simplsPredict m (of Z) = .ok (of F) ∧ simplsPredict m' (of Z) = .ok (of (c • F))) ∧
      ∃ e : Fin K → ℝ, (∀ j, e j = 1 ∨ e j = -1) ∧ ∀ {r : Nat} (Z : Matrix (Fin r) (Fin p) ℝ),
        ∃ T : Matrix (Fin r) (Fin K) ℝ, simplsTransform m (of Z) = .ok (of T) ∧
          simplsTransform m' (of Z) = .ok (of (Matrix.of fun i j => T i j * e j)) := by
  obtain ⟨qf, hqf, hq⟩ := domOf_one he
  have h1V : (1 : Matrix (Fin p) (Fin p) ℝ) * (1 : Matrix (Fin p) (Fin p) ℝ)ᵀ = 1 := by
    rw [Matrix.transpose_one, Matrix.one_mul]
  have rot := fun h => sim_rot (n := n) (qf := qf) (V := 1) h1V hc hq X y h
  have key := fun h => (rot h).w (qf := qf) h1V hc hq
  simp only [Matrix.mul_one, Matrix.transpose_one, Matrix.one_mul] at rot key
  choose e hs _ hw using key
  have hW : simWM qf X (c • y) K = simWM qf X y K * Matrix.diagonal fun j : Fin K => e j.1 := by
    ext i j
    rw [Matrix.mul_diagonal]
    show simW qf X (c • y) j.1 i 0 = _
    rw [show simW qf X (c • y) j.1 = _ from hw j.1, Matrix.smul_apply, smul_eq_mul, mul_comm]
    rfl
  have hQ : simQM qf X (c • y) K = c • (simQM qf X y K * Matrix.diagonal fun j : Fin K => e j.1) := by
    ext i j
    rw [Matrix.smul_apply, Matrix.mul_diagonal]
    show ((sim qf X (c • y) j.1).Aᵀ * simW qf X (c • y) j.1) i 0 = _
    rw [show simW qf X (c • y) j.1 = _ from hw j.1, (rot j.1).A, Matrix.transpose_one, Matrix.one_mul, Matrix.transpose_smul,
      Matrix.smul_mul, Matrix.mul_smul, Matrix.smul_apply, Matrix.smul_apply, smul_eq_mul, smul_eq_mul, smul_eq_mul,
      mul_comm (e j.1)]
    rfl
  have hD : (Matrix.diagonal fun j : Fin K => e j.1) * (Matrix.diagonal fun j : Fin K => e j.1)ᵀ = 1 := by
    rw [Matrix.diagonal_transpose, Matrix.diagonal_mul_diagonal]
    simp only [show ∀ j, e j * e j = 1 from hs]
    exact Matrix.diagonal_one
  obtain ⟨S, h1, h2⟩ : ∃ S : Matrix (Fin p) (Fin K) ℝ,
      simplsTrain (domOf eig) K count (of X) (of y) = .ok ⟨of S, of (S * (simQM qf X y K)ᵀ), of (simQM qf X y K)⟩ ∧
      simplsTrain (domOf eig) K count (of X) (of (c • y)) =
        .ok ⟨of (S * Matrix.diagonal fun j : Fin K => e j.1), of (c • (S * (simQM qf X y K)ᵀ)),
          of (simQM qf X (c • y) K)⟩ := by
    have hB : ∀ S : Matrix (Fin p) (Fin K) ℝ, (S * Matrix.diagonal fun j : Fin K => e j.1) * (simQM qf X (c • y) K)ᵀ =
        c • (S * (simQM qf X y K)ᵀ) := fun S => by
      rw [hQ, Matrix.transpose_smul, Matrix.mul_smul, Matrix.transpose_mul]
      congr 1
      rw [← Matrix.mul_assoc, Matrix.mul_assoc S, hD, Matrix.mul_one]
    by_cases hcount : count > 0
    · obtain ⟨N, rfl⟩ : ∃ N : Nat, count = N := ⟨count.toNat, by omega⟩
      obtain ⟨S, s1, s2⟩ := slim_sign hp N (simWM qf X y K) (fun j => e j.1) fun j => hs j.1
      refine ⟨S, ?_, ?_⟩
      · rw [simplsTrain_eq qf X y (domOf eig) K hp _ hqf, if_pos hcount, s1, except_bind_ok, mul_of, except_bind_ok]
      · rw [simplsTrain_eq qf X (c • y) (domOf eig) K hp _ hqf, if_pos hcount, hW, s2, except_bind_ok, mul_of,
          except_bind_ok, hB]
    · refine ⟨simWM qf X y K, ?_, ?_⟩
      · rw [simplsTrain_eq qf X y (domOf eig) K hp _ hqf, if_neg hcount]
      · rw [simplsTrain_eq qf X (c • y) (domOf eig) K hp _ hqf, if_neg hcount, hW, hB]
  refine ⟨_, _, h1, h2, fun Z => ⟨Z * (S * (simQM qf X y K)ᵀ), ?_, ?_⟩, fun j => e j.1,
    fun j => mul_self_eq_one_iff.1 (hs j.1), fun Z => ⟨Z * S, ?_, ?_⟩⟩
  · unfold simplsPredict
    rw [mul_of]
  · unfold simplsPredict
    rw [mul_of, Matrix.mul_smul]
  · unfold simplsTransform
    rw [mul_of]
  · unfold simplsTransform
    rw [mul_of, ← Matrix.mul_assoc, ok_inj]
    refine mk_congr fun i j => ?_
    rw [Matrix.mul_diagonal, Matrix.of_apply]

/-! ## The preprocessing of single-response methods -/

/-- A training procedure that multiplies its predictions by the factor of the response. -/
def ResponseUnit {M : Type} (train : Mat ℝ → Mat ℝ → Except PyErr M) (predict : M → Mat ℝ → Except PyErr (Mat ℝ))
    (X : Matrix (Fin n) (Fin p) ℝ) (y : Matrix (Fin n) (Fin 1) ℝ) (c : ℝ) : Prop :=
  ∃ m m', train (of X) (of y) = .ok m ∧ train (of X) (of (c • y)) = .ok m' ∧
    ∀ {r : Nat}, 0 < r → ∀ Z : Matrix (Fin r) (Fin p) ℝ, ∃ F : Matrix (Fin r) (Fin 1) ℝ,
      predict m (of Z) = .ok (of F) ∧ predict m' (of Z) = .ok (of (c • F))

/-- Another unit and zero point of a response. -/
def respUnit (c b : ℝ) (y : Matrix (Fin n) (Fin 1) ℝ) : Matrix (Fin n) (Fin 1) ℝ := Matrix.of fun i j => c * y i j + b

theorem cen_respUnit (hn : 0 < n) (c b : ℝ) (y : Matrix (Fin n) (Fin 1) ℝ) :
    cen (respUnit c b y) (respUnit c b y) = c • cen y y := by
  ext i j
  show c * y i j + b - (mu fun k => c * y k j + b) = c * (y i j - mu fun k => y k j)
  rw [mu_affine hn.ne']
  ring

theorem mu_respUnit (hn : 0 < n) (c b : ℝ) (y : Matrix (Fin n) (Fin 1) ℝ) :
    (mu fun i => respUnit c b y i 0) = c * (mu fun i => y i 0) + b := mu_affine hn.ne' _ _ _

section prep
variable {M : Type} {train : Mat ℝ → Mat ℝ → Except PyErr M} {predict : M → Mat ℝ → Except PyErr (Mat ℝ)}
variable (isZero : ℝ → Bool)

/-- **C156 (CENTER).** Around a method that respects the unit of the response, centring makes the zero point irrelevant
too. -/
theorem C156_center (hn : 0 < n) (X : Matrix (Fin n) (Fin p) ℝ) (y : Matrix (Fin n) (Fin 1) ℝ) (c b : ℝ)
    (h : ResponseUnit train predict (cen X X) (cen y y) c) :
    ∃ s s', singleTrain isZero train .center (of X) (of y) = .ok s ∧
      singleTrain isZero train .center (of X) (of (respUnit c b y)) = .ok s' ∧
      ∀ {r : Nat}, 0 < r → ∀ Z : Matrix (Fin r) (Fin p) ℝ, ∃ F : Matrix (Fin r) (Fin 1) ℝ,
        singlePredict predict s (of Z) = .ok (of F) ∧ singlePredict predict s' (of Z) = .ok (of (respUnit c b F)) := by
  obtain ⟨m, m', h1, h2, h3⟩ := h
  rw [← cen_respUnit hn c b] at h2
  obtain ⟨s, g1, g2⟩ := C51_center_value train predict isZero X y m h1
  obtain ⟨s', g1', g2'⟩ := C51_center_value train predict isZero X (respUnit c b y) m' h2
  refine ⟨s, s', g1, g1', fun hr Z => ?_⟩
  obtain ⟨F, f1, f2⟩ := h3 hr Z
  refine ⟨_, g2 Z F f1, ?_⟩
  rw [g2' Z _ f2, ok_inj]
  refine mk_congr fun i j => ?_
  show c * F i j + (mu fun k => respUnit c b y k 0) = c * (F i j + mu fun k => y k 0) + b
  rw [mu_respUnit hn]
  ring

/-- **C156 (STANDARDIZE).** Standardising makes every method indifferent to unit and zero point of the response. -/
theorem C156_standardize (hz : ∀ x, isZero x = true ↔ x = 0) (hn : 0 < n) (X : Matrix (Fin n) (Fin (p + 1)) ℝ)
    (y : Matrix (Fin n) (Fin 1) ℝ) (hy : (sd fun i => y i 0) ≠ 0) {c : ℝ} (hc : 0 < c) (b : ℝ) (m : M)
    (h : train (of (std X X)) (of (std y y)) = .ok m) :
    ∃ s s', singleTrain isZero train .standardize (of X) (of y) = .ok s ∧
      singleTrain isZero train .standardize (of X) (of (respUnit c b y)) = .ok s' ∧
      ∀ {r : Nat} (Z : Matrix (Fin r) (Fin (p + 1)) ℝ) (F : Matrix (Fin r) (Fin 1) ℝ), predict m (of Z) = .ok (of F) →
        ∃ G : Matrix (Fin r) (Fin 1) ℝ,
          singlePredict predict s (of Z) = .ok (of G) ∧ singlePredict predict s' (of Z) = .ok (of (respUnit c b G)) := by
  have hy' : ∀ j : Fin 1, (sd fun i => y i j) ≠ 0 := fun j => by
    rw [Subsingleton.elim j 0]
    exact hy
  have e : std (respUnit c b y) (respUnit c b y) = std y y :=
    std_units (p := 1) hn.ne' (fun _ => c) (fun _ => b) (fun _ => hc) y hy' y
  obtain ⟨s, g1, g2⟩ := C51_standardize_value train predict isZero hz X y m h
  obtain ⟨s', g1', g2'⟩ := C51_standardize_value train predict isZero hz X (respUnit c b y) m (by rw [e]; exact h)
  refine ⟨s, s', g1, g1', fun Z F hF => ⟨_, g2 Z F hF, ?_⟩⟩
  rw [g2' Z F hF, ok_inj]
  refine mk_congr fun i j => ?_
  show F i j * (sd fun k => c * y k 0 + b) + (mu fun k => respUnit c b y k 0) =
    c * (F i j * (sd fun k => y k 0) + mu fun k => y k 0) + b
  rw [mu_respUnit hn, sd_affine hn.ne', abs_of_pos hc]
  ring

end prep

/-- SIMPLS respects the unit of the response. -/
theorem simpls_responseUnit {eig : Mat ℝ → Mat ℝ × Mat ℝ} (he : EigOne eig) (hp : 0 < p) (K : Nat) (count : Int)
    {c : ℝ} (hc : c ≠ 0) (X : Matrix (Fin n) (Fin p) ℝ) (y : Matrix (Fin n) (Fin 1) ℝ) :
    ResponseUnit (simplsTrain (domOf eig) K count) simplsPredict X y c := by
  obtain ⟨m, m', h1, h2, h3, -⟩ := C156_simpls he hp K count hc X y
  exact ⟨m, m', h1, h2, fun _ Z => h3 Z⟩

/-- PLS1 respects the unit of the response (C99). -/
theorem pls1_responseUnit (hn : 0 < n) (hp : 0 < p) (hK : 0 < K) (X : Matrix (Fin n) (Fin p) ℝ)
    (y : Matrix (Fin n) (Fin 1) ℝ) (h : Regular (pls1W y) K X) {c : ℝ} (hc : c ≠ 0) :
    ResponseUnit (pls1Base K) (pls1Predict K) X y c := by
  obtain ⟨m, m', T, T', h1, h2, h3⟩ := C99_units hn hp hK X y h hc one_ne_zero
  rw [one_smul] at h2
  refine ⟨m, m', ?_, ?_, fun hr Z => ?_⟩
  · unfold pls1Base
    rw [h1]
    rfl
  · unfold pls1Base
    rw [h2]
    rfl
  · obtain ⟨F, f1, f2⟩ := h3 hr Z
    rw [one_smul] at f2
    exact ⟨F, f1, f2⟩

/-! ## OPLS -/

theorem opW_unit {c : ℝ} (hc : c ≠ 0) (X : Matrix (Fin n) (Fin p) ℝ) (y : Matrix (Fin n) (Fin 1) ℝ) :
    ∃ e : ℝ, IsSign e ∧ opW X (c • y) = e • opW X y := by
  have h : (1 / sq1 (c • y)) • (Xᵀ * (c • y)) = (1 / c) • ((1 / sq1 y) • (Xᵀ * y)) := by
    rw [sq1_smul, Matrix.mul_smul, smul_smul, smul_smul]
    congr 1
    by_cases h0 : sq1 y = 0
    · simp [h0]
    · field_simp
  unfold opW
  rw [h]
  exact nrm_smul_sign _ (one_div_ne_zero hc)

/-- The removed components do not depend on the sign of the weights. -/
theorem oS_sign {e : ℝ} (he : IsSign e) (w : Matrix (Fin p) (Fin 1) ℝ) (A : Matrix (Fin n) (Fin p) ℝ) :
    oV (e • w) A = e • oV w A := by
  have h1 : oS (e • w) A = e • oS w A := by
    rw [oS, oS, sq1_sign he, Matrix.mul_smul, smul_comm]
  have h2 : oL (e • w) A = e • oL w A := by
    rw [oL, oL, h1, sq1_sign he, Matrix.mul_smul, smul_comm]
  rw [oV, oV, h2, sq1_sign he, smul_sub]
  congr 1
  rw [Matrix.transpose_smul, Matrix.smul_mul, Matrix.mul_smul, smul_smul e e, he, one_smul, smul_comm]

theorem oX_sign {e : ℝ} (he : IsSign e) (w : Matrix (Fin p) (Fin 1) ℝ) (X : Matrix (Fin n) (Fin p) ℝ) (k : Nat) :
    oX (e • w) X k = oX w X k ∧ oW (e • w) (oX w X k) = e • oW w (oX w X k) ∧
      oT (e • w) (oX w X k) = e • oT w (oX w X k) ∧ oP (e • w) (oX w X k) = e • oP w (oX w X k) := by
  have key : ∀ A : Matrix (Fin n) (Fin p) ℝ, oW (e • w) A = e • oW w A ∧ oT (e • w) A = e • oT w A ∧
      oP (e • w) A = e • oP w A := by
    intro A
    have h1 : oW (e • w) A = e • oW w A := by
      rw [oW, oW, oS_sign he, nrm, nrm, sq1_sign he, smul_comm]
    have h2 : oT (e • w) A = e • oT w A := by
      rw [oT, oT, h1, sq1_sign he, Matrix.mul_smul, smul_comm]
    refine ⟨h1, h2, ?_⟩
    rw [oP, oP, h2, sq1_sign he, Matrix.mul_smul, smul_comm]
  refine ⟨?_, key _⟩
  induction k with
  | zero => rfl
  | succ k ih =>
    rw [oX_next, oX_next, ih, (key _).2.1, (key _).2.2, Matrix.transpose_smul, Matrix.smul_mul, Matrix.mul_smul, smul_smul,
      he, one_smul]

/-- The filter `Z ↦ Z - Z W Pᵀ` does not depend on the unit of the response. -/
theorem opls_filter_unit {c : ℝ} (hc : c ≠ 0) (X : Matrix (Fin n) (Fin p) ℝ) (y : Matrix (Fin n) (Fin 1) ℝ) (K : Nat) :
    oWM (opW X (c • y)) X K * (oPM (opW X (c • y)) X K)ᵀ = oWM (opW X y) X K * (oPM (opW X y) X K)ᵀ ∧
      oX (opW X (c • y)) X K = oX (opW X y) X K := by
  obtain ⟨e, he, h⟩ := opW_unit hc X y
  rw [h]
  refine ⟨?_, (oX_sign he _ X K).1⟩
  ext i j
  rw [Matrix.mul_apply, Matrix.mul_apply]
  refine Finset.sum_congr rfl fun k _ => ?_
  obtain ⟨h1, h2, -, h4⟩ := oX_sign he (opW X y) X k.1
  simp only [Matrix.transpose_apply, oWM, oPM, Matrix.of_apply, h1, h2, h4, Matrix.smul_apply, smul_eq_mul]
  rw [mul_mul_mul_comm, he, one_mul]

/-- **C156 (OPLS).** The filter is the same for every unit of the response; if the base method multiplies its predictions
by the factor, so does OPLS. -/
theorem C156_opls {M : Type} (base : BasePls ℝ M) (hn : 0 < n) (hp : 0 < p) (K : Nat) {c : ℝ} (hc : c ≠ 0)
    (X : Matrix (Fin n) (Fin p) ℝ) (y : Matrix (Fin n) (Fin 1) ℝ) (F : Matrix (Fin n) (Fin p) ℝ)
    (hF : F = X - X * oWM (opW X y) X K * (oPM (opW X y) X K)ᵀ) {s s' : Option String} {b b' : M}
    (h1 : base.init (of F) (of y) = (b, .ok s)) (h2 : base.init (of F) (of (c • y)) = (b', .ok s'))
    (hb : ∀ {r : Nat}, 0 < r → ∀ Z : Matrix (Fin r) (Fin p) ℝ, ∃ G : Matrix (Fin r) (Fin 1) ℝ,
      base.predict b (of Z) = .ok (of G) ∧ base.predict b' (of Z) = .ok (of (c • G))) :
    ∃ m m' : OplsModel ℝ M, oplsTrain base K (of X) (of y) = .ok (m, none) ∧
      oplsTrain base K (of X) (of (c • y)) = .ok (m', none) ∧ m'.Xosc = m.Xosc ∧
      ∀ {r : Nat} (Z : Matrix (Fin r) (Fin p) ℝ), oplsTransform m' (of Z) = oplsTransform m (of Z) ∧
        (0 < r → ∃ G : Matrix (Fin r) (Fin 1) ℝ,
          oplsPredict base m (of Z) = .ok (of G) ∧ oplsPredict base m' (of Z) = .ok (of (c • G))) := by
  obtain ⟨f1, f2⟩ := opls_filter_unit hc X y K
  have hF' : X - X * oWM (opW X (c • y)) X K * (oPM (opW X (c • y)) X K)ᵀ = F := by
    rw [hF, Matrix.mul_assoc, f1, Matrix.mul_assoc]
  have e1 := oplsTrain_eq X y base K hn hp
  have e2 := oplsTrain_eq X (c • y) base K hn hp
  rw [← hF, h1] at e1
  rw [hF', h2] at e2
  refine ⟨_, _, e1, e2, by rw [f2], fun {r} Z => ?_⟩
  have t1 : oplsFilter (of (oWM (opW X (c • y)) X K)) (of (oPM (opW X (c • y)) X K)) (of Z) =
      oplsFilter (of (oWM (opW X y) X K)) (of (oPM (opW X y) X K)) (of Z) := by
    rw [oplsFilter_eq, oplsFilter_eq, Matrix.mul_assoc, f1, Matrix.mul_assoc]
  refine ⟨t1, fun hr => ?_⟩
  obtain ⟨G, g1, g2⟩ := hb hr (Z - Z * oWM (opW X y) X K * (oPM (opW X y) X K)ᵀ)
  refine ⟨G, ?_, ?_⟩
  · unfold oplsPredict oplsTransform
    rw [oplsFilter_eq, except_bind_ok, g1]
  · unfold oplsPredict oplsTransform
    rw [t1, oplsFilter_eq, except_bind_ok, g2]

/-- **C156 (OPLS over PLS1).** -/
theorem C156_opls_pls1 (hn : 0 < n) (hp : 0 < p) (K : Nat) {L : Nat} (hL : 0 < L) {c : ℝ} (hc : c ≠ 0)
    (X : Matrix (Fin n) (Fin p) ℝ) (y : Matrix (Fin n) (Fin 1) ℝ)
    (h : Regular (pls1W y) L (X - X * oWM (opW X y) X K * (oPM (opW X y) X K)ᵀ)) :
    ∃ m m', oplsTrain (pls1AsBase L) K (of X) (of y) = .ok (m, none) ∧
      oplsTrain (pls1AsBase L) K (of X) (of (c • y)) = .ok (m', none) ∧ m'.Xosc = m.Xosc ∧
      ∀ {r : Nat} (Z : Matrix (Fin r) (Fin p) ℝ), oplsTransform m' (of Z) = oplsTransform m (of Z) ∧
        (0 < r → ∃ G : Matrix (Fin r) (Fin 1) ℝ,
          oplsPredict (pls1AsBase L) m (of Z) = .ok (of G) ∧ oplsPredict (pls1AsBase L) m' (of Z) = .ok (of (c • G))) := by
  obtain ⟨m, m', h1, h2, h3⟩ := pls1_responseUnit hn hp hL _ y h hc
  refine C156_opls (pls1AsBase L) hn hp K hc X y _ rfl (s := none) (s' := none) (b := .ok m) (b' := .ok m') ?_ ?_
    fun hr Z => h3 hr Z
  · show (pls1Base L _ _, (pls1Base L _ _).map fun _ => none) = _
    rw [h1]
    rfl
  · show (pls1Base L _ _, (pls1Base L _ _).map fun _ => none) = _
    rw [h2]
    rfl

/-! ## DIPLS -/

section dipls
variable {s t : Nat}

/-- The response of a state in another unit. -/
noncomputable def DState.resp (c : ℝ) (S : DState n s t p) : DState n s t p := { S with y := c • S.y }

theorem dW_resp {c : ℝ} (hc : 0 < c) (lam : ℝ) (ns nt : Nat) (S : DState n s t p) :
    dM (c * c * lam) ns nt (DState.resp c S) = dM lam ns nt S ∧
      dW (c * c * lam) ns nt (DState.resp c S) = dW lam ns nt S := by
  have h1 : dM (c * c * lam) ns nt (DState.resp c S) = dM lam ns nt S := by
    unfold dM DState.resp
    dsimp only
    rw [sq1_smul, show 2 * (c * c * sq1 S.y) = c * c * (2 * sq1 S.y) by ring,
      mul_div_mul_left _ _ (mul_pos hc hc).ne']
  refine ⟨h1, ?_⟩
  have h2 : dRaw (c * c * lam) ns nt (DState.resp c S) = c⁻¹ • dRaw lam ns nt S := by
    unfold dRaw
    rw [h1]
    show (((sq1 (c • S.y))⁻¹ • ((c • S.y)ᵀ * S.X)) * _)ᵀ = _
    rw [sq1_smul]
    simp only [Matrix.transpose_smul, Matrix.smul_mul, smul_smul]
    congr 1
    have := hc.ne'
    rw [mul_inv, mul_inv]
    field_simp
  unfold dW
  rw [h2, nrm_smul (inv_pos.2 hc)]

theorem dSt_resp {c : ℝ} (hc : 0 < c) (lam : ℝ) (ns nt : Nat) (S : DState n s t p) (k : Nat) :
    dSt (c * c * lam) ns nt (DState.resp c S) k = DState.resp c (dSt lam ns nt S k) := by
  induction k with
  | zero => rfl
  | succ k ih =>
    show dNext _ _ _ (dSt _ _ _ _ k) = DState.resp c (dNext lam ns nt (dSt lam ns nt S k))
    rw [ih]
    generalize dSt lam ns nt S k = T
    unfold dNext
    rw [(dW_resp hc lam ns nt T).2]
    unfold DState.resp dC
    dsimp only
    congr 1
    rw [smul_sub, smul_smul]
    congr 2
    rw [← mul_div_assoc, Finset.mul_sum]
    congr 1
    refine Finset.sum_congr rfl fun l _ => ?_
    rw [Matrix.smul_apply, smul_eq_mul]
    ring

theorem dB_resp {c : ℝ} (hc : 0 < c) (lam : ℝ) (ns nt : Nat) (S : DState n s t p) (K : Nat) :
    dWM (c * c * lam) ns nt K (DState.resp c S) = dWM lam ns nt K S ∧
      dB (c * c * lam) ns nt K (DState.resp c S) = c • dB lam ns nt K S := by
  have h1 : dWM (c * c * lam) ns nt K (DState.resp c S) = dWM lam ns nt K S := by
    ext i j
    simp only [dWM, Matrix.of_apply, dSt_resp hc, (dW_resp hc lam ns nt _).2]
  have h2 : dPM (c * c * lam) ns nt K (DState.resp c S) = dPM lam ns nt K S := by
    ext i j
    simp only [dPM, Matrix.of_apply, dSt_resp hc, (dW_resp hc lam ns nt _).2]
    rfl
  have h3 : dCM (c * c * lam) ns nt K (DState.resp c S) = c • dCM lam ns nt K S := by
    ext i j
    simp only [dCM, Matrix.of_apply, dSt_resp hc, (dW_resp hc lam ns nt _).2, Matrix.smul_apply, smul_eq_mul]
    unfold DState.resp dC
    dsimp only
    rw [← mul_div_assoc, Finset.mul_sum]
    congr 1
    refine Finset.sum_congr rfl fun l _ => ?_
    rw [Matrix.smul_apply, smul_eq_mul]
    ring
  refine ⟨h1, ?_⟩
  unfold dB
  rw [h1, h2, h3, Matrix.mul_smul]

theorem dReg_resp {c : ℝ} (hc : 0 < c) (lam : ℝ) (ns nt : Nat) (S : DState n s t p) (h : DReg lam ns nt S) :
    DReg (c * c * lam) ns nt (DState.resp c S) := by
  obtain ⟨e1, e2⟩ := dW_resp hc lam ns nt S
  refine ⟨?_, by rw [e1]; exact h.det, ?_, ?_, ?_⟩
  · show sq1 (c • S.y) ≠ 0
    rw [sq1_smul]
    exact mul_ne_zero (mul_pos hc hc).ne' h.y
  all_goals rw [e2]
  · exact h.t
  · exact h.ts
  · exact h.tt

theorem stack_respUnit (c b : ℝ) (ys : Matrix (Fin s) (Fin 1) ℝ) (yt : Matrix (Fin t) (Fin 1) ℝ) :
    stack (respUnit c b ys) (respUnit c b yt) = respUnit c b (stack ys yt) := by
  ext i j
  refine Fin.addCases (fun a => ?_) (fun a => ?_) i
  · simp [stack, respUnit]
  · simp [stack, respUnit]

/-- **C156 (DIPLS, unsupervised).** Measuring the response in another unit, from another zero point, and `lambda_` in the
square of that unit gives the same scores and the predictions in the new unit. -/
theorem C156_dipls_unsupervised {cfg : DiplsCfg ℝ} (hinv : IsInv cfg.inv) (o : DiplsObj ℝ) (ho : Initialised o)
    (hs : 2 ≤ s) (ht : 2 ≤ t) (K : Nat) (hK : 0 < K) (hcfg : cfg.K = K) {c : ℝ} (hc : 0 < c) (b : ℝ)
    (Xs : Matrix (Fin s) (Fin p) ℝ) (Xt : Matrix (Fin t) (Fin p) ℝ) (ys : Matrix (Fin s) (Fin 1) ℝ)
    (h : ∀ k < K, DReg cfg.lambda s t (dSt cfg.lambda s t (unsupState Xs Xt ys) k)) :
    ∃ m m', diplsUnsupervised cfg o (of Xs) (of Xt) (of ys) = .ok (.trained m) ∧
      diplsUnsupervised { cfg with lambda := c * c * cfg.lambda } o (of Xs) (of Xt) (of (respUnit c b ys)) =
        .ok (.trained m') ∧
      ∀ {r : Nat} (Z : Matrix (Fin r) (Fin p) ℝ), ∃ F : Matrix (Fin r) (Fin 1) ℝ,
        diplsPredict m (of Z) = .ok (of F) ∧ diplsPredict m' (of Z) = .ok (of (respUnit c b F)) ∧
        diplsTransform m' (of Z) = diplsTransform m (of Z) := by
  have hst : unsupState Xs Xt (respUnit c b ys) = DState.resp c (unsupState Xs Xt ys) := by
    unfold unsupState DState.resp
    rw [cen_respUnit (by omega)]
  have e1 := C59_unsupervised hinv o ho hs ht K hK hcfg Xs Xt ys h
  have e2 := C59_unsupervised (cfg := { cfg with lambda := c * c * cfg.lambda }) hinv o ho hs ht K hK hcfg Xs Xt
    (respUnit c b ys) (fun k hk => by
      rw [hst]
      show DReg _ _ _ (dSt (c * c * cfg.lambda) _ _ _ _)
      rw [dSt_resp hc]
      exact dReg_resp hc _ _ _ _ (h k hk))
  refine ⟨_, _, e1, e2, fun {r} Z => ⟨_, C78_predict .unsupervised Xs Xs Xt _ Z, ?_, ?_⟩⟩
  · rw [C78_predict, ok_inj, hst]
    refine mk_congr fun i j => ?_
    have hB := (dB_resp hc cfg.lambda s t (unsupState Xs Xt ys) K).2
    show _ = c * _ + b
    dsimp only
    rw [hB, mu_respUnit (by omega), Matrix.of_apply, Matrix.of_apply, Matrix.mul_smul, Matrix.smul_apply, smul_eq_mul]
    ring
  · rw [transform_eq hK, transform_eq hK, hst]
    show Except.ok (of (_ * dWM (c * c * cfg.lambda) _ _ _ _)) = _
    rw [(dB_resp hc _ _ _ _ _).1]

/-- **C156 (DIPLS, supervised).** -/
theorem C156_dipls_supervised {cfg : DiplsCfg ℝ} (hinv : IsInv cfg.inv) (o : DiplsObj ℝ) (ho : Initialised o)
    (hs : 2 ≤ s) (ht : 2 ≤ t) (K : Nat) (hK : 0 < K) (hcfg : cfg.K = K) {c : ℝ} (hc : 0 < c) (b : ℝ)
    (Xs : Matrix (Fin s) (Fin p) ℝ) (Xt : Matrix (Fin t) (Fin p) ℝ) (ys : Matrix (Fin s) (Fin 1) ℝ)
    (yt : Matrix (Fin t) (Fin 1) ℝ)
    (h : ∀ k < K, DReg cfg.lambda s t (dSt cfg.lambda s t (supState Xs Xt ys yt) k)) :
    ∃ m m', diplsSupervised cfg o (of Xs) (of Xt) (of ys) (of yt) = .ok (.trained m) ∧
      diplsSupervised { cfg with lambda := c * c * cfg.lambda } o (of Xs) (of Xt) (of (respUnit c b ys))
        (of (respUnit c b yt)) = .ok (.trained m') ∧
      ∀ {r : Nat} (Z : Matrix (Fin r) (Fin p) ℝ), ∃ F : Matrix (Fin r) (Fin 1) ℝ,
        diplsPredict m (of Z) = .ok (of F) ∧ diplsPredict m' (of Z) = .ok (of (respUnit c b F)) ∧
        diplsTransform m' (of Z) = diplsTransform m (of Z) := by
  have hst : supState Xs Xt (respUnit c b ys) (respUnit c b yt) = DState.resp c (supState Xs Xt ys yt) := by
    unfold supState DState.resp
    rw [stack_respUnit, cen_respUnit (by omega)]
  have e1 := C59_supervised hinv o ho hs ht K hK hcfg Xs Xt ys yt h
  have e2 := C59_supervised (cfg := { cfg with lambda := c * c * cfg.lambda }) hinv o ho hs ht K hK hcfg Xs Xt
    (respUnit c b ys) (respUnit c b yt) (fun k hk => by
      rw [hst]
      show DReg _ _ _ (dSt (c * c * cfg.lambda) _ _ _ _)
      rw [dSt_resp hc]
      exact dReg_resp hc _ _ _ _ (h k hk))
  refine ⟨_, _, e1, e2, fun {r} Z => ⟨_, C78_predict .supervised (stack Xs Xt) Xs Xt _ Z, ?_, ?_⟩⟩
  · rw [C78_predict, ok_inj, hst]
    refine mk_congr fun i j => ?_
    have hB := (dB_resp hc cfg.lambda s t (supState Xs Xt ys yt) K).2
    show _ = c * _ + b
    dsimp only
    rw [hB, stack_respUnit, mu_respUnit (by omega), Matrix.of_apply, Matrix.of_apply, Matrix.mul_smul, Matrix.smul_apply,
      smul_eq_mul]
    ring
  · rw [transform_eq hK, transform_eq hK, hst]
    show Except.ok (of (_ * dWM (c * c * cfg.lambda) _ _ _ _)) = _
    rw [(dB_resp hc _ _ _ _ _).1]

end dipls

/-! ## The same `lambda_` for another unit -/

theorem lam_coef {lam : ℝ} (hl : lam < 4) :
    dB lam 4 4 1 ⟨lamXs, lamXs, lamXt, lamY⟩ 0 0 = (1 - lam / 4) * (2 - lam / 4) / (1 + (1 - lam / 4) ^ 2) := by
  have h0 : 1 - lam / 4 ≠ 0 := by
    intro h
    linarith
  have hreg : ∀ k < 1, DReg lam 4 4 (dSt lam 4 4 (⟨lamXs, lamXs, lamXt, lamY⟩ : DState 4 4 4 2) k) := by
    intro k hk
    obtain rfl : k = 0 := by omega
    have := lam_reg hl
    rwa [lam_state] at this
  have hfit := (C78_fit (cfg := exactCfg 1 lam) hreg).1
  set w := dW lam 4 4 ⟨lamXs, lamXs, lamXt, lamY⟩ with hwdef
  obtain ⟨k, hk, hkv⟩ : ∃ k : ℝ, k ≠ 0 ∧ w = k • dRaw lam 4 4 ⟨lamXs, lamXs, lamXt, lamY⟩ := by
    refine ⟨_, ?_, rfl⟩
    rw [lam_dRaw hl]
    have : 0 < sq1 (!![1 / 2; 1 / 2 / (1 - lam / 4)] : Matrix (Fin 2) (Fin 1) ℝ) := by
      refine lt_of_lt_of_le (show (0 : ℝ) < 1 / 2 * (1 / 2) by norm_num) ?_
      simp only [sq1, Fin.sum_univ_two]
      exact le_add_of_nonneg_right (mul_self_nonneg _)
    exact inv_ne_zero (Real.sqrt_pos.2 this).ne'
  rw [lam_dRaw hl] at hkv
  have w0 : w 0 0 = k / 2 := by
    rw [hkv]
    simp [div_eq_mul_inv]
  have w1 : w 1 0 = k / 2 / (1 - lam / 4) := by
    rw [hkv]
    simp [div_eq_mul_inv, mul_assoc]
  have e := congrFun (congrFun hfit 0) 0
  rw [Matrix.mul_apply, Matrix.mul_apply, Fin.sum_univ_one, Fin.sum_univ_two] at e
  have eT : dTM lam 4 4 1 (⟨lamXs, lamXs, lamXt, lamY⟩ : DState 4 4 4 2) 0 0 = w 0 0 := by
    show (lamXs * w) 0 0 = _
    simp [lamXs, Matrix.mul_apply, Fin.sum_univ_two]
  have eC : dCM lam 4 4 1 (⟨lamXs, lamXs, lamXt, lamY⟩ : DState 4 4 4 2) 0 0 =
      (2 * (w 0 0 + w 1 0)) / (2 * (w 0 0 ^ 2 + w 1 0 ^ 2)) := by
    show (∑ l, (lamXs * w) l 0 * lamY l 0) / sq1 (lamXs * w) = _
    simp only [sq1, Fin.sum_univ_four]
    simp [lamXs, lamY, Matrix.mul_apply, Fin.sum_univ_two]
    ring
  have e0 : dB lam 4 4 1 (⟨lamXs, lamXs, lamXt, lamY⟩ : DState 4 4 4 2) 0 0 =
      w 0 0 * ((2 * (w 0 0 + w 1 0)) / (2 * (w 0 0 ^ 2 + w 1 0 ^ 2))) := by
    rw [← eC, ← eT]
    refine Eq.trans ?_ e
    simp [lamXs, exactCfg]
  rw [e0, w0, w1]
  have h2 : (2 : ℝ) - lam / 4 = 1 - lam / 4 + 1 := by ring
  rw [h2]
  generalize 1 - lam / 4 = a at h0 ⊢
  have h1 : 1 + a ^ 2 ≠ 0 := by positivity
  field_simp
  ring

/-- **C156 (limit).** `lambda_` is a quantity with a unit: with the same value for a response measured in half the unit,
the predictions of DIPLS are not twice the old ones. -/
theorem C156_dipls_limits :
    ∃ m m', diplsUnsupervised (exactCfg 1 1) diplsFresh (of lamXs) (of lamXt) (of lamY) = .ok (.trained m) ∧
      diplsUnsupervised (exactCfg 1 1) diplsFresh (of lamXs) (of lamXt) (of (respUnit 2 0 lamY)) = .ok (.trained m') ∧
      ∃ F F' : Matrix (Fin 1) (Fin 1) ℝ,
        diplsPredict m (of (!![1, 0] : Matrix (Fin 1) (Fin 2) ℝ)) = .ok (of F) ∧
        diplsPredict m' (of (!![1, 0] : Matrix (Fin 1) (Fin 2) ℝ)) = .ok (of F') ∧ F' ≠ respUnit 2 0 F := by
  have hi : Initialised diplsFresh := ⟨rfl, rfl, rfl⟩
  have r : ∀ {l : ℝ}, l < 4 → ∀ k < 1, DReg l 4 4 (dSt l 4 4 (unsupState lamXs lamXt lamY) k) := by
    intro l hl k hk
    obtain rfl : k = 0 := by omega
    exact lam_reg hl
  have e1 := C59_unsupervised (exactCfg_inv 1 1) diplsFresh hi (by omega) (by omega) 1 one_pos rfl lamXs lamXt lamY
    (r (l := 1) (by norm_num))
  obtain ⟨m, m', a1, a2, a3⟩ := C156_dipls_unsupervised (exactCfg_inv 1 (1 / 4)) diplsFresh hi (by omega) (by omega) 1 one_pos rfl
    two_pos 0 lamXs lamXt lamY (r (l := 1 / 4) (by norm_num))
  have hc : ({ exactCfg 1 (1 / 4) with lambda := 2 * 2 * (exactCfg 1 (1 / 4)).lambda } : DiplsCfg ℝ) = exactCfg 1 1 := by
    unfold exactCfg
    norm_num
  rw [hc] at a2
  have e2 := C59_unsupervised (exactCfg_inv 1 (1 / 4)) diplsFresh hi (by omega) (by omega) 1 one_pos rfl lamXs lamXt lamY
    (r (l := 1 / 4) (by norm_num))
  rw [e2] at a1
  obtain ⟨F, f1, f2, -⟩ := a3 (!![1, 0] : Matrix (Fin 1) (Fin 2) ℝ)
  refine ⟨_, m', e1, a2, _, _, C78_predict .unsupervised lamXs lamXs lamXt _ _, f2, fun h => ?_⟩
  have a1 := Except.ok.inj a1
  injection a1 with a1
  rw [← a1, C78_predict] at f1
  have f1 := of_inj.1 (Except.ok.inj f1)
  rw [← f1] at h
  have h := congrFun (congrFun h 0) 0
  have hcen : cen lamXt (!![1, 0] : Matrix (Fin 1) (Fin 2) ℝ) = !![1, 0] := by
    ext i j
    fin_cases i
    fin_cases j <;> simp [cen, mu, lamXt, Fin.sum_univ_four]
  simp only [respUnit, Matrix.of_apply, if_true, hcen, lam_state, exactCfg, Matrix.mul_apply, Fin.sum_univ_two] at h
  rw [lam_coef (lam := 1) (by norm_num), lam_coef (lam := 1 / 4) (by norm_num)] at h
  simp [mu, lamY, Fin.sum_univ_four] at h
  norm_num at h

/-! Concrete cases. -/

example := C156_simpls eigOne_ok (by norm_num) 2 1 (c := -1000) (by norm_num) exX exY
example := C156_center (fun x => decide (x = 0)) (by norm_num) exX exY (-1000) 3
  (simpls_responseUnit eigOne_ok (by norm_num) 2 0 (by norm_num) _ _)
example := C156_opls_pls1 (by norm_num) (by norm_num) 2 (L := 1) (by norm_num) (c := -3) (by norm_num) osX osY (by
  rw [or_filter]
  refine ⟨fun h => ?_, trivial⟩
  have h1 := congrFun (congrFun h 0) 0
  have h2 : ((orF * pls1W osY orF)ᵀ * (orF * pls1W osY orF)) 0 0 = 7 / 18 := by
    rw [Matrix.mul_apply, ← or_sq]
    rfl
  rw [h2] at h1
  norm_num at h1)
example := C156_standardize (train := simplsTrain (domOf eigOne) 1 0) (predict := simplsPredict) (fun x => decide (x = 0))
  (fun x => by simp) (by norm_num) exX exY

end Verif.Props
