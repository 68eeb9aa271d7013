import Verif.Props.SparseProps

/-!
# C109 — SparsePLS is NIPALS on the selected variables

C82 compares SparsePLS with NIPALS when every variable is selected.  Here the selected set is arbitrary: the predictions
are those of a NIPALS model that was trained on, and is applied to, the selected columns only, with the requested number
of components or the number of selected columns, whichever is smaller.
-/

set_option linter.unusedSimpArgs false

namespace Verif.Props
open Verif Verif.Mat Transf
open scoped Matrix

variable {n p r a : Nat}

/-- The columns chosen by `f`. -/
def pick (f : Fin a → Fin p) (X : Matrix (Fin n) (Fin p) ℝ) : Matrix (Fin n) (Fin a) ℝ := Matrix.of fun i j => X i (f j)

/-- The positions of the chosen columns, as the list the program keeps. -/
def pickIdx (f : Fin a → Fin p) : List Nat := List.ofFn fun j => (f j).1

theorem std_pick (f : Fin a → Fin p) (X : Matrix (Fin n) (Fin p) ℝ) (hX : ∀ j, sd (fun i => X i j) ≠ 0)
    (Z : Matrix (Fin r) (Fin p) ℝ) : std (pick f X) (pick f Z) = pick f (std X Z) := by
  ext i j
  have h1 : divisor (pick f X) j = sd fun k => X k (f j) := if_neg fun h => hX (f j) h.2
  have h2 : divisor X (f j) = sd fun k => X k (f j) := if_neg fun h => hX (f j) h.2
  show (Z i (f j) - mu fun k => X k (f j)) / divisor (pick f X) j = (Z i (f j) - mu fun k => X k (f j)) / divisor X (f j)
  rw [h1, h2]

theorem pickIdx_inj {f : Fin a → Fin p} (h : (pickIdx f).Nodup) : Function.Injective f := by
  intro i j hij
  have := List.nodup_ofFn.1 h (show (f i).1 = (f j).1 by rw [hij])
  exact this

theorem pickIdx_mem (f : Fin a → Fin p) (i : Fin p) : i.1 ∈ pickIdx f ↔ ∃ j, f j = i := by
  unfold pickIdx
  rw [List.mem_ofFn]
  exact ⟨fun ⟨j, h⟩ => ⟨j, Fin.ext h⟩, fun ⟨j, h⟩ => ⟨j, by rw [h]⟩⟩

/-- The columns gathered by the program are the chosen columns. -/
theorem pick_gather (f : Fin a → Fin p) (X : Matrix (Fin n) (Fin p) ℝ) (h : ∀ i ∈ pickIdx f, i < p) :
    of (Matrix.of fun i (j : Fin (pickIdx f).length) => X i ⟨(pickIdx f)[j.1], h _ (List.getElem_mem j.2)⟩) = of (pick f X) := by
  refine mk_eq rfl (by simp [pickIdx]) fun i j => ?_
  simp only [Matrix.of_apply, pickIdx, List.getElem_ofFn]
  rfl

/-- The coefficients distributed over all columns. -/
theorem pick_scatter (f : Fin a → Fin p) (hA : GoodIdx p (pickIdx f)) (b : Matrix (Fin a) (Fin 1) ℝ) :
    ∃ B : Matrix (Fin p) (Fin 1) ℝ, scatter (of b) (pickIdx f) 0 (of (0 : Matrix (Fin p) (Fin 1) ℝ)) = .ok (of B) ∧
      (∀ j, B (f j) 0 = b j 0) ∧ ∀ i, (¬ ∃ j, f j = i) → B i 0 = 0 := by
  have hlen : (pickIdx f).length = a := by simp [pickIdx]
  have hcoef : of b = of (Matrix.of fun (i : Fin (pickIdx f).length) (j : Fin 1) => b (i.cast hlen) j) := by
    refine mk_eq hlen.symm rfl fun i j => ?_
    rfl
  have hs2 := scatter_of (p := p) (pickIdx f) hA.lt hA.nodup
    (Matrix.of fun (i : Fin (pickIdx f).length) (j : Fin 1) => b (i.cast hlen) j) [] (pickIdx f) rfl
  rw [← hcoef] at hs2
  have hz0 : (Matrix.of fun (i : Fin p) (j : Fin 1) =>
      if h : i.1 ∈ pickIdx f then (if i.1 ∈ ([] : List Nat) then
        (Matrix.of fun (i : Fin (pickIdx f).length) (j : Fin 1) => b (i.cast hlen) j)
          ⟨(pickIdx f).idxOf i.1, List.idxOf_lt_length_iff.2 h⟩ j else 0) else 0) =
      (0 : Matrix (Fin p) (Fin 1) ℝ) := by
    ext i j
    simp
  rw [hz0, List.length_nil] at hs2
  refine ⟨_, hs2, ?_, ?_⟩
  · intro j
    have hmem : (f j).1 ∈ pickIdx f := (pickIdx_mem f _).2 ⟨j, rfl⟩
    simp only [Matrix.of_apply]
    rw [dif_pos hmem]
    have hidx : (pickIdx f).idxOf (f j).1 = j.1 := by
      have := List.Nodup.idxOf_getElem hA.nodup j.1 (by rw [hlen]; exact j.2)
      rwa [show (pickIdx f)[j.1]'(by rw [hlen]; exact j.2) = (f j).1 by simp [pickIdx]] at this
    congr 1
    exact Fin.ext hidx
  · intro i hi
    simp only [Matrix.of_apply]
    rw [dif_neg fun h => hi ((pickIdx_mem f i).1 h)]

theorem pick_mul {f : Fin a → Fin p} (hf : Function.Injective f) (Z : Matrix (Fin r) (Fin p) ℝ) (B : Matrix (Fin p) (Fin 1) ℝ)
    (b : Matrix (Fin a) (Fin 1) ℝ) (h1 : ∀ j, B (f j) 0 = b j 0) (h0 : ∀ i, (¬ ∃ j, f j = i) → B i 0 = 0) :
    Z * B = pick f Z * b := by
  ext i j
  rw [Subsingleton.elim j 0, Matrix.mul_apply, Matrix.mul_apply]
  symm
  refine Finset.sum_of_injOn f hf.injOn (fun _ _ => Finset.mem_coe.2 (Finset.mem_univ _)) ?_ ?_
  · intro i' _ hi
    rw [h0 i', mul_zero]
    rintro ⟨j, hj⟩
    exact hi ⟨j, Finset.mem_coe.2 (Finset.mem_univ _), hj⟩
  · intro j' _
    rw [h1]
    rfl

/-- C109 (coefficients).  The coefficients of the selected variables are those of the inner NIPALS model on the selected
columns of the standardised data, for `min(selected columns, components)` components; all others are zero. -/
theorem C109_coefficients (cfg : SpCfg ℝ) (hz : ∀ x, cfg.isZero x = true ↔ x = 0) (hn : 0 < n) {k : Nat}
    (hK : cfg.K = ((k + 1 : Nat) : Int)) (X : Matrix (Fin n) (Fin (p + 1)) ℝ) (y : Matrix (Fin n) (Fin 1) ℝ) (m : SpModel ℝ)
    (h : spTrain cfg (of X) (of y) = .ok m) (f : Fin a → Fin (p + 1)) (hsel : m.vars.A = pickIdx f)
    (b : Matrix (Fin a) (Fin 1) ℝ)
    (hb : cfg.nip (min (a : Int) (k + 1)) (of (pick f (std X X))) (of (std y y)) = .ok (of b)) :
    Function.Injective f ∧ ∃ B : Matrix (Fin (p + 1)) (Fin 1) ℝ, m.vars.B = of B ∧ (∀ j, B (f j) 0 = b j 0) ∧
      ∀ i, (¬ ∃ j, f j = i) → B i 0 = 0 := by
  obtain ⟨sx, sy, ⟨vy, vA, vB, vW⟩⟩ := m
  simp only at hsel
  subst hsel
  obtain ⟨_, _, s, hs, hl⟩ := spTrain_last cfg hz hn hK X y _ h
  obtain ⟨yj, A0, B0, W⟩ := s
  obtain ⟨yj', B', e1, e2, _, _⟩ := hs
  simp only at e1 e2
  subst e1 e2
  obtain ⟨hA, B, coef, hB, _, _, hnip, hsc, _⟩ := spStep_out cfg hn (Nat.succ_pos p) _ _ _ _ _ _ _ _ hl
  simp only at hB
  refine ⟨pickIdx_inj hA.nodup, ?_⟩
  have hlen : (pickIdx f).length = a := by simp [pickIdx]
  have hnip' : cfg.nip (min (a : Int) (k + 1)) (of (pick f (std X X))) (of (std y y)) = .ok coef := by
    rw [← pick_gather f (std X X) hA.lt]
    refine Eq.trans ?_ hnip
    congr 2
    exact_mod_cast hlen.symm
  rw [hb, ok_inj] at hnip'
  subst hnip'
  obtain ⟨B2, h2, h3, h4⟩ := pick_scatter f hA b
  rw [show scatter (of b) (pickIdx f) 0 (of (0 : Matrix (Fin (p + 1)) (Fin 1) ℝ)) = .ok (of B) from hsc, ok_inj, of_inj] at h2
  subst h2
  exact ⟨B, hB, h3, h4⟩

/-- C109.  If no column of the data is constant, the predictions of SparsePLS are those of NIPALS trained on the raw
selected columns and applied to the selected columns of the new data, with `min(selected columns, components)`
components. -/
theorem C109_predictions (cfg : SpCfg ℝ) (hz : ∀ x, cfg.isZero x = true ↔ x = 0) (hn : 2 ≤ n) {k : Nat}
    (hK : cfg.K = ((k + 1 : Nat) : Int)) {c : NipalsCfg ℝ} (hc : NipalsReal c) (hcca : c.cca = false)
    (hdefl : c.defl = .regression) (hpinv : PinvRegular c.pinv) (hnip : cfg.nip = nipCoef c)
    (X : Matrix (Fin n) (Fin (p + 1)) ℝ) (y : Matrix (Fin n) (Fin 1) ℝ) (hX : ∀ j, sd (fun i => X i j) ≠ 0)
    (hy : ∀ j, sd (fun i => y i j) ≠ 0) (m : SpModel ℝ) (h : spTrain cfg (of X) (of y) = .ok m)
    (f : Fin (a + 1) → Fin (p + 1)) (hsel : m.vars.A = pickIdx f) (hcK : c.K = ((min a k + 1 : Nat) : Int))
    (hreg : NipRegular (min a k + 1) (std (pick f X) (pick f X)) (std y y)) (hr : 0 < r)
    (Z : Matrix (Fin r) (Fin (p + 1)) ℝ) :
    ∃ (N : NipalsModel ℝ) (P : Matrix (Fin r) (Fin 1) ℝ), nipalsTrain c (of (pick f X)) (of y) = .ok N ∧
      nipalsPredict c N (of (pick f Z)) = .ok (of P) ∧ spPredict cfg m (of Z) = .ok (of P) := by
  have hpro := nip_proceeds hreg.passOk
  have hXf : ∀ j, sd (fun i => pick f X i j) ≠ 0 := fun j => hX (f j)
  have hdet : ((nPM (std (pick f X) (pick f X)) (std y y) (min a k + 1))ᵀ *
      nWM (std (pick f X) (pick f X)) (std y y) (min a k + 1)).det ≠ 0 := by
    rw [(nip_det hreg.passOk).1]
    exact one_ne_zero
  obtain ⟨hXX, _⟩ := std_std hn (pick f X) hXf
  obtain ⟨hyy, hdy⟩ := std_std hn y hy
  have hN := nipalsTrain_eq hc hcca hdefl hpinv hcK (by omega) (pick f X) y hpro hdet
  have hc' : NipalsReal { c with K := ((min a k + 1 : Nat) : Int) } := ⟨hc.1, hc.2⟩
  have hI := nipalsTrain_eq (c := { c with K := ((min a k + 1 : Nat) : Int) }) hc' hcca hdefl hpinv rfl (by omega : 0 < n)
    (std (pick f X) (pick f X)) (std y y) (by rw [hXX, hyy]; exact hpro) (by rw [hXX, hyy]; exact hdet)
  set S := std (pick f X) (pick f X) with hS
  set b0 := nWM S (std y y) (min a k + 1) * ((nPM S (std y y) (min a k + 1))ᵀ * nWM S (std y y) (min a k + 1))⁻¹ *
      (nQM S (std y y) (min a k + 1))ᵀ with hb0
  have hb : cfg.nip (min ((a + 1 : Nat) : Int) (k + 1)) (of (pick f (std X X))) (of (std y y)) = .ok (of b0) := by
    rw [hnip, show min ((a + 1 : Nat) : Int) (k + 1) = ((min a k + 1 : Nat) : Int) by omega, ← std_pick f X hX]
    unfold nipCoef
    rw [hI, except_bind_ok]
    unfold nipModel
    simp only []
    rw [hXX, hyy, hdy, one_smul]
  obtain ⟨hinj, B, hB, hB1, hB0⟩ := C109_coefficients cfg hz (by omega) hK X y m h f hsel b0 hb
  obtain ⟨B2, e, hp⟩ := C61_predict cfg hz (by omega) (by omega) X y m h (by rw [hsel]; simp [pickIdx]) hr Z
  rw [hB, of_inj] at e
  subst e
  refine ⟨_, _, hN, ?_, hp⟩
  unfold nipalsPredict nipModel
  simp only []
  rw [std_do, except_bind_ok]
  show (do
    let r ← (of (std (pick f X) (pick f Z))).mul (of (divisor y 0 • b0))
    r.addByVector (of (Matrix.of fun (_ : Fin 1) j => mu fun k => y k j))) = _
  rw [mul_of, except_bind_ok]
  unfold addByVector
  rw [vectorOp_row, ok_inj]
  refine mk_congr fun i j => ?_
  rw [Subsingleton.elim j 0]
  show (std (pick f X) (pick f Z) * divisor y 0 • b0) i 0 + (mu fun k => y k 0) =
    (std X Z * B) i 0 * divisor y 0 + mu fun k => y k 0
  rw [Matrix.mul_smul, Matrix.smul_apply, smul_eq_mul, mul_comm, std_pick f X hX, pick_mul hinj (std X Z) B b0 hB1 hB0]

/-- Every selected set has the form used in `C109_predictions`: an increasing choice of columns. -/
theorem C109_selected (cfg : SpCfg ℝ) (hz : ∀ x, cfg.isZero x = true ↔ x = 0) (hn : 0 < n) {k : Nat}
    (hK : cfg.K = ((k + 1 : Nat) : Int)) (X : Matrix (Fin n) (Fin (p + 1)) ℝ) (y : Matrix (Fin n) (Fin 1) ℝ) (m : SpModel ℝ)
    (h : spTrain cfg (of X) (of y) = .ok m) :
    ∃ f : Fin m.vars.A.length → Fin (p + 1), StrictMono f ∧ m.vars.A = pickIdx f := by
  obtain ⟨_, _, s, hs, hl⟩ := spTrain_last cfg hz hn hK X y _ h
  obtain ⟨_, B, _, e, hA, h0⟩ := spStep_inv cfg hn (Nat.succ_pos p) _ _ _ _ _ hs hl
  refine ⟨fun j => ⟨m.vars.A[j.1], hA.lt _ (List.getElem_mem j.2)⟩, ?_, ?_⟩
  · intro i j hij
    exact List.pairwise_iff_getElem.1 hA.sorted i.1 j.1 i.2 j.2 hij
  · unfold pickIdx
    simp only []
    exact (List.ofFn_getElem (xs := m.vars.A)).symm

/-- A pass that selects exactly the columns chosen by `f`. -/
theorem spStep_pick (cfg : SpCfg ℝ) (hn : 0 < n) (X : Matrix (Fin n) (Fin (p + 1)) ℝ) (y yj : Matrix (Fin n) (Fin 1) ℝ)
    (w B0 : Matrix (Fin (p + 1)) (Fin 1) ℝ) (hw : spDirection cfg (of X) (of yj) = .ok (of w))
    (f : Fin a → Fin (p + 1)) (hf : StrictMono f)
    (hbig : ∀ i, (cfg.thr < |w i 0| ∨ cfg.thr < |B0 i 0|) ↔ ∃ j, f j = i)
    {K : Nat} (W : Matrix (Fin (p + 1)) (Fin K) ℝ) (k : Fin K) (b : Matrix (Fin a) (Fin 1) ℝ)
    (hb : cfg.nip (min (a : Int) ((k : Nat) + 1)) (of (pick f X)) (of y) = .ok (of b)) (A0 : List Nat) :
    ∃ s', spStep cfg (of X) (of y) ((k : Nat) : Int) ⟨of yj, A0, of B0, of W⟩ = .ok s' ∧ s'.A = pickIdx f := by
  obtain ⟨A, hA1, hA, hA2⟩ := spCollect_of cfg w B0
  have hAr : A = pickIdx f := by
    have hs : (pickIdx f).Pairwise (· < ·) := by
      unfold pickIdx
      rw [List.pairwise_ofFn]
      intro i j hij
      exact hf hij
    refine List.Perm.eq_of_pairwise (fun a b _ _ h1 h2 => (lt_asymm h1 h2).elim) hA.sorted hs ?_
    rw [List.perm_ext_iff_of_nodup hA.nodup (hs.imp fun h => h.ne)]
    intro a
    constructor
    · intro h
      exact (pickIdx_mem f ⟨a, hA.lt a h⟩).2 ((hbig _).1 ((hA2 ⟨a, hA.lt a h⟩).1 h))
    · intro h
      obtain ⟨j, rfl⟩ := List.mem_ofFn.1 h
      exact (hA2 (f j)).2 ((hbig _).2 ⟨j, rfl⟩)
  subst hAr
  unfold spStep
  simp only []
  rw [hw, except_bind_ok, setColumn_of, except_bind_ok, hA1, except_bind_ok, spCols_of hn X _ hA.lt, except_bind_ok]
  have hz : Factory.zeros (α := ℝ) ((of X).cols : Int) ((of y).cols : Int) = .ok (of (0 : Matrix (Fin (p + 1)) (Fin 1) ℝ)) :=
    Factory.zeros_nat (Nat.succ_pos p) 1
  have hc : spCoef cfg (of (pick f X)) (of y) ((k : Nat) : Int) = .ok (of b) := hb
  obtain ⟨B, hB, _⟩ := pick_scatter f hA b
  rw [hz, except_bind_ok, pick_gather, hc, except_bind_ok, hB, except_bind_ok, mul_of, except_bind_ok, sub_of, except_bind_ok]
  exact ⟨_, rfl, rfl⟩

/-- Training with one component, selecting exactly the columns chosen by `f`. -/
theorem C109_trained (cfg : SpCfg ℝ) (hz : ∀ x, cfg.isZero x = true ↔ x = 0) (hthr : 0 ≤ cfg.thr) (hn : 0 < n) (hK : cfg.K = 1)
    (X : Matrix (Fin n) (Fin (p + 1)) ℝ) (y : Matrix (Fin n) (Fin 1) ℝ) (w : Matrix (Fin (p + 1)) (Fin 1) ℝ)
    (hw : spDirection cfg (of (std X X)) (of (std y y)) = .ok (of w)) (f : Fin (a + 1) → Fin (p + 1)) (hf : StrictMono f)
    (hbig : ∀ i, cfg.thr < |w i 0| ↔ ∃ j, f j = i) (b : Matrix (Fin (a + 1)) (Fin 1) ℝ)
    (hb : cfg.nip 1 (of (pick f (std X X))) (of (std y y)) = .ok (of b)) :
    ∃ m, spTrain cfg (of X) (of y) = .ok m ∧ m.vars.A = pickIdx f := by
  have hb' : cfg.nip (min ((a + 1 : Nat) : Int) (((0 : Fin 1) : Nat) + 1)) (of (pick f (std X X))) (of (std y y)) = .ok (of b) := by
    rw [← hb]
    congr 1
    show min ((a + 1 : Nat) : Int) (0 + 1) = 1
    omega
  obtain ⟨s', h1, h2⟩ := spStep_pick cfg hn (std X X) (std y y) (std y y) w 0 hw f hf (by
    intro i
    rw [← hbig i]
    refine or_iff_left ?_
    rw [Matrix.zero_apply, abs_zero]
    exact not_lt.2 hthr) (0 : Matrix (Fin (p + 1)) (Fin 1) ℝ) 0 b hb' []
  unfold spTrain
  rw [std_fit cfg.isZero hz X, std_fit (p := 0) cfg.isZero hz y]
  simp only [except_bind_ok]
  have hz : Factory.zeros (α := ℝ) ((of (std X X)).cols : Int) ((of (std y y)).cols : Int) =
      .ok (of (0 : Matrix (Fin (p + 1)) (Fin 1) ℝ)) := Factory.zeros_nat (Nat.succ_pos p) 1
  have hw' : Factory.zeros (α := ℝ) ((of (std X X)).cols : Int) cfg.K =
      .ok (of (0 : Matrix (Fin (p + 1)) (Fin 1) ℝ)) := by
    rw [hK]
    exact Factory.zeros_nat (Nat.succ_pos p) 1
  unfold spInit
  rw [hz, except_bind_ok, hw', except_bind_ok, except_bind_ok, hK]
  have hl : loopM (spStep cfg (of (std X X)) (of (std y y))) (pyRange 0 1)
      ⟨of (std y y), [], of (0 : Matrix (Fin (p + 1)) (Fin 1) ℝ), of (0 : Matrix (Fin (p + 1)) (Fin 1) ℝ)⟩ = .ok s' := by
    have e : pyRange 0 1 = [0] := rfl
    rw [e, loopM]
    have h1' : spStep cfg (of (std X X)) (of (std y y)) 0
        ⟨of (std y y), [], of (0 : Matrix (Fin (p + 1)) (Fin 1) ℝ), of (0 : Matrix (Fin (p + 1)) (Fin 1) ℝ)⟩ = .ok s' := h1
    rw [h1']
    rfl
  rw [hl, except_bind_ok]
  exact ⟨_, rfl, h2⟩

/-! ### An example with one variable selected out of two -/

/-- The second column is uncorrelated with the response `1, 2, 3`. -/
def spnX : Matrix (Fin 3) (Fin 2) ℝ := !![1, 1; 2, -2; 3, 1]

/-- The first column. -/
def spnF : Fin 1 → Fin 2 := fun _ => 0

theorem spn_pick : pick spnF spnX = ramp := by
  ext i j
  rw [Subsingleton.elim j 0]
  fin_cases i <;> simp [pick, spnF, spnX, ramp]

theorem spn_sd : ∀ j, sd (fun i => spnX i j) ≠ 0 := by
  have h0 : (mu fun k => spnX k 0) = 2 := by
    simp [mu, spnX, Fin.sum_univ_three]
    norm_num
  have h1 : (mu fun k => spnX k 1) = 0 := by
    simp [mu, spnX, Fin.sum_univ_three]
    norm_num
  intro j
  fin_cases j
  · show sd (fun i => spnX i 0) ≠ 0
    unfold sd
    rw [h0]
    simp [spnX, Fin.sum_univ_three]
    norm_num
  · show sd (fun i => spnX i 1) ≠ 0
    unfold sd
    rw [h1]
    simp [spnX, Fin.sum_univ_three]
    norm_num

theorem spn_ramp_sd : ∀ j, sd (fun k => ramp k j) ≠ 0 := by
  intro j
  rw [Subsingleton.elim j 0]
  unfold sd
  rw [mu_ramp]
  simp [ramp, Fin.sum_univ_three]
  norm_num

theorem spn_cross : (std spnX spnX)ᵀ * std ramp ramp = (!![2; 0] : Matrix (Fin 2) (Fin 1) ℝ) := by
  have h0 : (fun i => std spnX spnX i 0) = fun i => std ramp ramp i 0 := by
    rw [← spn_pick, std_pick spnF spnX spn_sd]
    rfl
  have h1 : (mu fun k => spnX k 1) = 0 := by
    simp [mu, spnX, Fin.sum_univ_three]
    norm_num
  rw [ramp_std] at *
  ext i j
  rw [Subsingleton.elim j 0, Matrix.mul_apply, Fin.sum_univ_three]
  simp only [Matrix.transpose_apply]
  fin_cases i
  · show std spnX spnX 0 0 * _ + std spnX spnX 1 0 * _ + std spnX spnX 2 0 * _ = _
    rw [congrFun h0 0, congrFun h0 1, congrFun h0 2]
    simp
    norm_num
  · show std spnX spnX 0 1 * _ + std spnX spnX 1 1 * _ + std spnX spnX 2 1 * _ = _
    have e : std spnX spnX 0 1 = std spnX spnX 2 1 := by
      show (spnX 0 1 - _) / _ = (spnX 2 1 - _) / _
      simp [spnX]
    rw [e]
    simp

theorem spn_regular : NipRegular 1 (std ramp ramp) (std ramp ramp) := by
  rw [ramp_std]
  refine ⟨?_, ?_, ?_, trivial⟩
  · simp [Fin.sum_univ_three]
    norm_num
  · simp [Fin.sum_univ_three, Matrix.mul_apply]
    norm_num
  · rw [ramp_weights _ _ rfl rfl]
    simp [Fin.sum_univ_three, Matrix.mul_apply]
    norm_num

/-- All hypotheses of C109 can be met with a proper subset of the variables: training selects the first of two columns,
and the predictions for any new data are those of NIPALS on that column. -/
theorem C109_example (med amax : Mat ℝ → ℝ) (hmed : med (of (!![2; 0] : Matrix (Fin 2) (Fin 1) ℝ)) = 1) (hmax : IsAmax amax)
    (hr : 0 < r) (Z : Matrix (Fin r) (Fin 2) ℝ) :
    ∃ m N P, spTrain (spRamp med amax) (of spnX) (of ramp) = .ok m ∧ m.vars.A = [0] ∧
      nipalsTrain exCfg (of ramp) (of ramp) = .ok N ∧ nipalsPredict exCfg N (of (pick spnF Z)) = .ok P ∧
      spPredict (spRamp med amax) m (of Z) = .ok P := by
  have hv := spn_cross
  obtain ⟨w, k, c, h1, htop, hc, hw, h2, h3⟩ := C61_direction_partial (spRamp med amax) (fun x => by simp [spRamp, spDemo]) hmax
    (by norm_num : 0 < 2) (by norm_num [spRamp, spDemo]) (by norm_num [spRamp, spDemo]) (std spnX spnX) (std ramp ramp) 1
    (by
      rw [hv]
      refine Eq.trans (congrArg med (mk_congr fun i j => ?_)) hmed
      rw [Subsingleton.elim j 0]
      fin_cases i <;> simp) (by norm_num)
    (by
      rw [hv]
      intro h
      have := congrFun (congrFun h 0) 0
      norm_num at this)
  have hk : k = 0 := by
    have := htop 0
    rw [hv] at this
    fin_cases k
    · rfl
    · norm_num at this
  subst hk
  rw [hv] at h2 hw
  have hw1 : w 1 0 = 0 := by
    rw [hw 1]
    norm_num [soft, spRamp, spDemo]
  have hw0 : |w 0 0| = 1 := by
    rw [Fin.sum_univ_two, Fin.sum_univ_two, hw1] at h2
    norm_num [soft, spRamp, spDemo] at h2
    rcases h2 with h | h <;> rw [h] <;> norm_num
  have e1 : std ramp ramp = pick spnF (std spnX spnX) := by
    rw [← std_pick spnF spnX spn_sd, spn_pick]
  obtain ⟨e2, _⟩ := std_std (by norm_num : 2 ≤ 3) ramp spn_ramp_sd
  have hI := nipalsTrain_eq (c := { exCfg with K := 1 }) (K := 1) ⟨exCfg_real.1, exCfg_real.2⟩ rfl rfl exCfg_pinv rfl
    (by norm_num : 0 < 3) (std ramp ramp) (std ramp ramp) (by rw [e2]; exact nip_proceeds spn_regular.passOk)
    (by rw [e2, (nip_det spn_regular.passOk).1]; exact one_ne_zero)
  obtain ⟨b, hb⟩ : ∃ b : Matrix (Fin 1) (Fin 1) ℝ, nipCoef exCfg 1 (of (std ramp ramp)) (of (std ramp ramp)) = .ok (of b) := by
    unfold nipCoef
    rw [hI, except_bind_ok]
    exact ⟨_, rfl⟩
  rw [show of (std ramp ramp) = of (pick spnF (std spnX spnX)) by rw [← e1]] at hb
  obtain ⟨m, hm, hA⟩ := C109_trained (a := 0) (spRamp med amax) (fun x => by simp [spRamp, spDemo])
    (by norm_num [spRamp, spDemo]) (by norm_num) rfl spnX ramp w h1 spnF
    (fun i j h => absurd h (by show ¬ (i.1 < j.1); omega)) (by
      intro i
      fin_cases i
      · show (spRamp med amax).thr < |w 0 0| ↔ _
        rw [hw0]
        exact ⟨fun _ => ⟨0, rfl⟩, fun _ => by norm_num [spRamp, spDemo]⟩
      · show (spRamp med amax).thr < |w 1 0| ↔ _
        rw [hw1, abs_zero]
        refine ⟨fun h => absurd h (by norm_num [spRamp, spDemo]), ?_⟩
        rintro ⟨j, hj⟩
        exact absurd (Fin.val_eq_of_eq hj) (by norm_num [spnF])) b (by
      rw [← e1] at hb ⊢
      exact hb)
  obtain ⟨N, P, hN, hP, hS⟩ := C109_predictions (a := 0) (k := 0) (spRamp med amax) (fun x => by simp [spRamp, spDemo])
    (by norm_num) rfl (c := exCfg) exCfg_real rfl rfl exCfg_pinv rfl spnX ramp spn_sd spn_ramp_sd m hm spnF hA rfl (by
      rw [spn_pick]
      exact spn_regular) hr Z
  rw [spn_pick] at hN
  exact ⟨m, N, _, hm, hA, hN, hP, hS⟩

end Verif.Props
