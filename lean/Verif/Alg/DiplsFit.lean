import Verif.Alg.DIPLS

/-!
# DIPLS: the trained model

Selection of rows, the closed form of training, and its relation to the recursion of PLS1.
-/

namespace Verif

open Mat Transf
open scoped Matrix

/-! ## Rows -/

section rows
variable {s t p : Nat}

/-- `A` above `B`. -/
def stack (A : Matrix (Fin s) (Fin p) ℝ) (B : Matrix (Fin t) (Fin p) ℝ) : Matrix (Fin (s + t)) (Fin p) ℝ :=
  Matrix.of fun i j => Fin.addCases (fun b => A b j) (fun b => B b j) i

theorem concatRows_stack (A : Matrix (Fin s) (Fin p) ℝ) (B : Matrix (Fin t) (Fin p) ℝ) :
    (of A).concatAlongRows (of B) = .ok (of (stack A B)) := concatAlongRows_of A B

theorem rows_top (A : Matrix (Fin s) (Fin p) ℝ) (B : Matrix (Fin t) (Fin p) ℝ) :
    (of (stack A B)).getRows (.tuple 0 (s : Int)) = .ok (of A) := by
  have h := getSubMatrix_rows (stack A B) 0 s (by omega) (by omega)
  rw [Int.natCast_zero] at h
  rw [h, ok_inj]
  refine mk_eq (by omega) rfl fun i j => ?_
  have hi := i.2
  have e : (⟨0 + i.1, by omega⟩ : Fin (s + t)) = Fin.castAdd t ⟨i.1, by omega⟩ := Fin.ext (Nat.zero_add _)
  simp only [Matrix.of_apply, stack]
  rw [e, Fin.addCases_left]
  rfl

theorem rows_bot (A : Matrix (Fin s) (Fin p) ℝ) (B : Matrix (Fin t) (Fin p) ℝ) :
    (of (stack A B)).getRows (.tuple (s : Int) ((s + t : Nat) : Int)) = .ok (of B) := by
  have h := getSubMatrix_rows (stack A B) s (s + t) (by omega) (by omega)
  rw [h, ok_inj]
  refine mk_eq (by omega) rfl fun i j => ?_
  have hi := i.2
  have e : (⟨s + i.1, by omega⟩ : Fin (s + t)) = Fin.natAdd s ⟨i.1, by omega⟩ := rfl
  simp only [Matrix.of_apply, stack]
  rw [e, Fin.addCases_right]
  rfl

theorem rows_beyond {α : Type} (M : Mat α) (b : Nat) (h : M.rows < b) :
    M.getRows (.tuple 0 (b : Int)) = .error .indexError := by
  unfold getRows getSubMatrix Sel.positions
  have hm : ((M.rows : Nat) : Int) ∈ pyRange 0 (b : Int) := by
    rw [pyRange_zero]
    exact List.mem_map.2 ⟨M.rows, List.mem_range.2 h, rfl⟩
  have hp : pyIndex M.rows (M.rows : Int) = .error .indexError := by
    unfold pyIndex
    rw [dif_neg (by omega), dif_neg (by omega)]
  simp only [resolve_error hm hp]
  rfl

theorem rows_typed {m : Nat} (A : Matrix (Fin m) (Fin p) ℝ) (b : Nat) (h : b ≤ m) :
    ∃ B : Matrix (Fin b) (Fin p) ℝ, (of A).getRows (.tuple 0 (b : Int)) = .ok (of B) ∧
      ∀ i j, B i j = A ⟨i.1, by have := i.2; omega⟩ j := by
  refine ⟨Matrix.of fun i j => A ⟨i.1, by have := i.2; omega⟩ j, ?_, fun _ _ => rfl⟩
  have h1 := getSubMatrix_rows A 0 b (by omega) h
  rw [Int.natCast_zero] at h1
  rw [h1, ok_inj]
  refine mk_eq (by omega) rfl fun i j => ?_
  simp only [Matrix.of_apply]
  congr 1
  exact Fin.ext (Nat.zero_add _)

end rows

/-! ## Centring -/

section centre
variable {n p r : Nat}

theorem optCentre_fresh (A : Matrix (Fin n) (Fin p) ℝ) :
    optCentre (some center.init) (of A) = .ok (cenState A, of (cen A A)) := by
  unfold optCentre
  simp only [cen_fit, except_bind_ok]

theorem optCentre_stale (A : Matrix (Fin n) (Fin p) ℝ) (B : Matrix (Fin r) (Fin p) ℝ) :
    optCentre (some (cenState A)) (of B) = .ok (cenState A, of (cen A B)) := by
  unfold optCentre
  simp only []
  rw [cen_do, except_bind_ok]
  rfl

theorem optCentre_bad {q : Nat} (A : Matrix (Fin n) (Fin p) ℝ) (B : Matrix (Fin r) (Fin q) ℝ) (h : q ≠ p) :
    optCentre (some (cenState A)) (of B) = .error .valueError := by
  unfold optCentre
  have : (transform center (of B) (cenState A)).2 = .error .valueError := by
    show subByVector (of B) _ = _
    exact vectorOp_row_bad _ _ _ rfl h
  simp only [this]
  rfl

theorem meanAll_col (y : Matrix (Fin n) (Fin 1) ℝ) : (of y).meanAll = mu fun i => y i 0 := by
  unfold meanAll total mu
  simp only [sumFin_eq, Nat.mul_one]
  congr 1
  exact Fin.sum_univ_one fun j => ∑ i, y i j

theorem subMean_col (y : Matrix (Fin n) (Fin 1) ℝ) :
    (of y).subScalar (of y).meanAll = of (cen y y) := by
  rw [meanAll_col]
  unfold subScalar
  rw [map_of]
  refine mk_congr fun i j => ?_
  rw [Subsingleton.elim j 0]
  rfl

end centre

/-! ## Training -/

section train
variable {n s t p : Nat} (lam : ℝ) (ns nt : Nat)

/-- The weights, scores, loadings and coefficients. -/
noncomputable def dWM (K : Nat) (S : DState n s t p) : Matrix (Fin p) (Fin K) ℝ :=
  Matrix.of fun i j => dW lam ns nt (dSt lam ns nt S j.1) i 0
/-- The scores. -/
noncomputable def dTM (K : Nat) (S : DState n s t p) : Matrix (Fin n) (Fin K) ℝ :=
  Matrix.of fun i j => ((dSt lam ns nt S j.1).X * dW lam ns nt (dSt lam ns nt S j.1)) i 0
/-- The loadings. -/
noncomputable def dPM (K : Nat) (S : DState n s t p) : Matrix (Fin p) (Fin K) ℝ :=
  Matrix.of fun i j => loading (dSt lam ns nt S j.1).X
    ((dSt lam ns nt S j.1).X * dW lam ns nt (dSt lam ns nt S j.1)) i 0
/-- The coefficients of the scores. -/
noncomputable def dCM (K : Nat) (S : DState n s t p) : Matrix (Fin K) (Fin 1) ℝ :=
  Matrix.of fun j _ => dC (dSt lam ns nt S j.1) ((dSt lam ns nt S j.1).X * dW lam ns nt (dSt lam ns nt S j.1))

/-- The regression coefficients. -/
noncomputable def dB (K : Nat) (S : DState n s t p) : Matrix (Fin p) (Fin 1) ℝ :=
  dWM lam ns nt K S * ((dPM lam ns nt K S)ᵀ * dWM lam ns nt K S)⁻¹ * dCM lam ns nt K S

/-- The trained quantities are those of the PLS1 recursion for some weight function. -/
theorem d_pls (K : Nat) (S : DState n s t p) (h : ∀ k < K, DReg lam ns nt (dSt lam ns nt S k)) :
    ∃ wf, (∀ k < K, sq1 (plsT wf S.X k) ≠ 0) ∧ dWM lam ns nt K S = plsWM wf K S.X ∧
      dTM lam ns nt K S = plsTM wf K S.X ∧ dPM lam ns nt K S = plsPM wf K S.X ∧
      dCM lam ns nt K S = plsBM wf K S.X S.y := by
  obtain ⟨wf, hX, hW⟩ := seq_pls (fun k => (dSt lam ns nt S k).X) (fun k => dW lam ns nt (dSt lam ns nt S k)) K
    (fun k _ => rfl) (fun k hk => (h k hk).t)
  have hT : ∀ k < K, plsT wf S.X k = (dSt lam ns nt S k).X * dW lam ns nt (dSt lam ns nt S k) := by
    intro k hk
    rw [plsT]
    exact congrArg₂ (· * ·) (hX k (by omega)) (hW k hk)
  have hn : ∀ k < K, sq1 (plsT wf S.X k) ≠ 0 := fun k hk => by
    rw [hT k hk]; exact (h k hk).t
  have hy : ∀ k ≤ K, (dSt lam ns nt S k).y = S.y - ∑ j ∈ Finset.range k,
      dC (dSt lam ns nt S j) (plsT wf S.X j) • plsT wf S.X j := by
    intro k
    induction k with
    | zero => intro _; simp [dSt]
    | succ k ih =>
      intro hk
      rw [Finset.sum_range_succ, ← sub_sub, ← ih (by omega), hT k (by omega)]
      rfl
  refine ⟨wf, hn, ?_, ?_, ?_, ?_⟩
  · ext i j
    exact (congrFun (congrFun (hW j.1 j.2) i) 0).symm
  · ext i j
    exact (congrFun (congrFun (hT j.1 j.2) i) 0).symm
  · ext i j
    simp only [dPM, plsPM, Matrix.of_apply, plsP]
    rw [hT j.1 j.2]
    rw [show plsX wf S.X j.1 = (dSt lam ns nt S j.1).X from hX j.1 (by have := j.2; omega)]
  · ext j i
    have hj := j.2
    simp only [dCM, plsBM, Matrix.of_apply]
    rw [← hT j.1 hj, dC, plsB]
    congr 1
    have e : ∀ z : Matrix (Fin n) (Fin 1) ℝ, ∑ l, plsT wf S.X j.1 l 0 * z l 0 =
        ((plsT wf S.X j.1)ᵀ * z) 0 0 := fun z => by rw [Matrix.mul_apply]; rfl
    rw [e, e, hy j.1 (by omega), Matrix.mul_sub, Matrix.mul_sum]
    rw [Finset.sum_eq_zero, sub_zero]
    intro k hk
    have hk := Finset.mem_range.1 hk
    have h2 := congrArg Matrix.transpose (plsT_orth wf S.X k j.1 hk fun l hl => hn l (by omega))
    rw [Matrix.transpose_mul, Matrix.transpose_transpose] at h2
    rw [Matrix.mul_smul, h2]
    simp

theorem d_det (K : Nat) (S : DState n s t p) (h : ∀ k < K, DReg lam ns nt (dSt lam ns nt S k)) :
    ((dPM lam ns nt K S)ᵀ * dWM lam ns nt K S).det = 1 := by
  obtain ⟨wf, hn, h1, h2, h3, h4⟩ := d_pls lam ns nt K S h
  rw [h1, h3]
  exact det_ptw wf K S.X hn

variable {cfg : DiplsCfg ℝ} (hinv : IsInv cfg.inv)
include hinv

theorem diplsCoefs_eq (o : DiplsObj ℝ) (k : Nat) (S : DState n s t p)
    (h : ∀ j < k + 1, DReg cfg.lambda o.ns o.nt (dSt cfg.lambda o.ns o.nt S j)) :
    diplsCoefs cfg (dVars cfg.lambda o.ns o.nt S (k + 1)) = .ok (of (dB cfg.lambda o.ns o.nt (k + 1) S)) := by
  have hd := d_det cfg.lambda o.ns o.nt (k + 1) S h
  have hw : unNone (dVars cfg.lambda o.ns o.nt S (k + 1)).W = .ok (of (dWM cfg.lambda o.ns o.nt (k + 1) S)) := rfl
  have hp : unNone (dVars cfg.lambda o.ns o.nt S (k + 1)).P = .ok (of (dPM cfg.lambda o.ns o.nt (k + 1) S)) := rfl
  have hc : unNone (dVars cfg.lambda o.ns o.nt S (k + 1)).c =
      .ok (of (dCM cfg.lambda o.ns o.nt (k + 1) S)ᵀ) := by
    show Except.ok _ = _
    refine congrArg Except.ok ?_
    refine mk_congr fun i j => ?_
    rw [Subsingleton.elim i 0]
    simp [dCM]
  unfold diplsCoefs
  rw [hw, hp, hc]
  simp only [except_bind_ok, transpose_of, mul_of, hinv _ _ (by rw [hd]; exact one_ne_zero),
    Matrix.transpose_transpose]
  rfl

/-- Training on the selected blocks. -/
theorem diplsFit_eq (o : DiplsObj ℝ) (K : Nat) (hK : 0 < K) (hcfg : cfg.K = K)
    (A A' : Matrix (Fin n) (Fin p) ℝ) (As As' : Matrix (Fin s) (Fin p) ℝ) (At At' : Matrix (Fin t) (Fin p) ℝ)
    (y : Matrix (Fin n) (Fin 1) ℝ) (cx cs ct : CenterState ℝ)
    (hx : optCentre o.xc (of A) = .ok (cx, of A')) (hs : optCentre o.xsc (of As) = .ok (cs, of As'))
    (ht : optCentre o.xtc (of At) = .ok (ct, of At'))
    (h : ∀ k < K, DReg cfg.lambda o.ns o.nt (dSt cfg.lambda o.ns o.nt ⟨A', As', At', cen y y⟩ k)) :
    diplsFit cfg o (of (1 : Matrix (Fin p) (Fin p) ℝ)) (of As) (of At) (of A) (of y) =
      .ok ⟨{ o with xc := some cx, xsc := some cs, xtc := some ct }, mu fun i => y i 0,
        dVars cfg.lambda o.ns o.nt ⟨A', As', At', cen y y⟩ K,
        of (dB cfg.lambda o.ns o.nt K ⟨A', As', At', cen y y⟩)⟩ := by
  unfold diplsFit
  rw [hx, hs, ht, subMean_col, meanAll_col]
  simp only [except_bind_ok]
  have hl := loopM_range (diplsStep cfg o (of (1 : Matrix (Fin p) (Fin p) ℝ)))
    (dVars cfg.lambda o.ns o.nt ⟨A', As', At', cen y y⟩) K
    fun k hk => diplsStep_eq hinv o _ k (h k hk)
  rw [hcfg]
  have h0 : dVars cfg.lambda o.ns o.nt ⟨A', As', At', cen y y⟩ 0 =
      (⟨of A', of As', of At', of (cen y y), none, none, none, none, none, none, none, none⟩ : DiplsVars ℝ) := rfl
  rw [← h0, hl, except_bind_ok]
  obtain ⟨k, rfl⟩ : ∃ k, K = k + 1 := ⟨K - 1, by omega⟩
  rw [diplsCoefs_eq hinv o k _ h, except_bind_ok]

omit hinv in
/-- A response with a different number of rows than the training rows is a shape error. -/
theorem diplsFit_rows {r : Nat} (o : DiplsObj ℝ) (K : Nat) (hK : 0 < K) (hcfg : cfg.K = K)
    (A A' : Matrix (Fin n) (Fin p) ℝ) (As As' : Matrix (Fin s) (Fin p) ℝ) (At At' : Matrix (Fin t) (Fin p) ℝ)
    (y : Matrix (Fin r) (Fin 1) ℝ) (cx cs ct : CenterState ℝ)
    (hx : optCentre o.xc (of A) = .ok (cx, of A')) (hs : optCentre o.xsc (of As) = .ok (cs, of As'))
    (ht : optCentre o.xtc (of At) = .ok (ct, of At')) (hr : r ≠ n) :
    diplsFit cfg o (of (1 : Matrix (Fin p) (Fin p) ℝ)) (of As) (of At) (of A) (of y) = .error .valueError := by
  unfold diplsFit
  rw [hx, hs, ht, subMean_col]
  simp only [except_bind_ok]
  rw [hcfg]
  have he := loopM_range_error (diplsStep cfg o (of (1 : Matrix (Fin p) (Fin p) ℝ)))
    (fun _ => (⟨of A', of As', of At', of (cen y y), none, none, none, none, none, none, none, none⟩ : DiplsVars ℝ))
    K 0 hK .valueError (fun j hj => by omega) (by
      unfold diplsStep diplsWeights
      simp only [transpose_of]
      rw [mul_error hr]
      rfl)
  rw [he]
  rfl

end train

end Verif
