import Verif.Alg.Loadings
import Verif.Props.LifecycleProps
import Verif.Props.NipalsProps
import Verif.Props.SimplsProps
import Verif.Props.KernelPlsProps
import Verif.Props.DiplsProps
import Verif.Props.OplsProps

/-!
# C120: `get_loadings`

`has_loadings` promises a matrix from `get_loadings`; loadings `L` belong to scores `T`: `T L^T` is the best
approximation of the predictors by the scores.
-/

namespace Verif.Props

open Mat Transf
open scoped Matrix

section life
open Life
variable {β α R : Type} {c : Cls β}

/-- **C120.** `has_loadings` is true exactly for the classes whose `get_loadings` is backed by an attribute, that attribute
is one training assigns, and it is also available through `get_matrix` under one of the listed names. -/
theorem C120_supported (hc : c ∈ plsClasses) : ∃ b, hasLoadings.lookup c.name = some b ∧
    (b = true ↔ ∃ k n, loadingsAttr.lookup c.name = some k ∧ k ∈ c.trainWrites ∧ n ∈ c.matrixNames ∧
      c.matrices.lookup n = some (.attr k)) ∧
    (b = false → ∀ s, getLoadings c s = .ok .none) := by
  have hb : (plsClasses : List (Cls β)).all (fun c => match hasLoadings.lookup c.name, loadingsAttr.lookup c.name with
      | some true, some k => c.trainWrites.contains k && c.matrixNames.any fun n => c.matrices.lookup n == some (.attr k)
      | some false, Option.none => true
      | _, _ => false) = true := by with_unfolding_all rfl
  have := List.all_eq_true.mp hb c hc
  split at this
  · rename_i k h1 h2
    simp only [Bool.and_eq_true, List.any_eq_true] at this
    obtain ⟨h3, n, h4, h5⟩ := this
    refine ⟨true, h1, ⟨fun _ => ⟨k, n, h2, List.contains_iff_mem.mp h3, h4, by simpa using h5⟩, fun _ => rfl⟩,
      fun h => Bool.noConfusion h⟩
  · rename_i h1 h2
    refine ⟨false, h1, ⟨fun h => Bool.noConfusion h, ?_⟩, fun _ s => ?_⟩
    · rintro ⟨k, n, h3, -⟩
      rw [h2] at h3
      cases h3
    · unfold getLoadings
      rw [h2]
  · cases this

/-- What the tables say about the attribute behind `get_loadings`. -/
theorem loadings_table (hc : c ∈ plsClasses) {k : String} (hk : loadingsAttr.lookup c.name = some k) :
    k ∈ c.ctor.map Prod.fst ∧ k ∉ c.frozen ∧ k ∈ c.resets.map Prod.fst ∧ (reset c blank).attrs k = some .none := by
  have hb : (plsClasses : List (Cls β)).all (fun c => match loadingsAttr.lookup c.name with
      | some k => (c.ctor.map Prod.fst).contains k && !c.frozen.contains k && (c.resets.map Prod.fst).contains k &&
        match (reset c blank).attrs k with
        | some .none => true
        | _ => false
      | Option.none => true) = true := by with_unfolding_all rfl
  have := List.all_eq_true.mp hb c hc
  rw [hk] at this
  simp only [Bool.and_eq_true, Bool.not_eq_true'] at this
  obtain ⟨⟨⟨h1, h2⟩, h3⟩, h4⟩ := this
  refine ⟨List.contains_iff_mem.mp h1, fun h => ?_, List.contains_iff_mem.mp h3, ?_⟩
  · rw [List.contains_iff_mem.mpr h] at h2
    cases h2
  · split at h4
    · assumption
    · cases h4

/-- **C120.** At any time, for every PLS class and every history of calls, `get_loadings` answers without an exception. -/
theorem C120_answers (hc : c ∈ plsClasses) (b : Behaviour α R c) {s : Obj β} (hs : Reachable b s) :
    ∃ v, getLoadings c s = .ok v := by
  unfold getLoadings
  cases hk : loadingsAttr.lookup c.name with
  | none => exact ⟨_, rfl⟩
  | some k =>
    obtain ⟨h1, h2, -, -⟩ := loadings_table hc hk
    obtain ⟨v, hv⟩ := Option.isSome_iff_exists.mp ((reachable_good (List.mem_append_left _ hc) hs).present k h1 h2)
    exact ⟨v, by simp only [hv]⟩

/-- **C120.** After a parameter change the loadings of the earlier training are gone: `get_loadings` is `None`. -/
theorem C120_forgotten (hc : c ∈ plsClasses) (b : Behaviour α R c) {s : Obj β} (hs : Reachable b s)
    {k : String} {val : Validator} {v : PyVal β} (hv : c.validators.lookup k = some val) (hr : val.run v = .ok true) :
    getLoadings c (step b s (.set k v)).1 = .ok .none := by
  unfold getLoadings
  cases hk : loadingsAttr.lookup c.name with
  | none => rfl
  | some j =>
    obtain ⟨-, -, h3, h4⟩ := loadings_table hc hk
    obtain ⟨-, -, -, h5, -⟩ := C45_valid (List.mem_append_left _ hc) b hs hv hr
    simp only [h5 j h3 blank, h4]

end life

variable {n p q K : Nat}

/-- Loadings: `T L^T` approximates `X` at least as well as any other combination of the scores. -/
def BestLoadings (X : Matrix (Fin n) (Fin p) ℝ) (T : Matrix (Fin n) (Fin K) ℝ) (L : Matrix (Fin p) (Fin K) ℝ) : Prop :=
  ∀ M : Matrix (Fin p) (Fin K) ℝ, ∑ i, ∑ j, (X i j - (T * Lᵀ) i j) ^ 2 ≤ ∑ i, ∑ j, (X i j - (T * Mᵀ) i j) ^ 2

theorem bestLoadings_of_orth {X : Matrix (Fin n) (Fin p) ℝ} {T : Matrix (Fin n) (Fin K) ℝ} {L : Matrix (Fin p) (Fin K) ℝ}
    (h : Tᵀ * (X - T * Lᵀ) = 0) : BestLoadings X T L := by
  intro M
  rw [Finset.sum_comm, Finset.sum_comm (f := fun i j => (X i j - (T * Mᵀ) i j) ^ 2)]
  refine Finset.sum_le_sum fun j _ => ?_
  have := lsq_of_orth T (Matrix.of fun i (_ : Fin 1) => X i j) (Matrix.of fun k _ => L j k) (Matrix.of fun k _ => M j k) (by
    ext k b
    have := congrFun (congrFun h k) j
    rw [Matrix.mul_apply] at this ⊢
    exact this)
  simp only [sq1, ← sq, Matrix.sub_apply] at this
  exact this

/-- The converse: the best loadings leave a residual orthogonal to the scores. -/
theorem BestLoadings.orth {X : Matrix (Fin n) (Fin p) ℝ} {T : Matrix (Fin n) (Fin K) ℝ} {L : Matrix (Fin p) (Fin K) ℝ}
    (hT : Tᵀ * T = 1) (h : BestLoadings X T L) : L = Xᵀ * T := by
  have ho : Tᵀ * (X - T * (Xᵀ * T)ᵀ) = 0 := by
    rw [Matrix.mul_sub, Matrix.transpose_mul, Matrix.transpose_transpose, ← Matrix.mul_assoc, ← Matrix.mul_assoc, hT,
      Matrix.one_mul, sub_self]
  -- the squared error of any `M` is the least one plus the squared distance of `M` from the optimum
  have key : ∀ M : Matrix (Fin p) (Fin K) ℝ, ∑ i, ∑ j, (X i j - (T * Mᵀ) i j) ^ 2 =
      ∑ i, ∑ j, (X i j - (T * (Xᵀ * T)ᵀ) i j) ^ 2 + ∑ j, ∑ k, ((Xᵀ * T) j k - M j k) ^ 2 := by
    intro M
    set E := X - T * (Xᵀ * T)ᵀ with hE
    set D := (Xᵀ * T) - M with hD
    have e1 : ∑ i, ∑ j, (X i j - (T * Mᵀ) i j) ^ 2 = ((E + T * Dᵀ)ᵀ * (E + T * Dᵀ)).trace := by
      have : E + T * Dᵀ = X - T * Mᵀ := by
        rw [hE, hD, Matrix.transpose_sub, Matrix.mul_sub]
        abel
      rw [this, Matrix.trace, Finset.sum_comm]
      refine Finset.sum_congr rfl fun j _ => ?_
      rw [Matrix.diag_apply, Matrix.mul_apply]
      exact Finset.sum_congr rfl fun i _ => by rw [Matrix.transpose_apply, Matrix.sub_apply]; ring
    have e2 : ∑ i, ∑ j, (X i j - (T * (Xᵀ * T)ᵀ) i j) ^ 2 = (Eᵀ * E).trace := by
      rw [Matrix.trace, Finset.sum_comm]
      refine Finset.sum_congr rfl fun j _ => ?_
      rw [Matrix.diag_apply, Matrix.mul_apply]
      exact Finset.sum_congr rfl fun i _ => by rw [Matrix.transpose_apply, hE, Matrix.sub_apply]; ring
    have e3 : ∑ j, ∑ k, ((Xᵀ * T) j k - M j k) ^ 2 = (D * Dᵀ).trace := by
      rw [Matrix.trace]
      refine Finset.sum_congr rfl fun j _ => ?_
      rw [Matrix.diag_apply, Matrix.mul_apply]
      exact Finset.sum_congr rfl fun k _ => by rw [Matrix.transpose_apply, hD, Matrix.sub_apply]; ring
    have h4 : Eᵀ * T = 0 := by
      have := congrArg Matrix.transpose ho
      rwa [Matrix.transpose_mul, Matrix.transpose_transpose, Matrix.transpose_zero] at this
    have h5 : Eᵀ * (T * Dᵀ) = 0 := by rw [← Matrix.mul_assoc, h4, Matrix.zero_mul]
    have h6 : (T * Dᵀ)ᵀ * E = 0 := by rw [Matrix.transpose_mul, Matrix.mul_assoc, ho, Matrix.mul_zero]
    have h7 : (T * Dᵀ)ᵀ * (T * Dᵀ) = D * Dᵀ := by
      rw [Matrix.transpose_mul, Matrix.transpose_transpose, Matrix.mul_assoc, ← Matrix.mul_assoc Tᵀ, hT, Matrix.one_mul]
    rw [e1, e2, e3, Matrix.transpose_add, Matrix.add_mul, Matrix.mul_add, Matrix.mul_add, h5, h6, h7, add_zero, zero_add,
      Matrix.trace_add]
  have h0 := h (Xᵀ * T)
  rw [key L] at h0
  have h1 : ∑ j, ∑ k, ((Xᵀ * T) j k - L j k) ^ 2 = 0 :=
    le_antisymm (by linarith) (Finset.sum_nonneg fun j _ => Finset.sum_nonneg fun k _ => sq_nonneg _)
  ext j k
  have h2 := (Finset.sum_eq_zero_iff_of_nonneg fun j _ => Finset.sum_nonneg fun k _ => sq_nonneg ((Xᵀ * T) j k - L j k)).1 h1 j
    (Finset.mem_univ j)
  have h3 := (Finset.sum_eq_zero_iff_of_nonneg fun k _ => sq_nonneg ((Xᵀ * T) j k - L j k)).1 h2 k (Finset.mem_univ k)
  have h4 := pow_eq_zero_iff two_ne_zero |>.1 h3
  linarith

/-! ## The attributes of trained objects by name -/

/-- `get_loadings()` of a trained object of class `name` whose attributes are `attr`. -/
def loadingsOf (name : String) (attr : String → Option (Mat ℝ)) : Option (Mat ℝ) := (Life.loadingsAttr.lookup name).bind attr

/-- `_PLS1.py` 132-135. -/
def Pls1Model.attr (m : Pls1Model ℝ) : String → Option (Mat ℝ) := fun k =>
  [("r_hat", m.rHat), ("P", m.P), ("W", m.W), ("b_hat", m.bHat)].lookup k

/-- `_SIMPLS.py` 166-168. -/
def SimplsModel.attr (m : SimplsModel ℝ) : String → Option (Mat ℝ) := fun k =>
  [("W", m.W), ("B", m.B), ("Q", m.Q)].lookup k

/-- `_OPLS.py` 121-149. -/
def OplsModel.attr {M : Type} (m : OplsModel ℝ M) : String → Option (Mat ℝ) := fun k =>
  [("W_orth", m.W), ("P_orth", m.P), ("T_orth", m.T), ("X_osc", m.Xosc)].lookup k

/-- `_NIPALS.py` 99-106, 149-157. -/
def NipalsModel.attr (m : NipalsModel ℝ) : String → Option (Mat ℝ) := fun k =>
  [("X_scores", m.vars.T), ("Y_scores", m.vars.U), ("X_weights", m.vars.W), ("Y_weights", m.vars.C), ("X_loadings", m.vars.P),
   ("Y_loadings", m.vars.Q), ("X_rotations", m.xRot), ("Y_rotations", m.yRot), ("coef", m.coef)].lookup k

/-- `_KernelPLS.py` 97-104, 147. -/
def KplsModel.attr {σ : Type} (m : KplsModel ℝ σ) : String → Option (Mat ℝ) := fun k =>
  [("X", m.X), ("K_orig", m.Korig), ("K_deflated", m.vars.Kd), ("T", m.vars.T), ("U", m.vars.U), ("P", m.vars.P),
   ("Q", m.vars.Q), ("B_RHS", m.B)].lookup k

/-- `_DIPLS.py` 189-197. -/
def DiplsModel.attr (m : DiplsModel ℝ) : String → Option (Mat ℝ) := fun k =>
  ([("T", m.vars.T), ("T_s", m.vars.Ts), ("T_t", m.vars.Tt), ("P", m.vars.P), ("P_s", m.vars.Ps), ("P_t", m.vars.Pt),
    ("W_di", m.vars.W)].lookup k).join

/-- **C120 (PLS1, VCPLS).** `get_loadings`, the matrix `P`, holds the loadings of the training data on the scores that
`transform` returns for them; `weights` is any way of choosing the weights, so VCPLS is included. -/
theorem C120_pls1_partial {weights : Mat ℝ → Mat ℝ → Except PyErr (Mat ℝ)}
    {wf : Matrix (Fin n) (Fin p) ℝ → Matrix (Fin p) (Fin 1) ℝ} {y : Matrix (Fin n) (Fin 1) ℝ} (hn : 0 < n) (hp : 0 < p)
    (hK : 0 < K) (X : Matrix (Fin n) (Fin p) ℝ) (hw : Computes weights wf y) (h : Regular wf K X) :
    ∃ (m : Pls1Model ℝ) (T : Matrix (Fin n) (Fin K) ℝ) (P : Matrix (Fin p) (Fin K) ℝ),
      pls1Train weights K (of X) (of y) = .ok (m, of T) ∧ pls1Transform K m (of X) = .ok (of T) ∧
      loadingsOf "PLS1" (Pls1Model.attr m) = some (of P) ∧ loadingsOf "VCPLS" (Pls1Model.attr m) = some (of P) ∧
      BestLoadings X T P := by
  obtain ⟨m, T, P, h1, h2, h3, -, -, h4⟩ := C49_scores hn hp hK X hw h
  exact ⟨m, T, P, h1, h3, congrArg some h2, congrArg some h2, bestLoadings_of_orth h4⟩

/-- **C120 (OPLS).** `get_loadings`, the matrix `P_orth`, holds the loadings of the training data on the orthogonal scores
`T_orth`. -/
theorem C120_opls_partial {M : Type} (base : BasePls ℝ M) (hb : Accepts base) (hn : 0 < n) (hp : 0 < p)
    (X : Matrix (Fin n) (Fin p) ℝ) (y : Matrix (Fin n) (Fin 1) ℝ) (hXy : Xᵀ * y ≠ 0) (h : OrthVar (pls1W y X) K X) :
    ∃ (m : OplsModel ℝ M) (T : Matrix (Fin n) (Fin K) ℝ) (P : Matrix (Fin p) (Fin K) ℝ),
      oplsTrain base K (of X) (of y) = .ok (m, none) ∧ m.T = of T ∧
      loadingsOf "OPLS" (OplsModel.attr m) = some (of P) ∧ BestLoadings X T P := by
  obtain ⟨m, T, P, F, h1, h2, h3, -, -, -, -, h4, h5, -⟩ := C57_orthogonal base hb hn hp X y hXy h
  exact ⟨m, T, P, h1, h2, congrArg some h3, bestLoadings_of_orth (by rw [← h4]; exact h5)⟩

/-! ## NIPALS -/

/-- The invariant of the training loop after `k` components: what is left of the predictors is orthogonal to the scores. -/
def NipInv (X0 : Matrix (Fin n) (Fin p) ℝ) (q K k : Nat) (s : NipalsVars ℝ) : Prop :=
  ∃ (X : Matrix (Fin n) (Fin p) ℝ) (Y : Matrix (Fin n) (Fin q) ℝ) (T U : Matrix (Fin n) (Fin K) ℝ)
    (W : Matrix (Fin p) (Fin K) ℝ) (C : Matrix (Fin q) (Fin K) ℝ) (P : Matrix (Fin p) (Fin K) ℝ)
    (Q : Matrix (Fin q) (Fin K) ℝ) (yk : Matrix (Fin q) (Fin 1) ℝ) (b : Bool),
    s = ⟨of X, of Y, of T, of U, of W, of C, of P, of Q, of yk, b⟩ ∧ X = X0 - T * Pᵀ ∧ Tᵀ * X = 0 ∧
      (∀ i (j : Fin K), k ≤ j.1 → T i j = 0) ∧ ∀ i (j : Fin K), k ≤ j.1 → P i j = 0

theorem updateCol_mul {T : Matrix (Fin n) (Fin K) ℝ} {P : Matrix (Fin p) (Fin K) ℝ} {k : Fin K} (hT : ∀ i, T i k = 0)
    (t : Matrix (Fin n) (Fin 1) ℝ) (l : Matrix (Fin p) (Fin 1) ℝ) :
    (T.updateCol k fun i => t i 0) * (P.updateCol k fun i => l i 0)ᵀ = T * Pᵀ + t * lᵀ := by
  ext i j
  rw [Matrix.add_apply, Matrix.mul_apply, Matrix.mul_apply, Matrix.mul_apply, Fin.sum_univ_one]
  rw [← Finset.add_sum_erase _ _ (Finset.mem_univ k), ← Finset.add_sum_erase Finset.univ (fun c => T i c * Pᵀ c j) (Finset.mem_univ k)]
  simp only [Matrix.transpose_apply, Matrix.updateCol_self, hT, zero_mul, zero_add]
  rw [add_comm]
  congr 1
  refine Finset.sum_congr rfl fun c hc => ?_
  rw [Matrix.updateCol_ne (Finset.ne_of_mem_erase hc), Matrix.updateCol_ne (Finset.ne_of_mem_erase hc)]

theorem nipalsStep_inv {c : NipalsCfg ℝ} (hc : NipalsReal c) (hcca : c.cca = false) (hp : 0 < p)
    (X0 : Matrix (Fin n) (Fin p) ℝ) (k : Nat) (hk : k < K) (s : NipalsVars ℝ) (hs : NipInv X0 (q + 1) K k s) :
    ∃ s', nipalsStep c (k : Int) s = .ok s' ∧ NipInv X0 (q + 1) K (k + 1) s' := by
  obtain ⟨X, Y, T, U, W, C, P, Q, yk, b, rfl, hX, hTX, hT, hP⟩ := hs
  have stop : ∀ b, NipInv X0 (q + 1) K (k + 1) ⟨of X, of Y, of T, of U, of W, of C, of P, of Q, of yk, b⟩ := fun b =>
    ⟨X, Y, T, U, W, C, P, Q, yk, b, rfl, hX, hTX, fun i j hj => hT i j (by omega), fun i j hj => hP i j (by omega)⟩
  unfold nipalsStep
  simp only []
  cases b with
  | true => exact ⟨_, rfl, stop true⟩
  | false =>
    simp only [Bool.false_eq_true, if_false, transpose_of, mul_of, except_bind_ok]
    split
    · exact ⟨_, rfl, stop true⟩
    · rw [nipalsLoop_eq hc hcca hp]
      simp only [except_bind_ok, mul_of, norm2Squared_col, div_col]
      split
      · exact ⟨_, rfl, stop true⟩
      · rename_i hlt
        have h0 : sq1 (X * xwF X (col0 Y)) ≠ 0 := by
          intro h0
          apply hlt
          rw [h0, hc.lt]
          simp [e10]
        simp only [transpose_of, mul_of, except_bind_ok, sub_of]
        obtain ⟨Y', l, h⟩ := deflateY_typed c Y (X * xwF X (col0 Y))
          ((sq1 (ywF c.normY Y (X * xwF X (col0 Y))))⁻¹ • (Y * ywF c.normY Y (X * xwF X (col0 Y)))) yk
        rw [h]
        simp only [except_bind_ok]
        have h1 := setColumn_of T ⟨k, hk⟩ (X * xwF X (col0 Y))
        obtain ⟨U', h2⟩ := setColumn_typed U k hk
          ((sq1 (ywF c.normY Y (X * xwF X (col0 Y))))⁻¹ • (Y * ywF c.normY Y (X * xwF X (col0 Y))))
        obtain ⟨W', h3⟩ := setColumn_typed W k hk (xwF X (col0 Y))
        obtain ⟨C', h4⟩ := setColumn_typed C k hk (ywF c.normY Y (X * xwF X (col0 Y)))
        have h5 := setColumn_of P ⟨k, hk⟩ ((sq1 (X * xwF X (col0 Y)))⁻¹ • (Xᵀ * (X * xwF X (col0 Y))))
        obtain ⟨Q', h6⟩ := setColumn_typed Q k hk l
        simp only [] at h1 h5
        rw [h1, h2, h3, h4, h5, h6]
        generalize xwF X (col0 Y) = w at h0 ⊢
        set t := X * w with ht
        have htX : Tᵀ * t = 0 := by rw [ht, ← Matrix.mul_assoc, hTX, Matrix.zero_mul]
        have htt : tᵀ * t = sq1 t • (1 : Matrix (Fin 1) (Fin 1) ℝ) := by
          ext a b
          rw [Subsingleton.elim a 0, Subsingleton.elim b 0, Matrix.mul_apply, Matrix.smul_apply, Matrix.one_apply_eq]
          simp [sq1]
        have hnew : tᵀ * (X - t * ((sq1 t)⁻¹ • (Xᵀ * t))ᵀ) = 0 := by
          rw [Matrix.mul_sub, ← Matrix.mul_assoc, htt, Matrix.transpose_smul, Matrix.mul_smul, Matrix.smul_mul, Matrix.one_mul,
            smul_smul, inv_mul_cancel₀ h0, one_smul, Matrix.transpose_mul Xᵀ, Matrix.transpose_transpose, sub_self]
        have hold : Tᵀ * (X - t * ((sq1 t)⁻¹ • (Xᵀ * t))ᵀ) = 0 := by
          rw [Matrix.mul_sub, ← Matrix.mul_assoc, htX, Matrix.zero_mul, hTX, sub_zero]
        refine ⟨_, rfl, _, Y', _, U', W', C', _, Q', l, false, rfl, ?_, ?_, ?_, ?_⟩
        · rw [updateCol_mul (fun i => hT i ⟨k, hk⟩ (le_refl _)), hX]
          abel
        · ext a j
          by_cases ha : a = ⟨k, hk⟩
          · subst ha
            have := congrFun (congrFun hnew 0) j
            rw [Matrix.mul_apply] at this ⊢
            simp only [Matrix.transpose_apply, Matrix.updateCol_self] at this ⊢
            exact this
          · have := congrFun (congrFun hold a) j
            rw [Matrix.mul_apply] at this ⊢
            simp only [Matrix.transpose_apply, Matrix.updateCol_ne ha] at this ⊢
            exact this
        · intro i j hj
          rw [Matrix.updateCol_ne (fun e => by subst e; simp at hj)]
          exact hT i j (by omega)
        · intro i j hj
          rw [Matrix.updateCol_ne (fun e => by subst e; simp at hj)]
          exact hP i j (by omega)

/-- Loops with an invariant that depends on the number of rounds. -/
theorem loopM_ok_idx {σ : Type} (f : Int → σ → Except PyErr σ) (P : Nat → σ → Prop) (n : Nat)
    (h : ∀ k < n, ∀ s, P k s → ∃ s', f (k : Int) s = .ok s' ∧ P (k + 1) s') (s : σ) (hs : P 0 s) :
    ∃ s', loopM f (pyRange 0 (n : Int)) s = .ok s' ∧ P n s' := by
  induction n with
  | zero => exact ⟨s, rfl, hs⟩
  | succ n ih =>
    obtain ⟨s1, h1, h2⟩ := ih fun k hk => h k (by omega)
    obtain ⟨s2, h3, h4⟩ := h n (by omega) s1 h2
    refine ⟨s2, ?_, h4⟩
    rw [pyRange_succ, loopM_append, h1]
    show loopM f [(n : Int)] s1 = _
    rw [loopM, h3]
    rfl

/-- **C120 (NIPALS).** Whatever the options, the number of responses and the deflation mode: `get_loadings`, the matrix
`X_loadings`, holds the loadings of the standardised training data on the scores `X_scores`, also when training stops early. -/
theorem C120_nipals_partial {c : NipalsCfg ℝ} (hc : NipalsReal c) (hcca : c.cca = false) (hK : c.K = (K : Int)) (hn : 0 < n)
    (X : Matrix (Fin n) (Fin (p + 1)) ℝ) (Y : Matrix (Fin n) (Fin (q + 1)) ℝ) (m : NipalsModel ℝ)
    (hm : nipalsTrain c (of X) (of Y) = .ok m) :
    ∃ (T : Matrix (Fin n) (Fin K) ℝ) (P : Matrix (Fin (p + 1)) (Fin K) ℝ), m.vars.T = of T ∧
      loadingsOf "NIPALS" (NipalsModel.attr m) = some (of P) ∧
      BestLoadings (std X X) T P := by
  unfold nipalsTrain at hm
  rw [std_fit c.isZero hc.zero X, std_fit c.isZero hc.zero Y] at hm
  simp only [except_bind_ok] at hm
  rw [nipalsInit_eq c hK hn (by omega) (by omega), hK] at hm
  simp only [except_bind_ok] at hm
  obtain ⟨s, hs, X', Y', T, U, W, C, P, Q, yk, b, rfl, hX, hTX, -, -⟩ := loopM_ok_idx (nipalsStep c)
    (NipInv (std X X) (q + 1) K) K (fun k hk s hs => nipalsStep_inv hc hcca (by omega) _ k hk s hs)
    ⟨of (std X X), of (std Y Y), of (0 : Matrix (Fin n) (Fin K) ℝ),
      of (0 : Matrix (Fin n) (Fin K) ℝ), of (0 : Matrix (Fin (p + 1)) (Fin K) ℝ), of (0 : Matrix (Fin (q + 1)) (Fin K) ℝ),
      of (0 : Matrix (Fin (p + 1)) (Fin K) ℝ), of (0 : Matrix (Fin (q + 1)) (Fin K) ℝ), of (0 : Matrix (Fin (q + 1)) (Fin 1) ℝ),
      false⟩ ⟨_, _, _, _, _, _, _, _, _, _, rfl, by simp, by simp, by simp, by simp⟩
  rw [hs] at hm
  simp only [except_bind_ok] at hm
  refine ⟨T, P, ?_⟩
  have hv : m.vars = ⟨of X', of Y', of T, of U, of W, of C, of P, of Q, of yk, b⟩ := by
    cases h1 : nipalsRot c (of W) (of P) with
    | error e => rw [h1] at hm; cases hm
    | ok xr =>
      rw [h1, except_bind_ok] at hm
      cases h2 : nipalsYRot c ⟨of X', of Y', of T, of U, of W, of C, of P, of Q, of yk, b⟩ with
      | error e => rw [h2] at hm; cases hm
      | ok yr =>
        rw [h2, except_bind_ok] at hm
        cases h3 : xr.mul (of Q).transpose with
        | error e => rw [h3] at hm; cases hm
        | ok B =>
          rw [h3, except_bind_ok] at hm
          simp only [stdState] at hm
          revert hm
          generalize B.scaleByRowVector _ = r
          cases r with
          | error e => intro hm; cases hm
          | ok cf =>
            intro hm
            rw [except_bind_ok] at hm
            rw [← Except.ok.inj hm]
  refine ⟨congrArg NipalsVars.T hv, congrArg (fun v : NipalsVars ℝ => some v.P) hv, bestLoadings_of_orth ?_⟩
  rw [← hX]
  exact hTX

/-! ## Classes whose `get_loadings` is something else -/

/-- **C120, violated by SIMPLS.** `get_loadings` returns the weights `W`.  For all training data without a unit singular
value (`X^T X` has no eigenvalue one) they are not the loadings of the scores `X W` that `transform` returns. -/
theorem C120_simpls_violation {eig : Mat ℝ → Mat ℝ × Mat ℝ} (he : EigOne eig) (hp : 0 < p) (hK : 0 < K) {count : Int}
    (hcount : count ≤ 0) (X : Matrix (Fin n) (Fin p) ℝ) (y : Matrix (Fin n) (Fin 1) ℝ) (h : Regular (pls1W y) K X)
    (hX : (Xᵀ * X - 1).det ≠ 0) :
    ∃ (W : Matrix (Fin p) (Fin K) ℝ) (T : Matrix (Fin n) (Fin K) ℝ) (m : SimplsModel ℝ),
      simplsTrain (domOf eig) K count (of X) (of y) = .ok m ∧ loadingsOf "SIMPLS" (SimplsModel.attr m) = some (of W) ∧
      simplsTransform m (of X) = .ok (of T) ∧ ¬ BestLoadings X T W := by
  obtain ⟨W, Q, m, h1, h2, -, -, h5, -, h7, -, -⟩ := C55_scores_partial he hp K hcount X y h
  refine ⟨W, X * W, m, h1, congrArg some h2, (h7 n X).1, fun hb => ?_⟩
  have e := hb.orth h5
  have e2 : (Xᵀ * X - 1) * W = 0 := by
    rw [Matrix.sub_mul, Matrix.one_mul, Matrix.mul_assoc, ← e, sub_self]
  have hu : IsUnit (Xᵀ * X - 1).det := isUnit_iff_ne_zero.2 hX
  have hW : W = 0 := by
    have := congrArg ((Xᵀ * X - 1)⁻¹ * ·) e2
    simp only [← Matrix.mul_assoc, Matrix.nonsing_inv_mul _ hu, Matrix.one_mul, Matrix.mul_zero] at this
    exact this
  rw [hW, Matrix.mul_zero, Matrix.mul_zero] at h5
  have := congrFun (congrFun h5 ⟨0, hK⟩) ⟨0, hK⟩
  rw [Matrix.one_apply_eq] at this
  exact zero_ne_one this

/-- **C120, violated by KernelPLS.** `get_loadings` returns the scores: a matrix with one row per training sample, not per
predictor, for all kernels and data. -/
theorem C120_kernel_violation {σ : Type} {c : KplsCfg ℝ σ} {v : Nat → Matrix (Fin n) (Fin 1) ℝ} (hc : KplsReal c n v)
    (htol : 0 < c.tol) (hmax : 1 ≤ c.maxIter) (hK : c.K = K) (hn : 0 < n) (hq : 0 < q) (kern : σ)
    (X : Matrix (Fin n) (Fin p) ℝ) (Y : Matrix (Fin n) (Fin q) ℝ)
    (G : Matrix (Fin n) (Fin n) ℝ) (hG : (c.kern1 kern (of (cen X X))).2 = .ok (of G)) (m : KplsModel ℝ σ)
    (h : kplsTrain c kern (of X) (of Y) = .ok m) (hnp : n ≠ p) :
    (∃ T : Matrix (Fin n) (Fin K) ℝ, loadingsOf "KernelPLS" (KplsModel.attr m) = some (of T)) ∧
      ¬ ∃ L : Matrix (Fin p) (Fin K) ℝ, loadingsOf "KernelPLS" (KplsModel.attr m) = some (of L) := by
  obtain ⟨T, -, hT, -, -⟩ := C58_scores hc htol hmax hK hn hq kern X Y G hG m h
  have e : loadingsOf "KernelPLS" (KplsModel.attr m) = some (of T) := congrArg some hT
  refine ⟨⟨T, e⟩, ?_⟩
  rintro ⟨L, hL⟩
  rw [e] at hL
  exact hnp (congrArg Mat.rows (Option.some.inj hL))

/-- The residual of the predictors is orthogonal to the scores of the recursion. -/
theorem pls_resid_X (wf : Matrix (Fin n) (Fin p) ℝ → Matrix (Fin p) (Fin 1) ℝ) (X : Matrix (Fin n) (Fin p) ℝ)
    (hs : ∀ k < K, sq1 (plsT wf X k) ≠ 0) : (plsTM wf K X)ᵀ * (X - plsTM wf K X * (plsPM wf K X)ᵀ) = 0 := by
  have hres : X - plsTM wf K X * (plsPM wf K X)ᵀ = plsX wf X K := by
    rw [← plsZ_train, plsZ_sum]
    congr 1
    ext a b
    rw [Matrix.mul_apply, Matrix.sum_apply, Finset.sum_range]
    refine Finset.sum_congr rfl fun i _ => ?_
    rw [Matrix.mul_apply, Fin.sum_univ_one]
    simp only [plsS, plsZ_train]
    rfl
  rw [hres]
  ext i j
  obtain ⟨d, hd⟩ : ∃ d, K = i.1 + d + 1 := ⟨K - i.1 - 1, by have := i.2; omega⟩
  have := plsT_orth_X wf X i.1 d (by rw [← hd]; exact hs)
  rw [← hd] at this
  have h2 := congrFun (congrFun this 0) j
  rw [Matrix.mul_apply] at h2 ⊢
  exact h2

/-- **C120, violated by DIPLS.** `get_loadings` returns the scores, one row per training sample, although the loadings are
stored in `P`. -/
theorem C120_dipls_violation {s t : Nat} {cfg : DiplsCfg ℝ} (hinv : IsInv cfg.inv) (o : DiplsObj ℝ) (ho : Initialised o)
    (hs : 2 ≤ s) (ht : 2 ≤ t) (hK : 0 < K) (hcfg : cfg.K = K)
    (Xs : Matrix (Fin s) (Fin p) ℝ) (Xt : Matrix (Fin t) (Fin p) ℝ) (ys : Matrix (Fin s) (Fin 1) ℝ)
    (yt : Matrix (Fin t) (Fin 1) ℝ)
    (h : ∀ k < K, DReg cfg.lambda s t (dSt cfg.lambda s t (supState Xs Xt ys yt) k)) :
    ∃ (m : DiplsModel ℝ) (T : Matrix (Fin (s + t)) (Fin K) ℝ) (P : Matrix (Fin p) (Fin K) ℝ),
      diplsSupervised cfg o (of Xs) (of Xt) (of ys) (of yt) = .ok (.trained m) ∧
      loadingsOf "DIPLS" (DiplsModel.attr m) = some (of T) ∧ DiplsModel.attr m "P" = some (of P) ∧
      BestLoadings (cen (stack Xs Xt) (stack Xs Xt)) T P := by
  obtain ⟨wf, hs', -, hT, hP, -⟩ := d_pls cfg.lambda s t K (supState Xs Xt ys yt) h
  refine ⟨_, dTM cfg.lambda s t K (supState Xs Xt ys yt), dPM cfg.lambda s t K (supState Xs Xt ys yt),
    C59_supervised hinv o ho hs ht K hK hcfg Xs Xt ys yt h, ?_, ?_, ?_⟩
  · obtain ⟨k, rfl⟩ : ∃ k, K = k + 1 := ⟨K - 1, by omega⟩
    rfl
  · obtain ⟨k, rfl⟩ : ∃ k, K = k + 1 := ⟨K - 1, by omega⟩
    rfl
  · rw [hT, hP]
    exact bestLoadings_of_orth (pls_resid_X wf (supState Xs Xt ys yt).X hs')

/-! ## Concrete cases -/

example := C120_pls1_partial (by decide) (by decide) (K := 2) (by decide) exX (pls1_computes exY) ex_regular
example := C120_dipls_violation (exactCfg_inv 2 1) diplsFresh ⟨rfl, rfl, rfl⟩ (by decide) (by decide) (K := 2) (by decide) rfl
  dxA dxA dxY dxY (dx_reg 1)

example : ∃ m, nipalsTrain exCfg (of ramp) (of ramp) = .ok m :=
  let ⟨m, h, _⟩ := C53_single_partial (K := 1) exCfg_real rfl rfl exCfg_total (by decide) ramp ramp
  ⟨m, h⟩

/-- Predictors `2 I` and the response `(2, 3, 6)` satisfy the hypotheses of `C120_simpls_violation`. -/
example : Regular (pls1W slimY) 1 ((2 : ℝ) • (1 : Matrix (Fin 3) (Fin 3) ℝ)) ∧
    (((2 : ℝ) • (1 : Matrix (Fin 3) (Fin 3) ℝ))ᵀ * ((2 : ℝ) • (1 : Matrix (Fin 3) (Fin 3) ℝ)) - 1).det ≠ 0 := by
  constructor
  · refine Regular.of_sq1 fun k hk => ?_
    obtain rfl : k = 0 := by omega
    show sq1 (((2 : ℝ) • (1 : Matrix (Fin 3) (Fin 3) ℝ)) * pls1W slimY ((2 : ℝ) • 1)) ≠ 0
    have e : ((2 : ℝ) • (1 : Matrix (Fin 3) (Fin 3) ℝ))ᵀ * slimY = (2 : ℝ) • slimY := by
      rw [Matrix.transpose_smul, Matrix.transpose_one, Matrix.smul_mul, Matrix.one_mul]
    have h49 : sq1 slimY = 49 := by simp [sq1, slimY, Fin.sum_univ_three]; norm_num
    rw [Matrix.smul_mul, Matrix.one_mul, pls1W_eq, e, sq1_smul, sq1_smul, sq1_smul, h49]
    positivity
  · rw [Matrix.transpose_smul, Matrix.transpose_one, Matrix.smul_mul, Matrix.mul_smul, Matrix.one_mul, smul_smul,
      show ((2 * 2 : ℝ) • (1 : Matrix (Fin 3) (Fin 3) ℝ) - 1) = (3 : ℝ) • 1 by
        rw [show (2 * 2 : ℝ) = 3 + 1 by norm_num, add_smul, one_smul, add_sub_cancel_right], Matrix.det_smul]
    simp

end Verif.Props
