import Verif.Props.Replicates
import Verif.Props.StatsProps

/-!
# C162 — entering every sample the same number of times: the median
-/

namespace Verif.Props
open Verif Verif.Mat
open Finset

variable {n n' p m : Nat} {f : Fin n' → Fin n}

theorem count_repeat (hf : ∀ i, (Finset.univ.filter fun j => f j = i).card = m) (A : Matrix (Fin n) (Fin p) ℝ) (P : ℝ → Prop)
    [DecidablePred P] :
    #{c : Fin n' × Fin p | P (A.submatrix f id c.1 c.2)} = m * #{c : Fin n × Fin p | P (A c.1 c.2)} := by
  have h : (#{c : Fin n' × Fin p | P (A.submatrix f id c.1 c.2)} : ℝ) = m * #{c : Fin n × Fin p | P (A c.1 c.2)} := by
    rw [card_filter, card_filter]
    push_cast
    rw [Fintype.sum_prod_type, Fintype.sum_prod_type]
    exact sum_repeat hf fun i => ∑ j, if P (A i j) then (1 : ℝ) else 0
  exact_mod_cast h

/-- **C162 (median).** The median stays the same, for odd and for even numbers of entries and of copies. -/
theorem C162_median (hm : 0 < m) (hn : 0 < n) (hp : 0 < p) (hf : ∀ i, (Finset.univ.filter fun j => f j = i).card = m)
    (A : Matrix (Fin n) (Fin p) ℝ) :
    ∃ c : ℝ, (of (X.finMat A)).medianX = X.fin c ∧ (of (X.finMat (A.submatrix f id))).medianX = X.fin c := by
  have hc : n' = m * n := by exact_mod_cast card_repeat hf
  obtain ⟨i, j, i', j', e, a1, a2, b1, b2, -⟩ := C141_median hn hp A
  obtain ⟨k, l, k', l', e', c1, c2, d1, d2, -⟩ := C141_median (m := n') (by rw [hc]; exact Nat.mul_pos hm hn) hp (A.submatrix f id)
  refine ⟨_, e, ?_⟩
  rw [e']
  generalize A.submatrix f id k l = x at c1 c2 ⊢
  generalize A.submatrix f id k' l' = y at d1 d2 ⊢
  generalize A i j = a at a1 a2 ⊢
  generalize A i' j' = b at b1 b2 ⊢
  rw [count_repeat hf A (· < x), hc, mul_assoc, mul_left_comm 2 m, Nat.mul_lt_mul_left hm] at c1
  rw [count_repeat hf A (· ≤ x), hc, mul_assoc, mul_left_comm 2 m, Nat.mul_le_mul_left_iff hm] at c2
  rw [count_repeat hf A (y < ·), hc, mul_assoc, mul_left_comm 2 m, Nat.mul_lt_mul_left hm] at d1
  rw [count_repeat hf A (y ≤ ·), hc, mul_assoc, mul_left_comm 2 m, Nat.mul_le_mul_left_iff hm] at d2
  have low : ∀ s t : ℝ, s < t → #{c : Fin n × Fin p | A c.1 c.2 ≤ s} ≤ #{c : Fin n × Fin p | A c.1 c.2 < t} := fun s t h =>
    card_le_card fun c hc => by
      rw [mem_filter] at hc ⊢
      exact ⟨hc.1, lt_of_le_of_lt hc.2 h⟩
  have up : ∀ s t : ℝ, s < t → #{c : Fin n × Fin p | t ≤ A c.1 c.2} ≤ #{c : Fin n × Fin p | s < A c.1 c.2} := fun s t h =>
    card_le_card fun c hc => by
      rw [mem_filter] at hc ⊢
      exact ⟨hc.1, lt_of_lt_of_le h hc.2⟩
  have ex : x = a := by
    rcases lt_trichotomy x a with h | h | h
    · have := low x a h
      omega
    · exact h
    · have := low a x h
      omega
  have ey : y = b := by
    rcases lt_trichotomy y b with h | h | h
    · have := up y b h
      omega
    · exact h
    · have := up b y h
      omega
  rw [ex, ey]

/-- Two copies of each of three values. -/
example := C162_median (m := 2) (f := fun k : Fin 6 => (⟨k.1 / 2, by omega⟩ : Fin 3)) two_pos (by norm_num) one_pos (by decide)
  (!![1; 5; 2] : Matrix (Fin 3) (Fin 1) ℝ)

/-! ## The robust centre and the leverage weights of PRM -/

theorem raw_column (g : Fin n → ℝ) : (of (Matrix.of fun i (_ : Fin 1) => g i)).toRawCopy1D = List.ofFn g := by
  unfold Mat.toRawCopy1D
  simp [of]

theorem medianX_column (hn : 0 < n) (g : Fin n → ℝ) :
    (of (X.finMat (Matrix.of fun i (_ : Fin 1) => g i))).medianX = X.fin (medianList (List.ofFn g)) := by
  have hl : (of (Matrix.of fun i (_ : Fin 1) => g i)).toRawCopy1D ≠ [] := by
    rw [raw_column, ← List.length_pos_iff, List.length_ofFn]
    exact hn
  rw [medianX_fin (raw_finMat _) hl, raw_column]

theorem medianList_repeat (hm : 0 < m) (hn : 0 < n) (hf : ∀ i, (Finset.univ.filter fun j => f j = i).card = m) (g : Fin n → ℝ) :
    medianList (List.ofFn fun j => g (f j)) = medianList (List.ofFn g) := by
  have hc : n' = m * n := by exact_mod_cast card_repeat hf
  obtain ⟨c, h1, h2⟩ := C162_median hm hn one_pos hf (Matrix.of fun i (_ : Fin 1) => g i)
  have e : (Matrix.of fun i (_ : Fin 1) => g i).submatrix f id = Matrix.of fun j (_ : Fin 1) => g (f j) := rfl
  rw [medianX_column hn] at h1
  rw [e, medianX_column (by rw [hc]; exact Nat.mul_pos hm hn)] at h2
  injection h1 with h1
  injection h2 with h2
  rw [h1, h2]

theorem weis_repeat (hm : 0 < m) (hf : ∀ i, (Finset.univ.filter fun j => f j = i).card = m) (eps : ℝ)
    (A : Matrix (Fin n) (Fin p) ℝ) (v : Matrix (Fin 1) (Fin p) ℝ) : weis eps (A.submatrix f id) v = weis eps A v := by
  have h0 : (m : ℝ) ≠ 0 := by positivity
  ext i j
  simp only [weis, Matrix.of_apply]
  have e1 := sum_repeat hf fun i => A i j * weisW eps A v i
  have e2 := sum_repeat hf fun i => weisW eps A v i
  rw [show (∑ k, A.submatrix f id k j * weisW eps (A.submatrix f id) v k) = ∑ k, A (f k) j * weisW eps A v (f k) from rfl,
    show (∑ k, weisW eps (A.submatrix f id) v k) = ∑ k, weisW eps A v (f k) from rfl, e1, e2, mul_div_mul_left _ _ h0]

theorem geoLoop_repeat (cfg : PrmCfg ℝ) (hm : 0 < m) (hn : 2 ≤ n) (hf : ∀ i, (Finset.univ.filter fun j => f j = i).card = m)
    (A : Matrix (Fin n) (Fin p) ℝ) :
    ∀ (k : Nat) (iter : Int), (cfg.maxIter - iter).toNat = k → ∀ v : Matrix (Fin 1) (Fin p) ℝ,
      geoLoop cfg (of (A.submatrix f id)) iter (of v) = geoLoop cfg (of A) iter (of v) := by
  have hc : n' = m * n := by exact_mod_cast card_repeat hf
  have hn' : 2 ≤ n' := by rw [hc]; nlinarith
  intro k
  induction k with
  | zero =>
    intro iter hk v
    rw [geoLoop, geoLoop, dif_neg (by omega), dif_neg (by omega)]
  | succ k ih =>
    intro iter hk v
    rw [geoLoop, geoLoop, dif_pos (by omega), dif_pos (by omega), geoStep_of cfg hn', geoStep_of cfg hn, weis_repeat hm hf, except_bind_ok,
      except_bind_ok, sub_of, except_bind_ok, except_bind_ok, ih (iter + 1) (by omega)]

/-- **C162 (PRM, geometric median).** The geometric median found stays the same, whatever the tolerances and the number of iterations. -/
theorem C162_geometric_median (cfg : PrmCfg ℝ) (hm : 0 < m) (hn : 2 ≤ n) (hf : ∀ i, (Finset.univ.filter fun j => f j = i).card = m)
    (A : Matrix (Fin n) (Fin p) ℝ) : geoMedian cfg (of (A.submatrix f id)) = geoMedian cfg (of A) := by
  unfold geoMedian
  have e : (of (A.submatrix f id)).columnMeans = (of A).columnMeans := by
    rw [Transf.columnMeans_of, Transf.columnMeans_of]
    exact mk_congr fun i j => mu_repeat hm hf fun i => A i j
  rw [e, Transf.columnMeans_of]
  exact geoLoop_repeat cfg hm hn hf A _ 0 rfl _

/-- **C162 (PRM, leverage weights).** Every copy of a sample gets the weight the sample gets without copies. -/
theorem C162_leverage_weights (cfg : PrmCfg ℝ) (hmed : MedCol cfg.med) (he : 0 < cfg.eps) (hm : 0 < m) (hn : 2 ≤ n)
    (hf : ∀ i, (Finset.univ.filter fun j => f j = i).card = m) (T : Matrix (Fin n) (Fin p) ℝ) :
    ∃ w : Matrix (Fin n) (Fin 1) ℝ, leverageWeights cfg (of T) = .ok (of w) ∧
      leverageWeights cfg (of (T.submatrix f id)) = .ok (of (w.submatrix f id)) := by
  have hc : n' = m * n := by exact_mod_cast card_repeat hf
  have hn' : 2 ≤ n' := by rw [hc]; nlinarith
  obtain ⟨c, h1, -, h3⟩ := leverage_ok cfg he hn T
  refine ⟨_, h3, ?_⟩
  have h4 := C162_geometric_median cfg hm hn hf T
  rw [h1] at h4
  rw [leverageWeights_of (n := n') cfg (by omega) (of (T.submatrix f id)) (of c) rfl _ h4 (cDist_of (by omega) _ c), ok_inj]
  have e1 : cfg.med (of (distM (T.submatrix f id) c)) = medianList (List.ofFn fun j => rdist T c (f j)) :=
    hmed n' (fun j => rdist T c (f j)) (by omega)
  have e2 : cfg.med (of (distM T c)) = medianList (List.ofFn fun i => rdist T c i) := hmed n (fun i => rdist T c i) (by omega)
  rw [e1, e2, medianList_repeat hm (by omega) hf fun i => rdist T c i]
  rfl

/-- **C162 (PRM, first residual weights).** So it does for the weights of the responses in the first pass. -/
theorem C162_residual_weights (cfg : PrmCfg ℝ) (hmed : MedCol cfg.med) (hm : 0 < m) (hn : 0 < n)
    (hf : ∀ i, (Finset.univ.filter fun j => f j = i).card = m) (y : Matrix (Fin n) (Fin 1) ℝ) :
    ∃ w : Matrix (Fin n) (Fin 1) ℝ, residualWeights cfg n (of y) none = .ok (of w) ∧
      residualWeights cfg n' (of (y.submatrix f id)) none = .ok (of (w.submatrix f id)) := by
  have hc : n' = m * n := by exact_mod_cast card_repeat hf
  have hn' : 0 < n' := by rw [hc]; exact Nat.mul_pos hm hn
  have ey : y = Matrix.of fun i (_ : Fin 1) => y i 0 := by
    ext i j
    rw [Fin.eq_zero j]
    rfl
  have e' : y.submatrix f id = Matrix.of fun j (_ : Fin 1) => y (f j) 0 := by
    ext i j
    rw [Fin.eq_zero j]
    rfl
  have h1 := first_weights (cfg := cfg) hmed hn fun i => y i 0
  have h2 := first_weights (cfg := cfg) hmed hn' fun j => y (f j) 0
  rw [← ey] at h1
  rw [← e'] at h2
  refine ⟨_, h1, ?_⟩
  rw [h2]
  have e1 := medianList_repeat hm hn hf fun i => y i 0
  have e2 : (firstScale fun j => y (f j) 0) = firstScale fun i => y i 0 := by
    unfold firstScale
    rw [e1]
    exact medianList_repeat hm hn hf fun i => |y i 0 - medianList (List.ofFn fun i => y i 0)|
  rw [e1, e2]
  rfl

example := C162_leverage_weights (m := 2) (f := fun k : Fin 6 => (⟨k.1 / 2, by omega⟩ : Fin 3)) medCfg medCfg_med
  (by norm_num [medCfg, prmDemo]) two_pos (by norm_num) (by decide) (!![1, 0; 5, 1; 2, 7] : Matrix (Fin 3) (Fin 2) ℝ)
example := C162_residual_weights (m := 2) (f := fun k : Fin 6 => (⟨k.1 / 2, by omega⟩ : Fin 3)) medCfg medCfg_med
  two_pos (by norm_num) (by decide) (!![1; 5; 2] : Matrix (Fin 3) (Fin 1) ℝ)

end Verif.Props
