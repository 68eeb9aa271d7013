import Verif.Props.Rounding

/-!
# C148: error bounds for products and round trips, and constant columns
-/

namespace Verif.Props
open Verif Mat Transf
open Filter Topology
open scoped Matrix

/-! ## Sums in any order -/

/-- A way of adding up numbers: any order and any bracketing. -/
inductive SumTree (α : Type) where
  | leaf (x : α)
  | node (l r : SumTree α)

namespace SumTree
variable {α : Type}

/-- The numbers added up. -/
def leaves : SumTree α → List α
  | leaf x => [x]
  | node l r => l.leaves ++ r.leaves

/-- The number of additions. -/
def nodes : SumTree α → Nat
  | leaf _ => 0
  | node l r => l.nodes + r.nodes + 1

/-- The sum, as computed. -/
def eval [Add α] : SumTree α → α
  | leaf x => x
  | node l r => l.eval + r.eval

/-- Adding up from the right, starting with zero. -/
def ofList [Zero α] : List α → SumTree α
  | [] => leaf 0
  | x :: xs => node (leaf x) (ofList xs)

theorem ofList_eval [Add α] [Zero α] (xs : List α) : (ofList xs).eval = xs.sum := by
  induction xs with
  | nil => rfl
  | cons x xs ih => rw [ofList, eval, eval, ih, List.sum_cons]

theorem ofList_nodes [Zero α] (xs : List α) : (ofList xs).nodes = xs.length := by
  induction xs with
  | nil => rfl
  | cons x xs ih => rw [ofList, nodes, nodes, ih, List.length_cons]; omega

theorem ofList_leaves [Zero α] (xs : List α) : (ofList xs).leaves = xs ++ [0] := by
  induction xs with
  | nil => rfl
  | cons x xs ih => rw [ofList, leaves, leaves, ih]; rfl

end SumTree

theorem abs_list_sum (xs : List ℝ) : |xs.sum| ≤ (xs.map fun x => |x|).sum := by
  induction xs with
  | nil => simp
  | cons x xs ih =>
    rw [List.sum_cons, List.map_cons, List.sum_cons]
    exact (abs_add_le _ _).trans (add_le_add_right ih _)

section bounds
variable {A : Arith} {u η : ℝ} (hA : A.Close u η)
include hA

/-- C148.  **Sums.**  Whatever the order and bracketing, the error of a sum with `N` additions is at most `(1 + u)^N - 1` times the sum of the
magnitudes. -/
theorem C148_sum (t : SumTree (Fl A)) :
    |t.eval.val - (t.leaves.map Fl.val).sum| ≤ ((1 + u) ^ t.nodes - 1) * (t.leaves.map fun x => |x.val|).sum := by
  have hu := hA.unit
  induction t with
  | leaf x => simp [SumTree.eval, SumTree.leaves, SumTree.nodes]
  | node l r ihl ihr =>
    simp only [SumTree.eval, SumTree.leaves, SumTree.nodes, List.map_append, List.sum_append, Fl.add_val]
    set a := l.eval.val
    set b := r.eval.val
    set s := (l.leaves.map Fl.val).sum
    set t := (r.leaves.map Fl.val).sum
    have hs : |s| ≤ (l.leaves.map fun x => |x.val|).sum := by
      have := abs_list_sum (l.leaves.map Fl.val)
      simpa [List.map_map, Function.comp_def] using this
    have ht : |t| ≤ (r.leaves.map fun x => |x.val|).sum := by
      have := abs_list_sum (r.leaves.map Fl.val)
      simpa [List.map_map, Function.comp_def] using this
    set S := (l.leaves.map fun x => |x.val|).sum
    set T := (r.leaves.map fun x => |x.val|).sum
    have hS : 0 ≤ S := (abs_nonneg s).trans hs
    have hT : 0 ≤ T := (abs_nonneg t).trans ht
    have h1 := hA.add a b
    have h2 : |a + b| ≤ (1 + u) ^ l.nodes * S + (1 + u) ^ r.nodes * T := by
      have e : a + b = (a - s) + s + ((b - t) + t) := by ring
      calc |a + b| ≤ |a - s| + |s| + (|b - t| + |t|) := by rw [e]; exact (abs_add_le _ _).trans (add_le_add (abs_add_le _ _) (abs_add_le _ _))
        _ ≤ _ := by nlinarith
    have h3 : (1 + u) ^ l.nodes ≤ (1 + u) ^ (l.nodes + r.nodes) := pow_le_pow_right₀ (by linarith) (by omega)
    have h4 : (1 + u) ^ r.nodes ≤ (1 + u) ^ (l.nodes + r.nodes) := pow_le_pow_right₀ (by linarith) (by omega)
    have e : A.add a b - (s + t) = (A.add a b - (a + b)) + ((a - s) + (b - t)) := by ring
    calc |A.add a b - (s + t)| ≤ |A.add a b - (a + b)| + (|a - s| + |b - t|) := by
          rw [e]; exact (abs_add_le _ _).trans (add_le_add_right (abs_add_le _ _) _)
      _ ≤ u * ((1 + u) ^ l.nodes * S + (1 + u) ^ r.nodes * T) + (((1 + u) ^ l.nodes - 1) * S + ((1 + u) ^ r.nodes - 1) * T) :=
          add_le_add (h1.trans (mul_le_mul_of_nonneg_left h2 hu)) (add_le_add ihl ihr)
      _ = ((1 + u) ^ l.nodes * (1 + u) - 1) * S + ((1 + u) ^ r.nodes * (1 + u) - 1) * T := by ring
      _ ≤ ((1 + u) ^ (l.nodes + r.nodes) * (1 + u) - 1) * S + ((1 + u) ^ (l.nodes + r.nodes) * (1 + u) - 1) * T := by
          have h5 : 0 ≤ 1 + u := by linarith
          exact add_le_add (mul_le_mul_of_nonneg_right (sub_le_sub_right (mul_le_mul_of_nonneg_right h3 h5) _) hS)
            (mul_le_mul_of_nonneg_right (sub_le_sub_right (mul_le_mul_of_nonneg_right h4 h5) _) hT)
      _ = ((1 + u) ^ (l.nodes + r.nodes + 1) - 1) * (S + T) := by rw [pow_succ]; ring

/-- The error of a computed dot product. -/
theorem dot_bound {p : Nat} (a b : Fin p → Fl A) :
    |(sumFin fun k => a k * b k).val - ∑ k, (a k).val * (b k).val| ≤
      ((1 + u) ^ (p + 1) - 1) * ∑ k, |(a k).val * (b k).val| + p * (1 + u) ^ p * η := by
  have hu := hA.unit
  have h := C148_sum hA (SumTree.ofList (List.ofFn fun k => a k * b k))
  rw [SumTree.ofList_eval, SumTree.ofList_nodes, SumTree.ofList_leaves, List.length_ofFn] at h
  simp only [List.map_append, List.sum_append, List.map_cons, List.map_nil, List.sum_cons, List.sum_nil, Fl.zero_val, abs_zero, add_zero,
    List.map_ofFn, List.sum_ofFn, Function.comp_apply, Fl.mul_val] at h
  have h1 : |∑ k, A.mul (a k).val (b k).val - ∑ k, (a k).val * (b k).val| ≤ u * ∑ k, |(a k).val * (b k).val| + p * η := by
    rw [← Finset.sum_sub_distrib]
    refine (Finset.abs_sum_le_sum_abs _ _).trans ((Finset.sum_le_sum fun k _ => hA.mul _ _).trans (le_of_eq ?_))
    rw [Finset.sum_add_distrib, Finset.mul_sum]
    simp
  have h2 : ∑ k, |A.mul (a k).val (b k).val| ≤ (1 + u) * ∑ k, |(a k).val * (b k).val| + p * η := by
    have : ∀ k, |A.mul (a k).val (b k).val| ≤ (1 + u) * |(a k).val * (b k).val| + η := fun k => by
      have h := abs_sub_abs_le_abs_sub (A.mul (a k).val (b k).val) ((a k).val * (b k).val)
      linarith [hA.mul (a k).val (b k).val]
    refine (Finset.sum_le_sum fun k _ => this k).trans (le_of_eq ?_)
    rw [Finset.sum_add_distrib, Finset.mul_sum]
    simp
  have hq : (0 : ℝ) ≤ (1 + u) ^ p - 1 := sub_nonneg.2 (one_le_pow₀ (by linarith))
  have e : ∀ x y z : ℝ, x - z = (x - y) + (y - z) := fun x y z => by ring
  rw [e _ (∑ k, A.mul (a k).val (b k).val) _]
  refine (abs_add_le _ _).trans ((add_le_add (h.trans (mul_le_mul_of_nonneg_left h2 hq)) h1).trans (le_of_eq ?_))
  rw [pow_succ]
  ring

/-- C148.  **Matrix products** (`Matrix.mul`; hence the predictions of SIMPLS).  The error of an entry is at most `(1 + u)^(p+1) - 1` times the
sum of the magnitudes of the products, plus underflow. -/
theorem C148_product {n p q : Nat} (X : Matrix (Fin n) (Fin p) (Fl A)) (B : Matrix (Fin p) (Fin q) (Fl A)) :
    ∃ F : Matrix (Fin n) (Fin q) (Fl A), (of X).mul (of B) = .ok (of F) ∧ ∀ i j,
      |(F i j).val - ∑ k, (X i k).val * (B k j).val| ≤
        ((1 + u) ^ (p + 1) - 1) * ∑ k, |(X i k).val * (B k j).val| + p * (1 + u) ^ p * η := by
  refine ⟨gmul X B, ?_, fun i j => dot_bound hA _ _⟩
  unfold Mat.mul
  rw [dif_pos rfl]
  rfl

/-! ## Round trips -/

/-- C148.  **Center, there and back.** -/
theorem C148_center_round_trip {n p : Nat} (m : Matrix (Fin 1) (Fin p) (Fl A)) (X : Matrix (Fin n) (Fin p) (Fl A)) :
    ∃ T X' : Matrix (Fin n) (Fin p) (Fl A),
      transform center (of X) (⟨true, some (of m)⟩ : CenterState (Fl A)) = (⟨true, some (of m)⟩, .ok (of T)) ∧
      inverseTransform center (of T) (⟨true, some (of m)⟩ : CenterState (Fl A)) = (⟨true, some (of m)⟩, .ok (of X')) ∧
      ∀ i j, |(X' i j).val - (X i j).val| ≤ u * |(X i j).val| + (1 + u) * (u * |(X i j).val - (m 0 j).val|) := by
  have hu := hA.unit
  refine ⟨Matrix.of fun i j => X i j - m 0 j, Matrix.of fun i j => X i j - m 0 j + m 0 j, ?_, ?_, fun i j => ?_⟩
  · exact congrArg (Prod.mk _) (vectorOp_row _ _ _)
  · exact congrArg (Prod.mk _) (vectorOp_row _ _ _)
  · set x := (X i j).val
    set c := (m 0 j).val
    show |A.add (A.sub x c) c - x| ≤ _
    have h1 := hA.sub x c
    have h2 := hA.add (A.sub x c) c
    have h3 : |A.sub x c + c| ≤ |x| + u * |x - c| := by
      have e : A.sub x c + c = x + (A.sub x c - (x - c)) := by ring
      rw [e]
      exact (abs_add_le _ _).trans (add_le_add_right h1 _)
    have e : A.add (A.sub x c) c - x = (A.add (A.sub x c) c - (A.sub x c + c)) + (A.sub x c - (x - c)) := by ring
    rw [e]
    refine (abs_add_le _ _).trans ((add_le_add (h2.trans (mul_le_mul_of_nonneg_left h3 hu)) h1).trans (le_of_eq ?_))
    ring

/-- C148.  **Standardize, there and back**, for standard deviations that are not zero. -/
theorem C148_standardize_round_trip {n p : Nat} (zero : Fl A → Bool) (m d : Matrix (Fin 1) (Fin p) (Fl A)) (hd : ∀ j, (d 0 j).val ≠ 0)
    (X : Matrix (Fin n) (Fin p) (Fl A)) :
    ∃ T X' : Matrix (Fin n) (Fin p) (Fl A),
      transform (standardize zero) (of X) (⟨true, some (of m), some (of d)⟩ : StatState (Fl A)) = (⟨true, some (of m), some (of d)⟩, .ok (of T)) ∧
      inverseTransform (standardize zero) (of T) (⟨true, some (of m), some (of d)⟩ : StatState (Fl A)) =
        (⟨true, some (of m), some (of d)⟩, .ok (of X')) ∧
      ∀ i j, |(X' i j).val - (X i j).val| ≤ u * |(X i j).val| +
        (1 + u) * (((1 + u) ^ 3 - 1) * |(X i j).val - (m 0 j).val| + (1 + u) * η * |(d 0 j).val| + η) := by
  have hu := hA.unit
  refine ⟨Matrix.of fun i j => (X i j - m 0 j) / d 0 j, Matrix.of fun i j => (X i j - m 0 j) / d 0 j * d 0 j + m 0 j, ?_, ?_, fun i j => ?_⟩
  · refine congrArg (Prod.mk _) ?_
    show (do let r ← (of X).copy.subByVector (of m); r.divByVector (of d)) = _
    have e : (of X).copy.subByVector (of m) = .ok (of (Matrix.of fun i j => X i j - m 0 j)) := vectorOp_row _ _ _
    rw [e]
    exact vectorOp_row _ _ _
  · refine congrArg (Prod.mk _) ?_
    show (do let r ← (of (Matrix.of fun i j => (X i j - m 0 j) / d 0 j)).copy.mulByVector (of d); r.addByVector (of m)) = _
    have e : (of (Matrix.of fun i j => (X i j - m 0 j) / d 0 j)).copy.mulByVector (of d) =
        .ok (of (Matrix.of fun i j => (X i j - m 0 j) / d 0 j * d 0 j)) := vectorOp_row _ _ _
    rw [e]
    exact vectorOp_row _ _ _
  · have hs := hd j
    set x := (X i j).val
    set c := (m 0 j).val
    set s := (d 0 j).val
    show |A.add (A.mul (A.div (A.sub x c) s) s) c - x| ≤ _
    have h1 := hA.sub x c
    set a := A.sub x c
    have h2 := hA.div a s hs
    set q := A.div a s
    have h3 := hA.mul q s
    set b := A.mul q s
    have h4 := hA.add b c
    have ha : |a| ≤ (1 + u) * |x - c| := by
      have := abs_sub_abs_le_abs_sub a (x - c)
      linarith
    have h5 : |q * s - a| ≤ u * |a| + η * |s| := by
      have e : q * s - a = (q - a / s) * s := by field_simp
      rw [e, abs_mul]
      refine (mul_le_mul_of_nonneg_right h2 (abs_nonneg s)).trans (le_of_eq ?_)
      rw [abs_div, add_mul, mul_assoc, div_mul_cancel₀ _ (abs_ne_zero.2 hs)]
    have h6 : |q * s| ≤ |a| + (u * |a| + η * |s|) := by
      have := abs_sub_abs_le_abs_sub (q * s) a
      linarith
    have h7 : |b - (x - c)| ≤ ((1 + u) ^ 3 - 1) * |x - c| + (1 + u) * η * |s| + η := by
      have e : b - (x - c) = (b - q * s) + (q * s - a) + (a - (x - c)) := by ring
      rw [e]
      refine ((abs_add_le _ _).trans (add_le_add_left (abs_add_le _ _) _)).trans ?_
      have h8 : |b - q * s| ≤ u * (|a| + (u * |a| + η * |s|)) + η := h3.trans (by nlinarith)
      have h9 : (2 * u + u ^ 2) * |a| ≤ (2 * u + u ^ 2) * ((1 + u) * |x - c|) := mul_le_mul_of_nonneg_left ha (by positivity)
      nlinarith
    have h8 : |b + c| ≤ |x| + |b - (x - c)| := by
      have e : b + c = x + (b - (x - c)) := by ring
      rw [e]
      exact abs_add_le _ _
    have e : A.add b c - x = (A.add b c - (b + c)) + (b - (x - c)) := by ring
    rw [e]
    refine (abs_add_le _ _).trans ?_
    have h9 : |A.add b c - (b + c)| ≤ u * (|x| + |b - (x - c)|) := h4.trans (mul_le_mul_of_nonneg_left h8 hu)
    nlinarith

end bounds

/-! ## Preprocessing, for small errors -/

/-- C148.  **The preprocessing options in floating-point arithmetic**, for columns whose standard deviations are not zero. -/
theorem C148_preprocessing {n p : Nat} (hn : 0 < n) (prep : Prep) (hprep : prep ≠ .unknown) (X : Matrix (Fin n) (Fin (p + 1)) ℝ)
    (hX : PrepSpread prep X) (isZero : ℝ → Bool) (hz : ∀ x, isZero x = true ↔ x = 0) :
    ∃ F : Matrix (Fin n) (Fin (p + 1)) ℝ, prepApply isZero prep (of X) = .ok (of F) ∧
      ∀ ε > 0, ∃ δ > 0, ∀ (A : Arith) (u η : ℝ), A.Close u η → u ≤ δ → η ≤ δ →
        ∀ (zero : Fl A → Bool), (∀ x, zero x = true → x.val = 0) → ∀ X' : Matrix (Fin n) (Fin (p + 1)) (Fl A), Stored δ X X' →
          ∃ F' : Matrix (Fin n) (Fin (p + 1)) (Fl A), prepApplyG zero prep (of X') = .ok (of F') ∧ Stored ε F F' := by
  refine ⟨prepMat prep X, ?_, ?_⟩
  · cases prep with
    | none => rfl
    | center => exact prepApply_center isZero X
    | standardize => exact prepApply_standardize isZero hz X
    | unknown => exact absurd rfl hprep
  · intro ε hε
    by_contra hc
    push Not at hc
    choose A u η hclose hu hη zero hzero X' nX hbad using fun k : ℕ => hc (1 / ((k : ℝ) + 1)) (by positivity)
    have h0 : Tendsto (fun k : ℕ => 1 / ((k : ℝ) + 1)) atTop (𝓝 0) := tendsto_one_div_add_atTop_nhds_zero_nat
    have V : Vanishing atTop A := ⟨u, η, hclose, squeeze_zero (fun k => (hclose k).unit) hu h0, squeeze_zero (fun k => (hclose k).under) hη h0⟩
    have hlim := gPrep_to V hn zero hzero prep (near_to nX) hX
    have hev : ∀ᶠ k in atTop, ∀ a b, |(gPrep (zero k) prep (X' k) a b).val - prepMat prep X a b| ≤ ε := by
      rw [eventually_all]
      intro a
      rw [eventually_all]
      intro b
      have := (hlim a b).eventually (Metric.closedBall_mem_nhds _ hε)
      filter_upwards [this] with k hk
      simpa [Real.dist_eq] using hk
    obtain ⟨k, hk⟩ := hev.exists
    exact hbad k _ (prepApplyG_eq (zero k) prep hprep (X' k)) hk

/-! ## Training ends -/

/-- C148.  Training on a machine ends with a model whenever its inversion returns a square matrix. -/
theorem C148_pls1_trains {A : Arith} {n p K : Nat} (hn : 0 < n) (hK : 0 < K) (zero : Fl A → Bool) (prep : Prep) (hprep : prep ≠ .unknown)
    (inv : Mat (Fl A) → Except PyErr (Mat (Fl A)))
    (hinv : ∀ M : Matrix (Fin K) (Fin K) (Fl A), ∃ R : Matrix (Fin K) (Fin K) (Fl A), inv (of M) = .ok (of R))
    (X : Matrix (Fin n) (Fin (p + 1)) (Fl A)) (y : Matrix (Fin n) (Fin 1) (Fl A)) :
    ∃ m, singleTrainG zero (fun X y => (pls1TrainG pls1Weights inv (K : Int) X y).map Prod.fst) prep (of X) (of y) = .ok m := by
  unfold singleTrainG
  rw [classStatsG_eq prep hprep, prepApplyG_eq zero prep hprep, prepApplyG_eq (p := 0) zero prep hprep]
  simp only [except_bind_ok]
  set y' : Matrix (Fin n) (Fin 1) (Fl A) := gPrep (p := 0) zero prep y
  rw [pls1TrainG_eq (gWeights y') pls1Weights inv K hn (Nat.succ_pos p) hK _ y' fun k _ => pls1Weights_gen y' _]
  obtain ⟨R, hR⟩ := hinv (gmul (gPM (gWeights y') K (gPrep zero prep X))ᵀ (gWM (gWeights y') K (gPrep zero prep X)))
  rw [hR, except_bind_ok]
  have hm : ∀ {a b c : Nat} (F : Matrix (Fin a) (Fin b) (Fl A)) (G : Matrix (Fin b) (Fin c) (Fl A)), (of F).mul (of G) = .ok (of (gmul F G)) := by
    intro a b c F G
    unfold Mat.mul
    rw [dif_pos rfl]
    rfl
  rw [hm, except_bind_ok, hm, except_bind_ok]
  exact ⟨_, rfl⟩

/-! ## Constant columns -/

/-- A machine whose quotients are too large by the factor `1 + u`, and which is otherwise exact. -/
noncomputable def divUp (u : ℝ) : Arith where
  add a b := a + b
  sub a b := a - b
  mul a b := a * b
  div a b := a / b * (1 + u)
  sqrt a := Real.sqrt a
  cast n := n

theorem divUp_close {u : ℝ} (hu : 0 ≤ u) : (divUp u).Close u 0 := by
  refine ⟨hu, le_refl _, fun a b => ?_, fun a b => ?_, fun a b => ?_, fun a b _ => ?_, fun a ha => ?_, fun n => ?_⟩
  · simp only [divUp, sub_self, abs_zero]; positivity
  · simp only [divUp, sub_self, abs_zero]; positivity
  · simp only [divUp, sub_self, abs_zero]; positivity
  · have e : a / b * (1 + u) - a / b = u * (a / b) := by ring
    simp only [divUp]
    rw [e, abs_mul, abs_of_nonneg hu, add_zero]
  · simp only [divUp, sub_self, abs_zero]; positivity
  · simp only [divUp, sub_self, abs_zero]; positivity

/-- C148 (false in general).  **A constant column.**  In exact arithmetic Standardize maps a column of equal values to zeros, since the guard
replaces the standard deviation zero by one.  With rounding errors the computed standard deviation is not zero, the guard does nothing, and the
result has magnitude at least `√(2/3)`, no matter how small the unit roundoff is. -/
theorem C148_constant_violation {u c : ℝ} (hu : 0 < u) (hc : c ≠ 0) :
    ∃ A : Arith, A.Close u 0 ∧ (∀ isZero : ℝ → Bool, (∀ x, isZero x = true ↔ x = 0) →
      fitTransform (standardize isZero) (of (Matrix.of fun (_ : Fin 3) (_ : Fin 1) => c)) = .ok (of (0 : Matrix (Fin 3) (Fin 1) ℝ))) ∧
      ∀ zero : Fl A → Bool, (∀ x, zero x = true ↔ x.val = 0) →
        ∃ F : Matrix (Fin 3) (Fin 1) (Fl A),
          fitTransform (standardize zero) (of (Matrix.of fun (_ : Fin 3) (_ : Fin 1) => (⟨c⟩ : Fl A))) = .ok (of F) ∧
          ∀ i, Real.sqrt (2 / 3) ≤ |(F i 0).val| := by
  refine ⟨divUp u, divUp_close hu.le, fun isZero hz => ?_, fun zero hz => ?_⟩
  · refine (prepApply_standardize (p := 0) isZero hz _).trans ?_
    refine congrArg _ (mk_congr fun i j => ?_)
    have e : mu (fun k : Fin 3 => (Matrix.of fun (_ : Fin 3) (_ : Fin 1) => c) k j) = c := by
      simp [mu]
    show (c - mu _) / _ = 0
    rw [e, sub_self, zero_div]
  · set X : Matrix (Fin 3) (Fin 1) (Fl (divUp u)) := Matrix.of fun _ _ => ⟨c⟩ with hX
    have hm : gMean X 0 = ⟨c * (1 + u)⟩ := by
      have : (gMean X 0).val = c * (1 + u) := by
        show (c + (c + (c + 0))) / ((3 : ℕ) : ℝ) * (1 + u) = _
        push_cast
        ring
      exact congrArg Fl.mk this
    have hs : (gStd X 0).val = |c| * u * Real.sqrt (3 * (1 + u) / 2) := by
      have : (gStd X 0).val = Real.sqrt (((c - c * (1 + u)) * (c - c * (1 + u)) + ((c - c * (1 + u)) * (c - c * (1 + u)) +
          ((c - c * (1 + u)) * (c - c * (1 + u)) + 0))) / ((2 : ℕ) : ℝ) * (1 + u)) := by
        unfold gStd
        rw [hm]
        rfl
      rw [this]
      have e : ((c - c * (1 + u)) * (c - c * (1 + u)) + ((c - c * (1 + u)) * (c - c * (1 + u)) +
          ((c - c * (1 + u)) * (c - c * (1 + u)) + 0))) / ((2 : ℕ) : ℝ) * (1 + u) = (c * u) ^ 2 * (3 * (1 + u) / 2) := by
        push_cast
        ring
      rw [e, Real.sqrt_mul (sq_nonneg _), Real.sqrt_sq_eq_abs, abs_mul, abs_of_pos hu]
    have hr : 0 < Real.sqrt (3 * (1 + u) / 2) := Real.sqrt_pos.2 (by positivity)
    have hc' := abs_pos.2 hc
    have hpos : 0 < (gStd X 0).val := by rw [hs]; positivity
    refine ⟨_, fitTransformG_standardize (p := 0) zero X, fun i => ?_⟩
    have hg : ¬ ((0 : Fin 1) = 0 ∧ zero (gStd X 0) = true) := fun h => hpos.ne' ((hz _).1 h.2)
    show _ ≤ |((X i 0 - gMean X 0) / if (0 : Fin 1) = 0 ∧ zero (gStd X 0) = true then 1 else gStd X 0).val|
    rw [if_neg hg]
    show _ ≤ |(c - (gMean X 0).val) / (gStd X 0).val * (1 + u)|
    rw [hm, hs]
    have e : |(c - c * (1 + u)) / (|c| * u * Real.sqrt (3 * (1 + u) / 2)) * (1 + u)| = (1 + u) / Real.sqrt (3 * (1 + u) / 2) := by
      have e1 : c - c * (1 + u) = -(c * u) := by ring
      rw [e1, abs_mul, abs_div, abs_neg, abs_mul, abs_mul, abs_mul, abs_abs, abs_of_pos hu, abs_of_pos hr, abs_of_pos (by linarith : 0 < 1 + u)]
      field_simp
    rw [e, le_div_iff₀ hr, ← Real.sqrt_mul (by norm_num)]
    have e2 : 2 / 3 * (3 * (1 + u) / 2) = 1 + u := by ring
    rw [e2, Real.sqrt_le_left (by linarith)]
    nlinarith

/-! ## Concrete cases -/

/-- A machine on which every result is too large by the factor `1 + u`. -/
noncomputable def allUp (u : ℝ) : Arith where
  add a b := (a + b) * (1 + u)
  sub a b := (a - b) * (1 + u)
  mul a b := a * b * (1 + u)
  div a b := a / b * (1 + u)
  sqrt a := Real.sqrt a * (1 + u)
  cast n := n * (1 + u)

theorem allUp_close {u : ℝ} (hu : 0 ≤ u) : (allUp u).Close u 0 := by
  have key : ∀ x : ℝ, |x * (1 + u) - x| = u * |x| := fun x => by
    rw [show x * (1 + u) - x = u * x by ring, abs_mul, abs_of_nonneg hu]
  refine ⟨hu, le_refl _, fun a b => (key _).le, fun a b => (key _).le, fun a b => ?_, fun a b _ => ?_, fun a ha => ?_, fun n => ?_⟩
  · rw [add_zero]; exact (key _).le
  · rw [add_zero]; exact (key _).le
  · exact ((key _).trans (by rw [abs_of_nonneg (Real.sqrt_nonneg a)])).le
  · exact ((key _).trans (by rw [abs_of_nonneg (Nat.cast_nonneg n)])).le

theorem sd_ramp : (sd fun k => ramp k 0) = 1 := by
  unfold sd
  rw [mu_ramp]
  simp [ramp, Fin.sum_univ_three]
  norm_num

theorem spread_ramp : PrepSpread .standardize ramp := by
  intro j
  rw [Subsingleton.elim j 0, sd_ramp]
  exact one_ne_zero

theorem std_ramp : std ramp ramp = !![-1; 0; 1] := by
  rw [← cen_ramp]
  ext i j
  rw [Subsingleton.elim j 0]
  have : divisor ramp 0 = 1 := (if_neg fun h => spread_ramp 0 h.2).trans sd_ramp
  show (ramp i 0 - mu _) / divisor ramp 0 = ramp i 0 - mu _
  rw [this, div_one]

theorem ramp_std_regular : Regular (pls1W (prepMat .standardize ramp)) 1 (prepMat .standardize ramp) := by
  have hw : pls1W (std ramp ramp) (std ramp ramp) = !![1] := ramp_weights _ _ std_ramp std_ramp
  refine Regular.of_sq1 fun k hk => ?_
  obtain rfl : k = 0 := by omega
  show sq1 (std ramp ramp * pls1W (std ramp ramp) (std ramp ramp)) ≠ 0
  rw [hw, std_ramp]
  simp [sq1, Matrix.mul_apply, Fin.sum_univ_three]

/-- Two components without preprocessing, and one with STANDARDIZE. -/
example := C148_pls1 (by decide) (by decide) (by decide) (fun x => decide (x = 0)) (fun x => by simp) .none (by decide) exX exY exX trivial trivial
  ex_regular

example := C148_pls1 (p := 0) (by decide) (by decide) (by decide) (fun x => decide (x = 0)) (fun x => by simp) .standardize (by decide) ramp ramp
  ramp spread_ramp spread_ramp ramp_std_regular

/-- The inner statement is not empty: for every `ε` there are machines that do round, on which training ends with a model that predicts within
`ε`. -/
example (ε : ℝ) (hε : 0 < ε) : ∃ u > 0, ∃ (F : Matrix (Fin 2) (Fin 1) ℝ) (m : SingleModel (Fl (allUp u)) (Pls1Model (Fl (allUp u))))
    (F' : Matrix (Fin 2) (Fin 1) (Fl (allUp u))),
    singleTrainG (fun x => decide (x.val = 0)) (fun X y => (pls1TrainG pls1Weights (fun M => .ok M) (2 : Nat) X y).map Prod.fst) .none
      (of (Fl.mat exX)) (of (Fl.mat exY)) = .ok m ∧
    singlePredictG (pls1PredictG (2 : Nat)) m (of (Fl.mat exX)) = .ok (of F') ∧ Stored ε F F' := by
  obtain ⟨-, F, -, -, h⟩ := C148_pls1 (by decide) (by decide) (by decide) (fun x => decide (x = 0)) (fun x => by simp) .none (by decide) exX exY exX
    trivial trivial ex_regular
  obtain ⟨δ, hδ, h⟩ := h ε hε
  have near : ∀ {a b : Nat} (M : Matrix (Fin a) (Fin b) ℝ), Stored δ M (Fl.mat (A := allUp δ) M) := fun M i j => by
    show |M i j - M i j| ≤ δ
    rw [sub_self, abs_zero]
    exact hδ.le
  obtain ⟨m, hm⟩ := C148_pls1_trains (A := allUp δ) (K := 2) (by decide) (by decide) (fun x => decide (x.val = 0)) .none (by decide)
    (fun M => .ok M) (fun M => ⟨M, rfl⟩) (Fl.mat exX) (Fl.mat exY)
  obtain ⟨F', h1, h2⟩ := h (allUp δ) δ 0 (allUp_close hδ.le) le_rfl hδ.le (fun x => decide (x.val = 0)) (fun x hx => by simpa using hx) _ _ _ _
    (near exX) (near exY) (near exX) m hm
  exact ⟨δ, hδ, F, m, F', hm, h1, h2⟩

example := C148_preprocessing (p := 0) (by decide) .standardize (by decide) ramp spread_ramp (fun x => decide (x = 0)) (fun x => by simp)

example := C148_product (allUp_close (u := 1 / 2 ^ 53) (by positivity)) (Fl.mat exX) (Fl.mat exY)

example := C148_center_round_trip (allUp_close (u := 1 / 2 ^ 53) (by positivity)) (Fl.mat (!![2] : Matrix (Fin 1) (Fin 1) ℝ)) (Fl.mat ramp)

example := C148_standardize_round_trip (allUp_close (u := 1 / 2 ^ 53) (by positivity)) (fun _ => false)
  (Fl.mat (!![2] : Matrix (Fin 1) (Fin 1) ℝ)) (Fl.mat (!![1] : Matrix (Fin 1) (Fin 1) ℝ))
  (fun j => by rw [Subsingleton.elim j 0]; exact one_ne_zero) (Fl.mat ramp)

example := C148_constant_violation (u := 1 / 2 ^ 53) (c := 1 / 10) (by positivity) (by norm_num)

end Verif.Props
