import Mathlib.Topology.Algebra.Order.Field
import Mathlib.Analysis.SpecialFunctions.Pow.Real
import Verif.Core.Mat

/-!
# Rounded arithmetic

Scalars for running the programs of the model with rounding errors.  An `Arith` gives the results of the operations the code uses; it is
`Close u η` to exact arithmetic if it meets the standard model of floating-point arithmetic: every result has relative error at most `u`
(the unit roundoff), and products and quotients may have in addition an absolute error of at most `η` (underflow).  Nothing else is assumed:
operations may be neither associative nor commutative nor monotone.  Overflow is left out: results are real numbers.
-/

namespace Verif

/-- Results of the scalar operations of a machine. -/
structure Arith where
  add : ℝ → ℝ → ℝ
  sub : ℝ → ℝ → ℝ
  mul : ℝ → ℝ → ℝ
  div : ℝ → ℝ → ℝ
  sqrt : ℝ → ℝ
  cast : ℕ → ℝ

/-- The standard model with unit roundoff `u` and underflow threshold `η`. -/
structure Arith.Close (A : Arith) (u η : ℝ) : Prop where
  unit : 0 ≤ u
  under : 0 ≤ η
  add : ∀ a b, |A.add a b - (a + b)| ≤ u * |a + b|
  sub : ∀ a b, |A.sub a b - (a - b)| ≤ u * |a - b|
  mul : ∀ a b, |A.mul a b - a * b| ≤ u * |a * b| + η
  div : ∀ a b, b ≠ 0 → |A.div a b - a / b| ≤ u * |a / b| + η
  sqrt : ∀ a, 0 ≤ a → |A.sqrt a - Real.sqrt a| ≤ u * Real.sqrt a
  cast : ∀ n : ℕ, |A.cast n - n| ≤ u * n

/-- A number stored by the machine `A`. -/
structure Fl (A : Arith) where
  val : ℝ

namespace Fl
variable {A : Arith}

instance : Zero (Fl A) := ⟨⟨0⟩⟩
instance : One (Fl A) := ⟨⟨1⟩⟩
instance : Add (Fl A) := ⟨fun a b => ⟨A.add a.val b.val⟩⟩
instance : Sub (Fl A) := ⟨fun a b => ⟨A.sub a.val b.val⟩⟩
instance : Mul (Fl A) := ⟨fun a b => ⟨A.mul a.val b.val⟩⟩
noncomputable instance : Div (Fl A) := ⟨fun a b => ⟨A.div a.val b.val⟩⟩
instance : NatCast (Fl A) := ⟨fun n => ⟨A.cast n⟩⟩
instance : HasSqrt (Fl A) := ⟨fun a => ⟨A.sqrt a.val⟩⟩

theorem zero_val : (0 : Fl A).val = 0 := rfl
theorem one_val : (1 : Fl A).val = 1 := rfl
theorem add_val (a b : Fl A) : (a + b).val = A.add a.val b.val := rfl
theorem sub_val (a b : Fl A) : (a - b).val = A.sub a.val b.val := rfl
theorem mul_val (a b : Fl A) : (a * b).val = A.mul a.val b.val := rfl
theorem div_val (a b : Fl A) : (a / b).val = A.div a.val b.val := rfl
theorem sqrt_val (a : Fl A) : (HasSqrt.sqrt a).val = A.sqrt a.val := rfl
theorem cast_val (n : ℕ) : ((n : Fl A)).val = A.cast n := rfl

/-- A real matrix, stored without error. -/
def mat {m n : Nat} (M : Matrix (Fin m) (Fin n) ℝ) : Matrix (Fin m) (Fin n) (Fl A) := Matrix.of fun i j => ⟨M i j⟩

end Fl

/-! ## Limits of vanishing rounding errors -/

open Filter Topology

/-- A family of machines whose rounding errors vanish along `l`. -/
structure Vanishing {ι : Type} (l : Filter ι) (A : ι → Arith) : Prop where
  close : ∃ u η : ι → ℝ, (∀ i, (A i).Close (u i) (η i)) ∧ Tendsto u l (𝓝 0) ∧ Tendsto η l (𝓝 0)

namespace Vanishing
variable {ι : Type} {l : Filter ι} {A : ι → Arith}

/-- The values of `f` tend to `x`. -/
def To (l : Filter ι) (f : ∀ i, Fl (A i)) (x : ℝ) : Prop := Tendsto (fun i => (f i).val) l (𝓝 x)

theorem const (x : ℝ) : To l (A := A) (fun _ => ⟨x⟩) x := tendsto_const_nhds

/-- Something within `u * |g| + η` of `g` has the limit of `g`. -/
theorem squeeze {g f u η : ι → ℝ} {x : ℝ} (hu : Tendsto u l (𝓝 0)) (hη : Tendsto η l (𝓝 0)) (hg : Tendsto g l (𝓝 x))
    (h : ∀ᶠ i in l, |f i - g i| ≤ u i * |g i| + η i) : Tendsto f l (𝓝 x) := by
  have h0 : Tendsto (fun i => u i * |g i| + η i) l (𝓝 0) := by
    have := (hu.mul hg.abs).add hη
    simpa using this
  have h1 : Tendsto (fun i => f i - g i) l (𝓝 0) := squeeze_zero_norm' h h0
  have := h1.add hg
  simpa using this

variable (V : Vanishing l A) {f g : ∀ i, Fl (A i)} {x y : ℝ}
include V

theorem add (hf : To l f x) (hg : To l g y) : To l (fun i => f i + g i) (x + y) := by
  obtain ⟨u, η, hc, hu, hη⟩ := V.close
  refine squeeze hu hη (Tendsto.add hf hg) (Eventually.of_forall fun i => ?_)
  exact ((hc i).add _ _).trans (le_add_of_nonneg_right (hc i).under)

theorem sub (hf : To l f x) (hg : To l g y) : To l (fun i => f i - g i) (x - y) := by
  obtain ⟨u, η, hc, hu, hη⟩ := V.close
  refine squeeze hu hη (Tendsto.sub hf hg) (Eventually.of_forall fun i => ?_)
  exact ((hc i).sub _ _).trans (le_add_of_nonneg_right (hc i).under)

theorem mul (hf : To l f x) (hg : To l g y) : To l (fun i => f i * g i) (x * y) := by
  obtain ⟨u, η, hc, hu, hη⟩ := V.close
  exact squeeze hu hη (Tendsto.mul hf hg) (Eventually.of_forall fun i => (hc i).mul _ _)

theorem div (hf : To l f x) (hg : To l g y) (hy : y ≠ 0) : To l (fun i => f i / g i) (x / y) := by
  obtain ⟨u, η, hc, hu, hη⟩ := V.close
  refine squeeze hu hη (Tendsto.div hf hg hy) ?_
  filter_upwards [Tendsto.eventually_ne hg hy] with i hi
  exact (hc i).div _ _ hi

theorem sqrt (hf : To l f x) (hx : 0 < x) : To l (fun i => HasSqrt.sqrt (f i)) (Real.sqrt x) := by
  obtain ⟨u, η, hc, hu, hη⟩ := V.close
  refine squeeze hu hη ((Real.continuous_sqrt.tendsto x).comp hf) ?_
  filter_upwards [Tendsto.eventually_lt tendsto_const_nhds hf hx] with i hi
  refine ((hc i).sqrt _ hi.le).trans ?_
  show u i * Real.sqrt (f i).val ≤ u i * |Real.sqrt (f i).val| + η i
  rw [abs_of_nonneg (Real.sqrt_nonneg _)]
  exact le_add_of_nonneg_right (hc i).under

theorem cast (n : ℕ) : To l (A := A) (fun i => (n : Fl (A i))) n := by
  obtain ⟨u, η, hc, hu, hη⟩ := V.close
  refine squeeze (g := fun _ => (n : ℝ)) hu hη tendsto_const_nhds (Eventually.of_forall fun i => ?_)
  refine ((hc i).cast n).trans ?_
  rw [abs_of_nonneg (Nat.cast_nonneg n)]
  exact le_add_of_nonneg_right (hc i).under

theorem sum {n : Nat} {f : ∀ i, Fin n → Fl (A i)} {x : Fin n → ℝ} (h : ∀ k, To l (fun i => f i k) (x k)) :
    To l (fun i => Mat.sumFin (f i)) (∑ k, x k) := by
  induction n with
  | zero => simpa [Mat.sumFin, To, Fl.zero_val] using tendsto_const_nhds
  | succ n ih =>
    have e : ∀ i, Mat.sumFin (f i) = f i 0 + Mat.sumFin fun k => f i k.succ := fun i => by
      unfold Mat.sumFin
      rw [List.ofFn_succ, List.sum_cons]
    simp only [e]
    rw [Fin.sum_univ_succ]
    exact V.add (h 0) (ih fun k => h k.succ)

end Vanishing

end Verif
