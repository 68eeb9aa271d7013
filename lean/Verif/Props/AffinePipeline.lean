import Verif.Props.AffineProps
import Verif.Props.Resampling
import Verif.Props.SavGolMirror
import Verif.Props.ScatterInvariance

/-!
# C154: preprocessing steps and a model, chained, are one table of coefficients

`SavitzkyGolay`, `Downsample` and `Equidistance` are affine in the sense of C145, for every width and including the cases in which
they raise.  A `MultiFilter` of affine steps is affine, and so is a trained linear model behind it.  `RowNorm` and `Log` are not
affine: a chain with one of them in it is not covered.
-/

namespace Verif.Props
open Verif Mat Factory Transf
open scoped Matrix

section field
variable {α : Type} [Field α]

/-- A step that maps every row by itself, linearly. -/
theorem AffineAt.of_rows {c c' : Nat} {f : Mat α → Except PyErr (Mat α)} (W : Matrix (Fin c) (Fin c') α)
    (h : ∀ (r : Nat) (Z : Matrix (Fin (r + 1)) (Fin c) α), f (of Z) = .ok (of (Z * W))) : AffineAt c f :=
  .inr ⟨c', W, 0, fun r Z => by
    rw [h, ok_inj]
    refine mk_congr fun i j => ?_
    simp⟩

/-- Selecting columns by a list of Python indices that may depend on the width. -/
theorem Affine.getColumns (is : Nat → Except PyErr (List Int)) :
    Affine (fun Z : Mat α => do let l ← is Z.cols; Z.getColumns (.list l)) := by
  intro c
  cases hl : is c with
  | error e => exact .inl fun r Z => ⟨e, by show (is c >>= _) = _; rw [hl]; rfl⟩
  | ok l =>
    have h0 : ∀ (r : Nat) (Z : Matrix (Fin (r + 1)) (Fin c) α),
        (is (of Z).cols >>= fun l => (of Z).getColumns (.list l)) =
          (resolve c l >>= fun cs => .ok (of (Matrix.of fun (i : Fin (r + 1)) j => Z i (cs.get j)))) := by
      intro r Z
      show (is c >>= fun l => (of Z).getColumns (.list l)) = _
      rw [hl, except_bind_ok]
      unfold Mat.getColumns getSubMatrix
      show (resolve (r + 1) (pyRange ((0 : Nat) : Int) ((r + 1 : Nat) : Int)) >>= fun rs => resolve c l >>= _) = _
      rw [resolve_range 0 (r + 1) (by omega) le_rfl, except_bind_ok]
      cases resolve c l with
      | error e => rfl
      | ok cs =>
        show Except.ok _ = Except.ok _
        rw [ok_inj]
        refine mk_eq (by simp) rfl fun i j => ?_
        simp only [Matrix.of_apply, List.get_ofFn]
        congr 1
        exact Fin.ext (Nat.zero_add _)
    cases hr : resolve c l with
    | error e => exact .inl fun r Z => ⟨e, (h0 r Z).trans (by rw [hr]; rfl)⟩
    | ok cs =>
      refine AffineAt.of_rows (Matrix.of fun k j => if k = cs.get j then (1 : α) else 0) fun r Z => ?_
      refine (h0 r Z).trans ?_
      rw [hr]
      show Except.ok _ = Except.ok _
      rw [ok_inj]
      refine mk_congr fun i j => ?_
      rw [Matrix.mul_apply]
      simp

/-- **C154** `Downsample`, for every start and step. -/
theorem C154_downsample (start step : Int) : Affine (downsample (α := α) start step) :=
  (Affine.getColumns fun c => pyRangeStep start c step).congr fun _ => rfl

/-- **C154** (chains).  A `MultiFilter` whose steps are affine is affine, however many steps it has. -/
theorem C154_chain (fs : List (Mat α → Except PyErr (Mat α))) (h : ∀ f ∈ fs, Affine f) : Affine (multiFilter fs) := by
  induction fs with
  | nil => exact Affine.id.congr fun _ => rfl
  | cons f fs ih =>
    exact ((h f List.mem_cons_self).bind (ih fun g hg => h g (List.mem_cons_of_mem _ hg))).congr fun _ => rfl

/-- **C154** (chain and model).  So is a model that is affine in what it is given, when it is given what such a chain makes of the
raw data. -/
theorem C154_pipeline (fs : List (Mat α → Except PyErr (Mat α))) (h : ∀ f ∈ fs, Affine f) {g : Mat α → Except PyErr (Mat α)}
    (hg : Affine g) : Affine (fun Z => multiFilter fs Z >>= g) := (C154_chain fs h).bind hg

/-- **C154** (mixtures through the chain).  The answer for a mixture of raw spectra, with weights adding up to one, is the mixture of
the answers. -/
theorem C154_mixture (fs : List (Mat α → Except PyErr (Mat α))) (h : ∀ f ∈ fs, Affine f) {g : Mat α → Except PyErr (Mat α)}
    (hg : Affine g) {r c c' : Nat} (Z Z' : Matrix (Fin (r + 1)) (Fin c) α) (R R' : Matrix (Fin (r + 1)) (Fin c') α) (s t : α)
    (hst : s + t = 1) (h1 : (multiFilter fs (of Z) >>= g) = .ok (of R)) (h2 : (multiFilter fs (of Z') >>= g) = .ok (of R')) :
    (multiFilter fs (of (s • Z + t • Z')) >>= g) = .ok (of (s • R + t • R')) :=
  C145_mixture (C154_pipeline fs h hg c) Z Z' R R' s t hst h1 h2

/-- **C154** (the table of the chain).  Behind a step that multiplies by `W`, the coefficients for the raw data are `W B`; the offset
stays. -/
theorem C154_table {n k q : Nat} {f g : Mat α → Except PyErr (Mat α)} (W : Matrix (Fin n) (Fin k) α) (B : Matrix (Fin k) (Fin q) α)
    (b : Fin q → α) (hf : ∀ (r : Nat) (Z : Matrix (Fin (r + 1)) (Fin n) α), f (of Z) = .ok (of (Z * W)))
    (hg : ∀ (r : Nat) (Z : Matrix (Fin (r + 1)) (Fin k) α), g (of Z) = .ok (of (Z * B + Matrix.of fun _ j => b j)))
    (r : Nat) (Z : Matrix (Fin (r + 1)) (Fin n) α) :
    (f (of Z) >>= g) = .ok (of (Z * (W * B) + Matrix.of fun _ j => b j)) := by
  rw [hf, except_bind_ok, hg, Matrix.mul_assoc]

end field

/-! ## The steps over the reals -/

/-- **C154** `Equidistance`, for every admissible number of samples. -/
theorem C154_equidistance {k : Nat} (hk : 2 ≤ k) : Affine (equidistance (α := ℝ) (k : Int)) := by
  intro c
  rcases Nat.eq_zero_or_pos c with rfl | hc
  · exact .inl fun r Z => ⟨_, C43_no_columns (Nat.succ_pos r) hk Z⟩
  · obtain ⟨W, hW, -⟩ := C138_equidistance hc hk
    exact AffineAt.of_rows W fun r Z => hW (Nat.succ_pos r) Z

theorem Affine.sgApply {w : Nat} (c : Matrix (Fin 1) (Fin (w + 1)) ℝ) : Affine (Transf.sgApply (of c)) := by
  intro n
  by_cases h : n < w + 1
  · exact .inl fun r Z => ⟨_, C32_too_narrow c Z h⟩
  · obtain ⟨m, rfl⟩ : ∃ m, n = m + w + 1 := ⟨n - (w + 1), by omega⟩
    exact AffineAt.of_rows _ fun r Z => C138_savgol c (Nat.succ_pos r) Z

/-- **C154** `SavitzkyGolay` with any parameters it accepts; if they are unusable, every data set is refused. -/
theorem C154_savgol (l r p d : Nat) :
    Affine (fun Z => (transform (savGol (α := ℝ)) Z ⟨false, (p : Int), (d : Int), (l : Int), (r : Int), none⟩).2) := by
  have run : ∀ Z, (transform (savGol (α := ℝ)) Z ⟨false, (p : Int), (d : Int), (l : Int), (r : Int), none⟩).2 =
      (sgCoefficients (l : Int) (r : Int) (p : Int) (d : Int) >>= fun c => Transf.sgApply c Z) := by
    intro Z
    unfold transform savGol
    cases h : sgCoefficients (α := ℝ) (l : Int) (r : Int) (p : Int) (d : Int) <;> simp [h]
  have hc : (∃ e, sgCoefficients (α := ℝ) (l : Int) (r : Int) (p : Int) (d : Int) = .error e) ∨
      ∃ c : Matrix (Fin 1) (Fin (l + r + 1)) ℝ, sgCoefficients (l : Int) (r : Int) (p : Int) (d : Int) = .ok (of c) := by
    unfold sgCoefficients
    by_cases h1 : 1 ≤ l + r
    · by_cases hd : d ≤ p
      · by_cases hp : p ≤ l + r
        · obtain ⟨c, hc, -⟩ := C31_coefficients h1 hp hd
          exact .inr ⟨_, by rw [hc]; exact create_coef c⟩
        · exact .inl ⟨_, by rw [C31_too_few_points h1 (by omega) hd]; rfl⟩
      · exact .inl ⟨_, by rw [C31_derivative_too_high h1 (by omega)]; rfl⟩
    · obtain ⟨rfl, rfl⟩ : l = 0 ∧ r = 0 := by omega
      refine .inr ⟨Matrix.of fun _ _ => 1, ?_⟩
      have := C31_single_point_violation (p : Int) (d : Int)
      rw [show ((0 : Nat) : Int) = 0 from rfl, this]
      rw [except_bind_ok]
      exact create_coef (N := 1) fun _ => 1
  rcases hc with ⟨e, he⟩ | ⟨c, hc⟩
  · exact (Affine.fail e).congr fun Z => by rw [run, he]; rfl
  · exact (Affine.sgApply c).congr fun Z => by rw [run, hc]; rfl

/-- **C154** (a usual calibration).  Derivative, thinning out, resampling, centring on the calibration data, SIMPLS: the predictions
are affine in the raw spectra. -/
theorem C154_calibration (l r p d : Nat) (start step : Int) {k : Nat} (hk : 2 ≤ k) (D : Mat ℝ) (s : CenterState ℝ)
    (m : SimplsModel ℝ) :
    Affine (fun Z => multiFilter [fun Z => (transform (savGol (α := ℝ)) Z ⟨false, (p : Int), (d : Int), (l : Int), (r : Int), none⟩).2,
      downsample start step, equidistance (k : Int), fun Z => (transform center Z (center.configure D s).1).2] Z >>=
      simplsPredict m) := by
  refine C154_pipeline _ (fun f hf => ?_) (C145_simpls m).2
  simp only [List.mem_cons, List.not_mem_nil, or_false] at hf
  rcases hf with rfl | rfl | rfl | rfl
  · exact C154_savgol l r p d
  · exact C154_downsample start step
  · exact C154_equidistance hk
  · exact (C145_center D s).1

/-- The same with PLS1 of any number of components behind it. -/
theorem C154_calibration_pls1 (l r p d : Nat) (start step : Int) (K : Nat) (m : Pls1Model ℝ) :
    Affine (fun Z => multiFilter [fun Z => (transform (savGol (α := ℝ)) Z ⟨false, (p : Int), (d : Int), (l : Int), (r : Int), none⟩).2,
      downsample start step] Z >>= pls1Predict (K : Int) m) := by
  refine C154_pipeline _ (fun f hf => ?_) (C145_pls1_predict K m)
  simp only [List.mem_cons, List.not_mem_nil, or_false] at hf
  rcases hf with rfl | rfl
  · exact C154_savgol l r p d
  · exact C154_downsample start step

/-! ## What is not affine -/

/-- **C154** (limits).  `RowNorm` is not: a row and its double are mapped to the same, and the zero row to zero. -/
theorem C154_rowNorm_limits (c : Nat) : ¬ AffineAt (c + 2) (quickApply (rowNorm isZeroR)) := by
  intro h
  let e : Matrix (Fin (0 + 1)) (Fin (c + 2)) ℝ := Matrix.of fun _ j => if j = 0 then 1 else 0
  have h0 : quickApply (rowNorm isZeroR) (of (0 : Matrix (Fin (0 + 1)) (Fin (c + 2)) ℝ)) = .ok (of (rowStd 0)) := (rowNorm_fresh _ _ rfl).1
  have h1 : quickApply (rowNorm isZeroR) (of e) = .ok (of (rowStd e)) := (rowNorm_fresh _ _ rfl).1
  have h2 := C145_mixture h 0 e _ _ (-1) 2 (by norm_num) h0 h1
  obtain ⟨C, g1, -, g2⟩ := C107_rowNorm (by omega : 2 ≤ c + 2) e (fun _ => 2) (fun _ => 0) (fun _ => two_ne_zero)
  have g2 := g2 fun _ => two_pos
  have e2 : (-1 : ℝ) • (0 : Matrix (Fin (0 + 1)) (Fin (c + 2)) ℝ) + (2 : ℝ) • e = Matrix.of fun i j => 2 * e i j + 0 := by
    ext i j
    simp
  rw [e2, g2, ok_inj] at h2
  rw [g1, ok_inj] at h1
  have e3 : C = rowStd e := of_injective h1
  have h3 := of_injective h2
  have z : ∀ j, rowStd (0 : Matrix (Fin (0 + 1)) (Fin (c + 2)) ℝ) 0 j = 0 := (C29_rowStd 0 (by omega) 0).2 fun _ _ => rfl
  have z' : ∀ j, rowStd e 0 j = 0 := fun j => by
    have := congrFun (congrFun h3 0) j
    rw [e3, Matrix.add_apply, Matrix.smul_apply, Matrix.smul_apply, z j, smul_zero, smul_eq_mul] at this
    linarith
  have := ((C29_rowStd e (by omega) 0).1 ⟨0, 1, by simp [e]⟩).2
  rw [Finset.sum_congr rfl fun j _ => by rw [z' j]] at this
  simp at this

/-- **C154** (limits).  `Log` is not, whatever its base and offset, not even on the data it accepts. -/
theorem C154_log_limits (s : LogState ℝ) (hb : 0 < s.base) (hb1 : s.base ≠ 1) (c : Nat) :
    ¬ ∃ (c' : Nat) (B : Matrix (Fin (c + 1)) (Fin c') ℝ) (b : Fin c' → ℝ), ∀ (r : Nat) (Z : Matrix (Fin (r + 1)) (Fin (c + 1)) ℝ),
      (∀ i j, 0 < Z i j + s.offset) → (transform logR (of Z) s).2 = .ok (of (Z * B + Matrix.of fun _ j => b j)) := by
  rintro ⟨c', B, b, h⟩
  have val : ∀ x : ℝ, 0 < x → c' = c + 1 ∧ ∀ j : Fin (c + 1), ∀ j' : Fin c', j'.1 = j.1 →
      Real.logb s.base x = (∑ k, (x - s.offset) * B k j') + b j' := by
    intro x hx
    have hp : ∀ (i : Fin (0 + 1)) (j : Fin (c + 1)),
        0 < (Matrix.of fun (_ : Fin (0 + 1)) (_ : Fin (c + 1)) => x - s.offset) i j + s.offset := fun i j => by simpa using hx
    obtain ⟨C, h1, h2, -⟩ := C30_values s (Matrix.of fun (_ : Fin (0 + 1)) (_ : Fin (c + 1)) => x - s.offset) hb hb1 hp
    have h3 := h 0 (Matrix.of fun (_ : Fin (0 + 1)) (_ : Fin (c + 1)) => x - s.offset) hp
    rw [h1, ok_inj] at h3
    have hc : c + 1 = c' := congrArg Mat.cols h3
    subst hc
    refine ⟨rfl, fun j j' hj => ?_⟩
    obtain rfl : j' = j := Fin.ext hj
    have h4 := congrFun (congrFun (of_injective h3) 0) j'
    rw [h2, Matrix.add_apply, Matrix.mul_apply] at h4
    simpa using h4
  obtain ⟨rfl, v1⟩ := val 1 one_pos
  have v1 := v1 0 0 rfl
  have v4 := (val 4 (by norm_num)).2 0 0 rfl
  have v5 := (val (5 / 2) (by norm_num)).2 0 0 rfl
  simp only [← Finset.mul_sum] at v1 v4 v5
  have hl : Real.log s.base ≠ 0 := Real.log_ne_zero_of_pos_of_ne_one hb hb1
  have key : Real.logb s.base (5 / 2) = (Real.logb s.base 1 + Real.logb s.base 4) / 2 := by linear_combination v5 - v1 / 2 - v4 / 2
  rw [Real.logb_one, zero_add, show (4 : ℝ) = 2 ^ (2 : ℕ) by norm_num, Real.logb_pow] at key
  unfold Real.logb at key
  have key : Real.log (5 / 2) = Real.log 2 := by
    field_simp at key
    push_cast at key
    linarith
  have := Real.log_injOn_pos (show (0 : ℝ) < 5 / 2 by norm_num) (show (0 : ℝ) < 2 by norm_num) key
  norm_num at this

/-- Two raw spectra of three points, filtered with a window of two points (differences) and thinned out: the chain gives a result,
so the first case of `AffineAt` does not apply. -/
example : ∃ R, multiFilter [Transf.sgApply (of (Matrix.of fun (_ : Fin 1) (k : Fin 2) => if k = 0 then (-1 : ℝ) else 1)),
    downsample 0 2] (of (!![1, 3, 4; 2, 2, 7] : Matrix (Fin 2) (Fin 3) ℝ)) = .ok R ∧ R.cols = 1 := by
  have h := C32_values (w := 1) (n := 1) (Matrix.of fun (_ : Fin 1) (k : Fin 2) => if k = 0 then (-1 : ℝ) else 1)
    (!![1, 3, 4; 2, 2, 7] : Matrix (Fin 2) (Fin 3) ℝ)
  obtain ⟨R, h1, -, h2, -⟩ := C42_exactly 0 2 (by omega)
    (of (Matrix.of fun (i : Fin 2) (j : Fin (1 + 1)) => ∑ k : Fin (1 + 1), (!![1, 3, 4; 2, 2, 7] : Matrix (Fin 2) (Fin 3) ℝ) i
      ⟨j + k, by omega⟩ * (Matrix.of fun (_ : Fin 1) (k : Fin 2) => if k = 0 then (-1 : ℝ) else 1) 0 k))
  refine ⟨R, ?_, ?_⟩
  · show (Transf.sgApply _ _ >>= fun R => downsample 0 2 R >>= fun R => .ok R) = _
    rw [h, except_bind_ok]
    have h1 : downsample 0 2 _ = _ := h1
    rw [h1]
    rfl
  · have a := h2 0
    have b := h2 1
    simp at a b
    have c0 : ∃ t, t < R.cols ∧ t = 0 := by simpa using a
    obtain ⟨t, ht, rfl⟩ := c0
    by_contra hne
    have : 1 < R.cols := by omega
    have := (h2 2).2 ⟨1, this, rfl⟩
    have h3 : 2 < 2 := this.1
    omega

end Verif.Props
