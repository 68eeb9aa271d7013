import Verif.Transf.FFT
import Verif.Core.MatLemmas
import Verif.Core.ListLemmas
import Mathlib.Analysis.SpecialFunctions.Complex.Log
import Mathlib.Tactic.LinearCombination
import Mathlib.Tactic.FieldSimp
import Mathlib.Tactic.NormNum

/-!
# C36 FFT round trip, C37 row alignment, C72 output modes
-/

namespace Verif.Props
open Verif Mat Transf Finset

section lists

/-- Interleaved pairs enumerate the positions `1, 2, …`. -/
theorem flatten_pairs {β : Type} (f : Nat → β) (K : Nat) :
    ((List.range K).map fun t => [f (2 * t + 1), f (2 * t + 2)]).flatten =
      (List.range (2 * K)).map fun p => f (p + 1) := by
  induction K with
  | zero => rfl
  | succ K ih =>
    rw [List.range_succ, List.map_append, List.flatten_append, ih,
      show 2 * (K + 1) = 2 * K + 1 + 1 from by ring, List.range_succ, List.range_succ]
    simp

theorem zigzag {β : Type} (f : Nat → β) (n : Nat) :
    f 0 :: (((List.range (n / 2)).map fun t => [f (2 * t + 1), f (2 * t + 2)]).flatten ++
      (if (n + 1) % 2 = 0 then [f n] else [])) = (List.range (n + 1)).map f := by
  rw [flatten_pairs, List.range_succ_eq_map, List.map_cons, List.map_map]
  congr 1
  by_cases h : (n + 1) % 2 = 0
  · rw [if_pos h]
    have hn : n = 2 * (n / 2) + 1 := by omega
    conv_rhs => rw [hn, List.range_succ, List.map_append]
    congr 1
    simp only [List.map_cons, List.map_nil, Function.comp]
    congr 2
  · rw [if_neg h, List.append_nil]
    have hn : 2 * (n / 2) = n := by omega
    rw [hn]
    rfl

theorem singles {β : Type} (f : Nat → β) (n : Nat) :
    f 0 :: (((List.range (n / 2)).map fun t => f (t + 1)) ++
      (if (n + 1) % 2 = 0 then [f ((n + 1) / 2)] else [])) = (List.range ((n + 1) / 2 + 1)).map f := by
  rw [List.range_succ_eq_map, List.map_cons, List.map_map]
  congr 1
  by_cases h : (n + 1) % 2 = 0
  · rw [if_pos h]
    have hn : (n + 1) / 2 = n / 2 + 1 := by omega
    rw [hn, List.range_succ, List.map_append]
    rfl
  · rw [if_neg h, List.append_nil]
    have hn : (n + 1) / 2 = n / 2 := by omega
    rw [hn]
    rfl

/-- Mirroring a list around its first element. -/
theorem mirror {β : Type} (f : Nat → β) (g : β → β) (h : Nat) :
    ((((List.range (h + 1)).map f).drop 1).reverse.map g) ++ (List.range (h + 1)).map f =
      (List.range (2 * h + 1)).map fun p => if p < h then g (f (h - p)) else f (p - h) := by
  apply List.ext_getElem
  · simp; omega
  · intro i h1 h2
    simp only [List.length_map, List.length_range] at h2
    rw [List.getElem_map, List.getElem_range, List.getElem_append]
    simp only [List.length_map, List.length_reverse, List.length_drop, List.length_range,
      Nat.add_sub_cancel]
    by_cases hi : i < h
    · rw [dif_pos hi, if_pos hi]
      simp only [List.getElem_map, List.getElem_reverse, List.getElem_drop, List.getElem_range,
        List.length_drop, List.length_map, List.length_range]
      congr 2
      omega
    · rw [dif_neg hi, if_neg hi]
      simp

variable {β : Type} {m n : Nat}

theorem colOf_nat (A : Matrix (Fin m) (Fin (n + 1)) β) (k : Nat) (hk : k < n + 1) :
    colOf (of A) (k : Int) = .ok fun r => A r (Fin.ofNat (n + 1) k) := by
  unfold colOf
  rw [show pyIndex (of A).cols (k : Int) = .ok ⟨k, hk⟩ from pyIndex_natCast k hk]
  show Except.ok _ = _
  congr 1
  funext r
  exact congrArg (A r) (Fin.ext (Nat.mod_eq_of_lt hk).symm)

theorem colOf_last (A : Matrix (Fin m) (Fin (n + 1)) β) :
    colOf (of A) (-1) = .ok fun r => A r (Fin.ofNat (n + 1) n) := by
  unfold colOf
  have : pyIndex (of A).cols (-1) = .ok (⟨n, Nat.lt_succ_self n⟩ : Fin (n + 1)) :=
    pyIndex_neg (n := n + 1) 0 (by omega)
  rw [this]
  show Except.ok _ = _
  congr 1
  funext r
  exact congrArg (A r) (Fin.ext (Nat.mod_eq_of_lt (Nat.lt_succ_self n)).symm)

theorem stack_range (k : Nat) (g : Nat → Fin m → β) :
    stack m ((List.range (k + 1)).map g) = .ok (of (Matrix.of fun i (j : Fin (k + 1)) => g j i)) := by
  unfold stack
  rw [if_neg (by simp), ok_inj]
  refine mk_eq rfl (by simp) fun i j => ?_
  simp [Fin.cast]

end lists

variable {m n : Nat}

/-- The formatted columns of a spectrum `G 0, G 1, …` (frequencies): `Re G 0, Re G 1, Im G 1, …`. -/
def fmt (G : Nat → ℂ) (p : Nat) : ℝ :=
  if p = 0 then (G 0).re else if p % 2 = 1 then (G ((p + 1) / 2)).re else (G (p / 2)).im

/-- Frequency `k` of a shifted spectrum. -/
def freq (S : Matrix (Fin m) (Fin (n + 1)) ℂ) (i : Fin m) (k : Nat) : ℂ :=
  S i (Fin.ofNat (n + 1) ((n + 1) / 2 + k))

theorem internalFormat_of (S : Matrix (Fin m) (Fin (n + 1)) ℂ) :
    internalFormat (of S) = .ok (of (Matrix.of fun i (p : Fin (n + 1)) => fmt (freq S i) p)) := by
  unfold internalFormat
  have hz : colOf (of S) (((of S).cols / 2 : Nat) : Int) = .ok fun r => freq S r 0 :=
    colOf_nat S ((n + 1) / 2) (by omega)
  have hp : (pyRange (((of S).cols / 2 + 1 : Nat) : Int) (of S).cols).mapM (fun i => do
      let c ← colOf (of S) i
      pure [fun r => (c r).re, fun r => (c r).im]) =
      .ok ((List.range (n / 2)).map fun t =>
        [fun r => fmt (freq S r) (2 * t + 1), fun r => fmt (freq S r) (2 * t + 2)]) := by
    have hr : pyRange (((of S).cols / 2 + 1 : Nat) : Int) (of S).cols =
        (List.range (n / 2)).map fun (t : Nat) => (((n + 1) / 2 + 1 + t : Nat) : Int) := by
      unfold pyRange
      have : ((((of S).cols : Nat) : Int) - (((of S).cols / 2 + 1 : Nat) : Int)).toNat = n / 2 := by
        show ((((n + 1 : Nat)) : Int) - (((n + 1) / 2 + 1 : Nat) : Int)).toNat = n / 2
        omega
      rw [this]
      refine List.map_congr_left fun t _ => ?_
      show (((n + 1) / 2 + 1 : Nat) : Int) + (t : Int) = _
      push_cast
      ring
    rw [hr, mapM_map]
    refine mapM_ok fun t ht => ?_
    rw [List.mem_range] at ht
    rw [colOf_nat S ((n + 1) / 2 + 1 + t) (by omega)]
    show Except.ok _ = _
    congr 1
    have h1 : ∀ r, fmt (freq S r) (2 * t + 1) = (freq S r (t + 1)).re := fun r => by
      unfold fmt
      rw [if_neg (by omega), if_pos (by omega)]
      congr 2
      omega
    have h2 : ∀ r, fmt (freq S r) (2 * t + 2) = (freq S r (t + 1)).im := fun r => by
      unfold fmt
      rw [if_neg (by omega), if_neg (by omega)]
      congr 2
      omega
    simp only [h1, h2, freq]
    rw [show (n + 1) / 2 + 1 + t = (n + 1) / 2 + (t + 1) from by omega]
  have hny : evenTail (of S).cols ((colOf (of S) 0).map fun c r => (c r).re) =
      .ok (if (n + 1) % 2 = 0 then [fun r => fmt (freq S r) n] else []) := by
    show evenTail (n + 1) _ = _
    unfold evenTail
    by_cases h : (n + 1) % 2 = 0
    · rw [if_pos h, if_pos h]
      have := colOf_nat S 0 (by omega)
      rw [Int.natCast_zero] at this
      rw [this]
      show Except.ok _ = _
      congr 2
      funext r
      unfold fmt freq
      rw [if_neg (by omega), if_pos (by omega)]
      show (S r _).re = _
      congr 2
      refine Fin.ext ?_
      show 0 % (n + 1) = ((n + 1) / 2 + (n + 1) / 2) % (n + 1)
      rw [show (n + 1) / 2 + (n + 1) / 2 = n + 1 from by omega]
      simp
    · rw [if_neg h, if_neg h]
  rw [hz, except_bind_ok, hp, except_bind_ok, hny, except_bind_ok]
  show stack m ((fun r => fmt (freq S r) 0) :: _) = _
  rw [zigzag fun p r => fmt (freq S r) p, stack_range]

theorem distribute_range {V : Type} (col : Int → Except PyErr V) (c : Nat → V) (z : V) (n : Nat)
    (hc : ∀ k, k < n + 1 → col (k : Int) = .ok (c k)) :
    distribute col (pyRange 1 ((n + 1 : Nat) : Int)) ([c 0], [z]) =
      .ok ((List.range ((n + 1) / 2 + 1)).map fun t => if t = 0 then c 0 else c (2 * t - 1),
        (List.range (n / 2 + 1)).map fun t => if t = 0 then z else c (2 * t)) := by
  have happ : ∀ (l l' : List Int) (acc : List V × List V),
      distribute col (l ++ l') acc = distribute col l acc >>= distribute col l' := by
    intro l l'
    induction l with
    | nil => intro acc; rfl
    | cons i l ih =>
      intro acc
      obtain ⟨a, b⟩ := acc
      rw [List.cons_append, distribute, distribute]
      cases col i with
      | error e => rfl
      | ok v =>
        simp only [except_bind_ok]
        by_cases hi : i % 2 = 1
        · rw [if_pos hi, if_pos hi, ih]
        · rw [if_neg hi, if_neg hi, ih]
  induction n with
  | zero => rfl
  | succ n ih =>
    have hr : pyRange 1 ((n + 1 + 1 : Nat) : Int) = pyRange 1 ((n + 1 : Nat) : Int) ++ [((n + 1 : Nat) : Int)] := by
      unfold pyRange
      have h1 : (((n + 1 + 1 : Nat) : Int) - 1).toNat = n + 1 := by omega
      have h2 : (((n + 1 : Nat) : Int) - 1).toNat = n := by omega
      rw [h1, h2, List.range_succ, List.map_append]
      simp
      ring
    rw [hr, happ, ih fun k hk => hc k (by omega), except_bind_ok, distribute, hc (n + 1) (by omega),
      except_bind_ok]
    by_cases hi : ((n + 1 : Nat) : Int) % 2 = 1
    · rw [if_pos hi]
      show Except.ok _ = _
      congr 1
      have h1 : (n + 1 + 1) / 2 + 1 = (n + 1) / 2 + 1 + 1 := by omega
      have h2 : (n + 1) / 2 = n / 2 := by omega
      rw [h1, h2, List.range_succ (n := n / 2 + 1), List.map_append]
      congr 2
      simp only [List.map_cons, List.map_nil]
      rw [if_neg (by omega)]
      congr 2
      omega
    · rw [if_neg hi]
      show Except.ok _ = _
      congr 1
      have h1 : (n + 1 + 1) / 2 = (n + 1) / 2 := by omega
      have h2 : (n + 1) / 2 + 1 = n / 2 + 1 + 1 := by omega
      rw [h1]
      congr 1
      rw [h2, List.range_succ (n := n / 2 + 1), List.map_append]
      congr 1
      simp only [List.map_cons, List.map_nil]
      rw [if_neg (by omega)]
      congr 2
      omega

/-- The real part at position `p` of the restored spectrum. -/
def unRe (c : Nat → ℝ) (h p : Nat) : ℝ :=
  let k := if p < h then h - p else p - h
  if k = 0 then c 0 else c (2 * k - 1)

/-- The imaginary part at position `p` of the restored spectrum with `N` columns. -/
def unIm (c : Nat → ℝ) (N h p : Nat) : ℝ :=
  let im := fun k => if k = 0 then 0 else if 2 * k < N then c (2 * k) else 0
  if p < h then -(im (h - p)) else im (p - h)

theorem dropLast_range {β : Type} (f : Nat → β) (k : Nat) :
    ((List.range (k + 1)).map f).dropLast = (List.range k).map f := by
  rw [List.range_succ, List.map_append, List.map_cons, List.map_nil, List.dropLast_concat]

theorem internalUnformat_of (A : Matrix (Fin m) (Fin (n + 1)) ℝ) :
    internalUnformat (of A) = .ok (of (Matrix.of fun i (p : Fin (n + 1)) =>
      (⟨unRe (fun k => A i (Fin.ofNat (n + 1) k)) ((n + 1) / 2) p,
        unIm (fun k => A i (Fin.ofNat (n + 1) k)) (n + 1) ((n + 1) / 2) p⟩ : ℂ))) := by
  set c : Nat → Fin m → ℝ := fun k r => A r (Fin.ofNat (n + 1) k) with hc
  set z : Fin m → ℝ := fun _ => 0 with hz
  have h0 : colOf (of A) 0 = .ok (c 0) := colOf_nat A 0 (by omega)
  have hd := distribute_range (colOf (of A)) c z n fun k hk => colOf_nat A k hk
  set h := (n + 1) / 2 with hh
  set imf : Nat → Fin m → ℝ := fun k r => if k = 0 then 0 else if 2 * k < n + 1 then c (2 * k) r else 0 with himf
  set ref : Nat → Fin m → ℝ := fun k => if k = 0 then c 0 else c (2 * k - 1) with href
  have him : (if (n + 1) % 2 = 0 then
      ((List.range (n / 2 + 1)).map fun t => if t = 0 then z else c (2 * t)) ++ [z]
      else (List.range (n / 2 + 1)).map fun t => if t = 0 then z else c (2 * t)) =
      (List.range (h + 1)).map imf := by
    have hlow : ((List.range (n / 2 + 1)).map fun t => if t = 0 then z else c (2 * t)) =
        (List.range (n / 2 + 1)).map imf := by
      refine List.map_congr_left fun t ht => ?_
      rw [List.mem_range] at ht
      funext r
      by_cases ht0 : t = 0
      · simp [himf, ht0, hz]
      · simp only [himf, if_neg ht0]
        rw [if_pos (by omega)]
    by_cases hp : (n + 1) % 2 = 0
    · rw [if_pos hp, hlow]
      have : h + 1 = n / 2 + 1 + 1 := by omega
      rw [this, List.range_succ (n := n / 2 + 1), List.map_append]
      congr 1
      simp only [List.map_cons, List.map_nil]
      congr 1
      funext r
      simp only [himf, hz]
      rw [if_neg (by omega), if_neg (by omega)]
    · rw [if_neg hp, hlow]
      congr 2
      omega
  have hR : (if (n + 1) % 2 = 0 then
      (((((List.range (h + 1)).map ref).drop 1).reverse ++ (List.range (h + 1)).map ref)).dropLast
      else ((((List.range (h + 1)).map ref).drop 1).reverse ++ (List.range (h + 1)).map ref)) =
      (List.range (n + 1)).map fun p => if p < h then ref (h - p) else ref (p - h) := by
    have := mirror ref id h
    rw [List.map_id] at this
    rw [this]
    by_cases hp : (n + 1) % 2 = 0
    · rw [if_pos hp, dropLast_range]
      rw [show 2 * h = n + 1 from by omega]
      rfl
    · rw [if_neg hp]
      rw [show 2 * h + 1 = n + 1 from by omega]
      rfl
  have hI : (if (n + 1) % 2 = 0 then
      ((((((List.range (h + 1)).map imf).drop 1).reverse.map fun c r => -(c r)) ++ (List.range (h + 1)).map imf)).dropLast
      else (((((List.range (h + 1)).map imf).drop 1).reverse.map fun c r => -(c r)) ++ (List.range (h + 1)).map imf)) =
      (List.range (n + 1)).map fun p => if p < h then (fun r => -(imf (h - p) r)) else imf (p - h) := by
    have := mirror imf (fun c r => -(c r)) h
    rw [this]
    by_cases hp : (n + 1) % 2 = 0
    · rw [if_pos hp, dropLast_range]
      rw [show 2 * h = n + 1 from by omega]
    · rw [if_neg hp]
      rw [show 2 * h + 1 = n + 1 from by omega]
  unfold internalUnformat
  rw [h0, except_bind_ok]
  have hd' : distribute (colOf (of A)) (pyRange 1 (of A).cols) ([c 0], [fun _ => 0]) = _ := hd
  rw [hd', except_bind_ok]
  show recompose m (decide ((n + 1) % 2 = 0)) _ _ = _
  unfold recompose
  simp only [decide_eq_true_eq]
  rw [show (if (n + 1) % 2 = 0 then
      ((List.range (n / 2 + 1)).map fun t => if t = 0 then z else c (2 * t)) ++ [fun _ => 0]
      else (List.range (n / 2 + 1)).map fun t => if t = 0 then z else c (2 * t)) =
      (List.range (h + 1)).map imf from him, hR, hI, stack_range, stack_range, except_bind_ok, except_bind_ok]
  refine (dif_pos ⟨rfl, rfl⟩).trans ?_
  show Except.ok _ = _
  congr 1
  refine mk_congr fun i p => ?_
  simp only [Matrix.of_apply, Fin.cast_refl, id]
  congr 1
  · simp only [unRe, href]
    by_cases hp : (p : Nat) < h
    · rw [if_pos hp, if_pos hp]
      split <;> rfl
    · rw [if_neg hp, if_neg hp]
      split <;> rfl
  · simp only [unIm, himf]
    by_cases hp : (p : Nat) < h
    · rw [if_pos hp, if_pos hp]
    · rw [if_neg hp, if_neg hp]

/-! ## The discrete Fourier transformation -/

theorem unitRoot_add (N : Nat) (s t : Int) : unitRoot N (s + t) = unitRoot N s * unitRoot N t := by
  unfold unitRoot
  rw [← Complex.exp_add]
  congr 1
  push_cast
  ring

theorem unitRoot_zero (N : Nat) : unitRoot N 0 = 1 := by simp [unitRoot]

theorem unitRoot_mul_self {N : Nat} (hN : N ≠ 0) (t : Int) : unitRoot N (N * t) = 1 := by
  unfold unitRoot
  rw [Complex.exp_eq_one_iff]
  refine ⟨t, ?_⟩
  have : (N : ℂ) ≠ 0 := by exact_mod_cast hN
  push_cast
  field_simp

theorem unitRoot_conj (N : Nat) (t : Int) : (starRingEnd ℂ) (unitRoot N t) = unitRoot N (-t) := by
  unfold unitRoot
  rw [← Complex.exp_conj]
  congr 1
  rw [map_div₀, map_mul, map_mul, map_mul, Complex.conj_I, Complex.conj_ofReal, Complex.conj_ofNat]
  simp

theorem unitRoot_pow (N : Nat) (t : Int) (k : Nat) : unitRoot N t ^ k = unitRoot N (k * t) := by
  induction k with
  | zero => simp [unitRoot_zero]
  | succ k ih =>
    rw [pow_succ, ih, ← unitRoot_add]
    congr 1
    push_cast
    ring

theorem unitRoot_eq_one {N : Nat} (hN : N ≠ 0) (t : Int) (h : unitRoot N t = 1) : ∃ u : Int, t = N * u := by
  unfold unitRoot at h
  rw [Complex.exp_eq_one_iff] at h
  obtain ⟨u, hu⟩ := h
  refine ⟨u, ?_⟩
  have hN' : (N : ℂ) ≠ 0 := by exact_mod_cast hN
  have hpi : (2 * Real.pi * Complex.I : ℂ) ≠ 0 := Complex.two_pi_I_ne_zero
  have : (t : ℂ) = N * u := by
    field_simp at hu
    have h2 : (2 * Real.pi * Complex.I : ℂ) * t = (2 * Real.pi * Complex.I : ℂ) * (N * u) := by
      linear_combination (2 * Real.pi * Complex.I : ℂ) * hu
    exact mul_left_cancel₀ hpi h2
  exact_mod_cast this

/-- Orthogonality of the roots of unity. -/
theorem unitRoot_sum {N : Nat} (hN : N ≠ 0) (t : Int) (ht : |t| < N) :
    ∑ k : Fin N, unitRoot N ((k : Nat) * t) = if t = 0 then (N : ℂ) else 0 := by
  by_cases h0 : t = 0
  · rw [if_pos h0]
    subst h0
    simp [unitRoot_zero]
  · rw [if_neg h0]
    have hne : unitRoot N t ≠ 1 := by
      intro h
      obtain ⟨u, hu⟩ := unitRoot_eq_one hN t h
      have hu0 : u ≠ 0 := by rintro rfl; exact h0 (by simpa using hu)
      have : (N : Int) ≤ |t| := by
        rw [hu, abs_mul]
        have h1 : 1 ≤ |u| := Int.one_le_abs hu0
        have h2 : |(N : Int)| = N := abs_of_nonneg (by positivity)
        rw [h2]
        nlinarith
      omega
    have hs : ∑ k : Fin N, unitRoot N ((k : Nat) * t) = ∑ k ∈ Finset.range N, unitRoot N t ^ k := by
      rw [Finset.sum_range]
      exact Finset.sum_congr rfl fun k _ => (unitRoot_pow N t k).symm
    rw [hs, geom_sum_eq hne, unitRoot_pow, unitRoot_mul_self hN, sub_self, zero_div]

/-- Specification: frequency `k` of the (possibly orthonormal) discrete Fourier transformation. -/
noncomputable def dft (ortho : Bool) (x : Fin (n + 1) → ℝ) (k : Nat) : ℂ :=
  (if ortho then ((1 / Real.sqrt (n + 1 : ℕ) : ℝ) : ℂ) else 1) *
    ∑ j : Fin (n + 1), (x j : ℂ) * Complex.exp (-(2 * Real.pi * Complex.I * j * k / (n + 1 : ℕ)))

theorem dft_eq (ortho : Bool) (x : Fin (n + 1) → ℝ) (k : Nat) :
    dft ortho x k = fwdScale ortho (n + 1) *
      ∑ j : Fin (n + 1), (x j : ℂ) * unitRoot (n + 1) (-((j : Nat) * k : Int)) := by
  unfold dft fwdScale unitRoot
  congr 1
  refine Finset.sum_congr rfl fun j _ => ?_
  congr 2
  push_cast
  ring

theorem fwdScale_conj (ortho : Bool) (N : Nat) : (starRingEnd ℂ) (fwdScale ortho N) = fwdScale ortho N := by
  unfold fwdScale
  cases ortho
  · simp
  · simp only [if_true]
    exact Complex.conj_ofReal _

theorem scales (ortho : Bool) {N : Nat} (hN : N ≠ 0) : bwdScale ortho N * fwdScale ortho N * N = 1 := by
  have hN' : (N : ℂ) ≠ 0 := by exact_mod_cast hN
  unfold bwdScale fwdScale
  cases ortho
  · simp [hN']
  · simp only [if_true]
    have hpos : (0 : ℝ) < N := by exact_mod_cast Nat.pos_of_ne_zero hN
    have : (1 / Real.sqrt N) * (1 / Real.sqrt N) * (N : ℝ) = 1 := by
      have h := Real.mul_self_sqrt hpos.le
      have hs : Real.sqrt N ≠ 0 := (Real.sqrt_pos.2 hpos).ne'
      field_simp
      linarith
    exact_mod_cast this

/-- The spectrum of real data is conjugate symmetric. -/
theorem dft_symm (ortho : Bool) (x : Fin (n + 1) → ℝ) (k : Nat) (hk : k ≤ n + 1) :
    dft ortho x (n + 1 - k) = (starRingEnd ℂ) (dft ortho x k) := by
  rw [dft_eq, dft_eq, map_mul, fwdScale_conj, map_sum]
  congr 1
  refine Finset.sum_congr rfl fun j _ => ?_
  rw [map_mul, Complex.conj_ofReal, unitRoot_conj]
  congr 1
  have h1 : (-((j : Nat) * ((n + 1 - k : Nat)) : Int)) = ((n + 1 : Nat) : Int) * (-(j : Nat)) + (-(-((j : Nat) * k : Int))) := by
    rw [Nat.cast_sub hk]
    push_cast
    ring
  rw [h1, unitRoot_add, unitRoot_mul_self (by omega), one_mul]

theorem dft_zero_im (ortho : Bool) (x : Fin (n + 1) → ℝ) : (dft ortho x 0).im = 0 := by
  have h := dft_symm ortho x 0 (by omega)
  have h2 : dft ortho x (n + 1 - 0) = dft ortho x 0 := by
    rw [dft_eq, dft_eq]
    congr 1
    refine Finset.sum_congr rfl fun j _ => ?_
    congr 1
    have : (-((j : Nat) * ((n + 1 - 0 : Nat)) : Int)) = ((n + 1 : Nat) : Int) * (-(j : Nat)) + (-((j : Nat) * ((0 : Nat)) : Int)) := by
      push_cast
      ring
    rw [this, unitRoot_add, unitRoot_mul_self (by omega), one_mul]
  rw [h2] at h
  exact Complex.conj_eq_iff_im.1 h.symm

theorem dft_nyquist_im (ortho : Bool) (x : Fin (n + 1) → ℝ) (k : Nat) (hk : 2 * k = n + 1) :
    (dft ortho x k).im = 0 := by
  have h := dft_symm ortho x k (by omega)
  rw [show n + 1 - k = k from by omega] at h
  exact Complex.conj_eq_iff_im.1 h.symm

/-- Fourier inversion. -/
theorem dft_inversion (ortho : Bool) (x : Fin (n + 1) → ℝ) (l : Fin (n + 1)) :
    bwdScale ortho (n + 1) * ∑ k : Fin (n + 1), dft ortho x k * unitRoot (n + 1) ((k : Nat) * (l : Nat) : Int) =
      (x l : ℂ) := by
  have h1 : ∀ k : Fin (n + 1), dft ortho x k * unitRoot (n + 1) ((k : Nat) * (l : Nat) : Int) =
      ∑ j : Fin (n + 1), fwdScale ortho (n + 1) * (x j : ℂ) *
        unitRoot (n + 1) ((k : Nat) * ((l : Nat) - (j : Nat)) : Int) := by
    intro k
    rw [dft_eq, Finset.mul_sum, Finset.sum_mul]
    refine Finset.sum_congr rfl fun j _ => ?_
    rw [show (((k : Nat) : Int) * (((l : Nat) : Int) - ((j : Nat) : Int))) =
      (-((j : Nat) * (k : Nat) : Int)) + ((k : Nat) * (l : Nat) : Int) from by ring, unitRoot_add]
    ring
  rw [Finset.sum_congr rfl fun k _ => h1 k, Finset.sum_comm]
  have h2 : ∀ j : Fin (n + 1), ∑ k : Fin (n + 1), fwdScale ortho (n + 1) * (x j : ℂ) *
        unitRoot (n + 1) ((k : Nat) * ((l : Nat) - (j : Nat)) : Int) =
      if j = l then fwdScale ortho (n + 1) * (x j : ℂ) * (n + 1 : ℕ) else 0 := by
    intro j
    rw [← Finset.mul_sum, unitRoot_sum (by omega) _ (by rw [abs_lt]; omega)]
    by_cases hj : j = l
    · rw [if_pos (by rw [hj]; ring), if_pos hj]
    · rw [if_neg, if_neg hj, mul_zero]
      intro h
      exact hj (Fin.ext (by omega))
  rw [Finset.sum_congr rfl fun j _ => h2 j, Finset.sum_ite_eq' Finset.univ l, if_pos (Finset.mem_univ _)]
  linear_combination (x l : ℂ) * scales ortho (N := n + 1) (by omega)

/-! ## The transformation -/

/-- The row of the input that row `i` of an output with `m` rows is computed from. -/
def srcRow (i : Fin m) : Fin m := ⟨(i + (m - m / 2)) % m, Nat.mod_lt _ (by have := i.2; omega)⟩

theorem fftFwd_of (ortho : Bool) (A : Matrix (Fin m) (Fin (n + 1)) ℝ) :
    fftFwd ortho (of A) = .ok (of (Matrix.of fun i (p : Fin (n + 1)) =>
      dft ortho (A (srcRow i)) ((p + ((n + 1) - (n + 1) / 2)) % (n + 1)))) := by
  unfold fftFwd npFft
  rw [if_neg (show ¬ (of A).cols = 0 from Nat.succ_ne_zero n)]
  show Except.ok _ = _
  congr 1
  refine mk_congr fun i p => ?_
  show fwdScale ortho (n + 1) * sumFin _ = dft ortho (A (srcRow i)) _
  rw [sumFin_eq, dft_eq]
  rfl

/-- What the transformation works on: the formatted spectrum of the source row. -/
theorem formatted_of (ortho : Bool) (A : Matrix (Fin m) (Fin (n + 1)) ℝ) :
    (fftFwd ortho (of A) >>= internalFormat) = .ok (of (Matrix.of fun i (p : Fin (n + 1)) =>
      fmt (dft ortho (A (srcRow i))) p)) := by
  rw [fftFwd_of, except_bind_ok, internalFormat_of, ok_inj]
  refine mk_congr fun i p => ?_
  rw [Matrix.of_apply, Matrix.of_apply]
  have hf : ∀ k, k ≤ n → freq (Matrix.of fun i (p : Fin (n + 1)) =>
      dft ortho (A (srcRow i)) ((p + ((n + 1) - (n + 1) / 2)) % (n + 1))) i k = dft ortho (A (srcRow i)) k := by
    intro k hk
    unfold freq
    rw [Matrix.of_apply]
    congr 1
    show (((n + 1) / 2 + k) % (n + 1) + (n + 1 - (n + 1) / 2)) % (n + 1) = k
    rw [Nat.mod_add_mod, show (n + 1) / 2 + k + (n + 1 - (n + 1) / 2) = k + (n + 1) from by omega,
      Nat.add_mod_right, Nat.mod_eq_of_lt (by omega)]
  have hp := p.2
  unfold fmt
  split
  · rw [hf 0 (by omega)]
  · split
    · rw [hf _ (by omega)]
    · rw [hf _ (by omega)]

/-- Restoring the spectrum and transforming back. -/
theorem unformatted_of (ortho : Bool) (A : Matrix (Fin m) (Fin (n + 1)) ℝ) :
    (internalUnformat (of (Matrix.of fun i (p : Fin (n + 1)) => fmt (dft ortho (A (srcRow i))) p)) >>=
      fftBwd ortho) = .ok (of (Matrix.of fun i j => (A i j : ℂ))) := by
  rw [internalUnformat_of, except_bind_ok]
  have hS : (Matrix.of fun (i : Fin m) (p : Fin (n + 1)) =>
      (⟨unRe (fun k => (Matrix.of fun i (p : Fin (n + 1)) => fmt (dft ortho (A (srcRow i))) p) i (Fin.ofNat (n + 1) k)) ((n + 1) / 2) p,
        unIm (fun k => (Matrix.of fun i (p : Fin (n + 1)) => fmt (dft ortho (A (srcRow i))) p) i (Fin.ofNat (n + 1) k)) (n + 1) ((n + 1) / 2) p⟩ : ℂ)) =
      Matrix.of fun (i : Fin m) (p : Fin (n + 1)) =>
        dft ortho (A (srcRow i)) ((p + ((n + 1) - (n + 1) / 2)) % (n + 1)) := by
    funext i p
    rw [Matrix.of_apply, Matrix.of_apply]
    set G := dft ortho (A (srcRow i)) with hG
    have hc : ∀ k, k < n + 1 → (Matrix.of fun i (p : Fin (n + 1)) => fmt (dft ortho (A (srcRow i))) p) i
        (Fin.ofNat (n + 1) k) = fmt G k := by
      intro k hk
      rw [Matrix.of_apply]
      show fmt G (k % (n + 1)) = _
      rw [Nat.mod_eq_of_lt hk]
    have hre : ∀ k, k ≤ (n + 1) / 2 → k ≠ 0 → fmt G (2 * k - 1) = (G k).re := by
      intro k hk h0
      unfold fmt
      rw [if_neg (by omega), if_pos (by omega)]
      congr 2
      omega
    have him : ∀ k, k ≠ 0 → fmt G (2 * k) = (G k).im := by
      intro k h0
      unfold fmt
      rw [if_neg (by omega), if_neg (by omega)]
      congr 2
      omega
    have hp := p.2
    by_cases hlt : (p : Nat) < (n + 1) / 2
    · have e : ((p : Nat) + (n + 1 - (n + 1) / 2)) % (n + 1) = n + 1 - ((n + 1) / 2 - p) := by
        rw [Nat.mod_eq_of_lt (by omega)]
        omega
      rw [e, hG, dft_symm ortho _ _ (by omega), ← hG]
      apply Complex.ext
      · simp only [unRe, if_pos hlt]
        rw [if_neg (by omega), hc _ (by omega), hre _ (by omega) (by omega), Complex.conj_re]
      · simp only [unIm, if_pos hlt]
        rw [if_neg (by omega), Complex.conj_im]
        by_cases h2 : 2 * ((n + 1) / 2 - p) < n + 1
        · rw [if_pos h2, hc _ h2, him _ (by omega)]
        · rw [if_neg h2, hG, dft_nyquist_im ortho _ _ (by omega)]
    · have e : ((p : Nat) + (n + 1 - (n + 1) / 2)) % (n + 1) = p - (n + 1) / 2 := by
        rw [show (p : Nat) + (n + 1 - (n + 1) / 2) = (p - (n + 1) / 2) + (n + 1) from by omega,
          Nat.add_mod_right, Nat.mod_eq_of_lt (by omega)]
      rw [e]
      apply Complex.ext
      · simp only [unRe, if_neg hlt]
        by_cases h0 : (p : Nat) - (n + 1) / 2 = 0
        · rw [if_pos h0, hc 0 (by omega), h0]
          rfl
        · rw [if_neg h0, hc _ (by omega), hre _ (by omega) h0]
      · simp only [unIm, if_neg hlt]
        by_cases h0 : (p : Nat) - (n + 1) / 2 = 0
        · rw [if_pos h0, h0, hG, dft_zero_im]
        · rw [if_neg h0, if_pos (by omega), hc _ (by omega), him _ h0]
  rw [hS]
  unfold fftBwd npIfft
  rw [if_neg (show ¬ (ifftshift (of _)).cols = 0 from Nat.succ_ne_zero n), ok_inj]
  refine mk_congr fun (i : Fin m) (l : Fin (n + 1)) => ?_
  show bwdScale ortho (n + 1) * sumFin (fun j : Fin (n + 1) =>
    dft ortho (A (srcRow (ifftIdx i))) (((ifftIdx j : Fin (n + 1)) + ((n + 1) - (n + 1) / 2)) % (n + 1)) *
      unitRoot (n + 1) ((j : Nat) * (l : Nat) : Int)) = (A i l : ℂ)
  rw [sumFin_eq]
  have hrow : srcRow (ifftIdx i) = i := by
    refine Fin.ext ?_
    have hi := i.2
    show ((i.1 + m / 2) % m + (m - m / 2)) % m = i.1
    rw [Nat.mod_add_mod, show i.1 + m / 2 + (m - m / 2) = i.1 + m from by omega, Nat.add_mod_right,
      Nat.mod_eq_of_lt hi]
  have hcol : ∀ j : Fin (n + 1), ((ifftIdx j : Fin (n + 1)) + ((n + 1) - (n + 1) / 2)) % (n + 1) = (j : Nat) := by
    intro j
    have hj := j.2
    show ((j.1 + (n + 1) / 2) % (n + 1) + (n + 1 - (n + 1) / 2)) % (n + 1) = j.1
    rw [Nat.mod_add_mod, show j.1 + (n + 1) / 2 + (n + 1 - (n + 1) / 2) = j.1 + (n + 1) from by omega,
      Nat.add_mod_right, Nat.mod_eq_of_lt hj]
  rw [hrow]
  simp only [hcol]
  exact dft_inversion ortho (A i) l

/-! ## Output modes -/

theorem evenTail_of {β : Type} (x : Except PyErr β) (v : β) (N : Nat) (h : N % 2 = 0 → x = .ok v) :
    evenTail N x = .ok (if N % 2 = 0 then [v] else []) := by
  unfold evenTail
  by_cases hN : N % 2 = 0
  · rw [if_pos hN, if_pos hN, h hN]; rfl
  · rw [if_neg hN, if_neg hN]

/-- Frequency `k` of a formatted spectrum. -/
noncomputable def cplx (a : Fin (n + 1) → ℝ) (k : Nat) : ℂ :=
  if k = 0 then ⟨a 0, 0⟩
  else if 2 * k < n + 1 then ⟨a (Fin.ofNat (n + 1) (2 * k - 1)), a (Fin.ofNat (n + 1) (2 * k))⟩
  else ⟨a (Fin.ofNat (n + 1) n), 0⟩

theorem pairCols_of {β : Type} (A : Matrix (Fin m) (Fin (n + 1)) ℝ) (f : (Fin m → ℝ) → (Fin m → ℝ) → β)
    (g : Nat → β)
    (h : ∀ t, t < n / 2 → f (fun r => A r (Fin.ofNat (n + 1) (2 * t + 1))) (fun r => A r (Fin.ofNat (n + 1) (2 * t + 2))) = g t) :
    (do let is ← pyRangeStep 2 (of A).cols 2
        is.mapM fun i => do
          let a ← colOf (of A) (i - 1)
          let b ← colOf (of A) i
          pure (f a b)) = .ok ((List.range (n / 2)).map g) := by
  have hr : pyRangeStep 2 (of A).cols 2 = _ := pyRangeStep_even (n + 1)
  rw [hr, except_bind_ok, mapM_map]
  refine mapM_ok fun t ht => ?_
  rw [List.mem_range, Nat.add_sub_cancel] at ht
  have h1 : colOf (of A) (((2 * t + 2 : Nat) : Int) - 1) = .ok fun r => A r (Fin.ofNat (n + 1) (2 * t + 1)) := by
    rw [show ((2 * t + 2 : Nat) : Int) - 1 = ((2 * t + 1 : Nat) : Int) from by push_cast; ring]
    exact colOf_nat A _ (by omega)
  rw [h1, colOf_nat A _ (by omega), except_bind_ok, except_bind_ok, h t ht]
  rfl

theorem complexColumns_of (A : Matrix (Fin m) (Fin (n + 1)) ℝ) :
    complexColumns (of A) = .ok (of (Matrix.of fun i (k : Fin ((n + 1) / 2 + 1)) => cplx (A i) k)) := by
  unfold complexColumns
  have h0 : colOf (of A) 0 = .ok fun r => A r 0 := colOf_nat A 0 (by omega)
  have hp := pairCols_of A (fun a b r => (⟨a r, b r⟩ : ℂ)) (fun t r => cplx (A r) (t + 1)) fun t ht => by
    funext r
    unfold cplx
    rw [if_neg (by omega), if_pos (by omega)]
    rfl
  have ht : evenTail (of A).cols ((colOf (of A) (-1)).map fun c r => (⟨c r, 0⟩ : ℂ)) = _ :=
    evenTail_of _ (fun r => cplx (A r) ((n + 1) / 2)) (n + 1) fun hN => by
      rw [colOf_last]
      show Except.ok _ = _
      congr 1
      funext r
      unfold cplx
      rw [if_neg (by omega), if_neg (by omega)]
  rw [h0, except_bind_ok, ← bind_assoc, hp, except_bind_ok, ht, except_bind_ok]
  show stack m ((fun r => cplx (A r) 0) :: _) = _
  rw [singles fun k r => cplx (A r) k, stack_range]

theorem formatReal_of (A : Matrix (Fin m) (Fin (n + 1)) ℝ) :
    formatReal (of A) = .ok (of (Matrix.of fun i (k : Fin ((n + 1) / 2 + 1)) =>
      A i (Fin.ofNat (n + 1) (2 * k - 1)))) := by
  unfold formatReal
  have h0 : colOf (of A) 0 = .ok fun r => A r 0 := colOf_nat A 0 (by omega)
  have hr : pyRangeStep 1 (of A).cols 2 = _ := pyRangeStep_odd (n + 1)
  have hp : ((List.range ((n + 1) / 2)).map fun (t : Nat) => ((2 * t + 1 : Nat) : Int)).mapM (colOf (of A)) =
      .ok ((List.range ((n + 1) / 2)).map fun t r => A r (Fin.ofNat (n + 1) (2 * (t + 1) - 1))) := by
    rw [mapM_map]
    refine mapM_ok fun t ht => ?_
    rw [List.mem_range] at ht
    rw [colOf_nat A _ (by omega)]
    rfl
  rw [h0, except_bind_ok, hr, except_bind_ok, hp, except_bind_ok]
  rw [← stack_range ((n + 1) / 2) fun k r => A r (Fin.ofNat (n + 1) (2 * k - 1)), List.range_succ_eq_map,
    List.map_cons, List.map_map]
  rfl

theorem formatImag_of (A : Matrix (Fin m) (Fin (n + 1)) ℝ) :
    formatImag (of A) = .ok (of (Matrix.of fun i (k : Fin ((n + 1) / 2 + 1)) => (cplx (A i) k).im)) := by
  unfold formatImag
  have h0 : colOf (of A) 0 = .ok fun r => A r 0 := colOf_nat A 0 (by omega)
  have hr : pyRangeStep 2 (of A).cols 2 = _ := pyRangeStep_even (n + 1)
  have hp : ((List.range ((n + 1 - 1) / 2)).map fun (t : Nat) => ((2 * t + 2 : Nat) : Int)).mapM (colOf (of A)) =
      .ok ((List.range (n / 2)).map fun t r => (cplx (A r) (t + 1)).im) := by
    rw [mapM_map]
    refine mapM_ok fun t ht => ?_
    rw [List.mem_range, Nat.add_sub_cancel] at ht
    rw [colOf_nat A _ (by omega)]
    congr 1
    funext r
    unfold cplx
    rw [if_neg (by omega), if_pos (by omega)]
    rfl
  rw [h0, except_bind_ok, hr, except_bind_ok, hp, except_bind_ok]
  have ht : (if (of A).cols % 2 = 0 then [fun _ => (0 : ℝ)] else []) =
      if (n + 1) % 2 = 0 then [fun r => (cplx (A r) ((n + 1) / 2)).im] else [] := by
    show (if (n + 1) % 2 = 0 then _ else _) = _
    by_cases h : (n + 1) % 2 = 0
    · rw [if_pos h, if_pos h]
      congr 1
      funext r
      unfold cplx
      rw [if_neg (by omega), if_neg (by omega)]
    · rw [if_neg h, if_neg h]
  rw [ht]
  show stack m ((fun r => (cplx (A r) 0).im) :: _) = _
  rw [singles fun k r => (cplx (A r) k).im, stack_range]

/-- Amplitude/angle pairs. -/
noncomputable def aa (a : Fin (n + 1) → ℝ) (p : Nat) : ℝ :=
  if p = 0 then a 0
  else if p % 2 = 1 then
    (if p < n then ‖cplx a ((p + 1) / 2)‖ else a (Fin.ofNat (n + 1) p))
  else (cplx a (p / 2)).arg

/-- … and back. -/
noncomputable def unaa (a : Fin (n + 1) → ℝ) (p : Nat) : ℝ :=
  if p = 0 then a 0
  else if p % 2 = 1 then
    (if p < n then a (Fin.ofNat (n + 1) p) * Real.cos (a (Fin.ofNat (n + 1) (p + 1))) else a (Fin.ofNat (n + 1) p))
  else a (Fin.ofNat (n + 1) (p - 1)) * Real.sin (a (Fin.ofNat (n + 1) p))

theorem formatAmplAngle_of (A : Matrix (Fin m) (Fin (n + 1)) ℝ) :
    formatAmplAngle (of A) = .ok (of (Matrix.of fun i (p : Fin (n + 1)) => aa (A i) p)) := by
  unfold formatAmplAngle
  have h0 : colOf (of A) 0 = .ok fun r => A r 0 := colOf_nat A 0 (by omega)
  have hp := pairCols_of A (fun a b => [fun r => ‖(⟨a r, b r⟩ : ℂ)‖, fun r => Complex.arg ⟨a r, b r⟩])
    (fun t => [fun r => aa (A r) (2 * t + 1), fun r => aa (A r) (2 * t + 2)]) fun t ht => by
    have hc : ∀ r, cplx (A r) (t + 1) = ⟨A r (Fin.ofNat (n + 1) (2 * t + 1)), A r (Fin.ofNat (n + 1) (2 * t + 2))⟩ := by
      intro r
      unfold cplx
      rw [if_neg (by omega), if_pos (by omega)]
      rfl
    have h1 : ∀ r, aa (A r) (2 * t + 1) = ‖cplx (A r) (t + 1)‖ := fun r => by
      unfold aa
      rw [if_neg (by omega), if_pos (by omega), if_pos (by omega)]
      congr 2
      omega
    have h2 : ∀ r, aa (A r) (2 * t + 2) = (cplx (A r) (t + 1)).arg := fun r => by
      unfold aa
      rw [if_neg (by omega), if_neg (by omega)]
      congr 2
      omega
    simp only [h1, h2, hc]
  have ht : evenTail (of A).cols (colOf (of A) (-1)) = _ :=
    evenTail_of _ (fun r => aa (A r) n) (n + 1) fun hN => by
      rw [colOf_last]
      congr 1
      funext r
      unfold aa
      rw [if_neg (by omega), if_pos (by omega), if_neg (by omega)]
  rw [h0, except_bind_ok, ← bind_assoc, hp, except_bind_ok, ht, except_bind_ok]
  show stack m ((fun r => aa (A r) 0) :: _) = _
  rw [zigzag fun p r => aa (A r) p, stack_range]

theorem unformatAmplAngle_of (A : Matrix (Fin m) (Fin (n + 1)) ℝ) :
    unformatAmplAngle (of A) = .ok (of (Matrix.of fun i (p : Fin (n + 1)) => unaa (A i) p)) := by
  unfold unformatAmplAngle
  have h0 : colOf (of A) 0 = .ok fun r => A r 0 := colOf_nat A 0 (by omega)
  have hp := pairCols_of A (fun ampl angle =>
      [fun r => ((ampl r : ℂ) * (Real.cos (angle r) + Complex.I * Real.sin (angle r))).re,
       fun r => ((ampl r : ℂ) * (Real.cos (angle r) + Complex.I * Real.sin (angle r))).im])
    (fun t => [fun r => unaa (A r) (2 * t + 1), fun r => unaa (A r) (2 * t + 2)]) fun t ht => by
    have h1 : ∀ r, unaa (A r) (2 * t + 1) = A r (Fin.ofNat (n + 1) (2 * t + 1)) * Real.cos (A r (Fin.ofNat (n + 1) (2 * t + 2))) := fun r => by
      unfold unaa
      rw [if_neg (by omega), if_pos (by omega), if_pos (by omega)]
    have h2 : ∀ r, unaa (A r) (2 * t + 2) = A r (Fin.ofNat (n + 1) (2 * t + 1)) * Real.sin (A r (Fin.ofNat (n + 1) (2 * t + 2))) := fun r => by
      unfold unaa
      rw [if_neg (by omega), if_neg (by omega)]
      rfl
    simp only [h1, h2, Complex.re_ofReal_mul, Complex.im_ofReal_mul]
    congr 1
    · funext r
      rw [Complex.add_re, Complex.ofReal_re, Complex.mul_re, Complex.I_re, Complex.I_im, Complex.ofReal_im]
      ring
    · congr 1
      funext r
      rw [Complex.add_im, Complex.ofReal_im, Complex.mul_im, Complex.I_re, Complex.I_im, Complex.ofReal_re]
      ring
  have ht : evenTail (of A).cols (colOf (of A) (-1)) = _ :=
    evenTail_of _ (fun r => unaa (A r) n) (n + 1) fun hN => by
      rw [colOf_last]
      congr 1
      funext r
      unfold unaa
      rw [if_neg (by omega), if_pos (by omega), if_neg (by omega)]
  rw [h0, except_bind_ok, ← bind_assoc, hp, except_bind_ok, ht, except_bind_ok]
  show stack m ((fun r => unaa (A r) 0) :: _) = _
  rw [zigzag fun p r => unaa (A r) p, stack_range]

theorem unaa_aa (a : Fin (n + 1) → ℝ) (p : Fin (n + 1)) :
    unaa (fun q : Fin (n + 1) => aa a q) p = a p := by
  have hv : ∀ k, k < n + 1 → ((Fin.ofNat (n + 1) k : Fin (n + 1)) : Nat) = k := fun k hk => Nat.mod_eq_of_lt hk
  have hp := p.2
  have hc : ∀ k, k ≠ 0 → 2 * k < n + 1 → cplx a k =
      ⟨a (Fin.ofNat (n + 1) (2 * k - 1)), a (Fin.ofNat (n + 1) (2 * k))⟩ := by
    intro k h0 hk
    unfold cplx
    rw [if_neg h0, if_pos hk]
  unfold unaa
  by_cases h0 : (p : Nat) = 0
  · rw [if_pos h0]
    exact congrArg a (Fin.ext h0.symm)
  · rw [if_neg h0]
    by_cases hodd : (p : Nat) % 2 = 1
    · rw [if_pos hodd]
      by_cases hn : (p : Nat) < n
      · rw [if_pos hn]
        simp only []
        rw [hv _ hp, hv _ (by omega)]
        have e1 : aa a p = ‖cplx a ((p + 1) / 2)‖ := by
          unfold aa
          rw [if_neg h0, if_pos hodd, if_pos hn]
        have e2 : aa a (p + 1) = (cplx a ((p + 1) / 2)).arg := by
          unfold aa
          rw [if_neg (by omega), if_neg (by omega)]
        rw [e1, e2, Complex.norm_mul_cos_arg, hc _ (by omega) (by omega)]
        refine congrArg a (Fin.ext ?_)
        rw [hv _ (by omega)]
        omega
      · rw [if_neg hn]
        simp only []
        rw [hv _ hp]
        unfold aa
        rw [if_neg h0, if_pos hodd, if_neg hn]
        exact congrArg a (Fin.ext (hv _ hp))
    · rw [if_neg hodd]
      simp only []
      rw [hv _ hp, hv _ (by omega)]
      have e1 : aa a (p - 1) = ‖cplx a (p / 2)‖ := by
        unfold aa
        rw [if_neg (by omega), if_pos (by omega), if_pos (by omega)]
        congr 2
        omega
      have e2 : aa a p = (cplx a (p / 2)).arg := by
        unfold aa
        rw [if_neg h0, if_neg hodd]
      rw [e1, e2, Complex.norm_mul_sin_arg, hc _ (by omega) (by omega)]
      refine congrArg a (Fin.ext ?_)
      rw [hv _ (by omega)]
      omega

/-! ## The properties -/

/-- **C36** For the two pair modes, with or without orthonormalisation, any number of rows and any positive
number of columns (odd or even), transforming and transforming back returns the data. -/
theorem C36_round_trip (ortho : Bool) (mode : OutputMode)
    (hm : mode = .realImagPairs ∨ mode = .amplAnglePairs) (A : Matrix (Fin m) (Fin (n + 1)) ℝ) :
    ∃ B : Matrix (Fin m) (Fin (n + 1)) ℝ, fftTransform ortho mode (of A) = .ok (of B) ∧
      fftInverse ortho mode (of B) = .ok (of (Matrix.of fun i j => (A i j : ℂ))) := by
  rcases hm with rfl | rfl
  · refine ⟨Matrix.of fun i (p : Fin (n + 1)) => fmt (dft ortho (A (srcRow i))) p, ?_, ?_⟩
    · unfold fftTransform
      rw [← bind_assoc, formatted_of]
      rfl
    · unfold fftInverse
      exact unformatted_of ortho A
  · refine ⟨Matrix.of fun i (p : Fin (n + 1)) =>
      aa (fun q : Fin (n + 1) => fmt (dft ortho (A (srcRow i))) q) p, ?_, ?_⟩
    · unfold fftTransform
      rw [← bind_assoc, formatted_of]
      exact formatAmplAngle_of _
    · unfold fftInverse inverseFormatOutput
      simp only []
      rw [unformatAmplAngle_of, except_bind_ok, ← unformatted_of ortho A]
      congr 2
      refine mk_congr fun i p => ?_
      exact unaa_aa (fun q : Fin (n + 1) => fmt (dft ortho (A (srcRow i))) q) p

/-- **C36** Every other mode cannot be inverted: `ValueError`, for all data. -/
theorem C36_not_invertible (ortho : Bool) (mode : OutputMode)
    (hm : ¬ (mode = .realImagPairs ∨ mode = .amplAnglePairs)) (B : Mat ℝ) :
    fftInverse ortho mode B = .error .valueError := by
  cases mode <;> first | rfl | (exfalso; exact hm (by simp))

/-- **C36** Data without columns is rejected. -/
theorem C36_empty (ortho : Bool) (mode : OutputMode) (A : Matrix (Fin m) (Fin 0) ℝ) :
    fftTransform ortho mode (of A) = .error .valueError := rfl

/-- **C36** Modes can be given by their integer values; other integers are rejected. -/
theorem C36_mode_by_int (v : Int) :
    (∀ mode : OutputMode, OutputMode.ofInt v = .ok mode ↔ mode.toInt = v) ∧
      (OutputMode.ofInt v = .error .valueError ↔ ∀ mode : OutputMode, mode.toInt ≠ v) := by
  have key : ∀ mode : OutputMode, OutputMode.ofInt mode.toInt = .ok mode := by intro mode; cases mode <;> rfl
  have herr : (∀ mode : OutputMode, mode.toInt ≠ v) → OutputMode.ofInt v = .error .valueError := by
    intro h
    have h1 := h .realOnly
    have h2 := h .imagOnly
    have h3 := h .realImagPairs
    have h4 := h .amplitudeOnly
    have h5 := h .phaseOnly
    have h6 := h .amplAnglePairs
    simp only [OutputMode.toInt] at h1 h2 h3 h4 h5 h6
    unfold OutputMode.ofInt
    rw [if_neg h1.symm, if_neg h2.symm, if_neg h3.symm, if_neg h4.symm, if_neg h5.symm, if_neg h6.symm]
  constructor
  · intro mode
    constructor
    · intro h
      by_contra hne
      by_cases hex : ∃ mode' : OutputMode, mode'.toInt = v
      · obtain ⟨mode', h'⟩ := hex
        rw [← h', key mode'] at h
        injection h with h
        exact hne (h ▸ h')
      · push Not at hex
        rw [herr hex] at h
        cases h
    · rintro rfl
      exact key mode
  · constructor
    · rintro h mode rfl
      rw [key mode] at h
      cases h
    · exact herr

theorem cplx_fmt (ortho : Bool) (x : Fin (n + 1) → ℝ) (k : Nat) (hk : k ≤ (n + 1) / 2) :
    cplx (fun q : Fin (n + 1) => fmt (dft ortho x) q) k = dft ortho x k := by
  have hv : ∀ k, k < n + 1 → ((Fin.ofNat (n + 1) k : Fin (n + 1)) : Nat) = k := fun k hk => Nat.mod_eq_of_lt hk
  unfold cplx
  by_cases h0 : k = 0
  · subst h0
    rw [if_pos rfl]
    exact Complex.ext rfl (dft_zero_im ortho x).symm
  · rw [if_neg h0]
    by_cases h2 : 2 * k < n + 1
    · rw [if_pos h2]
      simp only []
      rw [hv _ (by omega), hv _ h2]
      apply Complex.ext
      · show fmt _ _ = _
        unfold fmt
        rw [if_neg (by omega), if_pos (by omega)]
        congr 2
        omega
      · show fmt _ _ = _
        unfold fmt
        rw [if_neg (by omega), if_neg (by omega)]
        congr 2
        omega
    · rw [if_neg h2]
      simp only []
      rw [hv _ (by omega)]
      apply Complex.ext
      · show fmt _ _ = _
        unfold fmt
        rw [if_neg (by omega), if_pos (by omega)]
        congr 2
        omega
      · exact (dft_nyquist_im ortho x k (by omega)).symm

/-- What one row of output is, as a function of one row of input. -/
noncomputable def modeRow (ortho : Bool) (x : Fin (n + 1) → ℝ) (mode : OutputMode) (k : Nat) : ℝ :=
  match mode with
  | .realOnly => (dft ortho x k).re
  | .imagOnly => (dft ortho x k).im
  | .amplitudeOnly => ‖dft ortho x k‖
  | .phaseOnly => (dft ortho x k).arg
  | .realImagPairs => if k = 0 then (dft ortho x 0).re
      else if k % 2 = 1 then (dft ortho x ((k + 1) / 2)).re else (dft ortho x (k / 2)).im
  | .amplAnglePairs => if k = 0 then (dft ortho x 0).re
      else if k % 2 = 1 then (if k < n then ‖dft ortho x ((k + 1) / 2)‖ else (dft ortho x ((k + 1) / 2)).re)
      else (dft ortho x (k / 2)).arg

/-- Number of output columns. -/
def modeCols (n : Nat) : OutputMode → Nat
  | .realImagPairs | .amplAnglePairs => n + 1
  | _ => (n + 1) / 2 + 1

/-- **C72** What the six output modes return, for all data: frequencies `0 … ⌊n/2⌋` of the discrete Fourier
transformation of the (source) row, as real part, imaginary part, amplitude, phase, or pairs of those; in
the pair modes the number of columns is that of the input. -/
theorem C72_modes (ortho : Bool) (mode : OutputMode) (A : Matrix (Fin m) (Fin (n + 1)) ℝ) :
    fftTransform ortho mode (of A) = .ok (of (Matrix.of fun i (k : Fin (modeCols n mode)) =>
      modeRow ortho (A (srcRow i)) mode k)) := by
  unfold fftTransform
  rw [← bind_assoc, formatted_of, except_bind_ok]
  cases mode with
  | realOnly =>
    refine (formatReal_of _).trans ?_
    rw [ok_inj]
    refine mk_congr fun i k => ?_
    have hk : (k : Nat) < (n + 1) / 2 + 1 := k.2
    show fmt (dft ortho (A (srcRow i))) ((2 * (k : Nat) - 1) % (n + 1)) = (dft ortho (A (srcRow i)) k).re
    rw [Nat.mod_eq_of_lt (by omega)]
    unfold fmt
    by_cases h0 : (k : Nat) = 0
    · rw [if_pos (by omega), h0]
    · rw [if_neg (by omega), if_pos (by omega)]
      congr 2
      omega
  | imagOnly =>
    refine (formatImag_of _).trans ?_
    rw [ok_inj]
    refine mk_congr fun i k => ?_
    have hk : (k : Nat) < (n + 1) / 2 + 1 := k.2
    exact congrArg Complex.im (cplx_fmt ortho (A (srcRow i)) k (by omega))
  | realImagPairs => rfl
  | amplitudeOnly =>
    show (complexColumns _ >>= _) = _
    rw [complexColumns_of]
    show Except.ok _ = _
    rw [ok_inj]
    refine mk_congr fun i k => ?_
    have hk : (k : Nat) < (n + 1) / 2 + 1 := k.2
    exact congrArg (fun z : ℂ => ‖z‖) (cplx_fmt ortho (A (srcRow i)) k (by omega))
  | phaseOnly =>
    show (complexColumns _ >>= _) = _
    rw [complexColumns_of]
    show Except.ok _ = _
    rw [ok_inj]
    refine mk_congr fun i k => ?_
    have hk : (k : Nat) < (n + 1) / 2 + 1 := k.2
    exact congrArg Complex.arg (cplx_fmt ortho (A (srcRow i)) k (by omega))
  | amplAnglePairs =>
    refine (formatAmplAngle_of _).trans ?_
    rw [ok_inj]
    refine mk_congr fun i k => ?_
    have hk : (k : Nat) < n + 1 := k.2
    show aa (fun q : Fin (n + 1) => fmt (dft ortho (A (srcRow i))) q) k =
      modeRow ortho (A (srcRow i)) .amplAnglePairs k
    unfold aa modeRow
    simp only []
    by_cases h0 : (k : Nat) = 0
    · rw [if_pos h0, if_pos h0]; rfl
    · rw [if_neg h0, if_neg h0]
      by_cases h1 : (k : Nat) % 2 = 1
      · rw [if_pos h1, if_pos h1]
        by_cases h2 : (k : Nat) < n
        · rw [if_pos h2, if_pos h2, cplx_fmt ortho _ _ (by omega)]
        · rw [if_neg h2, if_neg h2]
          show fmt _ ((k : Nat) % (n + 1)) = _
          rw [Nat.mod_eq_of_lt hk]
          unfold fmt
          rw [if_neg h0, if_pos h1]
      · rw [if_neg h1, if_neg h1, cplx_fmt ortho _ _ (by omega)]

/-- **C37 (partial)** For a matrix with a single row the output row is determined by the input row.  For more
rows, row `i` is determined by one input row, but not by row `i`: by row `(i - m//2) mod m`.
Missing: alignment for two or more rows, which is false, see the violation. -/
theorem C37_single_row_partial (ortho : Bool) (mode : OutputMode) (n : Nat) :
    ∃ (c : Nat) (g : (Fin (n + 1) → ℝ) → Fin c → ℝ), (∀ A : Matrix (Fin 1) (Fin (n + 1)) ℝ,
        fftTransform ortho mode (of A) = .ok (of (Matrix.of fun i => g (A i)))) ∧
      ∀ (m : Nat) (A : Matrix (Fin m) (Fin (n + 1)) ℝ),
        fftTransform ortho mode (of A) = .ok (of (Matrix.of fun i => g (A (srcRow i)))) :=
  ⟨modeCols n mode, fun x k => modeRow ortho x mode k,
    fun A => by
      refine (C72_modes ortho mode A).trans ?_
      rw [ok_inj]
      refine mk_congr fun i k => ?_
      rw [Matrix.of_apply, Matrix.of_apply, show srcRow i = i from Subsingleton.elim _ _],
    fun m A => C72_modes ortho mode A⟩

/-- **C37 (violation)** With two or more rows (any number of columns) row 0 of the output is not determined by
row 0 of the input: two inputs that agree in row 0 give different output rows 0. -/
theorem C37_misaligned_violation (m n : Nat) (hm : 2 ≤ m) :
    ∃ A A' : Matrix (Fin m) (Fin (n + 1)) ℝ, A ⟨0, by omega⟩ = A' ⟨0, by omega⟩ ∧
      ∃ C C' : Matrix (Fin m) (Fin (modeCols n .realOnly)) ℝ,
        fftTransform false .realOnly (of A) = .ok (of C) ∧
        fftTransform false .realOnly (of A') = .ok (of C') ∧ C ⟨0, by omega⟩ ≠ C' ⟨0, by omega⟩ := by
  have hsrc : srcRow (⟨0, by omega⟩ : Fin m) ≠ ⟨0, by omega⟩ := by
    intro h
    have h1 := congrArg Fin.val h
    have h2 : (0 + (m - m / 2)) % m = 0 := h1
    rw [Nat.zero_add, Nat.mod_eq_of_lt (by omega)] at h2
    omega
  refine ⟨0, Matrix.of fun i j => if i = srcRow ⟨0, by omega⟩ ∧ j = 0 then 1 else 0, ?_, _, _,
    C72_modes false .realOnly _, C72_modes false .realOnly _, ?_⟩
  · funext j
    show (0 : ℝ) = if (_ ∧ _) then _ else _
    rw [if_neg fun h => hsrc h.1.symm]
  · intro h
    have h0 := congrFun h ⟨0, by show 0 < (n + 1) / 2 + 1; omega⟩
    have e : ∀ x : Fin (n + 1) → ℝ, (dft false x 0).re = ∑ j, x j := by
      intro x
      simp [dft]
    have h1 : (dft false ((0 : Matrix (Fin m) (Fin (n + 1)) ℝ) (srcRow ⟨0, by omega⟩)) 0).re =
      (dft false ((Matrix.of fun i j => if i = srcRow ⟨0, by omega⟩ ∧ j = 0 then (1 : ℝ) else 0 : Matrix (Fin m) (Fin (n + 1)) ℝ)
        (srcRow ⟨0, by omega⟩)) 0).re := h0
    rw [e, e] at h1
    simp at h1

/-- Concrete non-trivial case: three rows, two columns. -/
example : ∃ B : Matrix (Fin 3) (Fin 2) ℝ,
    fftTransform false .amplAnglePairs (of (Matrix.of fun (i : Fin 3) (j : Fin 2) => (i : ℝ) - j)) = .ok (of B) ∧
      fftInverse false .amplAnglePairs (of B) =
        .ok (of (Matrix.of fun (i : Fin 3) (j : Fin 2) => (((i : ℝ) - j : ℝ) : ℂ))) :=
  C36_round_trip false .amplAnglePairs (Or.inr rfl) (Matrix.of fun (i : Fin 3) (j : Fin 2) => (i : ℝ) - j)

end Verif.Props
