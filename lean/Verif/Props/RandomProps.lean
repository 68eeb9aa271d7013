import Verif.Core.Random
import Mathlib.Data.Rat.Defs
import Mathlib.Tactic.NormNum
import Mathlib.Algebra.Order.Field.Rat

/-!
# C68 random matrices
-/

namespace Verif.Props
open Verif Random

variable {S α : Type}

/-- The `k`-th number produced after seeding (specification: iterate the draw). -/
def nth (g : Gen S α) (s : S) : Nat → α
  | 0 => (g.draw s).1
  | k + 1 => nth g (g.draw s).2 k

theorem draws_get (g : Gen S α) (n : Nat) (s : S) (k : Nat) (h : k < (draws g n s).1.length) :
    (draws g n s).1[k] = nth g s k := by
  induction n generalizing s k with
  | zero => simp [draws] at h
  | succ n ih =>
    cases k with
    | zero => rfl
    | succ k => exact ih (g.draw s).2 k (by simpa [draws] using h)

theorem setSeed_ok (g : Gen S α) (seed : Nat) (hs : seed < 4294967296) (s : S) :
    setSeed g seed s = (.ok (), g.seed seed) := by
  unfold setSeed
  exact if_pos ⟨by omega, by omega⟩

theorem setSeed_error (g : Gen S α) (seed : Int) (hs : seed < 0 ∨ 4294967296 ≤ seed) (s : S) :
    setSeed g seed s = (.error .valueError, s) := by
  unfold setSeed
  exact if_neg (by omega)

theorem rand_of_ok {g : Gen S α} {rows columns seed : Int} {s s₁ : S}
    (h : setSeed g seed s = (.ok (), s₁)) : rand g rows columns seed s = npRand g rows columns s₁ := by
  unfold rand; rw [h]

theorem rand_of_error {g : Gen S α} {rows columns seed : Int} {s s₁ : S} {e : PyErr}
    (h : setSeed g seed s = (.error e, s₁)) : rand g rows columns seed s = (.error e, s₁) := by
  unfold rand; rw [h]

theorem npRand_eq (g : Gen S α) (rows columns : Nat) (s : S) :
    npRand g rows columns s = (.ok ⟨rows, columns, Matrix.of fun i j => nth g s (i.1 * columns + j.1)⟩,
      (draws g (rows * columns) s).2) := by
  unfold npRand
  rw [if_pos (by omega)]
  simp only [draws_get]
  rfl

/-- **C68** `rand` with a valid seed fills the matrix row by row with the draws that follow the seed:
the result does not depend on what the global generator was used for before, so equal seeds give
equal matrices. -/
theorem C68_rand_reproducible (g : Gen S α) (rows columns seed : Nat) (hs : seed < 4294967296) (s : S) :
    ∃ s', rand g rows columns seed s =
      (.ok ⟨rows, columns, Matrix.of fun i j => nth g (g.seed seed) (i.1 * columns + j.1)⟩, s') := by
  refine ⟨(draws g (rows * columns) (g.seed seed)).2, ?_⟩
  exact (rand_of_ok (setSeed_ok g seed hs s)).trans (npRand_eq g rows columns _)

/-- **C68** An invalid seed or a negative dimension raises `ValueError`. -/
theorem C68_rand_errors (g : Gen S α) (rows columns seed : Int) (s : S)
    (h : seed < 0 ∨ 4294967296 ≤ seed ∨ rows < 0 ∨ columns < 0) :
    (rand g rows columns seed s).1 = .error .valueError := by
  by_cases h1 : seed < 0 ∨ 4294967296 ≤ seed
  · rw [rand_of_error (setSeed_error g seed h1 s)]
  · obtain ⟨n, rfl⟩ : ∃ n : Nat, seed = n := ⟨seed.toNat, by omega⟩
    rw [rand_of_ok (setSeed_ok g n (by omega) s)]
    unfold npRand
    rw [if_neg (by omega)]

/-- **C68 (violation)** `randn` ignores its mean and standard deviation and returns the very matrix
`rand` returns, for all arguments. -/
theorem C68_randn_violation [Mul α] [Add α] (g : Gen S α) (rows columns seed : Int) (mean std : α)
    (s : S) : randn g rows columns seed mean std s = rand g rows columns seed s := by
  unfold randn rand
  cases hs : setSeed g seed s with
  | mk a s₁ =>
    cases a with
    | error e => rfl
    | ok u =>
      simp only []
      cases hn : npRand g rows columns s₁ with
      | mk a s₂ => cases a <;> rfl

/-- **C68** `rand_like` and `randn_like` copy the shape of the given matrix and nothing else: the entries are those of
`rand` for the seed, whatever the entries of the matrix and the state of the generator. -/
theorem C68_like_partial [Mul α] [Add α] (g : Gen S α) (M : Mat α) (seed : Nat) (hs : seed < 4294967296) (mean std : α) (s t : S) :
    ∃ R : Mat α, (randLike g M seed s).1 = .ok R ∧ (randnLike g M seed mean std s).1 = .ok R ∧
      R.rows = M.rows ∧ R.cols = M.cols ∧
      ∀ N : Mat α, N.rows = M.rows → N.cols = M.cols → (randLike g N seed t).1 = .ok R := by
  obtain ⟨s', h⟩ := C68_rand_reproducible g M.rows M.cols seed hs s
  obtain ⟨t', h'⟩ := C68_rand_reproducible g M.rows M.cols seed hs t
  refine ⟨_, congrArg Prod.fst h, ?_, rfl, rfl, fun N hr hc => ?_⟩
  · have : randn g M.rows M.cols seed mean std s = rand g M.rows M.cols seed s := C68_randn_violation g _ _ _ mean std s
    exact congrArg Prod.fst (this.trans h)
  · unfold randLike
    rw [hr, hc]
    exact congrArg Prod.fst h'

/-- **C68 (violation)** Hence, as `numpy.random.rand` draws from `[0, 1)`, every entry of
`randn(…, mean, std)` lies in `[0, 1)`, whatever mean and standard deviation are asked for. -/
theorem C68_randn_range_violation (g : Gen S ℚ) (hg : ∀ s, 0 ≤ (g.draw s).1 ∧ (g.draw s).1 < 1)
    (rows columns seed : Nat) (hs : seed < 4294967296) (mean std : ℚ) (s : S) :
    ∃ M s', randn g rows columns seed mean std s = (.ok M, s') ∧
      ∀ i j, 0 ≤ M.data i j ∧ M.data i j < 1 := by
  obtain ⟨s', h⟩ := C68_rand_reproducible g rows columns seed hs s
  refine ⟨_, s', (C68_randn_violation g _ _ _ mean std s).trans h, fun i j => ?_⟩
  have : ∀ k s, 0 ≤ nth g s k ∧ nth g s k < 1 := by
    intro k
    induction k with
    | zero => exact hg
    | succ k ih => intro s; exact ih _
  exact this _ _

/-- **C68 (partial)** What does hold of `randn`: shape and reproducibility. Missing: the
distribution. -/
theorem C68_randn_partial [Mul α] [Add α] (g : Gen S α) (rows columns seed : Nat)
    (hs : seed < 4294967296) (mean std : α) (s t : S) :
    ∃ M s', randn g rows columns seed mean std s = (.ok M, s') ∧
      (randn g rows columns seed mean std t).1 = .ok M ∧ M.rows = rows ∧ M.cols = columns := by
  obtain ⟨s', h⟩ := C68_rand_reproducible g rows columns seed hs s
  obtain ⟨t', h'⟩ := C68_rand_reproducible g rows columns seed hs t
  refine ⟨_, s', (C68_randn_violation g _ _ _ mean std s).trans h, ?_, rfl, rfl⟩
  rw [C68_randn_violation, h']

/-- A generator meeting the hypothesis: alternating 0 and 1/2. -/
example : ∃ g : Gen Bool ℚ, (∀ s, 0 ≤ (g.draw s).1 ∧ (g.draw s).1 < 1) ∧
    (randn g 2 2 1 100 1 false).1.toOption.map (fun M => M.rows) = some 2 :=
  ⟨⟨fun n => n % 2 == 1, fun b => (if b then 1/2 else 0, !b)⟩,
    fun s => by cases s <;> simp <;> norm_num, rfl⟩

end Verif.Props
