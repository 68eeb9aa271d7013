import Verif.Core.Mat

/-!
# Random matrices (`factory.py` 140-193)

NumPy's global generator is a state `S` with a seeding function and a draw; which numbers it produces
is not modelled, only that `seed` overwrites the global state and that `rand` draws row by row.
-/

namespace Verif.Random
open Verif

/-- NumPy's global random generator: `numpy.random.seed` and one draw of `numpy.random.rand`. -/
structure Gen (S α : Type) where
  seed : Nat → S
  draw : S → α × S

variable {S α : Type}

/-- The first `n` draws and the state after them. -/
def draws (g : Gen S α) : Nat → S → List α × S
  | 0, s => ([], s)
  | n + 1, s =>
    let (x, s₁) := g.draw s
    let (xs, s₂) := draws g n s₁
    (x :: xs, s₂)

theorem draws_length (g : Gen S α) (n : Nat) (s : S) : (draws g n s).1.length = n := by
  induction n generalizing s with
  | zero => rfl
  | succ n ih => simp only [draws, List.length_cons, ih]

/-- `random.seed(seed)` : seeds outside `0 … 2^32-1` raise `ValueError` (NumPy). -/
def setSeed (g : Gen S α) (seed : Int) (s : S) : Except PyErr Unit × S :=
  if 0 ≤ seed ∧ seed < 4294967296 then (.ok (), g.seed seed.toNat) else (.error .valueError, s)

/-- `random.rand(rows, columns)`: negative dimensions raise `ValueError`. -/
def npRand (g : Gen S α) (rows columns : Int) (s : S) : Except PyErr (Mat α) × S :=
  if 0 ≤ rows ∧ 0 ≤ columns then
    let d := draws g (rows.toNat * columns.toNat) s
    (.ok ⟨rows.toNat, columns.toNat, Matrix.of fun i j =>
      d.1[i.1 * columns.toNat + j.1]'(by
        show _ < (draws g _ s).1.length
        rw [draws_length]
        calc i.1 * columns.toNat + j.1 < i.1 * columns.toNat + columns.toNat := by omega
          _ = (i.1 + 1) * columns.toNat := by rw [Nat.succ_mul]
          _ ≤ rows.toNat * columns.toNat := Nat.mul_le_mul_right _ i.2)⟩, d.2)
  else (.error .valueError, s)

/-- `rand`, `factory.py` 172-182. -/
def rand (g : Gen S α) (rows columns seed : Int) (s : S) : Except PyErr (Mat α) × S :=
  match setSeed g seed s with
  | (.error e, s) => (.error e, s)
  | (.ok _, s) => npRand g rows columns s

/-- `rand_like`, `factory.py` 185-193. -/
def randLike (g : Gen S α) (M : Mat α) (seed : Int) (s : S) : Except PyErr (Mat α) × S :=
  rand g M.rows M.cols seed s

/-- `randn`, `factory.py` 140-155.  The results of `np.multiply(data, std)` and `np.add(data, mean)`
are discarded, `data` itself is returned. -/
def randn [Mul α] [Add α] (g : Gen S α) (rows columns seed : Int) (mean std : α) (s : S) :
    Except PyErr (Mat α) × S :=
  match setSeed g seed s with
  | (.error e, s) => (.error e, s)
  | (.ok _, s) =>
    match npRand g rows columns s with
    | (.error e, s) => (.error e, s)
    | (.ok data, s) =>
      let _scaled := data.smul std
      let _shifted := data.addScalar mean
      (.ok data, s)

/-- `randn_like`, `factory.py` 158-169. -/
def randnLike [Mul α] [Add α] (g : Gen S α) (M : Mat α) (seed : Int) (mean std : α) (s : S) :
    Except PyErr (Mat α) × S :=
  randn g M.rows M.cols seed mean std s

end Verif.Random
