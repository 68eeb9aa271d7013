import Verif.Core.Base
import Mathlib.Data.List.Basic
import Mathlib.Tactic.Ring

/-!
# Python's `range(a, b, step)`
-/

namespace Verif

/-- `range(1, n, 2)`. -/
theorem pyRangeStep_odd (n : Nat) :
    pyRangeStep 1 n 2 = .ok ((List.range (n / 2)).map fun (t : Nat) => ((2 * t + 1 : Nat) : Int)) := by
  unfold pyRangeStep
  rw [if_neg (by decide)]
  have : pyRangeLen 1 n 2 = n / 2 := by unfold pyRangeLen; rw [if_pos (by decide)]; omega
  rw [this]
  congr 1
  exact List.map_congr_left fun t _ => by push_cast; ring

/-- `range(2, n, 2)`. -/
theorem pyRangeStep_even (n : Nat) :
    pyRangeStep 2 n 2 = .ok ((List.range ((n - 1) / 2)).map fun (t : Nat) => ((2 * t + 2 : Nat) : Int)) := by
  unfold pyRangeStep
  rw [if_neg (by decide)]
  have : pyRangeLen 2 n 2 = (n - 1) / 2 := by unfold pyRangeLen; rw [if_pos (by decide)]; omega
  rw [this]
  congr 1
  exact List.map_congr_left fun t _ => by push_cast; ring

end Verif
