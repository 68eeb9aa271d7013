import Verif.Core.Mat
import Mathlib.Analysis.SpecialFunctions.Pow.Real
import Mathlib.Analysis.SpecialFunctions.Log.Basic

/-!
# The reals as scalar type

The algebraic theorems are stated over `ℝ`: the modelled functions use exact real arithmetic, so
rounding is not part of these claims.
-/

namespace Verif

noncomputable instance : HasSqrt ℝ := ⟨Real.sqrt⟩
noncomputable instance : HasExp ℝ := ⟨Real.exp⟩
noncomputable instance : HasLog ℝ := ⟨Real.log⟩
noncomputable instance : HasTanh ℝ := ⟨Real.tanh⟩

@[simp] theorem hasSqrt_real (x : ℝ) : HasSqrt.sqrt x = Real.sqrt x := rfl
@[simp] theorem hasExp_real (x : ℝ) : HasExp.exp x = Real.exp x := rfl
@[simp] theorem hasLog_real (x : ℝ) : HasLog.log x = Real.log x := rfl
@[simp] theorem hasTanh_real (x : ℝ) : HasTanh.tanh x = Real.tanh x := rfl

end Verif
