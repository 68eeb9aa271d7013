import Verif.Core.MatLemmas
import Mathlib.Data.Fintype.Basic

/-! # Decidable equality of matrices and results, for concrete examples and witnesses -/

namespace Verif

variable {α : Type}

/-- Equality of two families of entries. -/
def decEntries [DecidableEq α] {m n : Nat} (f g : Fin m → Fin n → α) :
    Decidable (∀ i j, f i j = g i j) := inferInstance

instance Mat.instDecidableEq [DecidableEq α] : DecidableEq (Mat α) := fun M N =>
  if hr : M.rows = N.rows then
    if hc : M.cols = N.cols then
      match decEntries M.data (fun i j => N.data (i.cast hr) (j.cast hc)) with
      | isTrue h => isTrue (Mat.ext' hr hc h)
      | isFalse h => isFalse fun e => h (by subst e; exact fun _ _ => rfl)
    else isFalse fun e => hc (e ▸ rfl)
  else isFalse fun e => hr (e ▸ rfl)

instance instDecidableEqExcept' {ε β : Type} [DecidableEq ε] [DecidableEq β] :
    DecidableEq (Except ε β)
  | .ok a, .ok b => if h : a = b then isTrue (h ▸ rfl) else isFalse fun e => h (Except.ok.inj e)
  | .error a, .error b => if h : a = b then isTrue (h ▸ rfl) else isFalse fun e => h (Except.error.inj e)
  | .ok _, .error _ => isFalse fun e => by cases e
  | .error _, .ok _ => isFalse fun e => by cases e

end Verif
