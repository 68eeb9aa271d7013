import Verif.Core.Mat
import Mathlib.Algebra.Order.Field.Basic

/-!
# An extended scalar type with infinities and NaN

`X K` adds `+inf`, `-inf` and `nan` to an ordered field `K`.  It follows IEEE 754 for the special
values (as NumPy's float64 does, with warnings disabled) except that there is no rounding, no
overflow and no signed zero: a zero divisor counts as `+0`.
It is used wherever a claim is about NaN, infinities or division by zero.
-/

namespace Verif

/-- Extended scalars. -/
inductive X (K : Type) where
  | fin (x : K)
  | pinf
  | ninf
  | nan
  deriving DecidableEq, Repr

namespace X
variable {K : Type}

section ops
variable [Field K] [LinearOrder K]

instance : Zero (X K) := ⟨fin 0⟩
instance : One (X K) := ⟨fin 1⟩
instance : NatCast (X K) := ⟨fun n => fin n⟩
instance : IntCast (X K) := ⟨fun n => fin n⟩

/-- IEEE negation. -/
protected def neg : X K → X K
  | fin x => fin (-x)
  | pinf => ninf
  | ninf => pinf
  | nan => nan
instance : Neg (X K) := ⟨X.neg⟩

/-- IEEE addition. -/
protected def add : X K → X K → X K
  | fin x, fin y => fin (x + y)
  | nan, _ => nan
  | _, nan => nan
  | pinf, ninf => nan
  | ninf, pinf => nan
  | pinf, _ => pinf
  | _, pinf => pinf
  | ninf, _ => ninf
  | _, ninf => ninf
instance : Add (X K) := ⟨X.add⟩
instance : Sub (X K) := ⟨fun a b => a + -b⟩

/-- An infinity with the sign of `x`; `0 * inf` is NaN. -/
def signedInf (x : K) : X K := if 0 < x then pinf else if x < 0 then ninf else nan

/-- IEEE multiplication. -/
protected def mul : X K → X K → X K
  | fin x, fin y => fin (x * y)
  | nan, _ => nan
  | _, nan => nan
  | fin x, pinf => signedInf x
  | fin x, ninf => signedInf (-x)
  | pinf, fin y => signedInf y
  | ninf, fin y => signedInf (-y)
  | pinf, pinf => pinf
  | ninf, ninf => pinf
  | pinf, ninf => ninf
  | ninf, pinf => ninf
instance : Mul (X K) := ⟨X.mul⟩

/-- IEEE division (zero divisors count as `+0`). -/
protected def div : X K → X K → X K
  | nan, _ => nan
  | _, nan => nan
  | fin x, fin y => if y = 0 then signedInf x else fin (x / y)
  | fin _, pinf => fin 0
  | fin _, ninf => fin 0
  | pinf, fin y => if y < 0 then ninf else pinf
  | ninf, fin y => if y < 0 then pinf else ninf
  | _, _ => nan
instance : Div (X K) := ⟨X.div⟩

/-- IEEE `<` (false as soon as a NaN is involved). -/
def ltb : X K → X K → Bool
  | fin x, fin y => decide (x < y)
  | nan, _ => false
  | _, nan => false
  | ninf, ninf => false
  | ninf, _ => true
  | pinf, pinf => false
  | _, pinf => true
  | _, _ => false

instance : LT (X K) := ⟨fun a b => ltb a b = true⟩
instance : DecidableLT (X K) := fun a b => inferInstanceAs (Decidable (ltb a b = true))

/-- IEEE `==`: NaN is not equal to anything, itself included. -/
def eqb : X K → X K → Bool
  | fin x, fin y => decide (x = y)
  | pinf, pinf => true
  | ninf, ninf => true
  | _, _ => false

/-- IEEE absolute value. -/
def absX : X K → X K
  | fin x => fin |x|
  | pinf => pinf
  | ninf => pinf
  | nan => nan

/-- IEEE square root of an extended scalar. -/
protected def sqrt [HasSqrt K] : X K → X K
  | fin x => if x < 0 then nan else fin (HasSqrt.sqrt x)
  | pinf => pinf
  | ninf => nan
  | nan => nan
instance [HasSqrt K] : HasSqrt (X K) := ⟨X.sqrt⟩

end ops

/-- The value is an ordinary number. -/
def IsFinite : X K → Prop
  | fin _ => True
  | _ => False

end X
end Verif
