import Mathlib.Data.Rat.Defs
import Mathlib.Algebra.Order.Field.Basic
import Mathlib.Algebra.Order.Ring.Rat

/-!
# Specification: floating-point numbers (IEEE 754, binary64)
-/

namespace Verif.Floats

/-- The numbers which are floats: significand of 53 bits (`2^53` included, it is the same as `2^52` with the next exponent), exponent not less
than -1074. -/
def IsFloat (x : ℚ) : Prop := ∃ m e : ℤ, |m| ≤ 2 ^ 53 ∧ -1074 ≤ e ∧ x = m * 2 ^ e

/-- `y` is one of the floats which are the nearest to `x`. -/
def Nearest (x y : ℚ) : Prop := IsFloat y ∧ ∀ z, IsFloat z → |x - y| ≤ |x - z|

/-- The unit roundoff. -/
def u : ℚ := 1 / 2 ^ 53

end Verif.Floats
