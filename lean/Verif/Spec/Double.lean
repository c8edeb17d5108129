import Mathlib.Data.Rat.Defs
import Mathlib.Algebra.Order.Field.Rat
/-!
# Finite double-precision numbers (C99)
-/
namespace Flo.Spec

/-- `q` is the value of a finite IEEE 754 binary64 number: an integer of at most 53 bits times a power of two, the exponent
between -1074 and 971. -/
def IsDouble (q : ℚ) : Prop :=
  ∃ (m : ℤ) (e : ℤ), |m| < 2 ^ 53 ∧ -1074 ≤ e ∧ e ≤ 971 ∧ q = m * 2 ^ e

end Flo.Spec
