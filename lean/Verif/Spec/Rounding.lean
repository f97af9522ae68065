import Mathlib.Data.Rat.Defs
import Mathlib.Algebra.Order.Field.Rat

/-! Specification of floating-point numbers. -/

namespace ProxNLP.Spec

/-- a number with a significand of `p` bits and an exponent of at least `emin` (no largest exponent: overflow is not considered) -/
def IsFloat (p : ℕ) (emin : ℤ) (y : ℚ) : Prop := ∃ (k e : ℤ), emin ≤ e ∧ |k| < 2 ^ p ∧ y = k * 2 ^ e

end ProxNLP.Spec
