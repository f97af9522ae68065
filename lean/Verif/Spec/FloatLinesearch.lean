import Verif.Model.FloatLinesearch

/-! Specification for the line search in floating-point arithmetic. -/

namespace ProxNLP.Spec

variable {K : Type} [Field K] [LinearOrder K]

/-- Rounding never reverses an order and keeps 0 and 1 (true of IEEE rounding: `C101_ieee`). -/
structure MonoRounding (R : Rounding K) : Prop where
  mono : ∀ x y, x ≤ y → R.rnd x ≤ R.rnd y
  zero : R.rnd 0 = 0
  one : R.rnd 1 = 1

/-- What rounding can change in the comparison of the merit difference `d` with `c * s`, `c` being the product of the Armijo constant and
the step, `s` the slope. -/
def armijoSlack (R : Rounding K) (d c s : K) : K :=
  R.u * |d| + ((1 + R.u) ^ 2 - 1) * |c * s| + R.eta * (2 + (1 + R.u) * |s|)

end ProxNLP.Spec
