import Verif.Spec.FloatSolver
import Verif.Spec.Rounding
import Verif.Model.FloatSets

/-! Specification for the set operators in double precision. -/

namespace ProxNLP.Spec

/-- a double-precision number (no overflow) -/
def IsDouble (x : ℚ) : Prop := IsFloat 53 (-1074) x

/-- the bounds of a box are double-precision numbers in order -/
def DoubleBounds : LeafSet ℚ → ℕ → Prop
  | .box lo hi, i => IsDouble (lo i) ∧ IsDouble (hi i) ∧ lo i ≤ hi i
  | _, _ => True

variable {K : Type} [Field K] [LinearOrder K]

/-- a hard constraint, as opposed to the L1 penalty -/
def Hard : LeafSet K → Prop
  | .l1 => False
  | _ => True

/-- `v` is in the normal cone at `p` of the values the row may take -/
def InNormalCone (row : LeafSet K × ℕ) (p v : K) : Prop := ∀ y, rowAllows row y → v * (y - p) ≤ 0

/-- exact multiplier estimate: the normal part of the shifted value, divided by the penalty parameter -/
def exactEstimate (leaf : LeafSet K × ℕ) (mu c lamPrev : K) : K :=
  (c + mu * lamPrev - leaf.1.projAt mu leaf.2 (c + mu * lamPrev)) / mu

/-- rounding error of the multiplier estimate: the rounding errors of the row divided by the penalty parameter, and the relative error of
the product -/
def estimateSlack (R : Rounding K) (mu c lamPrev lam : K) : K :=
  (1 + R.u) ^ 3 * ((1 + R.eta * mu) * (2 * rowSlack R mu c lamPrev + R.eta) / mu) +
    ((1 + R.u) ^ 3 - 1) * |lam| + (1 + R.u) ^ 2 * R.eta * mu * |lam| + R.eta

end ProxNLP.Spec
