import Mathlib.Analysis.Calculus.Deriv.Basic
import Verif.Model.FloatFd

/-! Specification for the accuracy of finite differences. -/

namespace ProxNLP.Spec

/-- a function of one variable with three derivatives on `[-h, h]`, the third bounded by `M` -/
structure ThriceOn (h M : ℝ) (g g1 g2 g3 : ℝ → ℝ) : Prop where
  d1 : ∀ t, |t| ≤ h → HasDerivAt g (g1 t) t
  d2 : ∀ t, |t| ≤ h → HasDerivAt g1 (g2 t) t
  d3 : ∀ t, |t| ≤ h → HasDerivAt g2 (g3 t) t
  bound : ∀ t, |t| ≤ h → |g3 t| ≤ M

/-- error of a point moved by the step in rounded arithmetic -/
noncomputable def moveError (R : Rounding ℝ) (xi eps : ℝ) : ℝ := R.u * (|xi| + eps) + R.eta

/-- error before the last two roundings: truncation, errors of the function values, misplaced points -/
noncomputable def fdError (R : Rounding ℝ) (eps M L delta xi : ℝ) : ℝ := M * eps ^ 2 / 6 + (delta + L * moveError R xi eps) / eps

end ProxNLP.Spec
