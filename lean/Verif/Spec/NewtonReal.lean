import Verif.Spec.Newton
import Mathlib.Analysis.Calculus.Deriv.Basic
import Mathlib.Analysis.Real.Sqrt

/-! Specification for C115 over the real numbers: a cost with a Lipschitz continuous Hessian. -/

namespace ProxNLP.Spec

variable {n m : ℕ}

/-- Euclidean norm -/
noncomputable def euclid (v : Fin n → ℝ) : ℝ := Real.sqrt (∑ j, v j ^ 2)

/-- On the ball of radius `r` around `x0`: `grad` and `hess` are the derivatives of the cost (along all lines), the Hessian is symmetric
with eigenvalues at least `h`, and it is Lipschitz continuous with constant `L` in the operator norm. -/
structure LipschitzHessian (P : SmoothProgram ℝ n m) (x0 : Fin n → ℝ) (r h L : ℝ) : Prop where
  pos : 0 < h
  lip : 0 ≤ L
  gradient : ∀ y, InBall x0 r y → ∀ d, HasDerivAt (fun t : ℝ => P.f (y + t • d)) (∑ j, P.grad y j * d j) 0
  hessian : ∀ y, InBall x0 r y → ∀ d j, HasDerivAt (fun t : ℝ => P.grad (y + t • d) j) (∑ k, P.hess y j k * d k) 0
  symm : ∀ y, InBall x0 r y → (P.hess y).IsSymm
  bound : ∀ y, InBall x0 r y → ∀ v : Fin n → ℝ, h * euclid v ^ 2 ≤ ∑ j, v j * ∑ k, P.hess y j k * v k
  lipschitz : ∀ y z, InBall x0 r y → InBall x0 r z → ∀ u v : Fin n → ℝ,
    |∑ j, u j * ∑ k, (P.hess z j k - P.hess y j k) * v k| ≤ L * euclid (z - y) * euclid u * euclid v

end ProxNLP.Spec
