import Verif.Model.Solver

/-! Specification vocabulary for the solver properties: what a certified point is. -/

namespace ProxNLP.Spec

variable {X K H : Type} {n m : ℕ} [Field K] [LinearOrder K]

/-- `x`, `lam` satisfy the first-order conditions of the problem up to `tol` (strictly), with the primal
residual measured at penalty `mu`: every component of `c(x) - Π(c(x) + mu*lam)` and of
`∇f(x) + J(x)ᵀ lam` is smaller than `tol` in absolute value. -/
def Certified (P : Ctx X K H n m) (mu tol : K) (x : X) (lam : Fin m → K) : Prop :=
  ∃ f c, P.eval x = some (f, c) ∧
    (∀ i, |c i - P.sets.projection mu (fun j => c j + mu * lam j) i| < tol) ∧
    (∀ j, |P.grad x j + ∑ i, P.jac x i j * lam i| < tol)

end ProxNLP.Spec
