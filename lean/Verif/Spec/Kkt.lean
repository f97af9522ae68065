import Mathlib.LinearAlgebra.QuadraticForm.Signature
import Mathlib.LinearAlgebra.Matrix.Symmetric
import Mathlib.Algebra.BigOperators.Fin
import Mathlib.Algebra.Order.Field.Basic
import Verif.Model.Solver

/-! Specification side of the KKT properties: inertia, definiteness, the semismooth Newton system. -/

namespace ProxNLP.Spec

variable {K : Type*} [Field K] [LinearOrder K]

/-- The value `vᵀ A v`. -/
def quad {ι : Type*} [Fintype ι] (A : Matrix ι ι K) (v : ι → K) : K := ∑ i, v i * ∑ j, A i j * v j

/-- `A` is positive definite. -/
def PosDef {ι : Type*} [Fintype ι] (A : Matrix ι ι K) : Prop := ∀ v, v ≠ 0 → 0 < quad A v

/-- Inertia of a symmetric matrix: `p` is the largest dimension of a subspace on which the form `vᵀ A v` is
positive definite, `q` the same for negative definite, `z` the rest (Sylvester: over `ℝ` these are the numbers of
positive, negative and zero eigenvalues). -/
def HasInertia {ι : Type*} [Fintype ι] [DecidableEq ι] (A : Matrix ι ι K) (p q z : ℕ) : Prop :=
  IsGreatest {r | ∃ V : Submodule K (ι → K), Module.finrank K V = r ∧ ∀ v ∈ V, v ≠ 0 → 0 < quad A v} p ∧
  IsGreatest {r | ∃ V : Submodule K (ι → K), Module.finrank K V = r ∧ ∀ v ∈ V, v ≠ 0 → quad A v < 0} q ∧
  p + q + z = Fintype.card ι

/-- The (non-symmetric) semismooth Newton system for the unknown step `(dx, dlam)`, with Hessian block `H`, full
constraint Jacobian `J`, rows `A` where the normal-cone projection has derivative 1 (0 elsewhere), and residual
`(r, s)`, for the residual function
* classic: `(∇f + Jᵀλ, N(c + mu λ_prev) - mu λ)`
* primal-dual: `(∇f + Jᵀλ, N(c + mu λ_prev - mu/2 λ) - mu/2 λ)`. -/
def Newton {K : Type} [Field K] {n m : ℕ} (sys : KktSys) (mu : K) (H : Fin n → Fin n → K) (J : Fin m → Fin n → K)
    (A : Fin m → Prop) [DecidablePred A]
    (r : Fin n → K) (s : Fin m → K) (dx : Fin n → K) (dlam : Fin m → K) : Prop :=
  (∀ j, ∑ k, H j k * dx k + ∑ i, J i j * dlam i = -r j) ∧
  match sys with
  | .classic => ∀ i, (if A i then ∑ k, J i k * dx k else 0) - mu * dlam i = -s i
  | .primalDual => ∀ i, (if A i then ∑ k, J i k * dx k - mu / 2 * dlam i else 0) - mu / 2 * dlam i = -s i

end ProxNLP.Spec
