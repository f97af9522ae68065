import Mathlib.Analysis.Calculus.FDeriv.Basic
import Mathlib.Topology.Algebra.Module.FiniteDimension
import Mathlib.LinearAlgebra.Matrix.ToLin

/-! Specification: derivatives of maps between real coordinate spaces. -/

namespace ProxNLP.Spec

/-- `J` is the (Fréchet) derivative of `f` at `x`. -/
def HasJacobian {n p : ℕ} (f : (Fin n → ℝ) → Fin p → ℝ) (J : Matrix (Fin p) (Fin n) ℝ) (x : Fin n → ℝ) : Prop :=
  HasFDerivAt f (LinearMap.toContinuousLinearMap J.mulVecLin) x

/-- `g` is the gradient of `f` at `x`. -/
def HasGradient {n : ℕ} (f : (Fin n → ℝ) → ℝ) (g : Fin n → ℝ) (x : Fin n → ℝ) : Prop :=
  HasJacobian (fun y (_ : Fin 1) => f y) (Matrix.of fun _ j => g j) x

/-- On a manifold: `J` is the derivative of `f` at `x` along the retraction `integrate`. -/
def HasTangentJacobian {X : Type} {n p : ℕ} (integrate : X → (Fin n → ℝ) → X) (f : X → Fin p → ℝ)
    (J : Matrix (Fin p) (Fin n) ℝ) (x : X) : Prop :=
  HasJacobian (fun d => f (integrate x d)) J 0

end ProxNLP.Spec
